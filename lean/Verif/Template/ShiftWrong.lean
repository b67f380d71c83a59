/-
Property C68: where moved spans compute other formulas, and examples.
-/
import Verif.Template.ShiftFinal
import Verif.Template.Shared

namespace Verif.Template

/-- `=A1*n` in the cell to its right; the constant has the given node. -/
def leftTimes (row col : Nat) (n : Int) (node : Nat) : Cand Int Unit where
  row := row
  col := col
  formula := .binary ['*'] (.ref (.cell none (row + 1) col false false)) (.lit (node, .num n))
  labels := []

theorem leftTimes_ok {row col : Nat} (hr : row < 2 ^ 32 - 1) (hc : 1 ≤ col ∧ col < 2 ^ 32) {n : Int} (hn : 0 ≤ n) (node : Nat) : (leftTimes row col n node).Ok toy where
  formula := ⟨⟨⟨by omega, by omega⟩, ⟨hc.1, by omega⟩⟩, trivial⟩
  consts := by
    intro v hv
    have hv : v ∈ [Const.num n] := hv
    simp only [List.mem_cons, List.not_mem_nil, or_false] at hv
    subst hv
    exact ⟨fun n h => (by cases h), hn⟩
  count := by show 1 ≤ 65536; decide

/-- No templates. -/
def noTemplates : Templates where
  records := []
  interned _ := none

theorem noTemplates_ok (asts : Nat → Fm (Nat × Const Int Unit)) : noTemplates.Ok asts := by
  intro k id h
  cases h

/-- A row is inserted above the span and the cells it reads. -/
def rowAbove : Move := ⟨1, 0, 0, 0⟩

/-- The formula `=A1*n` with the given reference. -/
def prod (row col : Nat) (n : Int) : Fm (Const Int Unit) := .binary ['*'] (.ref (.cell none row col false false)) (.lit (.num n))

/-- Whether a formula is `=A1*n`. -/
def isProd (f : Option (Fm (Const Int Unit))) (row col : Nat) (n : Int) : Bool :=
  match f with
  | some (.binary op (.ref r) (.lit c)) => decide (op = ['*'] ∧ r = .cell none row col false false ∧ c = .num n)
  | _ => false

theorem isProd_eq {f : Option (Fm (Const Int Unit))} {row col : Nat} {n : Int} (h : isProd f row col n = true) : f = some (prod row col n) := by
  unfold isProd at h
  split at h
  · obtain ⟨rfl, rfl, rfl⟩ := of_decide_eq_true h
    rfl
  · cases h

/-! ### Constants in arithmetic progression -/

/-- `=B5*10`, `=B6*11`, … in `C5:C104`. -/
def rising : List (Cand Int Unit) := (List.range 100).map fun i => leftTimes (i + 4) 2 (10 + i) i

/-- The stored formulas: that of `C5`. -/
def risingAsts (_ : Nat) : Fm (Nat × Const Int Unit) := (leftTimes 4 2 10 0).formula

theorem rising_run : ((commit toy noTemplates rising 0 []).bind fun x => (shift x.1 x.2 rowAbove).map fun y =>
    isProd (y.2.formulaAt toy risingAsts 5 2) 6 2 11) = some true := by decide +kernel

/-- The claim fails: after a row was inserted above, `C6`, which was `C5` with `=B5*10`, computes `=B6*11`. -/
theorem rising_wrong : ∃ t p t' p', commit toy noTemplates rising 0 [] = some (t, p) ∧ shift t p rowAbove = some (t', p') ∧
    moveRefs 1 0 (leftTimes 4 2 10 0).formula.plain = some (prod 6 2 10) ∧ p'.formulaAt toy risingAsts 5 2 = some (prod 6 2 11) := by
  obtain ⟨⟨t, p⟩, h1, h2⟩ := Option.bind_eq_some_iff.1 rising_run
  obtain ⟨⟨t', p'⟩, h3, h4⟩ := Option.map_eq_some_iff.1 h2
  exact ⟨t, p, t', p', h1, h3, rfl, isProd_eq h4⟩

/-! ### A template of two spans -/

/-- `=A1*15`, `=A2*15`, … in `B1:B100`. -/
def earlier : List (Cand Int Unit) := (List.range 100).map fun i => leftTimes i 1 15 0

/-- `=C1*25`, `=C2*25`, … in `D1:D100`. -/
def later : List (Cand Int Unit) := (List.range 100).map fun i => leftTimes i 3 25 1

/-- The stored formulas: that of `B1` has the number 0, that of `D1` the number 1. -/
def twoAsts (k : Nat) : Fm (Nat × Const Int Unit) := if k = 0 then (leftTimes 0 1 15 0).formula else (leftTimes 0 3 25 1).formula

theorem shared_run : ((commit toy noTemplates earlier 0 []).bind fun x => (commit toy x.1 later 1 []).bind fun y =>
    (shift y.1 y.2 rowAbove).map fun z => (isProd (y.2.formulaAt toy twoAsts 0 3) 1 3 25, isProd (z.2.formulaAt toy twoAsts 1 3) 2 3 15)) =
    some (true, true) := by decide +kernel

/-- The claim fails: the two spans share the template of the first; before the shift `D1` computes `=C1*25`, but after a row was inserted
above, `D2`, which was `D1`, computes `=C2*15`. -/
theorem shared_template_wrong : ∃ t1 p1 t2 p2 t' p', commit toy noTemplates earlier 0 [] = some (t1, p1) ∧
    commit toy t1 later 1 [] = some (t2, p2) ∧ shift t2 p2 rowAbove = some (t', p') ∧
    p2.formulaAt toy twoAsts 0 3 = some (leftTimes 0 3 25 1).formula.plain ∧
    moveRefs 1 0 (leftTimes 0 3 25 1).formula.plain = some (prod 2 3 25) ∧ p'.formulaAt toy twoAsts 1 3 = some (prod 2 3 15) := by
  obtain ⟨⟨t1, p1⟩, h1, h2⟩ := Option.bind_eq_some_iff.1 shared_run
  obtain ⟨⟨t2, p2⟩, h3, h4⟩ := Option.bind_eq_some_iff.1 h2
  obtain ⟨⟨t', p'⟩, h5, h6⟩ := Option.map_eq_some_iff.1 h4
  simp only [Prod.mk.injEq] at h6
  exact ⟨t1, p1, t2, p2, t', p', h1, h3, h5, isProd_eq h6.1, rfl, isProd_eq h6.2⟩

/-! ### One value -/

/-- `=$A$1*n` in the cell `(row, col)`; the constant has the given node. -/
def absTimes (row col : Nat) (n : Int) (node : Nat) : Cand Int Unit where
  row := row
  col := col
  formula := .binary ['*'] (.ref (.cell none 1 1 true true)) (.lit (node, .num n))
  labels := []

/-- `=$A$1*15` in `B5:B6`. -/
def earlierOne : List (Cand Int Unit) := [absTimes 4 1 15 0, absTimes 5 1 15 0]

/-- `=$A$1*25` in `D5:D6`. -/
def laterOne : List (Cand Int Unit) := [absTimes 4 3 25 1, absTimes 5 3 25 1]

/-- The stored formulas: that of `B5` has the number 0, that of `D5` the number 1. -/
def oneAsts (k : Nat) : Fm (Nat × Const Int Unit) := if k = 0 then (absTimes 4 1 15 0).formula else (absTimes 4 3 25 1).formula

/-- A row is inserted above the span, but below the cells it reads. -/
def rowBetween : Move := ⟨1, 0, 1, 0⟩

/-- The claim fails also for two cells with one value: after a row was inserted between the first and the fifth, `D6`, which was `D5`, computes
`=$A$1*15`. -/
theorem shared_one_wrong : ∃ t1 p1 t2 p2 t' p', commit toy noTemplates earlierOne 0 [] = some (t1, p1) ∧
    commit toy t1 laterOne 1 [] = some (t2, p2) ∧ p2.constant = true ∧ shift t2 p2 rowBetween = some (t', p') ∧
    p2.formulaAt toy oneAsts 4 3 = some (absTimes 4 3 25 1).formula.plain ∧
    moveRefs 0 0 (absTimes 4 3 25 1).formula.plain = some (absTimes 4 3 25 1).formula.plain ∧
    p'.formulaAt toy oneAsts 5 3 = some (absTimes 4 3 15 1).formula.plain :=
  ⟨_, _, _, _, _, _, rfl, rfl, rfl, rfl, rfl, rfl, rfl⟩

/-! ### Examples -/

theorem earlier_ok : ∀ c ∈ earlier, c.Ok toy := by
  intro c hc
  simp only [earlier, List.mem_map, List.mem_range] at hc
  obtain ⟨i, hi, rfl⟩ := hc
  exact leftTimes_ok (by omega) (by decide) (by decide) _

theorem later_ok : ∀ c ∈ later, c.Ok toy := by
  intro c hc
  simp only [later, List.mem_map, List.mem_range] at hc
  obtain ⟨i, hi, rfl⟩ := hc
  exact leftTimes_ok (by omega) (by decide) (by decide) _

theorem earlier_origin : (prepare toy earlier).map (fun s => s.originRow) = some 1 := by decide +kernel

theorem later_origin : (prepare toy later).map (fun s => s.originRow) = some 1 := by decide +kernel

theorem earlier_asts (s : Span Int Unit) (hs : prepare toy earlier = some s) : twoAsts 0 = s.template := by
  have h := earlier_origin
  rw [hs, Option.map_some, Option.some.injEq] at h
  obtain ⟨o, ho, -, -, -, ht, hr, -⟩ := prepare_some hs
  simp only [earlier, List.mem_map, List.mem_range] at ho
  obtain ⟨i, hi, rfl⟩ := ho
  have hr : s.originRow = i + 1 := hr
  have : i = 0 := by omega
  subst this
  rw [ht]
  rfl

theorem later_asts (s : Span Int Unit) (hs : prepare toy later = some s) : twoAsts 1 = s.template := by
  have h := later_origin
  rw [hs, Option.map_some, Option.some.injEq] at h
  obtain ⟨o, ho, -, -, -, ht, hr, -⟩ := prepare_some hs
  simp only [later, List.mem_map, List.mem_range] at ho
  obtain ⟨i, hi, rfl⟩ := ho
  have hr : s.originRow = i + 1 := hr
  have : i = 0 := by omega
  subst this
  rw [ht]
  rfl

theorem isByRow_still {e : Encoding Int Unit} {r : Nat} (h : e.isByRow r [0] = true) (m n : Int) : e.Still m n := by
  unfold Encoding.isByRow at h
  split at h
  · obtain ⟨-, rfl⟩ := of_decide_eq_true h
    intro s hs
    rw [List.mem_singleton.1 hs]
    simp
  · cases h

theorem earlier_run : ((commit toy noTemplates earlier 0 []).bind fun x => (shift x.1 x.2 rowAbove).bind fun y =>
    (shift y.1 y.2 rowAbove).map fun _ => (x.2.constant, x.2.encoding.isByRow 0 [0])) = some (false, true) := by decide +kernel

/-- `own_template_iff` on the first span: its constants are all the same, so that it computes what it should. -/
example : ∃ t p t' p', commit toy noTemplates earlier 0 [] = some (t, p) ∧ Shifts t p [rowAbove, rowAbove] t' p' ∧ p.constant = false ∧
    p'.formulaAt toy twoAsts 3 1 = some (prod 4 1 15) := by
  obtain ⟨⟨t, p⟩, h1, h2⟩ := Option.bind_eq_some_iff.1 earlier_run
  obtain ⟨⟨t1, p1⟩, h3, h4⟩ := Option.bind_eq_some_iff.1 h2
  obtain ⟨⟨t', p'⟩, h5, h6⟩ := Option.map_eq_some_iff.1 h4
  simp only [Prod.mk.injEq] at h6
  have hs : Shifts t p [rowAbove, rowAbove] t' p' := .step h3 (.step h5 (.refl _ _))
  exact ⟨t, p, t', p', h1, hs, h6.1, (own_template_iff toy_laws earlier_ok (noTemplates_ok twoAsts) earlier_asts (fun _ _ => rfl) (by decide) h1
    (by simp) hs (Or.inr rfl) (x := leftTimes 1 1 15 0) (List.mem_map.2 ⟨1, by decide, rfl⟩) rfl rfl rfl).2 (.inr (isByRow_still h6.2 _ _))⟩

theorem later_run : ((commit toy noTemplates earlier 0 []).bind fun x => (commit toy x.1 later 1 []).map fun y =>
    (later.all fun c => x.1.interned c.key == some 0, x.1.records[0]?.map Rec.ast, y.2.encoding.isByRow 0 [0])) = some (true, some 0, true) := by
  decide +kernel

theorem shiftAxis_one {n : Nat} (hn : n < 2 ^ 31) : shiftAxis 1 ((n : Int) + 1) false = some (n + 2) := by
  unfold shiftAxis
  rw [if_neg (by decide), if_neg (by omega)]
  congr 1
  omega

/-- `shared_template_iff` on the second span: after any number of rows inserted above, `D` computes other constants than it should. -/
example (n : Nat) (t' : Templates) (p' : Placed Int Unit) : ∃ t1 p1 t2 p2, commit toy noTemplates earlier 0 [] = some (t1, p1) ∧
    commit toy t1 later 1 [] = some (t2, p2) ∧ (Shifts t2 p2 (List.replicate (n + 1) rowAbove) t' p' → n < 2 ^ 31 →
      p'.formulaAt toy twoAsts (n + 1) 3 ≠ some (prod (n + 2) 3 25)) := by
  obtain ⟨⟨t1, p1⟩, h1, h⟩ := Option.bind_eq_some_iff.1 later_run
  obtain ⟨⟨t2, p2⟩, h2, h⟩ := Option.map_eq_some_iff.1 h
  simp only [Prod.mk.injEq, List.all_eq_true, beq_iff_eq] at h
  obtain ⟨h3, h4, h5⟩ := h
  obtain ⟨r, h4, hr⟩ := Option.map_eq_some_iff.1 h4
  refine ⟨t1, p1, t2, p2, h1, h2, fun hs hn => ?_⟩
  have e1 : (total (List.replicate (n + 1) rowAbove)).row = (n : Int) + 1 := by
    simp [total, rowAbove, List.map_replicate, List.sum_replicate_int]
  have e2 : (total (List.replicate (n + 1) rowAbove)).col = 0 := by
    simp [total, rowAbove, List.map_replicate, List.sum_replicate_int]
  have e3 : (total (List.replicate (n + 1) rowAbove)).originRow = 0 := by
    simp [total, rowAbove, List.map_replicate, List.sum_replicate_int]
  have e4 : (total (List.replicate (n + 1) rowAbove)).originCol = 0 := by
    simp [total, rowAbove, List.map_replicate, List.sum_replicate_int]
  have key := shared_template_iff toy_laws later_ok (asts := twoAsts) (commit_ok earlier_ok (noTemplates_ok twoAsts) earlier_asts h1) later_asts h3
    h4 (by rw [hr]; decide) h2 (by simp) hs (isByRow_still h5 _ _) (x := leftTimes 0 3 25 1) (List.mem_map.2 ⟨0, by decide, rfl⟩)
    (G := prod (n + 2) 3 25) ?_ (row := n + 1) (col := 3)
    (by rw [e1]; show ((n + 1 : Nat) : Int) = ((0 : Nat) : Int) + (n + 1); omega) (by rw [e2]; rfl)
  · rw [Ne, key, hr]
    decide
  · rw [e1, e2, e3, e4]
    have hx := shiftAxis_one hn
    have hy : shiftAxis 3 0 false = some 3 := rfl
    simp [leftTimes, prod, Fm.plain, Fm.map, moveRefs, relocate, hx, hy]

end Verif.Template
