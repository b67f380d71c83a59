/-
Property C67: where the claim fails, and examples.
-/
import Verif.Template.Thms
import Verif.Arena.AstRead

namespace Verif.Template

/-! ### Equal texts of a formula are one node -/

open Verif.Arena in
theorem intern_twice (l : List String) (s : String) : intern (intern l s).1 s = intern l s := by
  unfold intern
  cases h : l.findIdx? (· = s) with
  | some i => simp only [h]
  | none =>
    have : (l ++ [s]).findIdx? (· = s) = some l.length := by
      rw [List.findIdx?_append, h]
      simp [List.findIdx?_cons]
    simp only [this]

open Verif.Arena in
theorem insertNode_twice {E : Ext3} {F : Type} {H : Hashes E} {a a' : Asts F E} {n : Node E} {id : Nat} (hok : a.Ok)
    (h : insertNode H a n = some (a', id)) (hf : a'.Fits) : insertNode H a' n = some (a', id) := by
  have hn := (insertNode_spec hok h hf).2
  have hd : a'.dedup (H.node n) = some id := by
    unfold insertNode at h
    dsimp only at h
    split at h
    · cases h; simp
    · next i hd =>
      split at h
      · cases h
      · split at h
        · cases h; exact hd
        · cases h; simp
  unfold insertNode
  dsimp only
  rw [hd]
  dsimp only
  rw [hn]
  simp

open Verif.Arena in
/-- A text that is stored twice in a row, as in `=F("x","x")`, is one node (property C63). -/
theorem text_one_node {E : Ext3} {F : Type} {C : Chrono F} {H : Hashes E} {a a' : Asts F E} {s : String} {id : Nat} (hok : a.Ok)
    (h : convertLit H a (.text s : Lit C) = some (a', id)) (hf : a'.Fits) : convertLit H a' (.text s : Lit C) = some (a', id) := by
  have hv : ∀ (st st' : Store F) (r : VRef), store st (.text s : Lit C) = some (st', r) → store st' (.text s : Lit C) = some (st', r) := by
    intro st st' r hs
    unfold store at hs ⊢
    dsimp only at hs ⊢
    obtain ⟨rfl, hr⟩ := withRef_some hs
    rw [intern_twice]
    rw [← hs]
  unfold convertLit at h ⊢
  cases hs : store a.values (.text s : Lit C) with
  | none => rw [hs] at h; cases h
  | some x =>
    obtain ⟨st, r⟩ := x
    rw [hs] at h
    dsimp only at h
    have hst : a'.values = st := by
      unfold insertNode at h
      dsimp only at h
      split at h
      · cases h; rfl
      · split at h
        · cases h
        · split at h
          · cases h; rfl
          · cases h; rfl
    rw [hst, hv _ _ _ hs]
    dsimp only
    have hok' : ({ a with values := st } : Asts F E).Ok := by
      unfold store at hs
      dsimp only at hs
      obtain ⟨rfl, -⟩ := withRef_some hs
      exact ⟨ok_of hok.values rfl rfl rfl, hok.dedup⟩
    have := insertNode_twice hok' h hf
    rw [← hst]
    exact this

/-! ### Where the claim fails -/

/-- A rectangle with the given origin and steps. -/
def Encoding.isRect {F E : Type} (e : Encoding F E) (r c : Nat) (dr dc : List Int) : Bool :=
  match e with
  | .affineRect r' c' _ dr' dc' => decide (r' = r ∧ c' = c ∧ dr' = dr ∧ dc' = dc)
  | _ => false

/-- A column with the given origin and steps. -/
def Encoding.isByRow {F E : Type} (e : Encoding F E) (r : Nat) (d : List Int) : Bool :=
  match e with
  | .byRow r' _ d' => decide (r' = r ∧ d' = d)
  | _ => false

/-- Whole numbers for the floating-point numbers, one error. -/
def toy : Num Int Unit where
  exact n := if I64 n then some n else none
  ofInt := id
  toInt := id
  same m n := decide (m = n)
  sameErr _ _ := true
  bits := decInt
  dbg _ := []

theorem toy_laws : toy.Laws where
  fits x n h := by
    simp only [toy] at h
    split at h
    · exact Option.some.inj h ▸ (by assumption)
    · cases h
  back x n h := by
    simp only [toy] at h
    split at h
    · exact ⟨(Option.some.inj h).symm, rfl⟩
    · cases h
  same x y h := of_decide_eq_true h
  sameErr _ _ _ := rfl
  bits x y r r' h := by
    obtain ⟨h1, h2⟩ := decInt_head rfl rfl h
    exact ⟨h1, (List.cons.inj h2).2⟩
  dbg x y r r' h := ⟨rfl, (List.cons.inj h).2⟩

/-- The function `IF`. -/
def fnIf : Fn := [73, 70]

/-- `=IF(A1=s,t,"y")` in the cell `B1` and so on; the texts have the given nodes. -/
def choice (row : Nat) (s t : Text) (i j k : Nat) : Cand Int Unit where
  row := row
  col := 1
  formula := .func fnIf [.binary ['='] (.ref (.cell none (row + 1) 1 false false)) (.lit (i, .text s)), .lit (j, .text t), .lit (k, .text ['y'])]
  labels := []

theorem choice_ok {row : Nat} (hr : row < 2 ^ 32 - 1) (s t : Text) (i j k : Nat) : (choice row s t i j k).Ok toy where
  formula := ⟨⟨⟨⟨by omega, by omega⟩, ⟨by decide, by decide⟩⟩, trivial⟩, trivial, trivial, trivial⟩
  consts := by
    intro v hv
    have hv : v ∈ [Const.text s, Const.text t, Const.text ['y']] := hv
    simp only [List.mem_cons, List.not_mem_nil, or_false] at hv
    rcases hv with rfl | rfl | rfl <;> exact ⟨fun n h => (by cases h), trivial⟩
  count := by show 3 ≤ 65536; decide

/-- `=IF(A1="x","x","y")` in `B1`, where both `"x"` are one node, and `=IF(A2="x","z","y")` in `B2`, and so on down to `B100`. -/
def clash : List (Cand Int Unit) := choice 0 ['x'] ['x'] 4 4 5 :: (List.range 99).map fun i => choice (i + 1) ['x'] ['z'] 4 6 5

theorem clash_span : (prepare toy clash).map (fun s => (s.constant, s.originRow, s.originCol)) = some (false, 1, 2) := by decide +kernel

/-- The claim fails: all cells become one span, and `B2` computes `=IF(A2="z","z","y")`. -/
theorem shared_node_wrong : ∃ s, prepare toy clash = some s ∧
    s.formulaAt toy 1 1 = some (.func fnIf [.binary ['='] (.ref (.cell none 2 1 false false)) (.lit (.text ['z'])), .lit (.text ['z']), .lit (.text ['y'])]) ∧
    choice 1 ['x'] ['z'] 4 6 5 ∈ clash ∧ s.formulaAt toy 1 1 ≠ some (choice 1 ['x'] ['z'] 4 6 5).formula.plain := by
  obtain ⟨s, hs, he⟩ := Option.map_eq_some_iff.1 clash_span
  simp only [Prod.mk.injEq] at he
  obtain ⟨hc, hr, hq⟩ := he
  have hok : ∀ c ∈ clash, c.Ok toy := by
    intro c hc
    simp only [clash, List.mem_cons, List.mem_map, List.mem_range] at hc
    rcases hc with rfl | ⟨i, hi, rfl⟩ <;> exact choice_ok (by omega) _ _ _ _ _
  have hx : choice 1 ['x'] ['z'] 4 6 5 ∈ clash := .tail _ (List.mem_map.2 ⟨0, by decide, rfl⟩)
  have hv := span_constants toy_laws hok hs hx
  obtain ⟨o, ho, -, -, -, ht, hr', -⟩ := prepare_some hs
  have ho : o = choice 0 ['x'] ['x'] 4 4 5 := by
    simp only [clash, List.mem_cons, List.mem_map, List.mem_range] at ho
    rcases ho with ho | ⟨i, hi, rfl⟩
    · exact ho
    · simp only [choice] at hr'
      omega
  have h : s.formulaAt toy 1 1 =
      some (.func fnIf [.binary ['='] (.ref (.cell none 2 1 false false)) (.lit (.text ['z'])), .lit (.text ['z']), .lit (.text ['y'])]) := by
    have hv : s.encoding.valuesAt toy s.domain 1 1 = some [.text ['x'], .text ['z'], .text ['y']] := hv
    unfold Span.formulaAt
    rw [hv, ht, hr, hq, hc, ho]
    rfl
  refine ⟨s, hs, h, hx, ?_⟩
  rw [h]
  simp [choice, Fm.plain, Fm.map, Fm.mapArgs]

/-! ### Examples -/

/-- The same formulas, but with an own node for each text: all cells compute their own formulas. -/
def noClash : List (Cand Int Unit) := choice 0 ['x'] ['w'] 4 7 5 :: (List.range 99).map fun i => choice (i + 1) ['x'] ['z'] 4 6 5

theorem noClash_span : (prepare toy noClash).map (fun s => (s.constant, (lits s.template).map Prod.fst)) = some (false, [4, 7, 5]) := by decide +kernel

example : ∃ s, prepare toy noClash = some s ∧ s.constant = false ∧ ∀ x ∈ noClash, s.formulaAt toy x.row x.col = some x.formula.plain := by
  obtain ⟨s, hs, he⟩ := Option.map_eq_some_iff.1 noClash_span
  simp only [Prod.mk.injEq] at he
  refine ⟨s, hs, he.1, fun x hx => span_computes_own toy_laws ?_ hs (he.2 ▸ by decide) hx⟩
  intro c hc
  simp only [noClash, List.mem_cons, List.mem_map, List.mem_range] at hc
  rcases hc with rfl | ⟨i, hi, rfl⟩ <;> exact choice_ok (by omega) _ _ _ _ _

/-- `=$A1*n` in the cell `(row, col)`. -/
def times (row col : Nat) (n : Int) : Cand Int Unit where
  row := row
  col := col
  formula := .binary ['*'] (.ref (.cell none (row + 1) 1 false true)) (.lit (0, .num n))
  labels := []

theorem times_ok {row col : Nat} (hr : row < 2 ^ 32 - 1) {n : Int} (hn : 0 ≤ n) : (times row col n).Ok toy where
  formula := ⟨⟨⟨by omega, by omega⟩, ⟨by decide, by decide⟩⟩, trivial⟩
  consts := by
    intro v hv
    have hv : v ∈ [Const.num n] := hv
    simp only [List.mem_cons, List.not_mem_nil, or_false] at hv
    subst hv
    exact ⟨fun n h => (by cases h), hn⟩
  count := by show 1 ≤ 65536; decide

/-- A rectangle whose constants are in arithmetic progression in both directions. -/
def square : List (Cand Int Unit) :=
  (List.range 50).flatMap fun i => [times (i + 4) 2 (10 + i), times (i + 4) 3 (13 + i)]

theorem square_span : (prepare toy square).map (fun s => (s.constant, (lits s.template).map Prod.fst, s.encoding.isRect 4 2 [1] [3])) =
    some (false, [0], true) := by decide +kernel

example : ∃ s, prepare toy square = some s ∧ s.encoding.isRect 4 2 [1] [3] = true ∧
    ∀ x ∈ square, s.formulaAt toy x.row x.col = some x.formula.plain := by
  obtain ⟨s, hs, he⟩ := Option.map_eq_some_iff.1 square_span
  simp only [Prod.mk.injEq] at he
  refine ⟨s, hs, he.2.2, fun x hx => span_computes_own toy_laws ?_ hs (he.2.1 ▸ by decide) hx⟩
  intro c hc
  simp only [square, List.mem_flatMap, List.mem_range, List.mem_cons, List.not_mem_nil, or_false] at hc
  obtain ⟨i, hi, rfl | rfl⟩ := hc <;> exact times_ok (by omega) (by omega)

/-- A column with one step. -/
def column : List (Cand Int Unit) := (List.range 100).map fun i => times (i + 4) 2 (1000 - 2 * i)

theorem column_span : (prepare toy column).map (fun s => (s.constant, (lits s.template).map Prod.fst, s.encoding.isByRow 4 [-2])) =
    some (false, [0], true) := by decide +kernel

example : ∃ s, prepare toy column = some s ∧ s.encoding.isByRow 4 [-2] = true ∧
    ∀ x ∈ column, s.formulaAt toy x.row x.col = some x.formula.plain := by
  obtain ⟨s, hs, he⟩ := Option.map_eq_some_iff.1 column_span
  simp only [Prod.mk.injEq] at he
  refine ⟨s, hs, he.2.2, fun x hx => span_computes_own toy_laws ?_ hs (he.2.1 ▸ by decide) hx⟩
  intro c hc
  simp only [column, List.mem_map, List.mem_range] at hc
  obtain ⟨i, hi, rfl⟩ := hc
  exact times_ok (by omega) (by omega)

/-- `=IF($A$1="x","x","y")` in the cell `(row, 1)`. -/
def absChoice (row : Nat) (i j k : Nat) : Cand Int Unit where
  row := row
  col := 1
  formula := .func fnIf [.binary ['='] (.ref (.cell none 1 1 true true)) (.lit (i, .text ['x'])), .lit (j, .text ['x']), .lit (k, .text ['y'])]
  labels := []

theorem absChoice_ok (row : Nat) (i j k : Nat) : (absChoice row i j k).Ok toy where
  formula := ⟨⟨⟨⟨by omega, by omega⟩, ⟨by decide, by decide⟩⟩, trivial⟩, trivial, trivial, trivial⟩
  consts := by
    intro v hv
    have hv : v ∈ [Const.text ['x'], Const.text ['x'], Const.text ['y']] := hv
    simp only [List.mem_cons, List.not_mem_nil, or_false] at hv
    rcases hv with rfl | rfl | rfl <;> exact ⟨fun n h => (by cases h), trivial⟩
  count := by show 3 ≤ 65536; decide

/-- A span whose cells have one value; it may have fewer than hundred cells. -/
def one : List (Cand Int Unit) := [absChoice 0 4 4 5, absChoice 1 4 4 5]

theorem one_span : (prepare toy one).map (fun s => s.constant) = some true := by decide +kernel

example : ∃ s, prepare toy one = some s ∧ s.constant = true ∧ ∀ x ∈ one, x.formula.plain = s.template.plain ∧
    s.formulaAt toy x.row x.col = some x.formula.plain := by
  obtain ⟨s, hs, he⟩ := Option.map_eq_some_iff.1 one_span
  have hok : ∀ c ∈ one, c.Ok toy := by
    intro c hc
    simp only [one, List.mem_cons, List.not_mem_nil, or_false] at hc
    rcases hc with rfl | rfl <;> exact absChoice_ok _ _ _ _
  exact ⟨s, hs, he, fun x hx => ⟨span_constant toy_laws hok hs he hx, (span_computes_iff toy_laws hok hs hx).2 (.inl he)⟩⟩

/-- `payload_shape`: the two formulas of `clash` have one key, so they have one shape. -/
example : shape (canon 1 2 .value (choice 0 ['x'] ['x'] 4 4 5).formula.plain) = shape (canon 2 2 .value (choice 1 ['x'] ['z'] 4 6 5).formula.plain) :=
  payload_shape (l := []) (l' := []) rfl

end Verif.Template
