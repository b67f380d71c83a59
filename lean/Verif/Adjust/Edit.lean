import Verif.Adjust.Props

/-!
# Copying, moving, named ranges, and the cell index under structural edits (C37 to C40)

`crates/formualizer-eval/src/engine/graph/editor/reference_adjuster.rs`, `vertex_editor.rs`, `../names.rs`, `../mod.rs`.
-/

namespace Verif.Adjust

/-! ## Copied formulas (C37) -/

mutual
/-- No computed call and no array literal inside. -/
def Ast.Plain : Ast → Prop
  | .lit _ => True
  | .refErr => True
  | .ref _ _ => True
  | .un _ e => e.Plain
  | .bin _ l r => l.Plain ∧ r.Plain
  | .fn _ args => plainList args
  | .call _ _ => False
  | .arr _ => False
def plainList : List Ast → Prop
  | [] => True
  | x :: xs => x.Plain ∧ plainList xs
end

mutual
theorem copyAst_eq (dr dc : Int) (g : Ref → Ref) : ∀ t : Ast, t.Plain → (∀ r ∈ t.refs, copyRef dr dc r = some (g r)) →
    copyAst dr dc t = some (t.subst fun o r => .ref o (g r))
  | .lit _, _, _ => by simp [copyAst, Ast.subst]
  | .refErr, _, _ => by simp [copyAst, Ast.subst]
  | .ref o r, _, h => by rw [copyAst, h r (by simp [Ast.refs])]; rfl
  | .un op e, hp, h => by
    rw [copyAst, copyAst_eq dr dc g e hp (by simpa [Ast.refs] using h)]; rfl
  | .bin op l r, hp, h => by
    rw [copyAst, copyAst_eq dr dc g l hp.1 (fun r' hr => h r' (by simp [Ast.refs, hr])),
      copyAst_eq dr dc g r hp.2 (fun r' hr => h r' (by simp [Ast.refs, hr]))]; rfl
  | .fn name args, hp, h => by
    rw [copyAst, copyList_eq dr dc g args hp (by simpa [Ast.refs] using h)]; rfl
  | .call _ _, hp, _ => hp.elim
  | .arr _, hp, _ => hp.elim
theorem copyList_eq (dr dc : Int) (g : Ref → Ref) : ∀ t : List Ast, plainList t → (∀ r ∈ refsList t, copyRef dr dc r = some (g r)) →
    copyList dr dc t = some (substList (fun o r => .ref o (g r)) t)
  | [], _, _ => rfl
  | x :: xs, hp, h => by
    rw [copyList, copyAst_eq dr dc g x hp.1 (fun r' hr => h r' (by simp [refsList, hr])),
      copyList_eq dr dc g xs hp.2 (fun r' hr => h r' (by simp [refsList, hr]))]; rfl
end

/-- Where index `i` goes: nowhere if anchored, else by the offset. -/
def Moves (abs : Bool) (off : Int) (i j : Nat) : Prop := (j : Int) = if abs then (i : Int) else (i : Int) + off

theorem offsetIndex_moves {abs : Bool} {off : Int} {i : Nat} (h : abs = true ∨ 0 ≤ (i : Int) + off) :
    Moves abs off i (if abs then i else offsetIndex i off) := by
  unfold Moves offsetIndex
  cases abs with
  | true => simp
  | false =>
    have : 0 ≤ (i : Int) + off := by simpa using h
    simp only [Bool.false_eq_true, if_false]
    omega

/-- C37 (partial), cells: relative coordinates move by the copy offset, anchored ones stay. Missing: targets above or
left of the sheet, see `copy_clamps`. -/
theorem copy_cell_partial (dr dc : Int) (sheet : Option String) (r c : Nat) (ra ca : Bool) (hr : r ≤ rowMax) (hc : c ≤ colMax)
    (h1 : ra = true ∨ 0 ≤ (r : Int) + dr) (h2 : ca = true ∨ 0 ≤ (c : Int) + dc) :
    ∃ r' c', copyRef dr dc (.cell sheet (r + 1) (c + 1) ra ca) = some (.cell sheet (r' + 1) (c' + 1) ra ca) ∧
      Moves ra dr r r' ∧ Moves ca dc c c' := by
  refine ⟨_, _, ?_, offsetIndex_moves h1, offsetIndex_moves h2⟩
  simp only [copyRef, coordNew, hr, hc, and_self, if_true, Option.map_some]

/-- C37 (partial), ranges: each of the four bounds moves on its own. -/
theorem copy_range_partial (dr dc : Int) (sheet : Option String) (sr sc er ec : Nat) (f1 f2 f3 f4 : Bool)
    (hr : sr ≤ er) (hc : sc ≤ ec) (h1 : f1 = true ∨ 0 ≤ (sr : Int) + dr) (h2 : f2 = true ∨ 0 ≤ (sc : Int) + dc)
    (h3 : f3 = true ∨ 0 ≤ (er : Int) + dr) (h4 : f4 = true ∨ 0 ≤ (ec : Int) + dc) :
    ∃ sr' sc' er' ec', copyRef dr dc (.range sheet (some (sr + 1)) (some (sc + 1)) (some (er + 1)) (some (ec + 1)) f1 f2 f3 f4) =
        some (.range sheet (some (sr' + 1)) (some (sc' + 1)) (some (er' + 1)) (some (ec' + 1)) f1 f2 f3 f4) ∧
      Moves f1 dr sr sr' ∧ Moves f2 dc sc sc' ∧ Moves f3 dr er er' ∧ Moves f4 dc ec ec' := by
  refine ⟨_, _, _, _, ?_, offsetIndex_moves h1, offsetIndex_moves h2, offsetIndex_moves h3, offsetIndex_moves h4⟩
  simp [copyRef, rangeBounds, bound0, ordered, hr, hc]

/-- C37 (partial), trees: every reference of a formula without computed calls and arrays is adjusted. -/
theorem copy_formula_partial (dr dc : Int) (g : Ref → Ref) (t : Ast) (hp : t.Plain) (h : ∀ r ∈ t.refs, copyRef dr dc r = some (g r)) :
    copyAst dr dc t = some (t.subst fun o r => .ref o (g r)) := copyAst_eq dr dc g t hp h

/-- C37 fails: `=A1` copied one row up is still `=A1` (not `#REF!`). -/
theorem copy_clamps : copyAst (-1) 0 (.ref "A1" (.cell none 1 1 false false)) = some (.ref "A1" (.cell none 1 1 false false)) := by
  rfl

/-- C37 fails: arguments of a computed call are not adjusted, whatever they are. -/
theorem copy_skips_calls (dr dc : Int) (c : Ast) (args : List Ast) : copyAst dr dc (.call c args) = some (.call c args) := by
  simp [copyAst]

/-- C37 fails: neither are the elements of an array. -/
theorem copy_skips_arrays (dr dc : Int) (rows : List (List Ast)) : copyAst dr dc (.arr rows) = some (.arr rows) := by
  simp [copyAst]

/-! ## Moved blocks (C38) -/

/-- The block contains the cell. -/
def Move.Inside (m : Move) (r c : Nat) : Prop := m.r0 ≤ r ∧ r ≤ m.r1 ∧ m.c0 ≤ c ∧ c ≤ m.c1

instance (m : Move) (r c : Nat) : Decidable (m.Inside r c) := by unfold Move.Inside; infer_instance

/-- The destination is on the sheet. -/
def Move.Ok (m : Move) : Prop := 0 ≤ (m.r0 : Int) + m.dr ∧ 0 ≤ (m.c0 : Int) + m.dc

/-- C38 (partial), cells: a reference to a cell of the block follows it; any other is left alone. -/
theorem move_cell_partial (m : Move) (hm : m.Ok) (home : Nat) (sheet : Option String) (r c : Nat) (ra ca : Bool)
    (hr : r ≤ rowMax) (hc : c ≤ colMax) (hs : m.matchesSource home sheet = true) :
    if m.Inside r c then
      ∃ r' c' : Nat, m.ref home (.cell sheet (r + 1) (c + 1) ra ca) = some (some (.cell (m.newSheet sheet) (r' + 1) (c' + 1) ra ca)) ∧
        (r' : Int) = r + m.dr ∧ (c' : Int) = c + m.dc
    else m.ref home (.cell sheet (r + 1) (c + 1) ra ca) = some none := by
  obtain ⟨h1, h2⟩ := hm
  have e : m.ref home (.cell sheet (r + 1) (c + 1) ra ca) =
      some (if r < m.r0 ∨ r > m.r1 ∨ c < m.c0 ∨ c > m.c1 then none
        else some (.cell (m.newSheet sheet) (offsetIndex r m.dr + 1) (offsetIndex c m.dc + 1) ra ca)) := by
    simp only [Move.ref, hs, if_true, coordNew, hr, hc, and_self, Option.map_some]
  by_cases hi : m.Inside r c
  · rw [if_pos hi]
    obtain ⟨i1, i2, i3, i4⟩ := hi
    refine ⟨offsetIndex r m.dr, offsetIndex c m.dc, by rw [e, if_neg (by omega)], ?_, ?_⟩ <;>
      · unfold offsetIndex; omega
  · rw [if_neg hi, e, if_pos]
    unfold Move.Inside at hi
    omega

/-- C38 (partial), ranges: a range inside the block follows it; any other is left alone. -/
theorem move_range_partial (m : Move) (hm : m.Ok) (home : Nat) (sheet : Option String) (sr sc er ec : Nat) (f1 f2 f3 f4 : Bool)
    (hr : sr ≤ er) (hc : sc ≤ ec) (hs : m.matchesSource home sheet = true) :
    if m.Inside sr sc ∧ m.Inside er ec then
      ∃ sr' sc' er' ec' : Nat, m.ref home (.range sheet (some (sr + 1)) (some (sc + 1)) (some (er + 1)) (some (ec + 1)) f1 f2 f3 f4) =
          some (some (.range (m.newSheet sheet) (some (sr' + 1)) (some (sc' + 1)) (some (er' + 1)) (some (ec' + 1)) f1 f2 f3 f4)) ∧
        (sr' : Int) = sr + m.dr ∧ (sc' : Int) = sc + m.dc ∧ (er' : Int) = er + m.dr ∧ (ec' : Int) = ec + m.dc
    else m.ref home (.range sheet (some (sr + 1)) (some (sc + 1)) (some (er + 1)) (some (ec + 1)) f1 f2 f3 f4) = some none := by
  obtain ⟨h1, h2⟩ := hm
  have e : m.ref home (.range sheet (some (sr + 1)) (some (sc + 1)) (some (er + 1)) (some (ec + 1)) f1 f2 f3 f4) =
      if sr ≥ m.r0 ∧ er ≤ m.r1 ∧ sc ≥ m.c0 ∧ ec ≤ m.c1 then
        some (some (.range (m.newSheet sheet) (some (offsetIndex sr m.dr + 1)) (some (offsetIndex sc m.dc + 1))
          (some (offsetIndex er m.dr + 1)) (some (offsetIndex ec m.dc + 1)) f1 f2 f3 f4))
      else some none := by
    simp [Move.ref, hs, rangeBounds, bound0, ordered, hr, hc]
  unfold Move.Inside
  by_cases hi : (m.r0 ≤ sr ∧ sr ≤ m.r1 ∧ m.c0 ≤ sc ∧ sc ≤ m.c1) ∧ m.r0 ≤ er ∧ er ≤ m.r1 ∧ m.c0 ≤ ec ∧ ec ≤ m.c1
  · rw [if_pos hi, e, if_pos (by omega)]
    refine ⟨_, _, _, _, rfl, ?_, ?_, ?_, ?_⟩ <;>
      · unfold offsetIndex; omega
  · rw [if_neg hi, e, if_neg (by omega)]

/-- C38: references to other sheets are left alone. -/
theorem move_other_sheet (m : Move) (home : Nat) (sheet : Option String) (hs : m.matchesSource home sheet = false) :
    (∀ r c ra ca, m.ref home (.cell sheet r c ra ca) = some none) ∧
    ∀ sr sc er ec f1 f2 f3 f4, m.ref home (.range sheet sr sc er ec f1 f2 f3 f4) = some none := by
  constructor
  · intro r c ra ca; simp [Move.ref, hs]
  · intro sr sc er ec f1 f2 f3 f4; simp [Move.ref, hs]

mutual
/-- No computed call inside. -/
def Ast.NoCall : Ast → Prop
  | .lit _ => True
  | .refErr => True
  | .ref _ _ => True
  | .un _ e => e.NoCall
  | .bin _ l r => l.NoCall ∧ r.NoCall
  | .fn _ args => noCallList args
  | .call _ _ => False
  | .arr rows => noCallRows rows
def noCallList : List Ast → Prop
  | [] => True
  | x :: xs => x.NoCall ∧ noCallList xs
def noCallRows : List (List Ast) → Prop
  | [] => True
  | x :: xs => noCallList x ∧ noCallRows xs
end

mutual
theorem move_tree (m : Move) (home : Nat) (g : Ref → Option Ref) : ∀ t : Ast, t.NoCall → (∀ r ∈ t.refs, m.ref home r = some (g r)) →
    ∃ b, m.ast home t = some (t.subst (fun o r => .ref o ((g r).getD r)), b) ∧ (b = false → t.subst (fun o r => .ref o ((g r).getD r)) = t)
  | .lit _, _, _ => ⟨false, by simp [Move.ast, Ast.subst], fun _ => by simp [Ast.subst]⟩
  | .refErr, _, _ => ⟨false, by simp [Move.ast, Ast.subst], fun _ => by simp [Ast.subst]⟩
  | .ref o r, _, h => by
    rw [Move.ast, h r (by simp [Ast.refs])]
    cases hg : g r with
    | none => exact ⟨false, by simp [Ast.subst, hg], fun _ => by simp [Ast.subst, hg]⟩
    | some r' => exact ⟨true, by simp [Ast.subst, hg], by simp⟩
  | .un op e, hp, h => by
    obtain ⟨b, h1, h2⟩ := move_tree m home g e hp (by simpa [Ast.refs] using h)
    rw [Move.ast, h1]
    cases b with
    | true => exact ⟨true, by simp [Ast.subst], by simp⟩
    | false => exact ⟨false, by simp [Ast.subst, h2 rfl], fun _ => by simp [Ast.subst, h2 rfl]⟩
  | .bin op l r, hp, h => by
    obtain ⟨b, h1, h2⟩ := move_tree m home g l hp.1 (fun r' hr => h r' (by simp [Ast.refs, hr]))
    obtain ⟨b', h1', h2'⟩ := move_tree m home g r hp.2 (fun r' hr => h r' (by simp [Ast.refs, hr]))
    rw [Move.ast, h1, h1']
    cases b with
    | true => exact ⟨true, by simp [Ast.subst], by simp⟩
    | false =>
      cases b' with
      | true => exact ⟨true, by simp [Ast.subst], by simp⟩
      | false => exact ⟨false, by simp [Ast.subst, h2 rfl, h2' rfl], fun _ => by simp [Ast.subst, h2 rfl, h2' rfl]⟩
  | .fn name args, hp, h => by
    obtain ⟨b, h1, h2⟩ := move_tree_list m home g args hp (by simpa [Ast.refs] using h)
    rw [Move.ast, h1]
    cases b with
    | true => exact ⟨true, by simp [Ast.subst], by simp⟩
    | false => exact ⟨false, by simp [Ast.subst, h2 rfl], fun _ => by simp [Ast.subst, h2 rfl]⟩
  | .call _ _, hp, _ => hp.elim
  | .arr rows, hp, h => by
    obtain ⟨b, h1, h2⟩ := move_tree_rows m home g rows hp (by simpa [Ast.refs] using h)
    rw [Move.ast, h1]
    cases b with
    | true => exact ⟨true, by simp [Ast.subst], by simp⟩
    | false => exact ⟨false, by simp [Ast.subst, h2 rfl], fun _ => by simp [Ast.subst, h2 rfl]⟩
theorem move_tree_list (m : Move) (home : Nat) (g : Ref → Option Ref) : ∀ t : List Ast, noCallList t → (∀ r ∈ refsList t, m.ref home r = some (g r)) →
    ∃ b, m.list home t = some (substList (fun o r => .ref o ((g r).getD r)) t, b) ∧ (b = false → substList (fun o r => .ref o ((g r).getD r)) t = t)
  | [], _, _ => ⟨false, rfl, fun _ => rfl⟩
  | x :: xs, hp, h => by
    obtain ⟨b, h1, h2⟩ := move_tree m home g x hp.1 (fun r' hr => h r' (by simp [refsList, hr]))
    obtain ⟨b', h1', h2'⟩ := move_tree_list m home g xs hp.2 (fun r' hr => h r' (by simp [refsList, hr]))
    refine ⟨b || b', by rw [Move.list, h1, h1']; rfl, fun hb => ?_⟩
    obtain ⟨e1, e2⟩ := Bool.or_eq_false_iff.1 hb
    rw [substList, h2 e1, h2' e2]
theorem move_tree_rows (m : Move) (home : Nat) (g : Ref → Option Ref) : ∀ t : List (List Ast), noCallRows t → (∀ r ∈ refsRows t, m.ref home r = some (g r)) →
    ∃ b, m.rows home t = some (substRows (fun o r => .ref o ((g r).getD r)) t, b) ∧ (b = false → substRows (fun o r => .ref o ((g r).getD r)) t = t)
  | [], _, _ => ⟨false, rfl, fun _ => rfl⟩
  | x :: xs, hp, h => by
    obtain ⟨b, h1, h2⟩ := move_tree_list m home g x hp.1 (fun r' hr => h r' (by simp [refsRows, hr]))
    obtain ⟨b', h1', h2'⟩ := move_tree_rows m home g xs hp.2 (fun r' hr => h r' (by simp [refsRows, hr]))
    refine ⟨b || b', by rw [Move.rows, h1, h1']; rfl, fun hb => ?_⟩
    obtain ⟨e1, e2⟩ := Bool.or_eq_false_iff.1 hb
    rw [substRows, h2 e1, h2' e2]
end

/-- C38 (partial), trees: outside computed calls every reference of a formula is looked at, and the formula counts as
unchanged only if it is. -/
theorem move_formula_partial (m : Move) (home : Nat) (g : Ref → Option Ref) (t : Ast) (hp : t.NoCall)
    (h : ∀ r ∈ t.refs, m.ref home r = some (g r)) :
    ∃ b, m.ast home t = some (t.subst (fun o r => .ref o ((g r).getD r)), b) ∧
      (b = false → t.subst (fun o r => .ref o ((g r).getD r)) = t) := move_tree m home g t hp h

/-- C38 fails: arguments of a computed call do not follow the block. -/
theorem move_skips_calls (m : Move) (home : Nat) (c : Ast) (args : List Ast) :
    m.ast home (.call c args) = some (.call c args, false) := by simp [Move.ast]

/-- C38 fails: a sheet name in another case, which denotes the same sheet elsewhere, does not match. -/
theorem move_case_sensitive : (Move.mk 0 "Data" 0 0 0 0 0 "Data" 5 0).ref 1 (.cell (some "data") 1 1 false false) = some none := by
  rfl

/-- `move_range`, vertex_editor.rs 1870-1936, on one sheet holding formulas: copy with relative adjustment, clear the
source, then let all formulas follow the block. `none` is a panic. -/
def moveRange (m : Move) (cells : Nat → Nat → Option Ast) : Nat → Nat → Option (Option Ast) := fun r c =>
  let src : Option (Nat × Nat) :=
    if 0 ≤ (r : Int) - m.dr ∧ 0 ≤ (c : Int) - m.dc then some (((r : Int) - m.dr).toNat, ((c : Int) - m.dc).toNat) else none
  let copied : Option (Option Ast) :=
    match src with
    | some (r', c') =>
      if m.Inside r' c' then
        match cells r' c' with
        | some t => (copyAst m.dr m.dc t).map some
        | none => some (cells r c)
      else some (cells r c)
    | none => some (cells r c)
  let cleared := if m.Inside r c then some none else copied
  cleared.bind fun x =>
    match x with
    | none => some none
    | some t => (m.ast m.fromSheet t).map fun p => some p.1

/-- C38 fails: the cells where source and destination overlap are lost: after moving `A1:A2` one row down, `A2` is empty. -/
theorem move_overlap_lost (m : Move) (cells : Nat → Nat → Option Ast) (r c : Nat) (h : m.Inside r c) :
    moveRange m cells r c = some none := by
  simp [moveRange, h]

/-- C38 fails: a moved formula does not keep its references: `=B1` moved from `A1` to `A2` reads `B2`. -/
theorem move_changes_meaning :
    moveRange (Move.mk 0 "S" 0 0 0 0 0 "S" 1 0)
      (fun r c => if r = 0 ∧ c = 0 then some (.ref "B1" (.cell none 1 2 false false)) else none) 1 0 =
    some (some (.ref "B1" (.cell none 2 2 false false))) := by rfl

/-! ## Named ranges (C39) -/

/-- `NamedDefinition`, named_range.rs; coordinates are 0-based. -/
inductive NameDef
  | cell (sheet row col : Nat)
  | range (sheet r0 c0 r1 c1 : Nat)
  | literal (text : String)
  | formula (t : Ast)

/-- `adjust_cell_ref_with_policy` with its sheet test, reference_adjuster.rs 290-388. -/
def adjustCellOn (op : Shift) (sheet row col : Nat) : Option (Option (Nat × Nat)) :=
  if sheet = op.sheet then adjustCell row col op else some (some (row, col))

/-- `adjust_named_definition`, names.rs 51-121. -/
def adjustName (norm : Ref → String) (ctx : Option Ctx) (op : Shift) : NameDef → Option NameDef
  | .cell s r c => (adjustCellOn op s r c).map fun x =>
    match x with
    | some (r, c) => .cell s r c
    | none => .formula .refErr
  | .range s r0 c0 r1 c1 =>
    (adjustCellOn op s r0 c0).bind fun a => (adjustCellOn op s r1 c1).map fun b =>
      match a, b with
      | some (r0, c0), some (r1, c1) => .range s r0 c0 r1 c1
      | _, _ => .formula .refErr
  | .literal t => some (.literal t)
  | .formula t => (adjustAst norm ctx op t).map .formula

theorem adjustCell_insRows {s before count r c : Nat} (hr : shiftIns before count r ≤ rowMax) (hc : c ≤ colMax) :
    adjustCell r c (.insRows s before count) = some (some (shiftIns before count r, c)) := by
  unfold shiftIns at *
  simp only [adjustCell]
  split at hr
  · next h => rw [if_pos h, if_pos h]
  · next h =>
    rw [if_neg h, if_neg h, add32_eq (by simp only [two32]; unfold rowMax at hr; omega)]
    simp only [coordNew, hr, hc, and_self, if_true, Option.map_some]

theorem adjustCell_delRows {s start count r c : Nat} (hr : r ≤ rowMax) (hc : c ≤ colMax) (hs : start + count < two32) :
    adjustCell r c (.delRows s start count) =
      some (if Deleted start count r then none else some (shiftDel start count r, c)) := by
  simp only [adjustCell]
  rw [add32_eq hs]
  by_cases h1 : r ≥ start ∧ r < start + count
  · rw [if_pos h1, if_pos (show Deleted start count r from h1)]
  · rw [if_neg h1, if_neg (show ¬ Deleted start count r from h1)]
    by_cases h2 : r ≥ start + count
    · rw [if_pos h2, sub32_eq (by omega) (by unfold rowMax at hr; simp only [two32]; omega)]
      simp only [shiftDel]
      rw [if_neg (by omega)]
      simp only [coordNew]
      rw [if_pos ⟨by omega, hc⟩]; rfl
    · rw [if_neg h2]
      simp only [shiftDel]
      rw [if_pos (by omega)]

/-- C39: when rows are inserted, a name for a range covers its cells where they went, and the gap if it is inside. -/
theorem name_insertRows (norm : Ref → String) (ctx : Option Ctx) (s before count r0 c0 r1 c1 : Nat)
    (h0 : shiftIns before count r0 ≤ rowMax) (h1 : shiftIns before count r1 ≤ rowMax) (hc0 : c0 ≤ colMax) (hc1 : c1 ≤ colMax)
    (ho : r0 ≤ r1) :
    ∃ a b, adjustName norm ctx (.insRows s before count) (.range s r0 c0 r1 c1) = some (.range s a c0 b c1) ∧
      ∀ i, (a ≤ i ∧ i ≤ b) ↔ (∃ j, r0 ≤ j ∧ j ≤ r1 ∧ i = shiftIns before count j) ∨
        (before ≤ i ∧ i < before + count ∧ r0 < before ∧ before ≤ r1) := by
  refine ⟨shiftIns before count r0, shiftIns before count r1, ?_, fun i => ?_⟩
  · simp only [adjustName, adjustCellOn, Shift.sheet, if_true, adjustCell_insRows h0 hc0, adjustCell_insRows h1 hc1,
      Option.bind_some, Option.map_some]
  · unfold shiftIns
    constructor
    · rintro ⟨h1, h2⟩
      by_cases hi : i < before
      · left; refine ⟨i, ?_, ?_, by rw [if_pos hi]⟩
        · split at h1 <;> omega
        · split at h2 <;> omega
      · by_cases hg : i < before + count
        · right; refine ⟨by omega, hg, ?_, ?_⟩
          · split at h1 <;> omega
          · split at h2 <;> omega
        · left; refine ⟨i - count, ?_, ?_, by rw [if_neg (by omega)]; omega⟩
          · split at h1 <;> omega
          · split at h2 <;> omega
    · rintro (⟨j, h1, h2, rfl⟩ | ⟨h1, h2, h3, h4⟩)
      · split <;> split <;> split <;> omega
      · rw [if_pos h3, if_neg (by omega)]; omega

/-- C39 (partial): when rows are deleted, a name for a single cell becomes `#REF!` exactly when its row goes. -/
theorem name_deleteRows_cell (norm : Ref → String) (ctx : Option Ctx) (s start count r c : Nat) (hr : r ≤ rowMax) (hc : c ≤ colMax)
    (hs : start + count < two32) :
    adjustName norm ctx (.delRows s start count) (.cell s r c) =
      some (if Deleted start count r then .formula .refErr else .cell s (shiftDel start count r) c) := by
  simp only [adjustName, adjustCellOn, Shift.sheet, if_true, adjustCell_delRows hr hc hs, Option.map_some]
  by_cases h : Deleted start count r
  · simp only [if_pos h]
  · simp only [if_neg h]

/-- C39 (partial): a range name whose first and last rows survive covers exactly the surviving rows. Missing: names that
lose their first or last row, see `name_shrinks_fails`. -/
theorem name_deleteRows_range_partial (norm : Ref → String) (ctx : Option Ctx) (s start count r0 c0 r1 c1 : Nat)
    (h0 : r0 ≤ rowMax) (h1 : r1 ≤ rowMax) (hc0 : c0 ≤ colMax) (hc1 : c1 ≤ colMax) (hs : start + count < two32)
    (ho : r0 ≤ r1) (hd0 : ¬ Deleted start count r0) (hd1 : ¬ Deleted start count r1) :
    ∃ a b, adjustName norm ctx (.delRows s start count) (.range s r0 c0 r1 c1) = some (.range s a c0 b c1) ∧
      ∀ i, (a ≤ i ∧ i ≤ b) ↔ ∃ j, r0 ≤ j ∧ j ≤ r1 ∧ ¬ Deleted start count j ∧ i = shiftDel start count j := by
  refine ⟨shiftDel start count r0, shiftDel start count r1, ?_, fun i => ?_⟩
  · simp only [adjustName, adjustCellOn, Shift.sheet, if_true, adjustCell_delRows h0 hc0 hs, adjustCell_delRows h1 hc1 hs,
      Option.bind_some, Option.map_some, if_neg hd0, if_neg hd1]
  · unfold Deleted at *
    unfold shiftDel
    constructor
    · rintro ⟨h1, h2⟩
      by_cases hi : i < start
      · refine ⟨i, ?_, ?_, by omega, by rw [if_pos hi]⟩
        · split at h1 <;> omega
        · split at h2 <;> omega
      · refine ⟨i + count, ?_, ?_, by omega, by rw [if_neg (by omega)]; omega⟩
        · split at h1 <;> omega
        · split at h2 <;> omega
    · rintro ⟨j, h1, h2, h3, rfl⟩
      split <;> split <;> split <;> omega

/-- C39 fails: deleting the last row of a range name destroys the whole name, though the same range written in a formula
shrinks. -/
theorem name_shrinks_fails (norm : Ref → String) (ctx : Option Ctx) :
    adjustName norm ctx (.delRows 0 9 1) (.range 0 0 0 9 0) = some (.formula .refErr) ∧
    adjustRef none (.delRows 0 9 1) (.range none (some 1) (some 1) (some 10) (some 1) true true true true) =
      some (.ref (.range none (some 1) (some 1) (some 9) (some 1) true true true true)) := by
  constructor
  · rfl
  · decide

/-! ## Cases meeting the hypotheses -/

/-- `=$B2+SUM(A1:C$3)` copied two down, one right is `=$B4+SUM(B3:D$3)`. -/
example : copyAst 2 1 (.bin "+" (.ref "" (.cell none 2 2 false true)) (.fn "SUM" [.ref "" (.range none (some 1) (some 1) (some 3) (some 3) false false true false)])) =
    some (.bin "+" (.ref "" (.cell none 4 2 false true)) (.fn "SUM" [.ref "" (.range none (some 3) (some 2) (some 3) (some 4) false false true false)])) := by rfl

/-- A reference into a block moved to another sheet. -/
example : (Move.mk 0 "S" 1 1 4 4 1 "T" 10 0).ref 0 (.cell none 3 3 true true) = some (some (.cell (some "T") 13 3 true true)) := by rfl

example : (Move.mk 0 "S" 1 1 4 4 1 "T" 10 0).Inside 2 2 ∧ (Move.mk 0 "S" 1 1 4 4 1 "T" 10 0).Ok := by
  constructor
  · decide
  · constructor <;> decide

/-- A name for rows 3 to 8 when rows 5 and 6 go, and when two rows come in before row 5. -/
example (norm : Ref → String) : adjustName norm none (.delRows 0 4 2) (.range 0 2 0 7 0) = some (.range 0 2 0 5 0) := by rfl

example (norm : Ref → String) : adjustName norm none (.insRows 0 4 2) (.range 0 2 0 7 0) = some (.range 0 2 0 9 0) := by rfl

end Verif.Adjust
