/-
One bound of a reference, and one reference, under an insertion or a deletion.
-/
import Verif.Plane.Shift
import Mathlib.Tactic.ByContra

namespace Verif.Plane.Edit

open Verif.Plane

/-! ### Where coordinates go -/

theorem moveCoord_spec (op : Op) (x y : Nat) : op.moveCoord x = some y ↔
    (x < op.at_ ∧ y = x) ∨ (op.at_ ≤ x ∧ op.del = true ∧ op.at_ + op.count ≤ x ∧ y + op.count = x) ∨
      (op.at_ ≤ x ∧ op.del = false ∧ y = x + op.count) := by
  unfold Op.moveCoord
  split
  · simp only [Option.some.injEq]; omega
  · split
    · next h =>
      split
      · simp [h]; omega
      · simp only [Option.some.injEq, h]; simp; omega
    · next h =>
      simp only [Bool.not_eq_true] at h
      simp only [Option.some.injEq, h]
      simp; omega

theorem moveCoord_none (op : Op) (x : Nat) : op.moveCoord x = none ↔
    op.del = true ∧ op.at_ ≤ x ∧ x < op.at_ + op.count := by
  unfold Op.moveCoord
  split
  · simp; omega
  · split
    · next h =>
      split
      · simp [h]; omega
      · simp; omega
    · next h => simp [h]

/-- The image of an interval. -/
theorem between_move {op : Op} {a b k a' b' k' : Nat} (ha : op.moveCoord a = some a') (hb : op.moveCoord b = some b')
    (hk : op.moveCoord k = some k') : Between a' b' k' ↔ Between a b k := by
  rw [moveCoord_spec] at ha hb hk
  unfold Between
  cases h : op.del
  · simp only [h, Bool.false_eq_true, false_and, and_false, false_or, true_and] at ha hb hk
    omega
  · simp only [h, Bool.true_eq_false, false_and, and_false, or_false, true_and] at ha hb hk
    omega

theorem move_other {op : Op} {k : Key} (h : k.sheet ≠ op.sheet) : op.move k = some k := by
  unfold Op.move; rw [if_pos h]

theorem move_rows {op : Op} (hr : op.rows = true) {k k' : Key} (h : k.sheet = op.sheet) :
    op.move k = some k' ↔ k'.sheet = k.sheet ∧ op.moveCoord k.row = some k'.row ∧ k'.col = k.col := by
  unfold Op.move
  rw [if_neg (by simp [h]), if_pos hr]
  obtain ⟨s', r', c'⟩ := k'
  cases hm : op.moveCoord k.row with
  | none => simp
  | some r =>
    simp only [Option.map_some, Option.some.injEq, Key.mk.injEq]
    constructor
    · rintro ⟨h1, h2, h3⟩; exact ⟨h1.symm, h2, h3.symm⟩
    · rintro ⟨h1, h2, h3⟩; exact ⟨h1.symm, h2, h3.symm⟩

theorem move_cols {op : Op} (hr : op.rows = false) {k k' : Key} (h : k.sheet = op.sheet) :
    op.move k = some k' ↔ k'.sheet = k.sheet ∧ k'.row = k.row ∧ op.moveCoord k.col = some k'.col := by
  unfold Op.move
  rw [if_neg (by simp [h]), if_neg (by simp [hr])]
  obtain ⟨s', r', c'⟩ := k'
  cases hm : op.moveCoord k.col with
  | none => simp
  | some r =>
    simp only [Option.map_some, Option.some.injEq, Key.mk.injEq]
    constructor
    · rintro ⟨h1, h2, h3⟩; exact ⟨h1.symm, h2.symm, h3⟩
    · rintro ⟨h1, h2, h3⟩; exact ⟨h1.symm, h2.symm, h3⟩

theorem move_sheet {op : Op} {k k' : Key} (h : op.move k = some k') : k'.sheet = k.sheet := by
  by_cases hs : k.sheet = op.sheet
  · cases hr : op.rows
    · exact ((move_cols hr hs).1 h).1
    · exact ((move_rows hr hs).1 h).1
  · rw [move_other hs] at h
    rw [Option.some.inj h]

/-! ### Rules, bound by bound -/

/-- The bound `b`, seen from `x`, goes where the coordinate it points to goes. -/
def Hits (op : Op) (x x' : Nat) (b b' : AxisProj) : Prop :=
  ∃ v v' : Nat, b.at_ x = v ∧ b'.at_ x' = v' ∧ op.moveCoord v = some v'

/-- The bound points to the same coordinate. -/
def Stays (x x' : Nat) (b b' : AxisProj) : Prop := b'.at_ x' = b.at_ x

/-- Two rules of the same kind whose bounds correspond. -/
def Corr (R C : AxisProj → AxisProj → Prop) : Rule → Rule → Prop
  | .cell r c, .cell r' c' => R r r' ∧ C c c'
  | .range a b c d, .range a' b' c' d' => R a a' ∧ R b b' ∧ C c c' ∧ C d d'
  | .wholeCols c d, .wholeCols c' d' => C c c' ∧ C d d'
  | _, _ => False

theorem Corr.imp {R C R' C' : AxisProj → AxisProj → Prop} (hR : ∀ a b, R a b → R' a b) (hC : ∀ a b, C a b → C' a b) :
    ∀ {x y : Rule}, Corr R C x y → Corr R' C' x y
  | .cell _ _, .cell _ _, h => ⟨hR _ _ h.1, hC _ _ h.2⟩
  | .range _ _ _ _, .range _ _ _ _, h => ⟨hR _ _ h.1, hR _ _ h.2.1, hC _ _ h.2.2.1, hC _ _ h.2.2.2⟩
  | .wholeCols _ _, .wholeCols _ _, h => ⟨hC _ _ h.1, hC _ _ h.2⟩
  | .wholeResult, _, h => by cases h
  | .cell _ _, .range _ _ _ _, h => by cases h
  | .cell _ _, .wholeCols _ _, h => by cases h
  | .cell _ _, .wholeResult, h => by cases h
  | .range _ _ _ _, .cell _ _, h => by cases h
  | .range _ _ _ _, .wholeCols _ _, h => by cases h
  | .range _ _ _ _, .wholeResult, h => by cases h
  | .wholeCols _ _, .cell _ _, h => by cases h
  | .wholeCols _ _, .range _ _ _ _, h => by cases h
  | .wholeCols _ _, .wholeResult, h => by cases h

/-- What must hold of the bounds, for the rule to follow the cells. -/
def Follows (op : Op) (sheet : Nat) (p p' : Key) (rule rule' : Rule) : Prop :=
  if sheet = op.sheet then
    if op.rows then Corr (Hits op p.row p'.row) (Stays p.col p'.col) rule rule'
    else Corr (Stays p.row p'.row) (Hits op p.col p'.col) rule rule'
  else Corr (Stays p.row p'.row) (Stays p.col p'.col) rule rule'

theorem Corr.reads {p p' : Key} {sheet : Nat} {k : Key} : ∀ {x y : Rule},
    Corr (Stays p.row p'.row) (Stays p.col p'.col) x y → (y.Reads sheet p' k ↔ x.Reads sheet p k)
  | .cell _ _, .cell _ _, h => by simp only [Rule.Reads, show _ = _ from h.1, show _ = _ from h.2]
  | .range _ _ _ _, .range _ _ _ _, h => by
    simp only [Rule.Reads, show _ = _ from h.1, show _ = _ from h.2.1, show _ = _ from h.2.2.1, show _ = _ from h.2.2.2]
  | .wholeCols _ _, .wholeCols _ _, h => by simp only [Rule.Reads, show _ = _ from h.1, show _ = _ from h.2]
  | .wholeResult, _, h => by cases h
  | .cell _ _, .range _ _ _ _, h => by cases h
  | .cell _ _, .wholeCols _ _, h => by cases h
  | .cell _ _, .wholeResult, h => by cases h
  | .range _ _ _ _, .cell _ _, h => by cases h
  | .range _ _ _ _, .wholeCols _ _, h => by cases h
  | .range _ _ _ _, .wholeResult, h => by cases h
  | .wholeCols _ _, .cell _ _, h => by cases h
  | .wholeCols _ _, .range _ _ _ _, h => by cases h
  | .wholeCols _ _, .wholeResult, h => by cases h

theorem hits_eq {op : Op} {x x' : Nat} {b b' : AxisProj} (h : Hits op x x' b b') {k k' : Nat} (hk : op.moveCoord k = some k') :
    (k' : Int) = b'.at_ x' ↔ (k : Int) = b.at_ x := by
  obtain ⟨v, v', h1, h2, h3⟩ := h
  rw [h1, h2]
  have := between_move h3 h3 hk
  unfold Between at this
  omega

theorem hits_between {op : Op} {x x' : Nat} {a a' b b' : AxisProj} (ha : Hits op x x' a a') (hb : Hits op x x' b b')
    {k k' : Nat} (hk : op.moveCoord k = some k') :
    Between (a'.at_ x') (b'.at_ x') k' ↔ Between (a.at_ x) (b.at_ x) k := by
  obtain ⟨v, v', h1, h2, h3⟩ := ha
  obtain ⟨w, w', i1, i2, i3⟩ := hb
  rw [h1, h2, i1, i2]
  exact between_move h3 i3 hk

/-- A rule whose bounds follow reads the moved cells. -/
theorem follows_same {op : Op} {sheet : Nat} {p p' : Key} {rule rule' : Rule} (h : Follows op sheet p p' rule rule')
    {k k' : Key} (hk : op.move k = some k') : rule'.Reads sheet p' k' ↔ rule.Reads sheet p k := by
  unfold Follows at h
  by_cases hs : sheet = op.sheet
  · rw [if_pos hs] at h
    by_cases hks : k.sheet = op.sheet
    · cases hr : op.rows with
      | true =>
        rw [hr, if_pos rfl] at h
        obtain ⟨m1, m2, m3⟩ := (move_rows hr hks).1 hk
        cases rule <;> cases rule' <;> try cases h
        · next r c r' c' h1 h2 =>
          simp only [Rule.Reads, m1, m3, hits_eq h1 m2, show _ = _ from h2]
        · next a b c d a' b' c' d' h1 h2 =>
          simp only [Rule.Reads, m1, m3, hits_between h1 h2.1 m2, show _ = _ from h2.2.1, show _ = _ from h2.2.2]
        · next c d c' d' h1 h2 =>
          simp only [Rule.Reads, m1, m3, show _ = _ from h1, show _ = _ from h2]
      | false =>
        rw [hr, if_neg (by simp)] at h
        obtain ⟨m1, m2, m3⟩ := (move_cols hr hks).1 hk
        cases rule <;> cases rule' <;> try cases h
        · next r c r' c' h1 h2 =>
          simp only [Rule.Reads, m1, m2, hits_eq h2 m3, show _ = _ from h1]
        · next a b c d a' b' c' d' h1 h2 =>
          simp only [Rule.Reads, m1, m2, hits_between h2.2.1 h2.2.2 m3, show _ = _ from h1, show _ = _ from h2.1]
        · next c d c' d' h1 h2 =>
          simp only [Rule.Reads, m1, hits_between h1 h2 m3]
    · have := move_sheet hk
      have no : ∀ (x : Rule) (q k : Key), x ≠ .wholeResult → k.sheet ≠ sheet → ¬ x.Reads sheet q k := by
        intro x q k hx hne hr
        cases x with
        | cell _ _ => exact hne hr.1
        | range _ _ _ _ => exact hne hr.1
        | wholeCols _ _ => exact hne hr.1
        | wholeResult => exact hx rfl
      have h1 : rule ≠ .wholeResult := by rintro rfl; cases rule' <;> split at h <;> cases h
      have h2 : rule' ≠ .wholeResult := by rintro rfl; cases rule <;> split at h <;> cases h
      exact ⟨fun hr => absurd hr (no _ _ _ h2 (by rw [this, hs]; exact hks)),
        fun hr => absurd hr (no _ _ _ h1 (by rw [hs]; exact hks))⟩
  · rw [if_neg hs] at h
    rw [h.reads (k := k')]
    by_cases hks : k.sheet = op.sheet
    · have := move_sheet hk
      have no : ∀ k : Key, k.sheet ≠ sheet → ¬ rule.Reads sheet p k := by
        intro k hne hr
        cases rule with
        | cell _ _ => exact hne hr.1
        | range _ _ _ _ => exact hne hr.1
        | wholeCols _ _ => exact hne hr.1
        | wholeResult => cases rule' <;> cases h
      exact ⟨fun hr => absurd hr (no _ (by rw [this, hks]; exact fun e => hs e.symm)),
        fun hr => absurd hr (no _ (by rw [hks]; exact fun e => hs e.symm))⟩
    · rw [move_other hks] at hk
      rw [Option.some.inj hk]

end Verif.Plane.Edit
