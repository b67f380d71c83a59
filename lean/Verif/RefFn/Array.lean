import Verif.RefFn.Props

/-! # C97: INDEX of an array agrees with INDEX of the range that holds it -/

namespace Verif.RefFn

variable {α : Type}

/-- A table with `n` rows of `m` values each. -/
def Rect (t : List (List α)) (n m : Nat) : Prop := t.length = n ∧ ∀ r ∈ t, r.length = m

theorem values_length (g : Nat → Nat → α) (b : Bounds) : (values g b).length = b.er + 1 - b.sr := by simp [values]

theorem values_row (g : Nat → Nat → α) (b : Bounds) : ∀ r ∈ values g b, r.length = b.ec + 1 - b.sc := by
  intro r hr
  simp only [values, List.mem_map] at hr
  obtain ⟨_, _, rfl⟩ := hr
  simp

theorem width_rect (t : List (List α)) (m : Nat) (h : ∀ r ∈ t, r.length = m) (hne : t ≠ []) : width t = m := by
  induction t with
  | nil => exact absurd rfl hne
  | cons a t ih =>
    have ha := h a (by simp)
    by_cases ht : t = []
    · subst ht; simp [width, ha]
    · have := ih (fun r hr => h r (by simp [hr])) ht
      simp only [width, List.map_cons, List.foldr_cons] at this ⊢
      omega

/-- The `i`-th row of the values of a rectangle. -/
theorem values_getD (g : Nat → Nat → α) (b : Bounds) (i : Nat) (h : i < b.er + 1 - b.sr) :
    (values g b).getD i [] = (List.range' b.sc (b.ec + 1 - b.sc)).map fun c => g (b.sr + i) c := by
  rw [List.getD_eq_getElem?_getD, List.getElem?_eq_getElem (by simpa [values] using h)]
  simp [values]

theorem row_getD (g : Nat → Nat → α) (r sc n j : Nat) (d : α) (h : j < n) :
    ((List.range' sc n).map fun c => g r c).getD j d = g r (sc + j) := by
  rw [List.getD_eq_getElem?_getD, List.getElem?_eq_getElem (by simpa using h)]
  simp

theorem values_pick_cell (g : Nat → Nat → α) (s : Option String) (r c : Nat) : values g ⟨s, r, c, r, c⟩ = [[g r c]] := by
  simp [values, Nat.add_sub_cancel_left]

theorem values_pick_row (g : Nat → Nat → α) (s : Option String) (r sc ec : Nat) :
    values g ⟨s, r, sc, r, ec⟩ = [(List.range' sc (ec + 1 - sc)).map fun c => g r c] := by
  simp [values, Nat.add_sub_cancel_left]

theorem values_pick_col (g : Nat → Nat → α) (s : Option String) (sr er c : Nat) :
    values g ⟨s, sr, c, er, c⟩ = (List.range' sr (er + 1 - sr)).map fun r => [g r c] := by
  simp [values, Nat.add_sub_cancel_left]

theorem evalRef_table (empty : α) (g : Nat → Nat → α) (r : Out Ref) (b : Bounds) (h : r.bind readRef = .ok b) :
    ∃ v, evalRef empty g r = .ok v ∧ v.table = values g b := by
  cases r with
  | ok r =>
    have h' : readRef r = .ok b := h
    by_cases hb : b.sr = b.er ∧ b.sc = b.ec
    · refine ⟨.scalar (((values g b).getD 0 []).getD 0 empty), ?_, ?_⟩
      · simp only [evalRef, Out.bind, h', hb, and_self, if_true]
      · obtain ⟨s, sr, sc, er, ec⟩ := b
        simp only at hb
        obtain ⟨rfl, rfl⟩ := hb
        simp only [values_pick_cell, Val.table]
        rfl
    · exact ⟨.range (values g b), by simp only [evalRef, Out.bind, h', if_neg hb], rfl⟩
  | err e => cases h
  | panic => cases h

theorem arrayAt_ok (empty bad : α) (g : Nat → Nat → α) (b : Bounds) (hg : Good b) (i j : Int) (hi : 0 ≤ i) (hj : 0 ≤ j)
    (hih : i ≤ height b) (hjw : j ≤ cols b) :
    ∃ v, arrayAt empty bad (values g b) i.toNat j.toNat = .ok v ∧ v.table = values g (pick b i j) := by
  obtain ⟨g1, g2, g3, g4, g5, g6⟩ := hg
  simp only [height] at hih
  simp only [cols] at hjw
  have hl := values_length g b
  have hne : values g b ≠ [] := by intro h; rw [h] at hl; simp at hl; omega
  have hw := width_rect (values g b) _ (values_row g b) hne
  simp only [arrayAt, hl, hw]
  by_cases hj0 : j = 0
  · subst hj0
    by_cases hi0 : i = 0
    · subst hi0
      exact ⟨.range (values g b), by simp, by simp [Val.table, pick]⟩
    · have e : pick b i 0 = ⟨b.sheet, b.sr + i.toNat - 1, b.sc, b.sr + i.toNat - 1, b.ec⟩ := by simp [pick, hi0]
      have hrow := values_getD g b (i.toNat - 1) (by omega)
      rw [show b.sr + (i.toNat - 1) = b.sr + i.toNat - 1 by omega] at hrow
      rw [if_pos (by simp), if_neg (by omega), if_neg (by omega), hrow]
      by_cases hc : b.ec + 1 - b.sc = 1
      · refine ⟨_, by rw [if_pos hc], ?_⟩
        rw [e, values_pick_row, hc]
        simp [Val.table]
      · refine ⟨_, by rw [if_neg hc], ?_⟩
        rw [e, values_pick_row]
        rfl
  · rw [if_neg (by omega)]
    by_cases hi0 : i = 0
    · subst hi0
      have e : pick b 0 j = ⟨b.sheet, b.sr, b.sc + j.toNat - 1, b.er, b.sc + j.toNat - 1⟩ := by simp [pick, hj0]
      rw [if_pos (by simp), if_neg (by omega)]
      by_cases hc : b.er + 1 - b.sr = 1
      · refine ⟨_, by rw [if_pos hc], ?_⟩
        rw [e, values_pick_col, values_getD g b 0 (by omega), row_getD g _ _ _ _ _ (by omega), hc,
          show b.sc + (j.toNat - 1) = b.sc + j.toNat - 1 by omega]
        simp [Val.table]
      · refine ⟨_, by rw [if_neg hc], ?_⟩
        rw [e, values_pick_col]
        simp only [Val.table, values, List.map_map]
        apply List.map_congr_left
        intro r _
        simp only [Function.comp_apply]
        rw [row_getD g _ _ _ _ _ (by omega), show b.sc + (j.toNat - 1) = b.sc + j.toNat - 1 by omega]
    · have e : pick b i j = ⟨b.sheet, b.sr + i.toNat - 1, b.sc + j.toNat - 1, b.sr + i.toNat - 1, b.sc + j.toNat - 1⟩ := by
        simp [pick, hi0, hj0]
      rw [if_neg (by omega), if_neg (by omega)]
      refine ⟨_, rfl, ?_⟩
      rw [e, values_pick_cell, values_getD g b _ (by omega), row_getD g _ _ _ _ _ (by omega),
        show b.sc + (j.toNat - 1) = b.sc + j.toNat - 1 by omega, show b.sr + (i.toNat - 1) = b.sr + i.toNat - 1 by omega]
      rfl

theorem arrayAt_ref (empty bad : α) (g : Nat → Nat → α) (b : Bounds) (hg : Good b) (i j : Int) (hi : 0 ≤ i) (hj : 0 ≤ j)
    (hn : ¬ (i ≤ height b ∧ j ≤ cols b)) : arrayAt empty bad (values g b) i.toNat j.toNat = .err .ref := by
  obtain ⟨g1, g2, g3, g4, g5, g6⟩ := hg
  simp only [height, cols] at hn
  have hl := values_length g b
  have hne : values g b ≠ [] := by intro h; rw [h] at hl; simp at hl; omega
  have hw := width_rect (values g b) _ (values_row g b) hne
  simp only [arrayAt, hl, hw]
  by_cases hj0 : j = 0
  · rw [if_pos (by omega), if_neg (by omega), if_pos (by omega)]
  · rw [if_neg (by omega)]
    by_cases hi0 : i = 0
    · rw [if_pos (by omega), if_pos (by omega)]
    · rw [if_neg (by omega), if_pos (by omega)]

/-- The same table, the same error. -/
def Same (a b : Out (Val α)) : Prop :=
  (∃ v w, a = .ok v ∧ b = .ok w ∧ v.table = w.table) ∨ (∃ e, a = .err e ∧ b = .err e)

theorem whole_ne_panic (l : Lit) : l.whole ≠ .panic := by cases l <;> simp [Lit.whole]

/-- **C97** INDEX of a range shows the same values as INDEX of an array with the values of that range, with one index
or two, also for indices that are missing, not numbers, or out of range (below 2^31). -/
theorem index_array_agrees (k : Bool) (view : Ref → Option Bounds) (base : Ref) (b : Bounds) (empty bad : α)
    (g : Nat → Nat → α) (p : Lit) (c : Option Lit) (hb : resolveBounds view base = .ok b) (hg : Good b)
    (hp : ∀ i, p.whole = .ok i → i < 2147483648) (hc : ∀ l i, c = some l → l.whole = .ok i → i < 2147483648) :
    Same (evalRef empty g (indexRef k view base p c)) (indexArray empty bad (values g b) p c) := by
  have hl := values_length g b
  have key : ∀ i j : Int, i < 2147483648 → j < 2147483648 →
      Same (evalRef empty g (indexAt k b (i, j)))
        (if i < 0 ∨ j < 0 then .err .ref else arrayAt empty bad (values g b) i.toNat j.toNat) := by
    intro i j hi hj
    by_cases h : 0 ≤ i ∧ i ≤ height b ∧ 0 ≤ j ∧ j ≤ cols b
    · obtain ⟨v, h1, h2⟩ := evalRef_table empty g _ _ (indexAt_ok k b hg i j h.1 h.2.2.1 h.2.1 h.2.2.2)
      obtain ⟨w, h3, h4⟩ := arrayAt_ok empty bad g b hg i j h.1 h.2.2.1 h.2.1 h.2.2.2
      rw [if_neg (by omega)]
      exact Or.inl ⟨v, w, h1, h3, h2.trans h4.symm⟩
    · rw [indexAt_ref k b hg i j hi hj h]
      refine Or.inr ⟨.ref, rfl, ?_⟩
      by_cases hn : i < 0 ∨ j < 0
      · rw [if_pos hn]
      · rw [if_neg hn]
        exact arrayAt_ref empty bad g b hg i j (by omega) (by omega) (by omega)
  have hone : ((values g b).length == 1) = (b.sr == b.er) := by
    rw [hl, Bool.eq_iff_iff, beq_iff_eq, beq_iff_eq]
    obtain ⟨g1, g2, g3, g4, g5, g6⟩ := hg
    omega
  cases hpw : p.whole with
  | panic => exact absurd hpw (whole_ne_panic p)
  | err e =>
    refine Or.inr ⟨e, ?_, ?_⟩
    · simp only [indexRef, hpw, Out.bind, evalRef]
    · simp only [indexArray, hpw, Out.bind]
  | ok i =>
    cases c with
    | none =>
      have e1 : indexRef k view base p none = indexAt k b (which (b.sr == b.er) i none) := by
        simp only [indexRef, hpw, wholeOpt, hb, Out.bind]
      rw [e1]
      simp only [indexArray, hpw, wholeOpt, Out.bind, hone]
      simp only [which]
      cases b.sr == b.er with
      | true => exact key 1 i (by omega) (hp i hpw)
      | false => exact key i 1 (hp i hpw) (by omega)
    | some l =>
      cases hlw : l.whole with
      | panic => exact absurd hlw (whole_ne_panic l)
      | err e =>
        refine Or.inr ⟨e, ?_, ?_⟩
        · simp only [indexRef, hpw, hlw, wholeOpt, Out.bind, evalRef]
        · simp only [indexArray, hpw, hlw, wholeOpt, Out.bind]
      | ok j =>
        rw [indexRef_two k view base p l b i j hb hpw hlw]
        simp only [indexArray, hpw, hlw, wholeOpt, Out.bind, which]
        exact key i j (hp i hpw) (hc l j rfl hlw)

/-- **C97** (refuted) For larger indices the two differ: the third row of three is the last one, but the range
`A1:A3` has a row 4294967297. -/
theorem index_array_far_wrong :
    evalRef 0 (fun r _ => r) (indexRef true (fun _ => none) (rangeRef none 1 1 3 1) (.int 4294967297) none) = .ok (.scalar 1) ∧
    indexArray 0 0 [[1], [2], [3]] (.int 4294967297) none = .err .ref := by
  constructor <;> rfl

example : indexArray 0 9 [[1, 2], [3, 4], [5, 6]] (.int 2) (some (.int 0)) = .ok (.range [[3, 4]]) := rfl
example : values (fun r c => 10 * r + c) ⟨none, 2, 1, 3, 2⟩ = [[21, 22], [31, 32]] := rfl

end Verif.RefFn
