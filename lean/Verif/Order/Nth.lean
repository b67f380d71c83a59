import Verif.Order.Model
import Mathlib.Tactic.Linarith
import Mathlib.Tactic.Ring
import Mathlib.Tactic.ByContra
import Mathlib.Tactic.Push

/-!
# Places in ascending order

What quickselect gives is the element of the sorted list.
-/

namespace Verif.Order

theorem ascending_perm (l : List ℚ) : (ascending l).Perm l := List.perm_insertionSort ..
theorem descending_perm (l : List ℚ) : (descending l).Perm l := List.perm_insertionSort ..

theorem ascending_sorted (l : List ℚ) : (ascending l).Pairwise (· ≤ ·) := List.pairwise_insertionSort ..

theorem descending_sorted (l : List ℚ) : (descending l).Pairwise (fun a b => b ≤ a) := by
  have := List.pairwise_insertionSort (r := fun a b : ℚ => a ≥ b) l
  exact this

theorem ascending_length (l : List ℚ) : (ascending l).length = l.length := (ascending_perm l).length_eq
theorem descending_length (l : List ℚ) : (descending l).length = l.length := (descending_perm l).length_eq

/-- The number at place `k` of the sorted list. -/
def nth (l : List ℚ) (k : Nat) : ℚ := (ascending l).getD k 0

theorem IsNth.perm {l l' : List ℚ} (hp : l.Perm l') {k : Nat} {v : ℚ} (h : IsNth l k v) : IsNth l' k v :=
  ⟨hp.mem_iff.mp h.1, by rw [← hp.countP_eq]; exact h.2.1, by rw [← hp.countP_eq]; exact h.2.2⟩

/-- There is only one number at a place. -/
theorem isNth_unique {l : List ℚ} {k : Nat} {v w : ℚ} (hv : IsNth l k v) (hw : IsNth l k w) : v = w := by
  have key : ∀ {v w : ℚ}, IsNth l k v → IsNth l k w → ¬v < w := by
    intro v w hv hw hlt
    have : l.countP (fun x => decide (x ≤ v)) ≤ l.countP (fun x => decide (x < w)) := by
      apply List.countP_mono_left
      intro x _ hx
      simp only [decide_eq_true_eq] at hx ⊢
      linarith
    have := hv.2.2
    have := hw.2.1
    omega
  rcases lt_trichotomy v w with h | h | h
  · exact absurd h (key hv hw)
  · exact h
  · exact absurd h (key hw hv)

theorem countP_zero {l : List ℚ} {p : ℚ → Bool} (h : ∀ x ∈ l, p x = false) : l.countP p = 0 := by
  rw [List.countP_eq_zero]
  intro x hx
  rw [h x hx]
  simp

theorem countP_all {l : List ℚ} {p : ℚ → Bool} (h : ∀ x ∈ l, p x = true) : l.countP p = l.length := List.countP_eq_length.mpr h

/-- A list split at a place. -/
theorem isNth_split {a b : List ℚ} {v : ℚ} (ha : ∀ x ∈ a, x ≤ v) (hb : ∀ x ∈ b, v ≤ x) : IsNth (a ++ v :: b) a.length v := by
  refine ⟨by simp, ?_, ?_⟩
  · rw [List.countP_append, List.countP_cons, countP_zero (l := b) (fun x hx => by simpa using hb x hx)]
    simp only [lt_irrefl, decide_false, Bool.false_eq_true, if_false, Nat.add_zero]
    exact List.countP_le_length
  · rw [List.countP_append, List.countP_cons, countP_all (l := a) (fun x hx => by simpa using ha x hx)]
    simp only [le_refl, decide_true, if_true]
    omega

theorem nth_isNth {l : List ℚ} {k : Nat} (hk : k < l.length) : IsNth l k (nth l k) := by
  refine IsNth.perm (ascending_perm l) ?_
  have hk' : k < (ascending l).length := by rw [ascending_length]; exact hk
  have hs := ascending_sorted l
  have e : nth l k = (ascending l)[k] := by simp [nth, hk']
  have es : ascending l = (ascending l).take k ++ (ascending l)[k] :: (ascending l).drop (k + 1) := by
    rw [← List.drop_eq_getElem_cons hk', List.take_append_drop]
  rw [e]
  rw [es, List.pairwise_append, List.pairwise_cons] at hs
  have := isNth_split (a := (ascending l).take k) (b := (ascending l).drop (k + 1)) (v := (ascending l)[k]) (fun x hx => hs.2.2 x hx _ (List.mem_cons_self ..)) (fun x hx => hs.2.1.1 x hx)
  rw [← es, List.length_take, Nat.min_eq_left (Nat.le_of_lt hk')] at this
  exact this

theorem nth_perm {l l' : List ℚ} (h : l.Perm l') (k : Nat) : nth l k = nth l' k := by
  by_cases hk : k < l.length
  · exact isNth_unique (nth_isNth hk) ((nth_isNth (h.length_eq ▸ hk)).perm h.symm)
  · have h1 : ¬k < (ascending l).length := by rw [ascending_length]; exact hk
    have h2 : ¬k < (ascending l').length := by rw [ascending_length, ← h.length_eq]; exact hk
    simp only [nth, List.getD_eq_getElem?_getD, List.getElem?_eq_none (Nat.le_of_not_lt h1), List.getElem?_eq_none (Nat.le_of_not_lt h2)]

theorem nth_mono {l : List ℚ} {i j : Nat} (hij : i ≤ j) (hj : j < l.length) : nth l i ≤ nth l j := by
  have hj' : j < (ascending l).length := by rw [ascending_length]; exact hj
  have hi' : i < (ascending l).length := by omega
  simp only [nth, List.getD_eq_getElem?_getD, List.getElem?_eq_getElem hj', List.getElem?_eq_getElem hi', Option.getD_some]
  rcases Nat.eq_or_lt_of_le hij with rfl | hlt
  · exact le_refl _
  · exact List.pairwise_iff_getElem.mp (ascending_sorted l) i j hi' hj' hlt

theorem nth_mem {l : List ℚ} {k : Nat} (hk : k < l.length) : nth l k ∈ l := (nth_isNth hk).1

theorem nth_first {l : List ℚ} {x : ℚ} (hx : x ∈ l) : nth l 0 ≤ x := by
  have h0 := nth_isNth (l := l) (k := 0) (List.length_pos_of_mem hx)
  by_contra hlt
  have := h0.2.1
  have h2 : 0 < l.countP (fun y => decide (y < nth l 0)) := List.countP_pos_iff.mpr ⟨x, hx, by simpa using hlt⟩
  omega

theorem nth_last {l : List ℚ} {x : ℚ} (hx : x ∈ l) : x ≤ nth l (l.length - 1) := by
  have hpos := List.length_pos_of_mem hx
  have h0 := nth_isNth (l := l) (k := l.length - 1) (by omega)
  by_contra hlt
  have h1 := h0.2.2
  have h2 : l.countP (fun y => decide (y ≤ nth l (l.length - 1))) < l.length := by
    refine lt_of_le_of_ne List.countP_le_length fun he => hlt ?_
    simpa using List.countP_eq_length.mp he x hx
  omega

/-! ## Selection -/

theorem select_nth (sel : Select) {l : List ℚ} {k : Nat} (hk : k < l.length) : nthSmallest sel l k = nth l k := by
  refine isNth_unique (l := l) (k := k) ?_ (nth_isNth hk)
  have := isNth_split (v := (sel.run l k).2.1) (sel.before l k hk) (sel.after l k hk)
  rw [sel.place l k hk] at this
  exact this.perm (sel.perm l k hk)

theorem least_spec (l : List ℚ) : ∀ v, least v l ∈ v :: l ∧ ∀ x ∈ v :: l, least v l ≤ x := by
  induction l with
  | nil => intro v; simp [least]
  | cons a l ih =>
    intro v
    rw [least]
    obtain ⟨i1, i2⟩ := ih (if a < v then a else v)
    constructor
    · rcases List.mem_cons.mp i1 with h | h
      · rw [h]; split <;> simp
      · exact List.mem_cons_of_mem _ (List.mem_cons_of_mem _ h)
    · intro x hx
      have h0 := i2 _ (List.mem_cons_self ..)
      rcases List.mem_cons.mp hx with rfl | hx
      · split at h0 <;> rename_i hlt
        · rw [if_pos hlt]; linarith
        · rw [if_neg hlt]; exact h0
      · rcases List.mem_cons.mp hx with rfl | hx
        · split at h0 <;> rename_i hlt
          · rw [if_pos hlt]; exact h0
          · rw [if_neg hlt]; linarith
        · exact i2 _ (List.mem_cons_of_mem _ hx)

theorem select_adjacent (sel : Select) {l : List ℚ} {k : Nat} (hk : k + 1 < l.length) : adjacentSmallest sel l k = (nth l k, nth l (k + 1)) := by
  have hk' : k < l.length := by omega
  have e1 : (adjacentSmallest sel l k).1 = nth l k := select_nth sel hk'
  have hperm := sel.perm l k hk'
  have hplace := sel.place l k hk'
  have hb := sel.before l k hk'
  have ha := sel.after l k hk'
  have e2 : (adjacentSmallest sel l k).2 = nth l (k + 1) := by
    unfold adjacentSmallest
    simp only
    revert hperm hplace hb ha
    generalize sel.run l k = r
    intro hperm hplace hb ha
    obtain ⟨a, v, b⟩ := r
    simp only at hperm hplace hb ha ⊢
    cases b with
    | nil =>
      have := hperm.length_eq
      simp at this
      omega
    | cons w b =>
      simp only
      obtain ⟨l1, l2⟩ := least_spec b w
      generalize least w b = m at l1 l2 ⊢
      refine isNth_unique (l := l) (k := k + 1) ?_ (nth_isNth hk)
      refine IsNth.perm hperm ?_
      refine ⟨List.mem_append_right _ (List.mem_cons_of_mem _ l1), ?_, ?_⟩
      · rw [List.countP_append, List.countP_cons, countP_zero (l := w :: b) (fun x hx => by simpa using l2 x hx)]
        have : a.countP (fun x => decide (x < m)) ≤ a.length := List.countP_le_length
        split <;> omega
      · have hvm : v ≤ m := ha m l1
        rw [List.countP_append, List.countP_cons, countP_all (l := a) (fun x hx => by simpa using le_trans (hb x hx) hvm)]
        have : 0 < (w :: b).countP (fun x => decide (x ≤ m)) := List.countP_pos_iff.mpr ⟨m, l1, by simp⟩
        simp only [hvm, decide_true, if_true]
        omega
  exact Prod.ext e1 e2

/-! ## Between two places -/

/-- The number at a place that need not be whole, on the line between the two places around it. -/
def interp (l : List ℚ) (r : ℚ) : ℚ := nth l ⌊r⌋₊ + (nth l (⌊r⌋₊ + 1) - nth l ⌊r⌋₊) * (r - ⌊r⌋₊)

theorem interp_nat (l : List ℚ) (k : Nat) : interp l k = nth l k := by simp [interp]

theorem interp_add (l : List ℚ) (k : Nat) {f : ℚ} (h0 : 0 ≤ f) (h1 : f < 1) : interp l (k + f) = nth l k + (nth l (k + 1) - nth l k) * f := by
  have : ⌊(k : ℚ) + f⌋₊ = k := by
    rw [Nat.floor_eq_iff (by positivity)]
    constructor <;> linarith
  rw [interp, this]
  ring

theorem floor_lt_of {r : ℚ} {n : Nat} (h0 : 0 ≤ r) (h : r ≤ (n : ℚ) - 1) : ⌊r⌋₊ < n := by
  have := Nat.floor_le h0
  have h2 : (⌊r⌋₊ : ℚ) < n := by linarith
  exact_mod_cast h2

theorem interp_le {l : List ℚ} {r : ℚ} (h0 : 0 ≤ r) (h : r ≤ (l.length : ℚ) - 1) : nth l ⌊r⌋₊ ≤ interp l r ∧ (⌊r⌋₊ + 1 < l.length → interp l r ≤ nth l (⌊r⌋₊ + 1)) ∧ (¬⌊r⌋₊ + 1 < l.length → interp l r = nth l ⌊r⌋₊) := by
  have f0 := Nat.floor_le h0
  have f1 := Nat.lt_floor_add_one r
  refine ⟨?_, ?_, ?_⟩
  · by_cases hk : ⌊r⌋₊ + 1 < l.length
    · have := nth_mono (l := l) (Nat.le_succ ⌊r⌋₊) hk
      have : 0 ≤ (nth l (⌊r⌋₊ + 1) - nth l ⌊r⌋₊) * (r - ⌊r⌋₊) := mul_nonneg (by linarith) (by linarith)
      unfold interp
      linarith
    · have hk' : l.length ≤ ⌊r⌋₊ + 1 := by omega
      have : (l.length : ℚ) ≤ ⌊r⌋₊ + 1 := by exact_mod_cast hk'
      have e : r - ⌊r⌋₊ = 0 := by linarith
      rw [interp, e]
      simp
  · intro hk
    have := nth_mono (l := l) (Nat.le_succ ⌊r⌋₊) hk
    have : (nth l (⌊r⌋₊ + 1) - nth l ⌊r⌋₊) * (r - ⌊r⌋₊) ≤ (nth l (⌊r⌋₊ + 1) - nth l ⌊r⌋₊) * 1 := mul_le_mul_of_nonneg_left (by linarith) (by linarith)
    unfold interp
    linarith
  · intro hk
    have hk' : l.length ≤ ⌊r⌋₊ + 1 := by omega
    have : (l.length : ℚ) ≤ ⌊r⌋₊ + 1 := by exact_mod_cast hk'
    have e : r - ⌊r⌋₊ = 0 := by linarith
    rw [interp, e]
    simp

theorem interp_mono {l : List ℚ} {r r' : ℚ} (h0 : 0 ≤ r) (hr : r ≤ r') (h : r' ≤ (l.length : ℚ) - 1) : interp l r ≤ interp l r' := by
  have hf : ⌊r⌋₊ ≤ ⌊r'⌋₊ := Nat.floor_mono hr
  rcases Nat.eq_or_lt_of_le hf with he | hlt
  · have hlt := floor_lt_of (le_trans h0 hr) h
    by_cases hk : ⌊r⌋₊ + 1 < l.length
    · unfold interp
      rw [← he]
      have := nth_mono (l := l) (Nat.le_succ ⌊r⌋₊) hk
      have : (nth l (⌊r⌋₊ + 1) - nth l ⌊r⌋₊) * (r - ⌊r⌋₊) ≤ (nth l (⌊r⌋₊ + 1) - nth l ⌊r⌋₊) * (r' - ⌊r⌋₊) := mul_le_mul_of_nonneg_left (by linarith) (by linarith)
      linarith
    · rw [(interp_le h0 (le_trans hr h)).2.2 hk, he]
      exact (interp_le (le_trans h0 hr) h).1
  · have hlt' := floor_lt_of (le_trans h0 hr) h
    have h1 := (interp_le h0 (le_trans hr h)).2.1 (by omega)
    have h2 := (interp_le (le_trans h0 hr) h).1
    have h3 := nth_mono (l := l) (i := ⌊r⌋₊ + 1) (j := ⌊r'⌋₊) hlt hlt'
    linarith

theorem interp_perm {l l' : List ℚ} (h : l.Perm l') (r : ℚ) : interp l r = interp l' r := by
  unfold interp
  rw [nth_perm h, nth_perm h]

end Verif.Order
