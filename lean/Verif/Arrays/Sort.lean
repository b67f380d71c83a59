/-
Property C70: `SORT` and `SORTBY`.
-/
import Verif.Arrays.Model

namespace Verif.Arrays

open Verif.Lookup

/-! ### What a sort is -/

/-- A comparison that is an order on the elements of a list. -/
structure Orders {α : Type} (cmp : α → α → Ordering) (l : List α) : Prop where
  swap : ∀ a ∈ l, ∀ b ∈ l, cmp b a = (cmp a b).swap
  trans : ∀ a ∈ l, ∀ b ∈ l, ∀ c ∈ l, cmp a b ≠ .gt → cmp b c ≠ .gt → cmp a c ≠ .gt

/-- What is relied on of `slice::sort_by`: it permutes, and with a comparison that is an order it does not panic, sorts, and keeps the order of equal
elements. -/
structure Sorter (sortBy : SortBy) : Prop where
  perm : ∀ {α : Type} (cmp : α → α → Ordering) (l out : List α), sortBy cmp l = some out → out.Perm l
  sorts : ∀ {α : Type} (cmp : α → α → Ordering) (l : List α), Orders cmp l → ∃ out, sortBy cmp l = some out ∧
    out.Pairwise (fun a b => cmp a b ≠ .gt) ∧ ∀ a ∈ l, out.filter (fun b => decide (cmp a b = .eq)) = l.filter (fun b => decide (cmp a b = .eq))

/-! ### Comparisons by keys -/

theorem ord_lt {κ : Type} [LinearOrder κ] {x y : κ} : ord x y = .lt ↔ x < y := by
  unfold ord
  split
  · simp [*]
  · split <;> simp [*]

theorem ord_eq {κ : Type} [LinearOrder κ] {x y : κ} : ord x y = .eq ↔ x = y := by
  unfold ord
  split
  · rename_i h
    simp [ne_of_lt h]
  · split <;> simp [*]

theorem ord_gt {κ : Type} [LinearOrder κ] {x y : κ} : ord x y = .gt ↔ y < x := by
  unfold ord
  split
  · rename_i h
    simp [not_lt_of_gt h]
  · split
    · rename_i h
      subst h
      simp
    · rename_i h h'
      simp [lt_of_le_of_ne (not_lt.1 h) (Ne.symm h')]

theorem ord_swap {κ : Type} [LinearOrder κ] (x y : κ) : ord y x = (ord x y).swap := by
  rcases lt_trichotomy x y with h | h | h
  · rw [ord_lt.2 h, ord_gt.2 h]; rfl
  · rw [ord_eq.2 h, ord_eq.2 h.symm]; rfl
  · rw [ord_gt.2 h, ord_lt.2 h]; rfl

/-- The comparison of keys of an order, upwards or downwards. -/
def ordBy {κ : Type} [LinearOrder κ] (ascending : Bool) (x y : κ) : Ordering := if ascending then ord x y else (ord x y).swap

/-- Whether one key may stand before another. -/
def Before {κ : Type} [LinearOrder κ] (ascending : Bool) (x y : κ) : Prop := if ascending then x ≤ y else y ≤ x

theorem ordBy_ne_gt {κ : Type} [LinearOrder κ] {a : Bool} {x y : κ} : ordBy a x y ≠ .gt ↔ Before a x y := by
  cases a with
  | true =>
    simp only [ordBy, Before, if_true]
    rw [ne_eq, ord_gt, not_lt]
  | false =>
    simp only [ordBy, Before, Bool.false_eq_true, if_false]
    rw [← ord_swap, ne_eq, ord_gt, not_lt]

theorem ordBy_eq {κ : Type} [LinearOrder κ] {a : Bool} {x y : κ} : ordBy a x y = .eq ↔ x = y := by
  cases a with
  | true => simp only [ordBy, if_true]; exact ord_eq
  | false =>
    simp only [ordBy, Bool.false_eq_true, if_false]
    rw [← ord_swap, ord_eq]
    exact eq_comm

theorem ordBy_swap {κ : Type} [LinearOrder κ] (a : Bool) (x y : κ) : ordBy a y x = (ordBy a x y).swap := by
  cases a with
  | true => exact ord_swap x y
  | false => simp only [ordBy, Bool.false_eq_true, if_false]; rw [ord_swap x y]

theorem before_trans {κ : Type} [LinearOrder κ] {a : Bool} {x y z : κ} (h : Before a x y) (k : Before a y z) : Before a x z := by
  cases a with
  | true => exact le_trans (α := κ) h k
  | false => exact le_trans (α := κ) k h

theorem orders_of_key {α κ : Type} [LinearOrder κ] {cmp : α → α → Ordering} {l : List α} {a : Bool} (key : α → κ)
    (h : ∀ x ∈ l, ∀ y ∈ l, cmp x y = ordBy a (key x) (key y)) : Orders cmp l where
  swap x hx y hy := by rw [h y hy x hx, h x hx y hy]; exact ordBy_swap a _ _
  trans x hx y hy z hz := by
    rw [h x hx y hy, h y hy z hz, h x hx z hz, ordBy_ne_gt, ordBy_ne_gt, ordBy_ne_gt]
    exact before_trans

/-- A sort by keys: a permutation, in the order of the keys, and equal keys keep their order. -/
theorem sorts_by_key {sortBy : SortBy} (hs : Sorter sortBy) {α κ : Type} [LinearOrder κ] {cmp : α → α → Ordering} {l : List α} {a : Bool} (key : α → κ)
    (h : ∀ x ∈ l, ∀ y ∈ l, cmp x y = ordBy a (key x) (key y)) :
    ∃ out, sortBy cmp l = some out ∧ out.Perm l ∧ out.Pairwise (fun x y => Before a (key x) (key y)) ∧
      ∀ k, out.filter (fun x => decide (key x = k)) = l.filter (fun x => decide (key x = k)) := by
  obtain ⟨out, h1, h2, h3⟩ := hs.sorts cmp l (orders_of_key key h)
  have hp := hs.perm cmp l out h1
  refine ⟨out, h1, hp, ?_, ?_⟩
  · refine List.Pairwise.imp_of_mem (fun {x y} hx hy k => ?_) h2
    rwa [h x (hp.mem_iff.1 hx) y (hp.mem_iff.1 hy), ordBy_ne_gt] at k
  · intro k
    by_cases hk : ∃ x ∈ l, key x = k
    · obtain ⟨x, hx, rfl⟩ := hk
      have := h3 x hx
      have e : ∀ m : List α, (∀ y ∈ m, y ∈ l) → m.filter (fun y => decide (cmp x y = .eq)) = m.filter (fun y => decide (key y = key x)) := by
        intro m hm
        apply List.filter_congr
        intro y hy
        rw [h x hx y (hm y hy)]
        exact decide_eq_decide.2 (ordBy_eq.trans eq_comm)
      rwa [e out fun y hy => hp.mem_iff.1 hy, e l fun y hy => hy] at this
    · have e : ∀ m : List α, (∀ y ∈ m, y ∈ l) → m.filter (fun y => decide (key y = k)) = [] := by
        intro m hm
        rw [List.filter_eq_nil_iff]
        intro y hy hc
        exact hk ⟨y, hm y hy, of_decide_eq_true hc⟩
      rw [e out fun y hy => hp.mem_iff.1 hy, e l fun y hy => hy]

/-! ### Arrays -/

/-- All rows have one length, and there are cells. -/
structure Rect (g : Grid) : Prop where
  some_rows : rows g ≠ 0
  some_cols : cols g ≠ 0
  widths : ∀ row ∈ g, row.length = cols g

theorem map_range_getD {α : Type} (l : List α) (d : α) : (List.range l.length).map (fun i => l.getD i d) = l := by
  apply List.ext_getElem?
  intro i
  simp only [List.getElem?_map, List.getD_eq_getElem?_getD]
  rcases Nat.lt_or_ge i l.length with h | h
  · rw [List.getElem?_range h, Option.map_some, List.getElem?_eq_getElem h]
    rfl
  · rw [List.getElem?_eq_none (by rw [List.length_range]; exact h), List.getElem?_eq_none h]
    rfl

theorem rowOf_eq {g : Grid} (h : Rect g) {r : Nat} (hr : r < rows g) : rowOf g r = g.getD r [] := by
  unfold rowOf
  have hl : (g.getD r []).length = cols g := by
    rw [List.getD_eq_getElem?_getD, List.getElem?_eq_getElem hr]
    exact h.widths _ (List.getElem_mem hr)
  rw [← hl]
  exact map_range_getD _ _

theorem rows_eq {g : Grid} (h : Rect g) : (List.range (rows g)).map (rowOf g) = g := by
  conv => rhs; rw [← map_range_getD g []]
  apply List.map_congr_left
  intro r hr
  exact rowOf_eq h (List.mem_range.1 hr)

/-! ### SORT -/

/-- Rows are sorted by a column whose cells have keys. -/
theorem sort_by_key {E : Env} {sortBy : SortBy} (hs : Sorter sortBy) {g : Grid} (hg : Rect g) {i : Nat} (hi : i < cols g) (order : Int) {κ : Type} [LinearOrder κ]
    (key : V → κ) (h : ∀ x ∈ g, ∀ y ∈ g, cmpL E (x.getD i .empty) (y.getD i .empty) = some (ord (key (x.getD i .empty)) (key (y.getD i .empty)))) :
    ∃ out, sort E sortBy g (i + 1) order false = some (collapse out) ∧ out.Perm g ∧
      out.Pairwise (fun x y => Before (decide (0 ≤ order)) (key (x.getD i .empty)) (key (y.getD i .empty))) ∧
      ∀ k, out.filter (fun x => decide (key (x.getD i .empty) = k)) = g.filter (fun x => decide (key (x.getD i .empty) = k)) := by
  obtain ⟨out, h1, h2, h3, h4⟩ := sorts_by_key hs (a := decide (0 ≤ order)) (l := g)
    (cmp := fun a b : List V => cmpKeys E (decide (0 ≤ order)) (a.getD i .empty) (b.getD i .empty)) (fun x => key (x.getD i .empty)) (by
      intro x hx y hy
      simp only [cmpKeys, ordBy, h x hx y hy, Option.getD_some])
  refine ⟨out, ?_, h2, h3, h4⟩
  unfold sort
  have e : ((i : Int) + 1 - 1).toNat = i := by omega
  rw [if_neg (by rintro (k | k); exacts [hg.some_rows k, hg.some_cols k])]
  simp only [e, Bool.false_eq_true, if_false, rows_eq hg, ge_iff_le, Nat.not_le.2 hi]
  rw [h1]
  rfl

/-- Numbers that are equal or differ by a trillionth at least. -/
def Spread (qs : List ℚ) : Prop := ∀ x ∈ qs, ∀ y ∈ qs, near x y = true → x = y

/-- The number a cell counts as; 0 for the others. -/
def num (E : Env) (v : V) : ℚ := (toF E v).getD 0

theorem cmpL_num {E : Env} {x y : V} (hx : (toF E x).isSome) (hy : (toF E y).isSome) (h : near (num E x) (num E y) = true → num E x = num E y) :
    cmpL E x y = some (ord (num E x) (num E y)) := by
  obtain ⟨a, ha⟩ := Option.isSome_iff_exists.1 hx
  obtain ⟨b, hb⟩ := Option.isSome_iff_exists.1 hy
  have ea : num E x = a := by rw [num, ha]; rfl
  have eb : num E y = b := by rw [num, hb]; rfl
  rw [ea, eb] at h ⊢
  unfold cmpL
  rw [ha, hb]
  simp only [Option.some.injEq]
  by_cases hab : near a b = true
  · rw [if_pos hab, ord_eq.2 (h hab)]
  · rw [if_neg hab]
    split
    · rename_i hlt; rw [ord_lt.2 hlt]
    · rename_i hlt
      symm
      rw [ord_gt]
      refine lt_of_le_of_ne (not_lt.1 hlt) ?_
      rintro rfl
      exact hab (by simp [near])

/-- `SORT` of rows by a column of numbers, upwards or downwards.  Missing: numbers that are closer than a trillionth; columns that mix numbers with texts or
errors, for which the statement is false (`mixed_unsorted`, `texts_unsorted`). -/
theorem sort_numbers_partial {E : Env} {sortBy : SortBy} (hs : Sorter sortBy) {g : Grid} (hg : Rect g) {i : Nat} (hi : i < cols g) (order : Int)
    (hn : ∀ row ∈ g, (toF E (row.getD i .empty)).isSome) (hd : Spread (g.map fun row => num E (row.getD i .empty))) :
    ∃ out, sort E sortBy g (i + 1) order false = some (collapse out) ∧ out.Perm g ∧
      out.Pairwise (fun x y => if 0 ≤ order then num E (x.getD i .empty) ≤ num E (y.getD i .empty) else num E (y.getD i .empty) ≤ num E (x.getD i .empty)) ∧
      ∀ q, out.filter (fun x => decide (num E (x.getD i .empty) = q)) = g.filter (fun x => decide (num E (x.getD i .empty) = q)) := by
  obtain ⟨out, h1, h2, h3, h4⟩ := sort_by_key hs hg hi order (num E) (by
    intro x hx y hy
    exact cmpL_num (hn x hx) (hn y hy) (hd _ (List.mem_map.2 ⟨x, hx, rfl⟩) _ (List.mem_map.2 ⟨y, hy, rfl⟩)))
  refine ⟨out, h1, h2, ?_, h4⟩
  refine h3.imp ?_
  intro x y k
  unfold Before at k
  simpa using k

/-- The text of a cell without regard to case; empty for the others. -/
def word (E : Env) (v : V) : List Char := (lower E v).getD []

/-- `SORT` of rows by a column of texts that do not read as numbers. -/
theorem sort_texts_partial {E : Env} {sortBy : SortBy} (hs : Sorter sortBy) {g : Grid} (hg : Rect g) {i : Nat} (hi : i < cols g) (order : Int)
    (hn : ∀ row ∈ g, ∃ t, row.getD i .empty = .text t ∧ E.parseF t = none) :
    ∃ out, sort E sortBy g (i + 1) order false = some (collapse out) ∧ out.Perm g ∧
      out.Pairwise (fun x y => if 0 ≤ order then word E (x.getD i .empty) ≤ word E (y.getD i .empty) else word E (y.getD i .empty) ≤ word E (x.getD i .empty)) ∧
      ∀ q, out.filter (fun x => decide (word E (x.getD i .empty) = q)) = g.filter (fun x => decide (word E (x.getD i .empty) = q)) := by
  obtain ⟨out, h1, h2, h3, h4⟩ := sort_by_key (E := E) hs hg hi order (word E) (by
    intro x hx y hy
    obtain ⟨s, ha, ha'⟩ := hn x hx
    obtain ⟨t, hb, hb'⟩ := hn y hy
    rw [ha, hb]
    unfold cmpL
    simp only [toF, ha']
    rfl)
  refine ⟨out, h1, h2, ?_, fun q => (List.filter_congr fun x _ => decide_eq_decide.2 Iff.rfl).trans
    ((h4 q).trans (List.filter_congr fun x _ => decide_eq_decide.2 Iff.rfl))⟩
  refine h3.imp ?_
  intro x y k
  unfold Before at k
  simpa using k

/-- Whatever the keys, `SORT` by rows only permutes the rows. -/
theorem sort_perm {E : Env} {sortBy : SortBy} (hs : Sorter sortBy) {g : Grid} (hg : Rect g) {index order : Int} {res : Res}
    (h : sort E sortBy g index order false = some res) : res = .badValue ∨ ∃ out, res = collapse out ∧ out.Perm g := by
  unfold sort at h
  rw [if_neg (by rintro (k | k); exacts [hg.some_rows k, hg.some_cols k])] at h
  simp only [Bool.false_eq_true, if_false, rows_eq hg] at h
  split at h
  · exact .inl (Option.some.inj h).symm
  · simp only [bind, Option.bind_eq_some_iff] at h
    obtain ⟨out, h1, h2⟩ := h
    exact .inr ⟨out, (Option.some.inj h2).symm, hs.perm _ _ _ h1⟩

/-- The array with the given columns. -/
def ofCols (n : Nat) (cs : List (List V)) : Grid := (List.range n).map fun r => cs.map fun c => c.getD r .empty

/-- The columns of an array. -/
def columns (g : Grid) : List (List V) := (List.range (cols g)).map (colOf g)

theorem filter_pair {α β : Type} (p : β → Bool) (l : List (α × β)) : (l.filter fun x => p x.2).map Prod.snd = (l.map Prod.snd).filter p := by
  induction l with
  | nil => rfl
  | cons x l ih =>
    simp only [List.filter_cons, List.map_cons]
    split <;> simp [*]

/-- Columns are sorted by a row whose cells have keys: the same, for columns. -/
theorem sort_cols_by_key {E : Env} {sortBy : SortBy} (hs : Sorter sortBy) {g : Grid} (hg : Rect g) {i : Nat} (hi : i < rows g) (order : Int) {κ : Type}
    [LinearOrder κ] (key : V → κ)
    (h : ∀ x ∈ columns g, ∀ y ∈ columns g, cmpL E (x.getD i .empty) (y.getD i .empty) = some (ord (key (x.getD i .empty)) (key (y.getD i .empty)))) :
    ∃ out, sort E sortBy g (i + 1) order true = some (collapse (ofCols (rows g) out)) ∧ out.Perm (columns g) ∧
      out.Pairwise (fun x y => Before (decide (0 ≤ order)) (key (x.getD i .empty)) (key (y.getD i .empty))) ∧
      ∀ k, out.filter (fun x => decide (key (x.getD i .empty) = k)) = (columns g).filter (fun x => decide (key (x.getD i .empty) = k)) := by
  have hmem : ∀ x ∈ (List.range (cols g)).map (fun c => (c, colOf g c)), x.2 ∈ columns g := by
    intro x hx
    obtain ⟨c, hc, rfl⟩ := List.mem_map.1 hx
    exact List.mem_map_of_mem hc
  have hcols : ((List.range (cols g)).map (fun c => (c, colOf g c))).map Prod.snd = columns g := by
    rw [List.map_map]
    rfl
  obtain ⟨out, h1, h2, h3, h4⟩ := sorts_by_key hs (a := decide (0 ≤ order)) (l := (List.range (cols g)).map fun c => (c, colOf g c))
    (cmp := fun a b : Nat × List V => cmpKeys E (decide (0 ≤ order)) (a.2.getD i .empty) (b.2.getD i .empty)) (fun x => key (x.2.getD i .empty)) (by
      intro x hx y hy
      simp only [cmpKeys, ordBy, h x.2 (hmem x hx) y.2 (hmem y hy), Option.getD_some])
  refine ⟨out.map Prod.snd, ?_, ?_, ?_, ?_⟩
  · unfold sort
    have e : ((i : Int) + 1 - 1).toNat = i := by omega
    rw [if_neg (by rintro (k | k); exacts [hg.some_rows k, hg.some_cols k])]
    simp only [e, if_true, ge_iff_le, Nat.not_le.2 hi, if_false]
    rw [h1]
    simp only [ofCols, List.map_map, Function.comp_def, bind, Option.bind]
  · rw [← hcols]
    exact h2.map _
  · exact List.Pairwise.map _ (fun _ _ k => k) h3
  · intro k
    have := congrArg (List.map Prod.snd) (h4 k)
    rw [filter_pair (fun x : List V => decide (key (x.getD i .empty) = k)), filter_pair (fun x : List V => decide (key (x.getD i .empty) = k)), hcols] at this
    exact this

end Verif.Arrays
