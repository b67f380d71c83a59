/-
Property C70: `SORTBY`, a sort as it is done on short arrays, and what `SORT` gets wrong.
-/
import Verif.Arrays.Sort
import Mathlib.Tactic.Linarith
import Mathlib.Data.List.Permutation

namespace Verif.Arrays

open Verif.Lookup

/-! ### SORTBY -/

theorem ord_cons {κ : Type} [LinearOrder κ] (x y : κ) (xs ys : List κ) :
    ord (x :: xs) (y :: ys) = match ord x y with
      | .eq => ord xs ys
      | o => o := by
  rcases lt_trichotomy x y with h | h | h
  · rw [ord_lt.2 h]
    exact ord_lt.2 (List.cons_lt_cons_iff.2 (.inl h))
  · subst h
    rw [ord_eq.2 rfl]
    show ord (x :: xs) (x :: ys) = ord xs ys
    rcases lt_trichotomy xs ys with k | k | k
    · rw [ord_lt.2 k, ord_lt.2 (List.cons_lt_cons_iff.2 (.inr ⟨rfl, k⟩))]
    · rw [ord_eq.2 k, ord_eq.2 (by rw [k])]
    · rw [ord_gt.2 k, ord_gt.2 (List.cons_lt_cons_iff.2 (.inr ⟨rfl, k⟩))]
  · rw [ord_gt.2 h]
    exact ord_gt.2 (List.cons_lt_cons_iff.2 (.inl h))

theorem ord_neg (x y : ℚ) : ord (-x) (-y) = (ord x y).swap := by
  rcases lt_trichotomy x y with h | h | h
  · rw [ord_lt.2 h, ord_gt.2 (by linarith)]; rfl
  · subst h; rw [ord_eq.2 rfl, ord_eq.2 rfl]; rfl
  · rw [ord_gt.2 h, ord_lt.2 (by linarith)]; rfl

/-- The keys of the row `r`: one number for each array of keys, with the opposite sign if that array is to be sorted downwards. -/
def keyList (E : Env) (crit : List (List V × Bool)) (r : Nat) : List ℚ :=
  crit.map fun c => if c.2 then num E (c.1.getD r .empty) else - num E (c.1.getD r .empty)

/-- Arrays of keys that are numbers for the first `n` rows, equal or not too close. -/
def NumberKeys (E : Env) (n : Nat) (crit : List (List V × Bool)) : Prop :=
  ∀ c ∈ crit, (∀ r < n, (toF E (c.1.getD r .empty)).isSome) ∧ Spread ((List.range n).map fun r => num E (c.1.getD r .empty))

theorem cmpMany_key {E : Env} {n : Nat} {crit : List (List V × Bool)} (h : NumberKeys E n crit) {a b : Nat} (ha : a < n) (hb : b < n) :
    cmpMany E crit a b = ord (keyList E crit a) (keyList E crit b) := by
  induction crit with
  | nil => exact (ord_eq.2 rfl).symm
  | cons c rest ih =>
    obtain ⟨by_, asc⟩ := c
    obtain ⟨h1, h2⟩ := h (by_, asc) (List.mem_cons_self ..)
    have e : cmpKeys E asc (by_.getD a .empty) (by_.getD b .empty) =
        ord (if asc then num E (by_.getD a .empty) else - num E (by_.getD a .empty)) (if asc then num E (by_.getD b .empty) else - num E (by_.getD b .empty)) := by
      have := cmpL_num (h1 a ha) (h1 b hb) (h2 _ (List.mem_map_of_mem (List.mem_range.2 ha)) _ (List.mem_map_of_mem (List.mem_range.2 hb)))
      unfold cmpKeys
      rw [this]
      cases asc with
      | true => rfl
      | false => simp only [Bool.false_eq_true, if_false, Option.getD_some]; exact (ord_neg _ _).symm
    rw [cmpMany, e, ih fun c hc => h c (List.mem_cons_of_mem _ hc)]
    show _ = ord (_ :: keyList E rest a) (_ :: keyList E rest b)
    rw [ord_cons]
    rfl

/-- Places that keep their order within each key. -/
theorem places_increase {κ : Type} [DecidableEq κ] {f : Nat → κ} {l : List Nat} {n : Nat}
    (h : ∀ k, l.filter (fun r => decide (f r = k)) = (List.range n).filter (fun r => decide (f r = k))) : l.Pairwise (fun a b => f a = f b → a < b) := by
  rw [List.pairwise_iff_forall_sublist]
  intro a b hs heq
  have := hs.filter (fun r => decide (f r = f b))
  rw [h] at this
  simp only [List.filter_cons, decide_true, if_true, heq, List.filter_nil] at this
  exact List.pairwise_iff_forall_sublist.1 List.pairwise_lt_range (this.trans List.filter_sublist)

/-- `SORTBY` with arrays of numbers as keys: the rows in the order of their keys, where the first array decides, then the second, and so on; rows with equal
keys keep their order. -/
theorem sortby_numbers_partial {E : Env} {sortBy : SortBy} (hs : Sorter sortBy) {g : Grid} (hg : Rect g) {args : List ByArg} (hargs : args ≠ [])
    {crit : List (List V × Bool)} (hc : criteria (rows g) args = some crit) (hk : NumberKeys E (rows g) crit) :
    ∃ is : List Nat, sortby E sortBy g args = some (collapse (is.map fun r => g.getD r [])) ∧ is.Perm (List.range (rows g)) ∧
      is.Pairwise (fun a b => keyList E crit a ≤ keyList E crit b ∧ (keyList E crit a = keyList E crit b → a < b)) := by
  obtain ⟨out, h1, h2, h3, h4⟩ := sorts_by_key hs (a := true) (l := (List.range (rows g)).map fun r => (r, rowOf g r))
    (cmp := fun a b : Nat × List V => cmpMany E crit a.1 b.1) (fun x => keyList E crit x.1) (by
      intro x hx y hy
      obtain ⟨a, ha, rfl⟩ := List.mem_map.1 hx
      obtain ⟨b, hb, rfl⟩ := List.mem_map.1 hy
      exact cmpMany_key hk (List.mem_range.1 ha) (List.mem_range.1 hb))
  have hfst : ((List.range (rows g)).map fun r => (r, rowOf g r)).map Prod.fst = List.range (rows g) := by
    rw [List.map_map]
    exact List.map_id'' (fun _ => rfl) _
  refine ⟨out.map Prod.fst, ?_, ?_, ?_⟩
  · unfold sortby
    rw [if_neg hargs, if_neg (by rintro (k | k); exacts [hg.some_rows k, hg.some_cols k]), hc]
    simp only [h1, bind, Option.bind, List.map_map]
    congr 2
    apply List.map_congr_left
    intro x hx
    obtain ⟨r, hr, rfl⟩ := List.mem_map.1 (h2.mem_iff.1 hx)
    exact rowOf_eq hg (List.mem_range.1 hr)
  · rw [← hfst]
    exact h2.map _
  · have hle : (out.map Prod.fst).Pairwise (fun a b => keyList E crit a ≤ keyList E crit b) := List.Pairwise.map _ (fun _ _ k => k) h3
    have hfil : ∀ k, (out.map Prod.fst).filter (fun r => decide (keyList E crit r = k)) = (List.range (rows g)).filter (fun r => decide (keyList E crit r = k)) := by
      intro k
      have e : ∀ l : List (Nat × List V), (l.filter fun x => decide (keyList E crit x.1 = k)).map Prod.fst = (l.map Prod.fst).filter fun r => decide (keyList E crit r = k) := by
        intro l
        induction l with
        | nil => rfl
        | cons x l ih =>
          simp only [List.filter_cons, List.map_cons]
          split <;> simp [*]
      have := congrArg (List.map Prod.fst) (h4 k)
      have e' : ∀ l : List (Nat × List V), (l.filter fun x => @decide (keyList E crit x.1 = k) (LinearOrder.toDecidableEq _ _)).map Prod.fst = (l.map Prod.fst).filter fun r => decide (keyList E crit r = k) := by
        intro l
        rw [← e]
        congr 1
        exact List.filter_congr fun x _ => decide_eq_decide.2 Iff.rfl
      rw [e', e', hfst] at this
      exact this
    exact hle.and (places_increase hfil)

/-- A column or a row of `n` cells. -/
def Vector (n : Nat) (g : Grid) : Prop := (cols g = 1 ∧ rows g = n) ∨ (rows g = 1 ∧ cols g = n)

theorem keysOf_none {n : Nat} {g : Grid} (h : ¬ Vector n g) : keysOf n g = none := by
  unfold keysOf
  unfold Vector at h
  split
  · rw [if_neg]
    intro k
    exact h (.inl ⟨by assumption, k⟩)
  · split
    · rw [if_neg]
      intro k
      exact h (.inr ⟨by assumption, k⟩)
    · rfl

theorem criteria_none {n : Nat} {args : List ByArg} {g : Grid} (hg : .array g ∈ args) (h : ¬ Vector n g) : criteria n args = none := by
  induction args using criteria.induct with
  | case1 => cases hg
  | case2 g' q rest ih =>
    rw [criteria]
    rcases List.mem_cons.1 hg with h1 | h1
    · cases h1
      rw [keysOf_none h]
      rfl
    · rcases List.mem_cons.1 h1 with h1 | h1
      · cases h1
      · rw [ih h1]
        cases keysOf n g' <;> rfl
  | case3 g' rest hno ih =>
    rw [criteria]
    · rcases List.mem_cons.1 hg with h1 | h1
      · cases h1
        rw [keysOf_none h]
        rfl
      · rw [ih h1]
        cases keysOf n g' <;> rfl
    · exact hno
  | case4 q rest ih =>
    rw [criteria]
    rcases List.mem_cons.1 hg with h1 | h1
    · cases h1
    · rw [ih h1]
      cases keysOf n [[.num q]] <;> rfl

/-- An array of keys that is not a column or a row of as many cells as there are rows: `#VALUE!`. -/
theorem sortby_length (E : Env) (sortBy : SortBy) {g by_ : Grid} (hg : Rect g) {args : List ByArg} (hb : .array by_ ∈ args) (h : ¬ Vector (rows g) by_) :
    sortby E sortBy g args = some .badValue := by
  unfold sortby
  split
  · rfl
  · rw [if_neg (by rintro (k | k); exacts [hg.some_rows k, hg.some_cols k]), criteria_none hb h]

/-! ### Insertion sort -/

/-- `insert_tail` of the standard library (core/src/slice/sort/shared/smallsort.rs), on the part already sorted, in reverse. -/
def insertTail {α : Type} (less : α → α → Bool) (x : α) : List α → List α
  | [] => [x]
  | p :: ps => if less x p then p :: insertTail less x ps else x :: p :: ps

/-- `insertion_sort_shift_left` of the standard library, the sort of slices of at most 20 elements. -/
def insertion : SortBy := fun cmp l => some ((l.foldl (fun acc x => insertTail (fun a b => cmp a b == .lt) x acc) []).reverse)

theorem insertTail_perm {α : Type} (less : α → α → Bool) (x : α) (l : List α) : (insertTail less x l).Perm (x :: l) := by
  induction l with
  | nil => exact .refl _
  | cons p ps ih =>
    rw [insertTail]
    split
    · exact (List.Perm.cons p ih).trans (List.Perm.swap ..)
    · exact .refl _

theorem insertTail_sorted {α : Type} {cmp : α → α → Ordering} {l acc : List α} {x : α} (ho : Orders cmp l) (hx : x ∈ l) (hacc : ∀ a ∈ acc, a ∈ l)
    (h : acc.Pairwise (fun a b => cmp b a ≠ .gt)) : (insertTail (fun a b => cmp a b == .lt) x acc).Pairwise (fun a b => cmp b a ≠ .gt) := by
  induction acc with
  | nil => exact List.pairwise_singleton _ _
  | cons p ps ih =>
    obtain ⟨h1, h2⟩ := List.pairwise_cons.1 h
    have hp := hacc p (List.mem_cons_self ..)
    rw [insertTail]
    split
    · rename_i hl
      have hl : cmp x p = .lt := by simpa using hl
      refine List.pairwise_cons.2 ⟨fun a ha => ?_, ih (fun a ha => hacc a (List.mem_cons_of_mem _ ha)) h2⟩
      rcases List.mem_cons.1 ((insertTail_perm _ _ _).mem_iff.1 ha) with rfl | ha
      · rw [hl]; decide
      · exact h1 a ha
    · rename_i hl
      have hl : cmp x p ≠ .lt := by simpa using hl
      have hpx : cmp p x ≠ .gt := by
        rw [ho.swap x hx p hp]
        cases hc : cmp x p with
        | lt => exact absurd hc hl
        | eq => decide
        | gt => decide
      refine List.pairwise_cons.2 ⟨fun a ha => ?_, h⟩
      rcases List.mem_cons.1 ha with rfl | ha
      · exact hpx
      · exact ho.trans a (hacc a (List.mem_cons_of_mem _ ha)) p hp x hx (h1 a ha) hpx

theorem insertTail_filter {α : Type} {cmp : α → α → Ordering} {l acc : List α} {x a : α} (ho : Orders cmp l) (hx : x ∈ l) (ha : a ∈ l) (hacc : ∀ a ∈ acc, a ∈ l) :
    (insertTail (fun a b => cmp a b == .lt) x acc).filter (fun b => decide (cmp a b = .eq)) = (x :: acc).filter (fun b => decide (cmp a b = .eq)) := by
  induction acc with
  | nil => rfl
  | cons p ps ih =>
    have hp := hacc p (List.mem_cons_self ..)
    rw [insertTail]
    split
    · rename_i hl
      have hl : cmp x p = .lt := by simpa using hl
      have ih := ih fun a ha => hacc a (List.mem_cons_of_mem _ ha)
      rw [List.filter_cons, ih]
      simp only [List.filter_cons]
      by_cases h1 : cmp a x = .eq
      · have h2 : cmp a p ≠ .eq := by
          intro h2
          have h3 : cmp p a ≠ .gt := by rw [ho.swap a ha p hp, h2]; decide
          have h4 := ho.trans p hp a ha x hx h3 (by rw [h1]; decide)
          rw [ho.swap x hx p hp, hl] at h4
          exact h4 rfl
        simp [h1, h2]
      · simp [h1]
    · rfl

theorem insertion_fold {α : Type} {cmp : α → α → Ordering} {l : List α} (ho : Orders cmp l) (done todo acc : List α) (hl : ∀ a, a ∈ done ∨ a ∈ todo ↔ a ∈ l)
    (hp : acc.Perm done) (h1 : acc.Pairwise (fun a b => cmp b a ≠ .gt))
    (h2 : ∀ a ∈ l, acc.filter (fun b => decide (cmp a b = .eq)) = (done.filter (fun b => decide (cmp a b = .eq))).reverse) :
    (todo.foldl (fun acc x => insertTail (fun a b => cmp a b == .lt) x acc) acc).Pairwise (fun a b => cmp b a ≠ .gt) ∧
      ∀ a ∈ l, (todo.foldl (fun acc x => insertTail (fun a b => cmp a b == .lt) x acc) acc).filter (fun b => decide (cmp a b = .eq)) =
        ((done ++ todo).filter (fun b => decide (cmp a b = .eq))).reverse := by
  induction todo generalizing done acc with
  | nil =>
    rw [List.append_nil]
    exact ⟨h1, h2⟩
  | cons x todo ih =>
    have hx : x ∈ l := (hl x).1 (.inr (List.mem_cons_self ..))
    have hacc : ∀ a ∈ acc, a ∈ l := fun a ha => (hl a).1 (.inl (hp.mem_iff.1 ha))
    have := ih (done ++ [x]) (insertTail (fun a b => cmp a b == .lt) x acc) (by
        intro a
        rw [← hl a, List.mem_append, List.mem_singleton, List.mem_cons]
        exact or_assoc) ((insertTail_perm _ _ _).trans ((List.Perm.cons x hp).trans (List.perm_append_singleton x done).symm))
      (insertTail_sorted ho hx hacc h1) (by
        intro a ha
        rw [insertTail_filter ho hx ha hacc, List.filter_cons, h2 a ha, List.filter_append, List.reverse_append]
        by_cases h : cmp a x = .eq <;> simp [h])
    rw [List.append_assoc] at this
    exact this

theorem insertion_perm {α : Type} (cmp : α → α → Ordering) (l acc : List α) :
    (l.foldl (fun acc x => insertTail (fun a b => cmp a b == .lt) x acc) acc).Perm (l ++ acc) := by
  induction l generalizing acc with
  | nil => exact .refl _
  | cons x l ih => exact (ih _).trans ((List.Perm.append_left l (insertTail_perm _ x acc)).trans List.perm_middle)

/-- Insertion sort is such a sort. -/
theorem insertion_sorter : Sorter insertion where
  perm cmp l out h := by
    cases h
    have := insertion_perm cmp l []
    rw [List.append_nil] at this
    exact (List.reverse_perm _).trans this
  sorts cmp l ho := by
    obtain ⟨h1, h2⟩ := insertion_fold ho [] l [] (by simp) (.refl _) List.Pairwise.nil (fun _ _ => rfl)
    refine ⟨_, rfl, ?_, fun a ha => ?_⟩
    · rw [List.pairwise_reverse]
      exact h1
    · rw [List.filter_reverse, h2 a ha, List.reverse_reverse, List.nil_append]

/-! ### What goes wrong -/

/-- Numbers, texts that read as numbers, and booleans. -/
example : sort sampleD insertion [[.num 5, .text ['p']], [.num 3, .text ['q']], [.num 5, .text ['r']], [.num 4, .text ['s']]] 1 (-1) false =
    some (.grid [[.num 5, .text ['p']], [.num 5, .text ['r']], [.num 4, .text ['s']], [.num 3, .text ['q']]]) := by decide +kernel

/-- Columns sorted by their second row. -/
example : sort sampleD insertion [[.num 5, .num 6, .num 7], [.num 3, .num 1, .num 2]] 2 1 true = some (.grid [[.num 6, .num 7, .num 5], [.num 1, .num 2, .num 3]]) := by
  decide +kernel

/-- The hypotheses of `sort_numbers_partial` hold for a column of numbers. -/
example : Rect [[.num 5, .text ['p']], [.num 3, .text ['q']], [.bool true, .text ['r']]] ∧
    Spread ([[.num 5, .text ['p']], [.num 3, .text ['q']], [.bool true, .text ['r']]].map fun row => num sampleD (row.getD 0 .empty)) := by
  refine ⟨⟨by decide, by decide, by decide⟩, ?_⟩
  rw [show [[.num 5, .text ['p']], [.num 3, .text ['q']], [.bool true, .text ['r']]].map (fun row => num sampleD (row.getD 0 .empty)) = [5, 3, 1] by decide +kernel]
  unfold Spread
  decide +kernel

/-- `SORTBY` with two arrays of keys: the second decides where the first is equal. -/
example : sortby sampleD insertion [[.text ['a']], [.text ['b']], [.text ['c']]] [.array [[.num 1], [.num 2], [.num 1]], .array [[.num 5], [.num 6], [.num 7]], .number (-1)] =
    some (.grid [[.text ['c']], [.text ['a']], [.text ['b']]]) := by decide +kernel

/-- A text between numbers keeps them from being sorted: 2, `a`, 1 stay as they are.  Excel gives 1, 2, `a`. -/
theorem mixed_unsorted : sort sampleD insertion [[.num 2], [.text ['a']], [.num 1]] 1 1 false = some (.grid [[.num 2], [.text ['a']], [.num 1]]) := by decide +kernel

/-- The texts `10`, `1a` and `9`: `10` is before `1a` and `1a` before `9` as texts, and `9` before `10` as numbers.  No order of them is sorted, whatever the
sort. -/
theorem texts_unsorted (out : List V) (h : out.Perm [.text ['1', '0'], .text ['1', 'a'], .text ['9']]) : ¬ out.Pairwise (fun a b => cmpKeys sampleD true a b ≠ .gt) := by
  have hm : out ∈ [V.text ['1', '0'], .text ['1', 'a'], .text ['9']].permutations' := List.mem_permutations'.2 h
  revert hm
  have : ∀ out ∈ [V.text ['1', '0'], .text ['1', 'a'], .text ['9']].permutations', ¬ out.Pairwise (fun a b => cmpKeys sampleD true a b ≠ .gt) := by decide +kernel
  exact this out

/-- So the result depends on the order of the rows. -/
theorem texts_order_matters :
    sort sampleD insertion [[.text ['1', '0']], [.text ['1', 'a']], [.text ['9']]] 1 1 false = some (.grid [[.text ['1', '0']], [.text ['1', 'a']], [.text ['9']]]) ∧
    sort sampleD insertion [[.text ['1', 'a']], [.text ['9']], [.text ['1', '0']]] 1 1 false = some (.grid [[.text ['1', 'a']], [.text ['9']], [.text ['1', '0']]]) := by
  constructor <;> decide +kernel

/-- Numbers less than a trillionth apart are not sorted, though the first and the last are farther apart. -/
theorem close_unsorted : sort sampleD insertion [[.num (12 / 10 ^ 13)], [.num (6 / 10 ^ 13)], [.num 0]] 1 1 false =
    some (.grid [[.num (12 / 10 ^ 13)], [.num (6 / 10 ^ 13)], [.num 0]]) ∧ cmpKeys sampleD true (.num (12 / 10 ^ 13)) (.num 0) = .gt := by
  constructor <;> decide +kernel

/-- An empty cell counts as 0 and stands between negative and positive numbers.  Excel puts it last. -/
theorem blank_between : sort sampleD insertion [[.num 1], [.empty], [.num (-1)]] 1 1 false = some (.grid [[.num (-1)], [.empty], [.num 1]]) := by decide +kernel

/-- A column number below 1 counts as 1.  Excel gives `#VALUE!`. -/
theorem index_below_one (E : Env) (sortBy : SortBy) (g : Grid) (index order : Int) (byCol : Bool) (h : index ≤ 1) :
    sort E sortBy g index order byCol = sort E sortBy g 1 order byCol := by
  unfold sort
  rw [show (index - 1).toNat = (1 - 1 : Int).toNat by omega]

end Verif.Arrays
