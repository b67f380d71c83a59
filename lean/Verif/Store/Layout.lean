import Mathlib.Data.List.Basic
import Mathlib.Data.List.GetD
import Mathlib.Data.List.Forall2
import Mathlib.Algebra.BigOperators.Group.List.Basic
import Mathlib.Tactic.Tauto
import Verif.Store.Cells

/-!
# The layout of chunks

The widths of the chunks as a list; rows located in it; what a plan of slices does to the cells laid out
by it.
-/

namespace Verif.Store

variable {F G : Type}

/-- All cells of a column whose chunks, from number `i` on, have the given widths. -/
def walkCells (norm : F → G) (get : Nat → Option (Chunk F)) : Nat → List Nat → List (Cell G)
  | _, [] => []
  | i, w :: L => (List.range' 0 w).map (cellOf norm (get i)) ++ walkCells norm get (i + 1) L

theorem walkCells_length (norm : F → G) (get : Nat → Option (Chunk F)) (L : List Nat) (i : Nat) :
    (walkCells norm get i L).length = L.sum := by
  induction L generalizing i with
  | nil => rfl
  | cons w L ih => simp [walkCells, ih]

/-- The chunk and the offset of a row. -/
def find : List Nat → Nat → Option (Nat × Nat)
  | [], _ => none
  | w :: L, r => if r < w then some (0, r) else (find L (r - w)).map fun x => (x.1 + 1, x.2)

theorem find_spec (L : List Nat) (r : Nat) (h : r < L.sum) :
    ∃ j o w, find L r = some (j, o) ∧ L[j]? = some w ∧ o < w ∧ r = (L.take j).sum + o := by
  induction L generalizing r with
  | nil => simp at h
  | cons w L ih =>
    simp only [List.sum_cons] at h
    by_cases hr : r < w
    · exact ⟨0, r, w, by simp [find, hr], by simp, hr, by simp⟩
    · obtain ⟨j, o, w', h1, h2, h3, h4⟩ := ih (r - w) (by omega)
      refine ⟨j + 1, o, w', by simp [find, hr, h1], by simpa using h2, h3, ?_⟩
      simp only [List.take_succ_cons, List.sum_cons]
      omega

theorem find_none (L : List Nat) (r : Nat) (h : L.sum ≤ r) : find L r = none := by
  induction L generalizing r with
  | nil => rfl
  | cons w L ih =>
    simp only [List.sum_cons] at h
    simp [find, ih (r - w) (by omega), show ¬ r < w by omega]

theorem walkCells_get (norm : F → G) (get : Nat → Option (Chunk F)) (L : List Nat) (i r : Nat) :
    (walkCells norm get i L)[r]? = (find L r).map fun x => cellOf norm (get (i + x.1)) x.2 := by
  induction L generalizing i r with
  | nil => rfl
  | cons w L ih =>
    simp only [walkCells, find]
    by_cases hr : r < w
    · rw [List.getElem?_append_left (by simpa using hr), if_pos hr, List.getElem?_map,
        List.getElem?_range' hr]
      simp
    · rw [List.getElem?_append_right (by simpa using Nat.not_lt.1 hr), if_neg hr]
      simp only [List.length_map, List.length_range']
      rw [ih, Option.map_map]
      congr 1
      funext x
      simp only [Function.comp]
      congr 2
      omega

theorem walkCells_congr (norm : F → G) (get get' : Nat → Option (Chunk F)) (L : List Nat) (i : Nat)
    (h : ∀ j, j < L.length → ∀ o, o < L.getD j 0 →
      cellOf norm (get (i + j)) o = cellOf norm (get' (i + j)) o) :
    walkCells norm get i L = walkCells norm get' i L := by
  induction L generalizing i with
  | nil => rfl
  | cons w L ih =>
    simp only [walkCells]
    congr 1
    · apply List.map_congr_left
      intro o ho
      rw [List.mem_range'_1] at ho
      exact h 0 (by simp) o (by simpa using ho)
    · apply ih
      intro j hj o ho
      have := h (j + 1) (by simpa using hj) o (by simpa using ho)
      rwa [show i + (j + 1) = i + 1 + j by omega] at this

theorem walkCells_blank (norm : F → G) (get : Nat → Option (Chunk F)) (L : List Nat) (i : Nat)
    (h : ∀ j, i ≤ j → ∀ o, cellOf norm (get j) o = Cell.blank) :
    walkCells norm get i L = List.replicate L.sum Cell.blank := by
  induction L generalizing i with
  | nil => rfl
  | cons w L ih =>
    simp only [walkCells, List.sum_cons]
    rw [ih (i + 1) (fun j hj => h j (by omega)), List.replicate_add]
    congr 1
    rw [List.eq_replicate_iff]
    refine ⟨by simp, ?_⟩
    intro b hb
    rw [List.mem_map] at hb
    obtain ⟨o, _, rfl⟩ := hb
    exact h i (by omega) o

theorem walkCells_append (norm : F → G) (get : Nat → Option (Chunk F)) (A B : List Nat) (i : Nat) :
    walkCells norm get i (A ++ B) = walkCells norm get i A ++ walkCells norm get (i + A.length) B := by
  induction A generalizing i with
  | nil => rfl
  | cons w A ih =>
    simp only [List.cons_append, walkCells, List.append_assoc, ih, List.length_cons]
    rw [show i + 1 + A.length = i + (A.length + 1) by omega]

/-! ## The chunk map -/

theorem sums_width (L : List Nat) (s j : Nat) :
    ((sums s L)[j]?).map (fun a => ((sums s L)[j + 1]?).getD (s + L.sum) - a) = L[j]? := by
  induction L generalizing s j with
  | nil => simp [sums]
  | cons w L ih =>
    cases j with
    | zero =>
      cases L with
      | nil => simp [sums]
      | cons v L => simp [sums]
    | succ j =>
      have := ih (s + w) j
      simp only [sums, List.getElem?_cons_succ, List.sum_cons]
      rwa [show s + (w + L.sum) = s + w + L.sum by omega]

theorem takeWhile_sums (L : List Nat) (s r : Nat) (h : r < s) :
    (sums s L).takeWhile (· ≤ r) = [] := by
  cases L with
  | nil => rfl
  | cons w L => simp [sums, show ¬ s ≤ r by omega]

theorem sums_find (L : List Nat) (s r : Nat) (hs : s ≤ r) (hr : r < s + L.sum) :
    ∃ j o, find L (r - s) = some (j, o) ∧ ((sums s L).takeWhile (· ≤ r)).length = j + 1
      ∧ (sums s L)[j]? = some (r - o) ∧ o ≤ r := by
  induction L generalizing s with
  | nil => simp at hr; omega
  | cons w L ih =>
    simp only [List.sum_cons] at hr
    by_cases h : r < s + w
    · refine ⟨0, r - s, ?_, ?_, ?_, by omega⟩
      · simp only [find]; rw [if_pos (by omega)]
      · simp only [sums, List.takeWhile_cons, hs, decide_true, if_true]
        rw [takeWhile_sums L (s + w) r h]; rfl
      · simp only [sums, List.getElem?_cons_zero]
        congr 1; omega
    · obtain ⟨j, o, h1, h2, h3, h4⟩ := ih (s + w) (by omega) (by omega)
      refine ⟨j + 1, o, ?_, ?_, ?_, h4⟩
      · simp only [find]
        rw [if_neg (by omega), show r - s - w = r - (s + w) by omega, h1]; rfl
      · simp only [sums, List.takeWhile_cons, hs, decide_true, if_true, List.length_cons]
        rw [h2]
      · simpa [sums] using h3

theorem sums_length (L : List Nat) (s : Nat) : (sums s L).length = L.length := by
  induction L generalizing s with
  | nil => rfl
  | cons w L ih => simp [sums, ih]

theorem sums_append (A B : List Nat) (s : Nat) :
    sums s (A ++ B) = sums s A ++ sums (s + A.sum) B := by
  induction A generalizing s with
  | nil => simp [sums]
  | cons w A ih =>
    simp only [List.cons_append, sums, List.sum_cons, ih]
    rw [show s + w + A.sum = s + (w + A.sum) by omega]

/-! ## Plans -/

/-- The loop over the chunk map, over widths. -/
def walkL (item : Nat → Nat → Nat → List Item) : Nat → Nat → List Nat → List Item
  | _, _, [] => []
  | i, s, w :: L => item i s (s + w) ++ walkL item (i + 1) (s + w) L

theorem walk_sums (item : Nat → Nat → Nat → List Item) (L : List Nat) (i s : Nat) :
    walk (s + L.sum) item i (sums s L) = walkL item i s L := by
  induction L generalizing i s with
  | nil => rfl
  | cons w L ih =>
    simp only [sums, walk, walkL, List.sum_cons]
    have := ih (i + 1) (s + w)
    rw [show s + (w + L.sum) = s + w + L.sum by omega, this]
    congr 1
    cases L with
    | nil => simp [sums]
    | cons v L => simp [sums]

/-- The cells an item stands for. -/
def itemCells (norm : F → G) (get : Nat → Option (Chunk F)) : Item → List (Cell G)
  | .slice i off len => (List.range' off len).map (cellOf norm (get i))
  | .empty len => List.replicate len Cell.blank

theorem itemCells_length (norm : F → G) (get : Nat → Option (Chunk F)) (x : Item) :
    (itemCells norm get x).length = x.len := by
  cases x <;> simp [itemCells, Item.len]

theorem planCells_length (norm : F → G) (get : Nat → Option (Chunk F)) (plan : List Item) :
    (plan.flatMap (itemCells norm get)).length = (plan.map Item.len).sum := by
  induction plan with
  | nil => rfl
  | cons x plan ih => simp [itemCells_length, ih]

theorem take_add {α : Type} (A B : List α) (w p : Nat) (h : A.length = w) :
    (A ++ B).take (w + p) = A ++ B.take p := by
  subst h; exact List.take_length_add_append p

theorem drop_add {α : Type} (A B : List α) (w p : Nat) (h : A.length = w) :
    (A ++ B).drop (w + p) = B.drop p := by
  subst h; exact List.drop_length_add_append p

theorem insert_after (norm : F → G) (get : Nat → Option (Chunk F)) (k off n : Nat) (L : List Nat)
    (i s : Nat) (h : k < i) :
    (walkL (insertItem k off n) i s L).flatMap (itemCells norm get) = walkCells norm get i L := by
  induction L generalizing i s with
  | nil => rfl
  | cons w L ih =>
    simp only [walkL, walkCells, List.flatMap_append]
    rw [ih (i + 1) (s + w) (by omega)]
    congr 1
    unfold insertItem
    rw [show s + w - s = w by omega]
    by_cases hw : w = 0
    · subst hw; rfl
    · rw [if_neg hw, if_pos (by omega)]
      simp [itemCells]

/-- **Inserting.**  The plan of `insert_rows` is the old cells with blank ones put in at the split. -/
theorem insert_cells (norm : F → G) (get : Nat → Option (Chunk F)) (k off n : Nat) (L : List Nat)
    (i s w : Nat) (hik : i ≤ k) (hk : L[k - i]? = some w) (ho : off ≤ w) (hp : ∀ v ∈ L, 0 < v) :
    (walkL (insertItem k off n) i s L).flatMap (itemCells norm get)
      = (walkCells norm get i L).take ((L.take (k - i)).sum + off) ++ List.replicate n Cell.blank
        ++ (walkCells norm get i L).drop ((L.take (k - i)).sum + off) := by
  induction L generalizing i s with
  | nil => simp at hk
  | cons v L ih =>
    simp only [walkL, walkCells, List.flatMap_append]
    have hv : 0 < v := hp v (by simp)
    have hlen : ((List.range' 0 v).map (cellOf norm (get i))).length = v := by simp
    by_cases hi : i = k
    · subst hi
      simp only [Nat.sub_self, List.getElem?_cons_zero, Option.some.injEq] at hk
      subst hk
      rw [insert_after norm get i off n L (i + 1) (s + v) (by omega)]
      simp only [Nat.sub_self, List.take_zero, List.sum_nil, Nat.zero_add]
      rw [List.take_append_of_le_length (by omega), List.drop_append_of_le_length (by omega)]
      rw [← List.map_take, ← List.map_drop, List.drop_range', List.take_range'_of_length_ge ho]
      unfold insertItem
      rw [show s + v - s = v by omega, if_neg (by omega), if_neg (by simp), Nat.min_eq_left ho]
      simp only [List.flatMap_append, List.append_assoc]
      have h1 : (if off > 0 then [Item.slice i 0 off] else []).flatMap (itemCells norm get)
          = (List.range' 0 off).map (cellOf norm (get i)) := by
        by_cases h0 : off > 0
        · rw [if_pos h0]; simp [itemCells]
        · rw [if_neg h0, show off = 0 by omega]; rfl
      have h2 : (if v - off > 0 then [Item.slice i off (v - off)] else []).flatMap
            (itemCells norm get)
          = (List.range' (0 + off * 1) (v - off)).map (cellOf norm (get i)) := by
        by_cases h0 : v - off > 0
        · rw [if_pos h0]; simp [itemCells]
        · rw [if_neg h0, show v - off = 0 by omega]; rfl
      rw [h1, h2]
      simp [itemCells]
    · have hk' : L[k - (i + 1)]? = some w := by
        rw [show k - i = (k - (i + 1)) + 1 by omega, List.getElem?_cons_succ] at hk
        exact hk
      rw [ih (i + 1) (s + v) (by omega) hk' (fun u hu => hp u (by simp [hu]))]
      rw [show k - i = (k - (i + 1)) + 1 by omega, List.take_succ_cons, List.sum_cons, Nat.add_assoc,
        take_add _ _ _ _ hlen, drop_add _ _ _ _ hlen]
      unfold insertItem
      rw [show s + v - s = v by omega, if_neg (by omega), if_pos (by omega)]
      simp [itemCells]

/-- **Deleting.**  The plan of `delete_rows` is the old cells without those between. -/
theorem delete_cells (norm : F → G) (get : Nat → Option (Chunk F)) (start stop : Nat)
    (hss : start ≤ stop) (L : List Nat) (i s : Nat) :
    (walkL (deleteItem start stop) i s L).flatMap (itemCells norm get)
      = (walkCells norm get i L).take (start - s) ++ (walkCells norm get i L).drop (stop - s) := by
  induction L generalizing i s with
  | nil => simp [walkL, walkCells]
  | cons w L ih =>
    simp only [walkL, walkCells, List.flatMap_append]
    rw [ih (i + 1) (s + w), List.take_append, List.drop_append]
    simp only [List.length_map, List.length_range']
    rw [show start - s - w = start - (s + w) by omega, show stop - s - w = stop - (s + w) by omega]
    unfold deleteItem
    rw [show s + w - s = w by omega]
    by_cases hw : w = 0
    · subst hw; simp
    · rw [if_neg hw]
      by_cases h1 : s + w ≤ start
      · rw [if_pos (Or.inl h1), List.take_of_length_le (l := (List.range' 0 w).map (cellOf norm (get i)))
            (by rw [List.length_map, List.length_range']; omega),
          List.drop_of_length_le (l := (List.range' 0 w).map (cellOf norm (get i)))
            (by rw [List.length_map, List.length_range']; omega)]
        simp [itemCells]
      · by_cases h2 : stop ≤ s
        · rw [if_pos (Or.inr h2), show start - s = 0 by omega, show stop - s = 0 by omega,
            show start - (s + w) = 0 by omega, show stop - (s + w) = 0 by omega]
          simp [itemCells]
        · rw [if_neg (by omega), show start - (s + w) = 0 by omega]
          simp only [List.take_zero, List.nil_append, List.append_nil, List.flatMap_append,
            List.append_assoc]
          have e1 : (if s < start then
                if min start (s + w) - s > 0 then [Item.slice i 0 (min start (s + w) - s)] else []
              else []).flatMap (itemCells norm get)
              = ((List.range' 0 w).map (cellOf norm (get i))).take (start - s) := by
            rw [← List.map_take, List.take_range'_of_length_ge (by omega)]
            by_cases h3 : s < start
            · rw [if_pos h3, Nat.min_eq_left (by omega), if_pos (by omega)]
              simp [itemCells]
            · rw [if_neg h3, show start - s = 0 by omega]; rfl
          have e2 : (if stop < s + w then
                if s + w - stop > 0 then [Item.slice i (stop - s) (s + w - stop)] else []
              else []).flatMap (itemCells norm get)
              = ((List.range' 0 w).map (cellOf norm (get i))).drop (stop - s) := by
            rw [← List.map_drop, List.drop_range']
            by_cases h3 : stop < s + w
            · rw [if_pos h3, if_pos (by omega)]
              simp only [List.flatMap_cons, List.flatMap_nil, List.append_nil, itemCells]
              rw [show 0 + (stop - s) * 1 = stop - s by omega,
                show w - (stop - s) = s + w - stop by omega]
            · rw [if_neg h3, show w - (stop - s) = 0 by omega]; rfl
          rw [e1, e2]

/-- What every item of a plan satisfies: it is not empty, and a slice lies within its chunk. -/
def Item.Within (L : List Nat) (n : Nat) : Item → Prop
  | .slice j off len => 0 < len ∧ ∃ w, L[j]? = some w ∧ off + len ≤ w
  | .empty len => len = n

theorem walkL_within (item : Nat → Nat → Nat → List Item) (n : Nat) (L0 L : List Nat) (i s : Nat)
    (hi : ∀ i s w, ∀ x ∈ item i s (s + w), ∀ M : List Nat, M[i]? = some w → x.Within M n)
    (hL : ∀ j, L[j]? = L0[i + j]?) :
    ∀ x ∈ walkL item i s L, x.Within L0 n := by
  induction L generalizing i s with
  | nil => simp [walkL]
  | cons w L ih =>
    intro x hx
    simp only [walkL, List.mem_append] at hx
    rcases hx with hx | hx
    · exact hi i s w x hx L0 (by have := hL 0; simpa using this.symm)
    · refine ih (i + 1) (s + w) (fun j => ?_) x hx
      have := hL (j + 1)
      rw [show i + (j + 1) = i + 1 + j by omega] at this
      simpa using this

theorem insertItem_within (k off n i s w : Nat) (x : Item) (hx : x ∈ insertItem k off n i s (s + w))
    (M : List Nat) (hM : M[i]? = some w) : x.Within M n := by
  unfold insertItem at hx
  rw [show s + w - s = w by omega] at hx
  split at hx
  · simp at hx
  · split at hx
    · rw [List.mem_singleton] at hx; subst hx
      exact ⟨by omega, w, hM, by omega⟩
    · simp only [List.mem_append] at hx
      rcases hx with (hx | hx) | hx
      · split at hx
        · rw [List.mem_singleton] at hx; subst hx
          exact ⟨by omega, w, hM, by omega⟩
        · simp at hx
      · rw [List.mem_singleton] at hx; subst hx; rfl
      · split at hx
        · rw [List.mem_singleton] at hx; subst hx
          exact ⟨by omega, w, hM, by omega⟩
        · simp at hx

theorem deleteItem_within (start stop n i s w : Nat) (x : Item)
    (hx : x ∈ deleteItem start stop i s (s + w)) (M : List Nat) (hM : M[i]? = some w) :
    x.Within M n := by
  unfold deleteItem at hx
  rw [show s + w - s = w by omega] at hx
  split at hx
  · simp at hx
  · split at hx
    · rw [List.mem_singleton] at hx; subst hx
      exact ⟨by omega, w, hM, by omega⟩
    · simp only [List.mem_append] at hx
      rcases hx with hx | hx
      · split at hx
        · split at hx
          · rw [List.mem_singleton] at hx; subst hx
            exact ⟨by omega, w, hM, by omega⟩
          · simp at hx
        · simp at hx
      · split at hx
        · split at hx
          · rw [List.mem_singleton] at hx; subst hx
            exact ⟨by omega, w, hM, by omega⟩
          · simp at hx
        · simp at hx

theorem planStarts_eq (plan : List Item) (cur : Nat) (h : ∀ x ∈ plan, 0 < x.len) :
    planStarts cur plan = sums cur (plan.map Item.len) := by
  induction plan generalizing cur with
  | nil => rfl
  | cons x plan ih =>
    have := h x (by simp)
    simp only [planStarts, List.map_cons, sums]
    rw [if_neg (by omega), ih _ (fun y hy => h y (by simp [hy]))]

/-! ## Chunks that fit -/

/-- A chunk in a place of width `w`. -/
structure ChunkOk (E : Env F) (norm : F → G) (w : Nat) (ch : Chunk F) : Prop where
  wide : w ≤ ch.len
  user : ch.user.Inv E
  comp : ch.comp.Inv E
  blank : ∀ o, w ≤ o → ch.cell norm o = Cell.blank

/-- A new chunk (or none) for an item of a plan. -/
structure Fits (E : Env F) (norm : F → G) (get : Nat → Option (Chunk F)) (x : Item)
    (oc : Option (Chunk F)) : Prop where
  cells : (List.range' 0 x.len).map (cellOf norm oc) = itemCells norm get x
  ok : ∀ ch, oc = some ch → ChunkOk E norm x.len ch ∧ ch.len = x.len

theorem slice_fits {E : Env F} {norm : F → G} (hn : Agrees E norm) (get : Nat → Option (Chunk F))
    {i off len w : Nat} {ch : Chunk F} (hg : get i = some ch) (hc : ChunkOk E norm w ch)
    (hl : off + len ≤ w) : Fits E norm get (.slice i off len) (some (ch.slice E off len)) := by
  obtain ⟨s1, s2, s3⟩ := slice_cell hn hc.user hc.comp off len
  have hlen := slice_len E ch off len (by have := hc.wide; omega)
  refine ⟨?_, ?_⟩
  · simp only [Item.len, itemCells, hg]
    apply List.ext_getElem
    · simp
    · intro k h1 h2
      simp only [List.length_map, List.length_range'] at h1
      simp only [List.getElem_map, List.getElem_range', cellOf]
      rw [s3, if_pos (by omega)]
      congr 1; omega
  · intro ch' h'
    have h' := Option.some.inj h'
    subst h'
    refine ⟨⟨by rw [hlen]; exact Nat.le_refl _, s1, s2, fun o ho => ?_⟩, hlen⟩
    rw [s3, if_neg (by simp only [Item.len] at ho; omega)]

theorem whole_fits {E : Env F} {norm : F → G} (get : Nat → Option (Chunk F)) {i len w : Nat}
    {ch : Chunk F} (hg : get i = some ch) (hc : ChunkOk E norm w ch) (hl : len = ch.len)
    (hw : len ≤ w) : Fits E norm get (.slice i 0 len) (some ch) := by
  have hwl : w = len := by have := hc.wide; omega
  refine ⟨by simp [Item.len, itemCells, hg], ?_⟩
  intro ch' h'
  have h' := Option.some.inj h'
  subst h'
  exact ⟨⟨by simp [Item.len]; omega, hc.user, hc.comp, fun o ho => hc.blank o (by
    simp only [Item.len] at ho; omega)⟩, by simp [Item.len]; omega⟩

theorem produce_fits {E : Env F} {norm : F → G} (hn : Agrees E norm) (get : Nat → Option (Chunk F))
    (L : List Nat) (n : Nat) (hg : ∀ j ch, get j = some ch → ∃ w, L[j]? = some w ∧ ChunkOk E norm w ch)
    (x : Item) (hx : x.Within L n) : Fits E norm get x (produce E get x) := by
  cases x with
  | empty len =>
    refine ⟨?_, by simp [produce]⟩
    simp only [Item.len, itemCells, produce]
    rw [List.eq_replicate_iff]
    refine ⟨by simp, fun b hb => ?_⟩
    rw [List.mem_map] at hb
    obtain ⟨o, _, rfl⟩ := hb
    rfl
  | slice i off len =>
    obtain ⟨h0, w, h1, h2⟩ := hx
    cases hgi : get i with
    | none =>
      have hp : produce E get (.slice i off len) = none := by simp [produce, hgi]
      rw [hp]
      refine ⟨?_, by simp⟩
      simp only [Item.len, itemCells, hgi]
      apply List.ext_getElem
      · simp
      · intro k h1 h2; simp [cellOf]
    | some ch =>
      obtain ⟨w', h3, h4⟩ := hg i ch hgi
      have hw : w' = w := Option.some.inj (h3.symm.trans h1)
      subst hw
      by_cases hwh : off = 0 ∧ len = ch.len
      · have hp : produce E get (.slice i off len) = some ch := by simp [produce, hgi, hwh]
        rw [hp, hwh.1]
        exact whole_fits get hgi h4 hwh.2 (by omega)
      · have hp : produce E get (.slice i off len) = some (ch.slice E off len) := by
          simp only [produce, hgi]; rw [if_neg hwh]
        rw [hp]
        exact slice_fits hn get hgi h4 h2

/-- A column rebuilt from chunks that fit a plan holds the cells of the plan. -/
theorem fits_cells {E : Env F} {norm : F → G} {get get' : Nat → Option (Chunk F)} {plan : List Item}
    {P : List (Option (Chunk F))} (hP : List.Forall₂ (Fits E norm get) plan P) (i : Nat)
    (hg : ∀ j, j < P.length → get' (i + j) = (P[j]?).join) :
    walkCells norm get' i (plan.map Item.len) = plan.flatMap (itemCells norm get) := by
  induction hP generalizing i with
  | nil => rfl
  | cons h _ ih =>
    simp only [List.map_cons, walkCells, List.flatMap_cons]
    have h0 := hg 0 (by simp)
    simp only [Nat.add_zero, List.getElem?_cons_zero, Option.join_some] at h0
    rw [h0, h.cells, ih (i + 1)]
    intro j hj
    have := hg (j + 1) (by simpa using hj)
    rw [show i + (j + 1) = i + 1 + j by omega] at this
    simpa using this

theorem fits_get {E : Env F} {norm : F → G} {get : Nat → Option (Chunk F)} {plan : List Item}
    {P : List (Option (Chunk F))} (hP : List.Forall₂ (Fits E norm get) plan P) (j : Nat)
    (ch : Chunk F) (h : (P[j]?).join = some ch) :
    ∃ w, (plan.map Item.len)[j]? = some w ∧ ChunkOk E norm w ch ∧ ch.len = w := by
  induction hP generalizing j with
  | nil => simp at h
  | @cons x oc plan P h1 _ ih =>
    cases j with
    | zero =>
      simp only [List.getElem?_cons_zero, Option.join_some] at h
      obtain ⟨a, b⟩ := h1.ok ch h
      exact ⟨x.len, by simp, a, b⟩
    | succ j =>
      obtain ⟨w, a, b⟩ := ih j (by simpa using h)
      exact ⟨w, by simpa using a, b⟩

/-! ## Filing -/

theorem file_chunk (P : List (Option (Chunk F))) (i : Nat) (dense : List (Chunk F))
    (sparse : List (Nat × Chunk F)) (pre : Bool) (h1 : dense.length ≤ i)
    (h2 : pre = true → i = dense.length) (h3 : pre = false → dense.length < i)
    (h4 : ∀ kv ∈ sparse, kv.1 < i) (j : Nat) :
    (file i dense sparse pre P).chunk j
      = if j < i then (⟨dense, sparse⟩ : Column F).chunk j else (P[j - i]?).join := by
  induction P generalizing i dense sparse pre with
  | nil =>
    simp only [file]
    split
    · rfl
    · unfold Column.chunk
      simp only
      rw [if_neg (by omega), assoc_eq_none]
      · simp
      · intro hj
        rw [List.mem_map] at hj
        obtain ⟨kv, a, b⟩ := hj
        have := h4 kv a
        omega
  | cons oc P ih =>
    have hsub : ∀ (x : Option (Chunk F)), ¬ j < i → ¬ j = i →
        ((x :: P)[j - i]?).join = (P[j - (i + 1)]?).join := by
      intro x ha hb
      rw [show j - i = (j - (i + 1)) + 1 by omega, List.getElem?_cons_succ]
    cases oc with
    | some ch =>
      simp only [file]
      by_cases hp : pre = true ∧ i = dense.length
      · rw [if_pos hp, ih (i + 1) (dense ++ [ch]) sparse pre (by simp; omega)
          (by intro; simp; omega) (by intro h; rw [hp.1] at h; simp at h)
          (fun kv hkv => by have := h4 kv hkv; omega)]
        by_cases hj : j < i
        · rw [if_pos (by omega), if_pos hj]
          unfold Column.chunk
          simp only [List.length_append, List.length_singleton]
          rw [if_pos (by omega), if_pos (by omega), List.getElem?_append_left (by omega)]
        · rw [if_neg hj]
          by_cases hji : j = i
          · rw [if_pos (by omega)]
            unfold Column.chunk
            simp only [List.length_append, List.length_singleton]
            rw [if_pos (by omega), hji, hp.2]
            simp
          · rw [if_neg (by omega), hsub _ hj hji]
      · rw [if_neg hp, ih (i + 1) dense (sparse ++ [(i, ch)]) false (by omega) (by simp)
          (by omega) (by
            intro kv hkv
            rw [List.mem_append] at hkv
            rcases hkv with hkv | hkv
            · have := h4 kv hkv; omega
            · rw [List.mem_singleton] at hkv; subst hkv; simp)]
        have hd : dense.length < i := by
          cases hpre : pre with
          | true => exact absurd ⟨hpre, h2 hpre⟩ hp
          | false => exact h3 hpre
        by_cases hj : j < i
        · rw [if_pos (by omega), if_pos hj]
          unfold Column.chunk
          simp only
          by_cases hjd : j < dense.length
          · rw [if_pos hjd, if_pos hjd]
          · rw [if_neg hjd, if_neg hjd, assoc_append]
            simp [assoc, show ¬ i = j by omega]
        · rw [if_neg hj]
          by_cases hji : j = i
          · rw [if_pos (by omega)]
            unfold Column.chunk
            simp only
            rw [if_neg (by omega), assoc_append, assoc_eq_none, hji]
            · simp [assoc]
            · intro hm
              rw [List.mem_map] at hm
              obtain ⟨kv, a, b⟩ := hm
              have := h4 kv a
              omega
          · rw [if_neg (by omega), hsub _ hj hji]
    | none =>
      have key : ∀ pre', (pre' = true → i + 1 = dense.length) →
          (file (i + 1) dense sparse pre' P).chunk j
            = if j < i then (⟨dense, sparse⟩ : Column F).chunk j else ((none :: P)[j - i]?).join := by
        intro pre' hp'
        rw [ih (i + 1) dense sparse pre' (by omega) hp' (by omega)
          (fun kv hkv => by have := h4 kv hkv; omega)]
        by_cases hj : j < i
        · rw [if_pos (by omega), if_pos hj]
        · rw [if_neg hj]
          by_cases hji : j = i
          · rw [if_pos (by omega)]
            unfold Column.chunk
            simp only
            rw [if_neg (by omega), assoc_eq_none, hji]
            · simp
            · intro hm
              rw [List.mem_map] at hm
              obtain ⟨kv, a, b⟩ := hm
              have := h4 kv a
              omega
          · rw [if_neg (by omega), hsub _ hj hji]
      simp only [file]
      by_cases hp : pre = true ∧ i = dense.length
      · rw [if_pos hp]; exact key false (by simp)
      · rw [if_neg hp]
        refine key pre (fun h => ?_)
        exact absurd ⟨h, h2 h⟩ hp

theorem rebuild_chunk (E : Env F) (plan : List Item) (c : Column F) (j : Nat) :
    (c.rebuild E plan).chunk j = ((plan.map (produce E c.chunk))[j]?).join := by
  unfold Column.rebuild
  rw [file_chunk _ 0 [] [] true (by simp) (by simp) (by simp) (by simp) j]
  simp

end Verif.Store
