import Verif.Arrays.Choose
import Mathlib.Tactic.Ring
import Mathlib.Tactic.Push

/-!
# Functions that change the shape of an array
-/

namespace Verif.Arrays

open Verif.Lookup

theorem not_empty {g : Grid} (hg : Rect g) : ¬ (rows g = 0 ∨ cols g = 0) := by
  rintro (k | k)
  exacts [hg.some_rows k, hg.some_cols k]

theorem getD_map_range {α : Type} (f : Nat → α) (n i : Nat) (d : α) (h : i < n) : ((List.range n).map f).getD i d = f i := by
  simp [List.getD_eq_getElem?_getD, h]

/-- An array with the given cells. -/
def table (n m : Nat) (f : Nat → Nat → V) : Grid := (List.range n).map fun r => (List.range m).map (f r)

theorem rows_table (n m : Nat) (f : Nat → Nat → V) : rows (table n m f) = n := by simp [rows, table]

theorem cols_table {n : Nat} (h : n ≠ 0) (m : Nat) (f : Nat → Nat → V) : cols (table n m f) = m := by
  obtain ⟨n, rfl⟩ := Nat.exists_eq_succ_of_ne_zero h
  simp [cols, table, List.range_succ_eq_map]

theorem cell_table {n m : Nat} (f : Nat → Nat → V) {r c : Nat} (hr : r < n) (hc : c < m) : cell (table n m f) r c = f r c := by
  unfold cell table
  rw [getD_map_range _ _ _ _ hr, getD_map_range _ _ _ _ hc]

theorem rect_table {n m : Nat} (hn : n ≠ 0) (hm : m ≠ 0) (f : Nat → Nat → V) : Rect (table n m f) := by
  refine ⟨by rwa [rows_table], by rwa [cols_table hn], ?_⟩
  intro row hr
  rw [cols_table hn]
  obtain ⟨r, _, rfl⟩ := List.mem_map.1 hr
  simp

/-- A rectangular array is the array of its cells. -/
theorem eq_table {g : Grid} (hg : Rect g) : g = table (rows g) (cols g) (cell g) := (rows_eq hg).symm

theorem table_congr {n m : Nat} {f f' : Nat → Nat → V} (h : ∀ r < n, ∀ c < m, f r c = f' r c) : table n m f = table n m f' := by
  unfold table
  apply List.map_congr_left
  intro r hr
  apply List.map_congr_left
  intro c hc
  exact h r (List.mem_range.1 hr) c (List.mem_range.1 hc)

/-! ### TRANSPOSE -/

/-- `TRANSPOSE` exchanges rows and columns. -/
theorem transpose_cells {g : Grid} (hg : Rect g) :
    ∃ t, (transpose g).array = some t ∧ Rect t ∧ rows t = cols g ∧ cols t = rows g ∧ ∀ r < rows g, ∀ c < cols g, cell t c r = cell g r c := by
  refine ⟨table (cols g) (rows g) fun c r => cell g r c, ?_, rect_table hg.some_cols hg.some_rows _, rows_table .., cols_table hg.some_cols .., ?_⟩
  · unfold transpose
    rw [if_neg (not_empty hg), array_collapse]
    rfl
  · intro r hr c hc
    exact cell_table _ hc hr

/-- Transposed twice, an array is as before. -/
theorem transpose_twice {g t : Grid} (hg : Rect g) (h : (transpose g).array = some t) : (transpose t).array = some g := by
  obtain ⟨t', h1, ht, hr, hc, hcell⟩ := transpose_cells hg
  rw [h1] at h
  cases h
  unfold transpose
  rw [if_neg (not_empty ht), array_collapse]
  congr 1
  rw [eq_table hg]
  show table (cols t) (rows t) (fun c r => cell t r c) = _
  rw [hr, hc]
  exact table_congr hcell

/-! ### TAKE and DROP -/

theorem window_lists {g : Grid} (hg : Rect g) {r c : Nat × Nat} (hr : r.1 < r.2) (hr' : r.2 ≤ rows g) (hc : c.1 < c.2) (hc' : c.2 ≤ cols g) :
    (window g r c).array = some (((g.take r.2).drop r.1).map fun row => (row.take c.2).drop c.1) := by
  unfold window
  rw [if_neg (by omega), array_collapse]
  congr 1
  have key : ∀ {α : Type} (l : List α) (d : α) (a b : Nat), a < b → b ≤ l.length → (List.range' a (b - a)).map (fun i => l.getD i d) = (l.take b).drop a := by
    intro α l d a b hab hb
    apply List.ext_getElem
    · simp
      omega
    · intro i h1 h2
      have h1 : i < b - a := by simpa using h1
      have : a + i < l.length := by omega
      simp [List.getD_eq_getElem?_getD, List.getElem?_eq_getElem this]
  have e : (List.range' r.1 (r.2 - r.1)).map (fun i => (List.range' c.1 (c.2 - c.1)).map fun j => cell g i j) =
      (List.range' r.1 (r.2 - r.1)).map (fun i => (((g.getD i []).take c.2).drop c.1)) := by
    apply List.map_congr_left
    intro i hi
    have hi : i < g.length := by
      have := List.mem_range'_1.1 hi
      have hh : rows g = g.length := rfl
      omega
    have hl : (g.getD i []).length = cols g := by
      rw [List.getD_eq_getElem?_getD, List.getElem?_eq_getElem hi]
      exact hg.widths _ (List.getElem_mem hi)
    exact key (g.getD i []) .empty c.1 c.2 hc (by omega)
  rw [e, ← key g [] r.1 r.2 hr hr', List.map_map]
  rfl

theorem map_take_all {g : Grid} (hg : Rect g) {l : Grid} (hl : ∀ row ∈ l, row ∈ g) : l.map (fun row => (row.take (cols g)).drop 0) = l := by
  conv => rhs; rw [← List.map_id l]
  apply List.map_congr_left
  intro row hr
  rw [List.drop_zero, ← hg.widths row (hl row hr), List.take_length]
  rfl

theorem window_empty {g : Grid} {r c : Nat × Nat} (h : r.1 ≥ r.2) : (window g r c).array = some [] := by
  unfold window
  rw [if_pos (.inl h)]
  rfl

/-- `TAKE` of rows: the first rows, or with a negative number the last. -/
theorem take_rows {g : Grid} (hg : Rect g) {k : Int} (hk : k.natAbs ≤ rows g) :
    (take g k none).array = some (if 0 ≤ k then g.take k.natAbs else g.drop (rows g - k.natAbs)) := by
  have hl : rows g = g.length := rfl
  have hc := Nat.pos_of_ne_zero hg.some_cols
  unfold take takeSpan
  rw [if_neg (not_empty hg), if_neg (by omega)]
  by_cases h0 : 0 ≤ k
  · simp only [h0, if_true]
    have e : k.toNat = k.natAbs := by omega
    rw [e]
    by_cases hz : k.natAbs = 0
    · rw [hz, window_empty (by simp)]
      rfl
    · rw [window_lists hg (by simp; omega) hk hc (Nat.le_refl _)]
      simp only [List.drop_zero]
      have := map_take_all hg (l := g.take k.natAbs) fun row h => List.mem_of_mem_take h
      simpa using this
  · simp only [h0, if_false]
    have e : ((rows g : Int) + k).toNat = rows g - k.natAbs := by omega
    rw [e, window_lists hg (by simp; omega) (Nat.le_refl _) hc (Nat.le_refl _)]
    simp only
    rw [map_take_all hg (fun row h => List.mem_of_mem_take (List.mem_of_mem_drop h)), hl, List.take_length]

/-- `DROP` of rows: all but the first rows, or with a negative number all but the last; nothing is left if there are not so many. -/
theorem drop_rows {g : Grid} (hg : Rect g) (k : Int) :
    (drop g k none).array = some (if 0 ≤ k then g.drop k.natAbs else g.take (rows g - k.natAbs)) := by
  have hl : rows g = g.length := rfl
  have hc := Nat.pos_of_ne_zero hg.some_cols
  unfold drop dropSpan
  rw [if_neg (not_empty hg)]
  by_cases h0 : 0 ≤ k
  · simp only [h0, if_true]
    have e : k.toNat = k.natAbs := by omega
    rw [e]
    by_cases hz : rows g ≤ k.natAbs
    · rw [window_empty (by simp; omega), List.drop_eq_nil_of_le (by omega)]
    · rw [window_lists hg (by simp; omega) (Nat.le_refl _) hc (Nat.le_refl _)]
      simp only
      rw [map_take_all hg (fun row h => List.mem_of_mem_take (List.mem_of_mem_drop h)), hl, List.take_length, Nat.min_eq_left (by omega)]
  · simp only [h0, if_false]
    have e : ((rows g : Int) + k).toNat = rows g - k.natAbs := by omega
    rw [e]
    by_cases hz : rows g - k.natAbs = 0
    · rw [hz, window_empty (by simp)]
      rfl
    · rw [window_lists hg (by simp; omega) (by simp) hc (Nat.le_refl _)]
      simp only [List.drop_zero]
      have := map_take_all hg (l := g.take (rows g - k.natAbs)) fun row h => List.mem_of_mem_take h
      simpa using this

/-- `TAKE` of rows and columns at once. -/
theorem take_both {g : Grid} (hg : Rect g) {k m : Int} (hk : k.natAbs ≤ rows g) (hk' : k ≠ 0) (hm : m.natAbs ≤ cols g) (hm' : m ≠ 0) :
    (take g k (some m)).array = some ((if 0 ≤ k then g.take k.natAbs else g.drop (rows g - k.natAbs)).map fun row =>
      if 0 ≤ m then row.take m.natAbs else row.drop (cols g - m.natAbs)) := by
  have hl : rows g = g.length := rfl
  unfold take takeSpan
  rw [if_neg (not_empty hg)]
  simp only
  rw [if_neg (show ¬ k.natAbs > rows g by omega), if_neg (show ¬ m.natAbs > cols g by omega)]
  have e : ∀ (l : Grid), (∀ row ∈ l, row ∈ g) → ∀ n, l.map (fun row => (row.take (cols g)).drop n) = l.map fun row => row.drop n := by
    intro l h n
    apply List.map_congr_left
    intro row hr
    rw [← hg.widths row (h row hr), List.take_length]
  have ek : ((rows g : Int) + k).toNat = rows g - k.natAbs ∨ 0 ≤ k := by omega
  have em : ((cols g : Int) + m).toNat = cols g - m.natAbs ∨ 0 ≤ m := by omega
  by_cases h0 : 0 ≤ k <;> by_cases h1 : 0 ≤ m
  · simp only [h0, h1, if_true]
    rw [window_lists hg (by simp; omega) (by simp; omega) (by simp; omega) (by simp; omega)]
    simp [show k.toNat = k.natAbs by omega, show m.toNat = m.natAbs by omega]
  · simp only [h0, h1, if_true, if_false]
    rw [window_lists hg (by simp; omega) (by simp; omega) (by simp; omega) (by simp)]
    simp only [show k.toNat = k.natAbs by omega, em.resolve_right h1, List.drop_zero]
    rw [e _ (fun row h => List.mem_of_mem_take h)]
  · simp only [h0, h1, if_true, if_false]
    rw [window_lists hg (by simp; omega) (by simp) (by simp; omega) (by simp; omega)]
    simp only [show m.toNat = m.natAbs by omega, ek.resolve_right h0, List.drop_zero]
    rw [hl, List.take_length]
  · simp only [h0, h1, if_false]
    rw [window_lists hg (by simp; omega) (by simp) (by simp; omega) (by simp)]
    simp only [em.resolve_right h1, ek.resolve_right h0]
    rw [e _ (fun row h => List.mem_of_mem_take (List.mem_of_mem_drop h)), hl, List.take_length]

/-- More rows than there are: `#VALUE!`.  Excel gives the whole array. -/
theorem take_beyond {g : Grid} (hg : Rect g) {k : Int} (hk : rows g < k.natAbs) (m : Option Int) : take g k m = .badValue := by
  unfold take takeSpan
  rw [if_neg (not_empty hg), if_pos hk]

/-- The first two rows, the last column of the last row, and all but the first row. -/
example : take [[.num 1, .num 2], [.num 3, .num 4], [.num 5, .num 6]] 2 none = .grid [[.num 1, .num 2], [.num 3, .num 4]] ∧
    take [[.num 1, .num 2], [.num 3, .num 4], [.num 5, .num 6]] (-1) (some (-1)) = .scalar (.num 6) ∧
    drop [[.num 1, .num 2], [.num 3, .num 4], [.num 5, .num 6]] 1 none = .grid [[.num 3, .num 4], [.num 5, .num 6]] := by decide +kernel

/-! ### VSTACK and HSTACK -/

theorem rect_filter {gs : List Grid} (h : ∀ g ∈ gs, Rect g) : gs.filter (fun g => !(decide (rows g = 0) || decide (cols g = 0))) = gs := by
  rw [List.filter_eq_self]
  intro g hg
  simp [(h g hg).some_rows, (h g hg).some_cols]

/-- `VSTACK` of arrays of the same width: their rows one after the other. -/
theorem vstack_rows {gs : List Grid} (h : ∀ g ∈ gs, Rect g) (w : Nat) (hw : ∀ g ∈ gs, cols g = w) : (vstack gs).array = some gs.flatten := by
  unfold vstack
  simp only
  rw [rect_filter h]
  match gs, hw with
  | [], _ => rfl
  | g :: rest, hw =>
    simp only
    rw [if_pos, array_collapse]
    · rfl
    · rw [List.all_eq_true]
      intro h' hh
      rw [decide_eq_true_iff, hw h' (List.mem_cons_of_mem _ hh), hw g (List.mem_cons_self ..)]

/-- Arrays of different widths: `#VALUE!`.  Excel fills the missing cells with `#N/A`. -/
theorem vstack_widths {gs : List Grid} (h : ∀ g ∈ gs, Rect g) {a b : Grid} (ha : a ∈ gs) (hb : b ∈ gs) (hab : cols a ≠ cols b) : vstack gs = .badValue := by
  unfold vstack
  simp only
  rw [rect_filter h]
  match gs, ha, hb with
  | g :: rest, ha, hb =>
    simp only
    rw [if_neg]
    intro hall
    rw [List.all_eq_true] at hall
    have hw : ∀ x ∈ g :: rest, cols x = cols g := by
      intro x hx
      rcases List.mem_cons.1 hx with rfl | hx
      · rfl
      · exact of_decide_eq_true (hall x hx)
    exact hab ((hw a ha).trans (hw b hb).symm)

/-- `HSTACK` of arrays of the same height: each row is made of the rows of the arrays. -/
theorem hstack_rows {gs : List Grid} (h : ∀ g ∈ gs, Rect g) (hne : gs ≠ []) (n : Nat) (hn : ∀ g ∈ gs, rows g = n) :
    (hstack gs).array = some ((List.range n).map fun r => gs.flatMap fun g => g.getD r []) := by
  unfold hstack
  simp only
  rw [rect_filter h]
  match gs, hn, h, hne with
  | g :: rest, hn, h, _ =>
    simp only
    rw [if_pos, array_collapse, hn g (List.mem_cons_self ..)]
    · congr 1
      apply List.map_congr_left
      intro r hr
      apply List.flatMap_congr
      intro x hx
      exact rowOf_eq (h x hx) (by rw [hn x hx]; exact List.mem_range.1 hr)
    · rw [List.all_eq_true]
      intro h' hh
      rw [decide_eq_true_iff, hn h' (List.mem_cons_of_mem _ hh), hn g (List.mem_cons_self ..)]

/-- Arrays of different heights: `#VALUE!`. -/
theorem hstack_heights {gs : List Grid} (h : ∀ g ∈ gs, Rect g) {a b : Grid} (ha : a ∈ gs) (hb : b ∈ gs) (hab : rows a ≠ rows b) : hstack gs = .badValue := by
  unfold hstack
  simp only
  rw [rect_filter h]
  match gs, ha, hb with
  | g :: rest, ha, hb =>
    simp only
    rw [if_neg]
    intro hall
    rw [List.all_eq_true] at hall
    have hw : ∀ x ∈ g :: rest, rows x = rows g := by
      intro x hx
      rcases List.mem_cons.1 hx with rfl | hx
      · rfl
      · exact of_decide_eq_true (hall x hx)
    exact hab ((hw a ha).trans (hw b hb).symm)

theorem rect_part {g l : Grid} (hg : Rect g) (hl : ∀ row ∈ l, row ∈ g) (hne : l ≠ []) : Rect l ∧ cols l = cols g := by
  obtain ⟨a, l, rfl⟩ := List.exists_cons_of_ne_nil hne
  have hc : cols (a :: l) = cols g := hg.widths a (hl a (List.mem_cons_self ..))
  exact ⟨⟨by simp [rows], by rw [hc]; exact hg.some_cols, fun row hr => by rw [hc]; exact hg.widths row (hl row hr)⟩, hc⟩

/-- `TAKE` and `DROP` of the same number of rows make up the array. -/
theorem vstack_take_drop {g t d : Grid} (hg : Rect g) {k : Int} (hk : 0 ≤ k) (hk' : k.natAbs ≤ rows g) (ht : (take g k none).array = some t)
    (hd : (drop g k none).array = some d) : (vstack [t, d]).array = some g := by
  rw [take_rows hg hk', if_pos hk] at ht
  rw [drop_rows hg, if_pos hk] at hd
  cases ht
  cases hd
  have hv : ∀ gs : List Grid, vstack gs = vstack (gs.filter fun g => !(decide (rows g = 0) || decide (cols g = 0))) := by
    intro gs
    unfold vstack
    simp only [List.filter_filter, Bool.and_self]
  have h1 : ∀ l : Grid, (∀ row ∈ l, row ∈ g) → ([l].filter fun g => !(decide (rows g = 0) || decide (cols g = 0))).flatten = l ∧
      ∀ x ∈ [l].filter (fun g => !(decide (rows g = 0) || decide (cols g = 0))), Rect x ∧ cols x = cols g := by
    intro l hl
    by_cases hne : l = []
    · subst hne
      refine ⟨rfl, ?_⟩
      intro x hx
      simp [rows] at hx
    · have := rect_part hg hl hne
      rw [rect_filter (by intro x hx; rw [List.mem_singleton.1 hx]; exact this.1)]
      refine ⟨by simp, ?_⟩
      intro x hx
      rw [List.mem_singleton.1 hx]
      exact this
  obtain ⟨a1, a2⟩ := h1 (g.take k.natAbs) fun row h => List.mem_of_mem_take h
  obtain ⟨b1, b2⟩ := h1 (g.drop k.natAbs) fun row h => List.mem_of_mem_drop h
  rw [hv, show [g.take k.natAbs, g.drop k.natAbs] = [g.take k.natAbs] ++ [g.drop k.natAbs] from rfl, List.filter_append]
  rw [vstack_rows (w := cols g), List.flatten_append, a1, b1, List.take_append_drop]
  · intro x hx
    rcases List.mem_append.1 hx with hx | hx
    · exact (a2 x hx).1
    · exact (b2 x hx).1
  · intro x hx
    rcases List.mem_append.1 hx with hx | hx
    · exact (a2 x hx).2
    · exact (b2 x hx).2

/-- Two arrays above and beside each other. -/
example : vstack [[[.num 1, .num 2]], [[.num 3, .num 4], [.num 5, .num 6]]] = .grid [[.num 1, .num 2], [.num 3, .num 4], [.num 5, .num 6]] ∧
    hstack [[[.num 1], [.num 2]], [[.num 3, .num 4], [.num 5, .num 6]]] = .grid [[.num 1, .num 3, .num 4], [.num 2, .num 5, .num 6]] := by decide +kernel

/-! ### CHOOSECOLS and CHOOSEROWS -/

/-- The `k`th of `n`, from the end if `k` is negative. -/
theorem place_spec (n : Nat) (k : Int) : place n k = if 1 ≤ k ∧ k ≤ n then some (k.natAbs - 1) else if k ≤ -1 ∧ -n ≤ k then some (n - k.natAbs) else none := by
  unfold place
  by_cases h0 : k = 0
  · rw [if_pos h0, if_neg (by omega), if_neg (by omega)]
  · rw [if_neg h0]
    simp only
    by_cases h1 : k > 0
    · rw [if_pos h1]
      by_cases h2 : k ≤ n
      · rw [if_neg (by omega), if_pos (by omega)]
        congr 1
        omega
      · rw [if_pos (by omega), if_neg (by omega), if_neg (by omega)]
    · rw [if_neg h1, if_neg (show ¬ (1 ≤ k ∧ k ≤ n) by omega)]
      by_cases h2 : -(n : Int) ≤ k
      · rw [if_neg (by omega), if_pos (by omega)]
        congr 1
        omega
      · rw [if_pos (by omega), if_neg (by omega)]

/-- The place that a number within bounds stands for. -/
def nth (n : Nat) (k : Int) : Nat := if 0 < k then k.natAbs - 1 else n - k.natAbs

/-- A number within the bounds of `n`, from either end. -/
def Within (n : Nat) (k : Int) : Prop := k ≠ 0 ∧ k.natAbs ≤ n

theorem place_within {n : Nat} {k : Int} (h : Within n k) : place n k = some (nth n k) := by
  obtain ⟨h1, h2⟩ := h
  rw [place_spec]
  unfold nth
  by_cases h0 : 0 < k
  · rw [if_pos (by omega), if_pos h0]
  · rw [if_neg (by omega), if_pos (by omega), if_neg h0]

theorem place_beyond {n : Nat} {k : Int} (h : ¬ Within n k) : place n k = none := by
  rw [place_spec, if_neg, if_neg]
  · rintro ⟨h1, h2⟩
    exact h ⟨by omega, by omega⟩
  · rintro ⟨h1, h2⟩
    exact h ⟨by omega, by omega⟩

theorem places_within {n : Nat} {ks : List Int} (h : ∀ k ∈ ks, Within n k) : ks.mapM (place n) = some (ks.map (nth n)) := by
  induction ks with
  | nil => rfl
  | cons k ks ih =>
    rw [List.mapM_cons, place_within (h k (List.mem_cons_self ..)), ih fun k hk => h k (List.mem_cons_of_mem _ hk)]
    rfl

theorem places_beyond {n : Nat} {ks : List Int} {k : Int} (hk : k ∈ ks) (h : ¬ Within n k) : ks.mapM (place n) = none := by
  induction ks with
  | nil => cases hk
  | cons a ks ih =>
    rw [List.mapM_cons]
    rcases List.mem_cons.1 hk with rfl | hk
    · rw [place_beyond h]
      rfl
    · rw [ih hk]
      cases place n a <;> rfl

/-- `CHOOSECOLS` within bounds: in every row the cells of the chosen columns, in the order of the choice. -/
theorem choosecols_cells {g : Grid} (hg : Rect g) {ks : List Int} (hne : ks ≠ []) (h : ∀ k ∈ ks, Within (cols g) k) :
    (choosecols g ks).array = some (g.map fun row => ks.map fun k => row.getD (nth (cols g) k) .empty) := by
  unfold choosecols
  rw [if_neg hne, if_neg (not_empty hg), places_within h]
  simp only [array_collapse]
  congr 1
  have e : ∀ f : List V → List V, g.map f = (List.range (rows g)).map fun r => f (g.getD r []) := by
    intro f
    conv => lhs; rw [← map_range_getD g []]
    rw [List.map_map]
    rfl
  rw [e]
  apply List.map_congr_left
  intro r _
  simp only [List.map_map, Function.comp_def, cell]

/-- `CHOOSEROWS` within bounds: the chosen rows, in the order of the choice. -/
theorem chooserows_rows {g : Grid} (hg : Rect g) {ks : List Int} (hne : ks ≠ []) (h : ∀ k ∈ ks, Within (rows g) k) :
    (chooserows g ks).array = some (ks.map fun k => g.getD (nth (rows g) k) []) := by
  unfold chooserows
  rw [if_neg hne, if_neg (not_empty hg), places_within h]
  simp only [array_collapse]
  congr 1
  rw [List.map_map]
  apply List.map_congr_left
  intro k hk
  obtain ⟨h1, h2⟩ := h k hk
  have := Nat.pos_of_ne_zero hg.some_rows
  refine rowOf_eq hg ?_
  unfold nth
  split <;> omega

/-- One number out of bounds gives `#VALUE!`. -/
theorem choose_beyond {g : Grid} (hg : Rect g) {ks : List Int} {k : Int} (hk : k ∈ ks) :
    (¬ Within (cols g) k → choosecols g ks = .badValue) ∧ (¬ Within (rows g) k → chooserows g ks = .badValue) := by
  have hne : ks ≠ [] := by
    rintro rfl
    cases hk
  constructor
  · intro h
    unfold choosecols
    rw [if_neg hne, if_neg (not_empty hg), places_beyond hk h]
  · intro h
    unfold chooserows
    rw [if_neg hne, if_neg (not_empty hg), places_beyond hk h]

/-- The last column and then the first, twice. -/
example : choosecols [[.num 1, .num 2, .num 3], [.num 4, .num 5, .num 6]] [-1, 1, 1] = .grid [[.num 3, .num 1, .num 1], [.num 6, .num 4, .num 4]] ∧
    chooserows [[.num 1, .num 2], [.num 3, .num 4]] [-2] = .grid [[.num 1, .num 2]] := by decide +kernel

/-! ### TOCOL and TOROW -/

/-- The cells that `ignore` keeps: 1 drops the empty, 2 the errors, 3 both. -/
def Kept (ignore : Int) (v : V) : Prop := (ignore = 1 ∨ ignore = 3 → v ≠ .empty) ∧ (ignore = 2 ∨ ignore = 3 → v ≠ .err)

instance (ignore : Int) (v : V) : Decidable (Kept ignore v) := by
  unfold Kept
  infer_instance

theorem includeCell_kept {ignore : Int} (h : 0 ≤ ignore) (h' : ignore ≤ 3) (v : V) : includeCell ignore.toNat v = decide (Kept ignore v) := by
  have : ignore = 0 ∨ ignore = 1 ∨ ignore = 2 ∨ ignore = 3 := by omega
  rcases this with rfl | rfl | rfl | rfl <;> cases v <;> simp [includeCell, Kept]

theorem foldl_max (n : Nat) (l : List Nat) (a : Nat) (ha : a ≤ n) (h : ∀ x ∈ l, x = n) (hne : l ≠ [] ∨ a = n) : l.foldl max a = n := by
  induction l generalizing a with
  | nil => simpa using hne
  | cons x l ih =>
    have hx := h x (List.mem_cons_self ..)
    exact ih (max a x) (by omega) (fun y hy => h y (List.mem_cons_of_mem _ hy)) (.inr (by omega))

theorem flatten_cells {g : Grid} (hg : Rect g) {ignore : Int} (h : 0 ≤ ignore) (h' : ignore ≤ 3) (byCol : Bool) :
    flatten g ignore byCol = some ((if byCol then (columns g).flatten else g.flatten).filter fun v => decide (Kept ignore v)) := by
  have hne : g ≠ [] := by
    rintro rfl
    exact hg.some_rows rfl
  have hw : (g.map List.length).foldl max 0 = cols g :=
    foldl_max _ _ _ (Nat.zero_le _) (by
      intro x hx
      obtain ⟨row, hr, rfl⟩ := List.mem_map.1 hx
      exact hg.widths row hr) (.inl (by simpa using hne))
  have hf : includeCell ignore.toNat = fun v => decide (Kept ignore v) := funext (includeCell_kept h h')
  unfold flatten
  rw [if_neg (by omega)]
  simp only [hw, hf]
  congr 1
  cases byCol
  · simp only [Bool.false_eq_true, if_false, List.filter_flatten, List.flatMap]
    congr 1
    apply List.map_congr_left
    intro row hr
    rw [← hg.widths row hr, map_range_getD]
  · simp only [if_true, List.filter_flatten, List.flatMap, columns, List.map_map]
    congr 1
    apply List.map_congr_left
    intro c _
    simp only [Function.comp_def]
    congr 1
    unfold colOf
    conv => lhs; rw [← map_range_getD g []]
    rw [List.map_map]
    rfl

/-- `TOCOL`: the cells row by row or column by column in one column, without those to be ignored; `#CALC!` if none is left. -/
theorem tocol_cells {g : Grid} (hg : Rect g) {ignore : Int} (h : 0 ≤ ignore) (h' : ignore ≤ 3) (byCol : Bool) :
    tocol g ignore byCol = if ∃ v ∈ (if byCol then (columns g).flatten else g.flatten), Kept ignore v then
      collapse (((if byCol then (columns g).flatten else g.flatten).filter fun v => decide (Kept ignore v)).map fun v => [v]) else .badCalc := by
  unfold tocol
  rw [flatten_cells hg h h']
  cases hl : (if byCol then (columns g).flatten else g.flatten).filter fun v => decide (Kept ignore v) with
  | nil =>
    rw [if_neg]
    rintro ⟨v, hv, hk⟩
    have := List.mem_filter (p := fun v => decide (Kept ignore v)).2 ⟨hv, decide_eq_true hk⟩
    rw [hl] at this
    cases this
  | cons v l =>
    have := List.mem_filter.1 (show v ∈ (if byCol then (columns g).flatten else g.flatten).filter fun v => decide (Kept ignore v) by rw [hl]; exact List.mem_cons_self ..)
    rw [if_pos ⟨v, this.1, of_decide_eq_true this.2⟩]

/-- `TOROW`: the same in one row. -/
theorem torow_cells {g : Grid} (hg : Rect g) {ignore : Int} (h : 0 ≤ ignore) (h' : ignore ≤ 3) (byCol : Bool) :
    torow g ignore byCol = if ∃ v ∈ (if byCol then (columns g).flatten else g.flatten), Kept ignore v then
      collapse [(if byCol then (columns g).flatten else g.flatten).filter fun v => decide (Kept ignore v)] else .badCalc := by
  unfold torow
  rw [flatten_cells hg h h']
  cases hl : (if byCol then (columns g).flatten else g.flatten).filter fun v => decide (Kept ignore v) with
  | nil =>
    rw [if_neg]
    rintro ⟨v, hv, hk⟩
    have := List.mem_filter (p := fun v => decide (Kept ignore v)).2 ⟨hv, decide_eq_true hk⟩
    rw [hl] at this
    cases this
  | cons v l =>
    have := List.mem_filter.1 (show v ∈ (if byCol then (columns g).flatten else g.flatten).filter fun v => decide (Kept ignore v) by rw [hl]; exact List.mem_cons_self ..)
    rw [if_pos ⟨v, this.1, of_decide_eq_true this.2⟩]

/-- Column by column without the empty cells. -/
example : tocol [[.num 1, .empty], [.num 3, .err]] 1 true = .grid [[.num 1], [.num 3], [.err]] ∧ torow [[.num 1, .empty], [.num 3, .err]] 2 false = .grid [[.num 1, .empty, .num 3]] := by
  decide +kernel

/-! ### SEQUENCE -/

theorem seqRow_eq (step : ℚ) (n : Nat) (x : ℚ) : seqRow step n x = ((List.range n).map fun (i : Nat) => V.num (x + i * step), x + n * step) := by
  induction n generalizing x with
  | zero => simp [seqRow]
  | succ n ih =>
    rw [seqRow, ih, List.range_succ_eq_map]
    simp only [List.map_cons, List.map_map, Prod.mk.injEq, List.cons.injEq, V.num.injEq]
    refine ⟨⟨by push_cast; ring, ?_⟩, by push_cast; ring⟩
    apply List.map_congr_left
    intro i _
    simp only [Function.comp_def, V.num.injEq]
    push_cast
    ring

theorem seqRows_eq (step : ℚ) (m n : Nat) (x : ℚ) : seqRows step m n x = table n m fun (r c : Nat) => V.num (x + (r * m + c) * step) := by
  induction n generalizing x with
  | zero => rfl
  | succ n ih =>
    rw [seqRows, seqRow_eq, ih]
    unfold table
    rw [List.range_succ_eq_map]
    simp only [List.map_cons, List.map_map, List.cons.injEq]
    constructor
    · apply List.map_congr_left
      intro c _
      simp
    · apply List.map_congr_left
      intro r _
      simp only [Function.comp_def]
      apply List.map_congr_left
      intro c _
      simp only [V.num.injEq]
      push_cast
      ring

/-- `SEQUENCE` of `n` rows and `m` columns: the cell in row `r` and column `c` has `r m + c` steps from the start. -/
theorem sequence_cells {n m : Int} (hn : 0 < n) (hm : 0 < m) (h : n ≤ 1048576 ∧ m ≤ 16384 ∧ n * m ≤ 16777216) (start step : ℚ) :
    ∃ g, (sequence n m start step).array = some g ∧ Rect g ∧ rows g = n ∧ cols g = m ∧
      ∀ r c : Nat, r < n → c < m → cell g r c = .num (start + ((r * m.toNat + c : Nat) : ℚ) * step) := by
  refine ⟨table n.toNat m.toNat fun (r c : Nat) => V.num (start + (r * m.toNat + c) * step), ?_, rect_table (by omega) (by omega) _, ?_, ?_, ?_⟩
  · unfold sequence tooLarge
    rw [if_neg (by omega), if_neg (by simp; omega), array_collapse, seqRows_eq]
  · rw [rows_table]
    omega
  · rw [cols_table (by omega)]
    omega
  · intro r c hr hc
    rw [cell_table _ (by omega) (by omega)]
    push_cast
    rfl

/-- Six numbers in two rows. -/
example : sequence 2 3 10 5 = .grid [[.num 10, .num 15, .num 20], [.num 25, .num 30, .num 35]] := by decide +kernel

end Verif.Arrays
