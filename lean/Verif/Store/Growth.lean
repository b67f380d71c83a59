import Mathlib.Data.List.Basic
import Mathlib.Data.List.GetD
import Mathlib.Algebra.BigOperators.Group.List.Basic
import Mathlib.Tactic.Tauto
import Verif.Store.Rows

/-!
# Rows added at the end, columns inserted and deleted
-/

namespace Verif.Store

variable {F G : Type}

/-! ## Rows at the end -/

/-- `m` rows cut in pieces of `size`, the last one shorter. -/
def pieces (size : Nat) : Nat → Nat → List Nat
  | 0, m => [m]
  | fuel + 1, m => if size < m then size :: pieces size fuel (m - size) else [m]

theorem pieces_sums (size target fuel a : Nat) (h : a < target) :
    a :: startsFrom size target fuel (a + size) = sums a (pieces size fuel (target - a)) := by
  induction fuel generalizing a with
  | zero => simp [startsFrom, pieces, sums]
  | succ fuel ih =>
    simp only [startsFrom, pieces]
    by_cases hs : a + size < target
    · rw [if_pos hs, if_pos (by omega), ih (a + size) hs]
      simp only [sums]
      rw [Nat.sub_sub]
    · rw [if_neg hs, if_neg (by omega)]
      simp [sums]

theorem pieces_spec (size fuel m : Nat) (hs : 0 < size) (hm : 0 < m) (hf : m ≤ size * (fuel + 1)) :
    (pieces size fuel m).sum = m ∧ ∀ w ∈ pieces size fuel m, 0 < w ∧ w ≤ size := by
  induction fuel generalizing m with
  | zero => simp [pieces] at *; omega
  | succ fuel ih =>
    simp only [pieces]
    by_cases h : size < m
    · rw [if_pos h]
      obtain ⟨h1, h2⟩ := ih (m - size) (by omega) (by
        rw [Nat.mul_add] at hf
        omega)
      refine ⟨by simp [h1]; omega, ?_⟩
      intro w hw
      rw [List.mem_cons] at hw
      rcases hw with rfl | hw
      · exact ⟨hs, Nat.le_refl _⟩
      · exact h2 w hw
    · rw [if_neg h]; simp; omega

theorem pieces_head (size fuel m last : Nat) (h1 : last ≤ size) (h2 : last ≤ m) :
    ∃ e rest, pieces size fuel m = (last + e) :: rest := by
  cases fuel with
  | zero => exact ⟨m - last, [], by simp [pieces]; omega⟩
  | succ fuel =>
    simp only [pieces]
    split
    · exact ⟨size - last, pieces size fuel (m - size), by congr 1; omega⟩
    · exact ⟨m - last, [], by congr 1; omega⟩

/-- The new widths: the last chunk may have grown, and there may be more. -/
theorem grown_layout {E : Env F} {norm : F → G} {L : List Nat} {s : Sheet F} (h : s.Inv E norm L)
    (target : Nat) (ht : s.nrows < target) :
    ∃ L', grownStarts s.starts (max s.chunkRows 1) target = sums 0 L' ∧ L'.sum = target
      ∧ (∀ w ∈ L', 0 < w ∧ w ≤ max s.chunkRows 1)
      ∧ ((L = [] ∧ L' ≠ [])
        ∨ ∃ L0 last e rest, L = L0 ++ [last] ∧ L' = L0 ++ (last + e) :: rest) := by
  have hfuel : ∀ m, m ≤ target → m ≤ max s.chunkRows 1 * (target + 1) := by
    intro m hm
    have : 1 * (target + 1) ≤ max s.chunkRows 1 * (target + 1) :=
      Nat.mul_le_mul_right _ (by omega)
    omega
  by_cases hL : L = []
  · subst hL
    have hs : s.starts = [] := by rw [h.starts]; rfl
    obtain ⟨p1, p2⟩ := pieces_spec (max s.chunkRows 1) target target (by omega) (by omega)
      (hfuel _ (Nat.le_refl _))
    refine ⟨pieces (max s.chunkRows 1) target target, ?_, p1, p2, Or.inl ⟨rfl, ?_⟩⟩
    · unfold grownStarts
      have := pieces_sums (max s.chunkRows 1) target target 0 (by omega)
      rw [Nat.sub_zero] at this
      rw [← this]
      simp [hs]
    · intro he
      rw [he] at p1
      simp at p1; omega
  · obtain ⟨L0, last, rfl⟩ : ∃ L0 w, L = L0 ++ [w] :=
      ⟨L.dropLast, L.getLast hL, (List.dropLast_append_getLast hL).symm⟩
    have hrows := h.rows
    rw [List.sum_append, List.sum_singleton] at hrows
    have hstarts : s.starts = sums 0 L0 ++ [L0.sum] := by
      rw [h.starts, sums_append]; simp [sums]
    obtain ⟨p1, p2⟩ := pieces_spec (max s.chunkRows 1) target (target - L0.sum) (by omega) (by omega)
      (hfuel _ (by omega))
    obtain ⟨e, rest, p3⟩ := pieces_head (max s.chunkRows 1) target (target - L0.sum) last
      (h.small last (by simp)) (by omega)
    refine ⟨L0 ++ pieces (max s.chunkRows 1) target (target - L0.sum), ?_, ?_, ?_,
      Or.inr ⟨L0, last, e, rest, rfl, by rw [p3]⟩⟩
    · unfold grownStarts
      rw [hstarts]
      have hne : ¬ (sums 0 L0 ++ [L0.sum] = []) := by simp
      simp only [if_neg hne, List.getLastD_concat]
      rw [List.append_assoc, List.singleton_append, pieces_sums _ _ _ _ (by omega), sums_append,
        Nat.zero_add]
    · rw [List.sum_append, p1]; omega
    · intro w hw
      rw [List.mem_append] at hw
      rcases hw with hw | hw
      · exact ⟨h.pos w (by simp [hw]), h.small w (by simp [hw])⟩
      · exact p2 w hw

theorem assoc_map {α : Type} (l : List (Nat × α)) (f : Nat → α → α) (k : Nat) :
    assoc (l.map fun kv => (kv.1, f kv.1 kv.2)) k = (assoc l k).map (f k) := by
  induction l with
  | nil => rfl
  | cons x l ih =>
    obtain ⟨k', a⟩ := x
    simp only [List.map_cons, assoc]
    by_cases h : k' = k
    · subst h; simp
    · simp [h, ih]

theorem grown_chunk (c : Column F) (f : Nat → Chunk F → Chunk F) (j : Nat) :
    (⟨c.dense.mapIdx f, c.sparse.map fun kv => (kv.1, f kv.1 kv.2)⟩ : Column F).chunk j
      = (c.chunk j).map (f j) := by
  unfold Column.chunk
  simp only [List.length_mapIdx]
  by_cases h : j < c.dense.length
  · rw [if_pos h, if_pos h, List.getElem?_mapIdx]
  · rw [if_neg h, if_neg h, assoc_map]

/-- **`ensure_row_capacity`** adds blank rows at the end. -/
theorem ensureRows_grid {E : Env F} {norm : F → G} {L : List Nat} {s : Sheet F}
    (h : s.Inv E norm L) (target : Nat) :
    ∃ L', (s.ensureRows target).Inv E norm L' ∧ (s.ensureRows target).chunkRows = s.chunkRows
      ∧ (s.ensureRows target).grid norm L' = (s.grid norm L).ensureRows Cell.blank target := by
  unfold Sheet.ensureRows
  by_cases ht : target ≤ s.nrows
  · rw [if_pos ht]
    refine ⟨L, h, rfl, ?_⟩
    simp only [Grid.ensureRows, Sheet.grid]
    rw [Nat.max_eq_left ht, Nat.sub_eq_zero_of_le ht]
    simp
  rw [if_neg ht]
  obtain ⟨L', g1, g2, g3, g4⟩ := grown_layout h target (by omega)
  have hwidth : ∀ j, ({ s with
      starts := grownStarts s.starts (max s.chunkRows 1) target
      nrows := target } : Sheet F).widthAt j = L'[j]? := by
    intro j
    unfold Sheet.widthAt
    simp only [g1]
    have := sums_width L' 0 j
    rw [Nat.zero_add, g2] at this
    exact this
  have hmono : ∀ j w : Nat, L[j]? = some w → ∃ w', L'[j]? = some w' ∧ w ≤ w' := by
    intro j w hw
    rcases g4 with ⟨rfl, _⟩ | ⟨L0, last, e, rest, rfl, rfl⟩
    · simp at hw
    · rcases Nat.lt_trichotomy j L0.length with hj | hj | hj
      · rw [List.getElem?_append_left hj] at hw ⊢
        exact ⟨w, hw, Nat.le_refl _⟩
      · subst hj
        simp at hw ⊢
        omega
      · rw [List.getElem?_eq_none (by simp; omega)] at hw
        simp at hw
  have hcell : ∀ c ∈ s.cols, ∀ j o,
      cellOf norm ((⟨c.dense.mapIdx (({ s with
          starts := grownStarts s.starts (max s.chunkRows 1) target
          nrows := target } : Sheet F).growChunk), c.sparse.map fun kv => (kv.1, ({ s with
          starts := grownStarts s.starts (max s.chunkRows 1) target
          nrows := target } : Sheet F).growChunk kv.1 kv.2)⟩ : Column F).chunk j) o
        = cellOf norm (c.chunk j) o := by
    intro c _ j o
    rw [grown_chunk]
    cases c.chunk j with
    | none => rfl
    | some ch =>
      simp only [Option.map_some, cellOf, Sheet.growChunk, hwidth]
      cases L'[j]? with
      | none => rfl
      | some n => exact grow_cell norm ch n o
  refine ⟨L', ⟨fun w hw => (g3 w hw).1, fun w hw => (g3 w hw).2, g1, g2.symm, ?_⟩, rfl, ?_⟩
  · intro c' hc'
    rw [List.mem_map] at hc'
    obtain ⟨c, hc, rfl⟩ := hc'
    have hlen := (h.cols c hc).dense_le
    refine ⟨?_, ?_⟩
    · intro j ch hch
      have hch' := hch
      rw [grown_chunk, Option.map_eq_some_iff] at hch
      obtain ⟨ch0, hch0, rfl⟩ := hch
      obtain ⟨w, hw, hok⟩ := (h.cols c hc).chunks j ch0 hch0
      obtain ⟨w', hw', hle⟩ := hmono j w hw
      refine ⟨w', hw', ?_⟩
      have hgr : ({ s with
          starts := grownStarts s.starts (max s.chunkRows 1) target
          nrows := target } : Sheet F).growChunk j ch0 = ch0.grow w' := by
        simp only [Sheet.growChunk, hwidth, hw']
      rw [hgr]
      obtain ⟨o1, o2⟩ := grow_overlays ch0 w'
      refine ⟨by rw [grow_len]; omega, by rw [o1]; exact hok.user, by rw [o2]; exact hok.comp, ?_⟩
      intro o ho
      rw [grow_cell]
      exact hok.blank o (by omega)
    · intro hl
      simp only [List.length_mapIdx] at hl
      have hLL : L.length ≤ L'.length := by
        rcases g4 with ⟨rfl, _⟩ | ⟨L0, last, e, rest, rfl, rfl⟩
        · simp
        · simp
      have hex := (h.cols c hc).exact_ (by omega)
      apply List.ext_getElem (by simpa using hl)
      intro j h1 h2
      have hj : j < c.dense.length := by simpa using h1
      have hw : L[j]? = some c.dense[j].len := by
        rw [← hex, List.getElem?_map, List.getElem?_eq_getElem hj]; rfl
      obtain ⟨w', hw', hle⟩ := hmono j _ hw
      simp only [List.getElem_map, List.getElem_mapIdx, Sheet.growChunk, hwidth, hw', grow_len]
      rw [List.getElem?_eq_getElem h2] at hw'
      have := Option.some.inj hw'
      omega
  · unfold Sheet.grid Grid.ensureRows
    simp only [List.map_map]
    congr 1
    · omega
    · apply List.map_congr_left
      intro c hc
      simp only [Function.comp]
      rw [walkCells_congr norm _ c.chunk L' 0 (fun j _ o _ => hcell c hc (0 + j) o)]
      have hnone : ∀ j, L.length ≤ j → c.chunk j = none := by
        intro j hj
        cases hcj : c.chunk j with
        | none => rfl
        | some ch =>
          obtain ⟨w, hw, _⟩ := (h.cols c hc).chunks j ch hcj
          rw [List.getElem?_eq_none hj] at hw
          simp at hw
      rcases g4 with ⟨rfl, _⟩ | ⟨L0, last, e, rest, rfl, rfl⟩
      · rw [walkCells_blank norm c.chunk L' 0 (fun j _ o => by rw [hnone j (by simp)]; rfl), g2]
        have := h.rows
        simp only [List.sum_nil] at this
        simp [walkCells, this]
      · have hrows := h.rows
        rw [List.sum_append, List.sum_singleton] at hrows
        rw [List.sum_append, List.sum_cons] at g2
        rw [walkCells_append, walkCells_append, List.append_assoc]
        congr 1
        simp only [walkCells, List.append_nil, Nat.zero_add]
        rw [walkCells_blank norm c.chunk rest _ (fun j hj o => by
          rw [hnone j (by simp; omega)]; rfl)]
        rw [show target - s.nrows = e + rest.sum by omega, List.replicate_add, ← List.append_assoc]
        congr 1
        rw [show List.range' 0 (last + e) = List.range' 0 last ++ List.range' last e by
          rw [← List.range'_append_1, Nat.zero_add], List.map_append]
        congr 1
        rw [List.eq_replicate_iff]
        refine ⟨by simp, ?_⟩
        intro b hb
        rw [List.mem_map] at hb
        obtain ⟨o, ho, rfl⟩ := hb
        rw [List.mem_range'_1] at ho
        cases hcj : c.chunk L0.length with
        | none => rfl
        | some ch =>
          obtain ⟨w, hw, hok⟩ := (h.cols c hc).chunks _ ch hcj
          simp at hw
          subst hw
          exact hok.blank o ho.1

/-! ## Columns -/

theorem newColumn_ok {E : Env F} {norm : F → G} {L : List Nat} {s : Sheet F} (h : s.Inv E norm L) :
    (⟨s.newColumnLens.map Chunk.empty, []⟩ : Column F).Ok E norm L
      ∧ walkCells norm (⟨s.newColumnLens.map Chunk.empty, []⟩ : Column F).chunk 0 L
        = List.replicate s.nrows Cell.blank := by
  have hchunk : ∀ j ch, (⟨s.newColumnLens.map Chunk.empty, []⟩ : Column F).chunk j = some ch →
      ∃ n, s.newColumnLens[j]? = some n ∧ ch = Chunk.empty n := by
    intro j ch hch
    rw [denseChunk] at hch
    simp only [List.map_map, List.getElem?_map] at hch
    cases hn : s.newColumnLens[j]? with
    | none => simp [hn] at hch
    | some n =>
      rw [hn] at hch
      simp only [Option.map_some, Function.comp, Option.join_some, Option.some.injEq] at hch
      exact ⟨n, rfl, hch.symm⟩
  have hlens : (∀ j n : Nat, s.newColumnLens[j]? = some n → ∃ w, L[j]? = some w ∧ w ≤ n)
      ∧ (s.newColumnLens.length = L.length → s.newColumnLens = L) := by
    unfold Sheet.newColumnLens
    cases hc : s.cols with
    | nil =>
      simp only
      by_cases h0 : s.nrows > 0
      · rw [if_pos h0]
        have hrows := h.rows
        cases L with
        | nil => simp at hrows; omega
        | cons w L =>
          simp only [List.sum_cons] at hrows
          refine ⟨?_, ?_⟩
          · intro j n hj
            cases j with
            | zero => simp at hj ⊢; omega
            | succ j => simp at hj
          · intro hl
            have : L = [] := by simpa using hl
            subst this
            simp at hrows
            rw [hrows]
      · rw [if_neg h0]
        exact ⟨by simp, fun hl => (List.eq_nil_of_length_eq_zero hl.symm).symm⟩
    | cons c cs =>
      simp only
      by_cases ha : s.aligned = true
      · rw [if_pos ha]
        obtain ⟨d1, _, _⟩ := h.aligned_dense ha c (by rw [hc]; simp)
        rw [d1]
        exact ⟨fun j n hj => ⟨n, hj, Nat.le_refl _⟩, fun _ => rfl⟩
      · rw [if_neg ha]
        exact ⟨by simp, fun hl => (List.eq_nil_of_length_eq_zero hl.symm).symm⟩
  refine ⟨⟨?_, ?_⟩, ?_⟩
  · intro j ch hch
    obtain ⟨n, hn, rfl⟩ := hchunk j ch hch
    obtain ⟨w, hw, hle⟩ := hlens.1 j n hn
    exact ⟨w, hw, by rw [empty_len]; exact hle, (empty_inv E n).1, (empty_inv E n).2,
      fun o _ => empty_cell norm n o⟩
  · intro hl
    simp only [List.length_map] at hl
    rw [List.map_map]
    have h2 := hlens.2 hl
    rw [show (Chunk.len ∘ (Chunk.empty : Nat → Chunk F)) = id by funext n; exact empty_len n]
    rw [List.map_id, h2]
  · rw [walkCells_blank, h.rows]
    intro j _ o
    cases hj : (⟨s.newColumnLens.map Chunk.empty, []⟩ : Column F).chunk j with
    | none => rfl
    | some ch =>
      obtain ⟨n, _, rfl⟩ := hchunk j ch hj
      exact empty_cell norm n o

/-- **`insert_columns`** adds blank columns. -/
theorem insertCols_grid {E : Env F} {norm : F → G} {L : List Nat} {s : Sheet F}
    (h : s.Inv E norm L) (before count : Nat) :
    (s.insertCols before count).Inv E norm L
      ∧ (s.insertCols before count).chunkRows = s.chunkRows
      ∧ (s.insertCols before count).grid norm L
        = (s.grid norm L).insertCols Cell.blank before count := by
  obtain ⟨n1, n2⟩ := newColumn_ok h
  have htake : s.cols.take (min before s.cols.length) = s.cols.take before := by
    rw [Nat.min_comm, List.take_eq_take_iff]; omega
  have hdrop : s.cols.drop (min before s.cols.length) = s.cols.drop before := by
    rcases Nat.le_total before s.cols.length with hb | hb
    · rw [Nat.min_eq_left hb]
    · rw [Nat.min_eq_right hb, List.drop_of_length_le hb, List.drop_of_length_le (Nat.le_refl _)]
  unfold Sheet.insertCols
  by_cases h0 : count = 0
  · rw [if_pos h0]
    subst h0
    exact ⟨h, rfl, by simp [Grid.insertCols, Sheet.grid]⟩
  rw [if_neg h0, htake, hdrop]
  refine ⟨⟨h.pos, h.small, h.starts, h.rows, ?_⟩, rfl, ?_⟩
  · intro c hc
    simp only [List.mem_append] at hc
    rcases hc with (hc | hc) | hc
    · exact h.cols c (List.mem_of_mem_take hc)
    · rw [List.mem_replicate] at hc
      rw [hc.2]; exact n1
    · exact h.cols c (List.mem_of_mem_drop hc)
  · simp only [Sheet.grid, Grid.insertCols, List.map_append, List.map_replicate, n2, List.map_take,
      List.map_drop]

/-- **`delete_columns`** removes exactly those columns. -/
theorem deleteCols_grid {E : Env F} {norm : F → G} {L : List Nat} {s : Sheet F}
    (h : s.Inv E norm L) (start count : Nat) :
    (s.deleteCols start count).Inv E norm L
      ∧ (s.deleteCols start count).chunkRows = s.chunkRows
      ∧ (s.deleteCols start count).grid norm L = (s.grid norm L).deleteCols start count := by
  unfold Sheet.deleteCols
  simp only
  by_cases h0 : count = 0 ∨ s.cols = [] ∨ min (start + count) s.cols.length ≤ start
  · rw [if_pos h0]
    refine ⟨h, rfl, ?_⟩
    simp only [Sheet.grid, Grid.deleteCols]
    congr 1
    rcases h0 with h0 | h0 | h0
    · subst h0; simp
    · simp [h0]
    · by_cases hc : count = 0
      · subst hc; simp
      · rw [List.take_of_length_le (by simp; omega), List.drop_of_length_le (by simp; omega),
          List.append_nil]
  · rw [if_neg h0]
    have hdrop : s.cols.drop (min (start + count) s.cols.length) = s.cols.drop (start + count) := by
      rcases Nat.le_total (start + count) s.cols.length with hb | hb
      · rw [Nat.min_eq_left hb]
      · rw [Nat.min_eq_right hb, List.drop_of_length_le hb, List.drop_of_length_le (Nat.le_refl _)]
    rw [hdrop]
    refine ⟨⟨h.pos, h.small, h.starts, h.rows, ?_⟩, rfl, ?_⟩
    · intro c hc
      simp only [List.mem_append] at hc
      rcases hc with hc | hc
      · exact h.cols c (List.mem_of_mem_take hc)
      · exact h.cols c (List.mem_of_mem_drop hc)
    · simp only [Sheet.grid, Grid.deleteCols, List.map_append, List.map_take, List.map_drop]

/-- Growing a sheet to contain a cell adds blank cells only, and the cell is then inside. -/
theorem reach_grid {E : Env F} {norm : F → G} {L : List Nat} {s : Sheet F}
    (h : s.Inv E norm L) (r c : Nat) :
    ∃ L', (s.reach r c).Inv E norm L' ∧ (s.reach r c).chunkRows = s.chunkRows
      ∧ (s.reach r c).grid norm L' = (s.grid norm L).reach Cell.blank r c
      ∧ r < (s.reach r c).nrows ∧ c < (s.reach r c).cols.length := by
  have hA : ∃ s1 : Sheet F, (if s.cols.length ≤ c then s.insertCols s.cols.length (c + 1 - s.cols.length)
      else s) = s1 ∧ s1.Inv E norm L ∧ s1.chunkRows = s.chunkRows
        ∧ s1.grid norm L = (s.grid norm L).insertCols Cell.blank s.cols.length (c + 1 - s.cols.length)
        ∧ c < s1.cols.length := by
    refine ⟨_, rfl, ?_⟩
    by_cases hc : s.cols.length ≤ c
    · rw [if_pos hc]
      obtain ⟨a1, a2, a3⟩ := insertCols_grid h s.cols.length (c + 1 - s.cols.length)
      refine ⟨a1, a2, a3, ?_⟩
      have := congrArg (fun g => g.cols.length) a3
      simp [Sheet.grid, Grid.insertCols] at this
      omega
    · rw [if_neg hc]
      refine ⟨h, rfl, ?_, by omega⟩
      rw [show c + 1 - s.cols.length = 0 by omega]
      simp [Grid.insertCols]
  obtain ⟨s1, e1, i1, k1, g1, l1⟩ := hA
  unfold Sheet.reach
  simp only [e1]
  have hgr : (s.grid norm L).reach Cell.blank r c = (s1.grid norm L).ensureRows Cell.blank (r + 1) := by
    rw [g1]
    simp [Grid.reach, Sheet.grid]
  by_cases hr : s1.nrows ≤ r
  · rw [if_pos hr, if_neg (by intro hh; rw [hh] at l1; simp at l1)]
    obtain ⟨L', b1, b2, b3⟩ := ensureRows_grid i1 (r + 1)
    refine ⟨L', b1, by rw [b2, k1], by rw [b3, hgr], ?_, ?_⟩
    · have := congrArg (fun g => g.rows) b3
      simp only [Sheet.grid, Grid.ensureRows] at this
      omega
    · have := congrArg (fun g => g.cols.length) b3
      simp [Sheet.grid, Grid.ensureRows] at this
      omega
  · rw [if_neg hr]
    refine ⟨L, i1, k1, ?_, by omega, l1⟩
    rw [hgr]
    have hr' : r + 1 ≤ s1.nrows := by omega
    simp only [Grid.ensureRows, Sheet.grid]
    rw [Nat.max_eq_left hr', Nat.sub_eq_zero_of_le hr']
    simp

end Verif.Store
