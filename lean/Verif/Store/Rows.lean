import Mathlib.Data.List.Basic
import Mathlib.Data.List.GetD
import Mathlib.Data.List.Forall2
import Mathlib.Algebra.BigOperators.Group.List.Basic
import Mathlib.Tactic.Tauto
import Verif.Store.Layout

/-!
# Rows and columns inserted, deleted and added

Each structural operation on a sheet does to the grid of its cells what the operation on a plain grid
does.
-/

namespace Verif.Store

variable {F G : Type}

/-- A column under widths `L`: its chunks are in places of the layout; if all are in the vector, they
have exactly the widths. -/
structure Column.Ok (E : Env F) (norm : F → G) (L : List Nat) (c : Column F) : Prop where
  chunks : ∀ j ch, c.chunk j = some ch → ∃ w, L[j]? = some w ∧ ChunkOk E norm w ch
  exact_ : c.dense.length = L.length → c.dense.map Chunk.len = L

/-- A sheet whose chunks have widths `L`. -/
structure Sheet.Inv (E : Env F) (norm : F → G) (L : List Nat) (s : Sheet F) : Prop where
  pos : ∀ w ∈ L, 0 < w
  small : ∀ w ∈ L, w ≤ max s.chunkRows 1
  starts : s.starts = sums 0 L
  rows : s.nrows = L.sum
  cols : ∀ c ∈ s.cols, c.Ok E norm L

/-- All cells of a sheet. -/
def Sheet.grid (norm : F → G) (L : List Nat) (s : Sheet F) : Grid (Cell G) :=
  ⟨s.nrows, s.cols.map fun c => walkCells norm c.chunk 0 L⟩

theorem Column.dense_chunk (c : Column F) (j : Nat) (h : j < c.dense.length) :
    c.chunk j = c.dense[j]? := by
  unfold Column.chunk; rw [if_pos h]

theorem Column.Ok.dense_le {E : Env F} {norm : F → G} {L : List Nat} {c : Column F}
    (h : c.Ok E norm L) : c.dense.length ≤ L.length := by
  rcases Nat.lt_or_ge L.length c.dense.length with hlt | hge
  · have h1 := c.dense_chunk L.length hlt
    rw [List.getElem?_eq_getElem hlt] at h1
    obtain ⟨w, h2, _⟩ := h.chunks _ _ h1
    simp at h2
  · exact hge

theorem sum_zero_nil {L : List Nat} (hp : ∀ w ∈ L, 0 < w) (h : L.sum = 0) : L = [] := by
  cases L with
  | nil => rfl
  | cons w L =>
    have := hp w (by simp)
    simp only [List.sum_cons] at h
    omega

theorem Sheet.Inv.widthAt {E : Env F} {norm : F → G} {L : List Nat} {s : Sheet F}
    (h : s.Inv E norm L) (j : Nat) : s.widthAt j = L[j]? := by
  unfold Sheet.widthAt
  rw [h.starts, h.rows]
  have := sums_width L 0 j
  simpa using this

theorem Sheet.Inv.chunkOfRow {E : Env F} {norm : F → G} {L : List Nat} {s : Sheet F}
    (h : s.Inv E norm L) (r : Nat) (hr : r < s.nrows) :
    ∃ j o w, s.chunkOfRow r = some (j, o) ∧ find L r = some (j, o) ∧ L[j]? = some w ∧ o < w
      ∧ r = (L.take j).sum + o := by
  rw [h.rows] at hr
  obtain ⟨j, o, h1, h2, h3, h4⟩ := sums_find L 0 r (by omega) (by omega)
  obtain ⟨j', o', w, g1, g2, g3, g4⟩ := find_spec L r hr
  rw [Nat.sub_zero] at h1
  have := h1.symm.trans g1
  simp only [Option.some.injEq, Prod.mk.injEq] at this
  obtain ⟨rfl, rfl⟩ := this
  refine ⟨j, o, w, ?_, h1, g2, g3, g4⟩
  unfold Sheet.chunkOfRow
  rw [h.starts]
  simp only [h2, Nat.add_sub_cancel, h3, Option.map_some]
  congr 2; omega

theorem rebuilt_ok {E : Env F} {norm : F → G} {get : Nat → Option (Chunk F)} {c' : Column F}
    {plan : List Item} {P : List (Option (Chunk F))} (hP : List.Forall₂ (Fits E norm get) plan P)
    (hc' : ∀ j, c'.chunk j = (P[j]?).join) :
    c'.Ok E norm (plan.map Item.len)
      ∧ walkCells norm c'.chunk 0 (plan.map Item.len) = plan.flatMap (itemCells norm get) := by
  refine ⟨⟨?_, ?_⟩, fits_cells hP 0 (fun j _ => by rw [Nat.zero_add]; exact hc' j)⟩
  · intro j ch h
    rw [hc' j] at h
    obtain ⟨w, a, b, _⟩ := fits_get hP j ch h
    exact ⟨w, a, b⟩
  · intro hl
    apply List.ext_getElem (by simpa using hl)
    intro j h1 h2
    have h1' : j < c'.dense.length := by simpa using h1
    have h3 := c'.dense_chunk j h1'
    rw [hc' j, List.getElem?_eq_getElem h1'] at h3
    obtain ⟨w, a, _, b⟩ := fits_get hP j _ h3
    rw [List.getElem_map, b]
    rw [List.getElem?_eq_getElem h2] at a
    exact (Option.some.inj a).symm

/-! ## Dense mode -/

theorem denseInsert_fits {E : Env F} {norm : F → G} (hn : Agrees E norm)
    (get : Nat → Option (Chunk F)) (k off n : Nat) (hoff : ∀ ch, get k = some ch → off ≤ ch.len)
    (dense : List (Chunk F)) (i s : Nat) (hget : ∀ t, t < dense.length → get (i + t) = dense[t]?)
    (hok : ∀ ch ∈ dense, ChunkOk E norm ch.len ch ∧ 0 < ch.len) :
    List.Forall₂ (Fits E norm get) (walkL (insertItem k off n) i s (dense.map Chunk.len))
      ((denseInsert E k off n i dense).map some) := by
  induction dense generalizing i s with
  | nil => exact List.Forall₂.nil
  | cons ch r ih =>
    have hg : get i = some ch := by have := hget 0 (by simp); simpa using this
    obtain ⟨h1, h2⟩ := hok ch (by simp)
    simp only [List.map_cons, walkL, denseInsert, List.map_append]
    apply List.rel_append
    · unfold insertItem
      rw [show s + ch.len - s = ch.len by omega, if_neg (by omega)]
      by_cases hik : i ≠ k
      · rw [if_pos hik, if_pos hik]
        exact List.Forall₂.cons (whole_fits get hg h1 rfl (Nat.le_refl _)) List.Forall₂.nil
      · have hik : i = k := by omega
        rw [if_neg (show ¬ i ≠ k by omega), if_neg (show ¬ i ≠ k by omega)]
        have ho := hoff ch (hik ▸ hg)
        rw [Nat.min_eq_left ho]
        simp only [List.map_append]
        refine List.rel_append (List.rel_append ?_ ?_) ?_
        · by_cases h0 : off > 0
          · rw [if_pos h0, if_pos h0]
            exact List.Forall₂.cons (slice_fits hn get hg h1 (by omega)) List.Forall₂.nil
          · rw [if_neg h0, if_neg h0]; exact List.Forall₂.nil
        · refine List.Forall₂.cons ⟨?_, ?_⟩ List.Forall₂.nil
          · simp only [Item.len, itemCells]
            rw [List.eq_replicate_iff]
            refine ⟨by simp, fun b hb => ?_⟩
            rw [List.mem_map] at hb
            obtain ⟨o, _, rfl⟩ := hb
            exact empty_cell norm n o
          · intro ch' h'
            have h' := Option.some.inj h'
            subst h'
            refine ⟨⟨by rw [empty_len]; exact Nat.le_refl _, (empty_inv E n).1, (empty_inv E n).2,
              fun o _ => empty_cell norm n o⟩, empty_len n⟩
        · by_cases h0 : off < ch.len
          · rw [if_pos h0, if_pos (by omega)]
            exact List.Forall₂.cons (slice_fits hn get hg h1 (by omega)) List.Forall₂.nil
          · rw [if_neg h0, if_neg (by omega)]; exact List.Forall₂.nil
    · apply ih (i + 1) (s + ch.len)
      · intro t ht
        have := hget (t + 1) (by simpa using ht)
        rw [show i + (t + 1) = i + 1 + t by omega] at this
        simpa using this
      · intro c hc; exact hok c (by simp [hc])

theorem denseDelete_fits {E : Env F} {norm : F → G} (hn : Agrees E norm)
    (get : Nat → Option (Chunk F)) (start stop : Nat) (dense : List (Chunk F)) (i s : Nat)
    (hget : ∀ t, t < dense.length → get (i + t) = dense[t]?)
    (hok : ∀ ch ∈ dense, ChunkOk E norm ch.len ch ∧ 0 < ch.len) :
    List.Forall₂ (Fits E norm get) (walkL (deleteItem start stop) i s (dense.map Chunk.len))
      ((denseDelete E start stop s dense).map some) := by
  induction dense generalizing i s with
  | nil => exact List.Forall₂.nil
  | cons ch r ih =>
    have hg : get i = some ch := by have := hget 0 (by simp); simpa using this
    obtain ⟨h1, h2⟩ := hok ch (by simp)
    simp only [List.map_cons, walkL, denseDelete, List.map_append]
    apply List.rel_append
    · unfold deleteItem
      rw [show s + ch.len - s = ch.len by omega, if_neg (by omega)]
      by_cases hov : s + ch.len ≤ start ∨ stop ≤ s
      · rw [if_pos hov, if_pos hov]
        exact List.Forall₂.cons (whole_fits get hg h1 rfl (Nat.le_refl _)) List.Forall₂.nil
      · rw [if_neg hov, if_neg hov]
        simp only [List.map_append]
        refine List.rel_append ?_ ?_
        · by_cases h0 : s < start
          · rw [if_pos h0, if_pos (by omega), if_pos (by omega), show min start (s + ch.len) - s = start - s by omega,
              show max start s - s = start - s by omega]
            exact List.Forall₂.cons (slice_fits hn get hg h1 (by omega)) List.Forall₂.nil
          · rw [if_neg h0, if_neg (by omega)]; exact List.Forall₂.nil
        · by_cases h0 : stop < s + ch.len
          · rw [if_pos h0, if_pos (by omega), if_pos (by omega),
              show s + ch.len - min stop (s + ch.len) = s + ch.len - stop by omega,
              show ch.len - (s + ch.len - stop) = stop - s by omega]
            exact List.Forall₂.cons (slice_fits hn get hg h1 (by omega)) List.Forall₂.nil
          · rw [if_neg h0, if_neg (by omega)]; exact List.Forall₂.nil
    · apply ih (i + 1) (s + ch.len)
      · intro t ht
        have := hget (t + 1) (by simpa using ht)
        rw [show i + (t + 1) = i + 1 + t by omega] at this
        simpa using this
      · intro c hc; exact hok c (by simp [hc])

/-! ## Row edits -/

/-- What both modes have in common: a new list of columns, each fitting the plan. -/
theorem rowEdit {E : Env F} {norm : F → G} {L : List Nat} {s s' : Sheet F} (h : s.Inv E norm L)
    (plan : List Item) (n : Nat) (hpos : ∀ x ∈ plan, 0 < x.len) (hw : ∀ x ∈ plan, x.Within L n)
    (hn : n ≤ max s.chunkRows 1) (f : Column F → Column F) (hcols : s'.cols = s.cols.map f)
    (hfit : ∀ c ∈ s.cols, ∃ P, List.Forall₂ (Fits E norm c.chunk) plan P
      ∧ ∀ j, (f c).chunk j = (P[j]?).join)
    (hstarts : s'.starts = sums 0 (plan.map Item.len)) (hrows : s'.nrows = (plan.map Item.len).sum)
    (hcr : s'.chunkRows = s.chunkRows) :
    s'.Inv E norm (plan.map Item.len)
      ∧ s'.grid norm (plan.map Item.len)
        = ⟨s'.nrows, s.cols.map fun c => plan.flatMap (itemCells norm c.chunk)⟩ := by
  refine ⟨⟨?_, ?_, hstarts, hrows, ?_⟩, ?_⟩
  · intro w hw'
    rw [List.mem_map] at hw'
    obtain ⟨x, hx, rfl⟩ := hw'
    exact hpos x hx
  · intro w hw'
    rw [List.mem_map] at hw'
    obtain ⟨x, hx, rfl⟩ := hw'
    rw [hcr]
    have := hw x hx
    cases x with
    | empty len => simp only [Item.Within] at this; simp only [Item.len]; omega
    | slice j off len =>
      obtain ⟨_, w, h1, h2⟩ := this
      have := h.small w (List.mem_of_getElem? h1)
      simp only [Item.len]; omega
  · intro c' hc'
    rw [hcols, List.mem_map] at hc'
    obtain ⟨c, hc, rfl⟩ := hc'
    obtain ⟨P, h1, h2⟩ := hfit c hc
    exact (rebuilt_ok h1 h2).1
  · unfold Sheet.grid
    rw [hcols, List.map_map]
    congr 1
    apply List.map_congr_left
    intro c hc
    obtain ⟨P, h1, h2⟩ := hfit c hc
    exact (rebuilt_ok h1 h2).2

theorem Sheet.Inv.aligned_dense {E : Env F} {norm : F → G} {L : List Nat} {s : Sheet F}
    (h : s.Inv E norm L) (ha : s.aligned = true) (c : Column F) (hc : c ∈ s.cols) :
    c.dense.map Chunk.len = L ∧ (∀ t, t < c.dense.length → c.chunk (0 + t) = c.dense[t]?)
      ∧ (∀ ch ∈ c.dense, ChunkOk E norm ch.len ch ∧ 0 < ch.len) := by
  unfold Sheet.aligned at ha
  rw [List.all_eq_true] at ha
  have h1 := ha c hc
  simp only [Bool.and_eq_true, decide_eq_true_eq] at h1
  have hl : c.dense.length = L.length := by rw [h1.2, h.starts, sums_length]
  have hm := (h.cols c hc).exact_ hl
  refine ⟨hm, fun t ht => by rw [Nat.zero_add]; exact c.dense_chunk t ht, ?_⟩
  intro ch hch
  obtain ⟨t, ht, rfl⟩ := List.mem_iff_getElem.1 hch
  have h2 := c.dense_chunk t ht
  rw [List.getElem?_eq_getElem ht] at h2
  obtain ⟨w, h3, h4⟩ := (h.cols c hc).chunks t _ h2
  have hlen : L[t]? = some c.dense[t].len := by
    rw [← hm, List.getElem?_map, List.getElem?_eq_getElem ht]; rfl
  have hw : w = c.dense[t].len := Option.some.inj (h3.symm.trans hlen)
  subst hw
  exact ⟨h4, h.pos _ (List.mem_of_getElem? hlen)⟩

theorem denseChunk (D : List (Chunk F)) (j : Nat) :
    (⟨D, []⟩ : Column F).chunk j = ((D.map some)[j]?).join := by
  unfold Column.chunk
  simp only
  rw [List.getElem?_map]
  by_cases h : j < D.length
  · rw [if_pos h, List.getElem?_eq_getElem h]; rfl
  · rw [if_neg h, List.getElem?_eq_none (by omega)]; rfl

theorem Forall₂.lens {E : Env F} {norm : F → G} {get : Nat → Option (Chunk F)} {plan : List Item}
    {D : List (Chunk F)} (h : List.Forall₂ (Fits E norm get) plan (D.map some)) :
    D.map Chunk.len = plan.map Item.len := by
  induction plan generalizing D with
  | nil =>
    cases D with
    | nil => rfl
    | cons x D => simp at h
  | cons x plan ih =>
    cases D with
    | nil => simp at h
    | cons ch D =>
      simp only [List.map_cons, List.forall₂_cons] at h ⊢
      rw [(h.1.ok ch rfl).2, ih h.2]

theorem recompute_eq {E : Env F} {norm : F → G} {L : List Nat} {s : Sheet F}
    (plan : List Item) (g : List (Chunk F) → List (Chunk F)) (hc : s.cols ≠ [])
    (hf : ∀ c ∈ s.cols, List.Forall₂ (Fits E norm c.chunk) plan ((g c.dense).map some)) :
    recomputeStarts (s.cols.map fun c => (⟨g c.dense, []⟩ : Column F)) = sums 0 (plan.map Item.len) := by
  cases hs : s.cols with
  | nil => exact absurd hs hc
  | cons c cs =>
    simp only [List.map_cons, recomputeStarts]
    rw [Forall₂.lens (hf c (by rw [hs]; simp))]

theorem splitAt_spec {E : Env F} {norm : F → G} {L : List Nat} {s : Sheet F} (h : s.Inv E norm L)
    (p : Nat) (hp : p ≤ s.nrows) (h0 : 0 < s.nrows) :
    ∃ k off w, s.splitAt p = some (k, off) ∧ L[k]? = some w ∧ off ≤ w ∧ p = (L.take k).sum + off := by
  unfold Sheet.splitAt
  by_cases he : p = s.nrows
  · rw [if_pos he]
    have hne : L ≠ [] := by
      rintro rfl
      have := h.rows
      simp at this; omega
    obtain ⟨L0, w, rfl⟩ : ∃ L0 w, L = L0 ++ [w] :=
      ⟨L.dropLast, L.getLast hne, (List.dropLast_append_getLast hne).symm⟩
    refine ⟨L0.length, w, w, ?_, by simp, Nat.le_refl _, ?_⟩
    · rw [h.starts, sums_length, h.rows, sums_append]
      simp only [List.length_append, List.length_singleton, Nat.add_sub_cancel, List.sum_append,
        List.sum_singleton, Nat.zero_add, sums]
      rw [List.getD_append_right _ _ _ _ (by rw [sums_length]), sums_length, Nat.sub_self]
      simp
    · rw [he, h.rows]; simp
  · rw [if_neg he]
    obtain ⟨j, o, w, h1, _, h2, h3, h4⟩ := h.chunkOfRow p (by omega)
    exact ⟨j, o, w, h1, h2, by omega, h4⟩

theorem starts_ne {E : Env F} {norm : F → G} {L : List Nat} {s : Sheet F} (h : s.Inv E norm L)
    (h0 : 0 < s.nrows) : s.starts ≠ [] := by
  rw [h.starts]
  intro he
  have := congrArg List.length he
  rw [sums_length] at this
  have hL : L = [] := List.eq_nil_of_length_eq_zero this
  have := h.rows
  subst hL
  simp at this; omega

theorem walk_eq {E : Env F} {norm : F → G} {L : List Nat} {s : Sheet F} (h : s.Inv E norm L)
    (item : Nat → Nat → Nat → List Item) : walk s.nrows item 0 s.starts = walkL item 0 0 L := by
  rw [h.starts, h.rows]
  have := walk_sums item L 0 0
  rwa [Nat.zero_add] at this

/-- **`insert_rows`.**  It does not panic, and every column gets the blank cells at the right place and
keeps all others, in whichever mode and however the columns are chunked. -/
theorem insertRows_grid {E : Env F} {norm : F → G} (hn : Agrees E norm) {L : List Nat} {s : Sheet F}
    (h : s.Inv E norm L) (before count : Nat) (hsmall : count ≤ max s.chunkRows 1)
    (hc : s.nrows = 0 ∨ s.cols ≠ []) :
    ∃ s' L', s.insertRows E before count = some s' ∧ s'.Inv E norm L' ∧ s'.chunkRows = s.chunkRows
      ∧ s'.grid norm L' = (s.grid norm L).insertRows Cell.blank before count := by
  unfold Sheet.insertRows
  by_cases h0 : count = 0
  · refine ⟨s, L, by rw [if_pos h0], h, rfl, ?_⟩
    subst h0
    simp [Grid.insertRows, Sheet.grid]
  rw [if_neg h0]
  by_cases h1 : s.nrows = 0
  · have hL : L = [] := sum_zero_nil h.pos (by rw [← h.rows]; exact h1)
    subst hL
    have hs : s.starts = [] := by rw [h.starts]; rfl
    have hchunk : ∀ c ∈ s.cols, ∀ j, c.chunk j = none := by
      intro c hcm j
      cases hj : c.chunk j with
      | none => rfl
      | some ch =>
        obtain ⟨w, hw, _⟩ := (h.cols c hcm).chunks j ch hj
        simp at hw
    refine ⟨_, [count], if_pos h1, ⟨?_, ?_, ?_, ?_, ?_⟩, rfl, ?_⟩
    · simp; omega
    · simpa using hsmall
    · simp [hs, sums]
    · simp
    · intro c hcm
      refine ⟨fun j ch hj => by rw [hchunk c hcm j] at hj; simp at hj, fun hl => ?_⟩
      have := (h.cols c hcm).dense_le
      simp only [List.length_nil, List.length_singleton] at this hl
      omega
    · unfold Sheet.grid Grid.insertRows
      simp only [h1, Nat.zero_add, List.map_map]
      congr 1
      apply List.map_congr_left
      intro c hcm
      simp only [walkCells, Function.comp, List.take_nil, List.drop_nil, List.append_nil,
        List.nil_append]
      rw [List.eq_replicate_iff]
      refine ⟨by simp, fun b hb => ?_⟩
      rw [List.mem_map] at hb
      obtain ⟨o, _, rfl⟩ := hb
      rw [hchunk c hcm]; rfl
  rw [if_neg h1]
  have hne := starts_ne h (by omega)
  have hcols : s.cols ≠ [] := by
    rcases hc with hc | hc
    · exact absurd hc h1
    · exact hc
  have hs1 : ({ s with starts := if s.starts = [] then [0] else s.starts } : Sheet F) = s := by
    rw [if_neg hne]
  simp only [hs1]
  obtain ⟨k, off, w, hsp, hk, ho, hpos⟩ := splitAt_spec h (min before s.nrows) (by omega) (by omega)
  rw [hsp]
  dsimp only
  have hwithin : ∀ x ∈ walkL (insertItem k off count) 0 0 L, x.Within L count :=
    walkL_within _ count L L 0 0 (fun i s w x hx M hM => insertItem_within k off count i s w x hx M hM)
      (fun j => by rw [Nat.zero_add])
  have hlenpos : ∀ x ∈ walkL (insertItem k off count) 0 0 L, 0 < x.len := by
    intro x hx
    have := hwithin x hx
    cases x with
    | empty len => simp only [Item.Within] at this; simp only [Item.len]; omega
    | slice => exact this.1
  have hcells : ∀ (get : Nat → Option (Chunk F)),
      (walkL (insertItem k off count) 0 0 L).flatMap (itemCells norm get)
        = (walkCells norm get 0 L).take before ++ List.replicate count Cell.blank
          ++ (walkCells norm get 0 L).drop before := by
    intro get
    have := insert_cells norm get k off count L 0 0 w (by omega) (by simpa using hk) ho h.pos
    rw [this]
    simp only [Nat.sub_zero]
    rw [← hpos]
    have hl := walkCells_length norm get L 0
    rw [← h.rows] at hl
    rcases Nat.lt_or_ge before s.nrows with hb | hb
    · rw [Nat.min_eq_left (by omega)]
    · rw [Nat.min_eq_right hb, List.take_of_length_le (by omega), List.take_of_length_le (by omega),
        List.drop_of_length_le (by omega), List.drop_of_length_le (by omega)]
  have hsum : ((walkL (insertItem k off count) 0 0 L).map Item.len).sum = s.nrows + count := by
    have h2 := congrArg List.length (hcells (fun _ => none))
    rw [planCells_length] at h2
    have hl := walkCells_length norm (fun _ => (none : Option (Chunk F))) L 0
    rw [← h.rows] at hl
    simp only [List.length_append, List.length_take, List.length_drop, List.length_replicate] at h2
    omega
  by_cases ha : s.aligned = true
  · rw [if_pos ha]
    have hfit : ∀ c ∈ s.cols, List.Forall₂ (Fits E norm c.chunk)
        (walkL (insertItem k off count) 0 0 L)
        ((denseInsert E k off count 0 c.dense).map some) := by
      intro c hcm
      obtain ⟨d1, d2, d3⟩ := h.aligned_dense ha c hcm
      have := denseInsert_fits hn c.chunk k off count (fun ch hch => by
        obtain ⟨w', e1, e2⟩ := (h.cols c hcm).chunks k ch hch
        have hww : w' = w := Option.some.inj (e1.symm.trans hk)
        have := e2.wide
        omega) c.dense 0 0 d2 d3
      rwa [d1] at this
    obtain ⟨r1, r2⟩ := rowEdit (s' := { s with
          cols := s.cols.map fun c => (⟨denseInsert E k off count 0 c.dense, []⟩ : Column F)
          nrows := s.nrows + count
          starts := recomputeStarts (s.cols.map fun c =>
            (⟨denseInsert E k off count 0 c.dense, []⟩ : Column F)) })
      h (walkL (insertItem k off count) 0 0 L) count hlenpos hwithin hsmall
      (fun c => ⟨denseInsert E k off count 0 c.dense, []⟩) rfl
      (fun c hcm => ⟨_, hfit c hcm, fun j => denseChunk _ j⟩)
      (recompute_eq (L := L) (s := s) _ (denseInsert E k off count 0) hcols hfit) hsum.symm rfl
    refine ⟨_, _, rfl, r1, rfl, ?_⟩
    rw [r2]
    simp only [Grid.insertRows, Sheet.grid, List.map_map]
    congr 1
    apply List.map_congr_left
    intro c _
    exact hcells c.chunk
  · rw [if_neg ha]
    simp only [if_neg hne]
    rw [walk_eq h]
    obtain ⟨r1, r2⟩ := rowEdit (s' := { s with
          cols := s.cols.map (Column.rebuild E (walkL (insertItem k off count) 0 0 L))
          nrows := s.nrows + count
          starts := planStarts 0 (walkL (insertItem k off count) 0 0 L) })
      h (walkL (insertItem k off count) 0 0 L) count hlenpos hwithin hsmall
      (Column.rebuild E (walkL (insertItem k off count) 0 0 L)) rfl
      (fun c hcm => ⟨_, by
        rw [List.forall₂_map_right_iff, List.forall₂_same]
        intro x hx
        exact produce_fits hn c.chunk L count (h.cols c hcm).chunks x (hwithin x hx),
        fun j => rebuild_chunk E _ c j⟩)
      (planStarts_eq _ 0 hlenpos) hsum.symm rfl
    refine ⟨_, _, rfl, r1, rfl, ?_⟩
    rw [r2]
    simp only [Grid.insertRows, Sheet.grid, List.map_map]
    congr 1
    apply List.map_congr_left
    intro c _
    exact hcells c.chunk

/-- **`delete_rows`.**  Every column loses exactly the cells of those rows. -/
theorem deleteRows_grid {E : Env F} {norm : F → G} (hn : Agrees E norm) {L : List Nat} {s : Sheet F}
    (h : s.Inv E norm L) (start count : Nat) (hc : s.nrows = 0 ∨ s.cols ≠ []) :
    ∃ L', (s.deleteRows E start count).Inv E norm L'
      ∧ (s.deleteRows E start count).chunkRows = s.chunkRows
      ∧ (s.deleteRows E start count).grid norm L' = (s.grid norm L).deleteRows start count := by
  have hlen : ∀ c : Column F, (walkCells norm c.chunk 0 L).length = s.nrows := by
    intro c; rw [walkCells_length, h.rows]
  by_cases h0 : count = 0 ∨ s.nrows = 0 ∨ s.nrows ≤ start
  · have hd : s.deleteRows E start count = s := by unfold Sheet.deleteRows; rw [if_pos h0]
    rw [hd]
    refine ⟨L, h, rfl, ?_⟩
    unfold Sheet.grid Grid.deleteRows
    simp only [List.map_map]
    congr 1
    · omega
    · apply List.map_congr_left
      intro c _
      simp only [Function.comp]
      have hl := hlen c
      rcases h0 with h0 | h0 | h0
      · subst h0; simp
      · have : walkCells norm c.chunk 0 L = [] := List.eq_nil_of_length_eq_zero (by omega)
        simp [this]
      · rw [List.take_of_length_le (by omega), List.drop_of_length_le (by omega), List.append_nil]
  unfold Sheet.deleteRows
  rw [if_neg h0]
  have hne := starts_ne h (by omega)
  have hcols : s.cols ≠ [] := by
    rcases hc with hc | hc
    · exact absurd (Or.inr (Or.inl hc)) h0
    · exact hc
  have hs1 : ({ s with starts := if s.starts = [] then [0] else s.starts } : Sheet F) = s := by
    rw [if_neg hne]
  simp only [hs1]
  have hstop : start ≤ min (start + count) s.nrows := by omega
  generalize hst : min (start + count) s.nrows = stop at hstop ⊢
  have hwithin : ∀ x ∈ walkL (deleteItem start stop) 0 0 L, x.Within L 1 :=
    walkL_within _ 1 L L 0 0 (fun i s w x hx M hM => deleteItem_within start stop 1 i s w x hx M hM)
      (fun j => by rw [Nat.zero_add])
  have hlenpos : ∀ x ∈ walkL (deleteItem start stop) 0 0 L, 0 < x.len := by
    intro x hx
    have := hwithin x hx
    cases x with
    | empty len => simp only [Item.Within] at this; simp only [Item.len]; omega
    | slice => exact this.1
  have hcells : ∀ (get : Nat → Option (Chunk F)),
      (walkL (deleteItem start stop) 0 0 L).flatMap (itemCells norm get)
        = (walkCells norm get 0 L).take start ++ (walkCells norm get 0 L).drop (start + count) := by
    intro get
    rw [delete_cells norm get start stop hstop L 0 0]
    simp only [Nat.sub_zero]
    congr 1
    have hl := walkCells_length norm get L 0
    rw [← h.rows] at hl
    rcases Nat.lt_or_ge (start + count) s.nrows with hb | hb
    · rw [← hst, Nat.min_eq_left (by omega)]
    · rw [← hst, Nat.min_eq_right hb, List.drop_of_length_le (by omega),
        List.drop_of_length_le (by omega)]
  have hsum : ((walkL (deleteItem start stop) 0 0 L).map Item.len).sum
      = s.nrows - (stop - start) := by
    have h2 := congrArg List.length (hcells (fun _ => none))
    rw [planCells_length] at h2
    have hl := walkCells_length norm (fun _ => (none : Option (Chunk F))) L 0
    rw [← h.rows] at hl
    simp only [List.length_append, List.length_take, List.length_drop] at h2
    omega
  have hrow : s.nrows - (stop - start) = s.nrows - min count (s.nrows - start) := by omega
  by_cases ha : s.aligned = true
  · rw [if_pos ha]
    have hfit : ∀ c ∈ s.cols, List.Forall₂ (Fits E norm c.chunk)
        (walkL (deleteItem start stop) 0 0 L)
        ((denseDelete E start stop 0 c.dense).map some) := by
      intro c hcm
      obtain ⟨d1, d2, d3⟩ := h.aligned_dense ha c hcm
      have := denseDelete_fits hn c.chunk start stop c.dense 0 0 d2 d3
      rwa [d1] at this
    obtain ⟨r1, r2⟩ := rowEdit (s' := { s with
          cols := s.cols.map fun c => (⟨denseDelete E start stop 0 c.dense, []⟩ : Column F)
          nrows := s.nrows - (stop - start)
          starts := recomputeStarts (s.cols.map fun c =>
            (⟨denseDelete E start stop 0 c.dense, []⟩ : Column F)) })
      h (walkL (deleteItem start stop) 0 0 L) 1 hlenpos hwithin (by omega)
      (fun c => ⟨denseDelete E start stop 0 c.dense, []⟩) rfl
      (fun c hcm => ⟨_, hfit c hcm, fun j => denseChunk _ j⟩)
      (recompute_eq (L := L) (s := s) _ (denseDelete E start stop 0) hcols hfit) hsum.symm rfl
    refine ⟨_, r1, rfl, ?_⟩
    rw [r2]
    simp only [Grid.deleteRows, Sheet.grid, List.map_map, hrow]
    congr 1
    apply List.map_congr_left
    intro c _
    exact hcells c.chunk
  · rw [if_neg ha]
    simp only [if_neg hne]
    rw [walk_eq h]
    obtain ⟨r1, r2⟩ := rowEdit (s' := { s with
          cols := s.cols.map (Column.rebuild E (walkL (deleteItem start stop) 0 0 L))
          nrows := s.nrows - (stop - start)
          starts := planStarts 0 (walkL (deleteItem start stop) 0 0 L) })
      h (walkL (deleteItem start stop) 0 0 L) 1 hlenpos hwithin (by omega)
      (Column.rebuild E (walkL (deleteItem start stop) 0 0 L)) rfl
      (fun c hcm => ⟨_, by
        rw [List.forall₂_map_right_iff, List.forall₂_same]
        intro x hx
        exact produce_fits hn c.chunk L 1 (h.cols c hcm).chunks x (hwithin x hx),
        fun j => rebuild_chunk E _ c j⟩)
      (planStarts_eq _ 0 hlenpos) hsum.symm rfl
    refine ⟨_, r1, trivial, ?_⟩
    rw [r2]
    simp only [Grid.deleteRows, Sheet.grid, List.map_map, hrow]
    congr 1
    apply List.map_congr_left
    intro c _
    exact hcells c.chunk

end Verif.Store
