import Mathlib.Data.List.Basic
import Mathlib.Data.List.GetD
import Mathlib.Algebra.BigOperators.Group.List.Basic
import Mathlib.Tactic.Tauto
import Verif.Store.History

/-!
# Sheets read in row by row, and the whole life of a sheet

Models `IngestBuilder` (`/repo/crates/formualizer-eval/src/arrow_store/mod.rs` 390-870).  The five
builders and the non-null counts of a column are the list of the values appended to it since the last
chunk was finished; `Lanes.ofValues` is what the builders make of them.  Formats are left out.
-/

namespace Verif.Store

variable {F G : Type}

/-! ## Model -/

/-- One column of the builder: finished chunks, and the values since. -/
structure Building (F : Type) where
  chunks : List (Chunk F)
  buf : List (Value F)

/-- `IngestBuilder` (mod.rs 390-416). -/
structure Builder (F : Type) where
  cols : List (Building F)
  rowIn : Nat
  total : Nat
  chunkRows : Nat

/-- `new` (mod.rs 427-461). -/
def Builder.new (ncols chunkRows : Nat) : Builder F :=
  ⟨List.replicate ncols ⟨[], []⟩, 0, 0, max chunkRows 1⟩

/-- The chunk made of the values of a column. -/
def Chunk.ofValues (vs : List (Value F)) : Chunk F := ⟨.ofValues vs, Overlay.new, Overlay.new⟩

/-- `finish_chunk` (mod.rs 765-829). -/
def Builder.finishChunk (b : Builder F) : Builder F :=
  if b.rowIn = 0 then b
  else { b with
    cols := b.cols.map fun c => ⟨c.chunks ++ [.ofValues c.buf], []⟩
    rowIn := 0 }

/-- `append_row_cells`, `append_row_cells_iter`, `append_row` (mod.rs 465-763); `none` is the panic of
the assertion on the width. -/
def Builder.append (b : Builder F) (row : List (Value F)) : Option (Builder F) :=
  if row.length = b.cols.length then
    let b1 : Builder F := { b with
      cols := b.cols.zipWith (fun c v => ⟨c.chunks, c.buf ++ [v]⟩) row
      rowIn := b.rowIn + 1
      total := b.total + 1 }
    some (if b1.rowIn ≥ b1.chunkRows then b1.finishChunk else b1)
  else none

/-- `finish` (mod.rs 831-882); `none` is the panic on columns chunked differently. -/
def Builder.finish (b : Builder F) : Option (Sheet F) :=
  let b := b.finishChunk
  let cols := b.cols.map fun c => (⟨c.chunks, []⟩ : Column F)
  if cols.all fun c => decide (c.dense.map Chunk.len = ((cols.head?).map (·.dense.map Chunk.len)).getD []) then
    some ⟨cols, b.total, recomputeStarts cols, b.chunkRows⟩
  else none

/-- Rows appended one after the other. -/
def Builder.appendAll (b : Builder F) : List (List (Value F)) → Option (Builder F)
  | [] => some b
  | r :: rs => (b.append r).bind fun b => b.appendAll rs

/-- A sheet read in from rows. -/
def ingest (ncols chunkRows : Nat) (rows : List (List (Value F))) : Option (Sheet F) :=
  ((Builder.new ncols chunkRows).appendAll rows).bind Builder.finish

/-! ## Specification -/

/-- The grid with these rows. -/
def Grid.ofRows {α : Type} (d : α) (ncols : Nat) (rows : List (List α)) : Grid α :=
  ⟨rows.length, (List.range ncols).map fun c => rows.map fun r => r.getD c d⟩

/-- A grid of empty cells. -/
def Grid.empty {α : Type} (d : α) (ncols nrows : Nat) : Grid α :=
  ⟨nrows, List.replicate ncols (List.replicate nrows d)⟩

/-! ## Ingesting -/

theorem ofValues_cell (norm : F → G) (vs : List (Value F)) (o : Nat) (v : Value F)
    (h : vs[o]? = some v) : (Chunk.ofValues vs).cell norm o = ⟨none, none, v.map norm⟩ := by
  unfold Chunk.cell Chunk.ofValues
  simp only [see_new, lanes_roundtrip, h, Option.getD_some]

theorem ofValues_len (vs : List (Value F)) : (Chunk.ofValues vs).len = vs.length := by
  simp [Chunk.len, Chunk.ofValues, Lanes.ofValues, Lanes.ofRows]

theorem ofValues_ok (E : Env F) (norm : F → G) (vs : List (Value F)) :
    ChunkOk E norm vs.length (Chunk.ofValues vs) := by
  refine ⟨by rw [ofValues_len], Overlay.new_inv, Overlay.new_inv, ?_⟩
  intro o ho
  unfold Chunk.cell Chunk.ofValues
  simp only [see_new, lanes_roundtrip]
  rw [List.getElem?_eq_none ho]
  rfl

/-- A column of the builder holds these values, in `q` full chunks and a rest. -/
structure Building.Holds (cr q : Nat) (vs : List (Value F)) (c : Building F) (blocks : List (List (Value F))) :
    Prop where
  chunks : c.chunks = blocks.map Chunk.ofValues
  count : blocks.length = q
  full : ∀ b ∈ blocks, b.length = cr
  all : blocks.flatten ++ c.buf = vs

/-- The builder after some rows. -/
structure Builder.Holds (ncols : Nat) (rows : List (List (Value F))) (b : Builder F) : Prop where
  width : b.cols.length = ncols
  total : b.total = rows.length
  small : b.rowIn < b.chunkRows
  cols : ∃ q, ∀ (i : Nat) (c : Building F), b.cols[i]? = some c → c.buf.length = b.rowIn
    ∧ ∃ blocks, c.Holds b.chunkRows q (rows.map fun r => r.getD i .empty) blocks

theorem finishChunk_holds {cr q : Nat} {vs : List (Value F)} {c : Building F}
    {blocks : List (List (Value F))} (h : c.Holds cr q vs blocks) (hb : c.buf.length = cr) :
    (⟨c.chunks ++ [.ofValues c.buf], []⟩ : Building F).Holds cr (q + 1) vs (blocks ++ [c.buf]) := by
  refine ⟨by simp [h.chunks], by simp [h.count], ?_, by simp [h.all]⟩
  intro b hm
  rw [List.mem_append, List.mem_singleton] at hm
  rcases hm with hm | rfl
  · exact h.full b hm
  · exact hb

theorem append_holds {ncols : Nat} {rows : List (List (Value F))} {b : Builder F}
    (h : b.Holds ncols rows) (row : List (Value F)) (hr : row.length = ncols) :
    ∃ b', b.append row = some b' ∧ b'.Holds ncols (rows ++ [row]) ∧ b'.chunkRows = b.chunkRows := by
  obtain ⟨q, hq⟩ := h.cols
  unfold Builder.append
  rw [if_pos (by rw [hr, h.width])]
  simp only
  refine ⟨_, rfl, ?_, ?_⟩
  · have hcol : ∀ (i : Nat) (c : Building F), (b.cols.zipWith (fun c v => (⟨c.chunks, c.buf ++ [v]⟩ : Building F)) row)[i]? = some c →
        c.buf.length = b.rowIn + 1
          ∧ ∃ blocks, c.Holds b.chunkRows q ((rows ++ [row]).map fun r => r.getD i .empty) blocks := by
      intro i c hc
      rw [List.getElem?_zipWith_eq_some] at hc
      obtain ⟨c0, v, h1, h2, rfl⟩ := hc
      obtain ⟨g1, blocks, g2⟩ := hq i c0 h1
      refine ⟨by simp [g1], blocks, g2.chunks, g2.count, g2.full, ?_⟩
      simp only [List.map_append, List.map_cons, List.map_nil, ← g2.all, List.append_assoc]
      rw [List.getD_eq_getElem?_getD, h2]
      rfl
    have hw : (b.cols.zipWith (fun c v => (⟨c.chunks, c.buf ++ [v]⟩ : Building F)) row).length = ncols := by
      rw [List.length_zipWith, h.width, hr, Nat.min_self]
    by_cases hf : b.rowIn + 1 ≥ b.chunkRows
    · have hfull : b.rowIn + 1 = b.chunkRows := by have := h.small; omega
      rw [if_pos hf]
      unfold Builder.finishChunk
      simp only
      rw [if_neg (by omega)]
      refine ⟨by simpa using hw, by simp [h.total], by have := h.small; simp only; omega, q + 1, ?_⟩
      intro i c hc
      simp only [List.getElem?_map, Option.map_eq_some_iff] at hc
      obtain ⟨c0, h1, rfl⟩ := hc
      obtain ⟨g1, blocks, g2⟩ := hcol i c0 h1
      exact ⟨rfl, _, finishChunk_holds g2 (g1.trans hfull)⟩
    · rw [if_neg hf]
      exact ⟨hw, by simp [h.total], by simp only; omega, q, hcol⟩
  · by_cases hf : b.rowIn + 1 ≥ b.chunkRows
    · rw [if_pos hf]
      unfold Builder.finishChunk
      simp only
      split <;> rfl
    · rw [if_neg hf]

theorem appendAll_holds {ncols : Nat} (more : List (List (Value F))) {rows : List (List (Value F))}
    {b : Builder F} (h : b.Holds ncols rows) (hr : ∀ r ∈ more, r.length = ncols) :
    ∃ b', b.appendAll more = some b' ∧ b'.Holds ncols (rows ++ more) ∧ b'.chunkRows = b.chunkRows := by
  induction more generalizing rows b with
  | nil => exact ⟨b, rfl, by simpa using h, rfl⟩
  | cons r more ih =>
    obtain ⟨b1, a1, a2, a3⟩ := append_holds h r (hr r (by simp))
    obtain ⟨b2, c1, c2, c3⟩ := ih a2 (fun x hx => hr x (by simp [hx]))
    refine ⟨b2, ?_, ?_, c3.trans a3⟩
    · simp only [Builder.appendAll, a1, Option.bind_some, c1]
    · simpa using c2

theorem new_holds (ncols chunkRows : Nat) : (Builder.new ncols chunkRows : Builder F).Holds ncols [] := by
  refine ⟨by simp [Builder.new], rfl, by simp only [Builder.new]; omega, 0, ?_⟩
  intro i c hc
  simp only [Builder.new, List.getElem?_replicate] at hc
  split at hc
  · have hc := Option.some.inj hc
    subst hc
    exact ⟨rfl, [], rfl, rfl, by simp, rfl⟩
  · simp at hc

theorem blocks_cells (norm : F → G) (blocks : List (List (Value F))) (i : Nat)
    (get : Nat → Option (Chunk F))
    (hget : ∀ j, j < blocks.length → get (i + j) = (blocks[j]?).map Chunk.ofValues) :
    walkCells norm get i (blocks.map List.length)
      = blocks.flatten.map fun v => ⟨none, none, v.map norm⟩ := by
  induction blocks generalizing i with
  | nil => rfl
  | cons b blocks ih =>
    simp only [List.map_cons, walkCells, List.flatten_cons, List.map_append]
    have h0 := hget 0 (by simp)
    simp only [Nat.add_zero, List.getElem?_cons_zero, Option.map_some] at h0
    congr 1
    · apply List.ext_getElem (by simp)
      intro k h1 h2
      simp only [List.getElem_map, List.getElem_range', h0, cellOf, Nat.one_mul, Nat.zero_add]
      simp only [List.length_map] at h2
      exact ofValues_cell norm b k b[k] (List.getElem?_eq_getElem h2)
    · apply ih
      intro j hj
      have := hget (j + 1) (by simpa using hj)
      rw [show i + (j + 1) = i + 1 + j by omega] at this
      simpa using this

/-- The blocks of all columns of the finished builder, and their common lengths. -/
theorem finish_blocks {ncols : Nat} {rows : List (List (Value F))} {b : Builder F}
    (h : b.Holds ncols rows) :
    ∃ L : List Nat, (∀ w ∈ L, 0 < w ∧ w ≤ b.chunkRows)
      ∧ b.finishChunk.total = rows.length ∧ b.finishChunk.chunkRows = b.chunkRows
      ∧ b.finishChunk.cols.length = ncols
      ∧ ∀ (i : Nat) (c : Building F), b.finishChunk.cols[i]? = some c → ∃ blocks : List (List (Value F)),
        c.chunks = blocks.map Chunk.ofValues ∧ blocks.map List.length = L
        ∧ blocks.flatten = rows.map fun r => r.getD i .empty := by
  obtain ⟨q, hq⟩ := h.cols
  have hs := h.small
  unfold Builder.finishChunk
  by_cases h0 : b.rowIn = 0
  · rw [if_pos h0]
    refine ⟨List.replicate q b.chunkRows, ?_, h.total, rfl, h.width, ?_⟩
    · intro w hw
      rw [List.mem_replicate] at hw
      omega
    · intro i c hc
      obtain ⟨g1, blocks, g2⟩ := hq i c hc
      refine ⟨blocks, g2.chunks, ?_, ?_⟩
      · rw [List.eq_replicate_iff]
        refine ⟨by simp [g2.count], ?_⟩
        intro x hx
        rw [List.mem_map] at hx
        obtain ⟨y, hy, rfl⟩ := hx
        exact g2.full y hy
      · have hb : c.buf = [] := List.eq_nil_of_length_eq_zero (by omega)
        have := g2.all
        rw [hb, List.append_nil] at this
        exact this
  · rw [if_neg h0]
    refine ⟨List.replicate q b.chunkRows ++ [b.rowIn], ?_, h.total, rfl, by simpa using h.width, ?_⟩
    · intro w hw
      rw [List.mem_append, List.mem_replicate, List.mem_singleton] at hw
      omega
    · intro i c hc
      simp only [List.getElem?_map, Option.map_eq_some_iff] at hc
      obtain ⟨c0, h1, rfl⟩ := hc
      obtain ⟨g1, blocks, g2⟩ := hq i c0 h1
      refine ⟨blocks ++ [c0.buf], by simp [g2.chunks], ?_, by simp [g2.all]⟩
      rw [List.map_append, List.map_singleton, g1]
      congr 1
      rw [List.eq_replicate_iff]
      refine ⟨by simp [g2.count], ?_⟩
      intro x hx
      rw [List.mem_map] at hx
      obtain ⟨y, hy, rfl⟩ := hx
      exact g2.full y hy

theorem lens_ofValues (blocks : List (List (Value F))) :
    (blocks.map Chunk.ofValues).map Chunk.len = blocks.map List.length := by
  rw [List.map_map]
  apply List.map_congr_left
  intro b _
  exact ofValues_len b

theorem ingest_good (E : Env F) (norm : F → G) (ncols chunkRows : Nat) (rows : List (List (Value F)))
    (hr : ∀ r ∈ rows, r.length = ncols) (h0 : 0 < ncols) :
    ∃ s L, ingest ncols chunkRows rows = some s ∧ s.chunkRows = max chunkRows 1
      ∧ Good E norm L s ((Grid.ofRows .empty ncols rows).map (Value.map norm)) := by
  obtain ⟨b, a1, a2, a3⟩ := appendAll_holds rows (new_holds (F := F) ncols chunkRows) hr
  rw [List.nil_append] at a2
  obtain ⟨L, l1, l2, l3, l4, l5⟩ := finish_blocks a2
  have hlen : ∀ c ∈ b.finishChunk.cols, c.chunks.map Chunk.len = L := by
    intro c hc
    obtain ⟨i, hi⟩ := List.mem_iff_getElem?.1 hc
    obtain ⟨blocks, e1, e2, _⟩ := l5 i c hi
    rw [e1, lens_ofValues, e2]
  have hhead : ∃ c0 cs, b.finishChunk.cols = c0 :: cs := by
    cases hc : b.finishChunk.cols with
    | nil => rw [hc] at l4; simp at l4; omega
    | cons c0 cs => exact ⟨c0, cs, rfl⟩
  obtain ⟨c0, cs, hcs⟩ := hhead
  have hstarts : recomputeStarts (b.finishChunk.cols.map fun c => (⟨c.chunks, []⟩ : Column F))
      = sums 0 L := by
    rw [hcs]
    simp only [List.map_cons, recomputeStarts]
    rw [hlen c0 (by rw [hcs]; simp)]
  have hsum : rows.length = L.sum := by
    obtain ⟨blocks, _, e2, e3⟩ := l5 0 c0 (by rw [hcs]; rfl)
    have := congrArg List.length e3
    rw [List.length_flatten, e2, List.length_map] at this
    exact this.symm
  have hcells : ∀ (i : Nat) (c : Building F), b.finishChunk.cols[i]? = some c →
      walkCells norm (⟨c.chunks, []⟩ : Column F).chunk 0 L
        = (rows.map fun r => r.getD i .empty).map fun v => (⟨none, none, v.map norm⟩ : Cell G) := by
    intro i c hc
    obtain ⟨blocks, e1, e2, e3⟩ := l5 i c hc
    rw [← e2, ← e3]
    apply blocks_cells
    intro j hj
    rw [Nat.zero_add, denseChunk, e1]
    simp only [List.getElem?_map]
    rw [List.getElem?_eq_getElem hj]
    rfl
  have hinv : (⟨b.finishChunk.cols.map fun c => (⟨c.chunks, []⟩ : Column F), b.finishChunk.total,
      recomputeStarts (b.finishChunk.cols.map fun c => (⟨c.chunks, []⟩ : Column F)),
      b.finishChunk.chunkRows⟩ : Sheet F).Inv E norm L := by
    refine ⟨fun w hw => (l1 w hw).1, fun w hw => ?_, hstarts, by rw [← hsum]; exact l2, ?_⟩
    · have := (l1 w hw).2
      simp only [l3]
      omega
    · intro col hcol
      rw [List.mem_map] at hcol
      obtain ⟨c, hc, rfl⟩ := hcol
      obtain ⟨i, hi⟩ := List.mem_iff_getElem?.1 hc
      obtain ⟨blocks, e1, e2, _⟩ := l5 i c hi
      refine ⟨?_, fun _ => hlen c hc⟩
      intro j ch hj
      rw [denseChunk, e1] at hj
      simp only [List.getElem?_map] at hj
      cases hb : blocks[j]? with
      | none => rw [hb] at hj; simp at hj
      | some vs =>
        rw [hb] at hj
        simp only [Option.map_some, Option.join_some, Option.some.injEq] at hj
        subst hj
        refine ⟨vs.length, ?_, ofValues_ok E norm vs⟩
        rw [← e2, List.getElem?_map, hb]; rfl
  refine ⟨_, L, ?_, ?_, hinv, ?_, ?_⟩
  · unfold ingest
    rw [a1]
    simp only [Option.bind_some, Builder.finish]
    rw [if_pos]
    rw [List.all_eq_true]
    intro col hcol
    rw [List.mem_map] at hcol
    obtain ⟨c, hc, rfl⟩ := hcol
    rw [decide_eq_true_eq]
    simp only [hcs, List.map_cons, List.head?_cons, Option.map_some, Option.getD_some]
    rw [hlen c hc, hlen c0 (by rw [hcs]; simp)]
  · simp only [l3, a3, Builder.new]
  · intro col hcol x hx
    simp only [Sheet.grid, List.map_map, List.mem_map] at hcol
    obtain ⟨c, hc, rfl⟩ := hcol
    obtain ⟨i, hi⟩ := List.mem_iff_getElem?.1 hc
    simp only [Function.comp] at hx
    rw [hcells i c hi, List.mem_map] at hx
    obtain ⟨v, _, rfl⟩ := hx
    exact Or.inl rfl
  · unfold Sheet.grid Grid.map Grid.ofRows
    simp only [List.map_map, l2]
    congr 1
    apply List.ext_getElem?
    intro i
    rw [List.getElem?_map, List.getElem?_map]
    cases hi : b.finishChunk.cols[i]? with
    | none =>
      rw [List.getElem?_eq_none_iff, l4] at hi
      rw [List.getElem?_eq_none (by simpa using hi)]
      rfl
    | some c =>
      have hlt : i < ncols := by
        have := (List.getElem?_eq_some_iff.1 hi).1
        omega
      rw [List.getElem?_range hlt]
      simp only [Option.map_some, Function.comp, Option.some.injEq]
      rw [hcells i c hi, List.map_map, List.map_map, List.map_map]
      rfl

theorem newSparse_good (E : Env F) (norm : F → G) (ncols nrows chunkRows : Nat) :
    ∃ L, Good E norm L (Sheet.newSparse ncols nrows chunkRows)
        ((Grid.empty (.empty : Value F) ncols nrows).map (Value.map norm))
      ∧ (Sheet.newSparse ncols nrows chunkRows : Sheet F).chunkRows = max chunkRows 1 := by
  have h : (⟨List.replicate ncols ⟨[], []⟩, 0, [], max chunkRows 1⟩ : Sheet F).Inv E norm [] := by
    refine ⟨by simp, by simp, rfl, rfl, ?_⟩
    intro c hc
    simp only [List.mem_replicate] at hc
    rw [hc.2]
    refine ⟨fun j ch hj => ?_, fun _ => rfl⟩
    simp [Column.chunk, assoc] at hj
  obtain ⟨L, a, b, c⟩ := ensureRows_grid h nrows
  refine ⟨L, ⟨a, ?_, ?_⟩, b⟩
  · rw [show (Sheet.newSparse ncols nrows chunkRows : Sheet F).grid norm L = _ from c]
    refine Grid.ensureRows_all _ _ ?_ blank_single nrows
    intro col hc x hx
    simp only [Sheet.grid, List.map_replicate, List.mem_replicate] at hc
    rw [hc.2] at hx
    simp [walkCells] at hx
  · rw [show (Sheet.newSparse ncols nrows chunkRows : Sheet F).grid norm L = _ from c]
    simp [Sheet.grid, Grid.ensureRows, Grid.map, Grid.empty, walkCells, Cell.shown, Cell.blank,
      Value.map]

/-! ## Theorems -/

/-- **A sheet made empty.**  After any operations (values and formulas' results written, rows and columns
inserted and deleted, rows added, chunks compacted) nothing has panicked, and every cell reads what the
operations on a plain grid put there — up to `norm`, which is a function that does not tell apart numbers
the store's run-length encoding takes for equal (0.0 and -0.0). -/
theorem sheet_reads_partial {E : Env F} {norm : F → G} (hn : Agrees E norm) (ncols nrows chunkRows : Nat)
    (ops : List (Op F)) (hops : AllFine (max chunkRows 1) (Grid.empty .empty ncols nrows) ops) :
    ∃ s, (Sheet.newSparse ncols nrows chunkRows).run E ops = some s
      ∧ ∀ r c, (s.read r c).map (Lit.map norm)
        = some ((((ops.foldl Grid.step (Grid.empty .empty ncols nrows)).at .empty r c).map norm).lit) := by
  obtain ⟨L, h, hc⟩ := newSparse_good E norm ncols nrows chunkRows
  obtain ⟨s, L', a, b⟩ := run_good hn ops h (by rw [hc]; exact hops)
  exact ⟨s, a, fun r c => read_good b r c⟩

/-- **A sheet read in.**  The same from rows of values. -/
theorem ingested_reads_partial {E : Env F} {norm : F → G} (hn : Agrees E norm) (ncols chunkRows : Nat)
    (rows : List (List (Value F))) (hr : ∀ r ∈ rows, r.length = ncols) (h0 : 0 < ncols)
    (ops : List (Op F)) (hops : AllFine (max chunkRows 1) (Grid.ofRows .empty ncols rows) ops) :
    ∃ s, ((ingest ncols chunkRows rows).bind fun s => s.run E ops) = some s
      ∧ ∀ r c, (s.read r c).map (Lit.map norm)
        = some ((((ops.foldl Grid.step (Grid.ofRows .empty ncols rows)).at .empty r c).map norm).lit) := by
  obtain ⟨s0, L, e, hc, h⟩ := ingest_good E norm ncols chunkRows rows hr h0
  obtain ⟨s, L', a, b⟩ := run_good hn ops h (by rw [hc]; exact hops)
  refine ⟨s, by rw [e]; exact a, fun r c => read_good b r c⟩

/-- With no operations: every cell reads the value it was read in with. -/
theorem ingest_reads (ncols chunkRows : Nat) (rows : List (List (Value F)))
    (hr : ∀ r ∈ rows, r.length = ncols) (h0 : 0 < ncols) :
    ∃ s, ingest ncols chunkRows rows = some s
      ∧ ∀ r c, s.read r c = some (((rows.getD r []).getD c .empty).lit) := by
  have hn : Agrees (⟨fun _ _ => false, fun _ => 0⟩ : Env F) (id : F → F) := by
    intro x y h; simp at h
  obtain ⟨s, e, h⟩ := ingested_reads_partial hn ncols chunkRows rows hr h0 [] trivial
  have hid : ∀ v : Value F, v.map id = v := by intro v; cases v <;> rfl
  have hlit : ∀ v : Lit F, v.map id = v := by intro v; cases v <;> rfl
  refine ⟨s, by
    cases hi : ingest ncols chunkRows rows with
    | none => rw [hi] at e; simp at e
    | some s' => rw [hi] at e; exact e, ?_⟩
  intro r c
  have := h r c
  rw [hid, show (Lit.map id : Lit F → Lit F) = id by funext v; exact hlit v, Option.map_id, id] at this
  rw [this]
  congr 2
  simp only [List.foldl_nil, Grid.at, Grid.ofRows, List.getElem?_map]
  rcases Nat.lt_or_ge c ncols with hc | hc
  · rw [List.getElem?_range hc]
    simp only [Option.map_some, Option.bind_some, List.getElem?_map]
    rw [List.getD_eq_getElem?_getD (l := rows)]
    cases rows[r]? with
    | none => rfl
    | some x => rfl
  · rw [List.getElem?_eq_none (by simpa using hc)]
    simp only [Option.map_none, Option.bind_none, Option.getD_none]
    rw [List.getD_eq_getElem?_getD (l := rows)]
    cases hx : rows[r]? with
    | none => rfl
    | some x =>
      have := hr x (List.mem_of_getElem? hx)
      simp only [Option.getD_some]
      rw [List.getD_eq_default _ _ (by omega)]

/-- When equal means equal, the reads are exact. -/
theorem sheet_reads_exact_partial {E : Env F} (hE : ∀ x y, E.same x y = true → x = y)
    (ncols nrows chunkRows : Nat) (ops : List (Op F))
    (hops : AllFine (max chunkRows 1) (Grid.empty .empty ncols nrows) ops) :
    ∃ s, (Sheet.newSparse ncols nrows chunkRows).run E ops = some s
      ∧ ∀ r c, s.read r c
        = some (((ops.foldl Grid.step (Grid.empty .empty ncols nrows)).at .empty r c).lit) := by
  obtain ⟨s, a, b⟩ := sheet_reads_partial (norm := id) (E := E) hE ncols nrows chunkRows ops hops
  refine ⟨s, a, fun r c => ?_⟩
  have := b r c
  have hid : ∀ v : Value F, v.map id = v := by intro v; cases v <;> rfl
  have hlit : ∀ v : Lit F, v.map id = v := by intro v; cases v <;> rfl
  rwa [hid, show (Lit.map id : Lit F → Lit F) = id by funext v; exact hlit v, Option.map_id, id] at this

/-- **Slices fit.**  Under the invariant, every slice the plan of a row edit takes of a chunk lies within
it, and so does the split of dense mode. -/
theorem slices_fit {E : Env F} {norm : F → G} {L : List Nat} {s : Sheet F} (h : s.Inv E norm L)
    (c : Column F) (hc : c ∈ s.cols) :
    (∀ p count k off, p ≤ s.nrows → 0 < s.nrows → s.splitAt p = some (k, off) →
      (∀ j o len ch, Item.slice j o len ∈ walk s.nrows (insertItem k off count) 0 s.starts →
        c.chunk j = some ch → o + len ≤ ch.len)
      ∧ ∀ ch, c.chunk k = some ch → off ≤ ch.len)
    ∧ ∀ start stop j o len ch, Item.slice j o len ∈ walk s.nrows (deleteItem start stop) 0 s.starts →
        c.chunk j = some ch → o + len ≤ ch.len := by
  have key : ∀ n j o len ch, (Item.slice j o len).Within L n → c.chunk j = some ch → o + len ≤ ch.len := by
    intro n j o len ch hx hch
    obtain ⟨_, w, h1, h2⟩ := hx
    obtain ⟨w', e1, e2⟩ := (h.cols c hc).chunks j ch hch
    have hww : w' = w := Option.some.inj (e1.symm.trans h1)
    have := e2.wide
    omega
  refine ⟨?_, ?_⟩
  · intro p count k off hp h0 hsp
    refine ⟨?_, ?_⟩
    · intro j o len ch hx hch
      rw [walk_eq h] at hx
      exact key count j o len ch (walkL_within _ count L L 0 0
        (fun i s w x hx M hM => insertItem_within k off count i s w x hx M hM)
        (fun j => by rw [Nat.zero_add]) _ hx) hch
    · intro ch hch
      obtain ⟨k', off', w, h1, h2, h3, _⟩ := splitAt_spec h p hp h0
      have := hsp.symm.trans h1
      simp only [Option.some.injEq, Prod.mk.injEq] at this
      obtain ⟨rfl, rfl⟩ := this
      obtain ⟨w', e1, e2⟩ := (h.cols c hc).chunks k ch hch
      have hww : w' = w := Option.some.inj (e1.symm.trans h2)
      have := e2.wide
      omega
  · intro start stop j o len ch hx hch
    rw [walk_eq h] at hx
    exact key 1 j o len ch (walkL_within _ 1 L L 0 0
      (fun i s w x hx M hM => deleteItem_within start stop 1 i s w x hx M hM)
      (fun j => by rw [Nat.zero_add]) _ hx) hch

/-! ## Where the restrictions matter -/

/-- **More rows than a chunk holds.**  In a sheet of one row with chunks of 2 rows, insert 3 rows at the
end, write the last of them, and then write a cell further down: the value of the former is gone. -/
theorem big_insert_wrong :
    ((Sheet.newSparse 1 1 2).run sampleE
        [.insertRows 1 3, .value 3 0 (.number 7)]).bind (fun s => s.read 3 0) = some (.number 7)
    ∧ ((Sheet.newSparse 1 1 2).run sampleE
        [.insertRows 1 3, .value 3 0 (.number 7), .value 9 0 (.number 8)]).bind (fun s => s.read 3 0)
      = some .empty := by
  decide +kernel

/-- **No columns.**  Rows inserted twice in a sheet without columns: the next value written panics. -/
theorem no_columns_wrong :
    ((Sheet.newSparse 0 0 4).run sampleE
      [.insertRows 0 1, .insertRows 0 1, .value 0 0 (.number 7)]).isNone = true := by
  decide +kernel

/-- The same after all columns have been deleted. -/
theorem columns_gone_wrong :
    ((Sheet.newSparse 1 4 4).run sampleE
      [.deleteCols 0 1, .deleteRows 0 1, .value 0 0 (.number 7)]).isNone = true := by
  decide +kernel

/-- **A user's entry put back without taking the computed one out.**  `set_delta_overlay_cell_raw`, with
which undoing an action restores a value over a formula's result, leaves the computed entry in place:
the cell reads 5 until its chunk is compacted, which the next edit of the column does, and 2 after. -/
theorem raw_entry_wrong :
    (((Sheet.newSparse 1 2 4).run sampleE [.value 0 0 (.number 5), .formula 0 0 (.number 2)]).bind
        fun s => s.setUserRaw sampleE 0 0 (some (.number 5))).bind (fun s => s.read 0 0)
      = some (.number 5)
    ∧ ((((Sheet.newSparse 1 2 4).run sampleE [.value 0 0 (.number 5), .formula 0 0 (.number 2)]).bind
        fun s => s.setUserRaw sampleE 0 0 (some (.number 5))).bind fun s =>
          s.setValue sampleE 1 0 (.number 9)).bind (fun s => s.read 0 0)
      = some (.number 2) := by
  decide +kernel

/-! A history that meets the hypotheses: growth over several chunks, an insertion in the middle of one,
a deletion across two, a new column, and compactions. -/

example : AllFine (max 2 1) (Grid.empty .empty 1 1)
    [.value 0 0 (.number 7), .value 4 0 (.number 8), .insertRows 1 2, .insertCols 0 1,
      .formula 2 1 (.number 3), .deleteRows 0 2, .compactComputed 1 0, .value 5 0 (.text "x")] := by
  simp [AllFine, Op.Fine, Grid.step, Grid.empty, Grid.reach, Grid.insertCols, Grid.ensureRows,
    Grid.modify, Grid.insertRows]

example : (((Sheet.newSparse 1 1 2).run sampleE
    [.value 0 0 (.number 7), .value 4 0 (.number 8), .insertRows 1 2, .insertCols 0 1,
      .formula 2 1 (.number 3), .deleteRows 0 2, .compactComputed 1 0, .value 5 0 (.text "x")]).map fun s =>
      (s.read 0 1, s.read 4 1, s.read 5 0)) = some (some (.number 3), some (.number 8), some (.text "x")) := by
  decide +kernel

example : ((ingest 2 2 [[.number 1, .text "a"], [.number 2, .empty], [.boolean true, .error 3]]).map
    fun s => (s.starts, s.read 2 0, s.read 1 1, s.read 0 1))
      = some ([0, 2], some (.boolean true), some .empty, some (.text "a")) := by
  decide +kernel

end Verif.Store
