import Mathlib.Data.List.Basic
import Mathlib.Data.List.GetD
import Mathlib.Algebra.BigOperators.Group.List.Basic
import Mathlib.Tactic.Tauto
import Verif.Store.Growth

/-!
# Histories of operations on a sheet

Whatever is done to a sheet, in any order and number, a cell reads what was last put there, wherever row
and column edits have moved it since.
-/

namespace Verif.Store

variable {F G : Type}

/-! ## Changing one chunk -/

theorem assoc_upsert {α : Type} (k : Nat) (new : α) (f : α → α) (l : List (Nat × α)) (k' : Nat) :
    assoc (upsert k new f l) k' = if k' = k then some (f ((assoc l k).getD new)) else assoc l k' := by
  induction l with
  | nil =>
    simp only [upsert, assoc, Option.getD_none]
    by_cases h : k' = k
    · rw [if_pos h, if_pos h.symm]
    · rw [if_neg h, if_neg (fun h' => h h'.symm)]
  | cons x l ih =>
    obtain ⟨a, v⟩ := x
    simp only [upsert]
    by_cases h : a = k
    · subst h
      rw [if_pos rfl]
      simp only [assoc]
      by_cases h2 : k' = a
      · subst h2; simp
      · rw [if_neg (show ¬ a = k' from fun h' => h2 h'.symm), if_neg h2,
          if_neg (show ¬ a = k' from fun h' => h2 h'.symm)]
    · rw [if_neg h]
      simp only [assoc, if_neg h]
      by_cases h2 : a = k'
      · rw [if_pos h2, if_pos h2, if_neg (fun h' => h (h2.trans h'))]
      · rw [if_neg h2, if_neg h2, ih]

theorem assoc_alter {α : Type} (k : Nat) (f : α → α) (l : List (Nat × α)) (k' : Nat) :
    assoc (l.map fun kv => if kv.1 = k then (kv.1, f kv.2) else kv) k'
      = if k' = k then (assoc l k).map f else assoc l k' := by
  induction l with
  | nil => simp [assoc]
  | cons x l ih =>
    obtain ⟨a, v⟩ := x
    simp only [List.map_cons]
    by_cases h : a = k
    · subst h
      rw [if_pos rfl]
      simp only [assoc]
      by_cases h2 : k' = a
      · subst h2; simp
      · rw [if_neg (show ¬ a = k' from fun h' => h2 h'.symm), if_neg h2, ih, if_neg h2,
          if_neg (show ¬ a = k' from fun h' => h2 h'.symm)]
    · rw [if_neg h]
      simp only [assoc, if_neg h]
      by_cases h2 : a = k'
      · rw [if_pos h2, if_pos h2, if_neg (fun h' => h (h2.trans h'))]
      · rw [if_neg h2, if_neg h2, ih]

/-- A column with chunk `j` put there or changed. -/
def Column.put (n j : Nat) (f : Chunk F → Chunk F) (col : Column F) : Column F :=
  if j < col.dense.length then { col with dense := col.dense.modify j f }
  else { col with sparse := upsert j (Chunk.empty n) f col.sparse }

/-- A column with chunk `j` changed if it is there. -/
def Column.alter (j : Nat) (f : Chunk F → Chunk F) (col : Column F) : Column F :=
  if j < col.dense.length then { col with dense := col.dense.modify j f }
  else { col with sparse := col.sparse.map fun kv => if kv.1 = j then (kv.1, f kv.2) else kv }

theorem modify_get {α : Type} (l : List α) (j : Nat) (f : α → α) (k : Nat) :
    (l.modify j f)[k]? = if k = j then (l[k]?).map f else l[k]? := by
  rw [List.getElem?_modify]
  by_cases h : k = j
  · subst h; simp
  · rw [if_neg h]
    have : ¬ j = k := fun h' => h h'.symm
    simp [this]

theorem put_chunk (n j : Nat) (f : Chunk F → Chunk F) (col : Column F) (k : Nat) :
    (col.put n j f).chunk k
      = if k = j then some (f ((col.chunk j).getD (Chunk.empty n))) else col.chunk k := by
  unfold Column.put
  by_cases hj : j < col.dense.length
  · rw [if_pos hj]
    unfold Column.chunk
    simp only [List.length_modify, modify_get]
    rw [if_pos hj]
    by_cases hk : k = j
    · subst hk
      rw [if_pos hj, if_pos rfl, if_pos rfl, List.getElem?_eq_getElem hj]; rfl
    · rw [if_neg hk, if_neg hk]
  · rw [if_neg hj]
    unfold Column.chunk
    simp only [assoc_upsert]
    rw [if_neg hj]
    by_cases hk : k = j
    · subst hk
      rw [if_neg hj, if_pos rfl, if_pos rfl]
    · rw [if_neg hk, if_neg hk]

theorem alter_chunk (j : Nat) (f : Chunk F → Chunk F) (col : Column F) (k : Nat) :
    (col.alter j f).chunk k = if k = j then (col.chunk j).map f else col.chunk k := by
  unfold Column.alter
  by_cases hj : j < col.dense.length
  · rw [if_pos hj]
    unfold Column.chunk
    simp only [List.length_modify, modify_get]
    rw [if_pos hj]
    by_cases hk : k = j
    · subst hk
      rw [if_pos hj, if_pos rfl, if_pos rfl]
    · rw [if_neg hk, if_neg hk]
  · rw [if_neg hj]
    unfold Column.chunk
    simp only [assoc_alter]
    rw [if_neg hj]
    by_cases hk : k = j
    · subst hk
      rw [if_neg hj, if_pos rfl, if_pos rfl]
    · rw [if_neg hk, if_neg hk]

theorem map_modify_lens (l : List (Chunk F)) (j : Nat) (f : Chunk F → Chunk F)
    (hf : ∀ ch ∈ l, (f ch).len = ch.len) : (l.modify j f).map Chunk.len = l.map Chunk.len := by
  apply List.ext_getElem?
  intro k
  rw [List.getElem?_map, List.getElem?_map, modify_get]
  by_cases h : k = j
  · rw [if_pos h]
    cases hk : l[k]? with
    | none => rfl
    | some ch => simp [hf ch (List.mem_of_getElem? hk)]
  · rw [if_neg h]

/-- What a change to a chunk has to respect. -/
structure Respects (E : Env F) (norm : F → G) (w : Nat) (f : Chunk F → Chunk F) : Prop where
  len : ∀ ch, (f ch).len = ch.len
  ok : ∀ ch, ChunkOk E norm w ch → ChunkOk E norm w (f ch)

theorem put_ok {E : Env F} {norm : F → G} {L : List Nat} {col : Column F} (h : col.Ok E norm L)
    {j w : Nat} (hw : L[j]? = some w) {f : Chunk F → Chunk F} (hf : Respects E norm w f) :
    (col.put w j f).Ok E norm L := by
  refine ⟨?_, ?_⟩
  · intro k ch hch
    rw [put_chunk] at hch
    by_cases hk : k = j
    · subst hk
      rw [if_pos rfl] at hch
      have hch := Option.some.inj hch
      subst hch
      refine ⟨w, hw, hf.ok _ ?_⟩
      cases hc : col.chunk k with
      | none =>
        exact ⟨by simp [empty_len], (empty_inv E w).1, (empty_inv E w).2,
          fun o _ => empty_cell norm w o⟩
      | some ch =>
        obtain ⟨w', h1, h2⟩ := h.chunks k ch hc
        have : w' = w := Option.some.inj (h1.symm.trans hw)
        subst this
        exact h2
    · rw [if_neg hk] at hch
      exact h.chunks k ch hch
  · unfold Column.put
    by_cases hj : j < col.dense.length
    · rw [if_pos hj]
      simp only [List.length_modify]
      intro hl
      rw [map_modify_lens _ _ _ (fun ch _ => hf.len ch)]
      exact h.exact_ hl
    · rw [if_neg hj]
      exact h.exact_

theorem alter_ok {E : Env F} {norm : F → G} {L : List Nat} {col : Column F} (h : col.Ok E norm L)
    {j : Nat} {f : Chunk F → Chunk F} (hf : ∀ w, L[j]? = some w → Respects E norm w f) :
    (col.alter j f).Ok E norm L := by
  refine ⟨?_, ?_⟩
  · intro k ch hch
    rw [alter_chunk] at hch
    by_cases hk : k = j
    · subst hk
      rw [if_pos rfl, Option.map_eq_some_iff] at hch
      obtain ⟨ch0, h0, rfl⟩ := hch
      obtain ⟨w', h1, h2⟩ := h.chunks k ch0 h0
      exact ⟨w', h1, (hf w' h1).ok _ h2⟩
    · rw [if_neg hk] at hch
      exact h.chunks k ch hch
  · unfold Column.alter
    by_cases hj : j < col.dense.length
    · rw [if_pos hj]
      simp only [List.length_modify]
      intro hl
      have hjL : j < L.length := by omega
      rw [map_modify_lens _ _ _ (fun ch _ => (hf _ (List.getElem?_eq_getElem hjL)).len ch)]
      exact h.exact_ hl
    · rw [if_neg hj]
      exact h.exact_

/-- A change of one cell of chunk `j`, seen on all cells of the column. -/
theorem cells_modify (norm : F → G) (get get' : Nat → Option (Chunk F)) (L : List Nat) (r j o : Nat)
    (u : Cell G → Cell G) (hr : r < L.sum) (hfind : find L r = some (j, o))
    (hother : ∀ k, k ≠ j → get' k = get k)
    (hsame : ∀ o', o' ≠ o → cellOf norm (get' j) o' = cellOf norm (get j) o')
    (hat : cellOf norm (get' j) o = u (cellOf norm (get j) o)) :
    walkCells norm get' 0 L = (walkCells norm get 0 L).modify r u := by
  apply List.ext_getElem?
  intro r'
  rw [modify_get, walkCells_get, walkCells_get]
  by_cases h : r' = r
  · subst h
    rw [if_pos rfl, hfind]
    simp only [Option.map_some, Nat.zero_add, hat]
  · rw [if_neg h]
    rcases Nat.lt_or_ge r' L.sum with hlt | hge
    · obtain ⟨j1, o1, w1, a1, a2, a3, a4⟩ := find_spec L r' hlt
      obtain ⟨j2, o2, w2, b1, b2, b3, b4⟩ := find_spec L r hr
      have hjo := b1.symm.trans hfind
      simp only [Option.some.injEq, Prod.mk.injEq] at hjo
      rw [a1]
      simp only [Option.map_some, Nat.zero_add, Option.some.injEq]
      by_cases hj : j1 = j
      · subst hj
        apply hsame
        intro ho
        apply h
        rw [a4, b4, hjo.1, hjo.2, ho]
      · rw [hother j1 hj]
    · rw [find_none L r' hge]; rfl

theorem map_modify_mem {α β : Type} (l : List α) (c : Nat) (u : α → α) (f : α → β) (k : β → β)
    (h : ∀ a ∈ l, f (u a) = k (f a)) : (l.modify c u).map f = (l.map f).modify c k := by
  apply List.ext_getElem?
  intro i
  rw [List.getElem?_map, modify_get, modify_get, List.getElem?_map]
  by_cases hi : i = c
  · rw [if_pos hi, if_pos hi]
    cases hl : l[i]? with
    | none => rfl
    | some a => simp [h a (List.mem_of_getElem? hl)]
  · rw [if_neg hi, if_neg hi]

theorem modify_mem {α : Type} {l : List α} {c : Nat} {u : α → α} {x : α} (h : x ∈ l.modify c u) :
    x ∈ l ∨ ∃ a ∈ l, x = u a := by
  obtain ⟨i, hi⟩ := List.mem_iff_getElem?.1 h
  rw [modify_get] at hi
  split at hi
  · rw [Option.map_eq_some_iff] at hi
    obtain ⟨a, ha, rfl⟩ := hi
    exact Or.inr ⟨a, List.mem_of_getElem? ha, rfl⟩
  · exact Or.inl (List.mem_of_getElem? hi)

/-- A change of the columns only. -/
theorem change_inv {E : Env F} {norm : F → G} {L : List Nat} {s : Sheet F} (h : s.Inv E norm L)
    (c : Nat) (u : Column F → Column F) (hu : ∀ col ∈ s.cols, (u col).Ok E norm L) :
    ({ s with cols := s.cols.modify c u } : Sheet F).Inv E norm L := by
  refine ⟨h.pos, h.small, h.starts, h.rows, ?_⟩
  intro col hc
  rcases modify_mem hc with hc | ⟨a, ha, rfl⟩
  · exact h.cols col hc
  · exact hu a ha

theorem atChunk_eq {E : Env F} {norm : F → G} {L : List Nat} {s : Sheet F} (h : s.Inv E norm L)
    (c j w : Nat) (hw : L[j]? = some w) (f : Chunk F → Chunk F) :
    s.atChunk c j f = { s with cols := s.cols.modify c (Column.put w j f) } := by
  unfold Sheet.atChunk
  rw [h.widthAt, hw]
  rfl

theorem atExisting_eq (s : Sheet F) (c j : Nat) (f : Chunk F → Chunk F) :
    s.atExisting c j f = { s with cols := s.cols.modify c (Column.alter j f) } := rfl

/-- A change to the chunk of a row that changes its cell by `u` and no other. -/
theorem atChunk_grid {E : Env F} {norm : F → G} {L : List Nat} {s : Sheet F} (h : s.Inv E norm L)
    (r c j o w : Nat) (hr : r < s.nrows) (hfind : find L r = some (j, o)) (hw : L[j]? = some w)
    (f : Chunk F → Chunk F) (u : Cell G → Cell G) (hf : Respects E norm w f)
    (hc : ∀ ch, ChunkOk E norm w ch → ∀ o', (f ch).cell norm o'
      = if o' = o then u (ch.cell norm o') else ch.cell norm o') :
    (s.atChunk c j f).Inv E norm L ∧ (s.atChunk c j f).chunkRows = s.chunkRows
      ∧ (s.atChunk c j f).grid norm L = (s.grid norm L).modify r c u := by
  rw [atChunk_eq h c j w hw]
  refine ⟨change_inv h c _ (fun col hm => put_ok (h.cols col hm) hw hf), rfl, ?_⟩
  unfold Sheet.grid Grid.modify
  simp only
  congr 1
  apply map_modify_mem
  intro col hm
  have hch : ChunkOk E norm w ((col.chunk j).getD (Chunk.empty w)) := by
    cases hcj : col.chunk j with
    | none =>
      exact ⟨by simp [empty_len], (empty_inv E w).1, (empty_inv E w).2,
        fun o _ => empty_cell norm w o⟩
    | some ch =>
      obtain ⟨w', h1, h2⟩ := (h.cols col hm).chunks j ch hcj
      have : w' = w := Option.some.inj (h1.symm.trans hw)
      subst this
      exact h2
  have hold : ∀ o', ((col.chunk j).getD (Chunk.empty w)).cell norm o' = cellOf norm (col.chunk j) o' := by
    intro o'
    cases col.chunk j with
    | none => exact empty_cell norm w o'
    | some ch => rfl
  refine cells_modify norm col.chunk _ L r j o u (by rw [← h.rows]; exact hr) hfind ?_ ?_ ?_
  · intro k hk
    rw [put_chunk, if_neg hk]
  · intro o' ho
    rw [put_chunk, if_pos rfl]
    simp only [cellOf]
    rw [hc _ hch, if_neg ho, hold]; rfl
  · rw [put_chunk, if_pos rfl]
    simp only [cellOf]
    rw [hc _ hch, if_pos rfl, hold]; rfl

/-- The same for a chunk that may be missing, when `u` leaves a blank cell blank. -/
theorem atExisting_grid {E : Env F} {norm : F → G} {L : List Nat} {s : Sheet F} (h : s.Inv E norm L)
    (r c j o w : Nat) (hr : r < s.nrows) (hfind : find L r = some (j, o)) (hw : L[j]? = some w)
    (f : Chunk F → Chunk F) (u : Cell G → Cell G) (hf : Respects E norm w f)
    (hb : u Cell.blank = Cell.blank)
    (hc : ∀ ch, ChunkOk E norm w ch → ∀ o', (f ch).cell norm o'
      = if o' = o then u (ch.cell norm o') else ch.cell norm o') :
    (s.atExisting c j f).Inv E norm L ∧ (s.atExisting c j f).chunkRows = s.chunkRows
      ∧ (s.atExisting c j f).grid norm L = (s.grid norm L).modify r c u := by
  rw [atExisting_eq]
  refine ⟨change_inv h c _ (fun col hm => alter_ok (h.cols col hm) (fun w' hw' => by
    have : w' = w := Option.some.inj (hw'.symm.trans hw)
    subst this
    exact hf)), rfl, ?_⟩
  unfold Sheet.grid Grid.modify
  simp only
  congr 1
  apply map_modify_mem
  intro col hm
  have hch : ∀ ch, col.chunk j = some ch → ChunkOk E norm w ch := by
    intro ch hcj
    obtain ⟨w', h1, h2⟩ := (h.cols col hm).chunks j ch hcj
    have : w' = w := Option.some.inj (h1.symm.trans hw)
    subst this
    exact h2
  refine cells_modify norm col.chunk _ L r j o u (by rw [← h.rows]; exact hr) hfind ?_ ?_ ?_
  · intro k hk
    rw [alter_chunk, if_neg hk]
  · intro o' ho
    rw [alter_chunk, if_pos rfl]
    cases hcj : col.chunk j with
    | none => rfl
    | some ch =>
      simp only [Option.map_some, cellOf]
      rw [hc _ (hch ch hcj), if_neg ho]
  · rw [alter_chunk, if_pos rfl]
    cases hcj : col.chunk j with
    | none => exact hb.symm
    | some ch =>
      simp only [Option.map_some, cellOf]
      rw [hc _ (hch ch hcj), if_pos rfl]

/-! ## The three changes -/

theorem enter_respects {E : Env F} {norm : F → G} (hn : Agrees E norm) (w o : Nat) (ho : o < w)
    (v : Value F) : Respects E norm w (Chunk.enter E o v)
      ∧ ∀ ch, ChunkOk E norm w ch → ∀ o', (ch.enter E o v).cell norm o'
        = if o' = o then ⟨some (v.map norm), none, (ch.cell norm o').base⟩ else ch.cell norm o' := by
  have hcell : ∀ ch, ChunkOk E norm w ch → ∀ o', (ch.enter E o v).cell norm o'
        = if o' = o then ⟨some (v.map norm), none, (ch.cell norm o').base⟩ else ch.cell norm o' := by
    intro ch hch o'
    unfold Chunk.enter Chunk.cell
    simp only [(Overlay.set_spec hn hch.user o v).2, (Overlay.remove_spec hn hch.comp o).2.2]
    by_cases h : o' = o
    · rw [if_pos h, if_pos h, if_pos h]
    · rw [if_neg h, if_neg h, if_neg h]
  refine ⟨⟨fun _ => rfl, fun ch hch => ⟨hch.wide, (Overlay.set_spec hn hch.user o v).1,
    (Overlay.remove_spec hn hch.comp o).1, ?_⟩⟩, hcell⟩
  intro o' ho'
  rw [hcell ch hch, if_neg (by omega)]
  exact hch.blank o' ho'

theorem clear_respects {E : Env F} {norm : F → G} (hn : Agrees E norm) (w o : Nat) (ho : o < w) :
    Respects E norm w (fun ch => { ch with user := (ch.user.remove E o).1 })
      ∧ ∀ ch, ChunkOk E norm w ch → ∀ o',
        ({ ch with user := (ch.user.remove E o).1 } : Chunk F).cell norm o'
        = if o' = o then ⟨none, (ch.cell norm o').comp, (ch.cell norm o').base⟩
          else ch.cell norm o' := by
  have hcell : ∀ ch, ChunkOk E norm w ch → ∀ o',
        ({ ch with user := (ch.user.remove E o).1 } : Chunk F).cell norm o'
        = if o' = o then ⟨none, (ch.cell norm o').comp, (ch.cell norm o').base⟩
          else ch.cell norm o' := by
    intro ch hch o'
    unfold Chunk.cell
    simp only [(Overlay.remove_spec hn hch.user o).2.2]
    by_cases h : o' = o
    · rw [if_pos h, if_pos h]
    · rw [if_neg h, if_neg h]
  refine ⟨⟨fun _ => rfl, fun ch hch => ⟨hch.wide, (Overlay.remove_spec hn hch.user o).1, hch.comp, ?_⟩⟩,
    hcell⟩
  intro o' ho'
  rw [hcell ch hch, if_neg (by omega)]
  exact hch.blank o' ho'

theorem computed_respects {E : Env F} {norm : F → G} (hn : Agrees E norm) (w o : Nat) (ho : o < w)
    (v : Value F) : Respects E norm w (fun ch => { ch with comp := (ch.comp.set E o v).1 })
      ∧ ∀ ch, ChunkOk E norm w ch → ∀ o',
        ({ ch with comp := (ch.comp.set E o v).1 } : Chunk F).cell norm o'
        = if o' = o then ⟨(ch.cell norm o').user, some (v.map norm), (ch.cell norm o').base⟩
          else ch.cell norm o' := by
  have hcell : ∀ ch, ChunkOk E norm w ch → ∀ o',
        ({ ch with comp := (ch.comp.set E o v).1 } : Chunk F).cell norm o'
        = if o' = o then ⟨(ch.cell norm o').user, some (v.map norm), (ch.cell norm o').base⟩
          else ch.cell norm o' := by
    intro ch hch o'
    unfold Chunk.cell
    simp only [(Overlay.set_spec hn hch.comp o v).2]
    by_cases h : o' = o
    · rw [if_pos h, if_pos h]
    · rw [if_neg h, if_neg h]
  refine ⟨⟨fun _ => rfl, fun ch hch => ⟨hch.wide, hch.user, (Overlay.set_spec hn hch.comp o v).1, ?_⟩⟩,
    hcell⟩
  intro o' ho'
  rw [hcell ch hch, if_neg (by omega)]
  exact hch.blank o' ho'

/-! ## What is seen -/

def Grid.map {α β : Type} (f : α → β) (g : Grid α) : Grid β := ⟨g.rows, g.cols.map (·.map f)⟩

/-- All cells satisfy `p`. -/
def Grid.All {α : Type} (p : α → Prop) (g : Grid α) : Prop := ∀ col ∈ g.cols, ∀ x ∈ col, p x

def Grid.Square {α : Type} (g : Grid α) : Prop := ∀ col ∈ g.cols, col.length = g.rows

theorem grid_square {E : Env F} {norm : F → G} {L : List Nat} {s : Sheet F} (h : s.Inv E norm L) :
    (s.grid norm L).Square := by
  intro col hc
  simp only [Sheet.grid, List.mem_map] at hc ⊢
  obtain ⟨c, _, rfl⟩ := hc
  rw [walkCells_length, h.rows]

section
variable {α β : Type} (f : α → β) (d : α) (p : α → Prop)

theorem Grid.ensureRows_map (g : Grid α) (n : Nat) :
    (g.ensureRows d n).map f = (g.map f).ensureRows (f d) n := by
  simp [Grid.ensureRows, Grid.map]

theorem Grid.insertRows_map (g : Grid α) (b n : Nat) :
    (g.insertRows d b n).map f = (g.map f).insertRows (f d) b n := by
  simp [Grid.insertRows, Grid.map, List.map_take, List.map_drop]

theorem Grid.deleteRows_map (g : Grid α) (a n : Nat) :
    (g.deleteRows a n).map f = (g.map f).deleteRows a n := by
  simp [Grid.deleteRows, Grid.map, List.map_take, List.map_drop]

theorem Grid.insertCols_map (g : Grid α) (b n : Nat) :
    (g.insertCols d b n).map f = (g.map f).insertCols (f d) b n := by
  simp [Grid.insertCols, Grid.map, List.map_take, List.map_drop]

theorem Grid.deleteCols_map (g : Grid α) (a n : Nat) :
    (g.deleteCols a n).map f = (g.map f).deleteCols a n := by
  simp [Grid.deleteCols, Grid.map, List.map_take, List.map_drop]

theorem Grid.reach_map (g : Grid α) (r c : Nat) :
    (g.reach d r c).map f = (g.map f).reach (f d) r c := by
  unfold Grid.reach
  rw [Grid.ensureRows_map, Grid.insertCols_map]
  simp [Grid.map]

theorem Grid.modify_map (g : Grid α) (r c : Nat) (u : α → α) (k : β → β) (h : ∀ x, f (u x) = k (f x)) :
    (g.modify r c u).map f = (g.map f).modify r c k := by
  simp only [Grid.modify, Grid.map]
  congr 1
  apply map_modify_mem
  intro l _
  exact map_modify_mem l r u f k (fun a _ => h a)

theorem Grid.ensureRows_all {g : Grid α} (h : g.All p) (hd : p d) (n : Nat) :
    (g.ensureRows d n).All p := by
  intro col hc x hx
  simp only [Grid.ensureRows, List.mem_map] at hc
  obtain ⟨c, hc, rfl⟩ := hc
  rw [List.mem_append, List.mem_replicate] at hx
  rcases hx with hx | ⟨_, rfl⟩
  · exact h c hc x hx
  · exact hd

theorem Grid.insertRows_all {g : Grid α} (h : g.All p) (hd : p d) (b n : Nat) :
    (g.insertRows d b n).All p := by
  intro col hc x hx
  simp only [Grid.insertRows, List.mem_map] at hc
  obtain ⟨c, hc, rfl⟩ := hc
  rw [List.mem_append, List.mem_append, List.mem_replicate] at hx
  rcases hx with (hx | ⟨_, rfl⟩) | hx
  · exact h c hc x (List.mem_of_mem_take hx)
  · exact hd
  · exact h c hc x (List.mem_of_mem_drop hx)

theorem Grid.deleteRows_all {g : Grid α} (h : g.All p) (a n : Nat) : (g.deleteRows a n).All p := by
  intro col hc x hx
  simp only [Grid.deleteRows, List.mem_map] at hc
  obtain ⟨c, hc, rfl⟩ := hc
  rw [List.mem_append] at hx
  rcases hx with hx | hx
  · exact h c hc x (List.mem_of_mem_take hx)
  · exact h c hc x (List.mem_of_mem_drop hx)

theorem Grid.insertCols_all {g : Grid α} (h : g.All p) (hd : p d) (b n : Nat) :
    (g.insertCols d b n).All p := by
  intro col hc x hx
  simp only [Grid.insertCols, List.mem_append, List.mem_replicate] at hc
  rcases hc with (hc | ⟨_, rfl⟩) | hc
  · exact h col (List.mem_of_mem_take hc) x hx
  · rw [List.mem_replicate] at hx
    rw [hx.2]; exact hd
  · exact h col (List.mem_of_mem_drop hc) x hx

theorem Grid.deleteCols_all {g : Grid α} (h : g.All p) (a n : Nat) : (g.deleteCols a n).All p := by
  intro col hc x hx
  simp only [Grid.deleteCols, List.mem_append] at hc
  rcases hc with hc | hc
  · exact h col (List.mem_of_mem_take hc) x hx
  · exact h col (List.mem_of_mem_drop hc) x hx

theorem Grid.reach_all {g : Grid α} (h : g.All p) (hd : p d) (r c : Nat) : (g.reach d r c).All p :=
  Grid.ensureRows_all d p (Grid.insertCols_all d p h hd _ _) hd _

theorem Grid.modify_all {g : Grid α} (h : g.All p) (r c : Nat) (u : α → α) (hu : ∀ x, p (u x)) :
    (g.modify r c u).All p := by
  intro col hc x hx
  simp only [Grid.modify] at hc
  rcases modify_mem hc with hc | ⟨l, hl, rfl⟩
  · exact h col hc x hx
  · rcases modify_mem hx with hx | ⟨y, _, rfl⟩
    · exact h l hl x hx
    · exact hu y

theorem modify_const {l : List α} {r : Nat} {u : α → α} (h : ∀ x, l[r]? = some x → u x = x) :
    l.modify r u = l := by
  apply List.ext_getElem?
  intro k
  rw [modify_get]
  by_cases hk : k = r
  · subst hk
    rw [if_pos rfl]
    cases hx : l[k]? with
    | none => rfl
    | some x => simp [h x hx]
  · rw [if_neg hk]

/-- A cell cleared before the sheet is grown to contain it is cleared after. -/
theorem Grid.reach_modify {g : Grid α} (hsq : g.Square) (r c : Nat) (u : α → α) (hu : u d = d) :
    (if g.rows ≤ r ∨ g.cols.length ≤ c then g else g.modify r c u).reach d r c
      = (g.reach d r c).modify r c u := by
  by_cases h : g.rows ≤ r ∨ g.cols.length ≤ c
  · rw [if_pos h]
    unfold Grid.modify
    rw [modify_const (r := c)]
    intro col hcol
    apply modify_const
    intro x hx
    have : x = d := by
      simp only [Grid.reach, Grid.ensureRows, Grid.insertCols, List.take_length, List.drop_length,
        List.append_nil, List.getElem?_map, Option.map_eq_some_iff] at hcol
      obtain ⟨l, hl, rfl⟩ := hcol
      rcases Nat.lt_or_ge c g.cols.length with hc | hc
      · have hr : g.rows ≤ r := by omega
        rw [List.getElem?_append_left hc] at hl
        have hlen := hsq l (List.mem_of_getElem? hl)
        rw [List.getElem?_append_right (by omega), List.getElem?_replicate] at hx
        split at hx
        · exact (Option.some.inj hx).symm
        · simp at hx
      · rw [List.getElem?_append_right hc, List.getElem?_replicate] at hl
        split at hl
        · have hl := Option.some.inj hl
          subst hl
          rw [List.replicate_append_replicate, List.getElem?_replicate] at hx
          split at hx
          · exact (Option.some.inj hx).symm
          · simp at hx
        · simp at hl
    rw [this, hu]
  · rw [if_neg h]
    have h1 : r + 1 ≤ g.rows := by omega
    have h2 : c + 1 - g.cols.length = 0 := by omega
    simp [Grid.reach, Grid.ensureRows, Grid.insertCols, Grid.modify, h2, Nat.sub_eq_zero_of_le h1]

end

/-- What holds of a sheet throughout: the store is in order, no cell has both a user's and a computed
entry, and what the cells show is `g`. -/
structure Good (E : Env F) (norm : F → G) (L : List Nat) (s : Sheet F) (g : Grid (Value G)) : Prop where
  inv : s.Inv E norm L
  single : (s.grid norm L).All Cell.Single
  shows : (s.grid norm L).map Cell.shown = g

theorem blank_single : (Cell.blank : Cell G).Single := Or.inl rfl

theorem blank_shown : (Cell.blank : Cell G).shown = .empty := rfl

theorem foldUser_shown {x : Cell G} (h : x.Single) : x.foldUser.shown = x.shown := by
  obtain ⟨u, c, b⟩ := x
  cases u with
  | none => rfl
  | some u =>
    cases c with
    | none => rfl
    | some c => simp [Cell.Single] at h

theorem foldComp_shown (x : Cell G) : x.foldComp.shown = x.shown := by
  obtain ⟨u, c, b⟩ := x
  cases u <;> cases c <;> rfl

theorem walkCells_mem {norm : F → G} {get : Nat → Option (Chunk F)} {L : List Nat} {j w o : Nat}
    (hj : L[j]? = some w) (ho : o < w) : cellOf norm (get j) o ∈ walkCells norm get 0 L := by
  have : ∀ (L : List Nat) (j i : Nat), L[j]? = some w →
      cellOf norm (get (i + j)) o ∈ walkCells norm get i L := by
    intro L
    induction L with
    | nil => intro j i h; simp at h
    | cons v L ih =>
      intro j i h
      simp only [walkCells, List.mem_append, List.mem_map, List.mem_range'_1]
      cases j with
      | zero =>
        simp only [List.getElem?_cons_zero, Option.some.injEq] at h
        subst h
        exact Or.inl ⟨o, by omega, rfl⟩
      | succ j =>
        simp only [List.getElem?_cons_succ] at h
        right
        have := ih j (i + 1) h
        rwa [show i + 1 + j = i + (j + 1) by omega] at this
  have := this L j 0 hj
  rwa [Nat.zero_add] at this

/-- Changing a chunk so that every cell shows the same, changes nothing that is seen. -/
theorem compact_good {E : Env F} {norm : F → G} {L : List Nat} {s : Sheet F} {g : Grid (Value G)}
    (h : Good E norm L s g) (c j : Nat) (f : Chunk F → Chunk F) (fold : Cell G → Cell G)
    (hf : ∀ w, Respects E norm w f)
    (hcell : ∀ w ch, ChunkOk E norm w ch → ∀ o,
      (f ch).cell norm o = ch.cell norm o ∨ (f ch).cell norm o = fold (ch.cell norm o))
    (hshow : ∀ x : Cell G, x.Single → (fold x).shown = x.shown)
    (hsingle : ∀ x : Cell G, x.Single → (fold x).Single) :
    Good E norm L (s.atExisting c j f) g := by
  have key : ∀ col ∈ s.cols, ∀ i k o w, L[k]? = some w → o < w → i = k →
      (cellOf norm ((col.alter j f).chunk i) o).shown = (cellOf norm (col.chunk i) o).shown
        ∧ (cellOf norm ((col.alter j f).chunk i) o).Single := by
    intro col hm i k o w hw ho hik
    subst hik
    have hs : (cellOf norm (col.chunk i) o).Single :=
      h.single _ (List.mem_map.2 ⟨col, hm, rfl⟩) _ (walkCells_mem hw ho)
    rw [alter_chunk]
    by_cases hi : i = j
    · subst hi
      rw [if_pos rfl]
      cases hc : col.chunk i with
      | none => exact ⟨rfl, blank_single⟩
      | some ch =>
        rw [hc] at hs
        obtain ⟨w', h1, h2⟩ := (h.inv.cols col hm).chunks i ch hc
        simp only [Option.map_some, cellOf] at hs ⊢
        rcases hcell w' ch h2 o with e | e
        · rw [e]; exact ⟨rfl, hs⟩
        · rw [e]; exact ⟨hshow _ hs, hsingle _ hs⟩
    · rw [if_neg hi]; exact ⟨rfl, hs⟩
  have hget : ∀ (get : Nat → Option (Chunk F)) (r : Nat) (x : Cell G),
      (walkCells norm get 0 L)[r]? = some x → ∃ k o w, find L r = some (k, o) ∧ L[k]? = some w ∧ o < w
        ∧ x = cellOf norm (get k) o := by
    intro get r x hx
    rw [walkCells_get] at hx
    rcases Nat.lt_or_ge r L.sum with hlt | hge
    · obtain ⟨k, o, w, a1, a2, a3, _⟩ := find_spec L r hlt
      rw [a1] at hx
      simp only [Option.map_some, Nat.zero_add, Option.some.injEq] at hx
      exact ⟨k, o, w, a1, a2, a3, hx.symm⟩
    · rw [find_none L r hge] at hx; simp at hx
  rw [atExisting_eq]
  refine ⟨change_inv h.inv c _ (fun col hm => alter_ok (h.inv.cols col hm) (fun w _ => hf w)), ?_, ?_⟩
  · intro l hl x hx
    simp only [Sheet.grid, List.mem_map] at hl
    obtain ⟨col, hcol, rfl⟩ := hl
    rcases modify_mem hcol with hcol | ⟨a, ha, rfl⟩
    · exact h.single _ (List.mem_map.2 ⟨col, hcol, rfl⟩) x hx
    · obtain ⟨r, hr⟩ := List.mem_iff_getElem?.1 hx
      obtain ⟨k, o, w, _, a2, a3, rfl⟩ := hget _ r x hr
      exact (key a ha k k o w a2 a3 rfl).2
  · rw [← h.shows]
    unfold Sheet.grid Grid.map
    simp only [List.map_map]
    congr 1
    have := map_modify_mem s.cols c (Column.alter j f)
      ((fun x => x.map Cell.shown) ∘ fun c => walkCells norm c.chunk 0 L) id (by
        intro col hm
        simp only [Function.comp, id]
        apply List.ext_getElem?
        intro r
        rw [List.getElem?_map, List.getElem?_map, walkCells_get, walkCells_get]
        rcases Nat.lt_or_ge r L.sum with hlt | hge
        · obtain ⟨k, o, w, a1, a2, a3, _⟩ := find_spec L r hlt
          rw [a1]
          simp only [Option.map_some, Nat.zero_add, Option.some.injEq]
          exact (key col hm k k o w a2 a3 rfl).1
        · rw [find_none L r hge]; rfl)
    rw [this]
    exact modify_const (fun _ _ => rfl)

theorem compactUser_good {E : Env F} {norm : F → G} {L : List Nat} {s : Sheet F} {g : Grid (Value G)}
    (h : Good E norm L s g) (c j a d : Nat) : Good E norm L (s.atExisting c j (Chunk.compactUser a d)) g := by
  have hcell : ∀ w ch, ChunkOk E norm w ch → ∀ o,
      (Chunk.compactUser a d ch).cell norm o = ch.cell norm o
        ∨ (Chunk.compactUser a d ch).cell norm o = (ch.cell norm o).foldUser :=
    fun w ch hch o => compactUser_cell norm a d ch o (fun hl => hch.blank o (by
      have := hch.wide; omega))
  refine compact_good h c j _ Cell.foldUser (fun w => ⟨?_, ?_⟩) hcell (fun x hx => foldUser_shown hx)
    (fun x _ => Or.inl rfl)
  · intro ch
    unfold Chunk.compactUser
    split
    · rfl
    · split
      · exact foldInto_len _ _
      · rfl
  · intro ch hch
    obtain ⟨r1, r2, r3⟩ := compactUser_rest E a d ch hch.user hch.comp
    refine ⟨by rw [r1]; exact hch.wide, r2, r3, ?_⟩
    intro o ho
    have hb := hch.blank o ho
    rcases hcell w ch hch o with e | e
    · rw [e, hb]
    · rw [e, hb]; rfl

theorem compactComputed_good {E : Env F} {norm : F → G} {L : List Nat} {s : Sheet F}
    {g : Grid (Value G)} (h : Good E norm L s g) (c j : Nat) :
    Good E norm L (s.atExisting c j Chunk.compactComputed) g := by
  have hcell : ∀ w ch, ChunkOk E norm w ch → ∀ o,
      (Chunk.compactComputed ch).cell norm o = ch.cell norm o
        ∨ (Chunk.compactComputed ch).cell norm o = (ch.cell norm o).foldComp :=
    fun w ch hch o => compactComputed_cell norm ch o (fun hl => hch.blank o (by
      have := hch.wide; omega))
  refine compact_good h c j _ Cell.foldComp (fun w => ⟨?_, ?_⟩) hcell (fun x _ => foldComp_shown x)
    (fun x _ => Or.inr rfl)
  · intro ch
    unfold Chunk.compactComputed
    split
    · rfl
    · exact foldInto_len _ _
  · intro ch hch
    obtain ⟨r1, r2, r3⟩ := compactComputed_rest E ch hch.user hch.comp
    refine ⟨by rw [r1]; exact hch.wide, r2, r3, ?_⟩
    intro o ho
    have hb := hch.blank o ho
    rcases hcell w ch hch o with e | e
    · rw [e, hb]
    · rw [e, hb]; rfl

/-! ## Writes -/

theorem setValue_good {E : Env F} {norm : F → G} (hn : Agrees E norm) {L : List Nat} {s : Sheet F}
    {g : Grid (Value G)} (h : Good E norm L s g) (r c : Nat) (v : Value F) :
    ∃ s' L', s.setValue E r c v = some s' ∧ s'.chunkRows = s.chunkRows
      ∧ Good E norm L' s' ((g.reach .empty r c).modify r c fun _ => v.map norm) := by
  obtain ⟨L', i1, k1, g1, r1, _⟩ := reach_grid h.inv r c
  obtain ⟨j, o, w, a1, a2, a3, a4, _⟩ := i1.chunkOfRow r r1
  obtain ⟨e1, e2⟩ := enter_respects hn w o a4 v
  obtain ⟨i2, k2, g2⟩ := atChunk_grid i1 r c j o w r1 a2 a3 (Chunk.enter E o v)
    (fun x => ⟨some (v.map norm), none, x.base⟩) e1 e2
  have hgood : Good E norm L' ((s.reach r c).atChunk c j (Chunk.enter E o v))
      ((g.reach .empty r c).modify r c fun _ => v.map norm) := by
    refine ⟨i2, ?_, ?_⟩
    · rw [g2, g1]
      exact Grid.modify_all _ (Grid.reach_all _ _ h.single blank_single _ _) _ _ _ (fun _ => Or.inr rfl)
    · rw [g2, g1, Grid.modify_map Cell.shown _ r c _ (fun _ => v.map norm) (fun _ => rfl),
        Grid.reach_map, h.shows]
      rfl
  refine ⟨_, L', ?_, ?_, compactUser_good hgood c j 1024 50⟩
  · unfold Sheet.setValue
    simp only [a1]
  · exact k2.trans k1

theorem clearUser_grid {E : Env F} {norm : F → G} (hn : Agrees E norm) {L : List Nat} {s : Sheet F}
    (h : s.Inv E norm L) (r c : Nat) :
    ∃ s', s.clearUser E r c = some s' ∧ s'.Inv E norm L ∧ s'.chunkRows = s.chunkRows
      ∧ s'.grid norm L = if (s.grid norm L).rows ≤ r ∨ (s.grid norm L).cols.length ≤ c then s.grid norm L
          else (s.grid norm L).modify r c fun x => ⟨none, x.comp, x.base⟩ := by
  unfold Sheet.clearUser
  have hlen : (s.grid norm L).cols.length = s.cols.length := by simp [Sheet.grid]
  rw [hlen, show (s.grid norm L).rows = s.nrows from rfl]
  by_cases h0 : s.nrows ≤ r ∨ s.cols.length ≤ c
  · rw [if_pos h0, if_pos h0]
    exact ⟨s, rfl, h, rfl, rfl⟩
  · rw [if_neg h0, if_neg h0]
    obtain ⟨j, o, w, a1, a2, a3, a4, _⟩ := h.chunkOfRow r (by omega)
    rw [a1]
    obtain ⟨e1, e2⟩ := clear_respects hn w o a4
    obtain ⟨b1, b2, b3⟩ := atExisting_grid h r c j o w (by omega) a2 a3 _
      (fun x => ⟨none, x.comp, x.base⟩) e1 rfl e2
    exact ⟨_, rfl, b1, b2, b3⟩

theorem formula_good {E : Env F} {norm : F → G} (hn : Agrees E norm) {L : List Nat} {s : Sheet F}
    {g : Grid (Value G)} (h : Good E norm L s g) (r c : Nat) (v : Value F) :
    ∃ s' L', ((s.clearUser E r c).bind fun s => s.setComputed E r c v) = some s'
      ∧ s'.chunkRows = s.chunkRows
      ∧ Good E norm L' s' ((g.reach .empty r c).modify r c fun _ => v.map norm) := by
  obtain ⟨s1, c1, i0, k0, g0⟩ := clearUser_grid hn h.inv r c
  obtain ⟨L', i1, k1, g1, r1, _⟩ := reach_grid i0 r c
  obtain ⟨j, o, w, a1, a2, a3, a4, _⟩ := i1.chunkOfRow r r1
  obtain ⟨e1, e2⟩ := computed_respects hn w o a4 v
  obtain ⟨i2, k2, g2⟩ := atChunk_grid i1 r c j o w r1 a2 a3 _
    (fun x => ⟨x.user, some (v.map norm), x.base⟩) e1 e2
  have hgrid : ((s1.reach r c).atChunk c j fun ch => { ch with comp := (ch.comp.set E o v).1 }).grid norm L'
      = ((s.grid norm L).reach Cell.blank r c).modify r c fun x => ⟨none, some (v.map norm), x.base⟩ := by
    rw [g2, g1, g0, Grid.reach_modify Cell.blank (grid_square h.inv) r c _ rfl]
    unfold Grid.modify
    simp only
    congr 1
    apply List.ext_getElem?
    intro k
    rw [modify_get, modify_get, modify_get]
    by_cases hk : k = c
    · rw [if_pos hk, if_pos hk, if_pos hk]
      rw [Option.map_map]
      congr 1
      funext l
      simp only [Function.comp]
      apply List.ext_getElem?
      intro t
      rw [modify_get, modify_get, modify_get]
      by_cases ht : t = r
      · rw [if_pos ht, if_pos ht, if_pos ht, Option.map_map]
        rfl
      · rw [if_neg ht, if_neg ht, if_neg ht]
    · rw [if_neg hk, if_neg hk, if_neg hk]
  refine ⟨_, L', ?_, ?_, i2, ?_, ?_⟩
  · rw [c1]
    simp only [Option.bind_some, Sheet.setComputed, a1]
  · exact k2.trans (k1.trans k0)
  · rw [hgrid]
    exact Grid.modify_all _ (Grid.reach_all _ _ h.single blank_single _ _) _ _ _ (fun _ => Or.inl rfl)
  · rw [hgrid, Grid.modify_map Cell.shown _ r c _ (fun _ => v.map norm) (fun _ => rfl),
        Grid.reach_map, h.shows]
    rfl

/-! ## One operation, and all -/

theorem step_good {E : Env F} {norm : F → G} (hn : Agrees E norm) {L : List Nat} {s : Sheet F}
    {g : Grid (Value F)} (h : Good E norm L s (g.map (Value.map norm))) (op : Op F)
    (hop : op.Fine s.chunkRows g) :
    ∃ s' L', s.step E op = some s' ∧ s'.chunkRows = s.chunkRows
      ∧ Good E norm L' s' ((g.step op).map (Value.map norm)) := by
  have hrows : s.nrows = g.rows := by
    have := congrArg (fun x => x.rows) h.shows
    exact this
  have hcols : s.cols.length = g.cols.length := by
    have := congrArg (fun x => x.cols.length) h.shows
    simpa [Grid.map, Sheet.grid] using this
  have hne : (g.rows = 0 ∨ g.cols ≠ []) → (s.nrows = 0 ∨ s.cols ≠ []) := by
    rintro (h0 | h0)
    · left; omega
    · right
      intro hs
      rw [hs] at hcols
      exact h0 (List.eq_nil_of_length_eq_zero hcols.symm)
  cases op with
  | value r c v =>
    obtain ⟨s', L', a, b, c'⟩ := setValue_good hn h r c v
    refine ⟨s', L', a, b, ?_⟩
    simp only [Grid.step]
    rw [Grid.modify_map (Value.map norm) _ r c (fun _ => v) (fun _ => v.map norm) (fun _ => rfl),
      Grid.reach_map]
    exact c'
  | formula r c v =>
    obtain ⟨s', L', a, b, c'⟩ := formula_good hn h r c v
    refine ⟨s', L', a, b, ?_⟩
    simp only [Grid.step]
    rw [Grid.modify_map (Value.map norm) _ r c (fun _ => v) (fun _ => v.map norm) (fun _ => rfl),
      Grid.reach_map]
    exact c'
  | ensureRows n =>
    obtain ⟨L', a, b, c⟩ := ensureRows_grid h.inv n
    refine ⟨_, L', rfl, b, a, ?_, ?_⟩
    · rw [c]; exact Grid.ensureRows_all _ _ h.single blank_single n
    · rw [c, Grid.ensureRows_map, h.shows]
      simp only [Grid.step]
      rw [Grid.ensureRows_map]
      rfl
  | insertRows b n =>
    obtain ⟨s', L', a, i, k, c⟩ := insertRows_grid hn h.inv b n hop.1 (hne hop.2)
    refine ⟨s', L', a, k, i, ?_, ?_⟩
    · rw [c]; exact Grid.insertRows_all _ _ h.single blank_single b n
    · rw [c, Grid.insertRows_map, h.shows]
      simp only [Grid.step]
      rw [Grid.insertRows_map]
      rfl
  | deleteRows a n =>
    obtain ⟨L', i, k, c⟩ := deleteRows_grid hn h.inv a n (hne hop)
    refine ⟨_, L', rfl, k, i, ?_, ?_⟩
    · rw [c]; exact Grid.deleteRows_all _ h.single a n
    · rw [c, Grid.deleteRows_map, h.shows]
      simp only [Grid.step]
      rw [Grid.deleteRows_map]
  | insertCols b n =>
    obtain ⟨i, k, c⟩ := insertCols_grid h.inv b n
    refine ⟨_, L, rfl, k, i, ?_, ?_⟩
    · rw [c]; exact Grid.insertCols_all _ _ h.single blank_single b n
    · rw [c, Grid.insertCols_map, h.shows]
      simp only [Grid.step]
      rw [Grid.insertCols_map]
      rfl
  | deleteCols a n =>
    obtain ⟨i, k, c⟩ := deleteCols_grid h.inv a n
    refine ⟨_, L, rfl, k, i, ?_, ?_⟩
    · rw [c]; exact Grid.deleteCols_all _ h.single a n
    · rw [c, Grid.deleteCols_map, h.shows]
      simp only [Grid.step]
      rw [Grid.deleteCols_map]
  | compactUser c j a d => exact ⟨_, L, rfl, rfl, compactUser_good h c j a d⟩
  | compactComputed c j => exact ⟨_, L, rfl, rfl, compactComputed_good h c j⟩

theorem run_good {E : Env F} {norm : F → G} (hn : Agrees E norm) (ops : List (Op F)) {L : List Nat}
    {s : Sheet F} {g : Grid (Value F)} (h : Good E norm L s (g.map (Value.map norm)))
    (hops : AllFine s.chunkRows g ops) :
    ∃ s' L', s.run E ops = some s' ∧ Good E norm L' s' ((ops.foldl Grid.step g).map (Value.map norm)) := by
  induction ops generalizing L s g with
  | nil => exact ⟨s, L, rfl, h⟩
  | cons op ops ih =>
    obtain ⟨h1, h2⟩ := hops
    obtain ⟨s1, L1, a, b, c⟩ := step_good hn h op h1
    obtain ⟨s2, L2, d, e⟩ := ih c (by rw [b]; exact h2)
    exact ⟨s2, L2, by simp only [Sheet.run, a, Option.bind_some, d], e⟩

theorem read_good {E : Env F} {norm : F → G} {L : List Nat} {s : Sheet F} {g : Grid (Value F)}
    (h : Good E norm L s (g.map (Value.map norm))) (r c : Nat) :
    (s.read r c).map (Lit.map norm) = some (((g.at .empty r c).map norm).lit) := by
  have hat : (g.at .empty r c).map norm = ((s.grid norm L).at Cell.blank r c).shown := by
    have e1 : (g.at .empty r c).map norm = (g.map (Value.map norm)).at .empty r c := by
      simp only [Grid.at, Grid.map, List.getElem?_map]
      cases g.cols[c]? with
      | none => rfl
      | some l =>
        simp only [Option.map_some, Option.bind_some, List.getElem?_map]
        cases l[r]? <;> rfl
    have e2 : ((s.grid norm L).at Cell.blank r c).shown
        = ((s.grid norm L).map Cell.shown).at .empty r c := by
      generalize s.grid norm L = q
      simp only [Grid.at, Grid.map, List.getElem?_map]
      cases q.cols[c]? with
      | none => rfl
      | some l =>
        simp only [Option.map_some, Option.bind_some, List.getElem?_map]
        cases l[r]? <;> rfl
    rw [e1, e2, h.shows]
  rw [hat]
  have hsq := grid_square h.inv
  unfold Sheet.read Grid.at
  by_cases hr : s.nrows ≤ r
  · rw [if_pos hr]
    have : ((s.grid norm L).cols[c]?).bind (·[r]?) = none := by
      cases hc : (s.grid norm L).cols[c]? with
      | none => rfl
      | some l =>
        have := hsq l (List.mem_of_getElem? hc)
        simp only [Option.bind_some]
        rw [List.getElem?_eq_none]
        rw [this]; exact hr
    rw [this]; rfl
  rw [if_neg hr]
  simp only [Sheet.grid, List.getElem?_map]
  cases hc : s.cols[c]? with
  | none => rfl
  | some col =>
    obtain ⟨j, o, w, a1, a2, a3, a4, _⟩ := h.inv.chunkOfRow r (by omega)
    simp only [a1, Option.map_some, Option.bind_some]
    rw [walkCells_get, a2]
    simp only [Option.map_some, Nat.zero_add, Option.getD_some]
    cases hj : col.chunk j with
    | none => rfl
    | some ch =>
      obtain ⟨w', b1, b2⟩ := (h.inv.cols col (List.mem_of_getElem? hc)).chunks j ch hj
      have hww : w' = w := Option.some.inj (b1.symm.trans a3)
      have := b2.wide
      exact read_cell norm ch o (by omega)

end Verif.Store
