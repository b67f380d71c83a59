import Verif.Adjust.Props
import Mathlib.Tactic.Set
import Mathlib.Tactic.ByContra

/-!
# The cell index under row and column edits (C40)

`crates/formualizer-eval/src/engine/graph/editor/vertex_editor.rs` 651-808, 910-1163 and `graph/mod.rs` 4292-4302,
4379-4410. Both axes run the same loops (columns: 1165-1420), so cells are pairs and rows and columns are two instances.
-/

namespace Verif.Adjust

abbrev Pos := Nat × Nat

/-- The grid vertices of one sheet: ids in store order, where each is, which are tombstones, and the map from cells to
vertices (`cell_to_vertex`). -/
structure Grid where
  ids : List Nat
  pos : Nat → Pos
  dead : Nat → Bool
  map : Pos → Option Nat

/-- `get_cell_ref_for_vertex`, mod.rs 4399-4410. -/
def Grid.cellOf (g : Grid) (id : Nat) : Option Pos := if g.map (g.pos id) = some id then some (g.pos id) else none

/-- `HashMap::remove` of an optional key. -/
def unmap (m : Pos → Option Nat) : Option Pos → Pos → Option Nat
  | some c => fun d => if d = c then none else m d
  | none => m

/-- `move_vertex`, vertex_editor.rs 769-808, with `update_cell_mapping`, mod.rs 4379-4391. -/
def Grid.move (g : Grid) (id : Nat) (new : Pos) : Grid :=
  { g with
    pos := fun i => if i = id then new else g.pos i
    map := fun d => if d = new then some id else unmap g.map (g.cellOf id) d }

/-- `remove_vertex`, vertex_editor.rs 651-752: unmapped and tombstoned, its position stays in the store. -/
def Grid.remove (g : Grid) (id : Nat) : Grid :=
  { g with
    dead := fun i => if i = id then true else g.dead i
    map := unmap g.map (g.cellOf id) }

/-- The shifting loop over a snapshot of (vertex, old position), vertex_editor.rs 951-965 and 1088-1107. -/
def Grid.shift (f : Pos → Pos) : Grid → List (Nat × Pos) → Grid
  | g, [] => g
  | g, e :: l => Grid.shift f (g.move e.1 (f e.2)) l

/-- `grid_vertices_in_sheet`, mod.rs 4292-4302. Tombstones are included: `vertex_exists` (3891-3897) only checks the id. -/
def Grid.vertices (g : Grid) : List (Nat × Pos) := g.ids.map fun id => (id, g.pos id)

/-- `insert_rows`, vertex_editor.rs 910-965. -/
def Grid.insertRows (g : Grid) (before count : Nat) : Grid :=
  Grid.shift (fun p => (p.1 + count, p.2)) g (g.vertices.filter fun e => before ≤ e.2.1)

/-- Deleting a list of vertices, vertex_editor.rs 1077-1080. -/
def Grid.removeAll : Grid → List Nat → Grid
  | g, [] => g
  | g, id :: l => (g.remove id).removeAll l

/-- `delete_rows`, vertex_editor.rs 1032-1107. -/
def Grid.deleteRows (g : Grid) (start count : Nat) : Grid :=
  let g := g.removeAll ((g.vertices.filter fun e => start ≤ e.2.1 ∧ e.2.1 < start + count).map (·.1))
  Grid.shift (fun p => (p.1 - count, p.2)) g (g.vertices.filter fun e => start + count ≤ e.2.1)

/-- `insert_columns`, vertex_editor.rs 1165-1220. -/
def Grid.insertCols (g : Grid) (before count : Nat) : Grid :=
  Grid.shift (fun p => (p.1, p.2 + count)) g (g.vertices.filter fun e => before ≤ e.2.2)

/-- `delete_columns`, vertex_editor.rs 1288-1360. -/
def Grid.deleteCols (g : Grid) (start count : Nat) : Grid :=
  let g := g.removeAll ((g.vertices.filter fun e => start ≤ e.2.2 ∧ e.2.2 < start + count).map (·.1))
  Grid.shift (fun p => (p.1, p.2 - count)) g (g.vertices.filter fun e => start + count ≤ e.2.2)

/-- Ensuring a vertex for an address, mod.rs 2859-2900: reuse the mapped one or add a new one. -/
def Grid.ensure (g : Grid) (p : Pos) : Grid :=
  match g.map p with
  | some _ => g
  | none =>
    let id := g.ids.foldr (fun i m => max (i + 1) m) 0
    { ids := g.ids ++ [id]
      pos := fun i => if i = id then p else g.pos i
      dead := fun i => if i = id then false else g.dead i
      map := fun d => if d = p then some id else g.map d }

/-! ## Specification -/

/-- What a user sees: the live vertex a cell stands for. -/
def Grid.At (g : Grid) (p : Pos) (id : Nat) : Prop := g.map p = some id ∧ g.dead id = false

/-- The index is consistent. -/
structure Grid.Ok (g : Grid) : Prop where
  sorted : g.ids.Pairwise (· < ·)
  sound : ∀ p id, g.map p = some id → id ∈ g.ids ∧ g.pos id = p
  full : ∀ id ∈ g.ids, g.dead id = false → g.map (g.pos id) = some id

/-- No tombstone sits at a live vertex's position with a later id. -/
def Grid.NoLateTomb (g : Grid) : Prop :=
  ∀ id ∈ g.ids, g.dead id = false → ∀ id' ∈ g.ids, g.dead id' = true → g.pos id' = g.pos id → id' < id

/-! ## The loop -/

theorem unmap_some {m : Pos → Option Nat} {o : Option Pos} {d : Pos} {id : Nat} (h : unmap m o d = some id) :
    m d = some id ∧ o ≠ some d := by
  cases o with
  | none => exact ⟨h, by simp⟩
  | some c =>
    simp only [unmap] at h
    split at h
    · exact absurd h (by simp)
    · next hd => exact ⟨h, fun e => hd (Option.some.inj e).symm⟩

theorem cellOf_of {g : Grid} {id : Nat} (h : g.map (g.pos id) = some id) : g.cellOf id = some (g.pos id) := if_pos h

/-- Sound: a mapped vertex is where the map says. -/
def Grid.Sound (g : Grid) : Prop := ∀ p id, g.map p = some id → g.pos id = p

theorem move_sound {g : Grid} (h : g.Sound) (id : Nat) (new : Pos) : (g.move id new).Sound := by
  intro p i hp
  simp only [Grid.move] at hp ⊢
  split at hp
  · next hpn => cases hp; rw [if_pos rfl, hpn]
  · obtain ⟨h1, h2⟩ := unmap_some hp
    by_cases hi : i = id
    · subst hi
      exact absurd ((cellOf_of (by rw [h _ _ h1]; exact h1)).trans (by rw [h _ _ h1])) h2
    · rw [if_neg hi]; exact h _ _ h1

/-- The map value left by a shift where no shifted vertex arrives. -/
def leftBy (m : Option Nat) (l : List (Nat × Pos)) : Option Nat :=
  m.bind fun id => if id ∈ l.map (·.1) then none else some id

theorem shift_map (f : Pos → Pos) : ∀ (l : List (Nat × Pos)) (g : Grid), g.Sound → (l.map (·.1)).Nodup →
    (∀ e ∈ l, g.pos e.1 = e.2) → ∀ d,
    (Grid.shift f g l).map d = match l.reverse.find? (fun e => f e.2 = d) with
      | some e => some e.1
      | none => leftBy (g.map d) l
  | [], g, _, _, _, d => by
    simp only [Grid.shift, List.reverse_nil, List.find?_nil, leftBy, List.map_nil, List.not_mem_nil, if_false]
    cases g.map d <;> rfl
  | e :: l, g, hs, hn, hp, d => by
    simp only [List.map_cons, List.nodup_cons] at hn
    have hne : ∀ e' ∈ l, e'.1 ≠ e.1 := fun e' he' h => hn.1 (h ▸ List.mem_map_of_mem he')
    rw [Grid.shift, shift_map f l _ (move_sound hs _ _) hn.2 (fun e' he' => by
      simp only [Grid.move]; rw [if_neg (hne e' he')]; exact hp e' (by simp [he']))]
    rw [List.reverse_cons, List.find?_append]
    cases hfind : l.reverse.find? (fun e => f e.2 = d) with
    | some e' => rfl
    | none =>
      simp only [Option.none_or, List.find?_cons, List.find?_nil]
      by_cases hd : f e.2 = d
      · simp only [hd, decide_true]
        simp only [Grid.move, hd, if_true, leftBy, Option.bind_some, if_neg hn.1]
      · simp only [hd, decide_false]
        simp only [Grid.move]
        rw [if_neg (fun h => hd h.symm)]
        simp only [leftBy]
        by_cases hc : g.cellOf e.1 = some d
        · have hm : g.map d = some e.1 := by
            unfold Grid.cellOf at hc
            split at hc
            · next h => rw [← Option.some.inj hc]; exact h
            · exact absurd hc (by simp)
          rw [hc, hm]
          simp [unmap]
        · have hm : g.map d ≠ some e.1 := fun h => hc (by
            have h' := hs _ _ h
            rw [cellOf_of (by rw [h']; exact h), h'])
          have hu : unmap g.map (g.cellOf e.1) d = g.map d := by
            cases hco : g.cellOf e.1 with
            | none => rfl
            | some c =>
              simp only [unmap]
              rw [if_neg]
              intro hdc
              exact hc (by rw [hco, hdc])
          rw [hu]
          cases hgd : g.map d with
          | none => rfl
          | some i =>
            have hi : i ≠ e.1 := fun h => hm (by rw [hgd, h])
            simp only [Option.bind_some, List.map_cons, List.mem_cons, hi, false_or]

theorem shift_pos (f : Pos → Pos) : ∀ (l : List (Nat × Pos)) (g : Grid), (l.map (·.1)).Nodup → (∀ e ∈ l, (Grid.shift f g l).pos e.1 = f e.2) ∧
    ∀ id, id ∉ l.map (·.1) → (Grid.shift f g l).pos id = g.pos id
  | [], g, _ => ⟨by simp, by simp [Grid.shift]⟩
  | e :: l, g, hn => by
    simp only [List.map_cons, List.nodup_cons] at hn
    obtain ⟨h1, h2⟩ := shift_pos f l (g.move e.1 (f e.2)) hn.2
    constructor
    · intro e' he'
      rcases List.mem_cons.1 he' with rfl | he'
      · rw [Grid.shift, h2 _ hn.1]; simp [Grid.move]
      · rw [Grid.shift]; exact h1 e' he'
    · intro id hid
      simp only [List.map_cons, List.mem_cons, not_or] at hid
      rw [Grid.shift, h2 _ hid.2]; simp [Grid.move, hid.1]

theorem shift_rest (f : Pos → Pos) : ∀ (l : List (Nat × Pos)) (g : Grid), (Grid.shift f g l).ids = g.ids ∧ (Grid.shift f g l).dead = g.dead
  | [], _ => ⟨rfl, rfl⟩
  | e :: l, g => by rw [Grid.shift]; exact shift_rest f l _

/-- One structural shift: vertices satisfying `sel` move by `f`. -/
theorem shift_at (g : Grid) (h : g.Ok) (ht : g.NoLateTomb) (sel : Pos → Bool) (f : Pos → Pos)
    (hinj : ∀ p q, sel p = true → sel q = true → f p = f q → p = q)
    (hfree : ∀ p q id, sel p = true → sel q = false → f p = q → ¬ g.At q id) (d : Pos) (id : Nat) :
    (Grid.shift f g (g.vertices.filter fun e => sel e.2)).At d id ↔ ∃ p, g.At p id ∧ d = if sel p then f p else p := by
  have hsound : g.Sound := fun p id hp => (h.sound p id hp).2
  set l := g.vertices.filter fun e => sel e.2 with hl
  have hmem : ∀ e : Nat × Pos, e ∈ l ↔ e.1 ∈ g.ids ∧ e.2 = g.pos e.1 ∧ sel e.2 = true := by
    intro e
    rw [hl, List.mem_filter]
    simp only [Grid.vertices, List.mem_map]
    constructor
    · rintro ⟨⟨i, hi, rfl⟩, hs⟩; exact ⟨hi, rfl, hs⟩
    · rintro ⟨h1, h2, h3⟩; exact ⟨⟨e.1, h1, by rw [← h2]⟩, h3⟩
  have hsortl : l.Pairwise (fun a b => a.1 < b.1) := by
    rw [hl]
    refine List.Pairwise.filter _ ?_
    simp only [Grid.vertices, List.pairwise_map]
    exact h.sorted
  have hn : (l.map (·.1)).Nodup := by
    rw [List.nodup_iff_pairwise_ne, List.pairwise_map]
    exact hsortl.imp fun hab => by omega
  have hmemid : ∀ i, i ∈ l.map (·.1) ↔ i ∈ g.ids ∧ sel (g.pos i) = true := by
    intro i
    simp only [List.mem_map]
    constructor
    · rintro ⟨e, he, rfl⟩; obtain ⟨h1, h2, h3⟩ := (hmem e).1 he; exact ⟨h1, by rw [← h2]; exact h3⟩
    · rintro ⟨h1, h2⟩; exact ⟨(i, g.pos i), (hmem _).2 ⟨h1, rfl, h2⟩, rfl⟩
  have hmap := shift_map f l g hsound hn (fun e he => ((hmem e).1 he).2.1.symm) d
  have hdead := (shift_rest f l g).2
  simp only [Grid.At, hmap, hdead]
  cases hfind : l.reverse.find? (fun e => decide (f e.2 = d)) with
  | some e =>
    obtain ⟨he1, as, bs, heq, hall⟩ := List.find?_eq_some_iff_append.1 hfind
    have he1 : f e.2 = d := by simpa using he1
    have heq' : l = bs.reverse ++ e :: as.reverse := by
      have := congrArg List.reverse heq
      simpa using this
    obtain ⟨m1, m2, m3⟩ := (hmem e).1 (by rw [heq']; simp)
    constructor
    · rintro ⟨hid, hd⟩
      simp only [Option.some.injEq] at hid
      subst hid
      refine ⟨g.pos e.1, ⟨h.full _ m1 hd, hd⟩, ?_⟩
      rw [← m2, m3, if_pos rfl, he1]
    · rintro ⟨p, ⟨hp1, hp2⟩, hd⟩
      obtain ⟨hi, hpp⟩ := h.sound p id hp1
      by_cases hsp : sel p = true
      · rw [if_pos hsp] at hd
        have hpe : e.2 = p := hinj _ _ m3 hsp (by rw [he1, hd])
        refine ⟨?_, hp2⟩
        simp only [Option.some.injEq]
        by_contra hne
        -- another vertex at the same position: it must be a tombstone with a smaller id
        have hdeade : g.dead e.1 = true := by
          by_contra hnd
          have hnd : g.dead e.1 = false := by simpa using hnd
          have := h.full _ m1 hnd
          rw [← m2, hpe, hp1] at this
          exact hne (Option.some.inj this).symm
        have hlt := ht id hi hp2 e.1 m1 hdeade (by rw [← m2, hpe, hpp])
        have hidl : (id, p) ∈ l := (hmem _).2 ⟨hi, hpp.symm, hsp⟩
        rw [heq'] at hidl hsortl
        rcases List.mem_append.1 hidl with hx | hx
        · have := (List.pairwise_append.1 hsortl).2.2 _ hx e (by simp)
          simp only at this; omega
        · rcases List.mem_cons.1 hx with hx | hx
          · rw [← hx] at hlt; simp at hlt
          · have := hall (id, p) (by simpa using hx)
            simp [← hd] at this
      · rw [if_neg hsp] at hd
        exact absurd ⟨hp1, hp2⟩ (hfree e.2 p id m3 (by simpa using hsp) (by rw [he1, hd]))
  | none =>
    have hall : ∀ e ∈ l, f e.2 ≠ d := by
      intro e he
      have := List.find?_eq_none.1 hfind e (by simpa using he)
      simpa using this
    constructor
    · rintro ⟨hid, hd⟩
      simp only [leftBy, Option.bind_eq_some_iff] at hid
      obtain ⟨i, hi, hi'⟩ := hid
      split at hi'
      · exact absurd hi' (by simp)
      · next hni =>
        cases hi'
        obtain ⟨hin, hpos⟩ := h.sound d id hi
        refine ⟨d, ⟨hi, hd⟩, ?_⟩
        have : sel d ≠ true := fun hs => hni ((hmemid id).2 ⟨hin, by rw [hpos]; exact hs⟩)
        rw [if_neg this]
    · rintro ⟨p, ⟨hp1, hp2⟩, hd⟩
      obtain ⟨hi, hpp⟩ := h.sound p id hp1
      by_cases hsp : sel p = true
      · rw [if_pos hsp] at hd
        exact absurd hd.symm (hall (id, p) ((hmem _).2 ⟨hi, hpp.symm, hsp⟩))
      · rw [if_neg hsp] at hd
        subst hd
        refine ⟨?_, hp2⟩
        simp only [leftBy, hp1, Option.bind_some]
        rw [if_neg]
        intro hx
        have := ((hmemid id).1 hx).2
        rw [hpp] at this
        exact hsp this

/-! ## Removal -/

theorem removeAll_rest : ∀ (l : List Nat) (g : Grid), (g.removeAll l).ids = g.ids ∧ (g.removeAll l).pos = g.pos
  | [], _ => ⟨rfl, rfl⟩
  | id :: l, g => by rw [Grid.removeAll]; exact removeAll_rest l _

theorem removeAll_dead : ∀ (l : List Nat) (g : Grid) (i : Nat), (g.removeAll l).dead i = (g.dead i || decide (i ∈ l))
  | [], _, _ => by simp [Grid.removeAll]
  | id :: l, g, i => by
    rw [Grid.removeAll, removeAll_dead l]
    simp only [Grid.remove, List.mem_cons]
    by_cases h : i = id <;> simp [h]

theorem removeAll_map : ∀ (l : List Nat) (g : Grid), g.Sound → ∀ d, (g.removeAll l).map d = (g.map d).bind fun i => if i ∈ l then none else some i
  | [], g, _, d => by cases h : g.map d <;> simp [Grid.removeAll, h]
  | id :: l, g, hs, d => by
    have key : ∀ d, (g.remove id).map d = (g.map d).bind fun i => if i = id then none else some i := by
      intro d
      simp only [Grid.remove]
      by_cases hc : g.cellOf id = some d
      · have hm : g.map d = some id := by
          unfold Grid.cellOf at hc
          split at hc
          · next h => rw [← Option.some.inj hc]; exact h
          · exact absurd hc (by simp)
        rw [hc, hm]; simp [unmap]
      · have hm : g.map d ≠ some id := fun h => hc (by
          have h' := hs _ _ h
          rw [cellOf_of (by rw [h']; exact h), h'])
        have hu : unmap g.map (g.cellOf id) d = g.map d := by
          cases hco : g.cellOf id with
          | none => rfl
          | some c =>
            simp only [unmap]
            rw [if_neg]
            intro hdc
            exact hc (by rw [hco, hdc])
        rw [hu]
        cases hgd : g.map d with
        | none => rfl
        | some i =>
          have hi : i ≠ id := fun h => hm (by rw [hgd, h])
          simp [hi]
    rw [Grid.removeAll, removeAll_map l _ (fun p i hp => by
      rw [key] at hp
      obtain ⟨j, hj, hj'⟩ := Option.bind_eq_some_iff.1 hp
      split at hj'
      · exact absurd hj' (by simp)
      · cases hj'; exact hs _ _ hj), key]
    cases hgd : g.map d with
    | none => rfl
    | some i =>
      by_cases h : i = id
      · simp [h]
      · simp [h]

theorem removeAll_at (g : Grid) (h : g.Ok) (l : List Nat) (d : Pos) (id : Nat) : (g.removeAll l).At d id ↔ g.At d id ∧ id ∉ l := by
  simp only [Grid.At, removeAll_map l g (fun p i hp => (h.sound p i hp).2), removeAll_dead, Option.bind_eq_some_iff]
  constructor
  · rintro ⟨⟨i, hi, hi'⟩, hd⟩
    split at hi'
    · exact absurd hi' (by simp)
    · next hn =>
      cases hi'
      refine ⟨⟨hi, ?_⟩, hn⟩
      simp only [Bool.or_eq_false_iff] at hd
      exact hd.1
  · rintro ⟨⟨h1, h2⟩, hn⟩
    exact ⟨⟨id, h1, by rw [if_neg hn]⟩, by simp [h2, hn]⟩

theorem removeAll_ok (g : Grid) (h : g.Ok) (l : List Nat) : (g.removeAll l).Ok where
  sorted := by rw [(removeAll_rest l g).1]; exact h.sorted
  sound := by
    intro p id hp
    rw [removeAll_map l g (fun p i hp => (h.sound p i hp).2)] at hp
    obtain ⟨i, hi, hi'⟩ := Option.bind_eq_some_iff.1 hp
    split at hi'
    · exact absurd hi' (by simp)
    · cases hi'; rw [(removeAll_rest l g).1, (removeAll_rest l g).2]; exact h.sound p id hi
  full := by
    intro id hid hd
    rw [(removeAll_rest l g).1] at hid
    rw [removeAll_dead, Bool.or_eq_false_iff] at hd
    rw [(removeAll_rest l g).2, removeAll_map l g (fun p i hp => (h.sound p i hp).2), h.full id hid hd.1]
    have : id ∉ l := by simpa using hd.2
    simp [this]

theorem at_pos {g : Grid} (h : g.Ok) {p : Pos} {id : Nat} (ha : g.At p id) : id ∈ g.ids ∧ g.pos id = p := h.sound p id ha.1

/-! ## The edits -/

/-- C40 (partial): after a row insertion each cell stands for the vertex it stood for before, moved. Missing: sheets with a
later tombstone on a live cell, see `tombstone_hijacks_cell`. -/
theorem insertRows_cells_partial (g : Grid) (h : g.Ok) (ht : g.NoLateTomb) (before count : Nat) (d : Pos) (id : Nat) :
    (g.insertRows before count).At d id ↔ ∃ r c, g.At (r, c) id ∧ d = (shiftIns before count r, c) := by
  unfold Grid.insertRows
  rw [shift_at g h ht (fun p => decide (before ≤ p.1)) (fun p => (p.1 + count, p.2))]
  · constructor
    · rintro ⟨⟨r, c⟩, h1, h2⟩
      refine ⟨r, c, h1, ?_⟩
      rw [h2]; unfold shiftIns
      by_cases hb : before ≤ r
      · simp [hb, Nat.not_lt.2 hb]
      · simp [hb, Nat.lt_of_not_le hb]
    · rintro ⟨r, c, h1, h2⟩
      refine ⟨(r, c), h1, ?_⟩
      rw [h2]; unfold shiftIns
      by_cases hb : before ≤ r
      · simp [hb, Nat.not_lt.2 hb]
      · simp [hb, Nat.lt_of_not_le hb]
  · rintro ⟨a, b⟩ ⟨a', b'⟩ _ _ he
    simp only [Prod.mk.injEq] at he ⊢; omega
  · rintro ⟨a, b⟩ ⟨a', b'⟩ id h1 h2 h3
    simp only [Prod.mk.injEq, decide_eq_true_eq, decide_eq_false_iff_not] at h1 h2 h3; omega

/-- C40 (partial): the same for columns. -/
theorem insertCols_cells_partial (g : Grid) (h : g.Ok) (ht : g.NoLateTomb) (before count : Nat) (d : Pos) (id : Nat) :
    (g.insertCols before count).At d id ↔ ∃ r c, g.At (r, c) id ∧ d = (r, shiftIns before count c) := by
  unfold Grid.insertCols
  rw [shift_at g h ht (fun p => decide (before ≤ p.2)) (fun p => (p.1, p.2 + count))]
  · constructor
    · rintro ⟨⟨r, c⟩, h1, h2⟩
      refine ⟨r, c, h1, ?_⟩
      rw [h2]; unfold shiftIns
      by_cases hb : before ≤ c
      · simp [hb, Nat.not_lt.2 hb]
      · simp [hb, Nat.lt_of_not_le hb]
    · rintro ⟨r, c, h1, h2⟩
      refine ⟨(r, c), h1, ?_⟩
      rw [h2]; unfold shiftIns
      by_cases hb : before ≤ c
      · simp [hb, Nat.not_lt.2 hb]
      · simp [hb, Nat.lt_of_not_le hb]
  · rintro ⟨a, b⟩ ⟨a', b'⟩ _ _ he
    simp only [Prod.mk.injEq] at he ⊢; omega
  · rintro ⟨a, b⟩ ⟨a', b'⟩ id h1 h2 h3
    simp only [Prod.mk.injEq, decide_eq_true_eq, decide_eq_false_iff_not] at h1 h2 h3; omega

theorem mem_victims {g : Grid} (h : g.Ok) {q : Pos → Bool} {p : Pos} {id : Nat} (ha : g.At p id) :
    id ∈ (g.vertices.filter fun e => q e.2).map (·.1) ↔ q p = true := by
  obtain ⟨h1, h2⟩ := at_pos h ha
  simp only [List.mem_map, List.mem_filter, Grid.vertices]
  constructor
  · rintro ⟨e, ⟨⟨i, hi, rfl⟩, hq⟩, rfl⟩
    simpa [h2] using hq
  · intro hq
    exact ⟨(id, g.pos id), ⟨⟨id, h1, rfl⟩, by simpa [h2] using hq⟩, rfl⟩

/-- The tombstones a deletion leaves stay out of the way of the deletion itself. -/
theorem removeAll_late {g : Grid} (ht : g.NoLateTomb) (h : g.Ok) (q : Pos → Bool) :
    (g.removeAll ((g.vertices.filter fun e => q e.2).map (·.1))).NoLateTomb := by
  intro id hid hd id' hid' hd' he
  rw [(removeAll_rest _ g).1] at hid hid'
  rw [(removeAll_rest _ g).2] at he
  rw [removeAll_dead, Bool.or_eq_false_iff] at hd
  rw [removeAll_dead, Bool.or_eq_true] at hd'
  rcases hd' with hd' | hd'
  · exact ht id hid hd.1 id' hid' hd' he
  · exfalso
    have ha : g.At (g.pos id) id := ⟨h.full id hid hd.1, hd.1⟩
    have hnot : ¬ q (g.pos id) = true := by
      rw [← mem_victims h ha]; simpa using hd.2
    have hd' : id' ∈ (g.vertices.filter fun e => q e.2).map (·.1) := by simpa using hd'
    simp only [List.mem_map, List.mem_filter, Grid.vertices] at hd'
    obtain ⟨e, ⟨⟨i, hi, rfl⟩, hq⟩, rfl⟩ := hd'
    exact hnot (by rw [← he]; exact hq)

/-- C40 (partial): after a row deletion each surviving cell stands for its vertex, moved, and no other live vertex is left. -/
theorem deleteRows_cells_partial (g : Grid) (h : g.Ok) (ht : g.NoLateTomb) (start count : Nat) (d : Pos) (id : Nat) :
    (g.deleteRows start count).At d id ↔ ∃ r c, g.At (r, c) id ∧ ¬ Deleted start count r ∧ d = (shiftDel start count r, c) := by
  unfold Grid.deleteRows
  simp only
  have hq : (fun e : Nat × Pos => decide (start ≤ e.2.1 ∧ e.2.1 < start + count)) =
      fun e => (fun p : Pos => decide (start ≤ p.1 ∧ p.1 < start + count)) e.2 := rfl
  rw [hq]
  set vs := (g.vertices.filter fun e => (fun p : Pos => decide (start ≤ p.1 ∧ p.1 < start + count)) e.2).map (·.1) with hvs
  have hat : ∀ p id, (g.removeAll vs).At p id ↔ g.At p id ∧ ¬ Deleted start count p.1 := by
    intro p id
    rw [removeAll_at g h]
    constructor
    · rintro ⟨h1, h2⟩
      refine ⟨h1, fun h3 => h2 ((mem_victims (q := (fun p : Pos => decide (start ≤ p.1 ∧ p.1 < start + count))) h h1).2 ?_)⟩
      simpa [Deleted] using h3
    · rintro ⟨h1, h2⟩
      refine ⟨h1, fun h3 => h2 ?_⟩
      have := (mem_victims (q := (fun p : Pos => decide (start ≤ p.1 ∧ p.1 < start + count))) h h1).1 h3
      simpa [Deleted] using this
  rw [shift_at _ (removeAll_ok g h vs) (removeAll_late ht h (fun p : Pos => decide (start ≤ p.1 ∧ p.1 < start + count))) (fun p => decide (start + count ≤ p.1)) (fun p => (p.1 - count, p.2))]
  · constructor
    · rintro ⟨⟨r, c⟩, h1, h2⟩
      obtain ⟨h1, h3⟩ := (hat _ _).1 h1
      refine ⟨r, c, h1, h3, ?_⟩
      rw [h2]; unfold shiftDel
      unfold Deleted at h3
      by_cases hb : start + count ≤ r
      · simp only [hb, decide_true, if_true]
        rw [if_neg (by omega)]
      · simp only [hb, decide_false, Bool.false_eq_true, if_false]
        rw [if_pos (by simp only at h3; omega)]
    · rintro ⟨r, c, h1, h3, h2⟩
      refine ⟨(r, c), (hat _ _).2 ⟨h1, h3⟩, ?_⟩
      rw [h2]; unfold shiftDel
      unfold Deleted at h3
      by_cases hb : start + count ≤ r
      · simp only [hb, decide_true, if_true]
        rw [if_neg (by omega)]
      · simp only [hb, decide_false, Bool.false_eq_true, if_false]
        rw [if_pos (by omega)]
  · rintro ⟨a, b⟩ ⟨a', b'⟩ h1 h2 he
    simp only [Prod.mk.injEq, decide_eq_true_eq] at h1 h2 he ⊢; omega
  · rintro ⟨a, b⟩ ⟨a', b'⟩ id h1 h2 h3 h4
    have := ((hat _ _).1 h4).2
    unfold Deleted at this
    simp only [Prod.mk.injEq, decide_eq_true_eq, decide_eq_false_iff_not] at h1 h2 h3 this; omega

/-- C40 (partial): the same for columns. -/
theorem deleteCols_cells_partial (g : Grid) (h : g.Ok) (ht : g.NoLateTomb) (start count : Nat) (d : Pos) (id : Nat) :
    (g.deleteCols start count).At d id ↔ ∃ r c, g.At (r, c) id ∧ ¬ Deleted start count c ∧ d = (r, shiftDel start count c) := by
  unfold Grid.deleteCols
  simp only
  have hq : (fun e : Nat × Pos => decide (start ≤ e.2.2 ∧ e.2.2 < start + count)) =
      fun e => (fun p : Pos => decide (start ≤ p.2 ∧ p.2 < start + count)) e.2 := rfl
  rw [hq]
  set vs := (g.vertices.filter fun e => (fun p : Pos => decide (start ≤ p.2 ∧ p.2 < start + count)) e.2).map (·.1) with hvs
  have hat : ∀ p id, (g.removeAll vs).At p id ↔ g.At p id ∧ ¬ Deleted start count p.2 := by
    intro p id
    rw [removeAll_at g h]
    constructor
    · rintro ⟨h1, h2⟩
      refine ⟨h1, fun h3 => h2 ((mem_victims (q := (fun p : Pos => decide (start ≤ p.2 ∧ p.2 < start + count))) h h1).2 ?_)⟩
      simpa [Deleted] using h3
    · rintro ⟨h1, h2⟩
      refine ⟨h1, fun h3 => h2 ?_⟩
      have := (mem_victims (q := (fun p : Pos => decide (start ≤ p.2 ∧ p.2 < start + count))) h h1).1 h3
      simpa [Deleted] using this
  rw [shift_at _ (removeAll_ok g h vs) (removeAll_late ht h (fun p : Pos => decide (start ≤ p.2 ∧ p.2 < start + count))) (fun p => decide (start + count ≤ p.2)) (fun p => (p.1, p.2 - count))]
  · constructor
    · rintro ⟨⟨r, c⟩, h1, h2⟩
      obtain ⟨h1, h3⟩ := (hat _ _).1 h1
      refine ⟨r, c, h1, h3, ?_⟩
      rw [h2]; unfold shiftDel
      unfold Deleted at h3
      by_cases hb : start + count ≤ c
      · simp only [hb, decide_true, if_true]
        rw [if_neg (by omega)]
      · simp only [hb, decide_false, Bool.false_eq_true, if_false]
        rw [if_pos (by simp only at h3; omega)]
    · rintro ⟨r, c, h1, h3, h2⟩
      refine ⟨(r, c), (hat _ _).2 ⟨h1, h3⟩, ?_⟩
      rw [h2]; unfold shiftDel
      unfold Deleted at h3
      by_cases hb : start + count ≤ c
      · simp only [hb, decide_true, if_true]
        rw [if_neg (by omega)]
      · simp only [hb, decide_false, Bool.false_eq_true, if_false]
        rw [if_pos (by omega)]
  · rintro ⟨a, b⟩ ⟨a', b'⟩ h1 h2 he
    simp only [Prod.mk.injEq, decide_eq_true_eq] at h1 h2 he ⊢; omega
  · rintro ⟨a, b⟩ ⟨a', b'⟩ id h1 h2 h3 h4
    have := ((hat _ _).1 h4).2
    unfold Deleted at this
    simp only [Prod.mk.injEq, decide_eq_true_eq, decide_eq_false_iff_not] at h1 h2 h3 this; omega

/-- An empty sheet. -/
def Grid.empty : Grid := ⟨[], fun _ => (0, 0), fun _ => false, fun _ => none⟩

theorem lt_fresh (l : List Nat) : ∀ i ∈ l, i < l.foldr (fun i m => max (i + 1) m) 0 := by
  induction l with
  | nil => simp
  | cons a l ih =>
    intro i hi
    simp only [List.foldr_cons]
    rcases List.mem_cons.1 hi with rfl | hi
    · omega
    · have := ih i hi; omega

theorem empty_ok : Grid.empty.Ok := ⟨by simp [Grid.empty], by simp [Grid.empty], by simp [Grid.empty]⟩

/-- Entering cells keeps the index consistent, and a new vertex comes after every tombstone. -/
theorem ensure_ok (g : Grid) (h : g.Ok) (p : Pos) : (g.ensure p).Ok ∧ (g.NoLateTomb → (g.ensure p).NoLateTomb) := by
  unfold Grid.ensure
  cases hm : g.map p with
  | some i => exact ⟨h, id⟩
  | none =>
    simp only
    have hf := lt_fresh g.ids
    set n := g.ids.foldr (fun i m => max (i + 1) m) 0
    have hne : ∀ i ∈ g.ids, i ≠ n := fun i hi => Nat.ne_of_lt (hf i hi)
    refine ⟨⟨?_, ?_, ?_⟩, ?_⟩
    · simp only [List.pairwise_append, List.pairwise_cons, List.not_mem_nil, false_imp_iff, implies_true, List.Pairwise.nil, and_true,
        List.mem_singleton, forall_eq]
      exact ⟨h.sorted, trivial, hf⟩
    · intro q id hq
      simp only at hq ⊢
      split at hq
      · next hqp => cases hq; simp [hqp]
      · obtain ⟨h1, h2⟩ := h.sound q id hq
        rw [if_neg (hne id h1)]
        exact ⟨List.mem_append_left _ h1, h2⟩
    · intro id hid hd
      simp only at hid hd ⊢
      rcases List.mem_append.1 hid with hid | hid
      · rw [if_neg (hne id hid)] at hd ⊢
        have := h.full id hid hd
        rw [if_neg]
        · exact this
        · intro hp; rw [hp, hm] at this; exact absurd this (by simp)
      · have : id = n := by simpa using hid
        simp [this]
    · intro ht id hid hd id' hid' hd' he
      simp only at hid hd hid' hd' he
      have hid'n : id' ≠ n := fun e => by simp [e] at hd'
      have hid'' : id' ∈ g.ids := by
        rcases List.mem_append.1 hid' with h | h
        · exact h
        · exact absurd (by simpa using h) hid'n
      rcases List.mem_append.1 hid with hid | hid
      · rw [if_neg (hne id hid)] at hd he
        rw [if_neg hid'n] at hd' he
        exact ht id hid hd id' hid'' hd' he
      · have : id = n := by simpa using hid
        rw [this]; exact hf id' hid''

/-- Entering a list of cells on an empty sheet. -/
def enter (ps : List Pos) : Grid := ps.foldl Grid.ensure Grid.empty

theorem enter_ok (ps : List Pos) : (enter ps).Ok ∧ (enter ps).NoLateTomb := by
  unfold enter
  suffices ∀ (l : List Pos) (g : Grid), g.Ok ∧ g.NoLateTomb → (l.foldl Grid.ensure g).Ok ∧ (l.foldl Grid.ensure g).NoLateTomb from
    this ps _ ⟨empty_ok, fun id hid => by simp [Grid.empty] at hid⟩
  intro l
  induction l with
  | nil => intro g h; exact h
  | cons p l ih => intro g h; exact ih _ ⟨(ensure_ok g h.1 p).1, (ensure_ok g h.1 p).2 h.2⟩

/-- C40, what holds for every sheet that was only filled in: one insertion or deletion of rows or columns keeps every cell. -/
theorem first_edit_keeps_cells (ps : List Pos) (a b : Nat) (d : Pos) (id : Nat) :
    (((enter ps).insertRows a b).At d id ↔ ∃ r c, (enter ps).At (r, c) id ∧ d = (shiftIns a b r, c)) ∧
    (((enter ps).insertCols a b).At d id ↔ ∃ r c, (enter ps).At (r, c) id ∧ d = (r, shiftIns a b c)) ∧
    (((enter ps).deleteRows a b).At d id ↔ ∃ r c, (enter ps).At (r, c) id ∧ ¬ Deleted a b r ∧ d = (shiftDel a b r, c)) ∧
    (((enter ps).deleteCols a b).At d id ↔ ∃ r c, (enter ps).At (r, c) id ∧ ¬ Deleted a b c ∧ d = (r, shiftDel a b c)) :=
  ⟨insertRows_cells_partial _ (enter_ok ps).1 (enter_ok ps).2 a b d id, insertCols_cells_partial _ (enter_ok ps).1 (enter_ok ps).2 a b d id,
    deleteRows_cells_partial _ (enter_ok ps).1 (enter_ok ps).2 a b d id, deleteCols_cells_partial _ (enter_ok ps).1 (enter_ok ps).2 a b d id⟩

/-- C40 fails: enter `A6`, then `A5`; delete row 5, so that `A6` becomes `A5`; insert a row on top. The cell should now be
`A6`. Its vertex is there, but the cell is mapped to the tombstone of the old `A5`. -/
theorem tombstone_hijacks_cell :
    let g := enter [(5, 0), (4, 0)]
    let g1 := g.deleteRows 4 1
    let g2 := g1.insertRows 0 1
    g.At (5, 0) 0 ∧ g1.At (4, 0) 0 ∧ g2.pos 0 = (5, 0) ∧ g2.dead 0 = false ∧ g2.map (5, 0) = some 1 ∧ g2.dead 1 = true := by
  refine ⟨⟨?_, ?_⟩, ⟨?_, ?_⟩, ?_, ?_, ?_, ?_⟩ <;> decide

/-- Entered in the other order the same edits keep the cell. -/
example : (((enter [(4, 0), (5, 0)]).deleteRows 4 1).insertRows 0 1).At (5, 0) 1 := by
  constructor <;> decide

end Verif.Adjust
