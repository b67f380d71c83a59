import Verif.Edges.Lemmas

/-!
# C12: the edge store equals the set of edges implied by its history

The specification is `expected`: a set of edges that changes only with the operations that mention edges.
-/

namespace Verif.Edges

/-! ## Specification -/

/-- The edges implied by a history, as a set. A bulk load replaces the edges of the vertices it lists (the last
entry for a vertex counts) and keeps the others. No other operation changes an edge. -/
def expect (E : Nat → Nat → Prop) : Op → Nat → Nat → Prop
  | .addEdge a b => fun x y => (x = a ∧ y = b) ∨ E x y
  | .removeEdge a b => fun x y => E x y ∧ ¬ (x = a ∧ y = b)
  | .bulk adj _ _ => fun x y => match lastRow adj x with
    | some row => y ∈ row
    | none => E x y
  | _ => E

def expected (ops : List Op) : Nat → Nat → Prop := ops.foldl expect (fun _ _ => False)

/-- Vertices registered by one operation; a bulk load replaces the registration. -/
def register (reg : List Nat) : Op → List Nat
  | .addVertex _ id => reg ++ [id]
  | .addVertices items => reg ++ items.map Prod.snd
  | .bulk _ _ ids => ids
  | _ => reg

/-- Use of the store by the graph: ids are below `u32::MAX`, the source of an added edge is registered, and a bulk
load registers every vertex it lists and every vertex registered before. -/
def OkOp (reg : List Nat) : Op → Prop
  | .addEdge a b => a ∈ reg ∧ b < U32MAX
  | .bulk adj _ ids => (∀ p ∈ adj, p.1 ∈ ids ∧ ∀ t ∈ p.2, t < U32MAX) ∧ ∀ v ∈ reg, v ∈ ids
  | _ => True

def OkFrom : List Nat → List Op → Prop
  | _, [] => True
  | reg, op :: ops => OkOp reg op ∧ OkFrom (register reg op) ops

/-- The rows of a bulk load have no repeated target. -/
def RowsNodup (ops : List Op) : Prop :=
  ∀ adj coords ids, Op.bulk adj coords ids ∈ ops → ∀ p ∈ adj, p.2.Nodup

/-! ## Invariant -/

structure Inv (s : Store) (E : Nat → Nat → Prop) : Prop where
  trans : ∀ a b, a ∈ s.base.inEdges b ↔ b ∈ s.base.outEdges a
  baseOk : ∀ a b, b ∈ s.base.outEdges a → b < U32MAX ∧ a ∈ s.ids
  addOk : ∀ a b, (a, b) ∈ s.delta.additions → b < U32MAX ∧ a ∈ s.ids
  keysOk : ∀ a ∈ s.delta.addKeys, a ∈ s.ids
  disj : ∀ p ∈ s.delta.additions, p ∉ s.delta.removals
  addIn : ∀ a b, (b, a) ∈ s.delta.additionsIn ↔ (a, b) ∈ s.delta.additions
  remIn : ∀ a b, (b, a) ∈ s.delta.removalsIn ↔ (a, b) ∈ s.delta.removals
  zero : s.delta.opCount = 0 → s.delta.additions = [] ∧ s.delta.removals = []
  edges : ∀ a b, E a b ↔ (a, b) ∈ s.delta.additions ∨ (b ∈ s.base.outEdges a ∧ (a, b) ∉ s.delta.removals)

theorem Inv.mem_merged {s : Store} {E : Nat → Nat → Prop} (h : Inv s E) (a b : Nat) :
    b ∈ s.delta.mergedView s.base a ↔ E a b := by
  unfold Delta.mergedView
  rw [mem_mergeRow, mem_setOf, mem_setOf, h.edges]

theorem Inv.mem_mergedIn {s : Store} {E : Nat → Nat → Prop} (h : Inv s E) (a b : Nat) :
    a ∈ s.delta.mergedInView s.base b ↔ E a b := by
  unfold Delta.mergedInView
  rw [mem_mergeRow, mem_setOf, mem_setOf, h.edges, h.trans, h.addIn, h.remIn]

theorem Inv.mem_out {s : Store} {E : Nat → Nat → Prop} (h : Inv s E) (a b : Nat) : b ∈ s.outEdges a ↔ E a b := by
  unfold Store.outEdges
  split
  · rename_i h0
    obtain ⟨h1, h2⟩ := h.zero h0
    rw [h.edges, h1, h2]; simp
  · exact h.mem_merged a b

theorem Inv.mem_in {s : Store} {E : Nat → Nat → Prop} (h : Inv s E) (a b : Nat) : a ∈ s.inEdgesMerged b ↔ E a b := by
  unfold Store.inEdgesMerged
  split
  · rename_i h0
    obtain ⟨h1, h2⟩ := h.zero h0
    rw [h.edges, h1, h2, h.trans]; simp
  · exact h.mem_mergedIn a b

theorem Inv.bound {s : Store} {E : Nat → Nat → Prop} (h : Inv s E) {a b : Nat} (he : E a b) :
    b < U32MAX ∧ a ∈ s.ids := by
  rcases (h.edges a b).1 he with h1 | h1
  · exact h.addOk a b h1
  · exact h.baseOk a b h1.1

theorem Inv.congr {s : Store} {E E' : Nat → Nat → Prop} (h : Inv s E) (he : ∀ a b, E a b ↔ E' a b) : Inv s E' :=
  { h with edges := fun a b => by rw [← he]; exact h.edges a b }

/-- A list of rows where the row of a vertex is a function of the vertex. -/
theorem lastRow_map (ids : List Nat) (f : Nat → List Nat) (v : Nat) :
    lastRow (ids.map fun v => (v, f v)) v = if v ∈ ids then some (f v) else none := by
  induction ids using snocInd with
  | h0 => simp [lastRow]
  | h1 l a ih =>
    rw [List.map_append, List.map_singleton, lastRow_snoc, ih]
    by_cases h : a = v
    · simp [h]
    · have : v ≠ a := fun h' => h h'.symm
      simp [h, this]

theorem inv_fresh {adj : List (Nat × List Nat)} {coords : List Key} {E : Nat → Nat → Prop} (s : Store)
    (hb : ∀ p ∈ adj, ∀ t ∈ p.2, t < U32MAX)
    (hk : ∀ p ∈ adj, p.1 ∈ s.ids)
    (hE : ∀ a b, E a b ↔ ∃ row, lastRow adj a = some row ∧ b ∈ row)
    (h1 : s.base = fromAdjacency adj coords) (h2 : s.delta = {}) : Inv s E where
  trans := fun a b => by rw [h1]; exact in_iff_out_fromAdjacency adj coords a b
  baseOk := fun a b h => by
    rw [h1, mem_out_fromAdjacency adj coords a b hb] at h
    obtain ⟨row, hr, hm⟩ := h
    have := lastRow_mem hr
    exact ⟨hb _ this b hm, hk _ this⟩
  addOk := fun a b h => by rw [h2] at h; simp at h
  keysOk := fun a h => by rw [h2] at h; simp at h
  disj := fun p h => by rw [h2] at h; simp at h
  addIn := fun a b => by rw [h2]; simp
  remIn := fun a b => by rw [h2]; simp
  zero := fun _ => by rw [h2]; simp
  edges := fun a b => by
    rw [h2, h1, mem_out_fromAdjacency adj coords a b hb, hE]; simp

theorem inv_rebuild {s : Store} {E : Nat → Nat → Prop} (h : Inv s E) : Inv s.rebuild E := by
  unfold Store.rebuild
  split
  · refine inv_fresh (adj := s.ids.map fun v => (v, s.delta.mergedView s.base v)) (coords := s.coords) _ ?_ ?_ ?_ rfl rfl
    · intro p hp t ht
      obtain ⟨v, _, rfl⟩ := List.mem_map.1 hp
      exact (h.bound ((h.mem_merged v t).1 ht)).1
    · intro p hp
      obtain ⟨v, hv, rfl⟩ := List.mem_map.1 hp
      exact hv
    · intro a b
      rw [lastRow_map]
      constructor
      · intro he
        rw [if_pos (h.bound he).2]
        exact ⟨_, rfl, (h.mem_merged a b).2 he⟩
      · rintro ⟨row, hr, hm⟩
        split at hr
        · simp only [Option.some.injEq] at hr
          subst hr
          exact (h.mem_merged a b).1 hm
        · simp at hr
  · exact h

theorem inv_maybe {s : Store} {E : Nat → Nat → Prop} (h : Inv s E) : Inv s.maybeRebuild E := by
  unfold Store.maybeRebuild
  split
  · exact inv_rebuild h
  · exact h

theorem inv_ids {s : Store} {E : Nat → Nat → Prop} (h : Inv s E) (s' : Store) (h1 : s'.base = s.base)
    (h2 : s'.delta = s.delta) (h3 : ∀ v ∈ s.ids, v ∈ s'.ids) : Inv s' E := by
  constructor
  · rw [h1]; exact h.trans
  · rw [h1]; exact fun a b hb => ⟨(h.baseOk a b hb).1, h3 _ (h.baseOk a b hb).2⟩
  · rw [h2]; exact fun a b hb => ⟨(h.addOk a b hb).1, h3 _ (h.addOk a b hb).2⟩
  · rw [h2]; exact fun a ha => h3 _ (h.keysOk a ha)
  · rw [h2]; exact h.disj
  · rw [h2]; exact h.addIn
  · rw [h2]; exact h.remIn
  · rw [h2]; exact h.zero
  · rw [h1, h2]; exact h.edges

theorem inv_delta_add {s : Store} {E : Nat → Nat → Prop} (h : Inv s E) (a b : Nat) (ha : a ∈ s.ids) (hb : b < U32MAX) :
    Inv { s with delta := s.delta.addEdge a b } (fun x y => (x = a ∧ y = b) ∨ E x y) := by
  constructor
  · exact h.trans
  · exact h.baseOk
  · intro x y hx
    simp only [Delta.addEdge, mem_insertPair, Prod.mk.injEq] at hx
    rcases hx with ⟨rfl, rfl⟩ | hx
    · exact ⟨hb, ha⟩
    · exact h.addOk x y hx
  · intro x hx
    simp only [Delta.addEdge, List.mem_cons] at hx
    rcases hx with rfl | hx
    · exact ha
    · exact h.keysOk x hx
  · intro p hp
    simp only [Delta.addEdge, mem_insertPair, mem_removePair] at *
    rcases hp with rfl | hp
    · simp
    · intro hr; exact h.disj p hp hr.1
  · intro x y
    simp only [Delta.addEdge, mem_insertPair, h.addIn x y, Prod.mk.injEq]
    constructor
    · rintro (⟨rfl, rfl⟩ | h')
      · exact Or.inl ⟨rfl, rfl⟩
      · exact Or.inr h'
    · rintro (⟨rfl, rfl⟩ | h')
      · exact Or.inl ⟨rfl, rfl⟩
      · exact Or.inr h'
  · intro x y
    simp only [Delta.addEdge, mem_removePair, h.remIn x y, ne_eq, Prod.mk.injEq]
    constructor <;> (rintro ⟨h1, h2⟩; exact ⟨h1, fun h3 => h2 ⟨h3.2, h3.1⟩⟩)
  · intro h0; simp [Delta.addEdge] at h0
  · intro x y
    simp only [Delta.addEdge, mem_insertPair, mem_removePair, h.edges x y, Prod.mk.injEq, ne_eq]
    by_cases hxy : x = a ∧ y = b
    · simp [hxy]
    · simp [hxy]

theorem inv_delta_remove {s : Store} {E : Nat → Nat → Prop} (h : Inv s E) (a b : Nat) :
    Inv { s with delta := s.delta.removeEdge a b } (fun x y => E x y ∧ ¬ (x = a ∧ y = b)) := by
  constructor
  · exact h.trans
  · exact h.baseOk
  · intro x y hx
    simp only [Delta.removeEdge, mem_removePair] at hx
    exact h.addOk x y hx.1
  · exact h.keysOk
  · intro p hp
    simp only [Delta.removeEdge, mem_insertPair, mem_removePair] at *
    rintro (rfl | hr)
    · exact hp.2 rfl
    · exact h.disj p hp.1 hr
  · intro x y
    simp only [Delta.removeEdge, mem_removePair, h.addIn x y, ne_eq, Prod.mk.injEq]
    constructor <;> (rintro ⟨h1, h2⟩; exact ⟨h1, fun h3 => h2 ⟨h3.2, h3.1⟩⟩)
  · intro x y
    simp only [Delta.removeEdge, mem_insertPair, h.remIn x y, Prod.mk.injEq]
    constructor
    · rintro (⟨rfl, rfl⟩ | h')
      · exact Or.inl ⟨rfl, rfl⟩
      · exact Or.inr h'
    · rintro (⟨rfl, rfl⟩ | h')
      · exact Or.inl ⟨rfl, rfl⟩
      · exact Or.inr h'
  · intro h0; simp [Delta.removeEdge] at h0
  · intro x y
    simp only [Delta.removeEdge, mem_insertPair, mem_removePair, h.edges x y, Prod.mk.injEq, ne_eq]
    by_cases hxy : x = a ∧ y = b
    · simp [hxy]
    · simp [hxy]

theorem foldl_addVertex (items : List (Key × Nat)) (s : Store) :
    (items.foldl (fun s p => s.addVertex p.1 p.2) s).base = s.base ∧
    (items.foldl (fun s p => s.addVertex p.1 p.2) s).delta = s.delta ∧
    (items.foldl (fun s p => s.addVertex p.1 p.2) s).ids = s.ids ++ items.map Prod.snd := by
  induction items generalizing s with
  | nil => simp
  | cons p ps ih =>
    obtain ⟨h1, h2, h3⟩ := ih (s.addVertex p.1 p.2)
    refine ⟨?_, ?_, ?_⟩
    · exact h1
    · exact h2
    · rw [List.foldl_cons, h3]; simp [Store.addVertex]

/-! ### Bulk load -/

theorem lastRow_none {adj : List (Nat × List Nat)} {v : Nat} : lastRow adj v = none ↔ v ∉ adj.map Prod.fst := by
  unfold lastRow
  simp only [Option.map_eq_none_iff, List.find?_eq_none, List.mem_reverse, beq_iff_eq, List.mem_map]
  constructor
  · rintro h ⟨p, hp, rfl⟩; exact h p hp rfl
  · intro h p hp he; exact h ⟨p, hp, he⟩

theorem lastRow_append (a b : List (Nat × List Nat)) (v : Nat) :
    lastRow (a ++ b) v = (lastRow b v).or (lastRow a v) := by
  unfold lastRow
  simp only [List.reverse_append, List.find?_append]
  cases List.find? (fun p => p.1 == v) b.reverse <;> simp

theorem carryAdded_known {s : Store} (covered : List Nat) (adj : List (Nat × List Nat)) (v : Nat) (E : Nat → Nat → Prop)
    (h : Inv s E) (hk : v ∈ s.ids) (hall : ∀ a ∈ s.ids, a ∉ covered → s.outEdges a ≠ [] → a ∈ adj.map Prod.fst) :
    s.carryAdded covered adj v = adj := by
  unfold Store.carryAdded
  split
  · rfl
  · rename_i hc
    split
    · rfl
    · rename_i hn
      have hnil : s.outEdges v = [] := by
        by_cases he : s.outEdges v = []
        · exact he
        · exact absurd (hall v hk hc he) hn
      have hrow : dedup [] (((s.base.outEdges v).filter (· ∉ setOf s.delta.removals v)) ++ setOf s.delta.additions v) = [] := by
        rw [List.eq_nil_iff_forall_not_mem]
        intro x hx
        rw [mem_dedup] at hx
        have : x ∈ s.outEdges v := by
          rw [h.mem_out, h.edges]
          have := hx.1
          simp only [List.mem_append, List.mem_filter, mem_setOf, decide_eq_true_eq] at this
          rcases this with h1 | h1
          · exact Or.inr h1
          · exact Or.inl h1
        rw [hnil] at this; simp at this
      simp only [hrow, if_true]

theorem carryForward_eq {s : Store} {E : Nat → Nat → Prop} (h : Inv s E) (adj : List (Nat × List Nat)) :
    s.carryForward adj = adj ++ s.carryKnown adj := by
  unfold Store.carryForward
  have hall : ∀ a ∈ s.ids, a ∉ adj.map Prod.fst → s.outEdges a ≠ [] → a ∈ (adj ++ s.carryKnown adj).map Prod.fst := by
    intro a ha hc hne
    rw [List.map_append, List.mem_append]
    right
    refine List.mem_map.2 ⟨(a, s.outEdges a), ?_, rfl⟩
    unfold Store.carryKnown
    refine List.mem_map.2 ⟨a, List.mem_filter.2 ⟨ha, ?_⟩, rfl⟩
    rw [Bool.and_eq_true]
    exact ⟨decide_eq_true hc, decide_eq_true hne⟩
  have hk : ∀ v ∈ s.delta.addKeys, v ∈ s.ids := h.keysOk
  generalize s.delta.addKeys = keys at hk
  induction keys with
  | nil => rfl
  | cons v vs ih =>
    rw [List.foldl_cons, carryAdded_known _ _ v E h (hk v (by simp)) hall]
    exact ih fun w hw => hk w (by simp [hw])

theorem lastRow_carryKnown {s : Store} (adj : List (Nat × List Nat)) (v : Nat) :
    lastRow (s.carryKnown adj) v =
      if v ∈ s.ids ∧ v ∉ adj.map Prod.fst ∧ s.outEdges v ≠ [] then some (s.outEdges v) else none := by
  unfold Store.carryKnown
  rw [lastRow_map]
  congr 1
  simp only [List.mem_filter, eq_iff_iff]
  rw [Bool.and_eq_true]
  simp only [decide_eq_true_eq, ne_eq]

theorem inv_bulk {s : Store} {E : Nat → Nat → Prop} (h : Inv s E) (adj : List (Nat × List Nat)) (coords : List Key)
    (ids : List Nat) (hok : ∀ p ∈ adj, p.1 ∈ ids ∧ ∀ t ∈ p.2, t < U32MAX) (hreg : ∀ v ∈ s.ids, v ∈ ids) :
    Inv (s.bulk adj coords ids) (expect E (.bulk adj coords ids)) := by
  unfold Store.bulk
  refine inv_fresh (adj := s.carryForward adj) (coords := coords) _ ?_ ?_ ?_ rfl rfl
  · rw [carryForward_eq h]
    intro p hp t ht
    rcases List.mem_append.1 hp with hp | hp
    · exact (hok p hp).2 t ht
    · obtain ⟨v, _, rfl⟩ := List.mem_map.1 hp
      exact (h.bound ((h.mem_out v t).1 ht)).1
  · rw [carryForward_eq h]
    intro p hp
    rcases List.mem_append.1 hp with hp | hp
    · exact (hok p hp).1
    · obtain ⟨v, hv, rfl⟩ := List.mem_map.1 hp
      exact hreg v (List.mem_filter.1 hv).1
  · intro a b
    rw [carryForward_eq h, lastRow_append, lastRow_carryKnown]
    simp only [expect]
    cases hl : lastRow adj a with
    | some row =>
      have : ¬ (a ∉ adj.map Prod.fst) := by
        intro hn; rw [← lastRow_none] at hn; simp [hn] at hl
      rw [if_neg (fun hc => this hc.2.1)]
      simp
    | none =>
      have hn := lastRow_none.1 hl
      constructor
      · intro he
        have hm := (h.mem_out a b).2 he
        have hne : s.outEdges a ≠ [] := List.ne_nil_of_mem hm
        rw [if_pos ⟨(h.bound he).2, hn, hne⟩]
        exact ⟨_, rfl, hm⟩
      · rintro ⟨row, hr, hm⟩
        split at hr
        · simp only [Option.some_or, Option.some.injEq] at hr
          subst hr
          exact (h.mem_out a b).1 hm
        · simp at hr

/-! ### All operations -/

theorem rebuild_ids (s : Store) : s.rebuild.ids = s.ids := by unfold Store.rebuild; split <;> rfl
theorem maybe_ids (s : Store) : s.maybeRebuild.ids = s.ids := by
  unfold Store.maybeRebuild; split
  · exact rebuild_ids s
  · rfl

theorem step_ids (s : Store) (op : Op) : (step s op).ids = register s.ids op := by
  cases op with
  | addVertex k id => rfl
  | addVertices items =>
    simp only [step, Store.addVertices, register]
    split
    · rename_i h; simp [h]
    · rw [rebuild_ids, (foldl_addVertex items s).2.2]
  | updateAddr id k => simp only [step, Store.updateAddr, register]; split <;> rfl
  | addEdge a b => exact maybe_ids _
  | removeEdge a b => exact maybe_ids _
  | beginBatch => rfl
  | endBatch => exact maybe_ids _
  | endBatchDeferred => rfl
  | rebuild => exact rebuild_ids s
  | bulk adj coords ids => rfl

theorem inv_step {s : Store} {E : Nat → Nat → Prop} (h : Inv s E) (op : Op) (hok : OkOp s.ids op) :
    Inv (step s op) (expect E op) := by
  cases op with
  | addVertex k id => exact inv_ids h _ rfl rfl fun v hv => by simp [step, Store.addVertex, hv]
  | addVertices items =>
    simp only [step, Store.addVertices, expect]
    split
    · exact h
    · have hf := foldl_addVertex items s
      exact inv_rebuild (inv_ids h _ hf.1 hf.2.1 fun v hv => by rw [hf.2.2]; simp [hv])
  | updateAddr id k =>
    simp only [step, Store.updateAddr, expect]
    split
    · exact h
    · exact ⟨h.trans, h.baseOk, h.addOk, h.keysOk, h.disj, h.addIn, h.remIn, h.zero, h.edges⟩
  | addEdge a b => exact inv_maybe (inv_delta_add h a b hok.1 hok.2)
  | removeEdge a b => exact inv_maybe (inv_delta_remove h a b)
  | beginBatch => exact inv_ids h _ rfl rfl fun v hv => hv
  | endBatch => exact inv_maybe (inv_ids h _ rfl rfl fun v hv => hv)
  | endBatchDeferred => exact inv_ids h _ rfl rfl fun v hv => hv
  | rebuild => exact inv_rebuild h
  | bulk adj coords ids => exact inv_bulk h adj coords ids hok.1 hok.2

theorem inv_init : Inv {} (fun _ _ => False) :=
  inv_fresh (adj := []) (coords := []) _ (by simp) (by simp) (by simp [lastRow]) rfl rfl

theorem inv_foldl (ops : List Op) (s : Store) (E : Nat → Nat → Prop) (h : Inv s E) (hok : OkFrom s.ids ops) :
    Inv (ops.foldl step s) (ops.foldl expect E) := by
  induction ops generalizing s E with
  | nil => exact h
  | cons op ops ih =>
    simp only [List.foldl_cons]
    exact ih _ _ (inv_step h op hok.1) (by rw [step_ids]; exact hok.2)

theorem inv_run (ops : List Op) (hok : OkFrom [] ops) : Inv (run ops) (expected ops) :=
  inv_foldl ops {} _ inv_init hok

/-! ## Theorems -/

/-- **C12** The dependencies reported for a vertex are exactly the edges implied by the history. -/
theorem out_edges_exact (ops : List Op) (hok : OkFrom [] ops) (a b : Nat) :
    b ∈ (run ops).outEdges a ↔ expected ops a b := (inv_run ops hok).mem_out a b

/-- **C12** The dependents view is the exact transpose. -/
theorem in_edges_exact (ops : List Op) (hok : OkFrom [] ops) (a b : Nat) :
    a ∈ (run ops).inEdgesMerged b ↔ expected ops a b := (inv_run ops hok).mem_in a b

/-- **C12** The borrowing fast paths, when available, report the same edges. -/
theorem refs_exact (ops : List Op) (hok : OkFrom [] ops) (v : Nat) (l : List Nat) :
    ((run ops).outEdgesRef v = some l → ∀ b, b ∈ l ↔ expected ops v b) ∧
    ((run ops).inEdgesRef v = some l → ∀ a, a ∈ l ↔ expected ops a v) := by
  have h := inv_run ops hok
  constructor
  · intro hl b
    rw [← h.mem_out]
    unfold Store.outEdgesRef at hl
    unfold Store.outEdges
    split at hl
    · rename_i h0
      simp only [Option.some.injEq] at hl
      rw [if_pos h0, hl]
    · simp at hl
  · intro hl a
    rw [← h.mem_in]
    unfold Store.inEdgesRef at hl
    unfold Store.inEdgesMerged
    split at hl
    · rename_i h0
      simp only [Option.some.injEq] at hl
      rw [if_pos h0, hl]
    · simp at hl

/-- **C12** After a forced rebuild the raw incoming view is exact too, and the rebuild is not observable. -/
theorem rebuild_transparent (ops : List Op) (hok : OkFrom [] ops) (a b : Nat) :
    (b ∈ (run ops).rebuild.outEdges a ↔ b ∈ (run ops).outEdges a) ∧
    (a ∈ (run ops).rebuild.inEdges b ↔ b ∈ (run ops).outEdges a) := by
  have h := inv_run ops hok
  have h2 := inv_rebuild h
  refine ⟨by rw [h2.mem_out, h.mem_out], ?_⟩
  rw [h.mem_out, ← h2.mem_in]
  have h0 : (run ops).rebuild.delta.opCount = 0 := by
    unfold Store.rebuild
    split
    · rfl
    · rename_i hc
      rcases Nat.eq_zero_or_pos (run ops).delta.opCount with h0 | h0
      · exact h0
      · exact absurd (Or.inl h0) hc
  unfold Store.inEdgesMerged Store.inEdges
  rw [if_pos h0]

/-! ### No duplicates -/

structure NodupInv (s : Store) : Prop where
  out : ∀ v, (s.base.outEdges v).Nodup
  inn : ∀ v, (s.base.inEdges v).Nodup

theorem nodup_fresh {adj : List (Nat × List Nat)} {coords : List Key} (s : Store)
    (hb : ∀ p ∈ adj, ∀ t ∈ p.2, t < U32MAX) (hn : ∀ p ∈ adj, p.2.Nodup)
    (h1 : s.base = fromAdjacency adj coords) : NodupInv s :=
  ⟨fun v => by rw [h1]; exact nodup_out_fromAdjacency adj coords v hb hn,
   fun v => by rw [h1]; exact nodup_in_fromAdjacency adj coords v hn⟩

theorem nodup_rebuild {s : Store} {E : Nat → Nat → Prop} (h : Inv s E) (hn : NodupInv s) : NodupInv s.rebuild := by
  unfold Store.rebuild
  split
  · refine nodup_fresh (adj := s.ids.map fun v => (v, s.delta.mergedView s.base v)) (coords := s.coords) _ ?_ ?_ rfl
    · intro p hp t ht
      obtain ⟨v, _, rfl⟩ := List.mem_map.1 hp
      exact (h.bound ((h.mem_merged v t).1 ht)).1
    · intro p hp
      obtain ⟨v, _, rfl⟩ := List.mem_map.1 hp
      exact nodup_mergeRow _ _ _
  · exact hn

theorem nodup_maybe {s : Store} {E : Nat → Nat → Prop} (h : Inv s E) (hn : NodupInv s) : NodupInv s.maybeRebuild := by
  unfold Store.maybeRebuild
  split
  · exact nodup_rebuild h hn
  · exact hn

theorem NodupInv.outEdges {s : Store} (hn : NodupInv s) (v : Nat) : (s.outEdges v).Nodup := by
  unfold Store.outEdges
  split
  · exact hn.out v
  · exact nodup_mergeRow _ _ _

theorem NodupInv.inEdges {s : Store} (hn : NodupInv s) (v : Nat) : (s.inEdgesMerged v).Nodup := by
  unfold Store.inEdgesMerged
  split
  · exact hn.inn v
  · exact nodup_mergeRow _ _ _

theorem nodup_step {s : Store} {E : Nat → Nat → Prop} (h : Inv s E) (hn : NodupInv s) (op : Op) (hok : OkOp s.ids op)
    (hr : ∀ adj coords ids, op = .bulk adj coords ids → ∀ p ∈ adj, p.2.Nodup) : NodupInv (step s op) := by
  cases op with
  | addVertex k id => exact ⟨hn.out, hn.inn⟩
  | addVertices items =>
    simp only [step, Store.addVertices]
    split
    · exact hn
    · have hf := foldl_addVertex items s
      refine nodup_rebuild (inv_ids h _ hf.1 hf.2.1 fun v hv => by rw [hf.2.2]; simp [hv]) ?_
      exact ⟨by rw [hf.1]; exact hn.out, by rw [hf.1]; exact hn.inn⟩
  | updateAddr id k =>
    simp only [step, Store.updateAddr]
    split
    · exact hn
    · exact ⟨hn.out, hn.inn⟩
  | addEdge a b => exact nodup_maybe (inv_delta_add h a b hok.1 hok.2) ⟨hn.out, hn.inn⟩
  | removeEdge a b => exact nodup_maybe (inv_delta_remove h a b) ⟨hn.out, hn.inn⟩
  | beginBatch => exact ⟨hn.out, hn.inn⟩
  | endBatch => exact nodup_maybe (E := E) (inv_ids h _ rfl rfl fun v hv => hv) ⟨hn.out, hn.inn⟩
  | endBatchDeferred => exact ⟨hn.out, hn.inn⟩
  | rebuild => exact nodup_rebuild h hn
  | bulk adj coords ids =>
    refine nodup_fresh (adj := s.carryForward adj) (coords := coords) _ ?_ ?_ rfl
    · rw [carryForward_eq h]
      intro p hp t ht
      rcases List.mem_append.1 hp with hp | hp
      · exact (hok.1 p hp).2 t ht
      · obtain ⟨v, _, rfl⟩ := List.mem_map.1 hp
        exact (h.bound ((h.mem_out v t).1 ht)).1
    · rw [carryForward_eq h]
      intro p hp
      rcases List.mem_append.1 hp with hp | hp
      · exact hr adj coords ids rfl p hp
      · obtain ⟨v, _, rfl⟩ := List.mem_map.1 hp
        exact hn.outEdges v

theorem nodup_foldl (ops : List Op) (s : Store) (E : Nat → Nat → Prop) (h : Inv s E) (hn : NodupInv s)
    (hok : OkFrom s.ids ops) (hr : RowsNodup ops) : NodupInv (ops.foldl step s) := by
  induction ops generalizing s E with
  | nil => exact hn
  | cons op ops ih =>
    simp only [List.foldl_cons]
    refine ih _ _ (inv_step h op hok.1) (nodup_step h hn op hok.1 ?_) (by rw [step_ids]; exact hok.2) ?_
    · rintro adj coords ids rfl
      exact hr adj coords ids (by simp)
    · intro adj coords ids hm
      exact hr adj coords ids (by simp [hm])

/-- **C12** No edge is reported twice, provided the rows of bulk loads repeat no target. -/
theorem edges_nodup (ops : List Op) (hok : OkFrom [] ops) (hr : RowsNodup ops) (v : Nat) :
    ((run ops).outEdges v).Nodup ∧ ((run ops).inEdgesMerged v).Nodup := by
  have h := nodup_foldl ops {} _ inv_init
    (nodup_fresh (adj := []) (coords := []) _ (by simp) (by simp) rfl) hok hr
  exact ⟨h.outEdges v, h.inEdges v⟩

/-! ### Bounded visit -/

theorem visitLoop_spec (skip l : List Nat) (w : Nat) :
    (∀ x ∈ (visitLoop skip l w).1, x ∈ l ∧ x ∉ skip) ∧
    ((visitLoop skip l w).2.2 = true → ∀ x ∈ l, x ∉ skip → x ∈ (visitLoop skip l w).1) ∧
    ((visitLoop skip l w).2.2 = true ↔ l.length ≤ w) ∧
    (l.length ≤ w → (visitLoop skip l w).2.1 = w - l.length) := by
  induction l generalizing w with
  | nil => simp [visitLoop]
  | cons x xs ih =>
    cases w with
    | zero => simp [visitLoop]
    | succ w =>
      obtain ⟨h1, h2, h3, h4⟩ := ih w
      simp only [visitLoop]
      split
      · rename_i hx
        refine ⟨fun y hy => ⟨by simp [(h1 y hy).1], (h1 y hy).2⟩, ?_, ?_, ?_⟩
        · intro hc y hy hs
          rcases List.mem_cons.1 hy with rfl | hy
          · exact absurd hx hs
          · exact h2 hc y hy hs
        · rw [h3]; simp
        · intro hl; rw [h4 (by simpa using hl)]; simp
      · rename_i hx
        refine ⟨?_, ?_, ?_, ?_⟩
        · intro y hy
          rcases List.mem_cons.1 hy with rfl | hy
          · exact ⟨by simp, hx⟩
          · exact ⟨by simp [(h1 y hy).1], (h1 y hy).2⟩
        · intro hc y hy hs
          rcases List.mem_cons.1 hy with rfl | hy
          · simp
          · exact List.mem_cons_of_mem _ (h2 hc y hy hs)
        · rw [h3]; simp
        · intro hl; rw [h4 (by simpa using hl)]; simp

/-- **C12** The bounded visit presents only dependents, presents all of them when it reports completion, and does
report completion when its budget covers the entries stored for the vertex. -/
theorem visit_exact (ops : List Op) (hok : OkFrom [] ops) (v work : Nat) :
    (∀ a ∈ ((run ops).visitInEdges v work).1, expected ops a v) ∧
    (((run ops).visitInEdges v work).2 = true → ∀ a, expected ops a v → a ∈ ((run ops).visitInEdges v work).1) ∧
    (((run ops).base.inEdges v).length + (setOf (run ops).delta.additionsIn v).length ≤ work →
      ((run ops).visitInEdges v work).2 = true) := by
  have h := inv_run ops hok
  generalize run ops = s at *
  obtain ⟨a1, a2, a3, a4⟩ := visitLoop_spec (setOf s.delta.removalsIn v) (s.base.inEdges v) work
  obtain ⟨b1, b2, b3, b4⟩ := visitLoop_spec [] (setOf s.delta.additionsIn v)
    (visitLoop (setOf s.delta.removalsIn v) (s.base.inEdges v) work).2.1
  have hA : ∀ a ∈ (visitLoop (setOf s.delta.removalsIn v) (s.base.inEdges v) work).1, expected ops a v := by
    intro a ha
    have := a1 a ha
    rw [h.trans, mem_setOf, h.remIn] at this
    exact (h.edges a v).2 (Or.inr this)
  unfold Store.visitInEdges
  simp only
  split
  · rename_i hc
    refine ⟨?_, ?_, ?_⟩
    · intro a ha
      rcases List.mem_append.1 ha with ha | ha
      · exact hA a ha
      · have := (b1 a ha).1
        rw [mem_setOf, h.addIn] at this
        exact (h.edges a v).2 (Or.inl this)
    · intro hc2 a he
      rw [List.mem_append]
      rcases (h.edges a v).1 he with h1 | h1
      · right
        refine b2 hc2 a ?_ (by simp)
        rw [mem_setOf, h.addIn]; exact h1
      · left
        refine a2 hc a ?_ ?_
        · rw [h.trans]; exact h1.1
        · rw [mem_setOf, h.remIn]; exact h1.2
    · intro hw
      rw [b3, a4 (by omega)]
      omega
  · rename_i hc
    refine ⟨hA, by simp, ?_⟩
    intro hw
    exact absurd (a3.2 (by omega)) hc

/-! ### Edge count -/

theorem sum_le_layOut (sort : List Nat → List Nat) (rows : List (List Nat)) (m : Nat) :
    (layOut sort rows).2.length =
      ((List.range' m rows.length).map fun v => (slice (layOut sort rows).1 (layOut sort rows).2 m v).length).sum := by
  have e : (List.range' m rows.length).map (fun v => (slice (layOut sort rows).1 (layOut sort rows).2 m v).length) =
      rows.map fun r => (sort r).length := by
    apply List.ext_getElem
    · simp
    · intro i h1 h2
      simp only [List.getElem_map, List.getElem_range', Nat.one_mul]
      rw [slice_layOut]
      have hi : i < rows.length := by simpa using h2
      rw [if_neg (by omega), show m + i - m = i by omega]
      simp [List.getD_eq_getElem?_getD, hi]
  rw [e, layOut_eq]
  simp [List.length_flatten, Function.comp_def]

theorem count_fromAdjacency (adj : List (Nat × List Nat)) (coords : List Key) :
    ∃ vs : List Nat, vs.Nodup ∧
      (fromAdjacency adj coords).numEdges = (vs.map fun v => ((fromAdjacency adj coords).outEdges v).length).sum ∧
      ∀ v, (fromAdjacency adj coords).outEdges v ≠ [] → v ∈ vs := by
  unfold fromAdjacency
  split
  · exact ⟨[], by simp, by simp [Csr.empty, Csr.numEdges], by simp [Csr.empty, Csr.outEdges, slice]⟩
  · simp only
    split
    · exact ⟨[], by simp, by simp [Csr.empty, Csr.numEdges], by simp [Csr.empty, Csr.outEdges, slice]⟩
    · generalize (idBounds adj).1 = M
      generalize (idBounds adj).2 = X
      refine ⟨List.range' M (rowsByOffset M (X - M + 1) adj).length, List.nodup_range', ?_, ?_⟩
      · exact sum_le_layOut _ _ M
      · intro v hv
        unfold Csr.outEdges at hv
        simp only at hv
        rw [slice_layOut] at hv
        split at hv
        · simp at hv
        · simp only [List.mem_range'_1]; omega

/-- The base was built by `from_adjacency`. -/
def Built (s : Store) : Prop := ∃ adj coords, s.base = fromAdjacency adj coords

theorem built_rebuild {s : Store} (h : Built s) : Built s.rebuild := by
  unfold Store.rebuild
  split
  · exact ⟨_, _, rfl⟩
  · exact h

theorem built_maybe {s : Store} (h : Built s) : Built s.maybeRebuild := by
  unfold Store.maybeRebuild
  split
  · exact built_rebuild h
  · exact h

theorem built_step {s : Store} (h : Built s) (op : Op) : Built (step s op) := by
  cases op with
  | addVertices items =>
    simp only [step, Store.addVertices]
    split
    · exact h
    · refine built_rebuild ?_
      obtain ⟨adj, coords, e⟩ := h
      exact ⟨adj, coords, by rw [(foldl_addVertex items s).1]; exact e⟩
  | updateAddr id k =>
    simp only [step, Store.updateAddr]
    split
    · exact h
    · exact h
  | addEdge a b => exact built_maybe h
  | removeEdge a b => exact built_maybe h
  | endBatch => exact built_maybe h
  | rebuild => exact built_rebuild h
  | bulk adj coords ids => exact ⟨_, _, rfl⟩
  | addVertex k id => exact h
  | beginBatch => exact h
  | endBatchDeferred => exact h

theorem built_foldl (ops : List Op) (s : Store) (h : Built s) : Built (ops.foldl step s) := by
  induction ops generalizing s with
  | nil => exact h
  | cons op ops ih => exact ih _ (built_step h op)

theorem pairs_nodup (vs : List Nat) (f : Nat → List Nat) (hv : vs.Nodup) (hf : ∀ v, (f v).Nodup) :
    (vs.flatMap fun v => (f v).map fun t => (v, t)).Nodup := by
  induction vs with
  | nil => simp
  | cons v vs ih =>
    rw [List.nodup_cons] at hv
    rw [List.flatMap_cons, List.nodup_append]
    refine ⟨?_, ih hv.2, ?_⟩
    · unfold List.Nodup
      rw [List.pairwise_map]
      exact (hf v).imp fun h h' => h (by simpa using h')
    · intro p hp q hq he
      subst he
      simp only [List.mem_map] at hp
      obtain ⟨t, _, rfl⟩ := hp
      simp only [List.mem_flatMap, List.mem_map, Prod.mk.injEq] at hq
      obtain ⟨w, hw, _, _, rfl, _⟩ := hq
      exact hv.1 hw

theorem pairs_length (vs : List Nat) (f : Nat → List Nat) :
    (vs.flatMap fun v => (f v).map fun t => (v, t)).length = (vs.map fun v => (f v).length).sum := by
  rw [List.length_flatMap]; simp

theorem length_eq_of_mem {α : Type} [DecidableEq α] (a b : List α) (ha : a.Nodup) (hb : b.Nodup) (h : ∀ x, x ∈ a ↔ x ∈ b) :
    a.length = b.length := by
  exact ((List.perm_ext_iff_of_nodup ha hb).2 h).length_eq

/-- **C12** The exact edge count is the number of edges implied by the history, when no vertex is registered twice
and no bulk row repeats a target. -/
theorem num_edges_exact (ops : List Op) (hok : OkFrom [] ops) (hr : RowsNodup ops) (hid : (run ops).ids.Nodup)
    (L : List (Nat × Nat)) (hL : L.Nodup) (hmem : ∀ p, p ∈ L ↔ expected ops p.1 p.2) :
    (run ops).numEdgesExact = L.length := by
  have h := inv_run ops hok
  have hn := fun v => (edges_nodup ops hok hr v).1
  have hbuilt : Built (run ops) := built_foldl ops {} ⟨[], [], rfl⟩
  generalize run ops = s at *
  have key : ∀ vs : List Nat, vs.Nodup → (∀ v, s.outEdges v ≠ [] → v ∈ vs) →
      (vs.map fun v => (s.outEdges v).length).sum = L.length := by
    intro vs hvs hcov
    rw [← pairs_length]
    refine length_eq_of_mem _ _ (pairs_nodup vs _ hvs hn) hL ?_
    rintro ⟨a, b⟩
    rw [hmem, ← h.mem_out]
    simp only [List.mem_flatMap, List.mem_map, Prod.mk.injEq]
    constructor
    · rintro ⟨v, _, t, ht, rfl, rfl⟩; exact ht
    · intro hb
      exact ⟨a, hcov a (List.ne_nil_of_mem hb), b, hb, rfl, rfl⟩
  unfold Store.numEdgesExact
  split
  · rename_i h0
    obtain ⟨adj, coords, e⟩ := hbuilt
    obtain ⟨vs, v1, v2, v3⟩ := count_fromAdjacency adj coords
    rw [← e] at v2 v3
    have hout : ∀ v, s.outEdges v = s.base.outEdges v := fun v => by unfold Store.outEdges; rw [if_pos h0]
    rw [v2, ← key vs v1 (fun v hv => v3 v (by rw [← hout]; exact hv))]
    simp only [hout]
  · refine key s.ids hid ?_
    intro v hv
    obtain ⟨x, hx⟩ := List.exists_mem_of_ne_nil _ hv
    exact (h.bound ((h.mem_out v x).1 hx)).2

/-! ## Non-vacuity and negative results -/

/-- Two vertices, edges added, removed and added again across rebuilds, then a bulk load. -/
def exOps : List Op :=
  [.addVertex (0, 0) 1024, .addVertex (0, 1) 1025, .addEdge 1024 1025, .rebuild, .beginBatch, .removeEdge 1024 1025,
   .addEdge 1025 1024, .addEdge 1025 1030, .endBatch, .updateAddr 1024 (5, 5), .addEdge 1024 1026,
   .bulk [(1030, [1024])] [(0, 0), (0, 1), (9, 9)] [1024, 1025, 1030]]

example : OkFrom [] exOps ∧ RowsNodup exOps := by
  refine ⟨by simp [exOps, OkFrom, OkOp, register, U32MAX], ?_⟩
  intro adj coords ids h p hp
  simp only [exOps, List.mem_cons, reduceCtorEq, false_or, List.not_mem_nil, or_false, Op.bulk.injEq] at h
  obtain ⟨rfl, -, -⟩ := h
  simp only [List.mem_singleton] at hp
  subst hp; simp

example : ((run exOps).outEdges 1025, (run exOps).inEdgesMerged 1024, (run exOps).numEdgesExact) =
    ([1024, 1030], [1025, 1030], 4) := by
  simp only [Prod.mk.injEq]
  refine ⟨by decide +kernel, by decide +kernel, by decide +kernel⟩

/-- Without registration a rebuild loses edges: an edge whose source was never registered is visible before the
rebuild and gone after it. -/
theorem unregistered_source_lost :
    ¬ ∀ ops a b, b ∈ (run ops).outEdges a → b ∈ (run ops).rebuild.outEdges a := by
  intro h
  have := h [.addEdge 1 2] 1 2 (by decide +kernel)
  exact absurd this (by decide +kernel)

/-- **C12, violated by the bulk loader.** ingest_builder.rs 371-372, 484-487, 663-679 passes only the vertices
created by the current load as `vertex_ids`. A vertex registered before (here 1, reading 2) keeps its edges across
the load, but the next rebuild after any later edit drops them, although nothing was removed. -/
theorem bulk_load_forgets_vertices :
    let before : List Op := [.addVertex (0, 0) 1, .addVertex (0, 1) 2, .addEdge 1 2, .bulk [(3, [2])] [(1, 0)] [3]]
    let after := before ++ [.addEdge 3 4, .rebuild]
    (2 ∈ (run before).outEdges 1 ∧ expected before 1 2) ∧ (2 ∉ (run after).outEdges 1 ∧ expected after 1 2) := by
  refine ⟨⟨by decide +kernel, ?_⟩, ⟨by decide +kernel, ?_⟩⟩ <;>
    simp [expected, expect, lastRow]

end Verif.Edges
