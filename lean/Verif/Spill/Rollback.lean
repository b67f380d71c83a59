import Verif.Spill.Registry

/-!
# A commit interrupted by a fault (C28), and what a commit writes
-/

namespace Verif.Spill

/-- The value a cell shows in the graph: `get_cell_value(..).unwrap_or(Empty)`, as the rollback reads it. -/
def shown (g : Graph) (c : Cell) : Val := (getCellValue g c).getD .empty

/-- What the vertex store guarantees: the position of a vertex and the cell map agree, and ids in use are below the
next one. -/
structure Placed (g : Graph) : Prop where
  at_iff : ∀ c id, g.at' c = some id ↔ g.pos id = some c
  below : ∀ id c, g.pos id = some c → id < g.next

theorem placed_init (cache : Bool) : Placed { cache } := ⟨by simp, by simp⟩

theorem at_inj {g : Graph} (h : Placed g) {c d : Cell} {id : Nat} (hc : g.at' c = some id) (hd : g.at' d = some id) :
    c = d := by
  have h1 := (h.at_iff c id).1 hc
  have h2 := (h.at_iff d id).1 hd
  rw [h1] at h2; exact Option.some.inj h2

theorem placed_alloc {g : Graph} (h : Placed g) (c : Cell) (hn : g.at' c = none) (g' : Graph)
    (h1 : g'.at' = put g.at' c (some g.next)) (h2 : g'.pos = put g.pos g.next (some c)) (h3 : g'.next = g.next + 1) :
    Placed g' := by
  have hfresh : g.pos g.next = none := by
    cases hp : g.pos g.next with
    | none => rfl
    | some d => exact absurd (h.below _ _ hp) (Nat.lt_irrefl _)
  refine ⟨?_, ?_⟩
  · intro d id
    rw [h1, h2]
    by_cases hd : d = c
    · subst hd
      rw [put_self]
      by_cases hi : id = g.next
      · subst hi; simp [put]
      · rw [put_ne _ _ hi, ← h.at_iff, hn]; simp [Ne.symm hi]
    · rw [put_ne _ _ hd]
      by_cases hi : id = g.next
      · subst hi; rw [put_self, h.at_iff, hfresh]; simp [Ne.symm hd]
      · rw [put_ne _ _ hi]; exact h.at_iff d id
  · intro id d
    rw [h2, h3]
    by_cases hi : id = g.next
    · subst hi; intro _; omega
    · rw [put_ne _ _ hi]; intro hh; have := h.below _ _ hh; omega

theorem placed_setCellValue {g : Graph} (h : Placed g) (c : Cell) (v : Val) : Placed (setCellValue g c v) := by
  unfold setCellValue
  split
  · exact ⟨h.at_iff, h.below⟩
  · rename_i hn; exact placed_alloc h c hn _ rfl rfl rfl

theorem placed_setCellFormula {g : Graph} (h : Placed g) (c : Cell) (f : Nat) : Placed (setCellFormula g c f) := by
  unfold setCellFormula
  split
  · exact ⟨h.at_iff, h.below⟩
  · rename_i hn; exact placed_alloc h c hn _ rfl rfl rfl

theorem placed_update {g : Graph} (h : Placed g) (id : Nat) (v : Val) : Placed (updateVertexValue g id v) := by
  unfold updateVertexValue; split <;> exact ⟨h.at_iff, h.below⟩

theorem placed_writeOp {g : Graph} (h : Placed g) (a : Nat) (home : Cell) (op : Cell × Val) :
    Placed (writeOp a home g op) := by
  unfold writeOp; split
  · exact placed_update h _ _
  · exact placed_setCellValue h _ _

/-- What stays fixed while a region is written: the anchor is where it was, the store is well formed, the cache is on. -/
structure Writing (a : Nat) (home : Cell) (g : Graph) : Prop where
  cache : g.cache = true
  placed : Placed g
  pos : g.pos a = some home

theorem pos_keep {g : Graph} (h : Placed g) (c : Cell) (v : Val) (a : Nat) (d : Cell) (hp : g.pos a = some d) :
    (setCellValue g c v).pos a = some d := by
  unfold setCellValue; split
  · exact hp
  · have := h.below _ _ hp
    simp only; rw [put_ne _ _ (by omega)]; exact hp

theorem writing_op {a : Nat} {home : Cell} {g : Graph} (h : Writing a home g) (op : Cell × Val) :
    Writing a home (writeOp a home g op) := by
  refine ⟨?_, placed_writeOp h.placed a home op, ?_⟩
  · unfold writeOp; split
    · unfold updateVertexValue; split <;> exact h.cache
    · unfold setCellValue; split <;> exact h.cache
  · unfold writeOp; split
    · unfold updateVertexValue; split <;> exact h.pos
    · exact pos_keep h.placed _ _ _ _ h.pos

theorem shown_op {a : Nat} {home : Cell} {g : Graph} (h : Writing a home g) (op : Cell × Val) (c : Cell) :
    shown (writeOp a home g op) c = if c = op.1 then op.2 else shown g c := by
  have hhome : g.at' home = some a := (h.placed.at_iff home a).2 h.pos
  unfold writeOp
  split
  · rename_i he
    have hg : updateVertexValue g a op.2 = { g with val := put g.val a (some op.2) } := by
      unfold updateVertexValue; rw [h.cache]; simp
    rw [hg, he]
    unfold shown getCellValue
    simp only [h.cache]
    by_cases hc : c = home
    · subst hc; simp [hhome, put]
    · simp only [hc, if_false]
      cases hat : g.at' c with
      | none => simp
      | some id =>
        have : id ≠ a := by rintro rfl; exact hc (at_inj h.placed hat hhome)
        simp [put, this]
  · unfold setCellValue
    split
    · rename_i id hid
      unfold shown getCellValue
      simp only [h.cache]
      by_cases hc : c = op.1
      · subst hc; simp [hid, put]
      · simp only [hc, if_false]
        cases hat : g.at' c with
        | none => simp
        | some id' =>
          have : id' ≠ id := by rintro rfl; exact hc (at_inj h.placed hat hid)
          simp [put, this]
    · rename_i hn
      unfold shown getCellValue
      simp only [h.cache]
      by_cases hc : c = op.1
      · subst hc; simp [put]
      · simp only [hc, if_false, put_ne _ _ hc]
        cases hat : g.at' c with
        | none => simp
        | some id' =>
          have := h.placed.below _ _ ((h.placed.at_iff _ _).1 hat)
          have : id' ≠ g.next := by omega
          simp [put, this]

theorem writing_ops {a : Nat} {home : Cell} (ops : List (Cell × Val)) {g : Graph} (h : Writing a home g) :
    Writing a home (ops.foldl (writeOp a home) g) := by
  induction ops generalizing g with
  | nil => exact h
  | cons op ops ih => exact ih (writing_op h op)

/-- The last value written to a cell by a list of writes. -/
def lastWrite (ops : List (Cell × Val)) (c : Cell) : Option Val :=
  (ops.reverse.find? fun op => op.1 == c).map Prod.snd

theorem shown_ops {a : Nat} {home : Cell} (ops : List (Cell × Val)) {g : Graph} (h : Writing a home g) (c : Cell) :
    shown (ops.foldl (writeOp a home) g) c = (lastWrite ops c).getD (shown g c) := by
  induction ops using Edges.snocInd with
  | h0 => rfl
  | h1 ops op ih =>
    rw [List.foldl_append, List.foldl_cons, List.foldl_nil, shown_op (writing_ops ops h), ih]
    unfold lastWrite
    rw [List.reverse_append, List.reverse_singleton, List.singleton_append, List.find?_cons]
    by_cases hc : c = op.1
    · subst hc; simp
    · have : (op.1 == c) = false := by simpa using Ne.symm hc
      simp [hc, this]

theorem shown_restore {a : Nat} {home : Cell} (ops : List (Cell × Val)) {g g0 : Graph} (h : Writing a home g)
    (hv : ∀ op ∈ ops, op.2 = shown g0 op.1) (c : Cell) :
    shown (ops.foldl (writeOp a home) g) c = if c ∈ ops.map Prod.fst then shown g0 c else shown g c := by
  rw [shown_ops ops h]
  unfold lastWrite
  split
  · rename_i hc
    obtain ⟨op, hop, rfl⟩ := List.mem_map.1 hc
    cases hf : ops.reverse.find? fun o => o.1 == op.1 with
    | none =>
      have := List.find?_eq_none.1 hf op (List.mem_reverse.2 hop)
      simp at this
    | some o =>
      have h1 : o ∈ ops := List.mem_reverse.1 (List.mem_of_find?_eq_some hf)
      have h2 : o.1 = op.1 := by have := List.find?_some hf; simpa using this
      simp [hv o h1, h2]
  · rename_i hc
    have : ops.reverse.find? (fun o => o.1 == c) = none := by
      rw [List.find?_eq_none]
      intro o ho
      simp only [beq_iff_eq]
      rintro rfl
      exact hc (List.mem_map_of_mem (List.mem_reverse.1 ho))
    simp [this]

/-- **C28** A fault at any write of a commit: the call reports failure, every cell shows the value it showed before,
and the ownership maps are as before.  (The value cache of the graph is on; for the cache being off see
`fault_cache_off`.) -/
theorem fault_restores_values (g : Graph) (a : Nat) (home : Cell) (ts : List Cell) (vs : List (List Val)) (n : Nat)
    (h : Writing a home g) (hn : n < (commitOps ((g.cells a).getD []) ts vs).length) :
    (commit g a home ts vs (some n)).2 = false ∧
    (∀ c, shown (commit g a home ts vs (some n)).1 c = shown g c) ∧
    (commit g a home ts vs (some n)).1.owner = g.owner ∧
    (commit g a home ts vs (some n)).1.cells = g.cells ∧
    (commit g a home ts vs (some n)).1.idx = g.idx := by
  obtain ⟨h1, h2, h3⟩ : SameMaps g (commit g a home ts vs (some n)).1 := by
    simp only [commit]; rw [if_pos hn]
    exact (maps_writes a home _ g).trans (maps_writes a home _ _)
  refine ⟨by simp only [commit]; rw [if_pos hn], ?_, h1, h2, h3⟩
  intro c
  simp only [commit]
  rw [if_pos hn]
  simp only
  rw [shown_restore (g0 := g) _ (writing_ops _ h)]
  · split
    · rfl
    · rename_i hc
      rw [shown_ops _ h]
      have : lastWrite ((commitOps ((g.cells a).getD []) ts vs).take n) c = none := by
        unfold lastWrite
        rw [Option.map_eq_none_iff, List.find?_eq_none]
        intro o ho
        simp only [beq_iff_eq]
        rintro rfl
        apply hc
        rw [List.mem_reverse] at ho
        rw [List.map_reverse, List.mem_reverse, ← List.map_take, List.map_map]
        exact List.mem_map.2 ⟨o, ho, rfl⟩
      rw [this]; rfl
  · intro op hop
    rw [List.mem_reverse, ← List.map_take] at hop
    obtain ⟨o, -, rfl⟩ := List.mem_map.1 hop
    rfl

/-- **C28** With the value cache of the graph off (as the engine runs it) no cell of the graph shows a value before or
after the faulted commit; the ownership maps are as before. -/
theorem fault_cache_off (g : Graph) (a : Nat) (home : Cell) (ts : List Cell) (vs : List (List Val)) (n : Nat)
    (hc : g.cache = false) (hn : n < (commitOps ((g.cells a).getD []) ts vs).length) :
    (commit g a home ts vs (some n)).2 = false ∧
    (∀ c, shown (commit g a home ts vs (some n)).1 c = shown g c) ∧
    (commit g a home ts vs (some n)).1.owner = g.owner ∧
    (commit g a home ts vs (some n)).1.cells = g.cells ∧
    (commit g a home ts vs (some n)).1.idx = g.idx := by
  have hw : ∀ (ops : List (Cell × Val)) (g' : Graph), g'.cache = false →
      (ops.foldl (writeOp a home) g').cache = false := by
    intro ops
    induction ops with
    | nil => exact fun _ h => h
    | cons op ops ih =>
      intro g' h'
      apply ih
      unfold writeOp; split
      · unfold updateVertexValue; split <;> exact h'
      · unfold setCellValue; split <;> exact h'
  obtain ⟨h1, h2, h3⟩ : SameMaps g (commit g a home ts vs (some n)).1 := by
    simp only [commit]; rw [if_pos hn]
    exact (maps_writes a home _ g).trans (maps_writes a home _ _)
  refine ⟨by simp only [commit]; rw [if_pos hn], ?_, h1, h2, h3⟩
  intro c
  have : (commit g a home ts vs (some n)).1.cache = false := by
    simp only [commit]; rw [if_pos hn]; exact hw _ _ (hw _ _ hc)
  simp [shown, getCellValue, this, hc]

/-- One write keeps the formulas, unless it hits a formula cell other than the anchor's. -/
theorem fml_op {a : Nat} {home : Cell} {g : Graph} (h : Placed g) (op : Cell × Val)
    (hk : op.1 ≠ home → ∀ id, g.at' op.1 = some id → g.kind id ≠ .formula) :
    (writeOp a home g op).fml = g.fml ∧ (∀ id, id < g.next → (writeOp a home g op).kind id = g.kind id) ∧
    g.next ≤ (writeOp a home g op).next ∧
    (∀ c id, g.at' c = some id → (writeOp a home g op).at' c = some id) ∧
    (∀ c id, (writeOp a home g op).at' c = some id → g.at' c = some id ∨ (writeOp a home g op).kind id ≠ .formula) := by
  unfold writeOp
  split
  · unfold updateVertexValue; split <;>
      exact ⟨rfl, fun _ _ => rfl, Nat.le_refl _, fun _ _ h => h, fun _ _ h => Or.inl h⟩
  · rename_i hne
    unfold setCellValue
    split
    · rename_i id hid
      have hki := hk hne id hid
      refine ⟨by simp [hki], ?_, Nat.le_refl _, fun _ _ h => h, fun _ _ h => Or.inl h⟩
      intro id' _
      simp only [put]
      split
      · rename_i he; subst he; cases hq : g.kind id' <;> simp_all
      · rfl
    · rename_i hn
      refine ⟨rfl, ?_, by simp, ?_, ?_⟩
      · intro id hlt; simp only; rw [put_ne _ _ (by omega)]
      · intro c id hat
        simp only
        by_cases hc : c = op.1
        · subst hc; rw [hn] at hat; simp at hat
        · rw [put_ne _ _ hc]; exact hat
      · intro c id hat
        simp only at hat ⊢
        by_cases hc : c = op.1
        · subst hc
          rw [put_self] at hat
          right
          rw [← Option.some.inj hat, put_self]; simp
        · rw [put_ne _ _ hc] at hat; exact Or.inl hat

theorem fml_ops {a : Nat} {home : Cell} (ops : List (Cell × Val)) {g : Graph} (h : Placed g)
    (hk : ∀ op ∈ ops, op.1 ≠ home → ∀ id, g.at' op.1 = some id → g.kind id ≠ .formula) :
    (ops.foldl (writeOp a home) g).fml = g.fml ∧ Placed (ops.foldl (writeOp a home) g) ∧
    (∀ id, id < g.next → (ops.foldl (writeOp a home) g).kind id = g.kind id) ∧
    g.next ≤ (ops.foldl (writeOp a home) g).next ∧
    (∀ c id, g.at' c = some id → (ops.foldl (writeOp a home) g).at' c = some id) ∧
    (∀ c id, (ops.foldl (writeOp a home) g).at' c = some id →
      g.at' c = some id ∨ (ops.foldl (writeOp a home) g).kind id ≠ .formula) := by
  induction ops generalizing g with
  | nil => exact ⟨rfl, h, fun _ _ => rfl, Nat.le_refl _, fun _ _ h => h, fun _ _ h => Or.inl h⟩
  | cons op ops ih =>
    obtain ⟨h1, h2, h3, h4, h5⟩ := fml_op (a := a) h op (hk op (by simp))
    have hp := placed_writeOp h a home op
    obtain ⟨k1, k2, k3, k4, k5, k6⟩ := ih hp (by
      intro o ho hne id hat
      rcases h5 _ _ hat with h' | h'
      · have := hk o (by simp [ho]) hne id h'
        rw [h2 id (h.below _ _ ((h.at_iff _ _).1 h'))]; exact this
      · exact h')
    rw [List.foldl_cons]
    refine ⟨k1.trans h1, k2, ?_, by omega, fun c id hat => k5 c id (h4 c id hat), ?_⟩
    · intro id hid; rw [k3 id (by omega), h2 id hid]
    · intro c id hat
      rcases k6 c id hat with h' | h'
      · rcases h5 c id h' with h'' | h''
        · exact Or.inl h''
        · right
          have : id < (writeOp a home g op).next := hp.below _ _ ((hp.at_iff _ _).1 h')
          rw [k3 id this]; exact h''
      · exact Or.inr h'

/-- **C28, partial.** If none of the cells the commit writes, other than the anchor's, holds a formula, a faulted
commit keeps every formula, every vertex where it was, and every kind.  Missing: cells that had no vertex keep the
empty one they got (`fault_leaves_vertices`), and the hypothesis cannot be dropped (`fault_loses_formula`). -/
theorem fault_keeps_formulas_partial (g : Graph) (a : Nat) (home : Cell) (ts : List Cell) (vs : List (List Val))
    (n : Nat) (h : Placed g) (hn : n < (commitOps ((g.cells a).getD []) ts vs).length)
    (hk : ∀ op ∈ commitOps ((g.cells a).getD []) ts vs, op.1 ≠ home → ∀ id, g.at' op.1 = some id →
      g.kind id ≠ .formula) :
    (commit g a home ts vs (some n)).1.fml = g.fml ∧
    (∀ c id, g.at' c = some id → (commit g a home ts vs (some n)).1.at' c = some id ∧
      (commit g a home ts vs (some n)).1.kind id = g.kind id) := by
  simp only [commit]
  rw [if_pos hn]
  simp only
  obtain ⟨h1, h2, h3, h4, h5, h6⟩ := fml_ops (a := a) (home := home)
    ((commitOps ((g.cells a).getD []) ts vs).take n) h (fun op hop => hk op (List.mem_of_mem_take hop))
  obtain ⟨k1, k2, k3, k4, k5, k6⟩ := fml_ops (a := a) (home := home)
    ((List.map (fun op => (op.1, (getCellValue g op.1).getD Val.empty)) (commitOps ((g.cells a).getD []) ts vs)).take n).reverse h2
    (by
      intro o ho hne id hat
      rw [List.mem_reverse, ← List.map_take] at ho
      obtain ⟨op, hop, rfl⟩ := List.mem_map.1 ho
      rcases h6 _ _ hat with h' | h'
      · have := hk op (List.mem_of_mem_take hop) hne id h'
        rw [h3 id (h.below _ _ ((h.at_iff _ _).1 h'))]; exact this
      · exact h')
  refine ⟨k1.trans h1, fun c id hat => ⟨k5 c id (h5 c id hat), ?_⟩⟩
  have hlt := h.below _ _ ((h.at_iff _ _).1 hat)
  rw [k3 id (by omega), h3 id hlt]

/-- **C28, negation.** A commit allowed to overwrite a formula, interrupted by a fault: the ownership and the shown
values are restored, but the overwritten formula is gone. -/
theorem fault_loses_formula :
    ∃ (g : Graph) (a : Nat) (home : Cell) (ts : List Cell) (vs : List (List Val)) (c : Cell) (id : Nat),
      g.cache = true ∧ Placed g ∧ g.pos a = some home ∧ plan g a ts (fun _ => true) = none ∧
      g.at' c = some id ∧ g.fml id = some 6 ∧ (commit g a home ts vs (some 2)).2 = false ∧
      (commit g a home ts vs (some 2)).1.fml id = none := by
  refine ⟨setCellFormula (setCellFormula { cache := true } ⟨0, 0, 0⟩ 5) ⟨0, 1, 0⟩ 6, 0, ⟨0, 0, 0⟩,
    [⟨0, 0, 0⟩, ⟨0, 1, 0⟩, ⟨0, 2, 0⟩], [[.num 1], [.num 2], [.num 3]], ⟨0, 1, 0⟩, 1, rfl, ?_, ?_⟩
  · exact placed_setCellFormula (placed_setCellFormula (placed_init _) _ _) _ _
  · decide +kernel

/-- **C28, negation.** A cell that had no vertex has one (with no value) after the rollback. -/
theorem fault_leaves_vertices :
    ∃ (g : Graph) (a : Nat) (home : Cell) (ts : List Cell) (vs : List (List Val)) (c : Cell),
      g.cache = true ∧ Placed g ∧ g.pos a = some home ∧ plan g a ts (fun _ => false) = none ∧
      g.at' c = none ∧ (commit g a home ts vs (some 2)).2 = false ∧
      (commit g a home ts vs (some 2)).1.at' c = some 1 := by
  refine ⟨setCellFormula { cache := true } ⟨0, 0, 0⟩ 5, 0, ⟨0, 0, 0⟩,
    [⟨0, 0, 0⟩, ⟨0, 1, 0⟩, ⟨0, 2, 0⟩], [[.num 1], [.num 2], [.num 3]], ⟨0, 1, 0⟩, rfl, ?_, ?_⟩
  · exact placed_setCellFormula (placed_init _) _ _
  · decide +kernel

/-- The hypotheses of the rollback theorems hold in a real situation: an anchor with a 1×2 spill growing to 3×1. -/
def exG : Graph :=
  (commit (setCellFormula { cache := true } ⟨0, 0, 0⟩ 5) 0 ⟨0, 0, 0⟩ [⟨0, 0, 0⟩, ⟨0, 0, 1⟩] [[.num 1, .num 2]] none).1

example : exG.cache = true ∧ exG.pos 0 = some ⟨0, 0, 0⟩ ∧ shown exG ⟨0, 0, 1⟩ = .num 2 ∧
    (commitOps ((exG.cells 0).getD []) [⟨0, 0, 0⟩, ⟨0, 1, 0⟩, ⟨0, 2, 0⟩] [[.num 7], [.num 8], [.num 9]]).length = 4 ∧
    (commit exG 0 ⟨0, 0, 0⟩ [⟨0, 0, 0⟩, ⟨0, 1, 0⟩, ⟨0, 2, 0⟩] [[.num 7], [.num 8], [.num 9]] (some 3)).2 = false ∧
    shown (commit exG 0 ⟨0, 0, 0⟩ [⟨0, 0, 0⟩, ⟨0, 1, 0⟩, ⟨0, 2, 0⟩] [[.num 7], [.num 8], [.num 9]] (some 3)).1 ⟨0, 0, 1⟩
      = .num 2 := by decide +kernel

/-- **C27** What a commit without a fault shows: cells of the old region outside the new one are emptied, and each
cell written by the values shows the value written to it last; nothing else changes. -/
theorem commit_shows (g : Graph) (a : Nat) (home : Cell) (ts : List Cell) (vs : List (List Val))
    (h : Writing a home g) (c : Cell) :
    shown (commit g a home ts vs none).1 c =
      (lastWrite (commitOps ((g.cells a).getD []) ts vs) c).getD (shown g c) := by
  rw [commit_none, ← shown_ops _ h]
  have hd : ∀ (cs : List Cell) (g : Graph), shown (disown g cs) c = shown g c := by
    intro cs
    unfold disown
    induction cs with
    | nil => intro g; rfl
    | cons d cs ih => intro g; rw [List.foldl_cons, ih]; rfl
  have ho : ∀ (cs : List Cell) (g : Graph), shown (own g a cs) c = shown g c := by
    intro cs
    unfold own
    induction cs with
    | nil => intro g; rfl
    | cons d cs ih => intro g; rw [List.foldl_cons, ih]; rfl
  have hf : ∀ (g' : Graph) (x), shown { g' with cells := x } c = shown g' c := fun _ _ => rfl
  simp only [commitDone]
  rw [hf, ho, hd]

end Verif.Spill
