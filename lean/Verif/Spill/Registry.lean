import Verif.Spill.Model
import Mathlib.Tactic.Tauto

/-!
# Ownership of spilled cells: lemmas and the history theorems (C27)
-/

namespace Verif.Spill

theorem put_self {K V : Type} [DecidableEq K] (f : K → V) (k : K) (v : V) : put f k v k = v := by simp [put]

theorem put_ne {K V : Type} [DecidableEq K] (f : K → V) {k k' : K} (v : V) (h : k' ≠ k) : put f k v k' = f k' := by
  simp [put, h]

/-! ## What the pieces do to the three maps -/

/-- The three maps of two graphs are the same. -/
def SameMaps (g g' : Graph) : Prop := g'.owner = g.owner ∧ g'.cells = g.cells ∧ g'.idx = g.idx

theorem SameMaps.rfl' (g : Graph) : SameMaps g g := ⟨rfl, rfl, rfl⟩

theorem SameMaps.trans {a b c : Graph} (h : SameMaps a b) (h' : SameMaps b c) : SameMaps a c :=
  ⟨h'.1.trans h.1, h'.2.1.trans h.2.1, h'.2.2.trans h.2.2⟩

theorem maps_setCellValue (g : Graph) (c : Cell) (v : Val) : SameMaps g (setCellValue g c v) := by
  unfold setCellValue; split <;> exact ⟨rfl, rfl, rfl⟩

theorem maps_setCellFormula (g : Graph) (c : Cell) (f : Nat) : SameMaps g (setCellFormula g c f) := by
  unfold setCellFormula; split <;> exact ⟨rfl, rfl, rfl⟩

theorem maps_update (g : Graph) (id : Nat) (v : Val) : SameMaps g (updateVertexValue g id v) := by
  unfold updateVertexValue; split <;> exact ⟨rfl, rfl, rfl⟩

theorem maps_writeOp (a : Nat) (home : Cell) (g : Graph) (op : Cell × Val) : SameMaps g (writeOp a home g op) := by
  unfold writeOp; split
  · exact maps_update _ _ _
  · exact maps_setCellValue _ _ _

theorem maps_writes (a : Nat) (home : Cell) (ops : List (Cell × Val)) (g : Graph) :
    SameMaps g (ops.foldl (writeOp a home) g) := by
  induction ops generalizing g with
  | nil => exact SameMaps.rfl' g
  | cons op ops ih => exact (maps_writeOp a home g op).trans (ih _)

theorem maps_clearChild (home : Option Cell) (g : Graph) (c : Cell) : SameMaps g (clearChild home g c) := by
  unfold clearChild; split
  · exact SameMaps.rfl' g
  · split <;> exact ⟨rfl, rfl, rfl⟩

theorem maps_clearChildren (home : Option Cell) (cs : List Cell) (g : Graph) :
    SameMaps g (cs.foldl (clearChild home) g) := by
  induction cs generalizing g with
  | nil => exact SameMaps.rfl' g
  | cons c cs ih => exact (maps_clearChild home g c).trans (ih _)

theorem disown_cells (cs : List Cell) (g : Graph) : (disown g cs).cells = g.cells := by
  unfold disown
  induction cs generalizing g with
  | nil => rfl
  | cons c cs ih => rw [List.foldl_cons, ih]

theorem disown_owner (cs : List Cell) (g : Graph) (c : Cell) :
    (disown g cs).owner c = if c ∈ cs then none else g.owner c := by
  unfold disown
  induction cs generalizing g with
  | nil => simp
  | cons d cs ih =>
    rw [List.foldl_cons, ih]
    by_cases h1 : c ∈ cs
    · simp [h1]
    · by_cases h2 : c = d
      · subst h2; simp [put]
      · simp [h1, h2, put]

theorem disown_idx (cs : List Cell) (g : Graph) (s r c a : Nat) :
    ((r, c), a) ∈ (disown g cs).idx s ↔ ((r, c), a) ∈ g.idx s ∧ (⟨s, r, c⟩ : Cell) ∉ cs := by
  unfold disown
  induction cs generalizing g with
  | nil => simp
  | cons d cs ih =>
    rw [List.foldl_cons, ih]
    simp only [put, List.mem_cons, not_or]
    split
    · rename_i hs
      subst hs
      rw [List.mem_filter]
      have : (⟨d.sheet, r, c⟩ : Cell) = d ↔ (r, c) = (d.row, d.col) := by
        cases d; simp
      simp only [ne_eq, decide_not, Bool.not_eq_eq_eq_not, Bool.not_true, decide_eq_false_iff_not, this]
      tauto
    · rename_i hs
      have : (⟨s, r, c⟩ : Cell) ≠ d := by rintro rfl; exact hs rfl
      tauto

theorem own_cells (a : Nat) (cs : List Cell) (g : Graph) : (own g a cs).cells = g.cells := by
  unfold own
  induction cs generalizing g with
  | nil => rfl
  | cons c cs ih => rw [List.foldl_cons, ih]

theorem own_owner (a : Nat) (cs : List Cell) (g : Graph) (c : Cell) :
    (own g a cs).owner c = if c ∈ cs then some a else g.owner c := by
  unfold own
  induction cs generalizing g with
  | nil => simp
  | cons d cs ih =>
    rw [List.foldl_cons, ih]
    by_cases h1 : c ∈ cs
    · simp [h1]
    · by_cases h2 : c = d
      · subst h2; simp [put]
      · simp [h1, h2, put]

theorem own_idx (an : Nat) (cs : List Cell) (g : Graph) (s r c a : Nat) :
    ((r, c), a) ∈ (own g an cs).idx s ↔
      if (⟨s, r, c⟩ : Cell) ∈ cs then a = an else ((r, c), a) ∈ g.idx s := by
  unfold own
  induction cs generalizing g with
  | nil => simp
  | cons d cs ih =>
    rw [List.foldl_cons, ih]
    by_cases h1 : (⟨s, r, c⟩ : Cell) ∈ cs
    · simp [h1]
    · simp only [h1, if_false, List.mem_cons, or_false, put]
      split
      · rename_i hs
        subst hs
        have he : (⟨d.sheet, r, c⟩ : Cell) = d ↔ (r, c) = (d.row, d.col) := by
          cases d; simp
        by_cases h2 : (⟨d.sheet, r, c⟩ : Cell) = d
        · rw [if_pos h2]
          have := he.1 h2
          rw [List.mem_cons, List.mem_filter]
          simp [this]
        · rw [if_neg h2]
          have h3 : (r, c) ≠ (d.row, d.col) := fun h => h2 (he.2 h)
          rw [List.mem_cons, List.mem_filter]
          simp only [Prod.mk.injEq, ne_eq, decide_not, Bool.not_eq_eq_eq_not, Bool.not_true, decide_eq_false_iff_not]
          constructor
          · rintro (⟨h, -⟩ | ⟨h, -⟩)
            · exact absurd (Prod.ext_iff.2 h) h3
            · exact h
          · intro h
            exact Or.inr ⟨h, fun h' => h3 (Prod.ext_iff.2 h')⟩
      · rename_i hs
        have : (⟨s, r, c⟩ : Cell) ≠ d := by rintro rfl; exact hs rfl
        rw [if_neg this]

/-! ## The invariant -/

structure Reg (g : Graph) : Prop where
  own : ∀ c a, g.owner c = some a ↔ ∃ cs, g.cells a = some cs ∧ c ∈ cs
  idx : ∀ s r c a, ((r, c), a) ∈ g.idx s ↔ g.owner ⟨s, r, c⟩ = some a

theorem Reg.congr {g g' : Graph} (h : Reg g) (hs : SameMaps g g') : Reg g' := by
  obtain ⟨h1, h2, h3⟩ := hs
  refine ⟨?_, ?_⟩
  · rw [h1, h2]; exact h.own
  · rw [h1, h3]; exact h.idx

theorem reg_init : Reg {} := ⟨by simp, by simp⟩

theorem planCell_owner {g : Graph} {a : Nat} {allow : Nat → Bool} {c : Cell} (h : planCell g a allow c = none) :
    g.owner c = none ∨ g.owner c = some a := by
  unfold planCell at h
  split at h
  · rename_i b hb
    split at h
    · rename_i he; subst he; exact Or.inr hb
    · simp at h
  · rename_i hb; exact Or.inl hb

theorem plan_none_iff (g : Graph) (a : Nat) (ts : List Cell) (allow : Nat → Bool) :
    plan g a ts allow = none ↔ ∀ c ∈ ts, planCell g a allow c = none := by
  unfold plan; rw [List.findSome?_eq_none_iff]

/-- The final part of a successful commit. -/
def commitDone (g : Graph) (a : Nat) (home : Cell) (ts : List Cell) (vs : List (List Val)) : Graph :=
  let prev := (g.cells a).getD []
  let g3 := own (disown ((commitOps prev ts vs).foldl (writeOp a home) g) (prev.filter fun c => !ts.contains c)) a ts
  { g3 with cells := put g3.cells a (some ts) }

theorem commit_none (g : Graph) (a : Nat) (home : Cell) (ts : List Cell) (vs : List (List Val)) :
    commit g a home ts vs none = (commitDone g a home ts vs, true) := rfl

theorem commit_cases (g : Graph) (a : Nat) (home : Cell) (ts : List Cell) (vs : List (List Val)) (fault : Option Nat) :
    commit g a home ts vs fault = (commitDone g a home ts vs, true) ∨
    ∃ g', commit g a home ts vs fault = (g', false) ∧ SameMaps g g' := by
  cases fault with
  | none => exact Or.inl rfl
  | some n =>
    by_cases hn : n < (commitOps ((g.cells a).getD []) ts vs).length
    · refine Or.inr ⟨_, by simp only [commit]; rw [if_pos hn], ?_⟩
      exact (maps_writes a home _ g).trans (maps_writes a home _ _)
    · exact Or.inl (by simp only [commit]; rw [if_neg hn]; rfl)

theorem commitDone_owner (g : Graph) (a : Nat) (home : Cell) (ts : List Cell) (vs : List (List Val)) (c : Cell) :
    (commitDone g a home ts vs).owner c =
      if c ∈ ts then some a else if c ∈ (g.cells a).getD [] then none else g.owner c := by
  have hm := maps_writes a home (commitOps ((g.cells a).getD []) ts vs) g
  simp only [commitDone]
  rw [own_owner]
  split
  · rfl
  · rename_i hc
    rw [disown_owner, hm.1]
    simp [List.mem_filter, hc]

theorem commitDone_cells (g : Graph) (a : Nat) (home : Cell) (ts : List Cell) (vs : List (List Val)) :
    (commitDone g a home ts vs).cells = put g.cells a (some ts) := by
  have hm := maps_writes a home (commitOps ((g.cells a).getD []) ts vs) g
  simp only [commitDone]
  rw [own_cells, disown_cells, hm.2.1]

theorem reg_commitDone {g : Graph} (h : Reg g) (a : Nat) (home : Cell) (ts : List Cell) (vs : List (List Val))
    (hp : ∀ c ∈ ts, g.owner c = none ∨ g.owner c = some a) : Reg (commitDone g a home ts vs) := by
  refine ⟨?_, ?_⟩
  · intro c b
    rw [commitDone_owner, commitDone_cells]
    have hprev : c ∈ (g.cells a).getD [] ↔ g.owner c = some a := by
      rw [h.own c a]
      cases g.cells a with
      | none => simp
      | some cs => simp
    by_cases hb : b = a
    · subst hb
      rw [put_self]
      by_cases hc : c ∈ ts
      · simp [hc]
      · simp only [hc, if_false, hprev, Option.some.injEq, exists_eq_left', iff_false]
        split
        · simp
        · assumption
    · rw [put_ne _ _ hb, ← h.own c b]
      by_cases hc : c ∈ ts
      · rw [if_pos hc]
        rcases hp c hc with h1 | h1 <;> rw [h1] <;> simp [Ne.symm hb]
      · rw [if_neg hc]
        split
        · rename_i h1; rw [hprev.1 h1]; simp [Ne.symm hb]
        · rfl
  · intro s r c b
    have hm := maps_writes a home (commitOps ((g.cells a).getD []) ts vs) g
    simp only [commitDone]
    rw [own_idx, own_owner, disown_idx, disown_owner, hm.1, hm.2.2, h.idx]
    by_cases hc : (⟨s, r, c⟩ : Cell) ∈ ts
    · simp [hc, eq_comm]
    · simp only [hc, if_false]
      split
      · rename_i h1; simp only [reduceCtorEq, iff_false]; exact fun hh => hh.2 h1
      · rename_i h1; exact ⟨fun hh => hh.1, fun hh => ⟨hh, h1⟩⟩

theorem clear_maps (g : Graph) (a : Nat) :
    SameMaps (match g.cells a with
      | none => g
      | some cs => disown { g with cells := put g.cells a none } cs) (clear g a) := by
  unfold clear
  cases g.cells a with
  | none => exact SameMaps.rfl' g
  | some cs => exact maps_clearChildren _ _ _

theorem clear_cells (g : Graph) (a : Nat) : (clear g a).cells = put g.cells a none := by
  have h := (clear_maps g a).2.1
  cases hc : g.cells a with
  | none =>
    simp only [hc] at h
    rw [h]; funext b; simp only [put]; split
    · rename_i hb; rw [hb, hc]
    · rfl
  | some cs =>
    simp only [hc] at h
    rw [h, disown_cells]

theorem clear_owner (g : Graph) (a : Nat) (c : Cell) :
    (clear g a).owner c = if c ∈ (g.cells a).getD [] then none else g.owner c := by
  have h := (clear_maps g a).1
  cases hc : g.cells a with
  | none => simp only [hc] at h; rw [h]; simp
  | some cs => simp only [hc] at h; rw [h, disown_owner]; simp

theorem reg_clear {g : Graph} (h : Reg g) (a : Nat) : Reg (clear g a) := by
  refine ⟨?_, ?_⟩
  · intro c b
    rw [clear_owner, clear_cells]
    have hprev : c ∈ (g.cells a).getD [] ↔ g.owner c = some a := by
      rw [h.own c a]
      cases g.cells a with
      | none => simp
      | some cs => simp
    by_cases hb : b = a
    · subst hb; rw [put_self]
      split
      · simp
      · rename_i h1; rw [hprev] at h1; simpa using h1
    · rw [put_ne _ _ hb, ← h.own c b]
      split
      · rename_i h1; rw [hprev.1 h1]; simp [Ne.symm hb]
      · rfl
  · intro s r c b
    have hm := clear_maps g a
    cases hc : g.cells a with
    | none =>
      simp only [hc] at hm
      rw [hm.1, hm.2.2]; exact h.idx s r c b
    | some cs =>
      simp only [hc] at hm
      rw [hm.1, hm.2.2, disown_idx, disown_owner]
      simp only [h.idx]
      split
      · rename_i h1; simp [h1]
      · rename_i h1; simp [h1]

/-! ## Histories on the graph -/

/-- What callers do to the graph: plan and, if the plan passes, commit (with or without an injected fault); clear; edit
cells. -/
inductive GOp
  | spill (anchor : Nat) (home : Cell) (targets : List Cell) (values : List (List Val)) (allow : Nat → Bool)
      (fault : Option Nat)
  | clear (anchor : Nat)
  | value (c : Cell) (v : Val)
  | formula (c : Cell) (f : Nat)
  | result (id : Nat) (v : Val)

def gStep (g : Graph) : GOp → Graph
  | .spill a home ts vs allow fault =>
    if (plan g a ts allow).isSome then g else (commit g a home ts vs fault).1
  | .clear a => Spill.clear g a
  | .value c v => setCellValue g c v
  | .formula c f => setCellFormula g c f
  | .result id v => updateVertexValue g id v

def gRun (g : Graph) (ops : List GOp) : Graph := ops.foldl gStep g

theorem reg_step {g : Graph} (h : Reg g) (op : GOp) : Reg (gStep g op) := by
  cases op with
  | spill a home ts vs allow fault =>
    simp only [gStep]
    split
    · exact h
    · rename_i hp
      have hp : plan g a ts allow = none := by cases hq : plan g a ts allow <;> simp_all
      rcases commit_cases g a home ts vs fault with he | ⟨g', he, hs⟩
      · rw [he]
        exact reg_commitDone h a home ts vs fun c hc => planCell_owner ((plan_none_iff g a ts allow).1 hp c hc)
      · rw [he]; exact h.congr hs
  | clear a => exact reg_clear h a
  | value c v => exact h.congr (maps_setCellValue g c v)
  | formula c f => exact h.congr (maps_setCellFormula g c f)
  | result id v => exact h.congr (maps_update g id v)

theorem reg_run (ops : List GOp) {g : Graph} (h : Reg g) : Reg (gRun g ops) := by
  unfold gRun
  induction ops generalizing g with
  | nil => exact h
  | cons op ops ih => exact ih (reg_step h op)

/-! ## Theorems -/

/-- **C27** After any history, a cell is owned by an anchor exactly when it is in the anchor's recorded region. -/
theorem owner_iff_region (cache : Bool) (ops : List GOp) (c : Cell) (a : Nat) :
    (gRun { cache } ops).owner c = some a ↔ ∃ cs, (gRun { cache } ops).cells a = some cs ∧ c ∈ cs :=
  (reg_run ops ⟨by simp, by simp⟩).own c a

/-- **C27** After any history, no cell is in the recorded regions of two anchors. -/
theorem region_exclusive (cache : Bool) (ops : List GOp) (a b : Nat) (as bs : List Cell) (c : Cell)
    (ha : (gRun { cache } ops).cells a = some as) (hb : (gRun { cache } ops).cells b = some bs) (h1 : c ∈ as)
    (h2 : c ∈ bs) : a = b := by
  have e1 := (owner_iff_region cache ops c a).2 ⟨as, ha, h1⟩
  have e2 := (owner_iff_region cache ops c b).2 ⟨bs, hb, h2⟩
  rw [e1] at e2; exact Option.some.inj e2

/-- **C27** After any history, the anchors found in a rectangle are exactly the owners of its cells, each once. -/
theorem anchors_exact (cache : Bool) (ops : List GOp) (s r0 c0 r1 c1 a : Nat) :
    (a ∈ anchorsInRegion (gRun { cache } ops) s r0 c0 r1 c1 ↔
      ∃ r c, r0 ≤ r ∧ r ≤ r1 ∧ c0 ≤ c ∧ c ≤ c1 ∧ (gRun { cache } ops).owner ⟨s, r, c⟩ = some a) ∧
    (anchorsInRegion (gRun { cache } ops) s r0 c0 r1 c1).Nodup := by
  have hr : Reg (gRun { cache } ops) := reg_run ops ⟨by simp, by simp⟩
  refine ⟨?_, List.nodup_dedup _⟩
  unfold anchorsInRegion
  rw [List.mem_dedup]
  simp only [List.mem_map, List.mem_filter, Bool.and_eq_true, decide_eq_true_eq]
  constructor
  · rintro ⟨⟨⟨r, c⟩, b⟩, ⟨hm, ⟨⟨h1, h2⟩, h3⟩, h4⟩, rfl⟩
    exact ⟨r, c, h1, h2, h3, h4, (hr.idx s r c b).1 hm⟩
  · rintro ⟨r, c, h1, h2, h3, h4, ho⟩
    exact ⟨((r, c), a), ⟨(hr.idx s r c a).2 ho, ⟨⟨h1, h2⟩, h3⟩, h4⟩, rfl⟩

/-- What stands in the way of a spill at a cell, read off the statement of the property. -/
def InTheWay (g : Graph) (anchor : Nat) (allow : Nat → Bool) (c : Cell) : Prop :=
  (∃ a, g.owner c = some a ∧ a ≠ anchor) ∨
  (g.owner c = none ∧ ∃ id, g.at' c = some id ∧ id ≠ anchor ∧
    ((g.kind id = .formula ∧ allow id = false) ∨
     (g.kind id ≠ .formula ∧ ∃ v, g.val id = some v ∧ v ≠ .empty)))

/-- **C27** A plan is refused exactly when some target cell is owned by another anchor or, not being owned, holds
another formula or a non-empty value. -/
theorem plan_refused_iff (g : Graph) (anchor : Nat) (ts : List Cell) (allow : Nat → Bool) :
    (plan g anchor ts allow).isSome ↔ ∃ c ∈ ts, InTheWay g anchor allow c := by
  have hcell : ∀ c, planCell g anchor allow c ≠ none ↔ InTheWay g anchor allow c := by
    intro c
    unfold planCell InTheWay
    cases ho : g.owner c with
    | some a => by_cases h : a = anchor <;> simp [h]
    | none =>
      cases ha : g.at' c with
      | none => simp
      | some id =>
        by_cases hi : id = anchor
        · simp [hi]
        · by_cases hk : g.kind id = .formula
          · cases hal : allow id <;> simp [hi, hk, hal]
          · cases hv : g.val id with
            | none => simp [hi, hk, hv]
            | some v => cases v <;> simp [hi, hk, hv]
  rw [Option.isSome_iff_ne_none, ne_eq, plan_none_iff]
  constructor
  · intro h
    by_cases hx : ∃ c ∈ ts, InTheWay g anchor allow c
    · exact hx
    · exfalso; apply h
      intro c hc
      by_cases hn : planCell g anchor allow c = none
      · exact hn
      · exact absurd ⟨c, hc, (hcell c).1 hn⟩ hx
  · rintro ⟨c, hc, hw⟩ h
    exact (hcell c).2 hw (h c hc)

/-- **C27** After a planned commit without a fault the anchor owns exactly the target cells, other anchors keep theirs. -/
theorem commit_region (g : Graph) (a : Nat) (home : Cell) (ts : List Cell) (vs : List (List Val)) (b : Nat) :
    (commit g a home ts vs none).2 = true ∧
    (commit g a home ts vs none).1.cells b = if b = a then some ts else g.cells b := by
  rw [commit_none]; exact ⟨rfl, by rw [commitDone_cells]; rfl⟩

/-- **C27** After a clear the anchor has no region, other anchors keep theirs. -/
theorem clear_region (g : Graph) (a b : Nat) : (clear g a).cells b = if b = a then none else g.cells b := by
  rw [clear_cells]; rfl

/-- The history theorems speak about real situations: two spills, one of them moved, one plan refused. -/
example :
    let ops : List GOp := [.formula ⟨0, 0, 0⟩ 5, .formula ⟨0, 0, 3⟩ 6,
      .spill 0 ⟨0, 0, 0⟩ [⟨0, 0, 0⟩, ⟨0, 0, 1⟩] [[.num 1, .num 2]] (fun _ => false) none,
      .spill 1 ⟨0, 0, 3⟩ [⟨0, 0, 3⟩, ⟨0, 1, 3⟩] [[.num 3], [.num 4]] (fun _ => false) none,
      .spill 0 ⟨0, 0, 0⟩ [⟨0, 0, 0⟩, ⟨0, 0, 1⟩, ⟨0, 0, 2⟩, ⟨0, 0, 3⟩] [[.num 1, .num 2, .num 3, .num 4]] (fun _ => false) none,
      .spill 0 ⟨0, 0, 0⟩ [⟨0, 0, 0⟩, ⟨0, 1, 0⟩] [[.num 1], [.num 2]] (fun _ => false) none]
    (gRun {} ops).owner ⟨0, 0, 1⟩ = none ∧ (gRun {} ops).owner ⟨0, 1, 0⟩ = some 0 ∧
    (gRun {} ops).owner ⟨0, 1, 3⟩ = some 1 ∧ anchorsInRegion (gRun {} ops) 0 0 0 1 3 = [0, 1] := by decide +kernel

/-- **C27, limit.** `commit_spill_region_atomic_with_fault` itself does not look at the owner of the target cells.
Called without a plan, as the editor's `commit_spill_region` (vertex_editor.rs 362-388) and the undo of a spill
(undo_engine.rs 189-197) do, it leaves a cell in two recorded regions; clearing the first region then takes the cell
away from the second, while the second still lists it. -/
theorem unplanned_commit_shares_a_cell :
    let g0 : Graph := setCellFormula (setCellFormula {} ⟨0, 0, 0⟩ 5) ⟨0, 1, 1⟩ 6
    let g1 := (commit g0 0 ⟨0, 0, 0⟩ [⟨0, 0, 0⟩, ⟨0, 1, 0⟩] [[.num 1], [.num 2]] none).1
    let g2 := (commit g1 1 ⟨0, 1, 1⟩ [⟨0, 1, 1⟩, ⟨0, 1, 0⟩] [[.num 3]] none).1
    let g3 := clear g2 0
    (∃ as bs, g2.cells 0 = some as ∧ g2.cells 1 = some bs ∧ (⟨0, 1, 0⟩ : Cell) ∈ as ∧ (⟨0, 1, 0⟩ : Cell) ∈ bs) ∧
    g3.cells 1 = some [⟨0, 1, 1⟩, ⟨0, 1, 0⟩] ∧ g3.owner ⟨0, 1, 0⟩ = none := by
  refine ⟨⟨[⟨0, 0, 0⟩, ⟨0, 1, 0⟩], [⟨0, 1, 1⟩, ⟨0, 1, 0⟩], ?_⟩, ?_⟩ <;> decide +kernel

end Verif.Spill
