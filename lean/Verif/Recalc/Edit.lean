import Verif.Recalc.Pass

/-!
# C18: edits keep the invariant
-/

namespace Verif.Recalc

open Verif.Sched (upd sortNat dedupSorted Schedule Orders Valid Edge)
open Relation

variable {α : Type}

theorem graph_ok (b : Book α) : b.graph.Ok where
  closed u v h := by
    rcases h with h | h | h
    · exact (List.mem_filter.1 h).1
    · simp [Book.graph] at h
    · exact (List.mem_filter.1 h).1
  names u v h := by simp [Book.graph] at h

/-- In the graph of the book, `v` depends on `u` when it has it among its edges or ranges. -/
theorem graph_dep {b : Book α} (hb : b.Ok) (u v : Nat) :
    b.graph.Dep u v ↔ u ∈ (b.body v).deps ∨ u ∈ (b.body v).ranges := by
  have hmem : (u ∈ (b.body v).deps ∨ u ∈ (b.body v).ranges) → v ∈ b.vertices := by
    intro h
    refine hb.mem v fun hk => ?_
    rw [hb.empty v hk] at h
    simp [Formula.empty] at h
  unfold Dirty.Graph.Dep
  simp only [Book.graph, List.mem_filter, decide_eq_true_eq, List.not_mem_nil, false_or]
  constructor
  · rintro (h | h)
    · exact Or.inl h.2
    · exact Or.inr h.2
  · intro h
    rcases h with h | h
    · exact Or.inl ⟨hmem (Or.inl h), h⟩
    · exact Or.inr ⟨hmem (Or.inr h), h⟩

/-- Marking always succeeds, and is exact. -/
theorem mark_spec {e : Engine α} (hd : e.dirty.depth = 0) (vs : List Nat) (hvs : ∀ v ∈ vs, v ∈ e.book.vertices) :
    ∃ s : Dirty.State Nat, mark e vs = { e with dirty := s } ∧ s.depth = 0 ∧
      (∀ v, v ∈ s.flags ↔ v ∈ e.dirty.flags ∨ e.book.graph.MustMark vs v) ∧
      (∀ v, v ∈ s.dirtySet ↔ v ∈ e.dirty.dirtySet ∨ v ∈ vs ∨ e.book.graph.MustMark vs v) := by
  obtain ⟨⟨s, aff⟩, hr⟩ := Dirty.mark_terminates (graph_ok e.book) e.dirty vs hvs
  obtain ⟨h1, h2, -, h3, -⟩ := Dirty.mark_exact (graph_ok e.book) hd hr
  refine ⟨s, ?_, h3, h1, h2⟩
  unfold mark
  rw [hr]

theorem mustMark_next {b : Book α} (hb : b.Ok) {vs : List Nat} {u v : Nat} (h : b.graph.MustMark vs u)
    (hd : u ∈ (b.body v).deps ∨ u ∈ (b.body v).ranges) : b.graph.MustMark vs v := by
  rw [← graph_dep hb] at hd
  rcases h with ⟨h, -⟩ | ⟨s, hs, h⟩
  · exact Or.inr ⟨u, h, .one hd⟩
  · exact Or.inr ⟨s, hs, h.tail hd⟩

/-- Two books differ only at `v`, a cell in both. -/
structure OffCell (b b' : Book α) (v : Nat) : Prop where
  body : ∀ x, x ≠ v → b'.body x = b.body x
  kind : ∀ x, x ≠ v → b'.kind x = b.kind x
  dyn : ∀ x, x ≠ v → b'.dynamic x = b.dynamic x
  cell : b.kind v ≠ .name
  cell' : b'.kind v ≠ .name
  circ : b'.circ = b.circ

theorem OffCell.symm {b b' : Book α} {v : Nat} (h : OffCell b b' v) : OffCell b' b v :=
  ⟨fun x hx => (h.body x hx).symm, fun x hx => (h.kind x hx).symm, fun x hx => (h.dyn x hx).symm, h.cell', h.cell, h.circ.symm⟩

theorem OffCell.refers {b b' : Book α} {v : Nat} (h : OffCell b b' v) {σ : Nat → α} {x d : Nat} (hx : x ≠ v) :
    b.Refers σ x d ↔ b'.Refers σ x d := by
  unfold Book.Refers
  rw [h.body x hx, h.dyn x hx]

theorem OffCell.reads {b b' : Book α} {v : Nat} (h : OffCell b b' v) {σ : Nat → α} {x d : Nat} (hx : x ≠ v)
    (hr : b.Reads σ x d) : b'.Reads σ x d := by
  induction hr with
  | direct hr => exact .direct ((h.refers hx).1 hr)
  | @name x n d hr hk _ ih =>
    have hn : n ≠ v := by
      rintro rfl
      exact h.cell hk
    exact .name ((h.refers hx).1 hr) (by rw [h.kind n hn]; exact hk) (ih hn)

/-- What an edit of one cell leaves true. -/
theorem edit_inv {e e1 : Engine α} (h : Inv e) {v : Nat} (ho : OffCell e.book e1.book v) (hok : e1.book.Ok)
    (hst : ∀ x, x ≠ v → e1.store x = e.store x) (hvol : ∀ x ∈ e1.book.volatile, x ≠ v → x ∈ e.book.volatile)
    (hv : v ∈ e1.book.vertices) (hdirty : e1.dirty = e.dirty) (hclock : e1.clock = e.clock) (epoch : Nat)
    (cache : Option Cache)
    (hcache : ∀ k, cache = some k → k.epoch = epoch → Valid k.candidates (fun v => (e1.book.body v).deps) k.schedule.steps) :
    Inv { mark e1 [v] with epoch := epoch, cache := cache } := by
  obtain ⟨s, hm, hdep, hfl, hds⟩ := mark_spec (e := e1) (by rw [hdirty]; exact h.depth) [v] (by simpa using hv)
  rw [hdirty] at hfl hds
  rw [hm]
  have hvf : e1.book.kind v ≠ .value → v ∈ s.flags := by
    intro hk
    exact (hfl v).2 (Or.inr (Or.inl ⟨by simp, (isF_iff _ _).2 hk⟩))
  have hvn : ∀ w, v ∈ (e1.book.body w).deps ∨ v ∈ (e1.book.body w).ranges → w ∈ s.flags := by
    intro w hw
    exact (hfl w).2 (Or.inr (Or.inr ⟨v, by simp, .one ((graph_dep hok v w).2 hw)⟩))
  have hclosed : ∀ u w, e1.book.kind u ≠ .value → u ∈ s.flags →
      u ∈ (e1.book.body w).deps ∨ u ∈ (e1.book.body w).ranges → w ∈ s.flags := by
    intro u w hu huf hw
    by_cases huv : u = v
    · subst huv
      exact hvn w hw
    · rcases (hfl u).1 huf with h1 | h1
      · by_cases hwv : w = v
        · subst hwv
          refine hvf fun hk => ?_
          rw [hok.empty w hk] at hw
          simp [Formula.empty] at hw
        · rw [ho.body w hwv] at hw
          rw [ho.kind u huv] at hu
          exact (hfl w).2 (Or.inl (h.closed u w hu h1 hw))
      · exact (hfl w).2 (Or.inr (mustMark_next hok h1 hw))
  refine ⟨hok, hdep, ?_, ?_, hclosed, ?_, hcache⟩
  · intro x hk
    show x ∈ s.dirtySet ↔ x ∈ s.flags
    rw [hfl, hds]
    by_cases hx : x = v
    · subst hx
      have : e1.book.graph.MustMark [x] x := Or.inl ⟨by simp, (isF_iff _ _).2 hk⟩
      simp [this]
    · have hk' : e1.book.kind x ≠ .value := hk
      rw [ho.kind x hx] at hk'
      rw [h.same x hk']
      simp [hx]
  · intro x hx hk
    by_cases hxv : x = v
    · subst hxv
      exact hvf hk
    · have hk' : e1.book.kind x ≠ .value := hk
      rw [ho.kind x hxv] at hk'
      exact (hfl x).2 (Or.inl (h.vol x (hvol x hx hxv) hk'))
  · intro x hk hx
    show e1.book.Correct e1.clock e1.store x
    have hC : ∀ y, e1.book.kind y ≠ .value ∧ y ∉ s.flags → y ≠ v ∧ e.book.kind y ≠ .value ∧ y ∉ e.dirty.flags := by
      rintro y ⟨h1, h2⟩
      have hyv : y ≠ v := by
        rintro rfl
        exact h2 (hvf h1)
      refine ⟨hyv, by rwa [ho.kind y hyv] at h1, fun h3 => h2 ((hfl y).2 (Or.inl h3))⟩
    have hA : Agree e.book e1.book e.store e1.store (fun y => e1.book.kind y ≠ .value ∧ y ∉ s.flags) := by
      have hdv : ∀ y, e1.book.kind y ≠ .value ∧ y ∉ s.flags → ∀ d,
          d ∈ (e.book.body y).deps ∨ (d ∈ (e.book.body y).ranges ∧ d ≠ y) →
          d ∈ (e1.book.body y).deps ∨ d ∈ (e1.book.body y).ranges := by
        intro y hy d hd
        rw [ho.body y (hC y hy).1]
        rcases hd with hd | hd
        · exact Or.inl hd
        · exact Or.inr hd.1
      have hne : ∀ y, e1.book.kind y ≠ .value ∧ y ∉ s.flags → ∀ d,
          d ∈ (e.book.body y).deps ∨ (d ∈ (e.book.body y).ranges ∧ d ≠ y) → d ≠ v := by
        rintro y hy d hd rfl
        exact hy.2 (hvn y (hdv y hy d hd))
      have hdyn : ∀ y, e1.book.kind y ≠ .value ∧ y ∉ s.flags → e.book.dynamic y = false := by
        intro y hy
        obtain ⟨-, h2, h3⟩ := hC y hy
        cases hd : e.book.dynamic y with
        | false => rfl
        | true => exact absurd (h.vol y (h.ok.dyn y h2 hd) h2) h3
      refine ⟨fun y hy => ho.body y (hC y hy).1, fun y hy => ho.kind y (hC y hy).1, hdyn, ?_, ?_, ?_⟩
      · intro y hy
        rw [ho.dyn y (hC y hy).1]
        exact hdyn y hy
      · intro y hy d hd
        exact hst d (hne y hy d hd)
      · intro y hy d hd
        have hdk := ho.kind d (hne y hy d hd)
        by_cases hv : e1.book.kind d = .value
        · exact Or.inr ⟨by rw [← hdk]; exact hv, hv⟩
        · refine Or.inl ⟨hv, fun hf => hy.2 (hclosed d y hv hf (hdv y hy d hd))⟩
    obtain ⟨h1, h2, h3⟩ := hC x ⟨hk, hx⟩
    have hcl := h.clean x h2 h3
    rw [← hclock] at hcl
    exact hA.correct h.ok hok ho.circ ⟨hk, hx⟩ (hst x h1) hcl h2

theorem addVertex_mem (vs : List Nat) (v x : Nat) : x ∈ addVertex vs v ↔ x = v ∨ x ∈ vs := by
  unfold addVertex
  split
  · constructor
    · exact Or.inr
    · rintro (rfl | h)
      · assumption
      · exact h
  · simp

theorem addVertex_nodup {vs : List Nat} (h : vs.Nodup) (v : Nat) : (addVertex vs v).Nodup := by
  unfold addVertex
  split
  · exact h
  · rename_i hv
    exact List.nodup_cons.2 ⟨hv, h⟩

theorem addVertices_mem (ds vs : List Nat) (x : Nat) : x ∈ ds.foldl addVertex vs ↔ x ∈ ds ∨ x ∈ vs := by
  induction ds generalizing vs with
  | nil => simp
  | cons d ds ih =>
    rw [List.foldl_cons, ih, addVertex_mem, List.mem_cons]
    constructor
    · rintro (h | h | h)
      · exact Or.inl (Or.inr h)
      · exact Or.inl (Or.inl h)
      · exact Or.inr h
    · rintro ((h | h) | h)
      · exact Or.inr (Or.inl h)
      · exact Or.inl h
      · exact Or.inr (Or.inr h)

theorem addVertices_nodup (ds vs : List Nat) (h : vs.Nodup) : (ds.foldl addVertex vs).Nodup := by
  induction ds generalizing vs with
  | nil => exact h
  | cons d ds ih => exact ih _ (addVertex_nodup h d)

/-! ## Values -/

theorem setValue_off (b : Book α) (v : Nat) (hv : b.kind v ≠ .name) : OffCell b (b.setValue v) v where
  body x hx := upd_ne _ _ hx
  kind x hx := upd_ne _ _ hx
  dyn _ _ := rfl
  cell := hv
  cell' := by simp [Book.setValue, upd_same]
  circ := rfl

theorem setValue_ok {b : Book α} (hb : b.Ok) {v : Nat} (hv : b.kind v ≠ .name) : (b.setValue v).Ok := by
  have ho := setValue_off b v hv
  have hkv : (b.setValue v).kind v = .value := upd_same _ _ _
  have hbv : (b.setValue v).body v = .empty := upd_same _ _ _
  have hne : ∀ x, (b.setValue v).kind x ≠ .value → x ≠ v := by
    rintro x hx rfl
    exact hx hkv
  refine ⟨addVertex_nodup hb.nodup v, ?_, ?_, ?_, ?_, ?_, ?_, ?_, ?_, ?_, ?_, ?_⟩
  · intro x hx
    have := hne x hx
    rw [ho.kind x this] at hx
    exact (addVertex_mem _ _ _).2 (Or.inr (hb.mem x hx))
  · intro x hx
    by_cases hxv : x = v
    · subst hxv; exact hbv
    · rw [ho.kind x hxv] at hx
      rw [ho.body x hxv]
      exact hb.empty x hx
  · intro x
    by_cases hxv : x = v
    · subst hxv; rw [hbv]; exact List.nodup_nil
    · rw [ho.body x hxv]; exact hb.depsNodup x
  · intro x d hd
    by_cases hxv : x = v
    · subst hxv; rw [hbv] at hd; simp [Formula.empty] at hd
    · rw [ho.body x hxv] at hd
      exact (addVertex_mem _ _ _).2 (Or.inr (hb.depsMem x d hd))
  · intro x hx
    exact (addVertex_mem _ _ _).2 (Or.inr (hb.volMem x hx))
  · intro x clock σ τ hx hr
    have hxv := hne x hx
    rw [ho.body x hxv]
    rw [ho.kind x hxv] at hx
    exact hb.congr x clock σ τ hx fun d hd => hr d (ho.reads hxv hd)
  · intro x c c' σ hx hnv
    have hxv := hne x hx
    rw [ho.body x hxv]
    rw [ho.kind x hxv] at hx
    exact hb.still x c c' σ hx hnv
  · intro x hx hd
    have hxv := hne x hx
    rw [ho.kind x hxv] at hx
    exact hb.dyn x hx hd
  · intro x hx
    by_cases hxv : x = v
    · subst hxv; rw [hbv]; rfl
    · rw [ho.body x hxv] at hx ⊢
      exact hb.noRange x hx
  · intro x u hu
    by_cases hxv : x = v
    · subst hxv; rw [hbv] at hu; simp [Formula.empty] at hu
    · rw [ho.body x hxv] at hu
      by_cases huv : u = v
      · subst huv; exact ho.cell'
      · rw [ho.kind u huv]; exact hb.rangeCells x u hu
  · intro x σ u hu
    by_cases hxv : x = v
    · subst hxv; rw [hbv] at hu; simp [Formula.empty] at hu
    · rw [ho.body x hxv] at hu
      by_cases huv : u = v
      · subst huv; exact ho.cell'
      · rw [ho.kind u huv]; exact hb.areaCells x σ u hu

/-- C18: writing a value keeps the invariant. -/
theorem setValue_inv {e : Engine α} (h : Inv e) {v : Nat} (hv : e.book.kind v ≠ .name) (a : α) : Inv (setValue e v a) := by
  have hok := setValue_ok h.ok hv
  have ho := setValue_off e.book v hv
  have key := fun epoch cache hcache => edit_inv (e1 := { e with book := e.book.setValue v, store := upd e.store v a })
    h ho hok (fun x hx => upd_ne _ _ hx) (fun x hx _ => hx) ((addVertex_mem _ _ _).2 (Or.inl rfl)) rfl rfl
    epoch cache hcache
  unfold setValue
  simp only
  split
  · exact key _ none (by simp)
  · rename_i hk
    obtain ⟨s, hm, -⟩ := mark_spec (e := { e with book := e.book.setValue v, store := upd e.store v a }) h.depth [v]
      (by
        intro x hx
        rw [List.mem_singleton] at hx
        exact (addVertex_mem _ _ _).2 (Or.inl hx))
    have h2 := key e.epoch e.cache ?_
    · rw [hm] at h2 ⊢
      exact h2
    · intro k hc he
      have hkv : e.book.kind v = .value := by
        cases hkk : e.book.kind v with
        | value => rfl
        | formula => exact absurd hkk hk
        | name => exact absurd hkk hv
      have : (fun x => ((e.book.setValue v).body x).deps) = fun x => (e.book.body x).deps := by
        funext x
        by_cases hx : x = v
        · subst hx
          rw [h.ok.empty x hkv]
          simp [Book.setValue, upd_same]
        · rw [ho.body x hx]
      show Valid k.candidates (fun x => ((e.book.setValue v).body x).deps) k.schedule.steps
      rw [this]
      exact h.cache k hc he

/-! ## Formulas -/

/-- What is assumed of a formula put into a cell. -/
structure Formula.Fits (b : Book α) (v : Nat) (f : Formula α) : Prop where
  nodup : f.deps.Nodup
  /-- evaluation looks only at what it reads -/
  congr : ∀ clock (σ τ : Nat → α), (∀ d, (b.setFormula v f).Reads σ v d → τ d = σ d) → f.sem clock τ = f.sem clock σ
  still : f.volatile = false → ∀ c c' σ, f.sem c σ = f.sem c' σ
  dyn : f.dynamic = true → f.volatile = true
  noRange : f.hasRange = false → f.ranges = []
  rangeCells : ∀ u ∈ f.ranges, b.kind u ≠ .name
  areaCells : ∀ σ, ∀ u ∈ f.areas σ, b.kind u ≠ .name

theorem setFormula_off (b : Book α) (v : Nat) (f : Formula α) (hv : b.kind v ≠ .name) : OffCell b (b.setFormula v f) v where
  body x hx := upd_ne _ _ hx
  kind x hx := upd_ne _ _ hx
  dyn x hx := upd_ne _ _ hx
  cell := hv
  cell' := by simp [Book.setFormula, upd_same]
  circ := rfl

theorem setFormula_vol (b : Book α) (v : Nat) (f : Formula α) (x : Nat) :
    x ∈ (b.setFormula v f).volatile ↔ (x = v ∧ f.volatile = true) ∨ (x ≠ v ∧ x ∈ b.volatile) := by
  unfold Book.setFormula
  cases f.volatile with
  | true =>
    simp only [if_true, addVertex_mem]
    constructor
    · rintro (h | h)
      · exact Or.inl ⟨h, trivial⟩
      · by_cases hx : x = v
        · exact Or.inl ⟨hx, trivial⟩
        · exact Or.inr ⟨hx, h⟩
    · rintro (⟨h, -⟩ | ⟨-, h⟩)
      · exact Or.inl h
      · exact Or.inr h
  | false =>
    simp [and_comm]

theorem setFormula_ok {b : Book α} (hb : b.Ok) {v : Nat} (hv : b.kind v ≠ .name) {f : Formula α} (hf : f.Fits b v) :
    (b.setFormula v f).Ok := by
  have ho := setFormula_off b v f hv
  have hkv : (b.setFormula v f).kind v = .formula := upd_same _ _ _
  have hbv : (b.setFormula v f).body v = f := upd_same _ _ _
  have hdv : (b.setFormula v f).dynamic v = f.dynamic := upd_same _ _ _
  have hmem : ∀ x, x ∈ (b.setFormula v f).vertices ↔ x ∈ f.deps ∨ x = v ∨ x ∈ b.vertices := by
    intro x
    show x ∈ f.deps.foldl addVertex (addVertex b.vertices v) ↔ _
    rw [addVertices_mem, addVertex_mem]
  have hname : ∀ u, b.kind u ≠ .name → (b.setFormula v f).kind u ≠ .name := by
    intro u hu
    by_cases huv : u = v
    · subst huv; exact ho.cell'
    · rw [ho.kind u huv]; exact hu
  refine ⟨addVertices_nodup _ _ (addVertex_nodup hb.nodup v), ?_, ?_, ?_, ?_, ?_, ?_, ?_, ?_, ?_, ?_, ?_⟩
  · intro x hx
    rw [hmem]
    by_cases hxv : x = v
    · exact Or.inr (Or.inl hxv)
    · rw [ho.kind x hxv] at hx
      exact Or.inr (Or.inr (hb.mem x hx))
  · intro x hx
    by_cases hxv : x = v
    · subst hxv; rw [hkv] at hx; cases hx
    · rw [ho.kind x hxv] at hx
      rw [ho.body x hxv]
      exact hb.empty x hx
  · intro x
    by_cases hxv : x = v
    · subst hxv; rw [hbv]; exact hf.nodup
    · rw [ho.body x hxv]; exact hb.depsNodup x
  · intro x d hd
    rw [hmem]
    by_cases hxv : x = v
    · subst hxv; rw [hbv] at hd; exact Or.inl hd
    · rw [ho.body x hxv] at hd
      exact Or.inr (Or.inr (hb.depsMem x d hd))
  · intro x hx
    rw [hmem]
    rcases (setFormula_vol b v f x).1 hx with h | h
    · exact Or.inr (Or.inl h.1)
    · exact Or.inr (Or.inr (hb.volMem x h.2))
  · intro x clock σ τ hx hr
    by_cases hxv : x = v
    · subst hxv; rw [hbv]; exact hf.congr clock σ τ hr
    · rw [ho.body x hxv]
      rw [ho.kind x hxv] at hx
      exact hb.congr x clock σ τ hx fun d hd => hr d (ho.reads hxv hd)
  · intro x c c' σ hx hnv
    rw [setFormula_vol] at hnv
    by_cases hxv : x = v
    · subst hxv
      rw [hbv]
      refine hf.still ?_ c c' σ
      cases hfv : f.volatile with
      | false => rfl
      | true => exact absurd (Or.inl ⟨rfl, hfv⟩) hnv
    · rw [ho.body x hxv]
      rw [ho.kind x hxv] at hx
      exact hb.still x c c' σ hx fun h => hnv (Or.inr ⟨hxv, h⟩)
  · intro x hx hd
    rw [setFormula_vol]
    by_cases hxv : x = v
    · subst hxv
      rw [hdv] at hd
      exact Or.inl ⟨rfl, hf.dyn hd⟩
    · rw [ho.kind x hxv] at hx
      rw [ho.dyn x hxv] at hd
      exact Or.inr ⟨hxv, hb.dyn x hx hd⟩
  · intro x hx
    by_cases hxv : x = v
    · subst hxv; rw [hbv] at hx ⊢; exact hf.noRange hx
    · rw [ho.body x hxv] at hx ⊢
      exact hb.noRange x hx
  · intro x u hu
    by_cases hxv : x = v
    · subst hxv; rw [hbv] at hu; exact hname u (hf.rangeCells u hu)
    · rw [ho.body x hxv] at hu
      exact hname u (hb.rangeCells x u hu)
  · intro x σ u hu
    by_cases hxv : x = v
    · subst hxv; rw [hbv] at hu; exact hname u (hf.areaCells σ u hu)
    · rw [ho.body x hxv] at hu
      exact hname u (hb.areaCells x σ u hu)

/-- C18: writing a formula keeps the invariant. -/
theorem setFormula_inv {e e' : Engine α} (h : Inv e) {bulk : Bool} {v : Nat} (hv : e.book.kind v ≠ .name) {f : Formula α}
    (hf : f.Fits e.book v) {old : α} (he : setFormula bulk e v f old = some e') : Inv e' := by
  unfold setFormula at he
  split at he
  · cases he
  · simp only [Option.some.injEq] at he
    subst he
    refine edit_inv (e1 := { e with book := e.book.setFormula v f, store := upd e.store v old }) h
      (setFormula_off e.book v f hv) (setFormula_ok h.ok hv hf) (fun x hx => upd_ne _ _ hx) ?_ ?_ rfl rfl _ none (by simp)
    · intro x hx hxv
      rcases (setFormula_vol e.book v f x).1 hx with h1 | h1
      · exact absurd h1.1 hxv
      · exact h1.2
    · show v ∈ f.deps.foldl addVertex (addVertex e.book.vertices v)
      rw [addVertices_mem, addVertex_mem]
      exact Or.inr (Or.inl rfl)

/-- **C49** (part) A formula edit that does not mark the topology keeps the invariant if no schedule is cached. Missing: a
cached schedule; see `logged_edit_wrong`. -/
theorem loggedFormula_inv_partial {e : Engine α} (h : Inv e) (hcache : e.cache = none) {v : Nat} (hv : e.book.kind v ≠ .name)
    {f : Formula α} (hf : f.Fits e.book v) (old : α) : Inv (putFormula e v f old) := by
  have hmem : v ∈ (e.book.setFormula v f).vertices := by
    show v ∈ f.deps.foldl addVertex (addVertex e.book.vertices v)
    rw [addVertices_mem, addVertex_mem]
    exact Or.inr (Or.inl rfl)
  have key := edit_inv (e1 := { e with book := e.book.setFormula v f, store := upd e.store v old }) h
      (setFormula_off e.book v f hv) (setFormula_ok h.ok hv hf) (fun x hx => upd_ne _ _ hx)
      (by
        intro x hx hxv
        rcases (setFormula_vol e.book v f x).1 hx with h1 | h1
        · exact absurd h1.1 hxv
        · exact h1.2)
      hmem rfl rfl e.epoch e.cache (by rw [hcache]; simp)
  obtain ⟨s, hm, -⟩ := mark_spec (e := { e with book := e.book.setFormula v f, store := upd e.store v old }) h.depth [v]
    (by
      intro x hx
      rw [List.mem_singleton] at hx
      rw [hx]
      exact hmem)
  unfold putFormula
  rw [hm] at key ⊢
  exact key

end Verif.Recalc
