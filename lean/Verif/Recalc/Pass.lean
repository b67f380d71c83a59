import Verif.Recalc.Spec
import Verif.Dirty.Props

/-!
# C18: one pass over the dirty formulas
-/

namespace Verif.Recalc

open Verif.Sched (upd sortNat dedupSorted Schedule Orders Valid Edge)
open Relation

variable {α : Type}

/-- What the engine keeps true between requests. -/
structure Inv (e : Engine α) : Prop where
  ok : e.book.Ok
  depth : e.dirty.depth = 0
  /-- flags and dirty set agree on formulas -/
  same : ∀ v, e.book.kind v ≠ .value → (v ∈ e.dirty.dirtySet ↔ v ∈ e.dirty.flags)
  /-- volatile formulas are dirty -/
  vol : ∀ v ∈ e.book.volatile, e.book.kind v ≠ .value → v ∈ e.dirty.flags
  /-- what refers to a dirty formula is dirty -/
  closed : ∀ u v, e.book.kind u ≠ .value → u ∈ e.dirty.flags →
    u ∈ (e.book.body v).deps ∨ u ∈ (e.book.body v).ranges → v ∈ e.dirty.flags
  /-- what is not dirty is right -/
  clean : ∀ v, e.book.kind v ≠ .value → v ∉ e.dirty.flags → e.book.Correct e.clock e.store v
  /-- a cached schedule of this topology is a schedule of its candidates -/
  cache : ∀ k, e.cache = some k → k.epoch = e.epoch → Valid k.candidates (fun v => (e.book.body v).deps) k.schedule.steps

/-- What a pass must evaluate: the dirty formulas. -/
def Dirty (e : Engine α) (v : Nat) : Prop := e.book.kind v ≠ .value ∧ v ∈ e.dirty.flags

theorem mem_sortNat (l : List Nat) (v : Nat) : v ∈ sortNat l ↔ v ∈ l := (Sched.sortNat_perm l).mem_iff

theorem isF_iff (b : Book α) (v : Nat) : b.isF v = true ↔ b.kind v ≠ .value := by simp [Book.isF]

theorem mem_candidates {e : Engine α} (h : Inv e) (v : Nat) : v ∈ candidates e ↔ Dirty e v := by
  unfold candidates Dirty
  rw [mem_sortNat]
  unfold Dirty.evaluationVertices
  simp only [List.mem_filter, List.mem_eraseDups, List.mem_append, Bool.and_eq_true, decide_eq_true_eq]
  show (_ ∧ _ ∧ e.book.isF v = true) ↔ _
  rw [isF_iff]
  constructor
  · rintro ⟨h1 | h1, -, hk⟩
    · exact ⟨hk, (h.same v hk).1 h1⟩
    · exact ⟨hk, h.vol v h1 hk⟩
  · rintro ⟨hk, h1⟩
    exact ⟨Or.inl ((h.same v hk).2 h1), h.ok.mem v hk, hk⟩

theorem mem_vdepsOf (e : Engine α) (v d : Nat) : d ∈ vdepsOf e v ↔ d ∈ rangeVDeps e v ∨ d ∈ dynVDeps e v := by
  unfold vdepsOf
  rw [Sched.dedupSorted_mem, mem_sortNat, List.mem_append]

theorem vdepsOf_ne (e : Engine α) (v : Nat) : v ∉ vdepsOf e v := by
  rw [mem_vdepsOf]
  rintro (h | h)
  · simp [rangeVDeps] at h
  · unfold dynVDeps at h
    split at h
    · simp at h
    · simp at h

/-- Virtual dependencies are references. -/
theorem vdepsOf_refers {e : Engine α} {v d : Nat} (h : d ∈ vdepsOf e v) : e.book.Refers e.store v d := by
  rw [mem_vdepsOf] at h
  rcases h with h | h
  · simp only [rangeVDeps, List.mem_filter, Bool.and_eq_true, decide_eq_true_eq] at h
    exact Or.inr (Or.inl ⟨h.1, h.2.2⟩)
  · unfold dynVDeps at h
    split at h
    · rename_i hd
      simp only [List.mem_filter, List.mem_append, decide_eq_true_eq] at h
      refine Or.inr (Or.inr ⟨hd, ?_⟩)
      rcases h.1 with h1 | h1
      · exact Or.inl h1.1
      · exact Or.inr h1.1
    · simp at h

/-- What precedes a dirty formula that it refers to: an edge or a virtual dependency, unless a computed reference meets
the formula itself. -/
theorem refers_adj {e : Engine α} (h : Inv e) {v d : Nat} (hd : Dirty e d) (hr : e.book.Refers e.store v d)
    (hself : e.book.dynamic v = true → v ∉ (e.book.body v).cells e.store ∧ v ∉ (e.book.body v).areas e.store) :
    d ∈ (e.book.body v).deps ∨ d ∈ vdepsOf e v := by
  have hp : e.book.kind d ≠ .name → pending e d = true := by
    intro hn
    have : e.book.kind d = .formula := by
      cases hk : e.book.kind d with
      | value => exact absurd hk hd.1
      | formula => rfl
      | name => exact absurd hk hn
    simp [pending, this, hd.2]
  rcases hr with hr | hr | ⟨hdy, hr⟩
  · exact Or.inl hr
  · refine Or.inr ((mem_vdepsOf e v d).2 (Or.inl ?_))
    simp only [rangeVDeps, List.mem_filter, Bool.and_eq_true, decide_eq_true_eq]
    exact ⟨hr.1, hp (h.ok.rangeCells v d hr.1), hr.2⟩
  · refine Or.inr ((mem_vdepsOf e v d).2 (Or.inr ?_))
    unfold dynVDeps
    rw [if_pos hdy]
    simp only [List.mem_filter, List.mem_append, decide_eq_true_eq]
    refine ⟨?_, ?_⟩
    · rcases hr with hr | hr
      · exact Or.inl ⟨hr, h.ok.mem d hd.1⟩
      · exact Or.inr ⟨hr, hp (h.ok.areaCells v e.store d hr)⟩
    · rintro rfl
      obtain ⟨h1, h2⟩ := hself hdy
      rcases hr with hr | hr
      · exact h1 hr
      · exact h2 hr

/-- What refers to a dirty formula is dirty. -/
theorem dirty_back {e : Engine α} (h : Inv e) {σ : Nat → α} {v d : Nat} (hd : Dirty e d) (hr : e.book.Refers σ v d) :
    Dirty e v := by
  refine ⟨h.ok.refs_kind hr, ?_⟩
  have hk := h.ok.refs_kind hr
  rcases hr with hr | hr | hr
  · exact h.closed d v hd.1 hd.2 (Or.inl hr)
  · exact h.closed d v hd.1 hd.2 (Or.inr hr.1)
  · exact h.vol v (h.ok.dyn v hk hr.1) hk

theorem dirty_back_reads {e : Engine α} (h : Inv e) {σ : Nat → α} {v d : Nat} (hr : e.book.Reads σ v d) (hd : Dirty e d) :
    Dirty e v := by
  induction hr with
  | direct hr => exact dirty_back h hd hr
  | name hr _ _ ih => exact dirty_back h (ih hd) hr

theorem flatMap_split {pre : List (Bool × List Nat)} {d : Nat} (h : d ∈ pre.flatMap Prod.snd) :
    ∃ p1 c b p2, pre = p1 ++ (c, b) :: p2 ∧ d ∈ b := by
  rw [List.mem_flatMap] at h
  obtain ⟨⟨c, b⟩, h1, h2⟩ := h
  obtain ⟨p1, p2, rfl⟩ := List.append_of_mem h1
  exact ⟨p1, c, b, p2, rfl, h2⟩

/-- In a valid schedule, what a formula reads and is scheduled comes in an earlier step, or in the same cycle. -/
theorem reads_before {b : Book α} {σ : Nat → α} {S : List Nat} {adj : Nat → List Nat} {steps : List (Bool × List Nat)}
    (hV : Valid S adj steps) (hadj : ∀ v ∈ S, ∀ d ∈ S, b.Refers σ v d → d ∈ adj v)
    (hname : ∀ n d, b.kind n = .name → b.Reads σ n d → d ∈ S → (∃ v ∈ S, b.Refers σ v n) → n ∈ S) {v d : Nat}
    (hr : b.Reads σ v d) : ∀ pre c l post, steps = pre ++ (c, l) :: post → v ∈ l → d ∈ S →
      d ∈ pre.flatMap Prod.snd ∨ (c = true ∧ d ∈ l) := by
  have hmem : ∀ pre c l post, steps = pre ++ (c, l) :: post → ∀ v ∈ l, v ∈ S := by
    intro pre c l post he v hv
    refine (hV.mem v).1 ?_
    rw [he, List.flatMap_append, List.flatMap_cons]
    exact List.mem_append.2 (Or.inr (List.mem_append.2 (Or.inl hv)))
  induction hr with
  | direct hr =>
    intro pre c l post he hv hd
    exact hV.order pre c l post he _ hv _ (hadj _ (hmem pre c l post he _ hv) _ hd hr) hd
  | @name v n d hr hk hr' ih =>
    intro pre c l post he hv hd
    have hvS := hmem pre c l post he v hv
    have hn : n ∈ S := hname n d hk hr' hd ⟨v, hvS, hr⟩
    rcases hV.order pre c l post he v hv n (hadj v hvS n hn hr) hn with h1 | ⟨hc, h1⟩
    · obtain ⟨p1, c1, b1, p2, rfl, hb1⟩ := flatMap_split h1
      left
      rw [List.flatMap_append, List.flatMap_cons]
      rcases ih p1 c1 b1 (p2 ++ (c, l) :: post) (by simp [he]) hb1 hd with h2 | h2
      · exact List.mem_append.2 (Or.inl h2)
      · exact List.mem_append.2 (Or.inr (List.mem_append.2 (Or.inl h2.2)))
    · exact ih pre c l post he h1 hd

/-- Cycles through a scheduled vertex are found by the scheduler. -/
theorem cycle_iff {b : Book α} {σ : Nat → α} {S : List Nat} {adj : Nat → List Nat}
    (hadj : ∀ v ∈ S, ∀ d ∈ S, b.Refers σ v d → d ∈ adj v) (hsub : ∀ v ∈ S, ∀ d ∈ adj v, b.Refers σ v d)
    {v : Nat} (hin : ∀ x, TransGen (b.Refers σ) v x → TransGen (b.Refers σ) x v → x ∈ S) :
    b.OnCycle σ v ↔ TransGen (Edge S adj) v v := by
  constructor
  · intro hc
    have key : ∀ x, TransGen (b.Refers σ) v x → TransGen (b.Refers σ) x v → TransGen (Edge S adj) v x := by
      intro x hx
      induction hx with
      | single hr =>
        intro hb
        have h1 := hin _ hc hc
        have h2 := hin _ (.single hr) hb
        exact .single ⟨h1, h2, hadj _ h1 _ h2 hr⟩
      | @tail y z hy hr ih =>
        intro hb
        have hyb : TransGen (b.Refers σ) y v := .head hr hb
        have h1 := hin _ hy hyb
        have h2 := hin _ (.tail hy hr) hb
        exact .tail (ih hyb) ⟨h1, h2, hadj _ h1 _ h2 hr⟩
    exact key v hc hc
  · intro hc
    exact TransGen.mono (fun x y (he : Edge S adj x y) => hsub x he.1 y he.2.2) _ _ hc

/-- The result of running a valid schedule of `S`: every member has its right value. -/
theorem run_correct (c : Config) {b : Book α} (hb : b.Ok) (clock : Nat) {S : List Nat} {adj : Nat → List Nat} {steps : List (Bool × List Nat)}
    (hV : Valid S adj steps) (σ : Nat → α)
    (hadj : ∀ v ∈ S, ∀ d ∈ S, b.Refers (runSteps c b clock steps σ) v d → d ∈ adj v)
    (hsub : ∀ v ∈ S, ∀ d ∈ adj v, b.Refers (runSteps c b clock steps σ) v d)
    (hname : ∀ n d, b.kind n = .name → b.Reads (runSteps c b clock steps σ) n d → d ∈ S →
      (∃ v ∈ S, b.Refers (runSteps c b clock steps σ) v n) → n ∈ S)
    (hin : ∀ v ∈ S, ∀ x, TransGen (b.Refers (runSteps c b clock steps σ)) v x →
      TransGen (b.Refers (runSteps c b clock steps σ)) x v → x ∈ S)
    (hk : ∀ v ∈ S, b.kind v ≠ .value) (v : Nat) (hv : v ∈ S) : b.Correct clock (runSteps c b clock steps σ) v := by
  have hci := cycle_iff hadj hsub (hin v hv)
  have hm := (hV.mem v).2 hv
  obtain ⟨p1, cy, l, p2, he, hl⟩ := flatMap_split hm
  cases cy with
  | true =>
    have hmem : (true, l) ∈ steps := by rw [he]; simp
    have h1 := (hV.cyc l hmem).2 v hl
    refine ⟨fun _ => runSteps_cycle c b clock steps l σ hV.nodup hmem v hl, fun hn => absurd (hci.2 h1.1) hn⟩
  | false =>
    have hmem : (false, l) ∈ steps := by rw [he]; simp
    have h1 := (hV.acyc l hmem).2 v hl
    refine ⟨fun hc => absurd (hci.1 hc) h1, fun _ => ?_⟩
    refine runSteps_layer c b clock steps p1 p2 l σ hV.nodup he v hl (b.Reads (runSteps c b clock steps σ) v) ?_ ?_
    · intro d hd
      by_cases hdS : d ∈ S
      · rcases reads_before hV hadj hname hd p1 false l p2 he hl hdS with h2 | h2
        · exact Or.inl h2
        · exact absurd h2.1 (by simp)
      · exact Or.inr fun h2 => hdS ((hV.mem d).1 h2)
    · intro τ hτ
      exact hb.congr v clock _ τ (hk v hv) hτ

theorem run_out (c : Config) {b : Book α} (clock : Nat) {S : List Nat} {adj : Nat → List Nat} {steps : List (Bool × List Nat)}
    (hV : Valid S adj steps) (σ : Nat → α) (v : Nat) (hv : v ∉ S) : runSteps c b clock steps σ v = σ v :=
  runSteps_out c b clock steps σ hV.nodup v fun h => hv ((hV.mem v).1 h)

/-! ## Schedules -/

theorem sgraph_wf {b : Book α} (hb : b.Ok) : b.sgraph.WF where
  deps v := hb.depsNodup v
  dependents u := hb.nodup.filter _
  inverse u v := by
    show u ∈ (b.body v).deps ↔ v ∈ b.vertices.filter fun v => decide (u ∈ (b.body v).deps)
    rw [List.mem_filter, decide_eq_true_eq]
    constructor
    · intro h
      refine ⟨hb.mem v ?_, h⟩
      intro hk
      rw [hb.empty v hk] at h
      simp [Formula.empty] at h
    · exact fun h => h.2

structure Config.Fair (c : Config) : Prop where
  nat : ∀ l, (c.orders.nat l).Perm l
  pair : ∀ l, (c.orders.pair l).Perm l

theorem vdeps_self (e : Engine α) (S : List Nat) (v : Nat) : v ∉ vdeps e S v := by
  unfold vdeps
  split
  · exact vdepsOf_ne e v
  · simp

theorem uncached_valid {c : Config} (hc : c.Fair) {e : Engine α} (hb : e.book.Ok) (S : List Nat) :
    ∃ s, scheduleUncached c e S = .ok s ∧ Valid S (fun v => (e.book.body v).deps ++ vdeps e S v) s.steps := by
  unfold scheduleUncached
  split
  · rename_i hall
    obtain ⟨s, h1, h2⟩ := Sched.createSchedule_valid c.orders hc.nat hc.pair e.book.sgraph (sgraph_wf hb) S
    refine ⟨s, h1, ?_⟩
    have : (fun v => (e.book.body v).deps ++ vdeps e S v) = e.book.sgraph.deps := by
      funext v
      unfold vdeps
      split
      · rename_i hv
        have := List.all_eq_true.1 hall v hv
        simp only [beq_iff_eq] at this
        rw [this, List.append_nil]
        rfl
      · rw [List.append_nil]; rfl
    rw [this]
    exact h2
  · exact Sched.createScheduleVirtual_valid c.orders hc.nat hc.pair e.book.sgraph (vdeps e S)
      (fun v h => absurd h (vdeps_self e S v)) S

theorem cacheable_vdeps {e : Engine α} (hb : e.book.Ok) {S : List Nat} (h : cacheable e S = true) {v : Nat} (hv : v ∈ S) :
    vdepsOf e v = [] := by
  unfold cacheable at h
  rw [Bool.and_eq_true, List.all_eq_true] at h
  have h1 := h.2 v hv
  rw [Bool.and_eq_true, Bool.not_eq_true', Bool.not_eq_true'] at h1
  unfold vdepsOf rangeVDeps dynVDeps
  rw [hb.noRange v h1.2, h1.1]
  simp [sortNat, dedupSorted]

/-- C18: scheduling a request succeeds, from the cache or not, and the schedule respects the edges and the virtual
dependencies; the cache stays good. -/
theorem schedule_valid {c : Config} (hc : c.Fair) {e : Engine α} (h : Inv e) (S : List Nat) :
    ∃ s vd k, schedule c e S = .ok (s, vd, k) ∧ (∀ v ∈ S, vd v = vdepsOf e v) ∧
      Valid S (fun v => (e.book.body v).deps ++ vdeps e S v) s.steps ∧ Inv { e with cache := k } := by
  obtain ⟨s, h1, h2⟩ := uncached_valid hc h.ok S
  have hvd : ∀ v ∈ S, vdeps e S v = vdepsOf e v := by
    intro v hv
    unfold vdeps
    rw [if_pos hv]
  have hsame : Inv { e with cache := e.cache } := h
  have hnew : cacheable e S = true → Inv { e with cache := some ⟨e.epoch, S, s⟩ } := by
    intro hca
    refine ⟨h.ok, h.depth, h.same, h.vol, h.closed, h.clean, ?_⟩
    intro k hk _
    simp only [Option.some.injEq] at hk
    subst hk
    have : (fun v => (e.book.body v).deps ++ vdeps e S v) = fun v => (e.book.body v).deps := by
      funext v
      unfold vdeps
      split
      · rename_i hv
        rw [cacheable_vdeps h.ok hca hv, List.append_nil]
      · rw [List.append_nil]
    rw [this] at h2
    exact h2
  have hput : cacheable e S = true →
      Inv { e with cache := if S.all fun v => vdepsOf e v == [] then some ⟨e.epoch, S, s⟩ else e.cache } := by
    intro hca
    split
    · exact hnew hca
    · exact hsame
  unfold schedule
  simp only [h1]
  split
  · rename_i hca
    cases hk : e.cache with
    | none =>
      simp only
      rw [hk] at hput
      exact ⟨s, _, _, rfl, hvd, h2, hput hca⟩
    | some k =>
      simp only
      split
      · rename_i hhit
        refine ⟨_, _, _, rfl, ?_, ?_, ?_⟩
        · intro v hv
          exact (cacheable_vdeps h.ok hca hv).symm
        · have h3 := h.cache k hk hhit.1
          rw [hhit.2] at h3
          have : (fun v => (e.book.body v).deps ++ vdeps e S v) = fun v => (e.book.body v).deps := by
            funext v
            unfold vdeps
            split
            · rename_i hv
              rw [cacheable_vdeps h.ok hca hv, List.append_nil]
            · rw [List.append_nil]
          rw [this]
          exact h3
        · rw [← hk]
          exact hsame
      · rw [hk] at hput
        exact ⟨s, _, _, rfl, hvd, h2, hput hca⟩
  · exact ⟨s, _, _, rfl, hvd, h2, hsame⟩

/-! ## A pass -/

/-- The engine after the run of a pass, before the flags are cleared. -/
abbrev ranEngine (c : Config) (e : Engine α) (s : Schedule) : Engine α :=
  { e with store := runUnits c e.book e.clock s e.store }

/-- Between requests the volatile formulas are flagged, so the flag alone decides what is pending. -/
theorem pending_of_inv {e : Engine α} (h : Inv e) (u : Nat) :
    pending e u = true ↔ e.book.kind u = .formula ∧ u ∈ e.dirty.flags := by
  simp only [pending, Bool.and_eq_true, Bool.or_eq_true, decide_eq_true_eq]
  constructor
  · rintro ⟨hk, hf | hv⟩
    · exact ⟨hk, hf⟩
    · exact ⟨hk, h.vol u hv (by rw [hk]; simp)⟩
  · rintro ⟨hk, hf⟩
    exact ⟨hk, Or.inl hf⟩

theorem pending_store (e : Engine α) (σ : Nat → α) : pending { e with store := σ } = pending e := rfl

/-- If no virtual dependency changed, the ones used are those of the final values. -/
theorem unchanged_vdeps (c : Config) (e : Engine α) {S keys : List Nat} (hkeys : ∀ v ∈ S, v ∈ keys) (s : Schedule) (vd : Sched.VDeps)
    (hvd : ∀ v ∈ S, vd v = vdepsOf e v) (h : (runPass c e S keys s vd).2 = []) (v : Nat) (hv : v ∈ S) :
    vdepsOf (ranEngine c e s) v = vdepsOf e v := by
  have hch : changedVDeps (ranEngine c e s) S keys vd = [] := h
  unfold changedVDeps at hch
  split at hch
  · rename_i hany
    rw [List.filter_eq_nil_iff] at hch
    have h1 := hch v (hkeys v hv)
    simp only [bne_iff_ne, ne_eq, not_not] at h1
    unfold vdeps at h1
    rw [if_pos hv, hvd v hv] at h1
    exact h1.symm
  · rename_i hany
    have hd : e.book.dynamic v = false := by
      cases hd : e.book.dynamic v with
      | false => rfl
      | true => exact absurd (List.any_eq_true.2 ⟨v, hv, hd⟩) hany
    unfold vdepsOf dynVDeps
    rw [hd]
    rfl

/-- A computed reference does not meet the cell it is in. -/
def NoSelf (b : Book α) (σ : Nat → α) : Prop :=
  ∀ v, b.dynamic v = true → v ∉ (b.body v).cells σ ∧ v ∉ (b.body v).areas σ

/-- Running a valid schedule of the dirty formulas, whose order is that of the references in the final values, brings the
workbook up to date. -/
theorem pass_core (c : Config) {e : Engine α} (h : Inv e) {S : List Nat} (hS : ∀ v, v ∈ S ↔ Dirty e v) {adj : Nat → List Nat}
    {steps : List (Bool × List Nat)} (hV : Valid S adj steps)
    (hadj : ∀ v ∈ S, ∀ d ∈ S, e.book.Refers (runSteps c e.book e.clock steps e.store) v d → d ∈ adj v)
    (hsub : ∀ v ∈ S, ∀ d ∈ adj v, e.book.Refers (runSteps c e.book e.clock steps e.store) v d) :
    e.book.Recalculated e.clock e.store (runSteps c e.book e.clock steps e.store) := by
  have hin : ∀ v ∈ S, ∀ x, TransGen (e.book.Refers (runSteps c e.book e.clock steps e.store)) v x →
      TransGen (e.book.Refers (runSteps c e.book e.clock steps e.store)) x v → x ∈ S := by
    intro v hv x _ hx
    refine (hS x).2 ?_
    have : ∀ x y, TransGen (e.book.Refers (runSteps c e.book e.clock steps e.store)) x y → Dirty e y → Dirty e x := by
      intro x y hxy
      induction hxy with
      | single hr => exact fun hy => dirty_back h hy hr
      | tail _ hr ih => exact fun hz => ih (dirty_back h hz hr)
    exact this x v hx ((hS v).1 hv)
  refine ⟨?_, ?_⟩
  · intro v hk
    exact run_out c e.clock hV e.store v fun hv => ((hS v).1 hv).1 hk
  · intro v hk
    by_cases hv : v ∈ S
    · refine run_correct c h.ok e.clock hV e.store hadj hsub ?_ hin (fun v hv => ((hS v).1 hv).1) v hv
      intro n d _ hr hd _
      exact (hS n).2 (dirty_back_reads h hr ((hS d).1 hd))
    · -- clean formulas
      have hcl : ∀ x, e.book.kind x ≠ .value → x ∉ S → x ∉ e.dirty.flags := fun x hk hx hf => hx ((hS x).2 ⟨hk, hf⟩)
      have hA : Agree e.book e.book e.store (runSteps c e.book e.clock steps e.store)
          (fun x => e.book.kind x ≠ .value ∧ x ∉ S) := by
        have hd : ∀ x, e.book.kind x ≠ .value ∧ x ∉ S → e.book.dynamic x = false := by
          rintro x ⟨hk, hx⟩
          cases hd : e.book.dynamic x with
          | false => rfl
          | true => exact absurd (h.vol x (h.ok.dyn x hk hd) hk) (hcl x hk hx)
        have hn : ∀ x, e.book.kind x ≠ .value ∧ x ∉ S → ∀ d,
            d ∈ (e.book.body x).deps ∨ (d ∈ (e.book.body x).ranges ∧ d ≠ x) → d ∉ S := by
          rintro x ⟨hk, hx⟩ d hr hdS
          have hrf : e.book.Refers e.store x d := by
            rcases hr with hr | hr
            · exact Or.inl hr
            · exact Or.inr (Or.inl hr)
          exact hx ((hS x).2 (dirty_back h ((hS d).1 hdS) hrf))
        refine ⟨fun _ _ => rfl, fun _ _ => rfl, hd, hd, ?_, ?_⟩
        · intro x hx d hr
          exact run_out c e.clock hV e.store d (hn x hx d hr)
        · intro x hx d hr
          by_cases hk : e.book.kind d = .value
          · exact Or.inr ⟨hk, hk⟩
          · exact Or.inl ⟨hk, hn x hx d hr⟩
      exact hA.correct h.ok h.ok rfl ⟨hk, hv⟩ (run_out c e.clock hV e.store v hv) (h.clean v hk (hcl v hk hv)) hk

/-- C18: a pass over the dirty formulas after which no virtual dependency has changed brings the workbook up to date:
the values from before, and the right value for every formula. -/
theorem pass_recalculates (c : Config) {e : Engine α} (h : Inv e) {S : List Nat}
    (hS : ∀ v, v ∈ S ↔ Dirty e v) {s : Schedule} {vd : Sched.VDeps} (hvd : ∀ v ∈ S, vd v = vdepsOf e v)
    (hV : Valid S (fun v => (e.book.body v).deps ++ vdeps e S v) s.steps)
    (hch : (runPass c e S S s vd).2 = []) (hself : NoSelf e.book (runUnits c e.book e.clock s e.store)) :
    e.book.Recalculated e.clock e.store (runUnits c e.book e.clock s e.store) := by
  have hun := unchanged_vdeps c e (fun v hv => hv) s vd hvd hch
  have hInv' : ∀ v d, Dirty e d → e.book.Refers (runUnits c e.book e.clock s e.store) v d →
      d ∈ (e.book.body v).deps ∨ d ∈ vdepsOf (ranEngine c e s) v := by
    intro v d hd hr
    have hp : e.book.kind d ≠ .name → pending (ranEngine c e s) d = true := by
      intro hn
      have : e.book.kind d = .formula := by
        cases hk : e.book.kind d with
        | value => exact absurd hk hd.1
        | formula => rfl
        | name => exact absurd hk hn
      simp [pending, this, hd.2]
    rcases hr with hr | hr | ⟨hdy, hr⟩
    · exact Or.inl hr
    · refine Or.inr ((mem_vdepsOf _ v d).2 (Or.inl ?_))
      simp only [rangeVDeps, List.mem_filter, Bool.and_eq_true, decide_eq_true_eq]
      exact ⟨hr.1, hp (h.ok.rangeCells v d hr.1), hr.2⟩
    · refine Or.inr ((mem_vdepsOf _ v d).2 (Or.inr ?_))
      unfold dynVDeps
      rw [if_pos hdy]
      simp only [List.mem_filter, List.mem_append, decide_eq_true_eq]
      refine ⟨?_, ?_⟩
      · rcases hr with hr | hr
        · exact Or.inl ⟨hr, h.ok.mem d hd.1⟩
        · exact Or.inr ⟨hr, hp (h.ok.areaCells v _ d hr)⟩
      · rintro rfl
        obtain ⟨h1, h2⟩ := hself d hdy
        rcases hr with hr | hr
        · exact h1 hr
        · exact h2 hr
  have hadj : ∀ v ∈ S, ∀ d ∈ S, e.book.Refers (runUnits c e.book e.clock s e.store) v d →
      d ∈ (e.book.body v).deps ++ vdeps e S v := by
    intro v hv d hd hr
    unfold vdeps
    rw [if_pos hv, ← hun v hv, List.mem_append]
    exact hInv' v d ((hS d).1 hd) hr
  have hsub : ∀ v ∈ S, ∀ d ∈ (e.book.body v).deps ++ vdeps e S v,
      e.book.Refers (runUnits c e.book e.clock s e.store) v d := by
    intro v hv d hd
    unfold vdeps at hd
    rw [if_pos hv, ← hun v hv, List.mem_append] at hd
    rcases hd with hd | hd
    · exact Or.inl hd
    · exact vdepsOf_refers hd
  exact pass_core c h hS hV hadj hsub

end Verif.Recalc
