import Verif.Recalc.All

/-!
# C18: evaluating chosen cells
-/

namespace Verif.Recalc

open Verif.Sched (upd sortNat dedupSorted Schedule Orders Valid Edge)
open Relation

variable {α : Type}

theorem demandGraph_ok {e : Engine α} (hb : e.book.Ok) : (demandGraph e).Ok where
  closed u v h := by
    rcases h with h | h | h
    · rcases List.mem_append.1 h with h | h
      · exact hb.depsMem u v h
      · rw [mem_vdepsOf] at h
        have hp : pending e v = true → v ∈ e.book.vertices := by
          intro hp
          simp only [pending, Bool.and_eq_true, decide_eq_true_eq] at hp
          exact hb.mem v (by rw [hp.1]; simp)
        rcases h with h | h
        · simp only [rangeVDeps, List.mem_filter, Bool.and_eq_true] at h
          exact hp h.2.1
        · unfold dynVDeps at h
          split at h
          · simp only [List.mem_filter, List.mem_append, decide_eq_true_eq] at h
            rcases h.1 with h | h
            · exact h.2
            · exact hp h.2
          · cases h
    · simp [demandGraph] at h
    · simp [demandGraph] at h
  names u v h := by simp [demandGraph] at h

/-- The walk ends. It visits the roots and, from every visited vertex, its edges and virtual dependencies. -/
theorem demand_spec {e : Engine α} (hb : e.book.Ok) (roots : List Nat) (hr : ∀ r ∈ roots, r ∈ e.book.vertices) :
    ∃ W, demand e roots = some (sortNat (W.filter (demanded e)), W, vdeps e W) ∧ (∀ r ∈ roots, r ∈ W) ∧
      ∀ u ∈ W, ∀ v, v ∈ (e.book.body u).deps ∨ v ∈ vdepsOf e u → v ∈ W := by
  obtain ⟨W, hW⟩ := Dirty.propagate_some (demandGraph_ok hb) (Dirty.stepBound (demandGraph e) roots.reverse) roots.reverse []
    (by
      intro v hv
      exact hr v (List.mem_reverse.1 hv))
    (Dirty.sum_zero_visited (demandGraph e) roots.reverse)
  have hspec := Dirty.propagate_spec (demandGraph_ok hb) _ _ _ _ hW (by simp)
  refine ⟨W, ?_, ?_, ?_⟩
  · unfold demand
    rw [hW]
  · intro r h
    exact (hspec r).2 (Or.inr (Or.inl (List.mem_reverse.2 h)))
  · intro u hu v hv
    have hdep : (demandGraph e).Dep u v := Or.inl (List.mem_append.2 hv)
    rcases (hspec u).1 hu with h | h | ⟨s, hs, h⟩
    · cases h
    · exact (hspec v).2 (Or.inr (Or.inr ⟨u, h, .one hdep⟩))
    · exact (hspec v).2 (Or.inr (Or.inr ⟨s, hs, h.tail hdep⟩))

theorem mem_demanded {e : Engine α} (h : Inv e) (W : List Nat) (v : Nat) :
    v ∈ sortNat (W.filter (demanded e)) ↔ v ∈ W ∧ (Dirty e v ∨ e.book.kind v = .name) := by
  rw [mem_sortNat, List.mem_filter]
  refine and_congr_right fun _ => ?_
  unfold demanded Dirty
  cases hk : e.book.kind v with
  | value => simp
  | name => simp
  | formula =>
    simp only [Bool.or_eq_true, decide_eq_true_eq, ne_eq, reduceCtorEq, not_false_eq_true, true_and, or_false]
    constructor
    · rintro (h1 | h1)
      · exact h1
      · exact h.vol v h1 (by rw [hk]; simp)
    · exact Or.inl

/-- What a clean formula refers to is clean, and does not depend on the values. -/
theorem clean_next {e : Engine α} (h : Inv e) {σ : Nat → α} {v d : Nat} (hk : e.book.kind v ≠ .value)
    (hv : v ∉ e.dirty.flags) (hr : e.book.Refers σ v d) :
    (e.book.kind d = .value ∨ d ∉ e.dirty.flags) ∧ ∀ τ, e.book.Refers τ v d := by
  constructor
  · by_cases hd : e.book.kind d = .value
    · exact Or.inl hd
    · exact Or.inr fun hf => hv (dirty_back h ⟨hd, hf⟩ hr).2
  · intro τ
    have hdyn : e.book.dynamic v = false := by
      cases hd : e.book.dynamic v with
      | false => rfl
      | true => exact absurd (h.vol v (h.ok.dyn v hk hd) hk) hv
    rw [refers_static hdyn] at hr ⊢
    exact hr

theorem clean_path {e : Engine α} (h : Inv e) {σ : Nat → α} {v d : Nat} (hk : e.book.kind v ≠ .value)
    (hv : v ∉ e.dirty.flags) (hr : TransGen (e.book.Refers σ) v d) :
    (e.book.kind d = .value ∨ d ∉ e.dirty.flags) ∧ ∀ τ, TransGen (e.book.Refers τ) v d := by
  induction hr with
  | single hr =>
    obtain ⟨h1, h2⟩ := clean_next h hk hv hr
    exact ⟨h1, fun τ => .single (h2 τ)⟩
  | @tail y z _ hr ih =>
    have hky := h.ok.refs_kind hr
    have hy : y ∉ e.dirty.flags := by
      rcases ih.1 with h1 | h1
      · exact absurd h1 hky
      · exact h1
    obtain ⟨h1, h2⟩ := clean_next h hky hy hr
    exact ⟨h1, fun τ => .tail (ih.2 τ) (h2 τ)⟩

theorem clean_reads {e : Engine α} (h : Inv e) {σ : Nat → α} {v d : Nat} (hv : v ∉ e.dirty.flags)
    (hr : e.book.Reads σ v d) : e.book.kind d = .value ∨ d ∉ e.dirty.flags := by
  by_cases hd : e.book.kind d = .value
  · exact Or.inl hd
  · exact Or.inr fun hf => hv (dirty_back_reads h hr ⟨hd, hf⟩).2

/-- One pass over demanded cells. -/
theorem target_pass (c : Config) {e : Engine α} (h : Inv e) {W S : List Nat}
    (hW : ∀ u ∈ W, ∀ v, v ∈ (e.book.body u).deps ∨ v ∈ vdepsOf e u → v ∈ W)
    (hS : ∀ v, v ∈ S ↔ v ∈ W ∧ (Dirty e v ∨ e.book.kind v = .name)) {s : Schedule}
    (hV : Valid S (fun v => (e.book.body v).deps ++ vdeps e W v) s.steps)
    (hch : (runPass c e S W s (vdeps e W)).2 = []) (hself : NoSelf e.book (runUnits c e.book e.clock s e.store))
    (hname : ∀ n, e.book.kind n = .name → n ∉ e.dirty.flags → ¬ e.book.OnCycle e.store n) :
    (∀ v, e.book.kind v ≠ .value → v ∈ S ∨ v ∉ e.dirty.flags →
      e.book.Correct e.clock (runUnits c e.book e.clock s e.store) v) ∧
    (∀ v, v ∉ S ∨ v ∉ e.dirty.flags → runUnits c e.book e.clock s e.store v = e.store v) := by
  have hvW : ∀ v ∈ S, vdeps e W v = vdepsOf e v := by
    intro v hv
    unfold vdeps
    rw [if_pos ((hS v).1 hv).1]
  have hkS : ∀ v ∈ S, e.book.kind v ≠ .value := by
    intro v hv
    rcases ((hS v).1 hv).2 with h1 | h1
    · exact h1.1
    · rw [h1]; simp
  have hun := unchanged_vdeps c e (keys := W) (fun v hv => ((hS v).1 hv).1) s (vdeps e W) hvW hch
  -- references to dirty formulas and to names are edges or virtual dependencies
  have hInv' : ∀ v d, Dirty e d ∨ (e.book.kind d = .name ∧ d ∈ S) →
      e.book.Refers (runUnits c e.book e.clock s e.store) v d →
      d ∈ (e.book.body v).deps ∨ d ∈ vdepsOf (ranEngine c e s) v := by
    intro v d hd hr
    have hp : e.book.kind d ≠ .name → pending (ranEngine c e s) d = true := by
      intro hn
      have hd : Dirty e d := by
        rcases hd with hd | hd
        · exact hd
        · exact absurd hd.1 hn
      have : e.book.kind d = .formula := by
        cases hk : e.book.kind d with
        | value => exact absurd hk hd.1
        | formula => rfl
        | name => exact absurd hk hn
      simp [pending, this, hd.2]
    have hdv : e.book.kind d ≠ .value := by
      rcases hd with hd | hd
      · exact hd.1
      · rw [hd.1]; simp
    rcases hr with hr | hr | ⟨hdy, hr⟩
    · exact Or.inl hr
    · refine Or.inr ((mem_vdepsOf _ v d).2 (Or.inl ?_))
      simp only [rangeVDeps, List.mem_filter, Bool.and_eq_true, decide_eq_true_eq]
      exact ⟨hr.1, hp (h.ok.rangeCells v d hr.1), hr.2⟩
    · refine Or.inr ((mem_vdepsOf _ v d).2 (Or.inr ?_))
      unfold dynVDeps
      rw [if_pos hdy]
      simp only [List.mem_filter, List.mem_append, decide_eq_true_eq]
      refine ⟨?_, ?_⟩
      · rcases hr with hr | hr
        · exact Or.inl ⟨hr, h.ok.mem d hdv⟩
        · exact Or.inr ⟨hr, hp (h.ok.areaCells v _ d hr)⟩
      · rintro rfl
        obtain ⟨h1, h2⟩ := hself d hdy
        rcases hr with hr | hr
        · exact h1 hr
        · exact h2 hr
  have hadj : ∀ v ∈ S, ∀ d ∈ S, e.book.Refers (runUnits c e.book e.clock s e.store) v d →
      d ∈ (e.book.body v).deps ++ vdeps e W v := by
    intro v hv d hd hr
    rw [hvW v hv, ← hun v hv, List.mem_append]
    refine hInv' v d ?_ hr
    rcases ((hS d).1 hd).2 with h1 | h1
    · exact Or.inl h1
    · exact Or.inr ⟨h1, hd⟩
  have hsub : ∀ v ∈ S, ∀ d ∈ (e.book.body v).deps ++ vdeps e W v,
      e.book.Refers (runUnits c e.book e.clock s e.store) v d := by
    intro v hv d hd
    rw [hvW v hv, ← hun v hv, List.mem_append] at hd
    rcases hd with hd | hd
    · exact Or.inl hd
    · exact vdepsOf_refers hd
  have hnm : ∀ n d, e.book.kind n = .name → e.book.Reads (runUnits c e.book e.clock s e.store) n d → d ∈ S →
      (∃ v ∈ S, e.book.Refers (runUnits c e.book e.clock s e.store) v n) → n ∈ S := by
    rintro n d hn - - ⟨v, hv, hr⟩
    refine (hS n).2 ⟨hW v ((hS v).1 hv).1 n ?_, Or.inr hn⟩
    rw [← hun v hv]
    rcases hr with hr | hr | ⟨hdy, hr⟩
    · exact Or.inl hr
    · exact absurd hn (h.ok.rangeCells v n hr.1)
    · refine Or.inr ((mem_vdepsOf _ v n).2 (Or.inr ?_))
      unfold dynVDeps
      rw [if_pos hdy]
      simp only [List.mem_filter, List.mem_append, decide_eq_true_eq]
      rcases hr with hr | hr
      · refine ⟨Or.inl ⟨hr, h.ok.mem n (by rw [hn]; simp)⟩, ?_⟩
        rintro rfl
        exact (hself n hdy).1 hr
      · exact absurd hn (h.ok.areaCells v _ n hr)
  have hnocyc : ∀ v, e.book.kind v = .name → v ∉ e.dirty.flags →
      ¬ e.book.OnCycle (runUnits c e.book e.clock s e.store) v := by
    intro v hk hv hc
    exact hname v hk hv ((clean_path h (by rw [hk]; simp) hv hc).2 _)
  have hin : ∀ v ∈ S, ∀ x, TransGen (e.book.Refers (runUnits c e.book e.clock s e.store)) v x →
      TransGen (e.book.Refers (runUnits c e.book e.clock s e.store)) x v → x ∈ S := by
    intro v hv x hx hxv
    by_cases hvf : v ∈ e.dirty.flags
    · have hback : ∀ x y, TransGen (e.book.Refers (runUnits c e.book e.clock s e.store)) x y → Dirty e y → Dirty e x := by
        intro x y hxy
        induction hxy with
        | single hr => exact fun hy => dirty_back h hy hr
        | tail _ hr ih => exact fun hz => ih (dirty_back h hz hr)
      have hvd : Dirty e v := ⟨hkS v hv, hvf⟩
      have hstep : ∀ y ∈ S, ∀ z, e.book.Refers (runUnits c e.book e.clock s e.store) y z → Dirty e z → z ∈ S := by
        intro y hy z hr hz
        refine (hS z).2 ⟨hW y ((hS y).1 hy).1 z ?_, Or.inl hz⟩
        rw [← hun y hy]
        exact hInv' y z (Or.inl hz) hr
      induction hx with
      | single hr => exact hstep v hv _ hr (hback _ _ hxv hvd)
      | @tail y z _ hr ih => exact hstep y (ih (.head hr hxv)) z hr (hback _ _ hxv hvd)
    · have hn : e.book.kind v = .name := by
        rcases ((hS v).1 hv).2 with h1 | h1
        · exact absurd h1.2 hvf
        · exact h1
      exact absurd (hx.trans hxv) (hnocyc v hn hvf)
  have hcor : ∀ v ∈ S, e.book.Correct e.clock (runUnits c e.book e.clock s e.store) v :=
    run_correct c h.ok e.clock hV e.store hadj hsub hnm hin hkS
  -- clean names get the value they had
  have hsame : ∀ pre post, s.steps = pre ++ post → ∀ v ∈ pre.flatMap Prod.snd, v ∉ e.dirty.flags →
      runUnits c e.book e.clock s e.store v = e.store v := by
    intro pre
    induction pre using Edges.snocInd with
    | h0 => intro post _ v hv; simp at hv
    | h1 pre u ih =>
      obtain ⟨cy, l⟩ := u
      intro post he v hv hvf
      rw [List.flatMap_append, List.mem_append] at hv
      have he' : s.steps = pre ++ (cy, l) :: post := by rw [he]; simp
      rcases hv with hv | hv
      · exact ih ((cy, l) :: post) he' v hv hvf
      · simp only [List.flatMap_cons, List.flatMap_nil, List.append_nil] at hv
        have hvS : v ∈ S := by
          refine (hV.mem v).1 ?_
          rw [he', List.flatMap_append, List.flatMap_cons]
          exact List.mem_append.2 (Or.inr (List.mem_append.2 (Or.inl hv)))
        have hn : e.book.kind v = .name := by
          rcases ((hS v).1 hvS).2 with h1 | h1
          · exact absurd h1.2 hvf
          · exact h1
        have hk := hkS v hvS
        have hoc := hnocyc v hn hvf
        rw [(hcor v hvS).2 hoc, (h.clean v hk hvf).2 (hname v hn hvf)]
        refine (h.ok.congr v e.clock _ _ hk fun d hd => ?_).symm
        by_cases hdS : d ∈ S
        · have hdf : d ∉ e.dirty.flags := by
            rcases clean_reads h hvf hd with h1 | h1
            · exact absurd h1 (hkS d hdS)
            · exact h1
          rcases reads_before hV hadj hnm hd pre cy l post he' hv hdS with h1 | h1
          · exact (ih ((cy, l) :: post) he' d h1 hdf).symm
          · obtain ⟨rfl, -⟩ := h1
            have hmem : (true, l) ∈ s.steps := by rw [he']; simp
            refine absurd ?_ hoc
            exact (cycle_iff hadj hsub (hin v hvS)).2 ((hV.cyc l hmem).2 v hv).1
        · exact (run_out c e.clock hV e.store d hdS).symm
  have hout : ∀ v, v ∉ S ∨ v ∉ e.dirty.flags → runUnits c e.book e.clock s e.store v = e.store v := by
    intro v hv
    by_cases hvS : v ∈ S
    · rcases hv with hv | hv
      · exact absurd hvS hv
      · exact hsame s.steps [] (by simp) v ((hV.mem v).2 hvS) hv
    · exact run_out c e.clock hV e.store v hvS
  refine ⟨?_, hout⟩
  intro v hk hv
  by_cases hvS : v ∈ S
  · exact hcor v hvS
  · have hvf : v ∉ e.dirty.flags := by
      rcases hv with hv | hv
      · exact absurd hv hvS
      · exact hv
    have hA : Agree e.book e.book e.store (runUnits c e.book e.clock s e.store)
        (fun x => e.book.kind x ≠ .value ∧ x ∉ e.dirty.flags) := by
      have hd : ∀ x, e.book.kind x ≠ .value ∧ x ∉ e.dirty.flags → e.book.dynamic x = false := by
        rintro x ⟨hk, hx⟩
        cases hd : e.book.dynamic x with
        | false => rfl
        | true => exact absurd (h.vol x (h.ok.dyn x hk hd) hk) hx
      have hn : ∀ x, e.book.kind x ≠ .value ∧ x ∉ e.dirty.flags → ∀ d,
          d ∈ (e.book.body x).deps ∨ (d ∈ (e.book.body x).ranges ∧ d ≠ x) → e.book.kind d = .value ∨ d ∉ e.dirty.flags := by
        rintro x ⟨hk, hx⟩ d hr
        refine (clean_next h (σ := e.store) hk hx ?_).1
        rcases hr with hr | hr
        · exact Or.inl hr
        · exact Or.inr (Or.inl hr)
      refine ⟨fun _ _ => rfl, fun _ _ => rfl, hd, hd, ?_, ?_⟩
      · intro x hx d hr
        rcases hn x hx d hr with h1 | h1
        · exact hout d (Or.inl fun hdS => hkS d hdS h1)
        · exact hout d (Or.inr h1)
      · intro x hx d hr
        by_cases hkd : e.book.kind d = .value
        · exact Or.inr ⟨hkd, hkd⟩
        · rcases hn x hx d hr with h1 | h1
          · exact absurd h1 hkd
          · exact Or.inl ⟨hkd, h1⟩
    exact hA.correct h.ok h.ok rfl ⟨hk, hvf⟩ (hout v (Or.inr hvf)) (h.clean v hk hvf) hk

/-- No name is on a cycle, except dirty ones. -/
def NoNameCycle (e : Engine α) : Prop :=
  ∀ n, e.book.kind n = .name → n ∉ e.dirty.flags → ¬ e.book.OnCycle e.store n

/-- C18: what is true after chosen cells were evaluated without a second pass: the cells, and all the others that are not
dirty, have their right value; plain values and clean formulas keep theirs. -/
theorem evaluateTargets_settled {c : Config} (hc : c.Fair) {e : Engine α} (h : Inv e) (hcyc : NoNameCycle e) (now : Nat)
    (roots : List Nat) (hroots : ∀ r ∈ roots, r ∈ e.book.vertices)
    (hset : ∀ S W vd s, demand { e with clock := now } roots = some (S, W, vd) →
      Sched.createScheduleVirtual c.orders e.book.sgraph vd S = .ok s →
      (runPass c { e with clock := now } S W s vd).2 = [] ∧ NoSelf e.book (runUnits c e.book now s e.store)) :
    ∃ e', evaluateTargets c now e roots = .done e' ∧ e'.book = e.book ∧ e'.clock = now ∧ Inv e' ∧
      (∀ v, e.book.kind v = .value ∨ v ∉ e.dirty.flags → e'.store v = e.store v) ∧
      ∃ D : Nat → Prop, (∀ r ∈ roots, D r) ∧ (∀ v, v ∉ e.dirty.flags → D v) ∧
        (∀ v d, D v → e.book.Refers e'.store v d → D d ∨ e.book.kind d = .value) ∧
        (∀ v, D v → e.book.kind v ≠ .value → e.book.Correct now e'.store v) := by
  have h0 := clock_inv h now
  obtain ⟨W, hdem, hrW, hW⟩ := demand_spec h0.ok roots hroots
  have hS := mem_demanded h0 W
  generalize hSd : sortNat (W.filter (demanded { e with clock := now })) = S at hS hdem
  unfold evaluateTargets
  rw [targetLoop.eq_def]
  simp only [hdem]
  by_cases hnil : S = []
  · rw [if_pos hnil]
    have hnone : ∀ v ∈ W, e.book.kind v ≠ .value → v ∉ e.dirty.flags := by
      intro v hv hk hf
      have := (hS v).2 ⟨hv, Or.inl ⟨hk, hf⟩⟩
      rw [hnil] at this
      cases this
    obtain ⟨h1, h2, h3, h4⟩ := redirty_inv h0.ok h0.depth h0.same h0.closed h0.clean h0.cache
    refine ⟨_, rfl, h2, h4, h1, fun v _ => by rw [h3], ?_⟩
    rw [h3]
    refine ⟨fun v => v ∈ W ∨ v ∉ e.dirty.flags, fun r hr => Or.inl (hrW r hr), fun v hv => Or.inr hv, ?_, ?_⟩
    · intro v d hv hr
      by_cases hdk : e.book.kind d = .value
      · exact Or.inr hdk
      · refine Or.inl (Or.inr ?_)
        have hk := h.ok.refs_kind hr
        have hvf : v ∉ e.dirty.flags := by
          rcases hv with hv | hv
          · exact hnone v hv hk
          · exact hv
        exact fun hf => hvf (dirty_back h ⟨hdk, hf⟩ hr).2
    · intro v hv hk
      refine h0.clean v hk ?_
      rcases hv with hv | hv
      · exact hnone v hv hk
      · exact hv
  · rw [if_neg hnil]
    obtain ⟨s, hs, hV⟩ := Sched.createScheduleVirtual_valid c.orders hc.nat hc.pair e.book.sgraph
      (vdeps { e with clock := now } W) (fun v hv => absurd hv (vdeps_self _ W v)) S
    obtain ⟨hch, hself⟩ := hset S W _ s hdem hs
    have hpass := target_pass c h0 hW hS hV hch hself hcyc
    obtain ⟨hcor, hout⟩ := hpass
    simp only [hs]
    rw [if_pos hch]
    have hst : (runPass c { e with clock := now } S W s (vdeps { e with clock := now } W)).1 =
        { e with
          clock := now
          store := runUnits c e.book now s e.store
          dirty := Dirty.clearDirty e.dirty S } := by
      unfold runPass at hch ⊢
      simp only at hch ⊢
      rw [hch]
      rfl
    rw [hst]
    have hfl : ∀ v, v ∈ (Dirty.clearDirty e.dirty S).flags ↔ v ∈ e.dirty.flags ∧ v ∉ S := by
      intro v
      simp [Dirty.clearDirty]
    -- a dirty formula referred to from a scheduled one is scheduled
    have hfwd : ∀ v ∈ W, ∀ d, Dirty e d → d ∈ (e.book.body v).deps ∨ (d ∈ (e.book.body v).ranges ∧ d ≠ v) → d ∈ S := by
      intro v hv d hd hr
      refine (hS d).2 ⟨hW v hv d ?_, Or.inl hd⟩
      rcases hr with hr | hr
      · exact Or.inl hr
      · refine Or.inr ((mem_vdepsOf _ v d).2 (Or.inl ?_))
        have : e.book.kind d = .formula := by
          cases hk : e.book.kind d with
          | value => exact absurd hk hd.1
          | formula => rfl
          | name => exact absurd hk (h.ok.rangeCells v d hr.1)
        simp only [rangeVDeps, List.mem_filter, Bool.and_eq_true, decide_eq_true_eq]
        exact ⟨hr.1, by simp [pending, this, hd.2], hr.2⟩
    have hkS : ∀ v ∈ S, e.book.kind v ≠ .value := by
      intro v hv
      rcases ((hS v).1 hv).2 with h1 | h1
      · exact h1.1
      · rw [h1]; simp
    have hclean : ∀ v, e.book.kind v ≠ .value → v ∈ S ∨ v ∉ e.dirty.flags →
        e.book.Correct now (runUnits c e.book now s e.store) v := hcor
    obtain ⟨h1, h2, h3, h4⟩ := redirty_inv
      (e := { e with
          clock := now
          store := runUnits c e.book now s e.store
          dirty := Dirty.clearDirty e.dirty S })
      h.ok h.depth
      (by
        intro v hkv
        show v ∈ (Dirty.clearDirty e.dirty S).dirtySet ↔ v ∈ (Dirty.clearDirty e.dirty S).flags
        simp only [Dirty.clearDirty, List.mem_filter]
        rw [h.same v hkv])
      (by
        intro u v hk hu hr
        rw [hfl] at hu ⊢
        refine ⟨h.closed u v hk hu.1 hr, fun hvS => hu.2 ?_⟩
        by_cases huv : u = v
        · subst huv; exact hvS
        · refine hfwd v ((hS v).1 hvS).1 u ⟨hk, hu.1⟩ ?_
          rcases hr with hr | hr
          · exact Or.inl hr
          · exact Or.inr ⟨hr, huv⟩)
      (by
        intro v hk hv
        rw [hfl] at hv
        refine hclean v hk ?_
        by_cases hvS : v ∈ S
        · exact Or.inl hvS
        · exact Or.inr fun hf => hv ⟨hf, hvS⟩)
      h.cache
    refine ⟨_, rfl, h2, h4, h1, ?_, ?_⟩
    · intro v hv
      rw [h3]
      refine hout v ?_
      rcases hv with hv | hv
      · exact Or.inl fun hvS => hkS v hvS hv
      · exact Or.inr hv
    · rw [h3]
      refine ⟨fun v => v ∈ W ∨ v ∉ e.dirty.flags, fun r hr => Or.inl (hrW r hr), fun v hv => Or.inr hv, ?_, ?_⟩
      · intro v d hv hr
        by_cases hdk : e.book.kind d = .value
        · exact Or.inr hdk
        · left
          by_cases hdf : d ∈ e.dirty.flags
          · left
            have hk := h.ok.refs_kind hr
            have hvd := dirty_back h ⟨hdk, hdf⟩ hr
            have hvW : v ∈ W := by
              rcases hv with hv | hv
              · exact hv
              · exact absurd hvd.2 hv
            have hvS : v ∈ S := (hS v).2 ⟨hvW, Or.inl hvd⟩
            have hun := unchanged_vdeps c { e with clock := now } (keys := W) (fun v hv => ((hS v).1 hv).1) s
              (vdeps { e with clock := now } W)
              (by
                intro v hv
                unfold vdeps
                rw [if_pos ((hS v).1 hv).1]) hch v hvS
            refine hW v hvW d ?_
            rw [← hun]
            rcases hr with hr | hr | ⟨hdy, hr⟩
            · exact Or.inl hr
            · right
              rw [hun]
              refine (mem_vdepsOf _ v d).2 (Or.inl ?_)
              have : e.book.kind d = .formula := by
                cases hk : e.book.kind d with
                | value => exact absurd hk hdk
                | formula => rfl
                | name => exact absurd hk (h.ok.rangeCells v d hr.1)
              simp only [rangeVDeps, List.mem_filter, Bool.and_eq_true, decide_eq_true_eq]
              exact ⟨hr.1, by simp [pending, this, hdf], hr.2⟩
            · refine Or.inr ((mem_vdepsOf _ v d).2 (Or.inr ?_))
              unfold dynVDeps
              rw [if_pos hdy]
              simp only [List.mem_filter, List.mem_append, decide_eq_true_eq]
              refine ⟨?_, ?_⟩
              · rcases hr with hr | hr
                · exact Or.inl ⟨hr, h.ok.mem d hdk⟩
                · refine Or.inr ⟨hr, ?_⟩
                  have : e.book.kind d = .formula := by
                    cases hk : e.book.kind d with
                    | value => exact absurd hk hdk
                    | formula => rfl
                    | name => exact absurd hk (h.ok.areaCells v _ d hr)
                  simp [pending, this, hdf]
              · rintro rfl
                obtain ⟨h5, h6⟩ := hself d hdy
                rcases hr with hr | hr
                · exact h5 hr
                · exact h6 hr
          · exact Or.inr hdf
      · intro v hv hk
        refine hclean v hk ?_
        by_cases hvf : v ∈ e.dirty.flags
        · rcases hv with hv | hv
          · exact Or.inl ((hS v).2 ⟨hv, Or.inl ⟨hk, hvf⟩⟩)
          · exact absurd hvf hv
        · exact Or.inr hvf

/-- C18: in a workbook without computed references, evaluating chosen cells gives them the values that a full
recalculation gives, whatever the thread configuration and the hash orders of either. -/
theorem evaluateTargets_agrees {c c' : Config} (hc : c.Fair) (hc' : c'.Fair) {e : Engine α} (h : Inv e)
    (hst : e.book.Static) (hcyc : NoNameCycle e) (now : Nat) (roots : List Nat) (hroots : ∀ r ∈ roots, r ∈ e.book.vertices) :
    ∃ e' f', evaluateTargets c now e roots = .done e' ∧ evaluateAll c' now e = .done f' ∧ e'.book = e.book ∧ Inv e' ∧
      e'.clock = now ∧ (∀ r ∈ roots, e'.store r = f'.store r) ∧
      (∀ v, e.book.kind v = .value → e'.store v = e.store v) ∧ (∀ v, v ∉ e.dirty.flags → e'.store v = f'.store v) := by
  obtain ⟨f', hf1, -, -, hf2, -⟩ := evaluateAll_recalculates hc' h hst now
  obtain ⟨e', he1, he2, he3, he4, he5, D, hD1, hD2, hD3, hD4⟩ := evaluateTargets_settled hc h hcyc now roots hroots (by
    intro S W vd s hdem _
    constructor
    · obtain ⟨W', hdem', -, -⟩ := demand_spec (clock_inv h now).ok roots hroots
      rw [hdem] at hdem'
      simp only [Option.some.injEq, Prod.mk.injEq] at hdem'
      obtain ⟨rfl, rfl, rfl⟩ := hdem'
      have hno : ((sortNat (W.filter (demanded { e with clock := now }))).any fun v => e.book.dynamic v) = false := by
        rw [List.any_eq_false]
        intro v hv
        have := (mem_demanded (clock_inv h now) W v).1 hv
        rw [hst v]
        · simp
        · rcases this.2 with h1 | h1
          · exact h1.1
          · have h2 : e.book.kind v = .name := h1
            rw [h2]; simp
      show changedVDeps _ _ _ _ = []
      unfold changedVDeps
      rw [if_neg]
      simp only [hno]
      simp
    · intro v hd
      by_cases hk : e.book.kind v = .value
      · rw [h.ok.empty v hk]
        simp [Formula.empty]
      · rw [hst v hk] at hd
        cases hd)
  have key : ∀ v, D v ∨ e.book.kind v = .value → e'.store v = f'.store v := by
    refine unique_on h.ok hst (clock := now) ?_ ?_ ?_ ?_
    · intro v d hv hr
      rcases hv with hv | hv
      · exact hD3 v d hv hr
      · exact absurd hr (h.ok.no_refs hv)
    · intro v _ hk
      rw [he5 v (Or.inl hk), hf2.values v hk]
    · intro v hv hk
      rcases hv with hv | hv
      · exact hD4 v hv hk
      · exact absurd hv hk
    · intro v _ hk
      exact hf2.formulas v hk
  exact ⟨e', f', he1, hf1, he2, he4, he3, fun r hr => key r (Or.inl (hD1 r hr)), fun v hk => he5 v (Or.inl hk),
    fun v hv => key v (Or.inl (hD2 v hv))⟩

end Verif.Recalc
