import Verif.Sched.Condense

/-!
# Cycle detection and evaluation order (C09, C10)

`Edge S adj x y`: `x` and `y` are requested and `x` depends directly on `y`. `Reach` is its reflexive transitive
closure; `TransGen (Edge S adj) v v` says `v` lies on a dependency cycle inside the request.
-/

namespace Verif.Sched

open Relation

/-! ## C10: components -/

/-- C10: every requested vertex is in exactly one component, once, and nothing else is. -/
theorem components_partition (S : List Nat) (adj : Nat → List Nat) :
    (∀ v, v ∈ (tarjan S adj).flatten ↔ v ∈ S) ∧ (tarjan S adj).flatten.Nodup ∧ ∀ c ∈ tarjan S adj, c ≠ [] :=
  ⟨(tarjan_isSccs S adj).mem, (tarjan_isSccs S adj).nodup, (tarjan_isSccs S adj).nonempty⟩

/-- C10: two requested vertices share a component exactly when each reaches the other through requested vertices. -/
theorem same_component_iff (S : List Nat) (adj : Nat → List Nat) (v w : Nat) (hv : v ∈ S) :
    (∃ c ∈ tarjan S adj, v ∈ c ∧ w ∈ c) ↔ Reach S adj v w ∧ Reach S adj w v := by
  have h := tarjan_isSccs S adj
  constructor
  · rintro ⟨c, hc, h1, h2⟩
    exact (h.classes c hc v h1 w).1 h2
  · intro hr
    obtain ⟨c, hc, h1⟩ := List.mem_flatten.1 ((h.mem v).2 hv)
    exact ⟨c, hc, h1, (h.classes c hc v h1 w).2 hr⟩

/-- C10: a component never depends on one that is listed later. -/
theorem components_ordered (S : List Nat) (adj : Nat → List Nat) :
    (tarjan S adj).Pairwise fun c c' => ∀ x ∈ c, ∀ z ∈ c', ¬ (x ∈ S ∧ z ∈ S ∧ z ∈ adj x) := (tarjan_isSccs S adj).order

theorem cyclic_members {S : List Nat} {g : Graph} {vd : VDeps} {cs : List (List Nat)} (h : IsSccs S (g.adj vd) cs)
    {c : List Nat} (hc : c ∈ cs) (hi : isCyclic g c = true) : ∀ x ∈ c, TransGen (Edge S (g.adj vd)) x x := by
  intro x hx
  have hsub : ∀ y ∈ c, y ∈ S := fun y hy => (h.mem y).1 (List.mem_flatten.2 ⟨c, hc, hy⟩)
  have hnd : c.Nodup := (List.pairwise_flatten.1 h.nodup).1 c hc
  unfold isCyclic at hi
  rw [Bool.or_eq_true, decide_eq_true_eq] at hi
  rcases hi with hi | hi
  · obtain ⟨y, hy, hne⟩ : ∃ y ∈ c, y ≠ x := by
      match c, hi, hx, hnd with
      | a :: b :: l, _, _, hnd =>
        by_cases e : a = x
        · refine ⟨b, by simp, fun e' => ?_⟩
          subst e
          simp [e'] at hnd
        · exact ⟨a, by simp, e⟩
    obtain ⟨h1, h2⟩ := (h.classes c hc x hx y).1 hy
    rcases reflTransGen_iff_eq_or_transGen.1 h1 with e | h1
    · exact absurd e hne
    · rcases reflTransGen_iff_eq_or_transGen.1 h2 with e | h2
      · exact absurd e.symm hne
      · exact h1.trans h2
  · match c, hi, hx with
    | [v], hi, hx =>
      simp only [List.mem_singleton] at hx
      subst hx
      simp only [decide_eq_true_eq] at hi
      exact .single ⟨hsub x (by simp), hsub x (by simp), List.mem_append.2 (Or.inl hi)⟩

theorem acyclic_members {S : List Nat} {g : Graph} {vd : VDeps} {cs : List (List Nat)} (h : IsSccs S (g.adj vd) cs)
    (hself : ∀ v, v ∈ vd v → v ∈ g.deps v) {c : List Nat} (hc : c ∈ cs) (hi : isCyclic g c = false) :
    (∃ v, c = [v]) ∧ ∀ x ∈ c, ¬ TransGen (Edge S (g.adj vd)) x x := by
  unfold isCyclic at hi
  rw [Bool.or_eq_false_iff, decide_eq_false_iff_not] at hi
  obtain ⟨v, rfl⟩ : ∃ v, c = [v] := by
    match c, hi.1, h.nonempty c hc with
    | [], _, hne => exact absurd rfl hne
    | [v], _, _ => exact ⟨v, rfl⟩
    | _ :: _ :: _, hl, _ => simp at hl
  refine ⟨⟨v, rfl⟩, ?_⟩
  intro x hx ht
  simp only [List.mem_singleton] at hx
  subst hx
  obtain ⟨w, he, hr⟩ := TransGen.head'_iff.1 ht
  have hw := (h.classes [x] hc x (by simp) w).2 ⟨.single he, hr⟩
  simp only [List.mem_singleton] at hw
  subst hw
  have hd : w ∉ g.deps w := by simpa using hi.2
  rcases List.mem_append.1 he.2.2 with h1 | h1
  · exact hd h1
  · exact hd (hself w h1)

/-- C10: exactly the vertices on a dependency cycle are reported as circular. The hypothesis on virtual dependencies
is discharged by their builder, which never records a vertex as its own virtual dependency
(virtual_deps.rs; see `virtual_self_dependency_missed` for what happens otherwise). -/
theorem cyclic_iff (S : List Nat) (g : Graph) (vd : VDeps) (hself : ∀ v, v ∈ vd v → v ∈ g.deps v) (v : Nat) :
    v ∈ (cyclesOf g (tarjan S (g.adj vd))).flatten ↔ TransGen (Edge S (g.adj vd)) v v := by
  have h := tarjan_isSccs S (g.adj vd)
  constructor
  · intro hv
    obtain ⟨c, hc, hvc⟩ := List.mem_flatten.1 hv
    rw [cyclesOf, List.mem_filter] at hc
    exact cyclic_members h hc.1 hc.2 v hvc
  · intro ht
    have hv : v ∈ S := by
      cases ht with
      | single he => exact he.1
      | tail _ he => exact he.2.1
    obtain ⟨c, hc, hvc⟩ := List.mem_flatten.1 ((h.mem v).2 hv)
    refine List.mem_flatten.2 ⟨c, ?_, hvc⟩
    rw [cyclesOf, List.mem_filter]
    refine ⟨hc, ?_⟩
    cases hi : isCyclic g c with
    | true => rfl
    | false => exact absurd ht ((acyclic_members h hself hc hi).2 v hvc)

/-- C10 without virtual dependencies: no hypothesis. -/
theorem cyclic_iff_base (S : List Nat) (g : Graph) (v : Nat) :
    v ∈ (cyclesOf g (tarjan S g.deps)).flatten ↔ TransGen (Edge S g.deps) v v := by
  have h := cyclic_iff S g (fun _ => []) (by simp) v
  have : g.adj (fun _ => []) = g.deps := by funext x; simp [Graph.adj]
  rwa [this] at h

/-- A graph with a cycle 1 → 2 → 3 → 1, a self-loop at 5, and 4 depending on the cycle. -/
def sampleGraph : Graph :=
  ⟨fun v => match v with | 1 => [2] | 2 => [3] | 3 => [1, 9] | 4 => [1] | 5 => [5] | _ => [],
   fun v => match v with | 1 => [3, 4] | 2 => [1] | 3 => [2] | 5 => [5] | 9 => [3] | _ => []⟩

example : tarjan [4, 1, 2, 3, 5, 6] sampleGraph.deps = [[3, 2, 1], [4], [5], [6]] := by decide
example : cyclesOf sampleGraph (tarjan [4, 1, 2, 3, 5, 6] sampleGraph.deps) = [[3, 2, 1], [5]] := by decide
/-- Left out of the request, 3 does not close the cycle. -/
example : cyclesOf sampleGraph (tarjan [4, 1, 2, 6] sampleGraph.deps) = [] := by decide

/-- A virtual dependency of a vertex on itself is a cycle that `separate_cycles` does not see; layer construction then
fails with the circular error instead of scheduling the vertex as a cycle. -/
theorem virtual_self_dependency_missed :
    ∃ (g : Graph) (vd : VDeps) (S : List Nat) (o : Orders), g.WF ∧ TransGen (Edge S (g.adj vd)) 1 1 ∧
      cyclesOf g (tarjan S (g.adj vd)) = [] ∧ createScheduleVirtual o g vd S matches .circ := by
  refine ⟨⟨fun _ => [], fun _ => []⟩, fun v => if v = 1 then [1] else [], [1], ⟨id, id⟩, ⟨by simp, by simp, by simp⟩,
    .single ⟨by simp, by simp, by simp [Graph.adj]⟩, by decide, by decide⟩

/-! ## C09: layers -/

theorem edge_congr {S T : List Nat} (h : ∀ v, v ∈ S ↔ v ∈ T) (adj : Nat → List Nat) : Edge S adj = Edge T adj := by
  funext x y
  simp only [Edge, h]

/-- C09: for any requested set, layer construction either returns a layering or reports a circular error, the latter
exactly when the set contains a cycle; it neither underflows an in-degree nor loops. -/
theorem buildLayers_spec (order : List Nat → List Nat) (hord : ∀ l, (order l).Perm l) (g : Graph) (hg : g.WF)
    (acyclic : List (List Nat)) (hn : acyclic.flatten.Nodup) :
    (∃ layers, buildLayers order g acyclic = .ok layers ∧ Layered acyclic.flatten g.deps layers) ∨
    (buildLayers order g acyclic = .circ ∧ ∃ v ∈ acyclic.flatten, TransGen (Edge acyclic.flatten g.deps) v v) := by
  unfold buildLayers
  simp only
  split
  · rename_i h
    exact Or.inl ⟨[], rfl, by rw [h]; exact .refl _, by simp, by simp⟩
  · refine layersFrom_spec decChecked (fun _ => rfl) order hord _ hn _ _ _ ?_ (fun v hv => inDeg_val hg hn v hv)
      (fun u _ v _ => (hg.inverse u v).symm)
    intro v hv
    simp [inDeg, hv]

/-- C09: the circular error is reported exactly when the requested set contains a dependency cycle. -/
theorem buildLayers_circ_iff (order : List Nat → List Nat) (hord : ∀ l, (order l).Perm l) (g : Graph) (hg : g.WF)
    (acyclic : List (List Nat)) (hn : acyclic.flatten.Nodup) :
    buildLayers order g acyclic = .circ ↔ ∃ v, TransGen (Edge acyclic.flatten g.deps) v v := by
  rcases buildLayers_spec order hord g hg acyclic hn with ⟨layers, h1, h2⟩ | ⟨h1, v, -, h2⟩
  · rw [h1]
    constructor
    · intro h; cases h
    · rintro ⟨v, hv⟩
      exact absurd hv (h2.acyclic hn v)
  · exact ⟨fun _ => ⟨v, h2⟩, fun _ => h1⟩

/-- C09: the layers do not depend on hash iteration order. -/
theorem buildLayers_deterministic (order order' : List Nat → List Nat) (hord : ∀ l, (order l).Perm l)
    (hord' : ∀ l, (order' l).Perm l) (g : Graph) (hg : g.WF) (acyclic : List (List Nat)) (hn : acyclic.flatten.Nodup) :
    buildLayers order g acyclic = buildLayers order' g acyclic := by
  unfold buildLayers
  simp only
  split
  · rfl
  · exact layersFrom_congr decChecked (fun _ => rfl) order order' hord hord' _ hn _ _ _ (fun _ _ => .refl _)
      (fun v hv => by simp [inDeg, hv]) (fun v hv => inDeg_val hg hn v hv)

/-- C09, with virtual dependencies: no hypothesis on the graph is needed, duplicates are removed by the code. -/
theorem buildLayersVirtual_spec (order : List Nat → List Nat) (hord : ∀ l, (order l).Perm l) (g : Graph) (vd : VDeps)
    (acyclic : List (List Nat)) (hn : acyclic.flatten.Nodup) :
    (∃ layers, buildLayersVirtual order g vd acyclic = .ok layers ∧ Layered acyclic.flatten (g.adj vd) layers) ∨
    (buildLayersVirtual order g vd acyclic = .circ ∧
      ∃ v ∈ acyclic.flatten, TransGen (Edge acyclic.flatten (g.adj vd)) v v) := by
  unfold buildLayersVirtual
  simp only
  split
  · rename_i h
    exact Or.inl ⟨[], rfl, by rw [h]; exact .refl _, by simp, by simp⟩
  · refine layersFrom_spec decSat (fun _ => rfl) order hord _ hn _ _ _ ?_ ?_ ?_
    · intro v hv; simp [hv]
    · intro v hv
      rw [if_pos hv]; exact combined_val order hord g vd hn v hv
    · intro u hu v hv
      rw [combinedOut_eq, List.mem_filter, decide_eq_true_eq, (hord _).mem_iff, combinedDeps_mem]
      simp [hu, hv]

/-- C09, with virtual dependencies: error exactly on a cycle. -/
theorem buildLayersVirtual_circ_iff (order : List Nat → List Nat) (hord : ∀ l, (order l).Perm l) (g : Graph) (vd : VDeps)
    (acyclic : List (List Nat)) (hn : acyclic.flatten.Nodup) :
    buildLayersVirtual order g vd acyclic = .circ ↔ ∃ v, TransGen (Edge acyclic.flatten (g.adj vd)) v v := by
  rcases buildLayersVirtual_spec order hord g vd acyclic hn with ⟨layers, h1, h2⟩ | ⟨h1, v, -, h2⟩
  · rw [h1]
    constructor
    · intro h; cases h
    · rintro ⟨v, hv⟩
      exact absurd hv (h2.acyclic hn v)
  · exact ⟨fun _ => ⟨v, h2⟩, fun _ => h1⟩

/-- C09, with virtual dependencies: the layers do not depend on hash iteration order. -/
theorem buildLayersVirtual_deterministic (order order' : List Nat → List Nat) (hord : ∀ l, (order l).Perm l)
    (hord' : ∀ l, (order' l).Perm l) (g : Graph) (vd : VDeps) (acyclic : List (List Nat))
    (hn : acyclic.flatten.Nodup) : buildLayersVirtual order g vd acyclic = buildLayersVirtual order' g vd acyclic := by
  unfold buildLayersVirtual
  simp only
  split
  · rfl
  · refine layersFrom_congr decSat (fun _ => rfl) order order' hord hord' _ hn _ _ _ ?_ ?_ ?_
    · intro u _
      rw [combinedOut_eq, combinedOut_eq]
      exact ((hord _).trans (hord' _).symm).filter _
    · intro v hv; simp [hv]
    · intro v hv
      rw [if_pos hv]; exact combined_val order hord g vd hn v hv

/-! ## C09: whole schedules -/

/-- What a schedule must satisfy. `steps` lists, in execution order, whether the step is a cycle and its vertices. -/
structure Valid (S : List Nat) (adj : Nat → List Nat) (steps : List (Bool × List Nat)) : Prop where
  /-- exactly the requested vertices are executed -/
  mem : ∀ v, v ∈ steps.flatMap Prod.snd ↔ v ∈ S
  /-- each once -/
  nodup : (steps.flatMap Prod.snd).Nodup
  /-- a requested dependency is executed in an earlier step, or is in the same cycle -/
  order : ∀ pre c b post, steps = pre ++ (c, b) :: post → ∀ v ∈ b, ∀ d ∈ adj v, d ∈ S →
    d ∈ pre.flatMap Prod.snd ∨ (c = true ∧ d ∈ b)
  /-- cycle steps are whole classes of mutually dependent vertices -/
  cyc : ∀ b, (true, b) ∈ steps → b ≠ [] ∧ ∀ x ∈ b, TransGen (Edge S adj) x x ∧
    ∀ y, y ∈ b ↔ Reach S adj x y ∧ Reach S adj y x
  /-- layer steps contain no vertex on a cycle -/
  acyc : ∀ b, (false, b) ∈ steps → b ≠ [] ∧ ∀ x ∈ b, ¬ TransGen (Edge S adj) x x

theorem steps_fromParts (layers : List (List Nat)) : (fromParts layers).steps = layers.map fun l => (false, l) := by
  unfold fromParts Schedule.steps
  simp only
  apply List.ext_getElem
  · simp
  · intro i h1 h2
    simp only [List.length_map, List.length_range] at h1
    simp [resolve, h1]

theorem valid_of_layered {S : List Nat} {adj : Nat → List Nat} {vertices : List Nat} {layers : List (List Nat)}
    (hm : ∀ v, v ∈ vertices ↔ v ∈ S) (hn : vertices.Nodup) (h : Layered vertices adj layers) :
    Valid S adj (fromParts layers).steps := by
  rw [steps_fromParts]
  have hflat : (layers.map fun l => (false, l)).flatMap Prod.snd = layers.flatten := by
    rw [List.flatMap_map, List.flatMap_def]; simp
  refine ⟨?_, ?_, ?_, ?_, ?_⟩
  · intro v; rw [hflat, h.perm.mem_iff, hm]
  · rw [hflat]; exact h.perm.nodup_iff.2 hn
  · intro pre c b post e v hv d hd hds
    rw [List.map_eq_append_iff] at e
    obtain ⟨pre', rest, rfl, rfl, e2⟩ := e
    rw [List.map_eq_cons_iff] at e2
    obtain ⟨w, post', rfl, e3, rfl⟩ := e2
    simp only [Prod.mk.injEq] at e3
    obtain ⟨rfl, rfl⟩ := e3
    left
    rw [List.flatMap_map, List.flatMap_def]
    simpa using h.before pre' w post' rfl v hv d hd ((hm d).2 hds)
  · intro b hb
    simp at hb
  · intro b hb
    simp only [List.mem_map, Prod.mk.injEq, true_and, exists_eq_right] at hb
    refine ⟨(h.sorted b hb).1, fun x _ => ?_⟩
    rw [← edge_congr hm adj]
    exact h.acyclic hn x

theorem filter_flatten_perm (p : List Nat → Bool) (cs : List (List Nat)) :
    ((cs.filter p).flatten ++ (cs.filter fun c => !p c).flatten).Perm cs.flatten := by
  rw [← List.flatten_append]
  exact List.Perm.flatten (List.filter_append_perm p cs)

/-- The nodes of the condensation are the components. -/
theorem nodeVs_mem_sccs {S : List Nat} {g : Graph} {vd : VDeps} {cs : List (List Nat)} (h : IsSccs S (g.adj vd) cs)
    (hself : ∀ v, v ∈ vd v → v ∈ g.deps v) (n : Nat)
    (hn : n < (cyclesOf g cs).length + (acyclicOf g cs).flatten.length) :
    nodeVs (cyclesOf g cs) (acyclicOf g cs).flatten n ∈ cs := by
  unfold nodeVs
  split
  · rename_i hi
    rw [List.getD_eq_getElem?_getD, List.getElem?_eq_getElem hi]
    have := List.getElem_mem hi
    exact (List.mem_filter.1 this).1
  · rename_i hi
    have hlt : n - (cyclesOf g cs).length < (acyclicOf g cs).flatten.length := by omega
    rw [List.getElem?_eq_getElem hlt]
    have hm := List.getElem_mem hlt
    generalize (acyclicOf g cs).flatten[n - (cyclesOf g cs).length] = v at hm
    obtain ⟨c, hc, hv⟩ := List.mem_flatten.1 hm
    obtain ⟨hc, hi'⟩ := List.mem_filter.1 hc
    obtain ⟨⟨w, rfl⟩, -⟩ := acyclic_members h hself hc (by simpa using hi')
    simp only [List.mem_singleton] at hv
    subst hv
    exact hc

theorem nodeVs_of_mem {cycles : List (List Nat)} {singles : List Nat} {v : Nat} (h : v ∈ cycles.flatten ++ singles) :
    ∃ n, n < cycles.length + singles.length ∧ v ∈ nodeVs cycles singles n := by
  rw [← flatMap_range_nodeVs, List.mem_flatMap] at h
  obtain ⟨n, h1, h2⟩ := h
  exact ⟨n, List.mem_range.1 h1, h2⟩

theorem waveSteps_perm (cycles : List (List Nat)) (singles : List Nat) (w : List Nat)
    (hw : ∀ n ∈ w, n < cycles.length + singles.length) :
    ((waveSteps cycles singles w).flatMap Prod.snd).Perm (w.flatMap (nodeVs cycles singles)) := by
  have hvs : ∀ l : List Nat, (∀ n ∈ l, n ≥ cycles.length ∧ n < cycles.length + singles.length) →
      (l.map fun n => singles.getD (n - cycles.length) 0) = l.flatMap (nodeVs cycles singles) := by
    intro l hl
    induction l with
    | nil => rfl
    | cons a l ih =>
      rw [List.map_cons, List.flatMap_cons, ih fun n hn => hl n (by simp [hn])]
      have ha := hl a (by simp)
      unfold nodeVs
      rw [if_neg (by omega), List.getD_eq_getElem?_getD, List.getElem?_eq_getElem (by omega)]
      rfl
  have hcs : ∀ l : List Nat, (∀ n ∈ l, n < cycles.length) →
      (l.map fun n => (true, cycles.getD n [])).flatMap Prod.snd = l.flatMap (nodeVs cycles singles) := by
    intro l hl
    induction l with
    | nil => rfl
    | cons a l ih =>
      rw [List.map_cons, List.flatMap_cons, List.flatMap_cons, ih fun n hn => hl n (by simp [hn])]
      congr 1
      unfold nodeVs
      rw [if_pos (hl a (by simp))]
  have hfp := List.filter_append_perm (fun n => decide (n < cycles.length)) w
  refine List.Perm.trans ?_ (hfp.flatMap_right _)
  rw [List.flatMap_append]
  unfold waveSteps
  simp only
  rw [List.flatMap_append]
  have hfe : (w.filter fun n => !decide (n < cycles.length)) = w.filter fun n => decide (n ≥ cycles.length) := by
    congr 1
    funext n
    by_cases h : n < cycles.length
    · have h2 : ¬ n ≥ cycles.length := by omega
      simp [h]
    · have h2 : n ≥ cycles.length := by omega
      simp [h, h2]
  refine List.Perm.append ?_ ?_
  · rw [hcs _ (fun n hn => by
      have := (sortKey_perm _ _).mem_iff.1 hn
      simpa using (List.mem_filter.1 this).2)]
    exact (sortKey_perm _ _).flatMap_right _
  · rw [hfe]
    have hb : ∀ n ∈ w.filter (fun n => decide (n ≥ cycles.length)), n ≥ cycles.length ∧ n < cycles.length + singles.length :=
      fun n hn => ⟨by simpa using (List.mem_filter.1 hn).2, hw n (List.mem_filter.1 hn).1⟩
    split
    · rename_i h
      rw [← hvs _ hb, h]; exact .refl _
    · simp only [List.flatMap_cons, List.flatMap_nil, List.append_nil]
      rw [hvs _ hb]
      exact sortNat_perm _

theorem waves_steps_perm (cycles : List (List Nat)) (singles : List Nat) (ws : List (List Nat))
    (hw : ∀ n ∈ ws.flatten, n < cycles.length + singles.length) :
    ((ws.flatMap (waveSteps cycles singles)).flatMap Prod.snd).Perm (ws.flatten.flatMap (nodeVs cycles singles)) := by
  induction ws with
  | nil => exact .refl _
  | cons w ws ih =>
    rw [List.flatMap_cons, List.flatMap_append, List.flatten_cons, List.flatMap_append]
    exact (waveSteps_perm _ _ _ fun n hn => hw n (by simp [hn])).append
      (ih fun n hn => hw n (by rw [List.flatten_cons, List.mem_append]; exact Or.inr hn))

/-- A member of a step of a wave belongs to a node of that wave; a cycle step is that node. -/
theorem mem_waveSteps {cycles : List (List Nat)} {singles : List Nat} {w : List Nat}
    (hw : ∀ n ∈ w, n < cycles.length + singles.length) {c : Bool} {b : List Nat} (hb : (c, b) ∈ waveSteps cycles singles w) :
    (c = true ∧ ∃ n ∈ w, n < cycles.length ∧ b = nodeVs cycles singles n) ∨
    (c = false ∧ b ≠ [] ∧ ∀ v ∈ b, ∃ n ∈ w, cycles.length ≤ n ∧ nodeVs cycles singles n = [v]) := by
  unfold waveSteps at hb
  simp only [List.mem_append, List.mem_map, Prod.mk.injEq] at hb
  rcases hb with ⟨n, hn, h1, h2⟩ | hb
  · left
    have := List.mem_filter.1 ((sortKey_perm _ _).mem_iff.1 hn)
    have hlt : n < cycles.length := by simpa using this.2
    refine ⟨h1.symm, n, this.1, hlt, ?_⟩
    rw [← h2, nodeVs, if_pos hlt]
  · right
    split at hb
    · simp at hb
    · rename_i hne
      simp only [List.mem_singleton, Prod.mk.injEq] at hb
      refine ⟨hb.1, ?_, ?_⟩
      · intro e
        rw [e] at hb
        have := (sortNat_perm ((w.filter fun n => decide (n ≥ cycles.length)).map fun n =>
          singles.getD (n - cycles.length) 0)).length_eq
        rw [← hb.2] at this
        exact hne (List.length_eq_zero_iff.1 this.symm)
      · intro v hv
        rw [hb.2] at hv
        obtain ⟨n, hn, hv⟩ := List.mem_map.1 ((sortNat_perm _).mem_iff.1 hv)
        have hf := List.mem_filter.1 hn
        have hge : n ≥ cycles.length := by simpa using hf.2
        refine ⟨n, hf.1, hge, ?_⟩
        have := hw n hf.1
        rw [nodeVs, if_neg (by omega)]
        rw [List.getD_eq_getElem?_getD, List.getElem?_eq_getElem (by omega)] at hv
        rw [List.getElem?_eq_getElem (by omega)]
        simpa using hv

/-- The waves over the condensation: what the code computes before emitting units. -/
theorem condensation_waves {S : List Nat} {g : Graph} {vd : VDeps} {cs : List (List Nat)} (h : IsSccs S (g.adj vd) cs)
    (hself : ∀ v, v ∈ vd v → v ∈ g.deps v) (order : List (Nat × Nat) → List (Nat × Nat)) (hord : ∀ l, (order l).Perm l) :
    ∃ ws, condensation order (g.adj vd) (cyclesOf g cs) (acyclicOf g cs) =
        .ok (ws.foldl (emitWave (cyclesOf g cs) (acyclicOf g cs).flatten) ([], [])) ∧
      ws.flatten.Perm (List.range ((cyclesOf g cs).length + (acyclicOf g cs).flatten.length)) ∧
      ∀ pre w post, ws = pre ++ w :: post → ∀ n ∈ w, ∀ v ∈ nodeVs (cyclesOf g cs) (acyclicOf g cs).flatten n,
        ∀ d ∈ g.adj vd v, ∀ m, d ∈ nodeVs (cyclesOf g cs) (acyclicOf g cs).flatten m → m ≠ n → m ∈ pre.flatten := by
  have hnd : ((cyclesOf g cs).flatten ++ (acyclicOf g cs).flatten).Nodup :=
    (filter_flatten_perm (isCyclic g) cs).nodup_iff.2 h.nodup
  have hmem := nodeVs_mem_sccs h hself
  generalize hC : cyclesOf g cs = C at *
  generalize hA : acyclicOf g cs = A at *
  unfold condensation
  simp only
  let edges := nodeEdges order (g.adj vd) (nodeEntries C A.flatten)
  let n := C.length + A.flatten.length
  have hE := mem_nodeEdges order hord (g.adj vd) hnd
  have hlt : ∀ e ∈ edges, e.2 < n := by
    intro e he
    obtain ⟨a, b⟩ := e
    obtain ⟨-, -, -, d, hd, -⟩ := (hE a b).1 he
    exact nodeVs_lt hd
  let deg : Nat → Option Nat := fun m => if m < n then some (edges.filter fun e => e.1 == m).length else none
  let outs : Nat → List Nat := fun m => (edges.filter fun e => e.2 == m).map Prod.fst
  have houts : ∀ a b, a ∈ outs b ↔ (a, b) ∈ edges := by
    intro a b
    simp only [outs, List.mem_map, List.mem_filter, beq_iff_eq, Prod.exists]
    constructor
    · rintro ⟨x, y, ⟨h1, rfl⟩, rfl⟩; exact h1
    · intro h1; exact ⟨a, b, ⟨h1, rfl⟩, rfl⟩
  have hk := KInv.start (nodes := List.range n) (outs := outs) (deg := deg) List.nodup_range
    (fun v hv => by
      simp only [List.mem_range] at hv
      simp [deg, hv])
    (fun v hv => by
      simp only [List.mem_range] at hv
      simp only [deg, hv, if_true]
      congr 1
      exact (countAux edges n hlt v).symm) _ (.refl _)
  obtain ⟨ws, L, hw, hr⟩ := waves_spec decChecked (fun _ => rfl) n hk (by
    have := hk.perm.length_eq
    simp only [List.nil_append, List.length_range] at this; omega)
  have hp : (ws.flatten ++ L).Perm (List.range n) := hr.perm.trans (by simpa using hk.perm)
  have hLn : ∀ m ∈ L, m < n := fun m hm => by
    have := hp.mem_iff.1 (List.mem_append.2 (Or.inr hm))
    simpa using this
  have hL : L = [] := by
    apply Decidable.byContradiction
    intro hL
    obtain ⟨a, ha, hc⟩ := exists_cycle L (fun x y => (x, y) ∈ edges) hL (by
      intro v hv
      obtain ⟨u, hu, ho⟩ := hr.stuck v hv
      exact ⟨u, hu, (houts v u).1 ho⟩)
    -- members of a node reach each other
    have hin : ∀ k, k < n → ∀ x ∈ nodeVs C A.flatten k, ∀ y ∈ nodeVs C A.flatten k, Reach S (g.adj vd) x y :=
      fun k hk' x hx y hy => ((h.classes _ (hmem k hk') x hx y).1 hy).1
    have hS : ∀ k x, x ∈ nodeVs C A.flatten k → x ∈ S := fun k x hx =>
      (h.mem x).1 (List.mem_flatten.2 ⟨_, hmem k (nodeVs_lt hx), hx⟩)
    have hstep : ∀ x y, (x, y) ∈ edges → ∀ u ∈ nodeVs C A.flatten x, ∀ v ∈ nodeVs C A.flatten y, Reach S (g.adj vd) u v := by
      intro x y he u hu v hv
      obtain ⟨-, a', ha', d, hd, hda⟩ := (hE x y).1 he
      have e1 := hin x (nodeVs_lt hu) u hu a' ha'
      have e2 := hin y (nodeVs_lt hv) d hd v hv
      exact (e1.tail ⟨hS x a' ha', hS y d hd, hda⟩).trans e2
    have hpath : ∀ x y, ReflTransGen (fun x y => (x, y) ∈ edges) x y → ∀ u ∈ nodeVs C A.flatten x,
        ∀ v ∈ nodeVs C A.flatten y, Reach S (g.adj vd) u v := by
      intro x y hxy
      induction hxy with
      | refl => intro u hu v hv; exact hin x (nodeVs_lt hu) u hu v hv
      | tail _ he ih =>
        rename_i b c _
        intro u hu v hv
        obtain ⟨-, b', hb', -⟩ := (hE b c).1 he
        exact (ih u hu b' hb').trans (hstep b c he b' hb' v hv)
    obtain ⟨b, he, hrest⟩ := TransGen.head'_iff.1 hc
    obtain ⟨hne, v, hv, d, hd, hda⟩ := (hE a b).1 he
    have r1 := hstep a b he v hv d hd
    have r2 := hpath b a hrest d hd v hv
    have hda' : d ∈ nodeVs C A.flatten a := (h.classes _ (hmem a (nodeVs_lt hv)) v hv d).2 ⟨r1, r2⟩
    exact hne (nodeVs_unique hnd hda' hd)
  subst hL
  rw [List.append_nil] at hp
  refine ⟨ws, ?_, hp, ?_⟩
  · show (match waves decChecked outs n deg ((List.range n).filter fun m => deg m == some 0) with
      | none => Res.broken
      | some ws => if ws.flatten.length ≠ n then .circ else .ok (ws.foldl (emitWave C A.flatten) ([], []))) = _
    rw [hw]
    simp only
    rw [if_neg (by have := hp.length_eq; simp only [List.length_range] at this; omega)]
  · intro pre w post e m hm v hv d hd k hk' hne
    exact hr.before e hm (List.mem_range.2 (nodeVs_lt hk')) ((houts m k).2 ((hE m k).2 ⟨fun e => hne e.symm, v, hv, d, hk', hd⟩))

theorem condensation_valid {S : List Nat} {g : Graph} {vd : VDeps} {cs : List (List Nat)} (h : IsSccs S (g.adj vd) cs)
    (hself : ∀ v, v ∈ vd v → v ∈ g.deps v) (order : List (Nat × Nat) → List (Nat × Nat)) (hord : ∀ l, (order l).Perm l) :
    ∃ r, condensation order (g.adj vd) (cyclesOf g cs) (acyclicOf g cs) = .ok r ∧
      Valid S (g.adj vd) (Schedule.steps ⟨r.1, cyclesOf g cs, r.2⟩) := by
  obtain ⟨ws, h1, hp, hb⟩ := condensation_waves h hself order hord
  obtain ⟨U, Ls, he, hsteps⟩ := emit_spec (cyclesOf g cs) (acyclicOf g cs).flatten ws [] []
  refine ⟨_, h1, ?_⟩
  have hnd : ((cyclesOf g cs).flatten ++ (acyclicOf g cs).flatten).Nodup :=
    (filter_flatten_perm (isCyclic g) cs).nodup_iff.2 h.nodup
  have hst : Schedule.steps ⟨(ws.foldl (emitWave (cyclesOf g cs) (acyclicOf g cs).flatten) ([], [])).1, cyclesOf g cs,
      (ws.foldl (emitWave (cyclesOf g cs) (acyclicOf g cs).flatten) ([], [])).2⟩ =
      ws.flatMap (waveSteps (cyclesOf g cs) (acyclicOf g cs).flatten) := by
    rw [he]
    have := hsteps []
    simpa [Schedule.steps] using this
  rw [hst]
  have hlt : ∀ n ∈ ws.flatten, n < (cyclesOf g cs).length + (acyclicOf g cs).flatten.length :=
    fun n hn => List.mem_range.1 (hp.mem_iff.1 hn)
  have hperm : ((ws.flatMap (waveSteps (cyclesOf g cs) (acyclicOf g cs).flatten)).flatMap Prod.snd).Perm cs.flatten := by
    refine (waves_steps_perm _ _ ws hlt).trans ((hp.flatMap_right _).trans ?_)
    rw [flatMap_range_nodeVs]
    exact filter_flatten_perm (isCyclic g) cs
  have hcyc : ∀ n, n < (cyclesOf g cs).length → nodeVs (cyclesOf g cs) (acyclicOf g cs).flatten n ∈ cs ∧
      isCyclic g (nodeVs (cyclesOf g cs) (acyclicOf g cs).flatten n) = true := by
    intro n hn
    rw [nodeVs, if_pos hn, List.getD_eq_getElem?_getD, List.getElem?_eq_getElem hn]
    exact List.mem_filter.1 (List.getElem_mem hn)
  have hsing : ∀ n v, (cyclesOf g cs).length ≤ n → nodeVs (cyclesOf g cs) (acyclicOf g cs).flatten n = [v] →
      ¬ TransGen (Edge S (g.adj vd)) v v := by
    intro n v hge hv
    rw [nodeVs, if_neg (by omega)] at hv
    have hvm : v ∈ (acyclicOf g cs).flatten := by
      cases hx : (acyclicOf g cs).flatten[n - (cyclesOf g cs).length]? with
      | none => rw [hx] at hv; simp at hv
      | some x =>
        rw [hx] at hv
        have e : x = v := by simpa using hv
        subst e
        exact List.mem_of_getElem? hx
    obtain ⟨c, hc, hvc⟩ := List.mem_flatten.1 hvm
    obtain ⟨hc, hi⟩ := List.mem_filter.1 hc
    exact (acyclic_members h hself hc (by simpa using hi)).2 v hvc
  refine ⟨?_, ?_, ?_, ?_, ?_⟩
  · intro v; rw [hperm.mem_iff]; exact h.mem v
  · exact hperm.nodup_iff.2 h.nodup
  · intro pre c b post e v hv d hd hds
    obtain ⟨wpre, w, wpost, a, c', e1, e2, e3⟩ := flatMap_split _ ws pre post (c, b) e
    have hww : ∀ n ∈ w, n < (cyclesOf g cs).length + (acyclicOf g cs).flatten.length :=
      fun n hn => hlt n (by rw [e1]; simp [hn])
    have hdm : d ∈ (cyclesOf g cs).flatten ++ (acyclicOf g cs).flatten :=
      (filter_flatten_perm (isCyclic g) cs).mem_iff.2 ((h.mem d).2 hds)
    obtain ⟨m, -, hm⟩ := nodeVs_of_mem hdm
    have hearlier : ∀ n ∈ w, v ∈ nodeVs (cyclesOf g cs) (acyclicOf g cs).flatten n → m ≠ n → d ∈ pre.flatMap Prod.snd := by
      intro n hn hvn hne
      have := hb wpre w wpost e1 n hn v hvn d hd m hm hne
      rw [e3, List.flatMap_append]
      refine List.mem_append.2 (Or.inl ?_)
      have hp' := waves_steps_perm (cyclesOf g cs) (acyclicOf g cs).flatten wpre (fun k hk => hlt k (by
        rw [e1, List.flatten_append]; exact List.mem_append.2 (Or.inl hk)))
      exact hp'.mem_iff.2 (List.mem_flatMap.2 ⟨m, this, hm⟩)
    rcases mem_waveSteps hww (by rw [e2]; simp : (c, b) ∈ _) with ⟨hc, n, hn, hnl, rfl⟩ | ⟨hc, -, hall⟩
    · by_cases hmn : m = n
      · subst hmn; exact Or.inr ⟨hc, hm⟩
      · exact Or.inl (hearlier n hn hv hmn)
    · obtain ⟨n, hn, hge, hnv⟩ := hall v hv
      by_cases hmn : m = n
      · subst hmn
        rw [hnv, List.mem_singleton] at hm
        subst hm
        exact absurd (.single ⟨hds, hds, hd⟩) (hsing m d hge hnv)
      · exact Or.inl (hearlier n hn (by rw [hnv]; simp) hmn)
  · intro b hb'
    obtain ⟨w, hw, hb'⟩ := List.mem_flatMap.1 hb'
    have hww : ∀ n ∈ w, n < (cyclesOf g cs).length + (acyclicOf g cs).flatten.length :=
      fun n hn => hlt n (List.mem_flatten.2 ⟨w, hw, hn⟩)
    rcases mem_waveSteps hww hb' with ⟨-, n, hn, hnl, rfl⟩ | ⟨hc, -⟩
    · obtain ⟨hc, hi⟩ := hcyc n hnl
      exact ⟨h.nonempty _ hc, fun x hx => ⟨cyclic_members h hc hi x hx, h.classes _ hc x hx⟩⟩
    · simp at hc
  · intro b hb'
    obtain ⟨w, hw, hb'⟩ := List.mem_flatMap.1 hb'
    have hww : ∀ n ∈ w, n < (cyclesOf g cs).length + (acyclicOf g cs).flatten.length :=
      fun n hn => hlt n (List.mem_flatten.2 ⟨w, hw, hn⟩)
    rcases mem_waveSteps hww hb' with ⟨hc, -⟩ | ⟨-, hne, hall⟩
    · simp at hc
    · refine ⟨hne, fun x hx => ?_⟩
      obtain ⟨n, -, hge, hnv⟩ := hall x hx
      exact hsing n x hge hnv

theorem no_cycles_acyclic {S : List Nat} {g : Graph} {vd : VDeps} {cs : List (List Nat)} (h : IsSccs S (g.adj vd) cs)
    (hself : ∀ v, v ∈ vd v → v ∈ g.deps v) (hc : cyclesOf g cs = []) (v : Nat) : ¬ TransGen (Edge S (g.adj vd)) v v := by
  intro ht
  have hv : v ∈ S := by
    cases ht with
    | single he => exact he.1
    | tail _ he => exact he.2.1
  obtain ⟨c, hcm, hvc⟩ := List.mem_flatten.1 ((h.mem v).2 hv)
  cases hi : isCyclic g c with
  | true =>
    have : c ∈ cyclesOf g cs := List.mem_filter.2 ⟨hcm, hi⟩
    rw [hc] at this; simp at this
  | false => exact (acyclic_members h hself hcm hi).2 v hvc ht

theorem acyclicOf_all {g : Graph} {cs : List (List Nat)} (hc : cyclesOf g cs = []) : acyclicOf g cs = cs := by
  unfold acyclicOf cyclesOf at *
  rw [List.filter_eq_nil_iff] at hc
  rw [List.filter_eq_self]
  intro c hm
  simpa using hc c hm

theorem adj_nil (g : Graph) : g.adj (fun _ => []) = g.deps := by funext x; simp [Graph.adj]

/-- C09: for every graph and every request, scheduling succeeds and the schedule is valid: every requested vertex is
executed exactly once, after all its requested dependencies except those in the same cycle; cycle steps are exactly the
classes of mutually dependent vertices. -/
theorem createSchedule_valid (o : Orders) (ho : ∀ l, (o.nat l).Perm l) (hp : ∀ l, (o.pair l).Perm l) (g : Graph)
    (hg : g.WF) (S : List Nat) : ∃ s, createSchedule o g S = .ok s ∧ Valid S g.deps s.steps := by
  have h := tarjan_isSccs S (g.adj fun _ => [])
  unfold createSchedule
  simp only
  split
  · rename_i hc
    have hac := no_cycles_acyclic h (by simp) hc
    rw [acyclicOf_all hc]
    rw [adj_nil] at *
    rcases buildLayers_spec o.nat ho g hg _ h.nodup with ⟨layers, h1, h2⟩ | ⟨-, v, -, h2⟩
    · rw [h1]
      exact ⟨_, rfl, valid_of_layered h.mem h.nodup h2⟩
    · rw [edge_congr h.mem] at h2
      exact absurd h2 (hac v)
  · obtain ⟨r, h1, h2⟩ := condensation_valid h (by simp) o.pair hp
    rw [adj_nil] at *
    rw [h1]
    exact ⟨_, rfl, h2⟩

/-- C09 with virtual dependencies. -/
theorem createScheduleVirtual_valid (o : Orders) (ho : ∀ l, (o.nat l).Perm l) (hp : ∀ l, (o.pair l).Perm l) (g : Graph)
    (vd : VDeps) (hself : ∀ v, v ∈ vd v → v ∈ g.deps v) (S : List Nat) :
    ∃ s, createScheduleVirtual o g vd S = .ok s ∧ Valid S (g.adj vd) s.steps := by
  have h := tarjan_isSccs S (g.adj vd)
  unfold createScheduleVirtual
  simp only
  split
  · rename_i hc
    have hac := no_cycles_acyclic h hself hc
    rw [acyclicOf_all hc]
    rcases buildLayersVirtual_spec o.nat ho g vd _ h.nodup with ⟨layers, h1, h2⟩ | ⟨-, v, -, h2⟩
    · rw [h1]
      exact ⟨_, rfl, valid_of_layered h.mem h.nodup h2⟩
    · rw [edge_congr h.mem] at h2
      exact absurd h2 (hac v)
  · obtain ⟨r, h1, h2⟩ := condensation_valid h hself o.pair hp
    rw [h1]
    exact ⟨_, rfl, h2⟩

/-! ## Schedules do not depend on hash iteration order -/

theorem minOf_mem : ∀ {l : List Nat}, l ≠ [] → minOf l ∈ l
  | [], h => absurd rfl h
  | [x], _ => by simp [minOf]
  | x :: y :: rest, _ => by
    have := minOf_mem (l := y :: rest) (by simp)
    unfold minOf
    rcases Nat.le_total x (minOf (y :: rest)) with h | h
    · rw [Nat.min_eq_left h]; simp
    · rw [Nat.min_eq_right h]; exact List.mem_cons.2 (Or.inr this)

theorem emitWave_congr {cycles : List (List Nat)} {singles : List Nat} (acc : List Unit × List (List Nat)) {w w' : List Nat}
    (h : w.Perm w') (hk : ∀ a b, a < cycles.length → b < cycles.length →
      minOf (cycles.getD a []) = minOf (cycles.getD b []) → a = b) :
    emitWave cycles singles acc w = emitWave cycles singles acc w' := by
  unfold emitWave
  have h1 : sortKey (fun n => minOf (cycles.getD n [])) (w.filter fun n => decide (n < cycles.length)) =
      sortKey (fun n => minOf (cycles.getD n [])) (w'.filter fun n => decide (n < cycles.length)) := by
    refine sortKey_congr (h.filter _) ?_
    intro a ha b hb e
    exact hk a b (by simpa using (List.mem_filter.1 ha).2) (by simpa using (List.mem_filter.1 hb).2) e
  have h2 := (h.filter fun n => decide (n ≥ cycles.length)).map fun n => singles.getD (n - cycles.length) 0
  have h3 := sortNat_congr h2
  simp only [h1, h3]
  by_cases hv : ((w.filter fun n => decide (n ≥ cycles.length)).map fun n => singles.getD (n - cycles.length) 0) = []
  · rw [if_pos hv]
    rw [hv] at h2
    rw [if_pos h2.symm.eq_nil]
  · rw [if_neg hv, if_neg]
    intro e
    rw [e] at h2
    exact hv h2.eq_nil

theorem emitAll_congr {cycles : List (List Nat)} {singles : List Nat} (hk : ∀ a b, a < cycles.length → b < cycles.length →
      minOf (cycles.getD a []) = minOf (cycles.getD b []) → a = b) :
    ∀ (ws ws' : List (List Nat)) (acc : List Unit × List (List Nat)), ws.length = ws'.length →
    (∀ i, (h : i < ws.length) → (h' : i < ws'.length) → (ws[i]).Perm ws'[i]) →
    ws.foldl (emitWave cycles singles) acc = ws'.foldl (emitWave cycles singles) acc
  | [], [], _, _, _ => rfl
  | [], _ :: _, _, h, _ => by simp at h
  | _ :: _, [], _, h, _ => by simp at h
  | w :: ws, w' :: ws', acc, h, hp => by
    have h0 : w.Perm w' := hp 0 (by simp) (by simp)
    rw [List.foldl_cons, List.foldl_cons, emitWave_congr acc h0 hk]
    exact emitAll_congr hk ws ws' _ (by simpa using h) fun i h1 h2 => hp (i + 1) (by simpa using h1) (by simpa using h2)

/-- The condensation units do not depend on hash iteration order. -/
theorem condensation_deterministic {S : List Nat} {g : Graph} {vd : VDeps} {cs : List (List Nat)}
    (h : IsSccs S (g.adj vd) cs) (order order' : List (Nat × Nat) → List (Nat × Nat))
    (hord : ∀ l, (order l).Perm l) (hord' : ∀ l, (order' l).Perm l) :
    condensation order (g.adj vd) (cyclesOf g cs) (acyclicOf g cs) =
      condensation order' (g.adj vd) (cyclesOf g cs) (acyclicOf g cs) := by
  have hnd : ((cyclesOf g cs).flatten ++ (acyclicOf g cs).flatten).Nodup :=
    (filter_flatten_perm (isCyclic g) cs).nodup_iff.2 h.nodup
  have hk : ∀ a b, a < (cyclesOf g cs).length → b < (cyclesOf g cs).length →
      minOf ((cyclesOf g cs).getD a []) = minOf ((cyclesOf g cs).getD b []) → a = b := by
    intro a b ha hb e
    have hmem : ∀ k, k < (cyclesOf g cs).length →
        minOf ((cyclesOf g cs).getD k []) ∈ nodeVs (cyclesOf g cs) (acyclicOf g cs).flatten k := by
      intro k hk
      rw [nodeVs, if_pos hk]
      apply minOf_mem
      rw [List.getD_eq_getElem?_getD, List.getElem?_eq_getElem hk]
      exact h.nonempty _ (List.mem_filter.1 (List.getElem_mem hk)).1
    exact nodeVs_unique hnd (hmem a ha) (by rw [e]; exact hmem b hb)
  generalize cyclesOf g cs = C at *
  generalize acyclicOf g cs = A at *
  unfold condensation
  simp only
  generalize hn : C.length + A.flatten.length = n
  have hperm : (nodeEdges order (g.adj vd) (nodeEntries C A.flatten)).Perm
      (nodeEdges order' (g.adj vd) (nodeEntries C A.flatten)) := by
    unfold nodeEdges
    exact ((hord _).trans (hord' _).symm).flatMap_right _
  have hlt : ∀ e ∈ nodeEdges order (g.adj vd) (nodeEntries C A.flatten), e.2 < n := by
    intro e he
    obtain ⟨a, b⟩ := e
    obtain ⟨-, -, -, d, hd, -⟩ := (mem_nodeEdges order hord (g.adj vd) hnd a b).1 he
    rw [← hn]; exact nodeVs_lt hd
  generalize nodeEdges order (g.adj vd) (nodeEntries C A.flatten) = E at *
  generalize nodeEdges order' (g.adj vd) (nodeEntries C A.flatten) = E' at *
  have hlt' : ∀ e ∈ E', e.2 < n := fun e he => hlt e (hperm.mem_iff.2 he)
  have hdeg : (fun m => if m < n then some (E.filter fun e => e.1 == m).length else none) =
      fun m => if m < n then some (E'.filter fun e => e.1 == m).length else none := by
    funext m
    rw [(hperm.filter _).length_eq]
  have hkinv : ∀ E : List (Nat × Nat), (∀ e ∈ E, e.2 < n) →
      KInv (List.range n) (fun m => (E.filter fun e => e.2 == m).map Prod.fst) []
        ((List.range n).filter fun m => (if m < n then some (E.filter fun e => e.1 == m).length else none) == some 0)
        ((List.range n).filter fun m => (if m < n then some (E.filter fun e => e.1 == m).length else none) != some 0)
        (fun m => if m < n then some (E.filter fun e => e.1 == m).length else none) := by
    intro E hlt
    refine KInv.start List.nodup_range ?_ ?_ _ (.refl _)
    · intro v hv
      simp only [List.mem_range] at hv
      simp [hv]
    · intro v hv
      simp only [List.mem_range] at hv
      simp only [hv, if_true]
      congr 1
      exact (countAux E n hlt v).symm
  have k1 := hkinv E hlt
  have k2 := hkinv E' hlt'
  have hlen : ∀ (q R : List Nat), ([] ++ q ++ R).Perm (List.range n) → (q ++ R).length ≤ n := fun q R h => by
    have := h.length_eq
    simp only [List.nil_append, List.length_range] at this
    omega
  obtain ⟨ws, L, hw, -⟩ := waves_spec decChecked (fun _ => rfl) n k1 (hlen _ _ k1.perm)
  obtain ⟨ws', L', hw', -⟩ := waves_spec decChecked (fun _ => rfl) n k2 (hlen _ _ k2.perm)
  rw [← hdeg] at k2 hw' ⊢
  have hq : ((List.range n).filter fun m => (if m < n then some (E'.filter fun e => e.1 == m).length else none) == some 0) =
      (List.range n).filter fun m => (if m < n then some (E.filter fun e => e.1 == m).length else none) == some 0 := by
    congr 1
    funext m
    rw [(hperm.filter _).length_eq]
  rw [hq] at k2 hw' ⊢
  obtain ⟨hl, hpw⟩ := waves_perm decChecked (fun _ => rfl) (fun u _ => (hperm.filter _).map _) n k1 k2 (.refl _) ws ws' hw hw'
  rw [hw, hw']
  simp only
  have hflat : ws.flatten.length = ws'.flatten.length := by
    have hmap : ws.map sortNat = ws'.map sortNat := by
      apply List.ext_getElem
      · simp [hl]
      · intro i h1 h2
        simp only [List.getElem_map]
        exact sortNat_congr (hpw i (by simpa using h1) (by simpa using h2))
    rw [← (flatten_map_sortNat_perm ws).length_eq, hmap, (flatten_map_sortNat_perm ws').length_eq]
  rw [hflat, emitAll_congr hk ws ws' _ hl hpw]

/-- C09: the whole schedule is independent of hash iteration order. -/
theorem createSchedule_deterministic (o o' : Orders) (ho : ∀ l, (o.nat l).Perm l) (hp : ∀ l, (o.pair l).Perm l)
    (ho' : ∀ l, (o'.nat l).Perm l) (hp' : ∀ l, (o'.pair l).Perm l) (g : Graph) (hg : g.WF) (S : List Nat) :
    createSchedule o g S = createSchedule o' g S := by
  have h := tarjan_isSccs S (g.adj fun _ => [])
  unfold createSchedule
  simp only
  split
  · rename_i hc
    rw [buildLayers_deterministic o.nat o'.nat ho ho' g hg _ (by rw [acyclicOf_all hc]; exact h.nodup)]
  · have := condensation_deterministic h o.pair o'.pair hp hp'
    rw [adj_nil] at *
    rw [this]

/-- C09: the whole schedule with virtual dependencies is independent of hash iteration order. -/
theorem createScheduleVirtual_deterministic (o o' : Orders) (ho : ∀ l, (o.nat l).Perm l) (hp : ∀ l, (o.pair l).Perm l)
    (ho' : ∀ l, (o'.nat l).Perm l) (hp' : ∀ l, (o'.pair l).Perm l) (g : Graph) (vd : VDeps) (S : List Nat) :
    createScheduleVirtual o g vd S = createScheduleVirtual o' g vd S := by
  have h := tarjan_isSccs S (g.adj vd)
  unfold createScheduleVirtual
  simp only
  split
  · rename_i hc
    rw [buildLayersVirtual_deterministic o.nat o'.nat ho ho' g vd _ (by rw [acyclicOf_all hc]; exact h.nodup)]
  · rw [condensation_deterministic h o.pair o'.pair hp hp']

/-- The sample graph satisfies the hypothesis. -/
example : (createSchedule ⟨List.reverse, List.reverse⟩ sampleGraph [4, 1, 2, 3, 5, 6]) matches
    .ok ⟨[.cycle 0, .cycle 1, .layer 0, .layer 1], [[3, 2, 1], [5]], [[6], [4]]⟩ := by decide

end Verif.Sched
