import Verif.Dirty.Model

/-!
# C15, C16: dirty propagation
-/

namespace Verif.Dirty

variable {V : Type} [DecidableEq V]

/-! ## Specification -/

/-- `v` reads `u`, directly, through a name or through a range. -/
def Graph.Dep (g : Graph V) (u v : V) : Prop := v ∈ g.direct u ∨ v ∈ g.nameDeps u ∨ v ∈ g.rangeDeps u

/-- `v` depends on `u` through one or more steps. -/
inductive Graph.Reaches (g : Graph V) : V → V → Prop
  | one {u v} : g.Dep u v → Graph.Reaches g u v
  | cons {u v w} : g.Dep u v → Graph.Reaches g v w → Graph.Reaches g u w

/-- The graph is finite, and a name bound to a cell also has a direct edge to it (names.rs 781-784 registers
both). -/
structure Graph.Ok (g : Graph V) : Prop where
  closed : ∀ u v, g.Dep u v → v ∈ g.vertices
  names : ∀ u v, v ∈ g.nameDeps u → v ∈ g.direct u

/-- What marking the sources must make dirty: the sources that are formulas, and everything that depends on
a source. -/
def Graph.MustMark (g : Graph V) (sources : List V) (v : V) : Prop :=
  (v ∈ sources ∧ g.isFormula v = true) ∨ ∃ s ∈ sources, g.Reaches s v

/-! ## Lemmas -/

theorem Graph.Reaches.tail {g : Graph V} {u v w : V} (h : g.Reaches u v) (h' : g.Dep v w) : g.Reaches u w := by
  induction h with
  | one h => exact .cons h (.one h')
  | cons h _ ih => exact .cons h (ih h')

theorem dep_iff {g : Graph V} (h : g.Ok) (u v : V) : g.Dep u v ↔ v ∈ g.direct u ++ g.rangeDeps u := by
  unfold Graph.Dep
  rw [List.mem_append]
  constructor
  · rintro (h1 | h1 | h1)
    · exact Or.inl h1
    · exact Or.inl (h.names u v h1)
    · exact Or.inr h1
  · rintro (h1 | h1)
    · exact Or.inl h1
    · exact Or.inr (Or.inr h1)

/-- Cost left: the stack and the dependents of the vertices not yet visited. -/
def cost (g : Graph V) (stack visited : List V) : Nat :=
  stack.length +
    (g.vertices.map fun v => if v ∈ visited then 0 else (g.direct v ++ g.rangeDeps v).length).sum

theorem sum_visit (deg : V → Nat) (l visited : List V) (id : V) (hid : id ∈ l) (hn : id ∉ visited) :
    (l.map fun v => if v ∈ id :: visited then 0 else deg v).sum + deg id
      ≤ (l.map fun v => if v ∈ visited then 0 else deg v).sum := by
  have mono : ∀ l : List V, (l.map fun v => if v ∈ id :: visited then 0 else deg v).sum
      ≤ (l.map fun v => if v ∈ visited then 0 else deg v).sum := by
    intro l
    induction l with
    | nil => simp
    | cons x xs ih =>
      simp only [List.map_cons, List.sum_cons, List.mem_cons] at *
      by_cases h1 : x ∈ visited
      · simp only [h1, or_true, if_true]; omega
      · by_cases h2 : x = id
        · subst h2; simp only [true_or, if_true]; omega
        · simp only [h1, h2, or_self, if_false]; omega
  induction l with
  | nil => cases hid
  | cons x xs ih =>
    simp only [List.map_cons, List.sum_cons]
    by_cases hx : x = id
    · subst hx
      have := mono xs
      simp only [List.mem_cons, true_or, if_true, hn, if_false] at *
      omega
    · have hm : id ∈ xs := by
        rcases List.mem_cons.1 hid with h | h
        · exact absurd h.symm hx
        · exact h
      have := ih hm
      simp only [List.mem_cons, hx, false_or] at *
      omega

theorem propagate_some {g : Graph V} (hg : g.Ok) (fuel : Nat) (stack visited : List V)
    (hs : ∀ v ∈ stack, v ∈ g.vertices) (hf : cost g stack visited < fuel) :
    ∃ r, propagate g fuel stack visited = some r := by
  induction fuel generalizing stack visited with
  | zero => omega
  | succ fuel ih =>
    cases stack with
    | nil => exact ⟨visited, rfl⟩
    | cons id stack =>
      simp only [propagate]
      split
      · apply ih
        · intro v hv; exact hs v (by simp [hv])
        · unfold cost at *; simp only [List.length_cons] at hf; omega
      · rename_i hn
        apply ih
        · intro v hv
          rcases List.mem_append.1 hv with hv | hv
          · exact hg.closed id v ((dep_iff hg id v).2 (List.mem_reverse.1 hv))
          · exact hs v (by simp [hv])
        · have := sum_visit (fun v => (g.direct v ++ g.rangeDeps v).length) g.vertices visited id
            (hs id (by simp)) hn
          unfold cost at *
          simp only [List.length_cons, List.length_append, List.length_reverse] at *
          omega

/-- What the loop has found when it stops: its start, and everything that depends on it. -/
theorem propagate_spec {g : Graph V} (hg : g.Ok) (fuel : Nat) (stack visited r : List V)
    (h : propagate g fuel stack visited = some r)
    (hinv : ∀ u ∈ visited, ∀ v, g.Dep u v → v ∈ visited ∨ v ∈ stack) :
    (∀ v, v ∈ r ↔ v ∈ visited ∨ v ∈ stack ∨ ∃ s ∈ stack, g.Reaches s v) := by
  induction fuel generalizing stack visited with
  | zero => cases h
  | succ fuel ih =>
    cases stack with
    | nil =>
      simp only [propagate, Option.some.injEq] at h
      subst h
      simp
    | cons id stack =>
      simp only [propagate] at h
      split at h
      · rename_i hin
        have hinv' : ∀ u ∈ visited, ∀ v, g.Dep u v → v ∈ visited ∨ v ∈ stack := by
          intro u hu v hd
          rcases hinv u hu v hd with h1 | h1
          · exact Or.inl h1
          · rcases List.mem_cons.1 h1 with rfl | h1
            · exact Or.inl hin
            · exact Or.inr h1
        have reach : ∀ u v, g.Reaches u v → u ∈ visited → v ∈ visited ∨ v ∈ stack ∨ ∃ s ∈ stack, g.Reaches s v := by
          intro u v hr
          induction hr with
          | one hd =>
            intro hu
            rcases hinv' _ hu _ hd with h1 | h1
            · exact Or.inl h1
            · exact Or.inr (Or.inl h1)
          | cons hd hr ih =>
            intro hu
            rcases hinv' _ hu _ hd with h1 | h1
            · exact ih h1
            · exact Or.inr (Or.inr ⟨_, h1, hr⟩)
        intro v
        rw [ih stack visited h hinv']
        constructor
        · rintro (h1 | h1 | ⟨s, hs, h1⟩)
          · exact Or.inl h1
          · exact Or.inr (Or.inl (by simp [h1]))
          · exact Or.inr (Or.inr ⟨s, by simp [hs], h1⟩)
        · rintro (h1 | h1 | ⟨s, hs, h1⟩)
          · exact Or.inl h1
          · rcases List.mem_cons.1 h1 with rfl | h1
            · exact Or.inl hin
            · exact Or.inr (Or.inl h1)
          · rcases List.mem_cons.1 hs with rfl | hs
            · exact reach _ _ h1 hin
            · exact Or.inr (Or.inr ⟨s, hs, h1⟩)
      · have hinv' : ∀ u ∈ id :: visited, ∀ v, g.Dep u v →
            v ∈ id :: visited ∨ v ∈ (g.direct id ++ g.rangeDeps id).reverse ++ stack := by
          intro u hu v hd
          rcases List.mem_cons.1 hu with rfl | hu
          · right
            rw [List.mem_append, List.mem_reverse]
            exact Or.inl ((dep_iff hg _ _).1 hd)
          · rcases hinv u hu v hd with h1 | h1
            · exact Or.inl (by simp [h1])
            · rcases List.mem_cons.1 h1 with rfl | h1
              · exact Or.inl (by simp)
              · exact Or.inr (by simp [h1])
        intro v
        rw [ih _ _ h hinv']
        simp only [List.mem_append, List.mem_reverse, List.mem_cons]
        have hd : ∀ w, (w ∈ g.direct id ∨ w ∈ g.rangeDeps id) ↔ g.Dep id w := by
          intro w; rw [dep_iff hg, List.mem_append]
        simp only [hd]
        constructor
        · rintro ((rfl | h1) | (h1 | h1) | ⟨s, (h2 | h2), h1⟩)
          · exact Or.inr (Or.inl (Or.inl rfl))
          · exact Or.inl h1
          · exact Or.inr (Or.inr ⟨id, Or.inl rfl, .one h1⟩)
          · exact Or.inr (Or.inl (Or.inr h1))
          · exact Or.inr (Or.inr ⟨id, Or.inl rfl, .cons h2 h1⟩)
          · exact Or.inr (Or.inr ⟨s, Or.inr h2, h1⟩)
        · rintro (h1 | (rfl | h1) | ⟨s, (rfl | h2), h1⟩)
          · exact Or.inl (Or.inr h1)
          · exact Or.inl (Or.inl rfl)
          · exact Or.inr (Or.inl (Or.inr h1))
          · cases h1 with
            | one h => exact Or.inr (Or.inl (Or.inl h))
            | cons h h' => exact Or.inr (Or.inr ⟨_, Or.inl h, h'⟩)
          · exact Or.inr (Or.inr ⟨s, Or.inr h2, h1⟩)

theorem mem_seeds {g : Graph V} (sources : List V) (v : V) :
    v ∈ seeds g sources ↔ (v ∈ sources ∧ g.isFormula v = true) ∨ ∃ s ∈ sources, g.Dep s v := by
  unfold seeds Graph.Dep
  simp only [List.mem_flatMap, List.mem_append]
  constructor
  · rintro ⟨s, hs, ((h | h) | h) | h⟩
    · split at h
      · simp only [List.mem_singleton] at h; subst h; exact Or.inl ⟨hs, by assumption⟩
      · cases h
    · exact Or.inr ⟨s, hs, Or.inl h⟩
    · exact Or.inr ⟨s, hs, Or.inr (Or.inl h)⟩
    · exact Or.inr ⟨s, hs, Or.inr (Or.inr h)⟩
  · rintro (⟨hs, hf⟩ | ⟨s, hs, h | h | h⟩)
    · exact ⟨v, hs, Or.inl (Or.inl (Or.inl (by simp [hf])))⟩
    · exact ⟨s, hs, Or.inl (Or.inl (Or.inr h))⟩
    · exact ⟨s, hs, Or.inl (Or.inr h)⟩
    · exact ⟨s, hs, Or.inr h⟩

theorem reach_seeds {g : Graph V} (sources : List V) (v : V) :
    (v ∈ seeds g sources ∨ ∃ s ∈ seeds g sources, g.Reaches s v) ↔ g.MustMark sources v := by
  unfold Graph.MustMark
  simp only [mem_seeds]
  constructor
  · rintro ((h | ⟨s, hs, h⟩) | ⟨s, (⟨hs, -⟩ | ⟨t, ht, h⟩), h'⟩)
    · exact Or.inl h
    · exact Or.inr ⟨s, hs, .one h⟩
    · exact Or.inr ⟨s, hs, h'⟩
    · exact Or.inr ⟨t, ht, .cons h h'⟩
  · rintro (h | ⟨s, hs, h⟩)
    · exact Or.inl (Or.inl h)
    · cases h with
      | one h => exact Or.inl (Or.inr ⟨s, hs, h⟩)
      | cons h h' => exact Or.inr ⟨_, Or.inr ⟨s, hs, h⟩, h'⟩

theorem sum_zero_visited (g : Graph V) (stack : List V) : cost g stack [] < stepBound g stack := by
  unfold cost stepBound
  simp

/-! ## C15 -/

/-- **C15** Marking always terminates, on cyclic graphs too. -/
theorem mark_terminates {g : Graph V} (hg : g.Ok) (s : State V) (sources : List V)
    (hs : ∀ v ∈ sources, v ∈ g.vertices) : ∃ r, markDirtyMany g s sources = some r := by
  unfold markDirtyMany
  split
  · exact ⟨_, rfl⟩
  · obtain ⟨r, hr⟩ := propagate_some hg (stepBound g (seeds g sources).reverse) (seeds g sources).reverse []
      (by
        intro v hv
        rw [List.mem_reverse, mem_seeds] at hv
        rcases hv with ⟨h, -⟩ | ⟨t, ht, h⟩
        · exact hs v h
        · exact hg.closed t v h)
      (sum_zero_visited g _)
    simp only [hr]
    exact ⟨_, rfl⟩

/-- **C15** Outside a deferred scope, marking sources adds to the dirty flags exactly the formulas among the
sources and everything that depends on a source, whatever was dirty before; the dirty set and the reported
affected vertices also contain the sources themselves. -/
theorem mark_exact {g : Graph V} (hg : g.Ok) {s s' : State V} {sources affected : List V} (hd : s.depth = 0)
    (h : markDirtyMany g s sources = some (s', affected)) :
    (∀ v, v ∈ s'.flags ↔ v ∈ s.flags ∨ g.MustMark sources v) ∧
    (∀ v, v ∈ s'.dirtySet ↔ v ∈ s.dirtySet ∨ v ∈ sources ∨ g.MustMark sources v) ∧
    (∀ v, v ∈ affected ↔ v ∈ sources ∨ g.MustMark sources v) ∧
    s'.depth = 0 ∧ s'.pending = s.pending := by
  unfold markDirtyMany at h
  rw [if_neg (by omega)] at h
  simp only at h
  split at h
  · cases h
  · rename_i visited hp
    simp only [Option.some.injEq, Prod.mk.injEq] at h
    obtain ⟨rfl, rfl⟩ := h
    have hv : ∀ v, v ∈ visited ↔ g.MustMark sources v := by
      intro v
      rw [propagate_spec hg _ _ _ _ hp (by simp) v, ← reach_seeds]
      simp
    have ha : ∀ v, v ∈ visited ++ sources.filter (fun v => !g.isFormula v) ↔ v ∈ sources ∨ g.MustMark sources v := by
      intro v
      rw [List.mem_append, hv, List.mem_filter]
      constructor
      · rintro (h | h)
        · exact Or.inr h
        · exact Or.inl h.1
      · rintro (h | h)
        · by_cases hf : g.isFormula v = true
          · exact Or.inl (Or.inl ⟨h, hf⟩)
          · exact Or.inr ⟨h, by simpa using hf⟩
        · exact Or.inl h
    refine ⟨?_, ?_, ha, hd, rfl⟩
    · intro v
      simp only [List.mem_append, hv]
      exact Or.comm
    · intro v
      rw [List.mem_append, ha]
      exact Or.comm

theorem mustMark_append (g : Graph V) (a b : List V) (v : V) :
    g.MustMark (a ++ b) v ↔ g.MustMark a v ∨ g.MustMark b v := by
  unfold Graph.MustMark
  simp only [List.mem_append]
  constructor
  · rintro (⟨h | h, hf⟩ | ⟨s, h | h, hr⟩)
    · exact Or.inl (Or.inl ⟨h, hf⟩)
    · exact Or.inr (Or.inl ⟨h, hf⟩)
    · exact Or.inl (Or.inr ⟨s, h, hr⟩)
    · exact Or.inr (Or.inr ⟨s, h, hr⟩)
  · rintro ((⟨h, hf⟩ | ⟨s, h, hr⟩) | (⟨h, hf⟩ | ⟨s, h, hr⟩))
    · exact Or.inl ⟨Or.inl h, hf⟩
    · exact Or.inr ⟨s, Or.inl h, hr⟩
    · exact Or.inl ⟨Or.inr h, hf⟩
    · exact Or.inr ⟨s, Or.inr h, hr⟩

/-- Marking one source after another. -/
def markEach (g : Graph V) (s : State V) (sources : List V) : Option (State V) :=
  match sources with
  | [] => some s
  | v :: rest =>
    match markDirty g s v with
    | none => none
    | some (s', _) => markEach g s' rest

/-- The two states have the same dirty flags, the same dirty set, and the same deferred scope. -/
def State.Same (a b : State V) : Prop :=
  (∀ v, v ∈ a.flags ↔ v ∈ b.flags) ∧ (∀ v, v ∈ a.dirtySet ↔ v ∈ b.dirtySet) ∧ a.depth = b.depth ∧
  (∀ v, v ∈ a.pending ↔ v ∈ b.pending)

theorem markEach_spec {g : Graph V} (hg : g.Ok) {s s' : State V} {sources : List V} (hd : s.depth = 0)
    (h : markEach g s sources = some s') :
    (∀ v, v ∈ s'.flags ↔ v ∈ s.flags ∨ g.MustMark sources v) ∧
    (∀ v, v ∈ s'.dirtySet ↔ v ∈ s.dirtySet ∨ v ∈ sources ∨ g.MustMark sources v) ∧
    s'.depth = 0 ∧ s'.pending = s.pending := by
  induction sources generalizing s with
  | nil =>
    simp only [markEach, Option.some.injEq] at h
    subst h
    simp [Graph.MustMark, hd]
  | cons x xs ih =>
    simp only [markEach] at h
    split at h
    · cases h
    · rename_i s1 a1 hm
      obtain ⟨h1, h2, -, h3, h4⟩ := mark_exact hg hd hm
      obtain ⟨k1, k2, k3, k4⟩ := ih h3 h
      have e := fun v => mustMark_append g [x] xs v
      simp only [List.singleton_append] at e
      refine ⟨?_, ?_, k3, by rw [k4, h4]⟩
      · intro v; rw [k1, h1, e]; exact or_assoc
      · intro v; rw [k2, h2, e]; simp only [List.mem_cons, List.not_mem_nil, or_false]
        constructor
        · rintro ((h | h | h) | h | h)
          · exact Or.inl h
          · exact Or.inr (Or.inl (Or.inl h))
          · exact Or.inr (Or.inr (Or.inl h))
          · exact Or.inr (Or.inl (Or.inr h))
          · exact Or.inr (Or.inr (Or.inr h))
        · rintro (h | (h | h) | (h | h))
          · exact Or.inl (Or.inl h)
          · exact Or.inl (Or.inr (Or.inl h))
          · exact Or.inr (Or.inl h)
          · exact Or.inl (Or.inr (Or.inr h))
          · exact Or.inr (Or.inr h)

theorem markEach_some {g : Graph V} (hg : g.Ok) (s : State V) (sources : List V)
    (hs : ∀ v ∈ sources, v ∈ g.vertices) : ∃ s', markEach g s sources = some s' := by
  induction sources generalizing s with
  | nil => exact ⟨s, rfl⟩
  | cons x xs ih =>
    obtain ⟨r, hr⟩ := mark_terminates hg s [x] (by intro v hv; exact hs v (by simp_all))
    simp only [markEach, markDirty, hr]
    exact ih _ fun v hv => hs v (by simp [hv])

/-- **C15** Marking many sources at once equals marking them one after another, in any order and with
repetitions. -/
theorem mark_many_eq_each {g : Graph V} (hg : g.Ok) (s : State V) (hd : s.depth = 0) (a b : List V)
    (hs : ∀ v ∈ a, v ∈ g.vertices) (hab : ∀ v, v ∈ a ↔ v ∈ b) :
    ∃ sa aff sb, markDirtyMany g s a = some (sa, aff) ∧ markEach g s b = some sb ∧ sa.Same sb := by
  obtain ⟨⟨sa, aff⟩, ha⟩ := mark_terminates hg s a hs
  obtain ⟨sb, hb⟩ := markEach_some hg s b fun v hv => hs v ((hab v).2 hv)
  obtain ⟨a1, a2, -, a3, a4⟩ := mark_exact hg hd ha
  obtain ⟨b1, b2, b3, b4⟩ := markEach_spec hg hd hb
  have hm : ∀ v, g.MustMark a v ↔ g.MustMark b v := by
    intro v
    unfold Graph.MustMark
    simp only [hab]
  refine ⟨sa, aff, sb, ha, hb, ?_, ?_, by rw [a3, b3], by rw [a4, b4]; exact fun _ => Iff.rfl⟩
  · intro v; rw [a1, b1, hm]
  · intro v; rw [a2, b2, hm, hab]

/-- **C15** After marking, every active formula among or depending on the sources is scheduled, along with what
was scheduled before, and nothing else. -/
theorem mark_schedules {g : Graph V} (hg : g.Ok) {s s' : State V} {sources affected : List V} (hd : s.depth = 0)
    (h : markDirtyMany g s sources = some (s', affected)) (active : V → Bool) (volatile : List V) (v : V) :
    v ∈ evaluationVertices g active s' volatile ↔
      v ∈ evaluationVertices g active s volatile ∨
      (active v = true ∧ g.isFormula v = true ∧ (v ∈ sources ∨ ∃ t ∈ sources, g.Reaches t v)) := by
  obtain ⟨-, h2, -, -, -⟩ := mark_exact hg hd h
  unfold evaluationVertices
  simp only [List.mem_filter, List.mem_eraseDups, List.mem_append, h2, Bool.and_eq_true, Graph.MustMark]
  constructor
  · rintro ⟨(h | h | ⟨h, -⟩ | h) | h, ha, hf⟩
    · exact Or.inl ⟨Or.inl h, ha, hf⟩
    · exact Or.inr ⟨ha, hf, Or.inl h⟩
    · exact Or.inr ⟨ha, hf, Or.inl h⟩
    · exact Or.inr ⟨ha, hf, Or.inr h⟩
    · exact Or.inl ⟨Or.inr h, ha, hf⟩
  · rintro (⟨h | h, ha, hf⟩ | ⟨ha, hf, h | h⟩)
    · exact ⟨Or.inl (Or.inl h), ha, hf⟩
    · exact ⟨Or.inr h, ha, hf⟩
    · exact ⟨Or.inl (Or.inr (Or.inl h)), ha, hf⟩
    · exact ⟨Or.inl (Or.inr (Or.inr (Or.inr h))), ha, hf⟩

/-- **C15** Clearing the evaluated vertices leaves exactly the others scheduled (volatile formulas stay scheduled),
with their flags. -/
theorem clear_schedules (g : Graph V) (s : State V) (vs : List V) (active : V → Bool) (volatile : List V) (v : V) :
    (v ∈ evaluationVertices g active (clearDirty s vs) volatile ↔
      v ∈ evaluationVertices g active s volatile ∧ (v ∉ vs ∨ v ∈ volatile)) ∧
    (v ∈ (clearDirty s vs).flags ↔ v ∈ s.flags ∧ v ∉ vs) ∧
    (clearDirty s vs).depth = s.depth ∧ (clearDirty s vs).pending = s.pending := by
  refine ⟨?_, by simp [clearDirty], rfl, rfl⟩
  simp only [evaluationVertices, clearDirty, List.mem_filter, List.mem_eraseDups, List.mem_append,
    decide_eq_true_eq]
  constructor
  · rintro ⟨⟨h1, h2⟩ | h, ha⟩
    · exact ⟨⟨Or.inl h1, ha⟩, Or.inl h2⟩
    · exact ⟨⟨Or.inr h, ha⟩, Or.inr h⟩
  · rintro ⟨⟨h1 | h1, ha⟩, h2 | h2⟩
    · exact ⟨Or.inl ⟨h1, h2⟩, ha⟩
    · exact ⟨Or.inr h2, ha⟩
    · exact ⟨Or.inr h1, ha⟩
    · exact ⟨Or.inr h2, ha⟩

/-- A cyclic graph: 1 → 2 → 3 → 1 and 3 → 4; 0 is a value read by 1 through a range. -/
def exGraph : Graph Nat where
  vertices := [0, 1, 2, 3, 4]
  isFormula := fun v => v != 0
  direct := fun v => if v = 1 then [2] else if v = 2 then [3] else if v = 3 then [1, 4] else []
  nameDeps := fun v => if v = 2 then [3] else []
  rangeDeps := fun v => if v = 0 then [1] else []
  exists_ := fun _ => true

theorem exGraph_ok : exGraph.Ok := by
  have hd : ∀ u v, exGraph.Dep u v → v ∈ [1, 2, 3, 4] := by
    intro u v h
    simp only [Graph.Dep, exGraph] at h
    rcases h with h | h | h <;> (repeat' split at h) <;> simp at h <;> simp <;> omega
  constructor
  · intro u v h
    have := hd u v h
    simp [exGraph] at this ⊢
    omega
  · intro u v h
    simp only [exGraph] at *
    repeat' split at h
    · rename_i h2; subst h2; simpa using h
    · cases h

example : ∃ s, markDirtyMany exGraph {} [0] = some (s, [4, 3, 2, 1, 0]) ∧ s.flags = [4, 3, 2, 1] := by
  refine ⟨{ flags := [4, 3, 2, 1], dirtySet := [4, 3, 2, 1, 0] }, rfl, rfl⟩

/-! ## C16 -/

/-- What happens during a batch. `edit u g'` is an edit of vertex `u` that changes the graph to `g'` and then marks
`u` (graph/mod.rs `set_cell_value`, `set_cell_formula`). -/
inductive Step (V : Type)
  | begin_
  | finish
  | mark (sources : List V)
  | edit (u : V) (g' : Graph V)

/-- The code: scopes queue the markings. -/
def runDeferred (g : Graph V) (s : State V) : List (Step V) → Option (Graph V × State V)
  | [] => some (g, s)
  | .begin_ :: rest => runDeferred g (beginDeferred s) rest
  | .finish :: rest =>
    match endDeferred g s with
    | none => none
    | some (s', _) => runDeferred g s' rest
  | .mark vs :: rest =>
    match markDirtyMany g s vs with
    | none => none
    | some (s', _) => runDeferred g s' rest
  | .edit u g' :: rest =>
    match markDirtyMany g' s [u] with
    | none => none
    | some (s', _) => runDeferred g' s' rest

/-- Specification: the scopes are ignored, every marking happens at once. -/
def runImmediate (g : Graph V) (s : State V) : List (Step V) → Option (Graph V × State V)
  | [] => some (g, s)
  | .begin_ :: rest => runImmediate g s rest
  | .finish :: rest => runImmediate g s rest
  | .mark vs :: rest =>
    match markDirtyMany g s vs with
    | none => none
    | some (s', _) => runImmediate g s' rest
  | .edit u g' :: rest =>
    match markDirtyMany g' s [u] with
    | none => none
    | some (s', _) => runImmediate g' s' rest

/-- An edit of `u` changes only what `u` reads and the kind of `u`. -/
structure EditOf (g : Graph V) (u : V) (g' : Graph V) : Prop where
  deps : ∀ x y, y ≠ u → (g.Dep x y ↔ g'.Dep x y)
  kind : ∀ y, y ≠ u → g.isFormula y = g'.isFormula y

/-- The graph is well formed and none of its vertices has been deleted. -/
structure Fit (g : Graph V) : Prop where
  ok : g.Ok
  live : ∀ v, g.exists_ v = true

/-- A well-formed batch starting in graph `g` at scope depth `d`: every graph along the way is well formed, the
marked vertices exist, no scope is ended that was not begun, and all scopes are ended at the end. -/
def Valid (g : Graph V) (d : Nat) : List (Step V) → Prop
  | [] => d = 0
  | .begin_ :: rest => Valid g (d + 1) rest
  | .finish :: rest => 0 < d ∧ Valid g (d - 1) rest
  | .mark vs :: rest => (∀ v ∈ vs, v ∈ g.vertices) ∧ Valid g d rest
  | .edit u g' :: rest => u ∈ g'.vertices ∧ (∀ v ∈ g.vertices, v ∈ g'.vertices) ∧ Fit g' ∧ EditOf g u g' ∧ Valid g' d rest

theorem reach_split {g g' : Graph V} {u : V} (he : EditOf g u g') {a b : V} (h : g.Reaches a b) :
    g'.Reaches a b ∨ b = u ∨ g'.Reaches u b := by
  induction h with
  | @one a b h =>
    by_cases hb : b = u
    · exact Or.inr (Or.inl hb)
    · exact Or.inl (.one ((he.deps a b hb).1 h))
  | @cons a b c h _ ih =>
    rcases ih with h1 | h1 | h1
    · by_cases hb : b = u
      · subst hb; exact Or.inr (Or.inr h1)
      · exact Or.inl (.cons ((he.deps a b hb).1 h) h1)
    · exact Or.inr (Or.inl h1)
    · exact Or.inr (Or.inr h1)

theorem EditOf.symm {g g' : Graph V} {u : V} (h : EditOf g u g') : EditOf g' u g :=
  ⟨fun x y hy => (h.deps x y hy).symm, fun y hy => (h.kind y hy).symm⟩

theorem reach_back {g g' : Graph V} {u : V} (he : EditOf g u g') {a b : V} (h : g'.Reaches a b) :
    g.Reaches a b ∨ b = u ∨ g'.Reaches u b := by
  induction h with
  | @one a b h =>
    by_cases hb : b = u
    · exact Or.inr (Or.inl hb)
    · exact Or.inl (.one ((he.deps a b hb).2 h))
  | @cons a b c h hr ih =>
    rcases ih with h1 | h1 | h1
    · by_cases hb : b = u
      · subst hb; exact Or.inr (Or.inr hr)
      · exact Or.inl (.cons ((he.deps a b hb).2 h) h1)
    · exact Or.inr (Or.inl h1)
    · exact Or.inr (Or.inr h1)

/-- What is owed after an edit of `u`: what was owed before, and what the edit itself owes. -/
theorem mustMark_edit {g g' : Graph V} {u : V} (he : EditOf g u g') (p : List V) (v : V)
    (hf : g'.isFormula v = true) :
    (g'.MustMark (p ++ [u]) v) ↔ (v ≠ u ∧ g.MustMark p v) ∨ g'.MustMark [u] v := by
  rw [mustMark_append]
  constructor
  · rintro (h | h)
    · by_cases hv : v = u
      · subst hv; exact Or.inr (Or.inl ⟨by simp, hf⟩)
      · rcases h with ⟨h, -⟩ | ⟨s, hs, h⟩
        · exact Or.inl ⟨hv, Or.inl ⟨h, by rw [he.kind v hv]; exact hf⟩⟩
        · rcases reach_back he h with h1 | h1 | h1
          · exact Or.inl ⟨hv, Or.inr ⟨s, hs, h1⟩⟩
          · exact absurd h1 hv
          · exact Or.inr (Or.inr ⟨u, by simp, h1⟩)
    · exact Or.inr h
  · rintro (⟨hv, h⟩ | h)
    · rcases h with ⟨h, -⟩ | ⟨s, hs, h⟩
      · exact Or.inl (Or.inl ⟨h, hf⟩)
      · rcases reach_split he h with h1 | h1 | h1
        · exact Or.inl (Or.inr ⟨s, hs, h1⟩)
        · exact absurd h1 hv
        · exact Or.inr (Or.inr ⟨u, by simp, h1⟩)
    · exact Or.inr h

/-- The two runs agree on formulas, up to what the queue still owes. -/
structure Rel (g : Graph V) (d : Nat) (sd si : State V) : Prop where
  depth : sd.depth = d
  idepth : si.depth = 0
  idle : d = 0 → sd.pending = []
  known : ∀ v ∈ sd.pending, v ∈ g.vertices
  flags : ∀ v, g.isFormula v = true → (v ∈ si.flags ↔ v ∈ sd.flags ∨ g.MustMark sd.pending v)
  set_ : ∀ v, g.isFormula v = true → (v ∈ si.dirtySet ↔ v ∈ sd.dirtySet ∨ g.MustMark sd.pending v)

theorem mustMark_nil (g : Graph V) (v : V) : ¬ g.MustMark [] v := by
  simp [Graph.MustMark]

theorem run_rel (ops : List (Step V)) (g : Graph V) (d : Nat) (sd si : State V) (hfit : Fit g)
    (hv : Valid g d ops) (h : Rel g d sd si) :
    ∃ gf sdf sif, runDeferred g sd ops = some (gf, sdf) ∧ runImmediate g si ops = some (gf, sif) ∧
      Rel gf 0 sdf sif := by
  induction ops generalizing g d sd si with
  | nil =>
    simp only [Valid] at hv
    subst hv
    exact ⟨g, sd, si, rfl, rfl, h⟩
  | cons op ops ih =>
    cases op with
    | begin_ =>
      simp only [Valid] at hv
      simp only [runDeferred, runImmediate]
      refine ih g (d + 1) _ si hfit hv ⟨by simp [beginDeferred, h.depth], h.idepth, by omega, h.known, h.flags, h.set_⟩
    | finish =>
      simp only [Valid] at hv
      obtain ⟨hd, hv⟩ := hv
      simp only [runDeferred, runImmediate]
      by_cases hd1 : d = 1
      · -- the outermost scope ends
        subst hd1
        have hp : sd.pending.filter g.exists_ = sd.pending := by
          rw [List.filter_eq_self]; intro v _; exact hfit.live v
        by_cases hpe : sd.pending = []
        · have : endDeferred g sd = some ({ sd with depth := 0, pending := [] }, []) := by
            unfold endDeferred; simp [h.depth, hpe]
          rw [this]
          refine ih g 0 _ si hfit hv ⟨rfl, h.idepth, fun _ => rfl, by simp, ?_, ?_⟩
          · intro v hf; rw [h.flags v hf, hpe]
          · intro v hf; rw [h.set_ v hf, hpe]
        · obtain ⟨⟨s', a'⟩, hm⟩ := mark_terminates hfit.ok { sd with depth := 0, pending := [] } sd.pending h.known
          have : endDeferred g sd = some (s', a') := by
            unfold endDeferred
            simp only [h.depth, Nat.sub_self, gt_iff_lt, Nat.lt_irrefl, if_false, hpe, hp]
            exact hm
          rw [this]
          obtain ⟨m1, m2, -, m3, m4⟩ := mark_exact hfit.ok rfl hm
          simp only at m4
          refine ih g 0 s' si hfit hv ⟨m3, h.idepth, fun _ => m4, by simp [m4], ?_, ?_⟩
          · intro v hf
            rw [h.flags v hf, m1, m4]
            have := mustMark_nil g v
            simp only [this, or_false]
          · intro v hf
            rw [h.set_ v hf, m2, m4]
            have := mustMark_nil g v
            simp only [this, or_false]
            constructor
            · rintro (h1 | h1)
              · exact Or.inl h1
              · exact Or.inr (Or.inr h1)
            · rintro (h1 | h1 | h1)
              · exact Or.inl h1
              · exact Or.inr (Or.inl ⟨h1, hf⟩)
              · exact Or.inr h1
      · have : endDeferred g sd = some ({ sd with depth := sd.depth - 1 }, []) := by
          unfold endDeferred
          have : sd.depth - 1 > 0 := by rw [h.depth]; omega
          simp only [this, if_true]
        rw [this]
        exact ih g (d - 1) _ si hfit hv
          ⟨by simp [h.depth], h.idepth, by omega, h.known, h.flags, h.set_⟩
    | mark vs =>
      simp only [Valid] at hv
      obtain ⟨hk, hv⟩ := hv
      simp only [runDeferred, runImmediate]
      obtain ⟨⟨si', ai⟩, hmi⟩ := mark_terminates hfit.ok si vs hk
      obtain ⟨⟨sd', ad⟩, hmd⟩ := mark_terminates hfit.ok sd vs hk
      rw [hmi, hmd]
      obtain ⟨i1, i2, -, i3, i4⟩ := mark_exact hfit.ok h.idepth hmi
      by_cases hd : d = 0
      · subst hd
        have hp := h.idle rfl
        obtain ⟨m1, m2, -, m3, m4⟩ := mark_exact hfit.ok h.depth hmd
        refine ih g 0 sd' si' hfit hv ⟨m3, i3, fun _ => by rw [m4, hp], by rw [m4, hp]; simp, ?_, ?_⟩
        · intro v hf
          have := h.flags v hf
          rw [i1, m1, m4, this, hp]
          have := mustMark_nil g v
          simp only [this, or_false]
        · intro v hf
          have := h.set_ v hf
          rw [i2, m2, m4, this, hp]
          have := mustMark_nil g v
          simp only [this, or_false]
      · have : markDirtyMany g sd vs = some ({ sd with pending := sd.pending ++ vs }, vs) := by
          unfold markDirtyMany; rw [if_pos (by rw [h.depth]; omega)]
        rw [this] at hmd
        simp only [Option.some.injEq, Prod.mk.injEq] at hmd
        obtain ⟨rfl, -⟩ := hmd
        refine ih g d _ si' hfit hv ⟨h.depth, i3, by omega, ?_, ?_, ?_⟩
        · intro v hv'
          rcases List.mem_append.1 hv' with h1 | h1
          · exact h.known v h1
          · exact hk v h1
        · intro v hf
          simp only [i1, h.flags v hf, mustMark_append, or_assoc]
        · intro v hf
          simp only [i2, h.set_ v hf, mustMark_append, or_assoc]
          constructor
          · rintro (h1 | h1 | h1 | h1)
            · exact Or.inl h1
            · exact Or.inr (Or.inl h1)
            · exact Or.inr (Or.inr (Or.inl ⟨h1, hf⟩))
            · exact Or.inr (Or.inr h1)
          · rintro (h1 | h1 | h1)
            · exact Or.inl h1
            · exact Or.inr (Or.inl h1)
            · exact Or.inr (Or.inr (Or.inr h1))
    | edit u g' =>
      simp only [Valid] at hv
      obtain ⟨hu, hvs, hfit', he, hv⟩ := hv
      simp only [runDeferred, runImmediate]
      have hk : ∀ v ∈ [u], v ∈ g'.vertices := by simpa using hu
      obtain ⟨⟨si', ai⟩, hmi⟩ := mark_terminates hfit'.ok si [u] hk
      obtain ⟨⟨sd', ad⟩, hmd⟩ := mark_terminates hfit'.ok sd [u] hk
      rw [hmi, hmd]
      obtain ⟨i1, i2, -, i3, i4⟩ := mark_exact hfit'.ok h.idepth hmi
      have old : ∀ v, v ≠ u → g'.isFormula v = true → g.isFormula v = true := by
        intro v hv hf; rw [he.kind v hv]; exact hf
      have self : g'.isFormula u = true → g'.MustMark [u] u := fun hf => Or.inl ⟨by simp, hf⟩
      by_cases hd : d = 0
      · subst hd
        have hp := h.idle rfl
        obtain ⟨m1, m2, -, m3, m4⟩ := mark_exact hfit'.ok h.depth hmd
        refine ih g' 0 sd' si' hfit' hv ⟨m3, i3, fun _ => by rw [m4, hp], by rw [m4, hp]; simp, ?_, ?_⟩
        · intro v hf
          rw [i1, m1, m4, hp]
          have hn := mustMark_nil g' v
          simp only [hn, or_false]
          by_cases hvu : v = u
          · subst hvu; simp [self hf]
          · have := h.flags v (old v hvu hf)
            rw [hp] at this
            have hn := mustMark_nil g v
            simp only [hn, or_false] at this
            rw [this]
        · intro v hf
          rw [i2, m2, m4, hp]
          have hn := mustMark_nil g' v
          simp only [hn, or_false]
          by_cases hvu : v = u
          · subst hvu; simp
          · have := h.set_ v (old v hvu hf)
            rw [hp] at this
            have hn := mustMark_nil g v
            simp only [hn, or_false] at this
            rw [this]
      · have : markDirtyMany g' sd [u] = some ({ sd with pending := sd.pending ++ [u] }, [u]) := by
          unfold markDirtyMany; rw [if_pos (by rw [h.depth]; omega)]
        rw [this] at hmd
        simp only [Option.some.injEq, Prod.mk.injEq] at hmd
        obtain ⟨rfl, -⟩ := hmd
        refine ih g' d _ si' hfit' hv ⟨h.depth, i3, by omega, ?_, ?_, ?_⟩
        · intro v hv'
          rcases List.mem_append.1 hv' with h1 | h1
          · exact hvs v (h.known v h1)
          · exact hk v h1
        · intro v hf
          simp only [i1, mustMark_edit he sd.pending v hf]
          by_cases hvu : v = u
          · subst hvu; simp [self hf]
          · simp only [h.flags v (old v hvu hf), or_assoc, ne_eq, hvu, not_false_eq_true, true_and]
        · intro v hf
          simp only [i2, mustMark_edit he sd.pending v hf]
          by_cases hvu : v = u
          · subst hvu; simp [self hf]
          · simp only [h.set_ v (old v hvu hf), or_assoc, ne_eq, hvu, not_false_eq_true, true_and, List.mem_singleton,
              false_or]

/-- **C16** A batch of edits and markings with any nesting of deferred scopes leaves the same formulas dirty, and
schedules the same vertices, as performing every marking at once; and nothing stays queued. -/
theorem deferred_loses_nothing (g : Graph V) (s : State V) (ops : List (Step V)) (hfit : Fit g)
    (hs : s.depth = 0 ∧ s.pending = []) (hv : Valid g 0 ops) :
    ∃ gf sd si, runDeferred g s ops = some (gf, sd) ∧ runImmediate g s ops = some (gf, si) ∧
      sd.depth = 0 ∧ sd.pending = [] ∧
      (∀ v, gf.isFormula v = true → (v ∈ sd.flags ↔ v ∈ si.flags)) ∧
      (∀ active volatile v, v ∈ evaluationVertices gf active sd volatile ↔ v ∈ evaluationVertices gf active si volatile) := by
  obtain ⟨gf, sd, si, h1, h2, h⟩ := run_rel ops g 0 s s hfit hv
    ⟨hs.1, hs.1, fun _ => hs.2, by rw [hs.2]; simp, by intro v _; rw [hs.2]; simp [mustMark_nil],
     by intro v _; rw [hs.2]; simp [mustMark_nil]⟩
  have hp := h.idle rfl
  refine ⟨gf, sd, si, h1, h2, h.depth, hp, ?_, ?_⟩
  · intro v hf
    have := h.flags v hf
    rw [hp] at this
    have hn := mustMark_nil gf v
    simp only [hn, or_false] at this
    exact this.symm
  · intro active volatile v
    unfold evaluationVertices
    simp only [List.mem_filter, List.mem_eraseDups, List.mem_append, Bool.and_eq_true]
    constructor
    · rintro ⟨h3, ha, hf⟩
      refine ⟨?_, ha, hf⟩
      have := h.set_ v hf
      rw [hp] at this
      rw [this]
      rcases h3 with h3 | h3
      · exact Or.inl (Or.inl h3)
      · exact Or.inr h3
    · rintro ⟨h3, ha, hf⟩
      refine ⟨?_, ha, hf⟩
      have := h.set_ v hf
      rw [hp] at this
      have hn := mustMark_nil gf v
      simp only [hn, or_false] at this
      rw [← this]
      exact h3

/-- The example graph after an edit of 4, which no longer reads 3. -/
def exGraph' : Graph Nat :=
  { exGraph with direct := fun v => if v = 1 then [2] else if v = 2 then [3] else if v = 3 then [1] else [] }

theorem exGraph'_fit : Fit exGraph' := by
  have hd : ∀ u v, exGraph'.Dep u v → v ∈ [1, 2, 3, 4] := by
    intro u v h
    simp only [Graph.Dep, exGraph', exGraph] at h
    rcases h with h | h | h <;> (repeat' split at h) <;> simp at h <;> simp <;> omega
  refine ⟨⟨?_, ?_⟩, fun _ => rfl⟩
  · intro u v h
    have := hd u v h
    simp [exGraph', exGraph] at this ⊢
    omega
  · intro u v h
    simp only [exGraph', exGraph] at *
    repeat' split at h
    · rename_i h2; subst h2; simpa using h
    · cases h

example : Fit exGraph ∧ Valid exGraph 0 [.begin_, .mark [0], .begin_, .edit 4 exGraph', .finish, .finish] := by
  refine ⟨⟨exGraph_ok, fun _ => rfl⟩, ?_⟩
  refine ⟨by decide, by decide, by decide, exGraph'_fit, ⟨?_, fun _ _ => rfl⟩, by decide, by decide, rfl⟩
  intro x y hy
  unfold Graph.Dep exGraph' exGraph
  simp only
  by_cases h1 : x = 1 <;> by_cases h2 : x = 2 <;> by_cases h3 : x = 3 <;> simp_all

end Verif.Dirty
