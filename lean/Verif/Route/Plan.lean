import Verif.Route.Props

/-!
# The plan: which records go to the graph
-/

namespace Verif.Route

open Verif.Evid

section Maps

variable {α β : Type} [DecidableEq α]

/-- One entry for each key. -/
def Keys (m : List (α × β)) : Prop := (m.map Prod.fst).Nodup

theorem mem_put (k : α) (v : β) (m : List (α × β)) (a : α) (b : β) :
    (a, b) ∈ put k v m ↔ (a = k ∧ b = v) ∨ (a ≠ k ∧ (a, b) ∈ m) := by
  unfold put
  rw [List.mem_cons, List.mem_filter, Prod.mk.injEq]
  simp [and_comm]

theorem keys_put (k : α) (v : β) (m : List (α × β)) (h : Keys m) : Keys (put k v m) := by
  unfold Keys put at *
  rw [List.map_cons, List.nodup_cons]
  refine ⟨?_, h.sublist (List.filter_sublist.map _)⟩
  intro hm
  obtain ⟨p, hp, he⟩ := List.mem_map.mp hm
  have := (List.mem_filter.mp hp).2
  simp [he] at this

theorem get_iff (m : List (α × β)) (h : Keys m) (k : α) (v : β) : get k m = some v ↔ (k, v) ∈ m := by
  induction m with
  | nil => simp [get]
  | cons p m ih =>
    obtain ⟨a, b⟩ := p
    unfold Keys at h ih
    rw [List.map_cons, List.nodup_cons] at h
    rw [get, List.mem_cons, Prod.mk.injEq]
    by_cases he : a = k
    · subst he
      rw [if_pos rfl]
      constructor
      · intro hb; exact .inl ⟨rfl, (Option.some.inj hb).symm⟩
      · rintro (⟨-, rfl⟩ | hm)
        · rfl
        · exact absurd (List.mem_map.mpr ⟨_, hm, rfl⟩) h.1
    · rw [if_neg he, ih h.2]
      constructor
      · exact .inr
      · rintro (⟨e, -⟩ | hm)
        · exact absurd e.symm he
        · exact hm

theorem sameSet_iff (a b : List α) : sameSet a b = true ↔ ∀ x, x ∈ a ↔ x ∈ b := by
  unfold sameSet
  simp only [Bool.and_eq_true, List.all_eq_true, decide_eq_true_eq]
  exact ⟨fun h x => ⟨h.1 x, h.2 x⟩, fun h => ⟨fun x => (h x).mp, fun x => (h x).mpr⟩⟩

end Maps

/-- The maps of a plan have one entry for each key. -/
structure Plan.Wf (p : Plan) : Prop where
  defaults : Keys p.defaults
  overrides : Keys p.overrides
  owners : Keys p.owners

theorem Plan.wf_empty : Plan.Wf {} := ⟨List.nodup_nil, List.nodup_nil, List.nodup_nil⟩

theorem enter_wf (id : Nat) (ms : List Member) (p : Plan) (h : p.Wf) : (enter id ms p).Wf := by
  induction ms generalizing p with
  | nil => exact h
  | cons m ms ih =>
    unfold enter
    split
    · exact ih _ ⟨h.defaults, keys_put _ _ _ h.overrides, h.owners⟩
    · exact ih _ ⟨h.defaults, h.overrides, keys_put _ _ _ h.owners⟩

theorem enter_rest (id : Nat) (ms : List Member) (p : Plan) :
    (enter id ms p).defaults = p.defaults ∧ (enter id ms p).suppressed = p.suppressed := by
  induction ms generalizing p with
  | nil => exact ⟨rfl, rfl⟩
  | cons m ms ih =>
    unfold enter
    split <;> exact ih _

theorem enter_overrides (id : Nat) (ms : List Member) (p : Plan) (i : Nat) (c : Coord) (d : Disp) :
    ((i, c), d) ∈ (enter id ms p).overrides ↔
      (i = id ∧ ⟨c, .shared⟩ ∈ ms ∧ d = .legacyShared) ∨ (¬(i = id ∧ ⟨c, .shared⟩ ∈ ms) ∧ ((i, c), d) ∈ p.overrides) := by
  induction ms generalizing p with
  | nil => simp [enter]
  | cons m ms ih =>
    obtain ⟨mc, k⟩ := m
    cases k with
    | shared =>
      simp only [enter]
      rw [ih]
      simp only [mem_put, List.mem_cons, Member.mk.injEq, and_true, Prod.mk.injEq, ne_eq]
      tauto
    | ordinary =>
      simp only [enter]
      rw [ih]
      simp only [List.mem_cons, Member.mk.injEq, reduceCtorEq, and_false, false_or]

theorem enter_owners (id : Nat) (ms : List Member) (p : Plan) (i : Nat) (c : Coord) :
    (c, i) ∈ (enter id ms p).owners ↔
      (i = id ∧ ⟨c, .ordinary⟩ ∈ ms) ∨ (⟨c, .ordinary⟩ ∉ ms ∧ (c, i) ∈ p.owners) := by
  induction ms generalizing p with
  | nil => simp [enter]
  | cons m ms ih =>
    obtain ⟨mc, k⟩ := m
    cases k with
    | shared =>
      simp only [enter]
      rw [ih]
      simp only [List.mem_cons, Member.mk.injEq, reduceCtorEq, and_false, false_or]
    | ordinary =>
      simp only [enter]
      rw [ih]
      simp only [mem_put, List.mem_cons, Member.mk.injEq, and_true]
      tauto

/-- What `owns_partition_exactly` says, entry by entry. -/
theorem owns_iff (p : Plan) (hp : p.Wf) (f : Family) : p.owns f = true ↔
    (f.id, Disp.direct) ∈ p.defaults ∧
    (∀ c d, ((f.id, c), d) ∈ p.overrides ↔ ⟨c, .shared⟩ ∈ f.legacy ∧ d = .legacyShared) ∧
    (∀ c, (c, f.id) ∈ p.owners ↔ ⟨c, .ordinary⟩ ∈ f.legacy) ∧
    ∀ q ∈ p.suppressed, touches f q = false := by
  have hover : sameSet ((p.overrides.filter fun e => e.1.1 = f.id).map fun e => (e.1.2, e.2))
      ((f.legacy.filter fun m => m.kind = .shared).map fun m => (m.coord, Disp.legacyShared)) = true ↔
      ∀ c d, ((f.id, c), d) ∈ p.overrides ↔ ⟨c, .shared⟩ ∈ f.legacy ∧ d = .legacyShared := by
    rw [sameSet_iff]
    have hA : ∀ c d, (c, d) ∈ ((p.overrides.filter fun e => e.1.1 = f.id).map fun e => (e.1.2, e.2)) ↔ ((f.id, c), d) ∈ p.overrides := by
      intro c d
      simp only [List.mem_map, List.mem_filter, decide_eq_true_eq, Prod.mk.injEq]
      constructor
      · rintro ⟨⟨⟨i, c'⟩, d'⟩, ⟨hm, rfl⟩, rfl, rfl⟩
        exact hm
      · intro hm
        exact ⟨_, ⟨hm, rfl⟩, rfl, rfl⟩
    have hB : ∀ c d, (c, d) ∈ ((f.legacy.filter fun m => m.kind = .shared).map fun m => (m.coord, Disp.legacyShared)) ↔
        ⟨c, .shared⟩ ∈ f.legacy ∧ d = .legacyShared := by
      intro c d
      simp only [List.mem_map, List.mem_filter, decide_eq_true_eq, Prod.mk.injEq]
      constructor
      · rintro ⟨⟨c', k⟩, ⟨hm, rfl⟩, rfl, rfl⟩
        exact ⟨hm, rfl⟩
      · rintro ⟨hm, rfl⟩
        exact ⟨_, ⟨hm, rfl⟩, rfl, rfl⟩
    constructor
    · intro h c d
      rw [← hA, h, hB]
    · rintro h ⟨c, d⟩
      rw [hA, h, hB]
  have hown : sameSet ((p.owners.filter fun e => e.2 = f.id).map fun e => e.1)
      ((f.legacy.filter fun m => m.kind = .ordinary).map fun m => m.coord) = true ↔
      ∀ c, (c, f.id) ∈ p.owners ↔ ⟨c, .ordinary⟩ ∈ f.legacy := by
    rw [sameSet_iff]
    have hA : ∀ c, c ∈ ((p.owners.filter fun e => e.2 = f.id).map fun e => e.1) ↔ (c, f.id) ∈ p.owners := by
      intro c
      simp only [List.mem_map, List.mem_filter, decide_eq_true_eq]
      constructor
      · rintro ⟨⟨c', i⟩, ⟨hm, rfl⟩, rfl⟩
        exact hm
      · intro hm
        exact ⟨_, ⟨hm, rfl⟩, rfl⟩
    have hB : ∀ c, c ∈ ((f.legacy.filter fun m => m.kind = .ordinary).map fun m => m.coord) ↔ ⟨c, .ordinary⟩ ∈ f.legacy := by
      intro c
      simp only [List.mem_map, List.mem_filter, decide_eq_true_eq]
      constructor
      · rintro ⟨⟨c', k⟩, ⟨hm, rfl⟩, rfl⟩
        exact hm
      · intro hm
        exact ⟨_, ⟨hm, rfl⟩, rfl⟩
    constructor
    · intro h c
      rw [← hA, h, hB]
    · intro h c
      rw [hA, h, hB]
  unfold Plan.owns
  rw [← hover, ← hown, ← get_iff _ hp.defaults]
  by_cases h1 : get f.id p.defaults = some .direct
  swap
  · rw [if_pos h1]
    simp [h1]
  rw [if_neg (by simpa using h1)]
  split
  next h2 => simp [h2]
  next h2 =>
    rw [not_not] at h2
    split
    next h3 => simp [h3]
    next h3 =>
      rw [not_not] at h3
      simp [h1, h2, h3]

/-- C108. Entering a family never seen by the plan, as handled directly, makes the plan own it exactly, unless a cell
of it was edited. -/
theorem register_owns (p : Plan) (hp : p.Wf) (f : Family) (p' : Plan) (h : p.register f true = .ok p')
    (ho : ∀ c d, ((f.id, c), d) ∉ p.overrides) (hw : ∀ c, (c, f.id) ∉ p.owners) :
    p'.Wf ∧ (p'.owns f = true ↔ ∀ q ∈ p.suppressed, touches f q = false) := by
  unfold Plan.register at h
  split at h
  · cases h
  · obtain rfl := Except.ok.inj h
    have hq : Plan.Wf { p with defaults := put f.id (if true = true then Disp.direct else .legacyShared) p.defaults } :=
      ⟨keys_put _ _ _ hp.defaults, hp.overrides, hp.owners⟩
    have hwf := enter_wf f.id f.legacy _ hq
    refine ⟨hwf, ?_⟩
    rw [owns_iff _ hwf, (enter_rest f.id f.legacy _).1, (enter_rest f.id f.legacy _).2]
    simp only [if_true]
    constructor
    · exact fun h => h.2.2.2
    · intro hs
      refine ⟨(mem_put _ _ _ _ _).mpr (.inl ⟨rfl, rfl⟩), ?_, ?_, hs⟩
      · intro c d
        rw [enter_overrides]
        have := ho c d
        tauto
      · intro c
        rw [enter_owners]
        have := hw c
        tauto

/-- C108. Entering another family, directly handled or not, leaves a family owned. -/
theorem register_keeps (p : Plan) (hp : p.Wf) (f g : Family) (direct : Bool) (p' : Plan) (h : p.register f direct = .ok p')
    (hne : g.id ≠ f.id) (hg : p.owns g = true) : p'.owns g = true := by
  unfold Plan.register at h
  split at h
  · cases h
  next hc =>
    obtain rfl := Except.ok.inj h
    have hq : Plan.Wf { p with defaults := put f.id (if direct = true then Disp.direct else .legacyShared) p.defaults } :=
      ⟨keys_put _ _ _ hp.defaults, hp.overrides, hp.owners⟩
    have hwf := enter_wf f.id f.legacy _ hq
    obtain ⟨g1, g2, g3, g4⟩ := (owns_iff p hp g).mp hg
    rw [owns_iff _ hwf, (enter_rest f.id f.legacy _).1, (enter_rest f.id f.legacy _).2]
    refine ⟨(mem_put _ _ _ _ _).mpr (.inr ⟨hne, g1⟩), ?_, ?_, g4⟩
    · intro c d
      rw [enter_overrides]
      have := g2 c d
      simp only [hne, false_and, not_false_eq_true, true_and, false_or]
      exact this
    · intro c
      rw [enter_owners]
      simp only [hne, false_and, false_or]
      rw [g3 c]
      constructor
      · exact fun h => h.2
      · intro hm
        refine ⟨?_, hm⟩
        intro hf
        apply hc
        rw [List.any_eq_true]
        refine ⟨_, hf, ?_⟩
        rw [(get_iff _ hp.owners c g.id).mpr ((g3 c).mpr hm)]
        simp [hne]

/-- C108. A family is refused just when one of its ordinary formulas is claimed by another family; then the plan is not
changed, and entering it as not handled directly, as the caller does next, is refused as well. -/
theorem register_refused (p : Plan) (hp : p.Wf) (f : Family) (direct : Bool) :
    ((∃ p', p.register f direct = .ok p') ↔ ¬∃ c i, ⟨c, .ordinary⟩ ∈ f.legacy ∧ (c, i) ∈ p.owners ∧ i ≠ f.id) ∧
    ((∃ p', p.register f true = .ok p') ↔ ∃ p', p.register f false = .ok p') := by
  have key : (f.legacy.any fun m => decide (m.kind = .ordinary) && (get m.coord p.owners).any fun o => decide (o ≠ f.id)) = true ↔
      ∃ c i, ⟨c, .ordinary⟩ ∈ f.legacy ∧ (c, i) ∈ p.owners ∧ i ≠ f.id := by
    rw [List.any_eq_true]
    constructor
    · rintro ⟨⟨c, k⟩, hm, hh⟩
      rw [Bool.and_eq_true, decide_eq_true_eq] at hh
      obtain ⟨rfl, hh⟩ := hh
      obtain ⟨i, hi, hne⟩ := any_some hh
      exact ⟨c, i, hm, (get_iff _ hp.owners _ _).mp hi, by simpa using hne⟩
    · rintro ⟨c, i, hm, hi, hne⟩
      refine ⟨_, hm, ?_⟩
      rw [(get_iff _ hp.owners _ _).mpr hi]
      simp [hne]
  have one : ∀ b, (∃ p', p.register f b = .ok p') ↔ ¬∃ c i, ⟨c, .ordinary⟩ ∈ f.legacy ∧ (c, i) ∈ p.owners ∧ i ≠ f.id := by
    intro b
    rw [← key]
    unfold Plan.register
    by_cases hc : (f.legacy.any fun m => decide (m.kind = .ordinary) && (get m.coord p.owners).any fun o => decide (o ≠ f.id)) = true
    · rw [if_pos hc]
      exact ⟨fun ⟨_, h⟩ => (by cases h), fun h => absurd hc h⟩
    · rw [if_neg hc]
      exact ⟨fun _ => hc, fun _ => ⟨_, rfl⟩⟩
  exact ⟨one direct, (one true).trans (one false).symm⟩

/-- C108. A family owned by the plan: the cells of the parts are handled directly, those listed alone and the ordinary
formulas go to the graph, the ordinary ones in the name of the family, and no other cell is touched. -/
theorem owned_cells (p : Plan) (hp : p.Wf) (f : Family) (hf : Exact f) (hn : (f.legacy.map Member.coord).Nodup)
    (hs : f.declared.stop.row < 2 ^ 32 - 1 ∧ f.declared.stop.col < 2 ^ 32 - 1) (ho : p.owns f = true) (c : Coord) :
    ((∃ d ∈ f.fragments, contains (rectOf d) c) → p.part f c = some .direct ∧ p.shared f.id c = .direct) ∧
    (⟨c, .shared⟩ ∈ f.legacy → p.part f c = some .legacyShared ∧ p.shared f.id c = .legacyShared) ∧
    (⟨c, .ordinary⟩ ∈ f.legacy → p.part f c = some .legacyOrdinary ∧ p.ordinary c = (.legacyOrdinary, some f.id)) ∧
    (¬Belongs f c → ⟨c, .ordinary⟩ ∉ f.legacy → p.part f c = none) := by
  obtain ⟨o1, o2, o3, o4⟩ := (owns_iff p hp f).mp ho
  have clear : contains f.declared c → ((∃ d ∈ f.fragments, contains (rectOf d) c) ∨ ∃ k, ⟨c, k⟩ ∈ f.legacy) →
      (up c.row, up c.col) ∉ p.suppressed := by
    intro hin hown hm
    have := o4 _ hm
    unfold contains at hin
    have e1 : up c.row = c.row + 1 := by unfold up; omega
    have e2 : up c.col = c.col + 1 := by unfold up; omega
    rw [e1, e2] at this
    unfold touches down at this
    rw [if_neg (by omega)] at this
    simp only [Nat.add_sub_cancel, Bool.or_eq_false_iff, List.any_eq_false] at this
    rcases hown with ⟨d, hd, hc⟩ | ⟨k, hk⟩
    · exact this.1 d hd (by simpa using hc)
    · exact this.2 _ hk (by simp)
  have hdef : get f.id p.defaults = some .direct := (get_iff _ hp.defaults _ _).mpr o1
  have found : ∀ k, ⟨c, k⟩ ∈ f.legacy → f.legacy.find? (fun m => m.coord = c) = some ⟨c, k⟩ := by
    intro k hk
    cases hfd : f.legacy.find? fun m => m.coord = c with
    | none => exact absurd (by simp) ((List.find?_eq_none.mp hfd) _ hk)
    | some x =>
      have h1 : x.coord = c := by simpa using List.find?_some hfd
      rw [List.inj_on_of_nodup_map hn (List.mem_of_find?_eq_some hfd) hk h1]
  have notfound : (∀ k, ⟨c, k⟩ ∉ f.legacy) → f.legacy.find? (fun m => m.coord = c) = none := by
    intro h
    rw [List.find?_eq_none]
    rintro ⟨c', k⟩ hm he
    obtain rfl : c' = c := by simpa using he
    exact h k hm
  refine ⟨?_, ?_, ?_, ?_⟩
  · rintro ⟨d, hd, hc⟩
    have hin := rect_subset (hf.fits d hd).2.1 (hf.fits d hd).2.2 hc
    have hno : ∀ k, ⟨c, k⟩ ∉ f.legacy := fun k hk => hf.alone _ hk d hd hc
    have hcl := clear hin (.inl ⟨d, hd, hc⟩)
    have hsh : p.shared f.id c = .direct := by
      unfold Plan.shared
      rw [if_neg hcl]
      have : get (f.id, c) p.overrides = none := by
        cases hg : get (f.id, c) p.overrides with
        | none => rfl
        | some d => exact absurd ((o2 c d).mp ((get_iff _ hp.overrides _ _).mp hg)).1 (hno _)
      rw [this, hdef]
      rfl
    refine ⟨?_, hsh⟩
    unfold Plan.part
    rw [if_neg (by simpa using hin), notfound hno]
    simp only
    rw [if_pos (List.any_eq_true.mpr ⟨d, hd, by simpa using hc⟩), hsh]
  · intro hm
    have hin := hf.inside _ hm
    have hcl := clear hin (.inr ⟨_, hm⟩)
    have hsh : p.shared f.id c = .legacyShared := by
      unfold Plan.shared
      rw [if_neg hcl, (get_iff _ hp.overrides _ _).mpr ((o2 c .legacyShared).mpr ⟨hm, rfl⟩)]
      rfl
    refine ⟨?_, hsh⟩
    unfold Plan.part
    rw [if_neg (by simpa using hin), found _ hm]
    simp only
    rw [hsh]
  · intro hm
    have hin := hf.inside _ hm
    have hcl := clear hin (.inr ⟨_, hm⟩)
    have hor : p.ordinary c = (.legacyOrdinary, some f.id) := by
      unfold Plan.ordinary
      rw [if_neg hcl, (get_iff _ hp.owners _ _).mpr ((o3 c).mpr hm)]
    refine ⟨?_, hor⟩
    unfold Plan.part
    rw [if_neg (by simpa using hin), found _ hm]
    simp only
    rw [hor]
    simp
  · intro hb hno
    unfold Belongs at hb
    rw [not_or] at hb
    unfold Plan.part
    split
    · rfl
    · rw [notfound (by rintro (_ | _); exacts [hb.2, hno])]
      simp only
      rw [if_neg]
      intro h
      obtain ⟨d, hd, hc⟩ := List.any_eq_true.mp h
      exact hb.1 ⟨d, hd, by simpa using hc⟩

/-- C108. A record at a cell edited meanwhile is dropped if the cell belongs to the family; whatever the plan, a record
at a cell that does not belong is handed on, though the cell was edited. -/
theorem edited_cells (fs : List Family) (m : List (Nat × Entry)) (h : router fs [] = .ok m)
    (hl : ∀ f ∈ fs, (f.legacy.map Member.coord).Nodup) (hE : ∀ f ∈ fs, Exact f)
    (p : Plan) (f : Family) (hf : f ∈ fs) (c : Coord) (hc : c.row < 2 ^ 32 - 1 ∧ c.col < 2 ^ 32 - 1)
    (hs : (c.row + 1, c.col + 1) ∈ p.suppressed) :
    (Belongs f c → route m p f.id c = .suppressed) ∧ (¬Belongs f c → route m p f.id c = .legacyShared) := by
  obtain ⟨r1, r2, -⟩ := route_spec fs m h hl (fun f hf => (hE f hf).inside) (fun f hf => (hE f hf).alone) p c
  refine ⟨fun hb => ?_, r2 f hf⟩
  rw [r1 f hf hb]
  unfold Plan.shared
  have e1 : up c.row = c.row + 1 := by unfold up; omega
  have e2 : up c.col = c.col + 1 := by unfold up; omega
  rw [e1, e2, if_pos hs]

/-- The sample of the tests, entered as handled directly: the plan owns it, and an edit of the ordinary formula ends that. -/
example : ∃ p, Plan.register {} sample true = .ok p ∧ p.owns sample = true ∧ p.part sample ⟨1, 2⟩ = some .direct ∧
    p.part sample ⟨4, 2⟩ = some .legacyShared ∧ p.part sample ⟨3, 2⟩ = some .legacyOrdinary ∧ p.part sample ⟨5, 2⟩ = none ∧
    (p.suppress [(4, 3)]).owns sample = false ∧ (p.suppress [(6, 3)]).owns sample = true := by
  refine ⟨_, rfl, ?_⟩
  decide +kernel

/-- Another family with the same ordinary formula is refused in both ways. -/
example : ∃ p, Plan.register {} sample true = .ok p ∧ p.register { sample with id := 8 } true = .error "PartitionOrdinaryOwnerConflict" ∧
    p.register { sample with id := 8 } false = .error "PartitionOrdinaryOwnerConflict" := by
  refine ⟨_, rfl, ?_⟩
  decide +kernel

/-- **C108**: an edited cell ends the ownership just when it lies in a part or is listed
alone, or is not a position of the sheet at all (the numbers start from 1). -/
theorem touches_iff (f : Family) (q : Nat × Nat) :
    touches f q = true ↔ q.1 = 0 ∨ q.2 = 0 ∨ (∃ d ∈ f.fragments, contains (rectOf d) ⟨q.1 - 1, q.2 - 1⟩) ∨
      ∃ m ∈ f.legacy, m.coord = ⟨q.1 - 1, q.2 - 1⟩ := by
  unfold touches down
  by_cases h : q.1 = 0 ∨ q.2 = 0
  · rw [if_pos h]
    simp only [true_iff]
    tauto
  · rw [if_neg h]
    rw [not_or] at h
    simp only [Bool.or_eq_true, List.any_eq_true, decide_eq_true_eq]
    exact ⟨fun x => Or.inr (Or.inr x), fun x => (x.resolve_left h.1).resolve_left h.2⟩

end Verif.Route
