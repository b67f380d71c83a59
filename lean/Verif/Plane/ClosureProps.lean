/-
Every cell that reads, directly or through other spans, a cell that changed is marked; and for spans whose references
are cells and ranges, no other one is.
-/
import Verif.Plane.Closure

namespace Verif.Plane

/-! ### Domains -/

namespace Dom

theorem mem_appendUnique {α : Type} [DecidableEq α] (x : α) : ∀ (l m : List α),
    x ∈ appendUnique l m ↔ x ∈ l ∨ x ∈ m := by
  intro l m
  induction m generalizing l with
  | nil => simp [appendUnique]
  | cons a m ih =>
    unfold appendUnique
    split
    · next h =>
      rw [ih, List.mem_cons]
      constructor
      · rintro (h1 | h1)
        · exact Or.inl h1
        · exact Or.inr (Or.inr h1)
      · rintro (h1 | rfl | h1)
        · exact Or.inl h1
        · exact Or.inl h
        · exact Or.inr h1
    · rw [ih, List.mem_append, List.mem_singleton, List.mem_cons, or_assoc]

theorem pointOf_has (k p : Key) : (pointOf k).Has p ↔ p = k := by
  unfold pointOf
  rw [Region.point_has]

/-- The domain stays inside the result. -/
def In (d : Dom) (result : Region) : Prop := ∀ p : Key, p.Fits → d.Has result p → result.Has p

/-- The regions of a domain are proper regions. -/
def Ok (d : Dom) : Prop :=
  match d with
  | .whole => True
  | .cells l => ∀ k ∈ l, k.Fits
  | .regions l => ∀ r ∈ l, r.Ok

theorem merge_has {a b : Dom} {result : Region} {p : Key} (hp : p.Fits) (ha : a.In result) (hb : b.In result) :
    (a.merge b).Has result p ↔ a.Has result p ∨ b.Has result p := by
  have ha' := ha p hp
  have hb' := hb p hp
  cases a with
  | whole => simp only [merge]; exact ⟨Or.inl, fun h => h.elim (fun h => h) hb'⟩
  | cells l =>
    cases b with
    | whole => simp only [merge]; exact ⟨Or.inr, fun h => h.elim ha' (fun h => h)⟩
    | cells m => simp only [merge, Has, mem_appendUnique]
    | regions m =>
      simp only [merge, Has, mem_appendUnique, List.mem_map]
      constructor
      · rintro ⟨r, ⟨k, hk, rfl⟩ | h, hr⟩
        · rw [pointOf_has] at hr; subst hr; exact Or.inl hk
        · exact Or.inr ⟨r, h, hr⟩
      · rintro (h | ⟨r, h, hr⟩)
        · exact ⟨pointOf p, Or.inl ⟨p, h, rfl⟩, (pointOf_has _ _).2 rfl⟩
        · exact ⟨r, Or.inr h, hr⟩
  | regions l =>
    cases b with
    | whole => simp only [merge]; exact ⟨Or.inr, fun h => h.elim ha' (fun h => h)⟩
    | regions m =>
      simp only [merge, Has, mem_appendUnique]
      constructor
      · rintro ⟨r, h | h, hr⟩
        · exact Or.inl ⟨r, h, hr⟩
        · exact Or.inr ⟨r, h, hr⟩
      · rintro (⟨r, h, hr⟩ | ⟨r, h, hr⟩)
        · exact ⟨r, Or.inl h, hr⟩
        · exact ⟨r, Or.inr h, hr⟩
    | cells m =>
      simp only [merge, Has, mem_appendUnique, List.mem_map]
      constructor
      · rintro ⟨r, h | ⟨k, hk, rfl⟩, hr⟩
        · exact Or.inl ⟨r, h, hr⟩
        · rw [pointOf_has] at hr; subst hr; exact Or.inr hk
      · rintro (⟨r, h, hr⟩ | h)
        · exact ⟨r, Or.inl h, hr⟩
        · exact ⟨pointOf p, Or.inr ⟨p, h, rfl⟩, (pointOf_has _ _).2 rfl⟩

theorem resultRegions_has (d : Dom) (result : Region) (p : Key) :
    (∃ r ∈ d.resultRegions result, r.Has p) ↔ d.Has result p := by
  cases d with
  | whole => simp [resultRegions, Has]
  | cells l =>
    simp only [resultRegions, Has, List.mem_map]
    constructor
    · rintro ⟨_, ⟨k, hk, rfl⟩, hr⟩; rw [pointOf_has] at hr; subst hr; exact hk
    · intro h; exact ⟨_, ⟨p, h, rfl⟩, (pointOf_has _ _).2 rfl⟩
  | regions l => exact Iff.rfl

theorem resultRegions_ok {d : Dom} {result : Region} (hd : d.Ok) (hr : result.Ok) : ∀ r ∈ d.resultRegions result, r.Ok := by
  cases d with
  | whole => intro r h; rw [List.mem_singleton.1 h]; exact hr
  | cells l =>
    intro r h
    obtain ⟨k, hk, rfl⟩ := List.mem_map.1 h
    exact hd k hk
  | regions l => exact hd

end Dom

/-! ### Entries -/

namespace Entry
variable {P : Type}

/-- The entry has the shape that `SpanReadSummary::from_formula_summary` (producer.rs 471-556) gives it, or is the entry
of a formula outside the spans, which is dirty as a whole. -/
structure Ok (e : Entry P) : Prop where
  result : e.result.Ok
  read : e.read.Ok
  fits : e.rule.Fits
  made : e.rule = .wholeResult ∨ e.rule.readRegion e.read.sheet e.result = some e.read ∨
    ∃ cs ce, e.rule = .wholeCols cs ce

/-- The formula of the entry's consumer at `p` reads `k` (through this entry). -/
def Reads (e : Entry P) (p k : Key) : Prop :=
  e.read.Has k ∧ (e.rule = .wholeResult ∨ e.rule.Reads e.read.sheet p k)

/-- A projection through the entry marks the cells of the result that read what changed. -/
theorem project_marks {e : Entry P} (h : e.Ok) {changed : Region} (hc : changed.Ok) {p k : Key} (hp : p.Fits)
    (hk : k.Fits) (hres : e.result.Has p) (hck : changed.Has k) (hr : e.Reads p k) :
    (e.rule.project changed e.read e.result).Marks e.result p := by
  have hi : changed.intersects e.read = true := (Region.intersects_iff hc h.read).2 ⟨k, hk, hck, hr.1⟩
  rcases h.made with hw | hm | ⟨cs, ce, hw⟩
  · rw [hw]; unfold Rule.project; rw [hi]; exact hres
  · rcases hr.2 with hw | hr'
    · rw [hw]; unfold Rule.project; rw [hi]; exact hres
    · exact (project_sound h.result hc h.fits hm p hp).2 hres ⟨k, hk, hck, hr'⟩
  · rw [hw]; unfold Rule.project; rw [hi]; exact ⟨_, List.mem_singleton.2 rfl, hres⟩

theorem projectAxes_dom {sheet : Nat} {rows cols : Option (Option AxisRange)} {d : Dom}
    (hr : ∀ r, rows = some (some r) → r.Ok) (hc : ∀ r, cols = some (some r) → r.Ok)
    (h : projectAxes sheet rows cols true = .exact_ d) : d.Ok := by
  cases rows with
  | none => simp [projectAxes] at h
  | some r =>
    cases r with
    | none => simp [projectAxes] at h
    | some r =>
      cases cols with
      | none => simp [projectAxes] at h
      | some c =>
        cases c with
        | none => simp [projectAxes] at h
        | some c =>
          have hok := (regionOfRanges_spec (sheet := sheet) (hr r rfl) (hc c rfl)).1
          simp only [projectAxes, projectionOfRanges] at h
          rw [if_neg (by simp)] at h
          cases h
          unfold domOfRegion
          cases hp : (regionOfRanges sheet r c).asPoint with
          | none => intro r' hr'; rw [List.mem_singleton.1 hr']; exact hok
          | some k =>
            rw [Region.asPoint_some hp] at hok
            intro k' hk'
            rw [List.mem_singleton.1 hk']
            exact hok

/-- What a projection through the entry can be: a domain of proper regions inside the result, or nothing. -/
theorem project_shape {e : Entry P} (h : e.Ok) {changed : Region} (hc : changed.Ok) :
    (∃ d, e.rule.project changed e.read e.result = .exact_ d ∧ d.Ok ∧ d.In e.result) ∨
      e.rule.project changed e.read e.result = .noIntersection := by
  cases hi : changed.intersects e.read with
  | false => right; unfold Rule.project; rw [hi]; rfl
  | true =>
    rcases h.made with hw | hm | ⟨cs, ce, hw⟩
    · left; rw [hw]; unfold Rule.project; rw [hi]; exact ⟨.whole, rfl, trivial, fun p _ hp => hp⟩
    · obtain ⟨rows, cols, R, C, hr, hcl, h1, -, -⟩ := project_axes (changed := changed) h.result hc h.fits hm
      have hx := h1 hi
      rcases projectAxes_spec hr hcl with ⟨d, hd⟩ | hd
      · left
        refine ⟨d, by rw [hx, hd], projectAxes_dom hr.okRange hcl.okRange hd, fun p hp hd' => ?_⟩
        refine (project_sound h.result hc h.fits hm p hp).1 ?_
        rw [hx, hd]
        exact hd'
      · right; rw [hx, hd]
    · left
      rw [hw]
      unfold Rule.project
      rw [hi]
      refine ⟨.regions [e.result], rfl, fun r hr => by rw [List.mem_singleton.1 hr]; exact h.result, fun p _ hp => ?_⟩
      obtain ⟨r, hr, hp⟩ := hp
      rw [List.mem_singleton.1 hr] at hp
      exact hp

end Entry

namespace Closure
variable {P : Type} [DecidableEq P]

/-- The cells of `c` that are marked. -/
def DirtyAt (result : P → Option Region) (m : List (P × Dom)) (c : P) (p : Key) : Prop :=
  ∃ d rr, get m c = some d ∧ result c = some rr ∧ d.Has rr p

theorem get_put (m : List (P × Dom)) (c c' : P) (d : Dom) :
    get (put m c d) c' = if c' = c then some d else get m c' := by
  unfold get put
  by_cases h : c' = c
  · subst h; simp
  · rw [if_neg h, List.find?_cons_of_neg (by simpa using fun h' : c = c' => h h'.symm), List.find?_filter]
    congr 2
    funext e
    by_cases h' : e.1 = c'
    · simp [h', h]
    · simp [h']

/-- What is true of the queue and the regions seen. -/
structure Inv (result : P → Option Region) (changed : List Region) (st : St P) (done : Region → Prop) : Prop where
  seenOk : ∀ r ∈ st.seen, r.Ok
  queueOk : ∀ r ∈ st.queue, r.Ok
  split : ∀ r ∈ st.seen, r ∈ st.queue ∨ done r
  changed : ∀ r ∈ changed, r ∈ st.seen
  inside : ∀ c d rr, get st.dirty c = some d → result c = some rr → d.In rr
  fallbacks : st.fallbacks = []

/-- Every cell marked lies in a region seen. -/
def Covered (result : P → Option Region) (st : St P) : Prop :=
  ∀ c p, p.Fits → DirtyAt result st.dirty c p → ∃ r ∈ st.seen, r.Has p

section
variable {result : P → Option Region} {changed : List Region} {done : Region → Prop}

theorem emit_inv {st : St P} (h : Inv result changed st done) {r : Region} (hr : r.Ok) :
    Inv result changed (emit st r) done ∧ r ∈ (emit st r).seen ∧ (emit st r).dirty = st.dirty ∧
      ∀ r' ∈ st.seen, r' ∈ (emit st r).seen := by
  unfold emit
  split
  · next hm => exact ⟨h, hm, rfl, fun _ h => h⟩
  · refine ⟨⟨?_, ?_, ?_, ?_, h.inside, h.fallbacks⟩, List.mem_cons_self, rfl, fun _ h => List.mem_cons_of_mem _ h⟩
    · intro r' hr'
      rcases List.mem_cons.1 hr' with rfl | hr'
      · exact hr
      · exact h.seenOk _ hr'
    · intro r' hr'
      rcases List.mem_append.1 hr' with hr' | hr'
      · exact h.queueOk _ hr'
      · rw [List.mem_singleton.1 hr']; exact hr
    · intro r' hr'
      rcases List.mem_cons.1 hr' with rfl | hr'
      · exact Or.inl (List.mem_append_right _ (List.mem_singleton.2 rfl))
      · exact (h.split r' hr').imp (fun h => List.mem_append_left _ h) fun h => h
    · intro r' hr'; exact List.mem_cons_of_mem _ (h.changed r' hr')

theorem emits_inv : ∀ (rs : List Region) {st : St P}, Inv result changed st done → (∀ r ∈ rs, r.Ok) →
    Inv result changed (rs.foldl emit st) done ∧ (∀ r ∈ rs, r ∈ (rs.foldl emit st).seen) ∧
      (rs.foldl emit st).dirty = st.dirty ∧ ∀ r' ∈ st.seen, r' ∈ (rs.foldl emit st).seen := by
  intro rs
  induction rs with
  | nil => intro st h _; exact ⟨h, by simp, rfl, fun _ h => h⟩
  | cons r rs ih =>
    intro st h hok
    obtain ⟨h1, h2, h3, h4⟩ := emit_inv h (hok r List.mem_cons_self)
    obtain ⟨i1, i2, i3, i4⟩ := ih h1 fun r' hr' => hok r' (List.mem_cons_of_mem _ hr')
    rw [List.foldl_cons]
    refine ⟨i1, fun r' hr' => ?_, i3.trans h3, fun r' hr' => i4 r' (h4 r' hr')⟩
    rcases List.mem_cons.1 hr' with rfl | hr'
    · exact i4 _ h2
    · exact i2 r' hr'

theorem emitAll_inv {st : St P} (h : Inv result changed st done) {c : P} {d : Dom} {rr : Region}
    (hres : result c = some rr) (hd : d.Ok) (hrr : rr.Ok) :
    Inv result changed (emitAll result st c d) done ∧
      (∀ p, d.Has rr p → ∃ r ∈ (emitAll result st c d).seen, r.Has p) ∧
      (emitAll result st c d).dirty = st.dirty ∧ ∀ r' ∈ st.seen, r' ∈ (emitAll result st c d).seen := by
  unfold emitAll
  rw [hres]
  dsimp only
  obtain ⟨i1, i2, i3, i4⟩ := emits_inv (d.resultRegions rr) h (Dom.resultRegions_ok hd hrr)
  refine ⟨i1, fun p hp => ?_, i3, i4⟩
  obtain ⟨r, h1, h2⟩ := (Dom.resultRegions_has d rr p).2 hp
  exact ⟨r, i2 r h1, h2⟩

/-- Recording the dirty cells of one match keeps the invariant, marks these cells and unmarks none. -/
theorem apply_inv {st : St P} (h : Inv result changed st done) (hcov : Covered result st) {c : P} {d : Dom} {rr : Region}
    (hres : result c = some rr) (hd : d.Ok) (hin : d.In rr) (hrr : rr.Ok) :
    Inv result changed (apply result st c d) done ∧ Covered result (apply result st c d) ∧
      (∀ c' p, p.Fits → (DirtyAt result (apply result st c d).dirty c' p ↔
        DirtyAt result st.dirty c' p ∨ (c' = c ∧ d.Has rr p))) := by
  unfold apply
  cases hg : get st.dirty c with
  | none =>
    dsimp only
    have h0 : Inv result changed { st with dirty := put st.dirty c d } done := by
      refine ⟨h.seenOk, h.queueOk, h.split, h.changed, ?_, h.fallbacks⟩
      intro c' d' rr' h1 h2
      dsimp only at h1
      rw [get_put] at h1
      split at h1
      · next hc => subst hc; rw [hres] at h2; rw [← Option.some.inj h1, ← Option.some.inj h2]; exact hin
      · exact h.inside c' d' rr' h1 h2
    obtain ⟨i1, i2, i3, i4⟩ := emitAll_inv h0 hres hd hrr
    have hdirty : ∀ c' p, p.Fits → (DirtyAt result
        (emitAll result { st with dirty := put st.dirty c d } c d).dirty c' p ↔
          DirtyAt result st.dirty c' p ∨ (c' = c ∧ d.Has rr p)) := by
      intro c' p hp
      rw [i3]
      unfold DirtyAt
      dsimp only
      rw [get_put]
      by_cases hc : c' = c
      · subst hc
        rw [if_pos rfl, hg, hres]
        constructor
        · rintro ⟨d', rr', h1, h2, h3⟩
          rw [← Option.some.inj h1, ← Option.some.inj h2] at h3
          exact Or.inr ⟨rfl, h3⟩
        · rintro (⟨d', rr', h1, -⟩ | ⟨-, h3⟩)
          · cases h1
          · exact ⟨d, rr, rfl, rfl, h3⟩
      · rw [if_neg hc]
        exact ⟨Or.inl, fun h => h.elim (fun h => h) fun h => absurd h.1 hc⟩
    refine ⟨i1, fun c' p hp hdp => ?_, hdirty⟩
    rcases (hdirty c' p hp).1 hdp with h1 | ⟨-, h1⟩
    · obtain ⟨r, h2, h3⟩ := hcov c' p hp h1
      exact ⟨r, i4 r h2, h3⟩
    · exact i2 p h1
  | some old =>
    dsimp only
    have hold : old.In rr := h.inside c old rr hg hres
    by_cases hm : old.merge d = old
    · rw [if_pos hm]
      refine ⟨h, hcov, fun c' p hp => ⟨Or.inl, ?_⟩⟩
      rintro (h1 | ⟨rfl, h1⟩)
      · exact h1
      · refine ⟨old, rr, hg, hres, ?_⟩
        rw [← hm]
        exact (Dom.merge_has hp hold hin).2 (Or.inr h1)
    · rw [if_neg hm]
      have h0 : Inv result changed { st with dirty := put st.dirty c (old.merge d) } done := by
        refine ⟨h.seenOk, h.queueOk, h.split, h.changed, ?_, h.fallbacks⟩
        intro c' d' rr' h1 h2
        dsimp only at h1
        rw [get_put] at h1
        split at h1
        · next hc =>
          subst hc
          rw [hres] at h2
          rw [← Option.some.inj h1, ← Option.some.inj h2]
          intro p hp hh
          exact ((Dom.merge_has hp hold hin).1 hh).elim (hold p hp) (hin p hp)
        · exact h.inside c' d' rr' h1 h2
      obtain ⟨i1, i2, i3, i4⟩ := emitAll_inv h0 hres hd hrr
      have hdirty : ∀ c' p, p.Fits → (DirtyAt result
          (emitAll result { st with dirty := put st.dirty c (old.merge d) } c d).dirty c' p ↔
            DirtyAt result st.dirty c' p ∨ (c' = c ∧ d.Has rr p)) := by
        intro c' p hp
        rw [i3]
        unfold DirtyAt
        dsimp only
        rw [get_put]
        by_cases hc : c' = c
        · subst hc
          rw [if_pos rfl, hg, hres]
          constructor
          · rintro ⟨d', rr', h1, h2, h3⟩
            rw [← Option.some.inj h1, ← Option.some.inj h2, Dom.merge_has hp hold hin] at h3
            exact h3.imp (fun h3 => ⟨old, rr, rfl, rfl, h3⟩) fun h3 => ⟨rfl, h3⟩
          · rintro (⟨d', rr', h1, h2, h3⟩ | ⟨-, h3⟩)
            · rw [← Option.some.inj h1, ← Option.some.inj h2] at h3
              exact ⟨_, rr, rfl, rfl, (Dom.merge_has hp hold hin).2 (Or.inl h3)⟩
            · exact ⟨_, rr, rfl, rfl, (Dom.merge_has hp hold hin).2 (Or.inr h3)⟩
        · rw [if_neg hc]
          exact ⟨Or.inl, fun h => h.elim (fun h => h) fun h => absurd h.1 hc⟩
      refine ⟨i1, fun c' p hp hdp => ?_, hdirty⟩
      rcases (hdirty c' p hp).1 hdp with h1 | ⟨-, h1⟩
      · obtain ⟨r, h2, h3⟩ := hcov c' p hp h1
        exact ⟨r, i4 r h2, h3⟩
      · exact i2 p h1

/-- One match. -/
theorem onMatch_inv {st : St P} (h : Inv result changed st done) (hcov : Covered result st) {r : Region} (hr : r.Ok)
    {e : Entry P} (he : e.Ok) (hres : result e.consumer = some e.result) :
    Inv result changed (onMatch result r st e) done ∧ Covered result (onMatch result r st e) ∧
      (∀ c p, p.Fits → (DirtyAt result (onMatch result r st e).dirty c p ↔
        DirtyAt result st.dirty c p ∨ (c = e.consumer ∧ (e.rule.project r e.read e.result).Marks e.result p))) := by
  unfold onMatch
  rcases Entry.project_shape he hr with ⟨d, h1, h2, h3⟩ | h1
  · rw [h1]
    exact apply_inv h hcov hres h2 h3 he.result
  · rw [h1]
    refine ⟨h, hcov, fun c p _ => ⟨Or.inl, fun h => h.elim (fun h => h) fun h => h.2.elim⟩⟩

/-- All the matches of one region. -/
theorem onMatches_inv {r : Region} (hr : r.Ok) : ∀ (es : List (Entry P)) {st : St P}, Inv result changed st done →
    Covered result st → (∀ e ∈ es, e.Ok ∧ result e.consumer = some e.result) →
    Inv result changed (es.foldl (onMatch result r) st) done ∧ Covered result (es.foldl (onMatch result r) st) ∧
      (∀ c p, p.Fits → (DirtyAt result (es.foldl (onMatch result r) st).dirty c p ↔
        DirtyAt result st.dirty c p ∨ ∃ e ∈ es, c = e.consumer ∧
          (e.rule.project r e.read e.result).Marks e.result p)) := by
  intro es
  induction es with
  | nil => intro st h hc _; exact ⟨h, hc, fun c p _ => by simp⟩
  | cons e es ih =>
    intro st h hc hes
    have he := hes e List.mem_cons_self
    obtain ⟨i1, i2, i3⟩ := onMatch_inv h hc hr he.1 he.2
    obtain ⟨j1, j2, j3⟩ := ih i1 i2 fun e' he' => hes e' (List.mem_cons_of_mem _ he')
    refine ⟨j1, j2, fun c p hp => ?_⟩
    rw [List.foldl_cons, j3 c p hp, i3 c p hp, or_assoc]
    refine or_congr Iff.rfl ?_
    simp only [List.mem_cons, exists_eq_or_imp]

end

/-- What must be recomputed when the regions `changed` change: the cells whose formula reads a changed cell, and the
cells whose formula reads a cell that must be recomputed. -/
inductive Affected (entries : List (Entry P)) (changed : List Region) : P → Key → Prop where
  | direct {e : Entry P} {r : Region} {p k : Key} : e ∈ entries → r ∈ changed → k.Fits → r.Has k → e.result.Has p →
      e.Reads p k → Affected entries changed e.consumer p
  | step {e : Entry P} {c : P} {p k : Key} : Affected entries changed c k → k.Fits → e ∈ entries → e.result.Has p →
      e.Reads p k → Affected entries changed e.consumer p

/-- What a set of entries must satisfy: each is well made, and the result regions are those of the consumers. -/
structure Sound (entries : List (Entry P)) (result : P → Option Region) (query : Region → List (Entry P)) : Prop where
  ok : ∀ e ∈ entries, e.Ok
  result : ∀ e ∈ entries, result e.consumer = some e.result
  query : ∀ r : Region, r.Ok → ∀ e, e ∈ query r ↔ e ∈ entries ∧ ∃ k : Key, k.Fits ∧ e.read.Has k ∧ r.Has k

section
variable {entries : List (Entry P)} {result : P → Option Region} {query : Region → List (Entry P)}
variable (S : Sound entries result query)
include S

/-- `r` has been dealt with: the cells that read it are marked. -/
def Done (entries : List (Entry P)) (result : P → Option Region) (m : List (P × Dom)) (r : Region) : Prop :=
  ∀ e ∈ entries, ∀ p k : Key, p.Fits → k.Fits → e.result.Has p → r.Has k → e.Reads p k →
    DirtyAt result m e.consumer p

theorem round_inv {changed : List Region} {st : St P} {r : Region} {rest : List Region} (hq : st.queue = r :: rest)
    (h : Inv result changed st (Done entries result st.dirty)) (hcov : Covered result st) (hr : r.Ok) :
    let st' := (query r).foldl (onMatch result r) { st with queue := rest }
    Inv result changed st' (Done entries result st'.dirty) ∧ Covered result st' ∧
      (∀ c p, p.Fits → (DirtyAt result st'.dirty c p ↔ DirtyAt result st.dirty c p ∨ ∃ e ∈ query r, c = e.consumer ∧
          (e.rule.project r e.read e.result).Marks e.result p)) := by
  have h0 : Inv result changed { st with queue := rest } (fun r' => Done entries result st.dirty r' ∨ r' = r) := by
    refine ⟨h.seenOk, fun r' hr' => h.queueOk r' (by rw [hq]; exact List.mem_cons_of_mem _ hr'),
      fun r' hr' => ?_, h.changed, h.inside, h.fallbacks⟩
    rcases h.split r' hr' with h1 | h1
    · rw [hq] at h1
      rcases List.mem_cons.1 h1 with rfl | h1
      · exact Or.inr (Or.inr rfl)
      · exact Or.inl h1
    · exact Or.inr (Or.inl h1)
  have hes : ∀ e ∈ query r, e.Ok ∧ result e.consumer = some e.result := fun e he => by
    have := ((S.query r hr e).1 he).1
    exact ⟨S.ok e this, S.result e this⟩
  obtain ⟨i1, i2, i3⟩ := onMatches_inv hr (query r) h0 hcov hes
  refine ⟨⟨i1.seenOk, i1.queueOk, fun r' hr' => ?_, i1.changed, i1.inside, i1.fallbacks⟩, i2, i3⟩
  rcases i1.split r' hr' with h1 | h1 | rfl
  · exact Or.inl h1
  · right
    intro e he p k hp hk hres hrk hrd
    exact (i3 _ p hp).2 (Or.inl (h1 e he p k hp hk hres hrk hrd))
  · right
    intro e he p k hp hk hres hrk hrd
    have heq : e ∈ query r' := (S.query r' hr e).2 ⟨he, k, hk, hrd.1, hrk⟩
    exact (i3 _ p hp).2 (Or.inr ⟨e, heq, rfl, Entry.project_marks (S.ok e he) hr hp hk hres hrk hrd⟩)

theorem loop_inv {changed : List Region} : ∀ (n : Nat) {st out : St P},
    Inv result changed st (Done entries result st.dirty) → Covered result st → loop query result n st = some out →
      Inv result changed out (Done entries result out.dirty) ∧ Covered result out ∧ out.queue = [] := by
  intro n
  induction n with
  | zero =>
    intro st out h hc hl
    unfold loop at hl
    cases hq : st.queue with
    | nil => rw [hq] at hl; rw [← Option.some.inj hl]; exact ⟨h, hc, hq⟩
    | cons r rest => rw [hq] at hl; cases hl
  | succ n ih =>
    intro st out h hc hl
    unfold loop at hl
    cases hq : st.queue with
    | nil => rw [hq] at hl; rw [← Option.some.inj hl]; exact ⟨h, hc, hq⟩
    | cons r rest =>
      rw [hq] at hl
      dsimp only at hl
      obtain ⟨i1, i2, -⟩ := round_inv S hq h hc (h.queueOk r (by rw [hq]; exact List.mem_cons_self))
      exact ih i1 i2 hl

omit S in
theorem start_inv (result : P → Option Region) (changed : List Region) (hch : ∀ r ∈ changed, r.Ok) (done : Region → Prop) :
    Inv result changed (start changed : St P) done ∧ (start changed : St P).dirty = [] ∧
      ∀ r ∈ (start changed : St P).seen, r ∈ changed := by
  have key : ∀ (rs pre : List Region) (st : St P), (∀ r ∈ rs, r.Ok) → Inv result pre st done → st.dirty = [] →
      (∀ r ∈ st.seen, r ∈ pre) →
      let st' := rs.foldl (fun st r => if r ∈ st.seen then st else
        { st with
          seen := r :: st.seen
          queue := st.queue ++ [r] }) st
      Inv result (pre ++ rs) st' done ∧ st'.dirty = [] ∧ ∀ r ∈ st'.seen, r ∈ pre ++ rs := by
    intro rs
    induction rs with
    | nil => intro pre st _ h hd hs; simpa using ⟨h, hd, hs⟩
    | cons r rs ih =>
      intro pre st hok h hd hs
      rw [show pre ++ r :: rs = (pre ++ [r]) ++ rs by simp, List.foldl_cons]
      refine ih (pre ++ [r]) _ (fun r' hr' => hok r' (List.mem_cons_of_mem _ hr')) ?_ ?_ ?_
      · split
        · next hm =>
          refine ⟨h.seenOk, h.queueOk, h.split, fun r' hr' => ?_, h.inside, h.fallbacks⟩
          rcases List.mem_append.1 hr' with hr' | hr'
          · exact h.changed r' hr'
          · rw [List.mem_singleton.1 hr']; exact hm
        · refine ⟨fun r' hr' => ?_, fun r' hr' => ?_, fun r' hr' => ?_, fun r' hr' => ?_, h.inside, h.fallbacks⟩
          · rcases List.mem_cons.1 hr' with rfl | hr'
            · exact hok _ List.mem_cons_self
            · exact h.seenOk r' hr'
          · rcases List.mem_append.1 hr' with hr' | hr'
            · exact h.queueOk r' hr'
            · rw [List.mem_singleton.1 hr']; exact hok _ List.mem_cons_self
          · rcases List.mem_cons.1 hr' with rfl | hr'
            · exact Or.inl (List.mem_append_right _ (List.mem_singleton.2 rfl))
            · exact (h.split r' hr').imp (fun h => List.mem_append_left _ h) fun h => h
          · rcases List.mem_append.1 hr' with hr' | hr'
            · exact List.mem_cons_of_mem _ (h.changed r' hr')
            · rw [List.mem_singleton.1 hr']; exact List.mem_cons_self
      · split <;> exact hd
      · split
        · intro r' hr'; exact List.mem_append_left _ (hs r' hr')
        · intro r' hr'
          rcases List.mem_cons.1 hr' with rfl | hr'
          · exact List.mem_append_right _ (List.mem_singleton.2 rfl)
          · exact List.mem_append_left _ (hs r' hr')
  have h0 : Inv result [] ({} : St P) done := ⟨by simp, by simp, by simp, by simp, by simp [get], rfl⟩
  have := key changed [] {} hch h0 rfl (by simp)
  simpa [start] using this

/-- When the closure is complete, every cell that must be recomputed is marked, and nothing fell back. -/
theorem closure_complete {changed : List Region} (hch : ∀ r ∈ changed, r.Ok) {limit : Nat} {out : St P}
    (h : closure query result limit changed = some out) :
    out.fallbacks = [] ∧ ∀ c p, p.Fits → Affected entries changed c p → DirtyAt result out.dirty c p := by
  obtain ⟨h0, hd, -⟩ := start_inv result changed hch (Done entries result (start changed : St P).dirty)
  have hc0 : Covered result (start changed : St P) := by
    rintro c p - ⟨d, rr, hg, -⟩
    rw [hd] at hg
    cases hg
  obtain ⟨i1, i2, i3⟩ := loop_inv S limit h0 hc0 h
  have hdone : ∀ r ∈ out.seen, Done entries result out.dirty r := by
    intro r hr
    rcases i1.split r hr with h1 | h1
    · rw [i3] at h1; cases h1
    · exact h1
  refine ⟨i1.fallbacks, fun c p hp ha => ?_⟩
  induction ha with
  | direct he hr hk hrk hres hrd => exact hdone _ (i1.changed _ hr) _ he _ _ hp hk hres hrk hrd
  | step hc hk he hres hrd ih =>
    obtain ⟨r, h1, h2⟩ := i2 _ _ hk (ih hk)
    exact hdone r h1 _ he _ _ hp hk hres h2 hrd

/-- The cells the engine takes as dirty: whatever the limit on the number of rounds, every cell of a span that must be
recomputed is among them. -/
theorem marks_complete {changed : List Region} (hch : ∀ r ∈ changed, r.Ok) (limit : Nat) (spans : List P) {c : P}
    (hc : c ∈ spans) {p : Key} (hp : p.Fits) (ha : Affected entries changed c p) :
    ∃ d rr, (c, d) ∈ marks spans (closure query result limit changed) ∧ result c = some rr ∧ d.Has rr p := by
  cases h : closure query result limit changed with
  | none =>
    have : ∃ rr, result c = some rr ∧ rr.Has p := by
      cases ha with
      | direct he _ _ _ hres _ => exact ⟨_, S.result _ he, hres⟩
      | step _ _ he hres _ => exact ⟨_, S.result _ he, hres⟩
    obtain ⟨rr, h1, h2⟩ := this
    exact ⟨.whole, rr, List.mem_map.2 ⟨c, hc, rfl⟩, h1, h2⟩
  | some out =>
    obtain ⟨d, rr, h1, h2, h3⟩ := (closure_complete S hch h).2 c p hp ha
    refine ⟨d, rr, List.mem_append_left _ ?_, h2, h3⟩
    unfold get at h1
    cases hf : out.dirty.find? (fun e => e.1 = c) with
    | none => rw [hf] at h1; cases h1
    | some e =>
      rw [hf] at h1
      have hm := List.mem_of_find?_eq_some hf
      have he := List.find?_some hf
      simp only [decide_eq_true_eq] at he
      rw [← Option.some.inj h1, ← he]
      exact hm

/-- The rules that are projected exactly. -/
def Affine (entries : List (Entry P)) : Prop :=
  ∀ e ∈ entries, (∃ r c, e.rule = .cell r c) ∨ ∃ a b c d, e.rule = .range a b c d

omit S in
theorem emits_queue (rs : List Region) : ∀ (st : St P) (r : Region), r ∈ (rs.foldl emit st).queue → r ∈ st.queue ∨ r ∈ rs := by
  induction rs with
  | nil => intro st r h; exact Or.inl h
  | cons a rs ih =>
    intro st r h
    rcases ih (emit st a) r h with h1 | h1
    · unfold emit at h1
      split at h1
      · exact Or.inl h1
      · rcases List.mem_append.1 h1 with h1 | h1
        · exact Or.inl h1
        · rw [List.mem_singleton.1 h1]; exact Or.inr List.mem_cons_self
    · exact Or.inr (List.mem_cons_of_mem _ h1)

omit S in
theorem apply_queue {st : St P} {c : P} {d : Dom} {rr : Region} (hres : result c = some rr) (r : Region)
    (h : r ∈ (apply result st c d).queue) : r ∈ st.queue ∨ r ∈ d.resultRegions rr := by
  unfold apply emitAll at h
  rw [hres] at h
  dsimp only at h
  split at h
  · split at h
    · exact Or.inl h
    · have h2 := emits_queue _ _ _ h; exact h2
  · have h2 := emits_queue _ _ _ h; exact h2

omit S in
theorem onMatches_queue {changed : List Region} {done : Region → Prop} {r : Region} (hr : r.Ok) :
    ∀ (es : List (Entry P)) {st : St P}, Inv result changed st done →
    Covered result st → (∀ e ∈ es, e.Ok ∧ result e.consumer = some e.result) →
    ∀ r' ∈ (es.foldl (onMatch result r) st).queue, r' ∈ st.queue ∨
      ∀ k : Key, k.Fits → r'.Has k → ∃ c, DirtyAt result (es.foldl (onMatch result r) st).dirty c k := by
  intro es
  induction es with
  | nil => intro st h hc _ r' hr'; exact Or.inl hr'
  | cons e es ih =>
    intro st h hc hes r' hr'
    have he := hes e List.mem_cons_self
    obtain ⟨i1, i2, i3⟩ := onMatch_inv h hc hr he.1 he.2
    have hes' : ∀ e' ∈ es, e'.Ok ∧ result e'.consumer = some e'.result := fun e' he' => hes e' (List.mem_cons_of_mem _ he')
    obtain ⟨-, -, j3⟩ := onMatches_inv hr es i1 i2 hes'
    rcases ih i1 i2 hes' r' hr' with h1 | h1
    · unfold onMatch at h1
      rcases Entry.project_shape he.1 hr with ⟨d, h2, h3, h4⟩ | h2
      · rw [h2] at h1
        rcases apply_queue he.2 r' h1 with h5 | h5
        · exact Or.inl h5
        · refine Or.inr fun k hk hrk => ⟨e.consumer, ?_⟩
          refine (j3 _ k hk).2 (Or.inl ((i3 _ k hk).2 (Or.inr ⟨rfl, ?_⟩)))
          rw [h2]
          exact (Dom.resultRegions_has d e.result k).1 ⟨r', h5, hrk⟩
      · rw [h2] at h1
        exact Or.inl h1
    · exact Or.inr h1

/-- With cell and range references only, nothing else is marked: every marked cell must be recomputed. -/
theorem loop_exact {changed : List Region} (haff : Affine entries)
    (hmax : ∀ e ∈ entries, ∀ p : Key, e.result.Has p → p.row < u32Max ∧ p.col < u32Max) :
    ∀ (n : Nat) {st out : St P}, Inv result changed st (Done entries result st.dirty) → Covered result st →
      (∀ c p, p.Fits → DirtyAt result st.dirty c p → Affected entries changed c p) →
      (∀ r ∈ st.queue, r ∈ changed ∨ ∀ k : Key, k.Fits → r.Has k → ∃ c, Affected entries changed c k) →
      loop query result n st = some out →
        ∀ c p, p.Fits → DirtyAt result out.dirty c p → Affected entries changed c p := by
  intro n
  induction n with
  | zero =>
    intro st out h hc ha _ hl
    unfold loop at hl
    cases hq : st.queue with
    | nil => rw [hq] at hl; rw [← Option.some.inj hl]; exact ha
    | cons r rest => rw [hq] at hl; cases hl
  | succ n ih =>
    intro st out h hc ha hqa hl
    unfold loop at hl
    cases hq : st.queue with
    | nil => rw [hq] at hl; rw [← Option.some.inj hl]; exact ha
    | cons r rest =>
      rw [hq] at hl
      dsimp only at hl
      have hr : r.Ok := h.queueOk r (by rw [hq]; exact List.mem_cons_self)
      obtain ⟨i1, i2, i3⟩ := round_inv S hq h hc hr
      have hmark : ∀ c p, p.Fits → DirtyAt result ((query r).foldl (onMatch result r) { st with queue := rest }).dirty c p →
          Affected entries changed c p := by
        intro c p hp hd
        rcases (i3 c p hp).1 hd with h1 | ⟨e, he, rfl, hm⟩
        · exact ha c p hp h1
        · have he' := ((S.query r hr e).1 he).1
          have hok := S.ok e he'
          have hread : e.rule.readRegion e.read.sheet e.result = some e.read := by
            rcases hok.made with hw | hm | ⟨cs, ce, hw⟩
            · rcases haff e he' with ⟨_, _, h⟩ | ⟨_, _, _, _, h⟩ <;> rw [h] at hw <;> cases hw
            · exact hm
            · rcases haff e he' with ⟨_, _, h⟩ | ⟨_, _, _, _, h⟩ <;> rw [h] at hw <;> cases hw
          have hin := (project_sound hok.result hr hok.fits hread p hp).1 hm
          obtain ⟨m1, m2⟩ := hmax e he' p hin
          obtain ⟨-, k, k1, k2, k3⟩ := ((project_exact hok.result hr hok.fits hread).2 p m1 m2).1 hm
          have hrd : e.Reads p k := ⟨(readRegion_covers hok.result hok.fits hread).2 p k hin k3, Or.inr k3⟩
          rcases hqa r (by rw [hq]; exact List.mem_cons_self) with h2 | h2
          · exact .direct he' h2 k1 k2 hin hrd
          · obtain ⟨c, hc'⟩ := h2 k k1 k2
            exact .step hc' k1 he' hin hrd
      refine ih i1 i2 hmark (fun r' hr' => ?_) hl
      have h0 : Inv result changed { st with queue := rest } (fun r' => Done entries result st.dirty r' ∨ r' = r) := by
        refine ⟨h.seenOk, fun r' hr' => h.queueOk r' (by rw [hq]; exact List.mem_cons_of_mem _ hr'),
          fun r' hr' => ?_, h.changed, h.inside, h.fallbacks⟩
        rcases h.split r' hr' with h1 | h1
        · rw [hq] at h1
          rcases List.mem_cons.1 h1 with rfl | h1
          · exact Or.inr (Or.inr rfl)
          · exact Or.inl h1
        · exact Or.inr (Or.inl h1)
      have hes : ∀ e ∈ query r, e.Ok ∧ result e.consumer = some e.result := fun e he => by
        have := ((S.query r hr e).1 he).1
        exact ⟨S.ok e this, S.result e this⟩
      rcases onMatches_queue hr (query r) h0 hc hes r' hr' with h1 | h1
      · exact hqa r' (by rw [hq]; exact List.mem_cons_of_mem _ h1)
      · refine Or.inr fun k hk hrk => ?_
        obtain ⟨c, hd⟩ := h1 k hk hrk
        exact ⟨c, hmark c k hk hd⟩

/-- With cell and range references only, a complete closure marks exactly the cells that must be recomputed. -/
theorem closure_exact {changed : List Region} (hch : ∀ r ∈ changed, r.Ok) (haff : Affine entries)
    (hmax : ∀ e ∈ entries, ∀ p : Key, e.result.Has p → p.row < u32Max ∧ p.col < u32Max) {limit : Nat} {out : St P}
    (h : closure query result limit changed = some out) (c : P) (p : Key) (hp : p.Fits) :
    DirtyAt result out.dirty c p ↔ Affected entries changed c p := by
  refine ⟨?_, (closure_complete S hch h).2 c p hp⟩
  obtain ⟨h0, hd, hs⟩ := start_inv result changed hch (Done entries result (start changed : St P).dirty)
  have no : ∀ c p, ¬ DirtyAt result (start changed : St P).dirty c p := by
    rintro c p ⟨d, rr, hg, -⟩
    rw [hd] at hg
    cases hg
  have hq : ∀ r ∈ (start changed : St P).queue, r ∈ changed := by
    have key : ∀ (rs : List Region) (st : St P), (∀ r ∈ st.queue, r ∈ changed) → (∀ r ∈ rs, r ∈ changed) →
        ∀ r ∈ (rs.foldl (fun st r => if r ∈ st.seen then st else
          { st with
            seen := r :: st.seen
            queue := st.queue ++ [r] }) st).queue, r ∈ changed := by
      intro rs
      induction rs with
      | nil => intro st h _; exact h
      | cons a rs ih =>
        intro st h h'
        rw [List.foldl_cons]
        refine ih _ ?_ fun r hr => h' r (List.mem_cons_of_mem _ hr)
        by_cases hm : a ∈ st.seen
        · rw [if_pos hm]; exact h
        · rw [if_neg hm]
          intro r hr
          rcases List.mem_append.1 hr with hr | hr
          · exact h r hr
          · rw [List.mem_singleton.1 hr]; exact h' a List.mem_cons_self
    exact key changed {} (by simp) fun _ h => h
  exact loop_exact S haff hmax limit h0 (fun c p _ h => (no c p h).elim) (fun c p _ h => (no c p h).elim)
    (fun r hr => Or.inl (hq r hr)) h c p hp

end

/-- The search of the read index returns what `Sound` asks for. -/
theorem consumerQuery_spec {P : Type} (entries : List (Entry P)) (hok : ∀ e ∈ entries, e.Ok) (r : Region) (hr : r.Ok)
    (e : Entry P) :
    e ∈ consumerQuery entries r ↔ e ∈ entries ∧ ∃ k : Key, k.Fits ∧ e.read.Has k ∧ r.Has k := by
  obtain ⟨l, h1, -, h3⟩ := Index.query_exact 64 16 (entries.map Entry.read)
    (fun r' h => by obtain ⟨e, he, rfl⟩ := List.mem_map.1 h; exact (hok e he).read) r hr
  unfold consumerQuery
  rw [h1]
  simp only [List.mem_filterMap]
  constructor
  · rintro ⟨id, hid, he⟩
    obtain ⟨r', h4, h5⟩ := (h3 id).1 hid
    rw [List.getElem?_map, he] at h4
    rw [← Option.some.inj h4] at h5
    exact ⟨List.mem_of_getElem? he, h5⟩
  · rintro ⟨he, h5⟩
    obtain ⟨id, hid⟩ := List.getElem?_of_mem he
    exact ⟨id, (h3 id).2 ⟨e.read, by rw [List.getElem?_map, hid]; rfl, h5⟩, hid⟩

/-- The entries of a set of spans, searched through the read index. -/
theorem sound_of {P : Type} [DecidableEq P] (entries : List (Entry P)) (result : P → Option Region)
    (hok : ∀ e ∈ entries, e.Ok) (hres : ∀ e ∈ entries, result e.consumer = some e.result) :
    Sound entries result (consumerQuery entries) :=
  ⟨hok, hres, fun r hr e => consumerQuery_spec entries hok r hr e⟩

/-- Two spans: column 1 doubles column 0, column 2 is a running total of column 1.  Cell (5, 0) changes. -/
def exEntries : List (Entry Nat) :=
  [⟨1, ⟨0, .span 0 9, .point 0⟩, ⟨0, .span 0 9, .point 1⟩, .cell (.rel 0) (.rel (-1))⟩,
   ⟨2, ⟨0, .span 0 9, .point 1⟩, ⟨0, .span 0 9, .point 2⟩, .range (.abs 0) (.rel 0) (.rel (-1)) (.rel (-1))⟩]

def exResult : Nat → Option Region
  | 1 => some ⟨0, .span 0 9, .point 1⟩
  | 2 => some ⟨0, .span 0 9, .point 2⟩
  | _ => none

example : (closure (consumerQuery exEntries) exResult 100 [⟨0, .point 5, .point 0⟩]).map St.dirty =
    some [(2, .regions [⟨0, .span 5 9, .point 2⟩]), (1, .cells [⟨0, 5, 1⟩])] := by decide +kernel

theorem exEntries_sound : Sound exEntries exResult (consumerQuery exEntries) := by
  refine sound_of _ _ ?_ ?_
  · intro e he
    simp only [exEntries, List.mem_cons, List.not_mem_nil, or_false] at he
    rcases he with rfl | rfl
    · exact ⟨by simp [Region.Ok, AxisRange.Ok, u32Max], by simp [Region.Ok, AxisRange.Ok, u32Max], by simp [Rule.Fits],
        Or.inr (Or.inl (by decide))⟩
    · exact ⟨by simp [Region.Ok, AxisRange.Ok, u32Max], by simp [Region.Ok, AxisRange.Ok, u32Max],
        by simp [Rule.Fits, u32Max], Or.inr (Or.inl (by decide))⟩
  · intro e he
    simp only [exEntries, List.mem_cons, List.not_mem_nil, or_false] at he
    rcases he with rfl | rfl <;> rfl

end Closure
end Verif.Plane
