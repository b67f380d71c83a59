import Verif.Evid.Cover

/-!
# The families taken while loading are those of the sheet
-/

namespace Verif.Evid

/-- The family owns only cells of its rectangle, the first of which is its anchor. -/
structure Told (events owned : List (Coord × Record)) (f : ℕ) (e : Fam) (r : Rect) : Prop where
  owned : ∀ ev ∈ owned, ev.2.owner = some f → contains r ev.1
  anchor : ∃ t, e.anchor = some r.start ∧ e.text = some t ∧ t ≠ [] ∧ (r.start, Record.anchor f (some r) t) ∈ events

structure FamOk (events owned : List (Coord × Record)) (act : Prop) (f : ℕ) (e : Fam) : Prop where
  members : e.members = (events.filter fun ev => decide (ev.2.owner = some f)).length
  fresh : e.range = none → e.exclusions = [] ∧ ¬act
  shape : ∀ r, e.range = some r → valid r ∧ 1 ≤ e.anchors ∧ 1 ≤ e.members ∧ e.anchor ≠ none ∧ e.text ≠ none
  cov : ∀ r, e.range = some r → e.anomaly = none → Cov events f e r ∧ Live act events e r ∧ Told events owned f e r

structure Inv (events : List (Coord × Record)) (s : State) : Prop where
  last : s.last = events.getLast?.map Prod.fst
  pw : events.Pairwise fun a b => a.1.lt b.1
  nodup : s.active.Nodup
  fam : ∀ f, FamOk events events (f ∈ s.active) f (s.fams f)

theorem famOk_anomaly {events owned : List (Coord × Record)} {act : Prop} {f : ℕ} {e : Fam} (h : FamOk events owned act f e) (x : Reason) : FamOk events owned act f { e with anomaly := some x } :=
  ⟨h.members, h.fresh, h.shape, fun _ _ h => by simp at h⟩

theorem famOk_blame {events owned : List (Coord × Record)} {act : Prop} {f : ℕ} {e : Fam} (h : FamOk events owned act f e) (x : Reason) : FamOk events owned act f (e.blame x) := by
  refine ⟨h.members, h.fresh, h.shape, fun r _ ha => ?_⟩
  unfold Fam.blame at ha
  cases h : e.anomaly <;> simp [h] at ha

theorem famOk_owned {events : List (Coord × Record)} {c : Coord} {rec_ : Record} {act : Prop} {f : ℕ} {e : Fam} (h : FamOk (events ++ [(c, rec_)]) events act f e) (ho : rec_.owner = some f → ∀ r, e.range = some r → e.anomaly = none → contains r c) :
    FamOk (events ++ [(c, rec_)]) (events ++ [(c, rec_)]) act f e := by
  refine ⟨h.members, h.fresh, h.shape, fun r hr ha => ?_⟩
  obtain ⟨h1, h2, h3⟩ := h.cov r hr ha
  refine ⟨h1, h2, fun ev hev hf => ?_, h3.anchor⟩
  rcases List.mem_append.mp hev with hev | hev
  · exact h3.owned ev hev hf
  · obtain rfl := List.mem_singleton.mp hev
    exact ho hf r hr ha

/-! ## The fields that stay -/

theorem appendHoles_fields (e : Fam) (r : Rect) (n : Coord) (stop : Option Coord) (cap : ℕ) :
    (appendHoles e r n stop cap).members = e.members ∧ (appendHoles e r n stop cap).anchors = e.anchors ∧ (appendHoles e r n stop cap).anchor = e.anchor ∧ (appendHoles e r n stop cap).text = e.text ∧ (appendHoles e r n stop cap).range = e.range := by
  unfold appendHoles
  cases area r with
  | none => simp
  | some a =>
    cases offset r n with
    | none => simp
    | some s =>
      simp only [fillHoles]
      split
      · simp
      · split <;> simp

theorem dispose_fields (e : Fam) (r : Rect) (c : Coord) (rec_ : Record) (mine : Bool) (cap : ℕ) :
    (dispose e r c rec_ mine cap).members = e.members ∧ (dispose e r c rec_ mine cap).anchors = e.anchors ∧ (dispose e r c rec_ mine cap).anchor = e.anchor ∧ (dispose e r c rec_ mine cap).text = e.text ∧ (dispose e r c rec_ mine cap).range = e.range := by
  unfold dispose
  split
  · simp
  · cases rec_ with
    | ordinary =>
      simp only [pushExclusion]
      split <;> simp
    | unsupported => simp
    | anchor g q t => simp
    | descendant g => simp

theorem advance_fields (e : Fam) (r : Rect) (c : Coord) (rec_ : Record) (mine : Bool) (cap : ℕ) :
    (advance e r c rec_ mine cap).members = e.members ∧ (advance e r c rec_ mine cap).anchors = e.anchors ∧ (advance e r c rec_ mine cap).anchor = e.anchor ∧ (advance e r c rec_ mine cap).text = e.text ∧ (advance e r c rec_ mine cap).range = e.range := by
  unfold advance
  split
  · simp
  · split
    · cases e.next with
      | none => simp
      | some n => exact appendHoles_fields e r n none cap
    · split
      · simp
      · cases e.next with
        | none =>
          simp only
          split
          · simp
          · exact dispose_fields e r c rec_ mine cap
        | some n =>
          simp only
          have h1 := appendHoles_fields e r n (some c) cap
          split
          · exact h1
          · have h2 := dispose_fields (appendHoles e r n (some c) cap) r c rec_ mine cap
            exact ⟨h2.1.trans h1.1, h2.2.1.trans h1.2.1, h2.2.2.1.trans h1.2.2.1, h2.2.2.2.1.trans h1.2.2.2.1, h2.2.2.2.2.trans h1.2.2.2.2⟩

theorem advance_bad {e : Fam} (r : Rect) (c : Coord) (rec_ : Record) (mine : Bool) (cap : ℕ) (h : e.anomaly ≠ none) : advance e r c rec_ mine cap = e := by
  unfold advance
  rw [if_pos h]

/-- The loop over the active families changes each by itself. -/
theorem advanceLoop_spec (c : Coord) (rec_ : Record) (cap : ℕ) (act : List ℕ) (hn : act.Nodup) (fams : ℕ → Fam) :
    (∀ f, (advanceLoop c rec_ cap act fams).1 f = if f ∈ act then (match (fams f).range with | some r => advance (fams f) r c rec_ (rec_.owner = some f) cap | none => fams f) else fams f) ∧
    (advanceLoop c rec_ cap act fams).2.1 = act.filter fun f => match (fams f).range with | some r => decide (c.le r.stop) | none => false := by
  induction act generalizing fams with
  | nil => simp [advanceLoop]
  | cons g act ih =>
    rw [List.nodup_cons] at hn
    cases hr : (fams g).range with
    | none =>
      obtain ⟨i1, i2⟩ := ih hn.2 fams
      simp only [advanceLoop, hr]
      refine ⟨fun f => ?_, ?_⟩
      · rw [i1]
        by_cases hf : f = g
        · subst hf
          rw [if_neg hn.1, if_pos (by simp), hr]
        · simp [hf]
      · rw [i2, List.filter_cons]
        simp [hr]
    | some r =>
      obtain ⟨i1, i2⟩ := ih hn.2 fun k => if k = g then advance (fams g) r c rec_ (rec_.owner = some g) cap else fams k
      simp only [advanceLoop, hr]
      refine ⟨fun f => ?_, ?_⟩
      · rw [i1]
        by_cases hf : f = g
        · subst hf
          rw [if_neg hn.1, if_pos (by simp), hr]
          simp
        · simp [hf]
      · rw [i2, List.filter_cons]
        have : (act.filter fun f => match (if f = g then advance (fams g) r c rec_ (rec_.owner = some g) cap else fams f).range with | some r => decide (c.le r.stop) | none => false) = act.filter fun f => match (fams f).range with | some r => decide (c.le r.stop) | none => false := by
          apply List.filter_congr
          intro x hx
          have : x ≠ g := fun h => hn.1 (h ▸ hx)
          simp [this]
        rw [this, hr]
        by_cases hle : c.le r.stop <;> simp [hle]

/-! ## One record -/

theorem halt_halted (s : State) (r : Reason) : (s.halt r).halted ≠ none := by
  unfold State.halt
  split
  · simp
  · assumption

theorem halt_fields (s : State) (r : Reason) : (s.halt r).fams = s.fams ∧ (s.halt r).keys = s.keys ∧ (s.halt r).active = s.active ∧ (s.halt r).last = s.last := by
  unfold State.halt
  split <;> simp

theorem order_spec (s : State) (c : Coord) (h : (s.order c).halted = none) :
    s.halted = none ∧ (∀ p, s.last = some p → p.lt c) ∧ s.order c = { s with last := some c } := by
  unfold State.order at *
  cases hl : s.last with
  | none =>
    simp only [hl] at h ⊢
    exact ⟨h, by simp, trivial⟩
  | some p =>
    simp only [hl] at h ⊢
    by_cases hcp : c = p
    · simp only [hcp, if_true] at h
      exact absurd h (halt_halted s _)
    · simp only [hcp, if_false] at h ⊢
      by_cases hlt : c.lt p
      · simp only [hlt, if_true] at h
        exact absurd h (halt_halted s _)
      · simp only [hlt, if_false] at h ⊢
        refine ⟨h, ?_, trivial⟩
        intro q hq
        rw [← Option.some.inj hq]
        unfold Coord.lt at *
        obtain ⟨a, b⟩ := c
        obtain ⟨a', b'⟩ := p
        simp only [Coord.mk.injEq] at *
        omega

theorem ensure_cases (cfg : Config) (s : State) (f : ℕ) :
    (∃ s', s.ensure cfg f = (s', true) ∧ s'.halted = s.halted ∧ s'.active = s.active ∧ s'.last = s.last ∧ s'.fams = s.fams) ∨ ∃ s', s.ensure cfg f = (s', false) ∧ s'.halted ≠ none := by
  unfold State.ensure
  split
  · exact .inl ⟨s, rfl, rfl, rfl, rfl, rfl⟩
  · split
    next hh => exact .inr ⟨s, rfl, hh⟩
    next hh =>
      split
      · exact .inr ⟨_, rfl, halt_halted s _⟩
      · exact .inl ⟨_, rfl, rfl, rfl, rfl, rfl⟩

/-- The state after counting the member of a family. -/
def counted (cfg : Config) (s : State) (rec_ : Record) : State × Bool :=
  match rec_.owner with
  | some f =>
    let p := s.ensure cfg f
    if p.2 then (p.1.set f { p.1.fams f with members := (p.1.fams f).members + 1 }, true) else p
  | none => (s, true)

theorem counted_spec (cfg : Config) (s : State) (rec_ : Record) (h : (counted cfg s rec_).1.halted = none) :
    (counted cfg s rec_).2 = true ∧ s.halted = none ∧ (counted cfg s rec_).1.active = s.active ∧ (counted cfg s rec_).1.last = s.last ∧
    ∀ k, (counted cfg s rec_).1.fams k = { s.fams k with members := (s.fams k).members + if rec_.owner = some k then 1 else 0 } := by
  unfold counted at *
  cases ho : rec_.owner with
  | none =>
    simp only [ho] at h ⊢
    simp [h]
  | some f =>
    simp only [ho] at h ⊢
    rcases ensure_cases cfg s f with ⟨s', e, h1, h2, h3, h4⟩ | ⟨s', e, h1⟩
    · rw [e] at h ⊢
      simp only [if_true] at h ⊢
      refine ⟨trivial, ?_, h2, h3, fun k => ?_⟩
      · rw [← h1]; exact h
      · simp only [State.set, h4]
        by_cases hk : k = f
        · simp [hk]
        · have : ¬f = k := fun h => hk h.symm
          simp [hk, this]
    · rw [e] at h
      simp only [Bool.false_eq_true, if_false] at h
      exact absurd h h1

theorem advanceState_spec (cfg : Config) (s : State) (c : Coord) (rec_ : Record) (h : (s.advance cfg c rec_).halted = none) :
    s.halted = none ∧ (s.advance cfg c rec_).last = s.last ∧ (s.advance cfg c rec_).fams = (advanceLoop c rec_ (capOf cfg s) s.active s.fams).1 ∧ (s.advance cfg c rec_).active = (advanceLoop c rec_ (capOf cfg s) s.active s.fams).2.1 := by
  unfold State.advance at *
  simp only at h ⊢
  split at h
  · exact absurd h (halt_halted _ _)
  · rw [if_neg (by assumption)]
    exact ⟨h, rfl, rfl, rfl⟩

/-- After counting and advancing, the families are right but for the range of the new record. -/
theorem mid_famOk {events : List (Coord × Record)} {s : State} (hi : Inv events s) (c : Coord) (hc : ∀ ev ∈ events, ev.1.lt c) (rec_ : Record) (cap : ℕ) (fams : ℕ → Fam)
    (hf : ∀ k, fams k = { s.fams k with members := (s.fams k).members + if rec_.owner = some k then 1 else 0 }) (f : ℕ) :
    FamOk (events ++ [(c, rec_)]) events (f ∈ (advanceLoop c rec_ cap s.active fams).2.1) f ((advanceLoop c rec_ cap s.active fams).1 f) := by
  obtain ⟨l1, l2⟩ := advanceLoop_spec c rec_ cap s.active hi.nodup fams
  rw [l1, l2]
  have hfam := hi.fam f
  have hmem : (fams f).members = ((events ++ [(c, rec_)]).filter fun ev => decide (ev.2.owner = some f)).length := by
    rw [hf, List.filter_append, List.length_append, ← hfam.members]
    simp only [List.filter_cons, List.filter_nil]
    by_cases ho : rec_.owner = some f <;> simp [ho]
  have hcov0 : ∀ r, (s.fams f).range = some r → (s.fams f).anomaly = none → Cov events f (fams f) r ∧ Live (f ∈ s.active) events (fams f) r ∧ Told events events f (fams f) r := by
    intro r hr ha
    obtain ⟨h1, h2, h3⟩ := hfam.cov r hr ha
    rw [hf]
    exact ⟨⟨h1.nextIn, h1.below, h1.excl, h1.sorted, h1.seen⟩, ⟨h2.on, h2.off⟩, ⟨h3.owned, h3.anchor⟩⟩
  have hrange : (fams f).range = (s.fams f).range := by rw [hf]
  have hanom : (fams f).anomaly = (s.fams f).anomaly := by rw [hf]
  have hanch : ∀ {e : Fam} {r : Rect}, Told events events f e r → ∀ e' : Fam, e'.anchor = e.anchor → e'.text = e.text → Told (events ++ [(c, rec_)]) events f e' r := by
    intro e r h e' h1 h2
    obtain ⟨t, t1, t2, t3, t4⟩ := h.anchor
    exact ⟨h.owned, t, h1.trans t1, h2.trans t2, t3, by simp [t4]⟩
  have hmembers1 : (s.fams f).members ≤ (fams f).members := by rw [hf]; simp
  by_cases hact : f ∈ s.active
  · rw [if_pos hact]
    cases hr : (s.fams f).range with
    | none => exact absurd hact (hfam.fresh hr).2
    | some r =>
      have hr' : (fams f).range = some r := hrange.trans hr
      simp only [hr']
      have fields := advance_fields (fams f) r c rec_ (decide (rec_.owner = some f)) cap
      obtain ⟨sh1, sh2, sh3, sh4, sh5⟩ := hfam.shape r hr
      have hactive : (f ∈ s.active.filter fun f => match (fams f).range with | some r => decide (c.le r.stop) | none => false) ↔ c.le r.stop := by
        rw [List.mem_filter]
        simp [hact, hr']
      constructor
      · rw [fields.1]; exact hmem
      · intro h
        rw [fields.2.2.2.2, hr'] at h
        simp at h
      · intro q hq
        rw [fields.2.2.2.2, hr'] at hq
        obtain rfl := Option.some.inj hq
        rw [fields.1, fields.2.1, fields.2.2.1, fields.2.2.2.1]
        refine ⟨sh1, ?_, by omega, ?_, ?_⟩
        · rw [hf]; exact sh2
        · rw [hf]; exact sh4
        · rw [hf]; exact sh5
      · intro q hq ha
        rw [fields.2.2.2.2, hr'] at hq
        obtain rfl := Option.some.inj hq
        have ha0 : (fams f).anomaly = none := by
          by_contra hne
          rw [advance_bad _ _ _ _ _ hne] at ha
          exact hne ha
        obtain ⟨c1, c2, c3⟩ := hcov0 r hr (hanom ▸ ha0)
        obtain ⟨a1, a2⟩ := advance_cov sh1 c1 ⟨fun _ => c2.on hact, fun h => absurd trivial h⟩ hc rec_ cap ha0 ha
        refine ⟨a1, ⟨fun h => a2.on (hactive.mp h), fun h => a2.off fun h' => h (hactive.mpr h')⟩, hanch c3 _ fields.2.2.1 fields.2.2.2.1⟩
  · rw [if_neg hact]
    have hnot : ¬f ∈ s.active.filter fun f => match (fams f).range with | some r => decide (c.le r.stop) | none => false := fun h => hact (List.mem_filter.mp h).1
    refine ⟨hmem, ?_, ?_, ?_⟩
    · intro h
      refine ⟨?_, hnot⟩
      rw [hf]
      exact (hfam.fresh (hrange ▸ h)).1
    · intro r hr
      obtain ⟨sh1, sh2, sh3, sh4, sh5⟩ := hfam.shape r (hrange ▸ hr)
      refine ⟨sh1, ?_, by omega, ?_, ?_⟩
      · rw [hf]; exact sh2
      · rw [hf]; exact sh4
      · rw [hf]; exact sh5
    · intro r hr ha
      obtain ⟨c1, c2, c3⟩ := hcov0 r (hrange ▸ hr) (hanom ▸ ha)
      obtain ⟨n1, ev, hev, n2⟩ := c2.off hact
      have hafter : r.stop.lt c := Coord.lt_trans n2 (hc ev hev)
      exact ⟨cov_outside c1 rec_ (not_after hafter), ⟨fun h => absurd h hnot, fun _ => ⟨n1, ev, by simp [hev], n2⟩⟩, hanch c3 _ rfl rfl⟩

theorem advanceLoop_nodup (c : Coord) (rec_ : Record) (cap : ℕ) (act : List ℕ) (hn : act.Nodup) (fams : ℕ → Fam) : (advanceLoop c rec_ cap act fams).2.1.Nodup := by
  rw [(advanceLoop_spec c rec_ cap act hn fams).2]
  exact hn.filter _

/-- The state before the match on the record, if nothing stopped. -/
structure Mid (events : List (Coord × Record)) (c : Coord) (rec_ : Record) (s : State) : Prop where
  last : s.last = some c
  pw : (events ++ [(c, rec_)]).Pairwise fun a b => a.1.lt b.1
  nodup : s.active.Nodup
  fam : ∀ f, FamOk (events ++ [(c, rec_)]) events (f ∈ s.active) f (s.fams f)

theorem mid_inv {events : List (Coord × Record)} {c : Coord} {rec_ : Record} {s : State} (h : Mid events c rec_ s) (hf : ∀ f, FamOk (events ++ [(c, rec_)]) (events ++ [(c, rec_)]) (f ∈ s.active) f (s.fams f)) : Inv (events ++ [(c, rec_)]) s :=
  ⟨by rw [h.last]; simp, h.pw, h.nodup, hf⟩

theorem descendant_inv {events : List (Coord × Record)} {c : Coord} {f : ℕ} {s : State} (h : Mid events c (.descendant f) s) (hh : (s.descendant c f).halted = none) : Inv (events ++ [(c, .descendant f)]) (s.descendant c f) := by
  have hother : ∀ k, k ≠ f → FamOk (events ++ [(c, .descendant f)]) (events ++ [(c, .descendant f)]) (k ∈ s.active) k (s.fams k) := by
    intro k hk
    refine famOk_owned (h.fam k) fun ho => ?_
    simp only [Record.owner, Option.some.injEq] at ho
    exact absurd ho.symm hk
  have hblame : Inv (events ++ [(c, .descendant f)]) (s.set f ((s.fams f).blame .outOfRange)) := by
    refine ⟨by simp [State.set, h.last], h.pw, h.nodup, fun k => ?_⟩
    simp only [State.set]
    by_cases hk : k = f
    · subst hk
      rw [if_pos rfl]
      refine famOk_owned (famOk_blame (h.fam k) _) fun _ r _ ha => ?_
      unfold Fam.blame at ha
      cases h : (s.fams k).anomaly <;> simp [h] at ha
    · rw [if_neg hk]
      exact hother k hk
  unfold State.descendant at *
  simp only at hh ⊢
  split at hh
  · exact absurd hh (halt_halted s _)
  · rw [if_neg (by assumption)]
    cases hr : (s.fams f).range with
    | none => exact hblame
    | some r =>
      simp only
      split
      next hin =>
        refine mid_inv h fun k => ?_
        by_cases hk : k = f
        · subst hk
          refine famOk_owned (h.fam k) fun _ q hq _ => ?_
          rw [hr] at hq
          rw [← Option.some.inj hq]
          exact hin
        · exact hother k hk
      next hin => exact hblame

theorem conflicts_mid {events : List (Coord × Record)} {c : Coord} {rec_ : Record} {s : State} (h : Mid events c rec_ s) (f : ℕ) (range : Option Rect) : Mid events c rec_ (s.markConflicts f range) := by
  cases range with
  | none => exact h
  | some r =>
    refine ⟨h.last, h.pw, h.nodup, fun k => ?_⟩
    simp only [State.markConflicts]
    split
    · exact famOk_blame (h.fam k) _
    · exact h.fam k

theorem anchor_inv (cfg : Config) {events : List (Coord × Record)} {c : Coord} {f : ℕ} {range : Option Rect} {text : List ℕ} {s : State} (h0 : Mid events c (.anchor f range text) s) (hh : (s.anchor cfg c f range text).halted = none) :
    Inv (events ++ [(c, .anchor f range text)]) (s.anchor cfg c f range text) := by
  have h := conflicts_mid h0 f range
  unfold State.anchor at *
  simp only at hh ⊢
  generalize s.markConflicts f range = s at *
  split at hh
  · exact absurd hh (halt_halted _ _)
  next hone =>
    rw [if_neg hone]
    simp only [ne_eq, not_or, not_not] at hone
    obtain ⟨m1, m2⟩ := hone
    have hfam := h.fam f
    -- the family has no range yet
    have hnone : (s.fams f).range = none := by
      by_contra hne
      obtain ⟨q, hq⟩ := Option.ne_none_iff_exists'.mp hne
      have := (hfam.shape q hq).2.1
      omega
    obtain ⟨hex, hact⟩ := hfam.fresh hnone
    have hownless : ∀ ev ∈ events, ev.2.owner ≠ some f := by
      intro ev hev ho
      have hm := hfam.members
      rw [m1, List.filter_append, List.length_append] at hm
      have : 1 ≤ (events.filter fun ev => decide (ev.2.owner = some f)).length := List.length_pos_of_mem (List.mem_filter.mpr ⟨hev, by simpa using ho⟩)
      have hb : ([(c, Record.anchor f range text)].filter fun ev => decide (ev.2.owner = some f)).length = 1 := by simp [Record.owner]
      omega
    have hother : ∀ k, k ≠ f → FamOk (events ++ [(c, .anchor f range text)]) (events ++ [(c, .anchor f range text)]) (k ∈ s.active) k (s.fams k) := by
      intro k hk
      refine famOk_owned (h.fam k) fun ho => ?_
      simp only [Record.owner, Option.some.injEq] at ho
      exact absurd ho.symm hk
    have hset : ∀ e : Fam, e.members = (s.fams f).members → e.range = none → e.exclusions = [] → Inv (events ++ [(c, .anchor f range text)]) (s.set f e) := by
      intro e e1 e2 e3
      refine ⟨by simp [State.set, h.last], h.pw, h.nodup, fun k => ?_⟩
      simp only [State.set]
      by_cases hk : k = f
      · subst hk
        rw [if_pos rfl]
        exact ⟨e1.trans hfam.members, fun _ => ⟨e3, hact⟩, fun r hr => by rw [e2] at hr; simp at hr, fun r hr => by rw [e2] at hr; simp at hr⟩
      · rw [if_neg hk]
        exact hother k hk
    generalize hedef : (if text = [] then { s.fams f with anchors := (s.fams f).anchors + 1, anomaly := some Reason.emptyAnchor } else { s.fams f with anchors := (s.fams f).anchors + 1 } : Fam) = e at *
    have ef : e.members = (s.fams f).members ∧ e.range = none ∧ e.exclusions = [] ∧ e.anchors = 1 ∧ (text = [] → e.anomaly ≠ none) := by
      rw [← hedef]
      split
      · exact ⟨rfl, hnone, hex, m2, by simp⟩
      next ht => exact ⟨rfl, hnone, hex, m2, fun h => absurd h ht⟩
    obtain ⟨ef1, ef2, ef3, ef4, ef5⟩ := ef
    cases range with
    | none => exact hset _ ef1 ef2 ef3
    | some r =>
      simp only at hh ⊢
      split at hh
      next hv =>
        rw [if_pos hv]
        exact hset _ ef1 ef2 ef3
      next hv =>
        rw [if_neg hv]
        rw [not_not] at hv
        generalize hedef2 : (if c ≠ r.start then { e with anomaly := some Reason.startMismatch } else e : Fam) = e2 at *
        have ef' : e2.members = e.members ∧ e2.exclusions = [] ∧ e2.anchors = 1 ∧ (e2.anomaly = none → e.anomaly = none ∧ c = r.start) := by
          rw [← hedef2]
          split
          next hc => exact ⟨rfl, ef3, ef4, by simp⟩
          next hc => exact ⟨rfl, ef3, ef4, fun h => ⟨h, not_not.mp hc⟩⟩
        obtain ⟨eg1, eg2, eg3, eg4⟩ := ef'
        by_cases hb : cfg.limit < s.bytes + (cfg.runBytes + text.length)
        · rw [if_pos hb] at hh
          exact absurd hh (halt_halted _ _)
        · rw [if_neg hb]
          refine ⟨by simp [State.set, h.last], h.pw, ?_, fun k => ?_⟩
          · simp only [State.set]
            rw [List.nodup_append]
            exact ⟨h.nodup, by simp, fun a ha b hb => by rw [List.mem_singleton.mp hb]; exact fun e => hact (e ▸ ha)⟩
          · simp only [State.set]
            by_cases hk : k = f
            · subst hk
              rw [if_pos rfl]
              refine ⟨(eg1.trans ef1).trans hfam.members, fun h => by simp at h, ?_, ?_⟩
              · intro q hq
                obtain rfl := Option.some.inj hq
                refine ⟨hv, by simp only; omega, ?_, by simp, by simp⟩
                simp only
                rw [eg1, ef1, m1]
              · intro q hq ha
                obtain rfl := Option.some.inj hq
                obtain ⟨ha1, rfl⟩ := eg4 ha
                have hin := start_in hv
                have hp := pos_next hv hin
                rw [ofs_start] at hp
                have hbefore : ∀ ev ∈ events, ev.1.lt r.start := by
                  intro ev hev
                  exact (List.pairwise_append.mp h.pw).2.2 ev hev _ (List.mem_singleton.mpr rfl)
                refine ⟨⟨?_, ?_, ?_, ?_, ?_⟩, ⟨fun _ => ?_, fun hno => ?_⟩, ⟨?_, ?_⟩⟩
                · exact fun n hn => (next_in hv hin hn).1
                · intro d hd hlt
                  simp only [hp] at hlt
                  have : d = r.start := ofs_inj hd hin (by rw [ofs_start]; omega)
                  exact .inl (owns_snoc.mpr (.inr ⟨this.symm, rfl⟩))
                · intro x hx
                  simp only [eg2] at hx
                  simp at hx
                · simp only [eg2]
                  simp
                · intro ev hev hc
                  simp only [hp]
                  rcases List.mem_append.mp hev with hev | hev
                  · exact absurd rfl (not_before hc (hbefore ev hev))
                  · rw [List.mem_singleton.mp hev, ofs_start]
                    omega
                · refine ⟨_, List.mem_append.mpr (.inr (List.mem_singleton.mpr rfl)), hin, ?_⟩
                  simp only [hp, ofs_start]
                · exact absurd (by simp) hno
                · intro ev hev ho
                  rcases List.mem_append.mp hev with hev | hev
                  · exact absurd ho (hownless ev hev)
                  · rw [List.mem_singleton.mp hev]
                    exact hin
                · exact ⟨text, rfl, rfl, fun ht => ef5 ht ha1, by simp⟩
            · rw [if_neg hk]
              have := hother k hk
              have hiff : k ∈ s.active ++ [f] ↔ k ∈ s.active := by simp [hk]
              rw [hiff]
              exact this

theorem observe_eq (cfg : Config) (s : State) (c : Coord) (rec_ : Record) : s.observe cfg c rec_ = if (counted cfg (s.order c) rec_).2 = false then (counted cfg (s.order c) rec_).1
      else if (counted cfg (s.order c) rec_).1.halted ≠ none then (counted cfg (s.order c) rec_).1
      else if ((counted cfg (s.order c) rec_).1.advance cfg c rec_).halted ≠ none then (counted cfg (s.order c) rec_).1.advance cfg c rec_
      else match rec_ with
        | .ordinary => (counted cfg (s.order c) rec_).1.advance cfg c rec_
        | .unsupported => (counted cfg (s.order c) rec_).1.advance cfg c rec_
        | .anchor f range text => ((counted cfg (s.order c) rec_).1.advance cfg c rec_).anchor cfg c f range text
        | .descendant f => ((counted cfg (s.order c) rec_).1.advance cfg c rec_).descendant c f := rfl

theorem observe_inv (cfg : Config) {events : List (Coord × Record)} {s : State} (hi : s.halted = none → Inv events s) (c : Coord) (rec_ : Record) (hh : (s.observe cfg c rec_).halted = none) : Inv (events ++ [(c, rec_)]) (s.observe cfg c rec_) := by
  rw [observe_eq] at hh ⊢
  -- nothing stopped on the way
  have h1 : (counted cfg (s.order c) rec_).1.halted = none := by
    by_contra hne
    by_cases h2 : (counted cfg (s.order c) rec_).2 = false
    · rw [if_pos h2] at hh
      exact hne hh
    · rw [if_neg h2, if_pos hne] at hh
      exact hne hh
  obtain ⟨k1, k2, k3, k4, k5⟩ := counted_spec cfg (s.order c) rec_ h1
  rw [if_neg (by rw [k1]; simp), if_neg (by rw [h1]; simp)] at hh ⊢
  obtain ⟨o1, o2, o3⟩ := order_spec s c k2
  have hi := hi o1
  generalize hm : (counted cfg (s.order c) rec_).1 = m at *
  have h3 : (m.advance cfg c rec_).halted = none := by
    by_contra hne
    rw [if_pos hne] at hh
    exact hne hh
  rw [if_neg (by rw [h3]; simp)] at hh ⊢
  obtain ⟨a1, a2, a3, a4⟩ := advanceState_spec cfg m c rec_ h3
  have hact : m.active = s.active := by rw [k3, o3]
  have hfams : ∀ k, m.fams k = { s.fams k with members := (s.fams k).members + if rec_.owner = some k then 1 else 0 } := by
    intro k
    rw [k5 k, o3]
  have hlt : ∀ ev ∈ events, ev.1.lt c := by
    intro ev hev
    obtain ⟨ys, y, rfl⟩ := List.eq_nil_or_concat events |>.resolve_left (List.ne_nil_of_mem hev)
    have hl := o2 y.1 (by rw [hi.last]; simp)
    rw [List.concat_eq_append] at hev
    rcases List.mem_append.mp hev with hev | hev
    · refine Coord.lt_trans ?_ hl
      have := hi.pw
      rw [List.concat_eq_append, List.pairwise_append] at this
      exact this.2.2 ev hev y (by simp)
    · rw [List.mem_singleton.mp hev]
      exact hl
  have mid : Mid events c rec_ (m.advance cfg c rec_) := by
    refine ⟨?_, ?_, ?_, fun f => ?_⟩
    · rw [a2, k4, o3]
    · rw [List.pairwise_append]
      refine ⟨hi.pw, by simp, fun a ha b hb => ?_⟩
      rw [List.mem_singleton.mp hb]
      exact hlt a ha
    · rw [a4, hact]
      exact advanceLoop_nodup _ _ _ _ hi.nodup _
    · rw [a3, a4, hact]
      exact mid_famOk hi c hlt rec_ _ m.fams hfams f
  cases rec_ with
  | ordinary => exact mid_inv mid fun f => famOk_owned (mid.fam f) fun h => by simp [Record.owner] at h
  | unsupported => exact mid_inv mid fun f => famOk_owned (mid.fam f) fun h => by simp [Record.owner] at h
  | anchor f range text => exact anchor_inv cfg mid hh
  | descendant f => exact descendant_inv mid hh

theorem observeAll_inv (cfg : Config) (events : List (Coord × Record)) (h : (observeAll cfg events).halted = none) : Inv events (observeAll cfg events) := by
  have gen : ∀ (todo done : List (Coord × Record)) (s : State), (s.halted = none → Inv done s) → (todo.foldl (fun s e => s.observe cfg e.1 e.2) s).halted = none → Inv (done ++ todo) (todo.foldl (fun s e => s.observe cfg e.1 e.2) s) := by
    intro todo
    induction todo with
    | nil =>
      intro done s hs hh
      rw [List.append_nil]
      exact hs hh
    | cons e todo ih =>
      intro done s hs hh
      have := ih (done ++ [e]) (s.observe cfg e.1 e.2) (fun h => observe_inv cfg hs e.1 e.2 h) hh
      rw [List.append_assoc] at this
      exact this
  have := gen events [] {} (fun _ => ⟨rfl, by simp, by simp, fun f => ⟨rfl, fun _ => ⟨rfl, by simp⟩, fun r hr => by simp at hr, fun r hr => by simp at hr⟩⟩) h
  simpa [observeAll] using this

/-! ## The end of the sheet -/

/-- What is known of a family, whether or not it is filled up to its end. -/
structure FinOk (events : List (Coord × Record)) (f : ℕ) (e : Fam) : Prop where
  members : e.members = (events.filter fun ev => decide (ev.2.owner = some f)).length
  shape : ∀ r, e.range = some r → valid r ∧ e.anchor ≠ none ∧ e.text ≠ none
  cov : ∀ r, e.range = some r → e.anomaly = none → Cov events f e r ∧ Told events events f e r

theorem finishLoop_ok (cfg : Config) (events : List (Coord × Record)) (fs : List ℕ) (s : State) (h : ∀ f, FinOk events f (s.fams f)) : ∀ f, FinOk events f ((finishLoop cfg fs s).fams f) := by
  induction fs generalizing s with
  | nil => exact h
  | cons g fs ih =>
    simp only [finishLoop]
    cases hr : (s.fams g).range with
    | none => exact ih s h
    | some r =>
      simp only
      apply ih
      intro k
      simp only [State.set]
      by_cases hk : k = g
      · subst hk
        rw [if_pos rfl]
        have hg := h k
        by_cases ha : (s.fams k).anomaly = none
        · simp only [ha, ne_eq, not_true_eq_false, if_false]
          cases hn : (s.fams k).next with
          | none => exact hg
          | some n =>
            simp only
            obtain ⟨f1, f2, f3, f4, f5⟩ := appendHoles_fields (s.fams k) r n none (capOf cfg s)
            refine ⟨f1.trans hg.members, fun q hq => ?_, fun q hq hb => ?_⟩
            · rw [f5] at hq
              rw [f3, f4]
              exact hg.shape q hq
            · rw [f5, hr] at hq
              obtain rfl := Option.some.inj hq
              obtain ⟨c1, c2⟩ := hg.cov r hr ha
              refine ⟨(appendHoles_end (hg.shape r hr).1 c1 hn _ hb ha).1, c2.owned, ?_⟩
              obtain ⟨t, t1, t2⟩ := c2.anchor
              exact ⟨t, f3.trans t1, by rw [f4]; exact t2⟩
        · simp only [ne_eq, ha, not_false_eq_true, if_true]
          exact hg
      · rw [if_neg hk]
        exact h k

theorem structural_spec {e : Fam} (h : structural e = true) : e.anomaly = none ∧ e.next = none ∧ ∃ r, e.range = some r ∧ area r = some (e.members + e.exclusions.length) := by
  unfold structural at h
  simp only [Bool.decide_and, Bool.and_eq_true, decide_eq_true_eq] at h
  obtain ⟨h1, h2, h3, h4⟩ := h
  obtain ⟨r, hr, ha⟩ := Option.bind_eq_some_iff.mp h4
  exact ⟨h1, h3, r, hr, ha⟩

/-- What is handed on about families. -/
def CleanOk (events : List (Coord × Record)) (p : Clean) : Prop :=
  (∀ c, contains p.rect c ↔ Owns events p.family c) ∧ p.anchor = p.rect.start ∧ (p.anchor, Record.anchor p.family (some p.rect) p.text) ∈ events ∧ p.text ≠ [] ∧ p.members = (events.filter fun ev => decide (ev.2.owner = some p.family)).length

def FragmentedOk (cfg : Config) (events : List (Coord × Record)) (p : Fragmented) : Prop :=
  (p.declared.stop.row < 2 ^ 32 →
    (∀ c, ((∃ d ∈ p.fragments, d.has c) ∨ c ∈ p.fallback) ↔ Owns events p.family c) ∧
    (p.fragments.Pairwise fun d d' => ∀ c, ¬(d.has c ∧ d'.has c)) ∧ p.fallback.Nodup ∧ (∀ d ∈ p.fragments, ∀ c ∈ p.fallback, ¬d.has c) ∧ p.fragments.length ≤ cfg.maxFragments) ∧
  (∀ c, contains p.declared c ↔ Owns events p.family c ∨ c ∈ p.exclusions.map Exclusion.coord) ∧
  (∀ x ∈ p.exclusions, ¬Owns events p.family x.coord ∧ Because events x) ∧
  p.anchor = p.declared.start ∧ (p.anchor, Record.anchor p.family (some p.declared) p.text) ∈ events ∧ p.text ≠ [] ∧ p.members = (events.filter fun ev => decide (ev.2.owner = some p.family)).length

theorem finishOne_ok (cfg : Config) (events : List (Coord × Record)) (f : ℕ) (e : Fam) (h : FinOk events f e) (bytes : ℕ) :
    ∃ c g b, finishOne cfg f e bytes = some (c, g, b) ∧ (∀ p, c = some p → CleanOk events p) ∧ ∀ p, g = some p → FragmentedOk cfg events p := by
  unfold finishOne
  by_cases hs : structural e = true
  · rw [if_pos hs]
    obtain ⟨ha, hn, r, hr, harea⟩ := structural_spec hs
    obtain ⟨hv, h2, h3⟩ := h.shape r hr
    obtain ⟨c1, c2⟩ := h.cov r hr ha
    obtain ⟨t, t1, t2, t3, t4⟩ := c2.anchor
    rw [hr, t1, t2]
    simp only
    have hall : ∀ c, contains r c ↔ Owns events f c ∨ c ∈ e.exclusions.map Exclusion.coord := by
      intro c
      constructor
      · intro hc
        refine c1.below c hc ?_
        rw [hn]
        exact ofs_area hc
      · rintro (⟨ev, hev, rfl, ho⟩ | hx)
        · exact c2.owned ev hev ho
        · obtain ⟨x, hx', rfl⟩ := List.mem_map.mp hx
          exact (c1.excl x hx').1
    by_cases hex : e.exclusions = []
    · rw [if_pos hex]
      refine ⟨_, _, _, rfl, ?_, by simp⟩
      intro p hp
      obtain rfl := Option.some.inj hp
      refine ⟨fun c => ?_, rfl, t4, t3, h.members⟩
      rw [hall, hex]
      simp
    · rw [if_neg hex]
      cases hp : partition r e.exclusions e.members cfg.maxFragments with
      | error _ => exact ⟨none, none, bytes, rfl, by simp, by simp⟩
      | ok q =>
        obtain ⟨fragments, fallback⟩ := q
        simp only
        split
        · exact ⟨none, none, bytes, rfl, by simp, by simp⟩
        · refine ⟨_, _, _, rfl, by simp, ?_⟩
          intro p hp'
          obtain rfl := Option.some.inj hp'
          refine ⟨fun hw => ?_, hall, fun x hx => (c1.excl x hx).2.2, rfl, t4, t3, h.members⟩
          simp only at hw ⊢
          obtain ⟨p1, p2, p3, p4, -, p6⟩ := partition_spec r hw e.exclusions e.members cfg.maxFragments fragments fallback hp
          refine ⟨fun c => ?_, p2, p3, p4, p6⟩
          rw [p1, hall]
          constructor
          · rintro ⟨h | h, h'⟩
            · exact h
            · exact absurd h h'
          · intro h
            refine ⟨.inl h, fun hx => ?_⟩
            obtain ⟨x, hx', rfl⟩ := List.mem_map.mp hx
            exact (c1.excl x hx').2.2.1 h
  · rw [if_neg hs]
    exact ⟨none, none, bytes, rfl, by simp, by simp⟩

theorem collectFamilies_ok (cfg : Config) (events : List (Coord × Record)) (fams : ℕ → Fam) (h : ∀ f, FinOk events f (fams f)) (fs : List ℕ) (bytes : ℕ) :
    ∃ o, collectFamilies cfg fams fs bytes = some o ∧ (∀ p ∈ o.1, CleanOk events p) ∧ ∀ p ∈ o.2, FragmentedOk cfg events p := by
  induction fs generalizing bytes with
  | nil => exact ⟨_, rfl, by simp, by simp⟩
  | cons f fs ih =>
    obtain ⟨c, g, b, h1, h2, h3⟩ := finishOne_ok cfg events f (fams f) (h f) bytes
    obtain ⟨o, i1, i2, i3⟩ := ih b
    refine ⟨(c.toList ++ o.1, g.toList ++ o.2), ?_, ?_, ?_⟩
    · simp only [collectFamilies, h1, i1, Option.map_some]
    · intro p hp
      rcases List.mem_append.mp hp with hp | hp
      · exact h2 p (Option.mem_toList.mp hp)
      · exact i2 p hp
    · intro p hp
      rcases List.mem_append.mp hp with hp | hp
      · exact h3 p (Option.mem_toList.mp hp)
      · exact i3 p hp

theorem finish_ok (cfg : Config) (events : List (Coord × Record)) :
    ∃ o, (observeAll cfg events).finish cfg = some o ∧ (∀ p ∈ o.1, CleanOk events p) ∧ (∀ p ∈ o.2, FragmentedOk cfg events p) ∧ ((o.1 ≠ [] ∨ o.2 ≠ []) → events.Pairwise fun a b => a.1.lt b.1) := by
  unfold State.finish
  by_cases hh : (observeAll cfg events).halted = none
  · rw [if_neg (by simp [hh])]
    have hi := observeAll_inv cfg events hh
    simp only
    split
    · exact ⟨_, rfl, by simp, by simp, by simp⟩
    · obtain ⟨o, h1, h2, h3⟩ := collectFamilies_ok cfg events _ (finishLoop_ok cfg events (observeAll cfg events).keys (observeAll cfg events) fun f =>
        ⟨(hi.fam f).members, fun r hr => ⟨((hi.fam f).shape r hr).1, ((hi.fam f).shape r hr).2.2.2⟩, fun r hr ha => ⟨((hi.fam f).cov r hr ha).1, ((hi.fam f).cov r hr ha).2.2⟩⟩)
        (finishLoop cfg (observeAll cfg events).keys (observeAll cfg events)).keys (finishLoop cfg (observeAll cfg events).keys (observeAll cfg events)).bytes
      exact ⟨o, h1, h2, h3, fun _ => hi.pw⟩
  · rw [if_pos hh]
    exact ⟨_, rfl, by simp, by simp, by simp⟩

/-- C91.  The end of a sheet never panics. -/
theorem finish_total (cfg : Config) (events : List (Coord × Record)) : (observeAll cfg events).finish cfg ≠ none := by
  obtain ⟨o, ho, -⟩ := finish_ok cfg events
  rw [ho]
  simp

/-- C91.  A family taken as a whole rectangle owns exactly the cells of the rectangle, its anchor is the first, and no cell has two records. -/
theorem clean_sound (cfg : Config) (events : List (Coord × Record)) (clean : List Clean) (frag : List Fragmented) (h : (observeAll cfg events).finish cfg = some (clean, frag)) (p : Clean) (hp : p ∈ clean) :
    (∀ c, contains p.rect c ↔ Owns events p.family c) ∧ p.anchor = p.rect.start ∧ (p.anchor, Record.anchor p.family (some p.rect) p.text) ∈ events ∧ p.text ≠ [] ∧
    p.members = (events.filter fun ev => decide (ev.2.owner = some p.family)).length ∧ events.Pairwise fun a b => a.1 ≠ b.1 := by
  obtain ⟨o, ho, h1, -, h3⟩ := finish_ok cfg events
  rw [h] at ho
  obtain rfl := Option.some.inj ho
  obtain ⟨a, b, c, d, e⟩ := h1 p hp
  refine ⟨a, b, c, d, e, (h3 (.inl (List.ne_nil_of_mem hp))).imp ?_⟩
  intro x y hlt heq
  rw [heq] at hlt
  unfold Coord.lt at hlt
  omega

/-- C91.  A family taken in parts owns exactly the cells of its parts, each in one part; the other cells of the rectangle are excluded, holes have no record and the others an ordinary formula. -/
theorem fragmented_sound (cfg : Config) (events : List (Coord × Record)) (clean : List Clean) (frag : List Fragmented) (h : (observeAll cfg events).finish cfg = some (clean, frag)) (p : Fragmented) (hp : p ∈ frag) (hw : p.declared.stop.row < 2 ^ 32) :
    (∀ c, ((∃ d ∈ p.fragments, d.has c) ∨ c ∈ p.fallback) ↔ Owns events p.family c) ∧
    (p.fragments.Pairwise fun d d' => ∀ c, ¬(d.has c ∧ d'.has c)) ∧ p.fallback.Nodup ∧ (∀ d ∈ p.fragments, ∀ c ∈ p.fallback, ¬d.has c) ∧ p.fragments.length ≤ cfg.maxFragments ∧
    (∀ c, contains p.declared c ↔ Owns events p.family c ∨ c ∈ p.exclusions.map Exclusion.coord) ∧
    (∀ c, .hole c ∈ p.exclusions → ∀ ev ∈ events, ev.1 ≠ c) ∧ (∀ c, .ordinary c ∈ p.exclusions → (c, Record.ordinary) ∈ events) ∧
    p.anchor = p.declared.start ∧ (p.anchor, Record.anchor p.family (some p.declared) p.text) ∈ events ∧ p.text ≠ [] ∧
    p.members = (events.filter fun ev => decide (ev.2.owner = some p.family)).length ∧ events.Pairwise fun a b => a.1 ≠ b.1 := by
  obtain ⟨o, ho, -, h2, h3⟩ := finish_ok cfg events
  rw [h] at ho
  obtain rfl := Option.some.inj ho
  obtain ⟨k1, k2, k3, k4, k5, k6, k7⟩ := h2 p hp
  obtain ⟨f1, f2, f3, f4, f5⟩ := k1 hw
  refine ⟨f1, f2, f3, f4, f5, k2, fun c hc => (k3 _ hc).2, fun c hc => (k3 _ hc).2, k4, k5, k6, k7, (h3 (.inr (List.ne_nil_of_mem hp))).imp ?_⟩
  intro x y hlt heq
  rw [heq] at hlt
  unfold Coord.lt at hlt
  omega

/-- Two rectangles are taken to meet just when they share a cell. -/
theorem overlap_iff {a b : Rect} (ha : valid a) (hb : valid b) : overlap a b ↔ ∃ c, contains a c ∧ contains b c := by
  constructor
  · intro h
    refine ⟨⟨max a.start.row b.start.row, max a.start.col b.start.col⟩, ?_, ?_⟩ <;>
    · unfold overlap at h
      unfold contains
      unfold valid at ha hb
      simp only
      omega
  · rintro ⟨c, h1, h2⟩
    unfold contains at h1 h2
    unfold overlap
    omega

/-- C91.  When an anchor announces a rectangle that shares a cell with the rectangle of another family still open, neither family is taken; and only then is a family given up for this. -/
theorem conflict_marked (s : State) (owner f : ℕ) (r q : Rect) (hf : f ∈ s.active) (hne : f ≠ owner) (hr : valid r) (hq : (s.fams f).range = some q) (vq : valid q) :
    ((∃ c, contains r c ∧ contains q c) → ((s.markConflicts owner (some r)).fams f).anomaly ≠ none ∧ ((s.markConflicts owner (some r)).fams owner).anomaly ≠ none) ∧
    ((¬∃ c, contains r c ∧ contains q c) → (s.markConflicts owner (some r)).fams f = s.fams f) := by
  have blamed : ∀ e : Fam, (e.blame .otherFamily).anomaly ≠ none := by
    intro e
    unfold Fam.blame
    cases e.anomaly <;> simp
  rw [← overlap_iff hr vq]
  constructor
  · intro h
    have hb : f ∈ s.active.filter fun f => decide (f ≠ owner) && match (s.fams f).range with | some q => decide (overlap r q) | none => false := by
      simp [hf, hne, hq, h]
    constructor
    · simp only [State.markConflicts]
      rw [if_pos (.inl hb)]
      exact blamed _
    · simp only [State.markConflicts]
      rw [if_pos (.inr ⟨trivial, List.ne_nil_of_mem hb⟩)]
      exact blamed _
  · intro h
    simp only [State.markConflicts]
    rw [if_neg]
    simp [hne, hq, h]

/-- A family over two columns with an ordinary formula and a hole, and one over a row. -/
example : (observeAll ⟨8388608, 64, 128, 256, 16, 12, 20, 8⟩ [(⟨0, 0⟩, .anchor 1 (some ⟨⟨0, 0⟩, ⟨2, 1⟩⟩) [65]), (⟨0, 1⟩, .descendant 1), (⟨1, 0⟩, .ordinary), (⟨1, 1⟩, .descendant 1), (⟨2, 0⟩, .descendant 1),
    (⟨4, 0⟩, .anchor 2 (some ⟨⟨4, 0⟩, ⟨4, 1⟩⟩) [66]), (⟨4, 1⟩, .descendant 2)]).finish ⟨8388608, 64, 128, 256, 16, 12, 20, 8⟩ =
    some ([⟨2, ⟨4, 0⟩, [66], ⟨⟨4, 0⟩, ⟨4, 1⟩⟩, 2⟩], [⟨1, ⟨0, 0⟩, [65], ⟨⟨0, 0⟩, ⟨2, 1⟩⟩, [.colRun 0 0 1], [⟨1, 1⟩, ⟨2, 0⟩], [.ordinary ⟨1, 0⟩, .hole ⟨2, 1⟩], 4⟩]) := by
  decide +kernel

end Verif.Evid
