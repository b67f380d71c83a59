import Verif.DirtyLease.Model

/-!
# C17: dirty events recorded during an evaluation survive its acknowledgement
-/

namespace Verif.DirtyLease

variable {R S : Type} [DecidableEq R] [DecidableEq S]

/-- The seen sets, as one predicate on events. -/
def Seen (s : State R S) : Event R S → Prop
  | .region r => r ∈ s.regionsSeen
  | .spanRegion sp r => (sp, r) ∈ s.spanRegionsSeen
  | .wholeSpan sp => sp ∈ s.spansSeen

/-- Recording a single event. -/
def record (s : State R S) : Event R S → State R S
  | .region r => recordRegion s r
  | .spanRegion sp r => recordSpanRegion s sp r
  | .wholeSpan sp => recordWholeSpan s sp

/-- Number of leading events that the current lease covers. -/
def covered (s : State R S) : Nat := match s.active with | none => 0 | some a => a.prefixLen

/-- The invariant: an event counts as already recorded exactly when it is pending *after* the part covered by
the current lease; every lease handed out belongs to a past or the current generation; a lease that matches
the current one lists exactly the covered events. -/
structure Inv (w : World R S) : Prop where
  cov : covered w.st ≤ w.st.events.length
  seen : ∀ e, Seen w.st e ↔ e ∈ w.st.events.drop (covered w.st)
  gen : ∀ l ∈ w.issued, l.generation ≤ w.st.leaseGeneration
  act : ∀ a, w.st.active = some a → a.generation = w.st.leaseGeneration
  snap : ∀ a, w.st.active = some a → ∀ l ∈ w.issued, l.generation = a.generation →
    l.prefixLen = a.prefixLen → l.events = w.st.events.take a.prefixLen
  single : ∀ a, w.st.active = some a → a.extended = false → ∀ l ∈ w.issued, l.generation = a.generation →
    l.prefixLen = a.prefixLen

theorem seen_rebuild (s : State R S) (e : Event R S) : Seen (rebuild s) e ↔ e ∈ s.events := by
  cases e with
  | region r =>
    simp only [Seen, rebuild, List.mem_filterMap]
    constructor
    · rintro ⟨e, he, h⟩; cases e <;> simp_all
    · intro h; exact ⟨_, h, rfl⟩
  | spanRegion sp r =>
    simp only [Seen, rebuild, List.mem_filterMap]
    constructor
    · rintro ⟨e, he, h⟩; cases e <;> simp_all
    · intro h; exact ⟨_, h, rfl⟩
  | wholeSpan sp =>
    simp only [Seen, rebuild, List.mem_filterMap]
    constructor
    · rintro ⟨e, he, h⟩; cases e <;> simp_all
    · intro h; exact ⟨_, h, rfl⟩

theorem record_seen (s : State R S) (e f : Event R S) :
    Seen (record s e) f ↔ Seen s f ∨ f = e := by
  cases e <;> simp only [record, recordRegion, recordSpanRegion, recordWholeSpan] <;> split <;>
    cases f <;> simp_all [Seen] <;> grind

theorem record_events (s : State R S) (e : Event R S) [Decidable (Seen s e)] :
    (record s e).events = if Seen s e then s.events else s.events ++ [e] := by
  cases e <;> simp only [record, recordRegion, recordSpanRegion, recordWholeSpan, Seen] <;> split <;> simp_all

theorem record_rest (s : State R S) (e : Event R S) :
    (record s e).active = s.active ∧ (record s e).leaseGeneration = s.leaseGeneration := by
  cases e <;> simp only [record, recordRegion, recordSpanRegion, recordWholeSpan] <;> split <;> simp

theorem record_inv {w : World R S} (h : Inv w) (e : Event R S) : Inv { w with st := record w.st e } := by
  classical
  have hr := record_rest w.st e
  have he := record_events w.st e
  have hc : covered (record w.st e) = covered w.st := by unfold covered; rw [hr.1]
  constructor
  · show covered (record w.st e) ≤ (record w.st e).events.length
    rw [hc, he]
    have := h.cov
    split <;> simp <;> omega
  · intro f
    show Seen (record w.st e) f ↔ f ∈ (record w.st e).events.drop (covered (record w.st e))
    rw [record_seen, hc, he, h.seen]
    split
    · rename_i hs
      rw [h.seen] at hs
      constructor
      · rintro (hf | rfl)
        · exact hf
        · exact hs
      · exact Or.inl
    · rw [List.drop_append_of_le_length h.cov]
      simp
  · intro l hl
    show _ ≤ (record w.st e).leaseGeneration
    rw [hr.2]; exact h.gen l hl
  · intro a ha
    rw [show (record w.st e).active = _ from hr.1] at ha
    show _ = (record w.st e).leaseGeneration
    rw [hr.2]; exact h.act a ha
  · intro a ha l hl hg hp
    rw [show (record w.st e).active = _ from hr.1] at ha
    show _ = (record w.st e).events.take _
    rw [he, h.snap a ha l hl hg hp]
    have hcov := h.cov
    unfold covered at hcov
    rw [ha] at hcov
    simp only at hcov
    split
    · rfl
    · rw [List.take_append_of_le_length hcov]
  · intro a ha
    rw [show (record w.st e).active = _ from hr.1] at ha
    exact h.single a ha

theorem recordWholeSpans_inv {w : World R S} (h : Inv w) (ss : List S) :
    Inv { w with st := recordWholeSpans w.st ss } := by
  induction ss generalizing w with
  | nil => exact h
  | cons s ss ih =>
    have := ih (record_inv h (.wholeSpan s))
    simpa [recordWholeSpans, record] using this

theorem lease_inv {w : World R S} (h : Inv w) : Inv (w.step .lease) := by
  constructor
  · simp [World.step, lease, clearSeen, covered, rebuild]
  · intro e
    have : Seen (w.step .lease).st e ↔ False := by
      cases e <;> simp [World.step, lease, clearSeen, Seen]
    rw [this]
    simp [World.step, lease, clearSeen, covered, rebuild]
  · intro l hl
    simp only [World.step, List.mem_append, List.mem_singleton] at hl
    simp only [World.step, lease, clearSeen, rebuild] at *
    rcases hl with hl | rfl
    · have := h.gen l hl; omega
    · simp
  · intro a ha
    simp only [World.step, lease, clearSeen, rebuild] at *
    cases ha; rfl
  · intro a ha l hl hg hp
    simp only [World.step, List.mem_append, List.mem_singleton] at hl
    simp only [World.step, lease, clearSeen, rebuild] at *
    cases ha
    rcases hl with hl | rfl
    · have := h.gen l hl
      simp only at hg
      omega
    · simp
  · intro a ha _ l hl hg
    simp only [World.step, List.mem_append, List.mem_singleton] at hl
    simp only [World.step, lease, clearSeen, rebuild] at *
    cases ha
    rcases hl with hl | rfl
    · have := h.gen l hl
      simp only at hg
      omega
    · rfl

theorem extend_inv {w : World R S} (h : Inv w) (k : Nat) : Inv (w.step (.extend k)) := by
  simp only [World.step]
  cases hk : w.issued[k]? with
  | none => exact h
  | some l =>
    simp only
    cases ha : w.st.active with
    | none => simp only [extend, ha]; exact h
    | some a =>
      simp only [extend, ha]
      by_cases hc : a.generation ≠ l.generation ∨ a.prefixLen ≠ l.prefixLen ∨ a.extended = true
      · simp only [if_pos hc]; exact h
      · simp only [if_neg hc]
        have hgen := h.act a ha
        have hcov := h.cov
        unfold covered at hcov
        rw [ha] at hcov
        simp only at hcov
        constructor
        · simp [clearSeen, covered]
        · intro e
          have : Seen (clearSeen { w.st with active := some ⟨a.generation, w.st.events.length, true⟩ }) e ↔ False := by
            cases e <;> simp [clearSeen, Seen]
          simp only [this]
          simp [clearSeen, covered]
        · intro l' hl'
          simp only [List.mem_append, List.mem_singleton] at hl'
          simp only [clearSeen]
          rcases hl' with hl' | rfl
          · exact h.gen l' hl'
          · simp only; omega
        · intro a' ha'
          simp only [clearSeen] at *
          cases ha'
          exact hgen
        · intro a' ha' l' hl' hg hp
          simp only [List.mem_append, List.mem_singleton] at hl'
          simp only [clearSeen] at *
          cases ha'
          simp only at hg hp
          rcases hl' with hl' | rfl
          · have hpp := h.single a ha (by simp only [not_or] at hc; simpa using hc.2.2) l' hl' hg
            rw [h.snap a ha l' hl' hg hpp, ← hpp, hp]
          · rfl
        · intro a' ha' hx
          simp only [clearSeen] at *
          cases ha'
          cases hx

/-- After `rebuild` with no active lease the invariant holds, whatever the pending events are. -/
theorem idle_inv {w : World R S} (h : Inv w) (es : List (Event R S)) :
    Inv { w with st := rebuild { w.st with events := es, active := none } } := by
  constructor
  · simp [covered, rebuild]
  · intro e; rw [seen_rebuild]; simp [covered, rebuild]
  · exact h.gen
  · intro a ha; simp [rebuild] at ha
  · intro a ha; simp [rebuild] at ha
  · intro a ha; simp [rebuild] at ha

theorem step_inv {w : World R S} (h : Inv w) (op : Op R S) : Inv (w.step op) := by
  cases op with
  | recordRegion r => exact record_inv h (.region r)
  | recordSpanRegion s r => exact record_inv h (.spanRegion s r)
  | recordWholeSpans ss => exact recordWholeSpans_inv h ss
  | lease => exact lease_inv h
  | extend k => exact extend_inv h k
  | ack k owned =>
    simp only [World.step]
    split
    · exact h
    · unfold ackSublease
      split
      · exact h
      · split
        · exact h
        · exact idle_inv h _
  | release k =>
    simp only [World.step]
    split
    · exact h
    · unfold release
      split
      · exact h
      · split
        · exact h
        · exact idle_inv h w.st.events

/-- The empty queue. -/
def World.init : World R S := {}

theorem init_inv : Inv (World.init : World R S) := by
  constructor <;> simp [World.init, covered]
  intro e; cases e <;> simp [Seen]

/-- A world some client history leads to. -/
def Reachable (w : World R S) : Prop := ∃ ops, w = World.run World.init ops

theorem run_inv {w : World R S} (h : Inv w) (ops : List (Op R S)) : Inv (w.run ops) := by
  induction ops generalizing w with
  | nil => exact h
  | cons op ops ih => exact ih (step_inv h op)

theorem Reachable.inv {w : World R S} (h : Reachable w) : Inv w := by
  obtain ⟨ops, rfl⟩ := h
  exact run_inv init_inv ops

theorem run_append (w : World R S) (a b : List (Op R S)) : w.run (a ++ b) = (w.run a).run b := by
  simp [World.run]

/-! ## Specification -/

/-- The events an operation records. -/
def Op.records : Op R S → List (Event R S)
  | .recordRegion r => [.region r]
  | .recordSpanRegion s r => [.spanRegion s r]
  | .recordWholeSpans ss => ss.map .wholeSpan
  | _ => []

/-- `removeAt owned l`: the list without the positions in `owned`. -/
def removeAt {α : Type} (owned : List Nat) (l : List α) : List α :=
  (l.zipIdx.filter (fun p => decide (p.2 ∉ owned))).map Prod.fst

theorem dropOwned_all (p : Nat) (owned : List Nat) (i : Nat) (l : List (Event R S)) (h : i ≥ p) :
    dropOwned p owned i l = l := by
  induction l generalizing i with
  | nil => rfl
  | cons e l ih => simp only [dropOwned, h, true_or, if_true]; rw [ih _ (by omega)]

theorem dropOwned_eq (n : Nat) (owned : List Nat) (i : Nat) (l : List (Event R S)) :
    dropOwned (i + n) (owned.filter fun j => decide (j < i + n)) i l
      = (((l.take n).zipIdx i).filter (fun p => decide (p.2 ∉ owned))).map Prod.fst ++ l.drop n := by
  induction l generalizing i n with
  | nil => simp [dropOwned]
  | cons e l ih =>
    cases n with
    | zero => simp; exact dropOwned_all _ _ _ _ (by omega)
    | succ n =>
      have := ih n (i + 1)
      rw [show i + 1 + n = i + (n + 1) by omega] at this
      simp only [dropOwned, this, List.take_succ_cons, List.zipIdx_cons, List.drop_succ_cons, List.filter_cons]
      by_cases ho : i ∈ owned
      · simp [ho]
      · simp [ho]

/-- An accepted acknowledgement: which lease it was, and what is left. -/
theorem ack_true {w : World R S} (h : Inv w) {l : Lease R S} (hl : l ∈ w.issued) {owned : List Nat}
    (ht : (ackSublease w.st l owned).2 = true) :
    ∃ a, w.st.active = some a ∧ a.generation = l.generation ∧ a.prefixLen = l.prefixLen ∧
      l.events = w.st.events.take l.prefixLen ∧
      (ackSublease w.st l owned).1.events = removeAt owned l.events ++ w.st.events.drop l.prefixLen := by
  unfold ackSublease at ht ⊢
  cases ha : w.st.active with
  | none => rw [ha] at ht; simp at ht
  | some a =>
    rw [ha] at ht
    simp only at ht ⊢
    by_cases hc : a.generation ≠ l.generation ∨ a.prefixLen ≠ l.prefixLen
    · rw [if_pos hc] at ht; simp at ht
    · rw [if_neg hc]
      simp only [not_or, ne_eq, Decidable.not_not] at hc
      have hs := h.snap a ha l hl hc.1.symm hc.2.symm
      have hcov := h.cov
      unfold covered at hcov
      rw [ha] at hcov
      simp only at hcov
      refine ⟨a, rfl, hc.1, hc.2, by rw [hs, hc.2], ?_⟩
      have hm : min l.prefixLen w.st.events.length = l.prefixLen := by omega
      rw [hm]
      have := dropOwned_eq l.prefixLen owned 0 w.st.events
      simp only [Nat.zero_add] at this
      show dropOwned _ _ 0 _ = _
      rw [this, hs, hc.2]
      rfl

/-! ## Theorems -/

/-- **C17** An accepted acknowledgement removes exactly the owned positions of the lease and keeps, in order,
the rest of the lease and everything recorded after it. -/
theorem ack_removes_exactly {w : World R S} (h : Reachable w) {k : Nat} {l : Lease R S}
    (hk : w.issued[k]? = some l) {owned : List Nat} (ht : (ackSublease w.st l owned).2 = true) :
    ∃ later, w.st.events = l.events ++ later ∧
      (w.step (.ack k owned)).st.events = removeAt owned l.events ++ later := by
  obtain ⟨a, -, -, -, hs, he⟩ := ack_true h.inv (List.mem_of_getElem? hk) ht
  refine ⟨w.st.events.drop l.prefixLen, ?_, ?_⟩
  · rw [hs, List.take_append_drop]
  · simp only [World.step, hk]; exact he

/-- Acknowledging the full lease removes all of it and nothing else. -/
theorem ack_full {w : World R S} (h : Reachable w) {k : Nat} {l : Lease R S}
    (hk : w.issued[k]? = some l) (ht : (ack w.st l).2 = true) :
    w.st.events = l.events ++ (ack w.st l).1.events := by
  obtain ⟨a, ha, -, hp, hs, he⟩ := ack_true h.inv (List.mem_of_getElem? hk) ht
  have hcov := h.inv.cov
  unfold covered at hcov
  rw [ha] at hcov
  simp only at hcov
  unfold ack
  rw [he]
  have : removeAt (List.range l.prefixLen) l.events = [] := by
    unfold removeAt
    rw [List.map_eq_nil_iff, List.filter_eq_nil_iff]
    rintro ⟨x, i⟩ hx
    have h1 := List.mem_zipIdx hx
    have h2 : l.events.length ≤ l.prefixLen := by rw [hs]; simp; omega
    simp at h1 ⊢
    omega
  rw [this, List.nil_append, hs]
  simp

/-- **C17** A refused acknowledgement, release or extension changes nothing. -/
theorem refused_unchanged (s : State R S) (l : Lease R S) (owned : List Nat) :
    ((ackSublease s l owned).2 = false → (ackSublease s l owned).1 = s) ∧
    ((release s l).2 = false → (release s l).1 = s) := by
  unfold ackSublease release
  cases s.active with
  | none => simp
  | some a =>
    simp only
    split <;> simp

/-- **C17** Nothing but an acknowledgement ever removes a pending event or changes the order. -/
theorem only_ack_removes (w : World R S) (op : Op R S) (h : ∀ k owned, op ≠ .ack k owned) :
    w.st.events <+: (w.step op).st.events := by
  have rec1 : ∀ (s : State R S) (e : Event R S), s.events <+: (record s e).events := by
    intro s e
    classical
    rw [record_events]
    split
    · exact List.prefix_refl _
    · exact List.prefix_append _ _
  cases op with
  | recordRegion r => exact rec1 w.st (.region r)
  | recordSpanRegion sp r => exact rec1 w.st (.spanRegion sp r)
  | recordWholeSpans ss =>
    simp only [World.step, recordWholeSpans]
    generalize w.st = s
    induction ss generalizing s with
    | nil => exact List.prefix_refl _
    | cons sp ss ih => exact (rec1 s (.wholeSpan sp)).trans (ih (by simp) _)
  | lease => simp [World.step, lease, clearSeen, rebuild]
  | extend k =>
    simp only [World.step]
    split
    · exact List.prefix_refl _
    · unfold extend
      cases w.st.active with
      | none => exact List.prefix_refl _
      | some a =>
        simp only
        split
        · simp_all
        · rename_i h
          split at h
          · cases h
          · simp only [Option.some.injEq, Prod.mk.injEq] at h
            rw [← h.1]
            simp [clearSeen]
  | ack k owned => exact absurd rfl (h k owned)
  | release k =>
    simp only [World.step]
    split
    · exact List.prefix_refl _
    · unfold release
      split
      · exact List.prefix_refl _
      · split
        · exact List.prefix_refl _
        · simp [rebuild]

/-- **C17** A release keeps the pending list as it is. -/
theorem release_keeps (s : State R S) (l : Lease R S) : (release s l).1.events = s.events := by
  unfold release
  split
  · rfl
  · split <;> rfl

/-- A new lease hands out every pending event, and an accepted extension too. -/
theorem lease_delivers_all (s : State R S) (l : Lease R S) :
    (lease s).2.events = s.events ∧ ∀ s' l', extend s l = some (s', l') → l'.events = s.events := by
  refine ⟨rfl, ?_⟩
  intro s' l' h
  unfold extend at h
  split at h
  · cases h
  · split at h
    · cases h
    · simp only [Option.some.injEq, Prod.mk.injEq] at h
      rw [← h.2]
      simp

/-- Recording makes the event pending behind whatever the current lease covers. -/
theorem records_pending {w : World R S} (h : Inv w) {op : Op R S} {e : Event R S} (he : e ∈ op.records) :
    e ∈ (w.step op).st.events.drop (covered (w.step op).st) := by
  have one : ∀ {w : World R S}, Inv w → ∀ f, f ∈ (record w.st f).events.drop (covered (record w.st f)) := by
    intro w h f
    exact ((record_inv h f).seen f).1 ((record_seen w.st f f).2 (Or.inr rfl))
  cases op with
  | recordRegion r =>
    simp only [Op.records, List.mem_singleton] at he
    subst he; exact one h _
  | recordSpanRegion sp r =>
    simp only [Op.records, List.mem_singleton] at he
    subst he; exact one h _
  | recordWholeSpans ss =>
    simp only [Op.records, List.mem_map] at he
    obtain ⟨sp, hsp, rfl⟩ := he
    have hinv := recordWholeSpans_inv h ss
    refine (hinv.seen _).1 ?_
    show Seen (recordWholeSpans w.st ss) _
    clear h hinv
    have mono : ∀ (ss : List S) (s : State R S) (f : Event R S), Seen s f → Seen (recordWholeSpans s ss) f := by
      intro ss
      induction ss with
      | nil => intro s f h; exact h
      | cons x xs ih => intro s f h; exact ih _ f ((record_seen s (.wholeSpan x) f).2 (Or.inl h))
    generalize w.st = s
    induction ss generalizing s with
    | nil => cases hsp
    | cons x xs ih =>
      cases hsp with
      | head => exact mono xs _ _ ((record_seen s (.wholeSpan sp) _).2 (Or.inr rfl))
      | tail _ hm => exact ih hm _
  | lease => cases he
  | extend k => cases he
  | ack k o => cases he
  | release k => cases he

/-- What protects an event: it is pending, and leases handed out among the first `n` cannot remove it. -/
structure Safe (n : Nat) (e : Event R S) (w : World R S) : Prop where
  len : n ≤ w.issued.length
  mem : e ∈ w.st.events
  old : ∀ a, w.st.active = some a → ∀ j < n, ∀ l, w.issued[j]? = some l → l.generation = a.generation →
    l.prefixLen = a.prefixLen → e ∈ w.st.events.drop a.prefixLen

theorem record_safe {n : Nat} {e : Event R S} {w : World R S} (h : Safe n e w) (f : Event R S) :
    Safe n e { w with st := record w.st f } := by
  classical
  have hr := record_rest w.st f
  have he := record_events w.st f
  constructor
  · exact h.len
  · show e ∈ (record w.st f).events
    rw [he]; have := h.mem; split <;> simp [this]
  · intro a ha j hj l hl hg hp
    rw [show (record w.st f).active = _ from hr.1] at ha
    have := h.old a ha j hj l hl hg hp
    show e ∈ (record w.st f).events.drop _
    rw [he]
    split
    · exact this
    · rw [List.drop_append]; simp [this]

theorem recordWholeSpans_safe {n : Nat} {e : Event R S} {w : World R S} (h : Safe n e w) (ss : List S) :
    Safe n e { w with st := recordWholeSpans w.st ss } := by
  induction ss generalizing w with
  | nil => exact h
  | cons s ss ih =>
    have := ih (record_safe h (.wholeSpan s))
    simpa [recordWholeSpans, record] using this

/-- One step: the event stays safe, or the step is an accepted acknowledgement, through a lease younger than
the first `n`, of a position holding the event. -/
theorem step_safe {n : Nat} {e : Event R S} {w : World R S} (hi : Inv w) (h : Safe n e w) (op : Op R S) :
    Safe n e (w.step op) ∨ ∃ k owned l i, op = .ack k owned ∧ n ≤ k ∧ w.issued[k]? = some l ∧
      (ackSublease w.st l owned).2 = true ∧ i ∈ owned ∧ l.events[i]? = some e := by
  cases op with
  | recordRegion r => exact Or.inl (record_safe h (.region r))
  | recordSpanRegion s r => exact Or.inl (record_safe h (.spanRegion s r))
  | recordWholeSpans ss => exact Or.inl (recordWholeSpans_safe h ss)
  | lease =>
    refine Or.inl ⟨?_, ?_, ?_⟩
    · have := h.len; simp [World.step]; omega
    · simpa [World.step, lease, clearSeen, rebuild] using h.mem
    · intro a ha j hj l hl hg hp
      simp only [World.step, lease, clearSeen, rebuild] at ha hl
      cases ha
      have hn := h.len
      rw [List.getElem?_append_left (by omega)] at hl
      have := hi.gen l (List.mem_of_getElem? hl)
      simp only at hg
      omega
  | extend k =>
    left
    simp only [World.step]
    cases hk : w.issued[k]? with
    | none => exact h
    | some l =>
      simp only
      cases ha : w.st.active with
      | none => simp only [extend, ha]; exact h
      | some a =>
        simp only [extend, ha]
        by_cases hc : a.generation ≠ l.generation ∨ a.prefixLen ≠ l.prefixLen ∨ a.extended = true
        · simp only [if_pos hc]; exact h
        · simp only [if_neg hc]
          have hx : a.extended = false := by
            simp only [not_or] at hc; simpa using hc.2.2
          refine ⟨?_, h.mem, ?_⟩
          · have := h.len; simp; omega
          · intro a' ha' j hj l' hl' hg hp
            have hn := h.len
            simp only [clearSeen] at ha' hl'
            cases ha'
            rw [List.getElem?_append_left (by omega)] at hl'
            have hpp := hi.single a ha hx l' (List.mem_of_getElem? hl') hg
            have := h.old a ha j hj l' hl' hg hpp
            simp only at hp
            rw [← hpp, hp] at this
            simp at this
  | ack k owned =>
    simp only [World.step]
    cases hk : w.issued[k]? with
    | none => exact Or.inl h
    | some l =>
      simp only
      cases ht : (ackSublease w.st l owned).2 with
      | false =>
        left
        have := (refused_unchanged w.st l owned).1 ht
        rw [this]; exact h
      | true =>
        have hlm := List.mem_of_getElem? hk
        obtain ⟨a, ha, hg, hp, hs, he⟩ := ack_true hi hlm ht
        have hnone : (ackSublease w.st l owned).1.active = none := by
          unfold ackSublease
          rw [ha]
          simp [hg, hp, rebuild]
        by_cases hm : e ∈ (ackSublease w.st l owned).1.events
        · left
          refine ⟨h.len, hm, ?_⟩
          intro a' ha'
          simp only [hnone] at ha'
          cases ha'
        · right
          rw [he] at hm
          simp only [List.mem_append, not_or] at hm
          have hkn : n ≤ k := by
            apply Decidable.byContradiction
            intro hlt
            have := h.old a ha k (by omega) l hk hg.symm hp.symm
            rw [hp] at this
            exact hm.2 this
          have hel : e ∈ l.events := by
            have := h.mem
            rw [← List.take_append_drop l.prefixLen w.st.events] at this
            rcases List.mem_append.1 this with h1 | h1
            · rw [hs]; exact h1
            · exact absurd h1 hm.2
          obtain ⟨i, hi', hie⟩ := List.getElem_of_mem hel
          refine ⟨k, owned, l, i, rfl, hkn, hk, ht, ?_, ?_⟩
          · apply Decidable.byContradiction
            intro hio
            apply hm.1
            unfold removeAt
            rw [List.mem_map]
            refine ⟨(e, i), ?_, rfl⟩
            rw [List.mem_filter]
            refine ⟨?_, by simpa using hio⟩
            rw [List.mk_mem_zipIdx_iff_getElem?]
            rw [List.getElem?_eq_getElem hi', hie]
          · rw [List.getElem?_eq_getElem hi', hie]
  | release k =>
    left
    simp only [World.step]
    cases hk : w.issued[k]? with
    | none => exact h
    | some l =>
      simp only
      unfold release
      cases ha : w.st.active with
      | none => exact h
      | some a =>
        simp only
        split
        · exact h
        · refine ⟨h.len, by simpa [rebuild] using h.mem, ?_⟩
          intro a' ha'
          simp [rebuild] at ha'

theorem run_safe {n : Nat} {e : Event R S} {w : World R S} (hi : Inv w) (h : Safe n e w) (ops : List (Op R S)) :
    e ∈ (w.run ops).st.events ∨ ∃ a k owned b l i, ops = a ++ .ack k owned :: b ∧ n ≤ k ∧
      (w.run a).issued[k]? = some l ∧ (ackSublease (w.run a).st l owned).2 = true ∧ i ∈ owned ∧
      l.events[i]? = some e := by
  induction ops generalizing w with
  | nil => exact Or.inl h.mem
  | cons op ops ih =>
    rcases step_safe hi h op with h' | ⟨k, owned, l, i, rfl, hn, hk, ht, hio, hie⟩
    · rcases ih (step_inv hi op) h' with hm | ⟨a, k, owned, b, l, i, rfl, hn, hk, ht, hio, hie⟩
      · exact Or.inl hm
      · exact Or.inr ⟨op :: a, k, owned, b, l, i, rfl, hn, hk, ht, hio, hie⟩
    · exact Or.inr ⟨[], k, owned, ops, l, i, rfl, hn, hk, ht, hio, hie⟩

/-- **C17** No recorded event is lost.  After any history, record an event and let any further history follow,
with any use of any leases, old or new.  The event is still pending at the end, or it was removed by an accepted
acknowledgement of a position holding this event, through a lease handed out *after* the recording. -/
theorem no_event_lost {w : World R S} (hw : Reachable w) {op : Op R S} {e : Event R S} (he : e ∈ op.records)
    (ops : List (Op R S)) :
    e ∈ ((w.step op).run ops).st.events ∨
    ∃ a k owned b l i, ops = a ++ .ack k owned :: b ∧ w.issued.length ≤ k ∧
      ((w.step op).run a).issued[k]? = some l ∧ (ackSublease ((w.step op).run a).st l owned).2 = true ∧
      i ∈ owned ∧ l.events[i]? = some e := by
  have hp := records_pending hw.inv he
  have hiss : (w.step op).issued = w.issued := by cases op <;> first | rfl | cases he
  apply run_safe (step_inv hw.inv op)
  refine ⟨by rw [hiss]; exact Nat.le_refl _, List.mem_of_mem_drop hp, ?_⟩
  intro a ha j hj l hl hg hpl
  unfold covered at hp
  rw [ha] at hp
  exact hp

/-- **C17** In particular: acknowledging leases that were handed out before the recording never removes the
event, even if an identical event was part of them. -/
theorem old_leases_cannot_remove {w : World R S} (hw : Reachable w) {op : Op R S} {e : Event R S}
    (he : e ∈ op.records) (ops : List (Op R S))
    (hold : ∀ k owned, Op.ack k owned ∈ ops → k < w.issued.length) :
    e ∈ ((w.step op).run ops).st.events := by
  rcases no_event_lost hw he ops with h | ⟨a, k, owned, b, l, i, rfl, hn, -⟩
  · exact h
  · have := hold k owned (by simp)
    omega

/-- Once generations have moved past `g`, leases of generation at most `g` are never accepted again. -/
theorem run_past {w : World R S} (hi : Inv w) {g : Nat}
    (h : g ≤ w.st.leaseGeneration ∧ ∀ a, w.st.active = some a → g < a.generation) (ops : List (Op R S)) :
    g ≤ (w.run ops).st.leaseGeneration ∧ ∀ a, (w.run ops).st.active = some a → g < a.generation := by
  have hidle : ∀ (s : State R S) es, g ≤ s.leaseGeneration →
      g ≤ (rebuild { s with events := es, active := none }).leaseGeneration ∧
      ∀ a, (rebuild { s with events := es, active := none }).active = some a → g < a.generation := by
    intro s es hs; exact ⟨hs, by intro a ha; simp [rebuild] at ha⟩
  have hrec : ∀ (s : State R S) e, (g ≤ s.leaseGeneration ∧ ∀ a, s.active = some a → g < a.generation) →
      g ≤ (record s e).leaseGeneration ∧ ∀ a, (record s e).active = some a → g < a.generation := by
    intro s e hs; rw [(record_rest s e).1, (record_rest s e).2]; exact hs
  induction ops generalizing w with
  | nil => exact h
  | cons op ops ih =>
    apply ih (step_inv hi op)
    cases op with
    | recordRegion r => exact hrec _ (.region r) h
    | recordSpanRegion sp r => exact hrec _ (.spanRegion sp r) h
    | recordWholeSpans ss =>
      simp only [World.step, recordWholeSpans]
      revert h
      generalize w.st = s
      intro h
      clear ih hi
      induction ss generalizing s with
      | nil => exact h
      | cons x xs ih => exact ih _ (hrec s (.wholeSpan x) h)
    | lease =>
      simp only [World.step, lease, clearSeen, rebuild]
      refine ⟨by omega, ?_⟩
      intro a ha; cases ha; simp only; omega
    | extend k =>
      simp only [World.step]
      split
      · exact h
      · unfold extend
        cases ha : w.st.active with
        | none => simpa [ha] using h
        | some a =>
          simp only
          split
          · exact h
          · rename_i heq
            split at heq
            · cases heq
            · simp only [Option.some.injEq, Prod.mk.injEq] at heq
              rw [← heq.1]
              refine ⟨h.1, ?_⟩
              intro a' ha'
              simp only [clearSeen] at ha'
              cases ha'
              exact h.2 a ha
    | ack k owned =>
      simp only [World.step]
      split
      · exact h
      · unfold ackSublease
        split
        · exact h
        · split
          · exact h
          · exact hidle _ _ h.1
    | release k =>
      simp only [World.step]
      split
      · exact h
      · unfold release
        split
        · exact h
        · split
          · exact h
          · exact hidle _ w.st.events h.1

/-- **C17** A lease is good for one acknowledgement or release: after an accepted one (or after a newer lease
was taken), no lease handed out until then is ever accepted again, whatever follows. -/
theorem stale_refused {w : World R S} (hw : Reachable w) (op : Op R S)
    (hop : op = .lease ∨
      (∃ k owned l, op = .ack k owned ∧ w.issued[k]? = some l ∧ (ackSublease w.st l owned).2 = true) ∨
      (∃ k l, op = .release k ∧ w.issued[k]? = some l ∧ (release w.st l).2 = true))
    (ops : List (Op R S)) (l : Lease R S) (hl : l ∈ w.issued) (owned : List Nat) :
    let s := ((w.step op).run ops).st
    ackSublease s l owned = (s, false) ∧ release s l = (s, false) ∧ extend s l = none := by
  have hi := hw.inv
  have hg := hi.gen l hl
  have hpast : w.st.leaseGeneration ≤ (w.step op).st.leaseGeneration ∧
      ∀ a, (w.step op).st.active = some a → w.st.leaseGeneration < a.generation := by
    rcases hop with rfl | ⟨k, o, l', rfl, hk, ht⟩ | ⟨k, l', rfl, hk, ht⟩
    · simp only [World.step, lease, clearSeen, rebuild]
      exact ⟨by omega, by intro a ha; cases ha; simp only; omega⟩
    · simp only [World.step, hk]
      unfold ackSublease at ht ⊢
      split at ht
      · cases ht
      · split at ht
        · cases ht
        · rename_i h1 h2
          simp only [h1, h2, if_false]
          exact ⟨Nat.le_refl _, by intro a ha; simp [rebuild] at ha⟩
    · simp only [World.step, hk]
      unfold release at ht ⊢
      split at ht
      · cases ht
      · split at ht
        · cases ht
        · rename_i h1 h2
          simp only [h1, h2, if_false]
          exact ⟨Nat.le_refl _, by intro a ha; simp [rebuild] at ha⟩
  have := run_past (step_inv hi op) hpast ops
  intro s
  have hs : ∀ a, s.active = some a → a.generation ≠ l.generation := by
    intro a ha; have := this.2 a ha; omega
  unfold ackSublease release extend
  cases ha : s.active with
  | none => simp
  | some a => simp [hs a ha]

/-- An accepted acknowledgement goes through the last lease handed out (as a value: an extension that found no
new events hands out an equal lease). -/
theorem accepted_is_current {w : World R S} (hw : Reachable w) {l : Lease R S} (hl : l ∈ w.issued)
    {owned : List Nat} (ht : (ackSublease w.st l owned).2 = true) :
    ∀ l' ∈ w.issued, l'.generation ≤ l.generation ∧ l.events <+: w.st.events := by
  intro l' hl'
  obtain ⟨a, ha, hg, hp, hs, -⟩ := ack_true hw.inv hl ht
  have := hw.inv.gen l' hl'
  have := hw.inv.act a ha
  exact ⟨by omega, by rw [hs]; exact List.take_prefix _ _⟩

/-- A concrete history: an event leased, recorded again during the evaluation, acknowledged: still pending;
a second acknowledgement of the same lease is refused. -/
example :
    let w : World Nat Nat := World.run World.init [.recordRegion 7, .lease, .recordRegion 7, .recordRegion 7, .ack 0 [0]]
    w.st.events = [.region 7] ∧ (w.step (.ack 0 [0])).st.events = [.region 7] ∧
      Event.region 7 ∈ (Op.recordRegion 7 : Op Nat Nat).records := by decide

/-- An extension takes in what was recorded meanwhile; the part not owned stays. -/
example :
    let w : World Nat Nat := World.run World.init
      [.recordRegion 7, .lease, .recordSpanRegion 1 2, .extend 0, .recordWholeSpans [5, 5], .ack 0 [0], .ack 1 [1]]
    w.st.events = [.region 7, .wholeSpan 5] := by decide

end Verif.DirtyLease
