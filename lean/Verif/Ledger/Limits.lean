import Verif.Ledger.Model

/-!
# Limits are kept

What a request may use is stated by comparing amounts with limits, where a limit that is not set
allows everything.
-/
namespace Verif.Ledger

/-- The amount is allowed by the limit. -/
def Within (limit : Option Nat) (n : Nat) : Prop := ∀ l, limit = some l → n ≤ l

theorem over_iff (limit : Option Nat) (n : Nat) : over limit n = true ↔ ¬ Within limit n := by
  cases limit with
  | none => simp [over, Within]
  | some l => simp [over, Within]

theorem within_min (a b : Option Nat) (n : Nat) : Within (minLimit a b) n ↔ Within a n ∧ Within b n := by
  cases a <;> cases b <;> simp [minLimit, Within] <;> omega

/-! ## Admission -/

/-- **A mutation of the graph is admitted exactly when no limit is exceeded**: the vertices, the edges
and the cells that result, and the memory of what is added, 64 bytes for a vertex and 16 for an
edge, which in any case must be a number of the machine. -/
theorem admitted_iff (b : Budgets) (u : Admission) :
    preflight b u = .ok () ↔
      Within b.vertices u.finalVertices ∧ Within b.edges u.finalEdges ∧ Within b.cells u.cells ∧
      Within b.graphBytes (64 * u.addedVertices + 16 * u.addedEdges) ∧ 64 * u.addedVertices + 16 * u.addedEdges ≤ maxU64 := by
  have hbytes : u.bytes = if 64 * u.addedVertices + 16 * u.addedEdges ≤ maxU64 then .ok (64 * u.addedVertices + 16 * u.addedEdges)
      else .error (.exhausted .overflow maxU64 maxU64) := by
    unfold Admission.bytes
    split
    · next n h =>
      simp only [mulU64, addU64, Option.bind_eq_some_iff] at h
      obtain ⟨x, h1, y, h2, h3⟩ := h
      split at h1 <;> cases h1
      split at h2 <;> cases h2
      split at h3 <;> cases h3
      rw [if_pos (by omega)]
      congr 1; omega
    · next h =>
      rw [if_neg]
      intro hle
      have h1 : u.addedVertices * 64 ≤ maxU64 := by omega
      have h2 : u.addedEdges * 16 ≤ maxU64 := by omega
      have h3 : u.addedVertices * 64 + u.addedEdges * 16 ≤ maxU64 := by omega
      simp [mulU64, addU64, h1, h2, h3] at h
  unfold preflight
  split
  · next h => rw [over_iff] at h; exact ⟨fun e => (by cases e), fun e => absurd e.1 h⟩
  · next h1 =>
    rw [over_iff, Classical.not_not] at h1
    split
    · next h => rw [over_iff] at h; exact ⟨fun e => (by cases e), fun e => absurd e.2.1 h⟩
    · next h2 =>
      rw [over_iff, Classical.not_not] at h2
      split
      · next h => rw [over_iff] at h; exact ⟨fun e => (by cases e), fun e => absurd e.2.2.1 h⟩
      · next h3 =>
        rw [over_iff, Classical.not_not] at h3
        rw [hbytes]
        by_cases hm : 64 * u.addedVertices + 16 * u.addedEdges ≤ maxU64
        · rw [if_pos hm]
          show (if over b.graphBytes (64 * u.addedVertices + 16 * u.addedEdges) then _ else _) = _ ↔ _
          split
          · next h => rw [over_iff] at h; exact ⟨fun e => (by cases e), fun e => absurd e.2.2.2.1 h⟩
          · next h => rw [over_iff, Classical.not_not] at h; exact ⟨fun _ => ⟨h1, h2, h3, h, hm⟩, fun _ => rfl⟩
        · rw [if_neg hm]
          exact ⟨fun e => (by cases e), fun e => absurd e.2.2.2.2 hm⟩

example : preflight { vertices := some 10, graphBytes := some 200 } ⟨10, 7, 3, 2, 4⟩ = .ok () :=
  (admitted_iff _ _).mpr (by simp [Within, maxU64])
example : ¬ preflight { vertices := some 10, graphBytes := some 191 } ⟨10, 7, 3, 2, 4⟩ = .ok () := by
  rw [admitted_iff]; simp [Within]

/-! ## Shares -/

/-- **The shares of an envelope make up the whole**: the scratch memory is divided among the schedule,
the sources of the graph and the spills, and an eighth of the retained memory among the two caches,
whatever the amounts; the envelope's own limits are the totals. -/
theorem shares (e : Envelope) :
    ∃ sched source spill mixed lookup,
      e.budgets.schedule = some sched ∧ e.budgets.graphSource = some source ∧ e.budgets.spillOverlay = some spill ∧
      e.budgets.mixedCache = some mixed ∧ e.budgets.lookupCache = some lookup ∧
      e.budgets.scratch = some e.scratch ∧ e.budgets.retained = some e.retained ∧
      e.budgets.work = some e.work ∧ e.budgets.deadline = e.deadline ∧ e.budgets.graphBytes = some e.graphBytes ∧
      sched + source + spill = e.scratch ∧ mixed + lookup = e.retained / 8 := by
  refine ⟨_, _, _, _, _, rfl, rfl, rfl, rfl, rfl, rfl, rfl, rfl, rfl, rfl, ?_, ?_⟩
  · simp only [satMul]
    omega
  · simp only [satMul]
    omega

/-- **For amounts that do not overflow the schedule has half of the scratch memory, the sources of the
graph 35 hundredths, the spills at least 15 hundredths.** -/
theorem shares_exact (e : Envelope) (h : 35 * e.scratch ≤ maxU64) :
    e.budgets.schedule = some (e.scratch / 2) ∧ e.budgets.graphSource = some (35 * e.scratch / 100) ∧
    ∃ spill, e.budgets.spillOverlay = some spill ∧ 15 * e.scratch ≤ 100 * spill := by
  have hs : satMul e.scratch 35 = 35 * e.scratch := by unfold satMul; omega
  refine ⟨rfl, by simp only [Envelope.budgets, hs], _, rfl, ?_⟩
  rw [hs]
  omega

/-- Beyond that the share of the sources shrinks to a fraction of what is announced. -/
theorem share_overflow : ¬ ∀ e : Envelope, e.scratch ≤ maxU64 → e.budgets.graphSource = some (35 * e.scratch / 100) := by
  intro h
  exact absurd (h ⟨0, maxU64, 0, 0, none⟩ (Nat.le_refl _)) (by decide)

/-- **The deprecated settings fill only what is not set**; the memory is divided in halves. -/
theorem legacy_fills (b : Budgets) (v m t : Option Nat) :
    (resolve b v m t).1.vertices = b.vertices.or v ∧ (resolve b v m t).1.deadline = b.deadline.or t ∧
    (∀ x, b.retained = some x → (resolve b v m t).1.retained = some x) ∧
    (∀ x, b.scratch = some x → (resolve b v m t).1.scratch = some x) ∧
    (b.retained = none → b.scratch = none → ∀ mb, m = some mb →
      ∃ r s, (resolve b v m t).1.retained = some r ∧ (resolve b v m t).1.scratch = some s ∧
        r + s = min (1048576 * mb) maxU64 ∧ s ≤ r ∧ r ≤ s + 1) ∧
    (m = none → (resolve b v m t).1.retained = b.retained ∧ (resolve b v m t).1.scratch = b.scratch) ∧
    (resolve b v m t).1.work = b.work ∧ (resolve b v m t).1.edges = b.edges ∧ (resolve b v m t).1.graphBytes = b.graphBytes := by
  have hfill : ∀ e l, (fill e l).1 = e.or l := by
    intro e l; cases e <;> cases l <;> rfl
  refine ⟨hfill _ _, hfill _ _, ?_, ?_, ?_, ?_, rfl, rfl, rfl⟩
  · intro x hx
    show (fill b.retained _).1 = _
    rw [hfill, hx]; rfl
  · intro x hx
    show (fill b.scratch _).1 = _
    rw [hfill, hx]; rfl
  · intro hr hs mb hm
    subst hm
    refine ⟨(split (satMul mb (1024 * 1024))).1, (split (satMul mb (1024 * 1024))).2, ?_, ?_, ?_⟩
    · show (fill b.retained _).1 = _
      rw [hfill, hr]; rfl
    · show (fill b.scratch _).1 = _
      rw [hfill, hs]; rfl
    · simp only [split, satMul]
      omega
  · intro hm
    subst hm
    constructor
    · show (fill b.retained _).1 = _
      rw [hfill]; cases b.retained <;> rfl
    · show (fill b.scratch _).1 = _
      rw [hfill]; cases b.scratch <;> rfl

/-- **The report says of each deprecated setting whether it took effect**: it did exactly when it was
given and nothing else was set. -/
theorem legacy_reported (b : Budgets) (v m t : Option Nat) :
    ∃ dv dr ds dt, (resolve b v m t).2 = [dv, dr, ds, dt] ∧
      (dv = .absent ↔ v = none) ∧ (dr = .absent ↔ m = none) ∧ (ds = .absent ↔ m = none) ∧ (dt = .absent ↔ t = none) ∧
      (dv = .mapped ↔ v ≠ none ∧ b.vertices = none) ∧ (dr = .mapped ↔ m ≠ none ∧ b.retained = none) ∧
      (ds = .mapped ↔ m ≠ none ∧ b.scratch = none) ∧ (dt = .mapped ↔ t ≠ none ∧ b.deadline = none) := by
  refine ⟨_, _, _, _, rfl, ?_⟩
  cases v <;> cases m <;> cases t <;> cases b.vertices <;> cases b.retained <;> cases b.scratch <;> cases b.deadline <;>
    simp [fill]

/-! ## Requests -/

/-- The operations that may be refused because of a limit leave the amounts alone when they are. -/
theorem refused_unchanged (l : Ledger) (op : Op) (e : Err) (h : (l.step op).2 = some e) :
    (l.step op).1.retained = l.retained ∧ (l.step op).1.mixed = l.mixed ∧ (l.step op).1.scratch = l.scratch ∧ (l.step op).1.work = l.work ∧
    (l.step op).1.retainedPeak = l.retainedPeak ∧ (l.step op).1.scratchPeak = l.scratchPeak ∧ (l.step op).1.budgets = l.budgets := by
  have triv : ∀ (l' : Ledger) (r : Reason) (a b : Nat), (l'.refuse r a b).1.retained = l'.retained ∧ (l'.refuse r a b).1.mixed = l'.mixed ∧
      (l'.refuse r a b).1.scratch = l'.scratch ∧ (l'.refuse r a b).1.work = l'.work ∧
      (l'.refuse r a b).1.retainedPeak = l'.retainedPeak ∧ (l'.refuse r a b).1.scratchPeak = l'.scratchPeak ∧
      (l'.refuse r a b).1.budgets = l'.budgets := fun _ _ _ _ => ⟨rfl, rfl, rfl, rfl, rfl, rfl, rfl⟩
  have hs : ∀ (limit : Option Nat) (b : Nat), (l.takeScratch limit b).2 = some e →
      (l.takeScratch limit b).1.retained = l.retained ∧ (l.takeScratch limit b).1.mixed = l.mixed ∧ (l.takeScratch limit b).1.scratch = l.scratch ∧
      (l.takeScratch limit b).1.work = l.work ∧ (l.takeScratch limit b).1.retainedPeak = l.retainedPeak ∧
      (l.takeScratch limit b).1.scratchPeak = l.scratchPeak ∧ (l.takeScratch limit b).1.budgets = l.budgets := by
    intro limit b h
    unfold Ledger.takeScratch at h ⊢
    split
    · exact triv _ _ _ _
    · next next hn =>
      rw [hn] at h
      split
      · exact triv _ _ _ _
      · next ho => simp only [ho] at h; cases h
  cases op with
  | observeRetained b => cases h
  | observeScratch b => cases h
  | mixedCache b =>
    change (l.accountMixed b).2 = some e at h
    show (l.accountMixed b).1.retained = _ ∧ (l.accountMixed b).1.mixed = _ ∧ (l.accountMixed b).1.scratch = _ ∧ (l.accountMixed b).1.work = _ ∧
      (l.accountMixed b).1.retainedPeak = _ ∧ (l.accountMixed b).1.scratchPeak = _ ∧ (l.accountMixed b).1.budgets = _
    unfold Ledger.accountMixed at h ⊢
    split
    · exact ⟨rfl, rfl, rfl, rfl, rfl, rfl, rfl⟩
    · next rest hr =>
      rw [hr] at h
      split
      · exact triv _ _ _ _
      · next next hn =>
        simp only [hn] at h
        split
        · exact triv _ _ _ _
        · next ho => simp only [ho] at h; cases h
  | graphSource b => exact hs _ b h
  | schedule b => exact hs _ b h
  | retain b =>
    change (l.takeRetained b).2 = some e at h
    show (l.takeRetained b).1.retained = _ ∧ (l.takeRetained b).1.mixed = _ ∧ (l.takeRetained b).1.scratch = _ ∧ (l.takeRetained b).1.work = _ ∧
      (l.takeRetained b).1.retainedPeak = _ ∧ (l.takeRetained b).1.scratchPeak = _ ∧ (l.takeRetained b).1.budgets = _
    unfold Ledger.takeRetained at h ⊢
    split
    · exact triv _ _ _ _
    · next next hn =>
      rw [hn] at h
      split
      · exact triv _ _ _ _
      · next ho => simp only [ho] at h; cases h
  | releaseRetained b =>
    simp only [Ledger.step] at h ⊢
    split
    · exact ⟨rfl, rfl, rfl, rfl, rfl, rfl, rfl⟩
    · next hn => rw [hn] at h; cases h
  | scratch b => exact hs _ b h
  | releaseScratch b =>
    simp only [Ledger.step] at h ⊢
    split
    · exact ⟨rfl, rfl, rfl, rfl, rfl, rfl, rfl⟩
    · next hn => rw [hn] at h; cases h
  | scratchTo c =>
    simp only [Ledger.step] at h ⊢
    split
    · exact ⟨rfl, rfl, rfl, rfl, rfl, rfl, rfl⟩
    · next hn => rw [if_neg hn] at h; cases h
  | scratchAll => cases h
  | charge u =>
    change (l.charge u).2 = some e at h
    show (l.charge u).1.retained = _ ∧ (l.charge u).1.mixed = _ ∧ (l.charge u).1.scratch = _ ∧ (l.charge u).1.work = _ ∧
      (l.charge u).1.retainedPeak = _ ∧ (l.charge u).1.scratchPeak = _ ∧ (l.charge u).1.budgets = _
    unfold Ledger.charge at h ⊢
    split
    · exact triv _ _ _ _
    · next next hn =>
      rw [hn] at h
      split
      · exact triv _ _ _ _
      · next ho => simp only [ho] at h; cases h
  | window t s =>
    show (l.window t s).1.retained = _ ∧ (l.window t s).1.mixed = _ ∧ (l.window t s).1.scratch = _ ∧ (l.window t s).1.work = _ ∧
      (l.window t s).1.retainedPeak = _ ∧ (l.window t s).1.scratchPeak = _ ∧ (l.window t s).1.budgets = _
    unfold Ledger.window
    cases l.budgets.deadline with
    | none => exact ⟨rfl, rfl, rfl, rfl, rfl, rfl, rfl⟩
    | some limit =>
      dsimp only
      split
      · exact ⟨rfl, rfl, rfl, rfl, rfl, rfl, rfl⟩
      · exact ⟨rfl, rfl, rfl, rfl, rfl, rfl, rfl⟩

/-! ### When requests are granted -/

theorem takeScratch_cases (l : Ledger) (limit : Option Nat) (b : Nat) :
    ((l.takeScratch limit b).2 = none ↔ Within limit (l.scratch + b) ∧ l.scratch + b ≤ maxU64) ∧
    ((l.takeScratch limit b).2 = none → (l.takeScratch limit b).1 = { l with scratch := l.scratch + b, scratchPeak := max l.scratchPeak (l.scratch + b) }) := by
  unfold Ledger.takeScratch addU64
  by_cases hm : l.scratch + b ≤ maxU64
  · simp only [hm, if_true]
    by_cases ho : over limit (l.scratch + b) = true
    · simp only [ho, if_true]
      rw [over_iff] at ho
      refine ⟨⟨fun h => (by cases h), fun h => absurd h.1 ho⟩, fun h => (by cases h)⟩
    · simp only [ho]
      rw [over_iff, Classical.not_not] at ho
      exact ⟨⟨fun _ => ⟨ho, trivial⟩, fun _ => rfl⟩, fun _ => rfl⟩
  · simp only [hm, if_false]
    exact ⟨⟨fun h => (by cases h), fun h => h.2.elim⟩, fun h => (by cases h)⟩

/-- **Scratch memory is granted exactly when the amount then in use is within the limits that apply**
(and is a number of the machine), and then it is in use. -/
theorem scratch_granted_iff (l : Ledger) (b : Nat) :
    ((l.step (.scratch b)).2 = none ↔ Within l.budgets.scratch (l.scratch + b) ∧ l.scratch + b ≤ maxU64) ∧
    ((l.step (.schedule b)).2 = none ↔ (Within l.budgets.scratch (l.scratch + b) ∧ Within l.budgets.schedule (l.scratch + b)) ∧ l.scratch + b ≤ maxU64) ∧
    ((l.step (.graphSource b)).2 = none ↔ (Within l.budgets.scratch (l.scratch + b) ∧ Within l.budgets.graphSource (l.scratch + b)) ∧ l.scratch + b ≤ maxU64) ∧
    ∀ op ∈ [Op.scratch b, .schedule b, .graphSource b], (l.step op).2 = none → (l.step op).1.scratch = l.scratch + b := by
  refine ⟨(takeScratch_cases l _ b).1, ?_, ?_, ?_⟩
  · rw [← within_min]; exact (takeScratch_cases l _ b).1
  · rw [← within_min]; exact (takeScratch_cases l _ b).1
  · intro op hop h
    simp only [List.mem_cons, List.not_mem_nil, or_false] at hop
    rcases hop with rfl | rfl | rfl
    · show (l.takeScratch _ b).1.scratch = _
      rw [(takeScratch_cases l _ b).2 h]
    · show (l.takeScratch _ b).1.scratch = _
      rw [(takeScratch_cases l _ b).2 h]
    · show (l.takeScratch _ b).1.scratch = _
      rw [(takeScratch_cases l _ b).2 h]

/-- **The question whether a reservation for the schedule is possible is answered rightly.** -/
theorem can_schedule_iff (l : Ledger) (b : Nat) : l.canSchedule b = true ↔ (l.step (.schedule b)).2 = none := by
  rw [(scratch_granted_iff l b).2.1, ← within_min]
  unfold Ledger.canSchedule addU64
  by_cases hm : l.scratch + b ≤ maxU64
  · simp only [hm, if_true, Bool.not_eq_true', and_true]
    rw [← Bool.not_eq_true, over_iff, Classical.not_not]
  · simp [hm]

theorem retain_cases (l : Ledger) (b : Nat) :
    ((l.step (.retain b)).2 = none ↔ Within l.budgets.retained (l.retained + b) ∧ l.retained + b ≤ maxU64) ∧
    ((l.step (.retain b)).2 = none → (l.step (.retain b)).1 = { l with retained := l.retained + b, retainedPeak := max l.retainedPeak (l.retained + b) }) := by
  show ((l.takeRetained b).2 = none ↔ _) ∧ ((l.takeRetained b).2 = none → (l.takeRetained b).1 = _)
  unfold Ledger.takeRetained addU64
  by_cases hm : l.retained + b ≤ maxU64
  · simp only [hm, if_true]
    by_cases ho : over l.budgets.retained (l.retained + b) = true
    · simp only [ho, if_true]
      rw [over_iff] at ho
      refine ⟨⟨fun h => (by cases h), fun h => absurd h.1 ho⟩, fun h => (by cases h)⟩
    · simp only [ho]
      rw [over_iff, Classical.not_not] at ho
      exact ⟨⟨fun _ => ⟨ho, trivial⟩, fun _ => rfl⟩, fun _ => rfl⟩
  · simp only [hm, if_false]
    exact ⟨⟨fun h => (by cases h), fun h => h.2.elim⟩, fun h => (by cases h)⟩

theorem charge_cases (l : Ledger) (b : Nat) :
    ((l.step (.charge b)).2 = none ↔ Within l.budgets.work (l.work + b) ∧ l.work + b ≤ maxU64) ∧
    ((l.step (.charge b)).2 = none → (l.step (.charge b)).1 = { l with work := l.work + b }) := by
  show ((l.charge b).2 = none ↔ _) ∧ ((l.charge b).2 = none → (l.charge b).1 = _)
  unfold Ledger.charge addU64
  by_cases hm : l.work + b ≤ maxU64
  · simp only [hm, if_true]
    by_cases ho : over l.budgets.work (l.work + b) = true
    · simp only [ho, if_true]
      rw [over_iff] at ho
      refine ⟨⟨fun h => (by cases h), fun h => absurd h.1 ho⟩, fun h => (by cases h)⟩
    · simp only [ho]
      rw [over_iff, Classical.not_not] at ho
      exact ⟨⟨fun _ => ⟨ho, trivial⟩, fun _ => rfl⟩, fun _ => rfl⟩
  · simp only [hm, if_false]
    exact ⟨⟨fun h => (by cases h), fun h => h.2.elim⟩, fun h => (by cases h)⟩

/-- **The cache is accounted for exactly when what is retained with its new size in place of the old
is within the limits.** -/
theorem mixed_cases (l : Ledger) (b : Nat) :
    ((l.step (.mixedCache b)).2 = none ↔ l.mixed ≤ l.retained ∧
      (Within l.budgets.retained (l.retained - l.mixed + b) ∧ Within l.budgets.mixedCache (l.retained - l.mixed + b)) ∧ l.retained - l.mixed + b ≤ maxU64) ∧
    ((l.step (.mixedCache b)).2 = none → (l.step (.mixedCache b)).1 =
      { l with retained := l.retained - l.mixed + b, mixed := b, retainedPeak := max l.retainedPeak (l.retained - l.mixed + b) }) := by
  rw [← within_min]
  show ((l.accountMixed b).2 = none ↔ _) ∧ ((l.accountMixed b).2 = none → (l.accountMixed b).1 = _)
  unfold Ledger.accountMixed subU64 addU64
  by_cases hs : l.mixed ≤ l.retained
  · simp only [hs, if_true, true_and]
    by_cases hm : l.retained - l.mixed + b ≤ maxU64
    · simp only [hm, if_true]
      by_cases ho : over (minLimit l.budgets.retained l.budgets.mixedCache) (l.retained - l.mixed + b) = true
      · simp only [ho, if_true]
        rw [over_iff] at ho
        refine ⟨⟨fun h => (by cases h), fun h => absurd h.1 ho⟩, fun h => (by cases h)⟩
      · simp only [ho]
        rw [over_iff, Classical.not_not] at ho
        exact ⟨⟨fun _ => ⟨ho, trivial⟩, fun _ => rfl⟩, fun _ => rfl⟩
    · simp only [hm, if_false]
      exact ⟨⟨fun h => (by cases h), fun h => h.2.elim⟩, fun h => (by cases h)⟩
  · simp only [hs, if_false]
    exact ⟨⟨fun h => (by cases h), fun h => h.1.elim⟩, fun h => (by cases h)⟩

/-- **A window of time is granted exactly when it ends before the deadline.** -/
theorem window_granted_iff (l : Ledger) (elapsed estimate : Nat) (hd : ∀ d, l.budgets.deadline = some d → d ≤ maxDuration) :
    (l.step (.window elapsed estimate)).2 = none ↔ ∀ d, l.budgets.deadline = some d → elapsed + estimate < d := by
  show (l.window elapsed estimate).2 = none ↔ _
  unfold Ledger.window
  cases h : l.budgets.deadline with
  | none => simp
  | some d =>
    have hd' := hd d h
    simp only [Option.some.injEq, forall_eq', projected]
    by_cases hm : elapsed + estimate ≤ maxDuration
    · simp only [hm, if_true]
      by_cases ho : d ≤ elapsed + estimate
      · rw [if_pos ho]; exact ⟨fun h => (by cases h), fun h => by omega⟩
      · rw [if_neg ho]; exact ⟨fun _ => by omega, fun _ => rfl⟩
    · simp only [hm, if_false]
      rw [if_pos hd']
      exact ⟨fun h => (by cases h), fun h => by omega⟩

/-- **Once the deadline has passed no later window is granted.** -/
theorem deadline_stays (l l' : Ledger) (hb : l'.budgets = l.budgets) (t s t' s' : Nat) (hd : ∀ d, l.budgets.deadline = some d → d ≤ maxDuration)
    (hle : t + s ≤ t' + s') (h : (l.step (.window t s)).2 ≠ none) : (l'.step (.window t' s')).2 ≠ none := by
  intro h'
  rw [window_granted_iff l' t' s' (by rwa [hb]), hb] at h'
  exact h ((window_granted_iff l t s hd).mpr (fun d hd => by have := h' d hd; omega))

/-! ### Over a whole request -/

/-- The amounts are only observed, not limited. -/
def Op.observes : Op → Prop
  | .observeRetained _ => True
  | .observeScratch _ => True
  | _ => False

theorem step_budgets (l : Ledger) (op : Op) : (l.step op).1.budgets = l.budgets := by
  cases he : (l.step op).2 with
  | some e => exact (refused_unchanged l op e he).2.2.2.2.2.2
  | none =>
    cases op with
    | observeRetained b => rfl
    | observeScratch b => rfl
    | mixedCache b => rw [(mixed_cases l b).2 he]
    | graphSource b => exact (congrArg Ledger.budgets ((takeScratch_cases l _ b).2 he) : _).trans rfl
    | schedule b => exact (congrArg Ledger.budgets ((takeScratch_cases l _ b).2 he) : _).trans rfl
    | retain b => rw [(retain_cases l b).2 he]
    | releaseRetained b => simp only [Ledger.step]; split <;> rfl
    | scratch b => exact (congrArg Ledger.budgets ((takeScratch_cases l _ b).2 he) : _).trans rfl
    | releaseScratch b => simp only [Ledger.step]; split <;> rfl
    | scratchTo c => simp only [Ledger.step]; split <;> rfl
    | scratchAll => rfl
    | charge u => rw [(charge_cases l u).2 he]
    | window t s =>
      show (l.window t s).1.budgets = _
      unfold Ledger.window
      cases l.budgets.deadline with
      | none => rfl
      | some d => dsimp only; split <;> rfl

/-- The three amounts that are limited as a whole are within their limits. -/
def Kept (l : Ledger) : Prop :=
  Within l.budgets.retained l.retained ∧ Within l.budgets.scratch l.scratch ∧ Within l.budgets.work l.work

theorem kept_step (l : Ledger) (h : Kept l) (op : Op) (ho : ¬ op.observes) : Kept (l.step op).1 := by
  obtain ⟨h1, h2, h3⟩ := h
  have hbud := step_budgets l op
  unfold Kept
  rw [hbud]
  cases he : (l.step op).2 with
  | some e =>
    obtain ⟨e1, -, e3, e4, -⟩ := refused_unchanged l op e he
    rw [e1, e3, e4]
    exact ⟨h1, h2, h3⟩
  | none =>
    cases op with
    | observeRetained b => exact absurd trivial ho
    | observeScratch b => exact absurd trivial ho
    | mixedCache b =>
      rw [(mixed_cases l b).2 he]
      exact ⟨((mixed_cases l b).1.mp he).2.1.1, h2, h3⟩
    | graphSource b =>
      have := (takeScratch_cases l _ b).2 he
      rw [show l.step (.graphSource b) = l.takeScratch _ b from rfl, this]
      exact ⟨h1, ((scratch_granted_iff l b).2.2.1.mp he).1.1, h3⟩
    | schedule b =>
      have := (takeScratch_cases l _ b).2 he
      rw [show l.step (.schedule b) = l.takeScratch _ b from rfl, this]
      exact ⟨h1, ((scratch_granted_iff l b).2.1.mp he).1.1, h3⟩
    | retain b =>
      rw [(retain_cases l b).2 he]
      exact ⟨((retain_cases l b).1.mp he).1, h2, h3⟩
    | releaseRetained b =>
      simp only [Ledger.step, subU64]
      by_cases hb : b ≤ l.retained
      · simp only [hb, if_true]
        exact ⟨fun x hx => Nat.le_trans (Nat.sub_le _ _) (h1 x hx), h2, h3⟩
      · simp only [hb, if_false]
        exact ⟨h1, h2, h3⟩
    | scratch b =>
      have := (takeScratch_cases l _ b).2 he
      rw [show l.step (.scratch b) = l.takeScratch _ b from rfl, this]
      exact ⟨h1, ((scratch_granted_iff l b).1.mp he).1, h3⟩
    | releaseScratch b =>
      simp only [Ledger.step, subU64]
      by_cases hb : b ≤ l.scratch
      · simp only [hb, if_true]
        exact ⟨h1, fun x hx => Nat.le_trans (Nat.sub_le _ _) (h2 x hx), h3⟩
      · simp only [hb, if_false]
        exact ⟨h1, h2, h3⟩
    | scratchTo c =>
      simp only [Ledger.step]
      by_cases hb : l.scratch < c
      · rw [if_pos hb]; exact ⟨h1, h2, h3⟩
      · rw [if_neg hb]
        exact ⟨h1, fun x hx => Nat.le_trans (Nat.le_of_not_lt hb) (h2 x hx), h3⟩
    | scratchAll => exact ⟨h1, fun x _ => Nat.zero_le x, h3⟩
    | charge u =>
      rw [(charge_cases l u).2 he]
      exact ⟨h1, h2, ((charge_cases l u).1.mp he).1⟩
    | window t s =>
      have : (l.window t s).1.retained = l.retained ∧ (l.window t s).1.scratch = l.scratch ∧ (l.window t s).1.work = l.work := by
        unfold Ledger.window
        cases l.budgets.deadline with
        | none => exact ⟨rfl, rfl, rfl⟩
        | some d => dsimp only; split <;> exact ⟨rfl, rfl, rfl⟩
      show Within _ (l.window t s).1.retained ∧ Within _ (l.window t s).1.scratch ∧ Within _ (l.window t s).1.work
      rw [this.1, this.2.1, this.2.2]
      exact ⟨h1, h2, h3⟩

/-- **No request ever uses more than its limits**: after any operations, granted or refused, the
retained memory, the scratch memory and the work are within their limits — as long as memory is
reserved and not merely observed. -/
theorem limits_kept (b : Budgets) (ops : List Op) (h : ∀ o ∈ ops, ¬ o.observes) : Kept (Ledger.run { budgets := b } ops) := by
  have key : ∀ (ops : List Op) (l : Ledger), Kept l → (∀ o ∈ ops, ¬ o.observes) → Kept (l.run ops) := by
    intro ops
    induction ops with
    | nil => intro l hl _; exact hl
    | cons o ops ih => intro l hl ho; exact ih _ (kept_step l hl o (ho o (by simp))) (fun o' h' => ho o' (by simp [h']))
  exact key ops _ ⟨fun x _ => Nat.zero_le x, fun x _ => Nat.zero_le x, fun x _ => Nat.zero_le x⟩ h

/-- **Memory that is merely observed may exceed its limit.** -/
theorem observed_exceeds : ¬ ∀ (b : Budgets) (ops : List Op), Kept (Ledger.run { budgets := b } ops) := by
  intro h
  have := (h { scratch := some 10 } [.observeScratch 11]).2.1 10 rfl
  exact absurd this (by decide)

theorem peak_step (l : Ledger) (op : Op) :
    (l.step op).1.scratchPeak = max l.scratchPeak (if l.scratch < (l.step op).1.scratch then (l.step op).1.scratch else l.scratchPeak) ∨
    (l.step op).1.scratchPeak = max l.scratchPeak (l.step op).1.scratch := by
  cases he : (l.step op).2 with
  | some e =>
    obtain ⟨-, -, e3, -, -, e6, -⟩ := refused_unchanged l op e he
    left
    rw [e3, e6]; simp
  | none =>
    cases op with
    | observeRetained b => left; show l.scratchPeak = max l.scratchPeak (if l.scratch < l.scratch then _ else _); simp
    | observeScratch b => right; rfl
    | mixedCache b => left; rw [(mixed_cases l b).2 he]; simp
    | graphSource b =>
      right
      rw [show l.step (.graphSource b) = l.takeScratch _ b from rfl, (takeScratch_cases l _ b).2 he]
    | schedule b =>
      right
      rw [show l.step (.schedule b) = l.takeScratch _ b from rfl, (takeScratch_cases l _ b).2 he]
    | retain b => left; rw [(retain_cases l b).2 he]; simp
    | releaseRetained b =>
      left
      have : (l.step (.releaseRetained b)).1.scratch = l.scratch ∧ (l.step (.releaseRetained b)).1.scratchPeak = l.scratchPeak := by
        simp only [Ledger.step]; split <;> exact ⟨rfl, rfl⟩
      rw [this.1, this.2]; simp
    | scratch b =>
      right
      rw [show l.step (.scratch b) = l.takeScratch _ b from rfl, (takeScratch_cases l _ b).2 he]
    | releaseScratch b =>
      left
      have : (l.step (.releaseScratch b)).1.scratch ≤ l.scratch ∧ (l.step (.releaseScratch b)).1.scratchPeak = l.scratchPeak := by
        simp only [Ledger.step, subU64]
        by_cases hb : b ≤ l.scratch <;> simp [hb]
      rw [this.2, if_neg (by omega)]; simp
    | scratchTo c =>
      left
      have : (l.step (.scratchTo c)).1.scratch ≤ l.scratch ∧ (l.step (.scratchTo c)).1.scratchPeak = l.scratchPeak := by
        simp only [Ledger.step]
        by_cases hb : l.scratch < c
        · rw [if_pos hb]; exact ⟨Nat.le_refl _, rfl⟩
        · rw [if_neg hb]; exact ⟨Nat.le_of_not_lt hb, rfl⟩
      rw [this.2, if_neg (by omega)]; simp
    | scratchAll =>
      left
      show l.scratchPeak = max l.scratchPeak (if l.scratch < 0 then _ else _)
      simp
    | charge u => left; rw [(charge_cases l u).2 he]; simp
    | window t s =>
      left
      have : (l.window t s).1.scratch = l.scratch ∧ (l.window t s).1.scratchPeak = l.scratchPeak := by
        unfold Ledger.window
        cases l.budgets.deadline with
        | none => exact ⟨rfl, rfl⟩
        | some d => dsimp only; split <;> exact ⟨rfl, rfl⟩
      show (l.window t s).1.scratchPeak = max l.scratchPeak (if l.scratch < (l.window t s).1.scratch then _ else _)
      rw [this.1, this.2]; simp

/-- **The peak that is reported is the largest amount that was ever in use.** -/
theorem peak_is_largest (b : Budgets) (ops : List Op) :
    (∀ n, (Ledger.run { budgets := b } (ops.take n)).scratch ≤ (Ledger.run { budgets := b } ops).scratchPeak) ∧
    ∃ n, (Ledger.run { budgets := b } (ops.take n)).scratch = (Ledger.run { budgets := b } ops).scratchPeak := by
  have key : ∀ (ops : List Op) (l : Ledger), l.scratch ≤ l.scratchPeak →
      (∀ n, (l.run (ops.take n)).scratch ≤ (l.run ops).scratchPeak) ∧ l.scratchPeak ≤ (l.run ops).scratchPeak ∧
      ((∃ n, (l.run (ops.take n)).scratch = (l.run ops).scratchPeak) ∨ l.scratchPeak = (l.run ops).scratchPeak) := by
    intro ops
    induction ops with
    | nil => intro l h; exact ⟨fun n => by simpa [Ledger.run] using h, Nat.le_refl _, .inr rfl⟩
    | cons o ops ih =>
      intro l h
      have hstep : (l.step o).1.scratch ≤ (l.step o).1.scratchPeak ∧ l.scratchPeak ≤ (l.step o).1.scratchPeak ∧
          ((l.step o).1.scratchPeak = l.scratchPeak ∨ (l.step o).1.scratchPeak = (l.step o).1.scratch) := by
        rcases peak_step l o with hp | hp
        · by_cases hlt : l.scratch < (l.step o).1.scratch
          · rw [if_pos hlt] at hp; omega
          · rw [if_neg hlt] at hp; omega
        · omega
      obtain ⟨h1, h2, h3⟩ := ih (l.step o).1 hstep.1
      have hrun : l.run (o :: ops) = (l.step o).1.run ops := rfl
      refine ⟨?_, by rw [hrun]; omega, ?_⟩
      · intro n
        cases n with
        | zero => rw [hrun]; show l.scratch ≤ _; omega
        | succ n => exact h1 n
      · rcases h3 with ⟨n, hn⟩ | h3
        · exact .inl ⟨n + 1, hn⟩
        · rcases hstep.2.2 with e | e
          · right; rw [hrun, ← h3, e]
          · left; exact ⟨1, by rw [hrun, ← h3, e]; rfl⟩
  obtain ⟨h1, h2, h3⟩ := key ops { budgets := b } (Nat.le_refl _)
  refine ⟨h1, ?_⟩
  rcases h3 with h3 | h3
  · exact h3
  · exact ⟨0, h3⟩

theorem retained_step (l : Ledger) (op : Op) :
    (l.step op).1.retainedPeak = max l.retainedPeak (l.step op).1.retained ∨
    ((l.step op).1.retained ≤ l.retained ∧ (l.step op).1.retainedPeak = l.retainedPeak) := by
  cases he : (l.step op).2 with
  | some e =>
    obtain ⟨e1, -, -, -, e5, -, -⟩ := refused_unchanged l op e he
    right
    rw [e1, e5]; exact ⟨Nat.le_refl _, rfl⟩
  | none =>
    cases op with
    | observeRetained b => left; rfl
    | observeScratch b => right; exact ⟨Nat.le_refl _, rfl⟩
    | mixedCache b => left; rw [(mixed_cases l b).2 he]
    | graphSource b =>
      right
      rw [show l.step (.graphSource b) = l.takeScratch _ b from rfl, (takeScratch_cases l _ b).2 he]
      exact ⟨Nat.le_refl _, rfl⟩
    | schedule b =>
      right
      rw [show l.step (.schedule b) = l.takeScratch _ b from rfl, (takeScratch_cases l _ b).2 he]
      exact ⟨Nat.le_refl _, rfl⟩
    | retain b => left; rw [(retain_cases l b).2 he]
    | releaseRetained b =>
      right
      simp only [Ledger.step, subU64]
      by_cases hb : b ≤ l.retained <;> simp [hb]
    | scratch b =>
      right
      rw [show l.step (.scratch b) = l.takeScratch _ b from rfl, (takeScratch_cases l _ b).2 he]
      exact ⟨Nat.le_refl _, rfl⟩
    | releaseScratch b =>
      right
      simp only [Ledger.step]
      split <;> exact ⟨Nat.le_refl _, rfl⟩
    | scratchTo c =>
      right
      simp only [Ledger.step]
      split <;> exact ⟨Nat.le_refl _, rfl⟩
    | scratchAll => right; exact ⟨Nat.le_refl _, rfl⟩
    | charge u => right; rw [(charge_cases l u).2 he]; exact ⟨Nat.le_refl _, rfl⟩
    | window t s =>
      right
      show (l.window t s).1.retained ≤ _ ∧ (l.window t s).1.retainedPeak = _
      unfold Ledger.window
      cases l.budgets.deadline with
      | none => exact ⟨Nat.le_refl _, rfl⟩
      | some d => dsimp only; split <;> exact ⟨Nat.le_refl _, rfl⟩

/-- **The same of the retained memory.** -/
theorem retained_peak_is_largest (b : Budgets) (ops : List Op) :
    (∀ n, (Ledger.run { budgets := b } (ops.take n)).retained ≤ (Ledger.run { budgets := b } ops).retainedPeak) ∧
    ∃ n, (Ledger.run { budgets := b } (ops.take n)).retained = (Ledger.run { budgets := b } ops).retainedPeak := by
  have key : ∀ (ops : List Op) (l : Ledger), l.retained ≤ l.retainedPeak →
      (∀ n, (l.run (ops.take n)).retained ≤ (l.run ops).retainedPeak) ∧ l.retainedPeak ≤ (l.run ops).retainedPeak ∧
      ((∃ n, (l.run (ops.take n)).retained = (l.run ops).retainedPeak) ∨ l.retainedPeak = (l.run ops).retainedPeak) := by
    intro ops
    induction ops with
    | nil => intro l h; exact ⟨fun n => by simpa [Ledger.run] using h, Nat.le_refl _, .inr rfl⟩
    | cons o ops ih =>
      intro l h
      have hstep : (l.step o).1.retained ≤ (l.step o).1.retainedPeak ∧ l.retainedPeak ≤ (l.step o).1.retainedPeak ∧
          ((l.step o).1.retainedPeak = l.retainedPeak ∨ (l.step o).1.retainedPeak = (l.step o).1.retained) := by
        rcases retained_step l o with hp | hp
        · omega
        · omega
      obtain ⟨h1, h2, h3⟩ := ih (l.step o).1 hstep.1
      have hrun : l.run (o :: ops) = (l.step o).1.run ops := rfl
      refine ⟨?_, by rw [hrun]; omega, ?_⟩
      · intro n
        cases n with
        | zero => rw [hrun]; show l.retained ≤ _; omega
        | succ n => exact h1 n
      · rcases h3 with ⟨n, hn⟩ | h3
        · exact .inl ⟨n + 1, hn⟩
        · rcases hstep.2.2 with e | e
          · right; rw [hrun, ← h3, e]
          · left; exact ⟨1, by rw [hrun, ← h3, e]; rfl⟩
  obtain ⟨h1, h2, h3⟩ := key ops { budgets := b } (Nat.le_refl _)
  refine ⟨h1, ?_⟩
  rcases h3 with h3 | h3
  · exact h3
  · exact ⟨0, h3⟩

/-- **What was reserved since a checkpoint is released by going back to it**, whatever was granted or
refused in between, as long as no less is in use. -/
theorem back_to_checkpoint (l : Ledger) (ops : List Op) (h : l.scratch ≤ (l.run ops).scratch) :
    ((l.run ops).step (.scratchTo l.scratch)).2 = none ∧ ((l.run ops).step (.scratchTo l.scratch)).1.scratch = l.scratch := by
  simp only [Ledger.step]
  rw [if_neg (by omega)]
  exact ⟨rfl, rfl⟩

/-- **Reserved memory can be released**, and then as much is in use as before. -/
theorem reserve_release (l : Ledger) (b : Nat) (h : (l.step (.scratch b)).2 = none) :
    ((l.step (.scratch b)).1.step (.releaseScratch b)).2 = none ∧ ((l.step (.scratch b)).1.step (.releaseScratch b)).1.scratch = l.scratch := by
  rw [show l.step (.scratch b) = l.takeScratch _ b from rfl, (takeScratch_cases l _ b).2 h]
  simp [Ledger.step, subU64]

/-! ### Shares are not separate -/

/-- **A share can be used up by another**: a reservation for the sources of the graph is refused
though none was made before and the scratch memory would suffice, because the limit of the share is
compared with all the scratch memory in use. -/
theorem share_taken : ¬ ∀ (e : Envelope) (l : Ledger) (bytes share : Nat), l.budgets = e.budgets → e.budgets.graphSource = some share →
    bytes ≤ share → l.scratch + bytes ≤ e.scratch → (l.step (.graphSource bytes)).2 = none := by
  intro h
  have := h ⟨0, 100, 0, 0, none⟩ (Ledger.run { budgets := Envelope.budgets ⟨0, 100, 0, 0, none⟩ } [.schedule 40]) 10 35 rfl rfl (by decide) (by decide)
  exact absurd this (by decide)

/-- Half of the scratch memory for the schedule and any for the sources: 50 of 100 bytes in use refuse
every byte for the sources. -/
theorem sources_starved (bytes : Nat) (hb : 0 < bytes) :
    ((Ledger.run { budgets := Envelope.budgets ⟨0, 100, 0, 0, none⟩ } [.schedule 50]).step (.graphSource bytes)).2 ≠ none := by
  intro h
  have := ((scratch_granted_iff _ bytes).2.2.1.mp h).1.2 35 rfl
  have e : (Ledger.run { budgets := Envelope.budgets ⟨0, 100, 0, 0, none⟩ } [.schedule 50]).scratch = 50 := by decide
  rw [e] at this
  omega

/-- **The last refusal is the one reported**, whatever was granted since. -/
theorem exhaustion_reported (l : Ledger) (op : Op) :
    (∀ r a o, (l.step op).2 = some (.exhausted r a o) → (l.step op).1.exhaustion = some r) ∧
    ((l.step op).2 = none → (l.step op).1.exhaustion = l.exhaustion) := by
  have hs : ∀ (limit : Option Nat) (b : Nat),
      (∀ r a o, (l.takeScratch limit b).2 = some (.exhausted r a o) → (l.takeScratch limit b).1.exhaustion = some r) ∧
      ((l.takeScratch limit b).2 = none → (l.takeScratch limit b).1.exhaustion = l.exhaustion) := by
    intro limit b
    refine ⟨?_, fun h => (congrArg Ledger.exhaustion ((takeScratch_cases l limit b).2 h) : _).trans rfl⟩
    intro r a o h
    unfold Ledger.takeScratch at h ⊢
    split
    · next hn => rw [hn] at h; cases h; rfl
    · next hn =>
      rw [hn] at h
      split
      · next ho => simp only [ho, if_true] at h; cases h; rfl
      · next ho => simp only [ho] at h; cases h
  cases op with
  | observeRetained b => exact ⟨fun _ _ _ h => (by cases h), fun _ => rfl⟩
  | observeScratch b => exact ⟨fun _ _ _ h => (by cases h), fun _ => rfl⟩
  | mixedCache b =>
    refine ⟨?_, fun h => (congrArg Ledger.exhaustion ((mixed_cases l b).2 h) : _).trans rfl⟩
    intro r a o h
    change (l.accountMixed b).2 = _ at h
    show (l.accountMixed b).1.exhaustion = _
    unfold Ledger.accountMixed at h ⊢
    split
    · next hn => rw [hn] at h; cases h
    · next hn =>
      rw [hn] at h
      split
      · next hm => simp only [hm] at h; cases h; rfl
      · next hm =>
        simp only [hm] at h
        split
        · next ho => simp only [ho, if_true] at h; cases h; rfl
        · next ho => simp only [ho] at h; cases h
  | graphSource b => exact hs _ b
  | schedule b => exact hs _ b
  | retain b =>
    refine ⟨?_, fun h => (congrArg Ledger.exhaustion ((retain_cases l b).2 h) : _).trans rfl⟩
    intro r a o h
    change (l.takeRetained b).2 = _ at h
    show (l.takeRetained b).1.exhaustion = _
    unfold Ledger.takeRetained at h ⊢
    split
    · next hn => rw [hn] at h; cases h; rfl
    · next hn =>
      rw [hn] at h
      split
      · next ho => simp only [ho, if_true] at h; cases h; rfl
      · next ho => simp only [ho] at h; cases h
  | releaseRetained b =>
    simp only [Ledger.step, subU64]
    by_cases hb : b ≤ l.retained <;> simp [hb]
  | scratch b => exact hs _ b
  | releaseScratch b =>
    simp only [Ledger.step, subU64]
    by_cases hb : b ≤ l.scratch <;> simp [hb]
  | scratchTo c =>
    simp only [Ledger.step]
    by_cases hb : l.scratch < c <;> simp [hb]
  | scratchAll => exact ⟨fun _ _ _ h => (by cases h), fun _ => rfl⟩
  | charge u =>
    refine ⟨?_, fun h => (congrArg Ledger.exhaustion ((charge_cases l u).2 h) : _).trans rfl⟩
    intro r a o h
    change (l.charge u).2 = _ at h
    show (l.charge u).1.exhaustion = _
    unfold Ledger.charge at h ⊢
    split
    · next hn => rw [hn] at h; cases h; rfl
    · next hn =>
      rw [hn] at h
      split
      · next ho => simp only [ho, if_true] at h; cases h; rfl
      · next ho => simp only [ho] at h; cases h
  | window t s =>
    show (∀ r a o, (l.window t s).2 = some (.exhausted r a o) → (l.window t s).1.exhaustion = some r) ∧
      ((l.window t s).2 = none → (l.window t s).1.exhaustion = l.exhaustion)
    unfold Ledger.window
    cases l.budgets.deadline with
    | none => exact ⟨fun _ _ _ h => (by cases h), fun _ => rfl⟩
    | some d =>
      dsimp only
      split
      · exact ⟨fun _ _ _ h => (by cases h; rfl), fun h => (by cases h)⟩
      · exact ⟨fun _ _ _ h => (by cases h), fun _ => rfl⟩

/-! ## Cases -/

/-- A request with limits: some reservations are granted, one is refused, one is released. -/
example : Ledger.run { budgets := { scratch := some 100, schedule := some 50, work := some 7 } }
    [.schedule 40, .schedule 20, .scratch 30, .charge 7, .charge 1, .releaseScratch 10] =
    { budgets := { scratch := some 100, schedule := some 50, work := some 7 }, scratch := 60, scratchPeak := 70, work := 7, exhaustion := some .work } := by
  decide
example : Kept (Ledger.run { budgets := { scratch := some 100 } } [.scratch 60, .scratch 60, .scratchAll, .scratch 100]) :=
  limits_kept _ _ (by simp [Op.observes])
example : (Ledger.step { budgets := { deadline := some 1000 } } (.window 900 99)).2 = none :=
  (window_granted_iff _ _ _ (by simp [maxDuration])).mpr (by simp)

end Verif.Ledger
