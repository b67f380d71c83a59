import Verif.Scc.Budget

/-!
# Order of the reads; cycles under both policies
-/

namespace Verif.Scc

variable {n : Nat} {V : Type} [DecidableEq V]

theorem go_pos_other (u : Members n V) : ∀ (order : List (Fin n)) (p : Nat) (st : St n V) (i : Fin n), i ∉ order → (passGo u st p order).pos i = st.pos i := by
  intro order
  induction order with
  | nil => intro p st i _; rfl
  | cons j rest ih =>
    intro p st i hi
    simp only [List.mem_cons, not_or] at hi
    rw [passGo, ih _ _ _ hi.2]
    simp [runMember, set_other _ _ hi.1]

/-- Places in a pass. -/
theorem go_pos (u : Members n V) : ∀ (l r : List (Fin n)) (p : Nat) (st : St n V) (i : Fin n), i ∉ r → (passGo u st p (l ++ i :: r)).pos i = some (p + l.length) := by
  intro l
  induction l with
  | nil =>
    intro r p st i hi
    simp only [List.nil_append, passGo]
    rw [go_pos_other _ _ _ _ _ hi]
    simp [runMember, set_same]
  | cons j l ih =>
    intro r p st i hi
    simp only [List.cons_append, passGo]
    rw [ih _ _ _ _ hi]
    simp
    omega

/-- A read of a member that ran before, or did not run, is not stale. -/
theorem earlier_fresh (u : Members n V) (st : St n V) {l r : List (Fin n)} {i t : Fin n} (hn : (l ++ i :: r).Nodup) (ht : t ∈ l ∨ t ∉ l ++ i :: r) :
    staleEdge (pass u st (l ++ i :: r)) i t = false := by
  have hir : i ∉ r := by
    have := (List.nodup_append.1 hn).2.1
    exact (List.nodup_cons.1 this).1
  have hi : (pass u st (l ++ i :: r)).pos i = some (0 + l.length) := go_pos u l r 0 _ i hir
  rcases ht with ht | ht
  · obtain ⟨l1, l2, rfl⟩ := List.append_of_mem ht
    have hn' : (l1 ++ t :: (l2 ++ i :: r)).Nodup := by simpa using hn
    have htr : t ∉ l2 ++ i :: r := (List.nodup_cons.1 (List.nodup_append.1 hn').2.1).1
    have hp : (pass u st (l1 ++ t :: l2 ++ i :: r)).pos t = some (0 + l1.length) := by
      have := go_pos u l1 (l2 ++ i :: r) 0 st.reset t htr
      simpa [pass] using this
    have hlt : ¬ 0 + (l1 ++ t :: l2).length < 0 + l1.length := by simp
    simp only [staleEdge, hi, hp, decide_eq_false hlt, Bool.and_false]
  · have hp : (pass u st (l ++ i :: r)).pos t = none := by
      have := go_pos_other u (l ++ i :: r) 0 st.reset t ht
      simpa [pass, St.reset] using this
    simp [staleEdge, hi, hp]

/-! ### Members that read only members before them -/

theorem live_split (st : St n V) {i : Fin n} (hi : st.excl i = false) : ∃ l r, st.live = l ++ i :: r ∧ ∀ t, t < i → t ∈ l ∨ t ∉ st.live := by
  have hs : st.live.Pairwise (· < ·) := (List.pairwise_lt_finRange n).filter _
  obtain ⟨l, r, h⟩ := List.append_of_mem ((mem_live st i).2 hi)
  refine ⟨l, r, h, fun t ht => ?_⟩
  by_cases hm : t ∈ st.live
  · left
    rw [h] at hm hs
    rcases List.mem_append.1 hm with hm | hm
    · exact hm
    · rcases List.mem_cons.1 hm with rfl | hm
      · exact absurd ht (Nat.lt_irrefl _)
      · have := (List.pairwise_cons.1 (List.pairwise_append.1 hs).2.1).1 t hm
        exact absurd ht (Nat.not_lt.2 (Nat.le_of_lt this))
  · exact .inr hm

omit [DecidableEq V] in
theorem path_down {adj : Fin n → List (Fin n)} (h : ∀ i t, t ∈ adj i → t < i) {i j : Fin n} (hp : Path adj i j) : j < i := by
  induction hp with
  | one ht => exact h _ _ ht
  | step ht _ ih => exact Nat.lt_trans ih (h _ _ ht)

/-- The state before the first pass. -/
def before (val : Fin n → V) (excl : Fin n → Bool) : St n V := { val := val, outs := fun _ => [], pos := fun _ => none, changed := fun _ => false, excl := excl }

/-- If no formula reads a member at or after its own place, one pass suffices. -/
theorem forward_one_pass {a : (Fin n → List (Fin n)) → Analysis n} (ha : Right a) (conv : V → V → Bool) {u : Members n V} (pol : Policy) (val : Fin n → V) (excl : Fin n → Bool) (m : Nat)
    (h : ∀ i s, ∀ t ∈ (run s (u.prog i)).2, t < i) : ∃ R, evaluate a conv u pol val excl (m + 1) = some (R, .exact) ∧ R.passes = 1 := by
  refine ⟨start u val excl, ?_, rfl⟩
  have hf := start_fresh u val excl
  have hout : ∀ i t, t ∈ (start u val excl).st.edges i → t < i := by
    intro i t ht
    unfold St.edges at ht
    split at ht
    · cases ht
    · rename_i hx
      obtain ⟨s, h1, _⟩ := hf i (by simpa using hx)
      refine h i s t ?_
      rw [h1]
      exact ht
  have hc : (List.finRange n).any (a (start u val excl).st.edges).inCycle = false := by
    refine List.any_eq_false.2 fun i _ hi => ?_
    exact absurd (path_down hout (((ha _).1 i).1 hi)) (Nat.lt_irrefl _)
  have hs : (List.finRange n).any (stale (start u val excl).st) = false := by
    refine List.any_eq_false.2 fun i _ hi => ?_
    simp only [stale, Bool.and_eq_true, Bool.not_eq_eq_eq_not, Bool.not_true, List.any_eq_true] at hi
    obtain ⟨hx, t, ht, hst⟩ := hi
    have hti : t < i := hout i t (by simpa [St.edges, hx] using ht)
    have hx0 : excl i = false := by
      obtain ⟨done, h1, h2⟩ := pass_mid u (before val excl) (order := _) (live_nodup (before val excl))
      cases hxe : excl i with
      | false => rfl
      | true =>
        have hnd : i ∉ done := fun hm => by
          have hl : excl i = false := (mem_live _ i).1 ((h1 i).1 hm)
          rw [hxe] at hl
          cases hl
        have he : (start u val excl).st.excl i = excl i := (h2.rest i hnd).2.2.2.2
        rw [hx, hxe] at he
        cases he
    obtain ⟨l, r, hl, hb⟩ := live_split (before val excl) (i := i) hx0
    have hnd := live_nodup (before val excl)
    have := earlier_fresh u (before val excl) (hl ▸ hnd) (by rw [← hl]; exact hb t hti)
    rw [← hl] at this
    rw [show staleEdge (start u val excl).st i t = _ from this] at hst
    cases hst
  simp only [evaluate, rounds]
  unfold round
  simp only [hc, hs]
  rfl

/-! ### Cycles are stamped -/

/-- The members of cycles of the recorded reads are stamped, and the others keep their formulas. -/
theorem stamped_are_cycles {a : (Fin n → List (Fin n)) → Analysis n} (ha : Right a) {conv : V → V → Bool} {u : Members n V} {L R : Loop n V}
    (h : round a conv u .error L = .inr (R, .stamped)) : (∃ i, Path L.st.edges i i) ∧ ∀ i, Path L.st.edges i i → L.st.excl i = false → R.st.val i = u.circ ∧ R.st.excl i = true := by
  unfold round at h
  simp only at h
  split at h
  · rename_i hc
    simp only [Sum.inr.injEq, Prod.mk.injEq, and_true] at h
    subst h
    obtain ⟨i, _, hi⟩ := List.any_eq_true.1 hc
    refine ⟨⟨i, ((ha _).1 i).1 hi⟩, fun j hj hx => ?_⟩
    have hcj := ((ha _).1 j).2 hj
    obtain ⟨done, h1, h2⟩ := pass_mid u (stamp u L.st (a L.st.edges).inCycle) (((ha L.st.edges).2.1.1).filter fun i => !(stamp u L.st (a L.st.edges).inCycle).excl i)
    have hnd : j ∉ done := fun hm => by
      have := (List.mem_filter.1 ((h1 j).1 hm)).2
      simp [stamp, hcj] at this
    have := h2.rest j hnd
    refine ⟨this.1.trans (by simp [stamp, hcj, hx]), this.2.2.2.2.trans (by simp [stamp, hcj])⟩
  · split at h
    · simp at h
    · split at h <;> simp at h

/-- If after the stamping every member reads only what it read before, the other members have the values of their formulas. -/
theorem stamped_solves_partial {a : (Fin n → List (Fin n)) → Analysis n} (ha : Right a) {conv : V → V → Bool} {u : Members n V} {L R : Loop n V}
    (h : round a conv u .error L = .inr (R, .stamped)) (hr : ∀ i, R.st.excl i = false → ∀ t ∈ R.st.outs i, t ∈ L.st.outs i) : Solves u R.st.excl R.st.val := by
  unfold round at h
  simp only at h
  split at h
  · simp only [Sum.inr.injEq, Prod.mk.injEq, and_true] at h
    subst h
    simp only at hr ⊢
    have hnd := ((ha L.st.edges).2.1.1).filter fun i => !(stamp u L.st (a L.st.edges).inCycle).excl i
    have hfr := pass_fresh (u := u) hnd (st := stamp u L.st (a L.st.edges).inCycle) (fun i hi => .inl (List.mem_filter.2 ⟨(ha L.st.edges).2.1.2 i, by simp [hi]⟩))
    obtain ⟨done, h1, h2⟩ := pass_mid u (stamp u L.st (a L.st.edges).inCycle) hnd
    intro i hi
    have hsx : (stamp u L.st (a L.st.edges).inCycle).excl i = false := by
      cases hsx : (stamp u L.st (a L.st.edges).inCycle).excl i with
      | false => rfl
      | true =>
        have hnd : i ∉ done := fun hm => by
          have := (List.mem_filter.1 ((h1 i).1 hm)).2
          rw [hsx] at this
          cases this
        rw [(h2.rest i hnd).2.2.2.2, hsx] at hi
        cases hi
    have hlx : L.st.excl i = false ∧ (a L.st.edges).inCycle i = false := by simpa [stamp] using hsx
    have hnc : ¬ Path L.st.edges i i := fun hp => by
      rw [((ha _).1 i).2 hp] at hlx
      cases hlx.2
    have hedge : ∀ t, t ∈ L.st.outs i → t ∈ L.st.edges i := fun t ht => by simpa [St.edges, hlx.1] using ht
    have hup : UpTo u (pass u (stamp u L.st (a L.st.edges).inCycle) ((a L.st.edges).topo.filter fun i => !(stamp u L.st (a L.st.edges).inCycle).excl i)) i := by
      refine fresh_upTo (hfr i hi) ?_ ?_
      · intro hm
        exact hnc (.one (hedge i (hr i hi i hm)))
      · intro t ht
        have hte := hedge t (hr i hi t ht)
        obtain ⟨l, r, hl, htl⟩ := (ha L.st.edges).2.2 i t hte fun hp => hnc (.step hte hp)
        have hsplit : ((a L.st.edges).topo.filter fun i => !(stamp u L.st (a L.st.edges).inCycle).excl i) =
            (l.filter fun i => !(stamp u L.st (a L.st.edges).inCycle).excl i) ++ i :: r.filter fun i => !(stamp u L.st (a L.st.edges).inCycle).excl i := by
          rw [hl, List.filter_append, List.filter_cons, if_pos (by simp [hsx])]
        rw [hsplit] at hnd ⊢
        refine earlier_fresh u _ hnd ?_
        cases htx : (stamp u L.st (a L.st.edges).inCycle).excl t with
        | false => exact .inl (List.mem_filter.2 ⟨htl, by simp [htx]⟩)
        | true =>
          right
          rw [← hsplit]
          intro hm
          have := (List.mem_filter.1 hm).2
          rw [htx] at this
          cases this
    unfold UpTo at hup
    rw [hup]
  · split at h
    · simp at h
    · split at h <;> simp at h

/-! ### What is excluded -/

/-- Who is excluded was so from the start, with the same value, or is `#CIRC!`. -/
def Marked (u : Members n V) (excl : Fin n → Bool) (val : Fin n → V) (st : St n V) : Prop :=
  ∀ i, (excl i = true → st.excl i = true ∧ st.val i = val i) ∧ (st.excl i = true → excl i = false → st.val i = u.circ)

theorem go_marked (u : Members n V) (excl : Fin n → Bool) (val : Fin n → V) : ∀ (order : List (Fin n)) (p : Nat) (st : St n V), order.Nodup → (∀ i ∈ order, st.excl i = false) →
    Marked u excl val st → Marked u excl val (passGo u st p order) := by
  intro order
  induction order with
  | nil => intro p st _ _ h; exact h
  | cons i rest ih =>
    intro p st hn ho h
    simp only [List.nodup_cons] at hn
    rw [passGo]
    refine ih _ _ hn.2 ?_ ?_
    · intro j hj
      have hji : j ≠ i := fun he => hn.1 (he ▸ hj)
      simp only [runMember, set_other _ _ hji]
      exact ho j (by simp [hj])
    · intro j
      by_cases hji : j = i
      · subst hji
        have hx := ho j (by simp)
        have he : excl j = false := by
          cases he : excl j with
          | false => rfl
          | true => rw [((h j).1 he).1] at hx; cases hx
        refine ⟨fun h => ?_, fun h _ => ?_⟩
        · rw [he] at h
          cases h
        · simp only [runMember, set_same, hx, Bool.false_or] at h ⊢
          rw [if_pos h]
      · simp only [runMember, set_other _ _ hji]
        exact h j

theorem pass_marked {u : Members n V} {excl : Fin n → Bool} {val : Fin n → V} {st : St n V} {order : List (Fin n)} (hn : order.Nodup) (ho : ∀ i ∈ order, st.excl i = false)
    (h : Marked u excl val st) : Marked u excl val (pass u st order) := go_marked u excl val order 0 st.reset hn ho h

theorem stamp_marked {u : Members n V} {excl : Fin n → Bool} {val : Fin n → V} {st : St n V} (h : Marked u excl val st) (which : Fin n → Bool) : Marked u excl val (stamp u st which) := by
  intro i
  refine ⟨fun he => ?_, fun hx he => ?_⟩
  · obtain ⟨h1, h2⟩ := (h i).1 he
    refine ⟨by simp [stamp, h1], by simp [stamp, h1, h2]⟩
  · cases h1 : st.excl i with
    | true => simp only [stamp, h1]; simpa using (h i).2 h1 he
    | false =>
      simp only [stamp, h1, Bool.false_or] at hx
      simp [stamp, h1, hx]

/-- At the end, a member that is excluded now and was not before is `#CIRC!`: on a cycle, or with an array as result. -/
theorem excluded_circ {a : (Fin n → List (Fin n)) → Analysis n} (ha : Right a) {conv : V → V → Bool} {u : Members n V} {pol : Policy} {val : Fin n → V} {excl : Fin n → Bool} {m : Nat}
    {R : Loop n V} {e : End} (h : evaluate a conv u pol val excl m = some (R, e)) (i : Fin n) :
    (excl i = true → R.st.excl i = true ∧ R.st.val i = val i) ∧ (R.st.excl i = true → excl i = false → R.st.val i = u.circ) := by
  have hstart : Marked u excl val (start u val excl).st := by
    refine pass_marked (st := before val excl) (live_nodup _) (fun i hi => (mem_live _ i).1 hi) fun i => ⟨fun h => ⟨h, rfl⟩, fun h1 h2 => ?_⟩
    rw [show (before val excl).excl i = excl i from rfl, h2] at h1
    cases h1
  have hstale : ∀ (st : St n V) (l : List (Fin n)), ∀ j ∈ l.filter (stale st), st.excl j = false := by
    intro st l j hj
    have := (List.mem_filter.1 hj).2
    simp only [stale, Bool.and_eq_true, Bool.not_eq_eq_eq_not, Bool.not_true] at this
    exact this.1
  have hstep : ∀ L L' : Loop n V, round a conv u pol L = .inl L' → Marked u excl val L.st → Marked u excl val L'.st := by
    intro L L' h hm
    unfold round at h
    simp only at h
    split at h
    · cases pol with
      | error => cases h
      | iterate k =>
        simp only at h
        split at h
        · cases h
        · split at h
          · cases h
          · cases h
            exact pass_marked (live_nodup _) (fun j hj => (mem_live _ j).1 hj) hm
    · split at h
      · cases h
      · split at h
        · cases h
        · cases h
          exact pass_marked (((ha _).2.1.1).filter _) (hstale _ _) hm
  obtain ⟨L, hL, hr⟩ := rounds_inv (P := fun L => Marked u excl val L.st) hstep m _ hstart _ h
  unfold round at hr
  simp only at hr
  split at hr
  · cases pol with
    | error =>
      simp only [Sum.inr.injEq, Prod.mk.injEq] at hr
      rw [← hr.1]
      refine pass_marked (((ha _).2.1.1).filter _) (fun j hj => ?_) (stamp_marked hL _) i
      simpa using (List.mem_filter.1 hj).2
    | iterate k =>
      simp only at hr
      split at hr
      · simp only [Sum.inr.injEq, Prod.mk.injEq] at hr; rw [← hr.1]; exact hL i
      · split at hr
        · simp only [Sum.inr.injEq, Prod.mk.injEq] at hr; rw [← hr.1]; exact hL i
        · cases hr
  · split at hr
    · simp only [Sum.inr.injEq, Prod.mk.injEq] at hr; rw [← hr.1]; exact hL i
    · split at hr
      · simp only [Sum.inr.injEq, Prod.mk.injEq] at hr; rw [← hr.1]; exact stamp_marked hL _ i
      · cases hr

/-! ### Iteration -/

/-- Each run of a pass saw for every member its value before or after the pass. -/
theorem go_between (u : Members n V) : ∀ (order : List (Fin n)) (p : Nat) (st : St n V), order.Nodup →
    (∀ j, j ∉ order → (passGo u st p order).val j = st.val j ∧ (passGo u st p order).excl j = st.excl j) ∧
    ∀ i ∈ order, ∃ s, (∀ j, s j = st.val j ∨ s j = (passGo u st p order).val j) ∧ ((passGo u st p order).excl i = false → run s (u.prog i) = ((passGo u st p order).val i, (passGo u st p order).outs i)) := by
  intro order
  induction order with
  | nil => intro p st _; exact ⟨fun j _ => ⟨rfl, rfl⟩, fun i hi => absurd hi (by simp)⟩
  | cons k rest ih =>
    intro p st hn
    simp only [List.nodup_cons] at hn
    obtain ⟨h1, h2⟩ := ih (p + 1) (runMember u st k p) hn.2
    rw [passGo]
    have hout : ∀ (rest : List (Fin n)) (p : Nat) (st : St n V), k ∉ rest → (passGo u st p rest).outs k = st.outs k := by
      intro rest
      induction rest with
      | nil => intro p st _; rfl
      | cons j rest ih =>
        intro p st hj
        simp only [List.mem_cons, not_or] at hj
        rw [passGo, ih _ _ hj.2]
        simp [runMember, set_other _ _ hj.1]
    refine ⟨?_, ?_⟩
    · intro j hj
      simp only [List.mem_cons, not_or] at hj
      obtain ⟨e1, e2⟩ := h1 j hj.2
      rw [e1, e2]
      simp [runMember, set_other _ _ hj.1]
    · intro i hi
      by_cases hik : i = k
      · subst hik
        refine ⟨st.val, fun j => .inl rfl, ?_⟩
        obtain ⟨e1, e2⟩ := h1 i hn.1
        intro hx
        rw [e2] at hx
        simp only [runMember, set_same, Bool.or_eq_false_iff] at hx
        rw [e1, hout rest _ _ hn.1]
        simp [runMember, set_same, hx.2]
      · obtain ⟨s, h3, h4⟩ := h2 i ((List.mem_cons.1 hi).resolve_left hik)
        refine ⟨s, fun j => ?_, h4⟩
        by_cases hjk : j = k
        · subst hjk
          right
          rcases h3 j with h | h
          · rw [h, (h1 j hn.1).1]
          · exact h
        · rcases h3 j with h | h
          · left
            rw [h]
            simp [runMember, set_other _ _ hjk]
          · exact .inr h

/-- A full pass that changes nothing: the values satisfy the formulas. -/
theorem unchanged_solves {u : Members n V} {st : St n V} (h : (pass u st st.live).val = st.val) : Solves u (pass u st st.live).excl (pass u st st.live).val := by
  obtain ⟨h1, h2⟩ := go_between u st.live 0 st.reset (live_nodup st)
  intro i hi
  have hx : i ∈ st.live := by
    by_contra hm
    have := (h1 i hm).2
    rw [show (passGo u st.reset 0 st.live).excl i = false from hi] at this
    exact hm ((mem_live st i).2 this.symm)
  obtain ⟨s, h3, h4⟩ := h2 i hx
  have hs : s = (pass u st st.live).val := by
    funext j
    rcases h3 j with e | e
    · rw [e, h]
      rfl
    · exact e
  have := h4 hi
  rw [hs] at this
  rw [show run (pass u st st.live).val (u.prog i) = _ from this]
  rfl

/-- The values of the pass before the last one, if both were full. -/
def PrevOk (u : Members n V) (L : Loop n V) : Prop := ∀ v, L.prev = some v → ∃ st, st.val = v ∧ L.st = pass u st st.live

theorem round_prev {a : (Fin n → List (Fin n)) → Analysis n} {conv : V → V → Bool} {u : Members n V} {pol : Policy} {L L' : Loop n V} (h : round a conv u pol L = .inl L') : PrevOk u L' := by
  unfold round at h
  simp only at h
  split at h
  · cases pol with
    | error => cases h
    | iterate k =>
      simp only at h
      split at h
      · cases h
      · split at h
        · cases h
        · cases h
          intro v hv
          simp only [Option.some.injEq] at hv
          exact ⟨L.st, hv, rfl⟩
  · split at h
    · cases h
    · split at h
      · cases h
      · cases h
        intro v hv
        cases hv

/-- If the iteration ends as converged, the last pass was a full one that moved no value by more than the test allows. -/
theorem converged_close {a : (Fin n → List (Fin n)) → Analysis n} {conv : V → V → Bool} {u : Members n V} {pol : Policy} {val : Fin n → V} {excl : Fin n → Bool} {m : Nat}
    {R : Loop n V} (h : evaluate a conv u pol val excl m = some (R, .converged)) :
    ∃ st, R.st = pass u st st.live ∧ ∀ i, R.st.excl i = false → conv (st.val i) (R.st.val i) = true := by
  obtain ⟨L, hL, hr⟩ := rounds_inv (P := PrevOk u) (fun L L' h _ => round_prev h) m _ (fun v hv => by simp [start] at hv) _ h
  unfold round at hr
  simp only at hr
  split at hr
  · cases pol with
    | error => simp at hr
    | iterate k =>
      simp only at hr
      split at hr
      · rename_i hcl
        simp only [Sum.inr.injEq, Prod.mk.injEq, and_true] at hr
        subst hr
        unfold close at hcl
        cases hp : L.prev with
        | none => simp [hp] at hcl
        | some v =>
          obtain ⟨st, h1, h2⟩ := hL v hp
          refine ⟨st, h2, fun i hi => ?_⟩
          simp only [hp, List.all_eq_true] at hcl
          have := hcl i (List.mem_finRange i)
          rw [hi, Bool.false_or] at this
          rw [h1]
          exact this
      · split at hr <;> simp at hr
  · split at hr
    · simp at hr
    · split at hr <;> simp at hr

/-- With a test that allows no difference, converged values satisfy the formulas. -/
theorem converged_solves {a : (Fin n → List (Fin n)) → Analysis n} {conv : V → V → Bool} (hc : ∀ v w, conv v w = true → v = w) {u : Members n V} (hna : NoArr u) {pol : Policy} {val : Fin n → V}
    {excl : Fin n → Bool} {m : Nat} {R : Loop n V} (h : evaluate a conv u pol val excl m = some (R, .converged)) : Solves u R.st.excl R.st.val := by
  obtain ⟨st, h1, h2⟩ := converged_close h
  rw [h1] at h2 ⊢
  refine unchanged_solves (funext fun i => ?_)
  cases hx : (pass u st st.live).excl i with
  | false => exact (hc _ _ (h2 i hx)).symm
  | true =>
    have hm : i ∉ st.live := by
      intro hm
      have hex := (go_det (u := u) (excl := st.excl) (val := st.val) hna (k := 0) st.live 0 st.reset rfl (fun j hj => (mem_live st j).1 hj) (by
        intro t w hw
        simp only [det] at hw
        split at hw
        · exact Option.some.inj hw
        · cases hw)).1
      rw [show (pass u st st.live).excl = st.excl from hex] at hx
      rw [(mem_live st i).1 hm] at hx
      cases hx
    exact ((go_between u st.live 0 st.reset (live_nodup st)).1 i hm).1

/-- A limit of one iteration: one pass, whose values stay if it shows a cycle. -/
theorem one_iteration (a : (Fin n → List (Fin n)) → Analysis n) (conv : V → V → Bool) (u : Members n V) (val : Fin n → V) (excl : Fin n → Bool) (m : Nat)
    (hc : ∃ i, (a (start u val excl).st.edges).inCycle i = true) : evaluate a conv u (.iterate 1) val excl (m + 1) = some (start u val excl, .capped) := by
  obtain ⟨i, hi⟩ := hc
  simp only [evaluate, rounds]
  unfold round
  have : (List.finRange n).any (a (start u val excl).st.edges).inCycle = true := List.any_eq_true.2 ⟨i, List.mem_finRange i, hi⟩
  rw [if_pos this]
  simp only
  rw [if_neg (by simp [close, start]), if_pos (show (start u val excl).passes ≥ 1 from Nat.le_refl 1)]

end Verif.Scc
