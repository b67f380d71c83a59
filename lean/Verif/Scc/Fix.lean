import Verif.Scc.Model
import Mathlib.Data.Fintype.Card

/-!
# Without a cycle the values are those of the formulas
-/

namespace Verif.Scc

variable {n : Nat} {V : Type}

theorem run_agree {s s' : Fin n → V} (p : Prog n V) (h : ∀ t ∈ (run s p).2, s t = s' t) : run s' p = run s p := by
  induction p with
  | ret v => rfl
  | read t k ih =>
    simp only [run, List.mem_cons, forall_eq_or_imp] at h
    have := ih (s t) h.2
    simp only [run, ← h.1, this]

/-- The values satisfy the formulas of the members that are not excluded. -/
def Solves (u : Members n V) (excl : Fin n → Bool) (s : Fin n → V) : Prop := ∀ i, excl i = false → s i = (run s (u.prog i)).1

/-- The members are evaluated in the state `st`: what is recorded is what its formula gives there. -/
def UpTo (u : Members n V) (st : St n V) (i : Fin n) : Prop := run st.val (u.prog i) = (st.val i, st.outs i)

/-- What is recorded is what the formula gave in some state, which differs from the present one at stale reads only. -/
def Fresh (u : Members n V) (st : St n V) (i : Fin n) : Prop :=
  ∃ s, run s (u.prog i) = (st.val i, st.outs i) ∧ ∀ t ∈ st.outs i, t ≠ i → staleEdge st i t = false → s t = st.val t

theorem fresh_upTo {u : Members n V} {st : St n V} {i : Fin n} (h : Fresh u st i) (hs : i ∉ st.outs i) (hf : ∀ t ∈ st.outs i, staleEdge st i t = false) : UpTo u st i := by
  obtain ⟨s, h1, h2⟩ := h
  unfold UpTo
  rw [← h1]
  refine run_agree _ ?_
  rw [h1]
  intro t ht
  exact h2 t ht (fun he => hs (he ▸ ht)) (hf t ht)

variable [DecidableEq V]

theorem set_same {α : Type} (f : Fin n → α) (i : Fin n) (a : α) : set f i a i = a := by simp [set]

theorem set_other {α : Type} (f : Fin n → α) {i j : Fin n} (a : α) (h : j ≠ i) : set f i a j = f j := by simp [set, h]

/-- The state in the middle of a pass from `st0`: `done` have run, at places below `p`. -/
structure Mid (u : Members n V) (st0 : St n V) (done : List (Fin n)) (p : Nat) (st : St n V) : Prop where
  rest : ∀ j, j ∉ done → st.val j = st0.val j ∧ st.outs j = st0.outs j ∧ st.pos j = none ∧ st.changed j = false ∧ st.excl j = st0.excl j
  ran : ∀ j ∈ done, (∃ q, st.pos j = some q ∧ q < p) ∧ (st.changed j = false → st.val j = st0.val j)
  fresh : ∀ j ∈ done, st.excl j = false → Fresh u st j

theorem mid_step {u : Members n V} {st0 : St n V} {done : List (Fin n)} {p : Nat} {st : St n V} (h : Mid u st0 done p st) {i : Fin n} (hi : i ∉ done) :
    Mid u st0 (i :: done) (p + 1) (runMember u st i p) := by
  constructor
  · intro j hj
    simp only [List.mem_cons, not_or] at hj
    have := h.rest j hj.2
    simp only [runMember, set_other _ _ hj.1]
    exact this
  · intro j hj
    by_cases he : j = i
    · subst he
      refine ⟨⟨p, by simp [runMember, set_same], by omega⟩, ?_⟩
      simp only [runMember, set_same, decide_eq_false_iff_not, not_not]
      intro hc
      rw [← hc]
      exact (h.rest j hi).1
    · have hd : j ∈ done := (List.mem_cons.1 hj).resolve_left he
      obtain ⟨⟨q, h1, h2⟩, h3⟩ := h.ran j hd
      refine ⟨⟨q, by simp only [runMember, set_other _ _ he]; exact h1, by omega⟩, ?_⟩
      simp only [runMember, set_other _ _ he]
      exact h3
  · intro j hj hx
    by_cases he : j = i
    · subst he
      simp only [runMember, set_same, Bool.or_eq_false_iff] at hx
      refine ⟨st.val, ?_, ?_⟩
      · simp [runMember, set_same, hx.2]
      · intro t ht hne _
        simp only [runMember, set_other _ _ hne]
    · have hd : j ∈ done := (List.mem_cons.1 hj).resolve_left he
      simp only [runMember, set_other _ _ he] at hx
      obtain ⟨s, h1, h2⟩ := h.fresh j hd hx
      refine ⟨s, by simp only [runMember, set_other _ _ he]; exact h1, ?_⟩
      simp only [runMember, set_other _ _ he]
      intro t ht hne hst
      by_cases hti : t = i
      · subst hti
        obtain ⟨⟨q, hq1, hq2⟩, _⟩ := h.ran j hd
        have hst' : staleEdge (runMember u st t p) j t = false := hst
        simp only [staleEdge, runMember, set_same, set_other _ _ he, hq1, hq2, decide_true, Bool.and_true, decide_eq_false_iff_not, not_not] at hst'
        simp only [set_same]
        rw [← hst']
        refine h2 t ht hne ?_
        simp [staleEdge, (h.rest t hi).2.2.2.1]
      · rw [set_other _ _ hti]
        refine h2 t ht hne ?_
        have hst' : staleEdge (runMember u st i p) j t = false := hst
        simpa only [staleEdge, runMember, set_other _ _ he, set_other _ _ hti] using hst'

theorem mid_go {u : Members n V} {st0 : St n V} : ∀ (order done : List (Fin n)) (p : Nat) (st : St n V), Mid u st0 done p st → order.Nodup → (∀ i ∈ order, i ∉ done) →
    ∃ done', (∀ i, i ∈ done' ↔ i ∈ order ∨ i ∈ done) ∧ Mid u st0 done' (p + order.length) (passGo u st p order) := by
  intro order
  induction order with
  | nil => intro done p st h _ _; exact ⟨done, by simp, h⟩
  | cons i rest ih =>
    intro done p st h hn hd
    simp only [List.nodup_cons] at hn
    obtain ⟨done', h1, h2⟩ := ih (i :: done) (p + 1) (runMember u st i p) (mid_step h (hd i (by simp))) hn.2 (by
      intro j hj
      simp only [List.mem_cons, not_or]
      exact ⟨fun he => hn.1 (he ▸ hj), hd j (by simp [hj])⟩)
    refine ⟨done', ?_, ?_⟩
    · intro j
      rw [h1]
      simp only [List.mem_cons]
      tauto
    · rw [passGo, List.length_cons, show p + (rest.length + 1) = p + 1 + rest.length by omega]
      exact h2

theorem pass_mid (u : Members n V) (st : St n V) {order : List (Fin n)} (hn : order.Nodup) : ∃ done, (∀ i, i ∈ done ↔ i ∈ order) ∧ Mid u st done order.length (pass u st order) := by
  have h0 : Mid u st [] 0 st.reset := ⟨fun j _ => ⟨rfl, rfl, rfl, rfl, rfl⟩, fun j hj => absurd hj (by simp), fun j hj => absurd hj (by simp)⟩
  obtain ⟨done, h1, h2⟩ := mid_go order [] 0 st.reset h0 hn (by simp)
  exact ⟨done, by simpa using h1, by simpa [pass] using h2⟩

/-- After a pass over members that include all those not up to date, what is recorded is fresh. -/
theorem pass_fresh {u : Members n V} {st : St n V} {order : List (Fin n)} (hn : order.Nodup) (h : ∀ i, st.excl i = false → i ∈ order ∨ UpTo u st i) :
    ∀ i, (pass u st order).excl i = false → Fresh u (pass u st order) i := by
  obtain ⟨done, h1, h2⟩ := pass_mid u st hn
  intro i hi
  by_cases hd : i ∈ done
  · exact h2.fresh i hd hi
  · obtain ⟨r1, r2, r3, r4, r5⟩ := h2.rest i hd
    have hup := (h i (r5 ▸ hi)).resolve_left fun hm => hd ((h1 i).2 hm)
    refine ⟨st.val, ?_, ?_⟩
    · rw [r1, r2]
      exact hup
    · intro t ht hne hs
      by_cases htd : t ∈ done
      · simp only [staleEdge, r3, Bool.and_true] at hs
        exact ((h2.ran t htd).2 hs).symm
      · exact ((h2.rest t htd).1).symm

theorem live_nodup (st : St n V) : st.live.Nodup := (List.nodup_finRange n).filter _

theorem mem_live (st : St n V) (i : Fin n) : i ∈ st.live ↔ st.excl i = false := by simp [St.live]

/-- All that is recorded is fresh. -/
def AllFresh (u : Members n V) (st : St n V) : Prop := ∀ i, st.excl i = false → Fresh u st i

theorem start_fresh (u : Members n V) (val : Fin n → V) (excl : Fin n → Bool) : AllFresh u (start u val excl).st :=
  pass_fresh (live_nodup _) fun i hi => .inl ((mem_live _ i).2 hi)

theorem noCycle {a : (Fin n → List (Fin n)) → Analysis n} (ha : Right a) {st : St n V} (h : ¬ (List.finRange n).any (a st.edges).inCycle = true) (i : Fin n) : ¬ Path st.edges i i := by
  intro hp
  exact h (List.any_eq_true.2 ⟨i, List.mem_finRange i, ((ha st.edges).1 i).2 hp⟩)

theorem not_stale_upTo {u : Members n V} {st : St n V} {i : Fin n} (hf : AllFresh u st) (hx : st.excl i = false) (hc : ¬ Path st.edges i i) (hs : stale st i = false) : UpTo u st i := by
  refine fresh_upTo (hf i hx) ?_ ?_
  · intro hm
    exact hc (.one (by simpa [St.edges, hx] using hm))
  · intro t ht
    simp only [stale, hx, Bool.not_false, Bool.true_and, List.any_eq_false, Bool.not_eq_true] at hs
    exact hs t ht

theorem round_fresh {a : (Fin n → List (Fin n)) → Analysis n} (ha : Right a) {conv : V → V → Bool} {u : Members n V} {pol : Policy} {L L' : Loop n V}
    (h : round a conv u pol L = .inl L') (hf : AllFresh u L.st) : AllFresh u L'.st := by
  unfold round at h
  simp only at h
  split at h
  · cases pol with
    | error => cases h
    | iterate k =>
      simp only at h
      split at h
      · cases h
      · split at h
        · cases h
        · cases h
          exact pass_fresh (live_nodup _) fun i hi => .inl ((mem_live _ i).2 hi)
  · rename_i hc
    split at h
    · cases h
    · split at h
      · cases h
      · cases h
        refine pass_fresh (((ha L.st.edges).2.1.1).filter _) fun i hi => ?_
        by_cases hs : stale L.st i = true
        · exact .inl (List.mem_filter.2 ⟨(ha L.st.edges).2.1.2 i, hs⟩)
        · exact .inr (not_stale_upTo hf hi (noCycle ha hc i) (by simpa using hs))

/-- An invariant of the loop holds where it ends. -/
theorem rounds_inv {a : (Fin n → List (Fin n)) → Analysis n} {conv : V → V → Bool} {u : Members n V} {pol : Policy} {P : Loop n V → Prop}
    (hstep : ∀ L L', round a conv u pol L = .inl L' → P L → P L') : ∀ (m : Nat) (L : Loop n V), P L → ∀ r, rounds a conv u pol m L = some r →
      ∃ L', P L' ∧ round a conv u pol L' = .inr r := by
  intro m
  induction m with
  | zero => intro L _ r h; simp [rounds] at h
  | succ m ih =>
    intro L hL r h
    simp only [rounds] at h
    cases hr : round a conv u pol L with
    | inr q =>
      rw [hr] at h
      simp only [Option.some.injEq] at h
      subst h
      exact ⟨L, hL, hr⟩
    | inl L' =>
      rw [hr] at h
      exact ih L' (hstep L L' hr hL) r h

theorem round_exact {a : (Fin n → List (Fin n)) → Analysis n} {conv : V → V → Bool} {u : Members n V} {pol : Policy} {L R : Loop n V}
    (h : round a conv u pol L = .inr (R, .exact)) : R = L ∧ ¬ (List.finRange n).any (a L.st.edges).inCycle = true ∧ ∀ i, stale L.st i = false := by
  unfold round at h
  simp only at h
  split at h
  · cases pol with
    | error => simp at h
    | iterate k =>
      simp only at h
      split at h
      · simp at h
      · split at h <;> simp at h
  · rename_i hc
    split at h
    · rename_i hs
      simp only [Sum.inr.injEq, Prod.mk.injEq, and_true] at h
      refine ⟨h.symm, hc, fun i => ?_⟩
      have := List.any_eq_false.1 hs i (List.mem_finRange i)
      simpa using this
    · split at h <;> simp at h

/-- No way along the reads of the last runs leads back. -/
def Acyclic (adj : Fin n → List (Fin n)) : Prop := ∀ i, ¬ Path adj i i

/-- If the loop ends without a cycle and without stale readers, every member has the value of its formula. -/
theorem exact_solves {a : (Fin n → List (Fin n)) → Analysis n} (ha : Right a) {conv : V → V → Bool} {u : Members n V} {pol : Policy} {val : Fin n → V} {excl : Fin n → Bool} {m : Nat}
    {R : Loop n V} (h : evaluate a conv u pol val excl m = some (R, .exact)) :
    Solves u R.st.excl R.st.val ∧ ∀ i, R.st.excl i = false → run R.st.val (u.prog i) = (R.st.val i, R.st.outs i) := by
  obtain ⟨L, hL, hr⟩ := rounds_inv (P := fun L => AllFresh u L.st) (fun L L' h hf => round_fresh ha h hf) m _ (start_fresh u val excl) _ h
  obtain ⟨rfl, hc, hs⟩ := round_exact hr
  have hup : ∀ i, R.st.excl i = false → UpTo u R.st i := fun i hi => not_stale_upTo hL hi (noCycle ha hc i) (hs i)
  exact ⟨fun i hi => by rw [hup i hi], hup⟩

/-- The reads of formulas in a solution. -/
def reads (u : Members n V) (excl : Fin n → Bool) (s : Fin n → V) : Fin n → List (Fin n) := fun i => if excl i = true then [] else (run s (u.prog i)).2

theorem path_append {adj : Fin n → List (Fin n)} {i j k : Fin n} (h : Path adj i j) (h' : Path adj j k) : Path adj i k := by
  induction h with
  | one h => exact .step h h'
  | step h _ ih => exact .step h (ih h')

/-- In a finite graph without cycles one can argue by what is read. -/
theorem acyclic_induction {adj : Fin n → List (Fin n)} (hac : Acyclic adj) {P : Fin n → Prop} (h : ∀ i, (∀ t ∈ adj i, P t) → P i) (i : Fin n) : P i := by
  have key : ∀ (k : Nat) (seen : List (Fin n)) (i : Fin n), seen.Nodup → n < seen.length + k → (∀ s ∈ seen, Path adj s i) → P i := by
    intro k
    induction k with
    | zero =>
      intro seen i hn hl _
      have : seen.length ≤ n := by
        have := List.Nodup.length_le_card hn
        simpa using this
      omega
    | succ k ih =>
      intro seen i hn hl hs
      refine h i fun t ht => ih (i :: seen) t ?_ (by simp; omega) ?_
      · refine List.nodup_cons.2 ⟨fun hm => hac i (hs i hm), hn⟩
      · intro s hm
        rcases List.mem_cons.1 hm with rfl | hm
        · exact .one ht
        · exact path_append (hs s hm) (.one ht)
  exact key (n + 1) [] i List.nodup_nil (by simp) (by simp)

omit [DecidableEq V] in
/-- A solution whose reads have no cycle is the only solution. -/
theorem solution_unique {u : Members n V} {excl : Fin n → Bool} {s s' : Fin n → V} (hs : Solves u excl s) (hac : Acyclic (reads u excl s)) (hs' : Solves u excl s')
    (he : ∀ i, excl i = true → s' i = s i) : s' = s := by
  funext i
  refine acyclic_induction hac (P := fun i => s' i = s i) (fun i ih => ?_) i
  cases hx : excl i with
  | true => exact he i hx
  | false =>
    rw [hs' i hx, hs i hx]
    rw [run_agree (s := s) (s' := s') (u.prog i) fun t ht => (ih t (by simpa [reads, hx] using ht)).symm]

/-- If the loop ends without a cycle and without stale readers, its values are the only ones that satisfy the formulas. -/
theorem exact_unique {a : (Fin n → List (Fin n)) → Analysis n} (ha : Right a) {conv : V → V → Bool} {u : Members n V} {pol : Policy} {val : Fin n → V} {excl : Fin n → Bool} {m : Nat}
    {R : Loop n V} (h : evaluate a conv u pol val excl m = some (R, .exact)) {s : Fin n → V} (hs : Solves u R.st.excl s) (he : ∀ i, R.st.excl i = true → s i = R.st.val i) : s = R.st.val := by
  obtain ⟨h1, h2⟩ := exact_solves ha h
  refine solution_unique h1 ?_ hs he
  obtain ⟨L, _, hr⟩ := rounds_inv (P := fun _ => True) (fun _ _ _ _ => trivial) m _ trivial _ h
  obtain ⟨rfl, hc, _⟩ := round_exact hr
  have : reads u R.st.excl R.st.val = R.st.edges := by
    funext i
    unfold reads St.edges
    cases hx : R.st.excl i with
    | true => simp
    | false => simp [h2 i hx]
  rw [this]
  exact noCycle ha hc

end Verif.Scc
