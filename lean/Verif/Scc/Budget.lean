import Verif.Scc.Fix

/-!
# The loop ends, and never at the budget for settling

Members whose formulas read nothing have their value after the first pass, those that read only such members after the second, and so on.  After as many passes as there are
members all values that can be found in this way are found, and the reads of the others contain a cycle.
-/

namespace Verif.Scc

variable {n : Nat} {V : Type}

/-- The value of a formula if it reads only members with known values. -/
def runD (d : Fin n → Option V) : Prog n V → Option V
  | .ret v => some v
  | .read t k =>
    match d t with
    | none => none
    | some w => runD d (k w)

/-- The values that are known after `k` steps. -/
def det (u : Members n V) (excl : Fin n → Bool) (val : Fin n → V) : Nat → Fin n → Option V
  | 0, i => if excl i = true then some (val i) else none
  | k + 1, i => if excl i = true then some (val i) else runD (det u excl val k) (u.prog i)

/-- A state has the known values. -/
def Matches (d : Fin n → Option V) (s : Fin n → V) : Prop := ∀ t w, d t = some w → s t = w

theorem runD_run {d : Fin n → Option V} {s : Fin n → V} (h : Matches d s) : ∀ (p : Prog n V) {v : V}, runD d p = some v → (run s p).1 = v := by
  intro p
  induction p with
  | ret v => intro w hw; simpa [runD, run] using hw
  | read t k ih =>
    intro v hv
    simp only [runD] at hv
    cases hd : d t with
    | none => simp [hd] at hv
    | some w =>
      simp only [hd] at hv
      have := h t w hd
      simp only [run]
      rw [this]
      exact ih w hv

theorem runD_none {d : Fin n → Option V} {s : Fin n → V} (h : Matches d s) : ∀ (p : Prog n V), runD d p = none → ∃ t ∈ (run s p).2, d t = none := by
  intro p
  induction p with
  | ret v => intro hw; simp [runD] at hw
  | read t k ih =>
    intro hv
    simp only [runD] at hv
    cases hd : d t with
    | none => exact ⟨t, by simp [run], hd⟩
    | some w =>
      simp only [hd] at hv
      have := h t w hd
      obtain ⟨t', h1, h2⟩ := ih w hv
      refine ⟨t', ?_, h2⟩
      simp only [run]
      rw [this]
      exact List.mem_cons_of_mem _ h1

theorem runD_mono {d d' : Fin n → Option V} (h : ∀ t w, d t = some w → d' t = some w) : ∀ (p : Prog n V) {v : V}, runD d p = some v → runD d' p = some v := by
  intro p
  induction p with
  | ret v => intro w hw; exact hw
  | read t k ih =>
    intro v hv
    simp only [runD] at hv ⊢
    cases hd : d t with
    | none => simp [hd] at hv
    | some w =>
      simp only [hd] at hv
      simp only [h t w hd]
      exact ih w hv

variable {u : Members n V} {excl : Fin n → Bool} {val : Fin n → V}

theorem det_excl (k : Nat) {i : Fin n} (h : excl i = true) : det u excl val k i = some (val i) := by
  cases k <;> simp [det, h]

theorem det_succ (k : Nat) {i : Fin n} (h : excl i = false) : det u excl val (k + 1) i = runD (det u excl val k) (u.prog i) := by simp [det, h]

theorem det_mono : ∀ (k : Nat) (i : Fin n) (v : V), det u excl val k i = some v → det u excl val (k + 1) i = some v := by
  intro k
  induction k with
  | zero =>
    intro i v h
    simp only [det] at h
    split at h
    · rename_i hx
      rw [det_excl 1 hx]
      exact h
    · cases h
  | succ k ih =>
    intro i v h
    cases hx : excl i with
    | true => rw [det_excl _ hx] at h ⊢; exact h
    | false =>
      rw [det_succ _ hx] at h ⊢
      exact runD_mono ih _ h

theorem det_le {k l : Nat} (h : k ≤ l) {i : Fin n} {v : V} (hv : det u excl val k i = some v) : det u excl val l i = some v := by
  induction h with
  | refl => exact hv
  | step _ ih => exact det_mono _ i v ih

theorem Matches.le {k l : Nat} (h : k ≤ l) {s : Fin n → V} (hm : Matches (det u excl val l) s) : Matches (det u excl val k) s := fun t w hw => hm t w (det_le h hw)

/-- How many values are known. -/
def known (u : Members n V) (excl : Fin n → Bool) (val : Fin n → V) (k : Nat) : Nat := ((List.finRange n).filter fun i => (det u excl val k i).isSome).length

theorem filter_less {α : Type} (p q : α → Bool) (h : ∀ x, p x = true → q x = true) : ∀ (l : List α), (∃ x ∈ l, p x = false ∧ q x = true) → (l.filter p).length < (l.filter q).length := by
  have hle : ∀ l : List α, (l.filter p).length ≤ (l.filter q).length := by
    intro l
    induction l with
    | nil => simp
    | cons a l ih =>
      simp only [List.filter_cons]
      by_cases ha : p a = true
      · simp [ha, h a ha, ih]
      · by_cases hq : q a = true
        · simp [ha, hq]
          omega
        · simp [ha, hq, ih]
  intro l
  induction l with
  | nil => simp
  | cons a l ih =>
    rintro ⟨x, hx, h1, h2⟩
    simp only [List.filter_cons]
    rcases List.mem_cons.1 hx with rfl | hx
    · simp only [h1, h2, if_true]
      have := hle l
      simp
      omega
    · have := ih ⟨x, hx, h1, h2⟩
      by_cases ha : p a = true
      · simp [ha, h a ha, this]
      · by_cases hq : q a = true
        · simp [ha, hq]
          omega
        · simp [ha, hq, this]

theorem known_grow (k : Nat) : (∀ i, det u excl val (k + 1) i = det u excl val k i) ∨ known u excl val k < known u excl val (k + 1) := by
  by_cases h : ∀ i, det u excl val (k + 1) i = det u excl val k i
  · exact .inl h
  · right
    simp only [not_forall] at h
    obtain ⟨i, hi⟩ := h
    refine filter_less _ _ ?_ _ ⟨i, List.mem_finRange i, ?_⟩
    · intro j hj
      obtain ⟨v, hv⟩ := Option.isSome_iff_exists.1 hj
      rw [det_mono k j v hv]
      rfl
    · cases h1 : det u excl val k i with
      | some v => exact absurd (by rw [h1, det_mono k i v h1]) hi
      | none =>
        rw [h1] at hi
        refine ⟨rfl, ?_⟩
        cases h2 : det u excl val (k + 1) i with
        | none => exact absurd h2 hi
        | some v => rfl

theorem known_le (k : Nat) : known u excl val k ≤ n := by
  have := List.length_filter_le (fun i => (det u excl val k i).isSome) (List.finRange n)
  simpa [known] using this

theorem det_stop_from {k : Nat} (h : ∀ i, det u excl val (k + 1) i = det u excl val k i) : ∀ j, ∀ i, det u excl val (k + j + 1) i = det u excl val (k + j) i := by
  intro j
  induction j with
  | zero => exact h
  | succ j ih =>
    intro i
    cases hx : excl i with
    | true => rw [det_excl _ hx, det_excl _ hx]
    | false =>
      rw [det_succ _ hx, show k + (j + 1) = k + j + 1 by omega, det_succ _ hx]
      rw [show det u excl val (k + j + 1) = det u excl val (k + j) from funext ih]

/-- After as many steps as there are members nothing more becomes known. -/
theorem det_stop (i : Fin n) : det u excl val (n + 1) i = det u excl val n i := by
  by_cases h : ∃ k, k ≤ n ∧ ∀ i, det u excl val (k + 1) i = det u excl val k i
  · obtain ⟨k, hk, h⟩ := h
    have := det_stop_from h (n - k) i
    rw [show k + (n - k) = n by omega] at this
    exact this
  · exfalso
    have hgrow : ∀ k, k ≤ n + 1 → k ≤ known u excl val k := by
      intro k
      induction k with
      | zero => intro _; exact Nat.zero_le _
      | succ k ih =>
        intro hk
        rcases known_grow (u := u) (excl := excl) (val := val) k with h1 | h1
        · exact absurd ⟨k, by omega, h1⟩ h
        · have := ih (by omega)
          omega
    have := hgrow (n + 1) (Nat.le_refl _)
    have := known_le (u := u) (excl := excl) (val := val) (n + 1)
    omega

variable [DecidableEq V]

/-- No formula of the unit gives an array. -/
def NoArr (u : Members n V) : Prop := ∀ i s, u.arr i (run s (u.prog i)).1 = false

omit [DecidableEq V] in
/-- The known values of a state whose members all ran while the values of the step before were known. -/
theorem matches_succ {k : Nat} {st : St n V} (hx : ∀ i, excl i = true → st.val i = val i)
    (h : ∀ i, excl i = false → ∃ s, Matches (det u excl val k) s ∧ run s (u.prog i) = (st.val i, st.outs i)) : Matches (det u excl val (k + 1)) st.val := by
  intro i w hw
  cases hi : excl i with
  | true => rw [det_excl _ hi, Option.some.injEq] at hw; rw [hx i hi, hw]
  | false =>
    rw [det_succ _ hi] at hw
    obtain ⟨s, h1, h2⟩ := h i hi
    have := runD_run h1 _ hw
    rw [h2] at this
    exact this

theorem go_det (hna : NoArr u) {k : Nat} : ∀ (order : List (Fin n)) (p : Nat) (st : St n V), st.excl = excl → (∀ i ∈ order, excl i = false) → Matches (det u excl val k) st.val →
    (passGo u st p order).excl = excl ∧ Matches (det u excl val k) (passGo u st p order).val ∧
    (∀ i, i ∈ order → ∃ s, Matches (det u excl val k) s ∧ run s (u.prog i) = ((passGo u st p order).val i, (passGo u st p order).outs i)) ∧
    (∀ i, i ∉ order → (passGo u st p order).val i = st.val i ∧ (passGo u st p order).outs i = st.outs i) ∧
    ∀ i, (passGo u st p order).changed i = true → st.changed i = true ∨ det u excl val k i = none := by
  intro order
  induction order with
  | nil => intro p st hx _ hm; exact ⟨hx, hm, fun i hi => absurd hi (by simp), fun i _ => ⟨rfl, rfl⟩, fun i h => .inl h⟩
  | cons i rest ih =>
    intro p st hx ho hm
    have hxi : excl i = false := ho i (by simp)
    have hv : (runMember u st i p).val i = (run st.val (u.prog i)).1 := by simp [runMember, set_same, hna i st.val]
    have hm' : Matches (det u excl val k) (runMember u st i p).val := by
      intro t w hw
      by_cases ht : t = i
      · subst ht
        rw [hv]
        have := det_mono k t w hw
        rw [det_succ _ hxi] at this
        exact runD_run hm _ this
      · simp only [runMember, set_other _ _ ht]
        exact hm t w hw
    have hx' : (runMember u st i p).excl = excl := by
      rw [← hx]
      funext j
      by_cases hj : j = i
      · subst hj
        simp [runMember, set_same, hna j st.val]
      · simp [runMember, set_other _ _ hj]
    obtain ⟨h1, h2, h3, h4, h5⟩ := ih (p + 1) (runMember u st i p) hx' (fun j hj => ho j (by simp [hj])) hm'
    rw [passGo]
    refine ⟨h1, h2, ?_, ?_, ?_⟩
    · intro j hj
      by_cases hr : j ∈ rest
      · exact h3 j hr
      · have hji : j = i := (List.mem_cons.1 hj).resolve_right hr
        subst hji
        obtain ⟨e1, e2⟩ := h4 j hr
        refine ⟨st.val, hm, ?_⟩
        rw [e1, e2, hv]
        simp [runMember, set_same]
    · intro j hj
      simp only [List.mem_cons, not_or] at hj
      obtain ⟨e1, e2⟩ := h4 j hj.2
      rw [e1, e2]
      simp [runMember, set_other _ _ hj.1]
    · intro j hj
      rcases h5 j hj with h | h
      · by_cases hji : j = i
        · subst hji
          right
          cases hd : det u excl val k j with
          | none => rfl
          | some w =>
            exfalso
            have e1 := hm j w hd
            have e2 := hm' j w hd
            have e3 : (runMember u st j p).changed j = decide (st.val j ≠ (runMember u st j p).val j) := by simp [runMember, set_same]
            rw [e3, e1, e2] at h
            simp at h
        · left
          simpa [runMember, set_other _ _ hji] using h
      · exact .inr h

/-- After `k + 1` passes: what is known after `k` steps was right in every last run and has not changed in the last pass. -/
structure Known (u : Members n V) (excl : Fin n → Bool) (val : Fin n → V) (k : Nat) (st : St n V) : Prop where
  same : st.excl = excl
  pinned : ∀ i, excl i = true → st.val i = val i
  ran : ∀ i, excl i = false → ∃ s, Matches (det u excl val k) s ∧ run s (u.prog i) = (st.val i, st.outs i)
  still : ∀ i, st.changed i = true → det u excl val k i = none

theorem pass_known (hna : NoArr u) {k : Nat} {st : St n V} (hs : st.excl = excl) (hp : ∀ i, excl i = true → st.val i = val i) (hm : Matches (det u excl val k) st.val) {order : List (Fin n)}
    (ho : ∀ i ∈ order, excl i = false) (h : ∀ i, excl i = false → i ∈ order ∨ UpTo u st i) : Known u excl val k (pass u st order) := by
  obtain ⟨h1, h2, h3, h4, h5⟩ := go_det (val := val) hna (k := k) order 0 st.reset hs ho hm
  refine ⟨h1, ?_, ?_, ?_⟩
  · intro i hi
    have : i ∉ order := fun hm => by
      have := ho i hm
      rw [hi] at this
      cases this
    exact ((h4 i this).1).trans (hp i hi)
  · intro i hi
    by_cases hio : i ∈ order
    · exact h3 i hio
    · obtain ⟨e1, e2⟩ := h4 i hio
      have := (h i hi).resolve_left hio
      refine ⟨st.val, hm, ?_⟩
      unfold pass
      rw [e1, e2]
      exact this
  · intro i hi
    rcases h5 i hi with h | h
    · simp [St.reset] at h
    · exact h

/-- The known values in the loop, and how the passes are counted. -/
def LoopKnown (u : Members n V) (excl : Fin n → Bool) (val : Fin n → V) (L : Loop n V) : Prop :=
  AllFresh u L.st ∧ L.settles + 1 ≤ L.passes ∧ Known u excl val (L.passes - 1) L.st

theorem start_known (hna : NoArr u) : LoopKnown u excl val (start u val excl) := by
  refine ⟨start_fresh u val excl, Nat.le_refl _, ?_⟩
  refine pass_known (k := 0) (st := { val := val, outs := fun _ => [], pos := fun _ => none, changed := fun _ => false, excl := excl }) hna rfl (fun _ _ => rfl) ?_
    (fun i hi => (mem_live _ i).1 hi) fun i hi => .inl ((mem_live _ i).2 hi)
  intro t w hw
  simp only [det] at hw
  split at hw
  · exact Option.some.inj hw
  · cases hw

theorem round_known {a : (Fin n → List (Fin n)) → Analysis n} (ha : Right a) {conv : V → V → Bool} {pol : Policy} (hna : NoArr u) {L L' : Loop n V}
    (h : round a conv u pol L = .inl L') (hk : LoopKnown u excl val L) : LoopKnown u excl val L' := by
  obtain ⟨hf, hp, hkn⟩ := hk
  have hf' := round_fresh ha h hf
  have hm := matches_succ hkn.pinned hkn.ran
  rw [show L.passes - 1 + 1 = L.passes by omega] at hm
  unfold round at h
  simp only at h
  split at h
  · cases pol with
    | error => cases h
    | iterate k =>
      simp only at h
      split at h
      · cases h
      · split at h
        · cases h
        · cases h
          refine ⟨hf', by simp; omega, ?_⟩
          exact pass_known hna hkn.same hkn.pinned hm (fun i hi => hkn.same ▸ (mem_live _ i).1 hi) fun i hi => .inl ((mem_live _ i).2 (hkn.same ▸ hi))
  · rename_i hc
    split at h
    · cases h
    · split at h
      · cases h
      · cases h
        refine ⟨hf', by simp; omega, ?_⟩
        refine pass_known hna hkn.same hkn.pinned hm ?_ ?_
        · intro i hi
          have := (List.mem_filter.1 hi).2
          simp only [stale, Bool.and_eq_true, Bool.not_eq_eq_eq_not, Bool.not_true] at this
          exact hkn.same ▸ this.1
        · intro i hi
          by_cases hs : stale L.st i = true
          · exact .inl (List.mem_filter.2 ⟨(ha L.st.edges).2.1.2 i, hs⟩)
          · exact .inr (not_stale_upTo hf (hkn.same ▸ hi) (noCycle ha hc i) (by simpa using hs))

omit [DecidableEq V] in
/-- Without a cycle there are stale readers only in the first passes, no more than there are members. -/
theorem no_stale_late {k : Nat} {st : St n V} (hk : Known u excl val k st) (hn : n ≤ k) (hc : Acyclic st.edges) (i : Fin n) : stale st i = false := by
  have hall : ∀ i, det u excl val n i ≠ none := by
    refine acyclic_induction hc fun i ih hd => ?_
    have hx : excl i = false := by
      cases hx : excl i with
      | false => rfl
      | true => rw [det_excl _ hx] at hd; cases hd
    obtain ⟨s, h1, h2⟩ := hk.ran i hx
    have h3 : runD (det u excl val n) (u.prog i) = none := by rw [← det_succ _ hx, det_stop, hd]
    obtain ⟨t, ht, h4⟩ := runD_none (h1.le hn) _ h3
    rw [h2] at ht
    refine ih t ?_ h4
    simpa [St.edges, hk.same, hx] using ht
  have hch : ∀ t, st.changed t = false := by
    intro t
    cases ht : st.changed t with
    | false => rfl
    | true =>
      exfalso
      have h1 := hk.still t ht
      cases h2 : det u excl val n t with
      | none => exact hall t h2
      | some w =>
        rw [det_le hn h2] at h1
        cases h1
  simp [stale, staleEdge, hch]

/-- The budget for settling is never used up, whatever the policy is. -/
theorem budget_never_partial {a : (Fin n → List (Fin n)) → Analysis n} (ha : Right a) {conv : V → V → Bool} {u : Members n V} (hna : NoArr u) {pol : Policy} {val : Fin n → V}
    {excl : Fin n → Bool} {m : Nat} {R : Loop n V} : evaluate a conv u pol val excl m ≠ some (R, .budget) := by
  intro h
  obtain ⟨L, hL, hr⟩ := rounds_inv (P := LoopKnown u excl val) (fun L L' h hk => round_known ha hna h hk) m _ (start_known hna) _ h
  unfold round at hr
  simp only at hr
  split at hr
  · cases pol with
    | error => simp at hr
    | iterate k =>
      simp only at hr
      split at hr
      · simp at hr
      · split at hr <;> simp at hr
  · rename_i hc
    split at hr
    · simp at hr
    · rename_i hs
      split at hr
      · rename_i hb
        refine hs (List.any_eq_false.2 fun i _ => ?_)
        have := no_stale_late hL.2.2 (by have := hL.2.1; omega) (noCycle ha hc) i
        simp [this]
      · simp at hr

/-- Members whose values can be found one after another have these values after as many passes as there are members, also if a cycle was seen in between. -/
theorem known_right {a : (Fin n → List (Fin n)) → Analysis n} (ha : Right a) {conv : V → V → Bool} {u : Members n V} (hna : NoArr u) {k : Nat} {val : Fin n → V}
    {excl : Fin n → Bool} {m : Nat} {R : Loop n V} {e : End} (h : evaluate a conv u (.iterate k) val excl m = some (R, e)) (hp : n ≤ R.passes) {i : Fin n} {v : V} {j : Nat}
    (hd : det u excl val j i = some v) : R.st.val i = v := by
  obtain ⟨L, hL, hr⟩ := rounds_inv (P := LoopKnown u excl val) (fun L L' h hk => round_known ha hna h hk) m _ (start_known hna) _ h
  have hRL : R = L := by
    have hb : e ≠ .budget := fun he => budget_never_partial ha hna (he ▸ h)
    unfold round at hr
    simp only at hr
    split at hr
    · split at hr
      · simp only [Sum.inr.injEq, Prod.mk.injEq] at hr; exact hr.1.symm
      · split at hr
        · simp only [Sum.inr.injEq, Prod.mk.injEq] at hr; exact hr.1.symm
        · simp at hr
    · split at hr
      · simp only [Sum.inr.injEq, Prod.mk.injEq] at hr; exact hr.1.symm
      · split at hr
        · simp only [Sum.inr.injEq, Prod.mk.injEq] at hr
          exact absurd hr.2.symm hb
        · simp at hr
  subst hRL
  have hm := matches_succ hL.2.2.pinned hL.2.2.ran
  have hn : det u excl val n i = some v := by
    by_cases hj : j ≤ n
    · exact det_le hj hd
    · have : ∀ d, det u excl val (n + d) i = det u excl val n i := by
        intro d
        induction d with
        | zero => rfl
        | succ d ih => rw [← ih]; exact det_stop_from det_stop d i
      have e := this (j - n)
      rw [show n + (j - n) = j by omega] at e
      rw [← e]
      exact hd
  exact hm i v (det_le (by have := hL.2.1; omega) hn)

/-! ### The loop ends -/

/-- The limit of iterations of a policy. -/
def Policy.limit : Policy → Nat
  | .error => 0
  | .iterate k => k

theorem rounds_end (a : (Fin n → List (Fin n)) → Analysis n) (conv : V → V → Bool) (u : Members n V) (pol : Policy) : ∀ (m : Nat) (L : Loop n V), L.settles + 1 ≤ L.passes →
    L.settles ≤ n + 1 → (n + 1 - L.settles) + (pol.limit - (L.passes - L.settles)) < m → ∃ r, rounds a conv u pol m L = some r := by
  intro m
  induction m with
  | zero => intro L _ _ h; omega
  | succ m ih =>
    intro L h1 h2 hm
    simp only [rounds]
    cases hr : round a conv u pol L with
    | inr r => exact ⟨r, rfl⟩
    | inl L' =>
      simp only
      unfold round at hr
      simp only at hr
      split at hr
      · cases pol with
        | error => cases hr
        | iterate k =>
          simp only at hr
          split at hr
          · cases hr
          · split at hr
            · cases hr
            · rename_i hk
              cases hr
              refine ih _ (by simp; omega) h2 ?_
              simp only [Policy.limit] at hm ⊢
              omega
      · split at hr
        · cases hr
        · split at hr
          · cases hr
          · cases hr
            refine ih _ (by simp; omega) (by simp; omega) ?_
            simp only at hm ⊢
            omega

/-- The evaluation of a unit ends. -/
theorem evaluate_ends (a : (Fin n → List (Fin n)) → Analysis n) (conv : V → V → Bool) (u : Members n V) (pol : Policy) (val : Fin n → V) (excl : Fin n → Bool) :
    ∃ r, evaluate a conv u pol val excl (n + pol.limit + 2) = some r := by
  refine rounds_end a conv u pol _ _ (Nat.le_refl _) (Nat.zero_le _) ?_
  simp only [start]
  omega

/-- With the policy `error` there are at most two passes more than members, with `iterate` at most that many more than the limit. -/
theorem passes_bounded (a : (Fin n → List (Fin n)) → Analysis n) (conv : V → V → Bool) (u : Members n V) (pol : Policy) (val : Fin n → V) (excl : Fin n → Bool) {m : Nat} {R : Loop n V}
    {e : End} (h : evaluate a conv u pol val excl m = some (R, e)) : R.passes ≤ n + pol.limit + 2 := by
  have hstep : ∀ L L' : Loop n V, round a conv u pol L = .inl L' → (L.settles + 1 ≤ L.passes ∧ L.settles ≤ n + 1 ∧ L.passes ≤ L.settles + 1 + pol.limit) →
      (L'.settles + 1 ≤ L'.passes ∧ L'.settles ≤ n + 1 ∧ L'.passes ≤ L'.settles + 1 + pol.limit) := by
    intro L L' hr ⟨h1, h2, h3⟩
    unfold round at hr
    simp only at hr
    split at hr
    · cases pol with
      | error => cases hr
      | iterate k =>
        simp only at hr
        split at hr
        · cases hr
        · split at hr
          · cases hr
          · rename_i hk
            cases hr
            simp only [Policy.limit] at h3 ⊢
            omega
    · split at hr
      · cases hr
      · split at hr
        · cases hr
        · cases hr
          simp only
          omega
  obtain ⟨L, hL, hr⟩ := rounds_inv (P := fun L => L.settles + 1 ≤ L.passes ∧ L.settles ≤ n + 1 ∧ L.passes ≤ L.settles + 1 + pol.limit) hstep m _ (by simp [start]) _ h
  have : R.passes = L.passes := by
    unfold round at hr
    simp only at hr
    split at hr
    · cases pol with
      | error => simp only [Sum.inr.injEq, Prod.mk.injEq] at hr; rw [← hr.1]
      | iterate k =>
        simp only at hr
        split at hr
        · simp only [Sum.inr.injEq, Prod.mk.injEq] at hr; rw [← hr.1]
        · split at hr
          · simp only [Sum.inr.injEq, Prod.mk.injEq] at hr; rw [← hr.1]
          · cases hr
    · split at hr
      · simp only [Sum.inr.injEq, Prod.mk.injEq] at hr; rw [← hr.1]
      · split at hr
        · simp only [Sum.inr.injEq, Prod.mk.injEq] at hr; rw [← hr.1]
        · cases hr
  omega

end Verif.Scc
