/-!
# Kahn's algorithm by waves, for any node type

The loops of `build_layers` (scheduler.rs 701-739), `build_condensation_units` (830-873) and
`build_layers_with_virtual` (929-958) are the same loop over different in-degree tables.
-/

namespace Verif.Sched

variable {N : Type} [DecidableEq N]

/-- In-degree table and the vertices pushed so far for the next wave. -/
structure KState (N : Type) where
  deg : N → Option Nat
  next : List N

/-- One dependent: `if let Some(d) = in_degrees.get_mut(&w) { *d -= 1; if *d == 0 { queue.push_back(w) } }`.
`dec` is the decrement; `none` stands for an arithmetic underflow. -/
def relax (dec : Nat → Option Nat) (s : KState N) (w : N) : Option (KState N) :=
  match s.deg w with
  | none => some s
  | some d =>
    match dec d with
    | none => none
    | some d' => some ⟨fun x => if x = w then some d' else s.deg x, if d' = 0 then s.next ++ [w] else s.next⟩

def relaxAll (dec : Nat → Option Nat) : List N → KState N → Option (KState N)
  | [], s => some s
  | w :: ws, s => (relax dec s w).bind (relaxAll dec ws)

/-- The `while` loop: `none` when an underflow happens or the fuel runs out (neither does, see `waves_total`). -/
def waves (dec : Nat → Option Nat) (outs : N → List N) : Nat → (N → Option Nat) → List N → Option (List (List N))
  | 0, _, q => if q = [] then some [] else none
  | fuel + 1, deg, q =>
    if q = [] then some []
    else (relaxAll dec (q.flatMap outs) ⟨deg, []⟩).bind fun s =>
      (waves dec outs fuel s.deg s.next).map fun rest => q :: rest

/-- Checked decrement (`-= 1` panics at zero in debug builds). -/
def decChecked : Nat → Option Nat
  | 0 => none
  | n + 1 => some n

/-- `saturating_sub(1)`. -/
def decSat (n : Nat) : Option Nat := some (n - 1)

/-! ## One wave -/

theorem relaxAll_spec (dec : Nat → Option Nat) (hdec : ∀ d, dec (d + 1) = some d) (L : List N) (s : KState N)
    (hle : ∀ v d, s.deg v = some d → L.count v ≤ d) :
    ∃ t, relaxAll dec L s = some t ∧
      (∀ v, t.deg v = (s.deg v).map fun d => d - L.count v) ∧
      (∀ v, v ∈ t.next ↔ v ∈ s.next ∨ (v ∈ L ∧ s.deg v = some (L.count v))) ∧
      (s.next.Nodup → (∀ v ∈ s.next, s.deg v = some 0) → t.next.Nodup) := by
  induction L generalizing s with
  | nil => exact ⟨s, rfl, by simp, by simp, fun h _ => h⟩
  | cons w L ih =>
    cases hw : s.deg w with
    | none =>
      obtain ⟨t, h1, h2, h3, h4⟩ := ih s (fun v d hd => by
        have := hle v d hd
        rw [List.count_cons] at this; omega)
      refine ⟨t, by simp [relaxAll, relax, hw, h1], ?_, ?_, h4⟩
      · intro v
        rw [h2]
        by_cases hv : v = w
        · subst hv; simp [hw]
        · rw [List.count_cons_of_ne (Ne.symm hv)]
      · intro v
        rw [h3]
        by_cases hv : v = w
        · subst hv; simp [hw]
        · rw [List.count_cons_of_ne (Ne.symm hv)]; simp [hv]
    | some d =>
      have hd1 : 1 ≤ d := by
        have := hle w d hw
        rw [List.count_cons_self] at this; omega
      obtain ⟨d', rfl⟩ : ∃ d', d = d' + 1 := ⟨d - 1, by omega⟩
      let s' : KState N := ⟨fun x => if x = w then some d' else s.deg x, if d' = 0 then s.next ++ [w] else s.next⟩
      have hr : relax dec s w = some s' := by simp [relax, hw, hdec, s']
      obtain ⟨t, h1, h2, h3, h4⟩ := ih s' (fun v e he => by
        simp only [s'] at he
        split at he
        · rename_i hv
          subst hv
          have := hle v _ hw
          rw [List.count_cons_self] at this
          simp only [Option.some.injEq] at he
          omega
        · rename_i hv
          have := hle v e he
          rwa [List.count_cons_of_ne (Ne.symm hv)] at this)
      refine ⟨t, by simp [relaxAll, hr, h1], ?_, ?_, ?_⟩
      · intro v
        rw [h2]
        by_cases hv : v = w
        · subst hv
          simp only [s', if_true, Option.map_some, hw, List.count_cons_self]
          congr 1; omega
        · simp only [s', hv, if_false]
          rw [List.count_cons_of_ne (Ne.symm hv)]
      · intro v
        rw [h3]
        by_cases hv : v = w
        · subst hv
          simp only [s', if_true, hw, List.count_cons_self, List.mem_cons, true_or, true_and, Option.some.injEq,
            Nat.add_right_cancel_iff]
          by_cases hd : d' = 0
          · subst hd
            have : L.count v = 0 := by
              have := hle v _ hw
              rw [List.count_cons_self] at this; omega
            simp [this]
          · simp only [hd, if_false]
            constructor
            · rintro (h | ⟨-, h⟩)
              · exact Or.inl h
              · exact Or.inr h
            · rintro (h | h)
              · exact Or.inl h
              · refine Or.inr ⟨?_, h⟩
                apply Decidable.byContradiction
                intro hn
                have := List.count_eq_zero.2 hn
                omega
        · simp only [s', hv, if_false, List.mem_cons, false_or]
          rw [List.count_cons_of_ne (Ne.symm hv)]
          split <;> simp [hv]
      · intro hn hz
        have hwn : w ∉ s.next := fun hm => by
          have := hz w hm
          rw [hw] at this; simp at this
        apply h4
        · simp only [s']
          split
          · rw [List.nodup_append]
            exact ⟨hn, by simp, fun a ha b hb e => by simp only [List.mem_singleton] at hb; subst hb; subst e; exact hwn ha⟩
          · exact hn
        · intro v hv
          simp only [s'] at hv ⊢
          split at hv
          · rename_i h0
            subst h0
            simp only [List.mem_append, List.mem_singleton] at hv
            by_cases hvw : v = w
            · simp [hvw]
            · simp only [hvw, if_false]; exact hz v (hv.resolve_right hvw)
          · have hvw : v ≠ w := fun e => hwn (e ▸ hv)
            simp only [hvw, if_false]; exact hz v hv

/-! ## All waves -/

/-- State of the loop: `P` processed, `q` the queue, `R` the rest. -/
structure KInv (nodes : List N) (outs : N → List N) (P q R : List N) (deg : N → Option Nat) : Prop where
  perm : (P ++ q ++ R).Perm nodes
  nodup : nodes.Nodup
  none_iff : ∀ v, deg v = none ↔ v ∉ nodes
  val : ∀ v ∈ nodes, deg v = some (((q ++ R).flatMap outs).count v)
  zero : ∀ v ∈ nodes, deg v = some 0 ↔ v ∈ P ++ q

theorem KInv.nodupAll {nodes : List N} {outs : N → List N} {P q R : List N} {deg : N → Option Nat}
    (h : KInv nodes outs P q R deg) : (P ++ q ++ R).Nodup := h.perm.nodup_iff.2 h.nodup

theorem KInv.step {nodes : List N} {outs : N → List N} {P q R : List N} {deg : N → Option Nat}
    (h : KInv nodes outs P q R deg) (dec : Nat → Option Nat) (hdec : ∀ d, dec (d + 1) = some d) :
    ∃ t, relaxAll dec (q.flatMap outs) ⟨deg, []⟩ = some t ∧
      KInv nodes outs (P ++ q) t.next (R.filter fun v => v ∉ t.next) t.deg ∧
      ∀ v, v ∈ t.next ↔ v ∈ R ∧ (R.flatMap outs).count v = 0 := by
  have hnd := h.nodupAll
  have hmem : ∀ v, v ∈ nodes ↔ v ∈ P ++ q ++ R := fun v => (h.perm.mem_iff).symm
  have hle : ∀ v d, deg v = some d → (q.flatMap outs).count v ≤ d := by
    intro v d hd
    have hv : v ∈ nodes := by
      apply Decidable.byContradiction
      intro hn
      rw [(h.none_iff v).2 hn] at hd; simp at hd
    rw [h.val v hv] at hd
    simp only [Option.some.injEq, List.flatMap_append, List.count_append] at hd
    omega
  obtain ⟨t, h1, h2, h3, h4⟩ := relaxAll_spec dec hdec (q.flatMap outs) ⟨deg, []⟩ hle
  have hval' : ∀ v ∈ nodes, t.deg v = some ((R.flatMap outs).count v) := by
    intro v hv
    rw [h2]
    show Option.map _ (deg v) = _
    rw [h.val v hv, Option.map_some]
    congr 1
    rw [List.flatMap_append, List.count_append]; omega
  have hnext : ∀ v, v ∈ t.next ↔ v ∈ R ∧ (R.flatMap outs).count v = 0 := by
    intro v
    rw [h3]
    simp only [List.not_mem_nil, false_or]
    constructor
    · rintro ⟨hv, hd⟩
      have hvn : v ∈ nodes := by
        apply Decidable.byContradiction
        intro hn
        rw [(h.none_iff v).2 hn] at hd; simp at hd
      have hc := h.val v hvn
      rw [hd] at hc
      simp only [Option.some.injEq, List.flatMap_append, List.count_append] at hc
      have hpos : 0 < (q.flatMap outs).count v := List.count_pos_iff.2 hv
      have hz := h.zero v hvn
      rw [hd] at hz
      simp only [Option.some.injEq] at hz
      have : v ∉ P ++ q := fun hm => by have := hz.2 hm; omega
      refine ⟨?_, by omega⟩
      rcases List.mem_append.1 ((hmem v).1 hvn) with hh | hh
      · exact absurd hh this
      · exact hh
    · rintro ⟨hv, hc⟩
      have hvn : v ∈ nodes := (hmem v).2 (List.mem_append.2 (Or.inr hv))
      have hd := h.val v hvn
      rw [List.flatMap_append, List.count_append, hc, Nat.add_zero] at hd
      refine ⟨?_, hd⟩
      apply Decidable.byContradiction
      intro hn
      rw [List.count_eq_zero.2 hn] at hd
      have := (h.zero v hvn).1 hd
      rw [List.nodup_append] at hnd
      exact hnd.2.2 v this v hv rfl
  have hnn : t.next.Nodup := h4 (by simp) (by simp)
  refine ⟨t, h1, ?_, hnext⟩
  have hR : R.Nodup := (List.nodup_append.1 hnd).2.1
  have hsplit : (t.next ++ R.filter fun v => v ∉ t.next).Perm R := by
    refine (List.perm_ext_iff_of_nodup ?_ hR).2 ?_
    · rw [List.nodup_append]
      refine ⟨hnn, hR.filter _, ?_⟩
      intro a ha b hb e
      subst e
      simp only [List.mem_filter, decide_eq_true_eq] at hb
      exact hb.2 ha
    · intro v
      simp only [List.mem_append, List.mem_filter, decide_eq_true_eq]
      constructor
      · rintro (hv | hv)
        · exact ((hnext v).1 hv).1
        · exact hv.1
      · intro hv
        by_cases hn : v ∈ t.next
        · exact Or.inl hn
        · exact Or.inr ⟨hv, hn⟩
  refine ⟨?_, h.nodup, ?_, ?_, ?_⟩
  · refine List.Perm.trans ?_ h.perm
    rw [List.append_assoc (P ++ q)]
    exact List.Perm.append_left _ hsplit
  · intro v
    rw [h2, Option.map_eq_none_iff]; exact h.none_iff v
  · intro v hv
    rw [hval' v hv]
    congr 1
    exact ((hsplit.flatMap_right outs).count_eq v).symm
  · intro v hv
    rw [hval' v hv]
    simp only [Option.some.injEq]
    constructor
    · intro hc
      rcases List.mem_append.1 ((hmem v).1 hv) with hh | hh
      · exact List.mem_append.2 (Or.inl hh)
      · exact List.mem_append.2 (Or.inr ((hnext v).2 ⟨hh, hc⟩))
    · intro hm
      rcases List.mem_append.1 hm with hh | hh
      · have := (h.zero v hv).2 hh
        rw [h.val v hv] at this
        simp only [Option.some.injEq, List.flatMap_append, List.count_append] at this
        omega
      · exact ((hnext v).1 hh).2

/-- What the waves are. -/
structure KRes (nodes : List N) (outs : N → List N) (P R : List N) (ws : List (List N)) (L : List N) : Prop where
  /-- processed nodes and leftover make up what was left -/
  perm : (ws.flatten ++ L).Perm R
  /-- everything a node of wave `i` waits for was processed earlier -/
  sound : ∀ i w, (h : i < ws.length) → w ∈ ws[i] → ∀ u ∈ nodes, w ∈ outs u → u ∈ P ∨ ∃ j, ∃ hj : j < ws.length, j < i ∧ u ∈ ws[j]
  /-- every leftover node waits for a leftover node -/
  stuck : ∀ v ∈ L, ∃ u ∈ L, v ∈ outs u
  nonempty : ∀ w ∈ ws, w ≠ []

theorem waves_spec {nodes : List N} {outs : N → List N} (dec : Nat → Option Nat) (hdec : ∀ d, dec (d + 1) = some d)
    (fuel : Nat) : ∀ {P q R : List N} {deg : N → Option Nat}, KInv nodes outs P q R deg → (q ++ R).length ≤ fuel →
    ∃ ws L, waves dec outs fuel deg q = some ws ∧ KRes nodes outs P (q ++ R) ws L := by
  induction fuel with
  | zero =>
    intro P q R deg h hf
    have : q ++ R = [] := List.length_eq_zero_iff.1 (by omega)
    obtain ⟨rfl, rfl⟩ := List.append_eq_nil_iff.1 this
    exact ⟨[], [], by simp [waves], by simp, by simp, by simp, by simp⟩
  | succ fuel ih =>
    intro P q R deg h hf
    by_cases hq : q = []
    · subst hq
      refine ⟨[], R, by simp [waves], by simp, by simp, ?_, by simp⟩
      intro v hv
      have hvn : v ∈ nodes := h.perm.mem_iff.1 (List.mem_append.2 (Or.inr hv))
      have hnz : deg v ≠ some 0 := by
        intro hz
        have := (h.zero v hvn).1 hz
        have hnd := h.nodupAll
        rw [List.nodup_append] at hnd
        exact hnd.2.2 v this v hv rfl
      rw [h.val v hvn] at hnz
      simp only [ne_eq, Option.some.injEq, List.nil_append, List.count_eq_zero, Decidable.not_not, List.mem_flatMap] at hnz
      exact hnz
    · obtain ⟨t, h1, h2, h3⟩ := h.step dec hdec
      have hlen : (t.next ++ R.filter fun v => v ∉ t.next).length ≤ fuel := by
        have hp : (P ++ q ++ (t.next ++ R.filter fun v => v ∉ t.next)).length = (P ++ q ++ R).length := by
          have e1 := h2.perm.length_eq
          have e2 := h.perm.length_eq
          simp only [List.length_append] at *
          omega
        have : q.length ≠ 0 := fun e => hq (List.length_eq_zero_iff.1 e)
        simp only [List.length_append] at *
        omega
      obtain ⟨ws, L, hw, hr⟩ := ih h2 hlen
      refine ⟨q :: ws, L, by simp [waves, hq, h1, hw], ?_, ?_, hr.stuck, ?_⟩
      · rw [List.flatten_cons, List.append_assoc]
        refine List.Perm.append_left _ (hr.perm.trans ?_)
        have e := h2.perm.trans h.perm.symm
        rw [List.append_assoc (P ++ q)] at e
        exact (List.perm_append_left_iff (P ++ q)).1 e
      · intro i w hi hw' u hu hwu
        cases i with
        | zero =>
          simp only [List.getElem_cons_zero] at hw'
          have hwn : w ∈ nodes := h.perm.mem_iff.1 (by simp [hw'])
          have hz := (h.zero w hwn).2 (List.mem_append.2 (Or.inr hw'))
          rw [h.val w hwn] at hz
          simp only [Option.some.injEq, List.count_eq_zero, List.mem_flatMap, not_exists, not_and] at hz
          have hu' := h.perm.mem_iff.2 hu
          simp only [List.append_assoc, List.mem_append] at hu'
          rcases hu' with hu' | hu'
          · exact Or.inl hu'
          · exact absurd hwu (hz u (List.mem_append.2 hu'))
        | succ i =>
          simp only [List.getElem_cons_succ] at hw'
          have hi' : i < ws.length := by simpa using hi
          rcases hr.sound i w hi' hw' u hu hwu with hp | ⟨j, hj, hji, hm⟩
          · rcases List.mem_append.1 hp with hp | hp
            · exact Or.inl hp
            · exact Or.inr ⟨0, by simp, by omega, by simpa using hp⟩
          · exact Or.inr ⟨j + 1, by simpa using hj, by omega, by simpa using hm⟩
      · intro w hw'
        rcases List.mem_cons.1 hw' with rfl | hw'
        · exact hq
        · exact hr.nonempty w hw'

theorem flatMap_perm_left {nodes : List N} {outs outs' : N → List N} (ho : ∀ u ∈ nodes, (outs u).Perm (outs' u))
    (q : List N) (hqn : ∀ u ∈ q, u ∈ nodes) : (q.flatMap outs).Perm (q.flatMap outs') := by
  induction q with
  | nil => simp
  | cons a q ih =>
    simp only [List.flatMap_cons]
    exact (ho a (hqn a (by simp))).append (ih fun u hu => hqn u (by simp [hu]))

/-- The waves, as sets, do not depend on the order of the queue nor on the order of the dependents lists. -/
theorem waves_perm {nodes : List N} {outs outs' : N → List N} (dec : Nat → Option Nat)
    (hdec : ∀ d, dec (d + 1) = some d) (ho : ∀ u ∈ nodes, (outs u).Perm (outs' u)) (fuel : Nat) :
    ∀ {P q R P' q' R' : List N} {deg : N → Option Nat}, KInv nodes outs P q R deg → KInv nodes outs' P' q' R' deg →
    q.Perm q' → ∀ ws ws', waves dec outs fuel deg q = some ws → waves dec outs' fuel deg q' = some ws' →
    ws.length = ws'.length ∧ ∀ i, (h : i < ws.length) → (h' : i < ws'.length) → (ws[i]).Perm ws'[i] := by
  induction fuel with
  | zero =>
    intro P q R P' q' R' deg h h' hp ws ws' e e'
    unfold waves at e e'
    split at e
    · split at e'
      · simp only [Option.some.injEq] at e e'
        subst e; subst e'; simp
      · simp at e'
    · simp at e
  | succ fuel ih =>
    intro P q R P' q' R' deg h h' hp ws ws' e e'
    unfold waves at e e'
    by_cases hq : q = []
    · subst hq
      have : q' = [] := List.Perm.nil_eq hp |>.symm
      subst this
      simp only [if_true, Option.some.injEq] at e e'
      subst e; subst e'; simp
    · have hq' : q' ≠ [] := fun hh => hq (by rw [hh] at hp; exact hp.eq_nil)
      rw [if_neg hq] at e
      rw [if_neg hq'] at e'
      obtain ⟨t, h1, h2, h3⟩ := h.step dec hdec
      obtain ⟨t', h1', h2', h3'⟩ := h'.step dec hdec
      rw [h1, Option.bind_some, Option.map_eq_some_iff] at e
      rw [h1', Option.bind_some, Option.map_eq_some_iff] at e'
      obtain ⟨r, hr, rfl⟩ := e
      obtain ⟨r', hr', rfl⟩ := e'
      have hqn : ∀ u ∈ q, u ∈ nodes := fun u hu => h.perm.mem_iff.1 (by simp [hu])
      have hqf : (q.flatMap outs).Perm (q'.flatMap outs') := by
        refine List.Perm.trans ?_ (hp.flatMap_right outs')
        exact flatMap_perm_left ho q hqn
      have hle : ∀ v d, deg v = some d → (q.flatMap outs).count v ≤ d := by
        intro v d hd
        have hv : v ∈ nodes := by
          apply Decidable.byContradiction
          intro hn
          rw [(h.none_iff v).2 hn] at hd; simp at hd
        rw [h.val v hv] at hd
        simp only [Option.some.injEq, List.flatMap_append, List.count_append] at hd
        omega
      have hle' : ∀ v d, deg v = some d → (q'.flatMap outs').count v ≤ d := by
        intro v d hd
        rw [← hqf.count_eq v]; exact hle v d hd
      obtain ⟨s, g1, g2, g3, g4⟩ := relaxAll_spec dec hdec (q.flatMap outs) ⟨deg, []⟩ hle
      obtain ⟨s', g1', g2', g3', g4'⟩ := relaxAll_spec dec hdec (q'.flatMap outs') ⟨deg, []⟩ hle'
      rw [h1] at g1; rw [h1'] at g1'
      simp only [Option.some.injEq] at g1 g1'
      subst g1; subst g1'
      have hdeg : t'.deg = t.deg := by
        funext v; rw [g2, g2', hqf.count_eq v]
      have hnext : t.next.Perm t'.next := by
        refine (List.perm_ext_iff_of_nodup (g4 (by simp) (by simp)) (g4' (by simp) (by simp))).2 ?_
        intro v
        rw [g3, g3', hqf.count_eq v, hqf.mem_iff]
      rw [hdeg] at h2' hr'
      obtain ⟨i1, i2⟩ := ih h2 h2' hnext r r' hr hr'
      refine ⟨by simp [i1], ?_⟩
      intro i hi hi'
      cases i with
      | zero => exact hp
      | succ i =>
        simp only [List.getElem_cons_succ]
        exact i2 i (by simpa using hi) (by simpa using hi')

end Verif.Sched
