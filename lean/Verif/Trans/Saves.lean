import Verif.Trans.Props

/-!
# Savepoints, and what can go wrong
-/

namespace Verif.Trans

variable {S E : Type}

/-! ## Savepoints -/

theorem first_least {t : Tx} {n : String} {k : Nat} (h : t.find n = some k)
    (hm : t.saves.Pairwise fun p q => p.2 ≤ q.2) : ∀ j, (n, j) ∈ t.saves → k ≤ j := by
  unfold Tx.find at h
  generalize t.saves = l at h hm
  induction l with
  | nil => cases h
  | cons p l ih =>
    intro j hj
    rw [List.pairwise_cons] at hm
    by_cases hp : p.1 = n
    · have hk : p.2 = k := by simpa [List.find?_cons, hp] using h
      rcases List.mem_cons.1 hj with hj | hj
      · subst hj; simp only at hk; omega
      · have := hm.1 _ hj; simp only at this; omega
    · have h' : (l.find? fun p => p.1 == n).map (·.2) = some k := by simpa [List.find?_cons, hp] using h
      rcases List.mem_cons.1 hj with hj | hj
      · subst hj; exact absurd rfl hp
      · exact ih h' hm.2 j hj

theorem find_trim_keep {t : Tx} {n : String} {k i : Nat} (h : t.find n = some k) (hk : k < i) :
    (t.trim i).find n = some k := by
  unfold Tx.find Tx.trim at *
  simp only
  generalize t.saves = l at h
  induction l with
  | nil => cases h
  | cons p l ih =>
    by_cases hp : p.1 = n
    · have hpk : p.2 = k := by simpa [List.find?_cons, hp] using h
      simp [hp, hpk, hk]
    · have h' : (l.find? fun p => p.1 == n).map (·.2) = some k := by simpa [List.find?_cons, hp] using h
      by_cases hi : p.2 < i
      · simpa [List.filter_cons, hi, List.find?_cons, hp] using ih h'
      · simpa [List.filter_cons, hi] using ih h'

theorem find_none {t : Tx} {n : String} (h : ∀ j, (n, j) ∉ t.saves) : t.find n = none := by
  unfold Tx.find
  rw [Option.map_eq_none_iff, List.find?_eq_none]
  intro p hp hq
  obtain ⟨a, b⟩ := p
  have : a = n := by simpa using hq
  subst this
  exact h b hp

theorem trim_none {t : Tx} {n : String} {i : Nat} (h : t.find n = none) : (t.trim i).find n = none := by
  refine find_none fun j hj => ?_
  simp only [Tx.trim, List.mem_filter] at hj
  unfold Tx.find at h
  rw [Option.map_eq_none_iff, List.find?_eq_none] at h
  exact absurd (by simp) (h _ hj.1)

theorem trim_gone {t : Tx} {n : String} {k i : Nat} (h : t.find n = some k)
    (hm : t.saves.Pairwise fun p q => p.2 ≤ q.2) (hk : i ≤ k) : (t.trim i).find n = none := by
  refine find_none fun j hj => ?_
  simp only [Tx.trim, List.mem_filter, decide_eq_true_eq] at hj
  have := first_least h hm j hj.1
  omega

theorem find_push {t : Tx} {n m : String} {i : Nat} :
    ({ t with saves := t.saves ++ [(m, i)] } : Tx).find n = (t.find n).or (if m = n then some i else none) := by
  unfold Tx.find
  simp only [List.find?_append]
  cases t.saves.find? fun p => p.1 == n with
  | some p => simp
  | none =>
    by_cases h : m = n
    · simp [h]
    · simp [h, List.find?_cons]

/-- The savepoint can still be reached. -/
def Alive (g : Graph S E) (n : Nat) (m : String) (s₁ : S) (l₁ : List E) (c : Ctx S E) : Prop :=
  ∀ t, c.mgr.active = some t → t.id = n → t.find m = some l₁.length ∧ ∃ es, c.log = l₁ ++ es ∧ Path g s₁ es c.graph

def Dead (n : Nat) (m : String) (c : Ctx S E) : Prop := ∀ t, c.mgr.active = some t → t.id = n → t.find m = none

/-- A step of the run went back to the savepoint or beyond. -/
def GoesBack (g : Graph S E) (k : Nat) (c : Ctx S E) (o : Op E) : Prop :=
  ∃ m, o = .back m ∧ (c.step g o).2 = .ok ∧ (c.step g o).1.log.length ≤ k

theorem cut_path (g : Graph S E) {c : Ctx S E} {s : S} {l es : List E} {i : Nat} (hl : c.log = l ++ es)
    (hp : Path g s es c.graph) (h1 : l.length ≤ i) (h2 : i ≤ c.log.length) :
    ∃ m, undoAll g (c.log.drop i).reverse c.graph = (m, true) ∧ c.log.take i = l ++ es.take (i - l.length) ∧
      Path g s (es.take (i - l.length)) m := by
  have hie : i - l.length ≤ es.length := by rw [hl, List.length_append] at h2; omega
  obtain ⟨m, ha, hb⟩ := Path.split g hp (i - l.length) hie
  have hd : c.log.drop i = es.drop (i - l.length) := by
    rw [hl, List.drop_append, List.drop_of_length_le h1, List.nil_append]
  have ht : c.log.take i = l ++ es.take (i - l.length) := by
    rw [hl, List.take_append, List.take_of_length_le h1]
  exact ⟨m, by rw [hd]; exact undoAll_path g hb, ht, ha⟩

theorem alive_step (g : Graph S E) {n : Nat} {s₀ s₁ : S} {l₀ l₁ : List E} {m : String} {c : Ctx S E}
    (h : Since g n s₀ l₀ c) (ha : Alive g n m s₁ l₁ c) (o : Op E) (hc : o ≠ .clear)
    (hr : ∀ e, o = .edit e → Reversible g c.graph e) :
    (GoesBack g l₁.length c o → Dead n m (c.step g o).1) ∧
    (¬ GoesBack g l₁.length c o → Alive g n m s₁ l₁ (c.step g o).1) := by
  have hn := h.fresh
  cases o with
  | clear => exact absurd rfl hc
  | «begin» =>
    refine ⟨fun ⟨_, e, _⟩ => (by cases e), fun _ => ?_⟩
    simp only [Ctx.step, Ctx.begin]
    split
    · exact ha
    · intro t ht hid
      simp only [Option.some.injEq] at ht; subst ht
      simp only at hid; omega
  | edit e =>
    refine ⟨fun ⟨_, e, _⟩ => (by cases e), fun _ => ?_⟩
    intro t ht hid
    obtain ⟨hf, es, hl, hp⟩ := ha t ht hid
    exact ⟨hf, es ++ [e], by simp only [Ctx.step, Ctx.edit, hl, List.append_assoc], .snoc hp (hr e rfl)⟩
  | commit =>
    refine ⟨fun ⟨_, e, _⟩ => (by cases e), fun _ => ?_⟩
    simp only [Ctx.step, Ctx.commit]
    split
    · exact ha
    · split
      · exact ha
      · split
        · exact ha
        · intro t ht; simp [Ctx.withTx] at ht
  | rollback =>
    refine ⟨fun ⟨_, e, _⟩ => (by cases e), fun _ => ?_⟩
    simp only [Ctx.step, Ctx.rollback]
    split
    · exact ha
    · unfold Ctx.cut
      split <;> (intro t ht; simp [Ctx.withTx] at ht)
  | save m' =>
    refine ⟨fun ⟨_, e, _⟩ => (by cases e), fun _ => ?_⟩
    simp only [Ctx.step, Ctx.savepoint]
    split
    · exact ha
    · rename_i t ht
      intro t' ht' hid
      simp only [Ctx.withTx, Option.some.injEq] at ht'; subst ht'
      obtain ⟨hf, hes⟩ := ha t ht hid
      exact ⟨by rw [find_push, hf]; rfl, hes⟩
  | back m' =>
    simp only [GoesBack, Ctx.step, Ctx.rollbackTo]
    split
    · rename_i hnone
      exact ⟨fun _ t ht => (by rw [hnone] at ht; cases ht), fun _ => ha⟩
    · rename_i t ht
      split
      · exact ⟨fun ⟨_, _, e, _⟩ => (by cases e), fun _ => ha⟩
      · rename_i i hi
        split
        · exact ⟨fun ⟨_, _, e, _⟩ => (by cases e), fun _ => ha⟩
        · rename_i hlen
          unfold Ctx.cut
          rw [if_neg hlen]
          by_cases hid : t.id = n
          · obtain ⟨hf, es, hl, hp⟩ := ha t ht hid
            obtain ⟨-, ⟨es₀, hl₀, hp₀⟩, hs, hm⟩ := h.open_ t ht hid
            have hb := hs _ (find_mem hi)
            simp only at hb
            obtain ⟨s', hu, -, -⟩ := cut_path g hl₀ hp₀ hb.1 hb.2
            constructor
            · rintro ⟨_, -, -, hk⟩ t' ht' -
              simp only [Ctx.withTx, Option.some.injEq] at ht'; subst ht'
              simp only [List.length_take] at hk
              exact trim_gone hf hm (by omega)
            · intro hk t' ht' _
              simp only [Ctx.withTx, Option.some.injEq] at ht'; subst ht'
              have hki : l₁.length < i := by
                refine Nat.lt_of_not_le fun hle => hk ⟨m', rfl, by simp only [hu, if_true], ?_⟩
                simp only [List.length_take]; omega
              obtain ⟨s'', hu', htk, hp'⟩ := cut_path g hl hp (Nat.le_of_lt hki) hb.2
              refine ⟨find_trim_keep hf hki, _, htk, ?_⟩
              simp only [hu']; exact hp'
          · constructor
            · intro _ t' ht' hid'
              simp only [Ctx.withTx, Option.some.injEq] at ht'; subst ht'
              exact absurd hid' hid
            · intro _ t' ht' hid'
              simp only [Ctx.withTx, Option.some.injEq] at ht'; subst ht'
              exact absurd hid' hid

theorem dead_step (g : Graph S E) {n : Nat} {m : String} {c : Ctx S E} (hn : n < c.mgr.next) (hd : Dead n m c) (o : Op E)
    (hs : o ≠ .save m) : Dead n m (c.step g o).1 := by
  cases o with
  | clear => exact hd
  | «begin» =>
    simp only [Ctx.step, Ctx.begin]
    split
    · exact hd
    · intro t ht hid
      simp only [Option.some.injEq] at ht; subst ht
      simp only at hid; omega
  | edit e => exact hd
  | commit =>
    simp only [Ctx.step, Ctx.commit]
    split
    · exact hd
    · split
      · exact hd
      · split
        · exact hd
        · intro t ht; simp [Ctx.withTx] at ht
  | rollback =>
    simp only [Ctx.step, Ctx.rollback]
    split
    · exact hd
    · unfold Ctx.cut
      split <;> (intro t ht; simp [Ctx.withTx] at ht)
  | save m' =>
    simp only [Ctx.step, Ctx.savepoint]
    split
    · exact hd
    · rename_i t ht
      intro t' ht' hid
      simp only [Ctx.withTx, Option.some.injEq] at ht'; subst ht'
      rw [find_push, hd t ht hid, if_neg (fun e => hs (by rw [e]))]
      rfl
  | back m' =>
    simp only [Ctx.step, Ctx.rollbackTo]
    split
    · exact hd
    · rename_i t ht
      split
      · exact hd
      · split
        · exact hd
        · rename_i hlen
          unfold Ctx.cut
          rw [if_neg hlen]
          intro t' ht' hid
          simp only [Ctx.withTx, Option.some.injEq] at ht'; subst ht'
          exact trim_none (hd t ht hid)

theorem dead_run (g : Graph S E) {n : Nat} {m : String} (os : List (Op E)) : ∀ (c d : Ctx S E), n < c.mgr.next →
    Dead n m c → .save m ∉ os → c.run g os = some d → Dead n m d := by
  induction os with
  | nil => intro c d _ h _ hd; cases hd; exact h
  | cons o os ih =>
    intro c d hn h hs hd
    simp only [List.mem_cons, not_or] at hs
    rw [Ctx.run] at hd
    split at hd
    · cases hd
    · exact ih _ _ (Nat.lt_of_lt_of_le hn (next_step g c o)) (dead_step g hn h o (fun e => hs.1 e.symm)) hs.2 hd

theorem alive_run (g : Graph S E) {n : Nat} {s₀ s₁ : S} {l₀ l₁ : List E} {m : String} (os : List (Op E)) :
    ∀ (c d : Ctx S E), Since g n s₀ l₀ c → Alive g n m s₁ l₁ c → .clear ∉ os → .save m ∉ os → AllReversible g c os →
      c.run g os = some d →
      (Beyond g l₁.length c os → Alive g n m s₁ l₁ d) ∧ (¬ Beyond g l₁.length c os → Dead n m d) := by
  induction os with
  | nil => intro c d _ h _ _ _ hd; cases hd; exact ⟨fun _ => h, fun hb => absurd trivial hb⟩
  | cons o os ih =>
    intro c d hs h hc hm hr hd
    simp only [List.mem_cons, not_or] at hc hm
    rw [Ctx.run] at hd
    split at hd
    · cases hd
    · obtain ⟨k1, k2⟩ := alive_step g hs h o (fun e => hc.1 e.symm) hr.1
      have hs' := since_step g hs o (fun e => hc.1 e.symm) hr.1
      by_cases hg : GoesBack g l₁.length c o
      · have hdead := dead_run g os _ _ hs'.fresh (k1 hg) hm.2 hd
        refine ⟨fun hb => ?_, fun _ => hdead⟩
        obtain ⟨x, hx, hok, hle⟩ := hg
        have := hb.1 x hx hok
        omega
      · obtain ⟨j1, j2⟩ := ih _ _ hs' (k2 hg) hc.2 hm.2 hr.2 hd
        refine ⟨fun hb => j1 hb.2, fun hb => j2 fun hb' => hb ⟨fun x hx hok => ?_, hb'⟩⟩
        exact Nat.lt_of_not_le fun hle => hg ⟨x, hx, hok, hle⟩

/-- A savepoint set under a name that is not in use: as long as the transaction is open and the name is not set again,
rolling back to it gives the graph and the log of the moment it was set, unless a partial rollback has already gone back
that far — then the savepoint is gone and nothing happens. -/
theorem savepoint_restores (g : Graph S E) (c c₀ c₁ c₂ d : Ctx S E) (n : Nat) (m : String) (os os' : List (Op E))
    (hb : c.begin = (c₀, .id n)) (hc : .clear ∉ os) (hr : AllReversible g c₀ os) (h1 : c₀.run g os = some c₁)
    (hfree : ∀ t, c₁.mgr.active = some t → ∀ j, (m, j) ∉ t.saves)
    (h2 : c₁.savepoint m = (c₂, .ok)) (hc' : .clear ∉ os') (hm : .save m ∉ os') (hr' : AllReversible g c₂ os')
    (hd : c₂.run g os' = some d) (ho : d.activeId = some n) :
    (Beyond g c₁.log.length c₂ os' →
      (d.rollbackTo g m).2 = .ok ∧ (d.rollbackTo g m).1.graph = c₁.graph ∧ (d.rollbackTo g m).1.log = c₁.log ∧
        (d.rollbackTo g m).1.activeId = some n) ∧
    (¬ Beyond g c₁.log.length c₂ os' → d.rollbackTo g m = (d, .err (.noSavepoint m))) := by
  have hs1 := since_run g os _ _ (since_begin g hb) hc hr h1
  have hs2 : Since g n c.graph c.log c₂ := by
    have := since_step g hs1 (.save m) (by simp) (by simp)
    simpa [Ctx.step, h2] using this
  have hal : Alive g n m c₁.graph c₁.log c₂ := by
    unfold Ctx.savepoint at h2
    split at h2
    · cases h2
    · rename_i t ht
      simp only [Prod.mk.injEq, and_true] at h2
      subst h2
      intro t' ht' hid
      simp only [Ctx.withTx, Option.some.injEq] at ht'; subst ht'
      refine ⟨?_, [], by simp [Ctx.withTx], .nil _⟩
      rw [find_push, find_none (hfree t ht), if_pos rfl]
      rfl
  obtain ⟨k1, k2⟩ := alive_run g os' _ _ hs2 hal hc' hm hr' hd
  unfold Ctx.activeId at ho
  cases ht : d.mgr.active with
  | none => rw [ht] at ho; cases ho
  | some t =>
    rw [ht] at ho
    simp only [Option.map_some, Option.some.injEq] at ho
    constructor
    · intro hbey
      obtain ⟨hf, es, hl, hp⟩ := k1 hbey t ht ho
      have hlen : ¬ d.log.length < c₁.log.length := by rw [hl, List.length_append]; omega
      have hdr : d.log.drop c₁.log.length = es := by rw [hl, List.drop_left]
      have htk : d.log.take c₁.log.length = c₁.log := by rw [hl, List.take_left]
      simp only [Ctx.rollbackTo, ht, hf, if_neg hlen, Ctx.cut, hdr, htk, undoAll_path g hp, if_true]
      exact ⟨trivial, trivial, trivial, by simp [Ctx.activeId, Ctx.withTx, Tx.trim, ho]⟩
    · intro hbey
      simp only [Ctx.rollbackTo, ht, k2 hbey t ht ho]

/-! ## What can go wrong -/

/-- Contexts reached in an open transaction. -/
def During (g : Graph S E) (c : Ctx S E) : Prop :=
  ∃ (b b' : Ctx S E) (n : Nat) (os : List (Op E)), b.begin = (b', .id n) ∧ .clear ∉ os ∧ AllReversible g b' os ∧
    b'.run g os = some c ∧ c.activeId = some n

theorem During.since {g : Graph S E} {c : Ctx S E} (h : During g c) : ∃ n s l t, Since g n s l c ∧
    c.mgr.active = some t ∧ t.id = n := by
  obtain ⟨b, b', n, os, hb, hc, hr, hd, ho⟩ := h
  have hs := since_run g os _ _ (since_begin g hb) hc hr hd
  unfold Ctx.activeId at ho
  cases ht : c.mgr.active with
  | none => rw [ht] at ho; cases ho
  | some t =>
    rw [ht] at ho
    simp only [Option.map_some, Option.some.injEq] at ho
    exact ⟨n, _, _, t, hs, rfl, ho⟩

/-- A savepoint can be used once: rolling back to it a second time is refused. -/
theorem savepoint_used_up (g : Graph S E) (c d : Ctx S E) (m : String) (hd : During g c)
    (h : c.rollbackTo g m = (d, .ok)) : d.rollbackTo g m = (d, .err (.noSavepoint m)) := by
  obtain ⟨n, s, l, t, hs, ht, hid⟩ := hd.since
  obtain ⟨-, -, -, hm⟩ := hs.open_ t ht hid
  simp only [Ctx.rollbackTo, ht] at h
  split at h
  · cases h
  · rename_i i hi
    split at h
    · cases h
    · rename_i hlen
      unfold Ctx.cut at h
      rw [if_neg hlen] at h
      simp only [Prod.mk.injEq] at h
      rw [← h.1]
      simp only [Ctx.rollbackTo, Ctx.withTx, trim_gone hi hm (Nat.le_refl _)]

/-- Two savepoints with nothing between them: rolling back to the second loses the first. -/
theorem equal_savepoint_lost (g : Graph S E) (c c₁ c₂ d : Ctx S E) (a b : String) (hd : During g c) (hab : a ≠ b)
    (ha : ∀ t, c.mgr.active = some t → ∀ j, (a, j) ∉ t.saves) (hb : ∀ t, c.mgr.active = some t → ∀ j, (b, j) ∉ t.saves)
    (h1 : c.savepoint a = (c₁, .ok)) (h2 : c₁.savepoint b = (c₂, .ok)) (h3 : c₂.rollbackTo g b = (d, .ok)) :
    d.rollbackTo g a = (d, .err (.noSavepoint a)) := by
  obtain ⟨n, s, l, t, hs, ht, hid⟩ := hd.since
  obtain ⟨-, -, hle, hm⟩ := hs.open_ t ht hid
  simp only [Ctx.savepoint, ht, Prod.mk.injEq, and_true] at h1
  subst h1
  simp only [Ctx.savepoint, Ctx.withTx, Prod.mk.injEq, and_true] at h2
  subst h2
  have hfb : ({ t with saves := t.saves ++ [(a, c.log.length)] ++ [(b, c.log.length)] } : Tx).find b
      = some c.log.length := by
    rw [find_push (t := { t with saves := t.saves ++ [(a, c.log.length)] }), find_push, find_none (hb t ht),
      if_neg hab, if_pos rfl]
    rfl
  simp only [Ctx.rollbackTo, hfb, Nat.lt_irrefl, if_false, Ctx.cut, Ctx.withTx] at h3
  simp only [Prod.mk.injEq] at h3
  rw [← h3.1]
  have hg : (Tx.trim { t with saves := t.saves ++ [(a, c.log.length)] ++ [(b, c.log.length)] } c.log.length).find a
      = none := by
    refine find_none fun j hj => ?_
    simp only [Tx.trim, List.mem_filter, List.mem_append, List.mem_singleton, decide_eq_true_eq, Prod.mk.injEq] at hj
    rcases hj with ⟨(hj | hj) | hj, hlt⟩
    · exact ha t ht j hj
    · omega
    · omega
  simp only [Ctx.rollbackTo, hg]

/-- Setting a name a second time has no effect: rolling back goes to the first place, not to the latest. -/
theorem second_name_ignored (g : Graph S E) (c c₁ : Ctx S E) (m : String) (i : Nat) (t : Tx) (hd : During g c)
    (ht : c.mgr.active = some t) (hi : t.find m = some i) (h : c.savepoint m = (c₁, .ok)) :
    c₁.rollbackTo g m = c.rollbackTo g m := by
  obtain ⟨n, s, l, t', hs, ht', hid⟩ := hd.since
  rw [ht] at ht'; cases ht'
  obtain ⟨-, -, hle, hm⟩ := hs.open_ t ht hid
  have hb := (hle _ (find_mem hi)).2
  simp only at hb
  simp only [Ctx.savepoint, ht, Prod.mk.injEq, and_true] at h
  subst h
  have hf : ({ t with saves := t.saves ++ [(m, c.log.length)] } : Tx).find m = some i := by rw [find_push, hi]; rfl
  have htr : Tx.trim { t with saves := t.saves ++ [(m, c.log.length)] } i = t.trim i := by
    simp only [Tx.trim, List.filter_append, List.filter_cons, List.filter_nil, decide_eq_false (Nat.not_lt.2 hb)]
    simp
  simp only [Ctx.rollbackTo, ht, hi, Ctx.withTx, Ctx.cut, if_neg (Nat.not_lt.2 hb)]
  rw [hf]
  simp only [if_neg (Nat.not_lt.2 hb), htr]
  rfl

/-- A rollback that fails has ended the transaction and cut the log: it cannot be tried again. -/
theorem failed_rollback_ends (g : Graph S E) (c d : Ctx S E) (h : c.rollback g = (d, .err .rollbackFailed)) :
    d.rollback g = (d, .err .noTransaction) ∧ ∃ t, c.mgr.active = some t ∧ d.log = c.log.take t.start := by
  unfold Ctx.rollback at h
  split at h
  · cases h
  · rename_i t ht
    unfold Ctx.cut at h
    split at h
    · cases h
    · simp only [Prod.mk.injEq] at h
      rw [← h.1]
      exact ⟨rfl, t, ht, rfl⟩

/-- Clearing the log in a transaction that began with events in it: neither commit nor rollback gets through, and the
rollback has ended the transaction. -/
theorem clear_panics (g : Graph S E) (c : Ctx S E) (t : Tx) (ht : c.mgr.active = some t) (hs : 0 < t.start) :
    (c.clear.commit).2 = .panic ∧ (c.clear.rollback g).2 = .panic ∧ (c.clear.rollback g).1.activeId = none ∧
      (c.clear.rollback g).1.graph = c.graph := by
  have h1 : c.clear.mgr.active = some t := ht
  have h2 : c.clear.log.length < t.start := hs
  simp only [Ctx.commit, Ctx.rollback, h1, Ctx.cut, if_pos h2]
  exact ⟨trivial, trivial, rfl, rfl⟩

/-- Clearing the log in a transaction that began with none: the rollback reports success and undoes nothing. -/
theorem clear_forgets (g : Graph S E) (c : Ctx S E) (t : Tx) (ht : c.mgr.active = some t) (hs : t.start = 0) :
    (c.clear.rollback g).2 = .ok ∧ (c.clear.rollback g).1.graph = c.graph := by
  have h1 : c.clear.mgr.active = some t := ht
  simp only [Ctx.rollback, h1, Ctx.cut, hs, Nat.not_lt_zero, if_false]
  exact ⟨rfl, rfl⟩

/-! ## Cells -/

open Verif.Undo

/-- Value and formula edits of cells, `Verif.Undo`. Their inverses do not fail. -/
def cells (V F : Type) : Graph (Sheet V F) (Ev (Edit V F)) := ⟨forward, fun e s => (inverse e s, true)⟩

/-- An edit is undone exactly if the old state it recorded is the old content of the cell. -/
theorem cell_reversible_iff {V F : Type} (s : Sheet V F) (c : Nat) (v : V) (ov : Option V) (of : Option F) :
    Reversible (cells V F) s (.other (.setValue c ov of v)) ↔ restored ov of = s.cell c := by
  simp only [Reversible, cells, Prod.mk.injEq, and_true, forward, inverse]
  constructor
  · intro h
    have := congrArg (fun s => s.cell c) h
    simpa [Sheet.put] using this
  · intro h; exact put_back _ _ _ _ h

/-- An edit over a formula or an empty cell is reversible; the editor sees no values, so one over a value is not. -/
theorem editor_reversible_iff {V F : Type} (s : Sheet V F) (c : Nat) (v : V) (cached : Option V)
    (e : Ev (Edit V F)) (he : (Req.value c v false cached).event s = some e) :
    Reversible (cells V F) s e ↔ ∀ w, s.cell c ≠ .value w := by
  simp only [Req.event, Option.some.injEq] at he
  subst he
  rw [cell_reversible_iff]
  cases hx : s.cell c with
  | empty => simp [oldValue, oldFormula, restored]
  | value w => simp [oldValue, oldFormula, restored]
  | formula f => simp [oldFormula, restored]

/-- A value overwritten in a transaction is gone after its rollback, which reports success. -/
theorem overwritten_value_lost {V F : Type} (s : Sheet V F) (c : Nat) (v w : V) (cached : Option V) (max next : Nat)
    (hw : s.cell c = .value w) (e : Ev (Edit V F)) (he : (Req.value c v false cached).event s = some e) :
    let d := ((Ctx.new s max next : Ctx _ (Ev (Edit V F))).begin.1.edit (cells V F) e).rollback (cells V F)
    d.2 = .ok ∧ d.1.graph.cell c = .empty := by
  simp only [Req.event, Option.some.injEq] at he
  subst he
  rw [hw]
  exact ⟨rfl, by
    show (Sheet.put _ c _).cell c = _
    simp [Sheet.put, oldValue, oldFormula, restored]⟩

/-! ## Examples -/

/-- Counters: an event adds, its inverse takes away, and fails below zero (leaving zero). -/
def adder : Graph Nat Nat := ⟨fun e s => s + e, fun e s => if e ≤ s then (s - e, true) else (0, false)⟩

example : ∀ s e, Reversible adder s e := by
  intro s e; simp [Reversible, adder]

/-- A run to which the theorems apply: savepoints `a` and `b`, one partial rollback, one refused begin. -/
example : (((Ctx.new 5 10 0 : Ctx Nat Nat).run adder
      [.edit 1, .begin, .edit 2, .save "a", .edit 3, .save "b", .edit 4, .back "b", .begin, .edit 7]).map
    fun d => (d.graph, d.log, d.activeId, (d.rollback adder).1.graph, (d.rollbackTo adder "a").1.graph,
      (d.rollbackTo adder "b").2)) =
    some (18, [1, 2, 3, 7], some 0, 6, 8, .err (.noSavepoint "b")) := by decide

/-- The same name twice: back to the first. -/
example : (((Ctx.new 0 10 0 : Ctx Nat Nat).run adder [.begin, .save "x", .edit 1, .save "x", .edit 2, .back "x"]).map
    (·.graph)) = some 0 := by decide

/-- A rollback that fails half way. -/
example : (Ctx.rollback adder ⟨3, [2, 4], ⟨some ⟨0, 0, []⟩, 10, 1⟩⟩).2 = .err .rollbackFailed := by decide

end Verif.Trans
