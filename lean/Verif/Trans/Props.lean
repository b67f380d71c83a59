import Verif.Trans.Model
import Verif.Undo.Props

/-!
# Transactions: what comes back

A transaction is known by its id, which `active_id` shows; the graph and the log at the moment it began, or at the
moment a savepoint was set, are what a rollback must bring back.
-/

namespace Verif.Trans

variable {S E : Type}

/-! ## Specification -/

/-- The id of the transaction in progress: `active_id`. -/
def Ctx.activeId (c : Ctx S E) : Option Nat := c.mgr.active.map (·.id)

/-- Undoing the edit right away would bring the graph back. -/
def Reversible (g : Graph S E) (s : S) (e : E) : Prop := g.back e (g.forth e s) = (s, true)

/-- Every edit of the run is reversible at the moment it is made. -/
def AllReversible (g : Graph S E) : Ctx S E → List (Op E) → Prop
  | _, [] => True
  | c, o :: os => (∀ e, o = .edit e → Reversible g c.graph e) ∧ AllReversible g (c.step g o).1 os

/-- No partial rollback of the run went back as far as `k` events. -/
def Beyond (g : Graph S E) (k : Nat) : Ctx S E → List (Op E) → Prop
  | _, [] => True
  | c, o :: os =>
    (∀ n, o = .back n → (c.step g o).2 = .ok → k < (c.step g o).1.log.length) ∧ Beyond g k (c.step g o).1 os

/-! ## Runs of reversible events -/

/-- `es` leads from `s` to `s'`, reversibly. -/
inductive Path (g : Graph S E) : S → List E → S → Prop
  | nil (s : S) : Path g s [] s
  | snoc {s s' : S} {es : List E} {e : E} (h : Path g s es s') (r : Reversible g s' e) :
      Path g s (es ++ [e]) (g.forth e s')

theorem undoAll_path (g : Graph S E) {s s' : S} {es : List E} (h : Path g s es s') :
    undoAll g es.reverse s' = (s, true) := by
  induction h with
  | nil => rfl
  | snoc h r ih =>
    rw [List.reverse_append, List.reverse_singleton, List.singleton_append, undoAll, r]
    exact ih

theorem Path.split (g : Graph S E) {s s' : S} {es : List E} (h : Path g s es s') :
    ∀ n, n ≤ es.length → ∃ m, Path g s (es.take n) m ∧ Path g m (es.drop n) s' := by
  induction h with
  | nil => intro n _; exact ⟨s, by simpa using Path.nil s, by simpa using Path.nil s⟩
  | @snoc s' es e h r ih =>
    intro n hn
    by_cases hl : n ≤ es.length
    · obtain ⟨m, h1, h2⟩ := ih n hl
      refine ⟨m, ?_, ?_⟩
      · rw [List.take_append_of_le_length hl]; exact h1
      · rw [List.drop_append_of_le_length hl]; exact .snoc h2 r
    · have hn' : n = (es ++ [e]).length := by
        simp only [List.length_append, List.length_singleton] at hn ⊢; omega
      subst hn'
      refine ⟨g.forth e s', ?_, ?_⟩
      · rw [List.take_length]; exact .snoc h r
      · rw [List.drop_length]; exact .nil _

theorem Path.append (g : Graph S E) {a b c : S} {es fs : List E} (h : Path g a es b) (h' : Path g b fs c) :
    Path g a (es ++ fs) c := by
  induction h' with
  | nil => simpa using h
  | snoc h' r ih => rw [← List.append_assoc]; exact .snoc ih r

/-! ## The invariant -/

/-- While transaction `n` is open: what has happened since it began, and since each savepoint. -/
structure Since (g : Graph S E) (n : Nat) (s₀ : S) (l₀ : List E) (c : Ctx S E) : Prop where
  fresh : n < c.mgr.next
  younger : ∀ t, c.mgr.active = some t → t.id < c.mgr.next
  open_ : ∀ t, c.mgr.active = some t → t.id = n → t.start = l₀.length ∧
    (∃ es, c.log = l₀ ++ es ∧ Path g s₀ es c.graph) ∧
    (∀ p ∈ t.saves, l₀.length ≤ p.2 ∧ p.2 ≤ c.log.length) ∧
    t.saves.Pairwise fun p q => p.2 ≤ q.2

theorem find_mem {t : Tx} {n : String} {i : Nat} (h : t.find n = some i) : (n, i) ∈ t.saves := by
  unfold Tx.find at h
  cases hf : t.saves.find? fun p => p.1 == n with
  | none => rw [hf] at h; cases h
  | some p =>
    rw [hf] at h
    have hp : p.1 = n := by simpa using List.find?_some hf
    have := List.mem_of_find?_eq_some hf
    obtain ⟨a, b⟩ := p
    simp only [Option.map_some, Option.some.injEq] at h
    simp only at hp
    subst h hp; exact this

theorem since_step (g : Graph S E) {n : Nat} {s₀ : S} {l₀ : List E} {c : Ctx S E} (h : Since g n s₀ l₀ c) (o : Op E)
    (hc : o ≠ .clear) (hr : ∀ e, o = .edit e → Reversible g c.graph e) : Since g n s₀ l₀ (c.step g o).1 := by
  have hn := h.fresh
  cases o with
  | clear => exact absurd rfl hc
  | «begin» =>
    simp only [Ctx.step, Ctx.begin]
    split
    · exact h
    · refine ⟨Nat.lt_succ_of_lt hn, ?_, ?_⟩
      · intro t ht; simp only [Option.some.injEq] at ht; subst ht; exact Nat.lt_succ_self _
      · intro t ht hid
        simp only [Option.some.injEq] at ht; subst ht
        simp only at hid; omega
  | edit e =>
    refine ⟨hn, h.younger, ?_⟩
    intro t ht hid
    obtain ⟨a, ⟨es, hl, hp⟩, hs, hm⟩ := h.open_ t ht hid
    refine ⟨a, ⟨es ++ [e], ?_, .snoc hp (hr e rfl)⟩, ?_, hm⟩
    · simp only [Ctx.step, Ctx.edit, hl, List.append_assoc]
    · intro p hpm
      have := hs p hpm
      simp only [Ctx.step, Ctx.edit, List.length_append, List.length_singleton]
      omega
  | commit =>
    simp only [Ctx.step, Ctx.commit]
    split
    · exact h
    · split
      · exact h
      · split
        · exact h
        · refine ⟨hn, ?_, ?_⟩ <;> intro t ht <;> simp [Ctx.withTx] at ht
  | rollback =>
    simp only [Ctx.step, Ctx.rollback]
    split
    · exact h
    · unfold Ctx.cut
      split <;> (refine ⟨hn, ?_, ?_⟩ <;> intro t ht <;> simp [Ctx.withTx] at ht)
  | save m =>
    simp only [Ctx.step, Ctx.savepoint]
    split
    · exact h
    · rename_i t ht
      refine ⟨hn, ?_, ?_⟩
      · intro t' ht'
        simp only [Ctx.withTx, Option.some.injEq] at ht'; subst ht'
        exact h.younger t ht
      · intro t' ht' hid
        simp only [Ctx.withTx, Option.some.injEq] at ht'; subst ht'
        obtain ⟨a, ⟨es, hl, hp⟩, hs, hm⟩ := h.open_ t ht hid
        refine ⟨a, ⟨es, hl, hp⟩, ?_, ?_⟩
        · intro p hpm
          rcases List.mem_append.1 hpm with hp' | hp'
          · exact hs p hp'
          · simp only [List.mem_singleton] at hp'; subst hp'
            refine ⟨?_, Nat.le_refl _⟩
            rw [hl, List.length_append]; omega
        · rw [List.pairwise_append]
          refine ⟨hm, List.pairwise_singleton _ _, ?_⟩
          intro p hpm q hq
          simp only [List.mem_singleton] at hq; subst hq
          exact (hs p hpm).2
  | back m =>
    simp only [Ctx.step, Ctx.rollbackTo]
    split
    · exact h
    · rename_i t ht
      split
      · exact h
      · rename_i i hi
        split
        · exact h
        · rename_i hlen
          unfold Ctx.cut
          rw [if_neg hlen]
          refine ⟨hn, ?_, ?_⟩
          · intro t' ht'
            simp only [Ctx.withTx, Option.some.injEq] at ht'; subst ht'
            exact h.younger t ht
          · intro t' ht' hid
            simp only [Ctx.withTx, Option.some.injEq] at ht'; subst ht'
            obtain ⟨a, ⟨es, hl, hp⟩, hs, hm⟩ := h.open_ t ht hid
            have hb := hs _ (find_mem hi)
            simp only at hb
            have hie : i - l₀.length ≤ es.length := by
              have := hb.2; rw [hl, List.length_append] at this; omega
            obtain ⟨m', h1, h2⟩ := Path.split g hp (i - l₀.length) hie
            have hd : c.log.drop i = es.drop (i - l₀.length) := by
              rw [hl, List.drop_append, List.drop_of_length_le hb.1, List.nil_append]
            have htk : c.log.take i = l₀ ++ es.take (i - l₀.length) := by
              rw [hl, List.take_append, List.take_of_length_le hb.1]
            refine ⟨a, ⟨es.take (i - l₀.length), htk, ?_⟩, ?_, ?_⟩
            · simp only [hd, undoAll_path g h2]; exact h1
            · intro p hpm
              simp only [Tx.trim, List.mem_filter, decide_eq_true_eq] at hpm
              have := hs p hpm.1
              simp only [List.length_take]
              omega
            · exact List.Pairwise.filter _ hm

theorem since_run (g : Graph S E) {n : Nat} {s₀ : S} {l₀ : List E} (os : List (Op E)) : ∀ (c d : Ctx S E),
    Since g n s₀ l₀ c → .clear ∉ os → AllReversible g c os → c.run g os = some d → Since g n s₀ l₀ d := by
  induction os with
  | nil => intro c d h _ _ hd; cases hd; exact h
  | cons o os ih =>
    intro c d h hc hr hd
    simp only [List.mem_cons, not_or] at hc
    rw [Ctx.run] at hd
    split at hd
    · cases hd
    · exact ih _ _ (since_step g h o (fun e => hc.1 e.symm) hr.1) hc.2 hr.2 hd

/-- Ids of open transactions were handed out before. -/
def Young (c : Ctx S E) : Prop := ∀ t, c.mgr.active = some t → t.id < c.mgr.next

theorem since_begin (g : Graph S E) {c d : Ctx S E} {n : Nat} (h : c.begin = (d, .id n)) :
    Since g n c.graph c.log d := by
  unfold Ctx.begin at h
  split at h
  · cases h
  · simp only [Prod.mk.injEq, Out.id.injEq] at h
    obtain ⟨h1, h2⟩ := h
    subst h1 h2
    refine ⟨Nat.lt_succ_self _, ?_, ?_⟩
    · intro t ht; simp only [Option.some.injEq] at ht; subst ht; exact Nat.lt_succ_self _
    · intro t ht _
      simp only [Option.some.injEq] at ht; subst ht
      exact ⟨rfl, ⟨[], by simp, .nil _⟩, by simp, List.Pairwise.nil⟩

/-! ## Rollback -/

/-- As long as the transaction is open, rolling back gives the graph and the log as they were when it began, whatever
was edited, saved, partially rolled back or refused in between. -/
theorem rollback_restores (g : Graph S E) (c c' d : Ctx S E) (n : Nat) (os : List (Op E)) (hb : c.begin = (c', .id n))
    (hc : .clear ∉ os) (hr : AllReversible g c' os) (hd : c'.run g os = some d) (ho : d.activeId = some n) :
    (d.rollback g).2 = .ok ∧ (d.rollback g).1.graph = c.graph ∧ (d.rollback g).1.log = c.log ∧
      (d.rollback g).1.activeId = none := by
  have h := since_run g os _ _ (since_begin g hb) hc hr hd
  unfold Ctx.activeId at ho
  cases ht : d.mgr.active with
  | none => rw [ht] at ho; cases ho
  | some t =>
    rw [ht] at ho
    simp only [Option.map_some, Option.some.injEq] at ho
    obtain ⟨a, ⟨es, hl, hp⟩, -, -⟩ := h.open_ t ht ho
    have hlen : ¬ d.log.length < t.start := by rw [hl, a, List.length_append]; omega
    have hdr : d.log.drop t.start = es := by rw [hl, a, List.drop_left]
    have htk : d.log.take t.start = c.log := by rw [hl, a, List.take_left]
    simp only [Ctx.rollback, ht, Ctx.cut, if_neg hlen, hdr, htk, undoAll_path g hp, if_true]
    exact ⟨trivial, trivial, trivial, rfl⟩

/-- Without clearing the log nothing panics. -/
theorem never_panics (g : Graph S E) (s : S) (max next : Nat) (os : List (Op E)) (hc : .clear ∉ os) :
    ((Ctx.new s max next : Ctx S E).run g os).isSome := by
  suffices H : ∀ c : Ctx S E, (∀ t, c.mgr.active = some t → t.start ≤ c.log.length ∧
      ∀ p ∈ t.saves, t.start ≤ p.2 ∧ p.2 ≤ c.log.length) → (c.run g os).isSome by
    exact H _ (fun t ht => by cases ht)
  induction os with
  | nil => intro c _; rfl
  | cons o os ih =>
    intro c h
    simp only [List.mem_cons, not_or] at hc
    have key : (c.step g o).2 ≠ .panic ∧ (∀ t, (c.step g o).1.mgr.active = some t →
        t.start ≤ (c.step g o).1.log.length ∧ ∀ p ∈ t.saves, t.start ≤ p.2 ∧ p.2 ≤ (c.step g o).1.log.length) := by
      cases o with
      | clear => exact absurd rfl hc.1
      | «begin» =>
        simp only [Ctx.step, Ctx.begin]
        split
        · exact ⟨by simp, h⟩
        · refine ⟨by simp, ?_⟩
          intro t ht
          simp only [Option.some.injEq] at ht; subst ht
          exact ⟨Nat.le_refl _, by simp⟩
      | edit e =>
        refine ⟨by simp [Ctx.step], ?_⟩
        intro t ht
        obtain ⟨h1, h2⟩ := h t ht
        simp only [Ctx.step, Ctx.edit, List.length_append, List.length_singleton]
        exact ⟨by omega, fun p hp => by have := h2 p hp; omega⟩
      | commit =>
        simp only [Ctx.step, Ctx.commit]
        split
        · exact ⟨by simp, h⟩
        · rename_i t ht
          rw [if_neg (Nat.not_lt.2 (h t ht).1)]
          split
          · exact ⟨by simp, h⟩
          · exact ⟨by simp, fun t' ht' => by simp [Ctx.withTx] at ht'⟩
      | rollback =>
        simp only [Ctx.step, Ctx.rollback]
        split
        · exact ⟨by simp, h⟩
        · rename_i t ht
          unfold Ctx.cut
          rw [if_neg (Nat.not_lt.2 (h t ht).1)]
          exact ⟨by simp only; split <;> simp, fun t' ht' => by simp [Ctx.withTx] at ht'⟩
      | save m =>
        simp only [Ctx.step, Ctx.savepoint]
        split
        · exact ⟨by simp, h⟩
        · rename_i t ht
          refine ⟨by simp, ?_⟩
          intro t' ht'
          simp only [Ctx.withTx, Option.some.injEq] at ht'; subst ht'
          obtain ⟨h1, h2⟩ := h t ht
          refine ⟨h1, ?_⟩
          intro p hp
          rcases List.mem_append.1 hp with hp' | hp'
          · exact h2 p hp'
          · simp only [List.mem_singleton] at hp'; subst hp'
            exact ⟨h1, Nat.le_refl _⟩
      | back m =>
        simp only [Ctx.step, Ctx.rollbackTo]
        split
        · exact ⟨by simp, h⟩
        · rename_i t ht
          split
          · exact ⟨by simp, h⟩
          · rename_i i hi
            obtain ⟨h1, h2⟩ := h t ht
            have hb := h2 _ (find_mem hi)
            simp only at hb
            unfold Ctx.cut
            rw [if_neg (Nat.not_lt.2 hb.2), if_neg (Nat.not_lt.2 hb.2)]
            refine ⟨by simp only; split <;> simp, ?_⟩
            intro t' ht'
            simp only [Ctx.withTx, Option.some.injEq] at ht'; subst ht'
            simp only [Tx.trim, List.mem_filter, decide_eq_true_eq, List.length_take]
            exact ⟨by omega, fun p hp => by have := h2 p hp.1; omega⟩
    rw [Ctx.run, if_neg key.1]
    exact ih hc.2 _ key.2

/-! ## Commit -/

/-- A commit succeeds exactly when a transaction is open and no more than `max` events were recorded since it began; it
keeps the graph and the log. A refused one changes nothing, and the transaction stays open. -/
theorem commit_iff (c : Ctx S E) (t : Tx) (ht : c.mgr.active = some t) (hs : t.start ≤ c.log.length) :
    ((c.commit).2 = .id t.id ↔ c.log.length - t.start ≤ c.mgr.max) ∧
    (c.log.length - t.start ≤ c.mgr.max →
      (c.commit).1.graph = c.graph ∧ (c.commit).1.log = c.log ∧ (c.commit).1.activeId = none) ∧
    (¬ c.log.length - t.start ≤ c.mgr.max → c.commit = (c, .err (.tooLarge (c.log.length - t.start) c.mgr.max))) := by
  simp only [Ctx.commit, ht, if_neg (Nat.not_lt.2 hs)]
  by_cases hm : c.mgr.max < c.log.length - t.start
  · rw [if_pos hm]
    exact ⟨⟨fun h => (by cases h), fun h => absurd hm (Nat.not_lt.2 h)⟩, fun h => absurd hm (Nat.not_lt.2 h), fun _ => rfl⟩
  · rw [if_neg hm]
    exact ⟨⟨fun _ => Nat.le_of_not_lt hm, fun _ => rfl⟩, fun _ => ⟨rfl, rfl, rfl⟩, fun h => absurd (Nat.le_of_not_lt hm) h⟩

/-- A call that is refused leaves everything as it was, except a rollback that fails half way. -/
theorem refused_unchanged (g : Graph S E) (c d : Ctx S E) (o : Op E) (e : Err) (h : c.step g o = (d, .err e))
    (he : e ≠ .rollbackFailed) : d = c := by
  have hcut : ∀ n t, c.cut g n t ≠ (d, .err e) := by
    intro n t hh
    unfold Ctx.cut at hh
    split at hh
    · cases hh
    · split at hh
      · cases hh
      · simp only [Prod.mk.injEq, Out.err.injEq] at hh; exact he hh.2.symm
  cases o with
  | «begin» => simp only [Ctx.step, Ctx.begin] at h; split at h <;> cases h; rfl
  | edit e' => cases h
  | clear => cases h
  | commit =>
    simp only [Ctx.step, Ctx.commit] at h
    split at h
    · cases h; rfl
    · split at h
      · cases h
      · split at h
        · cases h; rfl
        · cases h
  | rollback =>
    simp only [Ctx.step, Ctx.rollback] at h
    split at h
    · cases h; rfl
    · exact absurd h (hcut _ _)
  | save m => simp only [Ctx.step, Ctx.savepoint] at h; split at h <;> cases h; rfl
  | back m =>
    simp only [Ctx.step, Ctx.rollbackTo] at h
    split at h
    · cases h; rfl
    · split at h
      · cases h; rfl
      · split at h
        · cases h
        · exact absurd h (hcut _ _)

/-- One transaction at a time. -/
theorem begin_iff (c : Ctx S E) : (∃ n, (c.begin).2 = .id n) ↔ c.activeId = none := by
  unfold Ctx.begin Ctx.activeId
  cases c.mgr.active with
  | none => simp
  | some t => simp

/-- Otherwise the caller is told that one is active, and nothing changes. -/
theorem begin_refused (c : Ctx S E) (h : c.activeId ≠ none) : c.begin = (c, .err .alreadyActive) := by
  unfold Ctx.begin
  unfold Ctx.activeId at h
  cases hc : c.mgr.active with
  | none => rw [hc] at h; exact absurd rfl h
  | some t => rfl

theorem next_step (g : Graph S E) (c : Ctx S E) (o : Op E) : c.mgr.next ≤ (c.step g o).1.mgr.next := by
  cases o with
  | «begin» => simp only [Ctx.step, Ctx.begin]; split <;> simp
  | edit e => exact Nat.le_refl _
  | clear => exact Nat.le_refl _
  | commit =>
    simp only [Ctx.step, Ctx.commit]
    split
    · exact Nat.le_refl _
    · split
      · exact Nat.le_refl _
      · split <;> exact Nat.le_refl _
  | rollback =>
    simp only [Ctx.step, Ctx.rollback]
    split
    · exact Nat.le_refl _
    · unfold Ctx.cut; split <;> exact Nat.le_refl _
  | save m => simp only [Ctx.step, Ctx.savepoint]; split <;> exact Nat.le_refl _
  | back m =>
    simp only [Ctx.step, Ctx.rollbackTo]
    split
    · exact Nat.le_refl _
    · split
      · exact Nat.le_refl _
      · split
        · exact Nat.le_refl _
        · unfold Ctx.cut; split <;> exact Nat.le_refl _

/-- Later transactions have larger ids. -/
theorem ids_increase (g : Graph S E) (c c' d : Ctx S E) (n m : Nat) (os : List (Op E)) (hb : c.begin = (c', .id n))
    (hd : c'.run g os = some d) (hm : (d.begin).2 = .id m) : n < m := by
  have h1 : n < c'.mgr.next := (since_begin g hb).fresh
  have h2 : ∀ (os : List (Op E)) (c d : Ctx S E), c.run g os = some d → c.mgr.next ≤ d.mgr.next := by
    intro os
    induction os with
    | nil => intro c d h; cases h; exact Nat.le_refl _
    | cons o os ih =>
      intro c d h
      rw [Ctx.run] at h
      split at h
      · cases h
      · exact Nat.le_trans (next_step g c o) (ih _ _ h)
  have h3 : m = d.mgr.next := by
    unfold Ctx.begin at hm
    split at hm
    · cases hm
    · simpa using hm.symm
  have := h2 os c' d hd
  omega

end Verif.Trans
