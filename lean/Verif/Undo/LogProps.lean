import Verif.Undo.Log

/-!
# C19: the change log stays aligned, ordered, bounded and grouped

Histories start from `Log.new` and use every public mutator. `entries` lists event, metadata, sequence number and group
tag together; each operation is specified by its effect on that one list.
-/

namespace Verif.Undo

variable {E M : Type}

/-- The log as one list. -/
def Log.entries (l : Log E M) : List (Ev E × M × Nat × Option Nat) := l.events.zip (l.metas.zip (l.seqs.zip l.groups))

/-- The last `n` elements. -/
def lastN {α : Type} (n : Nat) (l : List α) : List α := l.drop (l.length - n)

/-- No limit, or the last `m`. -/
def capped {α : Type} : Option Nat → List α → List α
  | none, l => l
  | some m, l => lastN m l

structure Aligned (l : Log E M) : Prop where
  metas : l.metas.length = l.events.length
  seqs : l.seqs.length = l.events.length
  groups : l.groups.length = l.events.length

theorem Aligned.entries_length {l : Log E M} (h : Aligned l) : l.entries.length = l.events.length := by
  simp [Log.entries, h.metas, h.seqs, h.groups]

theorem zip_drop {α β : Type} (a : List α) (b : List β) (n : Nat) : (a.zip b).drop n = (a.drop n).zip (b.drop n) := by
  simp [List.zip, List.drop_zipWith]

theorem zip_take {α β : Type} (a : List α) (b : List β) (n : Nat) : (a.zip b).take n = (a.take n).zip (b.take n) := by
  simp [List.zip, List.take_zipWith]

theorem zip_snoc {α β : Type} (a : List α) (b : List β) (x : α) (y : β) (h : a.length = b.length) :
    (a ++ [x]).zip (b ++ [y]) = a.zip b ++ [(x, y)] := by
  rw [List.zip_append h]; rfl

theorem lastN_of_le {α : Type} {n : Nat} {l : List α} (h : l.length ≤ n) : lastN n l = l := by
  unfold lastN
  rw [show l.length - n = 0 by omega, List.drop_zero]

theorem enforce_spec (l : Log E M) (h : Aligned l) :
    Aligned l.enforce ∧ l.enforce.entries = capped l.cap l.entries ∧ l.enforce.enabled = l.enabled ∧
      l.enforce.cap = l.cap ∧ l.enforce.nextSeq = l.nextSeq ∧ l.enforce.nextGid = l.nextGid ∧ l.enforce.cur = l.cur ∧
      (l.enforce.depth = l.depth ∧ l.enforce.stack = l.stack ∨ l.cap = some 0 ∧ l.enforce.depth = 0 ∧ l.enforce.stack = []) := by
  unfold Log.enforce
  cases hc : l.cap with
  | none => exact ⟨h, rfl, rfl, hc, rfl, rfl, rfl, Or.inl ⟨rfl, rfl⟩⟩
  | some m =>
    cases m with
    | zero =>
      refine ⟨⟨rfl, rfl, rfl⟩, ?_, rfl, hc, rfl, rfl, rfl, Or.inr ⟨rfl, rfl, rfl⟩⟩
      simp [Log.entries, Log.clear, capped, lastN]
    | succ m =>
      simp only
      split
      · rename_i hle
        refine ⟨h, ?_, rfl, hc, rfl, rfl, rfl, Or.inl ⟨rfl, rfl⟩⟩
        rw [capped, lastN_of_le]
        rw [h.entries_length]; exact hle
      · refine ⟨⟨?_, ?_, ?_⟩, ?_, rfl, rfl, rfl, rfl, rfl, Or.inl ⟨rfl, rfl⟩⟩
        · simp [h.metas]
        · simp [h.seqs]
        · simp [h.groups]
        · simp only [capped, lastN, h.entries_length]
          simp only [Log.entries, zip_drop]

/-- C19: recording appends one entry with the given metadata, the next sequence number and the tag of the open
group, then keeps the most recent `cap` entries. Disabled, it changes nothing. -/
theorem recordMeta_spec (l : Log E M) (h : Aligned l) (e : Ev E) (m : M) :
    Aligned (l.recordMeta e m) ∧
    (l.recordMeta e m).entries =
      (if l.enabled then capped l.cap (l.entries ++ [(e, m, l.nextSeq, l.stack.head?)]) else l.entries) ∧
    (l.recordMeta e m).nextSeq = (if l.enabled then l.nextSeq + 1 else l.nextSeq) := by
  unfold Log.recordMeta
  cases hen : l.enabled with
  | false => exact ⟨h, by simp, by simp⟩
  | true =>
    simp only [if_true]
    have ha : Aligned (l.push e m) :=
      ⟨by simp [Log.push, h.metas], by simp [Log.push, h.seqs], by simp [Log.push, h.groups]⟩
    obtain ⟨h1, h2, -, -, h5, -⟩ := enforce_spec _ ha
    refine ⟨h1, ?_, h5⟩
    rw [h2]
    simp only [Log.entries, Log.push]
    rw [zip_snoc _ _ _ _ (by rw [h.seqs, h.groups]), zip_snoc _ _ _ _ (by simp [h.metas, h.seqs, h.groups]),
      zip_snoc _ _ _ _ (by simp [h.metas, h.seqs, h.groups])]

/-- Truncating keeps the first `n` entries. -/
theorem truncate_spec (l : Log E M) (h : Aligned l) (n : Nat) :
    Aligned (l.truncate n) ∧ (l.truncate n).entries = l.entries.take n := by
  refine ⟨⟨by simp [Log.truncate, h.metas], by simp [Log.truncate, h.seqs], by simp [Log.truncate, h.groups]⟩, ?_⟩
  simp only [Log.entries, Log.truncate, zip_take]

/-- Draining from an index returns the later events and keeps the earlier entries. -/
theorem takeFrom_spec (l l' : Log E M) (h : Aligned l) (n : Nat) (es : List (Ev E)) (ht : l.takeFrom n = some (es, l')) :
    Aligned l' ∧ es = l.events.drop n ∧ l'.entries = l.entries.take n := by
  unfold Log.takeFrom at ht
  split at ht
  · simp only [Option.some.injEq, Prod.mk.injEq] at ht
    obtain ⟨rfl, rfl⟩ := ht
    exact ⟨(truncate_spec l h n).1, rfl, (truncate_spec l h n).2⟩
  · simp at ht

/-! ## The invariant -/

structure LInv (l : Log E M) : Prop where
  aligned : Aligned l
  sorted : l.seqs.Pairwise (· < ·)
  bound : ∀ s ∈ l.seqs, s < l.nextSeq
  cap : ∀ m, l.cap = some m → l.events.length ≤ m
  depth : l.stack.length = l.depth
  same : ∀ g ∈ l.stack, l.stack.head? = some g
  fresh : (∀ g ∈ l.stack, g < l.nextGid) ∧ ∀ g, some g ∈ l.groups → g < l.nextGid
  contig : ∀ x y z, [x, y, z].Sublist l.groups → x = z → x ≠ none → y = x
  top : ∀ g x y, l.stack.head? = some g → [x, y].Sublist l.groups → x = some g → y = x

theorem new_inv (m : M) : LInv (Log.new m : Log E M) := by
  refine ⟨⟨rfl, rfl, rfl⟩, by simp [Log.new], by simp [Log.new], by simp [Log.new], rfl, by simp [Log.new],
    ⟨by simp [Log.new], by simp [Log.new]⟩, ?_, ?_⟩
  · intro x y z h; simp [Log.new] at h
  · intro g x y h; simp [Log.new] at h

theorem clear_inv (l : Log E M) (h : LInv l) : LInv l.clear := by
  refine ⟨⟨rfl, rfl, rfl⟩, by simp [Log.clear], by simp [Log.clear], by simp [Log.clear], rfl, by simp [Log.clear],
    ⟨by simp [Log.clear], by simp [Log.clear]⟩, ?_, ?_⟩
  · intro x y z h; simp [Log.clear] at h
  · intro g x y h; simp [Log.clear] at h

/-- Cutting the same stretch out of all four lists. -/
theorem LInv.shrink {l l' : Log E M} (h : LInv l) (ha : Aligned l') (hs : l'.seqs.Sublist l.seqs)
    (hg : l'.groups.Sublist l.groups) (hns : l'.nextSeq = l.nextSeq) (hng : l'.nextGid = l.nextGid)
    (hst : l'.stack = l.stack) (hd : l'.depth = l.depth) (hc : ∀ m, l'.cap = some m → l'.events.length ≤ m) : LInv l' := by
  refine ⟨ha, h.sorted.sublist hs, ?_, hc, by rw [hst, hd]; exact h.depth, by rw [hst]; exact h.same, ⟨?_, ?_⟩, ?_, ?_⟩
  · intro s hs'; rw [hns]; exact h.bound s (hs.subset hs')
  · rw [hst, hng]; exact h.fresh.1
  · intro g hg'; rw [hng]; exact h.fresh.2 g (hg.subset hg')
  · intro x y z hx; exact h.contig x y z (hx.trans hg)
  · intro g x y h1 hx; rw [hst] at h1; exact h.top g x y h1 (hx.trans hg)

/-- All of the invariant but the bound, for `enforce`. -/
theorem enforce_inv (l : Log E M) (h : LInv { l with cap := none }) : LInv l.enforce := by
  have ha : Aligned l := ⟨h.aligned.metas, h.aligned.seqs, h.aligned.groups⟩
  unfold Log.enforce
  cases hc : l.cap with
  | none =>
    refine LInv.shrink (l' := l) h ha (List.Sublist.refl _) (List.Sublist.refl _) rfl rfl rfl rfl ?_
    intro m hm; rw [hc] at hm; simp at hm
  | some m =>
    cases m with
    | zero =>
      have := clear_inv _ h
      refine LInv.shrink (l' := l.clear) this ⟨rfl, rfl, rfl⟩ (List.Sublist.refl _) (List.Sublist.refl _) rfl rfl rfl rfl ?_
      intro m hm; simp [Log.clear]
    | succ m =>
      simp only
      split
      · rename_i hle
        refine LInv.shrink (l' := l) h ha (List.Sublist.refl _) (List.Sublist.refl _) rfl rfl rfl rfl ?_
        intro m' hm; rw [hc] at hm; simp only [Option.some.injEq] at hm; omega
      · refine LInv.shrink h ?_ (List.drop_sublist _ _) (List.drop_sublist _ _) rfl rfl rfl rfl ?_
        · exact ⟨by simp [ha.metas], by simp [ha.seqs], by simp [ha.groups]⟩
        · intro m' hm
          simp only [hc, Option.some.injEq] at hm
          simp only [List.length_drop]
          omega

theorem sublist_snoc {α : Type} {s l : List α} {t : α} (h : s.Sublist (l ++ [t])) :
    s.Sublist l ∨ ∃ s', s = s' ++ [t] ∧ s'.Sublist l := by
  obtain ⟨a, b, rfl, ha, hb⟩ := List.sublist_append_iff.1 h
  cases hb with
  | cons _ hb =>
    left
    have : b = [] := by simpa using hb
    subst this
    simpa using ha
  | cons_cons _ hb =>
    rename_i b'
    have : b' = [] := by simpa using hb
    subst this
    exact Or.inr ⟨a, rfl, ha⟩

theorem snoc3 {α : Type} {x y z t : α} {s' : List α} (h : [x, y, z] = s' ++ [t]) : s' = [x, y] ∧ z = t := by
  have := List.append_inj' (show [x, y] ++ [z] = s' ++ [t] from h) rfl
  exact ⟨this.1.symm, by simpa using this.2⟩

theorem snoc2 {α : Type} {x y t : α} {s' : List α} (h : [x, y] = s' ++ [t]) : s' = [x] ∧ y = t := by
  have := List.append_inj' (show [x] ++ [y] = s' ++ [t] from h) rfl
  exact ⟨this.1.symm, by simpa using this.2⟩

theorem recordMeta_inv (l : Log E M) (h : LInv l) (e : Ev E) (m : M) : LInv (l.recordMeta e m) := by
  unfold Log.recordMeta
  split
  · apply enforce_inv
    unfold Log.push
    refine ⟨⟨by simp [h.aligned.metas], by simp [h.aligned.seqs], by simp [h.aligned.groups]⟩, ?_, ?_, by simp, h.depth,
      h.same, ⟨h.fresh.1, ?_⟩, ?_, ?_⟩
    · simp only
      rw [List.pairwise_append]
      refine ⟨h.sorted, by simp, ?_⟩
      intro a ha b hb
      simp only [List.mem_singleton] at hb
      subst hb
      exact h.bound a ha
    · intro s hs
      simp only [List.mem_append, List.mem_singleton] at hs
      rcases hs with hs | rfl
      · exact Nat.lt_succ_of_lt (h.bound s hs)
      · exact Nat.lt_succ_self _
    · intro g hg
      simp only [List.mem_append, List.mem_singleton] at hg
      rcases hg with hg | hg
      · exact h.fresh.2 g hg
      · exact h.fresh.1 g (List.mem_of_head? hg.symm)
    · intro x y z hx hxz hne
      rcases sublist_snoc hx with hx | ⟨s', e, hs⟩
      · exact h.contig x y z hx hxz hne
      · obtain ⟨rfl, rfl⟩ := snoc3 e
        subst hxz
        cases ht : l.stack.head? with
        | none => exact absurd ht hne
        | some g => rw [ht] at hs; exact h.top g _ y ht hs rfl
    · intro g x y hg hx hxg
      rcases sublist_snoc hx with hx | ⟨s', e, hs⟩
      · exact h.top g x y hg hx hxg
      · obtain ⟨rfl, rfl⟩ := snoc2 e
        rw [hxg]; exact hg
  · exact h

theorem begin_inv (l : Log E M) (h : LInv l) (d : String) : LInv (l.begin d) := by
  have key : ∀ l' : Log E M, LInv l' → LInv (if l'.enabled then l'.record (.start d l'.depth) else l') := by
    intro l' h'
    split
    · exact recordMeta_inv l' h' _ _
    · exact h'
  unfold Log.begin
  simp only
  refine key _ ?_
  split
  · rename_i h1
    have hd : l.depth = 0 := by simpa using h1
    have hst : l.stack = [] := List.length_eq_zero_iff.1 (by rw [h.depth, hd])
    refine ⟨⟨h.aligned.metas, h.aligned.seqs, h.aligned.groups⟩, h.sorted, h.bound, h.cap, ?_, ?_, ⟨?_, ?_⟩, h.contig, ?_⟩
    · simp [hst, hd]
    · intro g hg; simp only [hst, List.mem_singleton] at hg; simp [hst, hg]
    · intro g hg; simp only [hst, List.mem_singleton] at hg; simp [hg]
    · intro g hg; exact Nat.lt_succ_of_lt (h.fresh.2 g hg)
    · intro g x y hg hx hxg
      simp only [List.head?_cons, Option.some.injEq] at hg
      subst hg
      have := h.fresh.2 l.nextGid (by rw [← hxg]; exact hx.subset (by simp))
      omega
  · rename_i h1
    have hd : l.depth ≠ 0 := by simpa using h1
    cases hs : l.stack with
    | nil => have := h.depth; rw [hs] at this; exact absurd this.symm hd
    | cons g st =>
      simp only [List.head?_cons]
      refine ⟨⟨h.aligned.metas, h.aligned.seqs, h.aligned.groups⟩, h.sorted, h.bound, h.cap, ?_, ?_, ⟨?_, h.fresh.2⟩,
        h.contig, ?_⟩
      · have := h.depth; rw [hs] at this; simp only [List.length_cons] at *; omega
      · intro g' hg'
        have hsame := h.same
        rw [hs] at hsame
        rcases List.mem_cons.1 hg' with rfl | hg'
        · rfl
        · exact hsame g' hg'
      · intro g' hg'
        have hf := h.fresh.1
        rw [hs] at hf
        rcases List.mem_cons.1 hg' with rfl | hg'
        · exact hf _ (by simp)
        · exact hf g' hg'
      · intro g' x y hg' hx hxg
        refine h.top g' x y ?_ hx hxg
        rw [hs]; exact hg'

theorem stop_inv (l l' : Log E M) (h : LInv l) (hs : l.stop = some l') : LInv l' := by
  have key : ∀ l₁ : Log E M, LInv l₁ → l₁.depth ≠ 0 → LInv { l₁ with depth := l₁.depth - 1, stack := l₁.stack.tail } := by
    intro l₁ h₁ hd
    have htail : ∀ g ∈ l₁.stack.tail, l₁.stack.tail.head? = some g := by
      intro g hg
      cases hst : l₁.stack with
      | nil => rw [hst] at hg; simp at hg
      | cons a st =>
        have hsame := h₁.same
        rw [hst] at hg hsame
        simp only [List.tail_cons] at hg ⊢
        have hag : a = g := by have := hsame g (by simp [hg]); simpa using this
        cases st with
        | nil => simp at hg
        | cons b st =>
          have hab : a = b := by have := hsame b (by simp); simpa using this
          simp [← hab, hag]
    refine ⟨⟨h₁.aligned.metas, h₁.aligned.seqs, h₁.aligned.groups⟩, h₁.sorted, h₁.bound, h₁.cap, ?_, htail,
      ⟨fun g hg => h₁.fresh.1 g (List.mem_of_mem_tail hg), h₁.fresh.2⟩, h₁.contig, ?_⟩
    · have := h₁.depth; simp only [List.length_tail]; omega
    · intro g x y hg hx hxg
      exact h₁.top g x y (h₁.same g (List.mem_of_mem_tail (List.mem_of_head? hg))) hx hxg
  unfold Log.stop at hs
  split at hs
  · simp only at hs
    by_cases hen : l.enabled
    · rw [if_pos hen] at hs
      have hr := recordMeta_inv l h (.stop l.depth) l.cur
      split at hs
      · simp at hs
      · rename_i hd
        simp only [Option.some.injEq] at hs
        subst hs
        exact key _ hr hd
    · rw [if_neg hen] at hs
      split at hs
      · simp at hs
      · rename_i hd
        simp only [Option.some.injEq] at hs
        subst hs
        exact key _ h hd
  · simp only [Option.some.injEq] at hs
    subst hs
    exact h

theorem truncate_inv (l : Log E M) (h : LInv l) (n : Nat) : LInv (l.truncate n) := by
  refine LInv.shrink h (truncate_spec l h.aligned n).1 (List.take_sublist _ _) (List.take_sublist _ _) rfl rfl rfl rfl ?_
  intro m hm
  have := h.cap m hm
  simp only [Log.truncate, List.length_take]
  omega

theorem step_inv (l l' : Log E M) (h : LInv l) (o : Op E M) (hs : l.step o = some l') : LInv l' := by
  cases o with
  | record e => simp only [Log.step, Option.some.injEq] at hs; subst hs; exact recordMeta_inv l h _ _
  | recordMeta e m => simp only [Log.step, Option.some.injEq] at hs; subst hs; exact recordMeta_inv l h _ _
  | begin d => simp only [Log.step, Option.some.injEq] at hs; subst hs; exact begin_inv l h d
  | stop => exact stop_inv l l' h hs
  | truncate n => simp only [Log.step, Option.some.injEq] at hs; subst hs; exact truncate_inv l h n
  | clear => simp only [Log.step, Option.some.injEq] at hs; subst hs; exact clear_inv l h
  | takeFrom n =>
    simp only [Log.step, Log.takeFrom] at hs
    split at hs
    · simp only [Option.map_some, Option.some.injEq] at hs; subst hs; exact truncate_inv l h n
    · simp at hs
  | setEnabled b =>
    simp only [Log.step, Option.some.injEq] at hs; subst hs
    exact LInv.shrink h ⟨h.aligned.metas, h.aligned.seqs, h.aligned.groups⟩ (List.Sublist.refl _) (List.Sublist.refl _) rfl rfl rfl rfl h.cap
  | setCap c =>
    simp only [Log.step, Option.some.injEq] at hs; subst hs
    refine enforce_inv { l with cap := c } ?_
    exact LInv.shrink h ⟨h.aligned.metas, h.aligned.seqs, h.aligned.groups⟩ (List.Sublist.refl _) (List.Sublist.refl _) rfl rfl rfl rfl
      (by simp)
  | setCur m =>
    simp only [Log.step, Option.some.injEq] at hs; subst hs
    exact LInv.shrink h ⟨h.aligned.metas, h.aligned.seqs, h.aligned.groups⟩ (List.Sublist.refl _) (List.Sublist.refl _) rfl rfl rfl rfl h.cap

theorem run_inv (os : List (Op E M)) : ∀ (l l' : Log E M), LInv l → l.run os = some l' → LInv l' := by
  induction os with
  | nil => intro l l' h hs; simp only [Log.run, Option.some.injEq] at hs; subst hs; exact h
  | cons o os ih =>
    intro l l' h hs
    simp only [Log.run, Option.bind_eq_some_iff] at hs
    obtain ⟨l₁, h1, h2⟩ := hs
    exact ih l₁ l' (step_inv l l₁ h o h1) h2

/-! ## The claims, for every history -/

/-- C19: the four lists have the same length. -/
theorem log_aligned (m : M) (os : List (Op E M)) (l : Log E M) (h : (Log.new m).run os = some l) :
    l.metas.length = l.events.length ∧ l.seqs.length = l.events.length ∧ l.groups.length = l.events.length :=
  let a := (run_inv os _ l (new_inv m) h).aligned
  ⟨a.metas, a.seqs, a.groups⟩

/-- C19: sequence numbers increase strictly along the log and stay below the next one. -/
theorem seqs_increase (m : M) (os : List (Op E M)) (l : Log E M) (h : (Log.new m).run os = some l) :
    l.seqs.Pairwise (· < ·) ∧ ∀ s ∈ l.seqs, s < l.nextSeq :=
  ⟨(run_inv os _ l (new_inv m) h).sorted, (run_inv os _ l (new_inv m) h).bound⟩

/-- C19: the cap is respected. -/
theorem log_bounded (m : M) (os : List (Op E M)) (l : Log E M) (h : (Log.new m).run os = some l) (n : Nat)
    (hc : l.cap = some n) : l.events.length ≤ n := (run_inv os _ l (new_inv m) h).cap n hc

/-- C19: a new event is the last one kept (unless the cap is zero), with the current metadata, and those kept are the
most recent ones. -/
theorem record_keeps_recent (m : M) (os : List (Op E M)) (l : Log E M) (h : (Log.new m).run os = some l)
    (hen : l.enabled = true) (e : E) :
    (l.record (.other e)).entries = capped l.cap (l.entries ++ [(.other e, l.cur, l.nextSeq, l.stack.head?)]) := by
  have := (recordMeta_spec l (run_inv os _ l (new_inv m) h).aligned (.other e) l.cur).2.1
  rw [hen] at this
  exact this

/-- C19: lowering the cap keeps the most recent entries. -/
theorem setCap_keeps_recent (m : M) (os : List (Op E M)) (l : Log E M) (h : (Log.new m).run os = some l) (c : Option Nat) :
    (l.setCap c).entries = capped c l.entries := by
  have ha := (run_inv os _ l (new_inv m) h).aligned
  exact (enforce_spec { l with cap := c } ⟨ha.metas, ha.seqs, ha.groups⟩).2.1

/-- C19: entries of one group are contiguous. -/
theorem groups_contiguous (m : M) (os : List (Op E M)) (l : Log E M) (h : (Log.new m).run os = some l)
    (g i j k : Nat) (hij : i < j) (hjk : j < k) (hi : l.groups[i]? = some (some g)) (hk : l.groups[k]? = some (some g)) :
    l.groups[j]? = some (some g) := by
  have hinv := run_inv os _ l (new_inv m) h
  obtain ⟨hk1, hk2⟩ := List.getElem?_eq_some_iff.1 hk
  obtain ⟨hi1, hi2⟩ := List.getElem?_eq_some_iff.1 hi
  have hsub : [l.groups[i], l.groups[j]'(by omega), l.groups[k]].Sublist l.groups := by
    have h1 : l.groups = l.groups.take i ++ l.groups[i] :: (l.groups.drop (i + 1)) := by
      rw [← List.drop_eq_getElem_cons hi1, List.take_append_drop]
    have h2 : l.groups.drop (i + 1) = (l.groups.drop (i + 1)).take (j - (i + 1)) ++ l.groups.drop j := by
      conv => lhs; rw [← List.take_append_drop (j - (i + 1)) (l.groups.drop (i + 1))]
      rw [List.drop_drop, show i + 1 + (j - (i + 1)) = j by omega]
    have h3 : l.groups.drop j = l.groups[j]'(by omega) :: l.groups.drop (j + 1) := List.drop_eq_getElem_cons (by omega)
    have h4 : l.groups[k] ∈ l.groups.drop (j + 1) := by
      rw [List.mem_drop_iff_getElem]
      exact ⟨k - (j + 1), by omega, by congr 1; omega⟩
    conv => rhs; rw [h1]
    refine List.Sublist.trans ?_ (List.sublist_append_right _ _)
    refine List.Sublist.cons_cons _ ?_
    rw [h2]
    refine List.Sublist.trans ?_ (List.sublist_append_right _ _)
    rw [h3]
    exact List.Sublist.cons_cons _ (List.singleton_sublist.2 h4)
  have := hinv.contig _ _ _ hsub (by rw [hi2, hk2]) (by rw [hi2]; simp)
  rw [List.getElem?_eq_getElem (by omega), this, hi2]

/-- C19: outside compounds events are untagged; an outermost compound gets an identifier no retained entry has; nested
ones reuse it. -/
theorem group_of_compound (m : M) (os : List (Op E M)) (l : Log E M) (h : (Log.new m).run os = some l) :
    (l.depth = 0 ↔ l.stack.head? = none) ∧ (∀ g ∈ l.stack, l.stack.head? = some g) ∧
    (l.depth = 0 → l.cap ≠ some 0 → ∀ d, ((l.begin d).stack.head? = some l.nextGid ∧ some l.nextGid ∉ l.groups)) ∧
    (l.depth ≠ 0 → l.cap ≠ some 0 → ∀ d, (l.begin d).stack.head? = l.stack.head?) := by
  have hinv := run_inv os _ l (new_inv m) h
  have hrec : ∀ (l' : Log E M) (e : Ev E), LInv l' → l'.cap ≠ some 0 → (l'.record e).stack = l'.stack := by
    intro l' e h' hc
    unfold Log.record Log.recordMeta
    split
    · have ha : Aligned (l'.push e l'.cur) :=
        ⟨by simp [Log.push, h'.aligned.metas], by simp [Log.push, h'.aligned.seqs], by simp [Log.push, h'.aligned.groups]⟩
      rcases (enforce_spec _ ha).2.2.2.2.2.2.2 with ⟨-, hh⟩ | ⟨hh, -⟩
      · exact hh
      · exact absurd hh hc
    · rfl
  refine ⟨?_, hinv.same, ?_, ?_⟩
  · rw [List.head?_eq_none_iff, ← hinv.depth, List.length_eq_zero_iff]
  · intro hd hc d
    refine ⟨?_, fun hm => Nat.lt_irrefl _ (hinv.fresh.2 _ hm)⟩
    have hst : l.stack = [] := List.length_eq_zero_iff.1 (by rw [hinv.depth, hd])
    unfold Log.begin
    simp only [hd, Nat.zero_add, if_true]
    have hi' : LInv ({ l with depth := 1, stack := l.nextGid :: l.stack, nextGid := l.nextGid + 1 } : Log E M) := by
      refine ⟨⟨hinv.aligned.metas, hinv.aligned.seqs, hinv.aligned.groups⟩, hinv.sorted, hinv.bound, hinv.cap, by simp [hst],
        by simp [hst], ⟨by simp [hst], fun g hg => Nat.lt_succ_of_lt (hinv.fresh.2 g hg)⟩, hinv.contig, ?_⟩
      intro g x y hg hx hxg
      simp only [List.head?_cons, Option.some.injEq] at hg
      subst hg
      have := hinv.fresh.2 l.nextGid (by rw [← hxg]; exact hx.subset (by simp))
      omega
    split
    · rw [hrec _ _ hi' hc]; rfl
    · rfl
  · intro hd hc d
    have hne : l.stack ≠ [] := fun e => hd (by rw [← hinv.depth, e]; rfl)
    obtain ⟨g, st, hs⟩ := List.exists_cons_of_ne_nil hne
    unfold Log.begin
    simp only [Nat.add_eq_right, hd, if_false, hs, List.head?_cons]
    have hi' : LInv ({ l with depth := l.depth + 1, stack := g :: g :: st } : Log E M) := by
      have hsame := hinv.same
      have hf := hinv.fresh.1
      rw [hs] at hsame hf
      refine ⟨⟨hinv.aligned.metas, hinv.aligned.seqs, hinv.aligned.groups⟩, hinv.sorted, hinv.bound, hinv.cap, ?_, ?_,
        ⟨?_, hinv.fresh.2⟩, hinv.contig, ?_⟩
      · have := hinv.depth; rw [hs] at this; simp only [List.length_cons] at *; omega
      · intro g' hg'
        rcases List.mem_cons.1 hg' with rfl | hg'
        · rfl
        · exact hsame g' hg'
      · intro g' hg'
        rcases List.mem_cons.1 hg' with rfl | hg'
        · exact hf _ (by simp)
        · exact hf g' hg'
      · intro g' x y hg' hx hxg
        refine hinv.top g' x y ?_ hx hxg
        rw [hs]; exact hg'
    split
    · rw [hrec _ _ hi' hc]; rfl
    · rfl

/-- C19 fails at one point: ending a compound under cap zero. Recording the end marker clears the log, depth included,
and the decrement then underflows: a panic, or a depth of 2^64 - 1 in a release build. It happens exactly when a
compound is open, logging is on and the cap is zero. -/
theorem stop_panics_iff (l : Log E M) (h : Aligned l) :
    l.stop = none ↔ 0 < l.depth ∧ l.enabled = true ∧ l.cap = some 0 := by
  have hdep : l.enabled = true → ((l.record (.stop l.depth)).depth = if l.cap = some 0 then 0 else l.depth) := by
    intro hen
    unfold Log.record Log.recordMeta
    rw [if_pos hen]
    unfold Log.enforce Log.push
    simp only
    cases hc : l.cap with
    | none => simp
    | some m =>
      cases m with
      | zero => simp [Log.clear]
      | succ m =>
        simp only [Option.some.injEq, Nat.add_eq_zero_iff, Nat.succ_ne_self, and_false, if_false]
        split <;> rfl
  unfold Log.stop
  by_cases hd : 0 < l.depth
  · rw [if_pos hd]
    simp only
    by_cases hen : l.enabled = true
    · rw [if_pos hen, hdep hen]
      by_cases hc : l.cap = some 0
      · simp [hd, hen, hc]
      · simp [hc]; omega
    · rw [if_neg hen, if_neg (by omega)]
      simp [hen]
  · rw [if_neg hd]; simp [hd]

/-- The panic is reachable: the compound is begun while logging is off. -/
theorem stop_panics : (Log.new () : Log Nat Unit).run
    [.setCap (some 0), .setEnabled false, .begin "edit", .setEnabled true, .stop] = none := by decide

/-! ## Examples -/

/-- Three entries under a cap of three, tagged and numbered. -/
example : ((Log.new () : Log Nat Unit).run [.setCap (some 3), .record 1, .begin "a", .record 2, .begin "b", .record 3, .stop,
    .stop, .record 4]).map (fun l => (l.seqs, l.groups, l.depth)) = some ([5, 6, 7], [some 1, some 1, none], 0) := by decide

end Verif.Undo
