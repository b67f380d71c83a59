import Verif.Interval.Model

/-!
# C13: the interval index is exact
-/

namespace Verif.Interval

variable {T : Type} [DecidableEq T]

/-! ## Specification -/

/-- The triples (low, high, value) stored after a history: inserted and not removed since. -/
def expect (E : Nat → Nat → T → Prop) : Op T → Nat → Nat → T → Prop
  | .insert a b v => fun l h x => (l = a ∧ h = b ∧ x = v) ∨ E l h x
  | .entryInsert a b v => fun l h x => (l = a ∧ h = b ∧ x = v) ∨ E l h x
  | .remove a b v => fun l h x => E l h x ∧ ¬ (l = a ∧ h = b ∧ x = v)
  | .bulk items => fun l h x => (l = h ∧ ∃ it ∈ items, it.1 = l ∧ x ∈ it.2) ∨ E l h x

def expected (ops : List (Op T)) : Nat → Nat → T → Prop := ops.foldl expect (fun _ _ _ => False)

/-- Bulk items carry sets: no repeated value, and not empty. -/
def OkOp : Op T → Prop
  | .bulk items => ∀ it ∈ items, it.2.Nodup ∧ it.2 ≠ []
  | _ => True

/-! ## Lists of nodes -/

theorem findHigh_append (ns : List (Node T)) (n : Node T) (h : Nat) :
    findHigh (ns ++ [n]) h = (findHigh ns h).or (if n.high = h then some n else none) := by
  unfold findHigh
  rw [List.find?_append]
  congr 1
  by_cases hh : n.high = h <;> simp [hh]

theorem findHigh_upd (b : Nat) (f : List T → List T) (ns : List (Node T)) (h : Nat) :
    findHigh (updHigh b f ns) h =
      if h = b then (findHigh ns b).map fun n => { n with values := f n.values } else findHigh ns h := by
  induction ns with
  | nil => simp [updHigh, findHigh]
  | cons n ns ih =>
    simp only [updHigh]
    unfold findHigh at *
    split
    · rename_i hn
      by_cases hh : h = b
      · simp [hh, hn]
      · have : ¬ b = h := fun e => hh e.symm
        simp [hh, hn, this]
    · rename_i hn
      simp only [List.find?_cons]
      by_cases h2 : n.high = h
      · have : h ≠ b := fun e => hn (h2.trans e)
        simp [h2, this]
      · have e1 : (n.high == h) = false := by simp [h2]
        have e2 : (n.high == b) = false := by simp [hn]
        simp only [e1, e2]
        exact ih

theorem findHigh_filter (b : Nat) (ns : List (Node T)) (h : Nat) :
    findHigh (ns.filter fun n => n.high ≠ b) h = if h = b then none else findHigh ns h := by
  unfold findHigh
  induction ns with
  | nil => simp
  | cons n ns ih =>
    by_cases hn : n.high = b
    · rw [List.filter_cons_of_neg (by simp [hn]), ih]
      by_cases hh : h = b
      · simp [hh]
      · have : ¬ b = h := fun e => hh e.symm
        simp [hh, hn, this]
    · rw [List.filter_cons_of_pos (by simp [hn]), List.find?_cons, List.find?_cons, ih]
      by_cases h2 : n.high = h
      · have : h ≠ b := fun e => hn (h2.trans e)
        simp [h2, this]
      · have e1 : (n.high == h) = false := by simp [h2]
        simp only [e1]

theorem updHigh_highs (b : Nat) (f : List T → List T) (ns : List (Node T)) :
    (updHigh b f ns).map Node.high = ns.map Node.high := by
  induction ns with
  | nil => rfl
  | cons n ns ih =>
    simp only [updHigh]
    split
    · simp
    · simp [ih]

theorem updHigh_length (b : Nat) (f : List T → List T) (ns : List (Node T)) : (updHigh b f ns).length = ns.length := by
  simpa using congrArg List.length (updHigh_highs b f ns)

theorem findHigh_none (ns : List (Node T)) (h : Nat) : findHigh ns h = none ↔ h ∉ ns.map Node.high := by
  unfold findHigh
  simp only [List.find?_eq_none, beq_iff_eq, List.mem_map]
  constructor
  · rintro h1 ⟨n, hn, rfl⟩; exact h1 n hn rfl
  · intro h1 n hn e; exact h1 ⟨n, hn, e⟩

theorem findHigh_mem {ns : List (Node T)} (hd : (ns.map Node.high).Nodup) (n : Node T) (h : Nat) :
    findHigh ns h = some n ↔ n ∈ ns ∧ n.high = h := by
  unfold findHigh
  constructor
  · intro e
    exact ⟨List.mem_of_find?_eq_some e, by simpa using List.find?_some e⟩
  · rintro ⟨hm, rfl⟩
    induction ns with
    | nil => simp at hm
    | cons a ns ih =>
      simp only [List.map_cons, List.nodup_cons] at hd
      rcases List.mem_cons.1 hm with rfl | hm
      · simp
      · have : a.high ≠ n.high := fun e => hd.1 (by rw [e]; exact List.mem_map_of_mem (f := Node.high) hm)
        simp [this, ih hd.2 hm]

theorem filter_length {ns : List (Node T)} (hd : (ns.map Node.high).Nodup) (b : Nat) (hb : b ∈ ns.map Node.high) :
    (ns.filter fun n => n.high ≠ b).length + 1 = ns.length := by
  induction ns with
  | nil => simp at hb
  | cons a ns ih =>
    simp only [List.map_cons, List.nodup_cons, List.mem_cons] at *
    by_cases h : a.high = b
    · have : (ns.filter fun n => n.high ≠ b) = ns := by
        rw [List.filter_eq_self]
        intro n hn
        simp only [ne_eq, decide_not, Bool.not_eq_true', decide_eq_false_iff_not]
        intro e
        exact hd.1 (by rw [h, ← e]; exact List.mem_map_of_mem (f := Node.high) hn)
      rw [List.filter_cons_of_neg (by simp [h]), this]; rfl
    · have := ih hd.2 (hb.resolve_left fun e => h e.symm)
      rw [List.filter_cons_of_pos (by simp [h]), List.length_cons, List.length_cons]
      omega

/-! ## The map -/

/-- Ascending keys. -/
def Sorted (m : List (Nat × List (Node T))) : Prop := m.Pairwise fun a b => a.1 < b.1

/-- Number of nodes. -/
def total (m : List (Nat × List (Node T))) : Nat := (m.map fun p => p.2.length).sum

theorem getKey_none_of_lt {m : List (Nat × List (Node T))} {k : Nat} (h : ∀ p ∈ m, k < p.1) : getKey m k = none := by
  unfold getKey
  rw [Option.map_eq_none_iff, List.find?_eq_none]
  intro p hp
  have := h p hp
  simp only [beq_iff_eq]; omega

theorem getKey_cons (p : Nat × List (Node T)) (m : List (Nat × List (Node T))) (k : Nat) :
    getKey (p :: m) k = if p.1 = k then some p.2 else getKey m k := by
  unfold getKey
  by_cases h : p.1 = k <;> simp [h]

theorem getKey_iff {m : List (Nat × List (Node T))} (hs : Sorted m) (k : Nat) (ns : List (Node T)) :
    getKey m k = some ns ↔ (k, ns) ∈ m := by
  induction m with
  | nil => simp [getKey]
  | cons p m ih =>
    have hp := List.pairwise_cons.1 hs
    rw [getKey_cons]
    split
    · rename_i h
      constructor
      · intro e; simp only [Option.some.injEq] at e; subst h; subst e; simp
      · intro hm
        rcases List.mem_cons.1 hm with rfl | hm
        · rfl
        · have := hp.1 _ hm; simp only at this; omega
    · rename_i h
      rw [ih hp.2]
      constructor
      · intro hm; simp [hm]
      · intro hm
        rcases List.mem_cons.1 hm with rfl | hm
        · exact absurd rfl h
        · exact hm

theorem getKey_upsert (k : Nat) (f : List (Node T) → List (Node T)) {m : List (Nat × List (Node T))} (hs : Sorted m)
    (k' : Nat) : getKey (upsert k f m) k' = if k' = k then some (f ((getKey m k).getD [])) else getKey m k' := by
  induction m with
  | nil =>
    simp only [upsert, getKey_cons]
    by_cases h : k = k'
    · subst h; simp [getKey]
    · have : ¬ k' = k := fun e => h e.symm
      simp [h, this, getKey]
  | cons p m ih =>
    have hp := List.pairwise_cons.1 hs
    obtain ⟨kp, ns⟩ := p
    simp only [upsert]
    split
    · rename_i hlt
      have hn : getKey ((kp, ns) :: m) k = none := getKey_none_of_lt (by
        intro q hq
        rcases List.mem_cons.1 hq with rfl | hq
        · exact hlt
        · have := hp.1 q hq; simp only at this; omega)
      rw [getKey_cons]
      by_cases h : k = k'
      · subst h; simp [hn]
      · have : ¬ k' = k := fun e => h e.symm
        simp [h, this]
    · split
      · rename_i h1 h2
        subst h2
        simp only [getKey_cons]
        by_cases h : k = k'
        · subst h; simp
        · have : ¬ k' = k := fun e => h e.symm
          simp [h, this]
      · rename_i h1 h2
        simp only [getKey_cons, ih hp.2]
        have h3 : ¬ kp = k := fun e => h2 e.symm
        by_cases h : kp = k'
        · subst h; simp [h3]
        · simp [h, h3]

theorem mem_upsert (k : Nat) (f : List (Node T) → List (Node T)) (m : List (Nat × List (Node T)))
    (p : Nat × List (Node T)) (h : p ∈ upsert k f m) : p.1 = k ∨ p ∈ m := by
  induction m with
  | nil => simp only [upsert, List.mem_singleton] at h; exact Or.inl (by rw [h])
  | cons q m ih =>
    obtain ⟨kq, ns⟩ := q
    simp only [upsert] at h
    split at h
    · rcases List.mem_cons.1 h with rfl | h
      · exact Or.inl rfl
      · exact Or.inr h
    · split at h
      · rcases List.mem_cons.1 h with rfl | h
        · exact Or.inl rfl
        · exact Or.inr (by simp [h])
      · rcases List.mem_cons.1 h with rfl | h
        · exact Or.inr (by simp)
        · rcases ih h with h | h
          · exact Or.inl h
          · exact Or.inr (by simp [h])

theorem sorted_upsert (k : Nat) (f : List (Node T) → List (Node T)) {m : List (Nat × List (Node T))} (hs : Sorted m) :
    Sorted (upsert k f m) := by
  induction m with
  | nil => simp [upsert, Sorted]
  | cons p m ih =>
    have hp := List.pairwise_cons.1 hs
    obtain ⟨kp, ns⟩ := p
    simp only [upsert]
    split
    · rename_i hlt
      refine List.pairwise_cons.2 ⟨?_, hs⟩
      intro q hq
      rcases List.mem_cons.1 hq with rfl | hq
      · exact hlt
      · have := hp.1 q hq; simp only at this ⊢; omega
    · split
      · rename_i h1 h2
        subst h2
        exact List.pairwise_cons.2 ⟨hp.1, hp.2⟩
      · rename_i h1 h2
        refine List.pairwise_cons.2 ⟨?_, ih hp.2⟩
        intro q hq
        rcases mem_upsert _ _ _ _ hq with h | h
        · simp only; omega
        · exact hp.1 q h

theorem total_upsert (k : Nat) (f : List (Node T) → List (Node T)) {m : List (Nat × List (Node T))} (hs : Sorted m) :
    total (upsert k f m) + ((getKey m k).getD []).length = total m + (f ((getKey m k).getD [])).length := by
  induction m with
  | nil => simp [upsert, total, getKey]
  | cons p m ih =>
    have hp := List.pairwise_cons.1 hs
    obtain ⟨kp, ns⟩ := p
    simp only [upsert]
    split
    · rename_i hlt
      have hn : getKey ((kp, ns) :: m) k = none := getKey_none_of_lt (by
        intro q hq
        rcases List.mem_cons.1 hq with rfl | hq
        · exact hlt
        · have := hp.1 q hq; simp only at this; omega)
      rw [hn]
      simp only [total, List.map_cons, List.sum_cons, Option.getD_none, List.length_nil]
      omega
    · split
      · rename_i h1 h2
        subst h2
        rw [getKey_cons]
        simp only [if_true, Option.getD_some, total, List.map_cons, List.sum_cons]
        omega
      · rename_i h1 h2
        have h3 : ¬ kp = k := fun e => h2 e.symm
        rw [getKey_cons]
        simp only [h3, if_false]
        have := ih hp.2
        simp only [total, List.map_cons, List.sum_cons] at *
        omega

theorem getKey_updKey (k : Nat) (f : List (Node T) → List (Node T)) {m : List (Nat × List (Node T))} (hs : Sorted m)
    (ns : List (Node T)) (hk : getKey m k = some ns) (k' : Nat) :
    getKey (updKey k f m) k' = if k' = k then (if f ns = [] then none else some (f ns)) else getKey m k' := by
  induction m with
  | nil => simp [getKey] at hk
  | cons p m ih =>
    have hp := List.pairwise_cons.1 hs
    obtain ⟨kp, ms⟩ := p
    rw [getKey_cons] at hk
    simp only [updKey]
    split
    · rename_i h2
      subst h2
      simp only [if_true, Option.some.injEq] at hk
      subst hk
      have hn : getKey m k = none := getKey_none_of_lt fun q hq => hp.1 q hq
      by_cases h : k' = k
      · subst h
        simp only [if_true]
        split
        · exact hn
        · rw [getKey_cons]; simp
      · have h' : ¬ k = k' := fun e => h e.symm
        split <;> simp [getKey_cons, h, h']
    · rename_i h2
      have h3 : ¬ kp = k := fun e => h2 e.symm
      simp only [h3, if_false] at hk
      simp only [getKey_cons, ih hp.2 hk]
      by_cases h : kp = k'
      · subst h; simp [h3]
      · simp [h]

theorem mem_updKey (k : Nat) (f : List (Node T) → List (Node T)) (m : List (Nat × List (Node T)))
    (p : Nat × List (Node T)) (h : p ∈ updKey k f m) : ∃ q ∈ m, q.1 = p.1 := by
  induction m with
  | nil => simp [updKey] at h
  | cons q m ih =>
    obtain ⟨kq, ns⟩ := q
    simp only [updKey] at h
    split at h
    · split at h
      · exact ⟨p, by simp [h], rfl⟩
      · rcases List.mem_cons.1 h with rfl | h
        · exact ⟨(kq, ns), by simp, rfl⟩
        · exact ⟨p, by simp [h], rfl⟩
    · rcases List.mem_cons.1 h with rfl | h
      · exact ⟨(kq, ns), by simp, rfl⟩
      · obtain ⟨r, hr, e⟩ := ih h
        exact ⟨r, by simp [hr], e⟩

theorem sorted_updKey (k : Nat) (f : List (Node T) → List (Node T)) {m : List (Nat × List (Node T))} (hs : Sorted m) :
    Sorted (updKey k f m) := by
  induction m with
  | nil => simp [updKey, Sorted]
  | cons p m ih =>
    have hp := List.pairwise_cons.1 hs
    obtain ⟨kp, ns⟩ := p
    simp only [updKey]
    split
    · split
      · exact hp.2
      · exact List.pairwise_cons.2 ⟨hp.1, hp.2⟩
    · refine List.pairwise_cons.2 ⟨?_, ih hp.2⟩
      intro q hq
      obtain ⟨r, hr, e⟩ := mem_updKey _ _ _ _ hq
      have := hp.1 r hr
      simp only at this ⊢; omega

theorem total_updKey (k : Nat) (f : List (Node T) → List (Node T)) {m : List (Nat × List (Node T))}
    (ns : List (Node T)) (hk : getKey m k = some ns) :
    total (updKey k f m) + ns.length = total m + (f ns).length := by
  induction m with
  | nil => simp [getKey] at hk
  | cons p m ih =>
    obtain ⟨kp, ms⟩ := p
    rw [getKey_cons] at hk
    simp only [updKey]
    split
    · rename_i h2
      subst h2
      simp only [if_true, Option.some.injEq] at hk
      subst hk
      split
      · rename_i he
        simp only [total, List.map_cons, List.sum_cons, he, List.length_nil]; omega
      · simp only [total, List.map_cons, List.sum_cons]; omega
    · rename_i h2
      have h3 : ¬ kp = k := fun e => h2 e.symm
      simp only [h3, if_false] at hk
      have := ih hk
      simp only [total, List.map_cons, List.sum_cons] at *
      omega

/-! ## Structure invariant -/

structure Str (t : Tree T) : Prop where
  sorted : Sorted t.map
  nodes : ∀ k ns, getKey t.map k = some ns → ns ≠ [] ∧ (ns.map Node.high).Nodup
  size : t.size = total t.map

/-- Adding a node for an interval that is not stored. -/
theorem put_new {t : Tree T} (h : Str t) (a b : Nat) (vs : List T) (hn : get t a b = none) :
    let t' : Tree T := { map := upsert a (fun ns => ns ++ [⟨b, vs⟩]) t.map, size := t.size + 1 }
    Str t' ∧ ∀ l k, get t' l k = if l = a ∧ k = b then some vs else get t l k := by
  intro t'
  have hnh : b ∉ ((getKey t.map a).getD []).map Node.high := by
    unfold get at hn
    cases hg : getKey t.map a with
    | none => simp
    | some ns =>
      rw [hg] at hn
      simp only [Option.bind_some, Option.map_eq_none_iff] at hn
      simpa using (findHigh_none ns b).1 hn
  refine ⟨⟨sorted_upsert _ _ h.sorted, ?_, ?_⟩, ?_⟩
  · intro k ns hk
    rw [getKey_upsert _ _ h.sorted] at hk
    split at hk
    · simp only [Option.some.injEq] at hk
      subst hk
      refine ⟨by simp, ?_⟩
      rw [List.map_append, List.nodup_append]
      refine ⟨?_, by simp, ?_⟩
      · cases hg : getKey t.map a with
        | none => simp
        | some ns => exact (h.nodes a ns hg).2
      · intro x hx y hy e
        simp only [List.map_singleton, List.mem_singleton] at hy
        subst hy; subst e
        exact hnh hx
    · exact h.nodes k ns hk
  · have := total_upsert a (fun ns => ns ++ [⟨b, vs⟩]) h.sorted
    simp only [List.length_append, List.length_singleton] at this
    show t.size + 1 = _
    rw [h.size]; simp only [t']; omega
  · intro l k
    unfold get
    simp only [t']
    rw [getKey_upsert _ _ h.sorted]
    by_cases hl : l = a
    · subst hl
      simp only [if_true, Option.bind_some, findHigh_append, true_and]
      by_cases hk : k = b
      · subst hk
        have := (findHigh_none _ _).2 hnh
        simp [this]
      · have : ¬ b = k := fun e => hk e.symm
        simp only [hk, this, if_false, Option.or_none]
        cases hg : getKey t.map l with
        | none => simp [findHigh]
        | some ns => simp
    · simp [hl]

/-- Changing the values of a stored interval. -/
theorem put_old {t : Tree T} (h : Str t) (a b : Nat) (f : List T → List T) (vs : List T) (hn : get t a b = some vs) :
    let t' : Tree T := { t with map := upsert a (updHigh b f) t.map }
    Str t' ∧ ∀ l k, get t' l k = if l = a ∧ k = b then some (f vs) else get t l k := by
  intro t'
  unfold get at hn
  rw [Option.bind_eq_some_iff] at hn
  obtain ⟨ns, hg, hf⟩ := hn
  rw [Option.map_eq_some_iff] at hf
  obtain ⟨n, hf, rfl⟩ := hf
  refine ⟨⟨sorted_upsert _ _ h.sorted, ?_, ?_⟩, ?_⟩
  · intro k ms hk
    rw [getKey_upsert _ _ h.sorted] at hk
    split at hk
    · simp only [Option.some.injEq, hg, Option.getD_some] at hk
      subst hk
      rw [updHigh_highs]
      refine ⟨?_, (h.nodes a ns hg).2⟩
      intro e
      have := congrArg List.length e
      rw [updHigh_length] at this
      exact (h.nodes a ns hg).1 (List.length_eq_zero_iff.1 this)
    · exact h.nodes k ms hk
  · have := total_upsert a (updHigh b f) h.sorted
    rw [hg] at this
    simp only [Option.getD_some, updHigh_length] at this
    show t.size = _
    rw [h.size]; simp only [t']; omega
  · intro l k
    unfold get
    simp only [t']
    rw [getKey_upsert _ _ h.sorted]
    by_cases hl : l = a
    · subst hl
      simp only [if_true, Option.bind_some, hg, Option.getD_some, findHigh_upd, true_and]
      by_cases hk : k = b
      · subst hk; simp [hf]
      · simp [hk]
    · simp [hl]

theorem del_old {t : Tree T} (h : Str t) (a b : Nat) (f : List T → List T) (vs : List T) (hn : get t a b = some vs) :
    let t' : Tree T := { t with map := updKey a (updHigh b f) t.map }
    Str t' ∧ ∀ l k, get t' l k = if l = a ∧ k = b then some (f vs) else get t l k := by
  intro t'
  unfold get at hn
  rw [Option.bind_eq_some_iff] at hn
  obtain ⟨ns, hg, hf⟩ := hn
  rw [Option.map_eq_some_iff] at hf
  obtain ⟨n, hf, rfl⟩ := hf
  have hne : updHigh b f ns ≠ [] := by
    intro e
    have := congrArg List.length e
    rw [updHigh_length] at this
    exact (h.nodes a ns hg).1 (List.length_eq_zero_iff.1 this)
  refine ⟨⟨sorted_updKey _ _ h.sorted, ?_, ?_⟩, ?_⟩
  · intro k ms hk
    rw [getKey_updKey _ _ h.sorted ns hg, if_neg hne] at hk
    split at hk
    · simp only [Option.some.injEq] at hk
      subst hk
      rw [updHigh_highs]
      exact ⟨hne, (h.nodes a ns hg).2⟩
    · exact h.nodes k ms hk
  · have := total_updKey a (updHigh b f) ns hg
    rw [updHigh_length] at this
    show t.size = _
    rw [h.size]; simp only [t']; omega
  · intro l k
    unfold get
    simp only [t']
    rw [getKey_updKey _ _ h.sorted ns hg, if_neg hne]
    by_cases hl : l = a
    · subst hl
      simp only [if_true, Option.bind_some, hg, findHigh_upd, true_and]
      by_cases hk : k = b
      · subst hk; simp [hf]
      · simp [hk]
    · simp [hl]

theorem del_node {t : Tree T} (h : Str t) (a b : Nat) (vs : List T) (hn : get t a b = some vs) :
    let t' : Tree T := { map := updKey a (fun ns => ns.filter fun n => n.high ≠ b) t.map, size := t.size - 1 }
    Str t' ∧ ∀ l k, get t' l k = if l = a ∧ k = b then none else get t l k := by
  intro t'
  unfold get at hn
  rw [Option.bind_eq_some_iff] at hn
  obtain ⟨ns, hg, hf⟩ := hn
  rw [Option.map_eq_some_iff] at hf
  obtain ⟨n, hf, rfl⟩ := hf
  have hmem := (findHigh_mem (h.nodes a ns hg).2 n b).1 hf
  have hb : b ∈ ns.map Node.high := hmem.2 ▸ List.mem_map_of_mem (f := Node.high) hmem.1
  refine ⟨⟨sorted_updKey _ _ h.sorted, ?_, ?_⟩, ?_⟩
  · intro k ms hk
    rw [getKey_updKey _ _ h.sorted ns hg] at hk
    split at hk
    · split at hk
      · simp at hk
      · rename_i hne
        simp only [Option.some.injEq] at hk
        subst hk
        exact ⟨hne, (List.Sublist.map _ List.filter_sublist).nodup (h.nodes a ns hg).2⟩
    · exact h.nodes k ms hk
  · have h1 := total_updKey a (fun ns => ns.filter fun n => n.high ≠ b) ns hg
    have h2 := filter_length (h.nodes a ns hg).2 b hb
    show t.size - 1 = _
    rw [h.size]; simp only [t']; omega
  · intro l k
    unfold get
    simp only [t']
    rw [getKey_updKey _ _ h.sorted ns hg]
    by_cases hl : l = a
    · subst hl
      simp only [if_true, hg, true_and, Option.bind_some]
      have hfil := findHigh_filter b ns k
      split
      · rename_i he
        rw [he] at hfil
        by_cases hk : k = b
        · simp [hk]
        · simp only [hk, if_false] at hfil ⊢
          rw [← hfil]; simp [findHigh]
      · simp only [Option.bind_some]
        rw [hfil]
        by_cases hk : k = b
        · simp [hk]
        · simp [hk]
    · simp [hl]

/-! ## Full invariant -/

structure Inv (t : Tree T) (E : Nat → Nat → T → Prop) : Prop where
  str : Str t
  vals : ∀ l h vs, get t l h = some vs → vs ≠ [] ∧ vs.Nodup
  rel : ∀ l h v, E l h v ↔ ∃ vs, get t l h = some vs ∧ v ∈ vs

theorem mem_setInsert (v x : T) (l : List T) : x ∈ setInsert v l ↔ x = v ∨ x ∈ l := by
  unfold setInsert
  split
  · rename_i h
    constructor
    · exact Or.inr
    · rintro (rfl | h') <;> assumption
  · simp [or_comm]

theorem nodup_setInsert (v : T) (l : List T) (h : l.Nodup) : (setInsert v l).Nodup := by
  unfold setInsert
  split
  · exact h
  · rename_i hv
    rw [List.nodup_append]
    refine ⟨h, by simp, ?_⟩
    intro a ha b hb e
    simp only [List.mem_singleton] at hb
    subst hb; subst e; exact hv ha

theorem setInsert_ne (v : T) (l : List T) : setInsert v l ≠ [] :=
  List.ne_nil_of_mem ((mem_setInsert v v l).2 (Or.inl rfl))

theorem inv_put {t t' : Tree T} {E : Nat → Nat → T → Prop} (h : Inv t E) (a b : Nat) (new : List T)
    (hs : Str t') (hg : ∀ l k, get t' l k = if l = a ∧ k = b then some new else get t l k)
    (hne : new ≠ []) (hnd : new.Nodup) (E' : Nat → Nat → T → Prop)
    (hE1 : ∀ v, E' a b v ↔ v ∈ new) (hE2 : ∀ l k v, ¬ (l = a ∧ k = b) → (E' l k v ↔ E l k v)) : Inv t' E' := by
  refine ⟨hs, ?_, ?_⟩
  · intro l k vs hv
    rw [hg] at hv
    split at hv
    · simp only [Option.some.injEq] at hv
      subst hv; exact ⟨hne, hnd⟩
    · exact h.vals l k vs hv
  · intro l k v
    rw [hg]
    by_cases hc : l = a ∧ k = b
    · obtain ⟨rfl, rfl⟩ := hc
      simp [hE1]
    · rw [if_neg hc, hE2 l k v hc]; exact h.rel l k v

theorem get_none_iff {t : Tree T} {E : Nat → Nat → T → Prop} (h : Inv t E) (l k : Nat) :
    get t l k = none ↔ ∀ v, ¬ E l k v := by
  constructor
  · intro hn v he
    obtain ⟨vs, hv, -⟩ := (h.rel l k v).1 he
    rw [hn] at hv; simp at hv
  · intro hn
    cases hg : get t l k with
    | none => rfl
    | some vs =>
      obtain ⟨v, hv⟩ := List.exists_mem_of_ne_nil _ (h.vals l k vs hg).1
      exact absurd ((h.rel l k v).2 ⟨vs, hg, hv⟩) (hn v)

theorem get_some {t : Tree T} {E : Nat → Nat → T → Prop} (h : Inv t E) {l k : Nat} {vs : List T}
    (hg : get t l k = some vs) (v : T) : v ∈ vs ↔ E l k v := by
  rw [h.rel, hg]; simp

theorem found_iff (t : Tree T) (a b : Nat) :
    (findHigh ((getKey t.map a).getD []) b).isSome = (get t a b).isSome := by
  unfold get
  cases getKey t.map a with
  | none => simp [findHigh]
  | some ns => simp

theorem inv_insert {t : Tree T} {E : Nat → Nat → T → Prop} (h : Inv t E) (a b : Nat) (v : T) :
    Inv (insert t a b v) (fun l k x => (l = a ∧ k = b ∧ x = v) ∨ E l k x) := by
  unfold insert
  simp only
  rw [found_iff]
  cases hg : get t a b with
  | none =>
    simp only [Option.isSome_none, Bool.false_eq_true, if_false]
    obtain ⟨h1, h2⟩ := put_new h.str a b [v] hg
    refine inv_put h a b [v] h1 h2 (by simp) (by simp) _ ?_ ?_
    · intro x
      have := (get_none_iff h a b).1 hg x
      simp [this]
    · intro l k x hc
      constructor
      · rintro (⟨h1, h2, -⟩ | h')
        · exact absurd ⟨h1, h2⟩ hc
        · exact h'
      · exact Or.inr
  | some vs =>
    simp only [Option.isSome_some, if_true]
    obtain ⟨h1, h2⟩ := put_old h.str a b (setInsert v) vs hg
    refine inv_put h a b _ h1 h2 (setInsert_ne v vs) (nodup_setInsert v vs (h.vals a b vs hg).2) _ ?_ ?_
    · intro x
      rw [mem_setInsert, get_some h hg]; simp
    · intro l k x hc
      constructor
      · rintro (⟨h1, h2, -⟩ | h')
        · exact absurd ⟨h1, h2⟩ hc
        · exact h'
      · exact Or.inr

theorem inv_entryInsert {t : Tree T} {E : Nat → Nat → T → Prop} (h : Inv t E) (a b : Nat) (v : T) :
    Inv (entryInsert t a b v) (fun l k x => (l = a ∧ k = b ∧ x = v) ∨ E l k x) := by
  have hfin : ∀ l k x, ¬ (l = a ∧ k = b) → (((l = a ∧ k = b ∧ x = v) ∨ E l k x) ↔ E l k x) := by
    intro l k x hc
    constructor
    · rintro (⟨h1, h2, -⟩ | h')
      · exact absurd ⟨h1, h2⟩ hc
      · exact h'
    · exact Or.inr
  unfold entryInsert
  simp only
  cases hg : get t a b with
  | none =>
    simp only [Option.isNone_none, if_true]
    obtain ⟨h1, h2⟩ := put_new h.str a b [] hg
    have hg' := h2 a b
    simp only [and_self, if_true] at hg'
    obtain ⟨h3, h4⟩ := put_old h1 a b (setInsert v) [] hg'
    refine inv_put h a b [v] h3 ?_ (by simp) (by simp) _ ?_ hfin
    · intro l k
      rw [h4]
      split
      · simp [setInsert]
      · rename_i hc
        rw [h2, if_neg hc]
    · intro x
      have := (get_none_iff h a b).1 hg x
      simp [this]
  | some vs =>
    simp only [Option.isNone_some, Bool.false_eq_true, if_false]
    obtain ⟨h1, h2⟩ := put_old h.str a b (setInsert v) vs hg
    refine inv_put h a b _ h1 h2 (setInsert_ne v vs) (nodup_setInsert v vs (h.vals a b vs hg).2) _ ?_ hfin
    intro x
    rw [mem_setInsert, get_some h hg]; simp

theorem inv_remove {t : Tree T} {E : Nat → Nat → T → Prop} (h : Inv t E) (a b : Nat) (v : T) :
    Inv (remove t a b v).1 (fun l k x => E l k x ∧ ¬ (l = a ∧ k = b ∧ x = v)) ∧
    ((remove t a b v).2 = true ↔ E a b v) := by
  have hsame : ¬ E a b v → Inv t (fun l k x => E l k x ∧ ¬ (l = a ∧ k = b ∧ x = v)) := by
    intro hn
    refine ⟨h.str, h.vals, ?_⟩
    intro l k x
    rw [← h.rel]
    constructor
    · exact And.left
    · intro he
      refine ⟨he, ?_⟩
      rintro ⟨rfl, rfl, rfl⟩
      exact hn he
  unfold remove
  cases hg : get t a b with
  | none =>
    have hn := (get_none_iff h a b).1 hg v
    exact ⟨hsame hn, by simp [hn]⟩
  | some vs =>
    simp only
    by_cases hv : v ∈ vs
    · rw [if_pos hv]
      have hE := (get_some h hg v).1 hv
      by_cases he : setRemove v vs = []
      · rw [if_pos he]
        obtain ⟨h1, h2⟩ := del_node h.str a b vs hg
        refine ⟨⟨h1, ?_, ?_⟩, by simp [hE]⟩
        · intro l k ws hw
          rw [h2] at hw
          split at hw
          · simp at hw
          · exact h.vals l k ws hw
        · intro l k x
          rw [h2]
          by_cases hc : l = a ∧ k = b
          · obtain ⟨rfl, rfl⟩ := hc
            simp only [and_self, if_true, true_and, reduceCtorEq, false_and, exists_false, iff_false, not_and,
              Decidable.not_not]
            intro hx
            rw [← get_some h hg] at hx
            have : x ∉ setRemove v vs := by rw [he]; simp
            simpa [setRemove, hx] using this
          · rw [if_neg hc, ← h.rel]
            constructor
            · exact And.left
            · exact fun hx => ⟨hx, fun hh => hc ⟨hh.1, hh.2.1⟩⟩
      · rw [if_neg he]
        obtain ⟨h1, h2⟩ := del_old h.str a b (setRemove v) vs hg
        refine ⟨inv_put h a b _ h1 h2 he ((h.vals a b vs hg).2.filter _) _ ?_ ?_, by simp [hE]⟩
        · intro x
          rw [← get_some h hg]
          simp [setRemove]
        · intro l k x hc
          constructor
          · exact And.left
          · exact fun hx => ⟨hx, fun hh => hc ⟨hh.1, hh.2.1⟩⟩
    · rw [if_neg hv]
      have hn : ¬ E a b v := fun he => hv ((get_some h hg v).2 he)
      exact ⟨hsame hn, by simp [hn]⟩

theorem mem_setExtend (l vs : List T) (x : T) : x ∈ setExtend l vs ↔ x ∈ vs ∨ x ∈ l := by
  unfold setExtend
  induction vs generalizing l with
  | nil => simp
  | cons v vs ih =>
    rw [List.foldl_cons, ih, mem_setInsert, List.mem_cons]
    constructor
    · rintro (h | h | h)
      · exact Or.inl (Or.inr h)
      · exact Or.inl (Or.inl h)
      · exact Or.inr h
    · rintro ((h | h) | h)
      · exact Or.inr (Or.inl h)
      · exact Or.inl h
      · exact Or.inr (Or.inr h)

theorem nodup_setExtend (l vs : List T) (h : l.Nodup) : (setExtend l vs).Nodup := by
  unfold setExtend
  induction vs generalizing l with
  | nil => exact h
  | cons v vs ih => exact ih _ (nodup_setInsert v l h)

theorem inv_bulkItem {t : Tree T} {E : Nat → Nat → T → Prop} (h : Inv t E) (it : Nat × List T) (hnd : it.2.Nodup)
    (hne : it.2 ≠ []) :
    Inv (bulkItem t it) (fun l k x => (l = k ∧ it.1 = l ∧ x ∈ it.2) ∨ E l k x) := by
  have hfin : ∀ l k x, ¬ (l = it.1 ∧ k = it.1) → (((l = k ∧ it.1 = l ∧ x ∈ it.2) ∨ E l k x) ↔ E l k x) := by
    intro l k x hc
    constructor
    · rintro (⟨h1, h2, -⟩ | h')
      · exact absurd ⟨h2.symm, h1 ▸ h2.symm⟩ hc
      · exact h'
    · exact Or.inr
  unfold bulkItem
  simp only
  rw [found_iff]
  cases hg : get t it.1 it.1 with
  | none =>
    simp only [Option.isSome_none, Bool.false_eq_true, if_false]
    obtain ⟨h1, h2⟩ := put_new h.str it.1 it.1 it.2 hg
    refine inv_put h it.1 it.1 it.2 h1 h2 hne hnd _ ?_ hfin
    intro x
    have := (get_none_iff h it.1 it.1).1 hg x
    simp [this]
  | some vs =>
    simp only [Option.isSome_some, if_true]
    obtain ⟨h1, h2⟩ := put_old h.str it.1 it.1 (fun l => setExtend l it.2) vs hg
    refine inv_put h it.1 it.1 _ h1 h2 ?_ (nodup_setExtend vs it.2 (h.vals _ _ vs hg).2) _ ?_ hfin
    · obtain ⟨x, hx⟩ := List.exists_mem_of_ne_nil _ hne
      exact List.ne_nil_of_mem ((mem_setExtend vs it.2 x).2 (Or.inl hx))
    · intro x
      rw [mem_setExtend, get_some h hg]; simp

theorem mem_insertItem (x y : Nat × List T) (l : List (Nat × List T)) : y ∈ insertItem x l ↔ y = x ∨ y ∈ l := by
  induction l with
  | nil => simp [insertItem]
  | cons z zs ih =>
    simp only [insertItem]
    split
    · simp
    · simp only [List.mem_cons, ih]
      constructor
      · rintro (h | h | h)
        · exact Or.inr (Or.inl h)
        · exact Or.inl h
        · exact Or.inr (Or.inr h)
      · rintro (h | h | h)
        · exact Or.inr (Or.inl h)
        · exact Or.inl h
        · exact Or.inr (Or.inr h)

theorem mem_sortItems (y : Nat × List T) (l : List (Nat × List T)) : y ∈ sortItems l ↔ y ∈ l := by
  induction l with
  | nil => simp [sortItems]
  | cons x xs ih => simp [sortItems, mem_insertItem, ih]

theorem Inv.congr {t : Tree T} {E E' : Nat → Nat → T → Prop} (h : Inv t E) (he : ∀ l k x, E l k x ↔ E' l k x) :
    Inv t E' := ⟨h.str, h.vals, fun l k x => by rw [← he]; exact h.rel l k x⟩

theorem inv_bulkItems (items : List (Nat × List T)) (t : Tree T) (E : Nat → Nat → T → Prop) (h : Inv t E)
    (hok : ∀ it ∈ items, it.2.Nodup ∧ it.2 ≠ []) :
    Inv (items.foldl bulkItem t) (fun l k x => (l = k ∧ ∃ it ∈ items, it.1 = l ∧ x ∈ it.2) ∨ E l k x) := by
  induction items generalizing t E with
  | nil => exact h.congr (by simp)
  | cons it items ih =>
    have hb := inv_bulkItem h it (hok it (by simp)).1 (hok it (by simp)).2
    refine (ih _ _ hb fun i hi => hok i (by simp [hi])).congr ?_
    intro l k x
    simp only [List.mem_cons]
    constructor
    · rintro (⟨h1, i, h2, h3⟩ | ⟨h1, h2, h3⟩ | h1)
      · exact Or.inl ⟨h1, i, Or.inr h2, h3⟩
      · exact Or.inl ⟨h1, it, Or.inl rfl, h2, h3⟩
      · exact Or.inr h1
    · rintro (⟨h1, i, rfl | h2, h3⟩ | h1)
      · exact Or.inr (Or.inl ⟨h1, h3⟩)
      · exact Or.inl ⟨h1, i, h2, h3⟩
      · exact Or.inr (Or.inr h1)

theorem inv_insertAll (c : Nat) (vs : List T) (t : Tree T) (E : Nat → Nat → T → Prop) (h : Inv t E) :
    Inv (vs.foldl (fun t v => insert t c c v) t) (fun l k x => (l = k ∧ c = l ∧ x ∈ vs) ∨ E l k x) := by
  induction vs generalizing t E with
  | nil => exact h.congr (by simp)
  | cons v vs ih =>
    refine (ih _ _ (inv_insert h c c v)).congr ?_
    intro l k x
    simp only [List.mem_cons]
    constructor
    · rintro (⟨h1, h2, h3⟩ | ⟨h1, h2, h3⟩ | h1)
      · exact Or.inl ⟨h1, h2, Or.inr h3⟩
      · exact Or.inl ⟨h1.trans h2.symm, h1.symm, Or.inl h3⟩
      · exact Or.inr h1
    · rintro (⟨h1, h2, rfl | h3⟩ | h1)
      · exact Or.inr (Or.inl ⟨h2.symm, h1 ▸ h2.symm, rfl⟩)
      · exact Or.inl ⟨h1, h2, h3⟩
      · exact Or.inr (Or.inr h1)

theorem inv_bulk {t : Tree T} {E : Nat → Nat → T → Prop} (h : Inv t E) (items : List (Nat × List T))
    (hok : ∀ it ∈ items, it.2.Nodup ∧ it.2 ≠ []) : Inv (bulkBuild t items) (expect E (.bulk items)) := by
  unfold bulkBuild expect
  split
  · clear hok
    rename_i hsz; clear hsz
    induction items generalizing t E with
    | nil => exact h.congr (by simp)
    | cons it items ih =>
      refine (ih (inv_insertAll it.1 it.2 t E h)).congr ?_
      intro l k x
      simp only [List.mem_cons]
      constructor
      · rintro (⟨h1, i, h2, h3⟩ | ⟨h1, h2, h3⟩ | h1)
        · exact Or.inl ⟨h1, i, Or.inr h2, h3⟩
        · exact Or.inl ⟨h1, it, Or.inl rfl, h2, h3⟩
        · exact Or.inr h1
      · rintro (⟨h1, i, rfl | h2, h3⟩ | h1)
        · exact Or.inr (Or.inl ⟨h1, h3⟩)
        · exact Or.inl ⟨h1, i, h2, h3⟩
        · exact Or.inr (Or.inr h1)
  · split
    · rename_i he
      subst he
      exact h.congr (by simp)
    · refine (inv_bulkItems (sortItems items) t E h fun it hi => hok it ((mem_sortItems it items).1 hi)).congr ?_
      intro l k x
      simp only [mem_sortItems]

theorem inv_step {t : Tree T} {E : Nat → Nat → T → Prop} (h : Inv t E) (op : Op T) (hok : OkOp op) :
    Inv (step t op) (expect E op) := by
  cases op with
  | insert a b v => exact inv_insert h a b v
  | entryInsert a b v => exact inv_entryInsert h a b v
  | remove a b v => exact (inv_remove h a b v).1
  | bulk items => exact inv_bulk h items hok

theorem inv_init : Inv ({} : Tree T) (fun _ _ _ => False) :=
  ⟨⟨by simp [Sorted], by simp [getKey], by simp [total]⟩, by simp [get, getKey], by simp [get, getKey]⟩

theorem inv_foldl (ops : List (Op T)) (t : Tree T) (E : Nat → Nat → T → Prop) (h : Inv t E) (hok : ∀ op ∈ ops, OkOp op) :
    Inv (ops.foldl step t) (ops.foldl expect E) := by
  induction ops generalizing t E with
  | nil => exact h
  | cons op ops ih => exact ih _ _ (inv_step h op (hok op (by simp))) fun o ho => hok o (by simp [ho])

theorem inv_run (ops : List (Op T)) (hok : ∀ op ∈ ops, OkOp op) : Inv (run ops) (expected ops) :=
  inv_foldl ops {} _ inv_init hok

/-! ## Theorems -/

theorem mem_query {t : Tree T} (h : Str t) (ql qh l k : Nat) (vs : List T) :
    (l, k, vs) ∈ query t ql qh ↔ get t l k = some vs ∧ l ≤ qh ∧ ql ≤ k := by
  unfold query get
  simp only [List.mem_flatMap, List.mem_filter, List.mem_map, decide_eq_true_eq, Prod.mk.injEq]
  constructor
  · rintro ⟨p, ⟨hp, h1⟩, n, ⟨hn, h2⟩, rfl, rfl, rfl⟩
    have hg := (getKey_iff h.sorted p.1 p.2).2 hp
    refine ⟨?_, h1, h2⟩
    rw [hg, Option.bind_some, (findHigh_mem (h.nodes _ _ hg).2 n n.high).2 ⟨hn, rfl⟩]; rfl
  · rintro ⟨hg, h1, h2⟩
    rw [Option.bind_eq_some_iff] at hg
    obtain ⟨ns, hg, hf⟩ := hg
    rw [Option.map_eq_some_iff] at hf
    obtain ⟨n, hf, rfl⟩ := hf
    have hm := (findHigh_mem (h.nodes _ _ hg).2 n k).1 hf
    exact ⟨(l, ns), ⟨(getKey_iff h.sorted l ns).1 hg, h1⟩, n, ⟨hm.1, by rw [hm.2]; exact h2⟩, rfl, hm.2, rfl⟩

/-- **C13** An overlap query returns only stored intervals that meet the query, with exactly their values. -/
theorem query_sound (ops : List (Op T)) (hok : ∀ op ∈ ops, OkOp op) (ql qh l k : Nat) (vs : List T)
    (h : (l, k, vs) ∈ query (run ops) ql qh) :
    l ≤ qh ∧ ql ≤ k ∧ vs ≠ [] ∧ vs.Nodup ∧ ∀ v, v ∈ vs ↔ expected ops l k v := by
  have hi := inv_run ops hok
  obtain ⟨h1, h2, h3⟩ := (mem_query hi.str ql qh l k vs).1 h
  exact ⟨h2, h3, (hi.vals l k vs h1).1, (hi.vals l k vs h1).2, fun v => get_some hi h1 v⟩

/-- **C13** Every stored interval that meets the query is returned. -/
theorem query_complete (ops : List (Op T)) (hok : ∀ op ∈ ops, OkOp op) (ql qh l k : Nat) (v : T)
    (he : expected ops l k v) (h1 : l ≤ qh) (h2 : ql ≤ k) : ∃ vs, (l, k, vs) ∈ query (run ops) ql qh ∧ v ∈ vs := by
  have hi := inv_run ops hok
  obtain ⟨vs, hg, hv⟩ := (hi.rel l k v).1 he
  exact ⟨vs, (mem_query hi.str ql qh l k vs).2 ⟨hg, h1, h2⟩, hv⟩

theorem entries_nodup {m : List (Nat × List (Node T))} (hs : Sorted m)
    (hn : ∀ p ∈ m, (p.2.map Node.high).Nodup) (f : Nat → Bool) (g : Node T → Bool) :
    ((m.filter fun p => f p.1).flatMap fun p => (p.2.filter g).map fun n => (p.1, n.high)).Nodup := by
  induction m with
  | nil => simp
  | cons p m ih =>
    have hp := List.pairwise_cons.1 hs
    have hrec := ih hp.2 fun q hq => hn q (by simp [hq])
    rw [List.filter_cons]
    split
    · rw [List.flatMap_cons, List.nodup_append]
      refine ⟨?_, hrec, ?_⟩
      · have h1 : (p.2.filter g).map (fun n => (p.1, n.high)) = ((p.2.filter g).map Node.high).map (fun h => (p.1, h)) := by
          simp
        rw [h1]
        have h2 : ((p.2.filter g).map Node.high).Nodup :=
          (List.Sublist.map _ List.filter_sublist).nodup (hn p (by simp))
        unfold List.Nodup
        rw [List.pairwise_map]
        exact h2.imp fun h h' => h (by simpa using h')
      · intro a ha b hb e
        subst e
        simp only [List.mem_map] at ha
        obtain ⟨n, -, rfl⟩ := ha
        simp only [List.mem_flatMap, List.mem_map, List.mem_filter, Prod.mk.injEq] at hb
        obtain ⟨q, ⟨hq, -⟩, _, _, e, _⟩ := hb
        have := hp.1 q hq
        omega
    · exact hrec

theorem nodes_of_mem {t : Tree T} (h : Str t) (p : Nat × List (Node T)) (hp : p ∈ t.map) : (p.2.map Node.high).Nodup :=
  (h.nodes p.1 p.2 ((getKey_iff h.sorted p.1 p.2).2 hp)).2

/-- **C13** No interval is returned twice. -/
theorem query_nodup (ops : List (Op T)) (hok : ∀ op ∈ ops, OkOp op) (ql qh : Nat) :
    ((query (run ops) ql qh).map fun e => (e.1, e.2.1)).Nodup := by
  have hi := (inv_run ops hok).str
  have := entries_nodup hi.sorted (nodes_of_mem hi) (fun k => decide (k ≤ qh)) (fun n => decide (n.high ≥ ql))
  unfold query
  rw [List.map_flatMap]
  simpa [Function.comp_def] using this

/-- **C13** The reported size is the number of stored intervals. -/
theorem len_exact (ops : List (Op T)) (hok : ∀ op ∈ ops, OkOp op) (L : List (Nat × Nat)) (hL : L.Nodup)
    (hm : ∀ p, p ∈ L ↔ ∃ v, expected ops p.1 p.2 v) : (run ops).size = L.length := by
  have hi := inv_run ops hok
  have hnd := entries_nodup hi.str.sorted (nodes_of_mem hi.str) (fun _ => true) (fun _ => true)
  have hlen : (run ops).size = (((run ops).map.filter fun p => (fun _ => true) p.1).flatMap fun p =>
      (p.2.filter (fun _ => true)).map fun n => (p.1, n.high)).length := by
    rw [hi.str.size, total, List.length_flatMap]
    have hf : ∀ {A : Type} (l : List A), l.filter (fun _ => true) = l := fun l => List.filter_eq_self.2 (by simp)
    simp only [hf, List.length_map]
  rw [hlen]
  refine ((List.perm_ext_iff_of_nodup hnd hL).2 ?_).length_eq
  rintro ⟨l, k⟩
  rw [hm]
  simp only [List.mem_flatMap, List.mem_filter, List.mem_map, Prod.mk.injEq, and_true]
  constructor
  · rintro ⟨p, hp, n, hn, rfl, rfl⟩
    have hg := (getKey_iff hi.str.sorted p.1 p.2).2 hp
    have hg2 : get (run ops) p.1 n.high = some n.values := by
      unfold get
      rw [hg, Option.bind_some, (findHigh_mem (hi.str.nodes _ _ hg).2 n n.high).2 ⟨hn, rfl⟩]; rfl
    obtain ⟨v, hv⟩ := List.exists_mem_of_ne_nil _ (hi.vals _ _ _ hg2).1
    exact ⟨v, (get_some hi hg2 v).1 hv⟩
  · rintro ⟨v, he⟩
    obtain ⟨vs, hg, -⟩ := (hi.rel l k v).1 he
    unfold get at hg
    rw [Option.bind_eq_some_iff] at hg
    obtain ⟨ns, hg, hf⟩ := hg
    rw [Option.map_eq_some_iff] at hf
    obtain ⟨n, hf, rfl⟩ := hf
    have hmm := (findHigh_mem (hi.str.nodes _ _ hg).2 n k).1 hf
    exact ⟨(l, ns), (getKey_iff hi.str.sorted l ns).1 hg, n, hmm.1, rfl, hmm.2⟩

/-- **C13** A point lookup finds exactly the values of the point interval, i.e. the values that the degenerate
overlap query reports for that interval. -/
theorem point_exact (ops : List (Op T)) (hok : ∀ op ∈ ops, OkOp op) (p : Nat) :
    (∀ v, (∃ vs, pointValues (run ops) p = some vs ∧ v ∈ vs) ↔ expected ops p p v) ∧
    (∀ vs, pointValues (run ops) p = some vs ↔ (p, p, vs) ∈ query (run ops) p p) := by
  have hi := inv_run ops hok
  refine ⟨fun v => (hi.rel p p v).symm, fun vs => ?_⟩
  rw [mem_query hi.str]
  exact ⟨fun h => ⟨h, Nat.le_refl _, Nat.le_refl _⟩, fun h => h.1⟩

/-- **C13** The streaming visits present exactly the values of the matching intervals. -/
theorem visits_exact (ops : List (Op T)) (hok : ∀ op ∈ ops, OkOp op) (ql qh : Nat) (v : T) :
    (v ∈ visitQuery (run ops) ql qh ↔ ∃ l k, expected ops l k v ∧ l ≤ qh ∧ ql ≤ k) ∧
    (v ∈ visitPoints (run ops) ql qh ↔ ∃ p, expected ops p p v ∧ ql ≤ p ∧ p ≤ qh) := by
  have hi := inv_run ops hok
  have hget : ∀ p ∈ (run ops).map, ∀ n ∈ p.2, get (run ops) p.1 n.high = some n.values := by
    intro p hp n hn
    have hg := (getKey_iff hi.str.sorted p.1 p.2).2 hp
    unfold get
    rw [hg, Option.bind_some, (findHigh_mem (hi.str.nodes _ _ hg).2 n n.high).2 ⟨hn, rfl⟩]; rfl
  have hback : ∀ l k, expected ops l k v → ∃ p ∈ (run ops).map, ∃ n ∈ p.2, p.1 = l ∧ n.high = k ∧ v ∈ n.values := by
    intro l k he
    obtain ⟨vs, hg, hv⟩ := (hi.rel l k v).1 he
    unfold get at hg
    rw [Option.bind_eq_some_iff] at hg
    obtain ⟨ns, hg, hf⟩ := hg
    rw [Option.map_eq_some_iff] at hf
    obtain ⟨n, hf, rfl⟩ := hf
    have hmm := (findHigh_mem (hi.str.nodes _ _ hg).2 n k).1 hf
    exact ⟨(l, ns), (getKey_iff hi.str.sorted l ns).1 hg, n, hmm.1, rfl, hmm.2, hv⟩
  constructor
  · unfold visitQuery
    simp only [List.mem_flatMap, List.mem_filter, decide_eq_true_eq]
    constructor
    · rintro ⟨p, ⟨hp, h1⟩, n, hn, hv⟩
      split at hv
      · simp at hv
      · exact ⟨p.1, n.high, (get_some hi (hget p hp n hn) v).1 hv, h1, by omega⟩
    · rintro ⟨l, k, he, h1, h2⟩
      obtain ⟨p, hp, n, hn, rfl, rfl, hv⟩ := hback l k he
      exact ⟨p, ⟨hp, h1⟩, n, hn, by rw [if_neg (by omega)]; exact hv⟩
  · unfold visitPoints
    split
    · simp only [List.not_mem_nil, false_iff]
      rintro ⟨p, -, h1, h2⟩; omega
    · simp only [List.mem_flatMap, List.mem_filter, Bool.and_eq_true, decide_eq_true_eq, beq_iff_eq]
      constructor
      · rintro ⟨p, ⟨hp, h1, h2⟩, n, ⟨hn, e⟩, hv⟩
        have := (get_some hi (hget p hp n hn) v).1 hv
        rw [e] at this
        exact ⟨p.1, this, h1, h2⟩
      · rintro ⟨q, he, h1, h2⟩
        obtain ⟨p, hp, n, hn, rfl, e, hv⟩ := hback q q he
        exact ⟨p, ⟨hp, h1, h2⟩, n, ⟨hn, e⟩, hv⟩

/-- **C13** `remove` reports whether the value was stored. -/
theorem remove_reports (ops : List (Op T)) (hok : ∀ op ∈ ops, OkOp op) (a b : Nat) (v : T) :
    (remove (run ops) a b v).2 = true ↔ expected ops a b v := (inv_remove (inv_run ops hok) a b v).2

/-- `point_interval_stats` counts what `visit_point_intervals` presents. -/
theorem pointCount_eq (t : Tree T) (ql qh : Nat) : pointCount t ql qh = (visitPoints t ql qh).length := by
  unfold pointCount visitPoints
  split
  · rfl
  · rw [List.length_flatMap]
    congr 1
    apply List.map_congr_left
    intro p _
    rw [List.length_flatMap]

def exOps : List (Op Nat) :=
  [.bulk [(5, [1, 2]), (3, [7]), (5, [9])], .insert 1 10 4, .entryInsert 5 5 8, .remove 5 5 1, .remove 3 3 7, .insert 1 4 6]

example : ∀ op ∈ exOps, OkOp op := by
  intro op h
  simp only [exOps, List.mem_cons, List.not_mem_nil, or_false] at h
  rcases h with rfl | rfl | rfl | rfl | rfl | rfl <;> simp [OkOp]

example : query (run exOps) 5 7 = [(1, 10, [4]), (5, 5, [2, 9, 8])] ∧ (run exOps).size = 3 := by decide

end Verif.Interval
