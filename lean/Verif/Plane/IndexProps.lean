/-
The index returns exactly the entries that meet the query.
-/
import Verif.Plane.Index
import Mathlib.Tactic.SplitIfs
import Mathlib.Tactic.Tauto

namespace Verif.Plane

open Verif.Interval (Tree)

/-! ### Trees -/

/-- Each key has one tree, and the trees together hold `F`. -/
structure TreesInv (m : Trees) (F : Nat × Nat → Nat → Nat → Nat → Prop) : Prop where
  inv : ∀ k t, (k, t) ∈ m → Verif.Interval.Inv t (F k)
  has : ∀ k l h v, F k l h v → ∃ t, (k, t) ∈ m

theorem TreesInv.congr {m : Trees} {F G : Nat × Nat → Nat → Nat → Nat → Prop} (h : TreesInv m F)
    (e : ∀ k l h v, F k l h v ↔ G k l h v) : TreesInv m G :=
  ⟨fun k t ht => (h.inv k t ht).congr (e k), fun k l hh v hg => h.has k l hh v ((e k l hh v).2 hg)⟩

theorem mem_putTree {k : Nat × Nat} {lo hi id : Nat} {m : Trees} (hn : (m.map Prod.fst).Nodup) (k' : Nat × Nat)
    (t : Tree Nat) : (k', t) ∈ putTree k lo hi id m ↔
      (k' ≠ k ∧ (k', t) ∈ m) ∨ (k' = k ∧ ((∃ t0, (k, t0) ∈ m ∧ t = Verif.Interval.insert t0 lo hi id) ∨
        ((∀ t0, (k, t0) ∉ m) ∧ t = Verif.Interval.insert {} lo hi id))) := by
  induction m with
  | nil =>
    simp [putTree]
  | cons e m ih =>
    obtain ⟨k0, t0⟩ := e
    simp only [List.map_cons, List.nodup_cons] at hn
    have hnot : ∀ t, (k0, t) ∉ m := fun t ht => hn.1 (List.mem_map.2 ⟨_, ht, rfl⟩)
    unfold putTree
    split
    · next hk =>
      subst hk
      simp only [List.mem_cons, Prod.mk.injEq]
      constructor
      · rintro (⟨rfl, rfl⟩ | h)
        · exact Or.inr ⟨rfl, Or.inl ⟨t0, Or.inl ⟨trivial, rfl⟩, rfl⟩⟩
        · refine Or.inl ⟨?_, Or.inr h⟩
          rintro rfl
          exact hnot _ h
      · rintro (⟨h1, h | h⟩ | ⟨rfl, ⟨t1, h | h, rfl⟩ | ⟨h, rfl⟩⟩)
        · exact absurd h.1 h1
        · exact Or.inr h
        · rw [h.2]; exact Or.inl ⟨rfl, rfl⟩
        · exact absurd h (hnot _)
        · exact absurd (Or.inl ⟨trivial, rfl⟩) (h t0)
    · next hk =>
      simp only [List.mem_cons, Prod.mk.injEq, ih hn.2]
      constructor
      · rintro (⟨rfl, rfl⟩ | ⟨h1, h2⟩ | ⟨rfl, ⟨t1, h, rfl⟩ | ⟨h, rfl⟩⟩)
        · exact Or.inl ⟨hk, Or.inl ⟨rfl, rfl⟩⟩
        · exact Or.inl ⟨h1, Or.inr h2⟩
        · exact Or.inr ⟨rfl, Or.inl ⟨t1, Or.inr h, rfl⟩⟩
        · refine Or.inr ⟨rfl, Or.inr ⟨?_, rfl⟩⟩
          rintro t2 (⟨h3, -⟩ | h3)
          · exact hk h3.symm
          · exact h t2 h3
      · rintro (⟨h1, ⟨rfl, rfl⟩ | h⟩ | ⟨rfl, ⟨t1, h | h, rfl⟩ | ⟨h, rfl⟩⟩)
        · exact Or.inl ⟨rfl, rfl⟩
        · exact Or.inr (Or.inl ⟨h1, h⟩)
        · exact absurd h.1.symm hk
        · exact Or.inr (Or.inr ⟨rfl, Or.inl ⟨t1, h, rfl⟩⟩)
        · exact Or.inr (Or.inr ⟨rfl, Or.inr ⟨fun t2 h2 => h t2 (Or.inr h2), rfl⟩⟩)

theorem keys_putTree (k : Nat × Nat) (lo hi id : Nat) (m : Trees) (x : Nat × Nat) :
    x ∈ (putTree k lo hi id m).map Prod.fst ↔ x = k ∨ x ∈ m.map Prod.fst := by
  induction m with
  | nil => simp [putTree]
  | cons e m ih =>
    obtain ⟨k0, t0⟩ := e
    unfold putTree
    split
    · next hk => subst hk; simp
    · simp only [List.map_cons, List.mem_cons, ih]
      constructor
      · rintro (h | h | h)
        · exact Or.inr (Or.inl h)
        · exact Or.inl h
        · exact Or.inr (Or.inr h)
      · rintro (h | h | h)
        · exact Or.inr (Or.inl h)
        · exact Or.inl h
        · exact Or.inr (Or.inr h)

theorem nodup_putTree (k : Nat × Nat) (lo hi id : Nat) {m : Trees} (hn : (m.map Prod.fst).Nodup) :
    ((putTree k lo hi id m).map Prod.fst).Nodup := by
  induction m with
  | nil => simp [putTree]
  | cons e m ih =>
    obtain ⟨k0, t0⟩ := e
    simp only [List.map_cons, List.nodup_cons] at hn
    unfold putTree
    split
    · next hk => simp only [List.map_cons, List.nodup_cons]; exact hn
    · next hk =>
      simp only [List.map_cons, List.nodup_cons]
      refine ⟨?_, ih hn.2⟩
      rw [keys_putTree]
      rintro (h | h)
      · exact hk h
      · exact hn.1 h

/-- Inserting an interval. -/
theorem TreesInv.put {m : Trees} {F : Nat × Nat → Nat → Nat → Nat → Prop} (h : TreesInv m F)
    (hn : (m.map Prod.fst).Nodup) (k : Nat × Nat) (lo hi id : Nat) :
    TreesInv (putTree k lo hi id m)
      (fun k' l u v => F k' l u v ∨ (k' = k ∧ l = lo ∧ u = hi ∧ v = id)) := by
  constructor
  · intro k' t ht
    rw [mem_putTree hn] at ht
    rcases ht with ⟨h1, h2⟩ | ⟨rfl, ⟨t0, h1, rfl⟩ | ⟨h1, rfl⟩⟩
    · refine (h.inv _ _ h2).congr fun l u v => ?_
      exact ⟨Or.inl, fun h => h.elim (fun h => h) fun h => absurd h.1 h1⟩
    · refine (Verif.Interval.inv_insert (h.inv _ _ h1) lo hi id).congr fun l u v => ?_
      constructor
      · rintro (h | h)
        · exact Or.inr ⟨rfl, h⟩
        · exact Or.inl h
      · rintro (h | h)
        · exact Or.inr h
        · exact Or.inl h.2
    · refine (Verif.Interval.inv_insert Verif.Interval.inv_init lo hi id).congr fun l u v => ?_
      constructor
      · rintro (h | h)
        · exact Or.inr ⟨rfl, h⟩
        · exact h.elim
      · rintro (h' | h')
        · obtain ⟨t, ht⟩ := h.has _ _ _ _ h'
          exact absurd ht (h1 t)
        · exact Or.inl h'.2
  · rintro k' l u v (h' | ⟨rfl, -⟩)
    · obtain ⟨t, ht⟩ := h.has _ _ _ _ h'
      have := (keys_putTree k lo hi id m k').2 (Or.inr (List.mem_map.2 ⟨_, ht, rfl⟩))
      obtain ⟨⟨a, b⟩, hab, rfl⟩ := List.mem_map.1 this
      exact ⟨b, hab⟩
    · have := (keys_putTree k' lo hi id m k').2 (Or.inl rfl)
      obtain ⟨⟨a, b⟩, hab, rfl⟩ := List.mem_map.1 this
      exact ⟨b, hab⟩

theorem mem_treeIds {t : Tree Nat} {E : Nat → Nat → Nat → Prop} (h : Verif.Interval.Inv t E) (lo hi v : Nat) :
    v ∈ treeIds t lo hi ↔ ∃ l u, E l u v ∧ l ≤ hi ∧ lo ≤ u := by
  unfold treeIds
  simp only [List.mem_flatMap]
  constructor
  · rintro ⟨⟨l, u, vs⟩, he, hv⟩
    obtain ⟨h1, h2, h3⟩ := (Verif.Interval.mem_query h.str lo hi l u vs).1 he
    exact ⟨l, u, (h.rel l u v).2 ⟨vs, h1, hv⟩, h2, h3⟩
  · rintro ⟨l, u, he, h2, h3⟩
    obtain ⟨vs, h1, hv⟩ := (h.rel l u v).1 he
    exact ⟨(l, u, vs), (Verif.Interval.mem_query h.str lo hi l u vs).2 ⟨h1, h2, h3⟩, hv⟩

theorem mem_intervalsMatching {m : Trees} {F : Nat × Nat → Nat → Nat → Nat → Prop} (h : TreesInv m F)
    (sheet : Nat) (p : Nat → Bool) (lo hi v : Nat) :
    v ∈ Index.intervalsMatching m sheet p lo hi ↔ ∃ k l u, p k = true ∧ F (sheet, k) l u v ∧ l ≤ hi ∧ lo ≤ u := by
  unfold Index.intervalsMatching
  simp only [List.mem_flatMap, List.mem_filter, Bool.and_eq_true, beq_iff_eq]
  constructor
  · rintro ⟨⟨⟨s, k⟩, t⟩, ⟨hm, rfl, hp⟩, hv⟩
    obtain ⟨l, u, h1, h2, h3⟩ := (mem_treeIds (h.inv _ _ hm) lo hi v).1 hv
    exact ⟨k, l, u, hp, h1, h2, h3⟩
  · rintro ⟨k, l, u, hp, h1, h2, h3⟩
    obtain ⟨t, ht⟩ := h.has _ _ _ _ h1
    exact ⟨((sheet, k), t), ⟨ht, rfl, hp⟩, (mem_treeIds (h.inv _ _ ht) lo hi v).2 ⟨l, u, h1, h2, h3⟩⟩

theorem mem_intervalExact {m : Trees} {F : Nat × Nat → Nat → Nat → Nat → Prop} (h : TreesInv m F)
    (sheet k lo hi v : Nat) :
    v ∈ Index.intervalExact m sheet k lo hi ↔ ∃ l u, F (sheet, k) l u v ∧ l ≤ hi ∧ lo ≤ u := by
  unfold Index.intervalExact
  simp only [List.mem_flatMap, List.mem_filter, beq_iff_eq]
  constructor
  · rintro ⟨⟨k', t⟩, ⟨hm, rfl⟩, hv⟩
    exact (mem_treeIds (h.inv _ _ hm) lo hi v).1 hv
  · rintro ⟨l, u, h1, h2, h3⟩
    obtain ⟨t, ht⟩ := h.has _ _ _ _ h1
    exact ⟨((sheet, k), t), ⟨ht, rfl⟩, (mem_treeIds (h.inv _ _ ht) lo hi v).2 ⟨l, u, h1, h2, h3⟩⟩

/-! ### The index -/

namespace Index

/-- Entry `id` is stored, and its normalized region is `r`. -/
def At (x : Index) (id : Nat) (r : Region) : Prop := ∃ r0, x.entries[id]? = some r0 ∧ r0.normalized = r

/-- The shapes that have an index of their own, other than a whole sheet. -/
def direct : AxisRange → AxisRange → Bool
  | .point _, .point _ => true
  | .span _ _, .point _ => true
  | .point _, .span _ _ => true
  | .span _ _, .span _ _ => true
  | .from_ _, .all => true
  | .all, .from_ _ => true
  | .point _, .all => true
  | .all, .point _ => true
  | _, _ => false

/-- Each part of the index holds what it should. -/
structure Inv (x : Index) : Prop where
  pointsByRow : ∀ s r c id, ((s, r, c), id) ∈ x.pointsByRow ↔ x.At id ⟨s, .point r, .point c⟩
  pointsByCol : ∀ s r c id, ((s, c, r), id) ∈ x.pointsByCol ↔ x.At id ⟨s, .point r, .point c⟩
  colKeys : (x.colIntervals.map Prod.fst).Nodup
  colIntervals : TreesInv x.colIntervals (fun k l h id => x.At id ⟨k.1, .span l h, .point k.2⟩)
  rowKeys : (x.rowIntervals.map Prod.fst).Nodup
  rowIntervals : TreesInv x.rowIntervals (fun k l h id => x.At id ⟨k.1, .point k.2, .span l h⟩)
  rectBuckets : ∀ s rb cb id, ((s, rb, cb), id) ∈ x.rectBuckets ↔ ∃ rs re cs ce,
    x.At id ⟨s, .span rs re, .span cs ce⟩ ∧ x.rowBucket rs ≤ rb ∧ rb ≤ x.rowBucket re ∧
      x.colBucket cs ≤ cb ∧ cb ≤ x.colBucket ce
  rectBucketsByCol : ∀ s rb cb id, ((s, cb, rb), id) ∈ x.rectBucketsByCol ↔ ∃ rs re cs ce,
    x.At id ⟨s, .span rs re, .span cs ce⟩ ∧ x.rowBucket rs ≤ rb ∧ rb ≤ x.rowBucket re ∧
      x.colBucket cs ≤ cb ∧ cb ≤ x.colBucket ce
  rowsFrom : ∀ s r id, ((s, r), id) ∈ x.rowsFrom ↔ x.At id ⟨s, .from_ r, .all⟩
  colsFrom : ∀ s c id, ((s, c), id) ∈ x.colsFrom ↔ x.At id ⟨s, .all, .from_ c⟩
  wholeRows : ∀ s r id, ((s, r), id) ∈ x.wholeRows ↔ x.At id ⟨s, .point r, .all⟩
  wholeCols : ∀ s c id, ((s, c), id) ∈ x.wholeCols ↔ x.At id ⟨s, .all, .point c⟩
  wholeSheets : ∀ s id, (s, id) ∈ x.wholeSheets ↔ ∃ rows cols, x.At id ⟨s, rows, cols⟩ ∧ direct rows cols = false
  entriesOk : ∀ r ∈ x.entries, r.Ok

theorem At.inj {x : Index} {id : Nat} {a b : Region} (h : x.At id a) (h' : x.At id b) : a = b := by
  obtain ⟨r, h1, rfl⟩ := h
  obtain ⟨r', h2, rfl⟩ := h'
  rw [h1] at h2
  rw [Option.some.inj h2]

theorem inv_empty (br bc : Nat) : (empty br bc).Inv := by
  have no : ∀ id r, (empty br bc).At id r ↔ False := by
    intro id r
    refine ⟨?_, False.elim⟩
    rintro ⟨r0, h, -⟩
    simp [empty] at h
  have ht : ∀ G : Nat × Nat → Nat → Nat → Nat → Region, TreesInv [] (fun k l h id => (empty br bc).At id (G k l h id)) :=
    fun G => ⟨by simp, fun k l h v hf => ((no _ _).1 hf).elim⟩
  constructor
  case colIntervals => exact ht fun k l h _ => ⟨k.1, .span l h, .point k.2⟩
  case rowIntervals => exact ht fun k l h _ => ⟨k.1, .point k.2, .span l h⟩
  all_goals try simp only [no]
  all_goals simp [empty]

theorem mem_upTo (a b x : Nat) : x ∈ upTo a b ↔ a ≤ x ∧ x ≤ b := by
  simp only [upTo, List.mem_map, List.mem_range]
  constructor
  · rintro ⟨y, hy, rfl⟩; omega
  · rintro ⟨h1, h2⟩; exact ⟨x - a, by omega, by omega⟩

theorem mem_bucketsForRect (x : Index) (sheet rs re cs ce s rb cb : Nat) :
    (s, rb, cb) ∈ x.bucketsForRect sheet rs re cs ce ↔ s = sheet ∧ x.rowBucket rs ≤ rb ∧ rb ≤ x.rowBucket re ∧
      x.colBucket cs ≤ cb ∧ cb ≤ x.colBucket ce := by
  simp only [bucketsForRect, List.mem_flatMap, List.mem_map, mem_upTo, Prod.mk.injEq]
  constructor
  · rintro ⟨a, ⟨h1, h2⟩, b, ⟨h3, h4⟩, rfl, rfl, rfl⟩; exact ⟨rfl, h1, h2, h3, h4⟩
  · rintro ⟨rfl, h1, h2, h3, h4⟩; exact ⟨rb, ⟨h1, h2⟩, cb, ⟨h3, h4⟩, rfl, rfl, rfl⟩

theorem indexEntry_entries (x : Index) (id : Nat) (r : Region) : (x.indexEntry id r).entries = x.entries := by
  unfold indexEntry
  split <;> rfl

theorem indexEntry_bucketRows (x : Index) (id : Nat) (r : Region) : (x.indexEntry id r).bucketRows = x.bucketRows := by
  unfold indexEntry
  split <;> rfl

theorem indexEntry_bucketCols (x : Index) (id : Nat) (r : Region) : (x.indexEntry id r).bucketCols = x.bucketCols := by
  unfold indexEntry
  split <;> rfl

theorem insert_entries (x : Index) (r : Region) : (x.insert r).entries = x.entries ++ [r] := by
  unfold insert
  rw [indexEntry_entries]

theorem insert_at (x : Index) (r : Region) (id : Nat) (n : Region) :
    (x.insert r).At id n ↔ x.At id n ∨ (id = x.entries.length ∧ r.normalized = n) := by
  unfold At
  rw [insert_entries, List.getElem?_append]
  constructor
  · rintro ⟨r0, h1, h2⟩
    split at h1
    · exact Or.inl ⟨r0, h1, h2⟩
    · next hlt =>
      rw [List.getElem?_singleton] at h1
      split at h1
      · next h0 =>
        have := Option.some.inj h1
        subst this
        exact Or.inr ⟨by omega, h2⟩
      · cases h1
  · rintro (⟨r0, h1, h2⟩ | ⟨rfl, h2⟩)
    · have : id < x.entries.length := (List.getElem?_eq_some_iff.1 h1).1
      rw [if_pos this]
      exact ⟨r0, h1, h2⟩
    · rw [if_neg (by omega)]
      exact ⟨r, by simp, h2⟩

theorem insert_rowBucket (x : Index) (r : Region) (n : Nat) : (x.insert r).rowBucket n = x.rowBucket n := by
  unfold insert rowBucket
  rw [indexEntry_bucketRows]

theorem insert_colBucket (x : Index) (r : Region) (n : Nat) : (x.insert r).colBucket n = x.colBucket n := by
  unfold insert colBucket
  rw [indexEntry_bucketCols]

theorem inv_insert {x : Index} (h : x.Inv) {r : Region} (hr : r.Ok) : (x.insert r).Inv := by
  have hat := insert_at x r
  constructor
  case entriesOk =>
    rw [insert_entries]
    intro r' hr'
    rcases List.mem_append.1 hr' with h' | h'
    · exact h.entriesOk r' h'
    · rw [List.mem_singleton.1 h']; exact hr
  case pointsByRow =>
    intro s a c id
    rw [hat, ← h.pointsByRow]
    unfold insert
    generalize r.normalized = n
    obtain ⟨ns, rows, cols⟩ := n
    cases rows <;> cases cols <;> simp [indexEntry] <;> tauto
  case pointsByCol =>
    intro s a c id
    rw [hat, ← h.pointsByCol]
    unfold insert
    generalize r.normalized = n
    obtain ⟨ns, rows, cols⟩ := n
    cases rows <;> cases cols <;> simp [indexEntry] <;> tauto
  case rowsFrom =>
    intro s a id
    rw [hat, ← h.rowsFrom]
    unfold insert
    generalize r.normalized = n
    obtain ⟨ns, rows, cols⟩ := n
    cases rows <;> cases cols <;> simp [indexEntry] <;> tauto
  case colsFrom =>
    intro s a id
    rw [hat, ← h.colsFrom]
    unfold insert
    generalize r.normalized = n
    obtain ⟨ns, rows, cols⟩ := n
    cases rows <;> cases cols <;> simp [indexEntry] <;> tauto
  case wholeRows =>
    intro s a id
    rw [hat, ← h.wholeRows]
    unfold insert
    generalize r.normalized = n
    obtain ⟨ns, rows, cols⟩ := n
    cases rows <;> cases cols <;> simp [indexEntry] <;> tauto
  case wholeCols =>
    intro s a id
    rw [hat, ← h.wholeCols]
    unfold insert
    generalize r.normalized = n
    obtain ⟨ns, rows, cols⟩ := n
    cases rows <;> cases cols <;> simp [indexEntry] <;> tauto
  case wholeSheets =>
    intro s id
    have e : (∃ rows cols, (x.insert r).At id ⟨s, rows, cols⟩ ∧ direct rows cols = false) ↔
        ((s, id) ∈ x.wholeSheets ∨ (id = x.entries.length ∧ r.normalized.sheet = s ∧
          direct r.normalized.rows r.normalized.cols = false)) := by
      rw [h.wholeSheets]
      simp only [hat]
      constructor
      · rintro ⟨rows, cols, h1 | ⟨rfl, h1⟩, h2⟩
        · exact Or.inl ⟨rows, cols, h1, h2⟩
        · rw [h1]; exact Or.inr ⟨rfl, rfl, h2⟩
      · rintro (⟨rows, cols, h1, h2⟩ | ⟨rfl, h1, h2⟩)
        · exact ⟨rows, cols, Or.inl h1, h2⟩
        · exact ⟨_, _, Or.inr ⟨rfl, by rw [← h1]⟩, h2⟩
    rw [e]
    unfold insert
    generalize r.normalized = n
    obtain ⟨ns, rows, cols⟩ := n
    cases rows <;> cases cols <;> simp [indexEntry, direct] <;> tauto
  case rectBuckets =>
    intro s rb cb id
    have e : (∃ rs re cs ce, (x.insert r).At id ⟨s, .span rs re, .span cs ce⟩ ∧ (x.insert r).rowBucket rs ≤ rb ∧
        rb ≤ (x.insert r).rowBucket re ∧ (x.insert r).colBucket cs ≤ cb ∧ cb ≤ (x.insert r).colBucket ce) ↔
        ((s, rb, cb), id) ∈ x.rectBuckets ∨ (id = x.entries.length ∧ ∃ rs re cs ce,
          r.normalized = ⟨s, .span rs re, .span cs ce⟩ ∧ x.rowBucket rs ≤ rb ∧ rb ≤ x.rowBucket re ∧
          x.colBucket cs ≤ cb ∧ cb ≤ x.colBucket ce) := by
      rw [h.rectBuckets]
      simp only [hat, insert_rowBucket, insert_colBucket]
      constructor
      · rintro ⟨rs, re, cs, ce, h1 | ⟨rfl, h1⟩, h2⟩
        · exact Or.inl ⟨rs, re, cs, ce, h1, h2⟩
        · exact Or.inr ⟨rfl, rs, re, cs, ce, h1, h2⟩
      · rintro (⟨rs, re, cs, ce, h1, h2⟩ | ⟨rfl, rs, re, cs, ce, h1, h2⟩)
        · exact ⟨rs, re, cs, ce, Or.inl h1, h2⟩
        · exact ⟨rs, re, cs, ce, Or.inr ⟨rfl, h1⟩, h2⟩
    rw [e]
    unfold insert
    generalize r.normalized = n
    obtain ⟨ns, rows, cols⟩ := n
    cases rows <;> cases cols <;> first | (simp [indexEntry]; done) | skip
    have hb : ∀ rs re cs ce, ({ x with entries := x.entries ++ [r] } : Index).bucketsForRect ns rs re cs ce =
        x.bucketsForRect ns rs re cs ce := fun _ _ _ _ => rfl
    simp only [indexEntry, List.mem_append, List.mem_map, hb, Prod.exists, mem_bucketsForRect, Prod.mk.injEq]
    constructor
    · rintro (h1 | ⟨_, _, _, ⟨rfl, h1⟩, ⟨rfl, rfl, rfl⟩, rfl⟩)
      · exact Or.inl h1
      · exact Or.inr ⟨rfl, _, _, _, _, rfl, h1⟩
    · rintro (h1 | ⟨rfl, _, _, _, _, he, h1⟩)
      · exact Or.inl h1
      · cases he
        exact Or.inr ⟨_, _, _, ⟨rfl, h1⟩, ⟨rfl, rfl, rfl⟩, rfl⟩
  case rectBucketsByCol =>
    intro s rb cb id
    have e : (∃ rs re cs ce, (x.insert r).At id ⟨s, .span rs re, .span cs ce⟩ ∧ (x.insert r).rowBucket rs ≤ rb ∧
        rb ≤ (x.insert r).rowBucket re ∧ (x.insert r).colBucket cs ≤ cb ∧ cb ≤ (x.insert r).colBucket ce) ↔
        ((s, cb, rb), id) ∈ x.rectBucketsByCol ∨ (id = x.entries.length ∧ ∃ rs re cs ce,
          r.normalized = ⟨s, .span rs re, .span cs ce⟩ ∧ x.rowBucket rs ≤ rb ∧ rb ≤ x.rowBucket re ∧
          x.colBucket cs ≤ cb ∧ cb ≤ x.colBucket ce) := by
      rw [h.rectBucketsByCol]
      simp only [hat, insert_rowBucket, insert_colBucket]
      constructor
      · rintro ⟨rs, re, cs, ce, h1 | ⟨rfl, h1⟩, h2⟩
        · exact Or.inl ⟨rs, re, cs, ce, h1, h2⟩
        · exact Or.inr ⟨rfl, rs, re, cs, ce, h1, h2⟩
      · rintro (⟨rs, re, cs, ce, h1, h2⟩ | ⟨rfl, rs, re, cs, ce, h1, h2⟩)
        · exact ⟨rs, re, cs, ce, Or.inl h1, h2⟩
        · exact ⟨rs, re, cs, ce, Or.inr ⟨rfl, h1⟩, h2⟩
    rw [e]
    unfold insert
    generalize r.normalized = n
    obtain ⟨ns, rows, cols⟩ := n
    cases rows <;> cases cols <;> first | (simp [indexEntry]; done) | skip
    have hb : ∀ rs re cs ce, ({ x with entries := x.entries ++ [r] } : Index).bucketsForRect ns rs re cs ce =
        x.bucketsForRect ns rs re cs ce := fun _ _ _ _ => rfl
    simp only [indexEntry, List.mem_append, List.mem_map, hb, Prod.exists, mem_bucketsForRect, Prod.mk.injEq]
    constructor
    · rintro (h1 | ⟨_, _, _, ⟨rfl, h1⟩, ⟨rfl, rfl, rfl⟩, rfl⟩)
      · exact Or.inl h1
      · exact Or.inr ⟨rfl, _, _, _, _, rfl, h1⟩
    · rintro (h1 | ⟨rfl, _, _, _, _, he, h1⟩)
      · exact Or.inl h1
      · cases he
        exact Or.inr ⟨_, _, _, ⟨rfl, h1⟩, ⟨rfl, rfl, rfl⟩, rfl⟩
  case colKeys =>
    unfold insert indexEntry
    split <;> first | exact h.colKeys | exact nodup_putTree _ _ _ _ h.colKeys
  case rowKeys =>
    unfold insert indexEntry
    split <;> first | exact h.rowKeys | exact nodup_putTree _ _ _ _ h.rowKeys
  case colIntervals =>
    have e : ∀ m, TreesInv m (fun k l u id => x.At id ⟨k.1, .span l u, .point k.2⟩ ∨
        (id = x.entries.length ∧ r.normalized = ⟨k.1, .span l u, .point k.2⟩)) →
        TreesInv m (fun k l u id => (x.insert r).At id ⟨k.1, .span l u, .point k.2⟩) :=
      fun m hm => hm.congr fun k l u v => (hat _ _).symm
    refine e _ ?_
    clear e hat
    unfold insert
    generalize r.normalized = n
    obtain ⟨ns, rows, cols⟩ := n
    have same : ∀ n : Region, (∀ s l u c, n ≠ ⟨s, .span l u, .point c⟩) →
        TreesInv x.colIntervals (fun k l u id => x.At id ⟨k.1, .span l u, .point k.2⟩ ∨
          (id = x.entries.length ∧ n = ⟨k.1, .span l u, .point k.2⟩)) := fun n hn =>
      h.colIntervals.congr fun k l u v => ⟨Or.inl, fun h' => h'.elim (fun h' => h') fun h' => absurd h'.2 (hn _ _ _ _)⟩
    cases rows <;> cases cols <;> first | exact same _ (by simp) | skip
    refine (h.colIntervals.put h.colKeys _ _ _ _).congr ?_
    rintro ⟨k1, k2⟩ l u v
    simp only [Prod.mk.injEq, Region.mk.injEq, AxisRange.span.injEq, AxisRange.point.injEq]
    tauto
  case rowIntervals =>
    have e : ∀ m, TreesInv m (fun k l u id => x.At id ⟨k.1, .point k.2, .span l u⟩ ∨
        (id = x.entries.length ∧ r.normalized = ⟨k.1, .point k.2, .span l u⟩)) →
        TreesInv m (fun k l u id => (x.insert r).At id ⟨k.1, .point k.2, .span l u⟩) :=
      fun m hm => hm.congr fun k l u v => (hat _ _).symm
    refine e _ ?_
    clear e hat
    unfold insert
    generalize r.normalized = n
    obtain ⟨ns, rows, cols⟩ := n
    have same : ∀ n : Region, (∀ s l u c, n ≠ ⟨s, .point c, .span l u⟩) →
        TreesInv x.rowIntervals (fun k l u id => x.At id ⟨k.1, .point k.2, .span l u⟩ ∨
          (id = x.entries.length ∧ n = ⟨k.1, .point k.2, .span l u⟩)) := fun n hn =>
      h.rowIntervals.congr fun k l u v => ⟨Or.inl, fun h' => h'.elim (fun h' => h') fun h' => absurd h'.2 (hn _ _ _ _)⟩
    cases rows <;> cases cols <;> first | exact same _ (by simp) | skip
    refine (h.rowIntervals.put h.rowKeys _ _ _ _).congr ?_
    rintro ⟨k1, k2⟩ l u v
    simp only [Prod.mk.injEq, Region.mk.injEq, AxisRange.span.injEq, AxisRange.point.injEq]
    tauto

theorem inv_build (br bc : Nat) (rs : List Region) (h : ∀ r ∈ rs, r.Ok) : (build br bc rs).Inv := by
  unfold build
  have : ∀ (rs : List Region) (x : Index), x.Inv → (∀ r ∈ rs, r.Ok) → (rs.foldl insert x).Inv := by
    intro rs
    induction rs with
    | nil => intro x hx _; exact hx
    | cons r rs ih => intro x hx hr; exact ih _ (inv_insert hx (hr r (by simp))) fun r' h' => hr r' (by simp [h'])
  exact this rs _ (inv_empty br bc) h

theorem build_entries (br bc : Nat) (rs : List Region) : (build br bc rs).entries = rs := by
  unfold build
  have : ∀ (rs : List Region) (x : Index), (rs.foldl insert x).entries = x.entries ++ rs := by
    intro rs
    induction rs with
    | nil => intro x; simp
    | cons r rs ih => intro x; rw [List.foldl_cons, ih, insert_entries]; simp
  rw [this]
  simp [empty]

/-! ### What each part of a search finds -/

section
variable {x : Index} (h : x.Inv)
include h

theorem mem_pointsMatching (s id : Nat) (p : Nat → Nat → Bool) :
    id ∈ x.pointsMatching s p ↔ ∃ r c, p r c = true ∧ x.At id ⟨s, .point r, .point c⟩ := by
  simp only [pointsMatching, List.mem_map, List.mem_filter, Bool.and_eq_true, beq_iff_eq]
  constructor
  · rintro ⟨⟨⟨s', r, c⟩, id'⟩, ⟨h1, rfl, h2⟩, rfl⟩
    exact ⟨r, c, h2, (h.pointsByRow _ _ _ _).1 h1⟩
  · rintro ⟨r, c, h1, h2⟩
    exact ⟨((s, r, c), id), ⟨(h.pointsByRow _ _ _ _).2 h2, rfl, h1⟩, rfl⟩

theorem mem_pointExact (s r c id : Nat) : id ∈ x.pointExact s r c ↔ x.At id ⟨s, .point r, .point c⟩ := by
  simp only [pointExact, List.mem_map, List.mem_filter, beq_iff_eq]
  constructor
  · rintro ⟨⟨k, id'⟩, ⟨h1, h2⟩, rfl⟩
    simp only at h2
    subst h2
    exact (h.pointsByRow _ _ _ _).1 h1
  · intro h2
    exact ⟨((s, r, c), id), ⟨(h.pointsByRow _ _ _ _).2 h2, rfl⟩, rfl⟩

theorem mem_rectKey (s rb cb id : Nat) : id ∈ x.rectKey s rb cb ↔ ((s, rb, cb), id) ∈ x.rectBuckets := by
  simp only [rectKey, List.mem_map, List.mem_filter, beq_iff_eq]
  constructor
  · rintro ⟨⟨k, id'⟩, ⟨h1, h2⟩, rfl⟩
    simp only at h2
    subst h2
    exact h1
  · intro h2
    exact ⟨((s, rb, cb), id), ⟨h2, rfl⟩, rfl⟩

theorem mem_rectMatching (s id : Nat) (p : Nat → Nat → Bool) :
    id ∈ x.rectMatching s p ↔ ∃ rb cb, p rb cb = true ∧ ((s, rb, cb), id) ∈ x.rectBuckets := by
  simp only [rectMatching, List.mem_map, List.mem_filter, Bool.and_eq_true, beq_iff_eq]
  constructor
  · rintro ⟨⟨⟨s', r, c⟩, id'⟩, ⟨h1, rfl, h2⟩, rfl⟩
    exact ⟨r, c, h2, h1⟩
  · rintro ⟨r, c, h1, h2⟩
    exact ⟨((s, r, c), id), ⟨h2, rfl, h1⟩, rfl⟩

omit h in
theorem mem_fromThrough (m : List ((Nat × Nat) × Nat)) (s e id : Nat) :
    id ∈ fromThrough m s e ↔ ∃ k, k ≤ e ∧ ((s, k), id) ∈ m := by
  simp only [fromThrough, List.mem_map, List.mem_filter, Bool.and_eq_true, beq_iff_eq, decide_eq_true_eq]
  constructor
  · rintro ⟨⟨⟨s', k⟩, id'⟩, ⟨h1, rfl, h2⟩, rfl⟩
    exact ⟨k, h2, h1⟩
  · rintro ⟨k, h1, h2⟩
    exact ⟨((s, k), id), ⟨h2, rfl, h1⟩, rfl⟩

omit h in
theorem mem_wholeExact (m : List ((Nat × Nat) × Nat)) (s k id : Nat) : id ∈ wholeExact m s k ↔ ((s, k), id) ∈ m := by
  simp only [wholeExact, List.mem_map, List.mem_filter, beq_iff_eq]
  constructor
  · rintro ⟨⟨k', id'⟩, ⟨h1, h2⟩, rfl⟩
    simp only at h2
    subst h2
    exact h1
  · intro h2
    exact ⟨((s, k), id), ⟨h2, rfl⟩, rfl⟩

omit h in
theorem mem_wholeMatching (m : List ((Nat × Nat) × Nat)) (s id : Nat) (p : Nat → Bool) :
    id ∈ wholeMatching m s p ↔ ∃ k, p k = true ∧ ((s, k), id) ∈ m := by
  simp only [wholeMatching, List.mem_map, List.mem_filter, Bool.and_eq_true, beq_iff_eq]
  constructor
  · rintro ⟨⟨⟨s', k⟩, id'⟩, ⟨h1, rfl, h2⟩, rfl⟩
    exact ⟨k, h2, h1⟩
  · rintro ⟨k, h1, h2⟩
    exact ⟨((s, k), id), ⟨h2, rfl, h1⟩, rfl⟩

omit h in
theorem mem_wholeSheet (s id : Nat) : id ∈ x.wholeSheet s ↔ (s, id) ∈ x.wholeSheets := by
  simp only [wholeSheet, List.mem_map, List.mem_filter, beq_iff_eq]
  constructor
  · rintro ⟨⟨s', id'⟩, ⟨h1, h2⟩, rfl⟩
    simp only at h2
    subst h2
    exact h1
  · intro h2
    exact ⟨(s, id), ⟨h2, rfl⟩, rfl⟩

theorem rect_at {s rb cb id rs re cs ce : Nat} (ha : x.At id ⟨s, .span rs re, .span cs ce⟩) :
    ((s, rb, cb), id) ∈ x.rectBuckets ↔ x.rowBucket rs ≤ rb ∧ rb ≤ x.rowBucket re ∧
      x.colBucket cs ≤ cb ∧ cb ≤ x.colBucket ce := by
  rw [h.rectBuckets]
  constructor
  · rintro ⟨_, _, _, _, ha', h2⟩
    have := ha.inj ha'
    simp only [Region.mk.injEq, AxisRange.span.injEq, true_and] at this
    obtain ⟨⟨rfl, rfl⟩, rfl, rfl⟩ := this
    exact h2
  · intro h2
    exact ⟨_, _, _, _, ha, h2⟩

omit h in
theorem rowBucket_mono {a b : Nat} (hab : a ≤ b) : x.rowBucket a ≤ x.rowBucket b := Nat.div_le_div_right hab

omit h in
theorem colBucket_mono {a b : Nat} (hab : a ≤ b) : x.colBucket a ≤ x.colBucket b := Nat.div_le_div_right hab

/-! One lemma for each part of a search: an entry that the part is responsible for is found. -/

theorem f_points {s id r c : Nat} {p : Nat → Nat → Bool} (ha : x.At id ⟨s, .point r, .point c⟩) (hp : p r c = true) :
    id ∈ x.pointsMatching s p := (mem_pointsMatching h s id p).2 ⟨r, c, hp, ha⟩

theorem f_point {s id r c : Nat} (ha : x.At id ⟨s, .point r, .point c⟩) : id ∈ x.pointExact s r c :=
  (mem_pointExact h s r c id).2 ha

theorem f_colExact {s id l u c lo hi : Nat} (ha : x.At id ⟨s, .span l u, .point c⟩) (h1 : l ≤ hi) (h2 : lo ≤ u) :
    id ∈ intervalExact x.colIntervals s c lo hi := (mem_intervalExact h.colIntervals s c lo hi id).2 ⟨l, u, ha, h1, h2⟩

theorem f_rowExact {s id l u r lo hi : Nat} (ha : x.At id ⟨s, .point r, .span l u⟩) (h1 : l ≤ hi) (h2 : lo ≤ u) :
    id ∈ intervalExact x.rowIntervals s r lo hi := (mem_intervalExact h.rowIntervals s r lo hi id).2 ⟨l, u, ha, h1, h2⟩

theorem f_cols {s id l u c lo hi : Nat} {p : Nat → Bool} (ha : x.At id ⟨s, .span l u, .point c⟩) (hp : p c = true)
    (h1 : l ≤ hi) (h2 : lo ≤ u) : id ∈ intervalsMatching x.colIntervals s p lo hi :=
  (mem_intervalsMatching h.colIntervals s p lo hi id).2 ⟨c, l, u, hp, ha, h1, h2⟩

theorem f_rows {s id l u r lo hi : Nat} {p : Nat → Bool} (ha : x.At id ⟨s, .point r, .span l u⟩) (hp : p r = true)
    (h1 : l ≤ hi) (h2 : lo ≤ u) : id ∈ intervalsMatching x.rowIntervals s p lo hi :=
  (mem_intervalsMatching h.rowIntervals s p lo hi id).2 ⟨r, l, u, hp, ha, h1, h2⟩

theorem f_rectKey {s id rs re cs ce row col : Nat} (ha : x.At id ⟨s, .span rs re, .span cs ce⟩)
    (h1 : rs ≤ row) (h2 : row ≤ re) (h3 : cs ≤ col) (h4 : col ≤ ce) :
    id ∈ x.rectKey s (x.rowBucket row) (x.colBucket col) := by
  rw [mem_rectKey h, rect_at h ha]
  exact ⟨rowBucket_mono h1, rowBucket_mono h2, colBucket_mono h3, colBucket_mono h4⟩

theorem f_rectRowSpan {s id rs re cs ce a b col : Nat} (ha : x.At id ⟨s, .span rs re, .span cs ce⟩)
    (h0 : rs ≤ re) (h00 : a ≤ b) (h1 : rs ≤ b) (h2 : a ≤ re) (h3 : cs ≤ col) (h4 : col ≤ ce) :
    id ∈ x.rectRowSpanPointCol s a b col := by
  unfold rectRowSpanPointCol
  refine List.mem_flatMap.2 ⟨x.rowBucket (max rs a), (mem_upTo _ _ _).2 ⟨?_, ?_⟩, ?_⟩
  · exact rowBucket_mono (by omega)
  · exact rowBucket_mono (by omega)
  · exact f_rectKey h ha (by omega) (by omega) h3 h4

theorem f_rectColSpan {s id rs re cs ce a b row : Nat} (ha : x.At id ⟨s, .span rs re, .span cs ce⟩)
    (h0 : cs ≤ ce) (h00 : a ≤ b) (h1 : cs ≤ b) (h2 : a ≤ ce) (h3 : rs ≤ row) (h4 : row ≤ re) :
    id ∈ x.rectPointRowColSpan s row a b := by
  unfold rectPointRowColSpan
  refine List.mem_flatMap.2 ⟨x.colBucket (max cs a), (mem_upTo _ _ _).2 ⟨?_, ?_⟩, ?_⟩
  · exact colBucket_mono (by omega)
  · exact colBucket_mono (by omega)
  · exact f_rectKey h ha h3 h4 (by omega) (by omega)

theorem f_rectRect {s id rs re cs ce a b c d : Nat} (ha : x.At id ⟨s, .span rs re, .span cs ce⟩)
    (h0 : rs ≤ re) (h0' : cs ≤ ce) (h00 : a ≤ b) (h00' : c ≤ d) (h1 : rs ≤ b) (h2 : a ≤ re) (h3 : cs ≤ d) (h4 : c ≤ ce) :
    id ∈ (x.bucketsForRect s a b c d).flatMap fun k => x.rectKey k.1 k.2.1 k.2.2 := by
  refine List.mem_flatMap.2 ⟨(s, x.rowBucket (max rs a), x.colBucket (max cs c)),
    (mem_bucketsForRect _ _ _ _ _ _ _ _ _).2 ⟨rfl, ?_, ?_, ?_, ?_⟩, ?_⟩
  · exact rowBucket_mono (by omega)
  · exact rowBucket_mono (by omega)
  · exact colBucket_mono (by omega)
  · exact colBucket_mono (by omega)
  · exact f_rectKey h ha (by omega) (by omega) (by omega) (by omega)

theorem f_rectMatching {s id rs re cs ce row col : Nat} {p : Nat → Nat → Bool}
    (ha : x.At id ⟨s, .span rs re, .span cs ce⟩) (h1 : rs ≤ row) (h2 : row ≤ re) (h3 : cs ≤ col) (h4 : col ≤ ce)
    (hp : p (x.rowBucket row) (x.colBucket col) = true) : id ∈ x.rectMatching s p := by
  rw [mem_rectMatching h]
  exact ⟨_, _, hp, (rect_at h ha).2
    ⟨rowBucket_mono h1, rowBucket_mono h2, colBucket_mono h3, colBucket_mono h4⟩⟩

theorem f_rowsFrom {s id k e : Nat} (ha : x.At id ⟨s, .from_ k, .all⟩) (hk : k ≤ e) : id ∈ fromThrough x.rowsFrom s e :=
  (mem_fromThrough _ _ _ _).2 ⟨k, hk, (h.rowsFrom _ _ _).2 ha⟩

theorem f_colsFrom {s id k e : Nat} (ha : x.At id ⟨s, .all, .from_ k⟩) (hk : k ≤ e) : id ∈ fromThrough x.colsFrom s e :=
  (mem_fromThrough _ _ _ _).2 ⟨k, hk, (h.colsFrom _ _ _).2 ha⟩

theorem f_wholeRow {s id k : Nat} (ha : x.At id ⟨s, .point k, .all⟩) : id ∈ wholeExact x.wholeRows s k :=
  (mem_wholeExact _ _ _ _).2 ((h.wholeRows _ _ _).2 ha)

theorem f_wholeCol {s id k : Nat} (ha : x.At id ⟨s, .all, .point k⟩) : id ∈ wholeExact x.wholeCols s k :=
  (mem_wholeExact _ _ _ _).2 ((h.wholeCols _ _ _).2 ha)

theorem f_wholeRows {s id k : Nat} {p : Nat → Bool} (ha : x.At id ⟨s, .point k, .all⟩) (hp : p k = true) :
    id ∈ wholeMatching x.wholeRows s p := (mem_wholeMatching _ _ _ _).2 ⟨k, hp, (h.wholeRows _ _ _).2 ha⟩

theorem f_wholeCols {s id k : Nat} {p : Nat → Bool} (ha : x.At id ⟨s, .all, .point k⟩) (hp : p k = true) :
    id ∈ wholeMatching x.wholeCols s p := (mem_wholeMatching _ _ _ _).2 ⟨k, hp, (h.wholeCols _ _ _).2 ha⟩

theorem f_sheet {s id : Nat} {rows cols : AxisRange} (ha : x.At id ⟨s, rows, cols⟩) (hd : direct rows cols = false) :
    id ∈ x.wholeSheet s := (mem_wholeSheet _ _).2 ((h.wholeSheets _ _).2 ⟨rows, cols, ha, hd⟩)

omit h in
theorem f_entries {s id : Nat} {rows cols : AxisRange} (ha : x.At id ⟨s, rows, cols⟩) : id ∈ x.sheetEntries s := by
  obtain ⟨r, h1, h2⟩ := ha
  unfold sheetEntries
  refine List.mem_filter.2 ⟨List.mem_range.2 (List.getElem?_eq_some_iff.1 h1).1, ?_⟩
  rw [h1]
  have : r.sheet = s := by rw [← show (r.normalized).sheet = r.sheet from rfl, h2]
  simp [this]

end

/-- Settles a side condition of a search. -/
macro "so" : tactic => `(tactic| first | (simp; done) | (simp; omega))

/-- Tries a proof of membership on every part of a concatenation. -/
macro "pick " t:term : tactic => `(tactic|
  first
    | exact $t
    | exact List.mem_append_right _ $t
    | exact List.mem_append_left _ (List.mem_append_right _ $t)
    | exact List.mem_append_left _ (List.mem_append_left _ (List.mem_append_right _ $t))
    | exact List.mem_append_left _ (List.mem_append_left _ (List.mem_append_left _ (List.mem_append_right _ $t)))
    | exact List.mem_append_left _ (List.mem_append_left _ (List.mem_append_left _ (List.mem_append_left _
        (List.mem_append_right _ $t))))
    | exact List.mem_append_left _ (List.mem_append_left _ (List.mem_append_left _ (List.mem_append_left _
        (List.mem_append_left _ (List.mem_append_right _ $t)))))
    | exact List.mem_append_left _ (List.mem_append_left _ (List.mem_append_left _ (List.mem_append_left _
        (List.mem_append_left _ (List.mem_append_left _ (List.mem_append_right _ $t))))))
    | exact List.mem_append_left _ (List.mem_append_left _ (List.mem_append_left _ (List.mem_append_left _
        (List.mem_append_left _ (List.mem_append_left _ (List.mem_append_left _ (List.mem_append_right _ $t)))))))
    | exact List.mem_append_left _ (List.mem_append_left _ (List.mem_append_left _ (List.mem_append_left _
        (List.mem_append_left _ (List.mem_append_left _ (List.mem_append_left _ (List.mem_append_left _ $t))))))))

set_option maxHeartbeats 800000 in
private theorem c_pp {x : Index} (h : x.Inv) {id s : Nat} {qr qc : AxisRange} {r c : Nat}
    (ha : x.At id ⟨s, .point r, .point c⟩) (hi1 : AxisRange.intersects (.point r) qr = true) (hi2 : AxisRange.intersects (.point c) qc = true) : id ∈ x.collect ⟨s, qr, qc⟩ := by
  cases qr <;> cases qc <;> simp only [collect] <;> try exact f_entries ha
  all_goals
    simp only [AxisRange.intersects, AxisRange.Ok, Bool.and_eq_true, decide_eq_true_eq, beq_iff_eq, ge_iff_le]
      at hi1 hi2
  all_goals first
    | (subst hi1; subst hi2; pick (f_point h ha))
    | pick (f_points h ha (by so))
set_option maxHeartbeats 800000 in
private theorem c_sp {x : Index} (h : x.Inv) {id s : Nat} {qr qc : AxisRange} {l u c : Nat}
    (ha : x.At id ⟨s, .span l u, .point c⟩) (hi1 : AxisRange.intersects (.span l u) qr = true) (hi2 : AxisRange.intersects (.point c) qc = true) (k1 : AxisRange.Ok (.span l u)) : id ∈ x.collect ⟨s, qr, qc⟩ := by
  cases qr <;> cases qc <;> simp only [collect] <;> try exact f_entries ha
  all_goals
    simp only [AxisRange.intersects, AxisRange.Ok, Bool.and_eq_true, decide_eq_true_eq, beq_iff_eq, ge_iff_le]
      at hi1 hi2 k1
  all_goals first
    | (subst hi2; pick (f_colExact h ha (by omega) (by omega)))
    | pick (f_cols h ha (by so) (by omega) (by omega))
set_option maxHeartbeats 800000 in
private theorem c_ps {x : Index} (h : x.Inv) {id s : Nat} {qr qc : AxisRange} {r l u : Nat}
    (ha : x.At id ⟨s, .point r, .span l u⟩) (hi1 : AxisRange.intersects (.point r) qr = true) (hi2 : AxisRange.intersects (.span l u) qc = true) (k2 : AxisRange.Ok (.span l u)) : id ∈ x.collect ⟨s, qr, qc⟩ := by
  cases qr <;> cases qc <;> simp only [collect] <;> try exact f_entries ha
  all_goals
    simp only [AxisRange.intersects, AxisRange.Ok, Bool.and_eq_true, decide_eq_true_eq, beq_iff_eq, ge_iff_le]
      at hi1 hi2 k2
  all_goals first
    | (subst hi1; pick (f_rowExact h ha (by omega) (by omega)))
    | pick (f_rows h ha (by so) (by omega) (by omega))
set_option maxHeartbeats 800000 in
private theorem c_ss {x : Index} (h : x.Inv) {id s : Nat} {qr qc : AxisRange} {rs re cs ce : Nat}
    (ha : x.At id ⟨s, .span rs re, .span cs ce⟩) (hi1 : AxisRange.intersects (.span rs re) qr = true) (hi2 : AxisRange.intersects (.span cs ce) qc = true) (k1 : AxisRange.Ok (.span rs re)) (k2 : AxisRange.Ok (.span cs ce)) (k3 : AxisRange.Ok qr) (k4 : AxisRange.Ok qc) : id ∈ x.collect ⟨s, qr, qc⟩ := by
  cases qr <;> cases qc <;> simp only [collect] <;> try exact f_entries ha
  all_goals
    simp only [AxisRange.intersects, AxisRange.Ok, Bool.and_eq_true, decide_eq_true_eq, beq_iff_eq, ge_iff_le]
      at hi1 hi2 k1 k2 k3 k4
  all_goals
    obtain ⟨k1, k1'⟩ := k1
    obtain ⟨k2, k2'⟩ := k2
    first
    | pick (f_rectKey h ha (by omega) (by omega) (by omega) (by omega))
    | pick (f_rectColSpan h ha (by omega) (by omega) (by omega) (by omega) (by omega) (by omega))
    | pick (f_rectRowSpan h ha (by omega) (by omega) (by omega) (by omega) (by omega) (by omega))
    | pick (f_rectRect h ha (by omega) (by omega) (by omega) (by omega) (by omega) (by omega) (by omega) (by omega))
    | pick (f_rectMatching (row := re) (col := ce) h ha (by omega) (by omega) (by omega) (by omega)
        (by first | rfl | exact decide_eq_true (rowBucket_mono hi1) | exact decide_eq_true (colBucket_mono hi2)))
    | pick (f_rectMatching (col := cs) h ha hi1.1 hi1.2 (by omega) (by omega) (by exact beq_self_eq_true _))
    | pick (f_rectMatching (row := rs) h ha (by omega) (by omega) hi2.1 hi2.2 (by exact beq_self_eq_true _))
set_option maxHeartbeats 800000 in
private theorem c_fa {x : Index} (h : x.Inv) {id s : Nat} {qr qc : AxisRange} {k : Nat}
    (ha : x.At id ⟨s, .from_ k, .all⟩) (hi1 : AxisRange.intersects (.from_ k) qr = true) (k1 : AxisRange.Ok (.from_ k)) : id ∈ x.collect ⟨s, qr, qc⟩ := by
  cases qr <;> cases qc <;> simp only [collect] <;> try exact f_entries ha
  all_goals
    simp only [AxisRange.intersects, AxisRange.Ok, Bool.and_eq_true, decide_eq_true_eq, beq_iff_eq, ge_iff_le]
      at hi1 k1
  all_goals pick (f_rowsFrom h ha (by omega))
set_option maxHeartbeats 800000 in
private theorem c_af {x : Index} (h : x.Inv) {id s : Nat} {qr qc : AxisRange} {k : Nat}
    (ha : x.At id ⟨s, .all, .from_ k⟩) (hi2 : AxisRange.intersects (.from_ k) qc = true) (k2 : AxisRange.Ok (.from_ k)) : id ∈ x.collect ⟨s, qr, qc⟩ := by
  cases qr <;> cases qc <;> simp only [collect] <;> try exact f_entries ha
  all_goals
    simp only [AxisRange.intersects, AxisRange.Ok, Bool.and_eq_true, decide_eq_true_eq, beq_iff_eq, ge_iff_le]
      at hi2 k2
  all_goals pick (f_colsFrom h ha (by omega))
set_option maxHeartbeats 800000 in
private theorem c_pa {x : Index} (h : x.Inv) {id s : Nat} {qr qc : AxisRange} {k : Nat}
    (ha : x.At id ⟨s, .point k, .all⟩) (hi1 : AxisRange.intersects (.point k) qr = true) : id ∈ x.collect ⟨s, qr, qc⟩ := by
  cases qr <;> cases qc <;> simp only [collect] <;> try exact f_entries ha
  all_goals
    simp only [AxisRange.intersects, AxisRange.Ok, Bool.and_eq_true, decide_eq_true_eq, beq_iff_eq, ge_iff_le]
      at hi1
  all_goals first
    | (subst hi1; pick (f_wholeRow h ha))
    | pick (f_wholeRows h ha (by so))
set_option maxHeartbeats 800000 in
private theorem c_ap {x : Index} (h : x.Inv) {id s : Nat} {qr qc : AxisRange} {k : Nat}
    (ha : x.At id ⟨s, .all, .point k⟩) (hi2 : AxisRange.intersects (.point k) qc = true) : id ∈ x.collect ⟨s, qr, qc⟩ := by
  cases qr <;> cases qc <;> simp only [collect] <;> try exact f_entries ha
  all_goals
    simp only [AxisRange.intersects, AxisRange.Ok, Bool.and_eq_true, decide_eq_true_eq, beq_iff_eq, ge_iff_le]
      at hi2
  all_goals first
    | (subst hi2; pick (f_wholeCol h ha))
    | pick (f_wholeCols h ha (by so))
/-- Every entry that meets the query is among the candidates. -/
theorem collect_complete {x : Index} (h : x.Inv) {id : Nat} {r q : Region} (ha : x.At id r) (hr : r.Ok) (hq : q.Ok)
    (hi : r.intersects q = true) : id ∈ x.collect q := by
  obtain ⟨s, rows, cols⟩ := r
  obtain ⟨s', qr, qc⟩ := q
  have hs : s = s' := by
    simp only [Region.intersects, Bool.and_eq_true, beq_iff_eq] at hi
    exact hi.1.1
  subst hs
  have hi1 : rows.intersects qr = true := by
    simp only [Region.intersects, Bool.and_eq_true, beq_iff_eq] at hi
    exact hi.1.2
  have hi2 : cols.intersects qc = true := by
    simp only [Region.intersects, Bool.and_eq_true, beq_iff_eq] at hi
    exact hi.2
  have k1 := hr.1
  have k2 := hr.2
  have k3 := hq.1
  have k4 := hq.2
  clear hi hr hq
  dsimp only at k1 k2 k3 k4
  by_cases hd : direct rows cols = false
  · have hw := f_sheet h ha hd
    have he := f_entries ha
    cases qr <;> cases qc <;> simp only [collect] <;> first | exact List.mem_append_right _ hw | exact he
  · cases rows <;> cases cols <;> first
      | exact absurd rfl hd
      | exact c_pp h ha hi1 hi2
      | exact c_sp h ha hi1 hi2 k1
      | exact c_ps h ha hi1 hi2 k2
      | exact c_ss h ha hi1 hi2 k1 k2 k3 k4
      | exact c_fa h ha hi1 k1
      | exact c_af h ha hi2 k2
      | exact c_pa h ha hi1
      | exact c_ap h ha hi2

end Index
end Verif.Plane
