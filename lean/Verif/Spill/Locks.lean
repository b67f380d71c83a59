import Verif.Interval.Props
import Verif.Edges.Lemmas

/-!
# Region reservations of array results

Model of `crates/formualizer-eval/src/engine/spill.rs` 50-126 (`RegionLockManager`) and of the part of
`crates/formualizer-eval/src/engine/eval.rs` 23140-23191 (`ShimSpillManager`) that takes and gives back reservations.

Hash maps keyed by sheet are functions from sheet numbers, a missing tree being the empty tree.  The map of locks is a
list with one entry per id.  Coordinates are natural numbers (they are `u32`, never computed with here, except for the
saturating end of a region, see `regionOf`).  The lock id counter wraps at 2^64 as in the source.
-/

namespace Verif.Spill

open Verif.Interval (Tree)

/-- spill.rs 60-67 `Region`; both ends are inside. -/
structure Region where
  sheet : Nat
  rowStart : Nat
  rowEnd : Nat
  colStart : Nat
  colEnd : Nat
deriving DecidableEq, Repr

/-- spill.rs 69-74 `RegionLock`. -/
structure Lock where
  id : Nat
  owner : Nat
  region : Region
deriving DecidableEq, Repr

/-- spill.rs 50-58 `RegionLockManager`. -/
structure Mgr where
  nextId : Nat := 0
  rows : Nat → Tree Nat := fun _ => {}
  cols : Nat → Tree Nat := fun _ => {}
  locks : List Lock := []

/-- Ids found by an overlap query: spill.rs 86-91 and 93-98. -/
def idsIn (t : Tree Nat) (lo hi : Nat) : List Nat := (Interval.query t lo hi).flatMap fun e => e.2.2

/-- spill.rs 92-105: some id is found in both directions. -/
def conflicts (m : Mgr) (r : Region) : Bool :=
  (idsIn (m.rows r.sheet) r.rowStart r.rowEnd).any fun id =>
    (idsIn (m.cols r.sheet) r.colStart r.colEnd).contains id

/-- spill.rs 109: `self.next_id.wrapping_add(1).max(1)`. -/
def bump (n : Nat) : Nat := max ((n + 1) % 2 ^ 64) 1

/-- Replace one entry of a per-sheet map. -/
def setAt (f : Nat → Tree Nat) (s : Nat) (t : Tree Nat) : Nat → Tree Nat := fun s' => if s' = s then t else f s'

/-- spill.rs 77-115 `reserve`; `none` is the `#SPILL!` refusal. -/
def reserve (m : Mgr) (r : Region) (owner : Nat) : Mgr × Option Nat :=
  if r.rowEnd < r.rowStart || r.colEnd < r.colStart then (m, some 0)
  else if conflicts m r then (m, none)
  else
    let id := bump m.nextId
    ({ nextId := id
       rows := setAt m.rows r.sheet (Interval.insert (m.rows r.sheet) r.rowStart r.rowEnd id)
       cols := setAt m.cols r.sheet (Interval.insert (m.cols r.sheet) r.colStart r.colEnd id)
       locks := ⟨id, owner, r⟩ :: m.locks.filter fun l => l.id ≠ id }, some id)

/-- spill.rs 117-129 `release`. -/
def release (m : Mgr) (id : Nat) : Mgr :=
  if id = 0 then m
  else match m.locks.find? fun l => l.id == id with
    | none => m
    | some l =>
      { m with
        locks := m.locks.filter fun l => l.id ≠ id
        rows := setAt m.rows l.region.sheet
          (Interval.remove (m.rows l.region.sheet) l.region.rowStart l.region.rowEnd l.id).1
        cols := setAt m.cols l.region.sheet
          (Interval.remove (m.cols l.region.sheet) l.region.colStart l.region.colEnd l.id).1 }

/-- The two calls a user of the manager can make. -/
inductive LockOp
  | reserve (r : Region) (owner : Nat)
  | release (id : Nat)

def lockStep (m : Mgr) : LockOp → Mgr
  | .reserve r o => (reserve m r o).1
  | .release id => release m id

def lockRun (ops : List LockOp) : Mgr := ops.foldl lockStep {}

/-- `ShimSpillManager` (eval.rs 23142-23145): the manager and the reservation held per owner. -/
structure Shim where
  mgr : Mgr := {}
  active : Nat → Option Nat := fun _ => none

/-- Set or forget one key of a map. -/
def put {K V : Type} [DecidableEq K] (f : K → V) (k : K) (v : V) : K → V := fun k' => if k' = k then v else f k'

/-- Saturating `u32` addition. -/
def satAdd (a b : Nat) : Nat := min (a + b) (2 ^ 32 - 1)

/-- eval.rs 23156-23170: the region of an anchor and a shape (`saturating_add(rows).saturating_sub(1)`). -/
def regionOf (sheet row col h w : Nat) : Region :=
  { sheet, rowStart := row, rowEnd := satAdd row h - 1, colStart := col, colEnd := satAdd col w - 1 }

/-- eval.rs 23148-23180 `ShimSpillManager::reserve`; the flag tells success. -/
def shimReserve (s : Shim) (owner sheet row col h w : Nat) : Shim × Bool :=
  match reserve s.mgr (regionOf sheet row col h w) owner with
  | (m, some id) => ({ mgr := m, active := if id = 0 then s.active else put s.active owner (some id) }, true)
  | (m, none) => ({ s with mgr := m }, false)

/-- eval.rs 23187-23191 `release_owner`; the same three lines are in 23216-23218, 23275-23277, 23294-23296. -/
def releaseOwner (s : Shim) (owner : Nat) : Shim :=
  match s.active owner with
  | none => s
  | some id => { mgr := release s.mgr id, active := put s.active owner none }

/-! ## Specification -/

/-- The cells of a region. -/
def Region.Has (r : Region) (sheet row col : Nat) : Prop :=
  sheet = r.sheet ∧ r.rowStart ≤ row ∧ row ≤ r.rowEnd ∧ r.colStart ≤ col ∧ col ≤ r.colEnd

/-- Two regions share a cell. -/
def Overlap (a b : Region) : Prop := ∃ s row col, a.Has s row col ∧ b.Has s row col

/-- A region with at least one cell. -/
def Region.NonEmpty (r : Region) : Prop := r.rowStart ≤ r.rowEnd ∧ r.colStart ≤ r.colEnd

/-! ## Invariant -/

structure LockInv (m : Mgr) : Prop where
  rows : ∀ s, Interval.Inv (m.rows s) fun lo hi id =>
    ∃ l ∈ m.locks, l.id = id ∧ l.region.sheet = s ∧ l.region.rowStart = lo ∧ l.region.rowEnd = hi
  cols : ∀ s, Interval.Inv (m.cols s) fun lo hi id =>
    ∃ l ∈ m.locks, l.id = id ∧ l.region.sheet = s ∧ l.region.colStart = lo ∧ l.region.colEnd = hi
  uniq : ∀ a ∈ m.locks, ∀ b ∈ m.locks, a.id = b.id → a = b
  range : ∀ a ∈ m.locks, 1 ≤ a.id ∧ a.id ≤ m.nextId
  full : ∀ a ∈ m.locks, a.region.NonEmpty
  disj : ∀ a ∈ m.locks, ∀ b ∈ m.locks, a.id ≠ b.id → ¬ Overlap a.region b.region

theorem mem_idsIn {t : Tree Nat} {E : Nat → Nat → Nat → Prop} (h : Interval.Inv t E) (lo hi id : Nat) :
    id ∈ idsIn t lo hi ↔ ∃ l k, E l k id ∧ l ≤ hi ∧ lo ≤ k := by
  unfold idsIn
  simp only [List.mem_flatMap]
  constructor
  · rintro ⟨⟨l, k, vs⟩, he, hid⟩
    obtain ⟨hg, h1, h2⟩ := (Interval.mem_query h.str lo hi l k vs).1 he
    exact ⟨l, k, (h.rel l k id).2 ⟨vs, hg, hid⟩, h1, h2⟩
  · rintro ⟨l, k, he, h1, h2⟩
    obtain ⟨vs, hg, hv⟩ := (h.rel l k id).1 he
    exact ⟨(l, k, vs), (Interval.mem_query h.str lo hi l k vs).2 ⟨hg, h1, h2⟩, hv⟩

theorem overlap_iff (a b : Region) (ha : a.NonEmpty) (hb : b.NonEmpty) :
    Overlap a b ↔ a.sheet = b.sheet ∧ a.rowStart ≤ b.rowEnd ∧ b.rowStart ≤ a.rowEnd ∧
      a.colStart ≤ b.colEnd ∧ b.colStart ≤ a.colEnd := by
  unfold Overlap Region.Has
  unfold Region.NonEmpty at ha hb
  constructor
  · rintro ⟨s, row, col, h1, h2⟩
    refine ⟨by omega, by omega, by omega, by omega, by omega⟩
  · rintro ⟨h0, h1, h2, h3, h4⟩
    exact ⟨a.sheet, max a.rowStart b.rowStart, max a.colStart b.colStart, by omega, by omega⟩

theorem conflicts_iff {m : Mgr} (h : LockInv m) (r : Region) (hr : r.NonEmpty) :
    conflicts m r = true ↔ ∃ l ∈ m.locks, Overlap l.region r := by
  unfold conflicts
  simp only [List.any_eq_true, List.contains_iff_mem]
  constructor
  · rintro ⟨id, h1, h2⟩
    obtain ⟨a, b, ⟨l, hl, e1, e2, e3, e4⟩, h3, h4⟩ := (mem_idsIn (h.rows r.sheet) _ _ _).1 h1
    obtain ⟨c, d, ⟨l', hl', e1', e2', e3', e4'⟩, h5, h6⟩ := (mem_idsIn (h.cols r.sheet) _ _ _).1 h2
    have : l = l' := h.uniq l hl l' hl' (by omega)
    subst this
    refine ⟨l, hl, (overlap_iff _ _ (h.full l hl) hr).2 ⟨e2, ?_, ?_, ?_, ?_⟩⟩ <;> omega
  · rintro ⟨l, hl, ho⟩
    obtain ⟨h0, h1, h2, h3, h4⟩ := (overlap_iff _ _ (h.full l hl) hr).1 ho
    exact ⟨l.id, (mem_idsIn (h.rows r.sheet) _ _ _).2 ⟨_, _, ⟨l, hl, rfl, h0, rfl, rfl⟩, h1, h2⟩,
      (mem_idsIn (h.cols r.sheet) _ _ _).2 ⟨_, _, ⟨l, hl, rfl, h0, rfl, rfl⟩, h3, h4⟩⟩

theorem lockInv_init : LockInv {} := by
  refine ⟨fun s => ?_, fun s => ?_, ?_, ?_, ?_, ?_⟩ <;> simp [Interval.inv_init]

theorem bump_eq {n : Nat} (h : n + 1 < 2 ^ 64) : bump n = n + 1 := by
  unfold bump; rw [Nat.mod_eq_of_lt h]; omega

theorem filter_fresh {m : Mgr} (h : LockInv m) : (m.locks.filter fun l => l.id ≠ m.nextId + 1) = m.locks := by
  rw [List.filter_eq_self]
  intro a ha
  have := h.range a ha
  simp; omega

theorem lockInv_reserve {m : Mgr} (h : LockInv m) (r : Region) (o : Nat) (hn : m.nextId + 1 < 2 ^ 64) :
    LockInv (reserve m r o).1 ∧ (reserve m r o).1.nextId ≤ m.nextId + 1 := by
  unfold reserve
  split
  · exact ⟨h, by simp⟩
  rename_i hv
  split
  · exact ⟨h, by simp⟩
  rename_i hc
  have hr : r.NonEmpty := by
    simp only [Bool.or_eq_true, decide_eq_true_eq, not_or, Nat.not_lt] at hv; exact hv
  have hno : ∀ l ∈ m.locks, ¬ Overlap l.region r := by
    intro l hl ho; exact hc ((conflicts_iff h r hr).2 ⟨l, hl, ho⟩)
  simp only [bump_eq hn, filter_fresh h]
  refine ⟨⟨?_, ?_, ?_, ?_, ?_, ?_⟩, Nat.le_refl _⟩
  · intro s
    simp only [setAt]
    split
    · rename_i hs; subst hs
      refine (Interval.inv_insert (h.rows r.sheet) r.rowStart r.rowEnd (m.nextId + 1)).congr ?_
      intro lo hi x
      simp only [List.mem_cons, exists_eq_or_imp]
      constructor
      · rintro (⟨rfl, rfl, rfl⟩ | h') <;> simp_all
      · rintro (⟨rfl, -, rfl, rfl⟩ | h') <;> simp_all
    · rename_i hs
      refine (h.rows s).congr ?_
      intro lo hi x
      simp only [List.mem_cons, exists_eq_or_imp]
      constructor
      · intro h'; exact Or.inr h'
      · rintro (⟨-, rfl, -⟩ | h')
        · exact absurd rfl hs
        · exact h'
  · intro s
    simp only [setAt]
    split
    · rename_i hs; subst hs
      refine (Interval.inv_insert (h.cols r.sheet) r.colStart r.colEnd (m.nextId + 1)).congr ?_
      intro lo hi x
      simp only [List.mem_cons, exists_eq_or_imp]
      constructor
      · rintro (⟨rfl, rfl, rfl⟩ | h') <;> simp_all
      · rintro (⟨rfl, -, rfl, rfl⟩ | h') <;> simp_all
    · rename_i hs
      refine (h.cols s).congr ?_
      intro lo hi x
      simp only [List.mem_cons, exists_eq_or_imp]
      constructor
      · intro h'; exact Or.inr h'
      · rintro (⟨-, rfl, -⟩ | h')
        · exact absurd rfl hs
        · exact h'
  · intro a ha b hb hab
    rcases List.mem_cons.1 ha with rfl | ha <;> rcases List.mem_cons.1 hb with rfl | hb
    · rfl
    · have := h.range b hb; simp at hab; omega
    · have := h.range a ha; simp at hab; omega
    · exact h.uniq a ha b hb hab
  · intro a ha
    rcases List.mem_cons.1 ha with rfl | ha
    · simp
    · have := h.range a ha; simp; omega
  · intro a ha
    rcases List.mem_cons.1 ha with rfl | ha
    · exact hr
    · exact h.full a ha
  · intro a ha b hb hab ho
    rcases List.mem_cons.1 ha with rfl | ha <;> rcases List.mem_cons.1 hb with rfl | hb
    · exact hab rfl
    · obtain ⟨s, x, y, h1, h2⟩ := ho; exact hno b hb ⟨s, x, y, h2, h1⟩
    · exact hno a ha ho
    · exact h.disj a ha b hb hab ho

theorem lockInv_release {m : Mgr} (h : LockInv m) (id : Nat) :
    LockInv (release m id) ∧ (release m id).nextId = m.nextId ∧
    (release m id).locks = m.locks.filter fun l => l.id ≠ id := by
  have hnone : (∀ l ∈ m.locks, l.id ≠ id) → (m.locks.filter fun l => l.id ≠ id) = m.locks := by
    intro hh; rw [List.filter_eq_self]; intro a ha; simpa using hh a ha
  unfold release
  split
  · rename_i h0
    refine ⟨h, rfl, (hnone fun l hl => ?_).symm⟩
    have := h.range l hl; omega
  split
  · rename_i hf
    refine ⟨h, rfl, (hnone fun l hl => ?_).symm⟩
    have := List.find?_eq_none.1 hf l hl
    simpa using this
  · rename_i L hf
    have hL := List.mem_of_find?_eq_some hf
    have hid : L.id = id := by have := List.find?_some hf; simpa using this
    refine ⟨⟨?_, ?_, ?_, ?_, ?_, ?_⟩, rfl, rfl⟩
    · intro s
      simp only [setAt]
      have key : ∀ lo hi x, ((∃ l ∈ m.locks, l.id = x ∧ l.region.sheet = s ∧ l.region.rowStart = lo ∧ l.region.rowEnd = hi) ∧
            ¬ (s = L.region.sheet ∧ lo = L.region.rowStart ∧ hi = L.region.rowEnd ∧ x = L.id)) ↔
          ∃ l ∈ m.locks.filter (fun l => l.id ≠ id), l.id = x ∧ l.region.sheet = s ∧ l.region.rowStart = lo ∧ l.region.rowEnd = hi := by
        intro lo hi x
        constructor
        · rintro ⟨⟨l, hl, rfl, rfl, rfl, rfl⟩, hn⟩
          refine ⟨l, ?_, rfl, rfl, rfl, rfl⟩
          rw [List.mem_filter]
          refine ⟨hl, ?_⟩
          simp only [ne_eq, decide_not, Bool.not_eq_eq_eq_not, Bool.not_true, decide_eq_false_iff_not]
          intro hc
          have := h.uniq l hl L hL (hc.trans hid.symm)
          subst this
          exact hn ⟨rfl, rfl, rfl, rfl⟩
        · rintro ⟨l, hl, rfl, rfl, rfl, rfl⟩
          rw [List.mem_filter] at hl
          refine ⟨⟨l, hl.1, rfl, rfl, rfl, rfl⟩, ?_⟩
          rintro ⟨-, -, -, hc⟩
          have := hl.2
          simp only [ne_eq, decide_not, Bool.not_eq_eq_eq_not, Bool.not_true, decide_eq_false_iff_not] at this
          exact this (hc.trans hid)
      split
      · rename_i hs; subst hs
        refine (Interval.inv_remove (h.rows _) L.region.rowStart L.region.rowEnd L.id).1.congr ?_
        intro lo hi x
        rw [← key]; simp
      · rename_i hs
        refine (h.rows s).congr ?_
        intro lo hi x
        rw [← key]
        constructor
        · intro hh; exact ⟨hh, fun hc => hs hc.1⟩
        · exact fun hh => hh.1
    · intro s
      simp only [setAt]
      have key : ∀ lo hi x, ((∃ l ∈ m.locks, l.id = x ∧ l.region.sheet = s ∧ l.region.colStart = lo ∧ l.region.colEnd = hi) ∧
            ¬ (s = L.region.sheet ∧ lo = L.region.colStart ∧ hi = L.region.colEnd ∧ x = L.id)) ↔
          ∃ l ∈ m.locks.filter (fun l => l.id ≠ id), l.id = x ∧ l.region.sheet = s ∧ l.region.colStart = lo ∧ l.region.colEnd = hi := by
        intro lo hi x
        constructor
        · rintro ⟨⟨l, hl, rfl, rfl, rfl, rfl⟩, hn⟩
          refine ⟨l, ?_, rfl, rfl, rfl, rfl⟩
          rw [List.mem_filter]
          refine ⟨hl, ?_⟩
          simp only [ne_eq, decide_not, Bool.not_eq_eq_eq_not, Bool.not_true, decide_eq_false_iff_not]
          intro hc
          have := h.uniq l hl L hL (hc.trans hid.symm)
          subst this
          exact hn ⟨rfl, rfl, rfl, rfl⟩
        · rintro ⟨l, hl, rfl, rfl, rfl, rfl⟩
          rw [List.mem_filter] at hl
          refine ⟨⟨l, hl.1, rfl, rfl, rfl, rfl⟩, ?_⟩
          rintro ⟨-, -, -, hc⟩
          have := hl.2
          simp only [ne_eq, decide_not, Bool.not_eq_eq_eq_not, Bool.not_true, decide_eq_false_iff_not] at this
          exact this (hc.trans hid)
      split
      · rename_i hs; subst hs
        refine (Interval.inv_remove (h.cols _) L.region.colStart L.region.colEnd L.id).1.congr ?_
        intro lo hi x
        rw [← key]; simp
      · rename_i hs
        refine (h.cols s).congr ?_
        intro lo hi x
        rw [← key]
        constructor
        · intro hh; exact ⟨hh, fun hc => hs hc.1⟩
        · exact fun hh => hh.1
    · intro a ha b hb hab
      exact h.uniq a (List.mem_filter.1 ha).1 b (List.mem_filter.1 hb).1 hab
    · intro a ha; exact h.range a (List.mem_filter.1 ha).1
    · intro a ha; exact h.full a (List.mem_filter.1 ha).1
    · intro a ha b hb hab
      exact h.disj a (List.mem_filter.1 ha).1 b (List.mem_filter.1 hb).1 hab

theorem lockInv_run (ops : List LockOp) (hn : ops.length < 2 ^ 64) :
    LockInv (lockRun ops) ∧ (lockRun ops).nextId ≤ ops.length := by
  induction ops using Edges.snocInd with
  | h0 => exact ⟨lockInv_init, Nat.le_refl _⟩
  | h1 l op ih =>
    rw [List.length_append, List.length_singleton] at hn
    obtain ⟨h1, h2⟩ := ih (by omega)
    unfold lockRun at *
    rw [List.foldl_append, List.foldl_cons, List.foldl_nil, List.length_append, List.length_singleton]
    cases op with
    | reserve r o =>
      obtain ⟨h3, h4⟩ := lockInv_reserve h1 r o (by omega)
      exact ⟨h3, by simp only [lockStep]; omega⟩
    | release id =>
      obtain ⟨h3, h4, -⟩ := lockInv_release h1 id
      exact ⟨h3, by simp only [lockStep]; omega⟩

/-! ## Theorems -/

/-- **C43** Two reservations that are both in force never share a cell, whatever was reserved and released before. -/
theorem locks_disjoint (ops : List LockOp) (hn : ops.length < 2 ^ 64) (a b : Lock) (ha : a ∈ (lockRun ops).locks)
    (hb : b ∈ (lockRun ops).locks) (hab : a.id ≠ b.id) : ¬ Overlap a.region b.region :=
  (lockInv_run ops hn).1.disj a ha b hb hab

/-- **C43** A reservation of a non-empty region is refused exactly when a reservation in force shares a cell with it. -/
theorem reserve_refused_iff (ops : List LockOp) (hn : ops.length < 2 ^ 64) (r : Region) (o : Nat) (hr : r.NonEmpty) :
    (reserve (lockRun ops) r o).2 = none ↔ ∃ l ∈ (lockRun ops).locks, Overlap l.region r := by
  rw [← conflicts_iff (lockInv_run ops hn).1 r hr]
  unfold Region.NonEmpty at hr
  unfold reserve
  rw [if_neg (by simp; omega)]
  split <;> simp_all

/-- **C43** A granted reservation is in force, under an id that no other reservation in force has and that is not 0. -/
theorem reserve_granted (ops : List LockOp) (hn : ops.length + 1 < 2 ^ 64) (r : Region) (o id : Nat) (hr : r.NonEmpty)
    (h : (reserve (lockRun ops) r o).2 = some id) :
    id ≠ 0 ∧ (∀ l ∈ (lockRun ops).locks, l.id ≠ id) ∧
    (reserve (lockRun ops) r o).1.locks = ⟨id, o, r⟩ :: (lockRun ops).locks := by
  obtain ⟨hi, hl⟩ := lockInv_run ops (by omega)
  have hb : (lockRun ops).nextId + 1 < 2 ^ 64 := by omega
  unfold Region.NonEmpty at hr
  unfold reserve at h ⊢
  rw [if_neg (by simp; omega)] at h ⊢
  split at h
  · simp at h
  · rename_i hc
    rw [if_neg hc]
    simp only [bump_eq hb, Option.some.injEq, filter_fresh hi] at h ⊢
    subst h
    exact ⟨by omega, fun l hl => by have := hi.range l hl; omega, rfl⟩

/-- **C43** Releasing an id ends that reservation and no other. -/
theorem release_exact (ops : List LockOp) (hn : ops.length < 2 ^ 64) (id : Nat) (l : Lock) :
    l ∈ (release (lockRun ops) id).locks ↔ l ∈ (lockRun ops).locks ∧ l.id ≠ id := by
  rw [(lockInv_release (lockInv_run ops hn).1 id).2.2, List.mem_filter]; simp

/-- The theorems speak about real situations: three reservations, one refused, one released and taken again. -/
example :
    let m0 := lockRun [.reserve ⟨0, 0, 2, 0, 0⟩ 7, .reserve ⟨0, 0, 2, 1, 3⟩ 8, .reserve ⟨1, 0, 2, 0, 0⟩ 9]
    m0.locks.length = 3 ∧ (reserve m0 ⟨0, 2, 5, 3, 3⟩ 10).2 = none ∧
    (reserve (release m0 2) ⟨0, 2, 5, 3, 3⟩ 10).2 = some 4 := by decide +kernel

end Verif.Spill
