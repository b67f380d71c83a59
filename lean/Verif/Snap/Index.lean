import Mathlib.Data.List.Basic

/-!
# Lookup indexes kept by data snapshot

Model of `/repo/crates/formualizer-eval/src/engine/lookup_index_cache.rs` 11-27, 99-174, 224-392 and `eval.rs` 3579-3680.  How an index is searched is in `Verif.Lookup.Exact`; here an index is the list of values from which it was
built.  One thread; counters for reports, additions that stop at the largest `usize` and poisoned locks are left out.
-/

namespace Verif.Snap.Index

/-- Values as far as indexes tell them apart: empty, a value by its key, something without a key, an error. -/
inductive Val
  | empty
  | key (k : Nat)
  | other
  | err
  deriving DecidableEq

/-- lookup_index_cache.rs 23-27. -/
inductive Axis
  | col (n : Nat)
  | row (n : Nat)
  deriving DecidableEq

/-- A key without its snapshot (lookup_index_cache.rs 12-21), with both corners included. -/
structure Req where
  sheet : Nat
  r0 : Nat
  c0 : Nat
  r1 : Nat
  c1 : Nat
  axis : Axis
  deriving DecidableEq

/-- Values and which cells have a formula that is volatile itself (`is_volatile`, set from the formula only: ingest_pipeline.rs 307-330). -/
structure Data where
  cell : Nat → Nat → Nat → Val
  vol : Nat → Nat → Nat → Bool

def Req.rows (q : Req) : Nat := q.r1 + 1 - q.r0
def Req.cols (q : Req) : Nat := q.c1 + 1 - q.c0

/-- eval.rs 3611-3631: the length along the axis, if there is one. -/
def Req.len (q : Req) : Option Nat :=
  if q.rows = 0 ∨ q.cols = 0 then none
  else match q.axis with
    | .col c => if c ≥ q.cols then none else some q.rows
    | .row r => if r ≥ q.rows then none else some q.cols

/-- The values along the axis (lookup_index_cache.rs 131-135). -/
def line (d : Data) (q : Req) : List Val :=
  match q.axis with
  | .col c => (List.range q.rows).map fun i => d.cell q.sheet (q.r0 + i) (q.c0 + c)
  | .row r => (List.range q.cols).map fun i => d.cell q.sheet (q.r0 + r) (q.c0 + i)

/-- eval.rs 3579-3604. -/
def hasVolatile (d : Data) (q : Req) : Bool := (List.range q.rows).any fun i => (List.range q.cols).any fun j => d.vol q.sheet (q.r0 + i) (q.c0 + j)

/-- lookup_index_cache.rs 223-227; `s` is the size of a value and 8. -/
def estimate (s len entries : Nat) : Nat := len * s + entries * 96 + 256

/-- The number of different keys. -/
def keys (l : List Val) : Nat := (l.filter fun v => decide (v ≠ .other ∧ v ≠ .err)).eraseDups.length

/-- `LookupIndex::build` (lookup_index_cache.rs 107-174): not with an error in the line. -/
def build (d : Data) (q : Req) : Option (List Val) := if Val.err ∈ line d q then none else some (line d q)

structure Engine where
  data : Data
  snapshot : Nat := 1
  size : Nat
  maxBytes : Nat
  entries : List ((Req × Nat) × List Val) := []
  counts : List ((Req × Nat) × Nat) := []
  vols : List Req := []
  bytes : Nat := 0

/-- `should_build` (lookup_index_cache.rs 307-323). -/
def Engine.count (e : Engine) (q : Req) : Engine × Bool :=
  let k := (q, e.snapshot)
  let kept := if e.counts.length > 4096 then e.counts.filter fun p => decide (p.1.2 = e.snapshot) else e.counts
  let n := (kept.lookup k).getD 0 + 1
  ({ e with counts := (k, n) :: kept.filter fun p => decide (p.1 ≠ k) }, decide (¬n ≤ 3))

/-- `note_volatile_key` (lookup_index_cache.rs 340-347). -/
def Engine.noteVolatile (e : Engine) (q : Req) : Engine :=
  let kept := if e.vols.length > 4096 then [] else e.vols
  { e with vols := q :: kept.filter fun p => decide (p ≠ q) }

/-- `insert_if_room` (lookup_index_cache.rs 349-373). -/
def Engine.insert (e : Engine) (q : Req) (l : List Val) : Engine × Option (List Val) :=
  let b := estimate e.size l.length (keys l)
  if e.bytes + b > e.maxBytes then (e, none)
  else match e.entries.lookup (q, e.snapshot) with
    | some x => (e, some x)
    | none => ({ e with entries := ((q, e.snapshot), l) :: e.entries, bytes := e.bytes + b }, some l)

/-- `build_lookup_index_impl` (eval.rs 3606-3680). -/
def Engine.ask (e : Engine) (q : Req) : Engine × Option (List Val) :=
  match q.len with
  | none => (e, none)
  | some n =>
    if n < 64 then (e, none)
    else match e.entries.lookup (q, e.snapshot) with
      | some x => (e, some x)
      | none =>
        if e.bytes + estimate e.size n 0 > e.maxBytes then (e, none)
        else
          let c := e.count q
          if c.2 = false then (c.1, none)
          else if q ∈ c.1.vols then (c.1, none)
          else if hasVolatile c.1.data q then (c.1.noteVolatile q, none)
          else match build c.1.data q with
            | none => (c.1, none)
            | some l => c.1.insert q l

inductive Op
  | edit (d : Data)
  | write (d : Data)
  | ask (q : Req)

def Engine.apply (e : Engine) : Op → Engine
  | .edit d => { e with data := d, snapshot := e.snapshot + 1 }
  | .write d => { e with data := d }
  | .ask q => (e.ask q).1

def Engine.run (e : Engine) (os : List Op) : Engine := os.foldl Engine.apply e

/-- A new engine. -/
def start (d : Data) (size maxBytes : Nat) : Engine := { data := d, size := size, maxBytes := maxBytes }

/-! ## Specification -/

/-- Evaluation changes no value once an index was asked for since the last edit. -/
def Calm : Bool → Data → List Op → Prop
  | _, _, [] => True
  | _, _, .edit d :: os => Calm false d os
  | asked, d, .write d' :: os => (asked = true → d'.cell = d.cell) ∧ Calm asked d' os
  | _, d, .ask _ :: os => Calm true d os

/-- No edits among the operations. -/
def NoEdit (os : List Op) : Prop := ∀ o ∈ os, ∀ d, o ≠ .edit d

/-- How often the operations ask for this range. -/
def asks (q : Req) (os : List Op) : Nat := os.countP fun o => match o with | .ask q' => decide (q' = q) | _ => false

/-! ## Proofs -/

theorem count_data (e : Engine) (q : Req) : (e.count q).1.data = e.data ∧ (e.count q).1.snapshot = e.snapshot ∧ (e.count q).1.entries = e.entries ∧ (e.count q).1.bytes = e.bytes ∧
    (e.count q).1.maxBytes = e.maxBytes ∧ (e.count q).1.size = e.size ∧ (e.count q).1.vols = e.vols := ⟨rfl, rfl, rfl, rfl, rfl, rfl, rfl⟩

/-- The step of the cache seen from outside: nothing changes but counts and known volatile ranges, or one entry is added. -/
theorem ask_cases (e : Engine) (q : Req) :
    ((e.ask q).1.data = e.data ∧ (e.ask q).1.snapshot = e.snapshot ∧ (e.ask q).1.size = e.size ∧ (e.ask q).1.maxBytes = e.maxBytes) ∧
    (((e.ask q).1.entries = e.entries ∧ (e.ask q).1.bytes = e.bytes ∧ ∀ x, (e.ask q).2 = some x → e.entries.lookup (q, e.snapshot) = some x) ∨
     (e.entries.lookup (q, e.snapshot) = none ∧ ∃ n, q.len = some n ∧ ¬n < 64 ∧ ¬e.bytes + estimate e.size n 0 > e.maxBytes ∧ (e.count q).2 = true ∧ build e.data q = some (line e.data q) ∧
      (e.ask q).1.entries = ((q, e.snapshot), line e.data q) :: e.entries ∧ (e.ask q).1.bytes = e.bytes + estimate e.size (line e.data q).length (keys (line e.data q)) ∧
      (e.ask q).1.bytes ≤ e.maxBytes ∧ (e.ask q).2 = some (line e.data q))) := by
  have trivial' : ∀ e' : Engine, e'.data = e.data → e'.snapshot = e.snapshot → e'.size = e.size → e'.maxBytes = e.maxBytes → e'.entries = e.entries → e'.bytes = e.bytes →
      ((e', (none : Option (List Val))).1.data = e.data ∧ (e', (none : Option (List Val))).1.snapshot = e.snapshot ∧ (e', (none : Option (List Val))).1.size = e.size ∧
        (e', (none : Option (List Val))).1.maxBytes = e.maxBytes) ∧ (e', (none : Option (List Val))).1.entries = e.entries ∧ (e', (none : Option (List Val))).1.bytes = e.bytes ∧
        ∀ x, (e', (none : Option (List Val))).2 = some x → e.entries.lookup (q, e.snapshot) = some x := by
    intro e' h1 h2 h3 h4 h5 h6
    exact ⟨⟨h1, h2, h3, h4⟩, h5, h6, fun x h => by cases h⟩
  unfold Engine.ask
  cases hn : q.len with
  | none => have := trivial' e rfl rfl rfl rfl rfl rfl; exact ⟨this.1, .inl this.2⟩
  | some n =>
    dsimp only
    by_cases h64 : n < 64
    · rw [if_pos h64]
      have := trivial' e rfl rfl rfl rfl rfl rfl; exact ⟨this.1, .inl this.2⟩
    · rw [if_neg h64]
      cases hl : e.entries.lookup (q, e.snapshot) with
      | some x => exact ⟨⟨rfl, rfl, rfl, rfl⟩, .inl ⟨rfl, rfl, fun y h => h⟩⟩
      | none =>
        simp only
        have hnone : e.entries.lookup (q, e.snapshot) = none := hl
        by_cases hcap : e.bytes + estimate e.size n 0 > e.maxBytes
        · rw [if_pos hcap]
          have := trivial' e rfl rfl rfl rfl rfl rfl; rw [hl] at this; exact ⟨this.1, .inl this.2⟩
        · rw [if_neg hcap]
          have tc := trivial' (e.count q).1 rfl rfl rfl rfl rfl rfl
          rw [hl] at tc
          by_cases hc : (e.count q).2 = false
          · rw [if_pos hc]; exact ⟨tc.1, .inl tc.2⟩
          · rw [if_neg hc]
            by_cases hv : q ∈ (e.count q).1.vols
            · rw [if_pos hv]; exact ⟨tc.1, .inl tc.2⟩
            · rw [if_neg hv]
              by_cases hh : hasVolatile (e.count q).1.data q = true
              · rw [if_pos hh]
                have := trivial' ((e.count q).1.noteVolatile q) rfl rfl rfl rfl rfl rfl
                rw [hl] at this
                exact ⟨this.1, .inl this.2⟩
              · rw [if_neg hh]
                cases hb : build (e.count q).1.data q with
                | none => exact ⟨tc.1, .inl tc.2⟩
                | some l =>
                  simp only
                  have hl' : l = line e.data q := by
                    unfold build at hb
                    split at hb
                    · cases hb
                    · exact (Option.some.inj hb).symm
                  subst hl'
                  unfold Engine.insert
                  simp only
                  by_cases hroom : (e.count q).1.bytes + estimate (e.count q).1.size (line e.data q).length (keys (line e.data q)) > (e.count q).1.maxBytes
                  · rw [if_pos hroom]; exact ⟨tc.1, .inl tc.2⟩
                  · rw [if_neg hroom]
                    have : (e.count q).1.entries.lookup (q, (e.count q).1.snapshot) = none := hl
                    rw [this]
                    refine ⟨⟨rfl, rfl, rfl, rfl⟩, .inr ⟨trivial, n, rfl, h64, hcap, by simpa using hc, hb, rfl, rfl, ?_, rfl⟩⟩
                    exact Nat.le_of_not_lt hroom

/-- Entries of this snapshot are the values of now. -/
def Right (e : Engine) : Prop := ∀ q l, e.entries.lookup (q, e.snapshot) = some l → l = line e.data q

/-- No entry is of a later snapshot. -/
def Past (e : Engine) : Prop := ∀ q n l, e.entries.lookup (q, n) = some l → n ≤ e.snapshot

theorem Past.apply {e : Engine} (h : Past e) (o : Op) : Past (e.apply o) := by
  cases o with
  | edit d => exact fun q n l hl => Nat.le_succ_of_le (h q n l hl)
  | write d => exact h
  | ask q =>
    intro q' n l hl
    obtain ⟨⟨_, hs, _⟩, hc⟩ := ask_cases e q
    simp only [Engine.apply] at hl ⊢
    rw [hs]
    rcases hc with ⟨he, _⟩ | ⟨_, _, _, _, _, _, _, he, _⟩
    · rw [he] at hl; exact h _ _ _ hl
    · rw [he, List.lookup_cons] at hl
      split at hl
      · rename_i hk
        rw [beq_iff_eq] at hk
        cases hk
        exact Nat.le_refl _
      · exact h _ _ _ hl

theorem Past.run {e : Engine} (h : Past e) (os : List Op) : Past (e.run os) := by
  induction os generalizing e with
  | nil => exact h
  | cons o os ih => exact ih (h.apply o)

theorem Right.ask {e : Engine} (h : Right e) (q : Req) : Right (e.ask q).1 ∧ ∀ l, (e.ask q).2 = some l → l = line e.data q := by
  obtain ⟨⟨hd, hs, _⟩, hc⟩ := ask_cases e q
  rcases hc with ⟨he, _, hr⟩ | ⟨_, _, _, _, _, _, _, he, _, _, hr⟩
  · refine ⟨?_, fun l hl => h q l (hr l hl)⟩
    intro q' l hl
    rw [he, hs] at hl
    rw [hd]
    exact h _ _ hl
  · refine ⟨?_, fun l hl => by rw [hr] at hl; exact (Option.some.inj hl).symm⟩
    intro q' l hl
    rw [he, hs, List.lookup_cons] at hl
    rw [hd]
    split at hl
    · rename_i hk
      rw [beq_iff_eq] at hk
      cases hk
      exact (Option.some.inj hl).symm
    · exact h _ _ hl

/-- No entry is of this snapshot. -/
def Fresh (e : Engine) : Prop := ∀ q, e.entries.lookup (q, e.snapshot) = none

theorem Fresh.right {e : Engine} (h : Fresh e) : Right e := fun q l hl => by rw [h q] at hl; cases hl

theorem Past.edit {e : Engine} (h : Past e) (d : Data) : Fresh (e.apply (.edit d)) := by
  intro q
  by_contra hne
  obtain ⟨l, hl⟩ := Option.ne_none_iff_exists'.mp hne
  have := h q _ l hl
  simp only [Engine.apply] at this
  omega

theorem run_right (os : List Op) : ∀ (e : Engine) (asked : Bool), Past e → Right e → (asked = false → Fresh e) → Calm asked e.data os → Right (e.run os) := by
  induction os with
  | nil => intro e _ _ h _ _; exact h
  | cons o os ih =>
    intro e asked hp h hf hc
    cases o with
    | edit d => exact ih _ false (hp.apply _) (hp.edit d).right (fun _ => hp.edit d) hc
    | write d =>
      refine ih (e.apply (.write d)) asked (hp.apply _) ?_ hf hc.2
      cases asked with
      | false => exact Fresh.right (e := e.apply (.write d)) (hf rfl)
      | true =>
        intro q l hl
        rw [h q l hl]
        simp only [line, Engine.apply, hc.1 rfl]
    | ask q =>
      have hd : (e.apply (.ask q)).data = e.data := (ask_cases e q).1.1
      exact ih (e.apply (.ask q)) true (hp.apply _) (h.ask q).1 (by simp) (by rw [hd]; exact hc)

theorem start_past (d : Data) (s m : Nat) : Past (start d s m) := fun q n l h => by cases h
theorem start_fresh (d : Data) (s m : Nat) : Fresh (start d s m) := fun q => rfl

/-- C85.  As long as evaluation changes no value after an index was asked for since the last edit, an index has the values of now. -/
theorem index_current_partial (d : Data) (s m : Nat) (os : List Op) (hc : Calm false d os) (q : Req) (l : List Val) (h : ((Engine.run (start d s m) os).ask q).2 = some l) :
    l = line (Engine.run (start d s m) os).data q :=
  ((run_right os _ false (start_past d s m) (start_fresh d s m).right (fun _ => start_fresh d s m) hc).ask q).2 l h

/-- C85.  What an index holds, cell by cell: the values of the column of the range from its first row to its last, or of the row from its first column to its last, and the column or row asked for is one of the range. -/
theorem index_cells_partial (d : Data) (s m : Nat) (os : List Op) (hc : Calm false d os) (q : Req) (l : List Val) (h : ((Engine.run (start d s m) os).ask q).2 = some l) :
    (∀ c, q.axis = .col c → q.c0 + c ≤ q.c1 ∧ q.r0 + l.length = q.r1 + 1 ∧ ∀ r, q.r0 ≤ r → r ≤ q.r1 → l[r - q.r0]? = some ((Engine.run (start d s m) os).data.cell q.sheet r (q.c0 + c))) ∧
    (∀ r, q.axis = .row r → q.r0 + r ≤ q.r1 ∧ q.c0 + l.length = q.c1 + 1 ∧ ∀ c, q.c0 ≤ c → c ≤ q.c1 → l[c - q.c0]? = some ((Engine.run (start d s m) os).data.cell q.sheet (q.r0 + r) c)) := by
  have hl := index_current_partial d s m os hc q l h
  have hn : q.len ≠ none := by
    intro hn
    unfold Engine.ask at h
    rw [hn] at h
    cases h
  unfold Req.len at hn
  generalize (Engine.run (start d s m) os).data = dd at hl
  unfold line at hl
  split at hn
  · exact absurd rfl hn
  rename_i hz
  simp only [Req.rows, Req.cols] at hz hn hl
  constructor
  · intro c hq
    rw [hq] at hn hl
    simp only at hn hl
    have hlt : ¬ c ≥ q.c1 + 1 - q.c0 := fun hh => hn (if_pos hh)
    subst hl
    refine ⟨by omega, by simp; omega, fun r h1 h2 => ?_⟩
    rw [List.getElem?_map, List.getElem?_range (by omega)]
    simp only [Option.map_some, Option.some.injEq]
    rw [show q.r0 + (r - q.r0) = r by omega]
  · intro r hq
    rw [hq] at hn hl
    simp only at hn hl
    have hlt : ¬ r ≥ q.r1 + 1 - q.r0 := fun hh => hn (if_pos hh)
    subst hl
    refine ⟨by omega, by simp; omega, fun c h1 h2 => ?_⟩
    rw [List.getElem?_map, List.getElem?_range (by omega)]
    simp only [Option.map_some, Option.some.injEq]
    rw [show q.c0 + (c - q.c0) = c by omega]

/-- C85.  After an edit no index of the past is used, whatever happened before. -/
theorem index_after_edit (d d' : Data) (s m : Nat) (os os' : List Op) (hc : Calm false d' os') (q : Req) (l : List Val)
    (h : ((Engine.run (start d s m) (os ++ .edit d' :: os')).ask q).2 = some l) : l = line (Engine.run (start d s m) (os ++ .edit d' :: os')).data q := by
  have e1 : Engine.run (start d s m) (os ++ .edit d' :: os') = ((Engine.run (start d s m) os).apply (.edit d')).run os' := by simp [Engine.run]
  have hp := (start_past d s m).run os
  rw [e1] at h ⊢
  exact ((run_right os' _ false (hp.apply _) (hp.edit d').right (fun _ => hp.edit d') hc).ask q).2 l h

/-! ### Room -/

/-- What the entries take. -/
def total (s : Nat) (es : List ((Req × Nat) × List Val)) : Nat := (es.map fun p => estimate s p.2.length (keys p.2)).sum

structure Room (e : Engine) (s m : Nat) : Prop where
  size : e.size = s
  maxBytes : e.maxBytes = m
  sum : e.bytes = total s e.entries
  le : e.bytes ≤ m

theorem Room.apply {e : Engine} {s m : Nat} (h : Room e s m) (o : Op) : Room (e.apply o) s m := by
  cases o with
  | edit d => exact ⟨h.1, h.2, h.3, h.4⟩
  | write d => exact ⟨h.1, h.2, h.3, h.4⟩
  | ask q =>
    obtain ⟨⟨_, _, h1, h2⟩, hc⟩ := ask_cases e q
    simp only [Engine.apply]
    rcases hc with ⟨he, hb, _⟩ | ⟨_, _, _, _, _, _, _, he, hb, hle, _⟩
    · exact ⟨h1.trans h.1, h2.trans h.2, by rw [hb, he]; exact h.3, by rw [hb]; exact h.4⟩
    · refine ⟨h1.trans h.1, h2.trans h.2, ?_, by rw [← h.2]; exact hle⟩
      rw [hb, he, h.3, h.1]
      simp only [total, List.map_cons, List.sum_cons]
      exact Nat.add_comm ..

theorem Room.run {e : Engine} {s m : Nat} (h : Room e s m) (os : List Op) : Room (e.run os) s m := by
  induction os generalizing e with
  | nil => exact h
  | cons o os ih => exact ih (h.apply o)

/-- C85.  The bytes reported are those of the indexes kept, and never more than allowed. -/
theorem index_bytes (d : Data) (s m : Nat) (os : List Op) :
    (Engine.run (start d s m) os).bytes = total s (Engine.run (start d s m) os).entries ∧ (Engine.run (start d s m) os).bytes ≤ m := by
  have := Room.run (e := start d s m) (s := s) (m := m) ⟨rfl, rfl, rfl, Nat.zero_le _⟩ os
  exact ⟨this.3, this.4⟩

theorem grows (e : Engine) (o : Op) : (∃ es, (e.apply o).entries = es ++ e.entries) ∧ e.bytes ≤ (e.apply o).bytes ∧ (e.apply o).maxBytes = e.maxBytes ∧ (e.apply o).size = e.size := by
  cases o with
  | edit d => exact ⟨⟨[], rfl⟩, Nat.le_refl _, rfl, rfl⟩
  | write d => exact ⟨⟨[], rfl⟩, Nat.le_refl _, rfl, rfl⟩
  | ask q =>
    obtain ⟨⟨_, _, h1, h2⟩, hc⟩ := ask_cases e q
    simp only [Engine.apply]
    rcases hc with ⟨he, hb, _⟩ | ⟨_, _, _, _, _, _, _, he, hb, _, _⟩
    · exact ⟨⟨[], he⟩, by omega, h2, h1⟩
    · exact ⟨⟨[_], he⟩, by omega, h2, h1⟩

/-- C85.  Indexes are never dropped, not even those of earlier snapshots, which nobody can ask for again. -/
theorem index_kept (e : Engine) (os : List Op) : ∃ es, (e.run os).entries = es ++ e.entries := by
  induction os generalizing e with
  | nil => exact ⟨[], rfl⟩
  | cons o os ih =>
    obtain ⟨a, ha⟩ := ih (e.apply o)
    obtain ⟨b, hb⟩ := (grows e o).1
    refine ⟨a ++ b, ?_⟩
    rw [List.append_assoc, ← hb]
    exact ha

theorem full_none {e : Engine} {q : Req} {n : Nat} (hn : q.len = some n) (hl : e.entries.lookup (q, e.snapshot) = none) (hf : e.bytes + estimate e.size n 0 > e.maxBytes) :
    (e.ask q).2 = none := by
  unfold Engine.ask
  rw [hn]
  simp only
  split
  · rfl
  · simp only [hl, if_pos hf]

theorem full_apply {e : Engine} {q : Req} {n : Nat} (hn : q.len = some n) (hp : Past e) (hl : e.entries.lookup (q, e.snapshot) = none) (hf : e.bytes + estimate e.size n 0 > e.maxBytes) (o : Op) :
    (e.apply o).entries.lookup (q, (e.apply o).snapshot) = none ∧ (e.apply o).bytes + estimate (e.apply o).size n 0 > (e.apply o).maxBytes := by
  obtain ⟨_, g2, g3, g4⟩ := grows e o
  refine ⟨?_, by rw [g3, g4]; omega⟩
  cases o with
  | edit d => exact hp.edit d q
  | write d => exact hl
  | ask q' =>
    obtain ⟨⟨_, hs, _, _⟩, hc⟩ := ask_cases e q'
    simp only [Engine.apply, hs]
    rcases hc with ⟨he, _, _⟩ | ⟨_, n', hn', _, hcap, _, _, he, _, _, _⟩
    · rw [he]; exact hl
    · rw [he, List.lookup_cons]
      split
      · rename_i hk
        rw [beq_iff_eq] at hk
        cases hk
        rw [hn] at hn'
        cases hn'
        exact absurd hf hcap
      · exact hl

/-- C85.  Once there is no room for an index of some length, no edit and no evaluation makes room: such a range that has no index now never gets one. -/
theorem index_full (d : Data) (s m : Nat) (os os' : List Op) (q : Req) (n : Nat) (hn : q.len = some n)
    (hl : ((Engine.run (start d s m) os).ask q).2 = none) (hf : (Engine.run (start d s m) os).bytes + estimate s n 0 > m) :
    ((Engine.run (start d s m) (os ++ os')).ask q).2 = none := by
  by_cases h64 : n < 64
  · unfold Engine.ask
    rw [hn]
    simp only
    rw [if_pos h64]
  have e1 : Engine.run (start d s m) (os ++ os') = (Engine.run (start d s m) os).run os' := by simp [Engine.run]
  rw [e1]
  have hp := (start_past d s m).run os
  have hr := Room.run (e := start d s m) (s := s) (m := m) ⟨rfl, rfl, rfl, Nat.zero_le _⟩ os
  generalize Engine.run (start d s m) os = e at *
  have hl' : e.entries.lookup (q, e.snapshot) = none := by
    by_contra hne
    obtain ⟨l, hx⟩ := Option.ne_none_iff_exists'.mp hne
    unfold Engine.ask at hl
    rw [hn] at hl
    simp only at hl
    rw [if_neg h64, hx] at hl
    cases hl
  have hf' : e.bytes + estimate e.size n 0 > e.maxBytes := by rw [hr.1, hr.2]; exact hf
  clear hl hf hr e1
  induction os' generalizing e with
  | nil => exact full_none hn hl' hf'
  | cons o os' ih =>
    obtain ⟨f1, f2⟩ := full_apply hn hp hl' hf' o
    exact ih (e.apply o) (hp.apply o) f1 f2

/-! ### The first questions -/

/-- The count kept for a range and snapshot. -/
def counted (e : Engine) (q : Req) : Nat := (e.counts.lookup (q, e.snapshot)).getD 0

theorem lookup_filter {K V : Type} [BEq K] [LawfulBEq K] (l : List (K × V)) (p : K × V → Bool) (k : K) (h : ∀ v, p (k, v) = true) : (l.filter p).lookup k = l.lookup k := by
  induction l with
  | nil => rfl
  | cons x xs ih =>
    obtain ⟨k', v⟩ := x
    rw [List.filter_cons]
    split
    · rw [List.lookup_cons, List.lookup_cons, ih]
    · rename_i hp
      rw [List.lookup_cons, ih]
      split
      · rename_i hk
        rw [beq_iff_eq] at hk
        subst hk
        exact absurd (h v) hp
      · rfl

theorem count_same (e : Engine) (q : Req) : counted (e.count q).1 q = counted e q + 1 ∧ (e.count q).2 = decide (¬counted e q + 1 ≤ 3) := by
  have hk : (if e.counts.length > 4096 then e.counts.filter fun p => decide (p.1.2 = e.snapshot) else e.counts).lookup (q, e.snapshot) = e.counts.lookup (q, e.snapshot) := by
    split
    · exact lookup_filter _ _ _ fun v => by simp
    · rfl
  unfold counted Engine.count
  simp only [hk, List.lookup_cons, beq_self_eq_true, Option.getD_some]
  exact ⟨trivial, trivial⟩

theorem count_other (e : Engine) {q q' : Req} (h : q' ≠ q) : counted (e.count q').1 q = counted e q := by
  unfold counted Engine.count
  have hb : ((q, e.snapshot) == (q', e.snapshot)) = false := by
    rw [beq_eq_false_iff_ne]
    intro hc
    cases hc
    exact h rfl
  simp only [List.lookup_cons, hb]
  rw [lookup_filter _ _ _ (fun v => by simp only [decide_eq_true_eq, ne_eq, Prod.mk.injEq, not_and]; intro hc; exact absurd hc.symm h)]
  split
  · rw [lookup_filter _ _ _ fun v => by simp]
  · rfl

theorem ask_counts (e : Engine) (q' : Req) : (e.ask q').1.counts = e.counts ∨ (e.ask q').1.counts = (e.count q').1.counts := by
  unfold Engine.ask
  split
  · exact .inl rfl
  · split
    · exact .inl rfl
    · split
      · exact .inl rfl
      · split
        · exact .inl rfl
        · simp only
          split
          · exact .inr rfl
          · split
            · exact .inr rfl
            · split
              · exact .inr rfl
              · split
                · exact .inr rfl
                · unfold Engine.insert
                  simp only
                  split
                  · exact .inr rfl
                  · split <;> exact .inr rfl

theorem ask_counted (e : Engine) (q q' : Req) : counted (e.ask q').1 q ≤ counted e q + if q' = q then 1 else 0 := by
  have hs : (e.ask q').1.snapshot = e.snapshot := (ask_cases e q').1.2.1
  have key : counted (e.ask q').1 q = counted e q ∨ counted (e.ask q').1 q = counted (e.count q').1 q := by
    unfold counted
    rw [hs]
    rcases ask_counts e q' with h | h
    · exact .inl (by rw [h])
    · exact .inr (by rw [h]; rfl)
  rcases key with h | h
  · omega
  · by_cases hq : q' = q
    · subst hq
      rw [h, (count_same e q').1]
      simp
    · rw [h, count_other e hq]
      omega

theorem few_asks (q : Req) (os : List Op) : ∀ (e : Engine), NoEdit os → e.entries.lookup (q, e.snapshot) = none → counted e q + asks q os ≤ 3 →
    (e.run os).entries.lookup (q, (e.run os).snapshot) = none ∧ counted (e.run os) q ≤ 3 ∧ (e.run os).snapshot = e.snapshot ∧ counted (e.run os) q ≤ counted e q + asks q os := by
  induction os with
  | nil => intro e _ hl hc; exact ⟨hl, hc, rfl, by simp [asks, Engine.run]⟩
  | cons o os ih =>
    intro e hn hl hc
    have hn' : NoEdit os := fun o' ho => hn o' (List.mem_cons_of_mem _ ho)
    cases o with
    | edit d => exact absurd rfl (hn _ (List.mem_cons_self ..) d)
    | write d =>
      have h1 : asks q (.write d :: os) = asks q os := by simp [asks]
      rw [h1] at hc ⊢
      exact ih (e.apply (.write d)) hn' hl hc
    | ask q' =>
      have h1 : asks q (.ask q' :: os) = asks q os + if q' = q then 1 else 0 := by simp [asks, List.countP_cons]
      rw [h1] at hc ⊢
      have hs : (e.apply (.ask q')).snapshot = e.snapshot := (ask_cases e q').1.2.1
      have hcnt : counted (e.apply (.ask q')) q ≤ counted e q + if q' = q then 1 else 0 := ask_counted e q q'
      have hl' : (e.apply (.ask q')).entries.lookup (q, (e.apply (.ask q')).snapshot) = none := by
        rw [hs]
        rcases (ask_cases e q').2 with ⟨he, _⟩ | ⟨_, _, _, _, _, hcb, _, he, _⟩
        · simp only [Engine.apply, he]; exact hl
        · simp only [Engine.apply, he, List.lookup_cons]
          split
          · rename_i hk
            rw [beq_iff_eq] at hk
            cases hk
            rw [(count_same e q).2] at hcb
            simp only [if_true] at hc
            simp only [decide_eq_true_eq] at hcb
            omega
          · exact hl
      obtain ⟨i1, i2, i3, i4⟩ := ih (e.apply (.ask q')) hn' hl' (by omega)
      exact ⟨i1, i2, i3.trans hs, by simp only [Engine.run, List.foldl_cons] at i4 ⊢; omega⟩

/-- No count is kept for a later snapshot. -/
def PastCounts (e : Engine) : Prop := ∀ q n c, e.counts.lookup (q, n) = some c → n ≤ e.snapshot

theorem lookup_filter_some {K V : Type} [BEq K] [LawfulBEq K] {l : List (K × V)} {p : K × V → Bool} (hp : ∀ k v w, p (k, v) = p (k, w)) {k : K} {v : V} (h : (l.filter p).lookup k = some v) : l.lookup k = some v := by
  by_cases hk : p (k, v) = true
  · rw [lookup_filter l p k (fun w => (hp k w v).trans hk)] at h
    exact h
  · exfalso
    apply hk
    clear hk
    induction l with
    | nil => cases h
    | cons x xs ih =>
      obtain ⟨k', v'⟩ := x
      rw [List.filter_cons] at h
      split at h
      · rename_i hx
        rw [List.lookup_cons] at h
        split at h
        · rename_i hb
          rw [beq_iff_eq] at hb
          subst hb
          exact (hp k v v').trans hx
        · exact ih h
      · exact ih h

theorem PastCounts.apply {e : Engine} (h : PastCounts e) (o : Op) : PastCounts (e.apply o) := by
  cases o with
  | edit d => exact fun q n c hc => Nat.le_succ_of_le (h q n c hc)
  | write d => exact h
  | ask q' =>
    intro q n c hc
    have hs : (e.ask q').1.snapshot = e.snapshot := (ask_cases e q').1.2.1
    simp only [Engine.apply] at hc ⊢
    rw [hs]
    rcases ask_counts e q' with hk | hk
    · rw [hk] at hc; exact h _ _ _ hc
    · rw [hk] at hc
      simp only [Engine.count, List.lookup_cons] at hc
      split at hc
      · rename_i hb
        rw [beq_iff_eq] at hb
        cases hb
        exact Nat.le_refl _
      · have h2 := lookup_filter_some (fun k v w => rfl) hc
        split at h2
        · exact h _ _ _ (lookup_filter_some (fun k v w => rfl) h2)
        · exact h _ _ _ h2

theorem PastCounts.run {e : Engine} (h : PastCounts e) (os : List Op) : PastCounts (e.run os) := by
  induction os generalizing e with
  | nil => exact h
  | cons o os ih => exact ih (h.apply o)

theorem PastCounts.edit {e : Engine} (h : PastCounts e) (d : Data) (q : Req) : counted (e.apply (.edit d)) q = 0 := by
  unfold counted
  cases hc : (e.apply (.edit d)).counts.lookup (q, (e.apply (.edit d)).snapshot) with
  | none => rfl
  | some c =>
    have := h q _ c hc
    simp only [Engine.apply] at this
    omega

/-- C85.  The first three times a range is asked for after an edit there is no index, whatever else is asked for in between. -/
theorem index_threshold (d d' : Data) (s m : Nat) (os os' : List Op) (q : Req) (hn : NoEdit os') (ha : asks q os' < 3) :
    ((Engine.run (start d s m) (os ++ .edit d' :: os')).ask q).2 = none := by
  have e1 : Engine.run (start d s m) (os ++ .edit d' :: os') = ((Engine.run (start d s m) os).apply (.edit d')).run os' := by simp [Engine.run]
  rw [e1]
  have hp := ((start_past d s m).run os).edit d' q
  have hz := PastCounts.edit (PastCounts.run (e := start d s m) (fun q n c h => by cases h) os) d' q
  obtain ⟨h1, _, _, h4⟩ := few_asks q os' _ hn hp (by omega)
  rcases (ask_cases (((Engine.run (start d s m) os).apply (.edit d')).run os') q).2 with ⟨_, _, hr⟩ | ⟨_, _, _, _, _, hcb, _⟩
  · by_contra hne
    obtain ⟨l, hx⟩ := Option.ne_none_iff_exists'.mp hne
    rw [h1] at hr
    cases hr l hx
  · rw [(count_same _ q).2] at hcb
    simp only [decide_eq_true_eq] at hcb
    omega

theorem estimate_le (s n k : Nat) : estimate s n 0 ≤ estimate s n k := by
  unfold estimate
  omega

/-- One of the first three questions: only the count changes. -/
theorem ask_early {e : Engine} {q : Req} {n : Nat} (hn : q.len = some n) (h64 : 64 ≤ n) (hl : e.entries.lookup (q, e.snapshot) = none) (hroom : e.bytes + estimate e.size n 0 ≤ e.maxBytes)
    (hc : counted e q < 3) : (e.ask q).1 = (e.count q).1 := by
  unfold Engine.ask
  rw [hn]
  simp only
  rw [if_neg (by omega), hl]
  simp only
  rw [if_neg (by omega), if_pos (by rw [(count_same e q).2]; simp; omega)]

/-- The fourth question builds the index. -/
theorem ask_fourth {e : Engine} {q : Req} {n : Nat} (hn : q.len = some n) (h64 : 64 ≤ n) (hl : e.entries.lookup (q, e.snapshot) = none)
    (hroom : e.bytes + estimate e.size n (keys (line e.data q)) ≤ e.maxBytes) (hlen : (line e.data q).length = n) (hc : 3 ≤ counted e q) (hv : q ∉ e.vols) (hh : hasVolatile e.data q = false)
    (he : Val.err ∉ line e.data q) : (e.ask q).2 = some (line e.data q) := by
  have hroom0 : e.bytes + estimate e.size n 0 ≤ e.maxBytes := Nat.le_trans (Nat.add_le_add_left (estimate_le ..) _) hroom
  unfold Engine.ask
  rw [hn]
  simp only
  rw [if_neg (by omega), hl]
  simp only
  rw [if_neg (by omega), if_neg (by rw [(count_same e q).2]; simp; omega), if_neg (show q ∉ (e.count q).1.vols from hv), if_neg (by rw [(count_data e q).1, hh]; simp)]
  have hb : build (e.count q).1.data q = some (line e.data q) := by
    unfold build
    rw [(count_data e q).1, if_neg he]
  rw [hb]
  simp only
  unfold Engine.insert
  simp only
  rw [(count_data e q).2.2.1, (count_data e q).2.2.2.1, (count_data e q).2.2.2.2.1, (count_data e q).2.2.2.2.2.1, (count_data e q).2.1, hlen, if_neg (by omega), hl]

theorem line_length (d : Data) {q : Req} {n : Nat} (hn : q.len = some n) : (line d q).length = n := by
  unfold Req.len at hn
  unfold line
  split at hn
  · cases hn
  · split at hn <;> split at hn <;> first | (cases hn; done) | (cases hn; simp)

/-- C85.  From the fourth time on there is an index with the values of now, if the range is long enough, has no error on its axis and no volatile formula, was never seen with one, and there is room. -/
theorem index_built (d d' : Data) (s m : Nat) (os : List Op) (q : Req) (n : Nat) (hn : q.len = some n) (h64 : 64 ≤ n) (he : Val.err ∉ line d' q) (hh : hasVolatile d' q = false)
    (hv : q ∉ (Engine.run (start d s m) os).vols) (hroom : (Engine.run (start d s m) os).bytes + estimate s n (keys (line d' q)) ≤ m) :
    ((Engine.run (start d s m) (os ++ [.edit d', .ask q, .ask q, .ask q])).ask q).2 = some (line d' q) := by
  have e1 : Engine.run (start d s m) (os ++ [.edit d', .ask q, .ask q, .ask q]) = ((((((Engine.run (start d s m) os).apply (.edit d')).ask q).1).ask q).1.ask q).1 := by simp [Engine.run, Engine.apply]
  rw [e1]
  have hp := ((start_past d s m).run os).edit d' q
  have hz := PastCounts.edit (PastCounts.run (e := start d s m) (fun q n c h => by cases h) os) d' q
  have hr := Room.run (e := start d s m) (s := s) (m := m) ⟨rfl, rfl, rfl, Nat.zero_le _⟩ os
  generalize hE : Engine.run (start d s m) os = e0 at *
  have r0 : (e0.apply (.edit d')).bytes + estimate (e0.apply (.edit d')).size n 0 ≤ (e0.apply (.edit d')).maxBytes := by
    simp only [Engine.apply, hr.1, hr.2]
    exact Nat.le_trans (Nat.add_le_add_left (estimate_le ..) _) hroom
  have rk : (e0.apply (.edit d')).bytes + estimate (e0.apply (.edit d')).size n (keys (line d' q)) ≤ (e0.apply (.edit d')).maxBytes := by
    simp only [Engine.apply, hr.1, hr.2]
    exact hroom
  have hv0 : q ∉ (e0.apply (.edit d')).vols := hv
  have hd0 : (e0.apply (.edit d')).data = d' := rfl
  generalize e0.apply (.edit d') = e at *
  have c1 := (count_same e q).1
  have c2 := (count_same (e.count q).1 q).1
  have c3 := (count_same ((e.count q).1.count q).1 q).1
  have s1 : (e.ask q).1 = (e.count q).1 := ask_early hn h64 hp r0 (by omega)
  have s2 : ((e.count q).1.ask q).1 = ((e.count q).1.count q).1 := ask_early (e := (e.count q).1) hn h64 hp r0 (by omega)
  have s3 : (((e.count q).1.count q).1.ask q).1 = (((e.count q).1.count q).1.count q).1 := ask_early (e := ((e.count q).1.count q).1) hn h64 hp r0 (by omega)
  rw [s1, s2, s3, ← hd0]
  exact ask_fourth (e := (((e.count q).1.count q).1.count q).1) hn h64 hp (by subst hd0; exact rk) (line_length _ hn) (by omega) hv0 (by subst hd0; exact hh) (by subst hd0; exact he)

/-! ### An index that is out of date -/

/-- A1:A64 with `=B$1+ROW()`, where B1 is volatile: only B1 is marked. -/
def sample (x : Nat) : Data := ⟨fun _ r c => if c = 0 then .key (x + r) else if r = 0 ∧ c = 1 then .key x else .empty, fun _ r c => decide (r = 0 ∧ c = 1)⟩
def sampleReq : Req := ⟨0, 0, 0, 63, 0, .col 0⟩

/-- C85 fails in general.  The second calculation gives B1 and so all of A1:A64 new values without an edit, and the index of the first one is still used. -/
theorem index_stale : ∃ (d : Data) (os : List Op) (q : Req) (l : List Val), ((Engine.run (start d 40 100000) os).ask q).2 = some l ∧ l ≠ line (Engine.run (start d 40 100000) os).data q :=
  ⟨sample 10, [.ask sampleReq, .ask sampleReq, .ask sampleReq, .ask sampleReq, .write (sample 500)], sampleReq, line (sample 10) sampleReq, by decide +kernel, by decide +kernel⟩

/-! ## Cases -/

example : Calm false (sample 1) [.write (sample 2), .ask sampleReq, .write (sample 2), .edit (sample 3), .write (sample 4)] := ⟨by simp, fun _ => rfl, by simp, trivial⟩
example : sampleReq.len = some 64 ∧ Val.err ∉ line (sample 3) sampleReq ∧ hasVolatile (sample 3) sampleReq = false ∧ 0 + estimate 40 64 (keys (line (sample 3) sampleReq)) ≤ 100000 := by decide +kernel
example : ((Engine.run (start (sample 1) 40 100000) [.edit (sample 3), .ask sampleReq, .ask sampleReq, .ask sampleReq]).ask sampleReq).2 = some (line (sample 3) sampleReq) := by decide +kernel
example : NoEdit [.ask sampleReq, .write (sample 2), .ask sampleReq] ∧ asks sampleReq [.ask sampleReq, .write (sample 2), .ask sampleReq] < 3 := by
  constructor
  · intro o ho d
    simp only [List.mem_cons, List.not_mem_nil, or_false] at ho
    rcases ho with rfl | rfl | rfl <;> simp
  · decide +kernel
example : ((Engine.run (start (sample 1) 40 3000) [.ask sampleReq, .ask sampleReq, .ask sampleReq]).ask sampleReq).2 = none ∧ (Engine.run (start (sample 1) 40 2800) []).bytes + estimate 40 64 0 > 2800 := by decide +kernel
-- The range itself has a volatile formula: no index, and the range is remembered.
example : (Engine.run (start (sample 1) 40 100000) [.ask ⟨0, 0, 0, 63, 1, .col 0⟩, .ask ⟨0, 0, 0, 63, 1, .col 0⟩, .ask ⟨0, 0, 0, 63, 1, .col 0⟩, .ask ⟨0, 0, 0, 63, 1, .col 0⟩]).vols = [⟨0, 0, 0, 63, 1, .col 0⟩] := by decide +kernel

end Verif.Snap.Index
