import Verif.Dbase.Model
import Mathlib.Algebra.BigOperators.Group.List.Basic
import Mathlib.Algebra.Order.Ring.Rat
import Mathlib.Tactic.Ring
import Mathlib.Tactic.FieldSimp
import Mathlib.Tactic.Linarith
import Mathlib.Tactic.ByContra

/-!
# C102 — the database functions work on the records that meet the criteria

Specification: `Names` says which column a header names, `Usable` when a criteria row has a condition at all, `Chosen` when
a record meets the criteria, `worth` what a cell counts.
-/
namespace Verif.Dbase

variable {T C P : Type} [DecidableEq T]

/-! ### Specification -/

/-- Column `i` is the first one whose header is this text up to case. -/
def Names (env : Env T C P) (db : Db T) (s : T) (i : Nat) : Prop :=
  (∃ c h, db.cols[i]? = some c ∧ c.head = .text h ∧ env.fold h = env.fold s) ∧
  ∀ (j : Nat) c h, j < i → db.cols[j]? = some c → c.head = .text h → env.fold h ≠ env.fold s

/-- A criteria row has a condition: something stands under a header that names a column. -/
def Usable (env : Env T C P) (db : Db T) (heads : List (Cell T)) (row : List (Option C)) : Prop :=
  ∃ s c i, (Cell.text s, some c) ∈ heads.zip row ∧ Names env db s i

/-- The record of row `r` meets all conditions of a criteria row. -/
def Meets (env : Env T C P) (db : Db T) (heads : List (Cell T)) (row : List (Option C)) (r : Nat) : Prop :=
  ∀ s c i, (Cell.text s, some c) ∈ heads.zip row → Names env db s i →
    ∃ p, env.parse c = .ok p ∧ env.test p (db.get r i) = true

/-- The record is chosen: it meets a usable row of the criteria, or there is none. -/
def Chosen (env : Env T C P) (db : Db T) (ct : Crit T C) (r : Nat) : Prop :=
  (∀ row ∈ ct.rows, ¬ Usable env db ct.heads row) ∨
  ∃ row ∈ ct.rows, Usable env db ct.heads row ∧ Meets env db ct.heads row r

/-- What a cell counts, if anything. -/
def worth (env : Env T C P) (bools : Bool) : Cell T → Option Rat
  | .num q => some q
  | .bool true => if bools then some 1 else none
  | .bool false => if bools then some 0 else none
  | .text s => env.toNum s
  | _ => none

/-! ### Headers -/

theorem findHead_spec (env : Env T C P) (s : T) : ∀ (hs : List (Cell T)) (i : Nat), findHead env s hs = some i ↔
    ((∃ h, hs[i]? = some (.text h) ∧ env.fold h = env.fold s) ∧
     ∀ (j : Nat) h, j < i → hs[j]? = some (.text h) → env.fold h ≠ env.fold s)
  | [], i => by simp [findHead]
  | x :: xs, i => by
    have ih := findHead_spec env s xs
    have shift : (∀ h, x = .text h → env.fold h ≠ env.fold s) →
        ((findHead env s xs).map (· + 1) = some i ↔
        ((∃ h, (x :: xs)[i]? = some (.text h) ∧ env.fold h = env.fold s) ∧
         ∀ (j : Nat) h, j < i → (x :: xs)[j]? = some (.text h) → env.fold h ≠ env.fold s)) := by
      intro hx
      cases i with
      | zero =>
        constructor
        · intro h
          rw [Option.map_eq_some_iff] at h
          obtain ⟨a, _, h⟩ := h
          omega
        · rintro ⟨⟨h, h1, h2⟩, _⟩
          simp only [List.getElem?_cons_zero, Option.some.injEq] at h1
          exact absurd h2 (hx h h1)
      | succ i =>
        have e : (findHead env s xs).map (· + 1) = some (i + 1) ↔ findHead env s xs = some i := by
          cases findHead env s xs <;> simp
        rw [e, ih i]
        simp only [List.getElem?_cons_succ]
        constructor
        · rintro ⟨h1, h2⟩
          refine ⟨h1, ?_⟩
          intro j h hj hh
          cases j with
          | zero =>
            simp only [List.getElem?_cons_zero, Option.some.injEq] at hh
            exact hx h hh
          | succ j => exact h2 j h (by omega) (by simpa using hh)
        · rintro ⟨h1, h2⟩
          exact ⟨h1, fun j h hj hh => h2 (j + 1) h (by omega) (by simpa using hh)⟩
    cases x with
    | text h =>
      rw [findHead]
      split
      · next e =>
        constructor
        · intro hi
          injection hi with hi
          subst hi
          exact ⟨⟨h, rfl, e⟩, fun j _ hj => absurd hj (Nat.not_lt_zero j)⟩
        · rintro ⟨_, h2⟩
          cases i with
          | zero => rfl
          | succ i => exact absurd e (h2 0 h (by omega) rfl)
      · next e => exact shift (fun h' hh => by injection hh with hh; rw [← hh]; exact e)
    | num q => exact shift (fun h hh => by cases hh)
    | bool b => exact shift (fun h hh => by cases hh)
    | blank => exact shift (fun h hh => by cases hh)
    | err e => exact shift (fun h hh => by cases hh)
    | other => exact shift (fun h hh => by cases hh)

/-- **The column a name stands for** is the first one whose header is that text, whatever its case. -/
theorem names_iff (env : Env T C P) (db : Db T) (s : T) (i : Nat) :
    findHead env s (db.cols.map (·.head)) = some i ↔ Names env db s i := by
  rw [findHead_spec]
  unfold Names
  constructor
  · rintro ⟨⟨h, h1, h2⟩, h3⟩
    rw [List.getElem?_map, Option.map_eq_some_iff] at h1
    obtain ⟨c, hc, hh⟩ := h1
    refine ⟨⟨c, h, hc, hh, h2⟩, fun j c h hj hc hh => h3 j h hj ?_⟩
    rw [List.getElem?_map, hc]; simp [hh]
  · rintro ⟨⟨c, h, hc, hh, h2⟩, h3⟩
    refine ⟨⟨h, ?_, h2⟩, fun j h hj hh => ?_⟩
    · rw [List.getElem?_map, hc]; simp [hh]
    · rw [List.getElem?_map, Option.map_eq_some_iff] at hh
      obtain ⟨c, hc, hh⟩ := hh
      exact h3 j c h hj hc hh

/-- **The field**: a text names its column; a number from 1 to the number of columns, cut to a whole one, counts them;
anything else fails. -/
theorem field_spec (env : Env T C P) (db : Db T) :
    (∀ s i, resolveField env (db.cols.map (·.head)) (.text s) = .ok i ↔ Names env db s i) ∧
    (∀ k : Nat, 1 ≤ k → k ≤ db.cols.length → resolveField env (db.cols.map (·.head)) (.num k) = .ok (k - 1)) ∧
    (∀ k : Int, k < 1 ∨ db.cols.length < k → resolveField env (db.cols.map (·.head)) (.num k) = .error .value) ∧
    (∀ s, (∀ i, ¬ Names env db s i) → resolveField env (db.cols.map (·.head)) (.text s) = .error .value) := by
  refine ⟨?_, ?_, ?_, ?_⟩
  · intro s i
    rw [← names_iff, resolveField]
    cases findHead env s (db.cols.map (·.head)) <;> simp
  · intro k h1 h2
    simp only [resolveField, Rat.num_natCast, Rat.den_natCast, List.length_map]
    have e : (k : Int).tdiv ((1 : Nat) : Int) = k := Int.tdiv_one _
    rw [e, if_neg (by omega), Int.toNat_natCast]
  · intro k h
    simp only [resolveField, Rat.num_intCast, Rat.den_intCast, List.length_map]
    have e : k.tdiv ((1 : Nat) : Int) = k := Int.tdiv_one _
    rw [e, if_pos (by omega)]
  · intro s h
    rw [resolveField]
    cases hf : findHead env s (db.cols.map (·.head)) with
    | none => rfl
    | some i => exact absurd ((names_iff env db s i).1 hf) (h i)

/-! ### Criteria -/

theorem rowCrit_spec (env : Env T C P) (heads : List (Cell T)) : ∀ (cs : List (Cell T × Option C)) (l : List (Nat × P)),
    rowCrit env heads cs = .ok l →
    (∀ h c i, (h, some c) ∈ cs → colOf env heads h = some i → ∃ p, env.parse c = .ok p ∧ (i, p) ∈ l) ∧
    (∀ i p, (i, p) ∈ l → ∃ h c, (h, some c) ∈ cs ∧ colOf env heads h = some i ∧ env.parse c = .ok p)
  | [], l, h => by
    injection h with h
    subst h
    simp
  | (hd, none) :: cs, l, h => by
    obtain ⟨h1, h2⟩ := rowCrit_spec env heads cs l h
    refine ⟨fun h c i hm => h1 h c i ?_, fun i p hp => ?_⟩
    · rcases List.mem_cons.1 hm with e | e
      · cases e
      · exact e
    · obtain ⟨h, c, hm, e⟩ := h2 i p hp
      exact ⟨h, c, List.mem_cons_of_mem _ hm, e⟩
  | (hd, some c) :: cs, l, h => by
    rw [rowCrit] at h
    cases hc : colOf env heads hd with
    | none =>
      rw [hc] at h
      obtain ⟨h1, h2⟩ := rowCrit_spec env heads cs l h
      refine ⟨fun h c' i hm hi => ?_, fun i p hp => ?_⟩
      · rcases List.mem_cons.1 hm with e | e
        · injection e with e1 e2
          subst e1
          rw [hc] at hi; cases hi
        · exact h1 h c' i e hi
      · obtain ⟨h, c, hm, e⟩ := h2 i p hp
        exact ⟨h, c, List.mem_cons_of_mem _ hm, e⟩
    | some k =>
      rw [hc] at h
      simp only at h
      cases hp : env.parse c with
      | error e => rw [hp] at h; cases h
      | ok p =>
        rw [hp] at h
        simp only at h
        cases hr : rowCrit env heads cs with
        | error e => rw [hr] at h; cases h
        | ok l' =>
          rw [hr] at h
          injection h with h
          subst h
          obtain ⟨h1, h2⟩ := rowCrit_spec env heads cs l' hr
          refine ⟨fun h c' i hm hi => ?_, fun i p' hp' => ?_⟩
          · rcases List.mem_cons.1 hm with e | e
            · injection e with e1 e2
              injection e2 with e2
              subst e1 e2
              rw [hc] at hi
              injection hi with hi
              subst hi
              exact ⟨p, hp, List.mem_cons_self ..⟩
            · obtain ⟨p', e1, e2⟩ := h1 h c' i e hi
              exact ⟨p', e1, List.mem_cons_of_mem _ e2⟩
          · rcases List.mem_cons.1 hp' with e | e
            · injection e with e1 e2
              subst e1 e2
              exact ⟨hd, c, List.mem_cons_self .., hc, hp⟩
            · obtain ⟨h, c', hm, e⟩ := h2 i p' e
              exact ⟨h, c', List.mem_cons_of_mem _ hm, e⟩

theorem critRows_spec (env : Env T C P) (dbHeads heads : List (Cell T)) : ∀ (rows : List (List (Option C)))
    (ls : List (List (Nat × P))), critRows env dbHeads heads rows = .ok ls →
    (∀ row ∈ rows, ∃ l, rowCrit env dbHeads (heads.zip row) = .ok l ∧ (l ≠ [] → l ∈ ls)) ∧
    (∀ l ∈ ls, l ≠ [] ∧ ∃ row ∈ rows, rowCrit env dbHeads (heads.zip row) = .ok l)
  | [], ls, h => by
    injection h with h
    subst h
    simp
  | r :: rs, ls, h => by
    rw [critRows] at h
    cases hr : rowCrit env dbHeads (heads.zip r) with
    | error e => rw [hr] at h; cases h
    | ok l =>
      rw [hr] at h
      simp only at h
      cases hs : critRows env dbHeads heads rs with
      | error e => rw [hs] at h; cases h
      | ok ls' =>
        rw [hs] at h
        injection h with h
        obtain ⟨h1, h2⟩ := critRows_spec env dbHeads heads rs ls' hs
        have sub : ∀ l' ∈ ls', l' ∈ ls := by
          intro l' hl'
          rw [← h]
          split
          · exact hl'
          · exact List.mem_cons_of_mem _ hl'
        constructor
        · intro row hrow
          rcases List.mem_cons.1 hrow with rfl | hrow
          · refine ⟨l, hr, fun hne => ?_⟩
            rw [← h, if_neg hne]
            exact List.mem_cons_self ..
          · obtain ⟨l', e1, e2⟩ := h1 row hrow
            exact ⟨l', e1, fun hne => sub l' (e2 hne)⟩
        · intro l' hl'
          rw [← h] at hl'
          split at hl'
          · obtain ⟨e1, row, e2, e3⟩ := h2 l' hl'
            exact ⟨e1, row, List.mem_cons_of_mem _ e2, e3⟩
          · next hne =>
            rcases List.mem_cons.1 hl' with rfl | hl'
            · exact ⟨hne, r, List.mem_cons_self .., hr⟩
            · obtain ⟨e1, row, e2, e3⟩ := h2 l' hl'
              exact ⟨e1, row, List.mem_cons_of_mem _ e2, e3⟩

theorem colOf_iff (env : Env T C P) (db : Db T) (h : Cell T) (i : Nat) :
    colOf env (db.cols.map (·.head)) h = some i ↔ ∃ s, h = .text s ∧ Names env db s i := by
  cases h with
  | text s =>
    rw [colOf, names_iff]
    constructor
    · intro h; exact ⟨s, rfl, h⟩
    · rintro ⟨s', e, h⟩; injection e with e; subst e; exact h
  | num q => simp [colOf]
  | bool b => simp [colOf]
  | blank => simp [colOf]
  | err e => simp [colOf]
  | other => simp [colOf]

theorem usable_iff (env : Env T C P) (db : Db T) (heads : List (Cell T)) (row : List (Option C)) (l : List (Nat × P))
    (h : rowCrit env (db.cols.map (·.head)) (heads.zip row) = .ok l) : l ≠ [] ↔ Usable env db heads row := by
  obtain ⟨h1, h2⟩ := rowCrit_spec env _ _ l h
  constructor
  · intro hne
    obtain ⟨⟨i, p⟩, hm⟩ := List.exists_mem_of_ne_nil l hne
    obtain ⟨hd, c, e1, e2, _⟩ := h2 i p hm
    obtain ⟨s, rfl, hn⟩ := (colOf_iff env db hd i).1 e2
    exact ⟨s, c, i, e1, hn⟩
  · rintro ⟨s, c, i, e1, hn⟩ rfl
    obtain ⟨p, _, hm⟩ := h1 _ c i e1 ((colOf_iff env db _ i).2 ⟨s, rfl, hn⟩)
    cases hm

theorem meets_iff (env : Env T C P) (db : Db T) (heads : List (Cell T)) (row : List (Option C)) (l : List (Nat × P)) (r : Nat)
    (h : rowCrit env (db.cols.map (·.head)) (heads.zip row) = .ok l) :
    (l.all fun c => env.test c.2 (db.get r c.1)) = true ↔ Meets env db heads row r := by
  obtain ⟨h1, h2⟩ := rowCrit_spec env _ _ l h
  rw [List.all_eq_true]
  constructor
  · intro ha s c i hm hn
    obtain ⟨p, e1, e2⟩ := h1 _ c i hm ((colOf_iff env db _ i).2 ⟨s, rfl, hn⟩)
    exact ⟨p, e1, ha (i, p) e2⟩
  · rintro ha ⟨i, p⟩ hm
    obtain ⟨hd, c, e1, e2, e3⟩ := h2 i p hm
    obtain ⟨s, rfl, hn⟩ := (colOf_iff env db hd i).1 e2
    obtain ⟨p', e4, e5⟩ := ha s c i e1 hn
    rw [e3] at e4
    injection e4 with e4
    subst e4
    exact e5

/-- **Which records are chosen**: those that meet all conditions of some criteria row that has any. -/
theorem chosen_iff (env : Env T C P) (db : Db T) (ct : Crit T C) (crits : List (List (Nat × P))) (r : Nat)
    (h : critRows env (db.cols.map (·.head)) ct.heads ct.rows = .ok crits) :
    rowMatches env db r crits = true ↔ Chosen env db ct r := by
  obtain ⟨h1, h2⟩ := critRows_spec env _ _ _ crits h
  unfold rowMatches
  by_cases hc : crits = []
  · rw [if_pos hc]
    refine ⟨fun _ => Or.inl ?_, fun _ => rfl⟩
    intro row hrow hu
    obtain ⟨l, e1, e2⟩ := h1 row hrow
    have := e2 ((usable_iff env db _ row l e1).2 hu)
    rw [hc] at this
    cases this
  · rw [if_neg hc, List.any_eq_true]
    constructor
    · rintro ⟨l, hl, ha⟩
      obtain ⟨hne, row, hrow, e⟩ := h2 l hl
      exact Or.inr ⟨row, hrow, (usable_iff env db _ row l e).1 hne, (meets_iff env db _ row l r e).1 ha⟩
    · rintro (hn | ⟨row, hrow, hu, hm⟩)
      · obtain ⟨l, hl⟩ := List.exists_mem_of_ne_nil crits hc
        obtain ⟨hne, row, hrow, e⟩ := h2 l hl
        exact absurd ((usable_iff env db _ row l e).1 hne) (hn row hrow)
      · obtain ⟨l, e1, e2⟩ := h1 row hrow
        exact ⟨l, e2 ((usable_iff env db _ row l e1).2 hu), (meets_iff env db _ row l r e1).2 hm⟩

/-- **The cells the functions work on** are those of the field in the chosen records, in their order. -/
theorem pick_spec (env : Env T C P) (db : Db T) (f : Field T) (ct : Crit T C) (cells : List (Cell T))
    (h : pick env db f ct = .ok cells) :
    ∃ (i : Nat) (rows : List Nat), resolveField env (db.cols.map (·.head)) f = .ok i ∧ rows.Sublist (List.range db.n) ∧
      (∀ r, r ∈ rows ↔ r < db.n ∧ Chosen env db ct r) ∧ cells = rows.map fun r => db.get r i := by
  unfold pick at h
  split at h
  · cases h
  · cases hf : resolveField env (db.cols.map (·.head)) f with
    | error e => rw [hf] at h; cases h
    | ok i =>
      rw [hf] at h
      simp only at h
      cases hc : critRows env (db.cols.map (·.head)) ct.heads ct.rows with
      | error e => rw [hc] at h; cases h
      | ok crits =>
        rw [hc] at h
        injection h with h
        refine ⟨i, _, rfl, List.filter_sublist, ?_, h.symm⟩
        intro r
        rw [List.mem_filter, List.mem_range, chosen_iff env db ct crits r hc]

/-! ### Results -/

theorem values_ok (env : Env T C P) (bools : Bool) : ∀ cells : List (Cell T), (∀ e, Cell.err e ∉ cells) →
    values env bools cells = .ok (cells.filterMap (worth env bools))
  | [], _ => rfl
  | c :: cs, h => by
    have ih := values_ok env bools cs fun e he => h e (by simp [he])
    cases c with
    | err e => exact absurd (by simp) (h e)
    | num q => simp only [values, ih, List.filterMap_cons, worth]
    | bool b => cases b <;> cases bools <;> simp [values, ih, worth]
    | text s =>
      simp only [values, ih, List.filterMap_cons, worth]
      cases env.toNum s <;> rfl
    | blank => simp only [values, ih, List.filterMap_cons, worth]
    | other => simp only [values, ih, List.filterMap_cons, worth]

theorem values_err (env : Env T C P) (bools : Bool) (e : Err) (post : List (Cell T)) : ∀ pre : List (Cell T),
    (∀ e', Cell.err e' ∉ pre) → values env bools (pre ++ .err e :: post) = .error e
  | [], _ => rfl
  | c :: cs, h => by
    have ih := values_err env bools e post cs fun e he => h e (by simp [he])
    cases c with
    | err e => exact absurd (by simp) (h e)
    | num q => simp only [List.cons_append, values, ih]
    | bool b => simp only [List.cons_append, values, ih]
    | text s => simp only [List.cons_append, values, ih]
    | blank => simp only [List.cons_append, values, ih]
    | other => simp only [List.cons_append, values, ih]

theorem largest_spec : ∀ l : List Rat, l ≠ [] → largest l ∈ l ∧ ∀ q ∈ l, q ≤ largest l
  | [], h => absurd rfl h
  | [q], _ => by simp [largest]
  | q :: r :: l, _ => by
    obtain ⟨h1, h2⟩ := largest_spec (r :: l) (by simp)
    rw [largest]
    · refine ⟨?_, ?_⟩
      · rcases le_total q (largest (r :: l)) with h | h
        · rw [max_eq_right h]; exact List.mem_cons_of_mem _ h1
        · rw [max_eq_left h]; exact List.mem_cons_self ..
      · intro x hx
        rcases List.mem_cons.1 hx with rfl | hx
        · exact le_max_left _ _
        · exact le_trans (h2 x hx) (le_max_right _ _)
    · simp

theorem smallest_spec : ∀ l : List Rat, l ≠ [] → smallest l ∈ l ∧ ∀ q ∈ l, smallest l ≤ q
  | [], h => absurd rfl h
  | [q], _ => by simp [smallest]
  | q :: r :: l, _ => by
    obtain ⟨h1, h2⟩ := smallest_spec (r :: l) (by simp)
    rw [smallest]
    · refine ⟨?_, ?_⟩
      · rcases le_total q (smallest (r :: l)) with h | h
        · rw [min_eq_left h]; exact List.mem_cons_self ..
        · rw [min_eq_right h]; exact List.mem_cons_of_mem _ h1
      · intro x hx
        rcases List.mem_cons.1 hx with rfl | hx
        · exact min_le_left _ _
        · exact le_trans (min_le_right _ _) (h2 x hx)
    · simp

/-- **What the functions give** for cells without errors: sum, number, mean, product, largest and smallest of what the
cells count. -/
theorem result_spec (env : Env T C P) (db : Db T) (f : Field T) (ct : Crit T C) (cells : List (Cell T))
    (h : pick env db f ct = .ok cells) (he : ∀ e, Cell.err e ∉ cells) :
    let l := cells.filterMap (worth env true)
    dfun env .sum db f ct = .ok l.sum ∧
    dfun env .count db f ct = .ok (cells.filterMap (worth env false)).length ∧
    (l ≠ [] → dfun env .product db f ct = .ok l.prod) ∧
    (l ≠ [] → ∃ m, dfun env .average db f ct = .ok m ∧ m * l.length = l.sum) ∧
    (l ≠ [] → ∃ m, dfun env .max db f ct = .ok m ∧ m ∈ l ∧ ∀ q ∈ l, q ≤ m) ∧
    (l ≠ [] → ∃ m, dfun env .min db f ct = .ok m ∧ m ∈ l ∧ ∀ q ∈ l, m ≤ q) ∧
    (l = [] → dfun env .average db f ct = .error .div ∧ dfun env .max db f ct = .ok 0 ∧ dfun env .min db f ct = .ok 0 ∧
      dfun env .product db f ct = .ok 0) := by
  intro l
  have hv : values env true cells = .ok l := values_ok env true cells he
  have key : ∀ a : Agg, a ≠ .count → dfun env a db f ct = aggregate a l := by
    intro a ha
    have : (a != .count) = true := by simpa using ha
    simp only [dfun, h, this, hv]
  refine ⟨?_, ?_, ?_, ?_, ?_, ?_, ?_⟩
  · rw [key .sum (by decide)]; rfl
  · have : (Agg.count != .count) = false := by decide
    simp only [dfun, h, this, values_ok env false cells he]; rfl
  · intro hne
    rw [key .product (by decide), aggregate, if_neg hne]
  · intro hne
    rw [key .average (by decide), aggregate, if_neg hne]
    refine ⟨_, rfl, ?_⟩
    have : (l.length : Rat) ≠ 0 := by
      have := List.length_pos_iff.2 hne
      exact_mod_cast this.ne'
    field_simp
  · intro hne
    rw [key .max (by decide), aggregate, if_neg hne]
    exact ⟨_, rfl, largest_spec l hne⟩
  · intro hne
    rw [key .min (by decide), aggregate, if_neg hne]
    exact ⟨_, rfl, smallest_spec l hne⟩
  · intro hn
    rw [key .average (by decide), key .max (by decide), key .min (by decide), key .product (by decide)]
    simp [aggregate, hn]

theorem countA_err (e : Err) (post : List (Cell T)) : ∀ (pre : List (Cell T)), (∀ e', Cell.err e' ∉ pre) →
    countA (pre ++ .err e :: post) = .error e
  | [], _ => rfl
  | c :: cs, hp => by
    have ih := countA_err e post cs fun e' hm => hp e' (by simp [hm])
    cases c with
    | err e' => exact absurd (by simp) (hp e')
    | num q => simp [countA, ih]
    | bool b => simp [countA, ih]
    | text s => simp [countA, ih]
    | blank => simp [countA, ih]
    | other => simp [countA, ih]

/-- **Errors of the chosen records show**, the first of them. -/
theorem error_spec (env : Env T C P) (a : Agg) (sample : Bool) (db : Db T) (f : Field T) (ct : Crit T C)
    (pre post : List (Cell T)) (e : Err)
    (h : pick env db f ct = .ok (pre ++ .err e :: post)) (hp : ∀ e', Cell.err e' ∉ pre) :
    dfun env a db f ct = .error e ∧ dvar env sample db f ct = .error e ∧ dcounta env db f ct = .error e := by
  simp only [dfun, dvar, dcounta, h, values_err env _ e post pre hp, countA_err e post pre hp, and_self]

/-- **Errors of the arguments show.** -/
theorem argument_error (env : Env T C P) (a : Agg) (sample : Bool) (db : Db T) (f : Field T) (ct : Crit T C) (e : Err)
    (h : pick env db f ct = .error e) :
    dfun env a db f ct = .error e ∧ dvar env sample db f ct = .error e ∧ dget env db f ct = .err e ∧
    dcounta env db f ct = .error e := by
  simp only [dfun, dvar, dget, dcounta, h, and_self]

/-- **DVAR and DVARP** are the squares about the mean, over n-1 and over n; the deviations are their roots. -/
theorem variance_spec (env : Env T C P) (db : Db T) (f : Field T) (ct : Crit T C) (cells : List (Cell T))
    (h : pick env db f ct = .ok cells) (he : ∀ e, Cell.err e ∉ cells) :
    let l := cells.filterMap (worth env true)
    (∀ m, m * l.length = l.sum → l ≠ [] →
      ∃ v, dvar env false db f ct = .ok v ∧ v * l.length = (l.map fun x => (x - m) ^ 2).sum ∧ 0 ≤ v ∧
        (2 ≤ l.length → ∃ w, dvar env true db f ct = .ok w ∧ w * (l.length - 1) = (l.map fun x => (x - m) ^ 2).sum ∧ v ≤ w)) ∧
    (l = [] → dvar env false db f ct = .error .div) ∧
    (l.length < 2 → dvar env true db f ct = .error .div) := by
  intro l
  have hv : values env true cells = .ok l := values_ok env true cells he
  have key : ∀ s, dvar env s db f ct = variance s l := by
    intro s; simp only [dvar, h, hv]
  have sq : ∀ m : Rat, 0 ≤ (l.map fun x => (x - m) ^ 2).sum := by
    intro m
    apply List.sum_nonneg
    intro x hx
    obtain ⟨y, _, rfl⟩ := List.mem_map.1 hx
    exact sq_nonneg _
  refine ⟨?_, ?_, ?_⟩
  · intro m hm hne
    have hl : (0 : Rat) < l.length := by
      have := List.length_pos_iff.2 hne
      exact_mod_cast this
    have em : meanOf l = m := by
      rw [meanOf, ← hm]; field_simp
    rw [key false, variance, if_neg (by decide), if_neg hne]
    refine ⟨_, rfl, ?_, ?_, ?_⟩
    · rw [squares, em]; field_simp
    · rw [squares]; exact div_nonneg (sq _) hl.le
    · intro h2
      have h2' : (2 : Rat) ≤ l.length := by exact_mod_cast h2
      rw [key true, variance, if_pos rfl, if_neg (by omega)]
      refine ⟨_, rfl, ?_, ?_⟩
      · have : (l.length : Rat) - 1 ≠ 0 := by linarith
        rw [squares, em]; field_simp
      · exact div_le_div_of_nonneg_left (sq _) (by linarith) (by linarith)
  · intro hn
    rw [key false, variance, if_neg (by decide), if_pos hn]
  · intro hn
    rw [key true, variance, if_pos rfl, if_pos hn]

/-- DSTDEV and DSTDEVP are the roots of DVAR and DVARP: not negative, and their squares. -/
theorem deviation_spec (env : Env T C P) (sample : Bool) (db : Db T) (f : Field T) (ct : Crit T C) (v : Rat)
    (h : dvar env sample db f ct = .ok v) (hv : 0 ≤ v) :
    ∃ d, dstdev env sample db f ct = .ok d ∧ 0 ≤ d ∧ d * d = v := by
  refine ⟨Real.sqrt v, by simp only [dstdev, h], Real.sqrt_nonneg _, Real.mul_self_sqrt (by exact_mod_cast hv)⟩

/-- **DGET** gives the one value of the chosen records, blanks aside: `#VALUE!` if there is none, `#NUM!` if there are
several. -/
theorem get_spec (env : Env T C P) (db : Db T) (f : Field T) (ct : Crit T C) (cells : List (Cell T))
    (h : pick env db f ct = .ok cells) :
    ((∀ c ∈ cells, c = .blank) → dget env db f ct = .err .value) ∧
    (∀ a b c, (∀ x ∈ a ++ b, x = .blank) → c ≠ .blank → cells = a ++ c :: b → dget env db f ct = c) ∧
    (∀ a b c x y, x ≠ .blank → y ≠ .blank → cells = a ++ x :: (b ++ y :: c) → dget env db f ct = .err .num) := by
  have nil : ∀ l : List (Cell T), (∀ x ∈ l, x = .blank) → l.filter (· ≠ .blank) = [] := by
    intro l hl
    rw [List.filter_eq_nil_iff]
    intro x hx
    simp [hl x hx]
  simp only [dget, h]
  refine ⟨?_, ?_, ?_⟩
  · intro hb
    rw [nil cells hb]
  · rintro a b c hb hc rfl
    rw [List.filter_append, List.filter_cons, if_pos (by simpa using hc), nil a (fun x hx => hb x (by simp [hx])),
      nil b (fun x hx => hb x (by simp [hx]))]
    rfl
  · rintro a b c x y hx hy rfl
    rw [List.filter_append, List.filter_cons, if_pos (by simpa using hx), List.filter_append, List.filter_cons,
      if_pos (by simpa using hy)]
    cases h1 : a.filter (· ≠ .blank) with
    | nil =>
      cases h2 : b.filter (· ≠ .blank) with
      | nil => rfl
      | cons _ _ => rfl
    | cons u us =>
      cases us with
      | nil => rfl
      | cons _ _ => rfl

/-- **DCOUNTA** counts the cells that are not blank. -/
theorem counta_spec (env : Env T C P) (db : Db T) (f : Field T) (ct : Crit T C) (cells : List (Cell T))
    (h : pick env db f ct = .ok cells) (he : ∀ e, Cell.err e ∉ cells) :
    dcounta env db f ct = .ok (cells.filter (· ≠ .blank)).length := by
  simp only [dcounta, h]
  clear h
  induction cells with
  | nil => rfl
  | cons c cs ih =>
    have ih := ih fun e hm => he e (by simp [hm])
    cases c with
    | err e => exact absurd (by simp) (he e)
    | num q => simp [countA, ih]
    | bool b => simp [countA, ih]
    | text s => simp [countA, ih]
    | blank => simp [countA, ih]
    | other => simp [countA, ih]

end Verif.Dbase
