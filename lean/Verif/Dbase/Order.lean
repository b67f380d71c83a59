import Verif.Dbase.Props
import Mathlib.Algebra.BigOperators.Group.List.Lemmas

/-!
# C102 — order of rows and columns, criteria in one row and in several, and where the functions fail
-/
namespace Verif.Dbase

variable {T C P : Type} [DecidableEq T]

/-! ### Records in another order -/

/-- The same database with its records in another order. -/
def Db.reorder (db : Db T) (σ : Nat → Nat) : Db T := ⟨db.cols.map fun c => ⟨c.head, fun r => c.cell (σ r)⟩, db.n⟩

theorem reorder_get (db : Db T) (σ : Nat → Nat) (r i : Nat) : (db.reorder σ).get r i = db.get (σ r) i := by
  unfold Db.get Db.reorder
  simp only [List.getElem?_map]
  cases db.cols[i]? <;> rfl

theorem reorder_heads (db : Db T) (σ : Nat → Nat) : (db.reorder σ).cols.map (·.head) = db.cols.map (·.head) := by
  simp [Db.reorder, Function.comp_def]

/-- **The order of the records does not matter for what is chosen.** -/
theorem rows_order (env : Env T C P) (db : Db T) (f : Field T) (ct : Crit T C) (σ : Nat → Nat)
    (hσ : ((List.range db.n).map σ).Perm (List.range db.n)) (cells : List (Cell T)) (h : pick env db f ct = .ok cells) :
    ∃ cells', pick env (db.reorder σ) f ct = .ok cells' ∧ cells'.Perm cells := by
  unfold pick at h ⊢
  have hlen : (db.reorder σ).cols.length = db.cols.length := by simp [Db.reorder]
  have hn : (db.reorder σ).n = db.n := rfl
  rw [reorder_heads, hlen, hn]
  split at h
  · cases h
  · next hne =>
    rw [if_neg hne]
    cases hf : resolveField env (db.cols.map (·.head)) f with
    | error e => rw [hf] at h; cases h
    | ok i =>
      rw [hf] at h
      simp only at h ⊢
      cases hc : critRows env (db.cols.map (·.head)) ct.heads ct.rows with
      | error e => rw [hc] at h; cases h
      | ok crits =>
        rw [hc] at h
        injection h with h
        refine ⟨_, rfl, ?_⟩
        rw [← h]
        unfold selected
        rw [hn]
        have hm : ∀ r, rowMatches env (db.reorder σ) r crits = rowMatches env db (σ r) crits := by
          intro r
          simp only [rowMatches, reorder_get]
        have e : ((List.range db.n).filter fun r => rowMatches env (db.reorder σ) r crits).map (fun r => (db.reorder σ).get r i)
            = (((List.range db.n).map σ).filter fun r => rowMatches env db r crits).map (fun r => db.get r i) := by
          rw [List.filter_map, List.map_map]
          simp only [Function.comp_def, hm, reorder_get]
        rw [e]
        exact (hσ.filter _).map _

theorem largest_perm (l l' : List Rat) (h : l.Perm l') : largest l = largest l' := by
  by_cases hn : l = []
  · subst hn
    rw [List.nil_perm.1 h]
  · have hn' : l' ≠ [] := fun e => hn (by subst e; exact h.eq_nil)
    obtain ⟨a1, a2⟩ := largest_spec l hn
    obtain ⟨b1, b2⟩ := largest_spec l' hn'
    exact le_antisymm (b2 _ (h.mem_iff.1 a1)) (a2 _ (h.mem_iff.2 b1))

theorem smallest_perm (l l' : List Rat) (h : l.Perm l') : smallest l = smallest l' := by
  by_cases hn : l = []
  · subst hn
    rw [List.nil_perm.1 h]
  · have hn' : l' ≠ [] := fun e => hn (by subst e; exact h.eq_nil)
    obtain ⟨a1, a2⟩ := smallest_spec l hn
    obtain ⟨b1, b2⟩ := smallest_spec l' hn'
    exact le_antisymm (a2 _ (h.mem_iff.2 b1)) (b2 _ (h.mem_iff.1 a1))

/-- **Nor for the results**, if the field has no errors among the chosen records. -/
theorem result_order (env : Env T C P) (a : Agg) (sample : Bool) (db : Db T) (f : Field T) (ct : Crit T C) (σ : Nat → Nat)
    (hσ : ((List.range db.n).map σ).Perm (List.range db.n)) (cells : List (Cell T)) (h : pick env db f ct = .ok cells)
    (he : ∀ e, Cell.err e ∉ cells) :
    dfun env a (db.reorder σ) f ct = dfun env a db f ct ∧ dvar env sample (db.reorder σ) f ct = dvar env sample db f ct := by
  obtain ⟨cells', h', hp⟩ := rows_order env db f ct σ hσ cells h
  have he' : ∀ e, Cell.err e ∉ cells' := fun e hm => he e (hp.mem_iff.1 hm)
  have key : ∀ b, (cells'.filterMap (worth env b)).Perm (cells.filterMap (worth env b)) := fun b => hp.filterMap _
  constructor
  · simp only [dfun, h, h', values_ok env _ cells he, values_ok env _ cells' he']
    have k := key (a != .count)
    have hnil : cells'.filterMap (worth env (a != .count)) = [] ↔ cells.filterMap (worth env (a != .count)) = [] := by
      constructor
      · intro e; rw [e] at k; exact (List.nil_perm.1 k)
      · intro e; rw [e] at k; exact k.eq_nil
    cases a <;> simp only [aggregate, hnil, k.sum_eq, k.prod_eq, k.length_eq, largest_perm _ _ k, smallest_perm _ _ k]
  · simp only [dvar, h, h', values_ok env _ cells he, values_ok env _ cells' he']
    have k := key true
    have hnil : cells'.filterMap (worth env true) = [] ↔ cells.filterMap (worth env true) = [] := by
      constructor
      · intro e; rw [e] at k; exact (List.nil_perm.1 k)
      · intro e; rw [e] at k; exact k.eq_nil
    have hm : meanOf (cells'.filterMap (worth env true)) = meanOf (cells.filterMap (worth env true)) := by
      simp only [meanOf, k.sum_eq, k.length_eq]
    have hs : squares (cells'.filterMap (worth env true)) = squares (cells.filterMap (worth env true)) := by
      unfold squares
      rw [hm]
      exact (k.map _).sum_eq
    simp only [variance, hnil, hs, k.length_eq]

/-! ### Columns in another order -/

/-- The first column whose header is this text. -/
def findCol (env : Env T C P) (s : T) (cols : List (Column T)) : Option (Column T) :=
  cols.find? fun c => match c.head with
    | .text h => decide (env.fold h = env.fold s)
    | _ => false

theorem findCol_eq (env : Env T C P) (s : T) : ∀ cols : List (Column T),
    (findHead env s (cols.map (·.head))).bind (fun i => cols[i]?) = findCol env s cols
  | [] => rfl
  | c :: cs => by
    have ih := findCol_eq env s cs
    have step : ((findHead env s (cs.map (·.head))).map (· + 1)).bind (fun i => (c :: cs)[i]?) = findCol env s cs := by
      rw [← ih]
      cases findHead env s (cs.map (·.head)) <;> simp
    unfold findCol at step ⊢
    rw [List.find?_cons, List.map_cons]
    cases hc : c.head with
    | text h =>
      rw [findHead]
      split
      · next e => simp [e]
      · next e => simpa [e] using step
    | num q => exact step
    | bool b => exact step
    | blank => exact step
    | err e => exact step
    | other => exact step

/-- No two columns have the same name up to case. -/
def DistinctNames (env : Env T C P) (cols : List (Column T)) : Prop :=
  cols.Pairwise fun c d => ∀ h k, c.head = .text h → d.head = .text k → env.fold h ≠ env.fold k

theorem find_perm {α : Type} (p : α → Bool) {l l' : List α} (h : l.Perm l')
    (hu : l.Pairwise fun a b => ¬ (p a = true ∧ p b = true)) : l.find? p = l'.find? p := by
  induction h with
  | nil => rfl
  | cons x h ih =>
    rw [List.pairwise_cons] at hu
    rw [List.find?_cons, List.find?_cons, ih hu.2]
  | swap x y l =>
    rw [List.pairwise_cons] at hu
    have := hu.1 x (List.mem_cons_self ..)
    rw [List.find?_cons, List.find?_cons, List.find?_cons, List.find?_cons]
    cases hx : p x <;> cases hy : p y <;> simp_all
  | trans h1 h2 ih1 ih2 =>
    rw [ih1 hu]
    exact ih2 (hu.perm h1 (fun h e => h ⟨e.2, e.1⟩))

theorem findCol_perm (env : Env T C P) (s : T) {cols cols' : List (Column T)} (h : cols.Perm cols')
    (hd : DistinctNames env cols) : findCol env s cols = findCol env s cols' := by
  unfold findCol
  apply find_perm _ h
  refine hd.imp ?_
  intro c d hcd
  rintro ⟨h1, h2⟩
  cases hc : c.head <;> rw [hc] at h1 <;> try (cases h1)
  cases hk : d.head <;> rw [hk] at h2 <;> try (cases h2)
  exact hcd _ _ hc hk ((of_decide_eq_true h1).trans (of_decide_eq_true h2).symm)

/-- The conditions with the columns themselves. -/
def rowCols (env : Env T C P) (cols : List (Column T)) : List (Cell T × Option C) → Except Err (List (Column T × P))
  | [] => .ok []
  | (.text s, some c) :: cs => match findCol env s cols with
    | none => rowCols env cols cs
    | some k => match env.parse c with
      | .error e => .error e
      | .ok p => match rowCols env cols cs with
        | .error e => .error e
        | .ok l => .ok ((k, p) :: l)
  | _ :: cs => rowCols env cols cs

/-- Conditions by position and by column that belong together. -/
def Same (cols : List (Column T)) (l : List (Nat × P)) (m : List (Column T × P)) : Prop :=
  List.Forall₂ (fun a b => cols[a.1]? = some b.1 ∧ a.2 = b.2) l m

theorem findHead_col (env : Env T C P) (s : T) (cols : List (Column T)) :
    (findHead env s (cols.map (·.head)) = none ∧ findCol env s cols = none) ∨
    ∃ i k, findHead env s (cols.map (·.head)) = some i ∧ findCol env s cols = some k ∧ cols[i]? = some k := by
  have e := findCol_eq env s cols
  cases hf : findHead env s (cols.map (·.head)) with
  | none => rw [hf] at e; exact Or.inl ⟨rfl, e.symm⟩
  | some i =>
    rw [hf] at e
    simp only [Option.bind_some] at e
    obtain ⟨⟨h, h1, _⟩, _⟩ := (findHead_spec env s _ i).1 hf
    rw [List.getElem?_map, Option.map_eq_some_iff] at h1
    obtain ⟨k, hk, _⟩ := h1
    exact Or.inr ⟨i, k, rfl, by rw [← e, hk], hk⟩

theorem rowCols_spec (env : Env T C P) (cols : List (Column T)) : ∀ cs : List (Cell T × Option C),
    (∃ e, rowCrit env (cols.map (·.head)) cs = .error e ∧ rowCols env cols cs = .error e) ∨
    ∃ l m, rowCrit env (cols.map (·.head)) cs = .ok l ∧ rowCols env cols cs = .ok m ∧ Same cols l m
  | [] => Or.inr ⟨[], [], rfl, rfl, List.Forall₂.nil⟩
  | (h, none) :: cs => by
    have ih := rowCols_spec env cols cs
    have e : rowCols env cols ((h, none) :: cs) = rowCols env cols cs := by cases h <;> rfl
    rw [e]
    exact ih
  | (h, some c) :: cs => by
    have ih := rowCols_spec env cols cs
    cases h with
    | text s =>
      simp only [rowCrit, rowCols, colOf]
      rcases findHead_col env s cols with ⟨h1, h2⟩ | ⟨i, k, h1, h2, h3⟩
      · rw [h1, h2]; exact ih
      · rw [h1, h2]
        simp only
        cases hp : env.parse c with
        | error e => exact Or.inl ⟨e, rfl, rfl⟩
        | ok p =>
          rcases ih with ⟨e, e1, e2⟩ | ⟨l, m, e1, e2, e3⟩
          · rw [e1, e2]; exact Or.inl ⟨e, rfl, rfl⟩
          · rw [e1, e2]; exact Or.inr ⟨_, _, rfl, rfl, List.Forall₂.cons ⟨h3, rfl⟩ e3⟩
    | num q => exact ih
    | bool b => exact ih
    | blank => exact ih
    | err e => exact ih
    | other => exact ih

theorem rowCols_perm (env : Env T C P) {cols cols' : List (Column T)} (h : cols.Perm cols')
    (hd : DistinctNames env cols) : ∀ cs : List (Cell T × Option C), rowCols env cols cs = rowCols env cols' cs
  | [] => rfl
  | (hd', c) :: cs => by
    have ih := rowCols_perm env h hd cs
    cases hd' with
    | text s =>
      cases c with
      | none => exact ih
      | some c => simp only [rowCols, ih, findCol_perm env s h hd]
    | num q => exact ih
    | bool b => exact ih
    | blank => exact ih
    | err e => exact ih
    | other => exact ih

theorem all_same (env : Env T C P) (cols : List (Column T)) (n r : Nat) {l : List (Nat × P)} {m : List (Column T × P)}
    (h : Same cols l m) : (l.all fun c => env.test c.2 ((Db.mk cols n).get r c.1)) = m.all fun c => env.test c.2 (c.1.cell r) := by
  induction h with
  | nil => rfl
  | cons hab _ ih =>
    rw [List.all_cons, List.all_cons, ih, hab.2]
    simp only [Db.get, hab.1]

/-- The criteria of two databases belong together: the same errors, and the same records match. -/
theorem critRows_perm (env : Env T C P) {cols cols' : List (Column T)} (hp : cols.Perm cols')
    (hd : DistinctNames env cols) (heads : List (Cell T)) (n : Nat) : ∀ rows : List (List (Option C)),
    (∃ e, critRows env (cols.map (·.head)) heads rows = .error e ∧ critRows env (cols'.map (·.head)) heads rows = .error e) ∨
    ∃ ls ls', critRows env (cols.map (·.head)) heads rows = .ok ls ∧ critRows env (cols'.map (·.head)) heads rows = .ok ls' ∧
      (ls = [] ↔ ls' = []) ∧ ∀ r, (ls.any fun row => row.all fun c => env.test c.2 ((Db.mk cols n).get r c.1)) =
        (ls'.any fun row => row.all fun c => env.test c.2 ((Db.mk cols' n).get r c.1))
  | [] => Or.inr ⟨[], [], rfl, rfl, Iff.rfl, fun _ => rfl⟩
  | row :: rows => by
    have ih := critRows_perm env hp hd heads n rows
    have e0 := rowCols_perm env hp hd (heads.zip row)
    simp only [critRows]
    rcases rowCols_spec env cols (heads.zip row) with ⟨e, e1, e2⟩ | ⟨l, m, e1, e2, e3⟩
    · rcases rowCols_spec env cols' (heads.zip row) with ⟨e', e1', e2'⟩ | ⟨l', m', e1', e2', e3'⟩
      · rw [← e0, e2] at e2'
        injection e2' with e2'
        subst e2'
        rw [e1, e1']
        exact Or.inl ⟨e, rfl, rfl⟩
      · rw [← e0, e2] at e2'; cases e2'
    · rcases rowCols_spec env cols' (heads.zip row) with ⟨e', e1', e2'⟩ | ⟨l', m', e1', e2', e3'⟩
      · rw [← e0, e2] at e2'; cases e2'
      · rw [← e0, e2] at e2'
        injection e2' with e2'
        subst e2'
        rw [e1, e1']
        have hnil : l = [] ↔ l' = [] := by
          rw [← List.length_eq_zero_iff, ← List.length_eq_zero_iff, e3.length_eq, e3'.length_eq]
        rcases ih with ⟨e, f1, f2⟩ | ⟨ls, ls', f1, f2, f3, f4⟩
        · rw [f1, f2]; exact Or.inl ⟨e, rfl, rfl⟩
        · rw [f1, f2]
          refine Or.inr ⟨_, _, rfl, rfl, ?_, ?_⟩
          · by_cases hl : l = []
            · rw [if_pos hl, if_pos (hnil.1 hl)]; exact f3
            · rw [if_neg hl, if_neg (fun h => hl (hnil.2 h))]; simp
          · intro r
            by_cases hl : l = []
            · rw [if_pos hl, if_pos (hnil.1 hl)]; exact f4 r
            · rw [if_neg hl, if_neg (fun h => hl (hnil.2 h)), List.any_cons, List.any_cons, f4 r,
                all_same env cols n r e3, all_same env cols' n r e3']

/-- **The order of the columns does not matter** if the field is given by name and no two columns have the same name. -/
theorem columns_order (env : Env T C P) {cols cols' : List (Column T)} (hp : cols.Perm cols')
    (hd : DistinctNames env cols) (n : Nat) (s : T) (ct : Crit T C) :
    pick env ⟨cols, n⟩ (.text s) ct = pick env ⟨cols', n⟩ (.text s) ct := by
  unfold pick
  simp only [hp.length_eq]
  split
  · rfl
  · have e := findCol_perm env s hp hd
    rcases findHead_col env s cols with ⟨h1, h2⟩ | ⟨i, k, h1, h2, h3⟩
    · rcases findHead_col env s cols' with ⟨h1', h2'⟩ | ⟨i', k', h1', h2', h3'⟩
      · simp only [resolveField, h1, h1']
      · rw [← e, h2] at h2'; cases h2'
    · rcases findHead_col env s cols' with ⟨h1', h2'⟩ | ⟨i', k', h1', h2', h3'⟩
      · rw [← e, h2] at h2'; cases h2'
      · rw [← e, h2] at h2'
        injection h2' with h2'
        subst h2'
        simp only [resolveField, h1, h1']
        rcases critRows_perm env hp hd ct.heads n ct.rows with ⟨e, f1, f2⟩ | ⟨ls, ls', f1, f2, f3, f4⟩
        · rw [f1, f2]
        · rw [f1, f2]
          simp only [selected]
          have hm : ∀ r, rowMatches env ⟨cols, n⟩ r ls = rowMatches env ⟨cols', n⟩ r ls' := by
            intro r
            unfold rowMatches
            by_cases hl : ls = []
            · rw [if_pos hl, if_pos (f3.1 hl)]
            · rw [if_neg hl, if_neg (fun h => hl (f3.2 h)), f4 r]
          have hg : ∀ r, (Db.mk cols n).get r i = (Db.mk cols' n).get r i' := by
            intro r
            simp only [Db.get, h3, h3']
          simp only [hm, hg]

/-! ### Criteria in one row and in several -/

theorem rowCrit_append (env : Env T C P) (heads : List (Cell T)) (a b : List (Nat × P)) (ds : List (Cell T × Option C))
    (hb : rowCrit env heads ds = .ok b) : ∀ (cs : List (Cell T × Option C)) (a : List (Nat × P)),
    rowCrit env heads cs = .ok a → rowCrit env heads (cs ++ ds) = .ok (a ++ b)
  | [], a, h => by
    injection h with h
    subst h
    exact hb
  | (hd, none) :: cs, a, h => rowCrit_append env heads [] b ds hb cs a h
  | (hd, some c) :: cs, a, h => by
    rw [List.cons_append]
    simp only [rowCrit] at h ⊢
    cases hc : colOf env heads hd with
    | none =>
      rw [hc] at h
      exact rowCrit_append env heads [] b ds hb cs a h
    | some k =>
      rw [hc] at h
      simp only at h ⊢
      cases hp : env.parse c with
      | error e => rw [hp] at h; cases h
      | ok p =>
        rw [hp] at h
        simp only at h ⊢
        cases hr : rowCrit env heads cs with
        | error e => rw [hr] at h; cases h
        | ok l =>
          rw [hr] at h
          injection h with h
          subst h
          rw [rowCrit_append env heads [] b ds hb cs l hr]
          rfl

theorem sum_filter (rs : List Nat) (m : Nat → Bool) (g : Nat → Cell T) (w : Cell T → Option Rat) :
    (((rs.filter m).map g).filterMap w).sum = (rs.map fun r => if m r then (w (g r)).getD 0 else 0).sum := by
  induction rs with
  | nil => rfl
  | cons r rs ih =>
    rw [List.filter_cons, List.map_cons, List.sum_cons, ← ih]
    cases m r with
    | false => simp
    | true =>
      simp only [if_true, List.map_cons, List.filterMap_cons]
      cases w (g r) <;> simp

/-- DSUM as a sum over all records. -/
theorem dsum_eq (env : Env T C P) (db : Db T) (f : Field T) (ct : Crit T C) (i : Nat) (crits : List (List (Nat × P)))
    (hn : ¬ (db.n < 1 ∨ db.cols.length < 1))
    (hf : resolveField env (db.cols.map (·.head)) f = .ok i)
    (hc : critRows env (db.cols.map (·.head)) ct.heads ct.rows = .ok crits)
    (he : ∀ r e, db.get r i ≠ .err e) :
    dfun env .sum db f ct =
      .ok ((List.range db.n).map fun r => if rowMatches env db r crits then (worth env true (db.get r i)).getD 0 else 0).sum := by
  have hp : pick env db f ct = .ok (selected env db i crits) := by
    unfold pick
    rw [if_neg hn, hf]
    simp only
    rw [hc]
  have := (result_spec env db f ct _ hp (by
    intro e hm
    obtain ⟨r, _, hr⟩ := List.mem_map.1 hm
    exact he r e hr)).1
  rw [this]
  unfold selected
  rw [sum_filter]

/-- **Rows of the criteria are alternatives, cells of a row conditions**: the sum with the rows `a` and `b` and the sum with
the conditions of both in one row together make the sums with `a` and with `b` alone. -/
theorem inclusion_exclusion (env : Env T C P) (db : Db T) (f : Field T) (heads : List (Cell T)) (a b : List (Option C))
    (la lb : List (Nat × P)) (i : Nat) (hl : a.length = heads.length)
    (hn : ¬ (db.n < 1 ∨ db.cols.length < 1))
    (hf : resolveField env (db.cols.map (·.head)) f = .ok i)
    (ha : rowCrit env (db.cols.map (·.head)) (heads.zip a) = .ok la) (hua : Usable env db heads a)
    (hb : rowCrit env (db.cols.map (·.head)) (heads.zip b) = .ok lb) (hub : Usable env db heads b)
    (he : ∀ r e, db.get r i ≠ .err e) :
    ∃ x y u v, dfun env .sum db f ⟨heads, [a]⟩ = .ok x ∧ dfun env .sum db f ⟨heads, [b]⟩ = .ok y ∧
      dfun env .sum db f ⟨heads, [a, b]⟩ = .ok u ∧ dfun env .sum db f ⟨heads ++ heads, [a ++ b]⟩ = .ok v ∧ u + v = x + y := by
  have na : la ≠ [] := (usable_iff env db heads a la ha).2 hua
  have nb : lb ≠ [] := (usable_iff env db heads b lb hb).2 hub
  have hab : rowCrit env (db.cols.map (·.head)) ((heads ++ heads).zip (a ++ b)) = .ok (la ++ lb) := by
    rw [List.zip_append hl.symm]
    exact rowCrit_append env _ [] lb _ hb _ la ha
  have nab : la ++ lb ≠ [] := by simp [na]
  have ca : critRows env (db.cols.map (·.head)) heads [a] = .ok [la] := by simp [critRows, ha, na]
  have cb : critRows env (db.cols.map (·.head)) heads [b] = .ok [lb] := by simp [critRows, hb, nb]
  have cu : critRows env (db.cols.map (·.head)) heads [a, b] = .ok [la, lb] := by simp [critRows, ha, hb, na, nb]
  have cv : critRows env (db.cols.map (·.head)) (heads ++ heads) [a ++ b] = .ok [la ++ lb] := by
    simp only [critRows, hab]
    rw [if_neg nab]
  refine ⟨_, _, _, _, dsum_eq env db f ⟨heads, [a]⟩ i _ hn hf ca he, dsum_eq env db f ⟨heads, [b]⟩ i _ hn hf cb he,
    dsum_eq env db f ⟨heads, [a, b]⟩ i _ hn hf cu he, dsum_eq env db f ⟨heads ++ heads, [a ++ b]⟩ i _ hn hf cv he, ?_⟩
  rw [← List.sum_map_add, ← List.sum_map_add]
  congr 1
  apply List.map_congr_left
  intro r _
  have rm : ∀ (l : List (Nat × P)) (ls : List (List (Nat × P))), rowMatches env db r (l :: ls) =
      (l :: ls).any fun row => row.all fun c => env.test c.2 (db.get r c.1) := fun l ls => if_neg (List.cons_ne_nil l ls)
  simp only [rm, List.any_cons, List.any_nil, Bool.or_false, List.all_append]
  cases (la.all fun c => env.test c.2 (db.get r c.1)) <;> cases (lb.all fun c => env.test c.2 (db.get r c.1)) <;> simp

/-! ### A small database, and where the functions fail -/

/-- Names are numbers here; a criterion `c` asks for at least `c`, and names above 100 are texts of digits. -/
def env₀ : Env Nat Rat Rat where
  fold := fun s => s % 1000
  toNum := fun s => if s = 105 then some 5 else none
  parse := fun c => .ok c
  test := fun p => fun
    | .num q => decide (p ≤ q)
    | _ => false

/-- Columns 1 and 2: (1, 10), (2, 20), (3, TRUE). -/
def db₀ : Db Nat := ⟨[⟨.text 1, fun r => .num (r + 1)⟩,
  ⟨.text 2, fun r => if r = 2 then .bool true else .num (10 * (r + 1))⟩], 3⟩

example : dfun env₀ .sum db₀ (.text 2) ⟨[.text 1], [[some 2]]⟩ = .ok 21 ∧
    dfun env₀ .sum db₀ (.text 1002) ⟨[.text 1, .text 2], [[some 2, some 15]]⟩ = .ok 20 ∧
    dfun env₀ .sum db₀ (.num 1) ⟨[.text 1], [[some 1]]⟩ = .ok 6 ∧
    dget env₀ db₀ (.num 2) ⟨[.text 1], [[some 3]]⟩ = .bool true := by decide +kernel

example : ∃ x y u v, dfun env₀ .sum db₀ (.num 1) ⟨[.text 1], [[some 2]]⟩ = .ok x ∧
    dfun env₀ .sum db₀ (.num 1) ⟨[.text 1], [[some 3]]⟩ = .ok y ∧
    dfun env₀ .sum db₀ (.num 1) ⟨[.text 1], [[some 2], [some 3]]⟩ = .ok u ∧
    dfun env₀ .sum db₀ (.num 1) ⟨[.text 1, .text 1], [[some 2, some 3]]⟩ = .ok v ∧ u + v = x + y :=
  ⟨5, 3, 5, 3, by decide +kernel⟩

/-- **Refuted: a blank row of the criteria lets every record pass.** It is left out, and the other rows decide. -/
theorem blank_refuted : dfun env₀ .count db₀ (.num 1) ⟨[.text 1], [[none], [some 3]]⟩ = .ok 1 ∧
    dfun env₀ .count db₀ (.num 1) ⟨[.text 1], [[none]]⟩ = .ok 3 := by decide +kernel

/-- **Refuted: records that meet no criterion are not counted.** With a header that names no column — a slip of the pen —
the condition is dropped, and with it the only row: every record is counted. -/
theorem header_refuted : dfun env₀ .count db₀ (.num 1) ⟨[.text 1], [[some 100]]⟩ = .ok 0 ∧
    dfun env₀ .count db₀ (.num 1) ⟨[.text 7], [[some 100]]⟩ = .ok 3 := by decide +kernel

omit [DecidableEq T] in
/-- In general: criteria none of whose headers names a column choose every record. -/
theorem header_all (env : Env T C P) (db : Db T) (ct : Crit T C) (h : ∀ s i, Cell.text s ∈ ct.heads → ¬ Names env db s i) (r : Nat) :
    Chosen env db ct r := by
  left
  rintro row _ ⟨s, c, i, hm, hn⟩
  exact h s i (List.of_mem_zip hm).1 hn

/-- **Refuted: DAVERAGE is DSUM over DCOUNT.** DSUM and DAVERAGE count logical values, DCOUNT does not. -/
theorem average_refuted : dfun env₀ .sum db₀ (.num 2) ⟨[], []⟩ = .ok 31 ∧
    dfun env₀ .count db₀ (.num 2) ⟨[], []⟩ = .ok 2 ∧
    dfun env₀ .average db₀ (.num 2) ⟨[], []⟩ = .ok (31 / 3) := by decide +kernel

/-- Without logical values in the chosen cells it is. -/
theorem average_count (env : Env T C P) (db : Db T) (f : Field T) (ct : Crit T C) (cells : List (Cell T))
    (h : pick env db f ct = .ok cells) (he : ∀ e, Cell.err e ∉ cells) (hb : ∀ b, Cell.bool b ∉ cells)
    (m s n : Rat) (hm : dfun env .average db f ct = .ok m) (hs : dfun env .sum db f ct = .ok s)
    (hn : dfun env .count db f ct = .ok n) : m * n = s := by
  have e : cells.filterMap (worth env false) = cells.filterMap (worth env true) := by
    clear h he hm hs hn
    induction cells with
    | nil => rfl
    | cons c cs ih =>
      have ih := ih fun b hm => hb b (by simp [hm])
      rw [List.filterMap_cons, List.filterMap_cons, ih]
      cases c with
      | bool b => exact absurd (by simp) (hb b)
      | num q => rfl
      | text s => rfl
      | blank => rfl
      | err e => rfl
      | other => rfl
  obtain ⟨h1, h2, _, h4, _, _, h7⟩ := result_spec env db f ct cells h he
  rw [e] at h2
  rw [h1] at hs
  rw [h2] at hn
  injection hs with hs
  injection hn with hn
  by_cases hl : cells.filterMap (worth env true) = []
  · rw [(h7 hl).1] at hm; cases hm
  · obtain ⟨m', e1, e2⟩ := h4 hl
    rw [e1] at hm
    injection hm with hm
    rw [← hs, ← hn, ← hm, e2]

/-- **Refuted: DCOUNT counts numbers only.** A text of digits is counted, and summed; and a field of 1.9 is the first. -/
theorem text_refuted : dfun env₀ .count ⟨[⟨.text 1, fun _ => .text 105⟩], 1⟩ (.num 1) ⟨[], []⟩ = .ok 1 ∧
    dfun env₀ .sum db₀ (.num (19 / 10)) ⟨[], []⟩ = .ok 6 := by decide +kernel

end Verif.Dbase
