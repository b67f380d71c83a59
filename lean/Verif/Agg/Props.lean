import Verif.Agg.Model
import Verif.Rows.Model
import Mathlib.Tactic.Ring
import Mathlib.Tactic.FieldSimp

/-!
# Properties of aggregates
-/

namespace Verif.Agg

/-! ### Specification -/

/-- The cells of a range that the sheet stores. -/
def View.cells (v : View) : List Cell := v.chunks.flatten.flatten

/-- All rows have as many cells as the range has columns. -/
def View.Ok (v : View) : Prop := ∀ ch ∈ v.chunks, ∀ row ∈ ch, row.length = v.cols

/-- Only ranges. -/
def Ranges (as : List Arg) : Prop := ∀ a ∈ as, ∃ v m, a = .range v m ∧ v.Ok

def Arg.cells : Arg → List Cell
  | .range v _ => v.cells
  | _ => []

/-- The cells of all arguments. -/
def cellsOf (as : List Arg) : List Cell := as.flatMap Arg.cells

/-- The cells that are not empty. -/
def filled (cs : List Cell) : List Cell := cs.filter fun c => decide (c ≠ .empty)

/-! ### The typed columns hold the cells -/

theorem flatMap_cons_perm {α β : Type} (cs : List α) (f : α → β) (g : α → List β) : (cs.flatMap fun c => f c :: g c).Perm (cs.map f ++ cs.flatMap g) := by
  induction cs with
  | nil => exact .nil
  | cons c cs ih =>
    simp only [List.flatMap_cons, List.map_cons, List.cons_append]
    refine .cons _ ?_
    refine (List.Perm.append_left (g c) ih).trans ?_
    rw [← List.append_assoc, ← List.append_assoc]
    exact List.Perm.append_right _ List.perm_append_comm

theorem map_getD_range (row : List Cell) (n : Nat) (h : row.length = n) : (List.range n).map (fun c => row.getD c .empty) = row := by
  apply List.ext_getElem
  · simp [h]
  · intro i h1 h2
    simp [List.getD_eq_getElem?_getD, h2]

theorem chunk_perm (n : Nat) (ch : List (List Cell)) (h : ∀ row ∈ ch, row.length = n) : ((List.range n).map (column ch)).flatten.Perm ch.flatten := by
  rw [← List.flatMap_def]
  induction ch with
  | nil =>
    have : ∀ l : List Nat, l.flatMap (column []) = [] := by intro l; induction l <;> simp_all [column]
    rw [this]
    exact .nil
  | cons row ch ih =>
    have e : (fun c => column (row :: ch) c) = fun c => row.getD c .empty :: column ch c := rfl
    show ((List.range n).flatMap fun c => column (row :: ch) c).Perm _
    rw [e]
    refine (flatMap_cons_perm _ _ _).trans ?_
    rw [map_getD_range row n (h row (.head _)), List.flatten_cons]
    exact List.Perm.append_left _ (ih fun r hr => h r (.tail _ hr))

theorem slices_perm (v : View) (hv : v.Ok) : v.slices.flatten.Perm v.cells := by
  obtain ⟨n, chunks, b⟩ := v
  unfold View.Ok at hv
  simp only at hv
  unfold View.slices View.cells
  simp only
  induction chunks with
  | nil => exact .nil
  | cons ch chunks ih =>
    rw [List.flatMap_cons, List.flatten_append, List.flatten_cons, List.flatten_append]
    exact (chunk_perm n ch (hv ch (.head _))).append (ih fun c hc => hv c (.tail _ hc))

/-! ### Folds over columns -/

theorem nums_append (a b : List Cell) : nums (a ++ b) = nums a ++ nums b := by simp [nums]
theorem errs_append (a b : List Cell) : errs (a ++ b) = errs a ++ errs b := by simp [errs]
theorem filled_append (a b : List Cell) : filled (a ++ b) = filled a ++ filled b := by simp [filled]
theorem nums_perm {a b : List Cell} (h : a.Perm b) : (nums a).Perm (nums b) := h.filterMap _
theorem errs_perm {a b : List Cell} (h : a.Perm b) : (errs a).Perm (errs b) := h.filterMap _

theorem fold_sum (cols : List (List Cell)) (t : Rat) : cols.foldl (fun t col => t + (nums col).sum) t = t + (nums cols.flatten).sum := by
  induction cols generalizing t with
  | nil => simp [nums]
  | cons c cols ih => rw [List.foldl_cons, ih, List.flatten_cons, nums_append, List.sum_append, add_assoc]

theorem fold_length (f : List Cell → Nat) (hf : ∀ a b, f (a ++ b) = f a + f b) (h0 : f [] = 0) (cols : List (List Cell)) (n : Nat) : cols.foldl (fun n col => n + f col) n = n + f cols.flatten := by
  induction cols generalizing n with
  | nil => simp [h0]
  | cons c cols ih => rw [List.foldl_cons, ih, List.flatten_cons, hf, Nat.add_assoc]

theorem firstErr_none {v : View} (hv : v.Ok) : v.firstErr = none ↔ errs v.cells = [] := by
  unfold View.firstErr
  rw [List.head?_eq_none_iff]
  constructor
  · intro h
    exact List.Perm.nil_eq (h ▸ errs_perm (slices_perm v hv)) |>.symm
  · intro h
    exact List.Perm.eq_nil (h ▸ errs_perm (slices_perm v hv))

theorem firstErr_mem {v : View} (hv : v.Ok) {e : Err} (h : v.firstErr = some e) : e ∈ errs v.cells := by
  unfold View.firstErr at h
  exact (errs_perm (slices_perm v hv)).subset (List.mem_of_mem_head? h)

theorem cellsOf_cons (v : View) (m : List Bool) (as : List Arg) : cellsOf (.range v m :: as) = v.cells ++ cellsOf as := rfl

theorem ranges_cases {as : List Arg} (h : Ranges as) : as = [] ∨ ∃ v m bs, as = .range v m :: bs ∧ v.Ok ∧ Ranges bs := by
  cases as with
  | nil => exact .inl rfl
  | cons a bs =>
    obtain ⟨v, m, rfl, hv⟩ := h a (.head _)
    exact .inr ⟨v, m, bs, rfl, hv, fun b hb => h b (.tail _ hb)⟩

/-- Induction over lists of ranges. -/
@[elab_as_elim]
theorem ranges_rec {P : List Arg → Prop} (h0 : P []) (h1 : ∀ v m bs, v.Ok → Ranges bs → P bs → P (.range v m :: bs)) (as : List Arg) (h : Ranges as) : P as := by
  induction as with
  | nil => exact h0
  | cons a bs ih =>
    obtain ⟨v, m, rfl, hv⟩ := h a (.head _)
    exact h1 v m bs hv (fun b hb => h b (.tail _ hb)) (ih fun b hb => h b (.tail _ hb))

/-! ### SUM, COUNT, AVERAGE, MIN, MAX, COUNTA -/

/-- A result for ranges: an error of one of the cells if there is one, otherwise a value. -/
def Gives (out : Out) (cs : List Cell) (value : Out) : Prop := (errs cs = [] → out = value) ∧ (errs cs ≠ [] → ∃ e ∈ errs cs, out = .err e)

theorem gives_range {v : View} (hv : v.Ok) {rest : List Cell} {out out' value : Out} (h1 : ∀ e, v.firstErr = some e → out = .err e) (h2 : v.firstErr = none → out = out') (h3 : errs v.cells = [] → Gives out' rest value) :
    Gives out (v.cells ++ rest) value := by
  unfold Gives
  rw [errs_append]
  cases hf : v.firstErr with
  | some e =>
    have hm := firstErr_mem hv hf
    refine ⟨fun h => ?_, fun _ => ⟨e, List.mem_append_left _ hm, h1 e hf⟩⟩
    rw [List.append_eq_nil_iff] at h
    rw [h.1] at hm
    cases hm
  | none =>
    have he := (firstErr_none hv).1 hf
    rw [he, List.nil_append, h2 hf]
    exact h3 he

theorem sumFrom_gives (env : Env) (as : List Arg) (h : Ranges as) : ∀ t, Gives (sumFrom env as t) (cellsOf as) (.num (t + (nums (cellsOf as)).sum)) := by
  refine ranges_rec ?_ ?_ as h
  · intro t
    exact ⟨fun _ => by simp [sumFrom, cellsOf, nums], fun h => absurd rfl h⟩
  · intro v m bs hv _ ih t
    rw [cellsOf_cons]
    refine gives_range hv (out' := sumFrom env bs (t + (nums v.cells).sum)) ?_ ?_ ?_
    · intro e he; simp [sumFrom, he]
    · intro he
      simp only [sumFrom, he]
      rw [fold_sum, (nums_perm (slices_perm v hv)).sum_eq]
    · intro _
      rw [nums_append, List.sum_append, ← add_assoc]
      exact ih _

/-- `SUM` of ranges is the sum of their numbers, or an error of one of their cells. -/
theorem sum_ranges (env : Env) (as : List Arg) (h : Ranges as) : Gives (sum env as) (cellsOf as) (.num (nums (cellsOf as)).sum) := by
  have := sumFrom_gives env as h 0
  rwa [zero_add] at this

/-- `COUNT` of ranges is the number of their numbers, whatever else they hold. -/
theorem count_ranges (env : Env) (as : List Arg) (h : Ranges as) : count env as = .num (nums (cellsOf as)).length := by
  have key : ∀ n, countFrom env as n = .num ((n + (nums (cellsOf as)).length : Nat) : Rat) := by
    refine ranges_rec ?_ ?_ as h
    · intro n; simp [countFrom, cellsOf, nums]
    · intro v m bs hv _ ih n
      simp only [countFrom]
      rw [fold_length (fun c => (nums c).length) (fun a b => by rw [nums_append, List.length_append]) rfl, ih, cellsOf_cons, nums_append, List.length_append,
        (nums_perm (slices_perm v hv)).length_eq, Nat.add_assoc]
  have := key 0
  rw [Nat.zero_add] at this
  exact this

/-- `AVERAGE` of ranges is the sum of their numbers divided by how many there are. -/
theorem average_ranges (env : Env) (as : List Arg) (h : Ranges as) :
    Gives (average env as) (cellsOf as) (if nums (cellsOf as) = [] then .err errDiv else .num ((nums (cellsOf as)).sum / (nums (cellsOf as)).length)) := by
  have key : ∀ t n, Gives (averageFrom env as t n) (cellsOf as)
      (if n + (nums (cellsOf as)).length = 0 then .err errDiv else .num ((t + (nums (cellsOf as)).sum) / ((n + (nums (cellsOf as)).length : Nat) : Rat))) := by
    refine ranges_rec ?_ ?_ as h
    · intro t n
      exact ⟨fun _ => by simp [averageFrom, cellsOf, nums], fun h => absurd rfl h⟩
    · intro v m bs hv _ ih t n
      rw [cellsOf_cons]
      refine gives_range hv (out' := averageFrom env bs (t + (nums v.cells).sum) (n + (nums v.cells).length)) ?_ ?_ ?_
      · intro e he; simp [averageFrom, he]
      · intro he
        simp only [averageFrom, he]
        rw [fold_sum, fold_length (fun c => (nums c).length) (fun a b => by rw [nums_append, List.length_append]) rfl,
          (nums_perm (slices_perm v hv)).sum_eq, (nums_perm (slices_perm v hv)).length_eq]
      · intro _
        rw [nums_append, List.sum_append, List.length_append, ← Nat.add_assoc, ← add_assoc]
        exact ih _ _
  have := key 0 0
  rw [Nat.zero_add, zero_add] at this
  have e : ((nums (cellsOf as)).length = 0) = (nums (cellsOf as) = []) := by rw [List.length_eq_zero_iff]
  simp only [e] at this
  exact this

theorem foldl_max (qs : List Rat) (q : Rat) : q ≤ qs.foldl max q ∧ (∀ x ∈ qs, x ≤ qs.foldl max q) ∧ (qs.foldl max q = q ∨ qs.foldl max q ∈ qs) := by
  induction qs generalizing q with
  | nil => simp
  | cons a qs ih =>
    obtain ⟨h1, h2, h3⟩ := ih (max q a)
    simp only [List.foldl_cons]
    refine ⟨le_trans (le_max_left _ _) h1, ?_, ?_⟩
    · intro x hx
      rcases List.mem_cons.1 hx with rfl | hx
      · exact le_trans (le_max_right _ _) h1
      · exact h2 x hx
    · rcases h3 with h3 | h3
      · rcases max_choice q a with h | h
        · left; rw [h3, h]
        · right; rw [h3, h]; exact .head _
      · exact .inr (.tail _ h3)

/-- The largest of some numbers. -/
def IsMax (qs : List Rat) (o : Option Rat) : Prop := match o with
  | none => qs = []
  | some m => m ∈ qs ∧ ∀ x ∈ qs, x ≤ m

theorem maxOf_spec (qs : List Rat) : IsMax qs (maxOf qs) := by
  cases qs with
  | nil => rfl
  | cons q qs =>
    obtain ⟨h1, h2, h3⟩ := foldl_max qs q
    refine ⟨?_, fun x hx => ?_⟩
    · rcases h3 with h | h
      · rw [h]; exact .head _
      · exact .tail _ h
    · rcases List.mem_cons.1 hx with rfl | hx
      · exact h1
      · exact h2 x hx

theorem isMax_unique {qs qs' : List Rat} (hp : ∀ x, x ∈ qs ↔ x ∈ qs') {o o' : Option Rat} (h : IsMax qs o) (h' : IsMax qs' o') : o = o' := by
  cases o with
  | none =>
    cases o' with
    | none => rfl
    | some m =>
      have := (hp m).2 h'.1
      have h0 : qs = [] := h
      rw [h0] at this
      cases this
  | some m =>
    cases o' with
    | none =>
      have := (hp m).1 h.1
      have h0 : qs' = [] := h'
      rw [h0] at this
      cases this
    | some m' =>
      congr 1
      exact le_antisymm (h'.2 m ((hp m).1 h.1)) (h.2 m' ((hp m').2 h'.1))

theorem better_isMax {qs qs' : List Rat} {o o' : Option Rat} (h : IsMax qs o) (h' : IsMax qs' o') : IsMax (qs ++ qs') (better (fun a b => decide (b < a)) o o') := by
  cases o' with
  | none =>
    have h0 : qs' = [] := h'
    rw [h0, List.append_nil]
    exact h
  | some n =>
    cases o with
    | none =>
      have h0 : qs = [] := h
      rw [h0, List.nil_append]
      exact h'
    | some m =>
      simp only [better, decide_eq_true_eq]
      by_cases hlt : m < n
      · rw [if_pos hlt]
        refine ⟨List.mem_append_right _ h'.1, fun x hx => ?_⟩
        rcases List.mem_append.1 hx with hx | hx
        · exact le_trans (h.2 x hx) (le_of_lt hlt)
        · exact h'.2 x hx
      · rw [if_neg hlt]
        refine ⟨List.mem_append_left _ h.1, fun x hx => ?_⟩
        rcases List.mem_append.1 hx with hx | hx
        · exact h.2 x hx
        · exact le_trans (h'.2 x hx) (not_lt.1 hlt)

theorem fold_isMax (cols : List (List Cell)) (qs : List Rat) (o : Option Rat) (h : IsMax qs o) :
    IsMax (qs ++ nums cols.flatten) (cols.foldl (fun mv col => better (fun a b => decide (b < a)) mv (maxOf (nums col))) o) := by
  induction cols generalizing qs o with
  | nil => simpa [nums] using h
  | cons c cols ih =>
    rw [List.foldl_cons, List.flatten_cons, nums_append, ← List.append_assoc]
    exact ih _ _ (better_isMax h (maxOf_spec _))

/-- `MAX` of ranges is the largest of their numbers, 0 if there are none. -/
theorem max_ranges (env : Env) (as : List Arg) (h : Ranges as) : Gives (maxFn env as) (cellsOf as) (.num ((maxOf (nums (cellsOf as))).getD 0)) := by
  have key : ∀ qs o, IsMax qs o → Gives (extremeFrom env maxOf (fun a b => decide (b < a)) as o) (cellsOf as) (.num ((maxOf (qs ++ nums (cellsOf as))).getD 0)) := by
    refine ranges_rec ?_ ?_ as h
    · intro qs o ho
      refine ⟨fun _ => ?_, fun h => absurd rfl h⟩
      have : nums (cellsOf []) = [] := rfl
      rw [this, List.append_nil, extremeFrom, isMax_unique (fun _ => Iff.rfl) ho (maxOf_spec qs)]
    · intro v m bs hv _ ih qs o ho
      rw [cellsOf_cons]
      refine gives_range hv (out' := extremeFrom env maxOf (fun a b => decide (b < a)) bs (maxOf (qs ++ nums v.cells))) ?_ ?_ ?_
      · intro e he; simp [extremeFrom, he]
      · intro he
        simp only [extremeFrom, he]
        congr 1
        refine isMax_unique ?_ (fold_isMax v.slices qs o ho) (maxOf_spec _)
        intro x
        rw [List.mem_append, List.mem_append, (nums_perm (slices_perm v hv)).mem_iff]
      · intro _
        rw [nums_append, ← List.append_assoc]
        exact ih _ _ (maxOf_spec _)
  exact key [] none rfl

/-! The same for `MIN`, by turning the numbers around. -/

theorem foldl_min (qs : List Rat) (q : Rat) : qs.foldl min q ≤ q ∧ (∀ x ∈ qs, qs.foldl min q ≤ x) ∧ (qs.foldl min q = q ∨ qs.foldl min q ∈ qs) := by
  induction qs generalizing q with
  | nil => simp
  | cons a qs ih =>
    obtain ⟨h1, h2, h3⟩ := ih (min q a)
    simp only [List.foldl_cons]
    refine ⟨le_trans h1 (min_le_left _ _), ?_, ?_⟩
    · intro x hx
      rcases List.mem_cons.1 hx with rfl | hx
      · exact le_trans h1 (min_le_right _ _)
      · exact h2 x hx
    · rcases h3 with h3 | h3
      · rcases min_choice q a with h | h
        · left; rw [h3, h]
        · right; rw [h3, h]; exact .head _
      · exact .inr (.tail _ h3)

def IsMin (qs : List Rat) (o : Option Rat) : Prop := match o with
  | none => qs = []
  | some m => m ∈ qs ∧ ∀ x ∈ qs, m ≤ x

theorem minOf_spec (qs : List Rat) : IsMin qs (minOf qs) := by
  cases qs with
  | nil => rfl
  | cons q qs =>
    obtain ⟨h1, h2, h3⟩ := foldl_min qs q
    refine ⟨?_, fun x hx => ?_⟩
    · rcases h3 with h | h
      · rw [h]; exact .head _
      · exact .tail _ h
    · rcases List.mem_cons.1 hx with rfl | hx
      · exact h1
      · exact h2 x hx

theorem isMin_unique {qs qs' : List Rat} (hp : ∀ x, x ∈ qs ↔ x ∈ qs') {o o' : Option Rat} (h : IsMin qs o) (h' : IsMin qs' o') : o = o' := by
  cases o with
  | none =>
    cases o' with
    | none => rfl
    | some m =>
      have := (hp m).2 h'.1
      have h0 : qs = [] := h
      rw [h0] at this
      cases this
  | some m =>
    cases o' with
    | none =>
      have := (hp m).1 h.1
      have h0 : qs' = [] := h'
      rw [h0] at this
      cases this
    | some m' =>
      congr 1
      exact le_antisymm (h.2 m' ((hp m').2 h'.1)) (h'.2 m ((hp m).1 h.1))

theorem better_isMin {qs qs' : List Rat} {o o' : Option Rat} (h : IsMin qs o) (h' : IsMin qs' o') : IsMin (qs ++ qs') (better (fun a b => decide (a < b)) o o') := by
  cases o' with
  | none =>
    have h0 : qs' = [] := h'
    rw [h0, List.append_nil]
    exact h
  | some n =>
    cases o with
    | none =>
      have h0 : qs = [] := h
      rw [h0, List.nil_append]
      exact h'
    | some m =>
      simp only [better, decide_eq_true_eq]
      by_cases hlt : n < m
      · rw [if_pos hlt]
        refine ⟨List.mem_append_right _ h'.1, fun x hx => ?_⟩
        rcases List.mem_append.1 hx with hx | hx
        · exact le_trans (le_of_lt hlt) (h.2 x hx)
        · exact h'.2 x hx
      · rw [if_neg hlt]
        refine ⟨List.mem_append_left _ h.1, fun x hx => ?_⟩
        rcases List.mem_append.1 hx with hx | hx
        · exact h.2 x hx
        · exact le_trans (not_lt.1 hlt) (h'.2 x hx)

theorem fold_isMin (cols : List (List Cell)) (qs : List Rat) (o : Option Rat) (h : IsMin qs o) :
    IsMin (qs ++ nums cols.flatten) (cols.foldl (fun mv col => better (fun a b => decide (a < b)) mv (minOf (nums col))) o) := by
  induction cols generalizing qs o with
  | nil => simpa [nums] using h
  | cons c cols ih =>
    rw [List.foldl_cons, List.flatten_cons, nums_append, ← List.append_assoc]
    exact ih _ _ (better_isMin h (minOf_spec _))

/-- `MIN` of ranges is the smallest of their numbers, 0 if there are none. -/
theorem min_ranges (env : Env) (as : List Arg) (h : Ranges as) : Gives (minFn env as) (cellsOf as) (.num ((minOf (nums (cellsOf as))).getD 0)) := by
  have key : ∀ qs o, IsMin qs o → Gives (extremeFrom env minOf (fun a b => decide (a < b)) as o) (cellsOf as) (.num ((minOf (qs ++ nums (cellsOf as))).getD 0)) := by
    refine ranges_rec ?_ ?_ as h
    · intro qs o ho
      refine ⟨fun _ => ?_, fun h => absurd rfl h⟩
      have : nums (cellsOf []) = [] := rfl
      rw [this, List.append_nil, extremeFrom, isMin_unique (fun _ => Iff.rfl) ho (minOf_spec qs)]
    · intro v m bs hv _ ih qs o ho
      rw [cellsOf_cons]
      refine gives_range hv (out' := extremeFrom env minOf (fun a b => decide (a < b)) bs (minOf (qs ++ nums v.cells))) ?_ ?_ ?_
      · intro e he; simp [extremeFrom, he]
      · intro he
        simp only [extremeFrom, he]
        congr 1
        refine isMin_unique ?_ (fold_isMin v.slices qs o ho) (minOf_spec _)
        intro x
        rw [List.mem_append, List.mem_append, (nums_perm (slices_perm v hv)).mem_iff]
      · intro _
        rw [nums_append, ← List.append_assoc]
        exact ih _ _ (minOf_spec _)
  exact key [] none rfl

/-- `COUNTA` of ranges is the number of cells that are not empty. -/
theorem countA_ranges (as : List Arg) (h : Ranges as) : countA as = .num (filled (cellsOf as)).length := by
  have key : ∀ n, countAFrom as n = .num ((n + (filled (cellsOf as)).length : Nat) : Rat) := by
    refine ranges_rec ?_ ?_ as h
    · intro n; simp [countAFrom, cellsOf, filled]
    · intro v m bs hv _ ih n
      simp only [countAFrom]
      rw [fold_length (fun c => (c.filter fun c => decide (c ≠ .empty)).length) (fun a b => by rw [List.filter_append, List.length_append]) rfl, ih, cellsOf_cons, filled_append, List.length_append,
        ((slices_perm v hv).filter _).length_eq, Nat.add_assoc]
      rfl
  have := key 0
  rw [Nat.zero_add] at this
  exact this

/-- `COUNTBLANK` of ranges is the number of blank cells among the ones that the sheet stores.  Missing: the rows of the range after them. -/
theorem countBlank_partial (as : List Arg) (h : Ranges as) : countBlank as = .num ((cellsOf as).filter blank).length := by
  have key : ∀ n, countBlankFrom as n = .num ((n + ((cellsOf as).filter blank).length : Nat) : Rat) := by
    refine ranges_rec ?_ ?_ as h
    · intro n; simp [countBlankFrom, cellsOf]
    · intro v m bs hv _ ih n
      simp only [countBlankFrom]
      rw [fold_length (fun c => (c.filter blank).length) (fun a b => by rw [List.filter_append, List.length_append]) rfl, ih, cellsOf_cons, List.filter_append, List.length_append,
        ((slices_perm v hv).filter _).length_eq, Nat.add_assoc]
  have := key 0
  rw [Nat.zero_add] at this
  exact this

end Verif.Agg
