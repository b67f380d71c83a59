import Verif.Agg.Props

/-!
# SUBTOTAL and AGGREGATE
-/

namespace Verif.Agg

/-! ### Specification -/

def Cell.isErr : Cell → Bool
  | .err _ => true
  | _ => false

/-- The rows whose number is visible. -/
def keepRows (mask : List Bool) (rows : List (List Cell)) : List (List Cell) := (rows.zipIdx.filter fun p => (mask[p.2]?).getD true).map Prod.fst

/-- The same argument without its hidden rows. -/
def Arg.keepVisible : Arg → Arg
  | .range v mask => .range { v with chunks := [keepRows mask v.chunks.flatten] } []
  | a => a

/-- A cell whose errors count as empty. -/
def Cell.clean (c : Cell) : Cell := if c.isErr = true then .empty else c

/-- The same argument without errors; a value that is an error is left out. -/
def Arg.clean : Arg → Option Arg
  | .range v mask => some (.range { v with chunks := v.chunks.map (List.map (List.map Cell.clean)) } mask)
  | .scalar c => if c.isErr = true then none else some (.scalar c)
  | .refErr _ => none

/-! ### What is collected from ranges -/

/-- The cells counted by `COUNTA`. -/
def counted (ignore : Bool) (cs : List Cell) : Nat := ((filled cs).filter fun c => !(ignore && c.isErr)).length

/-- The error that stops the collection. -/
def stop (op : AggOp) (ignore : Bool) (cs : List Cell) : Option Err := if op = .countA ∨ ignore = true then none else (errs cs).head?

theorem counted_append (i : Bool) (a b : List Cell) : counted i (a ++ b) = counted i a + counted i b := by simp [counted, filled]

theorem consumeAll_eq (op : AggOp) (i : Bool) (cs : List Cell) (s : Coll) :
    consumeAll op i cs s = (match stop op i cs with
      | some e => .error e
      | none => .ok { values := s.values ++ nums cs, counta := s.counta + counted i cs }) := by
  by_cases ho : op = .countA
  · subst ho
    induction cs generalizing s with
    | nil => simp [consumeAll, stop, nums, counted, filled]
    | cons c cs ih =>
      cases c <;> cases i <;>
        simp [consumeAll, consumeRange, ih, stop, nums, counted, filled, Cell.isErr, Nat.add_assoc, Nat.add_comm, Nat.add_left_comm]
  · induction cs generalizing s with
    | nil => simp [consumeAll, stop, errs, nums, counted, filled]
    | cons c cs ih =>
      cases c <;> cases i <;>
        simp [consumeAll, consumeRange, ih, ho, stop, errs, nums, counted, filled, Cell.isErr, Nat.add_assoc, Nat.add_comm, Nat.add_left_comm]

/-- The cells seen in all ranges, row by row. -/
def seen (skip : Bool) (as : List Arg) : List Cell := as.flatMap fun a => match a with
  | .range v m => rangeCells skip v m
  | _ => []

theorem stop_append (op : AggOp) (i : Bool) (a b : List Cell) : stop op i (a ++ b) = (match stop op i a with
    | some e => some e
    | none => stop op i b) := by
  unfold stop
  by_cases h : op = .countA ∨ i = true
  · simp [h]
  · simp only [if_neg h, errs_append]
    cases errs a <;> simp

theorem collect_eq (env : Env) (op : AggOp) (skip i : Bool) (as : List Arg) (h : ∀ a ∈ as, ∃ v m, a = .range v m) (s : Coll) :
    collect env op skip i as s = (match stop op i (seen skip as) with
      | some e => .error e
      | none => .ok { values := s.values ++ nums (seen skip as), counta := s.counta + counted i (seen skip as) }) := by
  induction as generalizing s with
  | nil => simp [collect, seen, stop, errs, nums, counted, filled]
  | cons a as ih =>
    obtain ⟨v, m, rfl⟩ := h a (.head _)
    have e : seen skip (.range v m :: as) = rangeCells skip v m ++ seen skip as := rfl
    rw [e, stop_append, collect, consumeAll_eq]
    cases hs : stop op i (rangeCells skip v m) with
    | some e => rfl
    | none =>
      simp only
      rw [ih (fun b hb => h b (.tail _ hb)), nums_append, counted_append]
      simp [List.append_assoc, Nat.add_assoc]

theorem aggregateOp_eq (env : Env) (op : AggOp) (skip i : Bool) (as : List Arg) (h : ∀ a ∈ as, ∃ v m, a = .range v m) :
    aggregateOp env op skip i as = (match stop op i (seen skip as) with
      | some e => .err e
      | none => finalize env op { values := nums (seen skip as), counta := counted i (seen skip as) }) := by
  unfold aggregateOp
  rw [collect_eq env op skip i as h]
  cases stop op i (seen skip as) <;> simp

theorem seen_false (as : List Arg) : seen false as = cellsOf as := by
  induction as with
  | nil => rfl
  | cons a as ih =>
    unfold seen cellsOf at *
    rw [List.flatMap_cons, List.flatMap_cons, ih]
    cases a <;> rfl

theorem ranges_only {as : List Arg} (h : Ranges as) : ∀ a ∈ as, ∃ v m, a = .range v m := fun a ha => by
  obtain ⟨v, m, e, _⟩ := h a ha
  exact ⟨v, m, e⟩

theorem stop_clear {cs : List Cell} (h : errs cs = []) (op : AggOp) (i : Bool) : stop op i cs = none := by
  unfold stop
  rw [h]
  split <;> rfl

/-! ### SUBTOTAL and the functions it names -/

/-- For ranges without errors `SUBTOTAL` is the function that its number names. -/
theorem subtotal_names (env : Env) (as : List Arg) (h : Ranges as) (he : errs (cellsOf as) = []) :
    subtotal env 1 as = average env as ∧ subtotal env 2 as = count env as ∧ subtotal env 4 as = maxFn env as ∧ subtotal env 5 as = minFn env as ∧ subtotal env 9 as = sum env as := by
  have key : ∀ op, aggregateOp env op false false as = finalize env op { values := nums (cellsOf as), counta := counted false (cellsOf as) } := by
    intro op
    rw [aggregateOp_eq env op false false as (ranges_only h), seen_false, stop_clear he]
  refine ⟨?_, ?_, ?_, ?_, ?_⟩
  · rw [(average_ranges env as h).1 he]; exact key .average
  · rw [count_ranges env as h]; exact key .count
  · rw [(max_ranges env as h).1 he]; exact key .max
  · rw [(min_ranges env as h).1 he]; exact key .min
  · rw [(sum_ranges env as h).1 he]; exact key .sum

/-- `SUBTOTAL(3, …)` of ranges is `COUNTA`, with errors too. -/
theorem subtotal_countA (env : Env) (as : List Arg) (h : Ranges as) : subtotal env 3 as = countA as := by
  have : subtotal env 3 as = aggregateOp env .countA false false as := rfl
  rw [this, aggregateOp_eq env .countA false false as (ranges_only h), seen_false, countA_ranges as h]
  simp [stop, finalize, counted]

/-- With errors `SUBTOTAL` gives the first one by arguments, rows and columns. -/
theorem subtotal_error (env : Env) (as : List Arg) (h : Ranges as) (n : Nat) (h1 : 1 ≤ n) (h11 : n ≤ 11) (h3 : n ≠ 3) {e : Err} (he : (errs (cellsOf as)).head? = some e) : subtotal env n as = .err e := by
  have hop : ∃ op, opOf n = some op ∧ op ≠ .countA := by
    have : n = 1 ∨ n = 2 ∨ n = 4 ∨ n = 5 ∨ n = 6 ∨ n = 7 ∨ n = 8 ∨ n = 9 ∨ n = 10 ∨ n = 11 := by omega
    rcases this with rfl | rfl | rfl | rfl | rfl | rfl | rfl | rfl | rfl | rfl <;> exact ⟨_, rfl, by decide⟩
  obtain ⟨op, ho, hne⟩ := hop
  unfold subtotal
  rw [if_pos ⟨h1, h11⟩, ho]
  simp only
  rw [aggregateOp_eq env op false false as (ranges_only h), seen_false]
  have : stop op false (cellsOf as) = some e := by
    unfold stop
    rw [if_neg (by simp [hne]), he]
  rw [this]

/-! ### Hidden rows -/

theorem visibleFrom_eq (mask : List Bool) (rows : List (List Cell)) (k : Nat) : visibleFrom mask k rows = ((rows.zipIdx k).filter fun p => (mask[p.2]?).getD true).map Prod.fst := by
  induction rows generalizing k with
  | nil => rfl
  | cons row rows ih =>
    rw [visibleFrom, List.zipIdx_cons, List.filter_cons]
    simp only
    by_cases h : (mask[k]?).getD true = true
    · rw [if_pos h, if_pos h, List.map_cons, ih]
    · rw [if_neg h, if_neg h, ih]

theorem rangeCells_visible (v : View) (mask : List Bool) : rangeCells true v mask = rangeCells false { v with chunks := [keepRows mask v.chunks.flatten] } [] := by
  simp [rangeCells, visibleFrom_eq, keepRows]

theorem collect_visible (env : Env) (op : AggOp) (i : Bool) (as : List Arg) (s : Coll) : collect env op true i as s = collect env op false i (as.map Arg.keepVisible) s := by
  induction as generalizing s with
  | nil => rfl
  | cons a as ih =>
    cases a with
    | range v m =>
      simp only [List.map_cons, Arg.keepVisible, collect, rangeCells_visible]
      cases consumeAll op i (rangeCells false { v with chunks := [keepRows m v.chunks.flatten] } []) s with
      | ok s => exact ih s
      | error e => rfl
    | scalar c =>
      simp only [List.map_cons, Arg.keepVisible, collect]
      cases consumeScalar env op i s c with
      | ok s => exact ih s
      | error e => rfl
    | refErr c =>
      simp only [List.map_cons, Arg.keepVisible, collect]
      cases consumeScalar env op i s (.err c) with
      | ok s => exact ih s
      | error e => rfl

/-- `SUBTOTAL(100 + n, …)` is `SUBTOTAL(n, …)` of the ranges without their hidden rows. -/
theorem subtotal_hidden (env : Env) (n : Nat) (h1 : 1 ≤ n) (h11 : n ≤ 11) (as : List Arg) : subtotal env (100 + n) as = subtotal env n (as.map Arg.keepVisible) := by
  unfold subtotal
  rw [if_neg (by omega), if_pos (by omega), if_pos ⟨h1, h11⟩, Nat.add_sub_cancel_left]
  cases opOf n with
  | none => rfl
  | some op => simp only [aggregateOp, collect_visible]

/-- `AGGREGATE` without options is `SUBTOTAL`; with 1 it leaves out hidden rows. -/
theorem aggregate_subtotal (env : Env) (n : Nat) (h1 : 1 ≤ n) (h11 : n ≤ 11) (as : List Arg) : aggregate env n 0 as = subtotal env n as ∧ aggregate env n 1 as = subtotal env (100 + n) as := by
  unfold subtotal aggregate
  rw [if_neg (by omega), if_pos ⟨h1, h11⟩, if_neg (by omega), if_neg (by omega), if_pos (by omega), Nat.add_sub_cancel_left]
  cases opOf n <;> exact ⟨rfl, rfl⟩

/-! ### Ignoring errors -/

theorem consumeAll_clean (op : AggOp) (cs : List Cell) (s : Coll) : consumeAll op true cs s = consumeAll op false (cs.map Cell.clean) s := by
  induction cs generalizing s with
  | nil => rfl
  | cons c cs ih =>
    cases c with
    | err e =>
      cases op <;> simp [consumeAll, consumeRange, Cell.clean, Cell.isErr, ih]
    | _ => simp [consumeAll, consumeRange, Cell.clean, Cell.isErr, ih]

theorem visibleFrom_map (mask : List Bool) (rows : List (List Cell)) (f : List Cell → List Cell) (k : Nat) : visibleFrom mask k (rows.map f) = (visibleFrom mask k rows).map f := by
  induction rows generalizing k with
  | nil => rfl
  | cons row rows ih =>
    rw [List.map_cons, visibleFrom, visibleFrom, ih]
    split <;> rfl

theorem rangeCells_clean (skip : Bool) (v : View) (mask : List Bool) : rangeCells skip { v with chunks := v.chunks.map (List.map (List.map Cell.clean)) } mask = (rangeCells skip v mask).map Cell.clean := by
  unfold rangeCells
  simp only
  rw [← List.map_flatten, visibleFrom_map]
  cases skip <;> simp [List.map_flatten]

theorem consumeScalar_clean (env : Env) (op : AggOp) (s : Coll) (c : Cell) : consumeScalar env op true s c = if c.isErr = true then .ok s else consumeScalar env op false s c := by
  cases c with
  | err e => by_cases ho : op = .countA <;> simp [consumeScalar, Cell.isErr, ho]
  | _ => simp [consumeScalar, Cell.isErr]

theorem collect_clean (env : Env) (op : AggOp) (skip : Bool) (as : List Arg) (s : Coll) : collect env op skip true as s = collect env op skip false (as.filterMap Arg.clean) s := by
  induction as generalizing s with
  | nil => rfl
  | cons a as ih =>
    cases a with
    | range v m =>
      rw [List.filterMap_cons_some (f := Arg.clean) (b := .range { v with chunks := v.chunks.map (List.map (List.map Cell.clean)) } m) rfl]
      simp only [collect, consumeAll_clean, rangeCells_clean]
      cases consumeAll op false ((rangeCells skip v m).map Cell.clean) s with
      | ok s => exact ih s
      | error e => rfl
    | scalar c =>
      by_cases hc : c.isErr = true
      · rw [List.filterMap_cons_none (f := Arg.clean) (by simp [Arg.clean, hc])]
        simp only [collect, consumeScalar_clean, if_pos hc]
        exact ih s
      · rw [List.filterMap_cons_some (f := Arg.clean) (b := .scalar c) (by simp [Arg.clean, hc])]
        simp only [collect, consumeScalar_clean, if_neg hc]
        cases consumeScalar env op false s c with
        | ok s => exact ih s
        | error e => rfl
    | refErr e =>
      rw [List.filterMap_cons_none (f := Arg.clean) rfl]
      simp only [collect, consumeScalar_clean]
      exact ih s

/-- `AGGREGATE` with option 2 or 3 is option 0 or 1 with all errors removed, and never gives an error of an argument. -/
theorem aggregate_ignores (env : Env) (n : Nat) (as : List Arg) : aggregate env n 2 as = aggregate env n 0 (as.filterMap Arg.clean) ∧ aggregate env n 3 as = aggregate env n 1 (as.filterMap Arg.clean) := by
  unfold aggregate
  by_cases h : 12 ≤ n ∧ n ≤ 19
  · rw [if_pos h, if_pos h, if_pos h, if_pos h]; exact ⟨rfl, rfl⟩
  · rw [if_neg h, if_neg h, if_neg h, if_neg h]
    cases opOf n with
    | none => exact ⟨rfl, rfl⟩
    | some op => simp only [aggregateOp, collect_clean, and_self]

theorem collect_ignore (env : Env) (op : AggOp) (skip : Bool) (as : List Arg) (s : Coll) : ∃ t, collect env op skip true as s = .ok t := by
  induction as generalizing s with
  | nil => exact ⟨s, rfl⟩
  | cons a as ih =>
    cases a with
    | range v m =>
      simp only [collect, consumeAll_eq, stop, or_true, if_true]
      exact ih _
    | refErr e =>
      simp only [collect, consumeScalar_clean, Cell.isErr, if_true]
      exact ih _
    | scalar c =>
      have hstep : ∃ t, consumeScalar env op true s c = .ok t := by
        cases c with
        | err e => exact ⟨s, by simp [consumeScalar_clean, Cell.isErr]⟩
        | _ =>
          simp only [consumeScalar]
          cases op <;> simp only <;> (try split) <;> exact ⟨_, rfl⟩
      obtain ⟨t, ht⟩ := hstep
      simp only [collect, ht]
      exact ih t

/-- An error that `AGGREGATE` gives with option 2 or 3 is no error of an argument: there are too few numbers for an average, a variance or a deviation. -/
theorem aggregate_ignores_all (env : Env) (n : Nat) (h1 : 1 ≤ n) (h11 : n ≤ 11) (as : List Arg) (e : Err) (he : aggregate env n 2 as = .err e ∨ aggregate env n 3 as = .err e) :
    e = errDiv ∧ (n = 1 ∨ n = 7 ∨ n = 8 ∨ n = 10 ∨ n = 11) := by
  have key : ∀ op skip, opOf n = some op → aggregateOp env op skip true as = .err e → e = errDiv ∧ (n = 1 ∨ n = 7 ∨ n = 8 ∨ n = 10 ∨ n = 11) := by
    intro op skip ho h
    obtain ⟨t, ht⟩ := collect_ignore env op skip as {}
    rw [aggregateOp, ht] at h
    simp only at h
    have hn : n = 1 ∨ n = 2 ∨ n = 3 ∨ n = 4 ∨ n = 5 ∨ n = 6 ∨ n = 7 ∨ n = 8 ∨ n = 9 ∨ n = 10 ∨ n = 11 := by omega
    rcases hn with rfl | rfl | rfl | rfl | rfl | rfl | rfl | rfl | rfl | rfl | rfl <;> (simp only [opOf, Option.some.injEq] at ho; subst ho; simp only [finalize] at h) <;>
      (first | (cases h; done) | (split at h <;> first | (cases h; done) | (cases h; exact ⟨rfl, by omega⟩)))
  have hop : ∃ op, opOf n = some op := by
    have hn : n = 1 ∨ n = 2 ∨ n = 3 ∨ n = 4 ∨ n = 5 ∨ n = 6 ∨ n = 7 ∨ n = 8 ∨ n = 9 ∨ n = 10 ∨ n = 11 := by omega
    rcases hn with rfl | rfl | rfl | rfl | rfl | rfl | rfl | rfl | rfl | rfl | rfl <;> exact ⟨_, rfl⟩
  obtain ⟨op, ho⟩ := hop
  unfold aggregate at he
  rw [if_neg (by omega), if_neg (by omega), ho] at he
  rcases he with he | he
  · exact key op false ho he
  · exact key op true ho he

/-! ### Laws -/

theorem variance_perm {a b : List Rat} (h : a.Perm b) (sample : Bool) : variance a sample = variance b sample := by
  unfold variance
  simp only
  rw [h.length_eq, h.sum_eq, (h.map fun q => (q - b.sum / (b.length : Rat)) * (q - b.sum / (b.length : Rat))).sum_eq]

theorem finalize_perm (env : Env) (op : AggOp) {a b : List Rat} (h : a.Perm b) (n : Nat) : finalize env op { values := a, counta := n } = finalize env op { values := b, counta := n } := by
  have hmax : maxOf a = maxOf b := isMax_unique (fun x => h.mem_iff) (maxOf_spec a) (maxOf_spec b)
  have hmin : minOf a = minOf b := isMin_unique (fun x => h.mem_iff) (minOf_spec a) (minOf_spec b)
  have hnil : (a = []) = (b = []) := by
    apply propext
    constructor
    · intro e; rw [e] at h; exact h.nil_eq.symm
    · intro e; rw [e] at h; exact h.eq_nil
  cases op <;> simp only [finalize, hmax, hmin, hnil, h.sum_eq, h.prod_eq, h.length_eq, variance_perm h]

/-- The order of the cells, and how they are divided into ranges, rows and chunks, does not matter if no cell is an error. -/
theorem subtotal_order (env : Env) (n : Nat) (hn : n ≤ 11) (as bs : List Arg) (ha : Ranges as) (hb : Ranges bs) (hp : (cellsOf as).Perm (cellsOf bs)) (he : errs (cellsOf as) = []) :
    subtotal env n as = subtotal env n bs := by
  have heb : errs (cellsOf bs) = [] := List.Perm.eq_nil (he ▸ (errs_perm hp).symm)
  unfold subtotal
  by_cases h1 : 1 ≤ n ∧ n ≤ 11
  · rw [if_pos h1, if_pos h1]
    cases opOf n with
    | none => rfl
    | some op =>
      simp only
      rw [aggregateOp_eq env op false false as (ranges_only ha), aggregateOp_eq env op false false bs (ranges_only hb), seen_false, seen_false, stop_clear he, stop_clear heb]
      simp only
      rw [finalize_perm env op (nums_perm hp)]
      have : counted false (cellsOf as) = counted false (cellsOf bs) := ((hp.filter _).filter _).length_eq
      rw [this]
  · rw [if_neg h1, if_neg h1, if_neg (by omega), if_neg (by omega)]

theorem sum_order (env : Env) (as bs : List Arg) (ha : Ranges as) (hb : Ranges bs) (hp : (cellsOf as).Perm (cellsOf bs)) (he : errs (cellsOf as) = []) :
    sum env as = sum env bs ∧ average env as = average env bs ∧ maxFn env as = maxFn env bs ∧ minFn env as = minFn env bs ∧ count env as = count env bs := by
  have heb : errs (cellsOf bs) = [] := List.Perm.eq_nil (he ▸ (errs_perm hp).symm)
  obtain ⟨a1, a2, a3, a4, a5⟩ := subtotal_names env as ha he
  obtain ⟨b1, b2, b3, b4, b5⟩ := subtotal_names env bs hb heb
  rw [← a1, ← a2, ← a3, ← a4, ← a5, ← b1, ← b2, ← b3, ← b4, ← b5]
  exact ⟨subtotal_order env 9 (by omega) as bs ha hb hp he, subtotal_order env 1 (by omega) as bs ha hb hp he, subtotal_order env 4 (by omega) as bs ha hb hp he,
    subtotal_order env 5 (by omega) as bs ha hb hp he, subtotal_order env 2 (by omega) as bs ha hb hp he⟩

/-- Sums and counts of parts add up to those of the whole. -/
theorem sum_parts (env : Env) (as bs : List Arg) (ha : Ranges as) (hb : Ranges bs) {x y : Rat} (hx : sum env as = .num x) (hy : sum env bs = .num y) : sum env (as ++ bs) = .num (x + y) := by
  have clear : ∀ {cs : List Arg} {z : Rat}, Ranges cs → sum env cs = .num z → errs (cellsOf cs) = [] ∧ z = (nums (cellsOf cs)).sum := by
    intro cs z hc hz
    by_cases he : errs (cellsOf cs) = []
    · refine ⟨he, ?_⟩
      have := (sum_ranges env cs hc).1 he
      rw [hz] at this
      exact Out.num.inj this
    · obtain ⟨e, _, h⟩ := (sum_ranges env cs hc).2 he
      rw [hz] at h
      cases h
  obtain ⟨e1, rfl⟩ := clear ha hx
  obtain ⟨e2, rfl⟩ := clear hb hy
  have hab : Ranges (as ++ bs) := fun a h => (List.mem_append.1 h).elim (ha a) (hb a)
  have hc : cellsOf (as ++ bs) = cellsOf as ++ cellsOf bs := by simp [cellsOf]
  rw [(sum_ranges env _ hab).1 (by rw [hc, errs_append, e1, e2]; rfl), hc, nums_append, List.sum_append]

theorem count_parts (env : Env) (as bs : List Arg) (ha : Ranges as) (hb : Ranges bs) : ∃ x y : Nat, count env as = .num x ∧ count env bs = .num y ∧ count env (as ++ bs) = .num ((x + y : Nat) : Rat) := by
  have hab : Ranges (as ++ bs) := fun a h => (List.mem_append.1 h).elim (ha a) (hb a)
  refine ⟨_, _, count_ranges env as ha, count_ranges env bs hb, ?_⟩
  rw [count_ranges env _ hab]
  simp [cellsOf, nums]

/-- The average times the count is the sum; it lies between the smallest and the largest number. -/
theorem average_count (env : Env) (as : List Arg) (h : Ranges as) {a : Rat} (ha : average env as = .num a) : ∃ n : Nat, n ≠ 0 ∧ count env as = .num n ∧ sum env as = .num (a * n) := by
  by_cases he : errs (cellsOf as) = []
  · have h1 := (average_ranges env as h).1 he
    rw [ha] at h1
    by_cases hn : nums (cellsOf as) = []
    · rw [if_pos hn] at h1; cases h1
    · rw [if_neg hn] at h1
      have hl : (nums (cellsOf as)).length ≠ 0 := fun e => hn (List.length_eq_zero_iff.1 e)
      refine ⟨_, hl, count_ranges env as h, ?_⟩
      rw [(sum_ranges env as h).1 he, Out.num.inj h1, div_mul_cancel₀]
      exact_mod_cast hl
  · obtain ⟨e, _, h1⟩ := (average_ranges env as h).2 he
    rw [ha] at h1
    cases h1

theorem sum_bounds (qs : List Rat) (l u : Rat) (h : ∀ x ∈ qs, l ≤ x ∧ x ≤ u) : l * qs.length ≤ qs.sum ∧ qs.sum ≤ u * qs.length := by
  induction qs with
  | nil => simp
  | cons q qs ih =>
    obtain ⟨i1, i2⟩ := ih fun x hx => h x (.tail _ hx)
    obtain ⟨h1, h2⟩ := h q (.head _)
    simp only [List.sum_cons, List.length_cons]
    push_cast
    constructor
    · rw [mul_add, mul_one, add_comm q]; exact add_le_add i1 h1
    · rw [mul_add, mul_one, add_comm q]; exact add_le_add i2 h2

end Verif.Agg
