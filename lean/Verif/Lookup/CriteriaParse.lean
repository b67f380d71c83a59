import Verif.Lookup.Criteria

/-!
# Reading a criterion, and what fails

`parse_criteria`, `/repo/crates/formualizer-eval/src/args.rs` 98-179, and the
refutations of the general statements of `Verif.Lookup.Criteria`.
-/

namespace Verif.Lookup

/-! ## Model -/

/-- White space removed by `str::trim` (the ASCII ones). -/
def ws (c : Char) : Bool := c = ' ' || c = '\t' || c = '\n' || c = '\r'

/-- `trim_end`. -/
def trimEnd (t : List Char) : List Char := (t.reverse.dropWhile ws).reverse

/-- `trim`. -/
def trim (t : List Char) : List Char := trimEnd (t.dropWhile ws)

/-- `strip_prefix`. -/
def stripPrefix (p t : List Char) : Option (List Char) :=
  if p.isPrefixOf t then some (t.drop p.length) else none

/-- `replace("\"\"", "\"")`. -/
def undouble : List Char → List Char
  | '"' :: '"' :: t => '"' :: undouble t
  | c :: t => c :: undouble t
  | [] => []

/-- The closure `unquote`, args.rs 103-110. -/
def unquote (t : List Char) : List Char :=
  let t := trim t
  match t with
  | '"' :: r => if r.getLast? = some '"' then undouble r.dropLast else t
  | _ => t

/-- The six operators, args.rs 113. -/
inductive Op where
  | ge | le | ne | gt | lt | eq
deriving DecidableEq, Repr

/-- How an operator is written. -/
def Op.chars : Op → List Char
  | .ge => ['>', '=']
  | .le => ['<', '=']
  | .ne => ['<', '>']
  | .gt => ['>']
  | .lt => ['<']
  | .eq => ['=']

/-- The criterion for a number, args.rs 119-127. -/
def Op.onNum : Op → ℚ → Pred
  | .ge, n => .ge n
  | .le, n => .le n
  | .gt, n => .gt n
  | .lt, n => .lt n
  | .eq, n => .eq (.num n)
  | .ne, n => .ne (.num n)

/-- The criterion for a text, args.rs 130-139; `whole` is the trimmed criterion. -/
def Op.onText (whole rhs : List Char) : Op → Pred
  | .eq => .eq (.text (unquote rhs))
  | .ne => .ne (.text (unquote rhs))
  | _ => .eq (.text whole)

/-- The loop over the operators, args.rs 114-142. -/
def parseOps (E : Env) (s : List Char) : List Op → Option Pred
  | [] => none
  | o :: os =>
    match stripPrefix o.chars s with
    | some rhs =>
      match E.parseF (trim rhs) with
      | some n => some (o.onNum n)
      | none => some (o.onText s (trim rhs))
    | none => parseOps E s os

/-- After the operators, args.rs 144-161. -/
def parsePlain (s : List Char) : Pred :=
  let plain := unquote s
  if '*' ∈ plain ∨ '?' ∈ plain then .like plain
  else if plain.map Char.toLower = "true".toList then .eq (.bool true)
  else if plain.map Char.toLower = "false".toList then .eq (.bool false)
  else .eq (.text plain)

/-- `parse_criteria`, args.rs 98-179; `none` is the error. -/
def parseCriteria (E : Env) : V → Option Pred
  | .text s =>
    let s := trim s
    match parseOps E s [.ge, .le, .ne, .gt, .lt, .eq] with
    | some p => some p
    | none => some (parsePlain s)
  | .empty => some .isBlank
  | .num n => some (.eq (.num n))
  | .bool b => some (.eq (.bool b))
  | .err => none

/-! ## Operators are read as written -/

theorem trimEnd_append {a b : List Char} (h : ∀ c, a.getLast? = some c → ws c = false) :
    trimEnd (a ++ b) = a ++ trimEnd b := by
  unfold trimEnd
  rw [List.reverse_append, List.dropWhile_append]
  split
  · next hb =>
    rw [List.isEmpty_iff] at hb
    rw [hb]
    cases hr : a.reverse with
    | nil => simp at hr; simp [hr]
    | cons c r =>
      have : a.getLast? = some c := by rw [List.getLast?_eq_head?_reverse, hr]; rfl
      rw [List.dropWhile_cons, h c this]
      simp only [Bool.false_eq_true, if_false, List.reverse_nil, List.append_nil]
      rw [← hr, List.reverse_reverse]
  · simp

theorem dropWhile_trimEnd (t : List Char) : (trimEnd t).dropWhile ws = trimEnd (t.dropWhile ws) := by
  induction t with
  | nil => rfl
  | cons c t ih =>
    by_cases h : ws c = true
    · rw [List.dropWhile_cons, if_pos h, ← ih]
      have e : trimEnd (c :: t) = if trimEnd t = [] then [] else c :: trimEnd t := by
        unfold trimEnd
        rw [List.reverse_cons, List.dropWhile_append]
        by_cases hd : t.reverse.dropWhile ws = []
        · simp [hd, h]
        · have : (t.reverse.dropWhile ws).isEmpty = false := by
            cases hl : t.reverse.dropWhile ws with
            | nil => exact absurd hl hd
            | cons => rfl
          simp [this, hd]
      rw [e]
      split
      · next h0 => rw [h0]
      · rw [List.dropWhile_cons, if_pos h]
    · have e := trimEnd_append (a := [c]) (b := t) (by intro d hd; simp at hd; rw [← hd]; simpa using h)
      rw [List.singleton_append] at e
      rw [e, List.dropWhile_cons, if_neg h, List.singleton_append, List.dropWhile_cons, if_neg h, e,
        List.singleton_append]

theorem trimEnd_idem (t : List Char) : trimEnd (trimEnd t) = trimEnd t := by
  unfold trimEnd
  rw [List.reverse_reverse]
  congr 1
  generalize t.reverse = r
  induction r with
  | nil => rfl
  | cons c r ih =>
    by_cases h : ws c = true
    · rw [List.dropWhile_cons, if_pos h, ih]
    · rw [List.dropWhile_cons, if_neg h, List.dropWhile_cons, if_neg h]

theorem trim_trimEnd (t : List Char) : trim (trimEnd t) = trim t := by
  unfold trim
  rw [dropWhile_trimEnd, trimEnd_idem]

theorem trim_head {t : List Char} {c : Char} (h : t.head? = some c) (hc : ws c = false) :
    (trim t).head? = some c := by
  cases t with
  | nil => simp at h
  | cons d t =>
    simp at h
    subst h
    unfold trim
    rw [List.dropWhile_cons, hc]
    simp only [Bool.false_eq_true, if_false]
    have e := trimEnd_append (a := [d]) (b := t) (by intro x hx; simp at hx; rw [← hx]; exact hc)
    rw [List.singleton_append] at e
    rw [e]; rfl

theorem op_trim (o : Op) (r : List Char) : trim (o.chars ++ r) = o.chars ++ trimEnd r := by
  unfold trim
  have h1 : (o.chars ++ r).dropWhile ws = o.chars ++ r := by
    cases o <;> simp [Op.chars, ws]
  rw [h1, trimEnd_append]
  intro c hc
  cases o <;> simp [Op.chars] at hc <;> subst hc <;> decide

/-- **An operator in front of a number is read as written**: the six comparisons,
with white space anywhere around the number. The only thing asked of reading
numbers is that no number begins with `=` or `>`. -/
theorem parseCriteria_compare (E : Env)
    (hF : ∀ t n, E.parseF t = some n → t.head? ≠ some '=' ∧ t.head? ≠ some '>')
    (o : Op) (r : List Char) (n : ℚ) (hr : E.parseF (trim r) = some n) :
    parseCriteria E (.text (o.chars ++ r)) = some (o.onNum n) := by
  unfold parseCriteria
  simp only
  rw [op_trim]
  have hb := hF _ _ hr
  have hr' : E.parseF (trim (trimEnd r)) = some n := by rw [trim_trimEnd]; exact hr
  have hhead : ∀ c, ws c = false → (trimEnd r).head? = some c → (trim r).head? = some c := by
    intro c hc h
    rw [← trim_trimEnd]
    exact trim_head h hc
  generalize trimEnd r = s at hr' hhead
  have h1 : s.head? ≠ some '=' := fun h => hb.1 (hhead _ (by decide) h)
  have h2 : s.head? ≠ some '>' := fun h => hb.2 (hhead _ (by decide) h)
  have e1 : ∀ x : List Char, (['=']).isPrefixOf x = true ↔ x.head? = some '=' := by
    intro x
    cases x with
    | nil => simp [List.isPrefixOf]
    | cons c x =>
      simp only [List.isPrefixOf, Bool.and_true, beq_iff_eq, List.head?_cons, Option.some.injEq]
      exact eq_comm
  have e2 : ∀ x : List Char, (['>']).isPrefixOf x = true ↔ x.head? = some '>' := by
    intro x
    cases x with
    | nil => simp [List.isPrefixOf]
    | cons c x =>
      simp only [List.isPrefixOf, Bool.and_true, beq_iff_eq, List.head?_cons, Option.some.injEq]
      exact eq_comm
  have f1 : (['=']).isPrefixOf s = false := by rw [← Bool.not_eq_true, e1]; exact h1
  have f2 : (['>']).isPrefixOf s = false := by rw [← Bool.not_eq_true, e2]; exact h2
  have p1 : ∀ x, stripPrefix ['>', '='] ('>' :: x) = stripPrefix ['='] x := by
    intro x; simp [stripPrefix, List.isPrefixOf]
  have p2 : ∀ x, stripPrefix ['<', '='] ('<' :: x) = stripPrefix ['='] x := by
    intro x; simp [stripPrefix, List.isPrefixOf]
  have p3 : ∀ x, stripPrefix ['<', '>'] ('<' :: x) = stripPrefix ['>'] x := by
    intro x; simp [stripPrefix, List.isPrefixOf]
  have q1 : stripPrefix ['='] s = none := by simp [stripPrefix, f1]
  have q2 : stripPrefix ['>'] s = none := by simp [stripPrefix, f2]
  cases o
  · simp [parseOps, Op.chars, stripPrefix, List.isPrefixOf, hr']
  · simp [parseOps, Op.chars, stripPrefix, List.isPrefixOf, hr']
  · simp [parseOps, Op.chars, stripPrefix, List.isPrefixOf, hr']
  · simp only [parseOps, Op.chars, List.singleton_append, p1, q1]
    simp [stripPrefix, List.isPrefixOf, hr']
  · simp only [parseOps, Op.chars, List.singleton_append, p2, p3, q1, q2]
    simp [stripPrefix, List.isPrefixOf, hr']
  · simp [parseOps, Op.chars, stripPrefix, List.isPrefixOf, hr']

/-- **`=` or `<>` in front of a text without quotes is read as equality or its
opposite**, for texts that are not numbers, with white space anywhere around.

Partial: the four other operators are not (`parseCriteria_wrong`), nor are wildcards
understood after an operator. -/
theorem parseCriteria_text_partial (E : Env) (r : List Char) (hr : E.parseF (trim r) = none)
    (hq : (trim r).head? ≠ some '"') :
    parseCriteria E (.text ('=' :: r)) = some (.eq (.text (trim r))) ∧
    parseCriteria E (.text ('<' :: '>' :: r)) = some (.ne (.text (trim r))) := by
  have ht : trim (trim r) = trim r := by
    have h1 : trimEnd (trim r) = trim r := by unfold trim; exact trimEnd_idem _
    have h2 : (trim r).dropWhile ws = trim r := by
      unfold trim
      rw [dropWhile_trimEnd]
      congr 1
      generalize r = x
      induction x with
      | nil => rfl
      | cons c x ih =>
        by_cases h : ws c = true
        · rw [List.dropWhile_cons, if_pos h, ih]
        · rw [List.dropWhile_cons, if_neg h, List.dropWhile_cons, if_neg h]
    unfold trim at h2 ⊢
    rw [h2]
    exact trimEnd_idem _
  have hu : unquote (trim r) = trim r := by
    unfold unquote
    simp only [ht]
    split
    · next x hx => rw [hx] at hq; simp at hq
    · rfl
  have o1 := op_trim .eq r
  have o2 := op_trim .ne r
  simp only [Op.chars, List.cons_append, List.nil_append] at o1 o2
  constructor
  · simp [parseCriteria, o1, parseOps, Op.chars, stripPrefix, List.isPrefixOf, hr, Op.onText,
      trim_trimEnd, hu]
  · simp [parseCriteria, o2, parseOps, Op.chars, stripPrefix, List.isPrefixOf, hr, Op.onText,
      trim_trimEnd, hu]

/-! ### In terms of what the criterion counts -/

/-- Specification: how the six comparisons are written. -/
def written : Op → List Char
  | .ge => ">=".toList
  | .le => "<=".toList
  | .ne => "<>".toList
  | .gt => ">".toList
  | .lt => "<".toList
  | .eq => "=".toList

/-- Specification: what they say of a number `x` and the number `n` behind the
operator, equality being up to the tolerance of the engine. -/
def Told : Op → ℚ → ℚ → Prop
  | .ge, x, n => n ≤ x
  | .le, x, n => x ≤ n
  | .ne, x, n => ¬ |x - n| < 1 / 10 ^ 12
  | .gt, x, n => n < x
  | .lt, x, n => x < n
  | .eq, x, n => |x - n| < 1 / 10 ^ 12

/-- **A comparison with a number counts the numbers it names.** -/
theorem criterion_number (E : Env)
    (hF : ∀ t n, E.parseF t = some n → t.head? ≠ some '=' ∧ t.head? ≠ some '>')
    (o : Op) (r : List Char) (n : ℚ) (hr : E.parseF (trim r) = some n) :
    ∃ p, parseCriteria E (.text (written o ++ r)) = some p ∧
      ∀ x, cellMatch E p (.num x) = true ↔ Told o x n := by
  have hw : written o = o.chars := by cases o <;> rfl
  refine ⟨o.onNum n, by rw [hw]; exact parseCriteria_compare E hF o r n hr, fun x => ?_⟩
  cases o <;> simp [Op.onNum, cellMatch, Told, toNumber, valuesEqual, near, abs_sub_comm]

/-- Specification: a text in quotes, its own quotes doubled. -/
def quoted (t : List Char) : List Char :=
  '"' :: (t.flatMap fun c => if c = '"' then ['"', '"'] else [c]) ++ ['"']

theorem undouble_flatMap (t : List Char) :
    undouble (t.flatMap fun c => if c = '"' then ['"', '"'] else [c]) = t := by
  induction t with
  | nil => rfl
  | cons c t ih =>
    rw [List.flatMap_cons]
    split
    · next h => subst h; simp only [List.cons_append, List.nil_append, undouble, ih]
    · next h =>
      rw [List.singleton_append]
      conv_lhs => unfold undouble
      split
      · next e => simp at e; exact absurd e.1 h
      · next e => simp at e; rw [← e.1, ← e.2, ih]
      · next e => simp at e

theorem trimEnd_last {t : List Char} {c : Char} (h : ws c = false) : trimEnd (t ++ [c]) = t ++ [c] := by
  simp [trimEnd, h]

theorem trim_quoted (t : List Char) : trim (quoted t) = quoted t := by
  unfold trim quoted
  rw [List.cons_append, List.dropWhile_cons]
  have : ws '"' = false := by decide
  rw [this]
  simp only [Bool.false_eq_true, if_false]
  rw [← List.cons_append, trimEnd_last this]

theorem unquote_quoted (t : List Char) : unquote (quoted t) = t := by
  unfold unquote
  simp only [trim_quoted]
  simp only [quoted, List.cons_append, List.getLast?_append, List.getLast?_singleton,
    Option.some_or, if_true, List.dropLast_concat]
  exact undouble_flatMap t

/-- **A text in quotes after `=` or `<>` is that text**, whatever it contains, unless
the quoted text reads as a number. -/
theorem criterion_quoted_partial (E : Env) (t : List Char) (h : E.parseF (quoted t) = none) :
    parseCriteria E (.text ('=' :: quoted t)) = some (.eq (.text t)) ∧
    parseCriteria E (.text ('<' :: '>' :: quoted t)) = some (.ne (.text t)) := by
  have o1 := op_trim .eq (quoted t)
  have o2 := op_trim .ne (quoted t)
  have e : trimEnd (quoted t) = quoted t := trimEnd_last (t := '"' :: _) (by decide)
  rw [e] at o1 o2
  simp only [Op.chars, List.cons_append, List.nil_append] at o1 o2
  constructor
  · simp [parseCriteria, o1, parseOps, Op.chars, stripPrefix, List.isPrefixOf, h, Op.onText,
      trim_quoted, unquote_quoted]
  · simp [parseCriteria, o2, parseOps, Op.chars, stripPrefix, List.isPrefixOf, h, Op.onText,
      trim_quoted, unquote_quoted]

/-! ## What fails -/

/-- A world for the examples: folding is lower case, the numbers known are 0 to 9. -/
def sample : Env where
  fold := fun t => t.map Char.toLower
  parse := fun t => match t with
    | [c] => if '0' ≤ c ∧ c ≤ '9' then some (c.toNat - 48 : ℕ) else none
    | _ => none
  parseF := fun t => match t with
    | [c] => if '0' ≤ c ∧ c ≤ '9' then some (c.toNat - 48 : ℕ) else none
    | _ => none
  shw := fun q => [Char.ofNat (48 + q.num.toNat)]

theorem sample_fine : sample.Fine := by intro t; simp [sample]

/-- `COUNTIF(range, criterion)` from the criterion as a value. -/
def countIfOf (E : Env) (v : View) (crit : V) : Option Nat := (parseCriteria E crit).map (countIf E v)

/-- The hypotheses of the positive theorems are met by columns of either origin. -/
example : (∀ c ∈ ([.loaded (.num 3), .typed (.num 7), .loaded (.text ['x']), .typed .err] : List Cell),
      Clear sample (.gt 5) c) ∧
    countIf sample ⟨[.loaded (.num 3), .typed (.num 7), .loaded (.text ['x']), .typed .err], 4⟩ (.gt 5) = 0 + 1 := by
  refine ⟨?_, by decide +kernel⟩
  simp [Clear, Cell.val, sample]

example : ∀ c ∈ ([.loaded (.text "Ab".toList), .typed (.text "ab".toList), .typed .empty] : List Cell),
    Clear sample (.like "a*".toList) c := by
  have e : read "a*".toList = [.is 'a', .any] := by decide +kernel
  have f : sample.fold "a*".toList = "a*".toList := by decide +kernel
  intro c hc
  simp only [Clear, f, e]
  refine ⟨by decide, ⟨by decide, by decide, by decide⟩, ?_⟩
  simp only [List.mem_cons, List.not_mem_nil, or_false] at hc
  rcases hc with rfl | rfl | rfl
  · exact Or.inl (by decide)
  · exact Or.inl (by decide)
  · intro h; cases h

example : parseCriteria sample (.text "<> ab ".toList) = some (.ne (.text "ab".toList)) ∧
    sample.parseF (trim " ab ".toList) = none ∧ (trim " ab ".toList).head? ≠ some '"' := by decide +kernel

example : parseCriteria sample (.text "=\"a\"\"*\"".toList) = some (.eq (.text "a\"*".toList)) ∧
    quoted "a\"*".toList = "\"a\"\"*\"".toList ∧ sample.parseF (quoted "a\"*".toList) = none := by
  decide +kernel

example : parseCriteria sample (.text (written .ge ++ " 5 ".toList)) = some (.ge 5) ∧
    sample.parseF (trim " 5 ".toList) = some 5 := by decide +kernel

example : sumIfs sample ⟨[.typed (.num 1), .loaded (.text ['x']), .loaded (.num 4)], 0⟩
      [(⟨[.loaded (.num 3), .typed (.num 2), .typed (.num 3)], 0⟩, .ge 3)] = 5 ∧
    ∀ c ∈ ([.loaded (.num 3), .typed (.num 2), .typed (.num 3)] : List Cell), Clear sample (.ge 3) c := by
  refine ⟨by decide +kernel, ?_⟩
  simp [Clear, Cell.val]

/-- **Counting cells that are not blank depends on how the number got there.**
`COUNTIF(A1,"<>")` is 1 for a number that was typed and 0 for the same number loaded
from a file. -/
theorem countIf_nonblank_wrong :
    countIfOf sample ⟨[.typed (.num 5)], 0⟩ (.text "<>".toList) = some 1 ∧
    countIfOf sample ⟨[.loaded (.num 5)], 0⟩ (.text "<>".toList) = some 0 := by decide +kernel

/-- The other way about for blanks: `COUNTIF(A1,"")` counts a loaded number as
blank, and an error always. -/
theorem countIf_blank_wrong :
    countIfOf sample ⟨[.typed (.num 5)], 0⟩ (.text []) = some 0 ∧
    countIfOf sample ⟨[.loaded (.num 5)], 0⟩ (.text []) = some 1 ∧
    countIfOf sample ⟨[.typed .err], 0⟩ (.text []) = some 1 := by decide +kernel

/-- A number written as a criterion without operator finds typed numbers and misses
loaded ones. -/
theorem countIf_number_text_wrong :
    countIfOf sample ⟨[.typed (.num 5)], 0⟩ (.text ['5']) = some 1 ∧
    countIfOf sample ⟨[.loaded (.num 5)], 0⟩ (.text ['5']) = some 0 := by decide +kernel

/-- So the count is not a function of the values shown. -/
theorem countIf_storage_wrong :
    ¬ ∀ (v w : View) (p : Pred), v.values = w.values → countIf sample v p = countIf sample w p := by
  intro h
  have h1 := h ⟨[.typed (.num 5)], 0⟩ ⟨[.loaded (.num 5)], 0⟩ (.ne (.text [])) rfl
  have h2 : countIf sample ⟨[.typed (.num 5)], 0⟩ (.ne (.text [])) = 1 := by decide +kernel
  have h3 : countIf sample ⟨[.loaded (.num 5)], 0⟩ (.ne (.text [])) = 0 := by decide +kernel
  omega

/-- A cell that is counted by itself may not be counted within a range: a text is
different from five, and a blank is less than five, only when asked alone. -/
theorem countIfs_range_wrong :
    countIfs sample [(⟨[.typed (.text ['x'])], 0⟩, .ne (.num 5))] = 1 ∧
    countIfs sample [(⟨[.typed (.text ['x']), .typed (.text ['x'])], 0⟩, .ne (.num 5))] = 0 ∧
    countIfs sample [(⟨[.typed .empty], 0⟩, .lt 5)] = 1 ∧
    countIfs sample [(⟨[.typed .empty, .typed .empty], 0⟩, .lt 5)] = 0 := by decide +kernel

/-- **Blank rows past the last row of the sheet are not counted**: `COUNTIF(A1:A9,"")`
with one row in the sheet counts none of the eight blanks below it, although the
criterion is met by every one of them; and the same range in a sheet where some
other column reaches row nine counts them. -/
theorem countIf_beyond_wrong :
    countIf sample ⟨[.typed (.text ['x'])], 8⟩ (.eq (.text [])) = 0 ∧
    wantCount sample ⟨[.typed (.text ['x'])], 8⟩ (.eq (.text [])) = 8 ∧
    countIf sample ⟨.typed (.text ['x']) :: List.replicate 8 (.loaded .empty), 0⟩ (.eq (.text [])) = 8 ∧
    (⟨[.typed (.text ['x'])], 8⟩ : View).values
      = (⟨.typed (.text ['x']) :: List.replicate 8 (.loaded .empty), 0⟩ : View).values := by
  decide +kernel

/-- **The order of the criteria matters**: with whole columns of different used
lengths `COUNTIFS(A:A,"<>x",B:B,"y")` is 0 and `COUNTIFS(B:B,"y",A:A,"<>x")` is 1. -/
theorem countIfs_order_wrong :
    ¬ ∀ a b : View × Pred, countIfs sample [a, b] = countIfs sample [b, a] := by
  intro h
  have h1 := h (⟨[.typed (.text ['x']), .typed (.text ['x'])], 0⟩, .ne (.text ['x']))
    (⟨[.typed .empty, .typed .empty, .typed (.text ['y'])], 0⟩, .eq (.text ['y']))
  revert h1
  decide +kernel

/-- **Rows past the used part of the criteria column are taken to meet `<5`**:
`SUMIFS(A:A,B:B,"<5")` adds the rows of A below the last used row of B, while a
blank between used rows of B is left out. -/
theorem sumIfs_tail_wrong :
    sumIfs sample ⟨[.typed (.num 1), .typed (.num 2), .typed (.num 4)], 0⟩
      [(⟨[.typed (.num 3), .typed (.num 9)], 0⟩, .lt 5)] = 5 ∧
    sumIfs sample ⟨[.typed (.num 1), .typed (.num 2), .typed (.num 4)], 0⟩
      [(⟨[.typed (.num 3), .typed (.num 9), .typed .empty], 0⟩, .lt 5)] = 1 := by decide +kernel

/-- Criteria with an operator in front take their wildcards literally, and
comparisons with a text become equality with the whole criterion. -/
theorem parseCriteria_wrong :
    parseCriteria sample (.text "=a*".toList) = some (.eq (.text "a*".toList)) ∧
    parseCriteria sample (.text "a*".toList) = some (.like "a*".toList) ∧
    parseCriteria sample (.text ">b".toList) = some (.eq (.text ">b".toList)) := by decide +kernel

end Verif.Lookup
