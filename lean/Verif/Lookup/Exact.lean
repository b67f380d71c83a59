import Mathlib.Tactic.Linarith
import Verif.Lookup.Match

/-!
# Exact lookups, and `XMATCH` and `XLOOKUP`

Model of `/repo/crates/formualizer-eval/src`:
* `builtins/lookup/lookup_utils.rs` 72-128 (`PreparedLookupMatcher`), 435-448
  (`find_exact_index`), 452-625 (`find_exact_index_in_view`),
* `engine/lookup_index_cache.rs` 58-200 (`LookupHashKey`, `LookupIndex::build`,
  `find_first_exact`),
* `engine/eval.rs` 3606-3680 and `lookup_index_cache.rs` 300-330: when the index is
  used,
* `builtins/lookup/dynamic.rs` 312-455 (`XLOOKUP`) and 655-790 (`XMATCH`), the search
  for a place.

A view is one column of cells (`Verif.Lookup.Criteria`), all within the sheet. The
negative zero of `f64` is left out.
-/

namespace Verif.Lookup

/-! ## Model: three ways to look for an equal entry -/

/-- A text with `*`, `?` or `~` in it. -/
def wildcards (t : List Char) : Bool := t.contains '*' || t.contains '?' || t.contains '~'

/-- `PreparedLookupMatcher::matches`, lookup_utils.rs 102-119. -/
def matchesV (E : Env) (needle : V) (wild : Bool) (v : V) : Bool :=
  match needle, v with
  | .text p, .text t =>
    if wild && wildcards p then matchesFolded (compile (E.fold p)) (E.fold t) = some true
    else E.fold t = E.fold p
  | _, _ => cmpL E needle v = some .eq

/-- `find_exact_index`, lookup_utils.rs 435-448: arrays. -/
def findArray (E : Env) (values : List V) (needle : V) (wild : Bool) : Option Nat :=
  values.findIdx? (matchesV E needle wild)

/-- Booleans lane. -/
def boolLane (c : Cell) : Option Bool :=
  match c.val with
  | .bool b => some b
  | _ => none

/-- `find_exact_text_in_view` on one entry, lookup_utils.rs 530-545. -/
def textHit (E : Env) (p : List Char) (wild : Bool) (c : Cell) : Bool :=
  match textLane E c with
  | some s =>
    if wild && wildcards p then matchesFolded (compile (E.fold p)) s = some true
    else s = E.fold p
  | none => false

/-- `find_exact_empty_in_view`, lookup_utils.rs 606-633. -/
def findEmpty (cells : List Cell) : Option Nat := cells.findIdx? fun c => c.val = .empty

/-- `find_exact_index_in_view`, lookup_utils.rs 452-633: ranges. Errors in the needle
do not get here. -/
def findView (E : Env) (cells : List Cell) (needle : V) (wild : Bool) : Option Nat :=
  match needle with
  | .num n =>
    match cells.findIdx? fun c => match numLane c with
      | some x => near x n
      | none => false with
    | some i => some i
    | none => if near n 0 then findEmpty cells else none
  | .text t => cells.findIdx? (textHit E t wild)
  | .bool b => cells.findIdx? fun c => boolLane c = some b
  | .empty => findEmpty cells
  | .err => none

/-- `LookupHashKey`, lookup_index_cache.rs 28-34. -/
inductive HashKey where
  | number (q : ℚ)
  | text (t : List Char)
  | bool (b : Bool)
  | empty
deriving DecidableEq, Repr

/-- `normalize_f64_bits`, lookup_index_cache.rs 85-95: the bits of a number are the
number. -/
def normal (q : ℚ) : ℚ :=
  let r : ℚ := ((q + 1 / 2).floor : ℤ)
  if near q r then r else q

/-- `from_literal`, lookup_index_cache.rs 60-82. -/
def hashKey (E : Env) : V → Option HashKey
  | .num q => some (.number (normal q))
  | .text t => some (.text (E.fold t))
  | .bool b => some (.bool b)
  | .empty => some .empty
  | .err => none

/-- `LookupIndex::build` with `find_first_exact`, lookup_index_cache.rs 110-195: outer
`none` when there is no index because of an error among the entries. -/
def findIndex (E : Env) (values : List V) (needle : V) : Option (Option Nat) :=
  if .err ∈ values then none
  else some <|
    match hashKey E needle with
    | none => none
    | some k =>
      let all := (List.range values.length).filter fun i => hashKey E (values.getD i .empty) = some k
      match all.find? fun i => cmpL E needle (values.getD i .empty) = some .eq with
      | some i => some i
      | none =>
        match needle with
        | .num n => if near n 0 then values.findIdx? fun v => v = .empty else none
        | _ => none

/-- A needle with wildcards, core.rs 250-255. -/
def wildNeedle : V → Bool
  | .text t => wildcards t
  | _ => false

/-- Exact `MATCH` on a range that has been looked into `calls` times before, core.rs
256-283: the index is used for 64 entries or more from the fourth time on. -/
def matchExact (E : Env) (cells : List Cell) (needle : V) (calls : Nat) : Option Nat :=
  let wild := wildNeedle needle
  if wild = false ∧ 64 ≤ cells.length ∧ 3 ≤ calls then
    match findIndex E (cells.map Cell.val) needle with
    | some r => r
    | none => findView E cells needle wild
  else findView E cells needle wild

/-! ## Model: `XMATCH` and `XLOOKUP` for the next smaller or larger -/

/-- Whether `x` is on the right side of `n` and better than what was found before. -/
def better (smaller : Bool) (n x : ℚ) (best : Option (Nat × ℚ)) : Bool :=
  (if smaller then decide (x ≤ n) else decide (n ≤ x)) &&
  match best with
  | none => true
  | some (_, b) => if smaller then decide (b < x) else decide (x < b)

/-- The loop of `XMATCH`, dynamic.rs 742-775, over the places `is` in this order. -/
def nearest (E : Env) (values : List V) (needle : V) (smaller : Bool) :
    List Nat → Option (Nat × ℚ) → Option Nat
  | [], best => best.map (·.1)
  | i :: is, best =>
    if cmpL E (values.getD i .empty) needle = some .eq then some i
    else
      match toF E needle, toF E (values.getD i .empty) with
      | some n, some x =>
        if better smaller n x best then nearest E values needle smaller is (some (i, x))
        else nearest E values needle smaller is best
      | _, _ => nearest E values needle smaller is best

/-- The answer for an index. -/
def toAns : Option Nat → Ans
  | some i => .pos (i + 1)
  | none => .na

/-- `XMATCH` with match mode -1 (`smaller`) or 1 and search mode 1 (`forward`) or -1,
dynamic.rs 690-790. -/
def xmatch (E : Env) (values : List V) (needle : V) (smaller forward : Bool) : Ans :=
  toAns (nearest E values needle smaller
    (if forward then List.range values.length else (List.range values.length).reverse) none)

/-- One entry is not below the one before it, dynamic.rs 378-386. -/
def inOrder (E : Env) (prev : Option V) (v : V) : Bool :=
  match prev with
  | some p => match cmpL E p v with
    | some c => c != .gt
    | none => false
  | none => true

/-- The loop of `XLOOKUP`, dynamic.rs 375-415: every entry must not be below the one
before it. -/
def xlookupLoop (E : Env) (values : List V) (needle : V) (smaller : Bool) :
    List Nat → Option V → Option (Nat × ℚ) → Option (Option Nat)
  | [], _, best => some (best.map (·.1))
  | i :: is, prev, best =>
    let v := values.getD i .empty
    if inOrder E prev v = false then none
    else if cmpL E v needle = some .eq then some (some i)
    else
      match toF E needle, toF E v with
      | some n, some x =>
        if better smaller n x best then xlookupLoop E values needle smaller is (some v) (some (i, x))
        else xlookupLoop E values needle smaller is (some v) best
      | _, _ => xlookupLoop E values needle smaller is (some v) best

/-- The place `XLOOKUP` finds with match mode -1 (`smaller`) or 1, dynamic.rs 360-420;
the search mode is not looked at. Out of order is `#N/A`. -/
def xlookup (E : Env) (values : List V) (needle : V) (smaller : Bool) : Ans :=
  match xlookupLoop E values needle smaller (List.range values.length) none none with
  | none => .na
  | some r => toAns r

/-! ## Specification -/

/-- Equal entries: the same number, the same text but for case, the same boolean. -/
def Equal (E : Env) : V → V → Prop
  | .num q, .num x => x = q
  | .text t, .text u => E.fold u = E.fold t
  | .bool b, .bool c => c = b
  | _, _ => False

/-- Place `n`, counted from one, is the first whose entry is meant. -/
def FirstPlace (values : List V) (is : V → Prop) (n : Nat) : Prop :=
  1 ≤ n ∧ (∃ v, values[n - 1]? = some v ∧ is v) ∧
    ∀ m v, 1 ≤ m → m < n → values[m - 1]? = some v → ¬ is v

/-- Place `n` holds the greatest number up to `q`, first in the direction of the
search. -/
def NextSmaller (values : List V) (key : V → Option ℚ) (q : ℚ) (forward : Bool) (n : Nat) : Prop :=
  ∃ x, Holds values key n x ∧ x ≤ q ∧ ∀ m y, Holds values key m y → y ≤ q →
    y ≤ x ∧ (y = x → if forward then n ≤ m else m ≤ n)

/-- Place `n` holds the least number from `q` on, first in the direction of the
search. -/
def NextLarger (values : List V) (key : V → Option ℚ) (q : ℚ) (forward : Bool) (n : Nat) : Prop :=
  ∃ x, Holds values key n x ∧ q ≤ x ∧ ∀ m y, Holds values key m y → q ≤ y →
    x ≤ y ∧ (y = x → if forward then n ≤ m else m ≤ n)

/-- Cells on which all three ways mean the same by equal. -/
def Plain (E : Env) (needle : V) (c : Cell) : Prop :=
  match needle with
  | .num q => match c.val with
    | .num x => near x q = true → x = q
    | .text u => E.parseF u = none
    | .bool _ => False
    | .empty => near q 0 = false
    | .err => True
  | .text t => E.parseF t = none ∧ match c with
    | .typed (.num x) => E.shw x ≠ E.fold t
    | .typed (.bool b) => (if b then "true".toList else "false".toList) ≠ E.fold t
    | _ => True
  | .bool b => match c.val with
    | .num x => near x (if b then 1 else 0) = false
    | .text u => E.parseF u = none
    | .bool _ => True
    | .empty => b = true
    | .err => True
  | _ => False

/-! ## Proofs -/

theorem firstPlace_unique {values : List V} {is : V → Prop} {m n : Nat} (h : FirstPlace values is m)
    (h' : FirstPlace values is n) : m = n := by
  obtain ⟨h1, ⟨v, hv, hi⟩, h2⟩ := h
  obtain ⟨h1', ⟨v', hv', hi'⟩, h2'⟩ := h'
  by_contra hne
  rcases Nat.lt_or_gt_of_ne hne with hl | hl
  · exact h2' m v h1 hl hv hi
  · exact h2 n v' h1' hl hv' hi'

/-- Finding an index by a test that says what is meant. -/
theorem findIdx_means {cells : List Cell} {p : Cell → Bool} {is : V → Prop}
    (h : ∀ c ∈ cells, p c = true ↔ is c.val) :
    Means (toAns (cells.findIdx? p)) (FirstPlace (cells.map Cell.val) is) := by
  apply means_of (fun m n => firstPlace_unique)
  cases hf : cells.findIdx? p with
  | none =>
    rw [List.findIdx?_eq_none_iff] at hf
    refine Or.inr ⟨rfl, ?_⟩
    rintro n ⟨_, ⟨v, hv, hi⟩, _⟩
    rw [List.getElem?_map, Option.map_eq_some_iff] at hv
    obtain ⟨c, hc, rfl⟩ := hv
    have hm := List.mem_of_getElem? hc
    have := (h c hm).2 hi
    rw [hf c hm] at this; cases this
  | some i =>
    rw [List.findIdx?_eq_some_iff_getElem] at hf
    obtain ⟨hlt, hp, hb⟩ := hf
    refine Or.inl ⟨i + 1, rfl, by omega, ⟨cells[i].val, ?_, (h _ (List.getElem_mem hlt)).1 hp⟩, ?_⟩
    · simp [List.getElem?_map, List.getElem?_eq_getElem hlt]
    · intro m v hm1 hm2 hv hi
      rw [List.getElem?_map, Option.map_eq_some_iff] at hv
      obtain ⟨c, hc, rfl⟩ := hv
      obtain ⟨hl, he⟩ := List.getElem?_eq_some_iff.1 hc
      have h1 := hb (m - 1) (by omega)
      have h2 := (h c (List.mem_of_getElem? hc)).2 hi
      rw [he] at h1
      exact h1 h2

theorem findIdx_map {cells : List Cell} {p : V → Bool} :
    (cells.map Cell.val).findIdx? p = cells.findIdx? fun c => p c.val := by
  induction cells with
  | nil => rfl
  | cons c cells ih => simp only [List.map_cons, List.findIdx?_cons, ih]

theorem matches_equal {E : Env} {needle : V} {c : Cell} (h : Plain E needle c) :
    matchesV E needle false c.val = true ↔ Equal E needle c.val := by
  cases needle with
  | num q =>
    simp only [Plain] at h
    cases hv : c.val with
    | num x =>
      rw [hv] at h
      simp only [matchesV, cmpL, toF, Equal, decide_eq_true_eq, Option.some.injEq]
      by_cases e : x = q
      · subst e; simp [near_self]
      · have : near q x = false := by
          rw [near_comm, ← Bool.not_eq_true]; exact fun hn => e (h hn)
        rw [this]
        simp only [Bool.false_eq_true, if_false]
        constructor
        · intro h; split at h <;> cases h
        · intro h; exact absurd h e
    | text u => rw [hv] at h; simp only at h; simp [matchesV, cmpL, toF, Equal, h]
    | bool b => rw [hv] at h; exact h.elim
    | empty =>
      rw [hv] at h
      simp only at h
      simp only [matchesV, cmpL, toF, Equal, h, Bool.false_eq_true, if_false, decide_eq_true_eq,
        Option.some.injEq, iff_false]
      split <;> simp
    | err => simp [matchesV, cmpL, toF, Equal]
  | text t =>
    simp only [Plain] at h
    cases hv : c.val with
    | num x => simp [matchesV, cmpL, toF, Equal, h.1]
    | text u => simp [matchesV, Equal]
    | bool b => simp [matchesV, cmpL, toF, Equal, h.1]
    | empty => simp [matchesV, cmpL, toF, Equal, h.1]
    | err => simp [matchesV, cmpL, toF, Equal, h.1]
  | bool b =>
    simp only [Plain] at h
    cases hv : c.val with
    | num x =>
      rw [hv] at h
      simp only at h
      rw [near_comm] at h
      cases b <;> simp only [Bool.false_eq_true, if_true, if_false] at h <;>
        simp only [matchesV, cmpL, toF, Equal, h, Bool.false_eq_true, if_true, if_false, decide_eq_true_eq,
          Option.some.injEq, iff_false] <;> split <;> simp
    | text u => rw [hv] at h; simp only at h; simp [matchesV, cmpL, toF, Equal, h]
    | bool d =>
      have e1 : near 1 0 = false := by decide +kernel
      have e2 : near 0 1 = false := by decide +kernel
      have e3 : near 1 1 = true := by decide +kernel
      have e4 : near 0 0 = true := by decide +kernel
      cases b <;> cases d <;> simp [matchesV, cmpL, toF, Equal, e1, e2, e3, e4, not_lt.2 (zero_le_one' ℚ)]
    | empty =>
      rw [hv] at h
      simp only at h
      subst h
      have e1 : near 1 0 = false := by decide +kernel
      simp [matchesV, cmpL, toF, Equal, e1, not_lt.2 (zero_le_one' ℚ)]
    | err => simp [matchesV, cmpL, toF, Equal]
  | empty => exact h.elim
  | err => exact h.elim

/-- **Exact lookups in arrays find the first equal entry.** -/
theorem exact_array_partial (E : Env) (cells : List Cell) (needle : V)
    (h : ∀ c ∈ cells, Plain E needle c) :
    Means (toAns (findArray E (cells.map Cell.val) needle false))
      (FirstPlace (cells.map Cell.val) (Equal E needle)) := by
  unfold findArray
  rw [findIdx_map]
  exact findIdx_means fun c hc => matches_equal (h c hc)

theorem findEmpty_none {E : Env} {cells : List Cell} {q : ℚ} (h : ∀ c ∈ cells, Plain E (.num q) c)
    (hq : near q 0 = true) : ∀ c ∈ cells, c.val ≠ .empty := by
  intro c hc he
  have := h c hc
  simp only [Plain, he] at this
  rw [hq] at this; cases this

/-- **Exact lookups in ranges find the first equal entry.** -/
theorem exact_view_partial (E : Env) (cells : List Cell) (needle : V)
    (h : ∀ c ∈ cells, Plain E needle c) :
    Means (toAns (findView E cells needle false))
      (FirstPlace (cells.map Cell.val) (Equal E needle)) := by
  cases needle with
  | num q =>
    have hp : ∀ c ∈ cells, (match numLane c with
        | some x => near x q
        | none => false) = true ↔ Equal E (.num q) c.val := by
      intro c hc
      have hh := h c hc
      rcases c with v | v <;> cases v <;> simp only [numLane, Cell.val, Equal, Plain] at hh ⊢
      all_goals first
        | exact ⟨fun hn => hh hn, fun e => by rw [e]; exact near_self q⟩
        | simp
    have he : (if near q 0 then findEmpty cells else none) = none := by
      split
      · next hq =>
        unfold findEmpty
        rw [List.findIdx?_eq_none_iff]
        intro c hc
        simpa using findEmpty_none h hq c hc
      · rfl
    have := findIdx_means hp
    unfold findView
    simp only [he]
    generalize cells.findIdx? _ = r at this ⊢
    cases r <;> exact this
  | text t =>
    unfold findView
    simp only
    apply findIdx_means
    intro c hc
    have hh := (h c hc).2
    rcases c with v | v <;> cases v <;> simp only [textHit, textLane, Cell.val, Equal, Bool.false_and] at hh ⊢ <;>
      simp_all
  | bool b =>
    unfold findView
    simp only
    apply findIdx_means
    intro c hc
    cases hv : c.val <;> simp [boolLane, hv, Equal]
  | empty =>
    unfold findView findEmpty
    simp only
    apply findIdx_means
    intro c hc
    exact (h c hc).elim
  | err =>
    unfold findView
    simp only
    have : (none : Option Nat) = cells.findIdx? fun _ => false := by
      symm; rw [List.findIdx?_eq_none_iff]; simp
    rw [this]
    apply findIdx_means
    intro c hc
    exact (h c hc).elim

theorem findIdx_range (values : List V) (p : V → Bool) :
    (List.range values.length).find? (fun i => p (values.getD i .empty)) = values.findIdx? p := by
  cases hf : values.findIdx? p with
  | none =>
    rw [List.findIdx?_eq_none_iff] at hf
    rw [List.find?_eq_none]
    intro i hi
    rw [hf _ (getD_mem (List.mem_range.1 hi))]
    simp
  | some i =>
    rw [List.findIdx?_eq_some_iff_getElem] at hf
    obtain ⟨hlt, hp, hb⟩ := hf
    rw [List.find?_range_eq_some]
    refine ⟨?_, List.mem_range.2 hlt, ?_⟩
    · rw [List.getD_eq_getElem _ _ hlt]; exact hp
    · intro j hj
      have := hb j hj
      rw [List.getD_eq_getElem _ _ (by omega)]
      simpa using this

/-- **Exact lookups through the index find the first equal entry.** -/
theorem exact_index_partial (E : Env) (cells : List Cell) (needle : V)
    (h : ∀ c ∈ cells, Plain E needle c) (r : Option Nat)
    (hr : findIndex E (cells.map Cell.val) needle = some r) :
    Means (toAns r) (FirstPlace (cells.map Cell.val) (Equal E needle)) := by
  unfold findIndex at hr
  split at hr
  · cases hr
  simp only [Option.some.injEq] at hr
  subst hr
  cases hk : hashKey E needle with
  | none =>
    have he : needle = .err := by cases needle <;> simp [hashKey] at hk ⊢
    subst he
    have : (none : Option Nat) = cells.findIdx? fun _ => false := by
      symm; rw [List.findIdx?_eq_none_iff]; simp
    simp only
    rw [this]
    exact findIdx_means fun c hc => (h c hc).elim
  | some k =>
    simp only
    rw [List.find?_filter]
    simp only [Bool.decide_and, Bool.decide_eq_true]
    have hp : ∀ c ∈ cells, (decide (hashKey E c.val = some k) && decide (cmpL E needle c.val = some .eq)) = true ↔
        Equal E needle c.val := by
      intro c hc
      have hm := matches_equal (h c hc)
      rw [Bool.and_eq_true, decide_eq_true_eq, decide_eq_true_eq]
      constructor
      · rintro ⟨h1, h2⟩
        rw [← hm]
        cases hn : needle with
        | text t =>
          cases hv : c.val with
          | text u =>
            rw [hn] at hk; rw [hv] at h1
            simp only [hashKey, Option.some.injEq] at hk h1
            rw [← hk] at h1
            simp only [HashKey.text.injEq] at h1
            simp [matchesV, h1]
          | _ => rw [hn, hv] at h2; simp [matchesV, h2]
        | _ => rw [hn] at h2; simp [matchesV, h2]
      · intro he
        have h2 := hm.2 he
        cases hn : needle with
        | num q =>
          rw [hn] at he h2 hk
          cases hv : c.val <;> rw [hv] at he h2 <;> simp only [Equal] at he
          subst he
          exact ⟨hk, by simpa [matchesV] using h2⟩
        | text t =>
          rw [hn] at he h2 hk
          have hpl := h c hc
          rw [hn] at hpl
          simp only [Plain] at hpl
          cases hv : c.val <;> rw [hv] at he <;> simp only [Equal] at he
          refine ⟨by rw [← hk]; simp [hashKey, he], ?_⟩
          simp only [cmpL, toF, hpl.1]
          rw [he, Option.some.injEq, ord_eq]
        | bool b =>
          rw [hn] at he h2 hk
          cases hv : c.val <;> rw [hv] at he h2 <;> simp only [Equal] at he
          subst he
          exact ⟨hk, by simpa [matchesV] using h2⟩
        | empty => rw [hn] at he; exact he.elim
        | err => rw [hn] at he; exact he.elim
    have hfind := findIdx_range (cells.map Cell.val)
      (fun v => decide (hashKey E v = some k) && decide (cmpL E needle v = some .eq))
    rw [hfind, findIdx_map]
    have hmeans := findIdx_means hp
    have hlast : (match needle with
        | .num n => if near n 0 then (cells.map Cell.val).findIdx? (fun v => decide (v = .empty)) else none
        | _ => none) = none := by
      cases hn : needle with
      | num q =>
        simp only
        split
        · next hq =>
          rw [findIdx_map, List.findIdx?_eq_none_iff]
          intro c hc
          rw [hn] at h
          simpa using findEmpty_none h hq c hc
        · rfl
      | _ => rfl
    rw [hlast]
    generalize cells.findIdx? _ = r at hmeans ⊢
    cases r <;> exact hmeans

/-- **Exact `MATCH` finds the first equal entry, however often it is asked.** The
needle is no text with wildcards.

Partial: refuted for cells that are not `Plain`, see below. -/
theorem matchExact_correct_partial (E : Env) (cells : List Cell) (needle : V) (calls : Nat)
    (hw : ∀ t, needle = .text t → wildcards t = false) (h : ∀ c ∈ cells, Plain E needle c) :
    Means (toAns (matchExact E cells needle calls))
      (FirstPlace (cells.map Cell.val) (Equal E needle)) := by
  have e : wildNeedle needle = false := by
    cases hn : needle with
    | text t => exact hw t hn
    | _ => rfl
  unfold matchExact
  simp only [e]
  split
  · cases hi : findIndex E (cells.map Cell.val) needle with
    | none => exact exact_view_partial E cells needle h
    | some r => exact exact_index_partial E cells needle h r hi
  · exact exact_view_partial E cells needle h

/-- **Exact `MATCH` with wildcards finds the first text that fits**, in ranges and in
arrays.

Partial: in ranges, numbers and booleans that were typed are matched as texts
(`exact_wild_wrong`). -/
theorem matchExact_wild_partial (E : Env) (cells : List Cell) (p : List Char) (calls : Nat)
    (hw : wildcards p = true) (hp : E.parseF p = none)
    (h : ∀ c ∈ cells, match c with
      | .typed (.num x) => ¬ Fits (read (E.fold p)) (E.shw x)
      | .typed (.bool b) => ¬ Fits (read (E.fold p)) (if b then "true".toList else "false".toList)
      | _ => True) :
    Means (toAns (matchExact E cells (.text p) calls))
      (FirstPlace (cells.map Cell.val) fun v => ∃ t, v = .text t ∧ Fits (read (E.fold p)) (E.fold t)) ∧
    Means (toAns (findArray E (cells.map Cell.val) (.text p) true))
      (FirstPlace (cells.map Cell.val) fun v => ∃ t, v = .text t ∧ Fits (read (E.fold p)) (E.fold t)) := by
  have hfit : ∀ s, (matchesFolded (compile (E.fold p)) s = some true) ↔ Fits (read (E.fold p)) s := by
    intro s
    obtain ⟨b, hb, hi⟩ := lookup_wildcard_correct id (E.fold p) s
    simp only [wildcardPatternMatch, id] at hb hi
    rw [hb, Option.some.injEq, hi]
  constructor
  · unfold matchExact wildNeedle
    simp only [hw, Bool.true_eq_false, false_and, if_false, findView]
    apply findIdx_means
    intro c hc
    have hh := h c hc
    rcases c with v | v <;> cases v <;>
      simp only [textHit, textLane, Cell.val, hw, Bool.and_self, if_true, hfit, decide_eq_true_eq] at hh ⊢ <;>
      simp_all
  · unfold findArray
    rw [findIdx_map]
    apply findIdx_means
    intro c hc
    cases hv : c.val <;> simp [matchesV, hw, hfit, cmpL, toF, hp]

/-! ## The next smaller or larger -/

section Nearest
variable {E : Env} {values : List V} {needle : V} {q : ℚ}

/-- Reading an entry by place. -/
def numAt (E : Env) (values : List V) (i : Nat) : Option ℚ := toF E (values.getD i .empty)

/-- The direction of the search as an order of numbers. -/
def gauge (smaller : Bool) (x : ℚ) : ℚ := if smaller then x else -x

theorem gauge_inj {b : Bool} {x y : ℚ} (h : gauge b x = gauge b y) : x = y := by
  cases b
  · simpa [gauge] using h
  · simpa [gauge] using h

theorem better_iff (b : Bool) (n x : ℚ) (best : Option (Nat × ℚ)) :
    better b n x best = true ↔ gauge b x ≤ gauge b n ∧ ∀ i y, best = some (i, y) → gauge b y < gauge b x := by
  unfold better
  cases b <;> rcases best with _ | ⟨i, y⟩ <;> simp [gauge]

/-- What the loops keep true of the places done; `R i j`: `i` comes before `j`. -/
def Best (E : Env) (values : List V) (q : ℚ) (b : Bool) (R : Nat → Nat → Prop) (done : List Nat)
    (best : Option (Nat × ℚ)) : Prop :=
  match best with
  | none => ∀ j ∈ done, ∀ y, numAt E values j = some y → ¬ gauge b y ≤ gauge b q
  | some (i, x) => i ∈ done ∧ numAt E values i = some x ∧ gauge b x ≤ gauge b q ∧
      ∀ j ∈ done, ∀ y, numAt E values j = some y → gauge b y ≤ gauge b q →
        gauge b y ≤ gauge b x ∧ (y = x → i = j ∨ R i j)

theorem cmp_needle (hq : toF E needle = some q) (ht : ∀ t, needle ≠ .text t)
    (hap : Apart (toF E) values q) {i : Nat} (hi : i < values.length) :
    cmpL E (values.getD i .empty) needle = some .eq ↔ numAt E values i = some q := by
  unfold numAt cmpL
  rw [hq]
  cases hf : toF E (values.getD i .empty) with
  | some x =>
    have hx : x ∈ q :: values.filterMap (toF E) :=
      List.mem_cons_of_mem _ (List.mem_filterMap.2 ⟨_, getD_mem hi, hf⟩)
    have := hap x hx q List.mem_cons_self
    simp only [Option.some.injEq]
    by_cases e : x = q
    · subst e; simp [near_self]
    · rw [if_neg (fun hn => e (this hn))]
      constructor
      · intro h; split at h <;> cases h
      · intro h; exact absurd h e
  | none =>
    simp only [reduceCtorEq, iff_false]
    split
    · exact absurd rfl (ht _)
    · simp

theorem best_step {b : Bool} {R : Nat → Nat → Prop} {done : List Nat} {best : Option (Nat × ℚ)} {i : Nat}
    (hb : Best E values q b R done best) (hR : ∀ j ∈ done, R j i) :
    Best E values q b R (done ++ [i])
      (match numAt E values i with
      | some x => if better b q x best then some (i, x) else best
      | none => best) := by
  cases hn : numAt E values i with
  | none =>
    simp only
    cases best with
    | none =>
      intro j hj y hy
      rcases List.mem_append.1 hj with hj | hj
      · exact hb j hj y hy
      · rw [List.mem_singleton.1 hj, hn] at hy; cases hy
    | some p =>
      obtain ⟨h1, h2, h3, h4⟩ := hb
      refine ⟨List.mem_append_left _ h1, h2, h3, fun j hj y hy hyq => ?_⟩
      rcases List.mem_append.1 hj with hj | hj
      · exact h4 j hj y hy hyq
      · rw [List.mem_singleton.1 hj, hn] at hy; cases hy
  | some x =>
    simp only
    by_cases hbt : better b q x best = true
    · rw [if_pos hbt]
      rw [better_iff] at hbt
      refine ⟨by simp, hn, hbt.1, fun j hj y hy hyq => ?_⟩
      rcases List.mem_append.1 hj with hj | hj
      · cases best with
        | none => exact absurd hyq (hb j hj y hy)
        | some p =>
          have hlt := hbt.2 p.1 p.2 rfl
          have hle := (hb.2.2.2 j hj y hy hyq).1
          have : gauge b y < gauge b x := lt_of_le_of_lt hle hlt
          exact ⟨le_of_lt this, fun e => by rw [e] at this; exact absurd this (lt_irrefl _)⟩
      · rw [List.mem_singleton.1 hj, hn, Option.some.injEq] at hy
        rw [← hy]
        exact ⟨le_refl _, fun _ => Or.inl (List.mem_singleton.1 hj).symm⟩
    · rw [if_neg hbt]
      rw [better_iff] at hbt
      cases best with
      | none =>
        intro j hj y hy hyq
        rcases List.mem_append.1 hj with hj | hj
        · exact hb j hj y hy hyq
        · rw [List.mem_singleton.1 hj, hn, Option.some.injEq] at hy
          rw [← hy] at hyq
          exact hbt ⟨hyq, fun i y h => by cases h⟩
      | some p =>
        obtain ⟨h1, h2, h3, h4⟩ := hb
        refine ⟨List.mem_append_left _ h1, h2, h3, fun j hj y hy hyq => ?_⟩
        rcases List.mem_append.1 hj with hj | hj
        · exact h4 j hj y hy hyq
        · rw [List.mem_singleton.1 hj, hn, Option.some.injEq] at hy
          rw [← hy] at hyq ⊢
          rw [List.mem_singleton.1 hj]
          refine ⟨?_, fun _ => Or.inr (hR _ h1)⟩
          by_contra hc
          refine hbt ⟨hyq, fun i y h => ?_⟩
          cases h
          exact not_le.1 hc

theorem best_exact {b : Bool} {R : Nat → Nat → Prop} {done is : List Nat} {i : Nat}
    (hne : ∀ j ∈ done, numAt E values j ≠ some q) (hx : numAt E values i = some q) (hR : ∀ j ∈ is, R i j) :
    Best E values q b R (done ++ i :: is) (some (i, q)) := by
  refine ⟨by simp, hx, le_refl _, fun j hj y hy hyq => ⟨hyq, fun e => ?_⟩⟩
  rcases List.mem_append.1 hj with hj | hj
  · rw [e] at hy; exact absurd hy (hne j hj)
  · rcases List.mem_cons.1 hj with hj | hj
    · exact Or.inl hj.symm
    · exact Or.inr (hR j hj)

theorem nearest_spec (hq : toF E needle = some q) (ht : ∀ t, needle ≠ .text t)
    (hap : Apart (toF E) values q) (b : Bool) (R : Nat → Nat → Prop) :
    ∀ (is done : List Nat) (best : Option (Nat × ℚ)), (∀ i ∈ done ++ is, i < values.length) →
    (done ++ is).Pairwise R → Best E values q b R done best → (∀ j ∈ done, numAt E values j ≠ some q) →
    ∃ r, nearest E values needle b is best = r.map (·.1) ∧ Best E values q b R (done ++ is) r := by
  intro is
  induction is with
  | nil => intro done best _ _ hb _; exact ⟨best, rfl, by simpa using hb⟩
  | cons i is ih =>
    intro done best hl hpw hb hne
    have hi : i < values.length := hl i (by simp)
    have hpa := List.pairwise_append.1 hpw
    have hdone : ∀ j ∈ done, R j i := fun j hj => hpa.2.2 j hj i (by simp)
    unfold nearest
    by_cases hx : numAt E values i = some q
    · rw [if_pos ((cmp_needle hq ht hap hi).2 hx)]
      exact ⟨some (i, q), rfl, best_exact hne hx (List.pairwise_cons.1 hpa.2.1).1⟩
    · rw [if_neg (fun h => hx ((cmp_needle hq ht hap hi).1 h)), hq]
      have hstep := best_step hb hdone
      have hne' : ∀ j ∈ done ++ [i], numAt E values j ≠ some q := by
        intro j hj
        rcases List.mem_append.1 hj with hj | hj
        · exact hne j hj
        · rw [List.mem_singleton.1 hj]; exact hx
      have := ih (done ++ [i]) _ (by simpa using hl) (by simpa using hpw) hstep hne'
      rw [List.append_assoc, List.singleton_append] at this
      obtain ⟨r, hr, hr2⟩ := this
      refine ⟨r, ?_, hr2⟩
      rw [← hr]
      unfold numAt
      cases toF E (values.getD i .empty) with
      | none => rfl
      | some x => simp only; split <;> rfl

theorem holds_numAt {n : Nat} {x : ℚ} :
    Holds values (toF E) n x ↔ 1 ≤ n ∧ n - 1 < values.length ∧ numAt E values (n - 1) = some x := by
  unfold Holds numAt
  constructor
  · rintro ⟨h1, v, hv, hk⟩
    obtain ⟨hl, he⟩ := List.getElem?_eq_some_iff.1 hv
    exact ⟨h1, hl, by rw [List.getD_eq_getElem _ _ hl, he, hk]⟩
  · rintro ⟨h1, hl, hk⟩
    rw [List.getD_eq_getElem _ _ hl] at hk
    exact ⟨h1, _, List.getElem?_eq_getElem hl, hk⟩

/-- What is meant, in the direction of the search. -/
def Next (values : List V) (key : V → Option ℚ) (q : ℚ) (smaller forward : Bool) (n : Nat) : Prop :=
  if smaller then NextSmaller values key q forward n else NextLarger values key q forward n

theorem next_iff {b f : Bool} {n : Nat} : Next values (toF E) q b f n ↔
    ∃ x, Holds values (toF E) n x ∧ gauge b x ≤ gauge b q ∧ ∀ m y, Holds values (toF E) m y →
      gauge b y ≤ gauge b q → gauge b y ≤ gauge b x ∧ (y = x → if f then n ≤ m else m ≤ n) := by
  unfold Next
  cases b
  · simp [NextLarger, gauge]
  · simp [NextSmaller, gauge]

theorem next_unique {b f : Bool} {m n : Nat} (h : Next values (toF E) q b f m)
    (h' : Next values (toF E) q b f n) : m = n := by
  rw [next_iff] at h h'
  obtain ⟨x, h1, h2, h3⟩ := h
  obtain ⟨y, h1', h2', h3'⟩ := h'
  have a := h3 _ _ h1' h2'
  have c := h3' _ _ h1 h2
  have e : y = x := gauge_inj (le_antisymm a.1 c.1)
  have a2 := a.2 e
  have c2 := c.2 e.symm
  cases f <;> simp at a2 c2 <;> omega

theorem best_means {b f : Bool} {is : List Nat} (his : ∀ i, i ∈ is ↔ i < values.length)
    {R : Nat → Nat → Prop} (hR : ∀ i j, R i j → if f then i ≤ j else j ≤ i) {r : Option (Nat × ℚ)}
    (h : Best E values q b R is r) :
    Means (toAns (r.map (·.1))) (Next values (toF E) q b f) := by
  apply means_of (fun m n => next_unique)
  cases r with
  | none =>
    refine Or.inr ⟨rfl, fun n hn => ?_⟩
    rw [next_iff] at hn
    obtain ⟨x, hx, hxq, _⟩ := hn
    rw [holds_numAt] at hx
    exact h (n - 1) ((his _).2 hx.2.1) x hx.2.2 hxq
  | some p =>
    obtain ⟨h1, h2, h3, h4⟩ := h
    refine Or.inl ⟨p.1 + 1, rfl, ?_⟩
    rw [next_iff]
    refine ⟨p.2, ?_, h3, ?_⟩
    · rw [holds_numAt]
      exact ⟨by omega, by simpa using (his _).1 h1, by simpa using h2⟩
    · intro m y hy hyq
      rw [holds_numAt] at hy
      have := h4 (m - 1) ((his _).2 hy.2.1) y hy.2.2 hyq
      refine ⟨this.1, fun e => ?_⟩
      rcases this.2 e with h5 | h5
      · have : m = p.1 + 1 := by omega
        rw [this]; simp
      · have := hR _ _ h5
        cases f <;> simp at this ⊢ <;> omega

/-- **`XMATCH` finds the next smaller or larger number**, in any order of the entries,
searching forward or backward. Blanks count as zero.

Partial: for numbers, booleans and blanks only; texts are only found when equal
(`xmatch_text_wrong`). Numbers closer than the tolerance are excluded. -/
theorem xmatch_correct_partial (hq : toF E needle = some q) (ht : ∀ t, needle ≠ .text t)
    (hap : Apart (toF E) values q) (smaller forward : Bool) :
    Means (xmatch E values needle smaller forward) (Next values (toF E) q smaller forward) := by
  unfold xmatch
  cases forward with
  | true =>
    obtain ⟨r, hr, hb⟩ := nearest_spec hq ht hap smaller (· < ·) (List.range values.length) [] none
      (by simp) (by simpa using List.pairwise_lt_range) (by intro j hj; simp at hj) (by simp)
    simp only [if_true]
    rw [hr]
    exact best_means (by simp) (fun i j h => by simp; omega) hb
  | false =>
    obtain ⟨r, hr, hb⟩ := nearest_spec hq ht hap smaller (· > ·) (List.range values.length).reverse [] none
      (by simp) (by simpa [List.pairwise_reverse] using List.pairwise_lt_range) (by intro j hj; simp at hj) (by simp)
    simp only [Bool.false_eq_true, if_false]
    rw [hr]
    exact best_means (by simp) (fun i j h => by simp; omega) hb

/-- In order, `XLOOKUP` goes through the entries as `XMATCH` does. -/
theorem xlookupLoop_nearest (smaller : Bool) : ∀ (n i : Nat) (prev : Option V) (best : Option (Nat × ℚ)),
    i + n = values.length →
    (∀ j, i ≤ j → j < values.length → ∃ c, (match (if j = i then prev else some (values.getD (j - 1) .empty)) with
      | some p => cmpL E p (values.getD j .empty)
      | none => some .eq) = some c ∧ c ≠ .gt) →
    xlookupLoop E values needle smaller (List.range' i n) prev best =
      some (nearest E values needle smaller (List.range' i n) best) := by
  intro n
  induction n with
  | zero => intro i prev best _ _; rfl
  | succ n ih =>
    intro i prev best hi hs
    rw [List.range'_succ]
    have hgo := ih (i + 1) (some (values.getD i .empty))
    have hs' : ∀ j, i + 1 ≤ j → j < values.length →
        ∃ c, (match (if j = i + 1 then some (values.getD i .empty) else some (values.getD (j - 1) .empty)) with
        | some p => cmpL E p (values.getD j .empty)
        | none => some .eq) = some c ∧ c ≠ .gt := by
      intro j h1 h2
      obtain ⟨c, hc, hc2⟩ := hs j (by omega) h2
      rw [if_neg (by omega)] at hc
      refine ⟨c, ?_, hc2⟩
      split
      · next p hp =>
        split at hp
        · next e => subst e; rw [← hc]; simp at hp ⊢; rw [hp]
        · rw [← hc]; simp at hp ⊢; rw [hp]
      · next hp => split at hp <;> cases hp
    unfold xlookupLoop nearest
    obtain ⟨c, hc, hc2⟩ := hs i (le_refl _) (by omega)
    rw [if_pos rfl] at hc
    have hok : inOrder E prev (values.getD i .empty) = true := by
      cases prev with
      | none => rfl
      | some p => simp only [inOrder] at hc ⊢; rw [hc]; simpa using hc2
    simp only [hok, Bool.true_eq_false, if_false]
    split
    · rfl
    · cases toF E needle with
      | none => exact hgo _ (by omega) hs'
      | some a =>
        cases toF E (values.getD i .empty) with
        | none => exact hgo _ (by omega) hs'
        | some x =>
          simp only
          split
          · exact hgo _ (by omega) hs'
          · exact hgo _ (by omega) hs'

/-- **`XLOOKUP` finds the next smaller or larger number** when all entries are numbers
in ascending order.

Partial: out of order it is `#N/A` where `XMATCH` is right (`xlookup_unsorted_wrong`). -/
theorem xlookup_correct_partial (hq : toF E needle = some q) (ht : ∀ t, needle ≠ .text t)
    (hap : Apart (toF E) values q) (hall : ∀ v ∈ values, (toF E v).isSome)
    (hup : Up values (toF E)) (smaller : Bool) :
    Means (xlookup E values needle smaller) (Next values (toF E) q smaller true) := by
  have hx := xmatch_correct_partial hq ht hap smaller true
  unfold xlookup
  have hn : ∀ i, i < values.length → ∃ x, numAt E values i = some x := fun i hi =>
    Option.isSome_iff_exists.1 (hall _ (getD_mem hi))
  rw [List.range_eq_range', xlookupLoop_nearest smaller values.length 0 none none (by omega)]
  · simpa [xmatch, List.range_eq_range'] using hx
  · intro j _ hj
    by_cases e : j = 0
    · subst e; exact ⟨.eq, rfl, by simp⟩
    · rw [if_neg e]
      obtain ⟨x, h1⟩ := hn (j - 1) (by omega)
      obtain ⟨y, h2⟩ := hn j hj
      have hle := hup j (j + 1) x y (by omega) (holds_numAt.2 ⟨by omega, by omega, h1⟩)
        (holds_numAt.2 ⟨by omega, by simpa using hj, by simpa using h2⟩)
      unfold numAt at h1 h2
      simp only [cmpL, h1, h2]
      refine ⟨_, rfl, ?_⟩
      split
      · simp
      · next hne =>
        split
        · simp
        · next h3 =>
          have : x = y := le_antisymm hle (not_lt.1 h3)
          subst this
          rw [near_self] at hne
          exact absurd rfl hne

end Nearest

/-! ## Examples and what fails -/

example : matchExact sampleD [.loaded (.text "Ab".toList), .typed (.num 3), .loaded (.num 5), .typed (.num 5)] (.num 5) 0
      = some 2 ∧
    (∀ c ∈ ([.loaded (.text "Ab".toList), .typed (.num 3), .loaded (.num 5), .typed (.num 5)] : List Cell),
      Plain sampleD (.num 5) c) := by
  refine ⟨by decide +kernel, ?_⟩
  have e : sampleD.parseF "Ab".toList = none := by decide +kernel
  have e3 : near 3 5 = false := by decide +kernel
  simp [Plain, Cell.val, e3]
  simpa using e

example : xmatch sampleD [.num 7, .num 2, .num 9, .num 2] (.num 5) true true = .pos 2 ∧
    xmatch sampleD [.num 7, .num 2, .num 9, .num 2] (.num 5) true false = .pos 4 ∧
    xmatch sampleD [.num 7, .num 2, .num 9, .num 2] (.num 5) false true = .pos 1 ∧
    xlookup sampleD [.num 2, .num 2, .num 7, .num 9] (.num 5) true = .pos 1 := by decide +kernel

/-- **The index finds a whole number typed with a rounding error**: within the tolerance
of the comparison, the keys are the same. -/
theorem index_near_integer (E : Env) (r : ℤ) (q : ℚ) (rest : List V) (hq : near q r = true)
    (he : V.err ∉ rest) : findIndex E (.num r :: rest) (.num q) = some (some 0) := by
  have key : ∀ x : ℚ, near x r = true → normal x = r := by
    intro x hx
    have hx' : |x - r| < 1 / 10 ^ 12 := by simpa [near] using hx
    rw [abs_lt] at hx'
    have hfl : (x + 1 / 2).floor = r := by
      have h1 : ((r : ℚ)) ≤ x + 1 / 2 := by
        have : (1 : ℚ) / 10 ^ 12 < 1 / 2 := by norm_num
        linarith [hx'.1]
      have h2 : x + 1 / 2 < (r : ℚ) + 1 := by
        have : (1 : ℚ) / 10 ^ 12 < 1 / 2 := by norm_num
        linarith [hx'.2]
      have g1 := Rat.le_floor_iff.2 h1
      have g2 : (x + 1 / 2).floor < r + 1 := Rat.floor_lt_iff.2 (by push_cast; exact h2)
      omega
    simp only [normal, hfl, hx, if_true]
  have h0 : hashKey E (.num q) = some (.number r) := by simp [hashKey, key q hq]
  have h1 : hashKey E (.num (r : ℚ)) = some (.number r) := by simp [hashKey, key r (near_self _)]
  have h2 : cmpL E (.num q) (.num (r : ℚ)) = some .eq := by simp [cmpL, toF, hq]
  unfold findIndex
  rw [if_neg (by simp [he]), h0]
  simp only [List.length_cons, List.range_succ_eq_map, List.filter_cons, List.getD_cons_zero, h1,
    decide_true, if_true, List.find?_cons, h2]

example : near (3 - 1 / 10 ^ 13) ((3 : ℤ) : ℚ) = true ∧
    findIndex sampleD [.num ((3 : ℤ) : ℚ), .num 5] (.num (3 - 1 / 10 ^ 13)) = some (some 0) := by
  refine ⟨by decide +kernel, by decide +kernel⟩

theorem xlookupLoop_stops (E : Env) (values : List V) (needle : V) (smaller : Bool) (k n : Nat)
    (hk : i ≤ k) (hn : k + 1 < i + n)
    (hne : ∀ j, i ≤ j → j ≤ k → cmpL E (values.getD j .empty) needle ≠ some .eq)
    (hc : cmpL E (values.getD k .empty) (values.getD (k + 1) .empty) = none) (prev : Option V)
    (best : Option (Nat × ℚ)) :
    xlookupLoop E values needle smaller (List.range' i n) prev best = none := by
  induction n generalizing i prev best with
  | zero => omega
  | succ n ih =>
    rw [List.range'_succ]
    unfold xlookupLoop
    dsimp only
    split
    · rfl
    · rw [if_neg (hne i (by omega) hk)]
      have next : ∀ best', xlookupLoop E values needle smaller (List.range' (i + 1) n)
          (some (values.getD i .empty)) best' = none := by
        intro best'
        by_cases e : i = k
        · subst e
          obtain ⟨m, rfl⟩ : ∃ m, n = m + 1 := ⟨n - 1, by omega⟩
          rw [List.range'_succ]
          unfold xlookupLoop
          dsimp only
          rw [if_pos (by simp only [inOrder, hc])]
        · exact ih (by omega) (by omega) (fun j h1 h2 => hne j (by omega) h2) _ _
      split
      · split <;> exact next _
      · exact next _

/-- **`XLOOKUP` for the next smaller or larger gives up at two neighbours it cannot
compare** (a number and a text, say), unless it met an equal entry before. -/
theorem xlookup_incomparable (E : Env) (values : List V) (needle : V) (smaller : Bool) (k : Nat)
    (hk : k + 1 < values.length)
    (hne : ∀ j, j ≤ k → cmpL E (values.getD j .empty) needle ≠ some .eq)
    (hc : cmpL E (values.getD k .empty) (values.getD (k + 1) .empty) = none) :
    xlookup E values needle smaller = .na := by
  unfold xlookup
  rw [List.range_eq_range', xlookupLoop_stops E values needle smaller k values.length (by omega)
    (by omega) (fun j _ h => hne j h) hc]

example : xlookup sampleD [.num 1, .text "x".toList, .num 4] (.num 5) true = .na ∧
    cmpL sampleD (.num 1) (.text "x".toList) = none := by decide +kernel

/-- **The same values are found at different places in an array and in a range**: in
a range a blank is only taken for zero when there is no zero; numbers written as
texts, and booleans, equal numbers only in an array. -/
theorem exact_array_range_wrong :
    findArray sampleD [.empty, .num 0] (.num 0) false = some 0 ∧
    findView sampleD [.loaded .empty, .loaded (.num 0)] (.num 0) false = some 1 ∧
    findArray sampleD [.text "10".toList] (.num 10) false = some 0 ∧
    findView sampleD [.loaded (.text "10".toList)] (.num 10) false = none ∧
    findArray sampleD [.bool true] (.num 1) false = some 0 ∧
    findView sampleD [.loaded (.bool true)] (.num 1) false = none := by decide +kernel

/-- **A pattern finds numbers that were typed and not those that were loaded.** -/
theorem exact_wild_wrong :
    matchExact sample [.typed (.num 5)] (.text ['*']) 0 = some 0 ∧
    matchExact sample [.loaded (.num 5)] (.text ['*']) 0 = none := by decide +kernel

/-- **The answer changes after three lookups**: a number within the tolerance of the
one sought is found by the scan and not by the index. -/
theorem exact_cache_wrong :
    matchExact sampleD (List.replicate 64 (.loaded (.num (3 / 10 + 1 / 10 ^ 13)))) (.num (3 / 10)) 0 = some 0 ∧
    matchExact sampleD (List.replicate 64 (.loaded (.num (3 / 10 + 1 / 10 ^ 13)))) (.num (3 / 10)) 3 = none := by
  decide +kernel

/-- So the answer is not a function of values and needle. -/
theorem matchExact_calls_wrong :
    ¬ ∀ (cells : List Cell) (needle : V) (a b : Nat),
      matchExact sampleD cells needle a = matchExact sampleD cells needle b := by
  intro h
  have := h (List.replicate 64 (.loaded (.num (3 / 10 + 1 / 10 ^ 13)))) (.num (3 / 10)) 0 3
  rw [exact_cache_wrong.1, exact_cache_wrong.2] at this
  cases this

/-- **`XLOOKUP` is `#N/A` where `XMATCH` finds the next smaller number**, when the
numbers are not in ascending order. -/
theorem xlookup_unsorted_wrong :
    xlookup sampleD [.num 7, .num 2, .num 9] (.num 5) true = .na ∧
    xmatch sampleD [.num 7, .num 2, .num 9] (.num 5) true true = .pos 2 := by decide +kernel

/-- **No next smaller text is ever found**, even in order. -/
theorem xmatch_text_wrong :
    xmatch sampleD [.text ['a'], .text ['c']] (.text ['b']) true true = .na ∧
    xlookup sampleD [.text ['a'], .text ['c']] (.text ['b']) true = .na ∧
    matchRange sampleD [.text ['a'], .text ['c']] (.text ['b']) true = .pos 1 := by decide +kernel

/-- **A blank is the next smaller number**: it counts as zero, where `MATCH` passes it
over. -/
theorem xmatch_blank_wrong :
    xmatch sampleD [.empty, .num 9] (.num 5) true true = .pos 1 ∧
    matchRange sampleD [.empty, .num 9] (.num 5) true = .na := by decide +kernel

end Verif.Lookup
