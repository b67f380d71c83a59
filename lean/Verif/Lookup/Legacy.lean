import Mathlib.Tactic.Linarith
import Verif.Lookup.Match

/-!
# LOOKUP

Model of `/repo/crates/formualizer-eval/src/builtins/lookup/legacy.rs` 28-47
(`approx_match_ascending`) and 178-326 (`LookupFn::eval` and its helpers).  The values of a range or
an array are given; how a reference is resolved is not modelled.  Values and their comparison are
those of `Verif.Lookup.Match`.
-/

namespace Verif.Lookup

/-! ## Model -/

/-- The loop of `approx_match_ascending`, legacy.rs 38-45. -/
def bisectL (E : Env) (s : List V) (needle : V) : Nat → Nat → Nat → Nat
  | 0, lo, _ => lo
  | fuel + 1, lo, hi =>
    if lo < hi then
      match cmpL E (s.getD ((lo + hi) / 2) .empty) needle with
      | some .gt => bisectL E s needle fuel lo ((lo + hi) / 2)
      | some _ => bisectL E s needle fuel ((lo + hi) / 2 + 1) hi
      | none => bisectL E s needle fuel lo ((lo + hi) / 2)
    else lo

/-- `approx_match_ascending`, legacy.rs 28-47. -/
def approxL (E : Env) (s : List V) (needle : V) : Option Nat :=
  if s = [] then none
  else
    let lo := bisectL E s needle s.length 0 s.length
    if lo = 0 then none else some (lo - 1)

/-- `dims`, legacy.rs 295-299. -/
def dimsL (data : List (List V)) : Nat × Nat := (data.length, (data.head?.map List.length).getD 0)

/-- The first entry of every row, `r[0]`; `none` is the panic on an empty row. -/
def firsts (data : List (List V)) : Option (List V) := data.mapM List.head?

/-- `flatten_1d_vec` and `flatten_1d`, legacy.rs 303-318. -/
def flattenL (data : List (List V)) : Option (List V) :=
  if (dimsL data).1 = 1 then data.head?
  else if (dimsL data).2 = 1 then firsts data
  else some data.flatten

/-- `materialise_empty`, legacy.rs 321-326. -/
def zeroEmpty : V → V
  | .empty => .num 0
  | v => v

/-- What LOOKUP returns. -/
inductive Looked where
  | val (v : V)
  | na
  | panic
deriving DecidableEq, Repr

/-- `LookupFn::eval`, legacy.rs 178-263. -/
def lookupL (E : Env) (needle : V) (data : List (List V)) (result : Option (List (List V))) : Looked :=
  if needle = .err then .val .err
  else
    let rows := (dimsL data).1
    let cols := (dimsL data).2
    match result with
    | some res =>
      match flattenL data with
      | none => .panic
      | some s =>
        match approxL E s needle with
        | none => .na
        | some i =>
          match flattenL res with
          | none => .panic
          | some r => .val (zeroEmpty (r.getD i .empty))
    | none =>
      if rows = 1 ∧ cols = 1 then
        let v := (data.headD []).headD .empty
        match approxL E [v] needle with
        | none => .na
        | some _ => .val (zeroEmpty v)
      else if rows < cols then
        match approxL E (data.headD []) needle with
        | none => .na
        | some i => .val (zeroEmpty ((data.getD (rows - 1) []).getD i .empty))
      else
        match firsts data with
        | none => .panic
        | some s =>
          match approxL E s needle with
          | none => .na
          | some i => .val (zeroEmpty ((data.getD i []).getD (cols - 1) .empty))

/-! ## The bisection -/

/-- The entry compares with what is sought, and is not greater. -/
def Below (E : Env) (needle v : V) : Prop := ∃ c, cmpL E v needle = some c ∧ c ≠ .gt

theorem bisectL_spec (E : Env) (s : List V) (needle : V) (fuel lo hi : Nat) (hf : hi - lo ≤ fuel)
    (hle : lo ≤ hi) (hs : hi ≤ s.length)
    (hlo : lo = 0 ∨ Below E needle (s.getD (lo - 1) .empty))
    (hhi : hi = s.length ∨ ¬ Below E needle (s.getD hi .empty)) :
    let r := bisectL E s needle fuel lo hi
    r ≤ s.length ∧ (r = 0 ∨ Below E needle (s.getD (r - 1) .empty)) ∧
      (r = s.length ∨ ¬ Below E needle (s.getD r .empty)) := by
  induction fuel generalizing lo hi with
  | zero =>
    have : lo = hi := by omega
    subst this
    exact ⟨hs, hlo, hhi⟩
  | succ fuel ih =>
    simp only [bisectL]
    by_cases h : lo < hi
    · rw [if_pos h]
      have hm : (lo + hi) / 2 < hi := by omega
      have hm' : lo ≤ (lo + hi) / 2 := by omega
      split
      · next hc =>
        exact ih lo _ (by omega) hm' (by omega) hlo (Or.inr (by
          rintro ⟨c, h1, h2⟩
          rw [hc] at h1
          exact h2 (Option.some.inj h1).symm))
      · next c hne hc =>
        exact ih _ hi (by omega) (by omega) hs (Or.inr (by
          rw [Nat.add_sub_cancel]
          exact ⟨c, hc, fun h => hne h⟩)) hhi
      · next hc =>
        exact ih lo _ (by omega) hm' (by omega) hlo (Or.inr (by
          rintro ⟨c, h1, _⟩
          rw [hc] at h1
          cases h1))
    · rw [if_neg h]
      have : lo = hi := by omega
      subst this
      exact ⟨hs, hlo, hhi⟩

/-- **C117.** Whatever the vector, in order or not: the place found holds an entry not above what is
sought, and the entry after it is above it or does not compare; nothing is found only if the vector
is empty or its first entry is above or does not compare. -/
theorem lookup_edge (E : Env) (s : List V) (needle : V) :
    (∀ i, approxL E s needle = some i → i < s.length ∧ Below E needle (s.getD i .empty) ∧
      (i + 1 = s.length ∨ ¬ Below E needle (s.getD (i + 1) .empty))) ∧
    (approxL E s needle = none → s = [] ∨ ¬ Below E needle (s.getD 0 .empty)) := by
  have key := bisectL_spec E s needle s.length 0 s.length (by omega) (by omega) le_rfl (Or.inl rfl)
    (Or.inl rfl)
  simp only at key
  unfold approxL
  by_cases he : s = []
  · simp [he]
  · rw [if_neg he]
    have hpos : 0 < s.length := List.length_pos_iff.mpr he
    simp only
    generalize bisectL E s needle s.length 0 s.length = r at key
    obtain ⟨h1, h2, h3⟩ := key
    by_cases hr : r = 0
    · rw [if_pos hr]
      subst hr
      refine ⟨fun i h => (by cases h), fun _ => Or.inr ?_⟩
      rcases h3 with h3 | h3
      · omega
      · exact h3
    · rw [if_neg hr]
      refine ⟨fun i h => ?_, fun h => by cases h⟩
      obtain rfl := Option.some.inj h
      refine ⟨by omega, h2.resolve_left hr, ?_⟩
      rw [Nat.sub_add_cancel (by omega)]
      exact h3

/-- If an entry below what is sought has only such entries before it, the last of them is found. -/
theorem approx_last (E : Env) (s : List V) (needle : V)
    (hd : ∀ i j, i < j → j < s.length → Below E needle (s.getD j .empty) →
      Below E needle (s.getD i .empty)) :
    (∀ i, approxL E s needle = some i ↔ i < s.length ∧ Below E needle (s.getD i .empty) ∧
      ∀ j, i < j → j < s.length → ¬ Below E needle (s.getD j .empty)) ∧
    (approxL E s needle = none ↔ ∀ j, j < s.length → ¬ Below E needle (s.getD j .empty)) := by
  obtain ⟨h1, h2⟩ := lookup_edge E s needle
  have some_last : ∀ i, approxL E s needle = some i → i < s.length ∧
      Below E needle (s.getD i .empty) ∧
      ∀ j, i < j → j < s.length → ¬ Below E needle (s.getD j .empty) := by
    intro i hi
    obtain ⟨a, b, c⟩ := h1 i hi
    refine ⟨a, b, fun j hij hj hb => ?_⟩
    rcases c with c | c
    · omega
    · rcases Nat.lt_or_ge (i + 1) j with h | h
      · exact c (hd (i + 1) j h hj hb)
      · have : j = i + 1 := by omega
        subst this
        exact c hb
  have none_all : approxL E s needle = none →
      ∀ j, j < s.length → ¬ Below E needle (s.getD j .empty) := by
    intro hn j hj hb
    rcases h2 hn with h | h
    · subst h; simp at hj
    · rcases Nat.eq_zero_or_pos j with h0 | h0
      · subst h0; exact h hb
      · exact h (hd 0 j h0 hj hb)
  refine ⟨fun i => ⟨some_last i, fun ⟨a, b, c⟩ => ?_⟩, none_all, fun h => ?_⟩
  · cases hc : approxL E s needle with
    | none => exact absurd b (none_all hc i a)
    | some k =>
      obtain ⟨a', b', c'⟩ := some_last k hc
      rcases Nat.lt_trichotomy i k with h | h | h
      · exact absurd b' (c k h a')
      · rw [h]
      · exact absurd b (c' i h a)
  · cases hc : approxL E s needle with
    | none => rfl
    | some k =>
      obtain ⟨a', b', _⟩ := some_last k hc
      exact absurd b' (h k a')

theorem below_number (E : Env) (v : V) (x q : ℚ) (hv : toF E v = some x) :
    Below E (.num q) v ↔ x < q + 1 / 10 ^ 12 := by
  unfold Below cmpL
  rw [hv]
  simp only [toF, near, Option.some.injEq]
  constructor
  · rintro ⟨c, rfl, hc⟩
    by_cases h : |x - q| < 1 / 10 ^ 12
    · have := (abs_lt.mp h).2
      linarith
    · simp only [h, decide_false, Bool.false_eq_true, if_false] at hc
      by_cases h' : x < q
      · have : (0 : ℚ) < 1 / 10 ^ 12 := by norm_num
        linarith
      · simp [h'] at hc
  · intro h
    refine ⟨_, rfl, ?_⟩
    by_cases h0 : |x - q| < 1 / 10 ^ 12
    · simp only [h0, decide_true, if_true]
      decide
    · have hlt : x < q := by
        by_contra hn
        exact h0 (abs_lt.mpr ⟨by
          have : (0 : ℚ) < 1 / 10 ^ 12 := by norm_num
          linarith, by linarith⟩)
      simp only [h0, hlt, decide_false, Bool.false_eq_true, if_false, if_true]
      decide

/-- **C117.** In numbers that never fall, the place found is the last one whose number is not above
the one sought, up to the tolerance of `10 ^ -12`; nothing is found exactly if all are above it. -/
theorem lookup_numbers (E : Env) (s : List V) (q : ℚ) (x : Nat → ℚ)
    (hx : ∀ i, i < s.length → toF E (s.getD i .empty) = some (x i))
    (hs : ∀ i j, i < j → j < s.length → x i ≤ x j) :
    (∀ i, approxL E s (.num q) = some i ↔ i < s.length ∧ x i < q + 1 / 10 ^ 12 ∧
      ∀ j, i < j → j < s.length → q + 1 / 10 ^ 12 ≤ x j) ∧
    (approxL E s (.num q) = none ↔ ∀ j, j < s.length → q + 1 / 10 ^ 12 ≤ x j) := by
  have hb : ∀ i, i < s.length → (Below E (.num q) (s.getD i .empty) ↔ x i < q + 1 / 10 ^ 12) :=
    fun i hi => below_number E _ _ q (hx i hi)
  obtain ⟨h1, h2⟩ := approx_last E s (.num q) (by
    intro i j hij hj h
    rw [hb i (by omega)]
    rw [hb j hj] at h
    exact lt_of_le_of_lt (hs i j hij hj) h)
  constructor
  · intro i
    rw [h1]
    constructor
    · rintro ⟨a, b, c⟩
      exact ⟨a, (hb i a).mp b, fun j hij hj => not_lt.mp fun h => c j hij hj ((hb j hj).mpr h)⟩
    · rintro ⟨a, b, c⟩
      exact ⟨a, (hb i a).mpr b, fun j hij hj h => absurd ((hb j hj).mp h) (not_lt.mpr (c j hij hj))⟩
  · rw [h2]
    exact ⟨fun h j hj => not_lt.mp fun h' => h j hj ((hb j hj).mpr h'),
      fun h j hj h' => absurd ((hb j hj).mp h') (not_lt.mpr (h j hj))⟩

theorem below_text (E : Env) (t u : List Char) (hp : E.parseF t = none) :
    Below E (.text t) (.text u) ↔ E.fold u ≤ E.fold t := by
  have hc : cmpL E (.text u) (.text t) = some (ord (E.fold u) (E.fold t)) := by
    unfold cmpL
    simp only [toF, hp]
    cases E.parseF u <;> rfl
  unfold Below
  rw [hc]
  constructor
  · rintro ⟨c, h, hne⟩
    obtain rfl := Option.some.inj h
    exact not_lt.mp fun h => hne (ord_gt.mpr h)
  · intro h
    exact ⟨_, rfl, fun hg => absurd (ord_gt.mp hg) (not_lt.mpr h)⟩

/-- **C117.** In texts that never fall, letters' case aside, a text that is not a number is found at
the last place whose text is not after it. -/
theorem lookup_texts (E : Env) (u : List (List Char)) (t : List Char) (hp : E.parseF t = none)
    (hs : ∀ i j, i < j → j < u.length → E.fold (u.getD i []) ≤ E.fold (u.getD j [])) :
    (∀ i, approxL E (u.map .text) (.text t) = some i ↔ i < u.length ∧
      E.fold (u.getD i []) ≤ E.fold t ∧
      ∀ j, i < j → j < u.length → E.fold t < E.fold (u.getD j [])) ∧
    (approxL E (u.map .text) (.text t) = none ↔
      ∀ j, j < u.length → E.fold t < E.fold (u.getD j [])) := by
  have hb : ∀ i, i < u.length → (Below E (.text t) ((u.map V.text).getD i .empty) ↔
      E.fold (u.getD i []) ≤ E.fold t) := by
    intro i hi
    have : (u.map V.text).getD i .empty = .text (u.getD i []) := by
      simp [List.getD_eq_getElem?_getD, hi]
    rw [this]
    exact below_text E t _ hp
  obtain ⟨h1, h2⟩ := approx_last E (u.map .text) (.text t) (by
    intro i j hij hj h
    rw [List.length_map] at hj
    rw [hb i (by omega)]
    rw [hb j hj] at h
    exact le_trans (hs i j hij hj) h)
  simp only [List.length_map] at h1 h2
  constructor
  · intro i
    rw [h1]
    constructor
    · rintro ⟨a, b, c⟩
      exact ⟨a, (hb i a).mp b, fun j hij hj => not_le.mp fun h => c j hij hj ((hb j hj).mpr h)⟩
    · rintro ⟨a, b, c⟩
      exact ⟨a, (hb i a).mpr b, fun j hij hj h => absurd ((hb j hj).mp h) (not_le.mpr (c j hij hj))⟩
  · rw [h2]
    exact ⟨fun h j hj => not_le.mp fun h' => h j hj ((hb j hj).mpr h'),
      fun h j hj h' => absurd ((hb j hj).mp h') (not_le.mpr (h j hj))⟩

/-! ## The two forms -/

theorem firsts_map (l : List V) : firsts (l.map fun v => [v]) = some l := by
  unfold firsts
  induction l with
  | nil => rfl
  | cons v l ih => simp [ih]

theorem flatten_row (l : List V) : flattenL [l] = some l := rfl

theorem flatten_column (l : List V) : flattenL (l.map fun v => [v]) = some l := by
  unfold flattenL dimsL
  match l with
  | [] => rfl
  | [v] => rfl
  | v :: w :: l =>
    have h := firsts_map (v :: w :: l)
    simp only [List.map_cons] at h
    simp [h]

/-- A row or a column. -/
inductive Line (l : List V) : List (List V) → Prop
  | row : Line l [l]
  | column : Line l (l.map fun v => [v])

/-- **C117.** With a row or a column to search and a row or a column of results, in any combination,
LOOKUP gives the result at the place found, 0 for a blank one. -/
theorem lookup_vector (E : Env) (needle : V) (hn : needle ≠ .err) (s r : List V)
    (data res : List (List V)) (hd : Line s data) (hr : Line r res) :
    lookupL E needle data (some res) = match approxL E s needle with
      | none => .na
      | some i => .val (if r.getD i .empty = .empty then .num 0 else r.getD i .empty) := by
  have h1 : flattenL data = some s := by cases hd <;> [exact flatten_row _; exact flatten_column _]
  have h2 : flattenL res = some r := by cases hr <;> [exact flatten_row _; exact flatten_column _]
  unfold lookupL
  rw [if_neg hn]
  simp only [h1, h2]
  cases approxL E s needle with
  | none => rfl
  | some i =>
    simp only
    cases r.getD i .empty <;> rfl

theorem firsts_rect (data : List (List V)) (w : Nat) (hw : 0 < w) (h : ∀ r ∈ data, r.length = w) :
    firsts data = some (data.map fun r => r.getD 0 .empty) := by
  unfold firsts
  induction data with
  | nil => rfl
  | cons r data ih =>
    have hr : r.length = w := h r (List.mem_cons_self ..)
    cases r with
    | nil => simp at hr; omega
    | cons v r => simp [ih fun r hr => h r (List.mem_cons_of_mem _ hr)]

/-- **C117.** On an array LOOKUP never panics.  If it is wider than tall the first row is searched
and the answer is in the last row, otherwise the first column and the last column. -/
theorem lookup_array (E : Env) (needle : V) (hn : needle ≠ .err) (data : List (List V)) (h w : Nat)
    (hh : data.length = h) (h0 : 0 < h) (hw : 0 < w) (hr : ∀ r ∈ data, r.length = w) :
    lookupL E needle data none =
      if h < w then
        match approxL E (data.getD 0 []) needle with
        | none => .na
        | some j => .val (zeroEmpty ((data.getD (h - 1) []).getD j .empty))
      else
        match approxL E (data.map fun r => r.getD 0 .empty) needle with
        | none => .na
        | some i => .val (zeroEmpty ((data.getD i []).getD (w - 1) .empty)) := by
  have hdims : dimsL data = (h, w) := by
    unfold dimsL
    cases data with
    | nil => simp at hh; omega
    | cons r data => simp [← hh, hr r (List.mem_cons_self ..)]
  have hhead : data.headD [] = data.getD 0 [] := by cases data <;> rfl
  unfold lookupL
  rw [if_neg hn]
  simp only [hdims]
  by_cases h1 : h = 1 ∧ w = 1
  · obtain ⟨rfl, rfl⟩ := h1
    rw [if_pos ⟨rfl, rfl⟩, if_neg (by omega)]
    match data, hh with
    | [r], _ =>
      have hl := hr r (List.mem_cons_self ..)
      match r, hl with
      | [v], _ =>
        simp only [List.headD_cons, List.map_cons, List.map_nil, List.getD_cons_zero]
        cases hc : approxL E [v] needle with
        | none => rfl
        | some i =>
          have hi := ((lookup_edge E [v] needle).1 i hc).1
          simp only [List.length_cons, List.length_nil] at hi
          have : i = 0 := by omega
          subst this
          rfl
  · rw [if_neg h1]
    by_cases h2 : h < w
    · rw [if_pos h2, if_pos h2, hhead]
    · rw [if_neg h2, if_neg h2, firsts_rect data w hw hr]

/-! ## What fails -/

/-- **C117, refuted.** Entries that do not compare are not passed over as MATCH passes them over: the
last entry that is not an error, sought with `LOOKUP(2, 1/(...))`, is not found behind errors. -/
theorem lookup_errors_fail (E : Env) :
    lookupL E (.num 2) [[.err], [.err], [.num 1]] none = .na ∧
      matchArray E [.err, .err, .num 1] (.num 2) true = .pos 3 := by
  constructor
  · rfl
  · have h1 : cmpL E (.num 1) (.num 2) = some .lt := by
      simp only [cmpL, toF]
      rw [show near 1 2 = false by decide +kernel]
      simp
    have h2 : cmpL E .err (.num 2) = none := rfl
    simp [matchArray, Searched.new, searchable, h1, h2, searchSearched, Searched.len, Searched.get,
      Searched.orig, bisect, answer, List.findIdx?_cons, List.range'_succ]

/-- **C117, refuted.** Blanks at the end count as 0: a number is found in the blank behind the
numbers, where MATCH finds the last number. -/
theorem lookup_blanks_fail (E : Env) :
    lookupL E (.num 5) [[.num 1], [.num 2], [.empty]] none = .val (.num 0) ∧
      matchArray E [.num 1, .num 2, .empty] (.num 5) true = .pos 2 := by
  have h1 : cmpL E (.num 1) (.num 5) = some .lt := by
    simp only [cmpL, toF]
    rw [show near 1 5 = false by decide +kernel]
    simp
  have h2 : cmpL E (.num 2) (.num 5) = some .lt := by
    simp only [cmpL, toF]
    rw [show near 2 5 = false by decide +kernel]
    simp
    norm_num
  have h3 : cmpL E .empty (.num 5) = some .lt := by
    simp only [cmpL, toF]
    rw [show near 0 5 = false by decide +kernel]
    simp
  constructor
  · simp [lookupL, dimsL, firsts, approxL, bisectL, h2, h3, zeroEmpty]
  · simp [matchArray, Searched.new, searchable, h1, h2, h3, searchSearched, Searched.len,
      Searched.get, Searched.orig, bisect, answer, List.findIdx?_cons]

/-- **C117, refuted.** A result vector that ends before the place found gives 0, not an error. -/
theorem lookup_short_fails (E : Env) (q : ℚ) (r : V) :
    lookupL E (.num q) [[.num q, .num q]] (some [[r]]) = .val (.num 0) := by
  rw [lookup_vector E (.num q) (by simp) [.num q, .num q] [r] _ _ .row .row]
  have h : cmpL E (.num q) (.num q) = some .eq := by simp [cmpL, toF, near_self]
  simp [approxL, bisectL, h]

example : lookupL sampleD (.num 7) [[.num 1, .num 5, .num 9]] (some [[.text ['a']], [.text ['b']], [.text ['c']]])
      = .val (.text ['b']) ∧
    lookupL sampleD (.text ['C']) [[.text ['a'], .num 1], [.text ['B'], .num 2], [.text ['d'], .num 3]] none
      = .val (.num 2) ∧
    lookupL sampleD (.num 0) [[.num 1, .num 5, .num 9]] none = .na ∧
    lookupL sampleD (.num 6) [[.num 1, .num 5, .num 9], [.num 10, .num 50, .num 90]] none
      = .val (.num 50) := by decide +kernel

end Verif.Lookup
