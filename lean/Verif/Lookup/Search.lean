import Verif.Lookup.Wild

/-!
# `FIND` and `SEARCH`

Model of `/repo/crates/formualizer-eval/src/builtins/text/find_search_exact.rs`
60-105 (`FindFn::eval`), 185-246 (`SearchFn::eval`), 248-271 (`char_find`),
273-283 (`char_wildcard_search`) and 285-295 (`wildcard_match_chars`). The
arguments are the texts and the start number after coercion; `to_ascii_lowercase`
is `Char.toLower` on every character, which folds A to Z only.
-/

namespace Verif.Lookup

/-! ## Model -/

/-- What the two functions return. -/
inductive Found where
  | pos (n : Nat)
  | valueError
deriving DecidableEq, Repr

/-- The `while` loop of `char_find`, lines 262-269. `fuel` counts the places left. -/
def charFindFrom (hay needle : List Char) (last : Nat) : Nat → Nat → Option Nat
  | 0, _ => none
  | fuel + 1, i =>
    if i ≤ last then
      if (hay.drop i).take needle.length = needle then some i
      else charFindFrom hay needle last fuel (i + 1)
    else none

/-- `char_find`, lines 251-271. -/
def charFind (hay needle : List Char) (start : Nat) : Option Nat :=
  if needle = [] then some (min start hay.length)
  else if needle.length > hay.length ∨ start > hay.length then none
  else charFindFrom hay needle (hay.length - needle.length) (hay.length + 1) start

/-- `wildcard_match_chars`, lines 285-295: the pattern against a beginning of the
text. -/
def wildcardMatchChars : List Char → List Char → Bool
  | [], _ => true
  | '*' :: p, t => (List.range (t.length + 1)).any fun i => wildcardMatchChars p (t.drop i)
  | '?' :: p, t => match t with
    | [] => false
    | _ :: t => wildcardMatchChars p t
  | c :: p, t => match t with
    | [] => false
    | d :: t => d = c && wildcardMatchChars p t

/-- `char_wildcard_search`, lines 274-283. -/
def charWildcardSearch (pat hay : List Char) : Nat → Nat → Option Nat
  | 0, _ => none
  | fuel + 1, i =>
    if i ≤ hay.length then
      if wildcardMatchChars pat (hay.drop i) then some i
      else charWildcardSearch pat hay fuel (i + 1)
    else none

/-- The number of a found place as a cell value, lines 99-104 and 239-246. -/
def foundOf : Option Nat → Found
  | some i => .pos (i + 1)
  | none => .valueError

/-- `start` from the third argument, lines 80-90 and 206-218: below one is an
error. -/
def startOf : Option Int → Option Nat
  | none => some 0
  | some n => if n < 1 then none else some (n - 1).toNat

/-- `FindFn::eval`, lines 64-105. -/
def findFn (needle hay : List Char) (num : Option Int) : Found :=
  match startOf num with
  | none => .valueError
  | some start =>
    if needle = [] then .pos 1
    else foundOf (charFind hay needle start)

/-- `SearchFn::eval`, lines 190-246. -/
def searchFn (needle hay : List Char) (num : Option Int) : Found :=
  let needle := needle.map Char.toLower
  let hay := hay.map Char.toLower
  match startOf num with
  | none => .valueError
  | some start =>
    if needle = [] then .pos 1
    else if start > hay.length then .valueError
    else if '*' ∈ needle ∨ '?' ∈ needle then
      foundOf (charWildcardSearch needle hay (hay.length + 1) start)
    else foundOf (charFind hay needle start)

/-! ## Specification -/

/-- The requests are met by a stretch of the text beginning right here. -/
def Occurs (is : List Item) (t : List Char) : Prop := ∃ a b, t = a ++ b ∧ Fits is a

/-- Place `n` (counted from one) is the first, from place `from_` on, where the
requests are met. -/
def FirstAt (is : List Item) (t : List Char) (from_ n : Nat) : Prop :=
  from_ ≤ n ∧ 1 ≤ n ∧ n ≤ t.length + 1 ∧ Occurs is (t.drop (n - 1)) ∧
    ∀ m, from_ ≤ m → 1 ≤ m → m < n → ¬ Occurs is (t.drop (m - 1))

/-- The answer is the first place where the requests are met, and the error when
there is none. -/
def Answers (is : List Item) (t : List Char) (from_ : Nat) (r : Found) : Prop :=
  (∀ n, r = .pos n ↔ FirstAt is t from_ n) ∧
    (r = .valueError ↔ ∀ n, ¬ FirstAt is t from_ n)

/-- Patterns without an escape. -/
def readPlain : List Char → List Item
  | [] => []
  | '*' :: cs => .any :: readPlain cs
  | '?' :: cs => .one :: readPlain cs
  | c :: cs => .is c :: readPlain cs

/-! ## Proofs -/

theorem read_eq_readPlain {p : List Char} (h : '~' ∉ p) : read p = readPlain p := by
  induction p using read.induct with
  | case1 => rfl
  | case2 => simp at h
  | case3 => simp at h
  | case4 cs ih => rw [read, readPlain, ih (fun hm => h (by simp [hm]))]
  | case5 cs ih => rw [read, readPlain, ih (fun hm => h (by simp [hm]))]
  | case6 c cs h1 h2 h3 h4 ih =>
    rw [read, readPlain, ih (fun hm => h (by simp [hm]))]
    all_goals first | exact h1 | exact h2 | exact h3 | exact h4

theorem readPlain_lit {p : List Char} (h1 : '*' ∉ p) (h2 : '?' ∉ p) :
    readPlain p = p.map .is := by
  induction p with
  | nil => rfl
  | cons c p ih =>
    simp only [List.mem_cons, not_or] at h1 h2
    rw [readPlain, ih h1.2 h2.2, List.map_cons]
    · exact fun h => h1.1 h.symm
    · exact fun h => h2.1 h.symm

theorem occurs_nil (t : List Char) : Occurs [] t := ⟨[], t, rfl, .nil⟩

theorem occurs_any {is : List Item} {t : List Char} :
    Occurs (.any :: is) t ↔ ∃ k, k ≤ t.length ∧ Occurs is (t.drop k) := by
  constructor
  · rintro ⟨a, b, rfl, h⟩
    obtain ⟨k, hk, hf⟩ := fits_any.1 h
    exact ⟨k, by simp; omega, a.drop k, b, by rw [List.drop_append_of_le_length hk], hf⟩
  · rintro ⟨k, hk, a, b, he, h⟩
    refine ⟨t.take k ++ a, b, ?_, fits_any.2 ⟨k, by simp; omega, ?_⟩⟩
    · rw [List.append_assoc, ← he, List.take_append_drop]
    · rw [List.drop_append_of_le_length (by simp; omega)]
      rw [List.drop_eq_nil_of_le (by rw [List.length_take]; omega)]
      simpa using h

theorem occurs_one {is : List Item} {t : List Char} :
    Occurs (.one :: is) t ↔ ∃ d t', t = d :: t' ∧ Occurs is t' := by
  constructor
  · rintro ⟨a, b, rfl, h⟩
    cases h with
    | one c h => exact ⟨c, _, rfl, _, b, rfl, h⟩
  · rintro ⟨d, t', rfl, a, b, rfl, h⟩
    exact ⟨d :: a, b, rfl, .one d h⟩

theorem occurs_is {c : Char} {is : List Item} {t : List Char} :
    Occurs (.is c :: is) t ↔ ∃ t', t = c :: t' ∧ Occurs is t' := by
  constructor
  · rintro ⟨a, b, rfl, h⟩
    cases h with
    | is c h => exact ⟨_, rfl, _, b, rfl, h⟩
  · rintro ⟨t', rfl, a, b, rfl, h⟩
    exact ⟨c :: a, b, rfl, .is c h⟩

theorem occurs_lit {l : List Char} {t : List Char} :
    Occurs (l.map .is) t ↔ t.take l.length = l := by
  have h0 : ∀ a, Fits (l.map .is) a ↔ a = l := by
    intro a
    have := fits_lit (l := l) (is := []) (t := a)
    rw [List.append_nil] at this
    rw [this]
    simp [fits_nil]
  unfold Occurs
  simp only [h0]
  constructor
  · rintro ⟨a, b, rfl, rfl⟩; simp
  · intro h; exact ⟨l, t.drop l.length, by
      have := List.take_append_drop l.length t
      rw [h] at this; exact this.symm, rfl⟩

theorem wildcardMatchChars_iff (p t : List Char) :
    wildcardMatchChars p t = true ↔ Occurs (readPlain p) t := by
  induction p, t using wildcardMatchChars.induct with
  | case1 t => simp [wildcardMatchChars, readPlain, occurs_nil]
  | case2 t p ih =>
    rw [wildcardMatchChars, readPlain, occurs_any]
    simp only [List.any_eq_true, List.mem_range, ih]
    constructor
    · rintro ⟨k, hk, h⟩; exact ⟨k, by omega, h⟩
    · rintro ⟨k, hk, h⟩; exact ⟨k, by omega, h⟩
  | case3 p =>
    rw [wildcardMatchChars, readPlain, occurs_one]; simp
  | case4 p d t ih =>
    rw [wildcardMatchChars, readPlain, occurs_one]; simp [ih]
  | case5 c p h1 h2 =>
    rw [wildcardMatchChars, readPlain, occurs_is]
    · simp
    all_goals first | exact h1 | exact h2
  | case6 c p h1 h2 d t ih =>
    rw [wildcardMatchChars, readPlain, occurs_is]
    · simp [ih]
    all_goals first | exact h1 | exact h2

theorem charFindFrom_iff {hay needle : List Char} {last : Nat} (fuel i : Nat)
    (hf : last + 1 ≤ i + fuel) (n : Nat) :
    charFindFrom hay needle last fuel i = some n ↔
      i ≤ n ∧ n ≤ last ∧ (hay.drop n).take needle.length = needle ∧
        ∀ m, i ≤ m → m < n → (hay.drop m).take needle.length ≠ needle := by
  induction fuel generalizing i with
  | zero =>
    simp only [charFindFrom, reduceCtorEq, false_iff]
    rintro ⟨h1, h2, _⟩; omega
  | succ fuel ih =>
    unfold charFindFrom
    split
    · next hi =>
      split
      · next he =>
        constructor
        · intro h; cases h
          exact ⟨by omega, hi, he, fun m h1 h2 => by omega⟩
        · rintro ⟨h1, h2, h3, h4⟩
          by_cases h5 : i = n
          · rw [h5]
          · exact absurd he (h4 i (Nat.le_refl _) (by omega))
      · next he =>
        rw [ih (i + 1) (by omega)]
        constructor
        · rintro ⟨h1, h2, h3, h4⟩
          refine ⟨by omega, h2, h3, fun m hm1 hm2 => ?_⟩
          by_cases h5 : m = i
          · rw [h5]; exact he
          · exact h4 m (by omega) hm2
        · rintro ⟨h1, h2, h3, h4⟩
          refine ⟨?_, h2, h3, fun m hm1 hm2 => h4 m (by omega) hm2⟩
          by_cases h5 : i = n
          · rw [h5] at he; exact absurd h3 he
          · omega
    · next hi =>
      simp only [reduceCtorEq, false_iff]
      rintro ⟨h1, h2, _⟩; omega

theorem charWildcardSearch_iff {pat hay : List Char} (fuel i : Nat)
    (hf : hay.length + 1 ≤ i + fuel) (n : Nat) :
    charWildcardSearch pat hay fuel i = some n ↔
      i ≤ n ∧ n ≤ hay.length ∧ Occurs (readPlain pat) (hay.drop n) ∧
        ∀ m, i ≤ m → m < n → ¬ Occurs (readPlain pat) (hay.drop m) := by
  induction fuel generalizing i with
  | zero =>
    simp only [charWildcardSearch, reduceCtorEq, false_iff]
    rintro ⟨h1, h2, _⟩; omega
  | succ fuel ih =>
    unfold charWildcardSearch
    split
    · next hi =>
      split
      · next he =>
        rw [wildcardMatchChars_iff] at he
        constructor
        · intro h; cases h
          exact ⟨by omega, hi, he, fun m h1 h2 => by omega⟩
        · rintro ⟨h1, h2, h3, h4⟩
          by_cases h5 : i = n
          · rw [h5]
          · exact absurd he (h4 i (Nat.le_refl _) (by omega))
      · next he =>
        rw [wildcardMatchChars_iff] at he
        rw [ih (i + 1) (by omega)]
        constructor
        · rintro ⟨h1, h2, h3, h4⟩
          refine ⟨by omega, h2, h3, fun m hm1 hm2 => ?_⟩
          by_cases h5 : m = i
          · rw [h5]; exact he
          · exact h4 m (by omega) hm2
        · rintro ⟨h1, h2, h3, h4⟩
          refine ⟨?_, h2, h3, fun m hm1 hm2 => h4 m (by omega) hm2⟩
          by_cases h5 : i = n
          · rw [h5] at he; exact absurd h3 he
          · omega
    · next hi =>
      simp only [reduceCtorEq, false_iff]
      rintro ⟨h1, h2, _⟩; omega

/-- From a statement about zero-based places to one about answers. -/
theorem answers_of {is : List Item} {t : List Char} {start : Nat} {o : Option Nat}
    (h : ∀ n, o = some n ↔ start ≤ n ∧ n ≤ t.length ∧ Occurs is (t.drop n) ∧
      ∀ m, start ≤ m → m < n → ¬ Occurs is (t.drop m)) :
    Answers is t (start + 1) (foundOf o) := by
  have key : ∀ n, foundOf o = .pos n ↔ FirstAt is t (start + 1) n := by
    intro n
    have e : foundOf o = .pos n ↔ 1 ≤ n ∧ o = some (n - 1) := by
      cases o with
      | none => simp [foundOf]
      | some i =>
        simp only [foundOf, Found.pos.injEq, Option.some.injEq]
        constructor
        · intro h; subst h; exact ⟨by omega, by omega⟩
        · rintro ⟨h1, h2⟩; omega
    rw [e, h]
    unfold FirstAt
    constructor
    · rintro ⟨h1, h2, h3, h4, h5⟩
      refine ⟨by omega, h1, by omega, h4, fun m hm1 hm2 hm3 => h5 (m - 1) (by omega) (by omega)⟩
    · rintro ⟨h1, h2, h3, h4, h5⟩
      refine ⟨h2, by omega, by omega, h4, fun m hm1 hm2 => ?_⟩
      have := h5 (m + 1) (by omega) (by omega) (by omega)
      simpa using this
  refine ⟨key, ?_⟩
  constructor
  · intro he n hn
    rw [(key n).2 hn] at he
    cases he
  · intro hn
    cases ho : foundOf o with
    | pos n => exact absurd ((key n).1 ho) (hn n)
    | valueError => rfl

theorem charFind_answers {hay needle : List Char} {start : Nat} (hne : needle ≠ []) :
    Answers (needle.map .is) hay (start + 1) (foundOf (charFind hay needle start)) := by
  apply answers_of
  intro n
  unfold charFind
  rw [if_neg hne]
  simp only [occurs_lit]
  have hlen : ∀ m, (hay.drop m).take needle.length = needle → m + needle.length ≤ hay.length := by
    intro m hm
    have h1 := congrArg List.length hm
    have h2 : needle.length ≠ 0 := by simpa using hne
    simp only [List.length_take, List.length_drop] at h1
    omega
  split
  · next hb =>
    simp only [reduceCtorEq, false_iff]
    rintro ⟨h1, h2, h3, _⟩
    have := hlen n h3
    omega
  · next hb =>
    rw [charFindFrom_iff _ _ (by omega)]
    constructor
    · rintro ⟨h1, h2, h3, h4⟩; exact ⟨h1, by omega, h3, h4⟩
    · rintro ⟨h1, h2, h3, h4⟩
      have := hlen n h3
      exact ⟨h1, by omega, h3, h4⟩

/-- The place to start from that the third argument names. -/
def fromPlace : Option Int → Nat
  | none => 1
  | some n => n.toNat

theorem startOf_from {num : Option Int} (h : ∀ n, num = some n → 1 ≤ n) :
    startOf num = some (fromPlace num - 1) ∧ 1 ≤ fromPlace num := by
  cases num with
  | none => simp [startOf, fromPlace]
  | some n =>
    have := h n rfl
    simp only [startOf, fromPlace]
    rw [if_neg (by omega)]
    constructor
    · congr 1; omega
    · omega

/-- **`FIND` finds the first occurrence.** For a text to find that is not empty
and a start from one up, the answer is the first place, at or after the start,
where the text occurs, and the error when there is none.

Partial: for an empty text to find the code answers 1 whatever the start, see
`find_empty_ignores_start`. -/
theorem find_correct_partial (needle hay : List Char) (num : Option Int) (hne : needle ≠ [])
    (hnum : ∀ n, num = some n → 1 ≤ n) :
    Answers (needle.map .is) hay (fromPlace num) (findFn needle hay num) := by
  obtain ⟨h1, h2⟩ := startOf_from hnum
  unfold findFn
  rw [h1]
  simp only [if_neg hne]
  have := charFind_answers (hay := hay) (start := fromPlace num - 1) hne
  rwa [show fromPlace num - 1 + 1 = fromPlace num by omega] at this

/-- **`SEARCH` finds the first place the pattern is met**, ignoring the case of the
letters A to Z, for patterns without an escape.

Partial: `~` is not treated as an escape (`search_escape_wrong`), letters beyond A
to Z are compared with their case (`search_case_wrong`), and for an empty text to
find the answer is 1 whatever the start (`search_empty_ignores_start`). -/
theorem search_correct_partial (needle hay : List Char) (num : Option Int) (hne : needle ≠ [])
    (hesc : '~' ∉ needle.map Char.toLower) (hnum : ∀ n, num = some n → 1 ≤ n) :
    Answers (read (needle.map Char.toLower)) (hay.map Char.toLower) (fromPlace num)
      (searchFn needle hay num) := by
  obtain ⟨h1, h2⟩ := startOf_from hnum
  unfold searchFn
  rw [h1, read_eq_readPlain hesc]
  have hne' : needle.map Char.toLower ≠ [] := by simpa using hne
  simp only [if_neg hne']
  generalize needle.map Char.toLower = nd at hne' hesc
  generalize hay.map Char.toLower = hy
  have e : fromPlace num = (fromPlace num - 1) + 1 := by omega
  generalize fromPlace num - 1 = st at e
  rw [e]
  by_cases hs : st > hy.length
  · rw [if_pos hs]
    refine answers_of (o := none) (start := st) (t := hy) ?_
    intro n
    simp only [reduceCtorEq, false_iff]
    rintro ⟨h3, h4, _⟩; omega
  · rw [if_neg hs]
    split
    · next hw =>
      apply answers_of
      intro n
      exact charWildcardSearch_iff _ _ (by omega) n
    · next hw =>
      simp only [not_or] at hw
      rw [readPlain_lit hw.1 hw.2]
      exact charFind_answers hne'

/-- A case meeting the hypotheses, with a star, a question mark, a start and a
letter in another case. -/
example : searchFn "B?d*".toList "abcdABXDz".toList (some 3) = .pos 6 ∧
    '~' ∉ "B?d*".toList.map Char.toLower := by decide +kernel

example : findFn "ana".toList "banana".toList (some 3) = .pos 4 ∧
    findFn "ana".toList "banana".toList (some 5) = .valueError := by decide +kernel

/-! ## What fails -/

/-- The pattern `~*` asks for a star; `SEARCH` looks for a tilde followed by
anything. So the answer is wrong both ways: a star is not found, and a tilde is. -/
theorem search_escape_wrong :
    ¬ ∀ needle hay : List Char, needle ≠ [] →
      Answers (read (needle.map Char.toLower)) (hay.map Char.toLower) 1 (searchFn needle hay none) := by
  intro h
  have h1 := (h "~*".toList "a*b".toList (by decide)).2.1 (by decide +kernel) 2
  apply h1
  refine ⟨by decide, by decide, by decide, ?_, ?_⟩
  · exact ⟨['*'], ['b'], by decide, .is '*' .nil⟩
  · intro m hm1 _ hm2
    obtain rfl : m = 1 := by omega
    have e : read ("~*".toList.map Char.toLower) = [.is '*'] := by decide +kernel
    rw [e, occurs_is]
    rintro ⟨t', ht, _⟩
    have : ("a*b".toList.map Char.toLower).drop (1 - 1) = 'a' :: "*b".toList := by decide
    rw [this] at ht
    simp at ht

/-- The case of letters beyond A to Z is not ignored: `SEARCH("É","é")` is an
error, while the lookup functions fold it. -/
theorem search_case_wrong : searchFn ['É'] ['é'] none = .valueError ∧
    searchFn ['E'] ['e'] none = .pos 1 := by decide +kernel

/-- With nothing to find the start is ignored, even one past the end of the
text. -/
theorem search_empty_ignores_start (hay : List Char) (n : Int) (h : 1 ≤ n) :
    searchFn [] hay (some n) = .pos 1 := by
  simp [searchFn, startOf, show ¬ n < 1 by omega]

/-- The same of `FIND`. -/
theorem find_empty_ignores_start (hay : List Char) (n : Int) (h : 1 ≤ n) :
    findFn [] hay (some n) = .pos 1 := by
  simp [findFn, startOf, show ¬ n < 1 by omega]

/-- So the general statement is false of both. -/
theorem find_empty_wrong :
    ¬ ∀ (needle hay : List Char) (n : Int), 1 ≤ n →
      Answers (needle.map .is) hay n.toNat (findFn needle hay (some n)) := by
  intro h
  have h1 := ((h [] "abc".toList 2 (by decide)).1 1).1 (by decide +kernel)
  have := h1.1
  simp at this

end Verif.Lookup
