import Mathlib.Data.List.Basic
import Mathlib.Tactic.Set
import Mathlib.Tactic.ByContra

/-!
# Wildcard patterns in lookups (`MATCH`, `VLOOKUP`, `XLOOKUP`, ...)

Model of `CompiledWildcardPattern` in
`/repo/crates/formualizer-eval/src/builtins/lookup/lookup_utils.rs` 308-432: the
compilation of a pattern to tokens, the compaction of repeated stars and the
matching loop, which keeps only the latest star to go back to.

The specification is independent of all three: `read` says what each character
of a pattern asks for, and `Fits` is the usual inductive meaning of a list of
such requests.
-/

namespace Verif.Lookup

/-! ## Specification -/

/-- What one place of a pattern asks for. -/
inductive Item where
  /-- any text, possibly none -/
  | any
  /-- one character, whichever -/
  | one
  /-- this character -/
  | is (c : Char)
deriving DecidableEq, Repr

/-- A text meets a list of requests, in order and completely. -/
inductive Fits : List Item → List Char → Prop
  | nil : Fits [] []
  | skip {is t} : Fits is t → Fits (.any :: is) t
  | more {is t} (c : Char) : Fits (.any :: is) t → Fits (.any :: is) (c :: t)
  | one {is t} (c : Char) : Fits is t → Fits (.one :: is) (c :: t)
  | is {is t} (c : Char) : Fits is t → Fits (.is c :: is) (c :: t)

/-- How a pattern is to be read: `*` any text, `?` one character, `~` takes the
special meaning away from the character after it. -/
def read : List Char → List Item
  | [] => []
  | '~' :: [] => [.is '~']
  | '~' :: c :: cs => .is c :: read cs
  | '*' :: cs => .any :: read cs
  | '?' :: cs => .one :: read cs
  | c :: cs => .is c :: read cs

/-! ## Model -/

/-- `WildcardToken`, lookup_utils.rs 308-313. -/
inductive Tok where
  | anySeq
  | anyChar
  | lit (l : List Char)
deriving DecidableEq, Repr

/-- Push the pending literal, if there is one: lookup_utils.rs 336-341 and its
repetitions at 345-350 and 356-360. -/
def flush (lit : List Char) : List Tok := if lit = [] then [] else [.lit lit]

/-- The scan of the pattern, lookup_utils.rs 321-360; `lit` is the pending
literal. -/
def scan : List Char → List Char → List Tok
  | [], lit => flush lit
  | '~' :: [], lit => flush (lit ++ ['~'])
  | '~' :: c :: cs, lit => scan cs (lit ++ [c])
  | '*' :: cs, lit => flush lit ++ .anySeq :: scan cs []
  | '?' :: cs, lit => flush lit ++ .anyChar :: scan cs []
  | c :: cs, lit => scan cs (lit ++ [c])

/-- One step of the compaction loop, lookup_utils.rs 362-372: a star directly
after a star is dropped. -/
def compactPush (acc : List Tok) (t : Tok) : List Tok :=
  match t with
  | .anySeq => if acc.getLast? = some .anySeq then acc else acc ++ [.anySeq]
  | t => acc ++ [t]

/-- `CompiledWildcardPattern::from_folded`, lookup_utils.rs 320-375. -/
def compile (p : List Char) : List Tok := (scan p []).foldl compactPush []

/-- The variables of the matching loop, lookup_utils.rs 383-385. -/
structure St where
  ti : Nat
  si : Nat
  star : Option (Nat × Nat)
deriving DecidableEq, Repr

/-- What one turn of the loop does: go on, or answer. -/
inductive Turn where
  | go (s : St)
  | answer (b : Bool)
deriving DecidableEq, Repr

/-- The end of the loop body, lookup_utils.rs 415-422: go back to the latest
star and let it take one character more, or give up. -/
def retry (text : List Char) (s : St) : Turn :=
  match s.star with
  | some (r, k) =>
    if k < text.length then .go ⟨r, k + 1, some (r, k + 1)⟩ else .answer false
  | none => .answer false

/-- One turn of the loop, lookup_utils.rs 386-423. -/
def turn (toks : List Tok) (text : List Char) (s : St) : Turn :=
  match toks[s.ti]? with
  | none => if s.si = text.length then .answer true else retry text s
  | some .anySeq => .go ⟨s.ti + 1, s.si, some (s.ti + 1, s.si)⟩
  | some .anyChar =>
    if s.si < text.length then .go ⟨s.ti + 1, s.si + 1, s.star⟩ else retry text s
  | some (.lit l) =>
    if s.si + l.length ≤ text.length ∧ (text.drop s.si).take l.length = l then
      .go ⟨s.ti + 1, s.si + l.length, s.star⟩
    else retry text s

/-- The `loop`, lookup_utils.rs 386-424, with fuel; `none` = still running. -/
def run (toks : List Tok) (text : List Char) : Nat → St → Option Bool
  | 0, _ => none
  | n + 1, s =>
    match turn toks text s with
    | .answer b => some b
    | .go s' => run toks text n s'

/-- Turns that are always enough (see `run_total`). -/
def enough (toks : List Tok) (text : List Char) : Nat :=
  (toks.length + 1) * ((text.length + 1) * (toks.length + 2) + 1) + 1

/-- `matches_folded_chars`, lookup_utils.rs 382-425. -/
def matchesFolded (toks : List Tok) (text : List Char) : Option Bool :=
  run toks text (enough toks text) ⟨0, 0, none⟩

/-- `wildcard_pattern_match`, lookup_utils.rs 428-433; `fold` stands for
`str::to_lowercase`. -/
def wildcardPatternMatch (fold : List Char → List Char) (p t : List Char) : Option Bool :=
  matchesFolded (compile (fold p)) (fold t)

/-! ## Facts about the specification -/

theorem fits_any {is : List Item} {t : List Char} :
    Fits (.any :: is) t ↔ ∃ k, k ≤ t.length ∧ Fits is (t.drop k) := by
  constructor
  · intro h
    generalize hj : Item.any :: is = js at h
    induction h with
    | nil => cases hj
    | skip h _ => cases hj; exact ⟨0, by omega, by simpa using h⟩
    | more c h ih =>
      cases hj
      obtain ⟨k, hk, hf⟩ := ih rfl
      exact ⟨k + 1, by simpa using hk, by simpa using hf⟩
    | one c h _ => cases hj
    | is c h _ => cases hj
  · rintro ⟨k, hk, hf⟩
    induction k generalizing t with
    | zero => exact .skip (by simpa using hf)
    | succ k ih =>
      cases t with
      | nil => simp at hk
      | cons c t => exact .more c (ih (by simpa using hk) (by simpa using hf))

theorem fits_one {is : List Item} {t : List Char} :
    Fits (.one :: is) t ↔ 1 ≤ t.length ∧ Fits is (t.drop 1) := by
  constructor
  · intro h
    cases h with
    | one c h => exact ⟨by simp, by simpa using h⟩
  · rintro ⟨h1, h⟩
    cases t with
    | nil => simp at h1
    | cons c t => exact .one c (by simpa using h)

theorem fits_nil {t : List Char} : Fits [] t ↔ t = [] := by
  constructor
  · intro h; cases h; rfl
  · rintro rfl; exact .nil

theorem fits_is {c : Char} {is : List Item} {t : List Char} :
    Fits (.is c :: is) t ↔ ∃ t', t = c :: t' ∧ Fits is t' := by
  constructor
  · intro h; cases h with
    | is c h => exact ⟨_, rfl, h⟩
  · rintro ⟨t', rfl, h⟩; exact .is c h

theorem fits_lit {l : List Char} {is : List Item} {t : List Char} :
    Fits (l.map .is ++ is) t ↔ ∃ t', t = l ++ t' ∧ Fits is t' := by
  induction l generalizing t with
  | nil => simp
  | cons c l ih =>
    simp only [List.map_cons, List.cons_append, fits_is, ih]
    constructor
    · rintro ⟨_, rfl, t', rfl, h⟩; exact ⟨t', rfl, h⟩
    · rintro ⟨t', rfl, h⟩; exact ⟨_, rfl, t', rfl, h⟩

theorem fits_any_any {is : List Item} {t : List Char} :
    Fits (.any :: .any :: is) t ↔ Fits (.any :: is) t := by
  constructor
  · intro h
    obtain ⟨k, hk, h⟩ := fits_any.1 h
    obtain ⟨j, hj, h⟩ := fits_any.1 h
    simp only [List.length_drop] at hj
    exact fits_any.2 ⟨k + j, by omega, by simpa [List.drop_drop] using h⟩
  · exact .skip

/-- What follows may be replaced by anything meaning the same. -/
theorem fits_append_congr {a b b' : List Item} (h : ∀ t, Fits b t ↔ Fits b' t) (t : List Char) :
    Fits (a ++ b) t ↔ Fits (a ++ b') t := by
  induction a generalizing t with
  | nil => exact h t
  | cons i a ih =>
    cases i with
    | any => simp only [List.cons_append, fits_any, ih]
    | one => simp only [List.cons_append, fits_one, ih]
    | is c => simp only [List.cons_append, fits_is, ih]

/-! ## Tokens mean what the pattern reads -/

/-- The requests a token stands for. -/
def Tok.items : Tok → List Item
  | .anySeq => [.any]
  | .anyChar => [.one]
  | .lit l => l.map .is

/-- The requests a list of tokens stands for. -/
def itemsOf (toks : List Tok) : List Item := toks.flatMap Tok.items

@[simp] theorem itemsOf_nil : itemsOf [] = [] := rfl
@[simp] theorem itemsOf_cons (t : Tok) (ts : List Tok) :
    itemsOf (t :: ts) = t.items ++ itemsOf ts := by simp [itemsOf]
@[simp] theorem itemsOf_append (a b : List Tok) : itemsOf (a ++ b) = itemsOf a ++ itemsOf b := by
  simp [itemsOf]

@[simp] theorem itemsOf_flush (l : List Char) : itemsOf (flush l) = l.map .is := by
  unfold flush; split
  · next h => simp [h]
  · simp [Tok.items]

theorem itemsOf_scan (p lit : List Char) : itemsOf (scan p lit) = lit.map .is ++ read p := by
  induction p, lit using scan.induct with
  | case1 lit => simp [scan, read]
  | case2 lit => simp [scan, read]
  | case3 lit c cs ih => simp [scan, read, ih]
  | case4 lit cs ih => simp [scan, read, ih, Tok.items]
  | case5 lit cs ih => simp [scan, read, ih, Tok.items]
  | case6 lit c cs h1 h2 h3 h4 ih =>
    rw [scan, read, ih]
    · simp
    all_goals first | exact h1 | exact h2 | exact h3 | exact h4

theorem fits_compactPush (acc : List Tok) (t : Tok) (rest : List Item) (x : List Char) :
    Fits (itemsOf (compactPush acc t) ++ rest) x ↔ Fits (itemsOf acc ++ (t.items ++ rest)) x := by
  cases t with
  | anyChar => simp [compactPush]
  | lit l => simp [compactPush]
  | anySeq =>
    by_cases h : acc.getLast? = some .anySeq
    · obtain ⟨a, rfl⟩ : ∃ a, acc = a ++ [.anySeq] := by
        rw [List.getLast?_eq_some_iff] at h
        exact h
      simp only [compactPush, h, if_true, itemsOf_append, itemsOf_cons, itemsOf_nil, Tok.items,
        List.append_nil, List.append_assoc]
      apply fits_append_congr
      intro t
      exact fits_any_any.symm
    · simp [compactPush, h]

theorem fits_compact (ts acc : List Tok) (x : List Char) :
    Fits (itemsOf (ts.foldl compactPush acc)) x ↔ Fits (itemsOf acc ++ itemsOf ts) x := by
  induction ts generalizing acc with
  | nil => simp
  | cons t ts ih =>
    rw [List.foldl_cons, ih, fits_compactPush, itemsOf_cons]

/-- The compiled pattern stands for what the pattern reads. -/
theorem fits_compile (p t : List Char) : Fits (itemsOf (compile p)) t ↔ Fits (read p) t := by
  rw [compile, fits_compact, itemsOf_scan]; simp

/-! ## The loop ends -/

/-- How much the loop has still to do; falls with every turn. -/
def left (toks : List Tok) (text : List Char) (s : St) : Nat :=
  let w := (text.length + 1) * (toks.length + 2) + 1
  match s.star with
  | none => toks.length * w + (toks.length - s.ti)
  | some (r, k) => (toks.length - r) * w + ((text.length - k) * (toks.length + 2) + (toks.length - s.ti))

/-- What holds of the variables of the loop. -/
structure Ok (toks : List Tok) (text : List Char) (s : St) : Prop where
  ti_le : s.ti ≤ toks.length
  si_le : s.si ≤ text.length
  star : ∀ r k, s.star = some (r, k) → r ≤ s.ti ∧ k ≤ s.si ∧ 1 ≤ r

theorem Ok.start (toks : List Tok) (text : List Char) : Ok toks text ⟨0, 0, none⟩ :=
  ⟨by simp, by simp, by simp⟩

theorem retry_ok {toks text s s'} (h : Ok toks text s) (hr : retry text s = .go s') :
    Ok toks text s' ∧ left toks text s' < left toks text s := by
  unfold retry at hr
  split at hr
  · next r k hs =>
    split at hr
    · next hk =>
      cases hr
      obtain ⟨h1, h2, h3⟩ := h.star r k hs
      have h4 := h.ti_le
      refine ⟨⟨by simp; omega, by simp; omega, ?_⟩, ?_⟩
      · intro r' k' he; simp at he; obtain ⟨rfl, rfl⟩ := he; simp; omega
      · simp only [left, hs]
        have : text.length - k = (text.length - (k + 1)) + 1 := by omega
        have e : (text.length - k) * (toks.length + 2)
            = (text.length - (k + 1)) * (toks.length + 2) + (toks.length + 2) := by
          rw [this, Nat.add_mul, Nat.one_mul]
        rw [e]
        omega
    · simp at hr
  · simp at hr

theorem turn_ok {toks text s s'} (h : Ok toks text s) (hr : turn toks text s = .go s') :
    Ok toks text s' ∧ left toks text s' < left toks text s := by
  unfold turn at hr
  split at hr
  · split at hr
    · simp at hr
    · exact retry_ok h hr
  · next ht =>
    cases hr
    have hlt : s.ti < toks.length := (List.getElem?_eq_some_iff.1 ht).1
    have hsi := h.si_le
    refine ⟨⟨by simp; omega, hsi, ?_⟩, ?_⟩
    · intro r k he; simp at he; obtain ⟨rfl, rfl⟩ := he; simp
    · have key : ∀ n : Nat, toks.length - (s.ti + 1) < n →
          (toks.length - (s.ti + 1)) * ((text.length + 1) * (toks.length + 2) + 1) +
            ((text.length - s.si) * (toks.length + 2) + (toks.length - (s.ti + 1)))
          < n * ((text.length + 1) * (toks.length + 2) + 1) := by
        intro n hn
        have h1 : (toks.length - (s.ti + 1) + 1) * ((text.length + 1) * (toks.length + 2) + 1)
            ≤ n * ((text.length + 1) * (toks.length + 2) + 1) := Nat.mul_le_mul_right _ hn
        have h2 : (text.length - s.si) * (toks.length + 2) ≤ text.length * (toks.length + 2) :=
          Nat.mul_le_mul_right _ (by omega)
        rw [Nat.add_mul, Nat.one_mul] at h1
        have h3 : (text.length + 1) * (toks.length + 2)
            = text.length * (toks.length + 2) + (toks.length + 2) := by
          rw [Nat.add_mul, Nat.one_mul]
        omega
      cases hs : s.star with
      | none =>
        simp only [left, hs]
        exact Nat.lt_of_lt_of_le (key _ (by omega)) (Nat.le_add_right _ _)
      | some rk =>
        obtain ⟨r, k⟩ := rk
        obtain ⟨h1, _, _⟩ := h.star r k hs
        simp only [left, hs]
        exact Nat.lt_of_lt_of_le (key _ (by omega)) (Nat.le_add_right _ _)
  · next ht =>
    have hlt : s.ti < toks.length := (List.getElem?_eq_some_iff.1 ht).1
    split at hr
    · next hsi =>
      cases hr
      refine ⟨⟨by simp; omega, by simp; omega, ?_⟩, ?_⟩
      · intro r k he; obtain ⟨h1, h2, h3⟩ := h.star r k he; simp; omega
      · cases hs : s.star with
        | none => simp only [left, hs]; omega
        | some rk => obtain ⟨r, k⟩ := rk; simp only [left, hs]; omega
    · exact retry_ok h hr
  · next l ht =>
    have hlt : s.ti < toks.length := (List.getElem?_eq_some_iff.1 ht).1
    split at hr
    · next hsi =>
      cases hr
      refine ⟨⟨by simp; omega, by simp; omega, ?_⟩, ?_⟩
      · intro r k he; obtain ⟨h1, h2, h3⟩ := h.star r k he; simp; omega
      · cases hs : s.star with
        | none => simp only [left, hs]; omega
        | some rk => obtain ⟨r, k⟩ := rk; simp only [left, hs]; omega
    · exact retry_ok h hr

theorem run_total_aux {toks text} (n : Nat) (s : St) (h : Ok toks text s)
    (hn : left toks text s < n) : ∃ b, run toks text n s = some b := by
  induction n generalizing s with
  | zero => omega
  | succ n ih =>
    unfold run
    cases ht : turn toks text s with
    | answer b => exact ⟨b, rfl⟩
    | go s' =>
      obtain ⟨h1, h2⟩ := turn_ok h ht
      exact ih s' h1 (by omega)

theorem left_start (toks : List Tok) (text : List Char) :
    left toks text ⟨0, 0, none⟩ < enough toks text := by
  simp only [left, enough]
  generalize hw : (text.length + 1) * (toks.length + 2) = w
  rw [Nat.add_mul, Nat.one_mul]
  have : toks.length ≤ w := by
    subst hw
    calc toks.length ≤ 1 * (toks.length + 2) := by omega
      _ ≤ _ := Nat.mul_le_mul_right _ (by omega)
  omega

/-- The loop answers, whatever the tokens and the text. -/
theorem run_total (toks : List Tok) (text : List Char) :
    ∃ b, matchesFolded toks text = some b :=
  run_total_aux _ _ (Ok.start _ _) (left_start _ _)

/-! ## The loop answers right -/

/-- The rest of the text from place `si` meets the tokens from `ti` on. -/
def Rest (toks : List Tok) (text : List Char) (ti si : Nat) : Prop :=
  si ≤ text.length ∧ Fits (itemsOf (toks.drop ti)) (text.drop si)

/-- What the state of the loop still stands for: the rest matches from here, or
from the latest star taking more characters. -/
def Hope (toks : List Tok) (text : List Char) (s : St) : Prop :=
  Rest toks text s.ti s.si ∨ ∃ r k, s.star = some (r, k) ∧ ∃ k', k < k' ∧ Rest toks text r k'

/-- Since the latest star only tokens of fixed length were passed, taking the
characters from there to here. -/
def Straight (toks : List Tok) (text : List Char) (s : St) : Prop :=
  ∀ r k, s.star = some (r, k) → ∀ k', Rest toks text r k' → Rest toks text s.ti (k' + (s.si - k))

theorem Rest.none {toks : List Tok} {text : List Char} {ti si : Nat} (h : toks[ti]? = .none) :
    Rest toks text ti si ↔ si = text.length := by
  have h1 : toks.drop ti = [] := by
    rw [List.drop_eq_nil_iff]; exact List.getElem?_eq_none_iff.1 h
  unfold Rest
  rw [h1, itemsOf_nil, fits_nil, List.drop_eq_nil_iff]
  omega

theorem drop_of_get {toks : List Tok} {ti : Nat} {t : Tok} (h : toks[ti]? = some t) :
    toks.drop ti = t :: toks.drop (ti + 1) := by
  obtain ⟨h1, h2⟩ := List.getElem?_eq_some_iff.1 h
  rw [List.drop_eq_getElem_cons h1, h2]

theorem Rest.anySeq {toks : List Tok} {text : List Char} {ti si : Nat}
    (h : toks[ti]? = some .anySeq) :
    Rest toks text ti si ↔ ∃ k, si ≤ k ∧ Rest toks text (ti + 1) k := by
  unfold Rest
  rw [drop_of_get h, itemsOf_cons]
  simp only [Tok.items, List.singleton_append, fits_any, List.length_drop, List.drop_drop]
  constructor
  · rintro ⟨h1, k, hk, hf⟩; exact ⟨si + k, by omega, by omega, hf⟩
  · rintro ⟨k, hk, hl, hf⟩
    refine ⟨by omega, k - si, by omega, ?_⟩
    rw [show si + (k - si) = k by omega]; exact hf

theorem Rest.anyChar {toks : List Tok} {text : List Char} {ti si : Nat}
    (h : toks[ti]? = some .anyChar) :
    Rest toks text ti si ↔ si < text.length ∧ Rest toks text (ti + 1) (si + 1) := by
  unfold Rest
  rw [drop_of_get h, itemsOf_cons]
  simp only [Tok.items, List.singleton_append, fits_one, List.length_drop, List.drop_drop]
  constructor
  · rintro ⟨h1, h2, hf⟩; exact ⟨by omega, by omega, hf⟩
  · rintro ⟨h1, h2, hf⟩; exact ⟨by omega, by omega, hf⟩

theorem Rest.lit {toks : List Tok} {text : List Char} {ti si : Nat} {l : List Char}
    (h : toks[ti]? = some (.lit l)) :
    Rest toks text ti si ↔
      (si + l.length ≤ text.length ∧ (text.drop si).take l.length = l) ∧
        Rest toks text (ti + 1) (si + l.length) := by
  unfold Rest
  rw [drop_of_get h, itemsOf_cons]
  simp only [Tok.items, fits_lit]
  constructor
  · rintro ⟨h1, t', ht, hf⟩
    have hl : text.length - si = l.length + t'.length := by
      rw [← List.length_drop, ht, List.length_append]
    have hd : text.drop (si + l.length) = t' := by
      rw [← List.drop_drop, ht]; simp
    refine ⟨⟨by omega, by rw [ht]; simp⟩, by omega, by rw [hd]; exact hf⟩
  · rintro ⟨⟨h1, h2⟩, h3, hf⟩
    refine ⟨by omega, text.drop (si + l.length), ?_, hf⟩
    conv_lhs => rw [← List.take_append_drop l.length (text.drop si)]
    rw [h2, List.drop_drop]

theorem retry_right {toks text s} (h : Ok toks text s) (hno : ¬ Rest toks text s.ti s.si) :
    match retry text s with
    | .answer b => b = true ↔ Hope toks text s
    | .go s' => (Hope toks text s' ↔ Hope toks text s) ∧ Straight toks text s' := by
  unfold retry
  cases hs : s.star with
  | none => simp [Hope, hno, hs]
  | some rk =>
    obtain ⟨r, k⟩ := rk
    dsimp only
    by_cases hk : k < text.length
    · rw [if_pos hk]
      dsimp only
      refine ⟨?_, ?_⟩
      · simp only [Hope, hno, hs, false_or, Option.some.injEq, Prod.mk.injEq]
        constructor
        · rintro (h1 | ⟨_, _, ⟨rfl, rfl⟩, k', hk', h1⟩)
          · exact ⟨r, k, ⟨rfl, rfl⟩, k + 1, by omega, h1⟩
          · exact ⟨r, k, ⟨rfl, rfl⟩, k', by omega, h1⟩
        · rintro ⟨_, _, ⟨rfl, rfl⟩, k', hk', h1⟩
          rcases Nat.lt_or_ge (k + 1) k' with h2 | h2
          · exact Or.inr ⟨r, k + 1, ⟨rfl, rfl⟩, k', h2, h1⟩
          · left; rw [show k + 1 = k' by omega]; exact h1
      · intro r' k' he
        simp at he; obtain ⟨rfl, rfl⟩ := he
        intro k' hr; simpa using hr
    · rw [if_neg hk]
      simp only [Hope, hno, hs, false_or, Option.some.injEq, Prod.mk.injEq, Bool.false_eq_true,
        false_iff]
      rintro ⟨_, _, ⟨rfl, rfl⟩, k', hk', h1⟩
      have := h1.1
      omega

theorem turn_right {toks text s} (h : Ok toks text s) (hst : Straight toks text s) :
    match turn toks text s with
    | .answer b => b = true ↔ Hope toks text s
    | .go s' => (Hope toks text s' ↔ Hope toks text s) ∧ Straight toks text s' := by
  unfold turn
  cases ht : toks[s.ti]? with
  | none =>
    dsimp only
    by_cases hl : s.si = text.length
    · rw [if_pos hl]
      simp only [true_iff]
      exact Or.inl ((Rest.none ht).2 hl)
    · rw [if_neg hl]
      exact retry_right h (fun hr => hl ((Rest.none ht).1 hr))
  | some t =>
    cases t with
    | anySeq =>
      dsimp only
      refine ⟨?_, ?_⟩
      · have e : Hope toks text ⟨s.ti + 1, s.si, some (s.ti + 1, s.si)⟩ ↔ Rest toks text s.ti s.si := by
          rw [Rest.anySeq ht]
          simp only [Hope, Option.some.injEq, Prod.mk.injEq]
          constructor
          · rintro (h1 | ⟨_, _, ⟨rfl, rfl⟩, k', hk', h1⟩)
            · exact ⟨s.si, Nat.le_refl _, h1⟩
            · exact ⟨k', by omega, h1⟩
          · rintro ⟨k, hk, h1⟩
            rcases Nat.lt_or_ge s.si k with h2 | h2
            · exact Or.inr ⟨_, _, ⟨rfl, rfl⟩, k, h2, h1⟩
            · left; rw [show s.si = k by omega]; exact h1
        rw [e]
        constructor
        · exact Or.inl
        · rintro (h1 | ⟨r, k, hs, k', hk', h1⟩)
          · exact h1
          · have h2 := hst r k hs k' h1
            have h3 := h.star r k hs
            rw [Rest.anySeq ht] at h2 ⊢
            obtain ⟨j, hj, h4⟩ := h2
            exact ⟨j, by omega, h4⟩
      · intro r k he
        simp at he; obtain ⟨rfl, rfl⟩ := he
        intro k' hr; simpa using hr
    | anyChar =>
      dsimp only
      by_cases hl : s.si < text.length
      · rw [if_pos hl]
        refine ⟨?_, ?_⟩
        · simp only [Hope]
          rw [Rest.anyChar (si := s.si) ht]
          simp [hl]
        · intro r k he k' hr
          have h1 := hst r k he k' hr
          have h3 := h.star r k he
          rw [Rest.anyChar ht] at h1
          have h2 := h1.2
          rw [show k' + (s.si - k) + 1 = k' + (s.si + 1 - k) by omega] at h2
          exact h2
      · rw [if_neg hl]
        exact retry_right h (fun hr => hl ((Rest.anyChar ht).1 hr).1)
    | lit l =>
      dsimp only
      by_cases hl : s.si + l.length ≤ text.length ∧ (text.drop s.si).take l.length = l
      · rw [if_pos hl]
        refine ⟨?_, ?_⟩
        · simp only [Hope]
          rw [Rest.lit (si := s.si) ht]
          simp [hl]
        · intro r k he k' hr
          have h1 := hst r k he k' hr
          have h3 := h.star r k he
          rw [Rest.lit ht] at h1
          have h2 := h1.2
          rw [show k' + (s.si - k) + l.length = k' + (s.si + l.length - k) by omega] at h2
          exact h2
      · rw [if_neg hl]
        exact retry_right h (fun hr => hl ((Rest.lit ht).1 hr).1)

theorem run_right {toks text} (n : Nat) (s : St) (h : Ok toks text s) (hst : Straight toks text s)
    {b : Bool} (hr : run toks text n s = some b) : b = true ↔ Hope toks text s := by
  induction n generalizing s with
  | zero => simp [run] at hr
  | succ n ih =>
    unfold run at hr
    have h1 := turn_right h hst
    cases ht : turn toks text s with
    | answer b' => rw [ht] at hr h1; simp at hr; rw [← hr]; exact h1
    | go s' =>
      rw [ht] at hr h1
      exact (ih s' (turn_ok h ht).1 h1.2 hr).trans h1.1

/-- **The lookup wildcard matcher is right.** It always answers, and it answers
yes exactly when the folded text meets the folded pattern, for every pattern and
every text. -/
theorem lookup_wildcard_correct (fold : List Char → List Char) (p t : List Char) :
    ∃ b, wildcardPatternMatch fold p t = some b ∧ (b = true ↔ Fits (read (fold p)) (fold t)) := by
  obtain ⟨b, hb⟩ := run_total (compile (fold p)) (fold t)
  refine ⟨b, hb, ?_⟩
  have h1 := run_right _ _ (Ok.start _ _) (fun r k he => by simp at he) hb
  rw [h1]
  simp only [Hope, Rest, List.drop_zero, Nat.zero_le, true_and, reduceCtorEq, false_and,
    exists_false, or_false]
  exact fits_compile _ _

/-- The texts matched and the texts not matched, for one pattern with all three
special characters. -/
example :
    wildcardPatternMatch id "a*b?~*".toList "aXbbY*".toList = some true ∧
    wildcardPatternMatch id "a*b?~*".toList "aXbbYY".toList = some false ∧
    Fits (read "a*b?~*".toList) "aXbbY*".toList ∧
    ¬ Fits (read "a*b?~*".toList) "aXbbYY".toList := by
  have h1 : wildcardPatternMatch id "a*b?~*".toList "aXbbY*".toList = some true := by decide +kernel
  have h2 : wildcardPatternMatch id "a*b?~*".toList "aXbbYY".toList = some false := by decide +kernel
  refine ⟨h1, h2, ?_, ?_⟩
  · obtain ⟨b, hb, h⟩ := lookup_wildcard_correct id "a*b?~*".toList "aXbbY*".toList
    rw [h1] at hb; cases hb; exact h.1 rfl
  · obtain ⟨b, hb, h⟩ := lookup_wildcard_correct id "a*b?~*".toList "aXbbYY".toList
    rw [h2] at hb; cases hb; exact fun hf => by simpa using h.2 hf

end Verif.Lookup
