import Verif.Lookup.Search

/-!
# Text patterns in criteria (`COUNTIF`, `SUMIF`, ...)

Two matchers serve the same criterion. Cell by cell, `text_like_match` and
`wildcard_match` of `/repo/crates/formualizer-eval/src/builtins/utils.rs` 362-447;
for whole columns, `ilike` of the arrow library on a rewritten pattern,
`/repo/crates/formualizer-eval/src/engine/eval.rs` 2423-2480. Both are compared
with the specification `Fits` of `Verif.Lookup.Wild`.

The general matcher of utils.rs works on bytes, so texts are encoded with the
UTF-8 encoding of Lean's core library. `starts_with`, `ends_with` and `contains`
of `str` are modelled on characters, which is what they do on valid UTF-8.
-/

namespace Verif.Lookup

/-! ## Model: cell by cell -/

/-- UTF-8. -/
def enc (t : List Char) : List UInt8 := t.flatMap String.utf8EncodeChar

/-- `wildcard_match`'s `helper`, utils.rs 409-437: on bytes, 42 = `*`, 63 = `?`. -/
def globBytes : List UInt8 → List UInt8 → Bool
  | [], t => t.isEmpty
  | b :: p, t =>
    if b = 42 then (List.range (t.length + 1)).any fun i => globBytes p (t.drop i)
    else if b = 63 then
      match t with
      | [] => false
      | _ :: t => globBytes p t
    else
      match t with
      | [] => false
      | d :: t => d = b && globBytes p t

/-- `text_like_match` on texts already folded, utils.rs 383-409: four shortcuts,
then the general matcher. -/
def textLike (p t : List Char) : Bool :=
  if '?' ∉ p ∧ ¬ (['~', '*'] <:+: p) ∧ ¬ (['~', '?'] <:+: p) then
    if p.getLast? = some '*' ∧ '*' ∉ p.dropLast then p.dropLast.isPrefixOf t
    else if p.head? = some '*' ∧ '*' ∉ p.tail then p.tail.isSuffixOf t
    else if p.head? = some '*' ∧ p.getLast? = some '*' ∧ '*' ∉ p.tail.dropLast then
      decide (p.tail.dropLast <:+: t)
    else if '*' ∉ p then t = p
    else globBytes (enc p) (enc t)
  else globBytes (enc p) (enc t)

/-! ## Model: whole columns -/

/-- How `ilike` reads a pattern: `%` any text, `_` one character, `\` takes the
special meaning away from the character after it. This is the library's documented
meaning; its implementation is not modelled. -/
def readLike : List Char → List Item
  | [] => []
  | '\\' :: [] => [.is '\\']
  | '\\' :: c :: cs => .is c :: readLike cs
  | '%' :: cs => .any :: readLike cs
  | '_' :: cs => .one :: readLike cs
  | c :: cs => .is c :: readLike cs

/-- `p.replace('*', "%").replace('?', "_")`, eval.rs 2438. -/
def toLike (p : List Char) : List Char :=
  p.map fun c => if c = '*' then '%' else if c = '?' then '_' else c

/-! ## UTF-8 facts -/

theorem enc_nil : enc [] = [] := rfl
theorem enc_cons (c : Char) (t : List Char) : enc (c :: t) = String.utf8EncodeChar c ++ enc t := by
  simp [enc]
theorem enc_append (a b : List Char) : enc (a ++ b) = enc a ++ enc b := by simp [enc]

theorem encChar_ne_nil (c : Char) : String.utf8EncodeChar c ≠ [] := by
  intro h
  have := congrArg List.length h
  rw [String.length_utf8EncodeChar] at this
  have := c.utf8Size_pos
  simp at *

theorem enc_eq_nil {t : List Char} : enc t = [] ↔ t = [] := by
  cases t with
  | nil => simp [enc_nil]
  | cons c t => simp [enc_cons, encChar_ne_nil]

/-- The encoding is read off from the left in one way only. -/
theorem encChar_inj {c d : Char} {x y : List UInt8}
    (h : String.utf8EncodeChar c ++ x = String.utf8EncodeChar d ++ y) : c = d ∧ x = y := by
  have h1 := congrArg List.toByteArray h
  rw [List.toByteArray_append, List.toByteArray_append] at h1
  have h2 := ByteArray.utf8DecodeChar?_utf8EncodeChar_append (b := x.toByteArray) (c := c)
  have h3 := ByteArray.utf8DecodeChar?_utf8EncodeChar_append (b := y.toByteArray) (c := d)
  rw [h1, h3] at h2
  have : d = c := by simpa using h2
  subst this
  exact ⟨rfl, by simpa using h⟩

/-- The first byte of a character. -/
theorem encChar_head (c : Char) :
    ∃ b r, String.utf8EncodeChar c = b :: r ∧ b.IsUTF8FirstByte ∧
      ∀ x ∈ r, ¬ x.IsUTF8FirstByte := by
  cases h : String.utf8EncodeChar c with
  | nil => exact absurd h (encChar_ne_nil c)
  | cons b r =>
    refine ⟨b, r, rfl, ?_, ?_⟩
    · have h1 := @UInt8.isUTF8FirstByte_getElem_utf8EncodeChar c 0 (by rw [h]; simp)
      have h2 := h1.2 rfl
      simpa [h] using h2
    · intro x hx hf
      obtain ⟨i, hi, rfl⟩ := List.getElem_of_mem hx
      have h1 := @UInt8.isUTF8FirstByte_getElem_utf8EncodeChar c (i + 1) (by rw [h]; simpa using hi)
      have h2 : (String.utf8EncodeChar c)[i + 1]'(by rw [h]; simpa using hi) = r[i] := by
        simp [h]
      rw [h2] at h1
      exact absurd (h1.1 hf) (by omega)

/-- A character of one byte is recognised by that byte alone. -/
theorem encChar_mem_single {c d : Char} {b : UInt8} (hd : String.utf8EncodeChar d = [b])
    (hb : b ∈ String.utf8EncodeChar c) : c = d := by
  obtain ⟨b0, r0, h0, hf0, _⟩ := encChar_head d
  rw [hd] at h0
  cases h0
  obtain ⟨b1, r1, h1, hf1, hr1⟩ := encChar_head c
  rw [h1] at hb
  rcases List.mem_cons.1 hb with rfl | hb
  · have : String.utf8EncodeChar c ++ [] = String.utf8EncodeChar d ++ r1 := by
      rw [h1, hd]; simp
    exact (encChar_inj this).1
  · exact absurd hf0 (hr1 _ hb)

/-- What begins like a character, within an encoded text, begins at a character. -/
theorem enc_boundary {t : List Char} {a b : List UInt8} (h : enc t = a ++ b)
    (hb : b = [] ∨ ∃ x r, b = x :: r ∧ x.IsUTF8FirstByte) :
    ∃ t1 t2, t = t1 ++ t2 ∧ a = enc t1 ∧ b = enc t2 := by
  induction t generalizing a with
  | nil =>
    rw [enc_nil] at h
    have := List.append_eq_nil_iff.1 h.symm
    exact ⟨[], [], rfl, by simp [this, enc_nil], by simp [this, enc_nil]⟩
  | cons c t ih =>
    rw [enc_cons] at h
    rcases List.append_eq_append_iff.1 h with ⟨a', ha, hb'⟩ | ⟨a', ha, hb'⟩
    · obtain ⟨t1, t2, rfl, h1, h2⟩ := ih hb'
      exact ⟨c :: t1, t2, rfl, by rw [ha, h1, enc_cons], h2⟩
    · -- the character is cut: `a' ` is its second part
      cases a with
      | nil =>
        exact ⟨[], c :: t, rfl, rfl, by simp at ha; rw [hb', ← ha, enc_cons]⟩
      | cons a0 a =>
        cases a' with
        | nil =>
          simp at ha hb'
          refine ⟨[c], t, rfl, ?_, hb'⟩
          rw [← ha]; simp [enc]
        | cons a1 a' =>
          exfalso
          obtain ⟨b0, r, h1, _, h2⟩ := encChar_head c
          rw [h1] at ha
          simp only [List.cons_append, List.cons.injEq] at ha
          obtain ⟨rfl, rfl⟩ := ha
          rcases hb with hb | ⟨x, r, hb, hf⟩
          · rw [hb'] at hb; simp at hb
          · rw [hb'] at hb
            simp only [List.cons_append, List.cons.injEq] at hb
            exact h2 a1 (by simp) (hb.1 ▸ hf)

/-- Texts of ASCII characters only: one byte each. -/
def Ascii (t : List Char) : Prop := ∀ c ∈ t, c.utf8Size = 1

theorem encChar_ascii {c : Char} (h : c.utf8Size = 1) : ∃ b, String.utf8EncodeChar c = [b] := by
  have := String.length_utf8EncodeChar c
  rw [h] at this
  exact List.length_eq_one_iff.1 this

theorem enc_ascii_split {t : List Char} (ha : Ascii t) {a b : List UInt8} (h : enc t = a ++ b) :
    ∃ t1 t2, t = t1 ++ t2 ∧ a = enc t1 ∧ b = enc t2 := by
  apply enc_boundary h
  cases b with
  | nil => exact Or.inl rfl
  | cons x r =>
    refine Or.inr ⟨x, r, rfl, ?_⟩
    have : x ∈ enc t := by rw [h]; simp
    unfold enc at this
    obtain ⟨c, hc, hx⟩ := List.mem_flatMap.1 this
    obtain ⟨b, hb⟩ := encChar_ascii (ha c hc)
    obtain ⟨b0, r0, h0, hf, _⟩ := encChar_head c
    rw [hb] at h0 hx
    cases h0
    simp at hx
    rw [hx]; exact hf

theorem enc_star : String.utf8EncodeChar '*' = [42] := by decide
theorem enc_quest : String.utf8EncodeChar '?' = [63] := by decide

/-! ## The byte matcher -/

theorem globBytes_cons (b : UInt8) (p t : List UInt8) :
    globBytes (b :: p) t =
      if b = 42 then (List.range (t.length + 1)).any fun i => globBytes p (t.drop i)
      else if b = 63 then
        match t with
        | [] => false
        | _ :: t => globBytes p t
      else
        match t with
        | [] => false
        | d :: t => d = b && globBytes p t := by
  conv_lhs => unfold globBytes

theorem glob_star {p t : List UInt8} :
    globBytes (42 :: p) t = true ↔ ∃ a b, t = a ++ b ∧ globBytes p b = true := by
  rw [globBytes_cons, if_pos rfl]
  simp only [List.any_eq_true, List.mem_range]
  constructor
  · rintro ⟨i, _, h⟩; exact ⟨t.take i, t.drop i, (List.take_append_drop _ _).symm, h⟩
  · rintro ⟨a, b, rfl, h⟩; exact ⟨a.length, by simp; omega, by simpa using h⟩

theorem glob_quest {p t : List UInt8} :
    globBytes (63 :: p) t = true ↔ ∃ d t', t = d :: t' ∧ globBytes p t' = true := by
  rw [globBytes_cons, if_neg (by decide), if_pos rfl]
  cases t with
  | nil => simp
  | cons d t => simp

theorem glob_byte {b : UInt8} (h1 : b ≠ 42) (h2 : b ≠ 63) {p t : List UInt8} :
    globBytes (b :: p) t = true ↔ ∃ t', t = b :: t' ∧ globBytes p t' = true := by
  rw [globBytes_cons, if_neg h1, if_neg h2]
  cases t with
  | nil => simp
  | cons d t => simp

theorem glob_bytes {l : List UInt8} (h : ∀ b ∈ l, b ≠ 42 ∧ b ≠ 63) {p t : List UInt8} :
    globBytes (l ++ p) t = true ↔ ∃ t', t = l ++ t' ∧ globBytes p t' = true := by
  induction l generalizing t with
  | nil => simp
  | cons b l ih =>
    have hb := h b (by simp)
    rw [List.cons_append, glob_byte hb.1 hb.2]
    constructor
    · rintro ⟨t', rfl, h1⟩
      obtain ⟨t2, rfl, h2⟩ := (ih fun x hx => h x (by simp [hx])).1 h1
      exact ⟨t2, rfl, h2⟩
    · rintro ⟨t2, rfl, h2⟩
      exact ⟨_, rfl, (ih fun x hx => h x (by simp [hx])).2 ⟨t2, rfl, h2⟩⟩

theorem glob_char {c : Char} (h1 : c ≠ '*') (h2 : c ≠ '?') {p : List UInt8} {t : List Char} :
    globBytes (String.utf8EncodeChar c ++ p) (enc t) = true ↔
      ∃ t', t = c :: t' ∧ globBytes p (enc t') = true := by
  rw [glob_bytes]
  · constructor
    · rintro ⟨x, hx, hg⟩
      cases t with
      | nil =>
        rw [enc_nil] at hx
        have := (List.append_eq_nil_iff.1 hx.symm).1
        exact absurd this (encChar_ne_nil c)
      | cons d t =>
        rw [enc_cons] at hx
        obtain ⟨rfl, rfl⟩ := encChar_inj hx
        exact ⟨t, rfl, hg⟩
    · rintro ⟨t', rfl, hg⟩
      exact ⟨enc t', enc_cons _ _, hg⟩
  · intro b hb
    constructor
    · rintro rfl; exact h1 (encChar_mem_single enc_star hb)
    · rintro rfl; exact h2 (encChar_mem_single enc_quest hb)

/-- On bytes the general matcher decides the pattern, provided a question mark
meets one-byte characters only. -/
theorem glob_iff (p t : List Char) (h : '?' ∉ p ∨ Ascii t) :
    globBytes (enc p) (enc t) = true ↔ Fits (readPlain p) t := by
  induction p generalizing t with
  | nil =>
    rw [enc_nil, globBytes, readPlain, fits_nil, List.isEmpty_iff, enc_eq_nil]
  | cons c p ih =>
    have ih' : ∀ t1 t2, t = t1 ++ t2 → (globBytes (enc p) (enc t2) = true ↔ Fits (readPlain p) t2) := by
      intro t1 t2 ht
      apply ih
      rcases h with h | h
      · exact Or.inl fun hm => h (by simp [hm])
      · exact Or.inr fun x hx => h x (by rw [ht]; simp [hx])
    by_cases hc : c = '*'
    · subst hc
      rw [enc_cons, enc_star, List.singleton_append, readPlain, glob_star]
      constructor
      · rintro ⟨a, b, hab, hg⟩
        have bd : (∃ t1 t2, t = t1 ++ t2 ∧ b = enc t2) → Fits (.any :: readPlain p) t := by
          rintro ⟨t1, t2, ht, rfl⟩
          have hf := (ih' t1 t2 ht).1 hg
          rw [ht]
          exact fits_any.2 ⟨t1.length, by simp, by simpa using hf⟩
        cases p with
        | nil =>
          apply bd
          rw [enc_nil, globBytes, List.isEmpty_iff] at hg
          exact ⟨t, [], by simp, by rw [hg, enc_nil]⟩
        | cons d p =>
          by_cases hd : d = '*'
          · subst hd
            have hw : globBytes (enc ('*' :: p)) (enc t) = true := by
              rw [enc_cons, enc_star, List.singleton_append, glob_star] at hg ⊢
              obtain ⟨a', b', rfl, hg⟩ := hg
              exact ⟨a ++ a', b', by rw [hab, List.append_assoc], hg⟩
            exact .skip ((ih' [] t rfl).1 hw)
          · by_cases hq : d = '?'
            · apply bd
              have ha : Ascii t := by
                rcases h with h | h
                · exact absurd (by simp [hq]) h
                · exact h
              obtain ⟨t1, t2, h1, _, h2⟩ := enc_ascii_split ha hab
              exact ⟨t1, t2, h1, h2⟩
            · apply bd
              have hne : ∀ b ∈ String.utf8EncodeChar d, b ≠ 42 ∧ b ≠ 63 := by
                intro b hb
                constructor
                · rintro rfl; exact hd (encChar_mem_single enc_star hb)
                · rintro rfl; exact hq (encChar_mem_single enc_quest hb)
              rw [enc_cons, glob_bytes hne] at hg
              obtain ⟨t', hb, _⟩ := hg
              obtain ⟨b0, r, h1, hf, _⟩ := encChar_head d
              have hbd := enc_boundary hab (Or.inr ⟨b0, r ++ t', by rw [hb, h1]; simp, hf⟩)
              obtain ⟨t1, t2, h1, _, h2⟩ := hbd
              exact ⟨t1, t2, h1, h2⟩
      · intro hf
        obtain ⟨k, hk, hf⟩ := fits_any.1 hf
        have ht : t = t.take k ++ t.drop k := (List.take_append_drop _ _).symm
        refine ⟨enc (t.take k), enc (t.drop k), ?_, (ih' _ _ ht).2 hf⟩
        rw [← enc_append, ← ht]
    · by_cases hq : c = '?'
      · subst hq
        have ha : Ascii t := by
          rcases h with h | h
          · exact absurd (by simp) h
          · exact h
        rw [enc_cons, enc_quest, List.singleton_append, readPlain, glob_quest, fits_one]
        constructor
        · rintro ⟨d, t', ht, hg⟩
          cases t with
          | nil => simp [enc_nil] at ht
          | cons x t =>
            obtain ⟨b, hb⟩ := encChar_ascii (ha x (by simp))
            rw [enc_cons, hb] at ht
            simp only [List.singleton_append, List.cons.injEq] at ht
            rw [← ht.2] at hg
            exact ⟨by simp, by simpa using (ih' [x] t rfl).1 hg⟩
        · rintro ⟨h1, hf⟩
          cases t with
          | nil => simp at h1
          | cons x t =>
            obtain ⟨b, hb⟩ := encChar_ascii (ha x (by simp))
            refine ⟨b, enc t, by rw [enc_cons, hb]; rfl, (ih' [x] t rfl).2 (by simpa using hf)⟩
      · rw [enc_cons, glob_char hc hq, readPlain, fits_is]
        · constructor
          · rintro ⟨t', rfl, hg⟩; exact ⟨t', rfl, (ih' [c] t' rfl).1 hg⟩
          · rintro ⟨t', rfl, hg⟩; exact ⟨t', rfl, (ih' [c] t' rfl).2 hg⟩
        · exact hc
        · exact hq

/-! ## The shortcuts -/

theorem fits_prefix {l t : List Char} : Fits (l.map .is ++ [.any]) t ↔ l <+: t := by
  rw [fits_lit]
  constructor
  · rintro ⟨t', rfl, _⟩; exact ⟨t', rfl⟩
  · rintro ⟨t', rfl⟩; exact ⟨t', rfl, fits_any.2 ⟨t'.length, by simp, by simp [fits_nil]⟩⟩

theorem fits_exact {l t : List Char} : Fits (l.map .is) t ↔ t = l := by
  have := fits_lit (l := l) (is := []) (t := t)
  rw [List.append_nil] at this
  rw [this]; simp [fits_nil]

theorem fits_suffix {l t : List Char} : Fits (.any :: l.map .is) t ↔ l <:+ t := by
  rw [fits_any]
  simp only [fits_exact]
  constructor
  · rintro ⟨k, _, h⟩; rw [← h]; exact List.drop_suffix _ _
  · rintro ⟨a, rfl⟩; exact ⟨a.length, by simp, by simp⟩

theorem fits_infix {l t : List Char} : Fits (.any :: (l.map .is ++ [.any])) t ↔ l <:+: t := by
  rw [fits_any]
  simp only [fits_prefix]
  constructor
  · rintro ⟨k, _, h⟩; exact h.isInfix.trans (List.drop_suffix _ _).isInfix
  · rintro ⟨a, b, rfl⟩; exact ⟨a.length, by simp, by simp⟩

theorem readPlain_append {a b : List Char} : readPlain (a ++ b) = readPlain a ++ readPlain b := by
  induction a using readPlain.induct with
  | case1 => rfl
  | case2 cs ih => simp [readPlain, ih]
  | case3 cs ih => simp [readPlain, ih]
  | case4 c cs h1 h2 ih =>
    rw [List.cons_append, readPlain, readPlain, ih]
    · rfl
    all_goals first | exact h1 | exact h2

/-- **The cell-by-cell criterion matcher is right** for patterns without an escape,
when question marks meet one-byte characters only.

Partial: `~` is not an escape here (`textLike_escape_wrong`), and `?` stands for one
byte instead of one character (`textLike_quest_wrong`). -/
theorem textLike_correct_partial (p t : List Char) (hesc : '~' ∉ p) (hq : '?' ∉ p ∨ Ascii t) :
    textLike p t = true ↔ Fits (read p) t := by
  rw [read_eq_readPlain hesc]
  unfold textLike
  split
  · next h =>
    obtain ⟨h1, _, _⟩ := h
    split
    · next h2 =>
      obtain ⟨a, rfl⟩ := List.getLast?_eq_some_iff.1 h2.1
      rw [List.dropLast_concat] at h2 ⊢
      rw [List.isPrefixOf_iff_prefix, readPlain_append, readPlain_lit h2.2 (fun hm => h1 (by simp [hm]))]
      exact fits_prefix.symm
    · split
      · next h2 =>
        cases p with
        | nil => simp at h2
        | cons c p =>
          simp only [List.head?_cons, Option.some.injEq, List.tail_cons] at h2 ⊢
          obtain ⟨rfl, h2⟩ := h2
          rw [List.isSuffixOf_iff_suffix, readPlain, readPlain_lit h2 (fun hm => h1 (by simp [hm]))]
          exact fits_suffix.symm
      · split
        · next h3 h2 =>
          rw [decide_eq_true_iff]
          cases p with
          | nil => simp at h2
          | cons c p =>
            simp only [List.head?_cons, Option.some.injEq, List.tail_cons] at h2 ⊢
            obtain ⟨rfl, h2, h4⟩ := h2
            rcases List.eq_nil_or_concat p with rfl | ⟨p', d, hp⟩
            · simp at h3
            · rw [List.concat_eq_append] at hp
              subst hp
              have : d = '*' := by
                rw [← List.cons_append, List.getLast?_concat] at h2
                simpa using h2
              subst this
              rw [List.dropLast_concat]
              rw [List.dropLast_concat] at h4
              rw [readPlain, readPlain_append,
                readPlain_lit h4 (fun hm => h1 (by simp [hm]))]
              exact fits_infix.symm
        · split
          · next h2 =>
            rw [readPlain_lit h2 h1, fits_exact, decide_eq_true_iff]
          · exact glob_iff p t hq
  · exact glob_iff p t hq

/-- A case meeting the hypotheses for each shortcut and for the general matcher. -/
example : textLike "ab*".toList "abé".toList = true ∧ textLike "*é".toList "abé".toList = true ∧
    textLike "*b*".toList "abé".toList = true ∧ textLike "a*é".toList "abé".toList = true ∧
    textLike "a?c*e".toList "abcde".toList = true ∧ textLike "a?c*e".toList "abde".toList = false := by
  decide +kernel

/-- `?` does not match a character of more than one byte: `caf?` misses `café`. -/
theorem textLike_quest_wrong :
    ¬ ∀ p t : List Char, '~' ∉ p → (textLike p t = true ↔ Fits (read p) t) := by
  intro h
  have h1 := (h "caf?".toList "café".toList (by decide)).2
    (.is 'c' (.is 'a' (.is 'f' (.one 'é' .nil))))
  have h2 : textLike "caf?".toList "café".toList = false := by decide +kernel
  rw [h2] at h1; cases h1

/-- `~` does not escape: `5~*` misses `5*` and matches `5~6`. -/
theorem textLike_escape_wrong :
    ¬ ∀ p t : List Char, Ascii t → (textLike p t = true ↔ Fits (read p) t) := by
  intro h
  have h1 := (h "5~*".toList "5*".toList (by unfold Ascii; decide)).2 (.is '5' (.is '*' .nil))
  have h2 : textLike "5~*".toList "5*".toList = false := by decide +kernel
  rw [h2] at h1; cases h1

/-! ## The rewritten pattern -/

/-- **The column matcher is right** for patterns without `~`, `%`, `_` and `\`.

Partial: these four characters are not quoted when the pattern is rewritten, see
`readLike_percent_wrong`, `toLike_underscore_wrong` and `toLike_escape_wrong`. -/
theorem toLike_correct_partial (p t : List Char) (h1 : '~' ∉ p) (h2 : '%' ∉ p) (h3 : '_' ∉ p)
    (h4 : '\\' ∉ p) : Fits (readLike (toLike p)) t ↔ Fits (read p) t := by
  rw [read_eq_readPlain h1]
  have : readLike (toLike p) = readPlain p := by
    clear h1
    induction p using readPlain.induct with
    | case1 => rfl
    | case2 cs ih =>
      simp only [List.mem_cons, not_or] at h2 h3 h4
      have e : toLike ('*' :: cs) = '%' :: toLike cs := by simp [toLike]
      rw [e, readLike, readPlain, ih h2.2 h3.2 h4.2]
    | case3 cs ih =>
      simp only [List.mem_cons, not_or] at h2 h3 h4
      have e : toLike ('?' :: cs) = '_' :: toLike cs := by simp [toLike]
      rw [e, readLike, readPlain, ih h2.2 h3.2 h4.2]
    | case4 c cs hc1 hc2 ih =>
      simp only [List.mem_cons, not_or] at h2 h3 h4
      have e : toLike (c :: cs) = c :: toLike cs := by
        have a1 : c ≠ '*' := hc1
        have a2 : c ≠ '?' := hc2
        simp [toLike, a1, a2]
      rw [e, readLike, readPlain, ih h2.2 h3.2 h4.2]
      · exact hc1
      · exact hc2
      all_goals (intros; simp_all)
  rw [this]

/-- Plain texts are compared as patterns too: right for texts without `%`, `_` and
`\`. -/
theorem readLike_plain_partial (p t : List Char) (h2 : '%' ∉ p) (h3 : '_' ∉ p) (h4 : '\\' ∉ p) :
    Fits (readLike p) t ↔ t = p := by
  have : readLike p = p.map .is := by
    induction p with
    | nil => rfl
    | cons c p ih =>
      simp only [List.mem_cons, not_or] at h2 h3 h4
      rw [readLike, ih h2.2 h3.2 h4.2, List.map_cons]
      all_goals (intros; simp_all)
  rw [this, fits_exact]

/-- The criterion `50%` is met by any text beginning with `50`. -/
theorem readLike_percent_wrong : Fits (readLike "50%".toList) "50 apples".toList := by
  have e : readLike "50%".toList = [.is '5', .is '0', .any] := by decide +kernel
  rw [e]
  refine .is '5' (.is '0' ?_)
  exact fits_any.2 ⟨7, by decide, .nil⟩

/-- The criterion `a_b` is met by `axb`, and the pattern `a_*` by `axb`. -/
theorem toLike_underscore_wrong : Fits (readLike "a_b".toList) "axb".toList ∧
    Fits (readLike (toLike "a_*".toList)) "axb".toList ∧ ¬ Fits (read "a_*".toList) "axb".toList := by
  have e1 : readLike "a_b".toList = [.is 'a', .one, .is 'b'] := by decide +kernel
  have e2 : readLike (toLike "a_*".toList) = [.is 'a', .one, .any] := by decide +kernel
  have e3 : read "a_*".toList = [.is 'a', .is '_', .any] := by decide +kernel
  rw [e1, e2, e3]
  refine ⟨.is 'a' (.one 'x' (.is 'b' .nil)), .is 'a' (.one 'x' (.more 'b' (.skip .nil))), ?_⟩
  intro h
  rw [fits_is] at h
  obtain ⟨t, ht, h⟩ := h
  rw [fits_is] at h
  obtain ⟨t', ht', _⟩ := h
  have : "axb".toList = ['a', 'x', 'b'] := by decide
  rw [this] at ht
  simp at ht
  rw [← ht] at ht'
  simp at ht'

/-- The pattern `5~*` misses `5*`; the pattern `a\\b*` misses `a\\bc`. -/
theorem toLike_escape_wrong :
    ¬ Fits (readLike (toLike "5~*".toList)) "5*".toList ∧ Fits (read "5~*".toList) "5*".toList ∧
    ¬ Fits (readLike (toLike "a\\b*".toList)) "a\\bc".toList ∧ Fits (read "a\\b*".toList) "a\\bc".toList := by
  have e1 : readLike (toLike "5~*".toList) = [.is '5', .is '~', .any] := by decide +kernel
  have e2 : read "5~*".toList = [.is '5', .is '*'] := by decide +kernel
  have e3 : readLike (toLike "a\\b*".toList) = [.is 'a', .is 'b', .any] := by decide +kernel
  have e4 : read "a\\b*".toList = [.is 'a', .is '\\', .is 'b', .any] := by decide +kernel
  rw [e1, e2, e3, e4]
  refine ⟨?_, .is '5' (.is '*' .nil), ?_, .is 'a' (.is '\\' (.is 'b' (.more 'c' (.skip .nil))))⟩
  · intro h
    simp [fits_is] at h
  · intro h
    simp [fits_is] at h

end Verif.Lookup
