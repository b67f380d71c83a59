import Verif.Csv.Model

/-!
# What becomes of a value that is written and read back

The specification speaks of decimal numerals (`Nat.toDigits 10`, of the standard library), with or
without a sign, and of spellings of `true` and `false`.
-/
namespace Verif.Csv

variable {F T : Type}

/-- The decimal numeral of a number. -/
abbrev dec (n : Nat) : Str := Nat.toDigits 10 n

/-! ## Numerals -/

theorem digit_char {c : Char} (h : c.isDigit = true) : ∃ k < 10, c = k.digitChar := by
  have h1 : 48 ≤ c.toNat ∧ c.toNat ≤ 57 := by
    simp only [Char.isDigit, Bool.and_eq_true, decide_eq_true_eq] at h
    exact ⟨h.1, h.2⟩
  obtain ⟨k, hk⟩ : ∃ k, c.toNat = 48 + k := ⟨c.toNat - 48, by omega⟩
  refine ⟨k, by omega, ?_⟩
  have e : c = Char.ofNat (48 + k) := by rw [← hk, Char.ofNat_toNat]
  have hk10 : k < 10 := by omega
  subst e
  match k, hk10 with
  | 0, _ | 1, _ | 2, _ | 3, _ | 4, _ | 5, _ | 6, _ | 7, _ | 8, _ | 9, _ => rfl
  | k + 10, h => omega

theorem digits_after (cs : Str) (h : ∀ c ∈ cs, c.isDigit = true) (n : Nat) (hn : 0 < n) :
    dec n ++ cs = dec (Nat.ofDigitChars 10 cs n) := by
  induction cs generalizing n with
  | nil => simp
  | cons c cs ih =>
    obtain ⟨k, hk, rfl⟩ := digit_char (h c (by simp))
    rw [Nat.ofDigitChars_cons_digitChar_of_lt_ten hk, ← ih (fun x hx => h x (by simp [hx])) _ (by omega)]
    show _ = Nat.toDigits 10 (10 * n + k) ++ cs
    rw [← Nat.toDigits_append_toDigits (by omega) hn hk, Nat.toDigits_of_lt_base hk]
    simp

theorem digits_dec {d : Str} (hne : d ≠ []) (h0 : ¬ (1 < d.length ∧ d.head? = some '0')) (h : ∀ c ∈ d, c.isDigit = true) :
    d = dec (Nat.ofDigitChars 10 d 0) := by
  cases d with
  | nil => exact absurd rfl hne
  | cons c cs =>
    obtain ⟨k, hk, rfl⟩ := digit_char (h c (by simp))
    rw [Nat.ofDigitChars_cons_digitChar_of_lt_ten hk]
    cases cs with
    | nil => simp [Nat.toDigits_of_lt_base hk]
    | cons x xs =>
      have hpos : 0 < k := by
        rcases Nat.eq_zero_or_pos k with rfl | h'
        · exact absurd ⟨by simp, rfl⟩ h0
        · exact h'
      rw [← digits_after (x :: xs) (fun y hy => h y (List.mem_cons_of_mem _ hy)) _ (by omega)]
      simp [Nat.toDigits_of_lt_base hk]

theorem dec_digit {n : Nat} {c : Char} (h : c ∈ dec n) : c.isDigit = true := Nat.isDigit_of_mem_toDigits (by decide) (by decide) h

theorem dec_value (n : Nat) : Nat.ofDigitChars 10 (dec n) 0 = n := Nat.ofDigitChars_toDigits (by decide) (by decide)

/-- A numeral of two digits or more does not begin with a zero. -/
theorem dec_no_zero (n : Nat) (rest : Str) (h : (dec n ++ rest).head? = some '0') : n = 0 := by
  induction n using Nat.strongRecOn generalizing rest with
  | _ n ih =>
    by_cases h10 : n < 10
    · rw [dec, Nat.toDigits_of_lt_base h10] at h
      match n, h10 with
      | 0, _ => rfl
      | 1, _ | 2, _ | 3, _ | 4, _ | 5, _ | 6, _ | 7, _ | 8, _ | 9, _ => exact absurd h (by simp [Nat.digitChar])
      | k + 10, h => omega
    · rw [dec, Nat.toDigits_of_base_le (by decide) (by omega), List.append_assoc] at h
      have := ih (n / 10) (by omega) _ h
      omega

theorem dec_head_digit (n : Nat) : ∃ c cs, dec n = c :: cs ∧ c.isDigit = true := by
  cases h : dec n with
  | nil => exact absurd h Nat.toDigits_ne_nil
  | cons c cs => exact ⟨c, cs, rfl, dec_digit (n := n) (by rw [h]; simp)⟩

theorem parseDigits_iff (sign : Int) (d : Str) (i : Int) :
    parseDigits sign d = some i ↔ ∃ n : Nat, n < 2 ^ 63 ∧ d = dec n ∧ i = sign * n := by
  constructor
  · intro h
    simp only [parseDigits] at h
    split at h
    · cases h
    · next hne =>
      split at h
      · cases h
      · next h0 =>
        split at h
        · next hall =>
          split at h
          · next hle =>
            cases h
            exact ⟨_, by omega, digits_dec hne h0 (by simpa using hall), rfl⟩
          · cases h
        · cases h
  · rintro ⟨n, hn, rfl, rfl⟩
    have h1 : dec n ≠ [] := Nat.toDigits_ne_nil
    have h2 : ¬ (1 < (dec n).length ∧ (dec n).head? = some '0') := by
      rintro ⟨hl, hh⟩
      have := dec_no_zero n [] (by simpa using hh)
      subst this
      simp at hl
    have h3 : (dec n).all Char.isDigit = true := by
      rw [List.all_eq_true]; exact fun c hc => dec_digit hc
    simp only [parseDigits, h1, h2, h3, if_false, if_true, dec_value]
    rw [if_pos (by omega)]

/-- `n` written as `s`, a plus sign being allowed. -/
def Numeral (s : Str) (i : Int) : Prop :=
  ∃ n : Nat, n < 2 ^ 63 ∧ ((s = dec n ∧ i = n) ∨ (s = '+' :: dec n ∧ i = n) ∨ (s = '-' :: dec n ∧ i = -(n : Int)))

theorem parseI64_iff (s : Str) (i : Int) : parseI64 s = some i ↔ Numeral s i := by
  cases s with
  | nil =>
    simp only [parseI64, Numeral]
    constructor
    · intro h; cases h
    · rintro ⟨n, -, ⟨h, -⟩ | ⟨h, -⟩ | ⟨h, -⟩⟩
      · exact absurd h.symm Nat.toDigits_ne_nil
      · cases h
      · cases h
  | cons c d =>
    have notsign : ∀ n, (dec n).head? ≠ some '+' ∧ (dec n).head? ≠ some '-' := by
      intro n
      obtain ⟨x, xs, e, hx⟩ := dec_head_digit n
      rw [e]
      constructor <;> · intro h; simp only [List.head?_cons, Option.some.injEq] at h; subst h; cases hx
    simp only [parseI64]
    split
    · next hc =>
      subst hc
      rw [parseDigits_iff]
      constructor
      · rintro ⟨n, hn, rfl, rfl⟩
        exact ⟨n, hn, .inr (.inl ⟨rfl, by omega⟩)⟩
      · rintro ⟨n, hn, ⟨h, -⟩ | ⟨h, rfl⟩ | ⟨h, -⟩⟩
        · exact absurd (by rw [← h]; rfl) (notsign n).1
        · exact ⟨n, hn, by simpa using h, by omega⟩
        · simp at h
    · next hp =>
      split
      · next hc =>
        subst hc
        rw [parseDigits_iff]
        constructor
        · rintro ⟨n, hn, rfl, rfl⟩
          exact ⟨n, hn, .inr (.inr ⟨rfl, by omega⟩)⟩
        · rintro ⟨n, hn, ⟨h, -⟩ | ⟨h, -⟩ | ⟨h, rfl⟩⟩
          · exact absurd (by rw [← h]; rfl) (notsign n).2
          · simp at h
          · exact ⟨n, hn, by simpa using h, by omega⟩
      · next hm =>
        rw [parseDigits_iff]
        constructor
        · rintro ⟨n, hn, h, rfl⟩
          exact ⟨n, hn, .inl ⟨h, by omega⟩⟩
        · rintro ⟨n, hn, ⟨h, rfl⟩ | ⟨h, -⟩ | ⟨h, -⟩⟩
          · exact ⟨n, hn, h, by omega⟩
          · simp only [List.cons.injEq] at h; exact absurd h.1 hp
          · simp only [List.cons.injEq] at h; exact absurd h.1 hm

/-! ## Reading -/

/-- Spelled like a truth value, in capitals or not. -/
def SpellsBool (s : Str) (b : Bool) : Prop :=
  s.map Char.toLower = (if b then ['t', 'r', 'u', 'e'] else ['f', 'a', 'l', 's', 'e'])

theorem parseBool_iff (s : Str) (b : Bool) : parseBool s = some b ↔ SpellsBool s b := by
  unfold parseBool SpellsBool
  split
  · next h => cases b <;> simp [h]
  · next h =>
    split
    · next h' => cases b <;> simp [h']
    · next h' => cases b <;> simp [h, h']

/-- A numeral is not a spelling of a truth value. -/
theorem numeral_not_bool {s : Str} {i : Int} (h : Numeral s i) (b : Bool) : ¬ SpellsBool s b := by
  have key : ∀ c ∈ s, c.isDigit = true ∨ c = '+' ∨ c = '-' := by
    obtain ⟨n, -, ⟨rfl, -⟩ | ⟨rfl, -⟩ | ⟨rfl, -⟩⟩ := h <;> intro c hc
    · exact .inl (dec_digit hc)
    · rcases List.mem_cons.mp hc with h | h
      · exact .inr (.inl h)
      · exact .inl (dec_digit h)
    · rcases List.mem_cons.mp hc with h | h
      · exact .inr (.inr h)
      · exact .inl (dec_digit h)
  intro hb
  unfold SpellsBool at hb
  cases s with
  | nil => cases b <;> simp at hb
  | cons c s =>
    have hc : c.toLower = 't' ∨ c.toLower = 'f' := by
      cases b <;> simp at hb
      · exact .inr hb.1
      · exact .inl hb.1
    rcases key c (by simp) with h | h | h
    · obtain ⟨k, hk, rfl⟩ := digit_char h
      match k, hk with
      | 0, _ | 1, _ | 2, _ | 3, _ | 4, _ | 5, _ | 6, _ | 7, _ | 8, _ | 9, _ => revert hc; decide
      | k + 10, h => omega
    · subst h; revert hc; decide
    · subst h; revert hc; decide

theorem numeral_ne {s : Str} {i : Int} (h : Numeral s i) : s ≠ [] := by
  obtain ⟨n, -, ⟨rfl, -⟩ | ⟨rfl, -⟩ | ⟨rfl, -⟩⟩ := h
  · exact Nat.toDigits_ne_nil
  · simp
  · simp

/-- **A field is read as the integer `i` exactly when it is a numeral of `i`** of less than `2 ^ 63`
in absolute value, with or without a sign, without leading zeros. -/
theorem read_int_iff (lib : Lib F T) (mode : Mode) (hm : mode ≠ .off) (s : Str) (i : Int) :
    infer lib mode false s = some (.int i) ↔ Numeral s i := by
  constructor
  · intro h
    unfold infer at h
    split at h
    · cases h
    · rw [if_neg (by simp [hm])] at h
      split at h
      · cases h
      · split at h
        · next j hj =>
          cases h
          exact (parseI64_iff _ _).mp hj
        · split at h
          · cases h
          · split at h
            · split at h <;> cases h
            · cases h
  · intro h
    have hb : parseBool s = none := by
      cases e : parseBool s with
      | none => rfl
      | some b => exact absurd ((parseBool_iff s b).mp e) (numeral_not_bool h b)
    have hi := (parseI64_iff s i).mpr h
    simp [infer, numeral_ne h, hm, hb, hi]

/-- **A field is read as a truth value exactly when it spells it.** -/
theorem read_bool_iff (lib : Lib F T) (mode : Mode) (hm : mode ≠ .off) (s : Str) (b : Bool) :
    infer lib mode false s = some (.bool b) ↔ SpellsBool s b := by
  rw [← parseBool_iff]
  constructor
  · intro h
    unfold infer at h
    split at h
    · cases h
    · rw [if_neg (by simp [hm])] at h
      split at h
      · next b' hb => cases h; exact hb
      · split at h
        · cases h
        · split at h
          · cases h
          · split at h
            · split at h <;> cases h
            · cases h
  · intro h
    have : s ≠ [] := by rintro rfl; cases b <;> simp [parseBool] at h
    simp [infer, this, hm, h]

/-- Without dates, **a text comes back as itself exactly when** it is not empty, does not spell a
truth value, is not a numeral of less than `2 ^ 63`, and the reader of floating point numbers does
not take it. -/
theorem text_comes_back_iff (lib : Lib F T) (policy : Policy) (s : Str) :
    (field lib policy (.text s)).bind (infer lib .basic false) = some (.text s) ↔
      s ≠ [] ∧ (∀ b, ¬ SpellsBool s b) ∧ (∀ i, ¬ Numeral s i) ∧ parseF64 lib s = none := by
  have hf : field lib policy (.text s) = some s := by simp [field, fieldAt]
  rw [hf, Option.bind_some]
  constructor
  · intro h
    unfold infer at h
    split at h
    · cases h
    · next hne =>
      rw [if_neg (by simp)] at h
      split at h
      · cases h
      · next hb =>
        split at h
        · cases h
        · next hi =>
          split at h
          · cases h
          · next hx =>
            refine ⟨hne, ?_, ?_, hx⟩
            · intro b hb'
              rw [(parseBool_iff s b).mpr hb'] at hb
              cases hb
            · intro i hi'
              rw [(parseI64_iff s i).mpr hi'] at hi
              cases hi
  · rintro ⟨hne, hb, hi, hx⟩
    have hb' : parseBool s = none := by
      cases e : parseBool s with
      | none => rfl
      | some b => exact absurd ((parseBool_iff s b).mp e) (hb b)
    have hi' : parseI64 s = none := by
      cases e : parseI64 s with
      | none => rfl
      | some i => exact absurd ((parseI64_iff s i).mp e) (hi i)
    simp [infer, hne, hb', hi', hx]

/-- **With type inference off every text but the empty one comes back.** -/
theorem text_kept_when_off (lib : Lib F T) (policy : Policy) (force : Bool) (s : Str) (hs : s ≠ []) :
    (field lib policy (.text s)).bind (infer lib .off force) = some (.text s) := by
  simp [field, fieldAt, infer, hs]

/-! ## Writing and reading back -/

theorem showInt_numeral (i : Int) (h : -(2 ^ 63) < i ∧ i < 2 ^ 63) : Numeral (showInt i) i := by
  cases i with
  | ofNat n => exact ⟨n, by simp at h; omega, .inl ⟨rfl, rfl⟩⟩
  | negSucc n => exact ⟨n + 1, by omega, .inr (.inr ⟨rfl, by omega⟩)⟩

/-- **Every integer of the machine but the least comes back.** -/
theorem int_comes_back (lib : Lib F T) (policy : Policy) (mode : Mode) (hm : mode ≠ .off) (i : Int) (h : -(2 ^ 63) < i ∧ i < 2 ^ 63) :
    (field lib policy (.int i)).bind (infer lib mode false) = some (.int i) := by
  have hf : field lib policy (.int i) = some (showInt i) := by simp [field, fieldAt]
  rw [hf, Option.bind_some, read_int_iff lib mode hm]
  exact showInt_numeral i h

/-- **Truth values come back.** -/
theorem bool_comes_back (lib : Lib F T) (policy : Policy) (mode : Mode) (hm : mode ≠ .off) (b : Bool) :
    (field lib policy (.bool b)).bind (infer lib mode false) = some (.bool b) := by
  cases b
  · have hf : field lib policy (.bool false) = some ['F', 'A', 'L', 'S', 'E'] := by simp [field, fieldAt]
    rw [hf, Option.bind_some, read_bool_iff lib mode hm]
    show _ = _; decide
  · have hf : field lib policy (.bool true) = some ['T', 'R', 'U', 'E'] := by simp [field, fieldAt]
    rw [hf, Option.bind_some, read_bool_iff lib mode hm]
    show _ = _; decide

/-- A numeral too large for the machine is not read as an integer. -/
theorem large_not_numeral {n : Nat} (h : 2 ^ 63 ≤ n) (s : Str) (hs : s = dec n ∨ s = '-' :: dec n) (i : Int) : ¬ Numeral s i := by
  have inj : ∀ {a b : Nat}, dec a = dec b → a = b := by
    intro a b e
    have := congrArg (fun l => Nat.ofDigitChars 10 l 0) e
    simpa only [dec_value] using this
  have notsign : ∀ a (c : Char) x, c.isDigit = false → dec a ≠ c :: x := by
    intro a c x hc e
    have := dec_digit (n := a) (c := c) (by rw [e]; simp)
    rw [hc] at this; cases this
  rintro ⟨m, hm, hN⟩
  rcases hs with rfl | rfl
  · rcases hN with ⟨e, -⟩ | ⟨e, -⟩ | ⟨e, -⟩
    · have := inj e; omega
    · exact notsign n '+' _ rfl e
    · exact notsign n '-' _ rfl e
  · rcases hN with ⟨e, -⟩ | ⟨e, -⟩ | ⟨e, -⟩
    · exact notsign m '-' _ rfl e.symm
    · simp at e
    · simp only [List.cons.injEq, true_and] at e
      have := inj e; omega

theorem plain_not_float (lib : Lib F T) {n : Nat} {s : Str} (hs : s = dec n ∨ s = '-' :: dec n) : parseF64 lib s = none := by
  have key : ∀ c ∈ s, c.isDigit = true ∨ c = '-' := by
    rcases hs with rfl | rfl <;> intro c hc
    · exact .inl (dec_digit hc)
    · rcases List.mem_cons.mp hc with h | h
      · exact .inr h
      · exact .inl (dec_digit h)
  have : ¬ ('.' ∈ s ∨ 'e' ∈ s ∨ 'E' ∈ s) := by
    rintro (h | h | h) <;> · have := key _ h; revert this; decide
  simp [parseF64, this]

theorem plain_not_bool {n : Nat} {s : Str} (hs : s = dec n ∨ s = '-' :: dec n) (b : Bool) : ¬ SpellsBool s b := by
  intro hb
  unfold SpellsBool at hb
  have key : ∀ c ∈ s, c.isDigit = true ∨ c = '-' := by
    rcases hs with rfl | rfl <;> intro c hc
    · exact .inl (dec_digit hc)
    · rcases List.mem_cons.mp hc with h | h
      · exact .inr h
      · exact .inl (dec_digit h)
  cases s with
  | nil => cases b <;> simp at hb
  | cons c s =>
    have hc : c.toLower = 't' ∨ c.toLower = 'f' := by
      cases b <;> simp at hb
      · exact .inr hb.1
      · exact .inl hb.1
    rcases key c (by simp) with h | h
    · obtain ⟨k, hk, rfl⟩ := digit_char h
      match k, hk with
      | 0, _ | 1, _ | 2, _ | 3, _ | 4, _ | 5, _ | 6, _ | 7, _ | 8, _ | 9, _ => revert hc; decide
      | k + 10, h => omega
    · subst h; revert hc; decide

/-- **An integral number of `2 ^ 63` or more comes back as a text**, whatever kind of value it was:
the least integer of the machine, or a floating point number, which is printed without an exponent. -/
theorem large_becomes_text (lib : Lib F T) {n : Nat} (h : 2 ^ 63 ≤ n) (s : Str) (hs : s = dec n ∨ s = '-' :: dec n) :
    infer lib .basic false s = some (.text s) := by
  have hne : s ≠ [] := by
    rcases hs with rfl | rfl
    · exact Nat.toDigits_ne_nil
    · simp
  have := (text_comes_back_iff lib .error s).mpr ⟨hne, plain_not_bool hs, large_not_numeral h s hs, plain_not_float lib hs⟩
  simpa [field, fieldAt] using this

/-- The least integer of the machine does not come back. -/
theorem least_int_lost (lib : Lib F T) (policy : Policy) :
    (field lib policy (.int (-(2 ^ 63)))).bind (infer lib .basic false) = some (.text (showInt (-(2 ^ 63)))) := by
  have hf : field lib policy (.int (-(2 ^ 63))) = some (showInt (-(2 ^ 63))) := by simp [field, fieldAt]
  rw [hf, Option.bind_some]
  exact large_becomes_text lib (n := 2 ^ 63) (Nat.le_refl _) _ (.inr rfl)

/-- A floating point number that prints as a numeral of `2 ^ 63` or more comes back as a text. -/
theorem large_number_lost (lib : Lib F T) (policy : Policy) (x : F) {n : Nat} (h : 2 ^ 63 ≤ n)
    (hx : lib.showF x = dec n ∨ lib.showF x = '-' :: dec n) :
    (field lib policy (.num x)).bind (infer lib .basic false) = some (.text (lib.showF x)) := by
  have hf : field lib policy (.num x) = some (lib.showF x) := by simp [field, fieldAt]
  rw [hf, Option.bind_some]
  exact large_becomes_text lib h _ hx

/-- A floating point number that prints as a numeral comes back as the integer, of the same value. -/
theorem integral_number (lib : Lib F T) (policy : Policy) (mode : Mode) (hm : mode ≠ .off) (x : F) (i : Int)
    (h : -(2 ^ 63) < i ∧ i < 2 ^ 63) (hx : lib.showF x = showInt i) :
    (field lib policy (.num x)).bind (infer lib mode false) = some (.int i) := by
  have hf : field lib policy (.num x) = some (lib.showF x) := by simp [field, fieldAt]
  rw [hf, Option.bind_some, read_int_iff lib mode hm, hx]
  exact showInt_numeral i h

/-- **A floating point number with a fractional part comes back**: it is printed as a numeral, a
point and further digits, and the standard library reads back what it printed. -/
theorem fraction_comes_back (lib : Lib F T) (policy : Policy) (mode : Mode) (hm : mode ≠ .off) (x : F) (n : Nat) (fr : Str)
    (hx : lib.showF x = dec n ++ '.' :: fr ∨ lib.showF x = '-' :: (dec n ++ '.' :: fr)) (hr : lib.parseF (lib.showF x) = some x) :
    (field lib policy (.num x)).bind (infer lib mode false) = some (.num x) := by
  have hf : field lib policy (.num x) = some (lib.showF x) := by simp [field, fieldAt]
  rw [hf, Option.bind_some]
  generalize lib.showF x = s at hx hr
  have hdot : '.' ∈ s := by rcases hx with rfl | rfl <;> simp
  have hne : s ≠ [] := by rintro rfl; simp at hdot
  have hb : parseBool s = none := by
    cases e : parseBool s with
    | none => rfl
    | some b =>
      have := (parseBool_iff s b).mp e
      unfold SpellsBool at this
      have hmem : Char.toLower '.' ∈ s.map Char.toLower := List.mem_map_of_mem hdot
      rw [this] at hmem
      revert hmem
      cases b <;> decide
  have hi : parseI64 s = none := by
    cases e : parseI64 s with
    | none => rfl
    | some i =>
      obtain ⟨m, -, ⟨rfl, -⟩ | ⟨rfl, -⟩ | ⟨rfl, -⟩⟩ := (parseI64_iff s i).mp e
      · have := dec_digit hdot; cases this
      · rcases List.mem_cons.mp hdot with h | h
        · cases h
        · have := dec_digit h; cases this
      · rcases List.mem_cons.mp hdot with h | h
        · cases h
        · have := dec_digit h; cases this
  have hstrip : strip '-' (strip '+' s) = dec n ++ '.' :: fr := by
    obtain ⟨c, cs, e, hc⟩ := dec_head_digit n
    have h1 : c ≠ '+' := by rintro rfl; cases hc
    have h2 : c ≠ '-' := by rintro rfl; cases hc
    rcases hx with rfl | rfl
    · rw [e]; simp [strip, h1, h2]
    · simp [strip]
  have hz : ¬ (1 < (dec n ++ '.' :: fr).length ∧ (dec n ++ '.' :: fr).head? = some '0' ∧ ¬ ['0', '.'] <+: (dec n ++ '.' :: fr)) := by
    rintro ⟨-, h0, h1⟩
    have := dec_no_zero n _ h0
    subst this
    exact h1 ⟨fr, by simp [dec]⟩
  have hfl : parseF64 lib s = some x := by
    simp only [parseF64, hdot, true_or, if_true, hstrip]
    exact (if_neg hz).trans hr
  simp [infer, hne, hm, hb, hi, hfl]

/-! ## Cases -/

/-- A small library: numbers are counted in quarters, `some (q, neg)`. -/
def quarters : Lib Nat Nat where
  showF q := dec (q / 4) ++ (match q % 4 with | 0 => [] | 1 => ['.', '2', '5'] | 2 => ['.', '5'] | _ => ['.', '7', '5'])
  parseF s := if s = ['3', '.', '2', '5'] then some 13 else if s = ['1', 'e', '5'] then some 400000 else none
  showT d := dec d
  parseT _ := none

example : (field quarters .error (.num 13)).bind (infer quarters .basic false) = some (.num 13) :=
  fraction_comes_back quarters .error .basic (by decide) 13 3 ['2', '5'] (.inl (by decide)) (by decide +kernel)
example : (field quarters .error (.num 12)).bind (infer quarters .basic false) = some (.int 3) :=
  integral_number quarters .error .basic (by decide) 12 3 (by decide) (by decide +kernel)
example : (field quarters .error (.num (2 ^ 65))).bind (infer quarters .basic false) = some (.text (dec (2 ^ 63))) := by
  have h : quarters.showF (2 ^ 65) = dec (2 ^ 63) := by decide +kernel
  rw [← h]
  exact large_number_lost quarters .error _ (Nat.le_refl _) (.inl h)
example : (field quarters .error (.int (-42))).bind (infer quarters .basic false) = some (.int (-42)) :=
  int_comes_back quarters .error .basic (by decide) _ (by decide)
example : (field quarters .error (.text ['0', '0', '7'])).bind (infer quarters .basic false) = some (.text ['0', '0', '7']) := by decide +kernel
/-- Texts that are not read back: a version number, a product code, a name, a text that is empty. -/
example : (field quarters .error (.text ['+', '7'])).bind (infer quarters .basic false) = some (.int 7) ∧
    (field quarters .error (.text ['1', 'e', '5'])).bind (infer quarters .basic false) = some (.num 400000) ∧
    (field quarters .error (.text ['T', 'r', 'u', 'e'])).bind (infer quarters .basic false) = some (.bool true) ∧
    (field quarters .error (.text [])).bind (infer quarters .basic false) = none := by decide +kernel

/-- **Texts do not come back in general.** -/
theorem texts_change : ¬ ∀ s : Str, (field quarters .error (.text s)).bind (infer quarters .basic false) = some (.text s) := by
  intro h
  exact absurd (h ['7']) (by decide +kernel)

/-- **Errors come back as texts, durations as integers.** -/
theorem errors_become_texts : (field quarters .error (.error ['#', 'N', '/', 'A'])).bind (infer quarters .basic false) = some (.text ['#', 'N', '/', 'A']) ∧
    (field quarters .error (.duration 90)).bind (infer quarters .basic false) = some (.int 90) := by decide +kernel

end Verif.Csv
