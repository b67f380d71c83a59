import Verif.A1.Lemmas

/-!
# C02, C03: column letters and A1 text
-/

namespace Verif.A1

/-! ## Specification -/

/-- The number of a letter string in bijective base 26: `A = 1, ..., Z = 26, AA = 27, ...`,
upper and lower case alike. -/
def columnNumber (s : List Char) : Nat := s.foldl (fun v c => 26 * v + (c.toUpper.toNat - 64)) 0

theorem columnNumber_eq (s : List Char) (h : ∀ c ∈ s, c.isAlpha = true) :
    columnNumber s = valueFrom 0 s := by
  have gen : ∀ (s : List Char) (v : Nat), (∀ c ∈ s, c.isAlpha = true) →
      s.foldl (fun v c => 26 * v + (c.toUpper.toNat - 64)) v = valueFrom v s := by
    intro s
    induction s with
    | nil => intro v _; rfl
    | cons c s ih =>
      intro v h
      rw [List.foldl_cons, valueFrom_cons, ih _ (fun d hd => h d (by simp [hd]))]
      have hc := h c (by simp)
      have hu := toUpper_toNat c hc
      rw [isAlpha_iff] at hc
      have : c.toUpper.toNat - 64 = pos c + 1 := by
        unfold pos; rw [hu]; split <;> omega
      rw [this]
  exact gen s 0 h

/-! ## C02 -/

/-- **C02** (parse, exact specification): a letter string is accepted exactly when it is non-empty,
made of ASCII letters, and its 0-based number fits 32 bits; the result is that number. -/
theorem letters_parse_iff (s : List Char) (n : Nat) :
    lettersToColumnIndex s = some n ↔
      s ≠ [] ∧ (∀ c ∈ s, c.isAlpha = true) ∧ columnNumber s = n + 1 ∧ n < 2 ^ 32 := by
  unfold lettersToColumnIndex
  by_cases h : s = []
  · simp [h]
  · rw [if_neg h, lettersLoop_some s h]
    constructor
    · rintro ⟨h1, h2, h3⟩; exact ⟨h, h1, by rw [columnNumber_eq s h1]; exact h2, h3⟩
    · rintro ⟨-, h1, h2, h3⟩; exact ⟨h1, by rw [columnNumber_eq s h1] at h2; exact h2, h3⟩

example : lettersToColumnIndex "xFd".toList = some 16383 := by decide
example : lettersToColumnIndex "MWLQKWV".toList = some (2 ^ 32 - 1) := by decide
example : lettersToColumnIndex "MWLQKWW".toList = none := by decide

/-- **C02** (print, exact specification): the text printed for index `n` is the only upper-case
letter string whose number is `n + 1`. -/
theorem letters_print_iff (n : Nat) (s : List Char) :
    columnToLetters n = s ↔ (∀ c ∈ s, c.isUpper = true) ∧ columnNumber s = n + 1 := by
  have up : ∀ s : List Char, (∀ c ∈ s, c.isUpper = true) → ∀ c ∈ s, c.isAlpha = true :=
    fun s h c hc => isUpper_isAlpha c (h c hc)
  constructor
  · rintro rfl
    refine ⟨columnToLetters_upper n, ?_⟩
    rw [columnNumber_eq _ (up _ (columnToLetters_upper n))]
    exact columnLettersRev_value n
  · rintro ⟨h1, h2⟩
    rw [columnNumber_eq _ (up _ h1)] at h2
    have := value_inj (columnToLetters n).reverse s.reverse
      (fun c hc => columnToLetters_upper n c (by simpa using hc))
      (fun c hc => h1 c (by simpa using hc))
      (by
        rw [List.reverse_reverse, List.reverse_reverse, h2]
        exact columnLettersRev_value n)
    simpa using congrArg List.reverse this

example : columnToLetters 16383 = "XFD".toList := by rw [letters_print_iff]; decide

/-- **C02**: printing and parsing back gives the index, for every 32-bit index. -/
theorem letters_roundtrip (n : Nat) (h : n < 2 ^ 32) :
    lettersToColumnIndex (columnToLetters n) = some n := by
  rw [letters_parse_iff]
  have := (letters_print_iff n _).1 rfl
  exact ⟨columnToLetters_ne_nil n, fun c hc => isUpper_isAlpha c (this.1 c hc), this.2, h⟩

example : (702 : Nat) < 2 ^ 32 := by decide

/-- **C02**: parsing and printing back gives the upper-case form of the string. -/
theorem letters_roundtrip' (s : List Char) (n : Nat) (h : lettersToColumnIndex s = some n) :
    columnToLetters n = s.map Char.toUpper := by
  obtain ⟨-, h1, h2, -⟩ := (letters_parse_iff s n).1 h
  rw [letters_print_iff]
  constructor
  · intro c hc
    obtain ⟨d, hd, rfl⟩ := List.mem_map.1 hc
    rw [toUpper_eq_letter d (h1 d hd)]
    exact letter_isUpper _ (pos_lt d (h1 d hd))
  · rw [← h2]
    have idem : ∀ d ∈ s, d.toUpper.toUpper = d.toUpper := by
      intro d hd
      rw [toUpper_eq_letter d (h1 d hd)]
      exact toUpper_of_isUpper _ (letter_isUpper _ (pos_lt d (h1 d hd)))
    unfold columnNumber
    rw [List.foldl_map]
    clear h h1 h2
    generalize (0 : Nat) = v
    induction s generalizing v with
    | nil => rfl
    | cons c s ih =>
      rw [List.foldl_cons, List.foldl_cons, idem c (by simp)]
      exact ih (fun d hd => idem d (by simp [hd])) _

example : columnToLetters 27 = "ab".toList.map Char.toUpper :=
  letters_roundtrip' "ab".toList 27 (by decide)

/-- **C02**: distinct indices have distinct letters. -/
theorem letters_injective (n m : Nat) (h : columnToLetters n = columnToLetters m) : n = m := by
  have a := ((letters_print_iff n _).1 rfl).2
  have b := ((letters_print_iff m _).1 rfl).2
  rw [h, b] at a; omega

/-- **C02**: the 1-based printer accepts exactly columns 1 to 16384 and agrees with the 0-based one. -/
theorem letters_1based_print (col : Nat) :
    (1 ≤ col ∧ col ≤ 16384 → colLettersFrom1 col = .ok (columnToLetters (col - 1))) ∧
    (¬ (1 ≤ col ∧ col ≤ 16384) → colLettersFrom1 col = .error (.columnOutOfRange col)) := by
  unfold colLettersFrom1 COL_MAX_1BASED
  constructor <;> intro h
  · rw [if_neg (by omega)]
  · rw [if_pos (by omega)]

example : (1 ≤ 16384 ∧ 16384 ≤ 16384) ∧ ¬ (1 ≤ 16385 ∧ 16385 ≤ 16384) := by decide

/-- **C02**: the 1-based parser accepts exactly the non-empty ASCII letter strings numbered 1 to
16384 and returns that number. -/
theorem letters_1based_parse (s : List Char) (n : Nat) :
    colIndexFrom1 s = .ok n ↔
      s ≠ [] ∧ (∀ c ∈ s, c.isAlpha = true) ∧ columnNumber s = n ∧ n ≤ 16384 := by
  unfold colIndexFrom1
  by_cases h : s = []
  · simp [h]
  · rw [if_neg h]
    cases hf : s.find? (fun ch => !ch.isAlpha) with
    | some ch =>
      have h1 := List.mem_of_find?_eq_some hf
      have h2 := List.find?_some hf
      constructor
      · intro h'; cases h'
      · rintro ⟨-, ha, -⟩
        have := ha ch h1
        simp [this] at h2
    | none =>
      have ha : ∀ c ∈ s, c.isAlpha = true := by
        intro c hc
        have := List.find?_eq_none.1 hf c hc
        simpa using this
      simp only
      cases hl : lettersToColumnIndex s with
      | some z =>
        obtain ⟨-, -, hz, hz2⟩ := (letters_parse_iff s z).1 hl
        simp only
        by_cases hle : z ≤ 16383
        · rw [if_pos hle]
          constructor
          · intro e; cases e; exact ⟨h, ha, hz, by omega⟩
          · rintro ⟨-, -, e, -⟩; rw [← e, hz]
        · rw [if_neg hle]
          constructor
          · intro e; cases e
          · rintro ⟨-, -, e, e2⟩; omega
      | none =>
        constructor
        · intro e; cases e
        · rintro ⟨-, -, e, e2⟩
          exfalso
          have hpos : 1 ≤ columnNumber s := by
            rw [columnNumber_eq s ha]
            cases s with
            | nil => exact absurd rfl h
            | cons c t =>
              rw [valueFrom_cons]
              have := le_valueFrom t (26 * 0 + (pos c + 1)); omega
          have := (letters_parse_iff s (n - 1)).2 ⟨h, ha, by omega, by omega⟩
          rw [hl] at this; cases this

example : colIndexFrom1 "AbC".toList = .ok 731 := by decide
example : colIndexFrom1 "XFE".toList = .error (.columnOutOfRange 16385) := by decide

/-- **C02**: all other column renderers of the workspace print the same text as the 1-based
printer: the unbounded one (result addresses), the workbook error one, and the formula printer
(lookup table up to ZZ). -/
theorem letters_renderers_agree (col : Nat) (h : 1 ≤ col) :
    unboundedColumnLetters col = columnToLetters (col - 1) ∧
    colToA1 col = columnToLetters (col - 1) ∧
    (col ≤ 16384 → numberToColumn col = columnToLetters (col - 1)) := by
  have lt26 : ∀ n, n % 26 < 26 := fun n => Nat.mod_lt _ (by decide)
  refine ⟨?_, ?_, ?_⟩
  · unfold unboundedColumnLetters columnToLetters
    congr 1
    induction col using Nat.strongRecOn with
    | ind col ih =>
      rw [unboundedRev, columnLettersRev, if_neg (by omega)]
      congr 1
      by_cases h0 : (col - 1) / 26 = 0
      · rw [if_pos h0, h0, unboundedRev]; rfl
      · rw [if_neg h0]; exact ih _ (by omega) (by omega)
  · unfold colToA1 columnToLetters
    generalize col - 1 = n
    have gen : ∀ n acc, colToA1Loop n acc = (columnLettersRev n).reverse ++ acc := by
      intro n
      induction n using Nat.strongRecOn with
      | ind n ih =>
        intro acc
        rw [colToA1Loop, columnLettersRev]
        by_cases h0 : n / 26 = 0
        · simp [h0]
        · rw [if_neg h0, if_neg h0, ih _ (by omega)]; simp
    rw [gen]; simp
  · intro hle
    unfold numberToColumn
    rw [if_neg (by omega)]
    by_cases h702 : col ≤ 702
    · rw [if_pos h702]
      have get2 : ∀ i, i < 676 → ((List.range 26).flatMap
          (fun c1 => (List.range 26).map (fun c2 => [letter c1, letter c2])))[i]? =
          some [letter (i / 26), letter (i % 26)] := by
        intro i hi
        have : ∀ (k base j : Nat), j < k * 26 → (((List.range' base k)).flatMap
            (fun c1 => (List.range 26).map (fun c2 => [letter c1, letter c2])))[j]? =
            some [letter (base + j / 26), letter (j % 26)] := by
          intro k
          induction k with
          | zero => intro base j hj; omega
          | succ k ih =>
            intro base j hj
            rw [List.range'_succ, List.flatMap_cons]
            by_cases hj26 : j < 26
            · rw [List.getElem?_append_left (by simpa using hj26)]
              simp [List.getElem?_range, hj26]
              rw [Nat.div_eq_of_lt hj26, Nat.mod_eq_of_lt hj26]; exact ⟨rfl, rfl⟩
            · rw [List.getElem?_append_right (by simpa using hj26)]
              simp only [List.length_map, List.length_range]
              rw [ih (base + 1) (j - 26) (by omega)]
              have e1 : base + 1 + (j - 26) / 26 = base + j / 26 := by omega
              have e2 : (j - 26) % 26 = j % 26 := by omega
              rw [e1, e2]
        have := this 26 0 i (by omega)
        have e : List.range 26 = List.range' 0 26 := List.range_eq_range'
        rw [Nat.zero_add] at this
        conv => lhs; arg 1; arg 2; rw [e]
        exact this
      unfold columnLookup
      rw [List.getD_eq_getElem?_getD]
      unfold columnToLetters
      rw [columnLettersRev]
      by_cases h26 : col - 1 < 26
      · rw [List.getElem?_append_left (by simpa using h26)]
        have hd : (col - 1) / 26 = 0 := by omega
        have hm : (col - 1) % 26 = col - 1 := by omega
        simp [List.getElem?_range, h26, hd, hm]
      · rw [List.getElem?_append_right (by simpa using h26)]
        simp only [List.length_map, List.length_range]
        rw [get2 _ (by omega)]
        rw [if_neg (by omega), columnLettersRev]
        have e1 : (col - 1 - 26) / 26 = ((col - 1) / 26 - 1) % 26 := by omega
        have e2 : (col - 1 - 26) % 26 = (col - 1) % 26 := by omega
        have e3 : ((col - 1) / 26 - 1) / 26 = 0 := by omega
        simp [e1, e2, e3]
    · rw [if_neg h702, (letters_1based_print col).1 ⟨h, hle⟩]

example : numberToColumn 703 = "AAA".toList ∧ numberToColumn 702 = "ZZ".toList := by
  rw [(letters_renderers_agree 703 (by decide)).2.2 (by decide),
    (letters_renderers_agree 702 (by decide)).2.2 (by decide), letters_print_iff, letters_print_iff]
  decide

/-- **C02**: the second column-letter parser of the workspace (sheet ports) accepts the same strings
with the same results as the 1-based parser. -/
theorem letters_port_agrees (s : List Char) (n : Nat) :
    portColToIndex s = .ok n ↔ colIndexFrom1 s = .ok n := by
  rw [letters_1based_parse]
  unfold portColToIndex
  by_cases h : s = []
  · simp [h]
  · rw [if_neg h]
    have gen : ∀ (s : List Char) (r m : Nat), r < 2 ^ 32 → (portLoop s r = .ok m ↔
        (∀ c ∈ s, c.isAlpha = true) ∧ valueFrom r s = m ∧ m < 2 ^ 32) := by
      intro s
      induction s with
      | nil =>
        intro r m hr
        simp only [portLoop, valueFrom, List.foldl_nil, PortCol.ok.injEq]
        constructor
        · rintro rfl; exact ⟨by simp, rfl, hr⟩
        · exact fun h => h.2.1
      | cons c s ih =>
        intro r m hr
        rw [portLoop]
        by_cases hc : c.isAlpha = true
        · rw [if_pos hc, valueFrom_cons]
          have e : r * 26 + (c.toUpper.toNat - 65 + 1) = 26 * r + (pos c + 1) := by
            unfold pos; omega
          by_cases hlt : 26 * r + (pos c + 1) < 2 ^ 32
          · have : (u32? (r * 26)).bind (fun v => u32? (v + (c.toUpper.toNat - 65 + 1)))
                = some (26 * r + (pos c + 1)) := by
              rw [u32?_bind]
              exact ⟨by omega, by rw [u32?_some]; exact ⟨e, by omega⟩⟩
            rw [this]
            simp only
            rw [ih _ _ hlt]
            simp [hc]
          · have : (u32? (r * 26)).bind (fun v => u32? (v + (c.toUpper.toNat - 65 + 1))) = none := by
              rw [Option.eq_none_iff_forall_ne_some]
              intro v hv
              rw [u32?_bind, u32?_some] at hv
              omega
            rw [this]
            constructor
            · intro h; cases h
            · rintro ⟨-, h1, h2⟩
              have := le_valueFrom s (26 * r + (pos c + 1)); omega
        · rw [if_neg hc]
          constructor
          · intro h; cases h
          · rintro ⟨h, -⟩; exact absurd (h c (by simp)) hc
    have g := gen s 0
    constructor
    · intro he
      cases hp : portLoop s 0 with
      | ok r =>
        rw [hp] at he
        simp only at he
        split at he
        · cases he
        · rename_i hle
          cases he
          obtain ⟨h1, h2, h3⟩ := (g n (by decide)).1 hp
          exact ⟨h, h1, by rw [columnNumber_eq s h1]; exact h2, by omega⟩
      | invalid => rw [hp] at he; cases he
      | overflow => rw [hp] at he; cases he
    · rintro ⟨-, h1, h2, h3⟩
      rw [columnNumber_eq s h1] at h2
      rw [(g n (by decide)).2 ⟨h1, h2, by omega⟩]
      simp only
      rw [if_neg (by omega)]

example : portColToIndex "aa".toList = .ok 27 := by decide

/-! ## C03 -/

/-- The decimal value of a digit string. -/
def decimalNumber (s : List Char) : Nat := s.foldl (fun v c => v * 10 + (c.toNat - 48)) 0

/-- Specification of A1 text: what texts denote the 1-based position `(row, col)` with the given
anchors: optional `$`, letters numbered `col`, optional `$`, decimal digits with value `row`. -/
def IsA1 (t : List Char) (row col : Nat) (rowAbs colAbs : Bool) : Prop :=
  ∃ letters digits : List Char,
    t = (if colAbs then ['$'] else []) ++ letters ++ (if rowAbs then ['$'] else []) ++ digits ∧
    letters ≠ [] ∧ (∀ c ∈ letters, c.isAlpha = true) ∧ columnNumber letters = col ∧
    digits ≠ [] ∧ (∀ c ∈ digits, c.isDigit = true) ∧ decimalNumber digits = row

theorem dollar_not_alpha : Char.isAlpha '$' = false := by decide
theorem dollar_not_digit : Char.isDigit '$' = false := by decide

theorem digit_not_alpha (c : Char) (h : c.isDigit = true) : c.isAlpha = false := by
  rw [isDigit_iff] at h
  rw [← Bool.not_eq_true, isAlpha_iff]; omega

theorem digit_ne_dollar (c : Char) (h : c.isDigit = true) : c ≠ '$' := by
  rintro rfl; rw [dollar_not_digit] at h; cases h
theorem alpha_ne_dollar (c : Char) (h : c.isAlpha = true) : c ≠ '$' := by
  rintro rfl; rw [dollar_not_alpha] at h; cases h

/-- The parser on a text of the A1 shape. -/
theorem parseA1_shape (ra ca : Bool) (L D : List Char) (hL : L ≠ []) (hLa : ∀ c ∈ L, c.isAlpha = true)
    (hD : D ≠ []) (hDd : ∀ c ∈ D, c.isDigit = true) :
    parseA1 ((if ca then ['$'] else []) ++ L ++ (if ra then ['$'] else []) ++ D) =
      match colIndexFrom1 L with
      | .error e => .error e
      | .ok col =>
        match parseU32 D with
        | none => .error (.rowOutOfRange (ROW_MAX_1BASED + 1))
        | some row =>
          if row = 0 ∨ row > ROW_MAX_1BASED then .error (.rowOutOfRange row)
          else .ok (row, col, ra, ca) := by
  obtain ⟨l, L', rfl⟩ := List.exists_cons_of_ne_nil hL
  obtain ⟨d, D', rfl⟩ := List.exists_cons_of_ne_nil hD
  have hl := hLa l (by simp)
  have hd := hDd d (by simp)
  -- the text after the optional column anchor
  have core : ∀ ca' : Bool, ∀ s1 : List Char,
      s1 = (l :: L') ++ ((if ra then ['$'] else []) ++ (d :: D')) →
      (s1.takeWhile Char.isAlpha = l :: L' ∧
        s1.dropWhile Char.isAlpha = (if ra then ['$'] else []) ++ (d :: D')) := by
    rintro _ s1 rfl
    have hb : ∀ x, ((if ra then ['$'] else []) ++ (d :: D')).head? = some x → x.isAlpha = false := by
      intro x hx
      cases ra
      · simp at hx; subst hx; exact digit_not_alpha _ hd
      · simp at hx; subst hx; exact dollar_not_alpha
    exact ⟨takeWhile_append_stop _ _ _ hLa hb, dropWhile_append_stop _ _ _ hLa hb⟩
  obtain ⟨t1, t2⟩ := core ca _ rfl
  have dd : (d :: D').takeWhile Char.isDigit = d :: D' := by
    have := takeWhile_append_stop Char.isDigit (d :: D') [] hDd (by simp)
    simpa using this
  have dr : (d :: D').dropWhile Char.isDigit = [] := by
    have := dropWhile_append_stop Char.isDigit (d :: D') [] hDd (by simp)
    simpa using this
  have hne : l ≠ '$' := alpha_ne_dollar l hl
  have hde : d ≠ '$' := digit_ne_dollar d hd
  unfold parseA1
  cases ca <;> cases ra
  all_goals
    simp only [Bool.false_eq_true, if_false, if_true, List.nil_append, List.append_assoc,
      List.cons_append, List.head?_cons, List.tail_cons, Option.some.injEq, hne, reduceCtorEq,
      false_and, and_false] at t1 t2 ⊢
    simp only [t1, t2, List.head?_cons, List.tail_cons, Option.some.injEq, hde, if_true, if_false,
      reduceCtorEq, dd, dr, ne_eq, not_true_eq_false, decide_true, decide_false]
    cases colIndexFrom1 (l :: L') <;> cases parseU32 (d :: D') <;> rfl

theorem parseA1_complete (row col : Nat) (ra ca : Bool) (t : List Char)
    (h : IsA1 t row col ra ca) (hr : 1 ≤ row ∧ row ≤ 1048576) (hc : col ≤ 16384) :
    parseA1 t = .ok (row, col, ra, ca) := by
  obtain ⟨L, D, rfl, hL, hLa, hcol, hD, hDd, hrow⟩ := h
  have e_col : colIndexFrom1 L = .ok col := by
    rw [letters_1based_parse]; exact ⟨hL, hLa, hcol, hc⟩
  have e_row : parseU32 D = some row := by
    rw [parseU32_some]; exact ⟨hrow, by omega⟩
  have hrow1 : ¬ (row = 0 ∨ row > ROW_MAX_1BASED) := by unfold ROW_MAX_1BASED; omega
  rw [parseA1_shape ra ca L D hL hLa hD hDd, e_col]
  simp only [e_row]
  rw [if_neg hrow1]

/-- **C03** (parser, exact specification): the A1 parser accepts exactly the texts of the form
`[$]letters[$]digits` that denote a position inside the grid, and returns that position and the
anchors. In particular it never yields a position outside the grid, whatever the text. -/
theorem parse_a1_iff (t : List Char) (row col : Nat) (ra ca : Bool) :
    parseA1 t = .ok (row, col, ra, ca) ↔
      IsA1 t row col ra ca ∧ 1 ≤ row ∧ row ≤ 1048576 ∧ 1 ≤ col ∧ col ≤ 16384 := by
  constructor
  · intro h
    unfold parseA1 at h
    simp only at h
    generalize hs1' : (if t.head? = some '$' then t.tail else t) = s1 at h
    generalize hs2' : s1.dropWhile Char.isAlpha = s2 at h
    generalize hs3' : (if s2.head? = some '$' then s2.tail else s2) = s3 at h
    split at h
    · cases h
    split at h
    · cases h
    split at h
    · cases h
    split at h
    · cases h
    split at h
    · split at h
      · cases h
      · split at h <;> cases h
    split at h
    · cases h
    rename_i hne hs1 hlet hs3 hdig hs4
    split at h
    · cases h
    rename_i col' hcol
    split at h
    · cases h
    rename_i row' hrow
    split at h
    · cases h
    rename_i hrange
    cases h
    rw [letters_1based_parse] at hcol
    obtain ⟨hL, hLa, hc1, hc2⟩ := hcol
    rw [parseU32_some] at hrow
    have hcolpos : 1 ≤ col := by
      rw [← hc1, columnNumber_eq _ hLa]
      obtain ⟨c, s, e⟩ := List.exists_cons_of_ne_nil hL
      rw [e, valueFrom_cons]
      have := le_valueFrom s (26 * 0 + (pos c + 1)); omega
    refine ⟨⟨_, _, ?_, hL, hLa, hc1, hdig, ?_, hrow.1⟩, ?_, ?_, hcolpos, hc2⟩
    · -- reassemble the text
      have e4 : s3 = s3.takeWhile Char.isDigit := by
        have := List.takeWhile_append_dropWhile (p := Char.isDigit) (l := s3)
        simp only [ne_eq, Classical.not_not] at hs4
        rw [hs4, List.append_nil] at this
        exact this.symm
      have opt : ∀ x y : List Char, (if x.head? = some '$' then x.tail else x) = y →
          x = (if decide (x.head? = some '$') then ['$'] else []) ++ y := by
        intro x y hxy
        by_cases hx : x.head? = some '$'
        · rw [if_pos hx] at hxy
          simp only [hx, decide_true, if_true]
          cases x with
          | nil => cases hx
          | cons a x => simp at hx hxy; subst hx hxy; rfl
        · rw [if_neg hx] at hxy
          subst hxy; simp [hx]
      have e1 := opt _ _ hs1'
      have e2 := opt _ _ hs3'
      have e3 : s1 = s1.takeWhile Char.isAlpha ++ s2 := by
        rw [← hs2']; exact (List.takeWhile_append_dropWhile).symm
      rw [← e4]
      rw [List.append_assoc, ← e2, List.append_assoc, ← e3]
      exact e1
    · intro c hc
      exact List.all_eq_true.1 (List.all_takeWhile) c hc
    · unfold ROW_MAX_1BASED at hrange; omega
    · unfold ROW_MAX_1BASED at hrange; omega
  · rintro ⟨h, h1, h2, h3, h4⟩
    exact parseA1_complete row col ra ca t h ⟨h1, h2⟩ h4

example : parseA1 "$ab$012".toList = .ok (12, 28, true, true) := by decide
example : parseA1 "A1048577".toList = .error (.rowOutOfRange 1048577) := by decide
example : parseA1 "A99999999999".toList = .error (.rowOutOfRange 1048577) := by decide
example : parseA1 "A1x".toList = .error (.trailing ['x']) := by decide

/-- **C03**: printing an in-grid coordinate and parsing the text gives back the same row, column
and anchors. -/
theorem a1_roundtrip (row col : Nat) (ra ca : Bool) (hr : row ≤ 1048575) (hc : col ≤ 16383) :
    tryFromA1 (display row col ra ca) = .ok (row, col, ra, ca) := by
  have := (parse_a1_iff (display row col ra ca) (row + 1) (col + 1) ra ca).2
    ⟨⟨columnToLetters col, decimal (row + 1), rfl, columnToLetters_ne_nil col,
      fun c h => isUpper_isAlpha c (columnToLetters_upper col c h),
      ((letters_print_iff col _).1 rfl).2, decimal_ne_nil _, decimal_digits _, decimal_value _⟩,
      by omega, by omega, by omega, by omega⟩
  unfold tryFromA1
  rw [this]
  simp

example : display 11 27 true true = "$AB$12".toList := by
  have h : columnToLetters 27 = "AB".toList := by rw [letters_print_iff]; decide
  have h2 : decimal 12 = "12".toList := by
    unfold decimal; rw [decimalRev, decimalRev]; decide
  unfold display; rw [h, h2]; decide

/-- **C03**: parsing never yields a coordinate outside the grid, whatever the text. -/
theorem a1_in_grid (t : List Char) (row col : Nat) (ra ca : Bool)
    (h : tryFromA1 t = .ok (row, col, ra, ca)) : row ≤ 1048575 ∧ col ≤ 16383 := by
  unfold tryFromA1 at h
  cases hp : parseA1 t with
  | error e => rw [hp] at h; cases h
  | ok p =>
    obtain ⟨r, c, a, b⟩ := p
    rw [hp] at h
    simp only [Except.ok.injEq, Prod.mk.injEq] at h
    have := (parse_a1_iff t r c a b).1 hp
    omega

example : tryFromA1 "XFD1048576".toList = .ok (1048575, 16383, false, false) := by decide

end Verif.A1
