import Verif.A1.Model

/-! Helper lemmas for the A1 text model. -/

namespace Verif.A1

theorem isUpper_iff (c : Char) : c.isUpper = true ↔ 65 ≤ c.toNat ∧ c.toNat ≤ 90 := by
  unfold Char.isUpper
  simp only [Bool.and_eq_true, decide_eq_true_eq, ge_iff_le, UInt32.le_iff_toNat_le]
  exact Iff.rfl

theorem isLower_iff (c : Char) : c.isLower = true ↔ 97 ≤ c.toNat ∧ c.toNat ≤ 122 := by
  unfold Char.isLower
  simp only [Bool.and_eq_true, decide_eq_true_eq, ge_iff_le, UInt32.le_iff_toNat_le]
  exact Iff.rfl

theorem isAlpha_iff (c : Char) :
    c.isAlpha = true ↔ (65 ≤ c.toNat ∧ c.toNat ≤ 90) ∨ (97 ≤ c.toNat ∧ c.toNat ≤ 122) := by
  unfold Char.isAlpha
  rw [Bool.or_eq_true, isUpper_iff, isLower_iff]

theorem isDigit_iff (c : Char) : c.isDigit = true ↔ 48 ≤ c.toNat ∧ c.toNat ≤ 57 := by
  unfold Char.isDigit
  simp only [Bool.and_eq_true, decide_eq_true_eq, ge_iff_le, UInt32.le_iff_toNat_le]
  exact Iff.rfl

theorem ofNat_toNat_lt (n : Nat) (h : n < 0xd800) : (Char.ofNat n).toNat = n := by
  unfold Char.ofNat
  have : n.isValidChar := Or.inl h
  simp [this, Char.ofNatAux, Char.toNat]

theorem letter_toNat (r : Nat) (h : r < 26) : (letter r).toNat = 65 + r := ofNat_toNat_lt _ (by omega)

theorem char_ext (a b : Char) (h : a.toNat = b.toNat) : a = b := by
  apply Char.ext
  exact UInt32.toNat_inj.1 h

theorem toUpper_toNat (c : Char) (h : c.isAlpha = true) :
    c.toUpper.toNat = if 97 ≤ c.toNat then c.toNat - 32 else c.toNat := by
  rw [isAlpha_iff] at h
  unfold Char.toUpper
  by_cases hl : 'a'.val ≤ c.val ∧ c.val ≤ 'z'.val
  · rw [dif_pos hl]
    have h1 : 97 ≤ c.toNat := UInt32.le_iff_toNat_le.1 hl.1
    have h2 : c.toNat ≤ 122 := UInt32.le_iff_toNat_le.1 hl.2
    rw [if_pos h1]
    show (c.val + ('A'.val - 'a'.val)).toNat = c.val.toNat - 32
    rw [UInt32.toNat_add]
    have h1' : 97 ≤ c.val.toNat := h1
    have h2' : c.val.toNat ≤ 122 := h2
    have : ('A'.val - 'a'.val).toNat = 4294967264 := by decide
    rw [this]; omega
  · rw [dif_neg hl]
    have : ¬ (97 ≤ c.toNat ∧ c.toNat ≤ 122) := by
      intro h'; exact hl ⟨UInt32.le_iff_toNat_le.2 h'.1, UInt32.le_iff_toNat_le.2 h'.2⟩
    rw [if_neg (by omega)]

/-- Position of a letter in the alphabet, `A = 0`. -/
def pos (c : Char) : Nat := c.toUpper.toNat - 65

theorem pos_lt (c : Char) (h : c.isAlpha = true) : pos c < 26 := by
  have := toUpper_toNat c h
  rw [isAlpha_iff] at h
  unfold pos; rw [this]; split <;> omega

theorem toUpper_eq_letter (c : Char) (h : c.isAlpha = true) : c.toUpper = letter (pos c) := by
  apply char_ext
  rw [letter_toNat _ (pos_lt c h)]
  have := toUpper_toNat c h
  rw [isAlpha_iff] at h
  unfold pos; rw [this]; split <;> omega

theorem letter_isUpper (r : Nat) (h : r < 26) : (letter r).isUpper = true := by
  rw [isUpper_iff, letter_toNat r h]; omega

theorem isUpper_isAlpha (c : Char) (h : c.isUpper = true) : c.isAlpha = true := by
  unfold Char.isAlpha; rw [h]; rfl

theorem pos_letter (r : Nat) (h : r < 26) : pos (letter r) = r := by
  have := toUpper_toNat _ (isUpper_isAlpha _ (letter_isUpper r h))
  unfold pos; rw [this, letter_toNat r h]; split <;> omega

theorem toUpper_of_isUpper (c : Char) (h : c.isUpper = true) : c.toUpper = c := by
  apply char_ext
  rw [toUpper_toNat c (isUpper_isAlpha c h)]
  rw [isUpper_iff] at h
  rw [if_neg (by omega)]

/-- Bijective base-26 value, starting from `v`. -/
def valueFrom (v : Nat) (s : List Char) : Nat := s.foldl (fun v c => 26 * v + (pos c + 1)) v

theorem valueFrom_cons (v : Nat) (c : Char) (s : List Char) :
    valueFrom v (c :: s) = valueFrom (26 * v + (pos c + 1)) s := rfl

theorem valueFrom_append (v : Nat) (s t : List Char) :
    valueFrom v (s ++ t) = valueFrom (valueFrom v s) t := by
  simp [valueFrom, List.foldl_append]

theorem le_valueFrom (s : List Char) : ∀ v, v ≤ valueFrom v s := by
  induction s with
  | nil => intro v; exact Nat.le_refl _
  | cons c s ih => intro v; rw [valueFrom_cons]; have := ih (26 * v + (pos c + 1)); omega

theorem columnLettersRev_value (n : Nat) : valueFrom 0 (columnLettersRev n).reverse = n + 1 := by
  induction n using Nat.strongRecOn with
  | ind n ih =>
    rw [columnLettersRev, List.reverse_cons, valueFrom_append]
    have hp : pos (letter (n % 26)) = n % 26 := pos_letter _ (Nat.mod_lt _ (by decide))
    by_cases h : n / 26 = 0
    · simp only [h, if_true, List.reverse_nil]
      simp only [valueFrom, List.foldl_nil, List.foldl_cons, hp]
      omega
    · simp only [h, if_false]
      have := ih (n / 26 - 1) (by omega)
      rw [this]
      simp only [valueFrom, List.foldl_nil, List.foldl_cons, hp]
      omega

theorem columnLettersRev_upper (n : Nat) : ∀ c ∈ columnLettersRev n, c.isUpper = true := by
  induction n using Nat.strongRecOn with
  | ind n ih =>
    rw [columnLettersRev]
    intro c hc
    rcases List.mem_cons.1 hc with rfl | hc
    · exact letter_isUpper _ (Nat.mod_lt _ (by decide))
    · by_cases h : n / 26 = 0
      · simp [h] at hc
      · simp only [h, if_false] at hc
        exact ih _ (by omega) c hc

theorem columnToLetters_upper (n : Nat) : ∀ c ∈ columnToLetters n, c.isUpper = true := by
  intro c hc; exact columnLettersRev_upper n c (by simpa [columnToLetters] using hc)

theorem columnToLetters_ne_nil (n : Nat) : columnToLetters n ≠ [] := by
  unfold columnToLetters; rw [columnLettersRev]; simp

/-- Bijective base 26 is injective on upper-case strings. -/
theorem value_inj : ∀ s t : List Char, (∀ c ∈ s, c.isUpper = true) → (∀ c ∈ t, c.isUpper = true) →
    valueFrom 0 s.reverse = valueFrom 0 t.reverse → s = t := by
  intro s
  induction s with
  | nil =>
    intro t _ ht h
    cases t with
    | nil => rfl
    | cons c t =>
      rw [List.reverse_cons, valueFrom_append] at h
      simp only [valueFrom, List.reverse_nil, List.foldl_nil, List.foldl_cons] at h
      omega
  | cons a s ih =>
    intro t hs ht h
    cases t with
    | nil =>
      rw [List.reverse_cons, valueFrom_append] at h
      simp only [valueFrom, List.reverse_nil, List.foldl_nil, List.foldl_cons] at h
      omega
    | cons b t =>
      rw [List.reverse_cons, List.reverse_cons, valueFrom_append, valueFrom_append] at h
      have ha : a.isUpper = true := hs a (by simp)
      have hb : b.isUpper = true := ht b (by simp)
      have pa := pos_lt a (isUpper_isAlpha a ha)
      have pb := pos_lt b (isUpper_isAlpha b hb)
      have h' : 26 * valueFrom 0 s.reverse + (pos a + 1) = 26 * valueFrom 0 t.reverse + (pos b + 1) := h
      have e1 : pos a = pos b := by omega
      have e2 : valueFrom 0 s.reverse = valueFrom 0 t.reverse := by omega
      have := ih t (fun c hc => hs c (by simp [hc])) (fun c hc => ht c (by simp [hc])) e2
      have hab : a = b := by
        rw [← toUpper_of_isUpper a ha, ← toUpper_of_isUpper b hb,
          toUpper_eq_letter a (isUpper_isAlpha a ha), toUpper_eq_letter b (isUpper_isAlpha b hb), e1]
      rw [hab, this]

theorem u32?_some (n m : Nat) : u32? n = some m ↔ n = m ∧ n < 2 ^ 32 := by
  unfold u32?; split <;> simp_all
  omega

theorem u32?_bind (n : Nat) (f : Nat → Option Nat) (m : Nat) :
    (u32? n).bind f = some m ↔ n < 2 ^ 32 ∧ f n = some m := by
  unfold u32?; split <;> simp_all
  omega

theorem lettersLoop_some (s : List Char) (hs : s ≠ []) : ∀ col n, lettersLoop s col = some n ↔
    (∀ c ∈ s, c.isAlpha = true) ∧ valueFrom col s = n + 1 ∧ n < 2 ^ 32 := by
  induction s with
  | nil => exact absurd rfl hs
  | cons c rest ih =>
    intro col n
    rw [lettersLoop]
    by_cases hc : c.isAlpha = true
    · rw [if_pos hc]
      simp only [bind]
      rw [u32?_bind, u32?_bind]
      by_cases hr : rest = []
      · subst hr
        simp only [ne_eq, not_true_eq_false, if_false, Option.bind_some, lettersLoop]
        simp only [List.mem_singleton, forall_eq, hc, true_and, valueFrom, List.foldl_cons,
          List.foldl_nil, pos]
        constructor
        · rintro ⟨h1, h2, h3⟩
          cases h3
          exact ⟨by omega, by omega⟩
        · rintro ⟨h1, h2⟩
          exact ⟨by omega, by omega, by congr 1; omega⟩
      · simp only [ne_eq, hr, not_false_eq_true, if_true]
        rw [u32?_bind, ih hr]
        rw [valueFrom_cons]
        have e : 26 * col + (pos c + 1) = col * 26 + (c.toUpper.toNat - 65) + 1 := by
          unfold pos; omega
        rw [e]
        have hle := le_valueFrom rest (col * 26 + (c.toUpper.toNat - 65) + 1)
        constructor
        · rintro ⟨h1, h2, h3, h4, h5, h6⟩
          refine ⟨?_, h5, h6⟩
          intro d hd
          rcases List.mem_cons.1 hd with rfl | hd
          · exact hc
          · exact h4 d hd
        · rintro ⟨h1, h2, h3⟩
          have hlt : col * 26 + (c.toUpper.toNat - 65) + 1 < valueFrom (col * 26 + (c.toUpper.toNat - 65) + 1) rest := by
            cases rest with
            | nil => exact absurd rfl hr
            | cons d r =>
              rw [valueFrom_cons]
              have := le_valueFrom r (26 * (col * 26 + (c.toUpper.toNat - 65) + 1) + (pos d + 1))
              omega
          exact ⟨by omega, by omega, by omega, fun d hd => h1 d (by simp [hd]), h2, h3⟩
    · rw [if_neg hc]
      constructor
      · intro h; cases h
      · rintro ⟨h, -⟩; exact absurd (h c (by simp)) hc

/-! ### decimal -/

theorem digitChar_toNat (d : Nat) (h : d < 10) : (Char.ofNat (48 + d)).toNat = 48 + d :=
  ofNat_toNat_lt _ (by omega)

/-- Decimal value read from accumulator `v`. -/
def decFrom (v : Nat) (s : List Char) : Nat := s.foldl (fun v c => v * 10 + (c.toNat - 48)) v

theorem decFrom_append (v : Nat) (s t : List Char) : decFrom v (s ++ t) = decFrom (decFrom v s) t := by
  simp [decFrom, List.foldl_append]

theorem le_decFrom (s : List Char) : ∀ v, v ≤ decFrom v s := by
  induction s with
  | nil => intro v; exact Nat.le_refl _
  | cons c s ih =>
    intro v
    have := ih (v * 10 + (c.toNat - 48))
    show v ≤ decFrom (v * 10 + (c.toNat - 48)) s
    omega

theorem decimal_value (n : Nat) : decFrom 0 (decimal n) = n := by
  unfold decimal
  induction n using Nat.strongRecOn with
  | ind n ih =>
    rw [decimalRev, List.reverse_cons, decFrom_append]
    have hp := digitChar_toNat (n % 10) (Nat.mod_lt _ (by decide))
    by_cases h : n / 10 = 0
    · simp only [h, if_true, List.reverse_nil]
      simp only [decFrom, List.foldl_nil, List.foldl_cons, hp]
      omega
    · simp only [h, if_false]
      rw [ih _ (by omega)]
      simp only [decFrom, List.foldl_nil, List.foldl_cons, hp]
      omega

theorem decimal_digits (n : Nat) : ∀ c ∈ decimal n, c.isDigit = true := by
  unfold decimal
  intro c hc
  rw [List.mem_reverse] at hc
  induction n using Nat.strongRecOn with
  | ind n ih =>
    rw [decimalRev] at hc
    rcases List.mem_cons.1 hc with rfl | hc
    · rw [isDigit_iff, digitChar_toNat _ (Nat.mod_lt _ (by decide))]; omega
    · by_cases h : n / 10 = 0
      · simp [h] at hc
      · simp only [h, if_false] at hc
        exact ih _ (by omega) hc

theorem decimal_ne_nil (n : Nat) : decimal n ≠ [] := by
  unfold decimal; rw [decimalRev]; simp

theorem parseU32_some (s : List Char) (n : Nat) :
    parseU32 s = some n ↔ decFrom 0 s = n ∧ n < 2 ^ 32 := by
  have none_stuck : ∀ t : List Char,
      t.foldl (fun acc c => acc.bind fun n => u32? (n * 10 + (c.toNat - 48))) none = none := by
    intro t; induction t with
    | nil => rfl
    | cons c t ih => simpa using ih
  have gen : ∀ (t : List Char) (v : Nat), v < 2 ^ 32 →
      (t.foldl (fun acc c => acc.bind fun n => u32? (n * 10 + (c.toNat - 48))) (some v) = some n ↔
        decFrom v t = n ∧ n < 2 ^ 32) := by
    intro t
    induction t with
    | nil => 
      intro v hv
      simp only [List.foldl_nil, decFrom, Option.some.injEq]
      constructor
      · rintro rfl; exact ⟨rfl, hv⟩
      · exact fun h => h.1
    | cons c t ih =>
      intro v hv
      simp only [List.foldl_cons, Option.bind_some]
      by_cases h : v * 10 + (c.toNat - 48) < 2 ^ 32
      · rw [show u32? (v * 10 + (c.toNat - 48)) = some _ from if_pos h, ih _ h]
        exact Iff.rfl
      · rw [show u32? (v * 10 + (c.toNat - 48)) = none from if_neg h, none_stuck]
        constructor
        · intro h'; cases h'
        · rintro ⟨h1, h2⟩
          have := le_decFrom t (v * 10 + (c.toNat - 48))
          have h1' : decFrom (v * 10 + (c.toNat - 48)) t = n := h1
          omega
  exact gen s 0 (by decide)

theorem takeWhile_append_stop {α} (p : α → Bool) (a b : List α) (ha : ∀ x ∈ a, p x = true)
    (hb : ∀ x, b.head? = some x → p x = false) : (a ++ b).takeWhile p = a := by
  induction a with
  | nil =>
    cases b with
    | nil => rfl
    | cons x b => simp [hb x rfl]
  | cons y a ih =>
    simp [ha y (by simp)]
    exact ih (fun x hx => ha x (by simp [hx]))

theorem dropWhile_append_stop {α} (p : α → Bool) (a b : List α) (ha : ∀ x ∈ a, p x = true)
    (hb : ∀ x, b.head? = some x → p x = false) : (a ++ b).dropWhile p = b := by
  induction a with
  | nil =>
    cases b with
    | nil => rfl
    | cons x b => simp [hb x rfl]
  | cons y a ih =>
    simp [ha y (by simp)]
    exact ih (fun x hx => ha x (by simp [hx]))

end Verif.A1
