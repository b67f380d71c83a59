import Verif.Coord.Model

/-! Helper lemmas: reading of the packed words as natural numbers. -/

namespace Verif.Coord

theorem ROW_MAX_toNat : ROW_MAX.toNat = 1048575 := by decide
theorem COL_MAX_toNat : COL_MAX.toNat = 16383 := by decide

theorem nat_mask_shift (x k w : Nat) : (x &&& ((2 ^ w - 1) <<< k)) >>> k = x / 2 ^ k % 2 ^ w := by
  apply Nat.eq_of_testBit_eq
  intro i
  simp only [Nat.testBit_shiftRight, Nat.testBit_and, Nat.testBit_shiftLeft,
    Nat.testBit_two_pow_sub_one, Nat.testBit_mod_two_pow, Nat.testBit_div_two_pow]
  by_cases h : i < w <;> simp [h, Nat.add_comm]

theorem row_toNat (raw : U64) :
    (((raw &&& ROW_MASK) >>> ROW_SHIFT).setWidth 32).toNat = raw.toNat / 2 ^ 24 % 2 ^ 20 := by
  have h : ROW_MASK.toNat = (2 ^ 20 - 1) <<< 24 := by decide
  rw [BitVec.toNat_setWidth, BitVec.toNat_ushiftRight, BitVec.toNat_and, h, ROW_SHIFT,
    nat_mask_shift]
  omega

theorem col_toNat (raw : U64) :
    (((raw &&& COL_MASK) >>> COL_SHIFT).setWidth 32).toNat = raw.toNat / 2 ^ 10 % 2 ^ 14 := by
  have h : COL_MASK.toNat = (2 ^ 14 - 1) <<< 10 := by decide
  rw [BitVec.toNat_setWidth, BitVec.toNat_ushiftRight, BitVec.toNat_and, h, COL_SHIFT,
    nat_mask_shift]
  omega

theorem Coord.row_nat (c : Coord) : c.row.toNat = c.raw.toNat / 2 ^ 24 % 2 ^ 20 := row_toNat _
theorem Coord.col_nat (c : Coord) : c.col.toNat = c.raw.toNat / 2 ^ 10 % 2 ^ 14 := col_toNat _
theorem RelativeCoord.row_nat (c : RelativeCoord) : c.row.toNat = c.raw.toNat / 2 ^ 24 % 2 ^ 20 :=
  row_toNat _
theorem RelativeCoord.col_nat (c : RelativeCoord) : c.col.toNat = c.raw.toNat / 2 ^ 10 % 2 ^ 14 :=
  col_toNat _

theorem pack_toNat (r c : U32) (hr : r.toNat < 2 ^ 20) (hc : c.toNat < 2 ^ 14) :
    (Coord.pack r c).toNat = r.toNat * 2 ^ 24 + c.toNat * 2 ^ 10 := by
  unfold Coord.pack ROW_SHIFT COL_SHIFT
  rw [BitVec.toNat_or, BitVec.toNat_shiftLeft, BitVec.toNat_shiftLeft, BitVec.toNat_setWidth,
    BitVec.toNat_setWidth]
  have h1 : r.toNat % 2 ^ 64 = r.toNat := by omega
  have h2 : c.toNat % 2 ^ 64 = c.toNat := by omega
  rw [h1, h2]
  have h3 : r.toNat <<< 24 % 2 ^ 64 = r.toNat <<< 24 := by
    rw [Nat.shiftLeft_eq]; omega
  have h4 : c.toNat <<< 10 % 2 ^ 64 = c.toNat <<< 10 := by
    rw [Nat.shiftLeft_eq]; omega
  rw [h3, h4, ← Nat.shiftLeft_add_eq_or_of_lt, Nat.shiftLeft_eq, Nat.shiftLeft_eq]
  rw [Nat.shiftLeft_eq]; omega

/-- OR with bit 0 on an even word. -/
theorem or_bit0 (x : U64) (h : x.toNat % 2 = 0) : (x ||| ROW_ABS_BIT).toNat = x.toNat + 1 := by
  have e : ROW_ABS_BIT.toNat = 1 := by decide
  rw [BitVec.toNat_or, e]
  have : x.toNat = (x.toNat / 2) <<< 1 := by rw [Nat.shiftLeft_eq]; omega
  rw [this, ← Nat.shiftLeft_add_eq_or_of_lt (by decide)]

theorem nat_or_two (x : Nat) (h : x / 2 % 2 = 0) : x ||| 2 = x + 2 := by
  apply Nat.eq_of_testBit_eq
  intro i
  have hx : x.testBit 1 = false := by
    simp [Nat.testBit_eq_decide_div_mod_eq, h]
  have h4 : x + 2 = (x / 4) <<< 2 + (2 + x % 2) := by rw [Nat.shiftLeft_eq]; omega
  have h4' : x = (x / 4) <<< 2 + (x % 2) := by rw [Nat.shiftLeft_eq]; omega
  rw [h4, Nat.shiftLeft_add_eq_or_of_lt (by omega)]
  conv => lhs; rw [h4', Nat.shiftLeft_add_eq_or_of_lt (by omega)]
  simp only [Nat.testBit_or, Bool.or_assoc]
  congr 1
  have : x % 2 = 0 ∨ x % 2 = 1 := by omega
  rcases this with e | e <;> rw [e]
  · simp
  · rw [← Nat.testBit_or]; rfl

theorem or_bit1 (x : U64) (h : x.toNat / 2 % 2 = 0) : (x ||| COL_ABS_BIT).toNat = x.toNat + 2 := by
  have e : COL_ABS_BIT.toNat = 2 := by decide
  rw [BitVec.toNat_or, e, nat_or_two _ h]

theorem and_bit0 (x : U64) : (x &&& ROW_ABS_BIT).toNat = x.toNat % 2 := by
  have e : ROW_ABS_BIT.toNat = 1 := by decide
  rw [BitVec.toNat_and, e, Nat.and_one_is_mod]

theorem and_bit1 (x : U64) : (x &&& COL_ABS_BIT).toNat = 2 * (x.toNat / 2 % 2) := by
  have e : COL_ABS_BIT.toNat = 2 := by decide
  rw [BitVec.toNat_and, e]
  apply Nat.eq_of_testBit_eq
  intro i
  rw [Nat.testBit_and, Nat.testBit_eq_decide_div_mod_eq (x := x.toNat)]
  rcases i with _ | _ | i
  · simp
  · have : x.toNat / 2 % 2 = 0 ∨ x.toNat / 2 % 2 = 1 := by omega
    rcases this with h | h <;> simp [h] 
  · have : x.toNat / 2 % 2 = 0 ∨ x.toNat / 2 % 2 = 1 := by omega
    have h2 : Nat.testBit 2 (i+1+1) = false := by
      rw [Nat.testBit_eq_decide_div_mod_eq]; 
      have : 2 / 2 ^ (i+1+1) = 0 := by
        apply Nat.div_eq_of_lt; rw [Nat.pow_succ, Nat.pow_succ]; have := Nat.one_le_two_pow (n := i); omega
      simp [this]
    rcases this with h | h <;> simp [h, h2] 

theorem RelativeCoord.rowAbs_iff (c : RelativeCoord) : c.rowAbs = decide (c.raw.toNat % 2 = 1) := by
  unfold RelativeCoord.rowAbs
  have := and_bit0 c.raw
  by_cases h : c.raw.toNat % 2 = 1
  · have : c.raw &&& ROW_ABS_BIT ≠ 0#64 := by
      intro h0; rw [h0] at this; simp at this; omega
    simp [this, h]
  · have : c.raw &&& ROW_ABS_BIT = 0#64 := by
      apply BitVec.eq_of_toNat_eq; rw [this]; simp; omega
    simp [this, h]

theorem RelativeCoord.colAbs_iff (c : RelativeCoord) :
    c.colAbs = decide (c.raw.toNat / 2 % 2 = 1) := by
  unfold RelativeCoord.colAbs
  have := and_bit1 c.raw
  by_cases h : c.raw.toNat / 2 % 2 = 1
  · have : c.raw &&& COL_ABS_BIT ≠ 0#64 := by
      intro h0; rw [h0] at this; simp at this; omega
    simp [this, h]
  · have : c.raw &&& COL_ABS_BIT = 0#64 := by
      apply BitVec.eq_of_toNat_eq; rw [this]; simp; omega
    simp [this, h]

/-- A word has no reserved bit iff it is `row * 2^24 + col * 2^10` for in-range row, col. -/
theorem reserved_zero_iff (raw : U64) :
    raw &&& Coord.RESERVED_MASK = 0#64 ↔ raw.toNat < 2 ^ 44 ∧ raw.toNat % 2 ^ 10 = 0 := by
  have key : raw &&& Coord.RESERVED_MASK = 0#64 ↔
      ∀ i, (i < 10 ∨ (44 ≤ i ∧ i < 64)) → raw.toNat.testBit i = false := by
    have hm : ∀ i, Coord.RESERVED_MASK.getLsbD i = decide (i < 10 ∨ (44 ≤ i ∧ i < 64)) := by
      intro i
      by_cases h : i < 64
      · have : ∀ i : Fin 64, Coord.RESERVED_MASK.getLsbD i.1 =
          decide (i.1 < 10 ∨ (44 ≤ i.1 ∧ i.1 < 64)) := by decide
        exact this ⟨i, h⟩
      · rw [BitVec.getLsbD_of_ge _ _ (by omega)]; symm; simp; omega
    constructor
    · intro h i hi
      have h2 := congrArg (fun v => v.getLsbD i) h
      simp only [BitVec.getLsbD_and, hm, hi, decide_true, Bool.and_true, BitVec.getLsbD_zero] at h2
      exact h2
    · intro h
      apply BitVec.eq_of_getLsbD_eq
      intro i hi
      rw [BitVec.getLsbD_and, hm]
      by_cases hi2 : (i < 10 ∨ (44 ≤ i ∧ i < 64))
      · have := h i hi2
        simp only [hi2, decide_true, Bool.and_true, BitVec.getLsbD_zero]; exact this
      · simp [hi2]
  rw [key]
  constructor
  · intro h
    constructor
    · apply Nat.lt_pow_two_of_testBit
      intro i hi
      by_cases h64 : i < 64
      · exact h i (Or.inr ⟨hi, h64⟩)
      · apply Nat.testBit_lt_two_pow
        exact Nat.lt_of_lt_of_le raw.isLt (Nat.pow_le_pow_right (by decide) (by omega))
    · apply Nat.eq_of_testBit_eq
      intro i
      rw [Nat.testBit_mod_two_pow]
      by_cases hi : i < 10
      · simp [h i (Or.inl hi)]
      · simp [hi]
  · rintro ⟨h1, h2⟩ i hi
    rcases hi with hi | ⟨hi, _⟩
    · have := congrArg (fun v => Nat.testBit v i) h2
      simp only [Nat.testBit_mod_two_pow, hi, decide_true, Bool.true_and, Nat.zero_testBit] at this
      exact this
    · apply Nat.testBit_lt_two_pow
      exact Nat.lt_of_lt_of_le h1 (Nat.pow_le_pow_right (by decide) hi)

theorem rel_reserved_zero_iff (raw : U64) :
    raw &&& RelativeCoord.RESERVED_MASK = 0#64 ↔ raw.toNat < 2 ^ 44 ∧ raw.toNat / 4 % 2 ^ 8 = 0 := by
  have key : raw &&& RelativeCoord.RESERVED_MASK = 0#64 ↔
      ∀ i, ((2 ≤ i ∧ i < 10) ∨ (44 ≤ i ∧ i < 64)) → raw.toNat.testBit i = false := by
    have hm : ∀ i, RelativeCoord.RESERVED_MASK.getLsbD i =
        decide ((2 ≤ i ∧ i < 10) ∨ (44 ≤ i ∧ i < 64)) := by
      intro i
      by_cases h : i < 64
      · have : ∀ i : Fin 64, RelativeCoord.RESERVED_MASK.getLsbD i.1 =
          decide ((2 ≤ i.1 ∧ i.1 < 10) ∨ (44 ≤ i.1 ∧ i.1 < 64)) := by decide
        exact this ⟨i, h⟩
      · rw [BitVec.getLsbD_of_ge _ _ (by omega)]; symm; simp; omega
    constructor
    · intro h i hi
      have h2 := congrArg (fun v => v.getLsbD i) h
      simp only [BitVec.getLsbD_and, hm, hi, decide_true, Bool.and_true, BitVec.getLsbD_zero] at h2
      exact h2
    · intro h
      apply BitVec.eq_of_getLsbD_eq
      intro i hi
      rw [BitVec.getLsbD_and, hm]
      by_cases hi2 : ((2 ≤ i ∧ i < 10) ∨ (44 ≤ i ∧ i < 64))
      · have := h i hi2
        simp only [hi2, decide_true, Bool.and_true, BitVec.getLsbD_zero]; exact this
      · simp [hi2]
  rw [key]
  constructor
  · intro h
    constructor
    · apply Nat.lt_pow_two_of_testBit
      intro i hi
      by_cases h64 : i < 64
      · exact h i (Or.inr ⟨hi, h64⟩)
      · apply Nat.testBit_lt_two_pow
        exact Nat.lt_of_lt_of_le raw.isLt (Nat.pow_le_pow_right (by decide) (by omega))
    · apply Nat.eq_of_testBit_eq
      intro i
      rw [Nat.testBit_mod_two_pow, show (4 : Nat) = 2 ^ 2 from rfl, Nat.testBit_div_two_pow]
      by_cases hi : i < 8
      · simp [h (i + 2) (Or.inl (by omega))]
      · simp [hi]
  · rintro ⟨h1, h2⟩ i hi
    rcases hi with ⟨hi, hi'⟩ | ⟨hi, _⟩
    · have := congrArg (fun v => Nat.testBit v (i - 2)) h2
      rw [show (4 : Nat) = 2 ^ 2 from rfl] at this
      simp only [Nat.testBit_mod_two_pow, Nat.testBit_div_two_pow] at this
      simpa [show i - 2 < 8 by omega, show i - 2 + 2 = i by omega] using this
    · apply Nat.testBit_lt_two_pow
      exact Nat.lt_of_lt_of_le h1 (Nat.pow_le_pow_right (by decide) hi)

end Verif.Coord
