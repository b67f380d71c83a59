/-
What is read back from the store for values (property C62).
-/
import Verif.Arena.Value

namespace Verif.Arena

/-! ### The bits of references -/

theorem toNat_mk {type : Nat} (ht : type < 16) {index : BitVec 32} (hi : index.toNat < 2 ^ 28) :
    ((BitVec.ofNat 32 type) <<< 28 ||| index).toNat = type * 2 ^ 28 + index.toNat := by
  rw [BitVec.toNat_or, BitVec.toNat_shiftLeft, BitVec.toNat_ofNat]
  have h1 : (type % 2 ^ 32) <<< 28 % 2 ^ 32 = 2 ^ 28 * type := by
    rw [Nat.shiftLeft_eq]
    omega
  rw [h1, ← Nat.two_pow_add_eq_or_of_lt hi]
  omega

theorem typeBits_eq (r : VRef) : typeBits r = r.toNat / 2 ^ 28 := by
  unfold typeBits
  have h : r &&& 0xF0000000#32 = (r >>> 28) <<< 28 := by
    apply BitVec.eq_of_getLsbD_eq
    intro i hi
    rw [BitVec.getLsbD_and, BitVec.getLsbD_shiftLeft, BitVec.getLsbD_ushiftRight]
    have : ∀ i, i < 32 → (0xF0000000#32).getLsbD i = decide (28 ≤ i) := by decide
    rw [this i hi]
    by_cases h : i < 28
    · simp [h]
    · have e : 28 + (i - 28) = i := by omega
      simp [h, hi, e]
      omega
  rw [h, BitVec.toNat_ushiftRight, BitVec.toNat_shiftLeft, BitVec.toNat_ushiftRight, Nat.shiftLeft_eq, Nat.shiftRight_eq_div_pow,
    Nat.shiftRight_eq_div_pow]
  have := r.isLt
  omega

theorem payload_eq (r : VRef) : (payload r).toNat = r.toNat % 2 ^ 28 := by
  unfold payload payloadMask
  rw [BitVec.toNat_and]
  exact Nat.and_two_pow_sub_one_eq_mod r.toNat 28

theorem mkRef_spec {type : Nat} (ht : type < 16) {index : BitVec 32} {r : VRef} (h : mkRef type index = some r) :
    typeBits r = type ∧ payload r = index ∧ index.toNat < 2 ^ 28 := by
  unfold mkRef at h
  split at h
  · next hi =>
    have hi : index.toNat < 2 ^ 28 := by
      have : index.toNat ≤ payloadMask.toNat := hi
      have e : payloadMask.toNat = 2 ^ 28 - 1 := rfl
      omega
    obtain rfl := Option.some.inj h
    refine ⟨?_, ?_, hi⟩
    · rw [typeBits_eq, toNat_mk ht hi]; omega
    · apply BitVec.eq_of_toNat_eq
      rw [payload_eq, toNat_mk ht hi]; omega
  · cases h

/-- An index taken from a length, when the reference could be made. -/
theorem mkRef_index {type : Nat} (ht : type < 16) {n : Nat} {r : VRef} (hn : n < 2 ^ 32)
    (h : mkRef type (BitVec.ofNat 32 n) = some r) : typeBits r = type ∧ (payload r).toNat = n := by
  obtain ⟨h1, h2, -⟩ := mkRef_spec ht h
  refine ⟨h1, ?_⟩
  rw [h2, BitVec.toNat_ofNat]
  omega

theorem integer_never (type n : Nat) : mkRef type (integerRef n) = none := by
  unfold mkRef integerRef
  rw [if_neg]
  intro h
  have h1 : (BitVec.ofNat 32 n ||| 1#32 <<< 31).toNat ≤ payloadMask.toNat := h
  have h2 : 2 ^ 31 ≤ (BitVec.ofNat 32 n ||| 1#32 <<< 31).toNat := by
    rw [BitVec.toNat_or]
    exact Nat.right_le_or
  have e : payloadMask.toNat = 2 ^ 28 - 1 := rfl
  omega

theorem small_roundtrip {v : BitVec 32} {r : VRef} (h : smallInt v = some r) : typeBits r = 1 ∧ asSmallInt r = v.toInt := by
  unfold smallInt at h
  split at h
  · next hv =>
    obtain rfl := Option.some.inj h
    have hp : (v &&& payloadMask).toNat = v.toNat % 2 ^ 28 := payload_eq v
    have hlt : (v &&& payloadMask).toNat < 2 ^ 28 := by rw [hp]; omega
    have ht := toNat_mk (type := 1) (by decide) hlt
    have e1 : (BitVec.ofNat 32 1 <<< 28 ||| v &&& payloadMask) = ((1#32) <<< 28 ||| (v &&& payloadMask)) := rfl
    rw [e1] at ht
    refine ⟨by rw [typeBits_eq, ht, hp]; omega, ?_⟩
    have hpay : payload ((1#32) <<< 28 ||| (v &&& payloadMask)) = v &&& payloadMask := by
      apply BitVec.eq_of_toNat_eq
      rw [payload_eq, ht, hp]; omega
    unfold asSmallInt
    rw [hpay]
    have hint := BitVec.toInt_eq_toNat_cond (x := v)
    have hvlt := v.isLt
    have hbit : (v &&& payloadMask &&& 1#32 <<< 27 = 0#32) ↔ v.toNat % 2 ^ 28 < 2 ^ 27 := by
      constructor
      · intro h
        have h27 : (v &&& payloadMask).getLsbD 27 = false := by
          have := congrArg (fun b => b.getLsbD 27) h
          simpa using this
        have : (v &&& payloadMask).toNat.testBit 27 = false := h27
        rw [hp] at this
        have h3 := Nat.testBit_eq_decide_div_mod_eq (x := v.toNat % 2 ^ 28) (i := 27)
        rw [this] at h3
        have := (decide_eq_false_iff_not.1 h3.symm)
        omega
      · intro h
        apply BitVec.eq_of_getLsbD_eq
        intro i hi
        rw [BitVec.getLsbD_and, BitVec.getLsbD_shiftLeft]
        by_cases e : i = 27
        · subst e
          have : (v &&& payloadMask).toNat.testBit 27 = false := by
            rw [hp, Nat.testBit_eq_decide_div_mod_eq]
            simp only [decide_eq_false_iff_not]
            omega
          have h' : (v &&& payloadMask).getLsbD 27 = false := this
          rw [h']; simp
        · have : ∀ i, i < 32 → i ≠ 27 → (1#32 <<< 27).getLsbD i = false := by decide
          rw [← BitVec.getLsbD_shiftLeft, this i hi e]; simp
    split
    · next hb =>
      have hb : ¬ v.toNat % 2 ^ 28 < 2 ^ 27 := fun hh => hb (hbit.2 hh)
      have : v &&& payloadMask ||| ~~~payloadMask = v ||| ~~~payloadMask := by
        apply BitVec.eq_of_getLsbD_eq
        intro i hi
        simp only [BitVec.getLsbD_or, BitVec.getLsbD_and, BitVec.getLsbD_not, hi, decide_true, Bool.true_and]
        cases v.getLsbD i <;> cases payloadMask.getLsbD i <;> rfl
      rw [this]
      have hneg : v.toNat ≥ 2 ^ 32 - 2 ^ 27 := by
        split at hint <;> omega
      have : v ||| ~~~payloadMask = v := by
        have hmask : ∀ i, i < 32 → (~~~payloadMask).getLsbD i = decide (28 ≤ i) := by decide
        apply BitVec.eq_of_getLsbD_eq
        intro i hi
        rw [BitVec.getLsbD_or, hmask i hi]
        by_cases h28 : 28 ≤ i
        · have : v.toNat.testBit i = true := by
            rw [Nat.testBit_eq_decide_div_mod_eq]
            simp only [decide_eq_true_eq]
            have : i = 28 ∨ i = 29 ∨ i = 30 ∨ i = 31 := by omega
            rcases this with rfl | rfl | rfl | rfl <;> omega
          have : v.getLsbD i = true := this
          simp [this]
        · simp [h28]
      rw [this]
    · next hb =>
      have hb : v.toNat % 2 ^ 28 < 2 ^ 27 := hbit.1 (by simpa using hb)
      have hpos : v.toNat < 2 ^ 27 := by split at hint <;> omega
      have : v &&& payloadMask = v := by
        apply BitVec.eq_of_toNat_eq; rw [hp]; omega
      rw [this]
  · cases h

end Verif.Arena
