import Mathlib.Data.Rat.Floor
import Mathlib.Tactic.Linarith
import Mathlib.Tactic.NormNum
import Mathlib.Tactic.Ring

/-!
BITAND, BITOR, BITXOR, BITLSHIFT, BITRSHIFT and CONVERT: `crates/formualizer-eval/src/builtins/engineering.rs`.

Arguments are finite exact numbers, already coerced (`coerce_num`); an argument that is an error or cannot be coerced is
returned as that error before anything else. The 64-bit signed integers of the code are bit vectors. A result is turned
into a float, exactly: it has at most 48 significant bits.
-/
namespace Verif.Engin

inductive Err
  | num | value | na | div | other (n : Nat)
deriving DecidableEq, Repr

/-- What a call gives: a value, an error shown in the cell, or a panic of a build with overflow checks. -/
inductive Out (α : Type)
  | ok (a : α)
  | err (e : Err)
  | panic
deriving DecidableEq, Repr

/-- A coerced argument. -/
inductive Arg
  | num (q : Rat)
  | err (e : Err)
deriving DecidableEq, Repr

/-- `to_bitwise_int`, engineering.rs 15-22. -/
def toBits (q : Rat) : Option (BitVec 64) :=
  if q < 0 ∨ q.den ≠ 1 ∨ 281474976710656 ≤ q then none else some (BitVec.ofNat 64 q.num.toNat)

/-- The evaluation shared by BITAND, BITOR and BITXOR, engineering.rs 83-111, 167-195, 251-279. -/
def bitwise (f : BitVec 64 → BitVec 64 → BitVec 64) (x y : Arg) : Out Int :=
  match x with
  | .err e => .err e
  | .num p =>
    match toBits p with
    | none => .err .num
    | some a =>
      match y with
      | .err e => .err e
      | .num q =>
        match toBits q with
        | none => .err .num
        | some b => .ok (f a b).toInt

def bitand : Arg → Arg → Out Int := bitwise (· &&& ·)
def bitor : Arg → Arg → Out Int := bitwise (· ||| ·)
def bitxor : Arg → Arg → Out Int := bitwise (· ^^^ ·)

/-- `as i32`: the fraction is cut, values out of range become the nearest end. Used in engineering.rs 350, 452. -/
def toI32 (q : Rat) : Int :=
  max (-2147483648) (min 2147483647 (q.num.tdiv q.den))

/-- The branch that shifts left, engineering.rs 354-368 and 459-473: `n << shift` keeps the low 64 bits. -/
def left (n : BitVec 64) (s : Nat) : Out Int :=
  if 48 ≤ s then .err .num
  else if 281474976710656 ≤ (n <<< s).toInt then .err .num
  else .ok (n <<< s).toInt

/-- The branch that shifts right, engineering.rs 369-372 and 456-457. -/
def right (n : BitVec 64) (s : Nat) : Out Int :=
  if 48 ≤ s then .ok 0 else .ok (n.sshiftRight s).toInt

/-- `-shift` on `i32`: the least value has no negative. Engineering.rs 370, 459. -/
def negI32 (checked : Bool) (s : Int) : Option Nat :=
  if s = -2147483648 then (if checked then none else some 2147483648) else some (-s).toNat

/-- BITLSHIFT, engineering.rs 331-377. -/
def bitlshift (checked : Bool) (x y : Arg) : Out Int :=
  match x with
  | .err e => .err e
  | .num p =>
    match toBits p with
    | none => .err .num
    | some n =>
      match y with
      | .err e => .err e
      | .num q =>
        if 0 ≤ toI32 q then left n (toI32 q).toNat
        else match negI32 checked (toI32 q) with
          | none => .panic
          | some r => right n r

/-- BITRSHIFT, engineering.rs 433-479. -/
def bitrshift (checked : Bool) (x y : Arg) : Out Int :=
  match x with
  | .err e => .err e
  | .num p =>
    match toBits p with
    | none => .err .num
    | some n =>
      match y with
      | .err e => .err e
      | .num q =>
        if 0 ≤ toI32 q then right n (toI32 q).toNat
        else match negI32 checked (toI32 q) with
          | none => .panic
          | some r => left n r

/-! ### Arguments -/

theorem toBits_nat (n : Nat) (h : n < 2 ^ 48) : toBits (n : Rat) = some (BitVec.ofNat 64 n) := by
  have h1 : ¬ ((n : Rat) < 0 ∨ (n : Rat).den ≠ 1 ∨ (281474976710656 : Rat) ≤ n) := by
    have : (n : Rat) < 281474976710656 := by exact_mod_cast (by omega : n < 281474976710656)
    have h0 : (0 : Rat) ≤ n := by exact_mod_cast Nat.zero_le n
    rintro (h | h | h)
    · exact absurd h (not_lt.mpr h0)
    · exact h (by simp)
    · exact absurd h (not_le.mpr this)
  unfold toBits
  rw [if_neg h1]
  simp

/-- **Exactly the whole numbers from 0 below 2^48 are taken** as first argument of a bitwise function and as second of
BITAND, BITOR and BITXOR. -/
theorem toBits_iff (q : Rat) : (∃ b, toBits q = some b) ↔ ∃ n : Nat, n < 2 ^ 48 ∧ q = n := by
  constructor
  · rintro ⟨b, hb⟩
    unfold toBits at hb
    split at hb
    · cases hb
    · rename_i h
      simp only [not_or, not_lt, not_le, ne_eq, not_not] at h
      obtain ⟨h1, h2, h3⟩ := h
      have hq : q = (q.num : Rat) := by
        conv_lhs => rw [← Rat.num_div_den q]
        rw [h2]; simp
      have hn : 0 ≤ q.num := Rat.num_nonneg.mpr h1
      refine ⟨q.num.toNat, ?_, ?_⟩
      · rw [hq] at h3
        have : q.num < 281474976710656 := by exact_mod_cast h3
        omega
      · conv_lhs => rw [hq]
        have : ((q.num.toNat : Int) : Rat) = (q.num : Rat) := by rw [Int.toNat_of_nonneg hn]
        exact this.symm.trans (Int.cast_natCast _)
  · rintro ⟨n, h, rfl⟩
    exact ⟨_, toBits_nat n h⟩

/-- Anything else gives #NUM!, whatever the second argument. -/
theorem refused (q : Rat) (h : ∀ n : Nat, n < 2 ^ 48 → q ≠ n) (f : BitVec 64 → BitVec 64 → BitVec 64) (y : Arg) (c : Bool) :
    bitwise f (.num q) y = .err .num ∧ bitlshift c (.num q) y = .err .num ∧ bitrshift c (.num q) y = .err .num := by
  have : toBits q = none := by
    by_contra hc
    obtain ⟨b, hb⟩ := Option.ne_none_iff_exists'.mp hc
    obtain ⟨n, h1, h2⟩ := (toBits_iff q).mp ⟨b, hb⟩
    exact h n h1 h2
  simp [bitwise, bitlshift, bitrshift, this]

example : bitand (.num (3/2)) (.num 1) = .err .num := by decide +kernel
example : bitand (.num (-1)) (.err (.other 4)) = .err .num := by decide +kernel

/-- A second argument outside the range gives #NUM!; an error of the first argument shows first, then the range of the
first argument, then an error of the second. -/
theorem refused_second (n : Nat) (hn : n < 2 ^ 48) (f : BitVec 64 → BitVec 64 → BitVec 64) :
    (∀ q : Rat, (∀ m : Nat, m < 2 ^ 48 → q ≠ m) → bitwise f (.num n) (.num q) = .err .num)
    ∧ (∀ e, bitwise f (.num n) (.err e) = .err e) ∧ (∀ e y, bitwise f (.err e) y = .err e) := by
  refine ⟨fun q h => ?_, fun e => ?_, fun e y => rfl⟩
  · have : toBits q = none := by
      by_contra hc
      obtain ⟨b, hb⟩ := Option.ne_none_iff_exists'.mp hc
      obtain ⟨n, h1, h2⟩ := (toBits_iff q).mp ⟨b, hb⟩
      exact h n h1 h2
    simp [bitwise, toBits_nat n hn, this]
  · simp [bitwise, toBits_nat n hn]

theorem toInt_small (b : BitVec 64) (r : Nat) (h : b.toNat = r) (hr : r < 2 ^ 48) : b.toInt = r := by
  rw [BitVec.toInt_eq_toNat_of_lt (by omega), h]

/-! ### Bits -/

/-- **BITAND, BITOR and BITXOR work bit by bit**, on every position, and stay in the range of arguments: the results can
be used again. -/
theorem bit_spec (a b : Nat) (ha : a < 2 ^ 48) (hb : b < 2 ^ 48) :
    (∃ r : Nat, r < 2 ^ 48 ∧ bitand (.num a) (.num b) = .ok r ∧ ∀ k, r.testBit k = (a.testBit k && b.testBit k))
    ∧ (∃ r : Nat, r < 2 ^ 48 ∧ bitor (.num a) (.num b) = .ok r ∧ ∀ k, r.testBit k = (a.testBit k || b.testBit k))
    ∧ (∃ r : Nat, r < 2 ^ 48 ∧ bitxor (.num a) (.num b) = .ok r ∧
        ∀ k, r.testBit k = ((a.testBit k && !b.testBit k) || (!a.testBit k && b.testBit k))) := by
  have e : ∀ n : Nat, n < 2 ^ 48 → (BitVec.ofNat 64 n).toNat = n := by
    intro n hn
    rw [BitVec.toNat_ofNat]; exact Nat.mod_eq_of_lt (by omega)
  have lt : a &&& b < 2 ^ 48 := Nat.and_lt_two_pow a hb
  have lo : a ||| b < 2 ^ 48 := Nat.or_lt_two_pow ha hb
  have lx : a ^^^ b < 2 ^ 48 := Nat.xor_lt_two_pow ha hb
  refine ⟨⟨a &&& b, lt, ?_, ?_⟩, ⟨a ||| b, lo, ?_, ?_⟩, ⟨a ^^^ b, lx, ?_, ?_⟩⟩
  · simp only [bitand, bitwise, toBits_nat a ha, toBits_nat b hb]
    rw [toInt_small _ (a &&& b) (by rw [BitVec.toNat_and, e a ha, e b hb]) lt]
  · intro k; exact Nat.testBit_and a b k
  · simp only [bitor, bitwise, toBits_nat a ha, toBits_nat b hb]
    rw [toInt_small _ (a ||| b) (by rw [BitVec.toNat_or, e a ha, e b hb]) lo]
  · intro k; exact Nat.testBit_or a b k
  · simp only [bitxor, bitwise, toBits_nat a ha, toBits_nat b hb]
    rw [toInt_small _ (a ^^^ b) (by rw [BitVec.toNat_xor, e a ha, e b hb]) lx]
  · intro k; rw [Nat.testBit_xor]
    cases a.testBit k <;> cases b.testBit k <;> rfl

example : bitand (.num 13) (.num 10) = .ok 8 ∧ bitor (.num 13) (.num 10) = .ok 15 ∧ bitxor (.num 13) (.num 10) = .ok 7 := by
  decide +kernel

/-! ### Shifts -/

theorem toI32_nat (s : Nat) (h : s ≤ 2147483647) : toI32 (s : Rat) = s := by
  unfold toI32
  have : ((s : Rat).num).tdiv ((s : Rat).den) = s := by simp
  rw [this]; omega

theorem toI32_neg (s : Nat) (h : s ≤ 2147483648) : toI32 (-(s : Rat)) = -(s : Int) := by
  unfold toI32
  have : ((-(s : Rat)).num).tdiv ((-(s : Rat)).den) = -(s : Int) := by simp
  rw [this]; omega

/-- The integer that 64 bits of two's complement give: the one congruent to `z` modulo 2^64 from -2^63 below 2^63. -/
def IsWrap (z r : Int) : Prop := -2 ^ 63 ≤ r ∧ r < 2 ^ 63 ∧ ∃ k : Int, z = r + k * 2 ^ 64

theorem shl_wrap (a s : Nat) (ha : a < 2 ^ 48) : IsWrap ((a : Int) * 2 ^ s) ((BitVec.ofNat 64 a <<< s).toInt) := by
  refine ⟨BitVec.le_toInt _, BitVec.toInt_lt, ?_⟩
  have : (BitVec.ofNat 64 a <<< s).toInt = Int.bmod ((a : Int) * 2 ^ s) (2 ^ 64) := by
    rw [BitVec.toInt_shiftLeft, BitVec.toNat_ofNat, Nat.mod_eq_of_lt (by omega), Nat.shiftLeft_eq]
    push_cast; rfl
  rw [this]
  refine ⟨Int.bdiv ((a : Int) * 2 ^ s) (2 ^ 64), ?_⟩
  have := Int.bmod_add_bdiv ((a : Int) * 2 ^ s) (2 ^ 64)
  push_cast at this ⊢
  linarith

/-- **What a left shift gives, in full**: from 48 places on #NUM!; below, the shifted number wrapped into 64 bits, and #NUM!
if *that* is 2^48 or more. -/
theorem left_spec (c : Bool) (a s : Nat) (ha : a < 2 ^ 48) (hs : s ≤ 2147483647) :
    (48 ≤ s → bitlshift c (.num a) (.num s) = .err .num)
    ∧ (s < 48 → ∀ r, IsWrap ((a : Int) * 2 ^ s) r →
        bitlshift c (.num a) (.num s) = if 2 ^ 48 ≤ r then .err .num else .ok r) := by
  have e : bitlshift c (.num a) (.num s) = left (BitVec.ofNat 64 a) s := by
    simp only [bitlshift, toBits_nat a ha, toI32_nat s hs]
    rw [if_pos (by omega)]; simp
  rw [e]
  refine ⟨fun h => by unfold left; rw [if_pos h], fun h r hr => ?_⟩
  have hw := shl_wrap a s ha
  have : (BitVec.ofNat 64 a <<< s).toInt = r := by
    obtain ⟨h1, h2, k, h3⟩ := hw
    obtain ⟨g1, g2, l, g3⟩ := hr
    generalize (BitVec.ofNat 64 a <<< s).toInt = z at *
    generalize (a : Int) * 2 ^ s = w at *
    omega
  unfold left
  rw [if_neg (by omega), this]
  rfl

/-- **A left shift whose result fits is multiplication by a power of two; one that goes past 2^48 but not past 2^63 is
#NUM!.** -/
theorem left_exact (c : Bool) (a s : Nat) (ha : a < 2 ^ 48) (hs : s < 48) :
    (a * 2 ^ s < 2 ^ 48 → bitlshift c (.num a) (.num s) = .ok (a * 2 ^ s))
    ∧ (2 ^ 48 ≤ a * 2 ^ s → a * 2 ^ s < 2 ^ 63 → bitlshift c (.num a) (.num s) = .err .num) := by
  have h := (left_spec c a s ha (by omega)).2 hs ((a : Int) * 2 ^ s)
  have hc : ((a * 2 ^ s : Nat) : Int) = (a : Int) * 2 ^ s := by push_cast; rfl
  have hp : (0 : Int) ≤ (a : Int) * 2 ^ s := by rw [← hc]; omega
  have hw : a * 2 ^ s < 2 ^ 63 → IsWrap ((a : Int) * 2 ^ s) ((a : Int) * 2 ^ s) := fun hl =>
    ⟨by omega, by omega, 0, by omega⟩
  constructor
  · intro hl
    rw [h (hw (by omega)), if_neg (by omega)]
  · intro h1 h2
    rw [h (hw h2), if_pos (by omega)]

example : bitlshift true (.num 4) (.num 2) = .ok 16 := by decide +kernel

/-- **A right shift is division by a power of two, the fraction cut**, for every number of places. -/
theorem right_spec (c : Bool) (a s : Nat) (ha : a < 2 ^ 48) (hs : s ≤ 2147483647) :
    bitrshift c (.num a) (.num s) = .ok ((a / 2 ^ s : Nat) : Int) := by
  have e : bitrshift c (.num a) (.num s) = right (BitVec.ofNat 64 a) s := by
    simp only [bitrshift, toBits_nat a ha, toI32_nat s hs]
    rw [if_pos (by omega)]; simp
  rw [e]
  have hn : (BitVec.ofNat 64 a).toNat = a := by rw [BitVec.toNat_ofNat]; exact Nat.mod_eq_of_lt (by omega)
  unfold right
  split
  · rename_i h
    have : a / 2 ^ s = 0 := Nat.div_eq_of_lt (lt_of_lt_of_le ha (Nat.pow_le_pow_right (by omega) h))
    rw [this]; rfl
  · have hm : (BitVec.ofNat 64 a).msb = false := by
      rw [BitVec.msb_eq_false_iff_two_mul_lt, hn]; omega
    rw [toInt_small _ (a / 2 ^ s) ?_ (lt_of_le_of_lt (Nat.div_le_self _ _) ha)]
    rw [BitVec.toNat_sshiftRight_of_msb_false hm, hn, Nat.shiftRight_eq_div_pow]

/-- **A negative shift is a shift the other way**, down to -(2^31-1). -/
theorem shift_negative (c : Bool) (a s : Nat) (ha : a < 2 ^ 48) (hs : s ≤ 2147483647) :
    bitlshift c (.num a) (.num (-(s : Rat))) = bitrshift c (.num a) (.num s)
    ∧ bitrshift c (.num a) (.num (-(s : Rat))) = bitlshift c (.num a) (.num s) := by
  rcases Nat.eq_zero_or_pos s with h0 | h0
  · subst h0
    have z : (-((0 : Nat) : Rat)) = ((0 : Nat) : Rat) := by simp
    rw [z, right_spec c a 0 ha (by omega), (left_exact c a 0 ha (by omega)).1 (by omega)]
    simp
  · have h1 : ¬ (0 : Int) ≤ -(s : Int) := by omega
    have h2 : ¬ (-(s : Int) = -2147483648) := by omega
    have h3 : (0 : Int) ≤ (s : Int) := by omega
    have h4 : (- -(s : Int)).toNat = s := by omega
    simp only [bitlshift, bitrshift, toBits_nat a ha, toI32_nat s hs, toI32_neg s (by omega), if_neg h1, if_pos h3,
      negI32, if_neg h2, h4, Int.toNat_natCast, and_self]

/-- Shifting left and back gives the number again, if the shifted number fits. -/
theorem shift_back (c : Bool) (a s : Nat) (ha : a < 2 ^ 48) (hs : s < 48) (h : a * 2 ^ s < 2 ^ 48) :
    ∃ r : Nat, bitlshift c (.num a) (.num s) = .ok r ∧ bitrshift c (.num (r : Rat)) (.num s) = .ok a := by
  refine ⟨a * 2 ^ s, ?_, ?_⟩
  · rw [(left_exact c a s ha hs).1 h]; push_cast; rfl
  · rw [right_spec c _ s h (by omega), Nat.mul_div_cancel _ (by positivity)]

/-- **Refuted: a left shift beyond the range is #NUM!.** 2^47 shifted by 17 places is 0, 2^40 shifted by 23 places is
-2^63, a number no bitwise function takes. The same numbers come from BITRSHIFT with a negative shift. -/
theorem left_refuted (c : Bool) :
    bitlshift c (.num (2 ^ 47)) (.num 17) = .ok 0
    ∧ bitlshift c (.num (2 ^ 40)) (.num 23) = .ok (-9223372036854775808)
    ∧ bitrshift c (.num (2 ^ 40)) (.num (-23)) = .ok (-9223372036854775808) := by
  revert c; decide +kernel

/-- In general every number whose shifted form is a multiple of 2^64 gives 0. -/
theorem left_lost (c : Bool) (a s : Nat) (ha : a < 2 ^ 48) (hs : s < 48) (k : Nat) (h : a * 2 ^ s = k * 2 ^ 64) :
    bitlshift c (.num a) (.num s) = .ok 0 := by
  have hc : ((a * 2 ^ s : Nat) : Int) = (a : Int) * 2 ^ s := by push_cast; rfl
  rw [(left_spec c a s ha (by omega)).2 hs 0 ⟨by omega, by omega, k, by rw [← hc, h]; push_cast; ring⟩]
  rfl

/-- A shift of -2^31 or less panics in a build with overflow checks; other builds shift everything out. -/
theorem shift_panic (a : Nat) (ha : a < 2 ^ 48) (q : Rat) (h : q ≤ -2147483648) :
    bitlshift true (.num a) (.num q) = .panic ∧ bitrshift true (.num a) (.num q) = .panic
    ∧ bitlshift false (.num a) (.num q) = .ok 0 ∧ bitrshift false (.num a) (.num q) = .err .num := by
  have hd : (0 : Int) < q.den := by exact_mod_cast q.den_pos
  have : toI32 q = -2147483648 := by
    have : q.num.tdiv q.den ≤ -2147483648 := by
      have hq : q.num ≤ -2147483648 * q.den := by
        have h2 : (q.num : Rat) / q.den ≤ -2147483648 := by rw [Rat.num_div_den]; exact h
        have h3 : (0 : Rat) < q.den := by exact_mod_cast q.den_pos
        rw [div_le_iff₀ h3] at h2
        exact_mod_cast h2
      have e : q.num.tdiv q.den = -((-q.num).tdiv q.den) := by rw [Int.neg_tdiv]; omega
      rw [e, Int.tdiv_eq_ediv_of_nonneg (by nlinarith)]
      have : 2147483648 ≤ (-q.num) / q.den := by rw [Int.le_ediv_iff_mul_le hd]; linarith
      omega
    unfold toI32; omega
  simp [bitlshift, bitrshift, toBits_nat a ha, this, negI32, right, left]

/-- The fraction of a shift is cut, not refused. -/
theorem shift_fraction (c : Bool) (x : Arg) (q : Rat) :
    bitlshift c x (.num q) = bitlshift c x (.num ((q.num.tdiv q.den : Int) : Rat))
    ∧ bitrshift c x (.num q) = bitrshift c x (.num ((q.num.tdiv q.den : Int) : Rat)) := by
  have : toI32 ((q.num.tdiv q.den : Int) : Rat) = toI32 q := by
    unfold toI32; simp
  unfold bitlshift bitrshift
  simp only [this, and_self]

example : bitlshift true (.num 3) (.num (19/10)) = .ok 6 := by decide +kernel

/-! ### CONVERT -/

inductive Cat
  | length | mass | temperature
deriving DecidableEq, Repr

/-- `get_unit_info`, engineering.rs 5082-5171: category and factor to the base unit. -/
def unitInfo (u : String) : Option (Cat × Rat) :=
  if u = "m" then some (.length, 1)
  else if u = "km" then some (.length, 1000)
  else if u = "cm" then some (.length, 1/100)
  else if u = "mm" then some (.length, 1/1000)
  else if u = "mi" then some (.length, 1609344/1000)
  else if u = "ft" then some (.length, 3048/10000)
  else if u = "in" then some (.length, 254/10000)
  else if u = "yd" then some (.length, 9144/10000)
  else if u = "Nmi" then some (.length, 1852)
  else if u = "g" then some (.mass, 1)
  else if u = "kg" then some (.mass, 1000)
  else if u = "mg" then some (.mass, 1/1000)
  else if u = "lbm" then some (.mass, 45359237/100000)
  else if u = "oz" then some (.mass, 28349523125/1000000000)
  else if u = "ozm" then some (.mass, 28349523125/1000000000)
  else if u = "ton" then some (.mass, 90718474/100)
  else if u = "C" ∨ u = "cel" then some (.temperature, 0)
  else if u = "F" ∨ u = "fah" then some (.temperature, 0)
  else if u = "K" ∨ u = "kel" then some (.temperature, 0)
  else none

/-- `normalize_temp_unit`, engineering.rs 5173-5180. -/
def normal (u : String) : String :=
  if u = "C" ∨ u = "cel" then "C"
  else if u = "F" ∨ u = "fah" then "F"
  else if u = "K" ∨ u = "kel" then "K"
  else u

/-- `convert_temperature`, engineering.rs 5183-5207. -/
def temperature (x : Rat) (a b : String) : Rat :=
  if normal a = normal b then x
  else
    let celsius :=
      if normal a = "C" then x
      else if normal a = "F" then (x - 32) * 5 / 9
      else if normal a = "K" then x - 27315/100
      else x
    if normal b = "C" then celsius
    else if normal b = "F" then celsius * 9 / 5 + 32
    else if normal b = "K" then celsius + 27315/100
    else celsius

/-- `convert_units`, engineering.rs 5209-5228. -/
def convertUnits (x : Rat) (a b : String) : Out Rat :=
  match unitInfo a with
  | none => .err .na
  | some (ca, fa) =>
    match unitInfo b with
    | none => .err .na
    | some (cb, fb) =>
      if ca ≠ cb then .err .na
      else if ca = .temperature then .ok (temperature x a b)
      else .ok (x * fa / fb)

/-- A unit argument: a text, an error or anything else. -/
inductive Unit'
  | text (u : String)
  | err (e : Err)
  | other
deriving DecidableEq, Repr

/-- CONVERT, engineering.rs 5281-5325. -/
def convert (x : Arg) (a b : Unit') : Out Rat :=
  match x with
  | .err e => .err e
  | .num q =>
    match a with
    | .err e => .err e
    | .other => .err .na
    | .text u =>
      match b with
      | .err e => .err e
      | .other => .err .na
      | .text v => convertUnits q u v

/-- Specification: what a unit measures and the affine map to the base of its kind (metre, gram, kelvin): one unit more is
`scale` base units more, and zero of the unit is `zero` base units. Values of the international yard and pound. -/
structure Scale where
  kind : Cat
  scale : Rat
  zero : Rat

def table : List (String × Scale) :=
  [("m", ⟨.length, 1, 0⟩), ("km", ⟨.length, 1000, 0⟩), ("cm", ⟨.length, 1/100, 0⟩), ("mm", ⟨.length, 1/1000, 0⟩),
   ("in", ⟨.length, 254/10000, 0⟩), ("ft", ⟨.length, 12 * 254/10000, 0⟩), ("yd", ⟨.length, 36 * 254/10000, 0⟩),
   ("mi", ⟨.length, 1760 * 36 * 254/10000, 0⟩), ("Nmi", ⟨.length, 1852, 0⟩),
   ("g", ⟨.mass, 1, 0⟩), ("kg", ⟨.mass, 1000, 0⟩), ("mg", ⟨.mass, 1/1000, 0⟩),
   ("lbm", ⟨.mass, 45359237/100000, 0⟩), ("oz", ⟨.mass, 45359237/100000/16, 0⟩), ("ozm", ⟨.mass, 45359237/100000/16, 0⟩),
   ("ton", ⟨.mass, 2000 * 45359237/100000, 0⟩),
   ("C", ⟨.temperature, 1, 27315/100⟩), ("cel", ⟨.temperature, 1, 27315/100⟩),
   ("F", ⟨.temperature, 5/9, 27315/100 - 32 * 5/9⟩), ("fah", ⟨.temperature, 5/9, 27315/100 - 32 * 5/9⟩),
   ("K", ⟨.temperature, 1, 0⟩), ("kel", ⟨.temperature, 1, 0⟩)]

/-- No other unit is known. -/
theorem unknown_unit (u : String) (h : ∀ p ∈ table, p.1 ≠ u) : unitInfo u = none := by
  simp only [table, List.forall_mem_cons, List.not_mem_nil, false_implies, implies_true, and_true, ne_eq] at h
  obtain ⟨h1, h2, h3, h4, h5, h6, h7, h8, h9, h10, h11, h12, h13, h14, h15, h16, h17, h18, h19, h20, h21, h22⟩ := h
  unfold unitInfo
  rw [if_neg (Ne.symm h1), if_neg (Ne.symm h2), if_neg (Ne.symm h3), if_neg (Ne.symm h4), if_neg (Ne.symm h8),
    if_neg (Ne.symm h6), if_neg (Ne.symm h5), if_neg (Ne.symm h7), if_neg (Ne.symm h9), if_neg (Ne.symm h10),
    if_neg (Ne.symm h11), if_neg (Ne.symm h12), if_neg (Ne.symm h13), if_neg (Ne.symm h14), if_neg (Ne.symm h15),
    if_neg (Ne.symm h16), if_neg (not_or.mpr ⟨Ne.symm h17, Ne.symm h18⟩), if_neg (not_or.mpr ⟨Ne.symm h19, Ne.symm h20⟩),
    if_neg (not_or.mpr ⟨Ne.symm h21, Ne.symm h22⟩)]

theorem info_table : ∀ p ∈ table, unitInfo p.1 = some (p.2.kind, if p.2.kind = .temperature then 0 else p.2.scale) := by
  decide +kernel

theorem scale_pos : ∀ p ∈ table, 0 < p.2.scale ∧ (p.2.kind ≠ .temperature → p.2.zero = 0) := by
  decide +kernel

/-- How a temperature unit is normalised in the model, against the table. -/
theorem normal_table : ∀ p ∈ table, p.2.kind = .temperature →
    (normal p.1 = "C" ∧ p.2.scale = 1 ∧ p.2.zero = 27315/100)
    ∨ (normal p.1 = "F" ∧ p.2.scale = 5/9 ∧ p.2.zero = 27315/100 - 32 * 5/9)
    ∨ (normal p.1 = "K" ∧ p.2.scale = 1 ∧ p.2.zero = 0) := by
  decide +kernel

/-- **CONVERT keeps the quantity**: between units of one kind, the result in its unit is as much as the argument in its
own: same amount of the base unit. -/
theorem convert_spec (x : Rat) (p q : String × Scale) (hp : p ∈ table) (hq : q ∈ table) (hk : p.2.kind = q.2.kind) :
    ∃ y, convert (.num x) (.text p.1) (.text q.1) = .ok y
      ∧ y * q.2.scale + q.2.zero = x * p.2.scale + p.2.zero := by
  simp only [convert, convertUnits, info_table p hp, info_table q hq, hk]
  rw [if_neg (by simp)]
  by_cases ht : q.2.kind = .temperature
  · rw [if_pos ht]
    refine ⟨_, rfl, ?_⟩
    rcases normal_table p hp (hk.trans ht) with ⟨h1, h2, h3⟩ | ⟨h1, h2, h3⟩ | ⟨h1, h2, h3⟩ <;>
    rcases normal_table q hq ht with ⟨g1, g2, g3⟩ | ⟨g1, g2, g3⟩ | ⟨g1, g2, g3⟩ <;>
    · simp [temperature, h1, h2, h3, g1, g2, g3]
      try ring
  · rw [if_neg ht]
    have s1 := (scale_pos q hq).1
    have z1 := (scale_pos q hq).2 ht
    have z2 := (scale_pos p hp).2 (by rw [hk]; exact ht)
    refine ⟨_, rfl, ?_⟩
    rw [z1, z2, if_neg ht, if_neg ht, div_mul_cancel₀ _ (ne_of_gt s1)]

example : ("mi", (⟨.length, 1760 * 36 * 254/10000, 0⟩ : Scale)) ∈ table ∧ ("km", (⟨.length, 1000, 0⟩ : Scale)) ∈ table := by
  simp [table]
example : convert (.num 212) (.text "F") (.text "kel") = .ok (37315/100) := by decide +kernel

/-- **Everything else is #N/A**: units of two kinds, units not in the table (names are matched with case), units that are
no text. Errors of the arguments come first, in their order. -/
theorem convert_na (x : Rat) (u v : String) :
    (∀ p ∈ table, ∀ q ∈ table, p.1 = u → q.1 = v → p.2.kind ≠ q.2.kind) →
    convert (.num x) (.text u) (.text v) = .err .na := by
  intro h
  simp only [convert, convertUnits]
  by_cases hu : ∃ p ∈ table, p.1 = u
  · by_cases hv : ∃ q ∈ table, q.1 = v
    · obtain ⟨p, hp, rfl⟩ := hu
      obtain ⟨q, hq, rfl⟩ := hv
      simp only [info_table p hp, info_table q hq]
      rw [if_pos (h p hp q hq rfl rfl)]
    · have := unknown_unit v (fun q hq he => hv ⟨q, hq, he⟩)
      rw [this]
      cases unitInfo u <;> rfl
  · have := unknown_unit u (fun q hq he => hu ⟨q, hq, he⟩)
    rw [this]

theorem convert_errors (a b : Unit') (e : Err) (q : Rat) (u : String) :
    convert (.err e) a b = .err e ∧ convert (.num q) (.err e) b = .err e ∧ convert (.num q) .other b = .err .na
    ∧ convert (.num q) (.text u) (.err e) = .err e ∧ convert (.num q) (.text u) .other = .err .na :=
  ⟨rfl, rfl, rfl, rfl, rfl⟩

example : convert (.num 1) (.text "m") (.text "kg") = .err .na := by decide +kernel
example : convert (.num 1) (.text "M") (.text "km") = .err .na := by decide +kernel

/-- The names of the table are different. -/
theorem table_names : ∀ p ∈ table, ∀ q ∈ table, p.1 = q.1 → p.2.kind = q.2.kind ∧ p.2.scale = q.2.scale ∧ p.2.zero = q.2.zero := by
  decide +kernel

/-- What is converted at all: a pair of units of one kind. -/
theorem convert_ok {x y : Rat} {u v : String} (h : convert (.num x) (.text u) (.text v) = .ok y) :
    ∃ p ∈ table, ∃ q ∈ table, p.1 = u ∧ q.1 = v ∧ p.2.kind = q.2.kind
      ∧ y * q.2.scale + q.2.zero = x * p.2.scale + p.2.zero := by
  by_contra hc
  by_cases hn : ∃ p ∈ table, ∃ q ∈ table, p.1 = u ∧ q.1 = v ∧ p.2.kind = q.2.kind
  · obtain ⟨p, hp, q, hq, rfl, rfl, hk⟩ := hn
    obtain ⟨z, hz, hs⟩ := convert_spec x p q hp hq hk
    rw [h] at hz
    cases hz
    exact hc ⟨p, hp, q, hq, rfl, rfl, hk, hs⟩
  · have := convert_na x u v (fun p hp q hq h1 h2 hk => hn ⟨p, hp, q, hq, h1, h2, hk⟩)
    rw [h] at this
    cases this

/-- **Conversions compose, and every conversion can be undone**: through a third unit the result is the same, and back
is the number again. -/
theorem convert_compose (x y : Rat) (u v w : String) (h : convert (.num x) (.text u) (.text v) = .ok y) :
    (∀ z, convert (.num y) (.text v) (.text w) = .ok z → convert (.num x) (.text u) (.text w) = .ok z)
    ∧ convert (.num y) (.text v) (.text u) = .ok x := by
  obtain ⟨p, hp, q, hq, rfl, rfl, hk, hs⟩ := convert_ok h
  constructor
  · intro z hz
    obtain ⟨q', hq', r, hr, h1, rfl, hk2, hs2⟩ := convert_ok hz
    obtain ⟨e1, e2, e3⟩ := table_names q' hq' q hq h1
    obtain ⟨t, ht, hs3⟩ := convert_spec x p r hp hr (by rw [hk, ← e1, hk2])
    rw [ht]
    have s1 := (scale_pos r hr).1
    rw [e2, e3] at hs2
    have : t * r.2.scale = z * r.2.scale := by linarith
    rw [mul_right_cancel₀ (ne_of_gt s1) this]
  · obtain ⟨t, ht, hs3⟩ := convert_spec y q p hq hp hk.symm
    rw [ht]
    have s1 := (scale_pos p hp).1
    have : t * p.2.scale = x * p.2.scale := by linarith
    rw [mul_right_cancel₀ (ne_of_gt s1) this]

example : convert (.num 3) (.text "ft") (.text "in") = .ok 36 := by decide +kernel

/-- Greater stays greater; a unit converted to itself is unchanged. -/
theorem convert_mono (x x' y y' : Rat) (u v : String) (h : convert (.num x) (.text u) (.text v) = .ok y)
    (h' : convert (.num x') (.text u) (.text v) = .ok y') : (x < x' ↔ y < y') ∧ (u = v → y = x) := by
  obtain ⟨p, hp, q, hq, rfl, rfl, hk, hs⟩ := convert_ok h
  obtain ⟨p', hp', q', hq', h1, h2, _, hs'⟩ := convert_ok h'
  obtain ⟨_, e2, e3⟩ := table_names p' hp' p hp h1
  obtain ⟨_, f2, f3⟩ := table_names q' hq' q hq h2
  rw [e2, e3, f2, f3] at hs'
  have s1 := (scale_pos p hp).1
  have s2 := (scale_pos q hq).1
  constructor
  · have a1 : x * p.2.scale < x' * p.2.scale ↔ x < x' := mul_lt_mul_iff_left₀ s1
    have a2 : y * q.2.scale < y' * q.2.scale ↔ y < y' := mul_lt_mul_iff_left₀ s2
    rw [← a1, ← a2]
    constructor <;> intro _ <;> linarith
  · intro he
    obtain ⟨_, g2, g3⟩ := table_names p hp q hq he
    rw [g2, g3] at hs
    have : y * q.2.scale = x * q.2.scale := by linarith
    exact mul_right_cancel₀ (ne_of_gt s2) this

end Verif.Engin
