import Mathlib.Data.Rat.Floor
import Mathlib.Algebra.Order.Floor.Ring
import Mathlib.Data.Nat.Choose.Basic

/-!
# Rounding, division and counting

Model of `/repo/crates/formualizer-eval/src/builtins/math/numeric.rs` (INT, TRUNC, ROUND, ROUNDDOWN, ROUNDUP, MOD, QUOTIENT, CEILING, FLOOR and their variants, EVEN, ODD, MROUND, MULTINOMIAL)
and `combinatorics.rs` (FACT, FACTDOUBLE, GCD, LCM, COMBIN, COMBINA, PERMUT).

Numbers are rational: rounding of floats is left out.  Arguments are numbers already.  Overflow of floats is modelled where `X` is used, overflow of machine integers in EVEN, ODD, LCM and COMBINA: `checks` says whether the program
was built with overflow checks (debug builds, where overflow panics) or without (release builds, where it wraps around).
-/

namespace Verif.Round

/-! ## Floats that can overflow -/

/-- A float without rounding: a finite number, an infinity or not a number. -/
inductive X where
  | fin (q : ℚ)
  | inf (pos : Bool)
  | nan
deriving DecidableEq

/-- Numbers from 2^1024 on are infinite. -/
def X.of (q : ℚ) : X := if 2 ^ 1024 ≤ q then .inf true else if q ≤ -2 ^ 1024 then .inf false else .fin q

def X.mul : X → X → X
  | .fin a, .fin b => .of (a * b)
  | .fin a, .inf p => if a = 0 then .nan else .inf (p == decide (0 < a))
  | .inf p, .fin a => if a = 0 then .nan else .inf (p == decide (0 < a))
  | .inf p, .inf q => .inf (p == q)
  | _, _ => .nan

/-- Division; by 0 only in 0 / 0, which does not occur here. -/
def X.div : X → X → X
  | .fin a, .fin b => if b = 0 then .nan else .of (a / b)
  | .fin _, .inf _ => .fin 0
  | .inf p, .fin b => if b = 0 then .inf p else .inf (p == decide (0 < b))
  | _, _ => .nan

/-- A function that rounds leaves infinities as they are. -/
def X.map (g : ℚ → ℤ) : X → X
  | .fin a => .of (g a)
  | x => x

/-! ## Rounding -/

/-- `trunc`. -/
def tr (q : ℚ) : ℤ := if 0 ≤ q then ⌊q⌋ else ⌈q⌉

/-- `round`: half away from 0. -/
def rd (q : ℚ) : ℤ := if 0 ≤ q then ⌊q + 1 / 2⌋ else ⌈q - 1 / 2⌉

/-- numeric.rs 546-551: `ceil` of positive numbers, `floor` of the others. -/
def up (q : ℚ) : ℤ := if 0 < q then ⌈q⌉ else ⌊q⌋

/-- numeric.rs 310-316, 390-395, 469-474, 544-554; `digits` is an `i32`. -/
def scaled (g : ℚ → ℤ) (n : ℚ) (digits : ℤ) : X :=
  let f := X.of (10 ^ digits.natAbs)
  if digits ≥ 0 then (((X.fin n).mul f).map g).div f else (((X.fin n).div f).map g).mul f

/-- TRUNC (numeric.rs 284-318), ROUND (373-397), ROUNDDOWN (452-476), ROUNDUP (531-557). -/
def TRUNC (n : ℚ) (digits : ℤ := 0) : X := scaled tr n digits
def ROUND (n : ℚ) (digits : ℤ) : X := scaled rd n digits
def ROUNDDOWN (n : ℚ) (digits : ℤ) : X := scaled tr n digits
def ROUNDUP (n : ℚ) (digits : ℤ) : X := scaled up n digits

/-- INT (numeric.rs 214-226). -/
def INT (n : ℚ) : ℤ := ⌊n⌋

/-- The operator `%` of floats. -/
def rem (x y : ℚ) : ℚ := x - y * tr (x / y)

/-- MOD (numeric.rs 612-646), `none` is #DIV/0!. -/
def MOD (x y : ℚ) : Option ℚ :=
  if y = 0 then none
  else some (if rem x y = 0 then 0 else if (y > 0 ∧ rem x y < 0) ∨ (y < 0 ∧ rem x y > 0) then rem x y + y else rem x y)

/-- QUOTIENT (numeric.rs 1591-1616). -/
def QUOTIENT (n d : ℚ) : Option ℤ := if d = 0 then none else some (tr (n / d))

/-- CEILING (numeric.rs 708-746) and FLOOR (913-951), `none` is #DIV/0!. -/
def CEILING (n : ℚ) (sig : ℚ := 1) : Option ℚ :=
  if sig = 0 then none
  else
    let s := if sig < 0 then |sig| else sig
    some (⌈n / s⌉ * s)

def FLOOR (n : ℚ) (sig : ℚ := 1) : Option ℚ :=
  if sig = 0 then none
  else
    let s := if sig < 0 then |sig| else sig
    some (⌊n / s⌋ * s)

/-- CEILING.MATH (numeric.rs 804-853) and FLOOR.MATH (1009-1058). -/
def CEILINGMATH (n : ℚ) (sig : ℚ := 1) (mode : Bool := false) : ℚ :=
  let s := if sig = 0 then 1 else |sig|
  if n ≥ 0 then ⌈n / s⌉ * s else if mode then ⌊n / s⌋ * s else ⌈n / s⌉ * s

def FLOORMATH (n : ℚ) (sig : ℚ := 1) (mode : Bool := false) : ℚ :=
  let s := if sig = 0 then 1 else |sig|
  if n ≥ 0 then ⌊n / s⌋ * s else if mode then ⌈n / s⌉ * s else ⌊n / s⌋ * s

/-- CEILING.PRECISE (numeric.rs 2841-2877), ISO.CEILING (3015-3051) and FLOOR.PRECISE (2928-2964). -/
def CEILINGPRECISE (n : ℚ) (sig : ℚ := 1) : ℚ := if sig = 0 then 0 else ⌈n / |sig|⌉ * |sig|
def FLOORPRECISE (n : ℚ) (sig : ℚ := 1) : ℚ := if sig = 0 then 0 else ⌊n / |sig|⌋ * |sig|

/-- MROUND (numeric.rs 2239-2271), `none` is #NUM!; `signum` of 0 is 1. -/
def MROUND (n multiple : ℚ) : Option ℚ :=
  let sg (x : ℚ) : ℚ := if x < 0 then -1 else 1
  if multiple = 0 then some 0
  else if n ≠ 0 ∧ sg n ≠ sg multiple then none
  else some (⌊|n| / |multiple| + 1 / 2 + 1 / 10 ^ 12⌋ * |multiple| * sg n)

/-! ## Even and odd -/

/-- `as i64` of a float that is not negative: it saturates. -/
def toI64 (z : ℤ) : ℤ := min z (2 ^ 63 - 1)

/-- `v += 1` for `i64`; `none` is a panic. -/
def incI64 (checks : Bool) (v : ℤ) : Option ℤ := if v = 2 ^ 63 - 1 then if checks then none else some (-2 ^ 63) else some (v + 1)

/-- EVEN (numeric.rs 1671-1694). -/
def EVEN (checks : Bool) (n : ℚ) : Option ℚ :=
  if n = 0 then some 0
  else
    let v := toI64 ⌈|n|⌉
    (if v % 2 ≠ 0 then incI64 checks v else some v).map fun (w : ℤ) => (if n < 0 then -1 else 1) * (w : ℚ)

/-- ODD (numeric.rs 1749-1769). -/
def ODD (checks : Bool) (n : ℚ) : Option ℚ :=
  let v := toI64 ⌈|n|⌉
  (if v % 2 = 0 then incI64 checks v else some v).map fun (w : ℤ) => (if n < 0 then -1 else 1) * (w : ℚ)

/-! ## Divisors and multiples -/

/-- `gcd` (combinatorics.rs 180-182, 286-288). -/
def gcd (a b : ℕ) : ℕ := if h : b = 0 then a else gcd b (a % b)
termination_by b
decreasing_by exact Nat.mod_lt _ (by omega)

/-- The argument of GCD and LCM: truncated, and from 0 to 9999999990; `none` is #NUM! (combinatorics.rs 193-199, 306-311). -/
def gcdArg (q : ℚ) : Option ℕ := if 0 ≤ tr q ∧ tr q ≤ 9999999990 then some (tr q).toNat else none

/-- GCD and a round of its loop (combinatorics.rs 175-211). -/
def gcdStep (r : Option ℕ) (q : ℚ) : Option (Option ℕ) :=
  (gcdArg q).map fun n => some (match r with | none => n | some r => gcd r n)

def GCD (args : List ℚ) : Option ℕ := (args.foldlM gcdStep none).map (·.getD 0)

/-- What LCM gives: a number, #NUM! or a panic. -/
inductive Res where
  | num (n : ℕ)
  | err
  | panic
deriving DecidableEq

/-- `lcm` with `u64`; `none` is a panic (combinatorics.rs 289-295). -/
def lcm (checks : Bool) (a b : ℕ) : Option ℕ :=
  if a = 0 ∨ b = 0 then some 0
  else if a / gcd a b * b < 2 ^ 64 then some (a / gcd a b * b) else if checks then none else some (a / gcd a b * b % 2 ^ 64)

/-- LCM and its loop (combinatorics.rs 281-323). -/
def lcmLoop (checks : Bool) : List ℚ → Option ℕ → Res
  | [], r => .num (r.getD 0)
  | q :: qs, r =>
    match gcdArg q with
    | none => .err
    | some n =>
      match r with
      | none => lcmLoop checks qs (some n)
      | some r =>
        match lcm checks r n with
        | none => .panic
        | some m => lcmLoop checks qs (some m)

def LCM (checks : Bool) (args : List ℚ) : Res := lcmLoop checks args none

/-! ## Counting -/

/-- FACT of a truncated number, `none` is #NUM! (combinatorics.rs 72-105). -/
def FACT (n : ℤ) : Option ℚ := if n < 0 ∨ n > 170 then none else some (((List.range' 2 (n.toNat - 1)).map fun (i : ℕ) => (i : ℚ)).foldl (· * ·) 1)

/-- FACTDOUBLE of a truncated number, and its loop (combinatorics.rs 590-616). -/
def factDouble : ℕ → ℚ → ℚ
  | 0, r => r
  | 1, r => r * 1
  | n + 2, r => factDouble n (r * ((n + 2 : ℕ) : ℚ))

def FACTDOUBLE (n : ℤ) : Option ℚ := if n < -1 then none else if n ≤ 0 then some 1 else some (factDouble n.toNat 1)

/-- The loop of COMBIN and COMBINA over `i` from `i` on, `count` rounds, with `u64` subtraction; `none` is a panic, and stands for wrapping around without checks as well. -/
def combinLoop (n : ℕ) : ℕ → ℕ → ℚ → Option ℚ
  | 0, _, r => some r
  | count + 1, i, r => if n < i then none else combinLoop n count (i + 1) (r * ((n - i : ℕ) : ℚ) / ((i + 1 : ℕ) : ℚ))

/-- What COMBIN and COMBINA give: a number, #NUM!, or a panic or endless loop. -/
inductive Cnt where
  | num (q : ℚ)
  | err
  | broken
deriving DecidableEq

def Cnt.of : Option ℚ → Cnt
  | some q => .num (rd q)
  | none => .broken

/-- COMBIN of truncated numbers (combinatorics.rs 390-434). -/
def COMBIN (n k : ℤ) : Cnt := if n < 0 ∨ k < 0 ∨ k > n then .err else .of (combinLoop n.toNat (min k (n - k)).toNat 0 1)

/-- `as u64` of an `i64`. -/
def asU64 (z : ℤ) : ℕ := (z % 2 ^ 64).toNat

/-- The number of rounds of COMBINA. -/
def combinaRounds (n k : ℤ) : ℕ := asU64 (min k (n + k - 1 - k))

/-- COMBINA of truncated numbers (combinatorics.rs 664-703). -/
def COMBINA (n k : ℤ) : Cnt := if n < 0 ∨ k < 0 then .err else if k = 0 then .num 1 else .of (combinLoop (asU64 (n + k - 1)) (combinaRounds n k) 0 1)

/-- PERMUT of truncated numbers (combinatorics.rs 501-541). -/
def PERMUT (n k : ℤ) : Option ℚ := if n < 0 ∨ k < 0 ∨ k > n then none else some ((List.range k.toNat).foldl (fun (r : ℚ) (i : ℕ) => r * ((n - i : ℤ) : ℚ)) 1)

/-- MULTINOMIAL of truncated numbers, with `factorial_checked` (numeric.rs 1528-1537, 1901-1950); the sum is an `i64`, and `broken` where it overflows. -/
def MULTINOMIAL (vs : List ℤ) : Cnt :=
  if vs.any (· < 0) then .err
  else if vs.sum ≥ 2 ^ 63 then .broken
  else match FACT vs.sum, vs.mapM FACT with
    | some num, some fs => .num (rd (num / fs.foldl (· * ·) 1))
    | _, _ => .err

/-! ## Specification -/

/-- A multiple of `u`. -/
def Mult (m u : ℚ) : Prop := ∃ k : ℤ, m = k * u

end Verif.Round
