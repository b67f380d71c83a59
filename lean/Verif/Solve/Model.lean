import Verif.Fin.Model
import Mathlib.Algebra.BigOperators.Group.List.Basic

/-!
# Rates of return

Model of RATE, IRR, MIRR, XNPV and XIRR (`/repo/crates/formualizer-eval/src/builtins/financial/tvm.rs`).

Numbers are real, as in `Verif.Fin.Model`: rounding, infinities and `nan` are left out.  `lo` and `hi`, `nan` in the code as long as they are not set, are `none` here.
Values and dates are lists of numbers already.  `none` is #NUM! (#DIV/0! in MIRR).
-/

namespace Verif.Solve

open Verif.Fin

noncomputable section

/-! ## IRR -/

/-- `irr_npv` (tvm.rs 1177-1183): the same loop as in NPV, from exponent 0. -/
def irrNpv (flows : List ℝ) (rate : ℝ) : ℝ := npvFrom rate 0 flows 0

/-- The second sum of `irr_npv_deriv` (tvm.rs 1186-1197), from flow `i` on. -/
def derivFrom (rate : ℝ) : ℕ → List ℝ → ℝ → ℝ
  | _, [], acc => acc
  | i, c :: cs, acc => derivFrom rate (i + 1) cs (if i > 0 then acc - i * c / ((1 + rate) ^ i * (1 + rate)) else acc)

def irrDeriv (flows : List ℝ) (rate : ℝ) : ℝ := derivFrom rate 0 flows 0

/-- `TOL` and `MACH_EPS` (tvm.rs 1209-1210). -/
def tol : ℝ := 1 / 10 ^ 12
def eps : ℝ := 1 / 2 ^ 52

/-- Phase 1 (tvm.rs 1213-1229), `fuel` rounds; `none` goes on with phase 2. -/
def irrNewton (flows : List ℝ) : ℕ → ℝ → Option ℝ
  | 0, _ => none
  | fuel + 1, rate =>
    if |irrDeriv flows rate| < tol then none
    else
      let new := rate - irrNpv flows rate / irrDeriv flows rate
      if |new - rate| < tol ∧ new > -1 then some new else if new ≤ -1 then none else irrNewton flows fuel new

/-- tvm.rs 1233-1236. -/
def probes : List ℝ := [-99 / 100, -9 / 10, -1 / 2, -1 / 10, -1 / 100, 0, 1 / 1000, 1 / 200, 1 / 100, 1 / 50, 1 / 20, 1 / 10, 3 / 20, 1 / 5, 3 / 10, 1 / 2, 1, 2, 5, 10]

/-- The search for a change of sign (tvm.rs 1241-1257): `lo` and `hi`. -/
def scan (f : ℝ → ℝ) : List ℝ → Option (ℝ × ℝ) → Option (ℝ × ℝ)
  | [], _ => none
  | r :: rs, none => scan f rs (some (r, f r))
  | r :: rs, some (lo, flo) => if flo * f r < 0 then some (lo, r) else scan f rs (some (r, f r))

/-- The variables of the loop in tvm.rs 1266-1345. -/
structure Br where
  xpre : ℝ
  xcur : ℝ
  xblk : ℝ
  fpre : ℝ
  fcur : ℝ
  fblk : ℝ
  spre : ℝ
  scur : ℝ

/-- tvm.rs 1285-1290. -/
def Br.reset (s : Br) : Br := if s.fpre * s.fcur < 0 then { s with xblk := s.xpre, fblk := s.fpre, spre := s.xcur - s.xpre, scur := s.xcur - s.xpre } else s

/-- tvm.rs 1293-1300. -/
def Br.swap (s : Br) : Br :=
  if |s.fblk| < |s.fcur| then { s with xpre := s.xcur, xcur := s.xblk, xblk := s.xcur, fpre := s.fcur, fcur := s.fblk, fblk := s.fcur } else s

/-- tvm.rs 1302. -/
def Br.delta (s : Br) : ℝ := max (eps * |s.xcur| + 1 / 2 * tol) eps

/-- tvm.rs 1303. -/
def Br.sbis (s : Br) : ℝ := (s.xblk - s.xcur) * (1 / 2)

/-- tvm.rs 1311-1319. -/
def Br.stry (s : Br) : ℝ :=
  if |s.xpre - s.xblk| < eps then -s.fcur * (s.xcur - s.xpre) / (s.fcur - s.fpre)
  else
    let dpre := (s.fpre - s.fcur) / (s.xpre - s.xcur)
    let dblk := (s.fblk - s.fcur) / (s.xblk - s.xcur)
    let top := -s.fcur * (s.fblk * dblk - s.fpre * dpre)
    top / (dblk * dpre * (s.fblk - s.fpre))

/-- `spre` and `scur` after tvm.rs 1309-1333. -/
def Br.steps (s : Br) : ℝ × ℝ :=
  if |s.spre| ≥ s.delta ∧ |s.fcur| < |s.fpre| then
    if 2 * |s.stry| < min |s.spre| (3 * |s.sbis| - s.delta) then (s.scur, s.stry) else (s.sbis, s.sbis)
  else (s.sbis, s.sbis)

/-- tvm.rs 1335-1343. -/
def Br.move (s : Br) : ℝ := if |s.steps.2| > s.delta then s.xcur + s.steps.2 else s.xcur + (if s.sbis > 0 then s.delta else -s.delta)

def Br.next (f : ℝ → ℝ) (s : Br) : Br := { s with xpre := s.xcur, fpre := s.fcur, spre := s.steps.1, scur := s.steps.2, xcur := s.move, fcur := f s.move }

/-- What the loop returns: in tvm.rs 1305-1307, or after the last round in 1345. -/
inductive Out where
  | found (x : ℝ)
  | gaveUp (x : ℝ)

def Out.val : Out → ℝ
  | .found x => x
  | .gaveUp x => x

/-- The loop in tvm.rs 1283-1345. -/
def brent (f : ℝ → ℝ) : ℕ → Br → Out
  | 0, s => .gaveUp s.xcur
  | fuel + 1, s =>
    let s' := s.reset.swap
    if s'.fcur = 0 ∨ |s'.sbis| < s'.delta then .found s'.xcur else brent f fuel (s'.next f)

/-- Phase 2 from `lo` and `hi` (tvm.rs 1266-1345). -/
def bracketed (f : ℝ → ℝ) (lo hi : ℝ) : Out :=
  if f lo = 0 then .found lo else if f hi = 0 then .found hi else brent f 200 ⟨lo, hi, 0, f lo, f hi, 0, 0, 0⟩

/-- `irr_solve` (tvm.rs 1206-1346). -/
def irrSolve (flows : List ℝ) (guess : ℝ) : Option ℝ :=
  (irrNewton flows 100 guess).or ((scan (irrNpv flows) probes none).map fun p => (bracketed (irrNpv flows) p.1 p.2).val)

/-- IRR (tvm.rs 1406-1467). -/
def IRR (flows : List ℝ) (guess : ℝ := 1 / 10) : Option ℝ := if flows.length < 2 then none else irrSolve flows guess

/-! ## RATE -/

/-- `f` in tvm.rs 739-740. -/
def rateF (nper pmt pv fv : ℝ) (due : Bool) (rate : ℝ) : ℝ := pv * (1 + rate) ^ nper + pmt * adj rate due * ((1 + rate) ^ nper - 1) / rate + fv

/-- `df` in tvm.rs 743-745. -/
def rateD (nper pmt pv : ℝ) (due : Bool) (rate : ℝ) : ℝ :=
  pv * (nper * (1 + rate) ^ (nper - 1)) + pmt * adj rate due * (nper * (1 + rate) ^ (nper - 1) / rate - ((1 + rate) ^ nper - 1) / (rate * rate))

/-- The loop of RATE (tvm.rs 726-763). -/
def rateLoop (nper pmt pv fv : ℝ) (due : Bool) : ℕ → ℝ → Option ℝ
  | 0, _ => none
  | fuel + 1, rate =>
    if Tiny rate then if |pv + pmt * nper + fv| < 1 / 10 ^ 10 then some rate else rateLoop nper pmt pv fv due fuel (1 / 100)
    else if |rateD nper pmt pv due rate| < 1 / 10 ^ 20 then none
    else
      let new := rate - rateF nper pmt pv fv due rate / rateD nper pmt pv due rate
      if |new - rate| < 1 / 10 ^ 10 then some new else rateLoop nper pmt pv fv due fuel (if new < -99 / 100 then -99 / 100 else new)

/-- RATE (tvm.rs 697-769). -/
def RATE (nper pmt pv fv : ℝ) (due : Bool) (guess : ℝ := 1 / 10) : Option ℝ := rateLoop nper pmt pv fv due 100 guess

/-! ## MIRR, XNPV, XIRR -/

/-- The sums of MIRR (tvm.rs 1589-1595) from flow `i` of `n` on. -/
def mirrSums (finance reinvest : ℝ) (n : ℕ) : ℕ → List ℝ → ℝ × ℝ → ℝ × ℝ
  | _, [], acc => acc
  | i, c :: cs, acc => mirrSums finance reinvest n (i + 1) cs (if c < 0 then (acc.1 + c / (1 + finance) ^ i, acc.2) else (acc.1, acc.2 + c * (1 + reinvest) ^ (n - 1 - i)))

/-- MIRR (tvm.rs 1531-1606). -/
def MIRR (flows : List ℝ) (finance reinvest : ℝ) : Option ℝ :=
  if flows.length < 2 then none
  else
    let (pvNeg, fvPos) := mirrSums finance reinvest flows.length 0 flows (0, 0)
    if pvNeg ≥ 0 ∨ fvPos ≤ 0 then none else some ((-fvPos / pvNeg) ^ (1 / ((flows.length - 1 : ℕ) : ℝ)) - 1)

/-- `calculate_xnpv` (tvm.rs 2012-2024), for values with their dates, whole numbers of days; `first` is the first date. -/
def xnpvFrom (rate : ℝ) (first : ℤ) : List (ℝ × ℤ) → ℝ → ℝ
  | [], acc => acc
  | (v, d) :: fs, acc => xnpvFrom rate first fs (acc + v / (1 + rate) ^ (((d - first : ℤ) : ℝ) / 365))

def xnpv (rate : ℝ) (fs : List (ℝ × ℤ)) : ℝ :=
  match fs with
  | [] => 0
  | (_, first) :: _ => xnpvFrom rate first fs 0

/-- `calculate_xnpv_derivative` (tvm.rs 2027-2040). -/
def xderivFrom (rate : ℝ) (first : ℤ) : List (ℝ × ℤ) → ℝ → ℝ
  | [], acc => acc
  | (v, d) :: fs, acc => xderivFrom rate first fs (acc - ((d - first : ℤ) : ℝ) / 365 * v / (1 + rate) ^ (((d - first : ℤ) : ℝ) / 365 + 1))

def xderiv (rate : ℝ) (fs : List (ℝ × ℤ)) : ℝ :=
  match fs with
  | [] => 0
  | (_, first) :: _ => xderivFrom rate first fs 0

/-- XNPV (tvm.rs 1990-2008), for as many dates as values. -/
def XNPV (rate : ℝ) (fs : List (ℝ × ℤ)) : Option ℝ := if fs.isEmpty then none else some (xnpv rate fs)

/-- The loop of XIRR (tvm.rs 2213-2235). -/
def xirrLoop (fs : List (ℝ × ℤ)) : ℕ → ℝ → Option ℝ
  | 0, _ => none
  | fuel + 1, rate =>
    if |xderiv rate fs| < 1 / 10 ^ 10 then none
    else
      let new := rate - xnpv rate fs / xderiv rate fs
      if |new - rate| < 1 / 10 ^ 10 then some new else xirrLoop fs fuel (if new ≤ -1 then -99 / 100 else new)

/-- XIRR (tvm.rs 2184-2240). -/
def XIRR (fs : List (ℝ × ℤ)) (guess : ℝ := 1 / 10) : Option ℝ :=
  if fs.length < 2 then none
  else if ¬(∃ p ∈ fs, 0 < p.1) ∨ ¬(∃ p ∈ fs, p.1 < 0) then none
  else xirrLoop fs 100 guess

end

end Verif.Solve
