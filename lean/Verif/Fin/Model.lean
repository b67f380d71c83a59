import Mathlib.Analysis.SpecialFunctions.Pow.Real
import Mathlib.Data.Nat.Log
import Mathlib.Data.Rat.Floor

/-!
# Loans, annuities and depreciation

Model of `/repo/crates/formualizer-eval/src/builtins/financial/tvm.rs` (PMT, PV, FV, NPV, NPER, IPMT, PPMT, EFFECT, NOMINAL, CUMIPMT, CUMPRINC, DOLLARDE, DOLLARFR, RRI, ISPMT, PDURATION) and `depreciation.rs`.

Numbers are real (rational for DOLLARDE and DOLLARFR), so rounding, infinities and `nan` are left out: `powf` and `powi` are powers, `ln` is the logarithm, and a division by zero, infinite in the code, is 0; the theorems have hypotheses
that exclude it.  Arguments are numbers already, `type` is whether it is not 0, omitted arguments are 0.  `none` is #NUM!.
-/

namespace Verif.Fin

noncomputable section

/-- Rates below 1e-10 count as 0 (tvm.rs 126, 226, 323, ...). -/
def Tiny (x : ℝ) : Prop := |x| < 1 / 10 ^ 10

instance (x : ℝ) : Decidable (Tiny x) := inferInstanceAs (Decidable (|x| < 1 / 10 ^ 10))

/-- `type_adj` (tvm.rs 133). -/
def adj (rate : ℝ) (due : Bool) : ℝ := if due then 1 + rate else 1

/-- tvm.rs 126-135, and the same in 865-871 and 987-993. -/
def payment (rate nper pv fv : ℝ) (due : Bool) : ℝ :=
  if Tiny rate then -(pv + fv) / nper
  else -(rate * (pv * (1 + rate) ^ nper + fv)) / (((1 + rate) ^ nper - 1) * adj rate due)

/-- PMT (tvm.rs 101-138). -/
def PMT (rate nper pv fv : ℝ) (due : Bool) : Option ℝ := if nper = 0 then none else some (payment rate nper pv fv due)

/-- PV (tvm.rs 207-235). -/
def PV (rate nper pmt fv : ℝ) (due : Bool) : ℝ :=
  if Tiny rate then -fv - pmt * nper
  else (-fv - pmt * adj rate due * ((1 + rate) ^ nper - 1) / rate) / (1 + rate) ^ nper

/-- FV (tvm.rs 304-332). -/
def FV (rate nper pmt pv : ℝ) (due : Bool) : ℝ :=
  if Tiny rate then -pv - pmt * nper
  else -pv * (1 + rate) ^ nper - pmt * adj rate due * ((1 + rate) ^ nper - 1) / rate

/-- NPER (tvm.rs 587-627). -/
def NPER (rate pmt pv fv : ℝ) (due : Bool) : Option ℝ :=
  if Tiny rate then if Tiny pmt then none else some (-(pv + fv) / pmt)
  else
    let pmtAdj := pmt * adj rate due
    let numerator := pmtAdj - fv * rate
    let denominator := pv * rate + pmtAdj
    if numerator / denominator ≤ 0 then none else some (Real.log (numerator / denominator) / Real.log (1 + rate))

/-- IPMT (tvm.rs 838-891). -/
def IPMT (rate per nper pv fv : ℝ) (due : Bool) : Option ℝ :=
  if per < 1 ∨ per > nper then none
  else
    let pmt := payment rate nper pv fv due
    let fvAtStart := if Tiny rate then -pv - pmt * (per - 1) else -pv * (1 + rate) ^ (per - 1) - pmt * adj rate due * ((1 + rate) ^ (per - 1) - 1) / rate
    some (if due = true ∧ per = 1 then 0 else fvAtStart * rate)

/-- PPMT (tvm.rs 960-1014): it computes payment and interest in the same way. -/
def PPMT (rate per nper pv fv : ℝ) (due : Bool) : Option ℝ := (IPMT rate per nper pv fv due).map fun i => payment rate nper pv fv due - i

/-- EFFECT (tvm.rs 1076-1094) for whole `npery`. -/
def EFFECT (nominal : ℝ) (npery : ℕ) : Option ℝ := if nominal ≤ 0 ∨ npery < 1 then none else some ((1 + nominal / npery) ^ npery - 1)

/-- NOMINAL (tvm.rs 1155-1173). -/
def NOMINAL (effect : ℝ) (npery : ℕ) : Option ℝ := if effect ≤ 0 ∨ npery < 1 then none else some (npery * ((1 + effect) ^ (1 / (npery : ℝ)) - 1))

/-- The state of the loops in tvm.rs 1706-1722 and 1825-1841: the balance and the sums of interest and principal so far. -/
structure Cum where
  balance : ℝ
  interest : ℝ := 0
  principal : ℝ := 0

/-- One round, for period `p`. -/
def Cum.step (rate pmt : ℝ) (start : ℕ) (due : Bool) (c : Cum) (p : ℕ) : Cum :=
  let i := if due = true ∧ p = 1 then 0 else c.balance * rate
  let q := pmt - i
  ⟨c.balance + q, if p ≥ start then c.interest + i else c.interest, if p ≥ start then c.principal + q else c.principal⟩

/-- Periods 1 to `n`. -/
def cumRun (rate pmt : ℝ) (start : ℕ) (due : Bool) (pv : ℝ) (n : ℕ) : Cum := ((List.range n).map (· + 1)).foldl (Cum.step rate pmt start due) { balance := pv }

/-- tvm.rs 1699-1703 and 1818-1822; the rate is positive. -/
def cumPayment (rate pv : ℝ) (nper : ℕ) : ℝ := -pv * rate * (1 + rate) ^ nper / ((1 + rate) ^ nper - 1)

/-- The conditions in tvm.rs 1685-1691 and 1804-1810. -/
def cumBad (rate pv : ℝ) (nper start stop : ℕ) : Prop := rate ≤ 0 ∨ nper ≤ 0 ∨ pv ≤ 0 ∨ start < 1 ∨ stop < start ∨ stop > nper

instance (rate pv : ℝ) (nper start stop : ℕ) : Decidable (cumBad rate pv nper start stop) := by unfold cumBad; infer_instance

/-- CUMIPMT (tvm.rs 1672-1725). -/
def CUMIPMT (rate : ℝ) (nper : ℕ) (pv : ℝ) (start stop : ℕ) (due : Bool) : Option ℝ :=
  if cumBad rate pv nper start stop then none else some (cumRun rate (cumPayment rate pv nper) start due pv stop).interest

/-- CUMPRINC (tvm.rs 1791-1845). -/
def CUMPRINC (rate : ℝ) (nper : ℕ) (pv : ℝ) (start stop : ℕ) (due : Bool) : Option ℝ :=
  if cumBad rate pv nper start stop then none else some (cumRun rate (cumPayment rate pv nper) start due pv stop).principal

/-- The loop of NPV over values that count (tvm.rs 515-518), from period `p` on. -/
def npvFrom (rate : ℝ) : ℕ → List ℝ → ℝ → ℝ
  | _, [], acc => acc
  | p, v :: vs, acc => npvFrom rate (p + 1) vs (acc + v / (1 + rate) ^ p)

/-- NPV (tvm.rs 398-480). -/
def NPV (rate : ℝ) (vs : List ℝ) : ℝ := npvFrom rate 1 vs 0

/-- RRI (tvm.rs 2459-2486). -/
def RRI (nper pv fv : ℝ) : Option ℝ := if nper ≤ 0 ∨ pv = 0 then none else if fv / pv < 0 then none else some ((fv / pv) ^ (1 / nper) - 1)

/-- PDURATION (tvm.rs 2642-2659). -/
def PDURATION (rate pv fv : ℝ) : Option ℝ := if rate ≤ 0 ∨ pv ≤ 0 ∨ fv ≤ 0 then none else some ((Real.log fv - Real.log pv) / Real.log (1 + rate))

/-- ISPMT (tvm.rs 2558-2577). -/
def ISPMT (rate per nper pv : ℝ) : Option ℝ := if nper = 0 then none else some (pv * rate * (per / nper - 1))

/-! ## Depreciation -/

/-- SLN (depreciation.rs 83-100), `none` is #DIV/0!. -/
def SLN (cost salvage life : ℝ) : Option ℝ := if life = 0 then none else some ((cost - salvage) / life)

/-- SYD (depreciation.rs 169-192). -/
def SYD (cost salvage life per : ℝ) : Option ℝ :=
  if life ≤ 0 ∨ per ≤ 0 ∨ per > life then none else some ((cost - salvage) * (life - per + 1) / (life * (life + 1) / 2))

/-- The rate of DB (depreciation.rs 298-303), rounded half away from 0 to thousandths; `life` as given. -/
def dbRate (cost salvage life : ℝ) : ℝ :=
  if cost ≤ 0 ∨ salvage ≤ 0 then 1
  else
    let r := 1 - (salvage / cost) ^ (1 / life)
    (if 0 ≤ r then (⌊r * 1000 + 1 / 2⌋ : ℝ) else ⌈r * 1000 - 1 / 2⌉) / 1000

/-- The depreciation in period `p` (depreciation.rs 309-320), after `total`. -/
def dbStep (cost salvage rate month : ℝ) (life p : ℕ) (total : ℝ) : ℝ :=
  if p = 1 then cost * rate * month / 12
  else if p = life + 1 then min (max (cost - total - salvage) 0) (cost - total)
  else (cost - total) * rate

/-- The depreciation up to period `p`. -/
def dbTotal (cost salvage rate month : ℝ) (life : ℕ) : ℕ → ℝ
  | 0 => 0
  | p + 1 => dbTotal cost salvage rate month life p + dbStep cost salvage rate month life (p + 1) (dbTotal cost salvage rate month life p)

/-- DB (depreciation.rs 267-329); life and period are truncated. -/
def DB (cost salvage life period month : ℝ) : Option ℝ :=
  if life ≤ 0 ∨ period ≤ 0 ∨ ¬(1 ≤ month ∧ month ≤ 12) then none
  else if ⌊period⌋₊ < 1 ∨ ⌊period⌋₊ > ⌊life⌋₊ + 1 then none
  else some (dbStep cost salvage (dbRate cost salvage life) month ⌊life⌋₊ ⌊period⌋₊ (dbTotal cost salvage (dbRate cost salvage life) month ⌊life⌋₊ (⌊period⌋₊ - 1)))

/-- One round of the loop of DDB (depreciation.rs 447-451): the depreciation of a book value. -/
def ddbStep (salvage rate value : ℝ) : ℝ := if value - value * rate < salvage then max (value - salvage) 0 else value * rate

/-- The book value after `p` periods. -/
def ddbValue (cost salvage rate : ℝ) : ℕ → ℝ
  | 0 => cost
  | p + 1 => ddbValue cost salvage rate p - ddbStep salvage rate (ddbValue cost salvage rate p)

/-- DDB (depreciation.rs 412-456). -/
def DDB (cost salvage life period factor : ℝ) : Option ℝ :=
  if cost < 0 ∨ salvage < 0 ∨ life ≤ 0 ∨ period ≤ 0 ∨ factor ≤ 0 then none
  else if ⌊period⌋₊ < 1 ∨ (⌊period⌋₊ : ℝ) > life then none
  else some (ddbStep salvage (factor / life) (ddbValue cost salvage (factor / life) (⌊period⌋₊ - 1)))

end

/-! ## Dollars in fractions -/

/-- tvm.rs 2323: the digits of the denominator, with an exact logarithm. -/
def digits (fraction : ℕ) : ℕ := Nat.clog 10 fraction

/-- DOLLARDE (tvm.rs 2300-2332) for a whole fraction; `round` of a number that is not negative. -/
def DOLLARDE (x : ℚ) (fraction : ℕ) : Option ℚ :=
  if fraction < 1 then none
  else
    let sign : ℚ := if x < 0 then -1 else 1
    let whole : ℚ := ⌊|x|⌋
    let numerator : ℚ := ⌊(|x| - whole) * 10 ^ digits fraction + 1 / 2⌋
    some (sign * (whole + numerator / fraction))

/-- DOLLARFR (tvm.rs 2392-2423). -/
def DOLLARFR (x : ℚ) (fraction : ℕ) : Option ℚ :=
  if fraction < 1 then none
  else
    let sign : ℚ := if x < 0 then -1 else 1
    let whole : ℚ := ⌊|x|⌋
    some (sign * (whole + (|x| - whole) * fraction / 10 ^ digits fraction))

/-! ## Specification -/

/-- The balance of a loan after `n` periods, each with interest on the balance and a payment, before the interest if payments are due at the beginning. -/
def balance (rate pmt pv : ℝ) (due : Bool) : ℕ → ℝ
  | 0 => pv
  | n + 1 => if due then (balance rate pmt pv due n + pmt) * (1 + rate) else balance rate pmt pv due n * (1 + rate) + pmt

/-- A rate that is 0 or not too small. -/
def Usual (rate : ℝ) : Prop := rate = 0 ∨ ¬Tiny rate

end Verif.Fin
