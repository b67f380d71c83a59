import Mathlib.Data.Rat.Floor
import Mathlib.Data.List.Sort

/-!
# Order statistics

Model of `/repo/crates/formualizer-eval/src/builtins/stats/mod.rs` 31-196 (collection of numbers, selection, percentiles), 248-445 (RANK.EQ, RANK.AVG), 485-725 (LARGE, SMALL, MEDIAN), 1131-1305 (MODE.SNGL, MODE.MULT),
1348-1735 (PERCENTILE, QUARTILE), 2454-2510 (TRIMMEAN), 7373-7615 (PERCENTRANK), 7663-7742 (FREQUENCY).

Numbers are rational, so rounding and the sign of zero are left out; `nan` is modelled because comparing with it stops the program.  The arguments other than the data are numbers already.  `select_nth_unstable_by` of the standard
library is a parameter with its documented behaviour (`Select`), `sort_by` is a sort by insertion.
-/

namespace Verif.Order

/-- A cell or a value.  A text comes with what `parse_number_invariant` makes of it (coercion.rs 26-36, locale.rs 24-32): nothing, or a number, where `some none` is `nan`. -/
inductive Val (E : Type)
  | num (q : ℚ)
  | bool (b : Bool)
  | empty
  | text (p : Option (Option ℚ))
  | err (e : E)

/-- `coerce_num` (coercion.rs 10-36); `none` in the result is `nan`. -/
def Val.coerce {E : Type} : Val E → Option (Option ℚ)
  | .num q => some (some q)
  | .bool b => some (some (if b then 1 else 0))
  | .empty => some (some 0)
  | .text p => p
  | .err _ => none

/-- An argument: cells of a range, or an array in the formula, or a single value. -/
inductive Arg (E : Type)
  | range (cells : List (Val E))
  | array (vals : List (Val E))
  | scalar (v : Val E)

/-- The closure in lines 72-93: only numbers of a range count. -/
def fromRange {E : Type} : List (Val E) → List (Option ℚ) → Except E (List (Option ℚ))
  | [], out => .ok out
  | .err e :: _, _ => .error e
  | .num q :: vs, out => fromRange vs (out ++ [some q])
  | _ :: vs, out => fromRange vs out

/-- Lines 53-66 and 95-104. -/
def fromScalars {E : Type} : List (Val E) → List (Option ℚ) → Except E (List (Option ℚ))
  | [], out => .ok out
  | .err e :: _, _ => .error e
  | v :: vs, out => fromScalars vs (match v.coerce with | some n => out ++ [n] | none => out)

/-- `collect_numeric_stats` (lines 47-107). -/
def collect {E : Type} : List (Arg E) → List (Option ℚ) → Except E (List (Option ℚ))
  | [], out => .ok out
  | a :: as, out =>
    match (match a with | .range cs => fromRange cs out | .array vs => fromScalars vs out | .scalar v => fromScalars [v] out) with
    | .error e => .error e
    | .ok out => collect as out

/-- What `select_nth_unstable_by` promises: the element at place `k`, before it no larger and after it no smaller ones. -/
structure Select where
  run : List ℚ → Nat → List ℚ × ℚ × List ℚ
  perm : ∀ l k, k < l.length → ((run l k).1 ++ (run l k).2.1 :: (run l k).2.2).Perm l
  place : ∀ l k, k < l.length → (run l k).1.length = k
  before : ∀ l k, k < l.length → ∀ x ∈ (run l k).1, x ≤ (run l k).2.1
  after : ∀ l k, k < l.length → ∀ x ∈ (run l k).2.2, (run l k).2.1 ≤ x

/-- Results: a number, an error, `nan`, or the end of the program. -/
inductive Res
  | val (q : ℚ)
  | num
  | na
  | nan
  | panic
  deriving DecidableEq

/-- Lines 122-125. -/
def nthSmallest (sel : Select) (nums : List ℚ) (k : Nat) : ℚ := (sel.run nums k).2.1

/-- The loop in lines 134-138. -/
def least (next : ℚ) : List ℚ → ℚ
  | [] => next
  | v :: vs => least (if v < next then v else next) vs

/-- Lines 130-140; `right[0]` exists in all calls. -/
def adjacentSmallest (sel : Select) (nums : List ℚ) (k : Nat) : ℚ × ℚ :=
  let r := sel.run nums k
  (r.2.1, match r.2.2 with | [] => 0 | v :: vs => least v vs)

/-- Lines 146-167. -/
def percentileInc (sel : Select) (nums : List ℚ) (p : ℚ) : Res :=
  if nums = [] then .num
  else if ¬(0 ≤ p ∧ p ≤ 1) then .num
  else if nums.length = 1 then .val (nums.headD 0)
  else
    let rank := p * ((nums.length : ℚ) - 1)
    let lo := ⌊rank⌋₊
    let hi := ⌈rank⌉₊
    if lo = hi then .val (nthSmallest sel nums lo)
    else
      let frac := rank - lo
      let a := adjacentSmallest sel nums lo
      .val (a.1 + (a.2 - a.1) * frac)

/-- Lines 172-196. -/
def percentileExc (sel : Select) (nums : List ℚ) (p : ℚ) : Res :=
  if nums = [] then .num
  else if ¬(0 ≤ p ∧ p ≤ 1) ∨ p ≤ 0 ∨ p ≥ 1 then .num
  else
    let rank := p * ((nums.length : ℚ) + 1)
    if rank < 1 ∨ rank > nums.length then .num
    else
      let lo := ⌊rank⌋₊
      let hi := ⌈rank⌉₊
      if lo = hi then .val (nthSmallest sel nums (lo - 1))
      else
        let frac := rank - lo
        let a := adjacentSmallest sel nums (lo - 1)
        .val (a.1 + (a.2 - a.1) * frac)

/-- Lines 517-532: `k` is truncated already. -/
def large (sel : Select) (nums : List ℚ) (k : Int) : Res :=
  if k < 1 then .num
  else if nums = [] ∨ k.toNat > nums.length then .num
  else .val (nthSmallest sel nums (nums.length - k.toNat))

/-- Lines 618-632. -/
def small (sel : Select) (nums : List ℚ) (k : Int) : Res :=
  if k < 1 then .num
  else if nums = [] ∨ k.toNat > nums.length then .num
  else .val (nthSmallest sel nums (k.toNat - 1))

/-- Lines 705-720. -/
def median (sel : Select) (nums : List ℚ) : Res :=
  if nums = [] then .num
  else
    let mid := nums.length / 2
    if nums.length % 2 = 1 then .val (nthSmallest sel nums mid)
    else
      let a := adjacentSmallest sel nums (mid - 1)
      .val ((a.1 + a.2) / 2)

/-- Lines 1578-1615. -/
def quartileInc (sel : Select) (nums : List ℚ) (q : Int) : Res :=
  if ¬(0 ≤ q ∧ q ≤ 4) then .num
  else if nums = [] then .num
  else if q = 0 then .val (nthSmallest sel nums 0)
  else if q = 4 then .val (nthSmallest sel nums (nums.length - 1))
  else percentileInc sel nums (if q = 1 then 1 / 4 else if q = 2 then 1 / 2 else 3 / 4)

/-- Lines 1703-1732. -/
def quartileExc (sel : Select) (nums : List ℚ) (q : Int) : Res :=
  if ¬(1 ≤ q ∧ q ≤ 3) then .num
  else if nums.length < 2 then .num
  else percentileExc sel nums (if q = 1 then 1 / 4 else if q = 2 then 1 / 2 else 3 / 4)

/-- The tolerance 1e-12. -/
def eps : ℚ := 1 / 10 ^ 12

def near (t v : ℚ) : Bool := decide (|v - t| < eps)

def ascending (nums : List ℚ) : List ℚ := nums.insertionSort fun a b => a ≤ b
def descending (nums : List ℚ) : List ℚ := nums.insertionSort fun a b => b ≤ a

/-- Lines 296-302 and 413-417: an order of 0 is descending. -/
def ordered (order : ℚ) (nums : List ℚ) : List ℚ := if |order| < eps then descending nums else ascending nums

/-- Lines 289-314. -/
def rankEq (target order : ℚ) (nums : List ℚ) : Res :=
  if nums = [] then .na
  else match (ordered order nums).findIdx? (near target) with
    | some i => .val (i + 1)
    | none => .na

/-- The places of the numbers near the target, from `i + 1` on (lines 418-423). -/
def positions (target : ℚ) : Nat → List ℚ → List Nat
  | _, [] => []
  | i, v :: vs => if near target v then (i + 1) :: positions target (i + 1) vs else positions target (i + 1) vs

/-- Lines 406-430. -/
def rankAvg (target order : ℚ) (nums : List ℚ) : Res :=
  if nums = [] then .na
  else
    let ps := positions target 0 (ordered order nums)
    if ps = [] then .na else .val ((ps.sum : ℚ) / ps.length)

/-- The loop in lines 1164-1175: the best value so far and the run at hand. -/
def modeLoop (best cur : ℚ × Nat) : List ℚ → (ℚ × Nat) × (ℚ × Nat)
  | [] => (best, cur)
  | v :: vs => if near cur.1 v then modeLoop best (cur.1, cur.2 + 1) vs else modeLoop (if cur.2 > best.2 then cur else best) (v, 1) vs

/-- Lines 1153-1188. -/
def modeSingle (nums : List ℚ) : Res :=
  match ascending nums with
  | [] => .na
  | v :: vs =>
    let r := modeLoop (v, 1) (v, 1) vs
    let best := if r.2.2 > r.1.2 then r.2 else r.1
    if best.2 ≤ 1 then .na else .val best.1

/-- Lines 1270-1282. -/
def runs (cur : ℚ × Nat) : List ℚ → List (ℚ × Nat)
  | [] => [cur]
  | v :: vs => if near cur.1 v then runs (cur.1, cur.2 + 1) vs else cur :: runs (v, 1) vs

/-- Lines 1263-1294; no values is #N/A. -/
def modeMult (nums : List ℚ) : List ℚ :=
  match ascending nums with
  | [] => []
  | v :: vs =>
    let rs := runs (v, 1) vs
    let m := (rs.map Prod.snd).foldr max 0
    if m ≤ 1 then [] else (rs.filter fun r => r.2 == m).map Prod.fst

/-- Lines 2470-2507. -/
def trimmean (nums : List ℚ) (percent : ℚ) : Res :=
  if nums = [] then .num
  else if ¬(0 ≤ percent ∧ percent < 1) then .num
  else
    let n := nums.length
    let exclude := ⌊(n * percent) / 2⌋₊
    if 2 * exclude ≥ n then .num
    else
      let trimmed := ((ascending nums).take (n - exclude)).drop exclude
      .val (trimmed.sum / trimmed.length)

/-- The loop in lines 7454-7470, from place `i` on, among `n` numbers: a match at the last place does not end the loop, but it is the last round. -/
def rankIncLoop (x : ℚ) (n : Nat) : Nat → List ℚ → ℚ
  | i, a :: b :: rest =>
    if near x a then i / (n - 1)
    else if a < x ∧ x < b then (i + (x - a) / (b - a)) / (n - 1)
    else if rest = [] then (if near x b then 1 else 0)
    else rankIncLoop x n (i + 1) (b :: rest)
  | _, _ => 0

/-- The rank before it is cut (lines 7436-7472); `none` is #N/A. -/
def percentrankIncRaw (nums : List ℚ) (x : ℚ) : Option ℚ :=
  let s := ascending nums
  if x < s.headD 0 ∨ x > s.getLastD 0 then none
  else if nums.length = 1 then some 0
  else some (rankIncLoop x nums.length 0 s)

/-- The loop in lines 7591-7606. -/
def rankExcLoop (x : ℚ) (n : Nat) : Nat → List ℚ → ℚ
  | _, [] => 0
  | i, [a] => if near x a then ((i : ℚ) + 1) / (n + 1) else 0
  | i, a :: b :: rest =>
    if near x a then ((i : ℚ) + 1) / (n + 1)
    else if a < x ∧ x < b then ((i : ℚ) + 1 + (x - a) / (b - a)) / (n + 1)
    else rankExcLoop x n (i + 1) (b :: rest)

def percentrankExcRaw (nums : List ℚ) (x : ℚ) : Option ℚ :=
  let s := ascending nums
  if x < s.headD 0 ∨ x > s.getLastD 0 then none
  else some (rankExcLoop x nums.length 0 s)

/-- Lines 7429-7480 and 7571-7614, with a significance of at least 1. -/
def percentrank (raw : List ℚ → ℚ → Option ℚ) (nums : List ℚ) (x : ℚ) (significance : Nat) : Res :=
  if nums = [] then .num
  else match raw nums x with
    | none => .na
    | some rank => .val (⌊rank * 10 ^ significance⌋ / 10 ^ significance)

/-- The bin of a value: the first one that is not below it, or the one after the last (lines 7708-7731). -/
def binOf (bins : List ℚ) (v : ℚ) : Nat :=
  match bins.findIdx? fun b => decide (v ≤ b) with
  | some i => i
  | none => bins.length

/-- Lines 7689-7740. -/
def frequency (data bins : List ℚ) : List Nat :=
  if bins = [] then [data.length]
  else
    let s := ascending bins
    data.foldl (fun fs v => fs.modify (binOf s v) (· + 1)) (List.replicate (bins.length + 1) 0)

/-- A function of the numbers collected: with `nan` among two or more of them the comparison has no result and `unwrap` ends the program; one number is not compared. -/
def onNumbers (f : List ℚ → Res) (nums : List (Option ℚ)) : Res :=
  if nums.all Option.isSome then f (nums.filterMap id)
  else if nums.length ≥ 2 then .panic
  else .nan

/-- MEDIAN of arguments. -/
def medianFn {E : Type} (sel : Select) (args : List (Arg E)) : Except E Res :=
  match collect args [] with
  | .error e => .error e
  | .ok nums => .ok (onNumbers (median sel) nums)

/-! ## Specification -/

/-- `v` is at place `k`, counted from 0, when the numbers are put in ascending order: at most `k` are smaller, more than `k` are not larger. -/
def IsNth (l : List ℚ) (k : Nat) (v : ℚ) : Prop := v ∈ l ∧ l.countP (fun x => decide (x < v)) ≤ k ∧ k < l.countP (fun x => decide (x ≤ v))

/-- Numbers that are not equal are not within the tolerance. -/
def Separated (l : List ℚ) : Prop := ∀ x ∈ l, ∀ y ∈ l, |x - y| < eps → x = y

end Verif.Order
