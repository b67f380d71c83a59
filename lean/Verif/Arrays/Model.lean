import Verif.Lookup.Match

/-!
# Functions that return arrays

Model of `/repo/crates/formualizer-eval/src/builtins/lookup`:
* `dynamic.rs` 925-1042 (`SORT`), 1155-1288 (`SORTBY`), 2607-2664 (`FILTER`), 2783-2876 (`UNIQUE`), 2971-3022 (`SEQUENCE`), 3105-3130 (`TRANSPOSE`),
  3240-3317 (`TAKE`), 3425-3490 (`DROP`),
* `choose.rs` 282-342 (`CHOOSECOLS`), 438-497 (`CHOOSEROWS`),
* `array_shape.rs` 111-205 (`TOCOL`, `TOROW`),
* `stack.rs` 126-225 (`HSTACK`), 287-355 (`VSTACK`),
* `../utils.rs` 293-305 (`collapse_if_scalar`); `formualizer-common/src/value.rs` 169-184 (`is_truthy`).

An array is the list of its rows.  Arguments that count rows or columns are integers without bounds, so the overflow of `i64::MIN` is left out; numbers
are rationals; integers and floats are not told apart, which the sheet does not either.
-/

namespace Verif.Arrays

open Verif.Lookup

/-- An array, or the part of a sheet that a `RangeView` shows. -/
abbrev Grid := List (List V)

/-- `RangeView::dims`: the numbers of rows and columns. -/
def rows (g : Grid) : Nat := g.length

/-- The number of columns. -/
def cols (g : Grid) : Nat := (g.headD []).length

/-- `RangeView::get_cell`. -/
def cell (g : Grid) (r c : Nat) : V := (g.getD r []).getD c .empty

/-- A row as the functions copy it, cell by cell. -/
def rowOf (g : Grid) (r : Nat) : List V := (List.range (cols g)).map fun c => cell g r c

/-- A column as the functions copy it. -/
def colOf (g : Grid) (c : Nat) : List V := (List.range (rows g)).map fun r => cell g r c

/-- The result of a function: an array, a single value, or the errors `#VALUE!`, `#CALC!` and `#NUM!`. -/
inductive Res where
  | grid (g : Grid)
  | scalar (v : V)
  | badValue
  | badCalc
  | badNum
deriving DecidableEq, Repr

/-- utils.rs 293-305, `collapse_if_scalar`. -/
def collapse : Grid → Res
  | [[v]] => .scalar v
  | g => .grid g

/-! ### Sorting -/

/-- dynamic.rs 1005-1010, 1033-1038: the comparison of two keys; keys that cannot be compared count as equal. -/
def cmpKeys (E : Env) (ascending : Bool) (a b : V) : Ordering :=
  if ascending then (cmpL E a b).getD .eq else ((cmpL E a b).getD .eq).swap

/-- `slice::sort_by`: a result, or `none` for a panic. -/
abbrev SortBy := {α : Type} → (α → α → Ordering) → List α → Option (List α)

/-- dynamic.rs 925-1042, `SORT`; `index` and `order` are the arguments, or 1. -/
def sort (E : Env) (sortBy : SortBy) (g : Grid) (index order : Int) (byCol : Bool) : Option Res :=
  if rows g = 0 ∨ cols g = 0 then some (.grid []) else
  let ascending := decide (0 ≤ order)
  let i := (index - 1).toNat
  if byCol then
    if i ≥ rows g then some .badValue else do
      let columns ← sortBy (fun a b : Nat × List V => cmpKeys E ascending (a.2.getD i .empty) (b.2.getD i .empty)) ((List.range (cols g)).map fun c => (c, colOf g c))
      some (collapse ((List.range (rows g)).map fun r => columns.map fun col => col.2.getD r .empty))
  else
    if i ≥ cols g then some .badValue else do
      let data ← sortBy (fun a b : List V => cmpKeys E ascending (a.getD i .empty) (b.getD i .empty)) ((List.range (rows g)).map (rowOf g))
      some (collapse data)

/-- dynamic.rs 1258-1269: the comparison by several keys. -/
def cmpMany (E : Env) : List (List V × Bool) → Nat → Nat → Ordering
  | [], _, _ => .eq
  | (by_, ascending) :: rest, a, b =>
    match cmpKeys E ascending (by_.getD a .empty) (by_.getD b .empty) with
    | .eq => cmpMany E rest a b
    | o => o

/-- dynamic.rs 1197-1214: an array of keys, which must be a row or a column; `none` is `#VALUE!`. -/
def keysOf (n : Nat) (g : Grid) : Option (List V) :=
  if cols g = 1 then (if rows g = n then some (colOf g 0) else none)
  else if rows g = 1 then (if cols g = n then some (rowOf g 0) else none)
  else none

/-- An argument of `SORTBY` after the first: an array, or a number. -/
inductive ByArg where
  | array (g : Grid)
  | number (q : ℚ)

/-- dynamic.rs 1185-1245: the arrays of keys with their orders; a number after an array is its order.  A number in the place of an array is an array of
one cell. -/
def criteria (n : Nat) : List ByArg → Option (List (List V × Bool))
  | [] => some []
  | .array g :: .number q :: rest => do
    let keys ← keysOf n g
    let more ← criteria n rest
    some ((keys, decide (0 ≤ q)) :: more)
  | .array g :: rest => do
    let keys ← keysOf n g
    let more ← criteria n rest
    some ((keys, true) :: more)
  | .number q :: rest => do
    let keys ← keysOf n [[.num q]]
    let more ← criteria n rest
    some ((keys, true) :: more)

/-- dynamic.rs 1155-1288, `SORTBY`. -/
def sortby (E : Env) (sortBy : SortBy) (g : Grid) (args : List ByArg) : Option Res :=
  if args = [] then some .badValue else
  if rows g = 0 ∨ cols g = 0 then some (.grid []) else
  match criteria (rows g) args with
  | none => some .badValue
  | some crit => do
    let data ← sortBy (fun a b : Nat × List V => cmpMany E crit a.1 b.1) ((List.range (rows g)).map fun r => (r, rowOf g r))
    some (collapse (data.map Prod.snd))

/-! ### Choosing -/

/-- value.rs 169-184, `is_truthy`. -/
def truthy : V → Bool
  | .bool b => b
  | .num q => decide (q ≠ 0)
  | .text t => decide (t ≠ [])
  | .err => false
  | .empty => false

/-- dynamic.rs 2607-2664, `FILTER`; `ifEmpty` is the third argument. -/
def filter (g inc : Grid) (ifEmpty : Option Res) : Res :=
  if rows g = 0 ∨ cols g = 0 then .grid [] else
  if rows inc ≠ rows g ∧ rows inc ≠ 1 then .badValue else
  let out := ((List.range (rows g)).filter fun r =>
    (List.range (cols inc)).any fun c => truthy (cell inc (if rows inc = rows g then r else 0) c)).map (rowOf g)
  if out = [] then ifEmpty.getD .badCalc else .grid out

/-- dynamic.rs 2850-2876: the keys in the order of their first places, with their numbers. -/
def tally : List (List V) → List (List V × Nat) → List (List V × Nat)
  | [], acc => acc
  | k :: ks, acc => tally ks (if acc.any (fun e => decide (e.1 = k)) then acc.map (fun e => if e.1 = k then (e.1, e.2 + 1) else e) else acc ++ [(k, 1)])

/-- dynamic.rs 2783-2876, `UNIQUE`. -/
def unique (g : Grid) (byCol once : Bool) : Res :=
  if rows g = 0 ∨ cols g = 0 then .grid [] else
  let keys := if byCol then (List.range (cols g)).map (colOf g) else (List.range (rows g)).map (rowOf g)
  collapse (((tally keys []).filter fun e => !once || decide (e.2 = 1)).map Prod.fst)

/-! ### Shapes -/

/-- dynamic.rs 3105-3130, `TRANSPOSE`. -/
def transpose (g : Grid) : Res :=
  if rows g = 0 ∨ cols g = 0 then .grid [] else collapse ((List.range (cols g)).map (colOf g))

/-- The cells between two rows and two columns, or an empty array. -/
def window (g : Grid) (r : Nat × Nat) (c : Nat × Nat) : Res :=
  if r.1 ≥ r.2 ∨ c.1 ≥ c.2 then .grid [] else
  collapse ((List.range' r.1 (r.2 - r.1)).map fun i => (List.range' c.1 (c.2 - c.1)).map fun j => cell g i j)

/-- dynamic.rs 3277-3300: the first or last `k` of `n`; `none` is `#VALUE!`. -/
def takeSpan (n : Nat) (k : Int) : Option (Nat × Nat) :=
  if k.natAbs > n then none else if 0 ≤ k then some (0, k.toNat) else some ((n + k).toNat, n)

/-- dynamic.rs 3240-3317, `TAKE`. -/
def take (g : Grid) (k : Int) (m : Option Int) : Res :=
  if rows g = 0 ∨ cols g = 0 then .grid [] else
  match takeSpan (rows g) k, (match m with | some m => takeSpan (cols g) m | none => some (0, cols g)) with
  | some r, some c => window g r c
  | _, _ => .badValue

/-- dynamic.rs 3462-3481: all but the first or last `k` of `n`. -/
def dropSpan (n : Nat) (k : Int) : Nat × Nat :=
  if 0 ≤ k then (min k.toNat n, n) else (0, (n + k).toNat)

/-- dynamic.rs 3425-3490, `DROP`. -/
def drop (g : Grid) (k : Int) (m : Option Int) : Res :=
  if rows g = 0 ∨ cols g = 0 then .grid [] else
  window g (dropSpan (rows g) k) (match m with | some m => dropSpan (cols g) m | none => (0, cols g))

/-- choose.rs 317-333, 473-489: the place of the `k`th of `n`, counted from the end if `k` is negative; `none` is `#VALUE!`. -/
def place (n : Nat) (k : Int) : Option Nat :=
  if k = 0 then none else
  let adj := if k > 0 then k - 1 else n + k
  if adj < 0 ∨ adj.toNat ≥ n then none else some adj.toNat

/-- choose.rs 282-342, `CHOOSECOLS`; the arguments after the first are numbers. -/
def choosecols (g : Grid) (ks : List Int) : Res :=
  if ks = [] then .badValue else
  if rows g = 0 ∨ cols g = 0 then .grid [] else
  match ks.mapM (place (cols g)) with
  | none => .badValue
  | some is => collapse ((List.range (rows g)).map fun r => is.map fun c => cell g r c)

/-- choose.rs 438-497, `CHOOSEROWS`. -/
def chooserows (g : Grid) (ks : List Int) : Res :=
  if ks = [] then .badValue else
  if rows g = 0 ∨ cols g = 0 then .grid [] else
  match ks.mapM (place (rows g)) with
  | none => .badValue
  | some is => collapse (is.map (rowOf g))

/-- array_shape.rs 157-166, `include_cell`. -/
def includeCell (ignore : Nat) (v : V) : Bool :=
  match ignore with
  | 1 => decide (v ≠ .empty)
  | 2 => decide (v ≠ .err)
  | 3 => decide (v ≠ .empty) && decide (v ≠ .err)
  | _ => true

/-- array_shape.rs 168-205, `flatten_array`; `none` is `#VALUE!`. -/
def flatten (g : Grid) (ignore : Int) (byCol : Bool) : Option (List V) :=
  if ignore < 0 ∨ ignore > 3 then none else
  let width := (g.map List.length).foldl max 0
  some <| if byCol then (List.range width).flatMap fun c => (g.map fun row => row.getD c .empty).filter (includeCell ignore.toNat)
    else g.flatMap fun row => ((List.range width).map fun c => row.getD c .empty).filter (includeCell ignore.toNat)

/-- array_shape.rs 216-240, `TOCOL`. -/
def tocol (g : Grid) (ignore : Int) (byCol : Bool) : Res :=
  match flatten g ignore byCol with
  | none => .badValue
  | some [] => .badCalc
  | some flat => collapse (flat.map fun v => [v])

/-- array_shape.rs 252-276, `TOROW`. -/
def torow (g : Grid) (ignore : Int) (byCol : Bool) : Res :=
  match flatten g ignore byCol with
  | none => .badValue
  | some [] => .badCalc
  | some flat => collapse [flat]

/-- stack.rs 287-355, `VSTACK`; a single value is an array of one cell. -/
def vstack (gs : List Grid) : Res :=
  let gs := gs.filter fun g => !(decide (rows g = 0) || decide (cols g = 0))
  match gs with
  | [] => .grid []
  | g :: rest => if rest.all fun h => decide (cols h = cols g) then collapse (g ++ rest.flatten) else .badValue

/-- stack.rs 126-225, `HSTACK`. -/
def hstack (gs : List Grid) : Res :=
  let gs := gs.filter fun g => !(decide (rows g = 0) || decide (cols g = 0))
  match gs with
  | [] => .grid []
  | g :: rest => if rest.all fun h => decide (rows h = rows g) then
      collapse ((List.range (rows g)).map fun r => (g :: rest).flatMap fun h => rowOf h r)
    else .badValue

/-- dynamic.rs 2994-3010: a row of consecutive numbers, and the number after it. -/
def seqRow (step : ℚ) : Nat → ℚ → List V × ℚ
  | 0, x => ([], x)
  | n + 1, x => (.num x :: (seqRow step n (x + step)).1, (seqRow step n (x + step)).2)

/-- dynamic.rs 2994-3010: the rows one after the other. -/
def seqRows (step : ℚ) (width : Nat) : Nat → ℚ → Grid
  | 0, _ => []
  | n + 1, x => (seqRow step width x).1 :: seqRows step width n (seqRow step width x).2

/-- dynamic.rs 51-66, `generated_array_too_large`. -/
def tooLarge (n m : Int) : Bool := decide (n > 1048576 ∨ m > 16384 ∨ n * m > 16777216)

/-- dynamic.rs 2971-3022, `SEQUENCE`. -/
def sequence (n m : Int) (start step : ℚ) : Res :=
  if n ≤ 0 ∨ m ≤ 0 then .badValue else if tooLarge n m then .badNum else collapse (seqRows step m.toNat n.toNat start)

end Verif.Arrays
