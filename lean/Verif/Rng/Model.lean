import Mathlib.Data.Rat.Floor

/-!
# Random numbers

How RAND, RANDBETWEEN and RANDARRAY are seeded
(`/repo/crates/formualizer-eval/src/rng.rs`, `traits.rs`, `function.rs`) and what they draw
(`builtins/random.rs`, `builtins/lookup/dynamic.rs`).

Machine words are `BitVec 64`, so `wrapping_mul`, `^`, shifts and rotations are the operations of
the code.  The generator itself (`SmallRng` of the crate `rand`) is a parameter.
-/

namespace Verif.Rng

/-- A machine word. -/
abbrev Word := BitVec 64

/-- `fnv1a64`: rng.rs 6-15. -/
def fnv1a (bytes : List (BitVec 8)) : Word :=
  bytes.foldl (fun h b => (h ^^^ b.zeroExtend 64) * 0x00000100000001B3#64) 0xcbf29ce484222325#64

/-- `mix64`: rng.rs 17-26. -/
def mix (a b : Word) : Word :=
  let x := a ^^^ b.rotateLeft 17
  let x := x ^^^ (x >>> 33)
  let x := x * 0xff51afd7ed558ccd#64
  let x := x ^^^ (x >>> 33)
  let x := x * 0xc4ceb9fe1a85ec53#64
  x ^^^ (x >>> 33)

/-- A cell as the engine names it: a sheet (`SheetId = u16`, reference.rs 206), a row and a column
(`Coord`, formualizer-common/src/coord.rs 10-13 and 126-128: 20 and 14 bits). -/
structure Cell where
  sheet : BitVec 16
  row : BitVec 20
  col : BitVec 14
deriving DecidableEq

/-- The word of a position: rng.rs 38. -/
def position (c : Cell) : Word :=
  ((c.sheet.zeroExtend 64) <<< 40) ^^^ ((c.row.zeroExtend 64) <<< 20) ^^^ c.col.zeroExtend 64

/-- `compose_seed`: rng.rs 30-43. -/
def lanes (workbook : Word) (c : Cell) (salt epoch : Word) : Word × Word :=
  let pos := position c
  (mix (workbook ^^^ salt ^^^ epoch) pos,
    mix (epoch ^^^ 0xA5A5A5A55A5A5A5A#64) (pos.rotateLeft 7))

/-- The word `small_rng_from_lanes` seeds the generator with: rng.rs 46-50. -/
def seed (l : Word × Word) : Word := mix l.1 l.2

/-- `VolatileLevel`: traits.rs 1711-1719. -/
inductive Level where
  | always
  | onRecalc
  | onOpen
deriving DecidableEq

/-- What a function can see of the engine when it asks for a generator: the workbook's seed, the
level, the number of recalculations so far and the cell being evaluated. -/
structure Site where
  workbook : Word
  level : Level
  epoch : Word
  cell : Option Cell

/-- The level of an engine nobody has configured: engine/mod.rs 884 and traits.rs 1600-1603. -/
def defaultLevel : Level := .always

/-- The site after `n` more recalculations; each ends with `wrapping_add(1)`: engine/eval.rs 21296,
21435 and 22236. -/
def Site.recalc (s : Site) (n : Nat) : Site := { s with epoch := s.epoch + BitVec.ofNat 64 n }

/-- `rng_for_current` up to the generator: traits.rs 1776-1789. -/
def siteSeed (s : Site) (salt : Word) : Word :=
  let cell := s.cell.getD ⟨0, 0, 0⟩
  let epoch := match s.level with
    | .onRecalc => s.epoch
    | _ => 0
  seed (lanes s.workbook cell salt epoch)

/-- `function_salt` of a function without a namespace: function.rs 138-146; the names are ASCII. -/
def salt (name : String) : Word := fnv1a (name.toList.map fun c => BitVec.ofNat 8 c.toNat)

/-- The generator: a state made from a word, a number in `[0, 1)` and a whole number in a range with
the next state.  `SmallRng::seed_from_u64`, `gen_range(0.0..1.0)`, `gen::<f64>()` and
`gen_range(lo..=hi)` of the crate `rand`; not modelled. -/
structure Gen where
  State : Type
  start : Word → State
  unit : State → ℚ × State
  between : State → Int → Int → Int × State

/-- What `rand` promises about the generator. -/
structure Gen.Good (g : Gen) : Prop where
  unit : ∀ s, 0 ≤ (g.unit s).1 ∧ (g.unit s).1 < 1
  between : ∀ s lo hi, lo ≤ hi → lo ≤ (g.between s lo hi).1 ∧ (g.between s lo hi).1 ≤ hi

/-- RAND: random.rs 68-79. -/
def rand (g : Gen) (s : Site) : ℚ := (g.unit (g.start (siteSeed s (salt "RAND")))).1

/-- An argument of RANDBETWEEN. -/
inductive Arg where
  | int (n : Int)
  | num (q : ℚ)
  | other

/-- `n as i64` of a float: the part before the point, held within the range of `i64`. -/
def toI64 (q : ℚ) : Int :=
  max (-2 ^ 63) (min (2 ^ 63 - 1) (if 0 ≤ q then ⌊q⌋ else ⌈q⌉))

/-- random.rs 226-235. -/
def Arg.bound : Arg → Int
  | .int n => n
  | .num q => toI64 q
  | .other => 0

/-- RANDBETWEEN: random.rs 219-248; `none` is `#NUM!`.  The difference wraps as in a release build;
with overflow checks a difference of `2 ^ 63` or more panics. -/
def randBetween (g : Gen) (s : Site) (a b : Arg) : Option Int :=
  let lo := a.bound
  let hi := b.bound
  if hi < lo then none
  else
    let st := g.start (siteSeed s (salt "RANDBETWEEN"))
    some (if (hi - lo) % 2 ^ 64 = 2 ^ 64 - 1 then lo else (g.between st lo hi).1)

/-- One value of RANDARRAY and the next state: dynamic.rs 1465-1480; `none` is `#VALUE!`. -/
def arrayCell (g : Gen) (lo hi : ℚ) (whole : Bool) (st : g.State) : Option (ℚ × g.State) :=
  if whole then
    let l : Int := max (-2 ^ 63) (min (2 ^ 63 - 1) ⌈lo⌉)
    let h : Int := max (-2 ^ 63) (min (2 ^ 63 - 1) ⌊hi⌋)
    if h < l then none
    else
      let r := g.between st l h
      some ((r.1 : ℚ), r.2)
  else
    let r := g.unit st
    some (r.1 * (hi - lo) + lo, r.2)

/-- `n` values, one after the other: dynamic.rs 1463-1484. -/
def arrayRow (g : Gen) (lo hi : ℚ) (whole : Bool) : Nat → g.State → Option (List ℚ × g.State)
  | 0, st => some ([], st)
  | n + 1, st =>
    match arrayCell g lo hi whole st with
    | none => none
    | some (v, st) =>
      match arrayRow g lo hi whole n st with
      | none => none
      | some (vs, st) => some (v :: vs, st)

/-- The rows: dynamic.rs 1461-1486. -/
def arrayRows (g : Gen) (lo hi : ℚ) (whole : Bool) (cols : Nat) :
    Nat → g.State → Option (List (List ℚ))
  | 0, _ => some []
  | n + 1, st =>
    match arrayRow g lo hi whole cols st with
    | none => none
    | some (r, st) =>
      match arrayRows g lo hi whole cols n st with
      | none => none
      | some rs => some (r :: rs)

/-- RANDARRAY: dynamic.rs 1404-1488, with `generated_array_too_large` (50-66); `none` is `#VALUE!`
or, of an array too large, `#NUM!`.  Sizes are given as numbers already cut to `i64`, and exact
numbers stand for floats. -/
def randArray (g : Gen) (s : Site) (rows cols : Int) (lo hi : ℚ) (whole : Bool) :
    Option (List (List ℚ)) :=
  if rows ≤ 0 ∨ cols ≤ 0 then none
  else if whole = true ∧ hi < lo then none
  else if 1048576 < rows ∨ 16384 < cols ∨ 2 ^ 24 < rows * cols then none
  else arrayRows g lo hi whole cols.toNat rows.toNat (g.start (siteSeed s (salt "RANDARRAY")))

end Verif.Rng
