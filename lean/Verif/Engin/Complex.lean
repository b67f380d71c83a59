import Mathlib.Data.Complex.Basic
import Mathlib.Data.Complex.BigOperators
import Mathlib.Data.Real.Sqrt
import Mathlib.Analysis.Complex.Norm
import Mathlib.Tactic.FieldSimp
import Mathlib.Tactic.Positivity
import Verif.Engin.Bits

/-!
Complex numbers held as text: COMPLEX, IMREAL, IMAGINARY, IMABS, IMCONJUGATE, IMSUM, IMSUB, IMPRODUCT, IMDIV:
`crates/formualizer-eval/src/builtins/engineering.rs` 2754-3840.

Numbers are finite and exact (rationals, the root of IMABS real). How a number is printed and read is a parameter,
`Numerals`; of the standard library only the laws in `Lawful` are used. Not modelled: infinite numbers and NaN, which the
standard library reads from texts like "inf"; rounding of arithmetic.
-/
namespace Verif.Engin

/-- Printing (`format!("{}", x)` of a float, or of the integer it equals) and reading (`str::parse::<f64>`). -/
structure Numerals where
  shown : Rat → List Char
  read : List Char → Option Rat

/-- What is used of the standard library: a number that is not negative is printed with digits and a point only, a negative
one with a minus sign in front; zero is "0"; what is printed is read back, also with a plus sign in front. -/
structure Lawful (N : Numerals) : Prop where
  zero : N.shown 0 = ['0']
  digits : ∀ q, 0 ≤ q → N.shown q ≠ [] ∧ ∀ c ∈ N.shown q, c.isDigit = true ∨ c = '.'
  neg : ∀ q, q < 0 → N.shown q = '-' :: N.shown (-q)
  read : ∀ q, N.read (N.shown q) = some q
  plus : ∀ q, 0 ≤ q → N.read ('+' :: N.shown q) = some q

/-- The first argument of a value `(re, im, suffix)`. -/
structure Cx where
  re : Rat
  im : Rat
  suffix : Char
deriving DecidableEq, Repr

/-- `str::trim`, with the white space of the standard library of Lean. -/
def trim (s : List Char) : List Char :=
  ((s.dropWhile Char.isWhitespace).reverse.dropWhile Char.isWhitespace).reverse

/-- The loop for the sign that separates the parts, engineering.rs 2788-2803: from position `i` down to 1. -/
def splitPos (s : List Char) : Nat → Option Nat
  | 0 => none
  | i + 1 =>
    if (s[i + 1]? = some '+' ∨ s[i + 1]? = some '-') ∧ ¬ (s[i]? = some 'e' ∨ s[i]? = some 'E') then some (i + 1)
    else splitPos s i

/-- The imaginary part after the split, engineering.rs 2818-2824. -/
def readImag (N : Numerals) (t : List Char) : Option Rat :=
  if t = ['+'] then some 1 else if t = ['-'] then some (-1) else N.read t

/-- The two parts, engineering.rs 2806-2833. The case of an empty real part cannot occur: the split is not at 0. -/
def readParts (N : Numerals) (t : List Char) (c : Char) : Option Cx :=
  match splitPos t (t.length - 1) with
  | some k =>
    match N.read (t.take k) with
    | none => none
    | some a =>
      match readImag N (t.drop k) with
      | none => none
      | some b => some ⟨a, b, c⟩
  | none =>
    match N.read t with
    | none => none
    | some b => some ⟨0, b, c⟩

/-- After the suffix is removed, engineering.rs 2777-2783. -/
def readBody (N : Numerals) (t : List Char) (c : Char) : Option Cx :=
  if t = [] ∨ t = ['+'] then some ⟨0, 1, c⟩
  else if t = ['-'] then some ⟨0, -1, c⟩
  else readParts N t c

/-- `parse_complex`, engineering.rs 2756-2834; `none` is #NUM!. -/
def parse (N : Numerals) (s : List Char) : Option Cx :=
  let t := trim s
  match t.getLast? with
  | none => none
  | some l =>
    if l = 'i' ∨ l = 'I' then readBody N t.dropLast 'i'
    else if l = 'j' ∨ l = 'J' then readBody N t.dropLast 'j'
    else match N.read t with
      | none => none
      | some a => some ⟨a, 0, 'i'⟩

/-- `f64::round`: half away from zero. -/
def round (q : Rat) : Rat :=
  if 0 ≤ q then ((q + 1/2).floor : Rat) else -(((-q + 1/2).floor : Int) : Rat)

/-- `clean_float`, engineering.rs 2836-2843. -/
def clean (q : Rat) : Rat :=
  if |q - round q| < 1 / 10 ^ 10 then round q else q

/-- The imaginary part with its sign and suffix, engineering.rs 2889-2903. -/
def imagText (N : Numerals) (b : Rat) (c : Char) : List Char :=
  if |b - 1| < 1 / 10 ^ 15 then ['+', c]
  else if |b + 1| < 1 / 10 ^ 15 then ['-', c]
  else if 0 < b then '+' :: N.shown b ++ [c]
  else N.shown b ++ [c]

/-- The part of `format_complex` after cleaning, engineering.rs 2851-2905. An integer below 10^15 is printed as an integer, which is the
text the float has: one function here. -/
def formatClean (N : Numerals) (a b : Rat) (c : Char) : List Char :=
  if |a| < 1 / 10 ^ 15 ∧ |b| < 1 / 10 ^ 15 then ['0']
  else if |b| < 1 / 10 ^ 15 then N.shown a
  else if |a| < 1 / 10 ^ 15 then
    if |b - 1| < 1 / 10 ^ 15 then [c]
    else if |b + 1| < 1 / 10 ^ 15 then ['-', c]
    else N.shown b ++ [c]
  else N.shown a ++ imagText N b c

/-- `format_complex`, engineering.rs 2846-2906. -/
def format (N : Numerals) (a b : Rat) (c : Char) : List Char := formatClean N (clean a) (clean b) c

/-- An argument of the IM functions: a text, a number, an error or anything else. -/
inductive CArg
  | text (s : List Char)
  | num (q : Rat)
  | err (e : Err)
  | other
deriving DecidableEq

/-- The match on the literal and `coerce_complex_str`, engineering.rs 2908-2916. -/
def CArg.str (N : Numerals) : CArg → Except Err (List Char)
  | .text s => .ok s
  | .num q => .ok (N.shown q)
  | .err e => .error e
  | .other => .error .value

/-- The text of an argument, parsed. -/
def CArg.cx (N : Numerals) (x : CArg) : Except Err Cx :=
  match x.str N with
  | .error e => .error e
  | .ok s =>
    match parse N s with
    | none => .error .num
    | some z => .ok z

/-- `check_suffix_compatibility`, engineering.rs 3428-3439: always the first. -/
def joinSuffix (s1 _s2 : Char) : Char := s1

/-- The third argument of COMPLEX, engineering.rs 2999-3026: absent or blank, a text (here already in lower case), an error,
anything else. -/
inductive Suffix
  | absent
  | blank
  | text (lower : List Char)
  | err (e : Err)
  | other
deriving DecidableEq

def Suffix.pick : Suffix → Except Err Char
  | .absent => .ok 'i'
  | .blank => .ok 'i'
  | .text s => if s = ['i'] then .ok 'i' else if s = ['j'] then .ok 'j' else if s = [] then .ok 'i' else .error .value
  | .err e => .error e
  | .other => .error .value

/-- COMPLEX, engineering.rs 2979-3030. -/
def complex (N : Numerals) (x y : Arg) (s : Suffix) : Except Err (List Char) :=
  match x with
  | .err e => .error e
  | .num a =>
    match y with
    | .err e => .error e
    | .num b =>
      match s.pick with
      | .error e => .error e
      | .ok c => .ok (format N a b c)

/-- IMREAL and IMAGINARY, engineering.rs 3086-3108, 3163-3185. -/
def imreal (N : Numerals) (x : CArg) : Except Err Rat := (x.cx N).map (·.re)
def imaginary (N : Numerals) (x : CArg) : Except Err Rat := (x.cx N).map (·.im)

/-- IMABS, engineering.rs 3240-3262. -/
noncomputable def imabs (N : Numerals) (x : CArg) : Except Err ℝ :=
  (x.cx N).map fun z => Real.sqrt ((z.re : ℝ) * z.re + z.im * z.im)

/-- IMCONJUGATE, engineering.rs 3403-3425. -/
def imconjugate (N : Numerals) (x : CArg) : Except Err (List Char) :=
  (x.cx N).map fun z => format N z.re (-z.im) z.suffix

/-- One turn of the loop of IMSUM, engineering.rs 3505-3531. The state is empty before the first argument. -/
def sumStep (st : Option Cx) (z : Cx) : Cx :=
  match st with
  | none => ⟨0 + z.re, 0 + z.im, z.suffix⟩
  | some a => ⟨a.re + z.re, a.im + z.im, joinSuffix a.suffix z.suffix⟩

/-- One turn of the loop of IMPRODUCT, engineering.rs 3697-3729. -/
def prodStep (st : Option Cx) (z : Cx) : Cx :=
  match st with
  | none => z
  | some a => ⟨a.re * z.re - a.im * z.im, a.re * z.im + a.im * z.re, joinSuffix a.suffix z.suffix⟩

def loop (N : Numerals) (step : Option Cx → Cx → Cx) : Option Cx → List CArg → Except Err (Option Cx)
  | st, [] => .ok st
  | st, x :: xs =>
    match x.cx N with
    | .error e => .error e
    | .ok z => loop N step (some (step st z)) xs

/-- IMSUM, engineering.rs 3483-3535. -/
def imsum (N : Numerals) (xs : List CArg) : Except Err (List Char) :=
  (loop N sumStep none xs).map fun
    | none => format N 0 0 'i'
    | some z => format N z.re z.im z.suffix

/-- IMPRODUCT, engineering.rs 3675-3733. -/
def improduct (N : Numerals) (xs : List CArg) : Except Err (List Char) :=
  (loop N prodStep none xs).map fun
    | none => format N 1 0 'i'
    | some z => format N z.re z.im z.suffix

/-- The two arguments of IMSUB and IMDIV, engineering.rs 3597-3625, 3793-3821: both texts first, then both are parsed. -/
def two (N : Numerals) (x y : CArg) : Except Err (Cx × Cx) :=
  match x.str N with
  | .error e => .error e
  | .ok s =>
    match y.str N with
    | .error e => .error e
    | .ok t =>
      match parse N s with
      | none => .error .num
      | some z =>
        match parse N t with
        | none => .error .num
        | some w => .ok (z, w)

/-- IMSUB, engineering.rs 3581-3629. -/
def imsub (N : Numerals) (x y : CArg) : Except Err (List Char) :=
  match two N x y with
  | .error e => .error e
  | .ok (z, w) => .ok (format N (z.re - w.re) (z.im - w.im) (joinSuffix z.suffix w.suffix))

/-- IMDIV, engineering.rs 3777-3838. -/
def imdiv (N : Numerals) (x y : CArg) : Except Err (List Char) :=
  match two N x y with
  | .error e => .error e
  | .ok (z, w) =>
    if |w.re * w.re + w.im * w.im| < 1 / 10 ^ 15 then .error .div
    else .ok (format N ((z.re * w.re + z.im * w.im) / (w.re * w.re + w.im * w.im))
      ((z.im * w.re - z.re * w.im) / (w.re * w.re + w.im * w.im)) (joinSuffix z.suffix w.suffix))

end Verif.Engin
