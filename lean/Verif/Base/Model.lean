/-!
# Numbers in other bases and Roman numerals

Model of `/repo/crates/formualizer-eval/src/builtins/engineering.rs` 485-1810 (`DEC2BIN`, `BIN2DEC` and their kind) and `/repo/crates/formualizer-eval/src/builtins/math/numeric.rs` 2274-2323, 2369-2575
(`ROMAN`, `ARABIC`), 2618-2790 (`BASE`, `DECIMAL`).  Arguments are texts and numbers after coercion and truncation; the only error here is `#NUM!` (`none`).  A text is a list of characters.
-/

namespace Verif.Base

/-- The character of a digit: `format!("{:b}")`, `{:o}`, `{:X}`, and `char::from_digit` in upper case (numeric.rs 2675-2681). -/
def chr (d : Nat) : Char := if d < 10 then Char.ofNat (48 + d) else Char.ofNat (55 + d)

/-- `char::to_digit`: the digit of a character in a base up to 36, in upper or lower case. -/
def dig (b : Nat) (c : Char) : Option Nat :=
  let n := c.toNat
  let d := if 48 ≤ n ∧ n ≤ 57 then some (n - 48) else if 65 ≤ n ∧ n ≤ 90 then some (n - 55) else if 97 ≤ n ∧ n ≤ 122 then some (n - 87) else none
  match d with
  | some d => if d < b then some d else none
  | none => none

/-- The loop of numeric.rs 2671-2684, and `format!`: digits of a number below 2^64, which has at most 64 of them. -/
def digitsGo (b : Nat) : Nat → Nat → List Char → List Char
  | 0, _, acc => acc
  | f + 1, n, acc => if n = 0 then acc else digitsGo b f (n / b) (chr (n % b) :: acc)

/-- The text of a number. -/
def fmt (b n : Nat) : List Char := if n = 0 then ['0'] else digitsGo b 64 n []

/-- `format!("{:0>width$}")`: zeros on the left. -/
def pad (w : Nat) (s : List Char) : List Char := List.replicate (w - s.length) '0' ++ s

/-- The largest `i64`. -/
def maxI : Nat := 2 ^ 63 - 1

/-- The digits of `i64::from_str_radix` for a number with at most `limit`, with the tests for overflow in every step. -/
def parseGo (b limit : Nat) : List Char → Nat → Option Nat
  | [], acc => some acc
  | c :: cs, acc =>
    match dig b c with
    | none => none
    | some d => if acc * b + d ≤ limit then parseGo b limit cs (acc * b + d) else none

/-- `i64::from_str_radix`. -/
def fromStrRadix (b : Nat) (s : List Char) : Option Int :=
  match s with
  | [] => none
  | '+' :: rest => if rest = [] then none else (parseGo b maxI rest 0).map fun n => (n : Int)
  | '-' :: rest => if rest = [] then none else (parseGo b (maxI + 1) rest 0).map fun n => -(n : Int)
  | _ => (parseGo b maxI s 0).map fun n => (n : Int)

/-- `BIN2DEC`, `OCT2DEC`, `HEX2DEC` (engineering.rs 562-582, 760-778, 957-975), for the bases 2, 8 and 16: ten digits of which the first is in the upper half are a negative number.  The texts for base 16
are turned to upper case first, which changes no digit; characters outside of ASCII are not digits. -/
def toDec (b : Nat) (s : List Char) : Option Int :=
  if s.length > 10 ∨ s.any (fun c => (dig b c).isNone) = true then none
  else
    let v := (fromStrRadix b s).getD 0
    match s with
    | c :: _ => if s.length = 10 ∧ (dig b c).getD 0 ≥ b / 2 then some (v - (b : Int) ^ 10) else some v
    | [] => some v

/-- The numbers that can be written: engineering.rs 654, 851, 1048. -/
def inRange (b : Nat) (n : Int) : Bool := decide (-((b : Int) ^ 10 / 2) ≤ n) && decide (n ≤ (b : Int) ^ 10 / 2 - 1)

/-- engineering.rs 671-687, 868-884, 1065-1081: the text of a number, padded to the places. -/
def write (b : Nat) (n : Int) (places : Option Nat) : Option (List Char) :=
  let t := if 0 ≤ n then fmt b n.toNat else pad 10 (fmt b (n + (b : Int) ^ 10).toNat)
  match places with
  | none => some t
  | some p => if p < t.length ∨ p > 10 then none else some (pad p t)

/-- `DEC2BIN`, `DEC2OCT`, `DEC2HEX` (engineering.rs 641-690, 838-887, 1035-1084). -/
def ofDec (b : Nat) (n : Int) (places : Option Nat) : Option (List Char) := if inRange b n = true then write b n places else none

/-- `BIN2HEX` and its kind (engineering.rs 1139-1810): `checked` says whether the range is tested (`HEX2BIN`, `OCT2BIN`, `HEX2OCT`). -/
def cross (b b' : Nat) (checked : Bool) (s : List Char) (places : Option Nat) : Option (List Char) :=
  match toDec b s with
  | none => none
  | some n => if checked = true ∧ inRange b' n = false then none else write b' n places

/-- `BASE` (numeric.rs 2637-2691). -/
def base (n : Int) (radix : Int) (minLen : Nat) : Option (List Char) :=
  if ¬ (2 ≤ radix ∧ radix ≤ 36) ∨ n < 0 then none else some (pad minLen (fmt radix.toNat n.toNat))

/-- `str::trim` for blanks. -/
def trim (s : List Char) : List Char := ((s.dropWhile Char.isWhitespace).reverse.dropWhile Char.isWhitespace).reverse

/-- `DECIMAL` (numeric.rs 2746-2790). -/
def decimal (s : List Char) (radix : Nat) : Option Int := if ¬ (2 ≤ radix ∧ radix ≤ 36) then none else fromStrRadix radix (trim s)

/-! ### Roman numerals -/

/-- numeric.rs 2275-2289. -/
def table : List (Nat × List Char) :=
  [(1000, ['M']), (900, ['C', 'M']), (500, ['D']), (400, ['C', 'D']), (100, ['C']), (90, ['X', 'C']), (50, ['L']), (40, ['X', 'L']), (10, ['X']), (9, ['I', 'X']), (5, ['V']), (4, ['I', 'V']), (1, ['I'])]

/-- numeric.rs 2293-2296: the loop for one entry, which runs `n / value` times. -/
def repeatGlyph (g : List Char) : Nat → List Char
  | 0 => []
  | k + 1 => g ++ repeatGlyph g k

/-- numeric.rs 2291-2298. -/
def classicGo : List (Nat × List Char) → Nat → List Char
  | [], _ => []
  | (value, g) :: rest, n => repeatGlyph g (n / value) ++ classicGo rest (n % value)

/-- numeric.rs 2274-2299, `roman_classic`. -/
def classic (n : Nat) : List Char := classicGo table n

/-- `str::replace`: from the left, without overlaps. -/
def replaceGo (old new : List Char) : Nat → List Char → List Char
  | 0, s => s
  | f + 1, s =>
    match s with
    | [] => []
    | c :: cs => if old.isPrefixOf s = true then new ++ replaceGo old new f (s.drop old.length) else c :: replaceGo old new f cs

def replace (old new : String) (s : List Char) : List Char := replaceGo old.toList new.toList s.length s

/-- numeric.rs 2301-2323, `roman_apply_form`. -/
def form1 (s : List Char) : List Char := replace "IX" "IV" (replace "XL" "VL" (replace "XC" "VL" (replace "CD" "LD" (replace "CM" "LM" s))))
def form2 (s : List Char) : List Char := replace "VLIV" "IX" (replace "LM" "XM" (replace "LD" "XD" (form1 s)))
def form3 (s : List Char) : List Char := replace "IX" "IV" (replace "XM" "VM" (replace "XD" "VD" (form2 s)))
def form4 (s : List Char) : List Char := replace "VMIV" "IM" (replace "VDIV" "ID" (form3 s))
def applyForm (s : List Char) : Nat → List Char
  | 1 => form1 s
  | 2 => form2 s
  | 3 => form3 s
  | 4 => form4 s
  | _ => s

/-- `ROMAN` (numeric.rs 2385-2441); `none` is `#VALUE!`. -/
def roman (n : Int) (form : Int) : Option (List Char) :=
  if ¬ (0 ≤ n ∧ n ≤ 3999) then none
  else if n = 0 then some []
  else if ¬ (0 ≤ form ∧ form ≤ 4) then none
  else some (applyForm (classic n.toNat) form.toNat)

/-- numeric.rs 2446-2457, `roman_digit_value`. -/
def romanDigit : Char → Option Int
  | 'I' => some 1
  | 'V' => some 5
  | 'X' => some 10
  | 'L' => some 50
  | 'C' => some 100
  | 'D' => some 500
  | 'M' => some 1000
  | _ => none

/-- numeric.rs 2553-2570: from the right; the total and the largest digit so far. -/
def arabicStep (acc : Option (Int × Int)) (c : Char) : Option (Int × Int) :=
  match acc, romanDigit c with
  | some (total, prev), some v => if v < prev then some (total - v, prev) else some (total + v, v)
  | _, _ => none

/-- `ARABIC` (numeric.rs 2518-2575), for a text in upper case without blanks around. -/
def arabic (s : List Char) : Option Int :=
  if s.length > 255 then none
  else
    match s with
    | [] => some 0
    | ['-'] => none
    | '-' :: rest => (rest.reverse.foldl arabicStep (some (0, 0))).map fun r => -r.1
    | _ => (s.reverse.foldl arabicStep (some (0, 0))).map Prod.fst

end Verif.Base
