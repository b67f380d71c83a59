import Verif.Util

/-
Model of the A1 text code:
* `/repo/crates/formualizer-common/src/coord.rs` 377-388 and 404-529,
* `/repo/crates/formualizer-common/src/grid_address.rs` 41-49,
* `/repo/crates/formualizer-workbook/src/error.rs` 83-97,
* `/repo/crates/formualizer-parse/src/parser.rs` 50-63, 940-967,
* `/repo/crates/formualizer-sheetport/src/layout.rs` 196-232.

Texts are `List Char`.  The Rust code scans UTF-8 bytes; every byte of a multi-byte character is
outside ASCII, so the byte predicates `is_ascii_alphabetic` / `is_ascii_digit` / `== b'$'` stop the
scans exactly where the character predicates below do.
`u32` values are `Nat`, with the `checked_*` operations explicit.
-/

namespace Verif.A1

/-- `u32::checked_mul` / `checked_add` result filter. -/
def u32? (n : Nat) : Option Nat := if n < 2 ^ 32 then some n else none

/-- The byte `b'A' + rem`. -/
def letter (r : Nat) : Char := Char.ofNat (65 + r)

/-- coord.rs 404-414: the buffer filled by the loop of `column_to_letters` (low digit first). -/
def columnLettersRev (col : Nat) : List Char :=
  letter (col % 26) :: (if col / 26 = 0 then [] else columnLettersRev (col / 26 - 1))
termination_by col

/-- coord.rs 404-417 `column_to_letters`. -/
def columnToLetters (col : Nat) : List Char := (columnLettersRev col).reverse

/-- coord.rs 424-436: loop of `letters_to_column_index`; `col` is the accumulator. -/
def lettersLoop : List Char → Nat → Option Nat
  | [], col => some col
  | ch :: rest, col =>
    if ch.isAlpha then do
      let col ← u32? (col * 26)
      let col ← u32? (col + (ch.toUpper.toNat - 65))
      let col ← if rest ≠ [] then u32? (col + 1) else some col
      lettersLoop rest col
    else none

/-- coord.rs 419-437 `letters_to_column_index`. -/
def lettersToColumnIndex (s : List Char) : Option Nat :=
  if s = [] then none else lettersLoop s 0

/-- coord.rs 56-66 `A1ParseError`. -/
inductive A1Error where
  | empty
  | missingColumn
  | missingRow
  | invalidColumnChar (c : Char)
  | invalidRowChar (c : Char)
  | trailing (rest : List Char)
  | columnOutOfRange (n : Nat)
  | rowOutOfRange (n : Nat)
deriving DecidableEq, Repr

/-- coord.rs 14 `COL_MAX_1BASED`. -/
def COL_MAX_1BASED : Nat := 16384
/-- coord.rs 15 `ROW_MAX_1BASED`. -/
def ROW_MAX_1BASED : Nat := 1048576

/-- coord.rs 440-445 `col_letters_from_1based`. -/
def colLettersFrom1 (col : Nat) : Except A1Error (List Char) :=
  if col = 0 ∨ col > COL_MAX_1BASED then .error (.columnOutOfRange col)
  else .ok (columnToLetters (col - 1))

/-- coord.rs 448-463 `col_index_from_letters_1based`.  `ColumnOutOfRange(zero_based + 1)` is kept
as an unbounded number (in the source the addition can overflow for the single index `u32::MAX`;
only the payload of the error is affected). -/
def colIndexFrom1 (s : List Char) : Except A1Error Nat :=
  if s = [] then .error .missingColumn
  else match s.find? (fun ch => !ch.isAlpha) with
    | some ch => .error (.invalidColumnChar ch)
    | none =>
      match lettersToColumnIndex s with
      | some z => if z ≤ 16383 then .ok (z + 1) else .error (.columnOutOfRange (z + 1))
      | none => .error (.columnOutOfRange (COL_MAX_1BASED + 1))

/-- Decimal digits of a number, low digit first (`core::fmt` for `u32`). -/
def decimalRev (n : Nat) : List Char :=
  Char.ofNat (48 + n % 10) :: (if n / 10 = 0 then [] else decimalRev (n / 10))
termination_by n

/-- `u32::to_string`. -/
def decimal (n : Nat) : List Char := (decimalRev n).reverse

/-- `str::parse::<u32>` on a non-empty string of ASCII digits: fails on overflow.
The callers only pass digit strings (no sign). -/
def parseU32 (s : List Char) : Option Nat :=
  s.foldl (fun acc c => acc.bind fun n => u32? (n * 10 + (c.toNat - 48))) (some 0)

/-- Result of `parse_a1_components`: `(row, col, row_abs, col_abs)`, 1-based. -/
abbrev Parts := Nat × Nat × Bool × Bool

/-- coord.rs 466-529 `parse_a1_components`. -/
def parseA1 (input : List Char) : Except A1Error Parts :=
  if input = [] then .error .empty
  else
    let colAbs := input.head? = some '$'
    let s1 := if colAbs then input.tail else input
    if colAbs ∧ s1 = [] then .error .missingColumn
    else
      let letters := s1.takeWhile Char.isAlpha
      let s2 := s1.dropWhile Char.isAlpha
      if letters = [] then .error .missingColumn
      else
        let rowAbs := s2.head? = some '$'
        let s3 := if rowAbs then s2.tail else s2
        if s3 = [] then .error .missingRow
        else
          let digits := s3.takeWhile Char.isDigit
          let s4 := s3.dropWhile Char.isDigit
          if digits = [] then
            (match s3 with
             | [] => .error .missingRow
             | c :: _ => if c = '\x00' then .error .missingRow else .error (.invalidRowChar c))
          else if s4 ≠ [] then .error (.trailing s4)
          else
            match colIndexFrom1 letters with
            | .error e => .error e
            | .ok col =>
              match parseU32 digits with
              | none => .error (.rowOutOfRange (ROW_MAX_1BASED + 1))
              | some row =>
                if row = 0 ∨ row > ROW_MAX_1BASED then .error (.rowOutOfRange row)
                else .ok (row, col, decide rowAbs, decide colAbs)

/-- coord.rs 377-388 `Display for RelativeCoord`, on the four components (0-based row/col). -/
def display (row col : Nat) (rowAbs colAbs : Bool) : List Char :=
  (if colAbs then ['$'] else []) ++ columnToLetters col ++
    (if rowAbs then ['$'] else []) ++ decimal (row + 1)

/-- coord.rs 367-374 `RelativeCoord::try_from_a1`, yielding the 0-based components (the packing of
the components into a word is `Verif.Coord`). -/
def tryFromA1 (input : List Char) : Except A1Error Parts :=
  match parseA1 input with
  | .error e => .error e
  | .ok (row, col, ra, ca) => .ok (row - 1, col - 1, ra, ca)

/-! ### Other renderers and parsers of column letters in the workspace -/

/-- grid_address.rs 41-49 `unbounded_column_letters`: the `reversed` buffer. -/
def unboundedRev (column : Nat) : List Char :=
  if column = 0 then [] else letter ((column - 1) % 26) :: unboundedRev ((column - 1) / 26)
termination_by column
decreasing_by omega

/-- grid_address.rs 41-49 `unbounded_column_letters` (1-based). -/
def unboundedColumnLetters (column : Nat) : List Char := (unboundedRev column).reverse

/-- workbook error.rs 87-94: loop of `col_to_a1` (each letter is inserted at the front). -/
def colToA1Loop (n : Nat) (result : List Char) : List Char :=
  let result := letter (n % 26) :: result
  if n / 26 = 0 then result else colToA1Loop (n / 26 - 1) result
termination_by n

/-- workbook error.rs 83-97 `col_to_a1` (1-based; `col - 1` underflows for 0, which callers avoid). -/
def colToA1 (col : Nat) : List Char := colToA1Loop (col - 1) []

/-- parser.rs 50-63 `COLUMN_LOOKUP`. -/
def columnLookup : List (List Char) :=
  (List.range 26).map (fun c => [letter c]) ++
  (List.range 26).flatMap (fun c1 => (List.range 26).map (fun c2 => [letter c1, letter c2]))

/-- parser.rs 940-951 `number_to_column`. -/
def numberToColumn (num : Nat) : List Char :=
  if num = 0 then []
  else if num ≤ 702 then columnLookup.getD (num - 1) []
  else match colLettersFrom1 num with
    | .ok s => s
    | .error _ => []

/-- Outcome of sheetport layout.rs 196-232 `col_to_index`. -/
inductive PortCol where
  | ok (n : Nat)
  | invalid
  | overflow
deriving DecidableEq, Repr

/-- layout.rs 203-218: the accumulation loop. -/
def portLoop : List Char → Nat → PortCol
  | [], r => .ok r
  | ch :: rest, r =>
    if ch.isAlpha then
      match (u32? (r * 26)).bind (fun v => u32? (v + (ch.toUpper.toNat - 65 + 1))) with
      | some r => portLoop rest r
      | none => .overflow
    else .invalid

/-- layout.rs 196-226 `col_to_index`. -/
def portColToIndex (s : List Char) : PortCol :=
  if s = [] then .invalid
  else match portLoop s 0 with
    | .ok r => if r > 16384 then .invalid else .ok r
    | e => e

end Verif.A1
