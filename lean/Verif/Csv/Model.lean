/-!
# The CSV backend

Model of `crates/formualizer-workbook/src/backends/csv.rs`.

The `csv` crate, which turns records into bytes and bytes into records, is not part of the
repository: files are lists of records here, a record is a list of fields.  `CsvTrim::All`, the
delimiter, the quote style and the newline are options of that crate and are not modelled.  The
printing and parsing of floating point numbers and of dates belong to the standard library and to
`chrono`: they are the fields of `Lib`.
-/
namespace Verif.Csv

abbrev Str := List Char

/-- What the standard library and `chrono` give: `f64::to_string`, `str::parse::<f64>` followed by
`is_finite` (csv.rs 804-807), the printing of dates, date-times and times (csv.rs 921-923), and
`parse_date` or else `parse_datetime` (csv.rs 811-819). -/
structure Lib (F T : Type) where
  showF : F → Str
  parseF : Str → Option F
  showT : T → Str
  parseT : Str → Option T

/-- `LiteralValue` as far as the backend tells values apart.  Dates, date-times and times are one
constructor.  An array counts only by its top left value (csv.rs 933-940): `array v` has it,
`hollow` does not.  A duration counts by its whole seconds (csv.rs 924). -/
inductive Val (F T : Type)
  | empty
  | text (s : Str)
  | int (i : Int)
  | num (x : F)
  | bool (b : Bool)
  | date (t : T)
  | duration (seconds : Int)
  | error (name : Str)
  | pending
  | array (topLeft : Val F T)
  | hollow
deriving DecidableEq

/-- `CsvTypeInference` (csv.rs 27-35). -/
inductive Mode
  | off
  | basic
  | withDates
deriving DecidableEq

/-- `CsvArrayPolicy` (csv.rs 80-88). -/
inductive Policy
  | error
  | topLeft
  | blank
deriving DecidableEq

variable {F T : Type}

/-! ## From fields to values -/

/-- `parse_bool` (csv.rs 759-767). -/
def parseBool (s : Str) : Option Bool :=
  if s.map Char.toLower = ['t', 'r', 'u', 'e'] then some true
  else if s.map Char.toLower = ['f', 'a', 'l', 's', 'e'] then some false
  else none

/-- The second half of `parse_unambiguous_i64` (csv.rs 780-790); `digits.parse::<i64>()` fails when
the number exceeds `i64::MAX`. -/
def parseDigits (sign : Int) (d : Str) : Option Int :=
  if d = [] then none
  else if 1 < d.length ∧ d.head? = some '0' then none
  else if d.all Char.isDigit then
    let n := Nat.ofDigitChars 10 d 0
    if n ≤ 9223372036854775807 then some (sign * n) else none
  else none

/-- `parse_unambiguous_i64` (csv.rs 769-791). -/
def parseI64 : Str → Option Int
  | [] => none
  | c :: d =>
    if c = '+' then parseDigits 1 d
    else if c = '-' then parseDigits (-1) d
    else parseDigits 1 (c :: d)

/-- `strip_prefix(c).unwrap_or(s)` (csv.rs 799-800). -/
def strip (c : Char) : Str → Str
  | [] => []
  | x :: s => if x = c then s else x :: s

/-- `parse_unambiguous_f64` (csv.rs 793-809). -/
def parseF64 (lib : Lib F T) (s : Str) : Option F :=
  if '.' ∈ s ∨ 'e' ∈ s ∨ 'E' ∈ s then
    let s2 := strip '-' (strip '+' s)
    if 1 < s2.length ∧ s2.head? = some '0' ∧ ¬ ['0', '.'] <+: s2 then none
    else lib.parseF s
  else none

/-- `infer_field` (csv.rs 731-757). -/
def infer (lib : Lib F T) (mode : Mode) (forceText : Bool) (s : Str) : Option (Val F T) :=
  if s = [] then none
  else if forceText = true ∨ mode = .off then some (.text s)
  else match parseBool s with
    | some b => some (.bool b)
    | none => match parseI64 s with
      | some i => some (.int i)
      | none => match parseF64 lib s with
        | some x => some (.num x)
        | none =>
          if mode = .withDates then
            match lib.parseT s with
            | some t => some (.date t)
            | none => some (.text s)
          else some (.text s)

/-! ## From values to fields -/

/-- `i64::to_string`. -/
def showInt : Int → Str
  | .ofNat n => Nat.toDigits 10 n
  | .negSucc n => '-' :: Nat.toDigits 10 (n + 1)

/-- `literal_to_csv_field_inner` (csv.rs 894-942); `none` is an error. -/
def fieldAt (lib : Lib F T) (policy : Policy) (depth : Nat) (v : Val F T) : Option Str :=
  if 4 < depth then none
  else match v with
    | .empty => some []
    | .text s => some s
    | .int i => some (showInt i)
    | .num x => some (lib.showF x)
    | .bool true => some ['T', 'R', 'U', 'E']
    | .bool false => some ['F', 'A', 'L', 'S', 'E']
    | .date t => some (lib.showT t)
    | .duration s => some (showInt s)
    | .error k => some k
    | .pending => some ['P', 'e', 'n', 'd', 'i', 'n', 'g']
    | .array w => match policy with
      | .error => none
      | .blank => some []
      | .topLeft => fieldAt lib policy (depth + 1) w
    | .hollow => match policy with
      | .error => none
      | .blank => some []
      | .topLeft => some []

/-- `literal_to_csv_field` (csv.rs 890-892). -/
def field (lib : Lib F T) (policy : Policy) (v : Val F T) : Option Str := fieldAt lib policy 0 v

/-! ## The sheet -/

/-- `CsvSheet` (csv.rs 112-120). The map of cells is a function. -/
structure Sheet (F T : Type) where
  cells : Nat → Nat → Option (Val F T) := fun _ _ => none
  maxRow : Nat := 0
  maxCol : Nat := 0

/-- `CsvSheet::bounds` (csv.rs 123-129). -/
def Sheet.bounds (s : Sheet F T) : Option (Nat × Nat) :=
  if s.maxRow = 0 ∨ s.maxCol = 0 then none else some (s.maxRow, s.maxCol)

/-- `CsvSheet::set_bounds` (csv.rs 131-134). -/
def Sheet.setBounds (s : Sheet F T) (r c : Nat) : Sheet F T :=
  { s with maxRow := max s.maxRow r, maxCol := max s.maxCol c }

/-- `cells.insert((r, c), v)` and, with `none`, `cells.remove(&(r, c))`. -/
def Sheet.put (s : Sheet F T) (r c : Nat) (v : Option (Val F T)) : Sheet F T :=
  { s with cells := fun r' c' => if r' = r ∧ c' = c then v else s.cells r' c' }

/-- What the writer of `SpreadsheetWriter` does to the sheet of the given name
(csv.rs 506-604): other names, formulas and styles are refused before the sheet is touched. -/
inductive Op (F T : Type)
  /-- `write_cell` -/
  | write (r c : Nat) (v : Option (Val F T))
  /-- `clear_range` -/
  | clear (r₁ c₁ r₂ c₂ : Nat)
  /-- `delete_sheet` -/
  | delete

/-- `write_cell` (csv.rs 506-545). -/
def Sheet.write (s : Sheet F T) (r c : Nat) (v : Option (Val F T)) : Sheet F T :=
  match v with
  | none => (s.setBounds r c).put r c none
  | some .empty => (s.setBounds r c).put r c none
  | some v => (s.setBounds r c).put r c (some v)

/-- `clear_range` (csv.rs 558-580). -/
def Sheet.clear (s : Sheet F T) (r₁ c₁ r₂ c₂ : Nat) : Sheet F T :=
  { s with cells := fun r c => if r₁ ≤ r ∧ r ≤ r₂ ∧ c₁ ≤ c ∧ c ≤ c₂ then none else s.cells r c }

def Sheet.step (s : Sheet F T) : Op F T → Sheet F T
  | .write r c v => s.write r c v
  | .clear r₁ c₁ r₂ c₂ => s.clear r₁ c₁ r₂ c₂
  | .delete => {}

def Sheet.run (s : Sheet F T) (ops : List (Op F T)) : Sheet F T := ops.foldl Sheet.step s

/-- `read_range` (csv.rs 424-449). -/
def Sheet.readRange (s : Sheet F T) (sr sc er ec : Nat) (r c : Nat) : Option (Val F T) :=
  if sr ≤ r ∧ r ≤ er ∧ sc ≤ c ∧ c ≤ ec then s.cells r c else none

/-! ## Saving -/

/-- What stands in the file for a cell: its field, nothing for a cell without a value
(csv.rs 855-858). -/
def cellField (lib : Lib F T) (policy : Policy) : Option (Val F T) → Option Str
  | some v => field lib policy v
  | none => some []

/-- The fields of a row (csv.rs 853-860). -/
def recordOf (lib : Lib F T) (policy : Policy) (get : Nat → Option (Val F T)) : List Nat → Option (List Str)
  | [] => some []
  | c :: cs =>
    match cellField lib policy (get c) with
    | none => none
    | some f => match recordOf lib policy get cs with
      | none => none
      | some fs => some (f :: fs)

/-- The loop of `write_rect_csv` (csv.rs 852-865): the records that reach the writer, and whether
all of them did. -/
def writeRows (lib : Lib F T) (policy : Policy) (get : Nat → Nat → Option (Val F T)) (cols : List Nat) :
    List Nat → List (List Str) × Bool
  | [] => ([], true)
  | r :: rs =>
    match recordOf lib policy (get r) cols with
    | none => ([], false)
    | some rec =>
      let (recs, ok) := writeRows lib policy get cols rs
      (rec :: recs, ok)

/-- `a..=b` -/
def upTo (a b : Nat) : List Nat := List.range' a (b + 1 - a)

/-- What a save leaves: the records in the file (`none`: the file was not opened) and whether the
call succeeded. -/
structure Saved where
  file : Option (List (List Str))
  ok : Bool
deriving DecidableEq

/-- `write_range_to` (csv.rs 316-383) on the sheet of the given name, to a path.  `File::create`
empties the file before the first record is written; what was written before an error stays. -/
def Sheet.writeRange (lib : Lib F T) (policy : Policy) (s : Sheet F T) (sr sc er ec : Nat) : Saved :=
  if sr = 0 ∨ sc = 0 ∨ er = 0 ∨ ec = 0 then ⟨none, false⟩
  else if er < sr ∨ ec < sc then ⟨none, false⟩
  else
    let (recs, ok) := writeRows lib policy s.cells (upTo sc ec) (upTo sr er)
    ⟨some recs, ok⟩

/-- `write_sheet_to` (csv.rs 291-314) to a path. -/
def Sheet.save (lib : Lib F T) (policy : Policy) (s : Sheet F T) : Saved :=
  match s.bounds with
  | none => ⟨some [], true⟩
  | some (rows, cols) => s.writeRange lib policy 1 1 rows cols

/-! ## Opening -/

/-- `if let Some(v) = … { cells.insert((row, col), v) }` (csv.rs 269-271, 283-285). -/
def Sheet.maybePut (s : Sheet F T) (r c : Nat) : Option (Val F T) → Sheet F T
  | some v => s.put r c (some v)
  | none => s

/-- The inner loop of `open_from_reader` (csv.rs 267-271, 281-286). -/
def putFields (lib : Lib F T) (mode : Mode) (force : Bool) (row : Nat) : Nat → List Str → Sheet F T → Sheet F T
  | _, [], s => s
  | col, f :: fs, s =>
    putFields lib mode force row (col + 1) fs (s.maybePut row col (infer lib mode force f))

/-- The loop over the records (csv.rs 276-288). -/
def putRecords (lib : Lib F T) (mode : Mode) : Nat → List (List Str) → Sheet F T → Sheet F T
  | _, [], s => s
  | row, rec :: recs, s => putRecords lib mode (row + 1) recs (putFields lib mode false row 1 rec (s.setBounds row rec.length))

/-- `open_from_reader` (csv.rs 237-289).  With `has_headers` the `csv` crate keeps the first record
apart, an empty one if there is none. -/
def openFile (lib : Lib F T) (mode : Mode) (headers : Bool) (recs : List (List Str)) : Sheet F T :=
  if headers then
    let head := recs.headD []
    putRecords lib mode 2 recs.tail (putFields lib .off true 1 1 head (Sheet.setBounds {} 1 head.length))
  else putRecords lib mode 1 recs {}

end Verif.Csv
