/-!
The JSON backend: `crates/formualizer-workbook/src/backends/json.rs` and `load_limits.rs`.

Modelled: how a value is written and read again, the cells of a sheet under writes, clears and reads, the sheets under
renames, the defined names, and which values reach the engine on loading.

External code, modelled from its documentation: `Display` and `parse_from_str` of `chrono`'s dates and times (formats
`%Y-%m-%d`, `%H:%M:%S`; blanks, which `parse_from_str` skips before a number, are left out, as no written text has them
there; leap seconds are left out). That `serde_json` gives back the tree it has written is assumed, except for numbers
that are not finite, which it writes as `null`.
-/
namespace Verif.Json

/-! ### Dates and times as text -/

/-- A date of `chrono`. -/
structure Date where
  year : Int
  month : Nat
  day : Nat
deriving DecidableEq, Repr

def leap (y : Int) : Bool := (y % 4 == 0 && y % 100 != 0) || y % 400 == 0

def daysIn (y : Int) (m : Nat) : Nat :=
  if m = 2 then (if leap y then 29 else 28) else if m = 4 ∨ m = 6 ∨ m = 9 ∨ m = 11 then 30 else 31

/-- What `NaiveDate::from_ymd_opt` accepts. -/
def Date.Valid (d : Date) : Prop :=
  -262143 ≤ d.year ∧ d.year ≤ 262142 ∧ 1 ≤ d.month ∧ d.month ≤ 12 ∧ 1 ≤ d.day ∧ d.day ≤ daysIn d.year d.month

instance (d : Date) : Decidable d.Valid := by unfold Date.Valid; infer_instance

/-- A time of day of `chrono`, without leap seconds. -/
structure Time where
  hour : Nat
  minute : Nat
  second : Nat
  nano : Nat
deriving DecidableEq, Repr

def Time.Valid (t : Time) : Prop := t.hour < 24 ∧ t.minute < 60 ∧ t.second < 60 ∧ t.nano < 1000000000

instance (t : Time) : Decidable t.Valid := by unfold Time.Valid; infer_instance

def digit (n : Nat) : Char := Char.ofNat (48 + n)

/-- The last `w` decimal digits of a number. -/
def digs : Nat → Nat → List Char
  | 0, _ => []
  | w + 1, n => digs w (n / 10) ++ [digit (n % 10)]

/-- The digits of a year: at least four. -/
def yearDigs (n : Nat) : List Char :=
  if n < 10000 then digs 4 n else if n < 100000 then digs 5 n else digs 6 n

/-- `Display` of a year: a sign beyond 0 … 9999. -/
def yearText (y : Int) : List Char :=
  if 0 ≤ y ∧ y ≤ 9999 then digs 4 y.toNat
  else if y < 0 then '-' :: yearDigs y.natAbs else '+' :: yearDigs y.natAbs

/-- `Display` of `NaiveDate`. -/
def Date.text (d : Date) : List Char := yearText d.year ++ '-' :: (digs 2 d.month ++ '-' :: digs 2 d.day)

/-- The fraction of `Display` of `NaiveTime`: none, or 3, 6 or 9 digits. -/
def fraction (nano : Nat) : List Char :=
  if nano = 0 then []
  else if nano % 1000000 = 0 then '.' :: digs 3 (nano / 1000000)
  else if nano % 1000 = 0 then '.' :: digs 6 (nano / 1000)
  else '.' :: digs 9 nano

/-- `Display` of `NaiveTime`. -/
def Time.text (t : Time) : List Char :=
  digs 2 t.hour ++ ':' :: (digs 2 t.minute ++ ':' :: (digs 2 t.second ++ fraction t.nano))

def digitVal (c : Char) : Option Nat := if 48 ≤ c.toNat ∧ c.toNat ≤ 57 then some (c.toNat - 48) else none

/-- At most `max` digits are read. -/
def scan : Nat → Nat → List Char → Nat × List Char
  | 0, acc, cs => (acc, cs)
  | _ + 1, acc, [] => (acc, [])
  | n + 1, acc, c :: cs => match digitVal c with
    | some d => scan n (acc * 10 + d) cs
    | none => (acc, c :: cs)

/-- `scan::number`: at least one digit. -/
def number (max : Nat) : List Char → Option (Nat × List Char)
  | [] => none
  | c :: cs => if (digitVal c).isSome then some (scan max 0 (c :: cs)) else none

/-- A character of the format that must be there. -/
def lit (c : Char) : List Char → Option (List Char)
  | [] => none
  | d :: cs => if d = c then some cs else none

/-- `%Y`: up to four digits, any number of them after a sign. -/
def parseYear : List Char → Option (Int × List Char)
  | '-' :: cs => (number cs.length cs).map fun p => (-(p.1 : Int), p.2)
  | '+' :: cs => (number cs.length cs).map fun p => ((p.1 : Int), p.2)
  | cs => (number 4 cs).map fun p => ((p.1 : Int), p.2)

/-- `%Y-%m-%d` at the front of a text. -/
def parseDateFront (cs : List Char) : Option (Date × List Char) := do
  let (y, cs) ← parseYear cs
  let cs ← lit '-' cs
  let (m, cs) ← number 2 cs
  let cs ← lit '-' cs
  let (d, cs) ← number 2 cs
  if (Date.mk y m d).Valid then some (⟨y, m, d⟩, cs) else none

/-- `%H:%M:%S` at the front of a text. -/
def parseTimeFront (cs : List Char) : Option (Time × List Char) := do
  let (h, cs) ← number 2 cs
  let cs ← lit ':' cs
  let (m, cs) ← number 2 cs
  let cs ← lit ':' cs
  let (s, cs) ← number 2 cs
  if (Time.mk h m s 0).Valid then some (⟨h, m, s, 0⟩, cs) else none

/-- Nothing may be left (`TOO_LONG`). -/
def whole {α : Type} : Option (α × List Char) → Option α
  | some (a, []) => some a
  | _ => none

/-- `NaiveDate::parse_from_str(s, "%Y-%m-%d")` (json.rs 623). -/
def parseDate (s : List Char) : Option Date := whole (parseDateFront s)

/-- `NaiveTime::parse_from_str(s, "%H:%M:%S")` (json.rs 647). -/
def parseTime (s : List Char) : Option Time := whole (parseTimeFront s)

/-- `NaiveDateTime::parse_from_str` with `sep` between the two. -/
def parseDateTimeSep (sep : Char) (s : List Char) : Option (Date × Time) :=
  match parseDateFront s with
  | none => none
  | some (d, cs) => match lit sep cs with
    | none => none
    | some cs => match parseTime cs with
      | none => none
      | some t => some (d, t)

/-- The two formats that are tried (json.rs 634-635). -/
def parseDateTime (s : List Char) : Option (Date × Time) :=
  match parseDateTimeSep ' ' s with
  | some r => some r
  | none => parseDateTimeSep 'T' s

/-! ### Errors -/

/-- `ExcelErrorKind` (formualizer-common error.rs 20-40). -/
inductive Kind
  | null | ref | name | value | div | na | num | error | nimpl | spill | «calc» | circ | cancelled
deriving DecidableEq, Repr

/-- `Display` (error.rs 42-60). -/
def Kind.text : Kind → List Char
  | null => ['#','N','U','L','L','!']
  | ref => ['#','R','E','F','!']
  | name => ['#','N','A','M','E','?']
  | value => ['#','V','A','L','U','E','!']
  | div => ['#','D','I','V','/','0','!']
  | na => ['#','N','/','A']
  | num => ['#','N','U','M','!']
  | error => ['#','E','R','R','O','R','!']
  | nimpl => ['#','N','/','I','M','P','L','!']
  | spill => ['#','S','P','I','L','L','!']
  | .calc => ['#','C','A','L','C','!']
  | circ => ['#','C','I','R','C','!']
  | cancelled => ['#','C','A','N','C','E','L','L','E','D','!']

def lower (c : Char) : Char := if 65 ≤ c.toNat ∧ c.toNat ≤ 90 then Char.ofNat (c.toNat + 32) else c

/-- `ExcelErrorKind::try_parse` (error.rs 63-80); the blanks trimmed there are left out. -/
def Kind.parse (s : List Char) : Option Kind :=
  let l := s.map lower
  if l = ['#','n','u','l','l','!'] then some null
  else if l = ['#','r','e','f','!'] then some ref
  else if l = ['#','n','a','m','e','?'] then some name
  else if l = ['#','v','a','l','u','e','!'] then some value
  else if l = ['#','d','i','v','/','0','!'] then some div
  else if l = ['#','n','/','a'] then some na
  else if l = ['#','n','u','m','!'] then some num
  else if l = ['#','e','r','r','o','r','!'] then some error
  else if l = ['#','n','/','i','m','p','l','!'] then some nimpl
  else if l = ['#','s','p','i','l','l','!'] then some spill
  else if l = ['#','c','a','l','c','!'] then some .calc
  else if l = ['#','c','i','r','c','!'] then some circ
  else if l = ['#','c','a','n','c','e','l','l','e','d','!'] then some cancelled
  else none

/-- An error with its message; the other details, which are lost likewise, are left out. -/
structure Err where
  kind : Kind
  message : Option (List Char)
deriving DecidableEq, Repr

/-- `ExcelError::from_error_string` (error.rs 316-323). -/
def Err.ofText (s : List Char) : Err := match Kind.parse s with
  | some k => ⟨k, none⟩
  | none => ⟨.error, some ("Unknown error code: ".toList ++ s)⟩

/-! ### Values -/

/-- A float: finite ones by their value. -/
inductive Flt
  | fin (q : Rat)
  | inf (negative : Bool)
  | nan
deriving DecidableEq, Repr

/-- `LiteralValue`; a duration in nanoseconds. -/
inductive Lit
  | int (i : Int)
  | num (n : Flt)
  | text (s : List Char)
  | bool (b : Bool)
  | empty
  | date (d : Date)
  | dateTime (d : Date) (t : Time)
  | time (t : Time)
  | duration (ns : Int)
  | err (e : Err)
  | pending
  | array (rows : List (List Lit))
deriving Repr

/-- `JsonValue` (json.rs 127-142). -/
inductive JVal
  | int (i : Int)
  | num (n : Flt)
  | text (s : List Char)
  | bool (b : Bool)
  | empty
  | date (s : List Char)
  | dateTime (s : List Char)
  | time (s : List Char)
  | duration (secs : Int)
  | err (s : List Char)
  | pending
  | array (rows : List (List JVal))
deriving Repr

mutual
/-- `literal_to_json` (json.rs 580-600). `num_seconds` cuts toward zero. -/
def toJson : Lit → JVal
  | .int i => .int i
  | .num n => .num n
  | .text s => .text s
  | .bool b => .bool b
  | .empty => .empty
  | .array rows => .array (rowsJson rows)
  | .date d => .date d.text
  | .dateTime d t => .dateTime (d.text ++ ' ' :: t.text)
  | .time t => .time t.text
  | .duration ns => .duration (ns.tdiv 1000000000)
  | .err e => .err e.kind.text
  | .pending => .pending
def rowJson : List Lit → List JVal
  | [] => []
  | v :: vs => toJson v :: rowJson vs
def rowsJson : List (List Lit) → List (List JVal)
  | [] => []
  | r :: rs => rowJson r :: rowsJson rs
end

/-- What becomes of a text that is no date: an error if strict (`none`), else text (json.rs 625-631). -/
def invalid (strict : Bool) (s : List Char) : Option Lit := if strict then none else some (.text s)

mutual
/-- `json_to_literal` (json.rs 602-665). `none`: the read fails. -/
def ofJson (strict : Bool) : JVal → Option Lit
  | .int i => some (.int i)
  | .num n => some (.num n)
  | .text s => some (.text s)
  | .bool b => some (.bool b)
  | .empty => some .empty
  | .array rows => (rowsOf strict rows).map .array
  | .date s => match parseDate s with
    | some d => some (.date d)
    | none => invalid strict s
  | .dateTime s => match parseDateTime s with
    | some p => some (.dateTime p.1 p.2)
    | none => invalid strict s
  | .time s => match parseTime s with
    | some t => some (.time t)
    | none => invalid strict s
  | .duration secs => some (.duration (secs * 1000000000))
  | .err s => some (.err (Err.ofText s))
  | .pending => some .pending
def rowOf (strict : Bool) : List JVal → Option (List Lit)
  | [] => some []
  | v :: vs => match ofJson strict v with
    | none => none
    | some l => (rowOf strict vs).map (l :: ·)
def rowsOf (strict : Bool) : List (List JVal) → Option (List (List Lit))
  | [] => some []
  | r :: rs => match rowOf strict r with
    | none => none
    | some l => (rowsOf strict rs).map (l :: ·)
end

mutual
/-- The tree through `serde_json` and back (`to_string_pretty`, `from_slice`): a float that is not finite is written as
`null`, which is not read as a float. -/
def serde : JVal → Option JVal
  | .num (.fin q) => some (.num (.fin q))
  | .num _ => none
  | .array rows => (serdeRows rows).map .array
  | v => some v
def serdeRow : List JVal → Option (List JVal)
  | [] => some []
  | v :: vs => match serde v with
    | none => none
    | some l => (serdeRow vs).map (l :: ·)
def serdeRows : List (List JVal) → Option (List (List JVal))
  | [] => some []
  | r :: rs => match serdeRow r with
    | none => none
    | some l => (serdeRows rs).map (l :: ·)
end

/-- A value saved to a file and read from it again. -/
def saved (strict : Bool) (v : Lit) : Option Lit := match serde (toJson v) with
  | none => none
  | some j => ofJson strict j

/-! ### Cells of a sheet -/

/-- An entry of the list of cells (json.rs 108-118): where it stands, and its data. -/
structure Entry (D : Type) where
  pos : Nat × Nat
  data : D
deriving DecidableEq, Repr

/-- `write_cell` (json.rs 472-498): the first entry of this place is replaced, otherwise one is appended. -/
def write {D : Type} : List (Entry D) → Nat × Nat → D → List (Entry D)
  | [], p, d => [⟨p, d⟩]
  | e :: es, p, d => if e.pos = p then ⟨p, d⟩ :: es else e :: write es p d

/-- `write_range` (json.rs 500-509). -/
def writeAll {D : Type} (cells : List (Entry D)) : List ((Nat × Nat) × D) → List (Entry D)
  | [] => cells
  | (p, d) :: ws => writeAll (write cells p d) ws

def inside (a b p : Nat × Nat) : Bool := decide (a.1 ≤ p.1 ∧ p.1 ≤ b.1 ∧ a.2 ≤ p.2 ∧ p.2 ≤ b.2)

/-- `clear_range` (json.rs 511-523). -/
def clear {D : Type} (cells : List (Entry D)) (a b : Nat × Nat) : List (Entry D) :=
  cells.filter fun e => !inside a b e.pos

/-- The map built by `to_sheet_data` (json.rs 236-254) at one place: a later entry replaces an earlier one. -/
def read {D : Type} : List (Entry D) → Nat × Nat → Option D
  | [], _ => none
  | e :: es, p => match read es p with
    | some d => some d
    | none => if e.pos = p then some e.data else none

/-- `read_range` (json.rs 408-440) at one place. -/
def readRange {D : Type} (cells : List (Entry D)) (a b p : Nat × Nat) : Option D :=
  read (cells.filter fun e => inside a b e.pos) p

/-! ### Sheets -/

/-- The workbook: sheets by name (`BTreeMap`, seen as a partial function). -/
def Book (S : Type) : Type := List Char → Option S

/-- `create_sheet` (json.rs 525-528). -/
def create {S : Type} (b : Book S) (n : List Char) (dflt : S) : Book S := fun m =>
  if m = n then (match b n with
    | some s => some s
    | none => some dflt) else b m

/-- `delete_sheet` (json.rs 530-533). -/
def delete {S : Type} (b : Book S) (n : List Char) : Book S := fun m => if m = n then none else b m

/-- `rename_sheet` (json.rs 535-540). -/
def rename {S : Type} (b : Book S) (old new : List Char) : Book S := match b old with
  | none => b
  | some s => fun m => if m = new then some s else delete b old m

/-! ### Defined names -/

/-- A name with its scope (`none`: the workbook) and what it stands for. -/
structure Named (A : Type) where
  name : List Char
  scope : Option (List Char)
  address : A
deriving DecidableEq, Repr

/-- The names of the sheets not met before (json.rs 204-228). -/
def migrateFrom {A : Type} : List (Named A) → List (List Char × Option (List Char)) → List (Named A)
  | [], _ => []
  | n :: ns, seen =>
    if (n.name, n.scope) ∈ seen then migrateFrom ns seen
    else n :: migrateFrom ns ((n.name, n.scope) :: seen)

/-- `migrate_legacy_named_ranges` (json.rs 196-229); `legacy`: the names of all sheets, in order. -/
def migrate {A : Type} (defined legacy : List (Named A)) : List (Named A) :=
  if defined ≠ [] then defined else migrateFrom legacy []

/-! ### Loading into the engine -/

/-- A cell of the file, its value already read. -/
structure Cell (V : Type) where
  row : Nat
  col : Nat
  value : Option V
  formula : Option (List Char)
deriving DecidableEq, Repr

/-- The rectangle: declared, or the largest row and column (json.rs 711-723). -/
def dims {V : Type} (declared : Option (Nat × Nat)) (cells : List (Cell V)) : Nat × Nat := match declared with
  | some d => d
  | none => cells.foldl (fun m c => (if c.row > m.1 then c.row else m.1, if c.col > m.2 then c.col else m.2)) (0, 0)

/-- The last entry of a place (`cell_map`, json.rs 783-786). -/
def lastAt {V : Type} : List (Cell V) → Nat → Nat → Option (Cell V)
  | [], _, _ => none
  | c :: cs, r, k => match lastAt cs r k with
    | some d => some d
    | none => if c.row = r ∧ c.col = k then some c else none

/-- The dense path (json.rs 776-806): the value at row `r`, column `k`, both from 1. -/
def dense {V : Type} (d : Nat × Nat) (cells : List (Cell V)) (r k : Nat) : Option V :=
  if 1 ≤ r ∧ r ≤ d.1 ∧ 1 ≤ k ∧ k ≤ d.2 then
    match lastAt cells r k with
    | some c => c.value
    | none => none
  else none

/-- The sparse path (json.rs 742-773): cells with a formula are skipped; `set_sparse_overlay_value` grows the sheet
(arrow_store/mod.rs 3551-3576), so the rectangle has no say. -/
def sparse {V : Type} : List (Cell V) → Nat → Nat → Option V
  | [], _, _ => none
  | c :: cs, r, k => match sparse cs r k with
    | some v => some v
    | none => if c.formula = none ∧ c.row - 1 + 1 = r ∧ c.col - 1 + 1 = k then c.value else none

/-- `WorkbookLoadLimits`. -/
structure Limits where
  maxRows : Nat
  maxCols : Nat
  maxLogical : Nat
  sparseThreshold : Nat
  maxRatio : Nat

/-- `use_sparse_initial_ingest` (load_limits.rs 4-21); the saturation of the product at 2^64 is left out, as the rectangle
is below it. -/
def useSparse (rows cols populated : Nat) (l : Limits) : Bool :=
  if rows = 0 ∨ cols = 0 then false
  else decide (rows * cols > max populated 1 * l.maxRatio) &&
    (decide (rows * cols ≥ l.sparseThreshold) || decide (rows * cols > l.maxLogical))

/-- `enforce_sheet_dimension_limits` (load_limits.rs 23-57). -/
def dimsOk (rows cols : Nat) (l : Limits) : Bool :=
  if rows = 0 ∨ cols = 0 then true
  else if rows > l.maxRows then false
  else if cols > l.maxCols then false
  else true

/-- `enforce_sheet_load_limits` (load_limits.rs 59-84). -/
def loadOk (rows cols populated : Nat) (l : Limits) : Bool :=
  dimsOk rows cols l &&
    (if !useSparse rows cols populated l && decide (rows * cols > l.maxLogical) then false else true)

/-- The values of a loaded sheet (json.rs 724-807); `none`: refused. -/
def load {V : Type} (declared : Option (Nat × Nat)) (cells : List (Cell V)) (l : Limits) :
    Option (Nat → Nat → Option V) :=
  let d := dims declared cells
  if loadOk d.1 d.2 cells.length l then
    some (if useSparse d.1 d.2 cells.length l then sparse cells else dense d cells)
  else none

end Verif.Json
