import Mathlib.Data.Rat.Defs
import Mathlib.Algebra.Order.Ring.Rat

/-!
# The contract of a port: types, constraints and defaults

Model of `/repo/crates/formualizer-sheetport/src`: `validation.rs` 41-403 (validation) and
412-493 (coercion to the declared type), `runtime.rs` 614-626 (`read_port_value`),
1316-1400 (defaults and normalisation), `value.rs` 43-97 (`is_empty`), `binding.rs` 375-413
(numbers among the defaults).

Simplified: numbers are rationals (finite); names are numbers; maps are lists of pairs
with distinct keys; the list of violations is replaced by whether it is empty. Serials of
dates, the printing of values and regular expressions are parameters.
-/

namespace Verif.Contract

/-- `LiteralValue`; `err` stands for errors, arrays and pending values. -/
inductive Lit where
  | empty
  | text (s : List Char)
  | num (q : Rat)
  | int (i : Int)
  | bool (b : Bool)
  | date (d : Int)
  | datetime (d : Int)
  | time (t : Int)
  | dur (t : Int)
  | err (n : Nat)
deriving DecidableEq

/-- `ValueType`. -/
inductive Ty where
  | string
  | number
  | integer
  | boolean
  | date
  | datetime
deriving DecidableEq

/-- `serde_json::Value` of scalars: whole numbers and floating point numbers differ. -/
inductive Json where
  | str (s : List Char)
  | int (i : Int)
  | flt (q : Rat)
  | bool (b : Bool)
deriving DecidableEq

/-- `Constraints`: manifest.rs 672-688 of sheetport-spec; the pattern as the texts it accepts. -/
structure Limits where
  min : Option Rat := none
  max : Option Rat := none
  enum : Option (List Json) := none
  pattern : Option (List Char → Bool) := none
  nullable : Option Bool := none

/-- What is taken from other crates: `i as f64`, serials, printing. -/
structure Env where
  float : Int → Rat
  dateSerial : Int → Rat
  datetimeSerial : Int → Rat
  timeSerial : Int → Rat
  durSerial : Int → Rat
  toDate : Rat → Option Int
  toDatetime : Rat → Option Int
  numText : Rat → List Char
  intText : Int → List Char
  boolText : Bool → List Char
  dateText : Int → List Char
  datetimeText : Int → List Char
  dayOf : Int → Int

/-- `f64::trunc`. -/
def trunc (q : Rat) : Int := if q < 0 then q.ceil else q.floor

/-- `(n - n.trunc()).abs() < f64::EPSILON`: validation.rs 295. -/
def whole (q : Rat) : Bool := |q - trunc q| < 1 / 2 ^ 52

/-- `ensure_type`: validation.rs 277-320. -/
def hasType : Ty → Lit → Bool
  | .string, .text _ => true
  | .number, .num _ => true
  | .number, .int _ => true
  | .integer, .int _ => true
  | .integer, .num q => whole q
  | .boolean, .bool _ => true
  | .date, .date _ => true
  | .date, .datetime _ => true
  | .datetime, .datetime _ => true
  | _, _ => false

/-- `to_f64`: validation.rs 368-374. -/
def toNum (E : Env) : Lit → Option Rat
  | .num q => some q
  | .int i => some (E.float i)
  | _ => none

/-- `to_string_value`: validation.rs 376-387. -/
def toText (E : Env) : Ty → Lit → Option (List Char)
  | _, .text s => some s
  | _, .num q => some (E.numText q)
  | _, .int i => some (E.intText i)
  | _, .bool b => some (E.boolText b)
  | .date, .date d => some (E.dateText d)
  | .date, .datetime d => some (E.dateText (E.dayOf d))
  | .datetime, .datetime d => some (E.datetimeText d)
  | _, _ => none

/-- `literal_to_json`: validation.rs 389-399. -/
def toJson (E : Env) : Lit → Option Json
  | .text s => some (.str s)
  | .num q => some (.flt q)
  | .int i => some (.int i)
  | .bool b => some (.bool b)
  | .date d => some (.str (E.dateText d))
  | .datetime d => some (.str (E.datetimeText d))
  | _ => none

/-- `enforce_constraints`: validation.rs 322-366. -/
def inLimits (E : Env) (ty : Ty) (L : Limits) (v : Lit) : Bool :=
  (match L.min with
    | none => true
    | some a => match toNum E v with | none => false | some q => ¬(q < a)) &&
  (match L.max with
    | none => true
    | some b => match toNum E v with | none => false | some q => ¬(q > b)) &&
  (match L.pattern with
    | none => true
    | some p => match toText E ty v with | none => false | some s => p s) &&
  (match L.enum with
    | none => true
    | some l => match toJson E v with | none => false | some j => l.contains j)

/-- `validate_literal`: validation.rs 240-275. -/
def checkLit (E : Env) (ty : Ty) (L : Option Limits) (v : Lit) : Bool :=
  if v = .empty then (L.bind (·.nullable)).getD false
  else if hasType ty v = false then false
  else match L with
    | none => true
    | some L => inLimits E ty L v

/-- A field of a record, a column of a table. -/
structure Field where
  name : Nat
  ty : Ty
  limits : Option Limits := none

/-- `BoundPort`. -/
inductive Kind where
  | scalar (ty : Ty)
  | record (fields : List Field)
  | range (ty : Ty)
  | table (columns : List Field)

/-- `PortBinding`. -/
structure Binding where
  required : Bool
  limits : Option Limits
  kind : Kind

/-- `PortValue`. -/
inductive Value where
  | scalar (v : Lit)
  | record (m : List (Nat × Lit))
  | range (g : List (List Lit))
  | table (rows : List (List (Nat × Lit)))

/-- `PortValue::is_empty`: value.rs 43-58, 72-74, 92-96. -/
def Value.isEmpty : Value → Bool
  | .scalar v => v = .empty
  | .record m => m.all fun p => p.2 = .empty
  | .range g => g.all fun row => row.all fun v => v = .empty
  | .table rows => rows.all fun row => row.all fun p => p.2 = .empty

/-- `validate_table_row`: validation.rs 202-238. -/
def checkRow (E : Env) (L : Option Limits) (columns : List Field) (row : List (Nat × Lit)) : Bool :=
  (row.all fun p => columns.any fun c => c.name == p.1) &&
  columns.all fun c => match row.lookup c.name with
    | some v => checkLit E c.ty L v
    | none => false

/-- `validate_record` when all fields are expected: validation.rs 105-125. -/
def checkFull (E : Env) (fields : List Field) (m : List (Nat × Lit)) : Bool :=
  fields.all fun f => match m.lookup f.name with
    | some v => checkLit E f.ty f.limits v
    | none => false

/-- `validate_record` for some of the fields: validation.rs 126-147. -/
def checkPartial (E : Env) (fields : List Field) (m : List (Nat × Lit)) : Bool :=
  m.all fun p => match fields.find? fun f => f.name == p.1 with
    | some f => checkLit E f.ty f.limits p.2
    | none => false

/-- `validate_port_value`: validation.rs 41-76; `full` is `ValidationScope::Full`. -/
def validate (E : Env) (B : Binding) (full : Bool) (x : Value) : Bool :=
  if B.required = false ∧ x.isEmpty = true then true
  else match B.kind, x with
    | .scalar ty, .scalar v => checkLit E ty B.limits v
    | .record fields, .record m => if full then checkFull E fields m else checkPartial E fields m
    | .range ty, .range g => g.all fun row => row.all fun v => checkLit E ty B.limits v
    | .table columns, .table rows => rows.all fun row => checkRow E B.limits columns row
    | _, _ => false

/-- `normalize_literal`: runtime.rs 1324-1330. -/
def norm (E : Env) : Lit → Lit
  | .int i => .num (E.float i)
  | v => v

/-- Every literal of a value. -/
def Value.map (f : Lit → Lit) : Value → Value
  | .scalar v => .scalar (f v)
  | .record m => .record (m.map fun p => (p.1, f p.2))
  | .range g => .range (g.map fun row => row.map f)
  | .table rows => .table (rows.map fun row => row.map fun p => (p.1, f p.2))

/-- `entry(k).or_insert(Empty)`, replaced if empty: runtime.rs 1372-1379. -/
def fill (m : List (Nat × Lit)) (d : Nat × Lit) : List (Nat × Lit) :=
  match m.lookup d.1 with
  | none => m ++ [d]
  | some v => if v = .empty then m.map fun p => if p.1 = d.1 then d else p else m

/-- `merge_with_default`: runtime.rs 1364-1400. -/
def merge : Value → Value → Value
  | .scalar v, .scalar d => if v = .empty then .scalar d else .scalar v
  | .record m, .record ds => .record (ds.foldl fill m)
  | .range g, .range d => if (Value.range g).isEmpty = true then .range d else .range g
  | .table t, .table d => if (Value.table t).isEmpty = true then .table d else .table t
  | x, _ => x

/-- `apply_defaults`: runtime.rs 1316-1322. -/
def applyDefault (E : Env) (dflt : Option Value) (x : Value) : Value :=
  match dflt with
  | some d => (merge x d).map (norm E)
  | none => x.map (norm E)

/-- `coerce_literal_to_declared`: validation.rs 458-493. -/
def coerce (E : Env) : Ty → Lit → Lit
  | .number, .date d => .num (E.dateSerial d)
  | .number, .datetime d => .num (E.datetimeSerial d)
  | .number, .time t => .num (E.timeSerial t)
  | .number, .dur t => .num (E.durSerial t)
  | .integer, .date d => .num (E.dateSerial d)
  | .integer, .datetime d => .num (E.datetimeSerial d)
  | .integer, .time t => .num (E.timeSerial t)
  | .integer, .dur t => .num (E.durSerial t)
  | .date, .num q => match E.toDate q with | some d => .date d | none => .num q
  | .datetime, .num q => match E.toDatetime q with | some d => .datetime d | none => .num q
  | _, v => v

/-- The entries of a map, each coerced to the type declared under its name:
validation.rs 421-431, 441-453. -/
def coerceMap (E : Env) (fields : List Field) (m : List (Nat × Lit)) : List (Nat × Lit) :=
  m.map fun p => match fields.find? fun f => f.name == p.1 with
    | some f => (p.1, coerce E f.ty p.2)
    | none => p

/-- `coerce_port_value_to_declared`: validation.rs 412-456. -/
def coerceTo (E : Env) (k : Kind) (x : Value) : Value :=
  match k, x with
  | .scalar ty, .scalar v => .scalar (coerce E ty v)
  | .record fields, .record m => .record (coerceMap E fields m)
  | .range ty, .range g => .range (g.map fun row => row.map (coerce E ty))
  | .table columns, .table rows => .table (rows.map (coerceMap E columns))
  | _, x => x

/-- The value before it is validated: runtime.rs 615-621. -/
def present (E : Env) (B : Binding) (dflt : Option Value) (raw : Value) : Value :=
  coerceTo E B.kind (applyDefault E dflt raw)

/-- `read_port_value` after the cells are read: runtime.rs 614-626. -/
def read (E : Env) (B : Binding) (dflt : Option Value) (raw : Value) : Option Value :=
  if validate E B true (present E B dflt raw) = true then some (present E B dflt raw) else none

/-- Whether an update of a port is accepted: runtime.rs 226-234. -/
def accepts (E : Env) (B : Binding) (x : Value) : Bool :=
  validate E B (match B.kind with | .record _ => false | _ => true) x

/-- `literal_from_json` for whole numbers and floating point numbers: binding.rs 387-413. -/
def defaultNum (E : Env) (ty : Ty) : Json → Option Lit
  | .int i => if ty = .number then some (.num (E.float i)) else if ty = .integer then some (.int i) else none
  | .flt q => if ty = .number then some (.num q) else if ty = .integer ∧ whole q = true then some (.int (trunc q)) else none
  | _ => none

end Verif.Contract
