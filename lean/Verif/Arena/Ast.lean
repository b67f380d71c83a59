/-
The store for formulas: nodes in one list, found again by their hash, with arguments and elements of arrays in lists of their
own.

Source: /repo/crates/formualizer-eval/src/engine/arena/ast.rs, lines 217-490, and data_store.rs, lines 307-314 and 382-842.

The hash functions are parameters: nothing is assumed about them.  Rows and columns are natural numbers, which the code keeps
in 32 bits.  Overflow of 16-bit products wraps, as in release builds.  A panic is `none`.  Metadata of nodes, tokens and the flag for volatile formulas are left out; the last two are
not stored by the code either.
-/
import Verif.Arena.ValueThms
import Mathlib.Data.List.ReduceOption

namespace Verif.Arena

/-- What is compared of table specifiers and external references without being looked into. -/
structure Ext3 where
  Spec : Type
  Kind : Type
  [specEq : DecidableEq Spec]
  [kindEq : DecidableEq Kind]

attribute [instance] Ext3.specEq Ext3.kindEq

variable {F : Type} {C : Chrono F} {E : Ext3}

/-- The bounds of a range and whether they are absolute: rows and columns of the start, then of the end. -/
structure Flags where
  startRow : Bool
  startCol : Bool
  endRow : Bool
  endCol : Bool
deriving DecidableEq

/-- `ReferenceType` (parser.rs 243 and following). -/
inductive RefT (E : Ext3) where
  | cell (sheet : Option String) (row col : Nat) (rowAbs colAbs : Bool)
  | range (sheet : Option String) (startRow startCol endRow endCol : Option Nat) (abs : Flags)
  | external (raw book sheet : String) (kind : E.Kind)
  | named (name : String)
  | table (name : String) (spec : Option E.Spec)
  | cell3D (first last : String) (row col : Nat) (rowAbs colAbs : Bool)
  | range3D (first last : String) (startRow startCol endRow endCol : Option Nat) (abs : Flags)

/-- `ASTNodeType` (parser.rs 1644 and following). -/
inductive Ast {F : Type} (C : Chrono F) (E : Ext3) where
  | lit (v : Lit C)
  | omitted
  | ref (original : String) (r : RefT E)
  | unary (op : String) (e : Ast C E)
  | binary (op : String) (l r : Ast C E)
  | func (name : String) (args : List (Ast C E))
  | array (rows : List (List (Ast C E)))
  | call (callee : Ast C E) (args : List (Ast C E))

/-- ast.rs 79-83, `SheetKey`. -/
inductive SheetKey where
  | id (i : Nat)
  | name (s : Nat)
deriving DecidableEq

/-- ast.rs 86-137, `CompactRefType`. -/
inductive CRef (E : Ext3) where
  | cell (sheet : Option SheetKey) (row col : Nat) (rowAbs colAbs : Bool)
  | range (sheet : Option SheetKey) (startRow startCol endRow endCol : Nat) (abs : Flags)
  | external (raw book sheet : Nat) (kind : E.Kind)
  | named (name : Nat)
  | table (name : Nat) (spec : Option Nat)
  | cell3D (first last : Nat) (row col : Nat) (rowAbs colAbs : Bool)
  | range3D (first last : Nat) (startRow startCol endRow endCol : Nat) (abs : Flags)
deriving DecidableEq

/-- ast.rs 39-76, `AstNodeData`. -/
inductive Node (E : Ext3) where
  | lit (v : VRef)
  | omitted
  | ref (original : Nat) (r : CRef E)
  | unary (op expr : Nat)
  | binary (op left right : Nat)
  | func (name offset count : Nat)
  | array (rows cols offset : Nat)
deriving DecidableEq

/-- ast.rs 217-241, `AstArena`, together with the store for values.  The hash maps are functions. -/
structure Asts (F : Type) (E : Ext3) where
  values : Store F
  nodes : List (Node E)
  dedup : Nat → Option Nat
  args : List Nat
  elems : List Nat
  strings : List String
  specs : List E.Spec
  specDedup : Nat → Option Nat

/-- ast.rs 244-255, `AstArena::new`. -/
def Asts.new (F : Type) (E : Ext3) : Asts F E := ⟨Store.new F, [], fun _ => none, [], [], [], [], fun _ => none⟩

/-- The two hash functions. -/
structure Hashes (E : Ext3) where
  node : Node E → Nat
  spec : E.Spec → Nat

/-- The sheet registry, as far as it is used: `get_id` and `name` (sheet_registry.rs 32-43). -/
structure Names where
  getId : String → Option Nat
  name : Nat → String

/-! ### Insertion -/

/-- ast.rs 295-313, `insert_entry`. -/
def insertNode (H : Hashes E) (a : Asts F E) (n : Node E) : Option (Asts F E × Nat) :=
  let fresh : Asts F E × Nat := ({ a with
    nodes := a.nodes ++ [n]
    dedup := fun h => if h = H.node n then some (a.nodes.length % 2 ^ 32) else a.dedup h }, a.nodes.length % 2 ^ 32)
  match a.dedup (H.node n) with
  | none => some fresh
  | some id =>
    match a.nodes[id]? with
    | none => none
    | some n' => if n' = n then some (a, id) else some fresh

/-- string_interner.rs 61-82 on the texts of the formulas. -/
def internStr (a : Asts F E) (s : String) : Asts F E × Nat :=
  let x := intern a.strings s
  ({ a with strings := x.1 }, x.2)

/-- ast.rs 461-481, `intern_table_specifier`. -/
def internSpec (H : Hashes E) (a : Asts F E) (s : E.Spec) : Asts F E × Nat :=
  let fresh : Asts F E × Nat := ({ a with
    specs := a.specs ++ [s]
    specDedup := fun h => if h = H.spec s then some (a.specs.length % 2 ^ 32) else a.specDedup h }, a.specs.length % 2 ^ 32)
  match a.specDedup (H.spec s) with
  | none => fresh
  | some id => if a.specs[id]? = some s then (a, id) else fresh

/-- data_store.rs 465-471 and 497-503: the sheet of a reference. -/
def internSheet (N : Names) (a : Asts F E) : Option String → Asts F E × Option SheetKey
  | none => (a, none)
  | some s =>
    match N.getId s with
    | some id => (a, some (.id id))
    | none => let x := internStr a s; (x.1, some (.name x.2))

/-- data_store.rs 452-585, `convert_reference_type`. -/
def convertRef (H : Hashes E) (N : Names) (a : Asts F E) : RefT E → Asts F E × CRef E
  | .cell sheet row col ra ca => let x := internSheet N a sheet; (x.1, .cell x.2 row col ra ca)
  | .range sheet sr sc er ec abs =>
    let x := internSheet N a sheet
    (x.1, .range x.2 (sr.getD 0) (sc.getD 0) (er.getD (2 ^ 32 - 1)) (ec.getD (2 ^ 32 - 1)) abs)
  | .external raw book sheet kind =>
    let x := internStr a raw
    let y := internStr x.1 book
    let z := internStr y.1 sheet
    (z.1, .external x.2 y.2 z.2 kind)
  | .named name => let x := internStr a name; (x.1, .named x.2)
  | .table name spec =>
    let x := internStr a name
    match spec with
    | none => (x.1, .table x.2 none)
    | some s => let y := internSpec H x.1 s; (y.1, .table x.2 (some y.2))
  | .cell3D first last row col ra ca =>
    let x := internStr a first
    let y := internStr x.1 last
    (y.1, .cell3D x.2 y.2 row col ra ca)
  | .range3D first last sr sc er ec abs =>
    let x := internStr a first
    let y := internStr x.1 last
    (y.1, .range3D x.2 y.2 (sr.getD 0) (sc.getD 0) (er.getD (2 ^ 32 - 1)) (ec.getD (2 ^ 32 - 1)) abs)

/-- The error for a call that is not of a name (data_store.rs 442-448). -/
def callError : Lit C := .error ⟨8, some "Immediate-invocation calls are not yet supported", none⟩

/-- data_store.rs 385-388 and ast.rs 316-318: a literal. -/
def convertLit (H : Hashes E) (a : Asts F E) (v : Lit C) : Option (Asts F E × Nat) :=
  match store a.values v with
  | none => none
  | some (s, r) => insertNode H { a with values := s } (.lit r)

mutual

/-- data_store.rs 383-450, `convert_ast_node`. -/
def convert (H : Hashes E) (N : Names) (a : Asts F E) : Ast C E → Option (Asts F E × Nat)
  | .lit v => convertLit H a v
  | .omitted => insertNode H a .omitted
  | .ref original r =>
    let x := convertRef H N a r
    let y := internStr x.1 original
    insertNode H y.1 (.ref y.2 x.2)
  | .unary op e =>
    match convert H N a e with
    | none => none
    | some (a, e) => let x := internStr a op; insertNode H x.1 (.unary x.2 e)
  | .binary op l r =>
    match convert H N a l with
    | none => none
    | some (a, l) =>
      match convert H N a r with
      | none => none
      | some (a, r) => let x := internStr a op; insertNode H x.1 (.binary x.2 l r)
  | .func name args =>
    match convertList H N a args with
    | none => none
    | some (a, ids) =>
      let x := internStr a name
      insertNode H { x.1 with args := x.1.args ++ ids } (.func x.2 (x.1.args.length % 2 ^ 32) (ids.length % 2 ^ 16))
  | .array rows =>
    match convertRows H N a rows with
    | none => none
    | some (a, ids) =>
      let r := rows.length % 2 ^ 16
      let c := (rows.headD []).length % 2 ^ 16
      if ids.length = r * c % 2 ^ 16 then
        insertNode H { a with elems := a.elems ++ ids } (.array r c (a.elems.length % 2 ^ 32))
      else none
  | .call _ _ => convertLit H a (callError (C := C))

/-- data_store.rs 413-417: the arguments of a function. -/
def convertList (H : Hashes E) (N : Names) (a : Asts F E) : List (Ast C E) → Option (Asts F E × List Nat)
  | [] => some (a, [])
  | e :: es =>
    match convert H N a e with
    | none => none
    | some (a, id) =>
      match convertList H N a es with
      | none => none
      | some (a, ids) => some (a, id :: ids)

/-- data_store.rs 428-432: the elements of an array. -/
def convertRows (H : Hashes E) (N : Names) (a : Asts F E) : List (List (Ast C E)) → Option (Asts F E × List Nat)
  | [] => some (a, [])
  | row :: rows =>
    match convertList H N a row with
    | none => none
    | some (a, ids) =>
      match convertRows H N a rows with
      | none => none
      | some (a, ids') => some (a, ids ++ ids')

end

/-! ### Reading back -/

/-- data_store.rs 690-696: the name of the sheet. -/
def readSheet (N : Names) (a : Asts F E) : Option SheetKey → Option (Option String)
  | none => some none
  | some (.id i) => some (some (N.name i))
  | some (.name s) => (a.strings[s]?).map some

/-- The sentinel for an open start. -/
def readStart (n : Nat) : Option Nat := if n = 0 then none else some n

/-- The sentinel for an open end. -/
def readEnd (n : Nat) : Option Nat := if n = 2 ^ 32 - 1 then none else some n

/-- data_store.rs 675-842, `reconstruct_reference_type`.  `none` is a panic. -/
def readRef (N : Names) (a : Asts F E) : CRef E → Option (RefT E)
  | .cell sheet row col ra ca => (readSheet N a sheet).map fun s => .cell s row col ra ca
  | .range sheet sr sc er ec abs =>
    (readSheet N a sheet).map fun s => .range s (readStart sr) (readStart sc) (readEnd er) (readEnd ec) abs
  | .external raw book sheet kind =>
    match a.strings[raw]?, a.strings[book]?, a.strings[sheet]? with
    | some raw, some book, some sheet => some (.external raw book sheet kind)
    | _, _, _ => none
  | .named name => (a.strings[name]?).map .named
  | .table name spec => (a.strings[name]?).map fun n => .table n (spec.bind fun id => a.specs[id]?)
  | .cell3D first last row col ra ca =>
    match a.strings[first]?, a.strings[last]? with
    | some f, some l => some (.cell3D f l row col ra ca)
    | _, _ => none
  | .range3D first last sr sc er ec abs =>
    match a.strings[first]?, a.strings[last]? with
    | some f, some l => some (.range3D f l (readStart sr) (readStart sc) (readEnd er) (readEnd ec) abs)
    | _, _ => none

/-- A part of a list, as `&v[start..end]`: `none` is a panic. -/
def slice (l : List Nat) (start count : Nat) : Option (List Nat) :=
  if start + count ≤ l.length then some ((l.drop start).take count) else none

/-- data_store.rs 588-672, `reconstruct_ast_node`.  The outer `none` is a panic, or that the fuel, which the code does not
have, is spent; the inner one is a node that is not there. -/
def rebuild (C : Chrono F) (N : Names) : Nat → Asts F E → Nat → Option (Option (Ast C E))
  | 0, _, _ => none
  | fuel + 1, a, id =>
    match a.nodes[id]? with
    | none => some none
    | some (.lit r) => (retrieve C fuel a.values r).map fun v => some (.lit v)
    | some .omitted => some (some .omitted)
    | some (.ref original r) =>
      match a.strings[original]?, readRef N a r with
      | some o, some r => some (some (.ref o r))
      | _, _ => none
    | some (.unary op e) =>
      match a.strings[op]?, rebuild C N fuel a e with
      | some op, some e => some (e.map (.unary op))
      | _, _ => none
    | some (.binary op l r) =>
      match a.strings[op]?, rebuild C N fuel a l with
      | some op, some (some l) =>
        match rebuild C N fuel a r with
        | some r => some (r.map (.binary op l))
        | none => none
      | some _, some none => some none
      | _, _ => none
    | some (.func name offset count) =>
      match a.strings[name]?, slice a.args offset count with
      | some name, some ids =>
        (ids.mapM (rebuild C N fuel a)).map fun es => some (.func name es.reduceOption)
      | _, _ => none
    | some (.array rows cols offset) =>
      match slice a.elems offset (rows * cols % 2 ^ 16) with
      | none => none
      | some ids =>
        ((List.range rows).mapM fun r =>
          (((List.range cols).filterMap fun c => ids[(r * cols + c) % 2 ^ 16]?).mapM (rebuild C N fuel a)).map List.reduceOption).map
            fun rows => some (.array rows)

end Verif.Arena
