/-
The store for values: numbers, texts, errors and arrays are kept in lists, and everything else refers to them by words of
32 bits.

Source: /repo/crates/formualizer-eval/src/engine/arena/data_store.rs, lines 88-305 (`store_value`, `retrieve_value`) and
845-849 (`store_error`), value_ref.rs, scalar.rs, string_interner.rs, error_arena.rs, array.rs.

A panic is `none`.  The lookup tables of the interners (hash maps from the content to the index) are searches in the lists
here: the maps are filled together with the lists and never otherwise.  Lengths are not cut to 32 bits where an index is
taken from them, because the index must pass the test for 28 bits next, and a panic ends the run.
-/
import Mathlib.Data.List.Forall2

namespace Verif.Arena

/-- The types and functions of the `chrono` crate that are used, and the conversions to serial numbers.  They are parameters. -/
structure Chrono (F : Type) where
  DateTime : Type
  Date : Type
  Time : Type
  Duration : Type
  midnight : Date → DateTime
  serial : DateTime → F
  fraction : Time → F
  ofSerial : F → DateTime
  seconds : Duration → Int
  ofSeconds : Int → Duration

/-- `ExcelError` (error.rs 248-253).  `rest` stands for the context and the payload. -/
structure Err where
  kind : Nat
  message : Option String
  rest : Option String
deriving DecidableEq

/-- `LiteralValue` (value.rs 33-47). -/
inductive Lit {F : Type} (C : Chrono F) where
  | int (i : Int)
  | number (f : F)
  | text (s : String)
  | bool (b : Bool)
  | array (rows : List (List (Lit C)))
  | date (d : C.Date)
  | dateTime (d : C.DateTime)
  | time (t : C.Time)
  | duration (d : C.Duration)
  | empty
  | pending
  | error (e : Err)

/-- `ValueRef` (value_ref.rs 48-51). -/
abbrev VRef := BitVec 32

/-- The arenas of `DataStore` (data_store.rs 16-32), without the one for formulas. -/
structure Store (F : Type) where
  floats : List F
  ints : List Int
  strings : List String
  errs : List (Nat × Option Nat)
  messages : List String
  dims : List (Nat × Nat)
  elems : List VRef
  offsets : List Nat

/-- data_store.rs 35-43, `DataStore::new` (array.rs 34-40). -/
def Store.new (F : Type) : Store F := ⟨[], [], [], [], [], [], [], [0]⟩

/-! ### References (value_ref.rs) -/

/-- value_ref.rs 56, `PAYLOAD_MASK`. -/
def payloadMask : BitVec 32 := 0x0FFFFFFF#32

/-- value_ref.rs 78-81, `value_type`, as the number of the type; the numbers from 12 on count as `Empty`. -/
def typeBits (r : VRef) : Nat := ((r &&& 0xF0000000#32) >>> 28).toNat

/-- value_ref.rs 87-89, `payload`. -/
def payload (r : VRef) : BitVec 32 := r &&& payloadMask

/-- value_ref.rs 138-232: the constructors with an index, which assert that it fits. -/
def mkRef (type : Nat) (index : BitVec 32) : Option VRef :=
  if index ≤ payloadMask then some ((BitVec.ofNat 32 type) <<< 28 ||| index) else none

/-- value_ref.rs 94-104, `small_int`. -/
def smallInt (v : BitVec 32) : Option VRef :=
  if -(2 : Int) ^ 27 ≤ v.toInt ∧ v.toInt ≤ 2 ^ 27 - 1 then some ((1#32) <<< 28 ||| (v &&& payloadMask)) else none

/-- value_ref.rs 107-121, `as_small_int`. -/
def asSmallInt (r : VRef) : Int :=
  if payload r &&& (1#32 <<< 27) ≠ 0#32 then (payload r ||| ~~~payloadMask).toInt else (payload r).toInt

/-! ### Scalars, texts, errors, arrays -/

/-- scalar.rs 24-29, `ScalarRef::integer`: bit 31 marks integers. -/
def integerRef (index : Nat) : BitVec 32 := BitVec.ofNat 32 index ||| (1#32 <<< 31)

/-- string_interner.rs 61-82, `intern`. -/
def intern (l : List String) (s : String) : List String × Nat :=
  match l.findIdx? (· = s) with
  | some i => (l, i)
  | none => (l ++ [s], l.length)

/-- error_arena.rs 58-83, `ErrorArena::insert`. -/
def insertErr {F : Type} (st : Store F) (e : Err) : Store F × Nat :=
  let m : List String × Option Nat :=
    match e.message with
    | none => (st.messages, none)
    | some msg => let x := intern st.messages msg; (x.1, some x.2)
  match st.errs.findIdx? (· = (e.kind, m.2)) with
  | some i => ({ st with messages := m.1 }, i)
  | none => ({ st with messages := m.1, errs := st.errs ++ [(e.kind, m.2)] }, st.errs.length)

/-- array.rs 54-81, `ArrayArena::insert`; the product of the dimensions must fit into 32 bits. -/
def insertArray {F : Type} (st : Store F) (rows cols : Nat) (elements : List VRef) : Option (Store F × Nat) :=
  if rows * cols < 2 ^ 32 ∧ elements.length = rows * cols then
    some ({ st with
      dims := st.dims ++ [(rows, cols)]
      elems := st.elems ++ elements
      offsets := st.offsets ++ [(st.elems ++ elements).length % 2 ^ 32] }, st.dims.length)
  else none

/-- array.rs 139-155, the rows of `get_2d`. -/
def cut {α : Type} (l : List α) (rows cols : Nat) : List (List α) :=
  if rows = 0 ∨ cols = 0 then [] else (List.range rows).map fun r => (l.drop (r * cols)).take cols

/-- array.rs 113-124 and 139-155, `get_2d`.  The outer `none` is a panic, the inner one a missing array. -/
def get2d {F : Type} (st : Store F) (k : Nat) : Option (Option (List (List VRef))) :=
  match st.dims[k]? with
  | none => some none
  | some (rows, cols) =>
    match st.offsets[k]?, st.offsets[k + 1]? with
    | some a, some b =>
      if a ≤ b ∧ b ≤ st.elems.length then some (some (cut ((st.elems.take b).drop a) rows cols)) else none
    | _, _ => none

section
variable {F : Type} {C : Chrono F}

/-! ### `store_value` -/

/-- The result of a constructor of references. -/
def withRef (st : Store F) (r : Option VRef) : Option (Store F × VRef) := r.map fun r => (st, r)

mutual

/-- data_store.rs 88-175, `store_value`. -/
def store (st : Store F) : Lit C → Option (Store F × VRef)
  | .empty => some (st, 0#32)
  | .number f => withRef { st with floats := st.floats ++ [f] } (mkRef 3 (BitVec.ofNat 32 st.floats.length))
  | .text s => let x := intern st.strings s; withRef { st with strings := x.1 } (mkRef 4 (BitVec.ofNat 32 x.2))
  | .bool b => some (st, (5#32 <<< 28) ||| (if b then 1#32 else 0#32))
  | .error e => let x := insertErr st e; withRef x.1 (mkRef 6 (BitVec.ofNat 32 x.2))
  | .array rows =>
    match storeRows st rows with
    | none => none
    | some (st, elements) =>
      match insertArray st rows.length (rows.headD []).length elements with
      | none => none
      | some (st, k) => withRef st (mkRef 7 (BitVec.ofNat 32 k))
  | .dateTime d => withRef { st with floats := st.floats ++ [C.serial d] } (mkRef 8 (BitVec.ofNat 32 st.floats.length))
  | .date d => withRef { st with floats := st.floats ++ [C.serial (C.midnight d)] } (mkRef 8 (BitVec.ofNat 32 st.floats.length))
  | .time t => withRef { st with floats := st.floats ++ [C.fraction t] } (mkRef 8 (BitVec.ofNat 32 st.floats.length))
  | .duration d =>
    withRef { st with ints := st.ints ++ [C.seconds d] } (mkRef 9 (integerRef st.ints.length &&& 0x7FFFFFFF#32))
  | .int i =>
    match smallInt (BitVec.ofInt 32 i) with
    | some r => some (st, r)
    | none => withRef { st with ints := st.ints ++ [i] } (mkRef 2 (integerRef st.ints.length))
  | .pending => some (st, 10#32 <<< 28)

/-- data_store.rs 111-116: the elements of an array, row by row. -/
def storeRows (st : Store F) : List (List (Lit C)) → Option (Store F × List VRef)
  | [] => some (st, [])
  | row :: rows =>
    match storeRow st row with
    | none => none
    | some (st, r) =>
      match storeRows st rows with
      | none => none
      | some (st, rs) => some (st, r ++ rs)

/-- One row of an array. -/
def storeRow (st : Store F) : List (Lit C) → Option (Store F × List VRef)
  | [] => some (st, [])
  | v :: vs =>
    match store st v with
    | none => none
    | some (st, r) =>
      match storeRow st vs with
      | none => none
      | some (st, rs) => some (st, r :: rs)

end

/-- data_store.rs 45-57, `store_values_batch`: one after the other. -/
def storeBatch (st : Store F) (vs : List (Lit C)) : Option (Store F × List VRef) := storeRow st vs

/-! ### `retrieve_value` -/

/-- `ExcelError::new(ExcelErrorKind::Value)`. -/
def valueError : Lit C := .error ⟨3, none, none⟩

/-- error_arena.rs 86-99, `ErrorArena::get`: the context and the payload are not kept.  The outer `none` is a panic. -/
def getErr (st : Store F) (k : Nat) : Option (Option Err) :=
  match st.errs[k]? with
  | none => some none
  | some (kind, none) => some (some ⟨kind, none, none⟩)
  | some (kind, some id) => (st.messages[id]?).map fun m => some ⟨kind, some m, none⟩

/-- data_store.rs 178-305, `retrieve_value`.  `none` is a panic, or that the fuel, which the code does not have, is spent. -/
def retrieve (C : Chrono F) : Nat → Store F → VRef → Option (Lit C)
  | 0, _, _ => none
  | fuel + 1, st, r =>
    let idx := (payload r).toNat
    match typeBits r with
    | 1 => some (.int (asSmallInt r))
    | 2 => some (match st.ints[idx]? with | some i => .int i | none => valueError)
    | 3 => some (match st.floats[idx]? with | some f => .number f | none => valueError)
    | 4 => (st.strings[idx]?).map Lit.text
    | 5 => some (.bool (payload r &&& 1#32 ≠ 0#32))
    | 6 => (getErr st idx).map fun e => match e with | some e => .error e | none => valueError
    | 7 =>
      match get2d st idx with
      | none => none
      | some none => some valueError
      | some (some rows) => (rows.mapM fun row : List VRef => row.mapM (retrieve C fuel st)).map Lit.array
    | 8 => some (match st.floats[idx]? with | some f => .dateTime (C.ofSerial f) | none => valueError)
    | 9 => some (match st.ints[idx]? with | some i => .duration (C.ofSeconds i) | none => valueError)
    | 10 => some .pending
    | 11 => some valueError
    | _ => some .empty

end

end Verif.Arena
