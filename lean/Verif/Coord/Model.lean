import Verif.Util

/-
Model of `/repo/crates/formualizer-common/src/coord.rs`: packed coordinates.
Machine words are `BitVec 64` / `BitVec 32`, exactly as in the source.
`assert!` failures are the explicit result `Except.error CoordError.panic`.
-/

namespace Verif.Coord

/-- `u32`. -/
abbrev U32 := BitVec 32
/-- `u64`. -/
abbrev U64 := BitVec 64

/-- coord.rs 10-15: `ROW_BITS`, `COL_BITS`, `ROW_MAX`, `COL_MAX`. -/
def ROW_MAX : U32 := BitVec.ofNat 32 (2 ^ 20 - 1)
/-- coord.rs 13. -/
def COL_MAX : U32 := BitVec.ofNat 32 (2 ^ 14 - 1)
/-- coord.rs 17. -/
def ROW_SHIFT : Nat := 24
/-- coord.rs 18. -/
def COL_SHIFT : Nat := 10
/-- coord.rs 20. -/
def ROW_MASK : U64 := ROW_MAX.setWidth 64 <<< ROW_SHIFT
/-- coord.rs 21. -/
def COL_MASK : U64 := COL_MAX.setWidth 64 <<< COL_SHIFT
/-- coord.rs 22. -/
def RESERVED_HIGH_MASK : U64 := 0xFFFFF00000000000#64
/-- coord.rs 23. -/
def RESERVED_LOW_MASK : U64 := 0x3FF#64
/-- coord.rs 25. -/
def ROW_ABS_BIT : U64 := 1#64
/-- coord.rs 26. -/
def COL_ABS_BIT : U64 := 1#64 <<< 1
/-- coord.rs 27. -/
def RELATIVE_RESERVED_LOW_MASK : U64 := RESERVED_LOW_MASK &&& ~~~(ROW_ABS_BIT ||| COL_ABS_BIT)

/-- coord.rs 31-38 `CoordError`, plus `panic` for a failed `assert!`. -/
inductive CoordError where
  | rowOverflow (v : Int)
  | colOverflow (v : Int)
  | negativeRow (v : Int)
  | negativeCol (v : Int)
  | reservedBitsSet (bits : U64)
  | panic
deriving DecidableEq, Repr

/-- coord.rs 114-115 `struct Coord(u64)`. -/
structure Coord where
  raw : U64
deriving DecidableEq, Repr

namespace Coord

/-- coord.rs 118 `Coord::INVALID`. -/
def INVALID : Coord := ⟨BitVec.allOnes 64⟩

/-- coord.rs 120. -/
def RESERVED_MASK : U64 := RESERVED_HIGH_MASK ||| RESERVED_LOW_MASK

/-- coord.rs 126 the packing expression. -/
def pack (row col : U32) : U64 :=
  (row.setWidth 64 <<< ROW_SHIFT) ||| (col.setWidth 64 <<< COL_SHIFT)

/-- coord.rs 123-127 `Coord::new`. -/
def new (row col : U32) : Except CoordError Coord :=
  if ¬ row ≤ ROW_MAX then .error .panic
  else if ¬ col ≤ COL_MAX then .error .panic
  else .ok ⟨pack row col⟩

/-- `u32::saturating_sub(1)`. -/
def satPred (x : U32) : U32 := if x = 0#32 then 0#32 else x - 1#32

/-- coord.rs 131-135 `Coord::from_excel`. -/
def fromExcel (row col : U32) : Except CoordError Coord :=
  new (satPred row) (satPred col)

/-- coord.rs 138-146 `Coord::try_new`. -/
def tryNew (row col : U32) : Except CoordError Coord :=
  if ROW_MAX < row then .error (.rowOverflow row.toNat)
  else if COL_MAX < col then .error (.colOverflow col.toNat)
  else new row col

/-- coord.rs 149-157 `Coord::from_raw`. -/
def fromRaw (raw : U64) : Except CoordError Coord :=
  if raw = BitVec.allOnes 64 then .ok INVALID
  else if raw &&& RESERVED_MASK ≠ 0#64 then .error (.reservedBitsSet (raw &&& RESERVED_MASK))
  else .ok ⟨raw⟩

/-- coord.rs 160-162 `Coord::row`. -/
def row (c : Coord) : U32 := ((c.raw &&& ROW_MASK) >>> ROW_SHIFT).setWidth 32
/-- coord.rs 165-167 `Coord::col`. -/
def col (c : Coord) : U32 := ((c.raw &&& COL_MASK) >>> COL_SHIFT).setWidth 32
/-- coord.rs 170-172 `Coord::as_u64`. -/
def asU64 (c : Coord) : U64 := c.raw
/-- coord.rs 175-177 `Coord::is_valid`. -/
def isValid (c : Coord) : Bool := c.raw ≠ BitVec.allOnes 64
/-- coord.rs 181-183 `Coord::normalize`. -/
def normalize (c : Coord) : Coord := ⟨c.raw &&& ~~~RESERVED_MASK⟩

/-- coord.rs 218-231 `TryFrom<(i64, i64)>`; `as u32` keeps the low 32 bits. -/
def tryFromI64 (row col : Int) : Except CoordError Coord :=
  if row < 0 then .error (.negativeRow row)
  else if col < 0 then .error (.negativeCol col)
  else tryNew (BitVec.ofInt 32 row) (BitVec.ofInt 32 col)

end Coord

/-- coord.rs 245-246 `struct RelativeCoord(u64)`. -/
structure RelativeCoord where
  raw : U64
deriving DecidableEq, Repr

namespace RelativeCoord

/-- coord.rs 249. -/
def RESERVED_MASK : U64 := RESERVED_HIGH_MASK ||| RELATIVE_RESERVED_LOW_MASK

/-- coord.rs 252-263 `RelativeCoord::new`. -/
def new (row col : U32) (rowAbs colAbs : Bool) : Except CoordError RelativeCoord :=
  if ¬ row ≤ ROW_MAX then .error .panic
  else if ¬ col ≤ COL_MAX then .error .panic
  else
    let raw := Coord.pack row col
    let raw := if rowAbs then raw ||| ROW_ABS_BIT else raw
    let raw := if colAbs then raw ||| COL_ABS_BIT else raw
    .ok ⟨raw⟩

/-- coord.rs 265-273 `RelativeCoord::try_new`. -/
def tryNew (row col : U32) (rowAbs colAbs : Bool) : Except CoordError RelativeCoord :=
  if ROW_MAX < row then .error (.rowOverflow row.toNat)
  else if COL_MAX < col then .error (.colOverflow col.toNat)
  else new row col rowAbs colAbs

/-- coord.rs 275-280 `RelativeCoord::from_raw`. -/
def fromRaw (raw : U64) : Except CoordError RelativeCoord :=
  if raw &&& RESERVED_MASK ≠ 0#64 then .error (.reservedBitsSet (raw &&& RESERVED_MASK))
  else .ok ⟨raw⟩

/-- coord.rs 283-285. -/
def row (c : RelativeCoord) : U32 := ((c.raw &&& ROW_MASK) >>> ROW_SHIFT).setWidth 32
/-- coord.rs 288-290. -/
def col (c : RelativeCoord) : U32 := ((c.raw &&& COL_MASK) >>> COL_SHIFT).setWidth 32
/-- coord.rs 293-295. -/
def rowAbs (c : RelativeCoord) : Bool := c.raw &&& ROW_ABS_BIT ≠ 0#64
/-- coord.rs 298-300. -/
def colAbs (c : RelativeCoord) : Bool := c.raw &&& COL_ABS_BIT ≠ 0#64

/-- coord.rs 303-310. -/
def withRowAbs (c : RelativeCoord) (abs : Bool) : RelativeCoord :=
  if abs then ⟨c.raw ||| ROW_ABS_BIT⟩ else ⟨c.raw &&& ~~~ROW_ABS_BIT⟩
/-- coord.rs 313-320. -/
def withColAbs (c : RelativeCoord) (abs : Bool) : RelativeCoord :=
  if abs then ⟨c.raw ||| COL_ABS_BIT⟩ else ⟨c.raw &&& ~~~COL_ABS_BIT⟩

/-- coord.rs 324-328 `RelativeCoord::offset`. `as i32`, `+`, `as u32` are 32-bit two's complement;
in a debug build `i32` overflow panics, but `row() ≤ 2^20` so it can only overflow for
`drow > 2^31 - 2^20`; the model uses the wrapping (release) result, which `new` then rejects. -/
def offset (c : RelativeCoord) (drow dcol : U32) : Except CoordError RelativeCoord :=
  new (c.row + drow) (c.col + dcol) c.rowAbs c.colAbs

/-- coord.rs 332-346 `RelativeCoord::rebase` (same remark on overflow; none can occur here since
all rows and columns are below 2^20). -/
def rebase (c origin target : RelativeCoord) : Except CoordError RelativeCoord :=
  let drow := target.row - origin.row
  let dcol := target.col - origin.col
  let newRow := if c.rowAbs then c.row else c.row + drow
  let newCol := if c.colAbs then c.col else c.col + dcol
  new newRow newCol c.rowAbs c.colAbs

/-- coord.rs 349-351 `RelativeCoord::into_absolute`. -/
def intoAbsolute (c : RelativeCoord) : Except CoordError Coord := Coord.new c.row c.col

end RelativeCoord

/-- coord.rs 187-189 `Coord::into_relative`. -/
def Coord.intoRelative (c : Coord) : Except CoordError RelativeCoord :=
  RelativeCoord.new c.row c.col true true

end Verif.Coord
