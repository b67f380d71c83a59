import Verif.Util

/-
Model of `PackedSheetCell` (`/repo/crates/formualizer-common/src/address.rs` 50-136).
Machine words are bit vectors of the same width as in the source.
-/

namespace Verif.PackedCell

/-- address.rs 66 `struct PackedSheetCell(u64)`. -/
structure PackedSheetCell where
  raw : BitVec 64
deriving DecidableEq, Repr

namespace PackedSheetCell

/-- address.rs 69. -/
def ROW_BITS : Nat := 20
/-- address.rs 70. -/
def COL_BITS : Nat := 14
/-- address.rs 71. -/
def SHEET_BITS : Nat := 16
/-- address.rs 73. -/
def COL_SHIFT : Nat := ROW_BITS
/-- address.rs 74. -/
def SHEET_SHIFT : Nat := ROW_BITS + COL_BITS
/-- address.rs 76. -/
def ROW_MASK : BitVec 64 := (1#64 <<< ROW_BITS) - 1
/-- address.rs 77. -/
def COL_MASK : BitVec 64 := (1#64 <<< COL_BITS) - 1
/-- address.rs 78. -/
def SHEET_MASK : BitVec 64 := (1#64 <<< SHEET_BITS) - 1
/-- address.rs 80. -/
def MAX_ROW0 : BitVec 32 := ROW_MASK.setWidth 32
/-- address.rs 81. -/
def MAX_COL0 : BitVec 32 := COL_MASK.setWidth 32
/-- address.rs 82. -/
def USED_BITS : Nat := ROW_BITS + COL_BITS + SHEET_BITS
/-- address.rs 83. -/
def USED_MASK : BitVec 64 := (1#64 <<< USED_BITS) - 1

/-- address.rs 88-96 `try_new`. -/
def tryNew (sheet : BitVec 16) (row0 col0 : BitVec 32) : Option PackedSheetCell :=
  if row0 > MAX_ROW0 ∨ col0 > MAX_COL0 then none
  else some ⟨row0.setWidth 64 ||| (col0.setWidth 64 <<< COL_SHIFT)
    ||| (sheet.setWidth 64 <<< SHEET_SHIFT)⟩

/-- address.rs 125-127 `sheet_id`. -/
def sheetId (c : PackedSheetCell) : BitVec 16 := ((c.raw >>> SHEET_SHIFT) &&& SHEET_MASK).setWidth 16
/-- address.rs 129-131 `row0`. -/
def row0 (c : PackedSheetCell) : BitVec 32 := (c.raw &&& ROW_MASK).setWidth 32
/-- address.rs 133-135 `col0`. -/
def col0 (c : PackedSheetCell) : BitVec 32 := ((c.raw >>> COL_SHIFT) &&& COL_MASK).setWidth 32

/-- address.rs 106-116 `try_from_u64`. -/
def tryFromU64 (raw : BitVec 64) : Option PackedSheetCell :=
  if raw &&& ~~~USED_MASK ≠ 0 then none
  else
    let row0 := (raw &&& ROW_MASK).setWidth 32
    let col0 := ((raw >>> COL_SHIFT) &&& COL_MASK).setWidth 32
    if row0 > MAX_ROW0 ∨ col0 > MAX_COL0 then none else some ⟨raw⟩

/-- address.rs 119-123 `try_from_excel_1based` (`checked_sub(1)?`). -/
def tryFromExcel (sheet : BitVec 16) (row col : BitVec 32) : Option PackedSheetCell :=
  if row = 0 then none else if col = 0 then none else tryNew sheet (row - 1) (col - 1)

/-- address.rs 137-139 `to_excel_1based`. -/
def toExcel (c : PackedSheetCell) : BitVec 16 × BitVec 32 × BitVec 32 :=
  (c.sheetId, c.row0 + 1, c.col0 + 1)

end PackedSheetCell
end Verif.PackedCell
