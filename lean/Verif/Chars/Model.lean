import Mathlib.Data.List.Lookmap

/-!
# Characters and their codes

Model of `/repo/crates/formualizer-eval/src/builtins/text`: `char_code_rept.rs` 86-140 (`CHAR`),
205-258 (`CODE`), 262-275 (`ASC`), 407-441 (`REPT`); `extended.rs` 105-114 (`CLEAN`), 180-201
(`UNICHAR`), 267-281 (`UNICODE`).

Simplified: a text is the list of its code points; numbers are already truncated, as integers;
the coercion of arguments and errors among them are left out. `usize` has 64 bits.
-/

namespace Verif.Chars

/-- The codes of Windows-1252 that are not those of Unicode: char_code_rept.rs 103-129. -/
def table : List (Nat × Nat) :=
  [(0x80, 0x20AC), (0x82, 0x201A), (0x83, 0x0192), (0x84, 0x201E), (0x85, 0x2026), (0x86, 0x2020), (0x87, 0x2021),
   (0x88, 0x02C6), (0x89, 0x2030), (0x8A, 0x0160), (0x8B, 0x2039), (0x8C, 0x0152), (0x8E, 0x017D), (0x91, 0x2018),
   (0x92, 0x2019), (0x93, 0x201C), (0x94, 0x201D), (0x95, 0x2022), (0x96, 0x2013), (0x97, 0x2014), (0x98, 0x02DC),
   (0x99, 0x2122), (0x9A, 0x0161), (0x9B, 0x203A), (0x9C, 0x0153), (0x9E, 0x017E), (0x9F, 0x0178)]

/-- `CHAR`: char_code_rept.rs 92-140; `none` is `#VALUE!`. -/
def char (code : Int) : Option Nat :=
  if ¬(1 ≤ code ∧ code ≤ 255) then none
  else
    match table.lookup code.toNat with
    | some c => some c
    | none => if code.toNat ∈ [0x81, 0x8D, 0x8F, 0x90, 0x9D] then some 0xFFFD else some code.toNat

/-- The code of a character: char_code_rept.rs 226-256; the table is the one of `CHAR` read from
right to left. -/
def codeOf (c : Nat) : Nat :=
  match (table.map Prod.swap).lookup c with
  | some k => k
  | none => c

/-- `CODE`: char_code_rept.rs 205-258. -/
def code : List Nat → Option Nat
  | [] => none
  | c :: _ => some (codeOf c)

/-- Unicode scalar values, the values of `char`. -/
def Scalar (c : Nat) : Prop := c < 0xD800 ∨ (0xDFFF < c ∧ c ≤ 0x10FFFF)

/-- `as u32` on an integer. -/
def toU32 (n : Int) : Nat := (max 0 (min n 0xFFFFFFFF)).toNat

/-- `UNICHAR`: extended.rs 186-200. -/
def unichar (n : Int) : Option Nat :=
  let c := toU32 n
  if c = 0 ∨ (0xD800 ≤ c ∧ c ≤ 0xDFFF) ∨ 0x10FFFF < c then none else some c

/-- `UNICODE`: extended.rs 267-281. -/
def unicode : List Nat → Option Nat
  | [] => none
  | c :: _ => some c

/-- One character of `asc_convert`: char_code_rept.rs 264-273. -/
def ascOne (c : Nat) : Nat :=
  if c = 0x3000 then 0x20 else if 0xFF01 ≤ c ∧ c ≤ 0xFF5E then c - 0xFF01 + 0x21 else c

/-- `ASC`: char_code_rept.rs 262-275. -/
def asc (s : List Nat) : List Nat := s.map ascOne

/-- `CLEAN`: extended.rs 112. -/
def clean (s : List Nat) : List Nat := s.filter fun c => 32 ≤ c

/-- The bytes of a character in UTF-8. -/
def width (c : Nat) : Nat := if c < 0x80 then 1 else if c < 0x800 then 2 else if c < 0x10000 then 3 else 4

/-- `str::len`. -/
def bytes (s : List Nat) : Nat := (s.map width).sum

inductive Out where
  | text (s : List Nat)
  | value
  | panic
deriving DecidableEq

/-- `as i64` on an integer. -/
def toI64 (n : Int) : Int := max (-2 ^ 63) (min n (2 ^ 63 - 1))

/-- `str::repeat`, which panics if the bytes do not fit into `usize`. -/
def strRepeat (s : List Nat) (k : Nat) : Out :=
  if 2 ^ 64 ≤ bytes s * k then .panic else .text (List.replicate k s).flatten

/-- `REPT` in a build without overflow checks: char_code_rept.rs 422-441. -/
def rept (s : List Nat) (n : Int) : Out :=
  let k := toI64 n
  if k < 0 then .value
  else if 32767 < (bytes s * k.toNat) % 2 ^ 64 then .value
  else strRepeat s k.toNat

end Verif.Chars
