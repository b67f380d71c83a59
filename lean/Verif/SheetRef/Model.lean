import Verif.A1.Model

/-
Model of sheet-name quoting and of reference text:
* `/repo/crates/formualizer-common/src/address.rs` 13-47 (quoting),
* `/repo/crates/formualizer-parse/src/parser.rs` 621-705 (range parts), 707-778 (3D), 780-925
  (references), 953-1133 (printing), 1158-1279 (sheet prefix extraction).

Texts are `List Char`; the byte offsets of the source become "the rest of the text".  The bytes the
source looks for are all ASCII, so scanning characters instead of UTF-8 bytes finds the same places.
-/

namespace Verif.SheetRef
open Verif.A1

/-- address.rs 36-40: the bytes that force quoting. -/
def specialChars : List Char :=
  [' ', '!', '"', '#', '$', '%', '&', '\'', '(', ')', '*', '+', ',', '-', '.', '/', ':', ';', '<',
   '=', '>', '?', '@', '[', '\\', ']', '^', '`', '{', '|', '}', '~']

/-- address.rs 43-46: reserved words. -/
def reservedWords : List (List Char) :=
  ["TRUE".toList, "FALSE".toList, "NULL".toList, "REF".toList, "DIV".toList, "NAME".toList,
   "NUM".toList, "VALUE".toList, "N/A".toList]

/-- address.rs 24-47 `a1_sheet_name_needs_quoting`.  `upper` is `str::to_uppercase` (Unicode case
mapping of the standard library, not modelled: any function). -/
def needsQuoting (upper : List Char → List Char) (name : List Char) : Bool :=
  if name = [] then false
  else if name.head?.any Char.isDigit then true
  else if name.any (fun c => specialChars.contains c) then true
  else reservedWords.contains (upper name)

/-- `str::replace('\'', "''")`. -/
def escapeQuotes : List Char → List Char
  | [] => []
  | c :: r => if c = '\'' then '\'' :: '\'' :: escapeQuotes r else c :: escapeQuotes r

/-- `str::replace("''", "'")`: leftmost non-overlapping replacement. -/
def unescapeQuotes : List Char → List Char
  | '\'' :: '\'' :: r => '\'' :: unescapeQuotes r
  | c :: r => c :: unescapeQuotes r
  | [] => []

/-- address.rs 13-18 `format_a1_sheet_name`. -/
def formatSheet (upper : List Char → List Char) (name : List Char) : List Char :=
  if needsQuoting upper name then ['\''] ++ escapeQuotes name ++ ['\''] else name

/-- parser.rs 1165-1179: scan of the body of a quoted segment; returns the raw body and the text
after the closing quote. -/
def readQuoted : List Char → Option (List Char × List Char)
  | [] => none
  | '\'' :: '\'' :: r => (readQuoted r).map fun p => ('\'' :: '\'' :: p.1, p.2)
  | '\'' :: r => some ([], r)
  | c :: r => (readQuoted r).map fun p => (c :: p.1, p.2)

/-- parser.rs 1187-1189: the characters ending a bare segment. -/
def bareStop (c : Char) : Bool :=
  c = ':' || c = '!' || c = '\'' || c = ' ' || c = '\t' || c = '\n' || c = '\r'

/-- parser.rs 1158-1199 `read_sheet_segment`: the name and the text after it. -/
def readSegment (t : List Char) : Option (List Char × List Char) :=
  match t with
  | [] => none
  | '\'' :: r => (readQuoted r).map fun p => (unescapeQuotes p.1, p.2)
  | _ =>
    let s := t.takeWhile (fun c => !bareStop c)
    if s = [] then none else some (s, t.dropWhile (fun c => !bareStop c))

/-- parser.rs 365-374 `SheetSpec`. -/
inductive SheetSpec where
  | none
  | single (name : List Char)
  | range (first last : List Char)
deriving DecidableEq, Repr

/-- Text after the first occurrence of `c`, with the text before it (`str::find`, `splitn`). -/
def splitAt? (c : Char) : List Char → Option (List Char × List Char)
  | [] => .none
  | d :: r => if d = c then some ([], r) else (splitAt? c r).map fun p => (d :: p.1, p.2)

/-- parser.rs 1261-1279 `extract_sheet_spec_fallback`: split at the first `!` that is not the first
byte. -/
def extractFallback (t : List Char) : SheetSpec × List Char :=
  match t with
  | [] => (.none, [])
  | c :: r =>
    match splitAt? '!' r with
    | some (a, b) => (.single (c :: a), b)
    | .none => (.none, t)

/-- parser.rs 1202-1259 `extract_sheet_spec`. -/
def extractSpec (t : List Char) : SheetSpec × List Char :=
  match readSegment t with
  | .none => extractFallback t
  | some (first, after) =>
    match after with
    | ':' :: second =>
      match readSegment second with
      | some (last, '!' :: ref) => (.range first last, ref)
      | _ =>
        match splitAt? '!' second with
        | some (_, ref) => (.range first [], ref)
        | .none => extractFallback t
    | '!' :: ref => (.single first, ref)
    | _ => extractFallback t

/-- parser.rs 242-288 `ReferenceType`.  Table references, bracketed shorthands and R1C1-shaped
operands (text containing `[` after the sheet prefix) are not modelled further: `other`. -/
inductive Ref where
  | cell (sheet : Option (List Char)) (row col : Nat) (rowAbs colAbs : Bool)
  | range (sheet : Option (List Char)) (startRow startCol endRow endCol : Option Nat)
      (startRowAbs startColAbs endRowAbs endColAbs : Bool)
  | cell3d (first last : List Char) (row col : Nat) (rowAbs colAbs : Bool)
  | range3d (first last : List Char) (startRow startCol endRow endCol : Option Nat)
      (startRowAbs startColAbs endRowAbs endColAbs : Bool)
  | external (raw book sheet : List Char)
  | named (name : List Char)
  | other
deriving DecidableEq, Repr

/-- parser.rs 953-959 `format_col`. -/
def formatCol (col : Nat) (abs : Bool) : List Char :=
  if abs then '$' :: numberToColumn col else numberToColumn col

/-- parser.rs 961-967 `format_row`. -/
def formatRow (row : Nat) (abs : Bool) : List Char :=
  if abs then '$' :: decimal row else decimal row

/-- parser.rs 1007-1029: one end of a range. -/
def formatEnd (col row : Option Nat) (colAbs rowAbs : Bool) : List Char :=
  match col, row with
  | some c, some r => formatCol c colAbs ++ formatRow r rowAbs
  | some c, none => formatCol c colAbs
  | none, some r => formatRow r rowAbs
  | none, none => []

/-- parser.rs 1124-1133 `format_3d_sheet_prefix`. -/
def format3d (upper : List Char → List Char) (first last : List Char) : List Char :=
  formatSheet upper first ++ [':'] ++ formatSheet upper last

/-- parser.rs 984-991 and 1033-1040: the optional `Sheet!` prefix. -/
def sheetPrefix (upper : List Char → List Char) : Option (List Char) → List Char
  | some n => formatSheet upper n ++ ['!']
  | none => []

/-- parser.rs 970-1118 `Display for ReferenceType`. -/
def Ref.display (upper : List Char → List Char) : Ref → List Char
  | .cell sheet row col ra ca =>
    sheetPrefix upper sheet ++
      (formatCol col ca ++ formatRow row ra)
  | .range sheet sr sc er ec sra sca era eca =>
    sheetPrefix upper sheet ++
      (formatEnd sc sr sca sra ++ [':'] ++ formatEnd ec er eca era)
  | .cell3d f l row col ra ca => format3d upper f l ++ ['!'] ++ (formatCol col ca ++ formatRow row ra)
  | .range3d f l sr sc er ec sra sca era eca =>
    format3d upper f l ++ ['!'] ++ (formatEnd sc sr sca sra ++ [':'] ++ formatEnd ec er eca era)
  | .external raw _ _ => raw
  | .named n => n
  | .other => []

/-- Result of `parse_range_part_with_abs`: `(col, row)` bounds with anchors. -/
abbrev Part := Option (Nat × Bool) × Option (Nat × Bool)

/-- parser.rs 688-705: the row-only form. -/
def parseRowPart (part : List Char) : Option Part :=
  let abs := part.head? = some '$'
  let s := if abs then part.tail else part
  let digits := s.takeWhile Char.isDigit
  if digits = [] ∨ s.dropWhile Char.isDigit ≠ [] then none
  else match parseU32 digits with
    | none => none
    | some row => if row = 0 then none else some (none, some (row, decide abs))

/-- parser.rs 621-705 `parse_range_part_with_abs` (the error payload is dropped). -/
def parseRangePart (part : List Char) : Option Part :=
  match parseA1 part with
  | .ok (row, col, ra, ca) => some (some (col, ca), some (row, ra))
  | .error _ =>
    let colAbs := part.head? = some '$'
    let s1 := if colAbs then part.tail else part
    let letters := s1.takeWhile Char.isAlpha
    let s2 := s1.dropWhile Char.isAlpha
    if letters ≠ [] then
      match colIndexFrom1 letters with
      | .error _ => none
      | .ok col =>
        if s2 = [] then some (some (col, decide colAbs), none)
        else
          let rowAbs := s2.head? = some '$'
          let s3 := if rowAbs then s2.tail else s2
          let digits := s3.takeWhile Char.isDigit
          if digits = [] ∨ s3.dropWhile Char.isDigit ≠ [] then none
          else match parseU32 digits with
            | none => none
            | some row =>
              if row = 0 then none
              else some (some (col, decide colAbs), some (row, decide rowAbs))
    else parseRowPart part

/-- The `split` closure (parser.rs 743-746 and 850-853). -/
def boundVal (b : Option (Nat × Bool)) : Option Nat := b.map Prod.fst
/-- The `split` closure, anchor. -/
def boundAbs (b : Option (Nat × Bool)) : Bool := (b.map Prod.snd).getD false

/-- parser.rs 708-778 `parse_3d_reference`. -/
def parse3d (first last refPart : List Char) : Option Ref :=
  if first = [] ∨ last = [] then none
  else if refPart = [] then none
  else if refPart.contains '[' then none
  else match splitAt? ':' refPart with
    | some (start, end_) =>
      match parseRangePart start, parseRangePart end_ with
      | some (sc, sr), some (ec, er) =>
        some (.range3d first last (boundVal sr) (boundVal sc) (boundVal er) (boundVal ec)
          (boundAbs sr) (boundAbs sc) (boundAbs er) (boundAbs ec))
      | _, _ => none
    | none =>
      match parseA1 refPart with
      | .ok (row, col, ra, ca) => some (.cell3d first last row col ra ca)
      | .error _ => none

/-- parser.rs 824-844: external-book detection in the sheet segment: the book token and the sheet
name. `rfind('[')`, then the first `]` after it, the name after that non-empty. -/
def externalSheet (sheet : List Char) : Option (List Char × List Char) :=
  match splitAt? '[' sheet.reverse with
  | none => none
  | some (afterRev, beforeRev) =>
    match splitAt? ']' afterRev.reverse with
    | none => none
    | some (tok, name) =>
      if name = [] then none else some (beforeRev.reverse ++ ['['] ++ tok ++ [']'], name)

/-- parser.rs 780-917 `parse_excel_reference`.  `none` = error. -/
def parseRef (t : List Char) : Option Ref :=
  if t.head? = some '[' ∧ t.getLast? = some ']' ∧ ¬ t.contains '!' then some .other
  else
    match extractSpec t with
    | (.range first last, refPart) => parse3d first last refPart
    | (spec, refPart) =>
      let sheet := match spec with | .single n => some n | _ => none
      if refPart.contains '[' then some .other
      else
        let ext := sheet.bind externalSheet
        match splitAt? ':' refPart with
        | some (start, end_) =>
          match parseRangePart start, parseRangePart end_ with
          | some (sc, sr), some (ec, er) =>
            match ext with
            | some (book, name) => some (.external t book name)
            | none =>
              some (.range sheet (boundVal sr) (boundVal sc) (boundVal er) (boundVal ec)
                (boundAbs sr) (boundAbs sc) (boundAbs er) (boundAbs ec))
          | _, _ => none
        | none =>
          match parseA1 refPart with
          | .ok (row, col, ra, ca) =>
            match ext with
            | some (book, name) => some (.external t book name)
            | none => some (.cell sheet row col ra ca)
          | .error _ => some (.named t)

end Verif.SheetRef
