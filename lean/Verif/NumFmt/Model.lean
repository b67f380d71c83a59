import Mathlib.Data.List.Basic

/-!
# Classes of number formats

`/repo/crates/formualizer-common/src/numfmt.rs`: which codes are dates, times, percentages, ...
Texts are lists of characters.
-/

namespace Verif.NumFmt

/-- `FormatClass`: numfmt.rs 6-19. -/
inductive Class where
  | general
  | number (decimals : Nat) (thousands : Bool)
  | date
  | time
  | dateTime
  | duration
  | percent (decimals : Nat)
  | currency (decimals : Nat)
  | text
  | scientific
  | fraction
  | other
deriving DecidableEq

/-- `to_ascii_lowercase` of a character. -/
def lower (c : Char) : Char :=
  if 'A'.toNat ≤ c.toNat ∧ c.toNat ≤ 'Z'.toNat then Char.ofNat (c.toNat + 32) else c

/-- `str::trim`; what counts as white space (the Unicode property) is a parameter. -/
def trim (ws : Char → Bool) (s : List Char) : List Char :=
  ((s.dropWhile ws).reverse.dropWhile ws).reverse

/-- `str::contains` of a text. -/
def has (p : List Char) : List Char → Bool
  | [] => p.isPrefixOf []
  | c :: cs => p.isPrefixOf (c :: cs) || has p cs

/-- Where the loop of `visible_format` is: outside, in quotes, after a character that hides the next,
or in brackets, with what has been read of them. -/
inductive St where
  | plain
  | quoted
  | hidden
  | bracket (read : List Char)

/-- The end of a bracket: numfmt.rs 101-109.  Only elapsed hours, minutes and seconds are kept. -/
def bracketOut (read : List Char) : List Char :=
  let l := read.map lower
  if (l.all fun c => c = 'h' || c = 'm' || c = 's' || c = ':') = true ∧
      (l.any fun c => c = 'h' || c = 'm' || c = 's') = true then
    '[' :: l ++ [']']
  else []

/-- The loop of `visible_format`: numfmt.rs 81-113.  The inner loop over a bracket is a state; it ends
at the end of the text too. -/
def scan : St → List Char → List Char
  | .bracket r, [] => bracketOut r
  | _, [] => []
  | .quoted, c :: cs => if c = '"' then scan .plain cs else scan .quoted cs
  | .hidden, _ :: cs => scan .plain cs
  | .bracket r, c :: cs =>
    if c = ']' then bracketOut r ++ scan .plain cs else scan (.bracket (r ++ [c])) cs
  | .plain, c :: cs =>
    if c = '"' then scan .quoted cs
    else if c = '\\' ∨ c = '_' ∨ c = '*' then scan .hidden cs
    else if c = '[' then scan (.bracket []) cs
    else lower c :: scan .plain cs

/-- `visible_format`: numfmt.rs 77-114. -/
def visible (code : List Char) : List Char := scan .plain code

/-- A place for a digit. -/
def isDigitPlace (c : Char) : Bool := c = '0' || c = '#' || c = '?'

/-- `decimal_count` of a section whose visible part is given: numfmt.rs 65-75. -/
def decimals (v : List Char) : Nat :=
  match v.dropWhile (· ≠ '.') with
  | [] => 0
  | _ :: rest => min (rest.takeWhile isDigitPlace).length 255

/-- `classify` after the first section has been cut out: numfmt.rs 121-172. -/
def classOf (ws : Char → Bool) (v : List Char) : Class :=
  if trim ws v = ['@'] then .text
  else if has "[h]".toList v || has "[m]".toList v || has "[s]".toList v then .duration
  else
    let amPm := has "am/pm".toList v || has "a/p".toList v
    let hasDate := v.contains 'y' || v.contains 'd'
    let hasTime := v.contains 'h' || v.contains 's' || amPm
    if hasDate && hasTime then .dateTime
    else if hasDate then .date
    else if hasTime then .time
    else if v.contains '%' then .percent (decimals v)
    else if has "e+".toList v || has "e-".toList v then .scientific
    else if v.contains '/' && v.any (fun c => c = '?' || c = '#') then .fraction
    else if v.contains '$' || v.contains '€' || v.contains '£' || v.contains '¥' then
      .currency (decimals v)
    else if v.any isDigitPlace then .number (decimals v) (v.contains ',')
    else .other

/-- `classify`: numfmt.rs 116-173. -/
def classify (ws : Char → Bool) (code : List Char) : Class :=
  if code.map lower = "general".toList then .general
  else classOf ws (visible (code.takeWhile (· ≠ ';')))

/-- `NumberFormat`: numfmt.rs 22-26. -/
structure Format where
  code : List Char
  cls : Class
deriving DecidableEq

/-- `NumberFormat::parse`: numfmt.rs 30-34 and 61-63. -/
def parse (ws : Char → Bool) (code : List Char) : Format :=
  ⟨trim ws code, classify ws (trim ws code)⟩

/-- `builtin_code`: numfmt.rs 175-216. -/
def builtin (id : Nat) : Option String :=
  match id with
  | 0 => some "General"
  | 1 => some "0"
  | 2 => some "0.00"
  | 3 => some "#,##0"
  | 4 => some "#,##0.00"
  | 5 => some "$#,##0_);($#,##0)"
  | 6 => some "$#,##0_);[Red]($#,##0)"
  | 7 => some "$#,##0.00_);($#,##0.00)"
  | 8 => some "$#,##0.00_);[Red]($#,##0.00)"
  | 9 => some "0%"
  | 10 => some "0.00%"
  | 11 => some "0.00E+00"
  | 12 => some "# ?/?"
  | 13 => some "# ??/??"
  | 14 => some "m/d/yy"
  | 15 => some "d-mmm-yy"
  | 16 => some "d-mmm"
  | 17 => some "mmm-yy"
  | 18 => some "h:mm AM/PM"
  | 19 => some "h:mm:ss AM/PM"
  | 20 => some "h:mm"
  | 21 => some "h:mm:ss"
  | 22 => some "m/d/yy h:mm"
  | 37 => some "#,##0_);(#,##0)"
  | 38 => some "#,##0_);[Red](#,##0)"
  | 39 => some "#,##0.00_);(#,##0.00)"
  | 40 => some "#,##0.00_);[Red](#,##0.00)"
  | 41 => some "_(* #,##0_);_(* (#,##0);_(* \"-\"_);_(@_)"
  | 42 => some "_($* #,##0_);_($* (#,##0);_($* \"-\"_);_(@_)"
  | 43 => some "_(* #,##0.00_);_(* (#,##0.00);_(* \"-\"??_);_(@_)"
  | 44 => some "_($* #,##0.00_);_($* (#,##0.00);_($* \"-\"??_);_(@_)"
  | 45 => some "mm:ss"
  | 46 => some "[h]:mm:ss"
  | 47 => some "mmss.0"
  | 48 => some "##0.0E+0"
  | 49 => some "@"
  | _ => none

end Verif.NumFmt
