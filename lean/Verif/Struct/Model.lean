/-
Structured references: reading and printing of `Table[...]`.

Code: crates/formualizer-parse/src/structured_ref.rs (all of it) and
crates/formualizer-parse/src/parser.rs 65-117, 292-351, 1091-1110,
1361-1399, 1629-1635.

Simplified: texts are lists of characters; the code walks bytes, but every
byte it looks for is ASCII, and in UTF-8 no byte of a longer character is, so
the two walks agree.  Errors carry no message: they are `none`.  The nesting
depth is a natural number (the code counts in u32).
-/

namespace Verif.Struct

abbrev Str := List Char

/-- parser.rs 107-117 `SpecialItem`. -/
inductive Special where
  | headers | data | totals | all | thisRow
  deriving DecidableEq

/-- parser.rs 89-105 `TableRowSpecifier`. -/
inductive RowSpec where
  | current | all | data | headers | totals
  | index (n : Nat)
  deriving DecidableEq

/-- parser.rs 65-87 `TableSpecifier`. -/
inductive Spec where
  | all | data | headers | totals
  | row (r : RowSpec)
  | column (name : Str)
  | columns (first last : Str)
  | item (s : Special)
  | combo (parts : List Spec)

/-- Unicode White_Space, what `char::is_whitespace` and `str::trim` use. -/
def white (c : Char) : Bool :=
  let n := c.toNat
  (9 ≤ n && n ≤ 13) || n = 0x20 || n = 0x85 || n = 0xA0 || n = 0x1680 ||
  (0x2000 ≤ n && n ≤ 0x200A) || n = 0x2028 || n = 0x2029 || n = 0x202F ||
  n = 0x205F || n = 0x3000

/-- `str::trim`. -/
def trim (s : Str) : Str := ((s.dropWhile white).reverse.dropWhile white).reverse

/-- structured_ref.rs 293-301 `skip_ws`: only blanks, tabs and newlines. -/
def skipWs (s : Str) : Str := s.dropWhile fun c => c = ' ' || c = '\t' || c = '\n'

/-- A text put before what a walk has collected. -/
def before (p : Str) (r : Option (Str × Str)) : Option (Str × Str) := r.map fun x => (p ++ x.1, x.2)

/-- structured_ref.rs 93-124 `find_matching_close` and 335-377
`parse_bracketed_token` (the same walk): the text up to the bracket that closes
depth `d`, and what follows it; an apostrophe takes the next character along. -/
def close : Nat → Str → Option (Str × Str)
  | _, [] => none
  | d, c :: r =>
    if c = '\'' then
      match r with
      | [] => none
      | e :: r' => before ['\'', e] (close d r')
    else if c = '[' then before ['['] (close (d + 1) r)
    else if c = ']' then
      if d = 1 then some ([], r) else before [']'] (close (d - 1) r)
    else before [c] (close d r)

/-- structured_ref.rs 539-554 `unescape_name`, before its final trim. -/
def unquote : Str → Str
  | [] => []
  | c :: r =>
    if c = '\'' then
      match r with
      | [] => []
      | e :: r' => e :: unquote r'
    else c :: unquote r

/-- structured_ref.rs 539-554 `unescape_name`. -/
def unescape (s : Str) : Str := trim (unquote s)

/-- structured_ref.rs 175-179 `TopLevelScan`; the colon with the texts on either
side of it. -/
structure Scan where
  bracket : Bool
  comma : Bool
  colon : Option (Str × Str)
  deriving DecidableEq

/-- structured_ref.rs 183-232 `scan_top_level`; `p` is what was walked over,
reversed. -/
def scan : Nat → Str → Str → Scan → Option Scan
  | d, _, [], k => if d = 0 then some k else none
  | d, p, c :: r, k =>
    if c = '\'' then
      match r with
      | [] => none
      | e :: r' => scan d (e :: '\'' :: p) r' k
    else if c = '[' then
      scan (d + 1) (c :: p) r (if d = 0 then { k with bracket := true } else k)
    else if c = ']' then
      if d = 0 then none else scan (d - 1) (c :: p) r k
    else if c = ',' ∧ d = 0 then scan d (c :: p) r { k with comma := true }
    else if c = ':' ∧ d = 0 ∧ k.colon = none then
      scan d (c :: p) r { k with colon := some (p.reverse, r) }
    else scan d (c :: p) r k

/-- structured_ref.rs 449-465: tabs become blanks and runs of blanks one blank;
the flag says that the character before was a blank. -/
def squeeze : Bool → Str → Str
  | _, [] => []
  | was, c :: r =>
    if c = ' ' ∨ c = '\t' then (if was then squeeze true r else ' ' :: squeeze true r)
    else c :: squeeze false r

/-- structured_ref.rs 445-476 `parse_special_token`. -/
def special (t : Str) : Option Special :=
  let w := (squeeze false t).map Char.toLower
  if w = "#all".toList then some .all
  else if w = "#headers".toList then some .headers
  else if w = "#data".toList then some .data
  else if w = "#totals".toList then some .totals
  else if w = "#this row".toList then some .thisRow
  else none

/-- structured_ref.rs 511-530 the loop of `strip_outer_brackets` over what is
between the first and the last character: the depth at its end. -/
def inner : Nat → Str → Option Nat
  | d, [] => some d
  | d, c :: r =>
    if c = '\'' then
      match r with
      | [] => some d
      | _ :: r' => inner d r'
    else if c = '[' then inner (d + 1) r
    else if c = ']' then if d = 1 then none else inner (d - 1) r
    else inner d r

/-- structured_ref.rs 503-534 `strip_outer_brackets`. -/
def stripOuter (s : Str) : Option Str :=
  match s with
  | '[' :: r =>
    if r.getLast? = some ']' then
      if inner 1 r.dropLast = some 1 then some r.dropLast else none
    else none
  | _ => none

/-- structured_ref.rs 479-501 `parse_at_shorthand`. -/
def atShorthand (rest : Str) : Option Spec :=
  if rest = [] then some (.row .current)
  else
    let t := trim rest
    let column := (stripOuter t).getD t
    if column = [] then none
    else some (.combo [.item .thisRow, .column (unescape column)])

/-- structured_ref.rs 384-406 `bracketed_token_to_specifier`. -/
def ofToken (tok : Str) : Option Spec :=
  let t := trim tok
  match t with
  | [] => none
  | c :: rest =>
    if c = '#' then (special t).map .item
    else if c = '@' then
      let r := trim rest
      if r = [] then some (.item .thisRow) else atShorthand r
    else some (.column (unescape t))

/-- Whether a text begins like a special item, structured_ref.rs 419. -/
def marked (s : Str) : Bool := s.head? = some '#' || s.head? = some '@'

/-- structured_ref.rs 408-429 `build_column_range_from_tokens`. -/
def rangeOfTokens (a b : Str) : Option Spec :=
  let l := trim a
  let r := trim b
  if l = [] ∨ r = [] then none
  else if marked l ∨ marked r then none
  else some (.columns (unescape l) (unescape r))

/-- structured_ref.rs 431-441 `build_column_range`. -/
def rangeOf (l r : Str) : Option Spec :=
  if l = [] ∨ r = [] then none else some (.columns (unescape l) (unescape r))

/-- structured_ref.rs 308-314 and 321-328: an opening bracket must stand here; the
token it opens and what follows. -/
def token (s : Str) : Option (Str × Str) :=
  match s with
  | '[' :: r => close 1 r
  | _ => none

/-- structured_ref.rs 306-333 `parse_item`. -/
def item (s : Str) : Option (Spec × Str) :=
  match token (skipWs s) with
  | none => none
  | some (a, r) =>
    match skipWs r with
    | ':' :: r' =>
      match token (skipWs r') with
      | none => none
      | some (b, r'') => (rangeOfTokens a b).map fun x => (x, r'')
    | _ => (ofToken a).map fun x => (x, r)

/-- structured_ref.rs 243-258, the loop over the items; fuel. -/
def items : Nat → Str → Option (List Spec)
  | 0, _ => none
  | n + 1, s =>
    match item s with
    | none => none
    | some (x, r) =>
      match skipWs r with
      | [] => some [x]
      | c :: r' => if c = ',' then (items n (skipWs r')).map (x :: ·) else none

/-- structured_ref.rs 236-268 `parse_combination_or_item`.  Every item takes two
characters at least, so the fuel is never short. -/
def combination (s : Str) : Option Spec :=
  if skipWs s = [] then some .all
  else match items (s.length + 1) (skipWs s) with
    | none => none
    | some [x] => some x
    | some xs => some (.combo xs)

/-- structured_ref.rs 128-173 `parse_content`. -/
def content (s : Str) : Option Spec :=
  let t := trim s
  match t with
  | [] => some .all
  | c :: rest =>
    if c = '@' then atShorthand (trim rest)
    else match scan 0 [] t ⟨false, false, none⟩ with
      | none => none
      | some k =>
        if k.bracket then combination t
        else if k.comma then none
        else match k.colon with
          | some (l, r) => rangeOf (trim l) (trim r)
          | none => if c = '#' then (special t).map .item else some (.column (unescape t))

/-- structured_ref.rs 25-39 `parse_full_specifier` and 77-88 `parse_specifier`,
for a text that is not empty (parser.rs 1362-1370 passes it the reference from its
first bracket on). -/
def parseFull (s : Str) : Option Spec :=
  match s with
  | '[' :: r =>
    match close 1 r with
    | some (c, []) => content c
    | _ => none
  | _ => none

/-- A reference to a part of a table: parser.rs 123-131 `TableReference`. -/
structure TableRef where
  name : Str
  spec : Option Spec

/-- parser.rs 1361-1377 `parse_table_reference`. -/
def parseTable (s : Str) : Option TableRef :=
  let name := trim (s.takeWhile (· ≠ '['))
  let rest := s.dropWhile (· ≠ '[')
  if rest = [] ∨ name = [] then none else (parseFull rest).map fun x => ⟨name, some x⟩

/-- parser.rs 1385-1399 `parse_bracketed_structured_reference`. -/
def parseBare (s : Str) : Option TableRef :=
  (parseFull s).map fun x =>
    match x with
    | .column n => ⟨n, some (.item .data)⟩
    | other => ⟨[], some other⟩

/-- parser.rs 341-351 `Display for SpecialItem`. -/
def showSpecial : Special → Str
  | .headers => ['#', 'H', 'e', 'a', 'd', 'e', 'r', 's']
  | .data => ['#', 'D', 'a', 't', 'a']
  | .totals => ['#', 'T', 'o', 't', 'a', 'l', 's']
  | .all => ['#', 'A', 'l', 'l']
  | .thisRow => ['@']

/-- parser.rs 328-339 `Display for TableRowSpecifier`. -/
def showRow : RowSpec → Str
  | .current => ['@']
  | .all => ['#', 'A', 'l', 'l']
  | .data => ['#', 'D', 'a', 't', 'a']
  | .headers => ['#', 'H', 'e', 'a', 'd', 'e', 'r', 's']
  | .totals => ['#', 'T', 'o', 't', 'a', 'l', 's']
  | .index n => (Nat.repr n).toList

/-- parser.rs 315-320, one part of a combination; `s` is the part as it is printed
alone. -/
def showPart (p : Spec) (s : Str) : Str :=
  match p with
  | .columns a b => '[' :: a ++ ']' :: ':' :: '[' :: b ++ [']']
  | _ => '[' :: s ++ [']']

mutual
/-- parser.rs 292-326 `Display for TableSpecifier`. -/
def showSpec : Spec → Str
  | .all => ['#', 'A', 'l', 'l']
  | .data => ['#', 'D', 'a', 't', 'a']
  | .headers => ['#', 'H', 'e', 'a', 'd', 'e', 'r', 's']
  | .totals => ['#', 'T', 'o', 't', 'a', 'l', 's']
  | .row r => showRow r
  | .column n => n
  | .columns a b => a ++ ':' :: b
  | .item s => showSpecial s
  | .combo ps => showParts [] ps
/-- parser.rs 309-321, the parts of a combination, the first after `sep` and the
others after commas. -/
def showParts (sep : Str) : List Spec → Str
  | [] => []
  | p :: ps => sep ++ showPart p (showSpec p) ++ showParts [','] ps
end

/-- parser.rs 1091-1109, a reference as it is printed. -/
def showRef (r : TableRef) : Str :=
  match r.spec with
  | none => r.name
  | some (.column n) => r.name ++ '[' :: trim n ++ [']']
  | some (.columns a b) => r.name ++ '[' :: trim a ++ ':' :: trim b ++ [']']
  | some x => r.name ++ '[' :: showSpec x ++ [']']

end Verif.Struct
