/-!
# The formula tokenizer

`crates/formualizer-parse/src/tokenizer.rs` 11-57, 617-728, 729-1550 (`SpanTokenizer`), offset by offset as in the code.

Simplifications: a byte of the formula is the `Char` with its code; `parse::<f64>().is_ok()` is the parameter `isNum`;
error messages are dropped; `open_count` and offsets are natural numbers.
-/

namespace Verif.Token

/-- `TokenType`, tokenizer.rs 148-158. -/
inductive Ty
  | literal | operand | func | array | paren | sep | opPre | opIn | opPost | white
  deriving DecidableEq, Repr

/-- `TokenSubType`, tokenizer.rs 169-179. -/
inductive Sub
  | none | text | number | logical | error | range | opn | close | arg | row
  deriving DecidableEq, Repr

/-- `TokenSpan`. -/
structure Span where
  ty : Ty
  sub : Sub
  start : Nat
  stop : Nat
  deriving DecidableEq, Repr

/-- `SpanTokenizerErrorKind`. -/
inductive Kind
  | noMatchingOpener | unmatchedOpening | unterminatedString | unmatchedBracket | mismatchedPair | invalidErrorLiteral
  deriving DecidableEq, Repr

/-- `SpanTokenizerError` without its message. -/
structure Err where
  kind : Kind
  pos : Nat
  spanStart : Option Nat
  spanEnd : Option Nat
  deriving DecidableEq, Repr

/-- What the tokenizer is given: the text, the number test, and whether the dialect is OpenFormula. -/
structure Cfg where
  text : List Char
  isNum : List Char → Bool
  openFormula : Bool

/-- `SpanTokenizer`, tokenizer.rs 725-734; spans, stack and diagnostics newest first. -/
structure St where
  spans : List Span
  stack : List Span
  off : Nat
  ts : Nat
  te : Nat
  diags : List (Span × Kind)

/-- `&formula[a..b]`. -/
def slice (f : List Char) (a b : Nat) : List Char := (f.drop a).take (b - a)

/-- `is_token_ender`, tokenizer.rs 11-28. -/
def isEnder (c : Char) : Bool := ",;}) +-*/^&=><%@".toList.contains c

/-- `matches!(b, b' ' | b'\t' | b'\r' | b'\n')`. -/
def isWs (c : Char) : Bool := c = ' ' || c = '\t' || c = '\r' || c = '\n'

/-- `u8::to_ascii_lowercase`. -/
def lower (c : Char) : Char := if 'A' ≤ c ∧ c ≤ 'Z' then Char.ofNat (c.toNat + 32) else c

/-- `eq_ignore_ascii_case`. -/
def eqIgnoreCase (a b : List Char) : Bool := a.map lower = b.map lower

def isAlpha (c : Char) : Bool := ('a' ≤ c ∧ c ≤ 'z') ∨ ('A' ≤ c ∧ c ≤ 'Z')

def isDigit (c : Char) : Bool := '0' ≤ c ∧ c ≤ '9'

/-- `ERROR_CODES`, tokenizer.rs 46-57. -/
def errorCodes : List (List Char) :=
  ["#GETTING_DATA".toList, "#DIV/0!".toList, "#VALUE!".toList, "#SPILL!".toList, "#NAME?".toList, "#NULL!".toList,
   "#CALC!".toList, "#NUM!".toList, "#REF!".toList, "#N/A".toList]

/-- `operand_subtype`, tokenizer.rs 622-636. -/
def subtype (isNum : List Char → Bool) (v : List Char) : Sub :=
  if v.head? = some '"' then .text
  else if v.head? = some '#' then .error
  else if eqIgnoreCase v "TRUE".toList || eqIgnoreCase v "FALSE".toList then .logical
  else if isNum v then .number
  else .range

/-- `is_cell_reference_like`, tokenizer.rs 638-665. -/
def cellLike (v : List Char) : Bool :=
  let v := if v.head? = some '$' then v.tail else v
  let w := v.dropWhile isAlpha
  if w.length = v.length then false
  else
    let w := if w.head? = some '$' then w.tail else w
    let x := w.dropWhile isDigit
    x.isEmpty && decide (0 < w.length)

/-- The text after the last `!`, `rsplit_once('!')`. -/
def afterBang (v : List Char) : List Char := (v.reverse.takeWhile (· ≠ '!')).reverse

/-- `reference_value_contains_range_colon`, tokenizer.rs 667-672. -/
def hasColon (v : List Char) : Bool := (afterBang v).contains ':'

/-- `is_reference_operand_value`, tokenizer.rs 674-680. -/
def refOperand (isNum : List Char → Bool) (v : List Char) : Bool :=
  decide (subtype isNum v = .range) && (hasColon v || v.contains '!' || v.contains '[' || cellLike v)

/-- `next_starts_reference_expression`, tokenizer.rs 682-692, on the text from the offset on. -/
def startsRef (rest : List Char) : Bool :=
  match rest.dropWhile isWs with
  | [] => false
  | c :: _ => c = '(' || c = '[' || c = '\'' || c = '$' || isAlpha c

/-- The loop of `next_reference_has_sheet_qualifier`, tokenizer.rs 700-716: `q` is `in_quote`, `skip` passes over the second
of two quotes. -/
def sheetScan : Bool → Bool → List Char → Bool
  | _, _, [] => false
  | q, true, _ :: rest => sheetScan q false rest
  | q, false, c :: rest =>
    if c = '\'' then
      if q && decide (rest.head? = some '\'') then sheetScan q true rest else sheetScan (!q) false rest
    else if c = '!' then true
    else if !q && c = ':' then false
    else if !q && (isEnder c || isWs c) then false
    else sheetScan q false rest

/-- `next_reference_has_sheet_qualifier`, tokenizer.rs 694-717. -/
def hasSheet (rest : List Char) : Bool := sheetScan false false (rest.dropWhile isWs)

namespace St

def hasTok (s : St) : Bool := decide (s.ts < s.te)

/-- `start_token`, tokenizer.rs 761-764. -/
def startTok (s : St) : St := { s with ts := s.off, te := s.off }

/-- `push_span`, tokenizer.rs 771-784. -/
def push (s : St) (ty : Ty) (sub : Sub) (a b : Nat) : St := { s with spans := ⟨ty, sub, a, b⟩ :: s.spans }

end St

variable (cfg : Cfg)

/-- The accumulated token's text. -/
def St.cur (s : St) : List Char := slice cfg.text s.ts s.te

/-- `save_token`, tokenizer.rs 786-797. -/
def St.save (s : St) : St :=
  if s.hasTok then s.push .operand (subtype cfg.isNum (s.cur cfg)) s.ts s.te else s

/-- `is_scientific_notation_base`, tokenizer.rs 818-847. -/
def sciBase (v : List Char) : Bool :=
  if v.length < 2 then false
  else
    (v.getLast? = some 'E' || v.getLast? = some 'e') &&
    (match v.head? with | some c => isDigit c | none => false) &&
    (let mid := v.tail.dropLast
     mid.all (fun c => isDigit c || c = '.') && decide (mid.count '.' ≤ 1))

/-- `check_scientific_notation`, tokenizer.rs 799-816: whether the sign belongs to the number. -/
def sciHere (s : St) : Bool :=
  (match cfg.text[s.off]? with | some c => c = '+' || c = '-' | none => false) && s.hasTok && sciBase (s.cur cfg) &&
  (match cfg.text[s.off + 1]? with | some c => isDigit c | none => false)

/-- `prev_non_whitespace`, tokenizer.rs 1328-1333. -/
def prevTok (s : St) : Option Span := s.spans.find? fun t => decide (t.ty ≠ .white)

/-- `prev_is_reference_producing`, tokenizer.rs 1287-1304. -/
def prevRef (s : St) : Bool :=
  match prevTok s with
  | none => false
  | some p =>
    match p.ty with
    | .opPost => true
    | .paren | .func | .array => decide (p.sub = .close)
    | .operand => decide (p.sub = .range) && refOperand cfg.isNum (slice cfg.text p.start p.stop)
    | _ => false

/-- `should_emit_colon_infix`, tokenizer.rs 1306-1318. -/
def colonInfix (s : St) : Bool :=
  if s.hasTok then
    let v := s.cur cfg
    if v.getLast? = some '!' then false
    else hasColon v || v.contains '[' || (v.contains '!' && hasSheet (cfg.text.drop (s.off + 1)))
  else prevRef cfg s

/-- `should_emit_hash_postfix`, tokenizer.rs 1339-1363. -/
def hashPostfix (s : St) : Bool :=
  if s.hasTok then
    if cfg.text[s.te - 1]? = some '!' then false else decide (subtype cfg.isNum (s.cur cfg) = .range)
  else
    match prevTok s with
    | none => false
    | some p =>
      match p.ty with
      | .opPost => true
      | .paren | .func | .array => decide (p.sub = .close)
      | .operand => decide (p.sub = .range)
      | _ => false

/-- Emit a token of the next `n` bytes after the accumulated one: the tail shared by tokenizer.rs 1320-1326, 1365-1376,
1378-1426 and 1510-1549. -/
def St.emit (s : St) (ty : Ty) (sub : Sub) (n : Nat) : St :=
  let s := s.save cfg
  let s := s.push ty sub s.off (s.off + n)
  { s with off := s.off + n }.startTok

/-- Take `n` more bytes into the accumulated token: tokenizer.rs 905-909 and 920-924. -/
def St.extend (s : St) (n : Nat) : St :=
  let s := if s.hasTok then s else s.startTok
  { s with off := s.off + n, te := s.off + n }

/-- The scanning loop of `parse_string`, tokenizer.rs 1098-1118, on the text after the opening delimiter: bytes up to and
including the closing one. -/
def scanString (d : Char) : List Char → Option Nat
  | [] => none
  | [c] => if c = d then some 1 else none
  | c :: c2 :: rest =>
    if c = d then if c2 = d then (scanString d rest).map (· + 2) else some 1
    else (scanString d (c2 :: rest)).map (· + 1)

/-- `parse_string`, tokenizer.rs 1068-1127. -/
def parseString (s : St) (delim : Char) : St × Option Err :=
  let dollar := delim = '\'' && s.hasTok && decide (s.te - s.ts = 1) && decide (cfg.text[s.ts]? = some '$')
  let glue := delim = '\'' && s.hasTok && decide (0 < s.te) && decide (cfg.text[s.te - 1]? = some ':')
  let s := if !dollar && !glue && s.hasTok then (s.save cfg).startTok else s
  let start := if dollar then s.ts else s.off
  match scanString delim (cfg.text.drop (s.off + 1)) with
  | some n =>
    let stop := s.off + 1 + n
    if delim = '"' then
      ({ s.push .operand (subtype cfg.isNum (slice cfg.text start stop)) start stop with off := stop }.startTok, none)
    else ({ s with off := stop, te := stop }, none)
  | none =>
    ({ s with off := cfg.text.length }, some ⟨.unterminatedString, cfg.text.length, some start, some cfg.text.length⟩)

/-- The scanning loop of `parse_brackets`, tokenizer.rs 1140-1168; `n` is `open_count`. -/
def scanBrackets : Nat → List Char → Option Nat
  | _, [] => none
  | _, ['\''] => none
  | n, '\'' :: _ :: rest => (scanBrackets n rest).map (· + 2)
  | n, c :: rest =>
    if c = '[' then (scanBrackets (n + 1) rest).map (· + 1)
    else if c = ']' then if n = 1 then some 1 else (scanBrackets (n - 1) rest).map (· + 1)
    else (scanBrackets n rest).map (· + 1)

/-- `parse_brackets`, tokenizer.rs 1129-1177. -/
def parseBrackets (s : St) : St × Option Err :=
  let s := if s.hasTok then s else s.startTok
  let start := s.off
  match scanBrackets 1 (cfg.text.drop (s.off + 1)) with
  | some n => ({ s with off := s.off + 1 + n, te := s.off + 1 + n }, none)
  | none =>
    ({ s with off := cfg.text.length }, some ⟨.unmatchedBracket, cfg.text.length, some start, some cfg.text.length⟩)

/-- The end of a bad error literal, tokenizer.rs 1228-1245. -/
def badErrorEnd (off : Nat) : Nat :=
  off + 1 + ((cfg.text.drop (off + 1)).takeWhile fun c =>
    !(isEnder c || isWs c || c = '(' || c = '{' || c = '[' || c = '"' || c = '\'')).length

/-- `parse_error`, tokenizer.rs 1179-1254. -/
def parseError (s : St) : St × Option Err :=
  let prefixed := s.hasTok && decide (0 < s.te) && decide (cfg.text[s.te - 1]? = some '!')
  if prefixed && decide (s.te - s.ts ≤ 1) then
    (s, some ⟨.invalidErrorLiteral, s.off, some s.ts, some s.off⟩)
  else
    let s := if prefixed then s.startTok else if s.hasTok then (s.save cfg).startTok else s
    match errorCodes.find? fun e => decide (s.off + e.length ≤ cfg.text.length) && eqIgnoreCase (slice cfg.text s.off (s.off + e.length)) e with
    | some e =>
      ({ s.push .operand .error s.off (s.off + e.length) with off := s.off + e.length }.startTok, none)
    | none => (s, some ⟨.invalidErrorLiteral, s.off, some s.off, some (badErrorEnd cfg s.off)⟩)

/-- `parse_whitespace`, tokenizer.rs 1256-1285. -/
def parseWhite (s : St) : St × Option Err :=
  let s := s.save cfg
  let run := (cfg.text.drop s.off).takeWhile isWs
  let stop := s.off + run.length
  let ty := if run.contains ' ' && prevRef cfg s && startsRef (cfg.text.drop stop) then Ty.opIn else .white
  ({ s.push ty .none s.off stop with off := stop }.startTok, none)

/-- The type of a one-byte operator, tokenizer.rs 1396-1420. -/
def opTy (s : St) (c : Char) : Ty :=
  if c = '@' then .opPre
  else if c = '%' then .opPost
  else if c = '+' ∨ c = '-' then
    if s.spans.isEmpty then .opPre
    else
      match prevTok s with
      | some p => if p.sub = .close ∨ p.ty = .opPost ∨ p.ty = .operand then .opIn else .opPre
      | none => .opPre
  else .opIn

/-- `parse_operator`, tokenizer.rs 1378-1426. -/
def parseOperator (s : St) (c : Char) : St × Option Err :=
  let two := slice cfg.text s.off (s.off + 2)
  if two = ['>', '='] ∨ two = ['<', '='] ∨ two = ['<', '>'] then (s.emit cfg .opIn .none 2, none)
  else (s.emit cfg (opTy (s.save cfg) c) .none 1, none)

/-- `parse_opener`, tokenizer.rs 1428-1464. -/
def parseOpener (s : St) (c : Char) : St × Option Err :=
  let (s, t) : St × Span :=
    if c = '{' then (s.save cfg, ⟨.array, .opn, s.off, s.off + 1⟩)
    else if s.hasTok then ({ s with ts := s.off + 1, te := s.off + 1 }, ⟨.func, .opn, s.ts, s.off + 1⟩)
    else (s, ⟨.paren, .opn, s.off, s.off + 1⟩)
  ({ s with spans := t :: s.spans, stack := t :: s.stack, off := s.off + 1 }.startTok, none)

/-- `parse_closer`, tokenizer.rs 1466-1508. -/
def parseCloser (s : St) (c : Char) : St × Option Err :=
  let s := s.save cfg
  match s.stack with
  | t :: rest =>
    if c ≠ (if t.ty = .array then '}' else ')') then
      (s, some ⟨.mismatchedPair, s.off, some s.off, some (s.off + 1)⟩)
    else
      ({ s.push t.ty .close s.off (s.off + 1) with stack := rest, off := s.off + 1 }.startTok, none)
  | [] => (s, some ⟨.noMatchingOpener, s.off, some s.off, some (s.off + 1)⟩)

/-- The kind of a separator, tokenizer.rs 1516-1543. -/
def sepTy (s : St) (c : Char) : Ty × Sub :=
  let top := s.stack.head?.map (·.ty)
  let inFA := decide (top = some .func ∨ top = some .array)
  let inA := decide (top = some .array)
  if c = ',' then if inFA then (.sep, .arg) else (.opIn, .none)
  else if inA then (.sep, .row)
  else if cfg.openFormula && inFA then (.sep, .arg)
  else if cfg.openFormula then (.opIn, .none)
  else (.sep, .row)

/-- `parse_separator`, tokenizer.rs 1510-1549. -/
def parseSeparator (s : St) (c : Char) : St × Option Err :=
  let k := sepTy cfg s c
  (s.emit cfg k.1 k.2 1, none)

/-- The dispatch on the current byte, tokenizer.rs 888-927. -/
def dispatch (s : St) (c : Char) : St × Option Err :=
  if c = '"' ∨ c = '\'' then parseString cfg s c
  else if c = '[' then parseBrackets cfg s
  else if c = '#' then if hashPostfix cfg s then (s.emit cfg .opPost .none 1, none) else parseError cfg s
  else if isWs c then parseWhite cfg s
  else if c = ':' then if colonInfix cfg s then (s.emit cfg .opIn .none 1, none) else (s.extend 1, none)
  else if "+-*/^&=><%@".toList.contains c then parseOperator cfg s c
  else if c = '{' ∨ c = '(' then parseOpener cfg s c
  else if c = ')' ∨ c = '}' then parseCloser cfg s c
  else if c = ';' ∨ c = ',' then parseSeparator cfg s c
  else (s.extend 1, none)

/-- One round of the main loop, tokenizer.rs 877-927, at byte `c`. -/
def step (s : St) (c : Char) : St × Option Err :=
  if sciHere cfg s then ({ s with off := s.off + 1, te := s.off + 1 }, none)
  else dispatch cfg (if isEnder c && s.hasTok then (s.save cfg).startTok else s) c

/-- The span pushed by `recover_from_error`, tokenizer.rs 972-1066. -/
def recoverSpan (e : Err) : Span :=
  match e.kind with
  | .noMatchingOpener | .mismatchedPair | .unmatchedOpening => ⟨.operand, .none, e.pos, e.pos + 1⟩
  | .unterminatedString => ⟨.operand, .none, e.spanStart.getD e.pos, cfg.text.length⟩
  | .unmatchedBracket => ⟨.operand, .none, e.spanStart.getD e.pos, e.spanEnd.getD cfg.text.length⟩
  | .invalidErrorLiteral => ⟨.operand, .none, e.spanStart.getD e.pos, e.spanEnd.getD (e.pos + 1)⟩

/-- `recover_from_error`, tokenizer.rs 972-1066. -/
def recover (s : St) (e : Err) : St :=
  let p := recoverSpan cfg e
  let s := { s with spans := p :: s.spans, off := p.stop }.startTok
  { s with diags := (p, e.kind) :: s.diags }

/-- The end of the main loop, tokenizer.rs 938-969. -/
def finish (best : Bool) (s : St) : St × Option Err :=
  let s := s.save cfg
  if s.stack.isEmpty then (s, none)
  else if best then
    ({ s with stack := [], diags := ((s.stack.filter fun t => s.spans.contains t).map fun t => (t, Kind.unmatchedOpening)).reverse ++ s.diags }, none)
  else (s, some ⟨.unmatchedOpening, s.off, none, none⟩)

/-- The main loop, tokenizer.rs 876-936. The outer `none` is lack of fuel, which `run_total` excludes. -/
def run (best : Bool) : Nat → St → Option (St × Option Err)
  | 0, _ => none
  | fuel + 1, s =>
    match cfg.text[s.off]? with
    | none => some (finish cfg best s)
    | some c =>
      match step cfg s c with
      | (s', none) => run best fuel s'
      | (s', some e) => if best then run best fuel (recover cfg s' e) else some (s', some e)

/-- State after the leading `=`, tokenizer.rs 873-874. -/
def start : St := ⟨[], [], 1, 1, 1, []⟩

/-- `parse_with_recovery`, tokenizer.rs 858-970. -/
def parse (best : Bool) : Option (St × Option Err) :=
  match cfg.text with
  | [] => some (⟨[], [], 0, 0, 0, []⟩, none)
  | c :: _ =>
    if c = '=' then run cfg best (2 * cfg.text.length + 2) start
    else some (⟨[⟨.literal, .none, 0, cfg.text.length⟩], [], 0, 0, 0, []⟩, none)

/-- `tokenize_spans_with_dialect`, tokenizer.rs 613-620: the spans in order, or an error. -/
def tokenize : Option (Except Err (List Span)) :=
  (parse cfg false).map fun r =>
    match r.2 with
    | none => .ok r.1.spans.reverse
    | some e => .error e

/-- `parse_best_effort`, tokenizer.rs 855-857, with the diagnostics. -/
def bestEffort : Option (List Span × List (Span × Kind)) :=
  (parse cfg true).map fun r => (r.1.spans.reverse, r.1.diags.reverse)

/-- `render`, tokenizer.rs 595-603. -/
def render (f : List Char) (spans : List Span) : List Char := spans.flatMap fun t => slice f t.start t.stop

end Verif.Token
