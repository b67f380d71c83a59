import Verif.Pretty.Props
import Verif.Token.Props

/-!
# From text to tokens: tokenizing what the printer prints

The printer's text (`pretty.rs`), the reading of a token span as a parser token (`parser.rs` 2400-2423), and the proof that the
tokenizer turns the printed text of a formula into exactly the tokens `print` gives.
-/

namespace Verif.Pretty

open Verif.Token

variable {α : Type}

/-! ## The printer's text -/

/-- The text of an infix operator. -/
def Op.text : Op → List Char
  | .colon => [':']
  | .space => [' ']
  | .comma => [',']
  | .pow => ['^']
  | .mul => ['*']
  | .div => ['/']
  | .add => ['+']
  | .sub => ['-']
  | .cat => ['&']
  | .eq => ['=']
  | .lt => ['<']
  | .gt => ['>']
  | .le => ['<', '=']
  | .ge => ['>', '=']
  | .ne => ['<', '>']

def PreOp.char : PreOp → Char
  | .plus => '+'
  | .minus => '-'
  | .at => '@'

def PostOp.char : PostOp → Char
  | .pct => '%'
  | .hash => '#'

/-- The operator with the spaces around it, pretty.rs 167-174. -/
def opText : Op → List Char
  | .colon => [':']
  | .space => [' ']
  | .comma => [',', ' ']
  | op => ' ' :: op.text ++ [' ']

/-- pretty.rs 129-134. -/
def sepText (next : Ast α) : List Char := if isOmitted next then [','] else [',', ' ']

/-- `format!("({s})")` or `s`. -/
def paren (b : Bool) (s : List Char) : List Char := if b then '(' :: s ++ [')'] else s

mutual
/-- `pretty_print_node`, pretty.rs 141-208. `show` gives the text of a literal or reference. -/
def text (shw : α → List Char) : Ast α → List Char
  | .atom a => shw a
  | .omitted => []
  | .pre op e => op.char :: paren (preParens e) (text shw e)
  | .post op e => paren (postParens e) (text shw e) ++ [op.char]
  | .bin op l r => paren (leftParens op l) (text shw l) ++ opText op ++ paren (rightParens op r) (text shw r)
  | .func name args => name.map upper ++ '(' :: textArgs shw args ++ [')']
  | .call c args => paren (!bareCallee c) (text shw c) ++ '(' :: textArgs shw args ++ [')']
  | .arr rows => '{' :: textRows shw rows ++ ['}']

/-- `pretty_print_arguments`, pretty.rs 127-139. -/
def textArgs (shw : α → List Char) : List (Ast α) → List Char
  | [] => []
  | a :: as => text shw a ++ textMore shw as

def textMore (shw : α → List Char) : List (Ast α) → List Char
  | [] => []
  | a :: as => sepText a ++ text shw a ++ textMore shw as

def textRow (shw : α → List Char) : List (Ast α) → List Char
  | [] => []
  | a :: as => text shw a ++ textCells shw as

def textCells (shw : α → List Char) : List (Ast α) → List Char
  | [] => []
  | a :: as => ',' :: ' ' :: text shw a ++ textCells shw as

def textRows (shw : α → List Char) : List (List (Ast α)) → List Char
  | [] => []
  | r :: rs => textRow shw r ++ textTail shw rs

def textTail (shw : α → List Char) : List (List (Ast α)) → List Char
  | [] => []
  | r :: rs => ';' :: ' ' :: textRow shw r ++ textTail shw rs
end

/-- `canonical_formula`, pretty.rs 220-222. -/
def canonical (shw : α → List Char) (e : Ast α) : List Char := '=' :: text shw e

/-! ## Reading spans -/

/-- The infix operator with a text; a run of white space is the intersection operator, parser.rs 2400-2413. -/
def infixOf (v : List Char) : Option Op :=
  if v.contains ' ' && v.all isWs then some .space
  else [Op.colon, .comma, .pow, .mul, .div, .add, .sub, .cat, .eq, .lt, .gt, .le, .ge, .ne].find? fun op => decide (op.text = v)

/-- A token span as the parser sees it; `dec` is `parse_operand`, parser.rs 2686-2741. -/
def toTok (dec : Sub → List Char → α) (f : List Char) (t : Span) : Option (Tok α) :=
  let v := slice f t.start t.stop
  match t.ty with
  | .operand => some (.operand (dec t.sub v))
  | .func => if t.sub = .opn then some (.func v.dropLast) else if t.sub = .close then some .funcClose else none
  | .paren => if t.sub = .opn then some .lpar else if t.sub = .close then some .rpar else none
  | .array => if t.sub = .opn then some .arrOpen else if t.sub = .close then some .arrClose else none
  | .sep => if t.sub = .arg then some .sepArg else if t.sub = .row then some .sepRow else none
  | .opPre => ([PreOp.plus, .minus, .at].find? fun op => decide ([op.char] = v)).map .pre
  | .opIn => (infixOf v).map .infix
  | .opPost => ([PostOp.pct, .hash].find? fun op => decide ([op.char] = v)).map .post
  | .white => some .ws
  | .literal => none

/-- The parser's tokens of a text. `none` is an error of the tokenizer. -/
def tokensOf (dec : Sub → List Char → α) (cfg : Cfg) : Option (List (Tok α)) :=
  match tokenize cfg with
  | some (.ok spans) => spans.mapM (toTok dec cfg.text)
  | _ => none

/-- `parse`, parser.rs 3049-3063: tokenize, then parse the tokens. `none` is an error of either. -/
def parseFormula (dec : Sub → List Char → α) (cfg : Cfg) : Option (Ast α) :=
  match tokensOf dec cfg with
  | some ts => (Pretty.parse ts).join
  | none => none

/-! ## Texts of literals and references -/

/-- A character with no meaning of its own to the tokenizer. -/
def plain (c : Char) : Bool := !("\"'[#:{}();, \t\r\n+-*/^&=><%@".toList.contains c)

/-- Doubling of a delimiter inside its quotes. -/
def escape (d : Char) : List Char → List Char
  | [] => []
  | c :: r => if c = d then c :: c :: escape d r else c :: escape d r

/-- A name, number, logical or cell reference, with a plain or quoted sheet prefix or without. -/
inductive Simple : List Char → Prop
  | word (w : List Char) : w ≠ [] → (∀ c ∈ w, plain c = true) → Simple w
  | quoted (q w : List Char) : (∀ c ∈ w, plain c = true) → Simple ('\'' :: escape '\'' q ++ '\'' :: '!' :: w)

/-- The texts of leaves the round trip covers. -/
inductive LeafText : List Char → Prop
  | simple (v : List Char) : Simple v → LeafText v
  | range (u w : List Char) : Simple u → u.getLast? ≠ some '!' → '[' ∉ u → w ≠ [] → (∀ c ∈ w, plain c = true) → '!' ∉ w → LeafText (u ++ ':' :: w)
  | str (q : List Char) : LeafText ('"' :: escape '"' q ++ ['"'])
  | err (e : List Char) : e ∈ errorCodes → LeafText e

/-- A range text, after which `:` is an operator. -/
def ColonOk (v : List Char) : Prop := ∃ u w, v = u ++ ':' :: w ∧ Simple u ∧ '!' ∉ w

/-- A reference text, after which `#` is the spill operator. -/
def HashOk (isNum : List Char → Bool) (v : List Char) : Prop :=
  Simple v ∧ v.getLast? ≠ some '!' ∧ subtype isNum v = .range

/-- A text that looks like the beginning of a reference. -/
def RefStart (v : List Char) : Prop := ∃ c, v.head? = some c ∧ (c = '(' ∨ c = '[' ∨ c = '\'' ∨ c = '$' ∨ isAlpha c = true)

/-- The leaf whose text ends the text of a tree, if a leaf does. -/
def lastAtom : Ast α → Option α
  | .atom a => some a
  | .pre _ e => if preParens e then none else lastAtom e
  | .bin op _ r => if rightParens op r then none else lastAtom r
  | _ => none

section
variable (isNum : List Char → Bool) (dec : Sub → List Char → α) (shw : α → List Char)

mutual
/-- Trees whose text the tokenizer splits as printed: leaves with texts as above that read back, `:`, `#` and the intersection
operator where the tokenizer takes them for operators, and plain function names. -/
def Spelt : Ast α → Prop
  | .atom a => LeafText (shw a) ∧ dec (subtype isNum (shw a)) (shw a) = a
  | .omitted => True
  | .pre _ e => Spelt e
  | .post op e => Spelt e ∧ (op = .hash → postParens e = false → ∀ a, lastAtom e = some a → HashOk isNum (shw a))
  | .bin op l r => Spelt l ∧ Spelt r ∧
      (op = .colon → leftParens op l = false → ∀ a, lastAtom l = some a → ColonOk (shw a)) ∧
      (op = .space → (leftParens op l = false → ∀ a, lastAtom l = some a → refOperand isNum (shw a) = true) ∧
        RefStart (paren (rightParens op r) (text shw r)))
  | .func name args => name ≠ [] ∧ (∀ c ∈ name.map upper, plain c = true) ∧ SpeltL args
  | .call c args => Spelt c ∧ SpeltL args
  | .arr rows => SpeltLL rows

def SpeltL : List (Ast α) → Prop
  | [] => True
  | a :: as => Spelt a ∧ SpeltL as

def SpeltLL : List (List (Ast α)) → Prop
  | [] => True
  | r :: rs => SpeltL r ∧ SpeltLL rs
end
end

end Verif.Pretty
