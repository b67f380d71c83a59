/-!
# Printer and parser (`crates/formualizer-parse/src/pretty.rs`, `parser.rs`)

Formula trees, the canonical printer down to tokens, and the span parser.

Simplifications:
* literals and references are one kind of leaf, `atom`, whose value stands for both the leaf and its token. That a leaf's text
  reads back as the same leaf is the subject of the coordinate, reference and date models, not of this one.
* infix, prefix and postfix operators are enumerations of the operators the tokenizer emits, not strings.
* the printer is given down to the tokens the tokenizer makes of its text (`Verif.Pretty.Text` has the text itself): a `,` is an
  argument separator when the innermost open bracket is a function call or array and the union operator otherwise
  (tokenizer.rs 1501-1540).
* volatility flags and the source tokens kept in the tree are left out.
* a text that does not begin with `=` (one literal token, parser.rs 2470-2492) is left out.
-/

namespace Verif.Pretty

/-- Infix operators, pretty.rs 23-35. -/
inductive Op
  | colon | space | comma | pow | mul | div | add | sub | cat | eq | lt | gt | le | ge | ne
  deriving DecidableEq, Repr

/-- Prefix operators. -/
inductive PreOp
  | plus | minus | at
  deriving DecidableEq, Repr

/-- Postfix operators. -/
inductive PostOp
  | pct | hash
  deriving DecidableEq, Repr

/-- `ASTNodeType`, parser.rs. -/
inductive Ast (α : Type)
  | atom (a : α)
  | omitted
  | pre (op : PreOp) (e : Ast α)
  | post (op : PostOp) (e : Ast α)
  | bin (op : Op) (l r : Ast α)
  | func (name : List Char) (args : List (Ast α))
  | call (callee : Ast α) (args : List (Ast α))
  | arr (rows : List (List (Ast α)))

/-- Tokens by type and subtype, with the text where it matters. -/
inductive Tok (α : Type)
  | operand (a : α)
  | func (name : List Char)
  | funcClose
  | sepArg
  | sepRow
  | pre (op : PreOp)
  | infix (op : Op)
  | post (op : PostOp)
  | lpar
  | rpar
  | arrOpen
  | arrClose
  | ws
  deriving DecidableEq, Repr

variable {α : Type}

/-! ## Printer -/

/-- `infix_info`, precedence; pretty.rs 23-35, and `span_precedence` of infix tokens, parser.rs 2439-2453: the same table. -/
def Op.prec : Op → Nat
  | .colon => 10
  | .space => 9
  | .comma => 8
  | .pow => 5
  | .mul | .div => 4
  | .add | .sub => 3
  | .cat => 2
  | .eq | .lt | .gt | .le | .ge | .ne => 1

/-- `infix_info`, associativity: only `^` is right associative; pretty.rs 23-35, parser.rs 2439-2453. -/
def Op.rightAssoc : Op → Bool
  | .pow => true
  | _ => false

/-- `unary_precedence` of postfix operators, pretty.rs 37-43; parser.rs 2440, 2444. -/
def PostOp.prec : PostOp → Nat
  | .hash => 11
  | .pct => 7

/-- `node_precedence`, pretty.rs 45-52. -/
def nodePrec : Ast α → Nat
  | .bin op _ _ => op.prec
  | .post op _ => op.prec
  | .pre _ _ => 6
  | _ => 10

/-- `matches!(_, BinaryOp)`. -/
def isBin : Ast α → Bool
  | .bin .. => true
  | _ => false

/-- `child_needs_parens`, left side, pretty.rs 54-80. -/
def leftParens (op : Op) (child : Ast α) : Bool :=
  if nodePrec child < op.prec then true
  else if op.prec < nodePrec child then false
  else op.rightAssoc && isBin child

/-- `child_needs_parens`, right side, pretty.rs 54-100. -/
def rightParens (op : Op) (child : Ast α) : Bool :=
  if nodePrec child < op.prec then true
  else if op.prec < nodePrec child then false
  else
    match child with
    | .bin cop _ _ => if op.rightAssoc then decide (cop ≠ op) else decide (cop ≠ op) || decide (op = .sub) || decide (op = .div)
    | _ => false

/-- `unary_operand_needs_parens` for `%` and `#`, pretty.rs 102-105. -/
def postParens (child : Ast α) : Bool := isBin child

/-- `unary_operand_needs_parens` for the prefix operators, pretty.rs 106-110. -/
def preParens (child : Ast α) : Bool := decide (nodePrec child < 6) && isBin child

/-- Whether a callee prints without parentheses, pretty.rs 186-189. -/
def bareCallee : Ast α → Bool
  | .func .. | .call .. => true
  | _ => false

def isOmitted : Ast α → Bool
  | .omitted => true
  | _ => false

/-- `str::to_uppercase` on ASCII letters, pretty.rs 179. -/
def upper (c : Char) : Char := if 'a' ≤ c ∧ c ≤ 'z' then Char.ofNat (c.toNat - 32) else c

/-- The infix operator and the spaces around it, pretty.rs 167-174. `fa`: the innermost open bracket is a call's or an array's. -/
def opToks (fa : Bool) : Op → List (Tok α)
  | .colon => [.infix .colon]
  | .space => [.infix .space]
  | .comma => [if fa then .sepArg else .infix .comma, .ws]
  | op => [.ws, .infix op, .ws]

/-- Separator between arguments: a space unless the next argument is omitted; pretty.rs 129-134. -/
def sepToks (sep : Tok α) (next : Ast α) : List (Tok α) := if isOmitted next then [sep] else [sep, .ws]

mutual
/-- `pretty_print_node`, pretty.rs 141-208. -/
def print (fa : Bool) : Ast α → List (Tok α)
  | .atom a => [.operand a]
  | .omitted => []
  | .pre op e => .pre op :: (if preParens e then .lpar :: print false e ++ [.rpar] else print fa e)
  | .post op e => (if postParens e then .lpar :: print false e ++ [.rpar] else print fa e) ++ [.post op]
  | .bin op l r =>
    (if leftParens op l then .lpar :: print false l ++ [.rpar] else print fa l) ++ opToks fa op ++
    (if rightParens op r then .lpar :: print false r ++ [.rpar] else print fa r)
  | .func name args => .func (name.map upper) :: printArgs .sepArg true args ++ [.funcClose]
  | .call c args =>
    (if bareCallee c then print fa c else .lpar :: print false c ++ [.rpar]) ++ .lpar :: printArgs (.infix .comma) false args ++ [.rpar]
  | .arr rows => .arrOpen :: printRows rows ++ [.arrClose]

/-- `pretty_print_arguments`, pretty.rs 127-139. -/
def printArgs (sep : Tok α) (fa : Bool) : List (Ast α) → List (Tok α)
  | [] => []
  | a :: as => print fa a ++ printMore sep fa as

/-- The arguments after the first, each after its separator. -/
def printMore (sep : Tok α) (fa : Bool) : List (Ast α) → List (Tok α)
  | [] => []
  | a :: as => sepToks sep a ++ print fa a ++ printMore sep fa as

/-- A row of an array, joined by `, `; pretty.rs 198-202. -/
def printRow : List (Ast α) → List (Tok α)
  | [] => []
  | a :: as => print true a ++ printCells as

/-- The cells after the first. -/
def printCells : List (Ast α) → List (Tok α)
  | [] => []
  | a :: as => .sepArg :: .ws :: print true a ++ printCells as

/-- The rows of an array, joined by `; `; pretty.rs 195-207. -/
def printRows : List (List (Ast α)) → List (Tok α)
  | [] => []
  | r :: rs => printRow r ++ printTail rs

/-- The rows after the first. -/
def printTail : List (List (Ast α)) → List (Tok α)
  | [] => []
  | r :: rs => .sepRow :: .ws :: printRow r ++ printTail rs
end

/-! ## Parser -/

/-- `skip_whitespace`, parser.rs. -/
def skipWs : List (Tok α) → List (Tok α)
  | .ws :: ts => skipWs ts
  | ts => ts

/-- Outcome of a parse step: the outer `none` is lack of fuel, which `parse_total` excludes; the inner `none` a parse error. -/
abbrev R (α β : Type) := Option (Option (β × List (Tok α)))

/-- The next minimum precedence, parser.rs 2576-2580. -/
def Op.nextMin (op : Op) : Nat := if op.rightAssoc then op.prec else op.prec + 1

/-- The separator of an argument list: `Sep`/`Arg`, and in a postfix call also the infix `,`; parser.rs 2784-2786, 2854-2855. -/
def isSep (call : Bool) : Tok α → Bool
  | .sepArg => true
  | .infix .comma => call
  | _ => false

/-- The end of an argument list, parser.rs 2787-2788, 2856-2857. -/
def isClose (call : Bool) : Tok α → Bool
  | .rpar => call
  | .funcClose => !call
  | _ => false

mutual
/-- `parse_bp`, parser.rs 2510-2511. `d`: `in_call_args_depth > 0`. -/
def parseBp : Nat → Bool → Nat → List (Tok α) → R α (Ast α)
  | 0, _, _, _ => none
  | n + 1, d, m, ts =>
    match parsePrefix n d ts with
    | some (some (l, ts)) => loop n d m l ts
    | r => r

/-- The loop of `parse_bp`, parser.rs 2513-2596. -/
def loop : Nat → Bool → Nat → Ast α → List (Tok α) → R α (Ast α)
  | 0, _, _, _, _ => none
  | n + 1, d, m, l, ts =>
    match skipWs ts with
    | .lpar :: ts =>
      match parseArgs n true d ts with
      | some (some (args, ts)) => loop n d m (.call l args) ts
      | some none => some none
      | none => none
    | .post op :: rest =>
      if op.prec < m then some (some (l, .post op :: rest))
      else loop n d m (.post op l) rest
    | .infix op :: rest =>
      if (d && decide (op = .comma)) then some (some (l, .infix op :: rest))
      else if op.prec < m then some (some (l, .infix op :: rest))
      else
        match parseBp n d op.nextMin rest with
        | some (some (r, ts)) => loop n d m (.bin op l r) ts
        | some none => some none
        | none => none
    | ts => some (some (l, ts))

/-- `parse_prefix` and `parse_primary`, parser.rs 2606-2680. The arm for functions does not look at the subtype, so a function's
closing token where an expression is expected is read as a call of the function with the empty name. -/
def parsePrefix : Nat → Bool → List (Tok α) → R α (Ast α)
  | 0, _, _ => none
  | n + 1, d, ts =>
    match skipWs ts with
    | .pre op :: ts =>
      match parseBp n d 6 ts with
      | some (some (e, ts)) => some (some (.pre op e, ts))
      | r => r
    | .operand a :: ts => some (some (.atom a, ts))
    | .func name :: ts =>
      match parseArgs n false d ts with
      | some (some (args, ts)) => some (some (.func name args, ts))
      | some none => some none
      | none => none
    | .funcClose :: ts =>
      match parseArgs n false d ts with
      | some (some (args, ts)) => some (some (.func [] args, ts))
      | some none => some none
      | none => none
    | .lpar :: ts =>
      match parseBp n d 0 ts with
      | some (some (e, ts)) =>
        match skipWs ts with
        | .rpar :: ts => some (some (e, ts))
        | _ => some none
      | r => r
    | .arrOpen :: ts =>
      match skipWs ts with
      | .arrClose :: ts => some (some (.arr [], ts))
      | ts =>
        match parseBp n d 0 ts with
        | some (some (e, ts)) =>
          match arrLoop n d [] [e] ts with
          | some (some (rows, ts)) => some (some (.arr rows, ts))
          | some none => some none
          | none => none
        | r => r
    | _ => some none

/-- `parse_function_arguments` and `parse_call_arguments`, parser.rs 2773-2899: the same code but for the separator and the
closing token, and that a call raises `in_call_args_depth`. -/
def parseArgs : Nat → Bool → Bool → List (Tok α) → R α (List (Ast α))
  | 0, _, _, _ => none
  | n + 1, call, d, ts =>
    match skipWs ts with
    | t :: ts' => if isClose call t then some (some ([], ts')) else argsLoop n call (call || d) true false [] (t :: ts')
    | [] => argsLoop n call (call || d) true false [] []

/-- The loop over arguments, parser.rs 2775-2828, 2845-2885. `acc` holds the arguments newest first. -/
def argsLoop : Nat → Bool → Bool → Bool → Bool → List (Ast α) → List (Tok α) → R α (List (Ast α))
  | 0, _, _, _, _, _, _ => none
  | n + 1, call, d, expecting, saw, acc, ts =>
    match skipWs ts with
    | [] => some none
    | t :: ts =>
      if expecting then
        if isClose call t then some (some (((if saw then .omitted :: acc else acc).reverse), ts))
        else if isSep call t then argsLoop n call d true true (.omitted :: acc) ts
        else
          match parseBp n d 0 (t :: ts) with
          | some (some (e, ts)) => argsLoop n call d false true (e :: acc) ts
          | some none => some none
          | none => none
      else if isSep call t then argsLoop n call d true saw acc ts
      else if isClose call t then some (some (acc.reverse, ts))
      else some none

/-- The loop of `parse_array`, parser.rs 2903-2929. `rows` and `row` newest first. When the tokens end before the bracket does, the
unfinished row is dropped and the array returned, as in the code. -/
def arrLoop : Nat → Bool → List (List (Ast α)) → List (Ast α) → List (Tok α) → R α (List (List (Ast α)))
  | 0, _, _, _, _ => none
  | n + 1, d, rows, row, ts =>
    match skipWs ts with
    | [] => some (some (rows.reverse, []))
    | .sepArg :: ts =>
      match parseBp n d 0 ts with
      | some (some (e, ts)) => arrLoop n d rows (e :: row) ts
      | some none => some none
      | none => none
    | .sepRow :: ts =>
      match parseBp n d 0 ts with
      | some (some (e, ts)) => arrLoop n d (row.reverse :: rows) [e] ts
      | some none => some none
      | none => none
    | .arrClose :: ts => some (some ((row.reverse :: rows).reverse, ts))
    | _ => some none
end

/-- Fuel for a token list. -/
def fuel (ts : List (Tok α)) : Nat := 6 * ts.length + 6

/-- `Parser::parse`, parser.rs 2456-2504: the tree, or an error. The outer `none` is lack of fuel. -/
def parse (ts : List (Tok α)) : Option (Option (Ast α)) :=
  match skipWs ts with
  | [] => some none
  | ts =>
    match parseBp (fuel ts) false 0 ts with
    | some (some (e, rest)) =>
      match skipWs rest with
      | [] => some (some e)
      | _ => some none
    | some none => some none
    | none => none

end Verif.Pretty
