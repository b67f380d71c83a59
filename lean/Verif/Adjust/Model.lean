/-!
# Adjusting references

`crates/formualizer-eval/src/engine/graph/editor/reference_adjuster.rs`: the structural adjuster (rows or columns inserted
or deleted), the adjuster for copied formulas, the adjuster for moved blocks.

`u32` values are naturals below `2^32`; `add32` and `sub32` wrap as a release build does. The outer `Option` of a result
is `none` when the code panics (`Coord::new` beyond the grid). The `Pin` policy, which only tests use, is left out. Trees
carry no source token and no volatility flag (the adjusters drop the first and copy the second).
-/

namespace Verif.Adjust

/-- `ReferenceType`, crates/formualizer-parse/src/parser.rs 243-290. Rows and columns are 1-based. 3D, external, table
and named references are opaque. -/
inductive Ref
  | cell (sheet : Option String) (row col : Nat) (rowAbs colAbs : Bool)
  | range (sheet : Option String) (sr sc er ec : Option Nat) (sra sca era eca : Bool)
  | opaque (text : String)
  deriving DecidableEq, Inhabited

/-- `ASTNodeType`, parser.rs; literals are opaque except `#REF!`. `orig` is the source text of a reference. -/
inductive Ast
  | lit (text : String)
  | refErr
  | ref (orig : String) (r : Ref)
  | un (op : String) (e : Ast)
  | bin (op : String) (l r : Ast)
  | fn (name : String) (args : List Ast)
  | call (callee : Ast) (args : List Ast)
  | arr (rows : List (List Ast))
  deriving Inhabited

/-- `ShiftOperation`, reference_adjuster.rs 69-90; positions are 0-based. -/
inductive Shift
  | insRows (sheet before count : Nat)
  | delRows (sheet start count : Nat)
  | insCols (sheet before count : Nat)
  | delCols (sheet start count : Nat)
  deriving DecidableEq

def Shift.sheet : Shift → Nat
  | .insRows s _ _ => s
  | .delRows s _ _ => s
  | .insCols s _ _ => s
  | .delCols s _ _ => s

def two32 : Nat := 4294967296
/-- `ROW_MAX`, `COL_MAX`: crates/formualizer-common/src/coord.rs 9-12. -/
def rowMax : Nat := 1048575
def colMax : Nat := 16383

def add32 (a b : Nat) : Nat := (a + b) % two32
def sub32 (a b : Nat) : Nat := (a + two32 - b) % two32

/-- `Coord::new`, coord.rs 252-262: panics beyond the grid. -/
def coordNew (row col : Nat) : Option (Nat × Nat) := if row ≤ rowMax ∧ col ≤ colMax then some (row, col) else none

/-- `ReferenceAdjustment`, reference_adjuster.rs 63-66. -/
inductive Adj
  | ref (r : Ref)
  | invalid
  deriving DecidableEq

/-- `adjust_cell_ref_with_policy`, reference_adjuster.rs 290-388, for a cell on the operation's sheet. The inner `none`
is "deleted". -/
def adjustCell (row col : Nat) : Shift → Option (Option (Nat × Nat))
  | .insRows _ before count =>
    if row < before then some (some (row, col)) else (coordNew (add32 row count) col).map some
  | .delRows _ start count =>
    if row ≥ start ∧ row < add32 start count then some none
    else if row ≥ add32 start count then (coordNew (sub32 row count) col).map some
    else some (some (row, col))
  | .insCols _ before count =>
    if col < before then some (some (row, col)) else (coordNew row (add32 col count)).map some
  | .delCols _ start count =>
    if col ≥ start ∧ col < add32 start count then some none
    else if col ≥ add32 start count then (coordNew row (sub32 col count)).map some
    else some (some (row, col))

/-- `adjust_insert`, reference_adjuster.rs 459-467. -/
def insertBound (before count i : Nat) : Nat := if i ≥ before then add32 i count else i

/-- `adjust_delete`, reference_adjuster.rs 469-479. -/
def deleteBound (start count i : Nat) : Nat :=
  if i ≥ add32 start count then sub32 i count else if i ≥ start then start else i

/-- Bounds of one axis after a deletion, reference_adjuster.rs 486-531 and 540-585 (the two copies agree). `none` is
"invalidated". -/
def deleteAxis (start count : Nat) : Option Nat → Option Nat → Option (Option Nat × Option Nat)
  | some s, some e =>
    if e < start ∨ s ≥ add32 start count then
      some (some (if s ≥ add32 start count then sub32 s count else s),
            some (if e ≥ add32 start count then sub32 e count else e))
    else if s ≥ start ∧ e < add32 start count then none
    else
      some (some (if s < start then s else start),
            some (if e ≥ add32 start count then sub32 e count else start - 1))
  | s, e => some (s.map (deleteBound start count), e.map (deleteBound start count))

/-- Bounds of one axis after an insertion, reference_adjuster.rs 482-485 and 536-539. -/
def insertAxis (before count : Nat) (s e : Option Nat) : Option Nat × Option Nat :=
  (s.map (insertBound before count), e.map (insertBound before count))

/-- `checked_sub(1)` of an optional bound in `to_sheet_ref_lossy`, parser.rs 526-545: `none` is failure. -/
def bound0 : Option Nat → Option (Option Nat)
  | none => some none
  | some 0 => none
  | some (i + 1) => some (some i)

/-- `RangeOrder` of `from_parts`, crates/formualizer-common/src/address.rs 452-461. -/
def ordered : Option Nat → Option Nat → Bool
  | some a, some b => decide (a ≤ b)
  | _, _ => true

/-- The range part of `to_sheet_ref_lossy`, parser.rs 511-548: 0-based bounds. -/
def rangeBounds (sr sc er ec : Option Nat) : Option (Option Nat × Option Nat × Option Nat × Option Nat) :=
  match bound0 sr, bound0 sc, bound0 er, bound0 ec with
  | some sr, some sc, some er, some ec => if ordered sr er && ordered sc ec then some (sr, sc, er, ec) else none
  | _, _, _, _ => none

/-- `i + 1` of an optional bound, reference_adjuster.rs 591-594. -/
def bound1 (b : Option Nat) : Option Nat := b.map fun i => add32 i 1

/-- The binding of sheet names, `ReferenceContext::reference_sheet_id`, reference_adjuster.rs 54-59. -/
abbrev Ctx := Option String → Option Nat

/-- reference_adjuster.rs 406-410: there is a context and the reference binds elsewhere. -/
def foreign (ctx : Option Ctx) (sheet : Option String) (s : Nat) : Bool :=
  match ctx with
  | some c => decide (c sheet ≠ some s)
  | none => false

/-- `adjust_reference`, reference_adjuster.rs 391-603. Without a context every reference binds to the operation's sheet. -/
def adjustRef (ctx : Option Ctx) (op : Shift) : Ref → Option Adj
  | .opaque t => some (.ref (.opaque t))
  | .cell sheet row col ra ca =>
    if foreign ctx sheet op.sheet then some (.ref (.cell sheet row col ra ca))
    else
      match row, col with
      | row0 + 1, col0 + 1 =>
        (coordNew row0 col0).bind fun _ =>
          (adjustCell row0 col0 op).map fun r =>
            match r with
            | none => .invalid
            | some (r, c) => .ref (.cell sheet (add32 r 1) (add32 c 1) ra ca)
      | row, col => some (.ref (.cell sheet row col ra ca))
  | .range sheet sr sc er ec sra sca era eca =>
    if foreign ctx sheet op.sheet then
      some (.ref (.range sheet sr sc er ec sra sca era eca))
    else
      match rangeBounds sr sc er ec with
      | none => some (.ref (.range sheet sr sc er ec sra sca era eca))
      | some (sr, sc, er, ec) =>
        let rows := match op with
          | .insRows _ before count => some (insertAxis before count sr er)
          | .delRows _ start count => deleteAxis start count sr er
          | _ => some (sr, er)
        let cols := match op with
          | .insCols _ before count => some (insertAxis before count sc ec)
          | .delCols _ start count => deleteAxis start count sc ec
          | _ => some (sc, ec)
        match rows, cols with
        | some (sr, er), some (sc, ec) =>
          some (.ref (.range sheet (bound1 sr) (bound1 sc) (bound1 er) (bound1 ec) sra sca era eca))
        | _, _ => some .invalid

mutual
/-- `adjust_ast_if_changed_inner`, reference_adjuster.rs 171-257. `f` is `adjust_reference`, `norm` is
`ReferenceType::normalise`. Outer `none`: panic; inner `none`: unchanged. -/
def adjust (norm : Ref → String) (f : Ref → Option Adj) : Ast → Option (Option Ast)
  | .lit _ => some none
  | .refErr => some none
  | .ref _ r =>
    (f r).map fun a =>
      match a with
      | .ref r' => if r' = r then none else some (.ref (norm r') r')
      | .invalid => some .refErr
  | .un op e => (adjust norm f e).map fun e' => e'.map (.un op)
  | .bin op l r =>
    (adjust norm f l).bind fun l' =>
      (adjust norm f r).map fun r' =>
        match l', r' with
        | none, none => none
        | l', r' => some (.bin op (l'.getD l) (r'.getD r))
  | .fn name args => (adjustList norm f args).map fun p => if p.2 then some (.fn name p.1) else none
  | .call callee args =>
    (adjust norm f callee).bind fun c' =>
      (adjustList norm f args).map fun p =>
        match c', p.2 with
        | none, false => none
        | c', _ => some (.call (c'.getD callee) p.1)
  | .arr rows => (adjustRows norm f rows).map fun p => if p.2 then some (.arr p.1) else none
/-- `adjust_children`, reference_adjuster.rs 259-280. -/
def adjustList (norm : Ref → String) (f : Ref → Option Adj) : List Ast → Option (List Ast × Bool)
  | [] => some ([], false)
  | x :: xs =>
    (adjust norm f x).bind fun x' =>
      (adjustList norm f xs).map fun p =>
        match x' with
        | some y => (y :: p.1, true)
        | none => (x :: p.1, p.2)
/-- The rows of an array, reference_adjuster.rs 234-248. -/
def adjustRows (norm : Ref → String) (f : Ref → Option Adj) : List (List Ast) → Option (List (List Ast) × Bool)
  | [] => some ([], false)
  | x :: xs =>
    (adjustList norm f x).bind fun q =>
      (adjustRows norm f xs).map fun p => (q.1 :: p.1, q.2 || p.2)
end

/-- `adjust_ast_in_context`, reference_adjuster.rs 132-150: the old tree when nothing changed. -/
def adjustAst (norm : Ref → String) (ctx : Option Ctx) (op : Shift) (t : Ast) : Option Ast :=
  (adjust norm (adjustRef ctx op) t).map fun o => o.getD t

/-! ## Copied formulas -/

/-- `(x as i32 + off).max(0) as u32`, reference_adjuster.rs 692, 697, 715; 0-based indices and offsets are small, so the
`i32` sum does not overflow. -/
def offsetIndex (x : Nat) (off : Int) : Nat := ((x : Int) + off).toNat

/-- `RelativeReferenceAdjuster::adjust_reference`, reference_adjuster.rs 671-743. -/
def copyRef (dr dc : Int) : Ref → Option Ref
  | .opaque t => some (.opaque t)
  | .cell sheet row col ra ca =>
    match row, col with
    | row0 + 1, col0 + 1 =>
      (coordNew row0 col0).map fun _ =>
        .cell sheet ((if ra then row0 else offsetIndex row0 dr) + 1) ((if ca then col0 else offsetIndex col0 dc) + 1) ra ca
    | row, col => some (.cell sheet row col ra ca)
  | .range sheet sr sc er ec sra sca era eca =>
    match rangeBounds sr sc er ec with
    | none => some (.range sheet sr sc er ec sra sca era eca)
    | some (sr, sc, er, ec) =>
      let axis (abs : Bool) (off : Int) (b : Option Nat) : Option Nat :=
        b.map fun i => (if abs then i else offsetIndex i off) + 1
      some (.range sheet (axis sra dr sr) (axis sca dc sc) (axis era dr er) (axis eca dc ec)
        (sr.isSome && sra) (sc.isSome && sca) (er.isSome && era) (ec.isSome && eca))

mutual
/-- `adjust_formula`, reference_adjuster.rs 626-669: calls and arrays are returned as they are. -/
def copyAst (dr dc : Int) : Ast → Option Ast
  | .ref o r => (copyRef dr dc r).map (.ref o)
  | .bin op l r => (copyAst dr dc l).bind fun l => (copyAst dr dc r).map fun r => .bin op l r
  | .un op e => (copyAst dr dc e).map (.un op)
  | .fn name args => (copyList dr dc args).map (.fn name)
  | t => some t
def copyList (dr dc : Int) : List Ast → Option (List Ast)
  | [] => some []
  | x :: xs => (copyAst dr dc x).bind fun x => (copyList dr dc xs).map fun xs => x :: xs
end

/-! ## Moved blocks -/

/-- `MoveReferenceAdjuster`, reference_adjuster.rs 749-760. -/
structure Move where
  fromSheet : Nat
  fromName : String
  r0 : Nat
  c0 : Nat
  r1 : Nat
  c1 : Nat
  toSheet : Nat
  toName : String
  dr : Int
  dc : Int

/-- `sheet_matches_source`, reference_adjuster.rs 918-924. -/
def Move.matchesSource (m : Move) (home : Nat) : Option String → Bool
  | some n => decide (n = m.fromName)
  | none => decide (home = m.fromSheet)

/-- The sheet of a moved reference, reference_adjuster.rs 957-961 and 1007-1011. -/
def Move.newSheet (m : Move) (sheet : Option String) : Option String :=
  if m.toSheet ≠ m.fromSheet then some m.toName else sheet

/-- `MoveReferenceAdjuster::adjust_reference`, reference_adjuster.rs 911-1030; inner `none`: unchanged. -/
def Move.ref (m : Move) (home : Nat) : Ref → Option (Option Ref)
  | .opaque _ => some none
  | .cell sheet row col ra ca =>
    if m.matchesSource home sheet then
      match row, col with
      | row0 + 1, col0 + 1 =>
        (coordNew row0 col0).map fun _ =>
          if row0 < m.r0 ∨ row0 > m.r1 ∨ col0 < m.c0 ∨ col0 > m.c1 then none
          else some (.cell (m.newSheet sheet) (offsetIndex row0 m.dr + 1) (offsetIndex col0 m.dc + 1) ra ca)
      | _, _ => some none
    else some none
  | .range sheet sr sc er ec sra sca era eca =>
    if m.matchesSource home sheet then
      match rangeBounds sr sc er ec with
      | some (some sr, some sc, some er, some ec) =>
        if sr ≥ m.r0 ∧ er ≤ m.r1 ∧ sc ≥ m.c0 ∧ ec ≤ m.c1 then
          some (some (.range (m.newSheet sheet) (some (offsetIndex sr m.dr + 1)) (some (offsetIndex sc m.dc + 1))
            (some (offsetIndex er m.dr + 1)) (some (offsetIndex ec m.dc + 1)) sra sca era eca))
        else some none
      | _ => some none
    else some none

mutual
/-- `adjust_ast_inner`, reference_adjuster.rs 798-909: calls are returned as they are. -/
def Move.ast (m : Move) (home : Nat) : Ast → Option (Ast × Bool)
  | .ref o r => (m.ref home r).map fun r' => match r' with
    | some r' => (.ref o r', true)
    | none => (.ref o r, false)
  | .bin op l r =>
    (Move.ast m home l).bind fun l' => (Move.ast m home r).map fun r' =>
      if l'.2 || r'.2 then (.bin op l'.1 r'.1, true) else (.bin op l r, false)
  | .un op e => (Move.ast m home e).map fun e' => if e'.2 then (.un op e'.1, true) else (.un op e, false)
  | .fn name args => (Move.list m home args).map fun p => if p.2 then (.fn name p.1, true) else (.fn name args, false)
  | .arr rows => (Move.rows m home rows).map fun p => if p.2 then (.arr p.1, true) else (.arr rows, false)
  | t => some (t, false)
def Move.list (m : Move) (home : Nat) : List Ast → Option (List Ast × Bool)
  | [] => some ([], false)
  | x :: xs => (Move.ast m home x).bind fun x' => (Move.list m home xs).map fun p => (x'.1 :: p.1, x'.2 || p.2)
def Move.rows (m : Move) (home : Nat) : List (List Ast) → Option (List (List Ast) × Bool)
  | [] => some ([], false)
  | x :: xs => (Move.list m home x).bind fun x' => (Move.rows m home xs).map fun p => (x'.1 :: p.1, x'.2 || p.2)
end

end Verif.Adjust
