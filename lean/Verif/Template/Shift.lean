import Verif.Template.Bind

/-!
Spans that are moved by the insertion and deletion of rows and columns elsewhere (property C68).

Sources: /repo/crates/formualizer-eval/src/engine/eval.rs 13021-13023, 13590-13895 (the arm `SpanShiftPlan::Shift` without a rewrite of the
formula); /repo/crates/formualizer-eval/src/formula_plane/runtime.rs 238-284 (`project_through_axis_shift`), 661-675
(`set_template_anchor`), 744-853 (`TemplateStore`); /repo/crates/formualizer-eval/src/formula_plane/placement.rs 1085-1130
(`commit_prepared_family`).

The stored formulas are given by a function from their numbers in the formula store.  Left out: the rewriting of absolute references,
splits and demotions, generations, read summaries, the list of cells to be computed again.
-/

namespace Verif.Template

variable {F E : Type}

/-- eval.rs 13021-13023, `checked_shift_u32`; runtime.rs 243-245. -/
def shiftU32 (value : Nat) (delta : Int) : Option Nat :=
  if 0 ≤ (value : Int) + delta ∧ (value : Int) + delta ≤ 2 ^ 32 - 1 then some ((value : Int) + delta).toNat else none

/-- runtime.rs 238-284, `project_through_axis_shift`. -/
def Domain.shift (dr dc : Int) : Domain → Option Domain
  | .rowRun r0 r1 c => do
    let r0 ← shiftU32 r0 dr
    let r1 ← shiftU32 r1 dr
    let c ← shiftU32 c dc
    some (.rowRun r0 r1 c)
  | .colRun r c0 c1 => do
    let r ← shiftU32 r dr
    let c0 ← shiftU32 c0 dc
    let c1 ← shiftU32 c1 dc
    some (.colRun r c0 c1)
  | .rect r0 r1 c0 c1 => do
    let r0 ← shiftU32 r0 dr
    let r1 ← shiftU32 r1 dr
    let c0 ← shiftU32 c0 dc
    let c1 ← shiftU32 c1 dc
    some (.rect r0 r1 c0 c1)

/-- runtime.rs 726-742, `TemplateRecord`. -/
structure Rec where
  ast : Nat
  row : Nat
  col : Nat
  exact : Text
  key : Text
deriving DecidableEq

/-- runtime.rs 716-724, `TemplateStore`. -/
structure Templates where
  records : List Rec
  interned : Text → Option Nat

/-- runtime.rs 763-794, `intern_template_parameterized`: a record that has the key is used again. -/
def Templates.intern (t : Templates) (r : Rec) : Templates × Nat :=
  match t.interned r.key with
  | some id => (t, id)
  | none =>
    ({ records := t.records ++ [r]
       interned := fun k => if k = r.key then some t.records.length else t.interned k }, t.records.length)

/-- runtime.rs 816-853, `intern_shifted_origin_clone`. -/
def Templates.shifted (t : Templates) (id row col : Nat) : Option (Templates × Nat) := do
  let src ← t.records[id]?
  if src.row = row ∧ src.col = col then some (t, id)
  else
    let new : Rec :=
      { src with
        row := row
        col := col }
    match t.records.findIdx? (fun r => r == new) with
    | some k => some (t, k)
    | none => some ({ t with records := t.records ++ [new] }, t.records.length)

/-- A span in the plane: its domain, its template, the formula of its constants with its cell and table, the constants, and
whether all cells have one value. -/
structure Placed (F E : Type) where
  domain : Domain
  template : Nat
  ast : Nat
  originRow : Nat
  originCol : Nat
  slots : Nat → Option Nat
  encoding : Encoding F E
  constant : Bool

/-- placement.rs 1085-1130, `commit_prepared_family`; `ast` is the number of the formula of the origin, `exact` its other key. -/
def commit (N : Num F E) (t : Templates) (cands : List (Cand F E)) (ast : Nat) (exact : Text) : Option (Templates × Placed F E) := do
  let s ← prepare N cands
  let first ← cands.head?
  let x := t.intern
    { ast := ast
      row := s.originRow
      col := s.originCol
      exact := exact
      key := first.key }
  some (x.1,
    { domain := s.domain
      template := x.2
      ast := ast
      originRow := s.originRow
      originCol := s.originCol
      slots := slotsOf s.template
      encoding := s.encoding
      constant := s.constant })

/-- The distances of a shift: of the cells, and of the origin of the formula. -/
structure Move where
  row : Int
  col : Int
  originRow : Int
  originCol : Int

/-- eval.rs 13590-13895: the shift of a span whose formula is not rewritten. -/
def shift (t : Templates) (p : Placed F E) (m : Move) : Option (Templates × Placed F E) := do
  let r ← t.records[p.template]?
  let row ← shiftU32 r.row m.originRow
  let col ← shiftU32 r.col m.originCol
  let d ← p.domain.shift m.row m.col
  let x ← t.shifted p.template row col
  let r ← x.1.records[x.2]?
  some (x.1,
    { p with
      domain := d
      template := x.2
      ast := r.ast
      originRow := r.row
      originCol := r.col })

/-- A sequence of shifts.  Between them other spans can be added and moved. -/
inductive Shifts : Templates → Placed F E → List Move → Templates → Placed F E → Prop where
  | refl (t p) : Shifts t p [] t p
  | step {t p m t' p' ms t'' p''} : shift t p m = some (t', p') → Shifts t' p' ms t'' p'' → Shifts t p (m :: ms) t'' p''
  | other {t p t' ms t'' p''} : t.records <+: t'.records → Shifts t' p ms t'' p'' → Shifts t p ms t'' p''

/-- span_eval.rs 266-305, 404-425, `evaluate_task` and `evaluate_placement_value`. -/
def Placed.formulaAt (N : Num F E) (asts : Nat → Fm (Nat × Const F E)) (p : Placed F E) (row col : Nat) : Option (Fm (Const F E)) :=
  if p.constant then some (asts p.ast).plain
  else do
  let vals ← p.encoding.valuesAt N p.domain row col
  effective p.slots vals ((row : Int) + 1 - p.originRow) ((col : Int) + 1 - p.originCol) (asts p.ast)

end Verif.Template
