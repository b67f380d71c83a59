/-
Property C69: where evaluation in groups gives other values or other formats, and examples.
-/
import Verif.Template.MemoFinal

namespace Verif.Template

/-! ### Functions -/

/-- The numbers of the rows `n`, `n + 1`, … that count. -/
def sumRows (take : Nat → Bool) (value : Nat → Int) : Nat → Int
  | 0 => 0
  | n + 1 => sumRows take value n + (if take n then value n else 0)

/-- A column as an argument: its first row, its column and the number of its rows. -/
def columnOf : Option (Arg (Int × Option Nat)) → Option (Nat × Nat × Nat)
  | some (.ref (.range _ (some sr) (some sc) (some er) (some _) _ _ _ _)) => some (sr, sc, er + 1 - sr)
  | _ => none

/-- A number as an argument. -/
def numberOf : Option (Arg (Int × Option Nat)) → Option Int
  | some (.val v) => some v.1
  | _ => none

/-- A cell as an argument. -/
def cellOf : Option (Arg (Int × Option Nat)) → Option (Nat × Nat)
  | some (.ref (.cell _ r c _ _)) => some (r, c)
  | _ => none

/-- criteria_aggregates.rs 110-132, range_view.rs 286-302: `SUMIF` with a column as its range, a number as its criterion and a cell as the target; the
target is taken as long as the range, from its first cell on.  Other calls give 0. -/
def sumIf (cell : Nat → Nat → Int) (args : List (Arg (Int × Option Nat))) : Int :=
  match columnOf args[0]?, numberOf args[1]?, cellOf args[2]? with
  | some (sr, sc, n), some v, some (r, c) => sumRows (fun i => decide (cell (sr + i) sc = v)) (fun i => cell (r + i) c) n
  | _, _, _ => 0

/-- A sheet with the given numbers and formats; `+` keeps the format of its left operand. -/
def numbers (cell : Nat → Nat → Int) (format : Nat → Nat → Option Nat) : World Int (Int × Option Nat) where
  const v := (v, none)
  empty := (0, none)
  cell _ r c := (cell r c, format r c)
  area _ := (0, none)
  unary _ v := (-v.1, none)
  binary _ a b := (a.1 + b.1, a.2)
  range _ _ := (0, none)
  fn _ args := (sumIf cell args, none)

/-- The literal of a result; the second part tells whether it is a date, which no number in a sheet is. -/
def plainLiteral (v : Int × Option Nat) : Int × Bool := (v.1, false)

/-- A number with the format 14 is read as a date. -/
def asDate (l : Int × Bool) (f : Option Nat) : Int × Bool := (l.1, decide (f = some 14))

/-- All arguments but the first of a function are values or criteria. -/
def laterArgs (_ : Fn) (i : Nat) : Bool := decide (i ≠ 0)

/-- The cells of a column from the first row on. -/
def placesOf (n c : Nat) : List Place := (List.range n).map fun i => (i, c)

theorem places_nodup (n c : Nat) : (placesOf n c).Nodup := by
  refine List.Pairwise.map _ (fun a b h k => h (Prod.mk.inj k).1) List.nodup_range

/-! ### Formats -/

/-- A sheet of the date 45000. -/
def dates : World Int (Int × Option Nat) := numbers (fun _ _ => 45000) (fun _ _ => some 14)

/-- A sheet without functions that look beyond their arguments: with no calls of `SUMIF` that have a target. -/
theorem dates_honest : dates.Honest plainLiteral laterArgs where
  unary op a b h := by
    have : a.1 = b.1 := (Prod.mk.inj h).1
    simp [plainLiteral, dates, numbers, this]
  binary op a b c d h k := by
    have h : a.1 = b.1 := (Prod.mk.inj h).1
    have k : c.1 = d.1 := (Prod.mk.inj k).1
    simp [plainLiteral, dates, numbers, h, k]
  range a b c d _ _ := rfl
  fn f as bs hl h := by
    have h0 : columnOf as[0]? = columnOf bs[0]? := by
      cases ha : as[0]? with
      | none => rw [List.getElem?_eq_none_iff] at ha; rw [List.getElem?_eq_none (by omega)]
      | some a =>
        have := (List.getElem?_eq_some_iff.1 ha).1
        have hb := List.getElem?_eq_getElem (l := bs) (i := 0) (by omega)
        have := h 0 a _ ha hb
        rw [hb]
        cases a <;> cases hq : bs[0] <;> rw [hq] at this <;> simp only [ArgSame] at this
        · rfl
        · rcases this with rfl | this
          · rfl
          · cases this.1
    have h1 : numberOf as[1]? = numberOf bs[1]? := by
      cases ha : as[1]? with
      | none => rw [List.getElem?_eq_none_iff] at ha; rw [List.getElem?_eq_none (by omega)]
      | some a =>
        have := (List.getElem?_eq_some_iff.1 ha).1
        have hb := List.getElem?_eq_getElem (l := bs) (i := 1) (by omega)
        have := h 1 a _ ha hb
        rw [hb]
        cases a <;> cases hq : bs[1] <;> rw [hq] at this <;> simp only [ArgSame] at this
        · exact congrArg some (Prod.mk.inj this).1
        · rfl
    have h2 : (cellOf as[2]?).isSome = (cellOf bs[2]?).isSome := by
      cases ha : as[2]? with
      | none => rw [List.getElem?_eq_none_iff] at ha; rw [List.getElem?_eq_none (by omega)]
      | some a =>
        have := (List.getElem?_eq_some_iff.1 ha).1
        have hb := List.getElem?_eq_getElem (l := bs) (i := 2) (by omega)
        have := h 2 a _ ha hb
        rw [hb]
        cases a <;> cases hq : bs[2] <;> rw [hq] at this <;> simp only [ArgSame] at this
        · rfl
        · rcases this with rfl | ⟨-, k, k', -⟩
          · rfl
          · rename_i r s
            cases r <;> cases s <;> first | rfl | contradiction
    have : sumIf (fun _ _ => 45000) as = sumIf (fun _ _ => 45000) bs := by
      unfold sumIf
      rw [h0, h1]
      cases columnOf bs[0]? <;> cases numberOf bs[1]? <;> cases hx : cellOf as[2]? <;> cases hy : cellOf bs[2]? <;> rw [hx, hy] at h2 <;>
        first | rfl | cases h2
    show (_, false) = (_, false)
    rw [show ((dates.fn f as).1 : Int) = sumIf (fun _ _ => 45000) as from rfl, this]
    rfl

/-- `=A1+1`, without a node for the constant. -/
def next : Fm (Nat × Int) := .binary ['+'] (.ref (.cell none 1 1 false false)) (.lit (0, 1))

/-- The span of `=A1+1` in `B1:B100`. -/
def nextTask : Task Int := Task.fresh laterArgs next 1 2 fun _ _ => some [1]

/-- The key of a cell of the span. -/
def nextKey (p : Place) : Option (List (Atom Int (Int × Bool))) := nextTask.key dates plainLiteral p.1 p.2

/-- The result of a cell of the span. -/
def nextResult (p : Place) : Option (Int × Option Nat) := nextTask.result dates p.1 p.2

/-- An empty sheet. -/
def blank : Sheet (Int × Bool) := ⟨fun _ => none, fun _ => none⟩

/-- The fields of what is written. -/
def Writes.both {L : Type} (x : Writes L) : List (Place × L) × List (Place × Option Nat) := (x.values, x.formats)

theorem next_groups : (groups nextKey (placesOf 100 1) []).map (fun gs => gs.map fun g => (g.first, g.places)) = some [((0, 1), placesOf 100 1)] := by
  decide +kernel

theorem next_writes : ((groups nextKey (placesOf 100 1) []).bind (writeGroups nextResult plainLiteral Prod.snd)).map Writes.both =
    some ((placesOf 100 1).map (fun p => (p, (45001, false))), [((0, 1), some 14)]) := by decide +kernel

theorem next_each : (writeEach nextResult plainLiteral Prod.snd (placesOf 100 1)).map Writes.both =
    some ((placesOf 100 1).map (fun p => (p, (45001, false))), (placesOf 100 1).map fun p => (p, some 14)) := by decide +kernel

/-- Evaluation in groups gives other dates: `=A1+1` in `B1:B100`, with one date in `A1:A100`.  All cells have one key.  `B1` is read as a date, `B2` as a
number; evaluated on its own, `B2` is read as a date. -/
theorem dates_lost : ∃ x y, (groups nextKey (placesOf 100 1) []).bind (writeGroups nextResult plainLiteral Prod.snd) = some x ∧
    writeEach nextResult plainLiteral Prod.snd (placesOf 100 1) = some y ∧ (blank.apply x).read asDate (0, 1) = some (45001, true) ∧
    (blank.apply x).read asDate (1, 1) = some (45001, false) ∧ (blank.apply y).read asDate (1, 1) = some (45001, true) := by
  obtain ⟨x, hx, h⟩ := Option.map_eq_some_iff.1 next_writes
  obtain ⟨y, hy, k⟩ := Option.map_eq_some_iff.1 next_each
  refine ⟨x, y, hx, hy, ?_⟩
  cases x
  cases y
  cases h
  cases k
  refine ⟨?_, ?_, ?_⟩ <;> decide +kernel

/-- The hypotheses of `memo_reads` hold for this span. -/
example : ∃ gs x y, groups nextKey (placesOf 100 1) [] = some gs ∧ writeGroups nextResult plainLiteral Prod.snd gs = some x ∧
    writeEach nextResult plainLiteral Prod.snd (placesOf 100 1) = some y ∧ (placesOf 100 1).Nodup ∧ dates.Honest plainLiteral laterArgs ∧
    (1, 1) ∈ placesOf 100 1 ∧ (1, 1) ∉ gs.map Group.first := by
  obtain ⟨gs, hg, k⟩ := Option.map_eq_some_iff.1 next_groups
  obtain ⟨x, y, hx, hy, -⟩ := dates_lost
  rw [hg] at hx
  refine ⟨gs, x, y, hg, hx, hy, places_nodup _ _, dates_honest, by decide +kernel, ?_⟩
  have : gs.map Group.first = [(0, 1)] := by
    have := congrArg (List.map Prod.fst) k
    simpa [Function.comp_def] using this
  rw [this]
  decide

/-- The same in a span of one value: `=$A$1+1` in `B1:B2`, with a date in `A1`. -/
theorem dates_lost_fixed : (blank.apply (writeOne (45001, some 14) plainLiteral Prod.snd [(0, 1), (1, 1)])).read asDate (0, 1) = some (45001, true) ∧
    (blank.apply (writeOne (45001, some 14) plainLiteral Prod.snd [(0, 1), (1, 1)])).read asDate (1, 1) = some (45001, false) := by decide +kernel

/-! ### Values -/

/-- A sheet with 1 in column A, 5 in `B1:B100` and 7 below. -/
def fives (r c : Nat) : Int := if c = 1 then 1 else if r ≤ 100 then 5 else 7

/-- That sheet, without formats. -/
def fivesWorld : World Int (Int × Option Nat) := numbers fives fun _ _ => none

/-- `=SUMIF($A$1:$A$2,1,B1)`. -/
def short : Fm (Nat × Int) := .func [1] [.ref (.range none (some 1) (some 1) (some 2) (some 1) true true true true), .lit (0, 1), .ref (.cell none 1 2 false false)]

/-- The span of that formula in `C1:C100`. -/
def shortTask : Task Int := Task.fresh laterArgs short 1 3 fun _ _ => some [1]

theorem short_groups : (groups (fun p => shortTask.key fivesWorld plainLiteral p.1 p.2) (placesOf 100 2) []).map (fun gs => gs.map fun g => (g.first, g.places)) =
    some [((0, 2), placesOf 100 2)] := by decide +kernel

theorem short_writes : ((groups (fun p => shortTask.key fivesWorld plainLiteral p.1 p.2) (placesOf 100 2) []).bind
    (writeGroups (fun p => shortTask.result fivesWorld p.1 p.2) plainLiteral Prod.snd)).map Writes.both =
    some ((placesOf 100 2).map (fun p => (p, (10, false))), [((0, 2), none)]) := by decide +kernel

/-- Evaluation in groups gives another value: `=SUMIF($A$1:$A$2,1,B1)` in `C1:C100`, with 1 in column A, 5 in `B1:B100` and 7 in `B101`.  The target is read
as far as the range goes, but counts as the one cell that is written.  All cells have one key, and `C100` gets 5 + 5; on its own, its value is 5 + 7. -/
theorem short_target : ∃ x, (groups (fun p => shortTask.key fivesWorld plainLiteral p.1 p.2) (placesOf 100 2) []).bind
    (writeGroups (fun p => shortTask.result fivesWorld p.1 p.2) plainLiteral Prod.snd) = some x ∧
    (blank.apply x).value (99, 2) = some (10, false) ∧ (shortTask.result fivesWorld 99 2).map plainLiteral = some (12, false) := by
  obtain ⟨x, hx, h⟩ := Option.map_eq_some_iff.1 short_writes
  refine ⟨x, hx, ?_⟩
  cases x
  cases h
  constructor <;> decide +kernel

/-- That sheet breaks the hypothesis of `memo_values`. -/
theorem fives_not_honest : ¬ fivesWorld.Honest plainLiteral laterArgs := by
  intro h
  have := h.fn [1] [.ref (.range none (some 1) (some 1) (some 2) (some 1) true true true true), .val (1, none), .ref (.cell none 1 2 false false)]
    [.ref (.range none (some 1) (some 1) (some 2) (some 1) true true true true), .val (1, none), .ref (.cell none 100 2 false false)] rfl ?_
  · revert this
    decide +kernel
  · intro i a b ha hb
    match i with
    | 0 => cases ha; cases hb; exact .inl rfl
    | 1 => cases ha; cases hb; rfl
    | 2 =>
      cases ha
      cases hb
      exact .inr ⟨rfl, rfl, rfl, by decide +kernel⟩
    | i + 3 => cases ha

/-! ### Distinct values -/

/-- A sheet with 3, 1, 4, 1, 5 in `A1:A5`. -/
def digits (r c : Nat) : Int := if c = 1 then ([3, 1, 4, 1, 5][r - 1]?).getD 0 else 0

/-- Cells with distinct values have distinct keys: `=A1+1` in `B1:B5` has four groups, one of two cells. -/
example : (groups (fun p => nextTask.key (numbers digits fun _ _ => none) plainLiteral p.1 p.2) (placesOf 5 1) []).map (fun gs => gs.map Group.places) =
    some [[(0, 1)], [(1, 1), (3, 1)], [(2, 1)], [(4, 1)]] := by decide +kernel

end Verif.Template
