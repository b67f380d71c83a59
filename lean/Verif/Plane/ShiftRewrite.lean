/-
The rewritten formula.
-/
import Verif.Plane.ShiftSum

namespace Verif.Plane.Edit

open Verif.Plane

/-- Ranges are written with the start first. -/
def RefOrdered : Ref → Prop
  | .range _ sr sc er ec _ _ _ _ => (∀ a b, sr = some a → er = some b → a ≤ b) ∧ ∀ a b, sc = some a → ec = some b → a ≤ b
  | _ => True

/-- Written coordinates leave room for `n` more. -/
def RefRoom (n : Nat) : Ref → Prop
  | .cell _ row col _ _ => row + n ≤ u32Max ∧ col + n ≤ u32Max
  | .range _ sr sc er ec _ _ _ _ => (∀ i, sr = some i → i + n ≤ u32Max) ∧ (∀ i, sc = some i → i + n ≤ u32Max) ∧
      (∀ i, er = some i → i + n ≤ u32Max) ∧ ∀ i, ec = some i → i + n ≤ u32Max
  | _ => True

/-! ### The adjuster, bound by bound -/

theorem add32_eq {a b : Nat} (h : a + b ≤ u32Max) : Adjust.add32 a b = a + b := by
  unfold Adjust.add32 Adjust.two32 u32Max at *
  omega

theorem sub32_eq {a b : Nat} (h : b ≤ a) (ha : a ≤ u32Max) : Adjust.sub32 a b = a - b := by
  unfold Adjust.sub32 Adjust.two32 u32Max at *
  omega

theorem ins_ok {op : Op} (hd : op.del = false) {s s' : Nat} (h : op.moveCoord s = some s') (hr : s + op.count ≤ u32Max) :
    Adjust.insertBound op.at_ op.count s = s' := by
  rw [moveCoord_spec] at h
  simp only [hd, Bool.false_eq_true, false_and, and_false, false_or, true_and] at h
  unfold Adjust.insertBound
  rw [add32_eq hr]
  split <;> omega

theorem del_ok {op : Op} (hop : op.Fits) (hd : op.del = true) {s e s' e' : Nat} (h1 : op.moveCoord s = some s')
    (h2 : op.moveCoord e = some e') (hle : s ≤ e) (he : e ≤ u32Max) :
    Adjust.deleteAxis op.at_ op.count (some s) (some e) = some (some s', some e') := by
  rw [moveCoord_spec] at h1 h2
  have hp := hop.pos
  have hr := hop.room
  simp only [hd, Bool.true_eq_false, false_and, and_false, or_false, true_and] at h1 h2
  simp only [Adjust.deleteAxis]
  rw [add32_eq (a := op.at_) (b := op.count) (by omega)]
  split
  · next hb =>
    split
    · rw [sub32_eq (a := s) (by omega) (by omega)]
      split
      · rw [sub32_eq (a := e) (by omega) he]; congr 3 <;> omega
      · omega
    · split
      · omega
      · congr 3 <;> omega
  · split
    · omega
    · split
      · split
        · rw [sub32_eq (a := e) (by omega) he]; congr 3 <;> omega
        · omega
      · omega

theorem moveCoord_mono {op : Op} {s e s' e' : Nat} (h1 : op.moveCoord s = some s') (h2 : op.moveCoord e = some e')
    (hle : s ≤ e) : s' ≤ e' := by
  rw [moveCoord_spec] at h1 h2
  cases hd : op.del
  · simp only [hd, Bool.false_eq_true, false_and, and_false, false_or, true_and] at h1 h2; omega
  · simp only [hd, Bool.true_eq_false, false_and, and_false, or_false, true_and] at h1 h2; omega

theorem moveCoord_le {op : Op} {s s' : Nat} (h : op.moveCoord s = some s') : s' ≤ s + op.count := by
  rw [moveCoord_spec] at h
  omega

/-- One cell reference on the sheet of the operation. -/
theorem adjust_cell {op : Op} (hop : op.Fits) {ctx : Option Adjust.Ctx} {sheet : Option String} {row col : Nat} {ra ca : Bool}
    (hf : Adjust.foreign ctx sheet op.sheet = false) {m : Nat} (hrow : row + 1 + op.count ≤ u32Max)
    (hcol : col + 1 + op.count ≤ u32Max) (hm : op.moveCoord (if op.rows then row else col) = some m) {a : Adjust.Adj}
    (h : Adjust.adjustRef ctx op.toShift (.cell sheet (row + 1) (col + 1) ra ca) = some a) :
    a = .ref (.cell sheet (if op.rows then m + 1 else row + 1) (if op.rows then col + 1 else m + 1) ra ca) := by
  have hsh : op.toShift.sheet = op.sheet := by
    unfold Op.toShift
    split <;> rfl
  have hroom := hop.room
  unfold Adjust.adjustRef at h
  dsimp only at h
  rw [hsh, hf, if_neg (by simp)] at h
  have c1 : Adjust.add32 row 1 = row + 1 := add32_eq (by omega)
  have c2 : Adjust.add32 col 1 = col + 1 := add32_eq (by omega)
  cases hn : Adjust.coordNew row col with
  | none => rw [hn] at h; cases h
  | some _ =>
    rw [hn, Option.bind_some] at h
    have hle := moveCoord_le hm
    rw [moveCoord_spec] at hm
    have c3 : Adjust.add32 m 1 = m + 1 := add32_eq (by split at hle <;> omega)
    have c4 : Adjust.add32 op.at_ op.count = op.at_ + op.count := add32_eq (by omega)
    cases hr : op.rows <;> cases hd : op.del <;>
      simp only [hr, hd, Bool.false_eq_true, Bool.true_eq_false, if_true, if_false, false_and, and_false, false_or, or_false, true_and] at hm ⊢ <;>
      simp only [Op.toShift, hr, hd, Adjust.adjustCell, c4] at h
    · rw [add32_eq (a := col) (b := op.count) (by omega)] at h
      rcases hm with ⟨h1, rfl⟩ | ⟨h1, rfl⟩
      · rw [if_pos h1] at h
        simp only [Option.map_some, Option.some.injEq, c1, c2] at h
        exact h.symm
      · rw [if_neg (by omega)] at h
        unfold Adjust.coordNew at h
        split at h
        · simp only [Option.map_some, Option.some.injEq, c1, c3] at h
          exact h.symm
        · cases h
    · rcases hm with ⟨h1, rfl⟩ | ⟨h1, h2, h3⟩
      · rw [if_neg (by omega), if_neg (by omega)] at h
        simp only [Option.map_some, Option.some.injEq, c1, c2] at h
        exact h.symm
      · rw [if_neg (by omega), if_pos (by omega), sub32_eq (by omega) (by omega), show col - op.count = m by omega] at h
        unfold Adjust.coordNew at h
        split at h
        · simp only [Option.map_some, Option.some.injEq, c1, c3] at h
          exact h.symm
        · cases h
    · rw [add32_eq (a := row) (b := op.count) (by omega)] at h
      rcases hm with ⟨h1, rfl⟩ | ⟨h1, rfl⟩
      · rw [if_pos h1] at h
        simp only [Option.map_some, Option.some.injEq, c1, c2] at h
        exact h.symm
      · rw [if_neg (by omega)] at h
        unfold Adjust.coordNew at h
        split at h
        · simp only [Option.map_some, Option.some.injEq, c2, c3] at h
          exact h.symm
        · cases h
    · rcases hm with ⟨h1, rfl⟩ | ⟨h1, h2, h3⟩
      · rw [if_neg (by omega), if_neg (by omega)] at h
        simp only [Option.map_some, Option.some.injEq, c1, c2] at h
        exact h.symm
      · rw [if_neg (by omega), if_pos (by omega), sub32_eq (by omega) (by omega), show row - op.count = m by omega] at h
        unfold Adjust.coordNew at h
        split at h
        · simp only [Option.map_some, Option.some.injEq, c2, c3] at h
          exact h.symm
        · cases h

theorem bound1_eq {i : Nat} (h : i + 1 ≤ u32Max) : Adjust.bound1 (some i) = some (i + 1) := by
  simp only [Adjust.bound1, Option.map_some, add32_eq h]

/-- A range with four sides on the sheet of the operation. -/
theorem adjust_range {op : Op} (hop : op.Fits) {ctx : Option Adjust.Ctx} {sheet : Option String} {a b c d : Nat}
    {f1 f2 f3 f4 : Bool} (hf : Adjust.foreign ctx sheet op.sheet = false) (hab : a ≤ b) (hcd : c ≤ d) {m n : Nat}
    (ra : a + 1 + op.count ≤ u32Max) (rb : b + 1 + op.count ≤ u32Max) (rc : c + 1 + op.count ≤ u32Max)
    (rd : d + 1 + op.count ≤ u32Max)
    (hm : op.moveCoord (if op.rows then a else c) = some m) (hn : op.moveCoord (if op.rows then b else d) = some n)
    {x : Adjust.Adj}
    (h : Adjust.adjustRef ctx op.toShift (.range sheet (some (a + 1)) (some (c + 1)) (some (b + 1)) (some (d + 1)) f1 f2 f3 f4)
      = some x) :
    x = .ref (if op.rows then .range sheet (some (m + 1)) (some (c + 1)) (some (n + 1)) (some (d + 1)) f1 f2 f3 f4
      else .range sheet (some (a + 1)) (some (m + 1)) (some (b + 1)) (some (n + 1)) f1 f2 f3 f4) := by
  have hsh : op.toShift.sheet = op.sheet := by
    unfold Op.toShift
    split <;> rfl
  unfold Adjust.adjustRef at h
  dsimp only at h
  have hrb : Adjust.rangeBounds (some (a + 1)) (some (c + 1)) (some (b + 1)) (some (d + 1)) =
      some (some a, some c, some b, some d) := by
    simp [Adjust.rangeBounds, Adjust.bound0, Adjust.ordered, hab, hcd]
  rw [hsh, hf, if_neg (by simp), hrb] at h
  dsimp only at h
  have l1 := moveCoord_le hm
  have l2 := moveCoord_le hn
  have m1 : m + 1 ≤ u32Max := by split at l1 <;> omega
  have n1 : n + 1 ≤ u32Max := by split at l2 <;> omega
  cases hr : op.rows <;> cases hd : op.del <;>
    simp only [hr, Bool.false_eq_true, if_true, if_false] at hm hn ⊢ <;> simp only [Op.toShift, hr, hd] at h
  · simp only [Adjust.insertAxis, Option.map_some, ins_ok hd hm (by omega), ins_ok hd hn (by omega)] at h
    rw [bound1_eq (by omega), bound1_eq (by omega), bound1_eq (by omega), bound1_eq (by omega)] at h
    exact (Option.some.inj h).symm
  · rw [del_ok hop hd hm hn hcd (by omega)] at h
    dsimp only at h
    rw [bound1_eq (by omega), bound1_eq (by omega), bound1_eq (by omega), bound1_eq (by omega)] at h
    exact (Option.some.inj h).symm
  · simp only [Adjust.insertAxis, Option.map_some, ins_ok hd hm (by omega), ins_ok hd hn (by omega)] at h
    rw [bound1_eq (by omega), bound1_eq (by omega), bound1_eq (by omega), bound1_eq (by omega)] at h
    exact (Option.some.inj h).symm
  · rw [del_ok hop hd hm hn hab (by omega)] at h
    dsimp only at h
    rw [bound1_eq (by omega), bound1_eq (by omega), bound1_eq (by omega), bound1_eq (by omega)] at h
    exact (Option.some.inj h).symm

/-- A range of whole columns on the sheet of the operation. -/
theorem adjust_wholeCols {op : Op} (hop : op.Fits) {ctx : Option Adjust.Ctx} {sheet : Option String} {c d : Nat}
    {f1 f2 f3 f4 : Bool} (hf : Adjust.foreign ctx sheet op.sheet = false) (hcd : c ≤ d) {m n : Nat}
    (rc : c + 1 + op.count ≤ u32Max) (rd : d + 1 + op.count ≤ u32Max)
    (hm : op.rows = false → op.moveCoord c = some m) (hn : op.rows = false → op.moveCoord d = some n) {x : Adjust.Adj}
    (h : Adjust.adjustRef ctx op.toShift (.range sheet none (some (c + 1)) none (some (d + 1)) f1 f2 f3 f4) = some x) :
    x = .ref (if op.rows then .range sheet none (some (c + 1)) none (some (d + 1)) f1 f2 f3 f4
      else .range sheet none (some (m + 1)) none (some (n + 1)) f1 f2 f3 f4) := by
  have hsh : op.toShift.sheet = op.sheet := by
    unfold Op.toShift
    split <;> rfl
  unfold Adjust.adjustRef at h
  dsimp only at h
  have hrb : Adjust.rangeBounds none (some (c + 1)) none (some (d + 1)) = some (none, some c, none, some d) := by
    simp [Adjust.rangeBounds, Adjust.bound0, Adjust.ordered, hcd]
  rw [hsh, hf, if_neg (by simp), hrb] at h
  dsimp only at h
  cases hr : op.rows <;> cases hd : op.del <;>
    simp only [Bool.false_eq_true, if_true, if_false] at ⊢ <;> simp only [Op.toShift, hr, hd] at h
  · have hm := hm hr
    have hn := hn hr
    have l1 := moveCoord_le hm
    have l2 := moveCoord_le hn
    simp only [Adjust.insertAxis, Option.map_some, ins_ok hd hm (by omega), ins_ok hd hn (by omega)] at h
    rw [bound1_eq (by omega), bound1_eq (by omega)] at h
    exact (Option.some.inj h).symm
  · have hm := hm hr
    have hn := hn hr
    have l1 := moveCoord_le hm
    have l2 := moveCoord_le hn
    rw [del_ok hop hd hm hn hcd (by omega)] at h
    dsimp only at h
    rw [bound1_eq (by omega), bound1_eq (by omega)] at h
    exact (Option.some.inj h).symm
  · simp only [Adjust.insertAxis, Option.map_none] at h
    rw [bound1_eq (by omega), bound1_eq (by omega)] at h
    exact (Option.some.inj h).symm
  · simp only [Adjust.deleteAxis, Option.map_none] at h
    rw [bound1_eq (by omega), bound1_eq (by omega)] at h
    exact (Option.some.inj h).symm

/-! ### One bound of the rewritten formula -/

theorem frame_bound {op : Op} {i : Nat} (hi : 1 ≤ i) {abs : Bool} {org x v : Nat} {disp : Bool}
    (hv : (axisProjection i abs (org + 1)).at_ x = v) (hside : (disp = false ∧ op.Below v) ∨ (disp = true ∧ op.Above v))
    (hb : op.boundSound org disp (axisProjection i abs (org + 1)) = true) :
    ∃ m, op.moveCoord (i - 1) = some m ∧ ∀ org' x' : Nat, (org' : Int) = org + op.delta → (x' : Int) = x + op.delta →
      Hits op x x' (axisProjection i abs (org + 1)) (axisProjection (m + 1) abs (org' + 1)) := by
  cases abs with
  | true =>
    simp only [axisProjection, if_true, AxisProj.at_] at hv
    have hm : ∃ m, op.moveCoord (i - 1) = some m := by
      rw [show i - 1 = v by omega]
      rcases hside with ⟨-, h⟩ | ⟨-, h⟩
      · exact ⟨v, moveCoord_below h⟩
      · obtain ⟨y, hy, -⟩ := moveCoord_above h
        exact ⟨y, hy⟩
    obtain ⟨m, hm⟩ := hm
    refine ⟨m, hm, fun org' x' h1 h2 => ⟨v, m, ?_, ?_, ?_⟩⟩
    · simpa [axisProjection, AxisProj.at_] using hv
    · simp [axisProjection, AxisProj.at_]
    · rw [show v = i - 1 by omega]; exact hm
  | false =>
    simp only [axisProjection, Bool.false_eq_true, if_false, AxisProj.at_] at hv
    simp only [axisProjection, Bool.false_eq_true, if_false, Op.boundSound, Bool.and_eq_true, decide_eq_true_eq,
      beq_iff_eq] at hb
    obtain ⟨h0, hau⟩ := hb
    rw [show (org : Int) + ((i : Int) - ((org + 1 : Nat) : Int)) = ((i - 1 : Nat) : Int) by omega] at hau
    have hsd : (disp = false ∧ op.Below (i - 1)) ∨ (disp = true ∧ op.Above (i - 1)) := by
      unfold Op.authored at hau
      unfold Op.Below Op.Above
      cases hd : op.del
      · simp only [hd, Bool.false_eq_true, if_false, Option.some.injEq] at hau
        subst hau
        by_cases hc : (op.at_ : Int) ≤ ((i - 1 : Nat) : Int)
        · right; exact ⟨decide_eq_true hc, by omega, by simp⟩
        · left; exact ⟨decide_eq_false hc, by omega⟩
      · simp only [hd, if_true] at hau
        split at hau
        · cases hau
        · next hn =>
          simp only [Option.some.injEq] at hau
          subst hau
          by_cases hc : (op.at_ : Int) + op.count ≤ ((i - 1 : Nat) : Int)
          · right; exact ⟨decide_eq_true hc, by omega, fun _ => by omega⟩
          · left; exact ⟨decide_eq_false hc, by omega⟩
    rcases hside with ⟨rfl, hs⟩ | ⟨rfl, hs⟩
    · rcases hsd with ⟨-, ht⟩ | ⟨h, -⟩
      · refine ⟨i - 1, moveCoord_below ht, fun org' x' h1 h2 => ⟨v, v, ?_, ?_, moveCoord_below hs⟩⟩
        · simpa [axisProjection, AxisProj.at_] using hv
        · simp only [axisProjection, Bool.false_eq_true, if_false, AxisProj.at_]
          omega
      · cases h
    · rcases hsd with ⟨h, -⟩ | ⟨-, ht⟩
      · cases h
      · obtain ⟨m, m1, m2⟩ := moveCoord_above ht
        obtain ⟨w, w1, w2⟩ := moveCoord_above hs
        refine ⟨m, m1, fun org' x' h1 h2 => ⟨v, w, ?_, ?_, w1⟩⟩
        · simpa [axisProjection, AxisProj.at_] using hv
        · simp only [axisProjection, Bool.false_eq_true, if_false, AxisProj.at_]
          omega

/-- What the frame check says. -/
theorem frameSound_spec {op : Op} {o : Int} {deps : List Dependency} (h : op.frameSound o deps = true) :
    ∀ d ∈ deps, (op.classify d.read = .below ∧ ∀ b ∈ op.bounds d.rule, op.boundSound o false b = true) ∨
      (op.classify d.read = .above ∧ ∀ b ∈ op.bounds d.rule, op.boundSound o true b = true) := by
  intro d hd
  unfold Op.frameSound at h
  have := List.all_eq_true.1 h d hd
  cases hc : op.classify d.read <;> rw [hc] at this
  · cases this
  · left
    simp only [Bool.and_eq_true, List.all_eq_true] at this
    exact ⟨rfl, this.2⟩
  · right
    simp only [Bool.and_eq_true, List.all_eq_true] at this
    exact ⟨rfl, this.2⟩
  · cases this
  · cases this

section
variable {op : Op} {result : Region} {xs : List (Nat × Rule)} {deps : List Dependency}

/-- A written bound on the axis of the operation goes where it should. -/
theorem rewrite_bound (hop : op.Fits) (hres : result.Ok) (hsum : Summary result xs deps) (hxs : RulesOk xs) {org : Nat}
    (hfr : op.frameSound org deps = true) {x : Nat × Rule} (hx : x ∈ xs) {p : Key} (hp : result.Has p) {i : Nat}
    (hi : 1 ≤ i) {abs : Bool} (hb : axisProjection i abs (org + 1) ∈ op.bounds x.2) :
    ∃ m, op.moveCoord (i - 1) = some m ∧ ∀ org' x' : Nat, (org' : Int) = org + op.delta →
      (x' : Int) = op.coord p + op.delta →
      Hits op (op.coord p) x' (axisProjection i abs (org + 1)) (axisProjection (m + 1) abs (org' + 1)) := by
  have hspec := frameSound_spec hfr
  have hc : Clean op deps := fun d hd => by
    rcases hspec d hd with ⟨h, -⟩ | ⟨h, -⟩
    · exact Or.inr (Or.inl h)
    · exact Or.inr (Or.inr h)
  obtain ⟨d, hd, hdr, v, hv, hside⟩ := bound_side hop hres hsum hxs hc hx hp hb
  have hsp := hspec d hd
  rw [hdr] at hsp
  rcases hside with ⟨s1, -⟩ | ⟨s1, s2, s3⟩ | ⟨s1, s2, s3⟩
  · rcases hsp with ⟨h, -⟩ | ⟨h, -⟩ <;> rw [s1] at h <;> cases h
  · rcases hsp with ⟨h, h'⟩ | ⟨h, -⟩
    · exact frame_bound hi hv (Or.inl ⟨rfl, s3⟩) (h' _ hb)
    · rw [s1] at h; cases h
  · rcases hsp with ⟨h, -⟩ | ⟨h, h'⟩
    · rw [s1] at h; cases h
    · exact frame_bound hi hv (Or.inr ⟨rfl, s3⟩) (h' _ hb)

/-- All reads of a formula that is rewritten are on the sheet of the operation. -/
theorem rewrite_sheet (hop : op.Fits) (hres : result.Ok) (hsum : Summary result xs deps) (hxs : RulesOk xs) {org : Nat}
    (hfr : op.frameSound org deps = true) {x : Nat × Rule} (hx : x ∈ xs) : x.1 = op.sheet := by
  obtain ⟨rs, h1, h2⟩ := hsum.covers x hx
  obtain ⟨b1, b2, -⟩ := bounds_in_regions (op := op) hres (hxs x hx).2 h1
  obtain ⟨g, hg⟩ := List.exists_mem_of_ne_nil rs b2
  rw [← b1 g hg]
  have : op.classify g = .below ∨ op.classify g = .above := by
    rcases frameSound_spec hfr _ (h2 g hg) with ⟨h, -⟩ | ⟨h, -⟩
    · exact Or.inl h
    · exact Or.inr h
  unfold Op.classify at this
  split at this
  · rcases this with h | h <;> cases h
  · next h => simpa using h

theorem stays_same {x x' : Nat} {i : Nat} {abs : Bool} {a a' : Nat} (h : x' = x) (h' : a' = a) :
    Stays x x' (axisProjection i abs (a + 1)) (axisProjection i abs (a' + 1)) := by subst h h'; rfl

/-- A reference of the rewritten formula. -/
theorem rewrite_ref (hop : op.Fits) (hres : result.Ok) (hsum : Summary result xs deps) (hxs : RulesOk xs) {env : Env}
    {o o' : Key} (hos : o'.sheet = o.sheet) (hor : (o'.row : Int) = o.row + op.rowDelta)
    (hoc : (o'.col : Int) = o.col + op.colDelta)
    (hfr : op.frameSound ((if op.rows then o.row else o.col : Nat) : Int) deps = true) {r r' : Ref} {x : Nat × Rule}
    (hx : x ∈ xs) (hw : r.Written) (hord : RefOrdered r) (hroom : RefRoom op.count r) (hrule : ruleOf env o r = some x)
    (hadj : adjusted env o.sheet op r = some r') {x' : Nat × Rule} (hrule' : summaryRule env o' r' = some x')
    {p0 : Key} (hp0 : result.Has p0) :
    (∀ {p p' : Key}, result.Has p → Moves op p p' → x'.1 = x.1 ∧ Follows op x.1 p p' x.2 x'.2) ∧ r'.Written ∧ RefOrdered r' ∧
      (r'.WholeCols ↔ r.WholeCols) := by
  have hsh := rewrite_sheet hop hres hsum hxs hfr hx
  have hroomop := hop.room
  cases r with
  | other => cases hrule
  | name n =>
    simp only [adjusted, toAdj, Adjust.adjustRef, Option.map_some, ofAdj, Option.some.injEq] at hadj
    subst hadj
    cases hrule'
  | cell sheet row col ra ca =>
    obtain ⟨⟨w1, w2⟩, w3, w4⟩ := hw
    obtain ⟨q1, q2⟩ := hroom
    simp only [ruleOf, summaryRule] at hrule
    cases hs : sheetOf env o.sheet sheet with
    | none => rw [hs] at hrule; cases hrule
    | some s =>
      rw [hs] at hrule
      obtain rfl := Option.some.inj hrule
      dsimp only at hsh
      have hf : Adjust.foreign (some fun s => sheetOf env o.sheet s) sheet op.sheet = false := by
        simp [Adjust.foreign, hs, hsh]
      unfold adjusted at hadj
      obtain ⟨a, ha, rfl⟩ := Option.map_eq_some_iff.1 hadj
      obtain ⟨row, rfl⟩ : ∃ k, row = k + 1 := ⟨row - 1, by omega⟩
      obtain ⟨col, rfl⟩ : ∃ k, col = k + 1 := ⟨col - 1, by omega⟩
      cases hr : op.rows with
      | true =>
        simp only [hr, if_true] at hfr
        have hb := fun {p : Key} (hp : result.Has p) => rewrite_bound hop hres hsum hxs hfr hx hp w1 (abs := ra)
          (by simp [Op.bounds, hr])
        obtain ⟨m, hm, -⟩ := hb hp0
        have := adjust_cell (row := row) (col := col) (ra := ra) (ca := ca) (m := m) hop hf (by omega) (by omega)
          (by simpa [hr] using hm) ha
        subst this
        have hle := moveCoord_le hm
        simp only [hr, if_true, ofAdj, summaryRule, hos, hs] at hrule' ⊢
        obtain rfl := Option.some.inj hrule'
        refine ⟨fun {p p'} hp hmv => ⟨rfl, ?_⟩, ⟨⟨by omega, by omega⟩, w3, w4⟩, trivial, Iff.rfl⟩
        obtain ⟨m', hm', H⟩ := hb hp
        rw [hm] at hm'
        cases hm'
        unfold Follows
        rw [if_pos hsh, if_pos hr]
        have hoth := hmv.other
        have hco := hmv.coord
        simp only [Op.rowDelta, Op.colDelta, hr, if_true] at hor hoc
        simp only [hr, if_true, Op.coord] at hoth hco H
        exact ⟨H o'.row p'.row hor hco, stays_same hoth (by omega)⟩
      | false =>
        simp only [hr, Bool.false_eq_true, if_false] at hfr
        have hb := fun {p : Key} (hp : result.Has p) => rewrite_bound hop hres hsum hxs hfr hx hp w3 (abs := ca)
          (by simp [Op.bounds, hr])
        obtain ⟨m, hm, -⟩ := hb hp0
        have := adjust_cell (row := row) (col := col) (ra := ra) (ca := ca) (m := m) hop hf (by omega) (by omega)
          (by simpa [hr] using hm) ha
        subst this
        have hle := moveCoord_le hm
        simp only [hr, Bool.false_eq_true, if_false, ofAdj, summaryRule, hos, hs] at hrule' ⊢
        obtain rfl := Option.some.inj hrule'
        refine ⟨fun {p p'} hp hmv => ⟨rfl, ?_⟩, ⟨⟨w1, w2⟩, by omega, by omega⟩, trivial, Iff.rfl⟩
        obtain ⟨m', hm', H⟩ := hb hp
        rw [hm] at hm'
        cases hm'
        unfold Follows
        rw [if_pos hsh, if_neg (by simp [hr])]
        have hoth := hmv.other
        have hco := hmv.coord
        simp only [Op.rowDelta, Op.colDelta, hr, Bool.false_eq_true, if_false] at hor hoc
        simp only [hr, Bool.false_eq_true, if_false, Op.coord] at hoth hco H
        exact ⟨stays_same hoth (by omega), H o'.col p'.col hoc hco⟩
  | range sheet sr sc er ec sra sca era eca =>
    obtain ⟨w1, w2, w3, w4⟩ := hw
    obtain ⟨q1, q2, q3, q4⟩ := hroom
    obtain ⟨o1, o2⟩ := hord
    simp only [ruleOf] at hrule
    unfold summaryRule at hrule
    split at hrule
    · next heq => cases heq
    · next heq =>
      cases heq
      next c d =>
      cases hs : sheetOf env o.sheet sheet with
      | none => rw [hs] at hrule; cases hrule
      | some s =>
        rw [hs] at hrule
        obtain rfl := Option.some.inj hrule
        dsimp only at hsh
        have hf : Adjust.foreign (some fun s => sheetOf env o.sheet s) sheet op.sheet = false := by
          simp [Adjust.foreign, hs, hsh]
        unfold adjusted at hadj
        obtain ⟨a, ha, rfl⟩ := Option.map_eq_some_iff.1 hadj
        have w2 := w2 _ rfl
        have w4 := w4 _ rfl
        have q2 := q2 _ rfl
        have q4 := q4 _ rfl
        have o2 := o2 _ _ rfl rfl
        obtain ⟨c, rfl⟩ : ∃ k, c = k + 1 := ⟨c - 1, by omega⟩
        obtain ⟨d, rfl⟩ : ∃ k, d = k + 1 := ⟨d - 1, by omega⟩
        cases hr : op.rows with
        | true =>
          have := adjust_wholeCols (c := c) (d := d) (m := 0) (n := 0) hop hf (by omega) (by omega) (by omega)
            (by simp [hr]) (by simp [hr]) ha
          subst this
          simp only [hr, if_true, ofAdj, summaryRule, hos, hs] at hrule' ⊢
          obtain rfl := Option.some.inj hrule'
          refine ⟨fun {p p'} hp hmv => ⟨rfl, ?_⟩,
            ⟨by simp, fun i hi => by cases hi; exact w2, by simp, fun i hi => by cases hi; exact w4⟩,
            ⟨by simp, fun a b ha hb => by cases ha; cases hb; exact o2⟩, trivial⟩
          unfold Follows
          rw [if_pos hsh, if_pos hr]
          have hoth := hmv.other
          simp only [Op.colDelta, hr, if_true] at hoc hoth
          exact ⟨stays_same hoth (by omega), stays_same hoth (by omega)⟩
        | false =>
          simp only [hr, Bool.false_eq_true, if_false] at hfr
          have hb := fun {p : Key} (hp : result.Has p) => rewrite_bound hop hres hsum hxs hfr hx hp w2.1 (abs := sca)
            (by simp [Op.bounds, hr])
          have hb' := fun {p : Key} (hp : result.Has p) => rewrite_bound hop hres hsum hxs hfr hx hp w4.1 (abs := eca)
            (by simp [Op.bounds, hr])
          obtain ⟨m, hm, -⟩ := hb hp0
          obtain ⟨n, hn, -⟩ := hb' hp0
          have := adjust_wholeCols (c := c) (d := d) (m := m) (n := n) hop hf (by omega) (by omega) (by omega)
            (fun _ => hm) (fun _ => hn) ha
          subst this
          have hle := moveCoord_le hm
          have hle' := moveCoord_le hn
          have hmo := moveCoord_mono hm hn (by omega)
          simp only [hr, Bool.false_eq_true, if_false, ofAdj, summaryRule, hos, hs] at hrule' ⊢
          obtain rfl := Option.some.inj hrule'
          refine ⟨fun {p p'} hp hmv => ⟨rfl, ?_⟩,
            ⟨by simp, fun i hi => by cases hi; omega, by simp, fun i hi => by cases hi; omega⟩,
            ⟨by simp, fun a b ha hb => by cases ha; cases hb; omega⟩, Iff.rfl⟩
          obtain ⟨m', hm', H⟩ := hb hp
          rw [hm] at hm'
          cases hm'
          obtain ⟨n', hn', H'⟩ := hb' hp
          rw [hn] at hn'
          cases hn'
          unfold Follows
          rw [if_pos hsh, if_neg (by simp [hr])]
          have hoth := hmv.other
          have hco := hmv.coord
          simp only [Op.rowDelta, Op.colDelta, hr, Bool.false_eq_true, if_false] at hor hoc
          simp only [hr, Bool.false_eq_true, if_false, Op.coord] at hoth hco H H'
          exact ⟨H o'.col p'.col hoc hco, H' o'.col p'.col hoc hco⟩
    · next heq =>
      cases heq
      next a c b d =>
      cases hs : sheetOf env o.sheet sheet with
      | none => rw [hs] at hrule; cases hrule
      | some s =>
        rw [hs] at hrule
        obtain rfl := Option.some.inj hrule
        dsimp only at hsh
        have hf : Adjust.foreign (some fun s => sheetOf env o.sheet s) sheet op.sheet = false := by
          simp [Adjust.foreign, hs, hsh]
        unfold adjusted at hadj
        obtain ⟨a', ha, rfl⟩ := Option.map_eq_some_iff.1 hadj
        have w1 := w1 _ rfl
        have w2 := w2 _ rfl
        have w3 := w3 _ rfl
        have w4 := w4 _ rfl
        have q1 := q1 _ rfl
        have q2 := q2 _ rfl
        have q3 := q3 _ rfl
        have q4 := q4 _ rfl
        have o1 := o1 _ _ rfl rfl
        have o2 := o2 _ _ rfl rfl
        obtain ⟨a, rfl⟩ : ∃ k, a = k + 1 := ⟨a - 1, by omega⟩
        obtain ⟨b, rfl⟩ : ∃ k, b = k + 1 := ⟨b - 1, by omega⟩
        obtain ⟨c, rfl⟩ : ∃ k, c = k + 1 := ⟨c - 1, by omega⟩
        obtain ⟨d, rfl⟩ : ∃ k, d = k + 1 := ⟨d - 1, by omega⟩
        cases hr : op.rows with
        | true =>
          simp only [hr, if_true] at hfr
          have hb := fun {p : Key} (hp : result.Has p) => rewrite_bound hop hres hsum hxs hfr hx hp w1.1 (abs := sra)
            (by simp [Op.bounds, hr])
          have hb' := fun {p : Key} (hp : result.Has p) => rewrite_bound hop hres hsum hxs hfr hx hp w3.1 (abs := era)
            (by simp [Op.bounds, hr])
          obtain ⟨m, hm, -⟩ := hb hp0
          obtain ⟨n, hn, -⟩ := hb' hp0
          have := adjust_range (a := a) (b := b) (c := c) (d := d) (m := m) (n := n) hop hf (by omega) (by omega)
            (by omega) (by omega) (by omega) (by omega) (by simpa [hr] using hm) (by simpa [hr] using hn) ha
          subst this
          have hle := moveCoord_le hm
          have hle' := moveCoord_le hn
          have hmo := moveCoord_mono hm hn (by omega)
          simp only [hr, if_true, ofAdj, summaryRule, hos, hs] at hrule' ⊢
          obtain rfl := Option.some.inj hrule'
          refine ⟨fun {p p'} hp hmv => ⟨rfl, ?_⟩,
            ⟨fun i hi => by cases hi; omega, fun i hi => by cases hi; omega, fun i hi => by cases hi; omega,
              fun i hi => by cases hi; omega⟩,
            ⟨fun a b ha hb => by cases ha; cases hb; omega, fun a b ha hb => by cases ha; cases hb; omega⟩, Iff.rfl⟩
          obtain ⟨m', hm', H⟩ := hb hp
          rw [hm] at hm'
          cases hm'
          obtain ⟨n', hn', H'⟩ := hb' hp
          rw [hn] at hn'
          cases hn'
          unfold Follows
          rw [if_pos hsh, if_pos hr]
          have hoth := hmv.other
          have hco := hmv.coord
          simp only [Op.rowDelta, Op.colDelta, hr, if_true] at hor hoc
          simp only [hr, if_true, Op.coord] at hoth hco H H'
          exact ⟨H o'.row p'.row hor hco, H' o'.row p'.row hor hco, stays_same hoth (by omega), stays_same hoth (by omega)⟩
        | false =>
          simp only [hr, Bool.false_eq_true, if_false] at hfr
          have hb := fun {p : Key} (hp : result.Has p) => rewrite_bound hop hres hsum hxs hfr hx hp w2.1 (abs := sca)
            (by simp [Op.bounds, hr])
          have hb' := fun {p : Key} (hp : result.Has p) => rewrite_bound hop hres hsum hxs hfr hx hp w4.1 (abs := eca)
            (by simp [Op.bounds, hr])
          obtain ⟨m, hm, -⟩ := hb hp0
          obtain ⟨n, hn, -⟩ := hb' hp0
          have := adjust_range (a := a) (b := b) (c := c) (d := d) (m := m) (n := n) hop hf (by omega) (by omega)
            (by omega) (by omega) (by omega) (by omega) (by simpa [hr] using hm) (by simpa [hr] using hn) ha
          subst this
          have hle := moveCoord_le hm
          have hle' := moveCoord_le hn
          have hmo := moveCoord_mono hm hn (by omega)
          simp only [hr, Bool.false_eq_true, if_false, ofAdj, summaryRule, hos, hs] at hrule' ⊢
          obtain rfl := Option.some.inj hrule'
          refine ⟨fun {p p'} hp hmv => ⟨rfl, ?_⟩,
            ⟨fun i hi => by cases hi; omega, fun i hi => by cases hi; omega, fun i hi => by cases hi; omega,
              fun i hi => by cases hi; omega⟩,
            ⟨fun a b ha hb => by cases ha; cases hb; omega, fun a b ha hb => by cases ha; cases hb; omega⟩, Iff.rfl⟩
          obtain ⟨m', hm', H⟩ := hb hp
          rw [hm] at hm'
          cases hm'
          obtain ⟨n', hn', H'⟩ := hb' hp
          rw [hn] at hn'
          cases hn'
          unfold Follows
          rw [if_pos hsh, if_neg (by simp [hr])]
          have hoth := hmv.other
          have hco := hmv.coord
          simp only [Op.rowDelta, Op.colDelta, hr, Bool.false_eq_true, if_false] at hor hoc
          simp only [hr, Bool.false_eq_true, if_false, Op.coord] at hoth hco H H'
          exact ⟨stays_same hoth (by omega), stays_same hoth (by omega), H o'.col p'.col hoc hco, H' o'.col p'.col hoc hco⟩
    · cases hrule

end

end Verif.Plane.Edit
