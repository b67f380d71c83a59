import Verif.Adjust.Tree

/-!
# References follow their cells (C21, C22, C23)

Specification: positions are 0-based; `shiftIns` and `shiftDel` say where a row (column) goes; `inAxis s e i` says that
row `i` lies between the 1-based bounds of a range, an absent bound being no bound.
-/

namespace Verif.Adjust

/-- Where row `i` goes when `count` rows are inserted before row `before`. -/
def shiftIns (before count i : Nat) : Nat := if i < before then i else i + count

/-- Is row `i` deleted? -/
def Deleted (start count i : Nat) : Prop := start ≤ i ∧ i < start + count

instance (start count i : Nat) : Decidable (Deleted start count i) := by unfold Deleted; infer_instance

/-- Where a surviving row `i` goes. -/
def shiftDel (start count i : Nat) : Nat := if i < start then i else i - count

/-- Row `i` is within the bounds. -/
def inAxis (s e : Option Nat) (i : Nat) : Prop := (∀ a, s = some a → a ≤ i + 1) ∧ ∀ b, e = some b → i + 1 ≤ b

/-- The reference binds to the operation's sheet. -/
def Binds (ctx : Option Ctx) (sheet : Option String) (s : Nat) : Prop := ∀ c, ctx = some c → c sheet = some s

theorem binds_test {ctx : Option Ctx} {sheet : Option String} {s : Nat} (h : Binds ctx sheet s) :
    foreign ctx sheet s = false := by
  cases ctx with
  | none => rfl
  | some c => simp [foreign, h c rfl]

/-- Bounds are 1-based and ordered, and leave room for `n` more. -/
structure Bounds (s e : Option Nat) (n : Nat) : Prop where
  spos : ∀ a, s = some a → 1 ≤ a ∧ a + n < two32
  epos : ∀ b, e = some b → 1 ≤ b ∧ b + n < two32
  ord : ∀ a b, s = some a → e = some b → a ≤ b

theorem bound0_eq {b : Option Nat} (h : ∀ a, b = some a → 1 ≤ a) : bound0 b = some (b.map (· - 1)) := by
  cases b with
  | none => rfl
  | some a =>
    have := h a rfl
    cases a with
    | zero => omega
    | succ a => rfl

theorem rangeBounds_eq {sr sc er ec : Option Nat} {n m : Nat} (hr : Bounds sr er n) (hc : Bounds sc ec m) :
    rangeBounds sr sc er ec = some (sr.map (· - 1), sc.map (· - 1), er.map (· - 1), ec.map (· - 1)) := by
  have o : ∀ {s e : Option Nat} {n : Nat}, Bounds s e n → ordered (s.map (· - 1)) (e.map (· - 1)) = true := by
    intro s e n h
    cases s with
    | none => rfl
    | some a =>
      cases e with
      | none => rfl
      | some b =>
        have := h.ord a b rfl rfl
        simp only [Option.map_some, ordered, decide_eq_true_eq]
        omega
  unfold rangeBounds
  rw [bound0_eq fun a h => (hr.spos a h).1, bound0_eq fun a h => (hc.spos a h).1, bound0_eq fun a h => (hr.epos a h).1,
    bound0_eq fun a h => (hc.epos a h).1]
  simp only [o hr, o hc, Bool.and_self, if_true]

theorem add32_eq {a b : Nat} (h : a + b < two32) : add32 a b = a + b := Nat.mod_eq_of_lt h

theorem sub32_eq {a b : Nat} (h : b ≤ a) (ha : a < two32) : sub32 a b = a - b := by
  unfold sub32
  rw [show a + two32 - b = (a - b) + two32 by omega, Nat.add_mod_right]
  exact Nat.mod_eq_of_lt (by omega)

theorem bound1_back {b : Option Nat} (h : ∀ a, b = some a → 1 ≤ a ∧ a < two32) : bound1 (b.map (· - 1)) = b := by
  cases b with
  | none => rfl
  | some a =>
    have := h a rfl
    simp only [bound1, Option.map_some, Option.some.injEq]
    rw [add32_eq (by omega)]
    omega

/-! ## Cells -/

/-- C21: a cell reference follows its cell when rows are inserted; `$` marks, column and sheet are kept. -/
theorem insertRows_cell (ctx : Option Ctx) (sheet : Option String) (s before count r c : Nat) (ra ca : Bool)
    (hb : Binds ctx sheet s) (hr : shiftIns before count r ≤ rowMax) (hc : c ≤ colMax) :
    adjustRef ctx (.insRows s before count) (.cell sheet (r + 1) (c + 1) ra ca) =
      some (.ref (.cell sheet (shiftIns before count r + 1) (c + 1) ra ca)) := by
  unfold shiftIns at *
  have hr' : r ≤ rowMax := by split at hr <;> omega
  simp only [adjustRef, Shift.sheet, binds_test hb, Bool.false_eq_true, if_false]
  simp only [coordNew, hr', hc, and_self, if_true, Option.bind_some, adjustCell]
  unfold rowMax colMax at *
  split at hr
  · next h =>
    simp only [if_pos h, Option.map_some]
    rw [add32_eq (by simp only [two32]; omega), add32_eq (by simp only [two32]; omega)]
  · next h =>
    rw [if_neg h, if_neg h, add32_eq (a := r) (by simp only [two32]; omega), if_pos ⟨by omega, trivial⟩]
    simp only [Option.map_some]
    rw [add32_eq (by simp only [two32]; omega), add32_eq (by simp only [two32]; omega)]

/-- C21: the same for columns. -/
theorem insertCols_cell (ctx : Option Ctx) (sheet : Option String) (s before count r c : Nat) (ra ca : Bool)
    (hb : Binds ctx sheet s) (hr : r ≤ rowMax) (hc : shiftIns before count c ≤ colMax) :
    adjustRef ctx (.insCols s before count) (.cell sheet (r + 1) (c + 1) ra ca) =
      some (.ref (.cell sheet (r + 1) (shiftIns before count c + 1) ra ca)) := by
  unfold shiftIns at *
  have hc' : c ≤ colMax := by split at hc <;> omega
  simp only [adjustRef, Shift.sheet, binds_test hb, Bool.false_eq_true, if_false]
  simp only [coordNew, hr, hc', and_self, if_true, Option.bind_some, adjustCell]
  unfold rowMax colMax at *
  split at hc
  · next h =>
    simp only [if_pos h, Option.map_some]
    rw [add32_eq (by simp only [two32]; omega), add32_eq (by simp only [two32]; omega)]
  · next h =>
    rw [if_neg h, if_neg h, add32_eq (a := c) (by simp only [two32]; omega), if_pos ⟨trivial, by omega⟩]
    simp only [Option.map_some]
    rw [add32_eq (by simp only [two32]; omega), add32_eq (by simp only [two32]; omega)]

/-- C22: a cell reference becomes `#REF!` exactly when its row is deleted; otherwise it follows its cell. -/
theorem deleteRows_cell (ctx : Option Ctx) (sheet : Option String) (s start count r c : Nat) (ra ca : Bool)
    (hb : Binds ctx sheet s) (hr : r ≤ rowMax) (hc : c ≤ colMax) (hs : start + count < two32) :
    adjustRef ctx (.delRows s start count) (.cell sheet (r + 1) (c + 1) ra ca) =
      some (if Deleted start count r then .invalid
        else .ref (.cell sheet (shiftDel start count r + 1) (c + 1) ra ca)) := by
  unfold shiftDel
  simp only [adjustRef, Shift.sheet, binds_test hb, Bool.false_eq_true, if_false]
  simp only [coordNew, hr, hc, and_self, if_true, Option.bind_some, adjustCell]
  unfold rowMax colMax at *
  rw [add32_eq hs]
  by_cases h1 : r ≥ start ∧ r < start + count
  · have hd : Deleted start count r := h1
    rw [if_pos h1]
    simp only [if_pos hd, Option.map_some]
  · have hd : ¬ Deleted start count r := h1
    rw [if_neg h1]
    simp only [if_neg hd]
    by_cases h2 : r ≥ start + count
    · rw [if_pos h2, sub32_eq (by omega) (by simp only [two32]; omega), if_pos ⟨by omega, trivial⟩, if_neg (by omega)]
      simp only [Option.map_some]
      rw [add32_eq (by simp only [two32]; omega), add32_eq (by simp only [two32]; omega)]
    · rw [if_neg h2, if_pos (by omega)]
      simp only [Option.map_some]
      rw [add32_eq (by simp only [two32]; omega), add32_eq (by simp only [two32]; omega)]

/-- C22: the same for columns. -/
theorem deleteCols_cell (ctx : Option Ctx) (sheet : Option String) (s start count r c : Nat) (ra ca : Bool)
    (hb : Binds ctx sheet s) (hr : r ≤ rowMax) (hc : c ≤ colMax) (hs : start + count < two32) :
    adjustRef ctx (.delCols s start count) (.cell sheet (r + 1) (c + 1) ra ca) =
      some (if Deleted start count c then .invalid
        else .ref (.cell sheet (r + 1) (shiftDel start count c + 1) ra ca)) := by
  unfold shiftDel
  simp only [adjustRef, Shift.sheet, binds_test hb, Bool.false_eq_true, if_false]
  simp only [coordNew, hr, hc, and_self, if_true, Option.bind_some, adjustCell]
  unfold rowMax colMax at *
  rw [add32_eq hs]
  by_cases h1 : c ≥ start ∧ c < start + count
  · have hd : Deleted start count c := h1
    rw [if_pos h1]
    simp only [if_pos hd, Option.map_some]
  · have hd : ¬ Deleted start count c := h1
    rw [if_neg h1]
    simp only [if_neg hd]
    by_cases h2 : c ≥ start + count
    · rw [if_pos h2, sub32_eq (by omega) (by simp only [two32]; omega), if_pos ⟨trivial, by omega⟩, if_neg (by omega)]
      simp only [Option.map_some]
      rw [add32_eq (by simp only [two32]; omega), add32_eq (by simp only [two32]; omega)]
    · rw [if_neg h2, if_pos (by omega)]
      simp only [Option.map_some]
      rw [add32_eq (by simp only [two32]; omega), add32_eq (by simp only [two32]; omega)]

/-! ## One axis of a range -/

theorem insertBound_eq {before count a : Nat} (h1 : 1 ≤ a) (h2 : a + count < two32) :
    add32 (insertBound before count (a - 1)) 1 = if a ≤ before then a else a + count := by
  unfold insertBound
  by_cases h : a ≤ before
  · rw [if_neg (by omega), if_pos h, add32_eq (by omega)]; omega
  · rw [if_pos (by omega), if_neg h, add32_eq (a := a - 1) (by omega), add32_eq (by omega)]; omega

/-- The 1-based bounds after an insertion. -/
def insB (before count : Nat) (b : Option Nat) : Option Nat := b.map fun a => if a ≤ before then a else a + count

theorem insertAxis_eq {before count : Nat} {s e : Option Nat} (h : Bounds s e count) :
    bound1 (insertAxis before count (s.map (· - 1)) (e.map (· - 1))).1 = insB before count s ∧
    bound1 (insertAxis before count (s.map (· - 1)) (e.map (· - 1))).2 = insB before count e := by
  constructor
  · cases s with
    | none => rfl
    | some a =>
      have := h.spos a rfl
      simp only [insertAxis, Option.map_some, bound1, insB, insertBound_eq this.1 this.2]
  · cases e with
    | none => rfl
    | some a =>
      have := h.epos a rfl
      simp only [insertAxis, Option.map_some, bound1, insB, insertBound_eq this.1 this.2]

/-- The rows of the new range: the old ones where they went, and the gap when it lies strictly inside (an absent bound
is always outside). -/
theorem insB_covers {before count : Nat} {s e : Option Nat} (h : Bounds s e count) (i : Nat) :
    inAxis (insB before count s) (insB before count e) i ↔
      (∃ j, inAxis s e j ∧ i = shiftIns before count j) ∨
      (before ≤ i ∧ i < before + count ∧ (s = none ∨ ∃ j, j < before ∧ inAxis s e j) ∧
        (e = none ∨ ∃ j, before ≤ j ∧ inAxis s e j)) := by
  unfold inAxis insB shiftIns
  constructor
  · rintro ⟨h1, h2⟩
    by_cases hg : before ≤ i ∧ i < before + count
    · right
      refine ⟨hg.1, hg.2, ?_, ?_⟩
      · cases s with
        | none => left; rfl
        | some a =>
          right
          have := h1 _ rfl
          have ha := h.spos a rfl
          refine ⟨a - 1, ?_, ?_, ?_⟩
          · simp only at this; split at this <;> omega
          · intro x hx; simp only [Option.some.injEq] at hx; omega
          · intro b hb; have := h.ord a b rfl hb; omega
      · cases e with
        | none => left; rfl
        | some b =>
          right
          have := h2 _ rfl
          have hb := h.epos b rfl
          refine ⟨b - 1, ?_, ?_, ?_⟩
          · simp only at this; split at this <;> omega
          · intro a ha; have := h.ord a b ha rfl; omega
          · intro x hx; simp only [Option.some.injEq] at hx; omega
    · left
      by_cases hi : i < before
      · refine ⟨i, ⟨?_, ?_⟩, by rw [if_pos hi]⟩
        · intro a ha; subst ha; have := h1 _ rfl; simp only at this; split at this <;> omega
        · intro b hb; subst hb; have := h2 _ rfl; simp only at this; split at this <;> omega
      · refine ⟨i - count, ⟨?_, ?_⟩, by rw [if_neg (by omega)]; omega⟩
        · intro a ha; subst ha; have := h1 _ rfl; simp only at this; split at this <;> omega
        · intro b hb; subst hb; have := h2 _ rfl; simp only at this; split at this <;> omega
  · rintro (⟨j, ⟨h1, h2⟩, rfl⟩ | ⟨h1, h2, h3, h4⟩)
    · constructor
      · intro a ha
        cases s with
        | none => simp at ha
        | some x =>
          have := h1 x rfl
          simp only [Option.map_some, Option.some.injEq] at ha
          subst ha
          split <;> split <;> omega
      · intro b hb
        cases e with
        | none => simp at hb
        | some x =>
          have := h2 x rfl
          simp only [Option.map_some, Option.some.injEq] at hb
          subst hb
          split <;> split <;> omega
    · constructor
      · intro a ha
        cases s with
        | none => simp at ha
        | some x =>
          rcases h3 with h3 | ⟨j, hj, hj1, -⟩
          · simp at h3
          · have := hj1 x rfl
            simp only [Option.map_some, Option.some.injEq] at ha
            subst ha
            split <;> omega
      · intro b hb
        cases e with
        | none => simp at hb
        | some x =>
          rcases h4 with h4 | ⟨j, hj, -, hj2⟩
          · simp at h4
          · have := hj2 x rfl
            simp only [Option.map_some, Option.some.injEq] at hb
            subst hb
            split <;> omega

/-- One axis after a deletion; `none` is `#REF!`. -/
theorem deleteAxis_covers {start count : Nat} {s e : Option Nat} (h : Bounds s e 0) (hs : start + count < two32)
    (hshape : s ≠ none ∨ e = none) :
    match deleteAxis start count (s.map (· - 1)) (e.map (· - 1)) with
    | none => (∃ j, inAxis s e j) ∧ ∀ j, inAxis s e j → Deleted start count j
    | some (s', e') => (∃ j, inAxis s e j ∧ ¬ Deleted start count j) ∧
        ∀ i, inAxis (bound1 s') (bound1 e') i ↔ ∃ j, inAxis s e j ∧ ¬ Deleted start count j ∧ i = shiftDel start count j := by
  cases s with
  | none =>
    cases e with
    | some b => simp at hshape
    | none =>
      simp only [deleteAxis, Option.map_none, bound1]
      refine ⟨⟨start + count, ⟨by simp [inAxis], by simp [Deleted]⟩⟩, fun i => ⟨fun _ => ?_, fun _ => by simp [inAxis]⟩⟩
      by_cases hi : i < start
      · exact ⟨i, by simp [inAxis], by simp only [Deleted]; omega, by simp [shiftDel, hi]⟩
      · exact ⟨i + count, by simp [inAxis], by simp only [Deleted]; omega, by simp only [shiftDel]; rw [if_neg (by omega)]; omega⟩
  | some a =>
    have ha := h.spos a rfl
    cases e with
    | none =>
      simp only [deleteAxis, Option.map_none, Option.map_some, bound1, deleteBound]
      rw [add32_eq hs]
      refine ⟨⟨a - 1 + (start + count), by simp [inAxis]; omega, by simp only [Deleted]; omega⟩, fun i => ?_⟩
      by_cases h1 : a - 1 ≥ start + count
      · rw [if_pos h1, sub32_eq (by omega) (by omega), add32_eq (by omega)]
        simp only [inAxis, Option.some.injEq, forall_eq', reduceCtorEq, false_imp_iff, implies_true, and_true, Deleted, shiftDel]
        constructor
        · intro hi; exact ⟨i + count, by omega, by omega, by rw [if_neg (by omega)]; omega⟩
        · rintro ⟨j, hj1, hj2, rfl⟩; split <;> omega
      · rw [if_neg h1]
        by_cases h2 : a - 1 ≥ start
        · rw [if_pos h2, add32_eq (by omega)]
          simp only [inAxis, Option.some.injEq, forall_eq', reduceCtorEq, false_imp_iff, implies_true, and_true, Deleted, shiftDel]
          constructor
          · intro hi; exact ⟨i + count, by omega, by omega, by rw [if_neg (by omega)]; omega⟩
          · rintro ⟨j, hj1, hj2, rfl⟩; split <;> omega
        · rw [if_neg h2, add32_eq (by omega)]
          simp only [inAxis, Option.some.injEq, forall_eq', reduceCtorEq, false_imp_iff, implies_true, and_true, Deleted, shiftDel]
          constructor
          · intro hi
            by_cases hi' : i < start
            · exact ⟨i, by omega, by omega, by rw [if_pos hi']⟩
            · exact ⟨i + count, by omega, by omega, by rw [if_neg (by omega)]; omega⟩
          · rintro ⟨j, hj1, hj2, rfl⟩; split <;> omega
    | some b =>
      have hb := h.epos b rfl
      have hab := h.ord a b rfl rfl
      simp only [deleteAxis, Option.map_some, bound1]
      rw [add32_eq hs]
      have mem : ∀ j, inAxis (some a) (some b) j ↔ a ≤ j + 1 ∧ j + 1 ≤ b := by intro j; simp [inAxis]
      by_cases h1 : b - 1 < start ∨ a - 1 ≥ start + count
      · rw [if_pos h1]
        by_cases h2 : a - 1 ≥ start + count
        · have h3 : b - 1 ≥ start + count := by omega
          simp only [if_pos h2, if_pos h3]
          rw [sub32_eq (by omega) (by omega), sub32_eq (by omega) (by omega)]
          simp only [Option.map_some]
          rw [add32_eq (by omega), add32_eq (by omega)]
          refine ⟨⟨a - 1, by rw [mem]; omega, by simp only [Deleted]; omega⟩, fun i => ?_⟩
          simp only [inAxis, Option.some.injEq, forall_eq', Deleted, shiftDel]
          constructor
          · intro hi; exact ⟨i + count, by omega, by omega, by rw [if_neg (by omega)]; omega⟩
          · rintro ⟨j, hj1, hj2, rfl⟩; split <;> omega
        · have h3 : ¬ (b - 1 ≥ start + count) := by omega
          simp only [if_neg h2, if_neg h3, Option.map_some]
          rw [add32_eq (by omega), add32_eq (by omega)]
          refine ⟨⟨a - 1, by rw [mem]; omega, by simp only [Deleted]; omega⟩, fun i => ?_⟩
          simp only [inAxis, Option.some.injEq, forall_eq', Deleted, shiftDel]
          constructor
          · intro hi; exact ⟨i, by omega, by omega, by rw [if_pos (by omega)]⟩
          · rintro ⟨j, hj1, hj2, rfl⟩; split <;> omega
      · rw [if_neg h1]
        by_cases h2 : a - 1 ≥ start ∧ b - 1 < start + count
        · rw [if_pos h2]
          refine ⟨⟨a - 1, by rw [mem]; omega⟩, fun j hj => ?_⟩
          rw [mem] at hj; simp only [Deleted]; omega
        · rw [if_neg h2]
          by_cases h3 : a - 1 < start
          · by_cases h4 : b - 1 ≥ start + count
            · simp only [if_pos h3, if_pos h4]
              rw [sub32_eq (by omega) (by omega)]
              simp only [Option.map_some]
              rw [add32_eq (by omega), add32_eq (by omega)]
              refine ⟨⟨a - 1, by rw [mem]; omega, by simp only [Deleted]; omega⟩, fun i => ?_⟩
              simp only [inAxis, Option.some.injEq, forall_eq', Deleted, shiftDel]
              constructor
              · intro hi
                by_cases hi' : i < start
                · exact ⟨i, by omega, by omega, by rw [if_pos hi']⟩
                · exact ⟨i + count, by omega, by omega, by rw [if_neg (by omega)]; omega⟩
              · rintro ⟨j, hj1, hj2, rfl⟩; split <;> omega
            · simp only [if_pos h3, if_neg h4, Option.map_some]
              rw [add32_eq (by omega), add32_eq (by omega)]
              refine ⟨⟨a - 1, by rw [mem]; omega, by simp only [Deleted]; omega⟩, fun i => ?_⟩
              simp only [inAxis, Option.some.injEq, forall_eq', Deleted, shiftDel]
              constructor
              · intro hi; exact ⟨i, by omega, by omega, by rw [if_pos (by omega)]⟩
              · rintro ⟨j, hj1, hj2, rfl⟩; split <;> omega
          · have h4 : b - 1 ≥ start + count := by omega
            simp only [if_neg h3, if_pos h4]
            rw [sub32_eq (by omega) (by omega)]
            simp only [Option.map_some]
            rw [add32_eq (by omega), add32_eq (by omega)]
            refine ⟨⟨b - 1, by rw [mem]; omega, by simp only [Deleted]; omega⟩, fun i => ?_⟩
            simp only [inAxis, Option.some.injEq, forall_eq', Deleted, shiftDel]
            constructor
            · intro hi; exact ⟨i + count, by omega, by omega, by rw [if_neg (by omega)]; omega⟩
            · rintro ⟨j, hj1, hj2, rfl⟩; split <;> omega

/-! ## Ranges -/

/-- C21: after rows are inserted a range covers the rows it covered, where they went, and the inserted rows when they lie
inside it. Columns, sheet and `$` marks are kept. -/
theorem insertRows_range (ctx : Option Ctx) (sheet : Option String) (s before count : Nat) (sr sc er ec : Option Nat)
    (f1 f2 f3 f4 : Bool) (hb : Binds ctx sheet s) (hr : Bounds sr er count) (hc : Bounds sc ec 0) :
    ∃ sr' er', adjustRef ctx (.insRows s before count) (.range sheet sr sc er ec f1 f2 f3 f4) =
        some (.ref (.range sheet sr' sc er' ec f1 f2 f3 f4)) ∧
      ∀ i, inAxis sr' er' i ↔ (∃ j, inAxis sr er j ∧ i = shiftIns before count j) ∨
        (before ≤ i ∧ i < before + count ∧ (sr = none ∨ ∃ j, j < before ∧ inAxis sr er j) ∧
          (er = none ∨ ∃ j, before ≤ j ∧ inAxis sr er j)) := by
  refine ⟨insB before count sr, insB before count er, ?_, insB_covers hr⟩
  simp only [adjustRef, Shift.sheet, binds_test hb, Bool.false_eq_true, if_false, rangeBounds_eq hr hc]
  have h := insertAxis_eq (before := before) hr
  rw [h.1, h.2, bound1_back fun a h => by have := hc.spos a h; omega, bound1_back fun a h => by have := hc.epos a h; omega]

/-- C21: the same for columns. -/
theorem insertCols_range (ctx : Option Ctx) (sheet : Option String) (s before count : Nat) (sr sc er ec : Option Nat)
    (f1 f2 f3 f4 : Bool) (hb : Binds ctx sheet s) (hr : Bounds sr er 0) (hc : Bounds sc ec count) :
    ∃ sc' ec', adjustRef ctx (.insCols s before count) (.range sheet sr sc er ec f1 f2 f3 f4) =
        some (.ref (.range sheet sr sc' er ec' f1 f2 f3 f4)) ∧
      ∀ i, inAxis sc' ec' i ↔ (∃ j, inAxis sc ec j ∧ i = shiftIns before count j) ∨
        (before ≤ i ∧ i < before + count ∧ (sc = none ∨ ∃ j, j < before ∧ inAxis sc ec j) ∧
          (ec = none ∨ ∃ j, before ≤ j ∧ inAxis sc ec j)) := by
  refine ⟨insB before count sc, insB before count ec, ?_, insB_covers hc⟩
  simp only [adjustRef, Shift.sheet, binds_test hb, Bool.false_eq_true, if_false, rangeBounds_eq hr hc]
  have h := insertAxis_eq (before := before) hc
  rw [h.1, h.2, bound1_back fun a h => by have := hr.spos a h; omega, bound1_back fun a h => by have := hr.epos a h; omega]

/-- C22 (partial): a range becomes `#REF!` exactly when all its rows are deleted; otherwise it covers exactly the
surviving rows, where they went. Missing: ranges with an end row but no start row (`A:A5`), for which the claim is
false, see `endOnly_delete_fails`. -/
theorem deleteRows_range_partial (ctx : Option Ctx) (sheet : Option String) (s start count : Nat)
    (sr sc er ec : Option Nat) (f1 f2 f3 f4 : Bool) (hb : Binds ctx sheet s) (hr : Bounds sr er 0) (hc : Bounds sc ec 0)
    (hs : start + count < two32) (hshape : sr ≠ none ∨ er = none) :
    ((∀ j, inAxis sr er j → Deleted start count j) ∧
      adjustRef ctx (.delRows s start count) (.range sheet sr sc er ec f1 f2 f3 f4) = some .invalid) ∨
    ((∃ j, inAxis sr er j ∧ ¬ Deleted start count j) ∧
      ∃ sr' er', adjustRef ctx (.delRows s start count) (.range sheet sr sc er ec f1 f2 f3 f4) =
          some (.ref (.range sheet sr' sc er' ec f1 f2 f3 f4)) ∧
        ∀ i, inAxis sr' er' i ↔ ∃ j, inAxis sr er j ∧ ¬ Deleted start count j ∧ i = shiftDel start count j) := by
  have h := deleteAxis_covers hr hs hshape
  simp only [adjustRef, Shift.sheet, binds_test hb, Bool.false_eq_true, if_false, rangeBounds_eq hr hc]
  split at h
  · next he => left; exact ⟨h.2, by rw [he]⟩
  · next s' e' he =>
    right
    refine ⟨h.1, bound1 s', bound1 e', ?_, h.2⟩
    rw [he]
    simp only
    rw [bound1_back fun a h => by have := hc.spos a h; omega, bound1_back fun a h => by have := hc.epos a h; omega]

/-- C22 (partial): the same for columns. -/
theorem deleteCols_range_partial (ctx : Option Ctx) (sheet : Option String) (s start count : Nat)
    (sr sc er ec : Option Nat) (f1 f2 f3 f4 : Bool) (hb : Binds ctx sheet s) (hr : Bounds sr er 0) (hc : Bounds sc ec 0)
    (hs : start + count < two32) (hshape : sc ≠ none ∨ ec = none) :
    ((∀ j, inAxis sc ec j → Deleted start count j) ∧
      adjustRef ctx (.delCols s start count) (.range sheet sr sc er ec f1 f2 f3 f4) = some .invalid) ∨
    ((∃ j, inAxis sc ec j ∧ ¬ Deleted start count j) ∧
      ∃ sc' ec', adjustRef ctx (.delCols s start count) (.range sheet sr sc er ec f1 f2 f3 f4) =
          some (.ref (.range sheet sr sc' er ec' f1 f2 f3 f4)) ∧
        ∀ i, inAxis sc' ec' i ↔ ∃ j, inAxis sc ec j ∧ ¬ Deleted start count j ∧ i = shiftDel start count j) := by
  have h := deleteAxis_covers hc hs hshape
  simp only [adjustRef, Shift.sheet, binds_test hb, Bool.false_eq_true, if_false, rangeBounds_eq hr hc]
  split at h
  · next he => left; exact ⟨h.2, by rw [he]⟩
  · next s' e' he =>
    right
    refine ⟨h.1, bound1 s', bound1 e', ?_, h.2⟩
    rw [he]
    simp only
    rw [bound1_back fun a h => by have := hr.spos a h; omega, bound1_back fun a h => by have := hr.epos a h; omega]

/-- C21/C22: references bound to another sheet, or to no sheet, are not touched. -/
theorem other_sheet_unchanged (c : Ctx) (op : Shift) (r : Ref)
    (h : match r with
      | .cell sheet _ _ _ _ => c sheet ≠ some op.sheet
      | .range sheet _ _ _ _ _ _ _ _ => c sheet ≠ some op.sheet
      | .opaque _ => True) : adjustRef (some c) op r = some (.ref r) := by
  cases r with
  | cell sheet row col ra ca => simp only at h; simp only [adjustRef]; rw [if_pos (by simpa [foreign] using h)]
  | range sheet sr sc er ec f1 f2 f3 f4 => simp only at h; simp only [adjustRef]; rw [if_pos (by simpa [foreign] using h)]
  | «opaque» t => rfl

/-! ## Insert, then delete -/

/-- The reference stays on the grid when the rows are inserted. -/
def FitsRows (before count : Nat) : Ref → Prop
  | .cell _ row col _ _ => shiftIns before count (row - 1) ≤ rowMax ∧ col - 1 ≤ colMax
  | .range _ sr sc er ec _ _ _ _ => (∀ a, sr = some a ∨ er = some a → a + count < two32) ∧ ∀ a, sc = some a ∨ ec = some a → a < two32
  | .opaque _ => True

def FitsCols (before count : Nat) : Ref → Prop
  | .cell _ row col _ _ => row - 1 ≤ rowMax ∧ shiftIns before count (col - 1) ≤ colMax
  | .range _ sr sc er ec _ _ _ _ => (∀ a, sr = some a ∨ er = some a → a < two32) ∧ ∀ a, sc = some a ∨ ec = some a → a + count < two32
  | .opaque _ => True

theorem bound0_none {b : Option Nat} (h : bound0 b = none) : b = some 0 := by
  match b with
  | none => simp [bound0] at h
  | some 0 => rfl
  | some (a + 1) => simp [bound0] at h

theorem bound0_pos {b x : Option Nat} (h : bound0 b = some x) : (∀ a, b = some a → 1 ≤ a) ∧ x = b.map (· - 1) := by
  match b with
  | none => simp [bound0] at h; subst h; simp
  | some 0 => simp [bound0] at h
  | some (a + 1) => simp [bound0] at h; subst h; simp

theorem ordered_iff {s e : Option Nat} (hs : ∀ a, s = some a → 1 ≤ a) (he : ∀ a, e = some a → 1 ≤ a) :
    ordered (s.map (· - 1)) (e.map (· - 1)) = true ↔ ∀ a b, s = some a → e = some b → a ≤ b := by
  cases s with
  | none => simp [ordered]
  | some a =>
    cases e with
    | none => simp [ordered]
    | some b =>
      have := hs a rfl
      have := he b rfl
      simp only [Option.map_some, ordered, decide_eq_true_eq, Option.some.injEq]
      constructor
      · rintro h _ _ rfl rfl; omega
      · intro h; have := h a b rfl rfl; omega

/-- A range the code can convert has good bounds; any other range is left alone. -/
theorem rangeBounds_cases (sr sc er ec : Option Nat) (n m : Nat) (hr : ∀ a, sr = some a ∨ er = some a → a + n < two32)
    (hc : ∀ a, sc = some a ∨ ec = some a → a + m < two32) :
    rangeBounds sr sc er ec = none ∨ (Bounds sr er n ∧ Bounds sc ec m) := by
  cases h : rangeBounds sr sc er ec with
  | none => left; rfl
  | some q =>
    right
    unfold rangeBounds at h
    split at h
    · next a b c d h1 h2 h3 h4 =>
      obtain ⟨p1, rfl⟩ := bound0_pos h1
      obtain ⟨p2, rfl⟩ := bound0_pos h2
      obtain ⟨p3, rfl⟩ := bound0_pos h3
      obtain ⟨p4, rfl⟩ := bound0_pos h4
      split at h
      · next ho =>
        rw [Bool.and_eq_true, ordered_iff p1 p3, ordered_iff p2 p4] at ho
        exact ⟨⟨fun a h => ⟨p1 a h, hr a (Or.inl h)⟩, fun a h => ⟨p3 a h, hr a (Or.inr h)⟩, ho.1⟩,
          ⟨fun a h => ⟨p2 a h, hc a (Or.inl h)⟩, fun a h => ⟨p4 a h, hc a (Or.inr h)⟩, ho.2⟩⟩
      · simp at h
    · simp at h

theorem insB_bounds {before count : Nat} {s e : Option Nat} (h : Bounds s e count) :
    Bounds (insB before count s) (insB before count e) 0 := by
  refine ⟨?_, ?_, ?_⟩
  · intro a ha
    cases s with
    | none => simp [insB] at ha
    | some x =>
      have := h.spos x rfl
      simp only [insB, Option.map_some, Option.some.injEq] at ha
      subst ha; split <;> omega
  · intro a ha
    cases e with
    | none => simp [insB] at ha
    | some x =>
      have := h.epos x rfl
      simp only [insB, Option.map_some, Option.some.injEq] at ha
      subst ha; split <;> omega
  · intro a b ha hb
    cases s with
    | none => simp [insB] at ha
    | some x =>
      cases e with
      | none => simp [insB] at hb
      | some y =>
        have := h.ord x y rfl rfl
        simp only [insB, Option.map_some, Option.some.injEq] at ha hb
        subst ha; subst hb; split <;> split <;> omega

/-- Deleting the gap takes the bounds back. -/
theorem delete_insB {before count : Nat} {s e : Option Nat} (h : Bounds s e count) (hs : before + count < two32) :
    ∃ s' e', deleteAxis before count ((insB before count s).map (· - 1)) ((insB before count e).map (· - 1)) = some (s', e') ∧
      bound1 s' = s ∧ bound1 e' = e := by
  have one : ∀ a, 1 ≤ a → a + count < two32 →
      add32 (deleteBound before count ((if a ≤ before then a else a + count) - 1)) 1 = a := by
    intro a h1 h2
    unfold deleteBound
    rw [add32_eq hs]
    by_cases ha : a ≤ before
    · rw [if_pos ha, if_neg (by omega), if_neg (by omega), add32_eq (by omega)]; omega
    · rw [if_neg ha, if_pos (by omega), sub32_eq (by omega) (by omega), add32_eq (by omega)]; omega
  cases s with
  | none =>
    refine ⟨_, _, rfl, rfl, ?_⟩
    cases e with
    | none => rfl
    | some b =>
      have := h.epos b rfl
      simp only [insB, Option.map_some, bound1, one b this.1 this.2]
  | some a =>
    have ha := h.spos a rfl
    cases e with
    | none =>
      refine ⟨_, _, rfl, ?_, rfl⟩
      simp only [insB, Option.map_some, bound1, one a ha.1 ha.2]
    | some b =>
      have hb := h.epos b rfl
      have hab := h.ord a b rfl rfl
      simp only [insB, Option.map_some, deleteAxis]
      rw [add32_eq hs]
      by_cases h1 : b ≤ before
      · have h2 : a ≤ before := by omega
        simp only [if_pos h1, if_pos h2]
        rw [if_pos (by omega), if_neg (by omega), if_neg (by omega)]
        refine ⟨_, _, rfl, ?_, ?_⟩
        · simp only [bound1, Option.map_some, Option.some.injEq]; rw [add32_eq (by omega)]; omega
        · simp only [bound1, Option.map_some, Option.some.injEq]; rw [add32_eq (by omega)]; omega
      · by_cases h2 : a ≤ before
        · simp only [if_neg h1, if_pos h2]
          rw [if_neg (by omega), if_neg (by omega), if_pos (by omega), if_pos (by omega)]
          refine ⟨_, _, rfl, ?_, ?_⟩
          · simp only [bound1, Option.map_some, Option.some.injEq]; rw [add32_eq (by omega)]; omega
          · simp only [bound1, Option.map_some, Option.some.injEq]
            rw [sub32_eq (by omega) (by omega), add32_eq (by omega)]; omega
        · simp only [if_neg h1, if_neg h2]
          rw [if_pos (by omega), if_pos (by omega), if_pos (by omega)]
          refine ⟨_, _, rfl, ?_, ?_⟩
          · simp only [bound1, Option.map_some, Option.some.injEq]
            rw [sub32_eq (by omega) (by omega), add32_eq (by omega)]; omega
          · simp only [bound1, Option.map_some, Option.some.injEq]
            rw [sub32_eq (by omega) (by omega), add32_eq (by omega)]; omega

theorem binds_or (ctx : Option Ctx) (sheet : Option String) (s : Nat) :
    Binds ctx sheet s ∨ ∃ c, ctx = some c ∧ c sheet ≠ some s := by
  cases ctx with
  | none => left; intro c h; simp at h
  | some c =>
    by_cases h : c sheet = some s
    · left; intro c' h'; simp only [Option.some.injEq] at h'; subst h'; exact h
    · right; exact ⟨c, rfl, h⟩

/-- C23, one reference: inserting rows and deleting them again gives back the reference. -/
theorem insert_delete_rows_ref (ctx : Option Ctx) (s before count : Nat) (r : Ref) (hf : FitsRows before count r)
    (hs : before + count < two32) :
    ∃ r', adjustRef ctx (.insRows s before count) r = some (.ref r') ∧
      adjustRef ctx (.delRows s before count) r' = some (.ref r) := by
  cases r with
  | «opaque» t => exact ⟨_, rfl, rfl⟩
  | cell sheet row col ra ca =>
    rcases binds_or ctx sheet s with hb | ⟨c, rfl, hc⟩
    · obtain ⟨h1, h2⟩ := hf
      cases row with
      | zero =>
        refine ⟨.cell sheet 0 col ra ca, ?_, ?_⟩ <;>
          simp only [adjustRef, Shift.sheet, binds_test hb, Bool.false_eq_true, if_false]
      | succ r =>
        cases col with
        | zero =>
          refine ⟨.cell sheet (r + 1) 0 ra ca, ?_, ?_⟩ <;>
            simp only [adjustRef, Shift.sheet, binds_test hb, Bool.false_eq_true, if_false]
        | succ c =>
          simp only [Nat.add_sub_cancel] at h1 h2
          refine ⟨_, insertRows_cell ctx sheet s before count r c ra ca hb h1 h2, ?_⟩
          rw [deleteRows_cell ctx sheet s before count _ c ra ca hb h1 h2 hs]
          have e1 : ¬ Deleted before count (shiftIns before count r) := by
            simp only [Deleted, shiftIns]; split <;> omega
          have e2 : shiftDel before count (shiftIns before count r) = r := by
            simp only [shiftDel, shiftIns]; split <;> first | rfl | (split <;> omega) | omega
          rw [if_neg e1, e2]
    · exact ⟨_, other_sheet_unchanged c _ _ hc, other_sheet_unchanged c _ _ hc⟩
  | range sheet sr sc er ec f1 f2 f3 f4 =>
    rcases binds_or ctx sheet s with hb | ⟨c, rfl, hc⟩
    · obtain ⟨h1, h2⟩ := hf
      rcases rangeBounds_cases sr sc er ec count 0 h1 h2 with hn | ⟨hr, hc⟩
      · refine ⟨.range sheet sr sc er ec f1 f2 f3 f4, ?_, ?_⟩ <;>
          simp only [adjustRef, Shift.sheet, binds_test hb, Bool.false_eq_true, if_false, hn]
      · refine ⟨.range sheet (insB before count sr) sc (insB before count er) ec f1 f2 f3 f4, ?_, ?_⟩
        · simp only [adjustRef, Shift.sheet, binds_test hb, Bool.false_eq_true, if_false, rangeBounds_eq hr hc]
          have h := insertAxis_eq (before := before) hr
          rw [h.1, h.2, bound1_back fun a h => by have := hc.spos a h; omega,
            bound1_back fun a h => by have := hc.epos a h; omega]
        · simp only [adjustRef, Shift.sheet, binds_test hb, Bool.false_eq_true, if_false,
            rangeBounds_eq (insB_bounds (before := before) hr) hc]
          obtain ⟨s', e', q1, q2, q3⟩ := delete_insB hr hs
          rw [q1]
          simp only
          rw [q2, q3, bound1_back fun a h => by have := hc.spos a h; omega,
            bound1_back fun a h => by have := hc.epos a h; omega]
    · exact ⟨_, other_sheet_unchanged c _ _ hc, other_sheet_unchanged c _ _ hc⟩

/-- C23, one reference: the same for columns. -/
theorem insert_delete_cols_ref (ctx : Option Ctx) (s before count : Nat) (r : Ref) (hf : FitsCols before count r)
    (hs : before + count < two32) :
    ∃ r', adjustRef ctx (.insCols s before count) r = some (.ref r') ∧
      adjustRef ctx (.delCols s before count) r' = some (.ref r) := by
  cases r with
  | «opaque» t => exact ⟨_, rfl, rfl⟩
  | cell sheet row col ra ca =>
    rcases binds_or ctx sheet s with hb | ⟨c, rfl, hc⟩
    · obtain ⟨h1, h2⟩ := hf
      cases row with
      | zero =>
        refine ⟨.cell sheet 0 col ra ca, ?_, ?_⟩ <;>
          simp only [adjustRef, Shift.sheet, binds_test hb, Bool.false_eq_true, if_false]
      | succ r =>
        cases col with
        | zero =>
          refine ⟨.cell sheet (r + 1) 0 ra ca, ?_, ?_⟩ <;>
            simp only [adjustRef, Shift.sheet, binds_test hb, Bool.false_eq_true, if_false]
        | succ c =>
          simp only [Nat.add_sub_cancel] at h1 h2
          refine ⟨_, insertCols_cell ctx sheet s before count r c ra ca hb h1 h2, ?_⟩
          rw [deleteCols_cell ctx sheet s before count r _ ra ca hb h1 h2 hs]
          have e1 : ¬ Deleted before count (shiftIns before count c) := by
            simp only [Deleted, shiftIns]; split <;> omega
          have e2 : shiftDel before count (shiftIns before count c) = c := by
            simp only [shiftDel, shiftIns]; split <;> first | rfl | (split <;> omega) | omega
          rw [if_neg e1, e2]
    · exact ⟨_, other_sheet_unchanged c _ _ hc, other_sheet_unchanged c _ _ hc⟩
  | range sheet sr sc er ec f1 f2 f3 f4 =>
    rcases binds_or ctx sheet s with hb | ⟨c, rfl, hc⟩
    · obtain ⟨h1, h2⟩ := hf
      rcases rangeBounds_cases sr sc er ec 0 count h1 h2 with hn | ⟨hr, hc⟩
      · refine ⟨.range sheet sr sc er ec f1 f2 f3 f4, ?_, ?_⟩ <;>
          simp only [adjustRef, Shift.sheet, binds_test hb, Bool.false_eq_true, if_false, hn]
      · refine ⟨.range sheet sr (insB before count sc) er (insB before count ec) f1 f2 f3 f4, ?_, ?_⟩
        · simp only [adjustRef, Shift.sheet, binds_test hb, Bool.false_eq_true, if_false, rangeBounds_eq hr hc]
          have h := insertAxis_eq (before := before) hc
          rw [h.1, h.2, bound1_back fun a h => by have := hr.spos a h; omega,
            bound1_back fun a h => by have := hr.epos a h; omega]
        · simp only [adjustRef, Shift.sheet, binds_test hb, Bool.false_eq_true, if_false,
            rangeBounds_eq hr (insB_bounds (before := before) hc)]
          obtain ⟨s', e', q1, q2, q3⟩ := delete_insB hc hs
          rw [q1]
          simp only
          rw [q2, q3, bound1_back fun a h => by have := hr.spos a h; omega,
            bound1_back fun a h => by have := hr.epos a h; omega]
    · exact ⟨_, other_sheet_unchanged c _ _ hc, other_sheet_unchanged c _ _ hc⟩

/-- The formula without the source text of its references. -/
def Ast.erase (t : Ast) : Ast := t.subst fun _ r => .ref "" r

theorem roundtrip_ast (norm : Ref → String) (ctx : Option Ctx) (op op' : Shift) (t : Ast)
    (h : ∀ r ∈ t.refs, ∃ r', adjustRef ctx op r = some (.ref r') ∧ adjustRef ctx op' r' = some (.ref r)) :
    ∃ t₁ t₂, adjustAst norm ctx op t = some t₁ ∧ adjustAst norm ctx op' t₁ = some t₂ ∧ t₂.erase = t.erase := by
  let g : Ref → Adj := fun r => (adjustRef ctx op r).getD .invalid
  let g' : Ref → Adj := fun r => (adjustRef ctx op' r).getD .invalid
  have h1 : ∀ r ∈ t.refs, adjustRef ctx op r = some (g r) := by
    intro r hr
    obtain ⟨r', q, -⟩ := h r hr
    simp only [g, q, Option.getD_some]
  refine ⟨_, _, (adjustAst_spec norm ctx op t g h1).1, (adjustAst_spec norm ctx op' _ g' ?_).1, ?_⟩
  · intro r hr
    obtain ⟨r0, h0, o, ho⟩ := refs_subst _ t r hr
    obtain ⟨r', q1, q2⟩ := h r0 h0
    have : r = r' := by
      simp only [put, g, q1, Option.getD_some] at ho
      split at ho
      · next e => subst e; simpa [Ast.refs] using ho
      · simpa [Ast.refs] using ho
    subst this
    simp only [g', q2, Option.getD_some]
  · unfold Ast.erase
    rw [subst_subst, subst_subst]
    apply subst_congr
    intro r hr o
    obtain ⟨r', q1, q2⟩ := h r hr
    simp only [put, g, q1, Option.getD_some]
    split
    · next e =>
      subst e
      simp only [Ast.subst, put, g', q2, Option.getD_some]
      simp [Ast.subst]
    · simp only [Ast.subst, put, g', q2, Option.getD_some]
      split
      · next e => subst e; simp [Ast.subst]
      · simp [Ast.subst]

/-- C23: inserting rows and then deleting exactly those rows returns every formula to its original references. -/
theorem insert_delete_rows (norm : Ref → String) (ctx : Option Ctx) (s before count : Nat) (t : Ast)
    (hf : ∀ r ∈ t.refs, FitsRows before count r) (hs : before + count < two32) :
    ∃ t₁ t₂, adjustAst norm ctx (.insRows s before count) t = some t₁ ∧
      adjustAst norm ctx (.delRows s before count) t₁ = some t₂ ∧ t₂.erase = t.erase :=
  roundtrip_ast norm ctx _ _ t fun r hr => insert_delete_rows_ref ctx s before count r (hf r hr) hs

/-- C23: the same for columns. -/
theorem insert_delete_cols (norm : Ref → String) (ctx : Option Ctx) (s before count : Nat) (t : Ast)
    (hf : ∀ r ∈ t.refs, FitsCols before count r) (hs : before + count < two32) :
    ∃ t₁ t₂, adjustAst norm ctx (.insCols s before count) t = some t₁ ∧
      adjustAst norm ctx (.delCols s before count) t₁ = some t₂ ∧ t₂.erase = t.erase :=
  roundtrip_ast norm ctx _ _ t fun r hr => insert_delete_cols_ref ctx s before count r (hf r hr) hs

/-! ## Where the code fails -/

/-- C21 fails: a reference to the last row, `A1048576`, makes an insertion panic. -/
theorem insert_panics (s : Nat) : adjustRef none (.insRows s 0 1) (.cell none 1048576 1 false false) = none := by
  simp [foreign, adjustRef, adjustCell, coordNew, rowMax, colMax, add32, two32]

/-- C21 fails: `A1:A1048576` becomes `A1:A1048577`, outside the grid. -/
theorem insert_leaves_grid : adjustRef none (.insRows 0 5 1)
    (.range none (some 1) (some 1) (some 1048576) (some 1) false false false false) =
    some (.ref (.range none (some 1) (some 1) (some 1048577) (some 1) false false false false)) := by decide

/-- C21 fails: a range written backwards, `A5:A3`, does not follow its cells. -/
theorem reversed_range_stays (ctx : Option Ctx) (op : Shift) (sheet : Option String) (sr sc er ec : Nat) (f1 f2 f3 f4 : Bool)
    (h : er < sr) (h0 : 1 ≤ er) : adjustRef ctx op (.range sheet (some sr) (some sc) (some er) (some ec) f1 f2 f3 f4) =
      some (.ref (.range sheet (some sr) (some sc) (some er) (some ec) f1 f2 f3 f4)) := by
  have : rangeBounds (some sr) (some sc) (some er) (some ec) = none := by
    cases sr with
    | zero => omega
    | succ a =>
      cases er with
      | zero => omega
      | succ b =>
        cases sc with
        | zero => rfl
        | succ c =>
          cases ec with
          | zero => rfl
          | succ d => simp only [rangeBounds, bound0]; rw [if_neg]; simp [ordered]; omega
  simp only [adjustRef, this, ite_self]

/-- C22 fails: `A:A5` (no start row) after deleting rows 3 to 5 becomes `A:A3`, which covers the former row 6. -/
theorem endOnly_delete_fails : adjustRef none (.delRows 0 2 3) (.range none none (some 1) (some 5) (some 1) false false false false) =
      some (.ref (.range none none (some 1) (some 3) (some 1) false false false false)) ∧
    inAxis none (some 3) (shiftDel 2 3 5) ∧ ¬ inAxis none (some 5) 5 := by
  refine ⟨by decide, ?_, ?_⟩
  · simp [inAxis, shiftDel]
  · simp [inAxis]

/-! ## Examples -/

/-- `=SUM(A2:A4)+B7`, two rows inserted before row 4. -/
example : adjustAst (fun _ => "n") none (.insRows 0 3 2)
    (.bin "+" (.fn "SUM" [.ref "A2:A4" (.range none (some 2) (some 1) (some 4) (some 1) false false false false)])
      (.ref "B7" (.cell none 7 2 false false))) =
    some (.bin "+" (.fn "SUM" [.ref "n" (.range none (some 2) (some 1) (some 6) (some 1) false false false false)])
      (.ref "n" (.cell none 9 2 false false))) := by rfl

/-- `=SUM(A2:A4)+B7`, rows 3 to 7 deleted. -/
example : adjustAst (fun _ => "n") none (.delRows 0 2 5)
    (.bin "+" (.fn "SUM" [.ref "A2:A4" (.range none (some 2) (some 1) (some 4) (some 1) false false false false)])
      (.ref "B7" (.cell none 7 2 false false))) =
    some (.bin "+" (.fn "SUM" [.ref "n" (.range none (some 2) (some 1) (some 2) (some 1) false false false false)])
      .refErr) := by rfl

example : Bounds (some 2) (some 4) 2 := ⟨by simp [two32], by simp [two32], by simp⟩
example : FitsRows 3 2 (.cell none 7 2 false false) := by simp [FitsRows, shiftIns, rowMax, colMax]

end Verif.Adjust
