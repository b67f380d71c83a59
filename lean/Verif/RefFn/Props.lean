import Verif.RefFn.Model
import Mathlib.Tactic.Linarith
import Mathlib.Tactic.NormNum

/-! # C97: INDEX and OFFSET name exactly the cells they describe -/

namespace Verif.RefFn

/-! ## Specification -/

/-- The cell `(r, c)` lies in the rectangle. -/
def In (b : Bounds) (r c : Nat) : Prop := b.sr ≤ r ∧ r ≤ b.er ∧ b.sc ≤ c ∧ c ≤ b.ec

/-- A rectangle inside the grid, its corners in order. -/
def Good (b : Bounds) : Prop :=
  1 ≤ b.sr ∧ b.sr ≤ b.er ∧ b.er ≤ 1048576 ∧ 1 ≤ b.sc ∧ b.sc ≤ b.ec ∧ b.ec ≤ 16384

/-- Number of rows. -/
def height (b : Bounds) : Int := (b.er : Int) - b.sr + 1
/-- Number of columns. -/
def cols (b : Bounds) : Int := (b.ec : Int) - b.sc + 1

/-! ## Arithmetic -/

theorem asU32_small (i : Int) (h0 : 0 ≤ i) (h1 : i < 4294967296) : asU32 i = i.toNat := by
  simp only [asU32]; congr 1; omega

theorem nth_small (k : Bool) (s : Nat) (i : Int) (hs : s ≤ 1048576) (h0 : 1 ≤ i) (h1 : i < 2147483648) :
    nth k s i = .ok (s + i.toNat - 1) := by
  simp only [nth, asU32_small i (by omega) (by omega), add32]
  rw [if_pos (by omega)]
  simp only [Out.bind, pred32]
  rw [if_pos (by omega)]

theorem add64_small (k : Bool) (a b : Int) (h : -9223372036854775808 ≤ a + b ∧ a + b ≤ 9223372036854775807) :
    add64 k a b = .ok (a + b) := by
  simp only [add64, if_pos h]

/-- A rectangle inside the grid is read as it is. -/
theorem readRef_range (b : Bounds) (h : Good b) : readRef (rangeRef b.sheet b.sr b.sc b.er b.ec) = .ok b := by
  obtain ⟨h1, h2, h3, h4, h5, h6⟩ := h
  simp only [rangeRef, readRef]
  rw [if_neg (by omega), if_neg (by omega)]
  simp only [coordNew]
  rw [if_pos (by omega)]
  simp only [Out.bind]
  rw [if_pos (by omega)]
  simp only [Out.ok.injEq]
  cases b
  simp only [Bounds.mk.injEq, true_and]
  simp only at *
  omega

theorem readRef_cell (s : Option String) (r c : Nat) (h : 1 ≤ r ∧ r ≤ 1048576 ∧ 1 ≤ c ∧ c ≤ 16384) :
    readRef (.cell s r c) = .ok ⟨s, r, c, r, c⟩ := by
  simp only [readRef]
  rw [if_neg (by omega)]
  simp only [coordNew]
  rw [if_pos (by omega)]
  simp only [Out.bind, Out.ok.injEq, Bounds.mk.injEq, true_and]
  omega

/-! ## INDEX -/

/-- The rectangle that INDEX selects. -/
def pick (b : Bounds) (i j : Int) : Bounds :=
  ⟨b.sheet, if i = 0 then b.sr else b.sr + i.toNat - 1, if j = 0 then b.sc else b.sc + j.toNat - 1,
    if i = 0 then b.er else b.sr + i.toNat - 1, if j = 0 then b.ec else b.sc + j.toNat - 1⟩

theorem indexAt_ok (k : Bool) (b : Bounds) (h : Good b) (i j : Int) (hi : 0 ≤ i) (hj : 0 ≤ j)
    (hih : i ≤ height b) (hjw : j ≤ cols b) : (indexAt k b (i, j)).bind readRef = .ok (pick b i j) := by
  have hg := h
  obtain ⟨h1, h2, h3, h4, h5, h6⟩ := h
  simp only [height] at hih
  simp only [cols] at hjw
  simp only [indexAt]
  rw [if_neg (by omega)]
  by_cases hj0 : j = 0
  · rw [if_pos hj0]
    by_cases hi0 : i = 0
    · rw [if_pos hi0]
      simp only [Out.bind, readRef_range b hg, pick, hi0, hj0, if_true]
    · rw [if_neg hi0, indexRow, nth_small k b.sr i (by omega) (by omega) (by omega)]
      simp only [Out.bind]
      rw [if_neg (by omega)]
      by_cases hc : b.sc = b.ec
      · simp only [if_pos hc]
        rw [readRef_cell _ _ _ (by omega)]
        simp only [pick, if_neg hi0, if_pos hj0, ← hc]
      · simp only [if_neg hc]
        have := readRef_range ⟨b.sheet, b.sr + i.toNat - 1, b.sc, b.sr + i.toNat - 1, b.ec⟩
          ⟨by simp only; omega, by simp only; omega, by simp only; omega, h4, h5, h6⟩
        simp only at this
        rw [this]
        simp only [pick, if_neg hi0, if_pos hj0]
  · rw [if_neg hj0]
    by_cases hi0 : i = 0
    · rw [if_pos hi0, indexCol, nth_small k b.sc j (by omega) (by omega) (by omega)]
      simp only [Out.bind]
      rw [if_neg (by omega)]
      by_cases hc : b.sr = b.er
      · simp only [if_pos hc]
        rw [readRef_cell _ _ _ (by omega)]
        simp only [pick, if_neg hj0, if_pos hi0, ← hc]
      · simp only [if_neg hc]
        have := readRef_range ⟨b.sheet, b.sr, b.sc + j.toNat - 1, b.er, b.sc + j.toNat - 1⟩
          ⟨h1, h2, h3, by simp only; omega, by simp only; omega, by simp only; omega⟩
        simp only at this
        rw [this]
        simp only [pick, if_neg hj0, if_pos hi0]
    · rw [if_neg hi0, indexCell, nth_small k b.sr i (by omega) (by omega) (by omega),
        nth_small k b.sc j (by omega) (by omega) (by omega)]
      simp only [Out.bind]
      rw [if_neg (by omega)]
      simp only
      rw [readRef_cell _ _ _ (by omega)]
      simp only [pick, if_neg hi0, if_neg hj0]

theorem indexAt_ref (k : Bool) (b : Bounds) (h : Good b) (i j : Int) (hi : i < 2147483648) (hj : j < 2147483648)
    (hn : ¬ (0 ≤ i ∧ i ≤ height b ∧ 0 ≤ j ∧ j ≤ cols b)) : indexAt k b (i, j) = .err .ref := by
  obtain ⟨h1, h2, h3, h4, h5, h6⟩ := h
  simp only [height, cols] at hn
  simp only [indexAt]
  by_cases hneg : i < 0 ∨ j < 0
  · rw [if_pos hneg]
  · rw [if_neg hneg]
    by_cases hj0 : j = 0
    · rw [if_pos hj0, if_neg (by omega), indexRow, nth_small k b.sr i (by omega) (by omega) (by omega)]
      simp only [Out.bind]
      rw [if_pos (by omega)]
    · rw [if_neg hj0]
      by_cases hi0 : i = 0
      · rw [if_pos hi0, indexCol, nth_small k b.sc j (by omega) (by omega) (by omega)]
        simp only [Out.bind]
        rw [if_pos (by omega)]
      · rw [if_neg hi0, indexCell, nth_small k b.sr i (by omega) (by omega) (by omega),
          nth_small k b.sc j (by omega) (by omega) (by omega)]
        simp only [Out.bind]
        rw [if_pos (by omega)]

theorem pick_cells (b : Bounds) (h : Good b) (i j : Int) (hi : 0 ≤ i) (hj : 0 ≤ j)
    (hih : i ≤ height b) (hjw : j ≤ cols b) (r c : Nat) :
    In (pick b i j) r c ↔ In b r c ∧ (i ≠ 0 → (r : Int) = b.sr + i - 1) ∧ (j ≠ 0 → (c : Int) = b.sc + j - 1) := by
  obtain ⟨h1, h2, h3, h4, h5, h6⟩ := h
  simp only [height] at hih
  simp only [cols] at hjw
  simp only [In, pick]
  by_cases hi0 : i = 0 <;> by_cases hj0 : j = 0 <;> simp only [hi0, hj0, if_true, if_false] <;> omega

theorem indexRef_two (k : Bool) (view : Ref → Option Bounds) (base : Ref) (p c : Lit) (b : Bounds) (i j : Int)
    (hb : resolveBounds view base = .ok b) (hp : p.whole = .ok i) (hc : c.whole = .ok j) :
    indexRef k view base p (some c) = indexAt k b (i, j) := by
  simp only [indexRef, hp, hc, hb, wholeOpt, Out.bind, which]

theorem indexAt_pos (k : Bool) (b : Bounds) (i j : Int) (hi : 1 ≤ i) (hj : 1 ≤ j) :
    indexAt k b (i, j) = indexCell k b i j := by
  simp only [indexAt]
  rw [if_neg (by omega), if_neg (by omega), if_neg (by omega)]

/-- **C97** INDEX of a reference reads exactly the cells described: of the rectangle the `i`-th row (all rows if `i`
is 0) and the `j`-th column (all if `j` is 0), and `#REF!` is the result exactly if there is no such row or column.
For indices below 2^31; the full claim, without this bound, is false (`index_far_wrong`). -/
theorem index_cells_partial (k : Bool) (view : Ref → Option Bounds) (base : Ref) (p c : Lit) (b : Bounds) (i j : Int)
    (hb : resolveBounds view base = .ok b) (hg : Good b) (hp : p.whole = .ok i) (hc : c.whole = .ok j)
    (hi : i < 2147483648) (hj : j < 2147483648) :
    ((0 ≤ i ∧ i ≤ height b ∧ 0 ≤ j ∧ j ≤ cols b) →
      ∃ b', (indexRef k view base p (some c)).bind readRef = .ok b' ∧ b'.sheet = b.sheet ∧
        ∀ r q, In b' r q ↔ In b r q ∧ (i ≠ 0 → (r : Int) = b.sr + i - 1) ∧ (j ≠ 0 → (q : Int) = b.sc + j - 1)) ∧
    (¬ (0 ≤ i ∧ i ≤ height b ∧ 0 ≤ j ∧ j ≤ cols b) → indexRef k view base p (some c) = .err .ref) := by
  rw [indexRef_two k view base p c b i j hb hp hc]
  constructor
  · rintro ⟨a1, a2, a3, a4⟩
    exact ⟨pick b i j, indexAt_ok k b hg i j a1 a3 a2 a4, rfl, pick_cells b hg i j a1 a3 a2 a4⟩
  · exact indexAt_ref k b hg i j hi hj

/-- **C97** With one index, INDEX of a single row counts columns, and INDEX of anything else counts rows of the first
column. -/
theorem index_one (k : Bool) (view : Ref → Option Bounds) (base : Ref) (p : Lit) (b : Bounds)
    (hb : resolveBounds view base = .ok b) :
    indexRef k view base p none =
      if b.sr = b.er then indexRef k view base (.int 1) (some p) else indexRef k view base p (some (.int 1)) := by
  have h1 : (Lit.int 1).whole = .ok 1 := rfl
  simp only [indexRef, wholeOpt, hb, h1]
  cases hp : p.whole with
  | ok i =>
    by_cases h : b.sr = b.er
    · simp only [Out.bind, which, h, beq_self_eq_true, if_true]
    · simp only [Out.bind, which, h, if_false, beq_eq_false_iff_ne.mpr h, Bool.false_eq_true]
  | err e => by_cases h : b.sr = b.er <;> simp only [Out.bind, h, if_true, if_false]
  | panic => by_cases h : b.sr = b.er <;> simp only [Out.bind, h, if_true, if_false]

/-- **C97** The fraction of an index is cut off, towards zero. -/
theorem index_fraction (q : Rat) (h : -9223372036854775808 < q ∧ q < 9223372036854775808) :
    ∃ i : Int, (Lit.number q).whole = .ok i ∧ (0 ≤ q → (i : Rat) ≤ q ∧ q < i + 1) ∧ (q ≤ 0 → (i : Rat) - 1 < q ∧ q ≤ i) := by
  refine ⟨asI64 q, rfl, ?_, ?_⟩
  · intro h0
    have e : asI64 q = ⌊q⌋ := by
      simp only [asI64, if_pos h0]
      have a1 : 0 ≤ ⌊q⌋ := Int.floor_nonneg.mpr h0
      have a2 : ⌊q⌋ < 9223372036854775808 := Int.floor_lt.mpr (by exact_mod_cast h.2)
      omega
    rw [e]
    exact ⟨Int.floor_le q, Int.lt_floor_add_one q⟩
  · intro h0
    have e : asI64 q = ⌈q⌉ := by
      have ec : (if 0 ≤ q then ⌊q⌋ else ⌈q⌉) = ⌈q⌉ := by
        split
        · rename_i h1
          have : q = 0 := le_antisymm h0 h1
          subst this
          simp
        · rfl
      simp only [asI64, ec]
      have a1 : ⌈q⌉ ≤ 0 := Int.ceil_le.mpr (by exact_mod_cast h0)
      have a2 : -9223372036854775809 < ⌈q⌉ := Int.lt_ceil.mpr (by push_cast; linarith [h.1])
      omega
    rw [e]
    exact ⟨by linarith [Int.ceil_lt_add_one q], Int.le_ceil q⟩

/-- **C97** Texts, logical values and empty cells are not accepted as an index. -/
theorem index_needs_numbers (k : Bool) (view : Ref → Option Bounds) (base : Ref) (c : Option Lit) (p : Lit) (i : Int)
    (hp : p.whole = .ok i) :
    indexRef k view base .other c = .err .value ∧ indexRef k view base p (some .other) = .err .value := by
  constructor
  · simp only [indexRef, Lit.whole, Out.bind]
  · have h1 : Lit.other.whole = .err .value := rfl
    simp only [indexRef, hp, wholeOpt, h1, Out.bind]

/-- **C97** (refuted) Indices are cut to 32 bits: `INDEX(A1:A3, 4294967297)` is `A1`, and `INDEX(A5:A9, 4294967296)`
is `A4`, which is not even in the range. -/
theorem index_far_wrong (k : Bool) (view : Ref → Option Bounds) :
    indexRef k view (rangeRef none 1 1 3 1) (.int 4294967297) none = .ok (.cell none 1 1) ∧
    indexRef k view (rangeRef none 5 1 9 1) (.int 4294967296) none = .ok (.cell none 4 1) := by
  cases k <;> exact ⟨rfl, rfl⟩

/-- **C97** (refuted) A range whose corners are not in order has no cells for INDEX: every row is `#REF!`. -/
theorem index_unordered (k : Bool) (view : Ref → Option Bounds) (s : Option String) (sr sc er ec : Nat) (i j : Int)
    (hg : sr ≤ 1048576 ∧ sc ≤ 16384) (h : er < sr) (hi : 1 ≤ i ∧ i < 2147483648) (hj : 1 ≤ j ∧ j < 2147483648) :
    indexRef k view (rangeRef s sr sc er ec) (.int i) (some (.int j)) = .err .ref := by
  rw [indexRef_two k view (rangeRef s sr sc er ec) _ _ ⟨s, sr, sc, er, ec⟩ i j rfl rfl rfl, indexAt_pos k _ i j hi.1 hj.1,
    indexCell, nth_small k _ i (by simp only; omega) hi.1 hi.2, nth_small k _ j (by simp only; omega) hj.1 hj.2]
  simp only [Out.bind]
  rw [if_pos (by omega)]

/-- **C97** (refuted) INDEX of a whole column stops at the last used row: beyond it the result is `#REF!`, although
the column has 1048576 rows. -/
theorem index_column_cut (k : Bool) (c u m i : Nat) (hc : 1 ≤ c ∧ c ≤ 16384) (hu : 1 ≤ u ∧ u < i) (hi : i ≤ 1048576) :
    indexRef k (fun _ => some (columnView c (some u) m)) (.range none none (some c) none (some c)) (.int i)
      (some (.int 1)) = .err .ref := by
  have := (index_cells_partial k (fun _ => some (columnView c (some u) m)) (.range none none (some c) none (some c))
    (.int i) (.int 1) (columnView c (some u) m) i 1 rfl
    ⟨by simp [columnView], by simp only [columnView, Option.getD_some]; omega,
      by simp only [columnView, Option.getD_some]; omega, hc.1, le_refl _, hc.2⟩ rfl rfl (by omega) (by omega)).2
  apply this
  simp only [height, columnView, Option.getD_some]
  omega

/-! ## OFFSET -/

/-- The rectangle that OFFSET describes, if it lies in the grid. -/
def shifted (b : Bounds) (dr dc h w : Int) : Bounds :=
  ⟨b.sheet, ((b.sr : Int) + dr).toNat, ((b.sc : Int) + dc).toNat, ((b.sr : Int) + dr + h - 1).toNat,
    ((b.sc : Int) + dc + w - 1).toNat⟩

/-- A size of argument that no `i64` or `u32` computation here overflows. -/
def Small (i : Int) : Prop := -2147483648 < i ∧ i < 2147483648 - 1048576

theorem offsetAt_eq (k : Bool) (b : Bounds) (hg : Good b) (dr dc h w : Int) (h1 : Small dr) (h2 : Small dc)
    (h3 : Small h) (h4 : Small w) :
    offsetAt k b dr dc h w =
      if 1 ≤ b.sr + dr ∧ 1 ≤ b.sc + dc ∧ 1 ≤ h ∧ 1 ≤ w then
        .ok (if h = 1 ∧ w = 1 then .cell b.sheet ((b.sr : Int) + dr).toNat ((b.sc : Int) + dc).toNat
          else rangeRef b.sheet ((b.sr : Int) + dr).toNat ((b.sc : Int) + dc).toNat
            ((b.sr : Int) + dr + h - 1).toNat ((b.sc : Int) + dc + w - 1).toNat)
      else .err .ref := by
  obtain ⟨g1, g2, g3, g4, g5, g6⟩ := hg
  obtain ⟨h1, h1'⟩ := h1; obtain ⟨h2, h2'⟩ := h2; obtain ⟨h3, h3'⟩ := h3; obtain ⟨h4, h4'⟩ := h4
  simp only [offsetAt]
  rw [add64_small k _ _ (by omega), add64_small k _ _ (by omega)]
  simp only [Out.bind]
  by_cases hn : 1 ≤ b.sr + dr ∧ 1 ≤ b.sc + dc ∧ 1 ≤ h ∧ 1 ≤ w
  · rw [if_pos hn, if_neg (by omega), add64_small k _ _ (by omega), add64_small k _ _ (by omega)]
    simp only
    rw [add64_small k _ _ (by omega), add64_small k _ _ (by omega)]
    simp only
    rw [asU32_small _ (by omega) (by omega), asU32_small _ (by omega) (by omega), asU32_small _ (by omega) (by omega),
      asU32_small _ (by omega) (by omega)]
    split <;> rfl
  · rw [if_neg hn, if_pos (by omega)]

theorem readRef_beyond (s : Option String) (sr sc er ec : Nat) (h1 : 1 ≤ sr ∧ sr ≤ er) (h2 : 1 ≤ sc ∧ sc ≤ ec)
    (hb : 1048576 < er ∨ 16384 < ec) : readRef (rangeRef s sr sc er ec) = .panic := by
  simp only [rangeRef, readRef]
  rw [if_neg (by omega), if_neg (by omega)]
  simp only [coordNew]
  by_cases h : sr - 1 ≤ 1048575 ∧ sc - 1 ≤ 16383
  · rw [if_pos h]
    simp only [Out.bind]
    rw [if_neg (by omega)]
  · rw [if_neg h]
    rfl

theorem readRef_cell_beyond (s : Option String) (r c : Nat) (h : 1 ≤ r ∧ 1 ≤ c) (hb : 1048576 < r ∨ 16384 < c) :
    readRef (.cell s r c) = .panic := by
  simp only [readRef]
  rw [if_neg (by omega)]
  simp only [coordNew]
  rw [if_neg (by omega)]
  rfl

/-- **C97** OFFSET reads exactly the rectangle of the given size that is shifted by the given numbers, if that lies in
the grid; `#REF!` is the result if it would begin above or left of the grid or a size is not positive. Missing: a
rectangle that ends beyond the grid should be `#REF!` too, but reading it panics. The sizes of the arguments are
bounded; without the bound the claim is false (`offset_far_wrong`). -/
theorem offset_cells_partial (k : Bool) (view : Ref → Option Bounds) (base : Ref) (rows cs hl wl : Lit) (b : Bounds)
    (dr dc h w : Int) (hb : resolveBounds view base = .ok b) (hg : Good b) (hr : rows.whole = .ok dr)
    (hc : cs.whole = .ok dc) (hh : hl.whole = .ok h) (hw : wl.whole = .ok w)
    (h1 : Small dr) (h2 : Small dc) (h3 : Small h) (h4 : Small w) :
    (1 ≤ b.sr + dr ∧ 1 ≤ b.sc + dc ∧ 1 ≤ h ∧ 1 ≤ w ∧ b.sr + dr + h - 1 ≤ 1048576 ∧ b.sc + dc + w - 1 ≤ 16384 →
      ∃ b', (offsetRef k view base rows cs (some hl) (some wl)).bind readRef = .ok b' ∧ b'.sheet = b.sheet ∧
        ∀ r c : Nat, In b' r c ↔ b.sr + dr ≤ r ∧ (r : Int) < b.sr + dr + h ∧ b.sc + dc ≤ c ∧ (c : Int) < b.sc + dc + w) ∧
    (¬ (1 ≤ b.sr + dr ∧ 1 ≤ b.sc + dc ∧ 1 ≤ h ∧ 1 ≤ w) →
      offsetRef k view base rows cs (some hl) (some wl) = .err .ref) ∧
    (1 ≤ b.sr + dr ∧ 1 ≤ b.sc + dc ∧ 1 ≤ h ∧ 1 ≤ w ∧ (1048576 < b.sr + dr + h - 1 ∨ 16384 < b.sc + dc + w - 1) →
      (offsetRef k view base rows cs (some hl) (some wl)).bind readRef = .panic) := by
  have e : offsetRef k view base rows cs (some hl) (some wl) = offsetAt k b dr dc h w := by
    simp only [offsetRef, hr, hc, hb, hh, hw, wholeOr, Out.bind]
  rw [e, offsetAt_eq k b hg dr dc h w h1 h2 h3 h4]
  refine ⟨?_, ?_, ?_⟩
  · rintro ⟨a1, a2, a3, a4, a5, a6⟩
    rw [if_pos ⟨a1, a2, a3, a4⟩]
    refine ⟨shifted b dr dc h w, ?_, rfl, ?_⟩
    · simp only [Out.bind]
      split
      · rename_i hs
        rw [readRef_cell _ _ _ (by omega)]
        simp only [shifted, hs.1, hs.2, Out.ok.injEq, Bounds.mk.injEq, true_and]
        omega
      · exact readRef_range (shifted b dr dc h w)
          ⟨by simp only [shifted]; omega, by simp only [shifted]; omega, by simp only [shifted]; omega,
            by simp only [shifted]; omega, by simp only [shifted]; omega, by simp only [shifted]; omega⟩
    · intro r c
      simp only [In, shifted]
      omega
  · intro hn
    rw [if_neg hn]
  · rintro ⟨a1, a2, a3, a4, a5⟩
    rw [if_pos ⟨a1, a2, a3, a4⟩]
    simp only [Out.bind]
    split
    · exact readRef_cell_beyond _ _ _ (by omega) (by omega)
    · exact readRef_beyond _ _ _ _ _ (by omega) (by omega) (by omega)

/-- **C97** (refuted) `OFFSET(A1, 1048576, 0)` should be `#REF!`; reading the cell panics. So does reading
`A1:A2000000`, which the parser accepts. -/
theorem beyond_panics (k : Bool) (view : Ref → Option Bounds) :
    (offsetRef k view (.cell none 1 1) (.int 1048576) (.int 0) none none).bind readRef = .panic ∧
    readRef (rangeRef none 1 1 2000000 1) = .panic := by
  cases k <;> exact ⟨rfl, rfl⟩

/-- **C97** (refuted) The result of OFFSET is cut to 32 bits: `OFFSET(A1, 4294967296, 0)` is `A1`. -/
theorem offset_far_wrong (k : Bool) (view : Ref → Option Bounds) :
    offsetRef k view (.cell none 1 1) (.int 4294967296) (.int 0) none none = .ok (.cell none 1 1) := by
  cases k <;> rfl

/-- **C97** (refuted) With overflow checks, `OFFSET(A1, 1E300, 0)` panics. -/
theorem offset_overflow (view : Ref → Option Bounds) :
    offsetRef true view (.cell none 1 1) (.int 9223372036854775807) (.int 0) none none = .panic := rfl

theorem offset_default (k : Bool) (view : Ref → Option Bounds) (base : Ref) (rows cs : Lit) (b : Bounds)
    (dr dc : Int) (hb : resolveBounds view base = .ok b) (hr : rows.whole = .ok dr) (hc : cs.whole = .ok dc) :
    offsetRef k view base rows cs none none = offsetAt k b dr dc (height b) (cols b) := by
  simp only [offsetRef, hr, hc, hb, wholeOr, Out.bind, height, cols]

/-- **C97** Without sizes the rectangle keeps its size, so shifting twice is shifting once by the sums: if the first
shift stays in the grid, both give the same reference (or both `#REF!`). -/
theorem offset_compose (k : Bool) (view : Ref → Option Bounds) (base mid : Ref) (b : Bounds) (dr dc dr' dc' : Int)
    (hb : resolveBounds view base = .ok b) (hg : Good b)
    (h1 : Small dr) (h2 : Small dc) (h3 : Small dr') (h4 : Small dc') (h5 : Small (dr + dr')) (h6 : Small (dc + dc'))
    (hin : b.er + dr ≤ 1048576 ∧ b.ec + dc ≤ 16384)
    (hm : offsetRef k view base (.int dr) (.int dc) none none = .ok mid) :
    offsetRef k view mid (.int dr') (.int dc') none none =
      offsetRef k view base (.int (dr + dr')) (.int (dc + dc')) none none := by
  have hg' := hg
  obtain ⟨g1, g2, g3, g4, g5, g6⟩ := hg'
  have sh : Small (height b) := by simp only [Small, height]; omega
  have sw : Small (cols b) := by simp only [Small, cols]; omega
  rw [offset_default k view base _ _ b dr dc hb rfl rfl, offsetAt_eq k b hg dr dc _ _ h1 h2 sh sw] at hm
  rw [offset_default k view base _ _ b (dr + dr') (dc + dc') hb rfl rfl, offsetAt_eq k b hg _ _ _ _ h5 h6 sh sw]
  have eh : height (shifted b dr dc (height b) (cols b)) = if 1 ≤ b.sr + dr then height b else height (shifted b dr dc (height b) (cols b)) := by
    split
    · simp only [height, shifted, cols]; omega
    · rfl
  have ew : cols (shifted b dr dc (height b) (cols b)) = if 1 ≤ b.sc + dc then cols b else cols (shifted b dr dc (height b) (cols b)) := by
    split
    · simp only [height, shifted, cols]; omega
    · rfl
  have dH : height b = (b.er : Int) - b.sr + 1 := rfl
  have dW : cols b = (b.ec : Int) - b.sc + 1 := rfl
  by_cases hpos : 1 ≤ b.sr + dr ∧ 1 ≤ b.sc + dc ∧ 1 ≤ height b ∧ 1 ≤ cols b
  · rw [if_pos hpos] at hm
    rw [if_pos hpos.1] at eh
    rw [if_pos hpos.2.1] at ew
    have gm : Good (shifted b dr dc (height b) (cols b)) := by
      simp only [Good, shifted]; omega
    have hmid : resolveBounds view mid = .ok (shifted b dr dc (height b) (cols b)) := by
      simp only [Out.ok.injEq] at hm
      subst hm
      split
      · rename_i hs
        simp only [resolveBounds, shifted, Out.ok.injEq, Bounds.mk.injEq, true_and]
        omega
      · simp only [rangeRef, resolveBounds, shifted]
    have e1 : ((shifted b dr dc (height b) (cols b)).sr : Int) + dr' = b.sr + (dr + dr') := by
      simp only [shifted]; omega
    have e2 : ((shifted b dr dc (height b) (cols b)).sc : Int) + dc' = b.sc + (dc + dc') := by
      simp only [shifted]; omega
    have es : (shifted b dr dc (height b) (cols b)).sheet = b.sheet := rfl
    rw [offset_default k view mid _ _ _ dr' dc' hmid rfl rfl, eh, ew, offsetAt_eq k _ gm dr' dc' _ _ h3 h4 sh sw, e1, e2, es]
  · rw [if_neg hpos] at hm
    cases hm

/-- **C97** A cell picked by INDEX is the cell OFFSET finds from the first cell of the range. -/
theorem index_is_offset (k : Bool) (view : Ref → Option Bounds) (base : Ref) (b : Bounds) (i j : Int)
    (hb : resolveBounds view base = .ok b) (hg : Good b) (hi : 1 ≤ i ∧ i ≤ height b) (hj : 1 ≤ j ∧ j ≤ cols b) :
    indexRef k view base (.int i) (some (.int j)) =
      offsetRef k view (.cell b.sheet b.sr b.sc) (.int (i - 1)) (.int (j - 1)) none none := by
  have hg' := hg
  obtain ⟨g1, g2, g3, g4, g5, g6⟩ := hg'
  simp only [height] at hi
  simp only [cols] at hj
  have e1 : indexRef k view base (.int i) (some (.int j)) = .ok (.cell b.sheet (b.sr + i.toNat - 1) (b.sc + j.toNat - 1)) := by
    rw [indexRef_two k view base _ _ b i j hb rfl rfl, indexAt_pos k b i j hi.1 hj.1, indexCell,
      nth_small k _ i (by omega) (by omega) (by omega), nth_small k _ j (by omega) (by omega) (by omega)]
    simp only [Out.bind]
    rw [if_neg (by omega)]
  rw [e1, offset_default k view (.cell b.sheet b.sr b.sc) _ _ ⟨b.sheet, b.sr, b.sc, b.sr, b.sc⟩ (i - 1) (j - 1) rfl rfl rfl,
    offsetAt_eq k ⟨b.sheet, b.sr, b.sc, b.sr, b.sc⟩ ⟨g1, le_refl _, by simp only; omega, g4, le_refl _, by simp only; omega⟩
      _ _ _ _ (by simp only [Small]; omega) (by simp only [Small]; omega) (by simp only [Small, height]; omega)
      (by simp only [Small, cols]; omega)]
  rw [if_pos (by simp only [height, cols]; omega), if_pos (by simp only [height, cols]; omega)]
  simp only [Out.ok.injEq, Ref.cell.injEq, true_and]
  omega

/-- **C97** ROWS, COLUMNS, ROW and COLUMN of a reference that can be read tell the size and the first cell of the
rectangle that is read. -/
theorem size_of_read (r : Ref) (b : Bounds) (h : readRef r = .ok b) :
    rowsOf r = height b ∧ columnsOf r = cols b ∧ rowOf r = some (b.sr : Int) ∧ columnOf r = some (b.sc : Int) := by
  cases r with
  | cell s row col =>
    simp only [readRef] at h
    split at h
    · cases h
    · simp only [coordNew] at h
      split at h
      · simp only [Out.bind, Out.ok.injEq] at h
        subst h
        simp only [rowsOf, columnsOf, rowOf, columnOf, height, cols, Option.some.injEq]
        omega
      · cases h
  | range s sr sc er ec =>
    cases sr <;> cases sc <;> cases er <;> cases ec <;> simp only [readRef] at h <;> try cases h
    split at h
    · cases h
    · split at h
      · cases h
      · simp only [coordNew] at h
        split at h
        · split at h
          · simp only [Out.bind, Out.ok.injEq] at h
            subst h
            simp only [rowsOf, columnsOf, rowOf, columnOf, height, cols, Option.some.injEq]
            rw [if_pos (by omega), if_pos (by omega)]
            omega
          · cases h
        · cases h

/-- **C97** (refuted) ROWS of a range that cannot be read is still a number: `ROWS(A5:A2)` is 1. -/
theorem rows_unordered_wrong : rowsOf (rangeRef none 5 1 2 1) = 1 ∧ readRef (rangeRef none 5 1 2 1) = .err .ref :=
  ⟨rfl, rfl⟩

/-! ## Cases that meet the hypotheses -/

example : Good ⟨none, 2, 2, 4, 5⟩ ∧ height ⟨none, 2, 2, 4, 5⟩ = 3 ∧ cols ⟨none, 2, 2, 4, 5⟩ = 4 := by simp [Good, height, cols]
example : indexRef true (fun _ => none) (rangeRef none 2 2 4 5) (.int 2) (some (.int 0)) = .ok (rangeRef none 3 2 3 5) := rfl
example : indexRef true (fun _ => none) (rangeRef none 2 2 4 5) (.int 4) (some (.int 1)) = .err .ref := rfl
example : indexRef true (fun _ => none) (rangeRef none 7 2 7 5) (.int 3) none = .ok (.cell none 7 4) := rfl
example : offsetRef true (fun _ => none) (rangeRef none 2 2 4 5) (.int (-1)) (.int 3) none none = .ok (rangeRef none 1 5 3 8) := rfl
example : offsetRef true (fun _ => none) (.cell none 2 2) (.int (-2)) (.int 3) none none = .err .ref := rfl
example : asI64 (29 / 10) = 2 ∧ asI64 (-29 / 10) = -2 := by constructor <;> norm_num [asI64]

end Verif.RefFn
