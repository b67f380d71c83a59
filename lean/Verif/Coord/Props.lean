import Verif.Coord.Lemmas

/-! # C01, C05: packed coordinates -/

namespace Verif.Coord

/-- Specification: the Excel grid, 0-based (1,048,576 rows by 16,384 columns). -/
def InGrid (row col : Nat) : Prop := row < 1048576 ∧ col < 16384

instance (r c : Nat) : Decidable (InGrid r c) := by unfold InGrid; infer_instance

private theorem le_row (r : U32) : r ≤ ROW_MAX ↔ r.toNat < 1048576 := by
  rw [BitVec.le_def, ROW_MAX_toNat]; omega
private theorem le_col (c : U32) : c ≤ COL_MAX ↔ c.toNat < 16384 := by
  rw [BitVec.le_def, COL_MAX_toNat]; omega
private theorem lt_row (r : U32) : ROW_MAX < r ↔ ¬ r.toNat < 1048576 := by
  rw [BitVec.lt_def, ROW_MAX_toNat]; omega
private theorem lt_col (c : U32) : COL_MAX < c ↔ ¬ c.toNat < 16384 := by
  rw [BitVec.lt_def, COL_MAX_toNat]; omega

theorem new_eq (r c : U32) : Coord.new r c =
    if InGrid r.toNat c.toNat then .ok ⟨Coord.pack r c⟩ else .error .panic := by
  unfold Coord.new InGrid
  simp only [le_row, le_col]
  by_cases h1 : r.toNat < 1048576 <;> by_cases h2 : c.toNat < 16384 <;> simp [h1, h2]

theorem tryNew_eq (r c : U32) (h : InGrid r.toNat c.toNat) :
    Coord.tryNew r c = .ok ⟨Coord.pack r c⟩ := by
  unfold Coord.tryNew
  rw [new_eq]
  simp only [lt_row, lt_col]
  rw [if_neg (by simp [h.1]), if_neg (by simp [h.2]), if_pos h]

theorem tryNew_err (r c : U32) (h : ¬ InGrid r.toNat c.toNat) :
    ∃ e, Coord.tryNew r c = .error e ∧ e ≠ .panic := by
  unfold Coord.tryNew
  simp only [lt_row, lt_col]
  by_cases h1 : r.toNat < 1048576
  · have h2 : ¬ c.toNat < 16384 := fun h2 => h ⟨h1, h2⟩
    exact ⟨.colOverflow c.toNat, by simp [h1, h2], by simp⟩
  · exact ⟨.rowOverflow r.toNat, by simp [h1], by simp⟩

/-- C01. The checked constructor succeeds exactly on the grid, and the coordinates read back are the
ones supplied. -/
theorem coord_tryNew_roundtrip (r c : U32) :
    (InGrid r.toNat c.toNat → ∃ x, Coord.tryNew r c = .ok x ∧ x.row = r ∧ x.col = c) ∧
    (¬ InGrid r.toNat c.toNat → ∃ e, Coord.tryNew r c = .error e ∧ e ≠ .panic) := by
  refine ⟨fun h => ⟨_, tryNew_eq r c h, ?_, ?_⟩, tryNew_err r c⟩
  · apply BitVec.eq_of_toNat_eq
    rw [Coord.row_nat]
    show (Coord.pack r c).toNat / _ % _ = _
    obtain ⟨h1, h2⟩ := h
    rw [pack_toNat r c h1 h2]; omega
  · apply BitVec.eq_of_toNat_eq
    rw [Coord.col_nat]
    show (Coord.pack r c).toNat / _ % _ = _
    obtain ⟨h1, h2⟩ := h
    rw [pack_toNat r c h1 h2]; omega

example : ∃ x, Coord.tryNew 1048575#32 16383#32 = .ok x ∧ x.row = 1048575#32 ∧ x.col = 16383#32 :=
  (coord_tryNew_roundtrip _ _).1 (by decide)

/-- C01. The panicking constructor panics exactly off the grid; on the grid it agrees with the checked
one. -/
theorem coord_new_panics_iff (r c : U32) :
    (Coord.new r c = .error .panic ↔ ¬ InGrid r.toNat c.toNat) ∧
    (InGrid r.toNat c.toNat → Coord.new r c = Coord.tryNew r c) := by
  constructor
  · rw [new_eq]; split <;> simp_all
  · intro h; rw [new_eq, tryNew_eq _ _ h, if_pos h]

/-- C01. A raw word is accepted exactly when it is the all-ones sentinel or the packing of some grid
position; the accepted coordinate carries that very word. -/
theorem coord_fromRaw_iff (raw : U64) (x : Coord) :
    Coord.fromRaw raw = .ok x ↔
      x.asU64 = raw ∧ (raw = BitVec.allOnes 64 ∨ ∃ r c : U32, Coord.tryNew r c = .ok ⟨raw⟩) := by
  unfold Coord.fromRaw
  by_cases h1 : raw = BitVec.allOnes 64
  · subst h1
    simp only [if_true, Coord.asU64, Coord.INVALID]
    constructor
    · intro h; injection h with h; subst h; simp
    · rintro ⟨h, -⟩; cases x; simp_all
  · simp only [h1, if_false, false_or, ne_eq]
    by_cases h2 : raw &&& Coord.RESERVED_MASK = 0#64
    · simp only [h2, not_true_eq_false, if_false, Coord.asU64]
      rw [reserved_zero_iff] at h2
      have hx : ∃ r c : U32, Coord.tryNew r c = .ok ⟨raw⟩ := by
        refine ⟨BitVec.ofNat 32 (raw.toNat / 2 ^ 24), BitVec.ofNat 32 (raw.toNat / 2 ^ 10 % 2 ^ 14), ?_⟩
        have hr : (BitVec.ofNat 32 (raw.toNat / 2 ^ 24)).toNat = raw.toNat / 2 ^ 24 := by
          rw [BitVec.toNat_ofNat]; omega
        have hc : (BitVec.ofNat 32 (raw.toNat / 2 ^ 10 % 2 ^ 14)).toNat = raw.toNat / 2 ^ 10 % 2 ^ 14 := by
          rw [BitVec.toNat_ofNat]; omega
        have hg : InGrid (BitVec.ofNat 32 (raw.toNat / 2 ^ 24)).toNat
            (BitVec.ofNat 32 (raw.toNat / 2 ^ 10 % 2 ^ 14)).toNat := by
          unfold InGrid; rw [hr, hc]; omega
        rw [tryNew_eq _ _ hg]
        congr 2
        apply BitVec.eq_of_toNat_eq
        rw [pack_toNat _ _ hg.1 hg.2, hr, hc]
        omega
      constructor
      · intro h; injection h with h; subst h; exact ⟨rfl, hx⟩
      · rintro ⟨h, -⟩; cases x; simp_all
    · simp only [h2, not_false_eq_true, if_true]
      constructor
      · intro h; cases h
      · rintro ⟨-, r, c, h⟩
        exfalso
        by_cases hg : InGrid r.toNat c.toNat
        · rw [tryNew_eq _ _ hg] at h
          injection h with h; injection h with h
          apply h2
          rw [reserved_zero_iff, ← h, pack_toNat _ _ hg.1 hg.2]
          obtain ⟨ha, hb⟩ := hg
          omega
        · obtain ⟨e, he, -⟩ := tryNew_err r c hg
          rw [he] at h; cases h

example : ∃ x, Coord.fromRaw 0x1000400#64 = .ok x ∧ x.row = 1#32 ∧ x.col = 1#32 := ⟨⟨0x1000400#64⟩, by decide, by decide, by decide⟩
example : ∃ e, Coord.fromRaw 0x1000401#64 = .error e := ⟨_, rfl⟩

/-- C01. Two valid coordinates at the same position are the same word: no aliasing in either
direction. -/
theorem coord_no_alias (r c r' c' : U32) (x y : Coord)
    (hx : Coord.tryNew r c = .ok x) (hy : Coord.tryNew r' c' = .ok y) :
    x.asU64 = y.asU64 ↔ (r = r' ∧ c = c') := by
  have hg : InGrid r.toNat c.toNat := by
    by_cases h : InGrid r.toNat c.toNat
    · exact h
    · obtain ⟨e, he, -⟩ := tryNew_err r c h; rw [he] at hx; cases hx
  have hg' : InGrid r'.toNat c'.toNat := by
    by_cases h : InGrid r'.toNat c'.toNat
    · exact h
    · obtain ⟨e, he, -⟩ := tryNew_err r' c' h; rw [he] at hy; cases hy
  constructor
  · intro h
    have : x = y := by cases x; cases y; simp_all [Coord.asU64]
    subst this
    obtain ⟨z, hz, h1, h2⟩ := (coord_tryNew_roundtrip r c).1 hg
    obtain ⟨w, hw, h3, h4⟩ := (coord_tryNew_roundtrip r' c').1 hg'
    rw [hx] at hz; rw [hy] at hw
    injection hz with hz; injection hw with hw
    subst hz; subst hw
    exact ⟨h1.symm.trans h3, h2.symm.trans h4⟩
  · rintro ⟨rfl, rfl⟩; rw [hx] at hy; injection hy with hy; rw [hy]

example : ∃ x y, Coord.tryNew 5#32 7#32 = .ok x ∧ Coord.tryNew 7#32 5#32 = .ok y ∧
    x.asU64 ≠ y.asU64 := ⟨_, _, rfl, rfl, by decide⟩

/-- C01. No position packs to the sentinel word, so `is_valid` holds of every constructed coordinate. -/
theorem coord_constructed_valid (r c : U32) (x : Coord) (h : Coord.tryNew r c = .ok x) :
    x.isValid = true := by
  by_cases hg : InGrid r.toNat c.toNat
  · rw [tryNew_eq _ _ hg] at h; injection h with h; subst h
    simp only [Coord.isValid, decide_eq_true_eq, ne_eq]
    intro h
    have := congrArg BitVec.toNat h
    rw [pack_toNat _ _ hg.1 hg.2, BitVec.toNat_allOnes] at this
    obtain ⟨ha, hb⟩ := hg
    omega
  · obtain ⟨e, he, -⟩ := tryNew_err r c hg; rw [he] at h; cases h

/-- C01. Excel (1-based) construction: rows and columns are the supplied numbers minus one. -/
theorem coord_fromExcel (r c : U32) (hr : 1 ≤ r.toNat) (hc : 1 ≤ c.toNat)
    (hr' : r.toNat ≤ 1048576) (hc' : c.toNat ≤ 16384) :
    ∃ x, Coord.fromExcel r c = .ok x ∧ x.row.toNat + 1 = r.toNat ∧ x.col.toNat + 1 = c.toNat := by
  have e (x : U32) (h : 1 ≤ x.toNat) : (Coord.satPred x).toNat = x.toNat - 1 := by
    unfold Coord.satPred
    have hn : x ≠ 0#32 := by intro h0; rw [h0] at h; simp at h
    rw [if_neg hn, BitVec.toNat_sub]
    have := x.isLt
    simp only [BitVec.toNat_ofNat]
    omega
  have hg : InGrid (Coord.satPred r).toNat (Coord.satPred c).toNat := by
    rw [e r hr, e c hc]; unfold InGrid; omega
  obtain ⟨x, hx, h1, h2⟩ := (coord_tryNew_roundtrip _ _).1 hg
  refine ⟨x, ?_, ?_, ?_⟩
  · unfold Coord.fromExcel; rw [(coord_new_panics_iff _ _).2 hg]; exact hx
  · rw [h1, e r hr]; omega
  · rw [h2, e c hc]; omega

example : ∃ x, Coord.fromExcel 1#32 16384#32 = .ok x ∧ x.row.toNat + 1 = 1 ∧ x.col.toNat + 1 = 16384 :=
  coord_fromExcel 1#32 16384#32 (by decide) (by decide) (by decide) (by decide)

/-! ## Relative coordinates -/

/-- The packed relative word. -/
private theorem rel_word (r c : U32) (ra ca : Bool) (h : InGrid r.toNat c.toNat) :
    ∃ x, RelativeCoord.new r c ra ca = .ok x ∧
      x.raw.toNat = r.toNat * 2 ^ 24 + c.toNat * 2 ^ 10 + (if ra then 1 else 0) + (if ca then 2 else 0) := by
  unfold RelativeCoord.new
  rw [if_neg (by rw [le_row]; simp [h.1]), if_neg (by rw [le_col]; simp [h.2])]
  refine ⟨_, rfl, ?_⟩
  have hp := pack_toNat r c h.1 h.2
  dsimp only
  cases ra <;> cases ca <;> simp only [if_true, if_false, Bool.false_eq_true]
  · rw [hp]; omega
  · rw [or_bit1 _ (by rw [hp]; omega), hp]
  · rw [or_bit0 _ (by rw [hp]; omega), hp]
  · have h1 := or_bit0 (Coord.pack r c) (by rw [hp]; omega)
    rw [or_bit1 _ (by rw [h1, hp]; omega), h1, hp]

private theorem rel_tryNew (r c : U32) (ra ca : Bool) (h : InGrid r.toNat c.toNat) :
    RelativeCoord.tryNew r c ra ca = RelativeCoord.new r c ra ca := by
  unfold RelativeCoord.tryNew
  rw [if_neg (by rw [lt_row]; simp [h.1]), if_neg (by rw [lt_col]; simp [h.2])]

/-- C01. Relative coordinates: construction succeeds exactly on the grid and row, column and both
anchor flags read back unchanged. -/
theorem rel_roundtrip (r c : U32) (ra ca : Bool) :
    (InGrid r.toNat c.toNat → ∃ x, RelativeCoord.tryNew r c ra ca = .ok x ∧
      RelativeCoord.new r c ra ca = .ok x ∧
      x.row = r ∧ x.col = c ∧ x.rowAbs = ra ∧ x.colAbs = ca) ∧
    (¬ InGrid r.toNat c.toNat →
      (∃ e, RelativeCoord.tryNew r c ra ca = .error e ∧ e ≠ .panic) ∧
      RelativeCoord.new r c ra ca = .error .panic) := by
  constructor
  · intro h
    obtain ⟨x, hx, hw⟩ := rel_word r c ra ca h
    obtain ⟨h1, h2⟩ := h
    refine ⟨x, by rw [rel_tryNew _ _ _ _ ⟨h1, h2⟩]; exact hx, hx, ?_, ?_, ?_, ?_⟩
    · apply BitVec.eq_of_toNat_eq
      rw [RelativeCoord.row_nat, hw]; split <;> split <;> omega
    · apply BitVec.eq_of_toNat_eq
      rw [RelativeCoord.col_nat, hw]; split <;> split <;> omega
    · rw [RelativeCoord.rowAbs_iff, hw]
      cases ra <;> cases ca <;> simp <;> omega
    · rw [RelativeCoord.colAbs_iff, hw]
      cases ra <;> cases ca <;> simp <;> omega
  · intro h
    unfold RelativeCoord.tryNew RelativeCoord.new
    simp only [lt_row, lt_col, le_row, le_col]
    by_cases h1 : r.toNat < 1048576
    · have h2 : ¬ c.toNat < 16384 := fun h2 => h ⟨h1, h2⟩
      exact ⟨⟨.colOverflow c.toNat, by simp [h1, h2], by simp⟩, by simp [h1, h2]⟩
    · exact ⟨⟨.rowOverflow r.toNat, by simp [h1], by simp⟩, by simp [h1]⟩

example : ∃ x, RelativeCoord.tryNew 3#32 4#32 true false = .ok x ∧ x.rowAbs = true ∧ x.colAbs = false :=
  ⟨_, rfl, by decide, by decide⟩

/-- C01. A raw relative word is accepted exactly when it is the packing of a grid position with
flags, and it is kept unchanged. -/
theorem rel_fromRaw_iff (raw : U64) (x : RelativeCoord) :
    RelativeCoord.fromRaw raw = .ok x ↔
      x.raw = raw ∧ ∃ (r c : U32) (ra ca : Bool), RelativeCoord.tryNew r c ra ca = .ok ⟨raw⟩ := by
  unfold RelativeCoord.fromRaw
  simp only [ne_eq]
  by_cases h2 : raw &&& RelativeCoord.RESERVED_MASK = 0#64
  · simp only [h2, not_true_eq_false, if_false]
    rw [rel_reserved_zero_iff] at h2
    have hx : ∃ (r c : U32) (ra ca : Bool), RelativeCoord.tryNew r c ra ca = .ok ⟨raw⟩ := by
      have hr : (BitVec.ofNat 32 (raw.toNat / 2 ^ 24)).toNat = raw.toNat / 2 ^ 24 := by
        rw [BitVec.toNat_ofNat]; omega
      have hc : (BitVec.ofNat 32 (raw.toNat / 2 ^ 10 % 2 ^ 14)).toNat = raw.toNat / 2 ^ 10 % 2 ^ 14 := by
        rw [BitVec.toNat_ofNat]; omega
      have hg : InGrid (BitVec.ofNat 32 (raw.toNat / 2 ^ 24)).toNat
          (BitVec.ofNat 32 (raw.toNat / 2 ^ 10 % 2 ^ 14)).toNat := by
        unfold InGrid; rw [hr, hc]; omega
      refine ⟨BitVec.ofNat 32 (raw.toNat / 2 ^ 24), BitVec.ofNat 32 (raw.toNat / 2 ^ 10 % 2 ^ 14),
        decide (raw.toNat % 2 = 1), decide (raw.toNat / 2 % 2 = 1), ?_⟩
      rw [rel_tryNew _ _ _ _ hg]
      obtain ⟨y, hy, hw⟩ := rel_word _ _ (decide (raw.toNat % 2 = 1)) (decide (raw.toNat / 2 % 2 = 1)) hg
      rw [hy]
      congr 1
      cases y with
      | mk yraw =>
        congr 1
        apply BitVec.eq_of_toNat_eq
        simp only at hw
        rw [hw, hr, hc]
        simp only [decide_eq_true_eq]
        split <;> split <;> omega
    constructor
    · intro h; injection h with h; subst h; exact ⟨rfl, hx⟩
    · rintro ⟨h, -⟩; cases x; simp_all
  · simp only [h2, not_false_eq_true, if_true]
    constructor
    · intro h; cases h
    · rintro ⟨-, r, c, ra, ca, h⟩
      exfalso
      by_cases hg : InGrid r.toNat c.toNat
      · rw [rel_tryNew _ _ _ _ hg] at h
        obtain ⟨y, hy, hw⟩ := rel_word r c ra ca hg
        rw [h] at hy; injection hy with hy; subst hy
        apply h2
        rw [rel_reserved_zero_iff]
        simp only at hw
        rw [hw]
        obtain ⟨ha, hb⟩ := hg
        split <;> split <;> omega
      · obtain ⟨⟨e, he, -⟩, -⟩ := (rel_roundtrip r c ra ca).2 hg
        rw [he] at h; cases h

/-- C01. Setting an anchor flag changes that flag only. -/
theorem rel_withAbs (r c : U32) (ra ca b : Bool) (x : RelativeCoord)
    (h : RelativeCoord.tryNew r c ra ca = .ok x) :
    RelativeCoord.tryNew r c b ca = .ok (x.withRowAbs b) ∧
    RelativeCoord.tryNew r c ra b = .ok (x.withColAbs b) := by
  by_cases hg : InGrid r.toNat c.toNat
  · rw [rel_tryNew _ _ _ _ hg] at h ⊢
    rw [rel_tryNew _ _ _ _ hg]
    unfold RelativeCoord.new at h ⊢
    rw [if_neg (by rw [le_row]; simp [hg.1]), if_neg (by rw [le_col]; simp [hg.2])] at h ⊢
    rw [if_neg (by rw [le_row]; simp [hg.1]), if_neg (by rw [le_col]; simp [hg.2])]
    injection h with h
    subst h
    have hp := pack_toNat r c hg.1 hg.2
    have hb : ∀ i, i < 10 → (Coord.pack r c).getLsbD i = false := by
      intro i hi
      have : (Coord.pack r c).toNat.testBit i = false := by
        rw [hp]
        have : r.toNat * 2 ^ 24 + c.toNat * 2 ^ 10 = (r.toNat * 2 ^ 14 + c.toNat) * 2 ^ 10 := by omega
        rw [this, ← Nat.shiftLeft_eq, Nat.testBit_shiftLeft]
        simp; omega
      exact this
    have e1 : ∀ i, ROW_ABS_BIT.getLsbD i = decide (i = 0) := by
      intro i; by_cases hi : i < 64
      · have : ∀ i : Fin 64, ROW_ABS_BIT.getLsbD i.1 = decide (i.1 = 0) := by decide
        exact this ⟨i, hi⟩
      · rw [BitVec.getLsbD_of_ge _ _ (by omega)]; simp; omega
    have e2 : ∀ i, COL_ABS_BIT.getLsbD i = decide (i = 1) := by
      intro i; by_cases hi : i < 64
      · have : ∀ i : Fin 64, COL_ABS_BIT.getLsbD i.1 = decide (i.1 = 1) := by decide
        exact this ⟨i, hi⟩
      · rw [BitVec.getLsbD_of_ge _ _ (by omega)]; simp; omega
    have b0 := hb 0 (by decide)
    have b1 := hb 1 (by decide)
    constructor <;> (
      cases ra <;> cases ca <;> cases b <;>
      simp only [RelativeCoord.withRowAbs, RelativeCoord.withColAbs, if_true, if_false, Bool.false_eq_true,
        Except.ok.injEq, RelativeCoord.mk.injEq] <;>
      · apply BitVec.eq_of_getLsbD_eq
        intro i hi
        simp only [BitVec.getLsbD_or, BitVec.getLsbD_and, BitVec.getLsbD_not, e1, e2, hi]
        by_cases h0 : i = 0
        · subst h0; simp only [b0]; simp
        · by_cases h1 : i = 1
          · subst h1; simp only [b1]; simp
          · simp [h0, h1])
  · obtain ⟨⟨e, he, -⟩, -⟩ := (rel_roundtrip r c ra ca).2 hg
    rw [he] at h; cases h

example : ∃ x, RelativeCoord.tryNew 9#32 9#32 true true = .ok x ∧
    RelativeCoord.tryNew 9#32 9#32 false true = .ok (x.withRowAbs false) := ⟨_, rfl, by decide⟩

/-- C01. Converting an absolute coordinate to a relative one and back is the identity. -/
theorem coord_relative_absolute (r c : U32) (x : Coord) (h : Coord.tryNew r c = .ok x) :
    ∃ y, x.intoRelative = .ok y ∧ y.intoAbsolute = .ok x := by
  by_cases hg : InGrid r.toNat c.toNat
  · obtain ⟨z, hz, h1, h2⟩ := (coord_tryNew_roundtrip r c).1 hg
    rw [h] at hz; injection hz with hz; subst hz
    obtain ⟨y, -, hy, h3, h4, -, -⟩ := (rel_roundtrip r c true true).1 hg
    refine ⟨y, ?_, ?_⟩
    · unfold Coord.intoRelative; rw [h1, h2]; exact hy
    · unfold RelativeCoord.intoAbsolute; rw [h3, h4, (coord_new_panics_iff r c).2 hg]; exact h
  · obtain ⟨e, he, -⟩ := tryNew_err r c hg; rw [he] at h; cases h

/-- Every value of type `RelativeCoord` reports in-grid positions. -/
theorem rel_pos_bounded (x : RelativeCoord) : InGrid x.row.toNat x.col.toNat := by
  unfold InGrid; rw [RelativeCoord.row_nat, RelativeCoord.col_nat]; omega

private theorem signed_shift (a : Nat) (ha : a < 1048576) (A D : U32) (hA : A.toNat = a)
    (d : Int) (hd : D.toInt = d) (hlo : -(2 ^ 31 - 2 ^ 20 : Int) ≤ d) (hhi : d < 2 ^ 31 - 2 ^ 20)  (m : Nat)
    (hm : m ≤ 1048576) :
    ((A + D).toNat < m ↔ (0 ≤ (a : Int) + d ∧ (a : Int) + d < m)) ∧
    (0 ≤ (a : Int) + d → ((A + D).toNat : Int) = (a : Int) + d) := by
  have hD := BitVec.toInt_eq_toNat_cond D
  rw [hd] at hD
  have hlt := D.isLt
  rw [BitVec.toNat_add, hA]
  split at hD <;> omega

/-- C01. `offset` moves by the signed deltas and keeps the flags; it panics exactly when the moved
position leaves the grid. (Deltas within ±(2^31-2^20), i.e. whenever the `i32` addition itself does not
overflow.) -/
theorem rel_offset (x : RelativeCoord) (drow dcol : U32)
    (h1 : -(2 ^ 31 - 2 ^ 20 : Int) ≤ drow.toInt) (h2 : drow.toInt < 2 ^ 31 - 2 ^ 20)
    (h3 : -(2 ^ 31 - 2 ^ 20 : Int) ≤ dcol.toInt) (h4 : dcol.toInt < 2 ^ 31 - 2 ^ 20) :
    let R := (x.row.toNat : Int) + drow.toInt
    let C := (x.col.toNat : Int) + dcol.toInt
    ((0 ≤ R ∧ R < 1048576 ∧ 0 ≤ C ∧ C < 16384) →
      ∃ y, x.offset drow dcol = .ok y ∧ (y.row.toNat : Int) = R ∧ (y.col.toNat : Int) = C ∧
        y.rowAbs = x.rowAbs ∧ y.colAbs = x.colAbs) ∧
    (¬ (0 ≤ R ∧ R < 1048576 ∧ 0 ≤ C ∧ C < 16384) → x.offset drow dcol = .error .panic) := by
  intro R C
  have hb := rel_pos_bounded x
  obtain ⟨r1, r2⟩ := signed_shift _ hb.1 x.row drow rfl _ rfl h1 h2 1048576 (by decide)
  obtain ⟨c1, c2⟩ := signed_shift _ (Nat.lt_of_lt_of_le hb.2 (by decide)) x.col dcol rfl _ rfl h3 h4 16384 (by decide)
  unfold RelativeCoord.offset
  constructor
  · rintro ⟨a, b, c, d⟩
    have hg : InGrid (x.row + drow).toNat (x.col + dcol).toNat := ⟨r1.2 ⟨a, b⟩, c1.2 ⟨c, d⟩⟩
    obtain ⟨y, -, hy, e1, e2, e3, e4⟩ := (rel_roundtrip _ _ x.rowAbs x.colAbs).1 hg
    exact ⟨y, hy, by rw [e1]; exact r2 a, by rw [e2]; exact c2 c, e3, e4⟩
  · intro hn
    have hg : ¬ InGrid (x.row + drow).toNat (x.col + dcol).toNat := by
      rintro ⟨a, b⟩; apply hn; have a := r1.1 a; have b := c1.1 b; exact ⟨a.1, a.2, b.1, b.2⟩
    exact ((rel_roundtrip _ _ x.rowAbs x.colAbs).2 hg).2

private theorem rebase_delta (s o t : RelativeCoord) (m : Nat) (hm : m ≤ 1048576) (f : RelativeCoord → U32)
    (hf : ∀ z : RelativeCoord, (f z).toNat < m) :
    ((f s + (f t - f o)).toNat < m ↔
      (0 ≤ ((f s).toNat : Int) + (f t).toNat - (f o).toNat ∧
        ((f s).toNat : Int) + (f t).toNat - (f o).toNat < m)) ∧
    (0 ≤ ((f s).toNat : Int) + (f t).toNat - (f o).toNat →
      ((f s + (f t - f o)).toNat : Int) = ((f s).toNat : Int) + (f t).toNat - (f o).toNat) := by
  have hs := hf s; have ho := hf o; have ht := hf t
  rw [BitVec.toNat_add, BitVec.toNat_sub]
  constructor
  · constructor <;> intro h <;> omega
  · intro h; omega

/-- Specification of relative references: the component of a reference after the formula moves from
`o` to `t`: a `$` component stays, the other moves along. -/
def rebased (abs : Bool) (v o t : Nat) : Int := if abs then v else (v : Int) + t - o

/-- C01. `rebase` keeps `$` components and moves the others with the formula; it panics exactly when the
moved reference would leave the grid. -/
theorem rel_rebase (x o t : RelativeCoord) :
    let R := rebased x.rowAbs x.row.toNat o.row.toNat t.row.toNat
    let C := rebased x.colAbs x.col.toNat o.col.toNat t.col.toNat
    ((0 ≤ R ∧ R < 1048576 ∧ 0 ≤ C ∧ C < 16384) →
      ∃ y, x.rebase o t = .ok y ∧ (y.row.toNat : Int) = R ∧ (y.col.toNat : Int) = C ∧
        y.rowAbs = x.rowAbs ∧ y.colAbs = x.colAbs) ∧
    (¬ (0 ≤ R ∧ R < 1048576 ∧ 0 ≤ C ∧ C < 16384) → x.rebase o t = .error .panic) := by
  intro R C
  have hb := rel_pos_bounded x
  obtain ⟨r1, r2⟩ := rebase_delta x o t 1048576 (by decide) RelativeCoord.row (fun z => (rel_pos_bounded z).1)
  obtain ⟨c1, c2⟩ := rebase_delta x o t 16384 (by decide) RelativeCoord.col (fun z => (rel_pos_bounded z).2)
  have nr : ((if x.rowAbs then x.row else x.row + (t.row - o.row)).toNat < 1048576 ↔ (0 ≤ R ∧ R < 1048576)) ∧
      (0 ≤ R → ((if x.rowAbs then x.row else x.row + (t.row - o.row)).toNat : Int) = R) := by
    show _ ∧ _
    simp only [R, rebased]
    split
    · have := hb.1; omega
    · exact ⟨r1, r2⟩
  have nc : ((if x.colAbs then x.col else x.col + (t.col - o.col)).toNat < 16384 ↔ (0 ≤ C ∧ C < 16384)) ∧
      (0 ≤ C → ((if x.colAbs then x.col else x.col + (t.col - o.col)).toNat : Int) = C) := by
    simp only [C, rebased]
    split
    · have := hb.2; omega
    · exact ⟨c1, c2⟩
  unfold RelativeCoord.rebase
  constructor
  · rintro ⟨a, b, c, d⟩
    obtain ⟨y, -, hy, e1, e2, e3, e4⟩ :=
      (rel_roundtrip _ _ x.rowAbs x.colAbs).1 ⟨nr.1.2 ⟨a, b⟩, nc.1.2 ⟨c, d⟩⟩
    exact ⟨y, hy, by rw [e1]; exact nr.2 a, by rw [e2]; exact nc.2 c, e3, e4⟩
  · intro hn
    refine ((rel_roundtrip _ _ x.rowAbs x.colAbs).2 ?_).2
    rintro ⟨a, b⟩; apply hn; have a := nr.1.1 a; have b := nc.1.1 b; exact ⟨a.1, a.2, b.1, b.2⟩

/-- A concrete rebase: `$A2`-style reference (row 1 relative, col 0 anchored) copied from B1 to C4. -/
example : ∃ x o t y, RelativeCoord.tryNew 1 0 false true = .ok x ∧ RelativeCoord.tryNew 0 1 false false = .ok o ∧
    RelativeCoord.tryNew 3 2 false false = .ok t ∧ x.rebase o t = .ok y ∧ y.row = 4 ∧ y.col = 0 :=
  ⟨_, _, _, _, rfl, rfl, rfl, rfl, by decide, by decide⟩

/-! ## C05: signed conversion -/

/-- C05 is false of the code: row 2^32 is accepted and silently becomes row 0. -/
theorem tryFromI64_aliases :
    ∃ (row col : Int) (x : Coord), Coord.tryFromI64 row col = .ok x ∧ (x.row.toNat : Int) ≠ row :=
  ⟨2 ^ 32, 0, ⟨0#64⟩, by decide, by decide⟩

/-- C05 (partial). Missing: inputs of absolute value 2^32 or more, where the property is false (see
`tryFromI64_aliases`). Below that, conversion succeeds exactly for grid positions and keeps them. -/
theorem tryFromI64_partial (row col : Int) (hr : row < 2 ^ 32) (hc : col < 2 ^ 32) :
    (∀ x, Coord.tryFromI64 row col = .ok x → (x.row.toNat : Int) = row ∧ (x.col.toNat : Int) = col) ∧
    ((∃ x, Coord.tryFromI64 row col = .ok x) ↔ 0 ≤ row ∧ row < 1048576 ∧ 0 ≤ col ∧ col < 16384) := by
  unfold Coord.tryFromI64
  by_cases h1 : row < 0
  · simp only [h1, if_true]
    refine ⟨?_, ?_, ?_⟩
    · intro x h; cases h
    · rintro ⟨x, h⟩; cases h
    · intro h; omega
  by_cases h2 : col < 0
  · simp only [h1, h2, if_true, if_false]
    refine ⟨?_, ?_, ?_⟩
    · intro x h; cases h
    · rintro ⟨x, h⟩; cases h
    · intro h; omega
  simp only [h1, h2, if_false]
  have er : ((BitVec.ofInt 32 row).toNat : Int) = row := by
    rw [BitVec.toNat_ofInt]; omega
  have ec : ((BitVec.ofInt 32 col).toNat : Int) = col := by
    rw [BitVec.toNat_ofInt]; omega
  constructor
  · intro x hx
    by_cases hg : InGrid (BitVec.ofInt 32 row).toNat (BitVec.ofInt 32 col).toNat
    · obtain ⟨y, hy, e1, e2⟩ := (coord_tryNew_roundtrip _ _).1 hg
      rw [hx] at hy; injection hy with hy; subst hy
      rw [e1, e2]; exact ⟨er, ec⟩
    · obtain ⟨e, he, -⟩ := tryNew_err _ _ hg; rw [he] at hx; cases hx
  · constructor
    · rintro ⟨x, hx⟩
      by_cases hg : InGrid (BitVec.ofInt 32 row).toNat (BitVec.ofInt 32 col).toNat
      · obtain ⟨ha, hb⟩ := hg; omega
      · obtain ⟨e, he, -⟩ := tryNew_err _ _ hg; rw [he] at hx; cases hx
    · intro h
      exact ⟨_, tryNew_eq _ _ ⟨by omega, by omega⟩⟩

example : ∃ x, Coord.tryFromI64 1048575 3 = .ok x := ⟨_, rfl⟩
example : Coord.tryFromI64 (-1) 3 = .error (.negativeRow (-1)) := by decide

end Verif.Coord
