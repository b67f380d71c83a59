import Verif.Rng.Seeds
import Mathlib.Tactic.Linarith

/-!
# What RAND, RANDBETWEEN and RANDARRAY give
-/

namespace Verif.Rng

/-! ## Salts -/

theorem fnv_step {h h' : Word} {b b' : BitVec 8}
    (e : (h ^^^ b.zeroExtend 64) * 0x00000100000001B3#64 =
      (h' ^^^ b'.zeroExtend 64) * 0x00000100000001B3#64) :
    h ^^^ b.zeroExtend 64 = h' ^^^ b'.zeroExtend 64 :=
  mul_injective (d := 0xce965057aff6957b#64) (by decide) e

theorem fold_injective (t : List (BitVec 8)) {h h' : Word}
    (e : t.foldl (fun h b => (h ^^^ b.zeroExtend 64) * 0x00000100000001B3#64) h =
      t.foldl (fun h b => (h ^^^ b.zeroExtend 64) * 0x00000100000001B3#64) h') : h = h' := by
  induction t generalizing h h' with
  | nil => exact e
  | cons b t ih =>
    have := fnv_step (ih e)
    rw [BitVec.xor_comm h, BitVec.xor_comm h'] at this
    exact xor_left_injective this

/-- **C114.** Names that differ in one byte have different salts. -/
theorem fnv_one_byte (x t : List (BitVec 8)) (b c : BitVec 8) :
    fnv1a (x ++ b :: t) = fnv1a (x ++ c :: t) ↔ b = c := by
  constructor
  · intro h
    unfold fnv1a at h
    rw [List.foldl_append, List.foldl_append, List.foldl_cons, List.foldl_cons] at h
    have := xor_left_injective (fnv_step (fold_injective t h))
    have := congrArg (BitVec.setWidth 8) this
    simpa using this
  · rintro rfl; rfl

/-- **C114.** The three functions that draw have three different salts. -/
theorem salts_differ :
    salt "RAND" ≠ salt "RANDBETWEEN" ∧ salt "RAND" ≠ salt "RANDARRAY" ∧
      salt "RANDBETWEEN" ≠ salt "RANDARRAY" := by decide

/-- **C114.** So RAND, RANDBETWEEN and RANDARRAY in one formula never start from the same word, and
changing the workbook's seed changes the word each of them starts from. -/
theorem site_seeds (s : Site) (x y w : Word) :
    (siteSeed s x = siteSeed s y ↔ x = y) ∧
      (siteSeed s x = siteSeed { s with workbook := w } x ↔ s.workbook = w) := by
  constructor
  · unfold siteSeed
    simp only
    rw [seed_injective]
    exact ⟨xor_left_injective, fun h => by rw [h]⟩
  · unfold siteSeed
    simp only
    rw [seed_injective, BitVec.xor_comm _ x, BitVec.xor_comm _ x]
    exact ⟨xor_left_injective, fun h => by rw [h]⟩

/-! ## RAND -/

/-- **C114.** RAND is at least 0 and below 1. -/
theorem rand_range (g : Gen) (hg : g.Good) (s : Site) : 0 ≤ rand g s ∧ rand g s < 1 := hg.unit _

/-- **C114, refuted.** Every call of RAND in a cell starts the same generator anew: `=RAND()-RAND()`
is always 0. -/
theorem rand_twice_fails (g : Gen) (s : Site) : rand g s - rand g s = 0 := sub_self _

/-- **C114, refuted.** Unless it has been told otherwise, an engine draws the same number at every
recalculation. -/
theorem recalc_fails (g : Gen) (s : Site) (h : s.level = defaultLevel) (n : Nat) :
    rand g (s.recalc n) = rand g s := by
  unfold rand siteSeed Site.recalc
  simp only [h, defaultLevel]

/-- **C114.** An engine told to draw at every recalculation gets other lanes at every one until the
count comes round. -/
theorem recalc_lanes (s : Site) (c : Cell) (x : Word) (n m : Nat) (hn : n < 2 ^ 64)
    (hm : m < 2 ^ 64) :
    lanes s.workbook c x (s.recalc n).epoch = lanes s.workbook c x (s.recalc m).epoch ↔ n = m := by
  rw [lanes_injective]
  simp only [Site.recalc, true_and]
  constructor
  · intro h
    have := (BitVec.add_right_inj s.epoch).mp h
    have := congrArg BitVec.toNat this
    rw [BitVec.toNat_ofNat, BitVec.toNat_ofNat, Nat.mod_eq_of_lt hn, Nat.mod_eq_of_lt hm] at this
    exact this
  · rintro rfl; rfl

example (s : Site) (c : Cell) (x : Word) :
    lanes s.workbook c x (s.recalc 0).epoch ≠ lanes s.workbook c x (s.recalc 1).epoch := by
  rw [Ne, recalc_lanes _ _ _ _ _ (by decide) (by decide)]; decide

/-! ## RANDBETWEEN -/

/-- **C114.** What RANDBETWEEN gives lies between its bounds cut off towards zero; a bound that is
not a number counts as 0. -/
theorem between_cut (g : Gen) (hg : g.Good) (s : Site) (a b : Arg) (n : Int)
    (h : randBetween g s a b = some n) : a.bound ≤ n ∧ n ≤ b.bound := by
  unfold randBetween at h
  simp only at h
  split at h
  · cases h
  · obtain rfl := Option.some.inj h
    split
    · omega
    · exact hg.between _ _ _ (by omega)

/-- **C114.** Between two whole numbers RANDBETWEEN gives a whole number from the one to the other,
and an error exactly if they are the wrong way round. -/
theorem between_spec (g : Gen) (hg : g.Good) (s : Site) (lo hi : Int) :
    (randBetween g s (.int lo) (.int hi) = none ↔ hi < lo) ∧
      ∀ n, randBetween g s (.int lo) (.int hi) = some n → lo ≤ n ∧ n ≤ hi := by
  refine ⟨?_, fun n h => between_cut g hg s _ _ n h⟩
  change (if hi < lo then none else _) = none ↔ _
  by_cases h : hi < lo
  · simp [h]
  · rw [if_neg h]
    exact ⟨fun e => (Option.some_ne_none _ e).elim, fun e => absurd e h⟩

/-- A generator that always gives the least number. -/
def least : Gen := ⟨Unit, fun _ => (), fun _ => (0, ()), fun _ lo _ => (lo, ())⟩

theorem least_good : least.Good := ⟨fun _ => by simp [least], fun _ _ _ h => ⟨le_refl _, h⟩⟩

example (s : Site) : randBetween least s (.int (-3)) (.int 7) = some (-3) := by
  simp [randBetween, Arg.bound, least]

/-- **C114, refuted.** Two dice thrown in one formula always show the same number: their sum is
even. -/
theorem dice_fails (g : Gen) (s : Site) (a b x y : Int)
    (hx : randBetween g s (.int a) (.int b) = some x)
    (hy : randBetween g s (.int a) (.int b) = some y) : x = y ∧ 2 ∣ x + y := by
  have : x = y := by rw [hx] at hy; exact Option.some.inj hy
  exact ⟨this, this ▸ ⟨x, by ring⟩⟩

/-- **C114, refuted.** Bounds are cut off towards zero: there is no whole number between 1.5 and 1.9,
and RANDBETWEEN gives 1. -/
theorem between_fraction_fails (g : Gen) (hg : g.Good) (s : Site) :
    randBetween g s (.num (3 / 2)) (.num (19 / 10)) = some 1 := by
  have h1 : toI64 (3 / 2) = 1 := by
    have : ⌊(3 / 2 : ℚ)⌋ = 1 := by rw [Int.floor_eq_iff]; norm_num
    unfold toI64
    rw [if_pos (by norm_num), this]
    decide
  have h2 : toI64 (19 / 10) = 1 := by
    have : ⌊(19 / 10 : ℚ)⌋ = 1 := by rw [Int.floor_eq_iff]; norm_num
    unfold toI64
    rw [if_pos (by norm_num), this]
    decide
  unfold randBetween
  simp only [Arg.bound, h1, h2]
  have := hg.between (g.start (siteSeed s (salt "RANDBETWEEN"))) 1 1 (le_refl _)
  norm_num
  omega

/-- **C114.** A bound is a number cut off towards zero: of its sign and less than 1 nearer to it. -/
theorem cut_spec (q : ℚ) (hlo : -2 ^ 63 ≤ q) (hhi : q < 2 ^ 63) :
    (0 ≤ q → (toI64 q : ℚ) ≤ q ∧ q < toI64 q + 1 ∧ 0 ≤ toI64 q) ∧
      (q ≤ 0 → q ≤ toI64 q ∧ (toI64 q : ℚ) - 1 < q ∧ toI64 q ≤ 0) := by
  have key : toI64 q = if 0 ≤ q then ⌊q⌋ else ⌈q⌉ := by
    unfold toI64
    by_cases h : 0 ≤ q
    · simp only [if_pos h]
      have h1 : 0 ≤ ⌊q⌋ := Int.floor_nonneg.mpr h
      have h2 : ⌊q⌋ < 2 ^ 63 := Int.floor_lt.mpr (by push_cast; exact hhi)
      omega
    · simp only [if_neg h]
      have h1 : ⌈q⌉ ≤ 0 := Int.ceil_le.mpr (by push_cast; linarith)
      have h2 : -2 ^ 63 ≤ ⌈q⌉ := by
        have := Int.le_ceil q
        have h3 : ((-2 ^ 63 : Int) : ℚ) ≤ (⌈q⌉ : ℚ) := by push_cast; linarith
        exact_mod_cast h3
      omega
  constructor
  · intro h
    rw [key, if_pos h]
    exact ⟨Int.floor_le q, Int.lt_floor_add_one q, Int.floor_nonneg.mpr h⟩
  · intro h
    rw [key]
    by_cases h0 : 0 ≤ q
    · obtain rfl : q = 0 := le_antisymm h h0
      simp
    · rw [if_neg h0]
      refine ⟨Int.le_ceil q, by linarith [Int.ceil_lt_add_one q], ?_⟩
      exact Int.ceil_le.mpr (by push_cast; linarith)

/-- **C114, refuted.** Between the least and the greatest 64-bit number RANDBETWEEN draws nothing: it
always gives the least. -/
theorem between_full_fails (g : Gen) (s : Site) :
    randBetween g s (.int (-2 ^ 63)) (.int (2 ^ 63 - 1)) = some (-2 ^ 63) := by
  unfold randBetween
  simp [Arg.bound]

/-! ## RANDARRAY -/

/-- What one value of RANDARRAY has to be. -/
def InRange (lo hi : ℚ) (whole : Bool) (v : ℚ) : Prop :=
  if whole then lo ≤ v ∧ v ≤ hi ∧ ∃ n : Int, v = n else lo ≤ v ∧ (v < hi ∨ lo = hi)

theorem cell_in_range (g : Gen) (hg : g.Good) (lo hi : ℚ) (whole : Bool) (hle : lo ≤ hi)
    (hlo : -2 ^ 63 ≤ lo) (hhi : hi ≤ 2 ^ 63 - 1) (st : g.State) (v : ℚ) (st' : g.State)
    (h : arrayCell g lo hi whole st = some (v, st')) : InRange lo hi whole v := by
  unfold arrayCell at h
  cases whole with
  | false =>
    simp only [Bool.false_eq_true, if_false, Option.some.injEq, Prod.mk.injEq] at h
    obtain ⟨rfl, _⟩ := h
    obtain ⟨h0, h1⟩ := hg.unit st
    unfold InRange
    simp only [Bool.false_eq_true, if_false]
    rcases eq_or_lt_of_le hle with rfl | hlt
    · simp
    · constructor
      · nlinarith
      · left; nlinarith
  | true =>
    simp only [if_true] at h
    split at h
    · cases h
    rename_i hlh
    simp only [Option.some.injEq, Prod.mk.injEq] at h
    obtain ⟨rfl, _⟩ := h
    have hb := hg.between st _ _ (not_lt.mp hlh)
    have hl : ⌈lo⌉ ≤ max (-2 ^ 63) (min (2 ^ 63 - 1) ⌈lo⌉) := by
      have h1 : ⌈lo⌉ ≤ 2 ^ 63 - 1 := Int.ceil_le.mpr (by push_cast; linarith)
      omega
    have hh : max (-2 ^ 63) (min (2 ^ 63 - 1) ⌊hi⌋) ≤ ⌊hi⌋ := by
      have h3 : -2 ^ 63 ≤ ⌊hi⌋ := Int.le_floor.mpr (by push_cast; linarith)
      omega
    unfold InRange
    simp only [if_true]
    refine ⟨?_, ?_, _, rfl⟩
    · have := hl.trans hb.1
      exact (Int.le_ceil lo).trans (by exact_mod_cast this)
    · have := hb.2.trans hh
      exact le_trans (by exact_mod_cast this) (Int.floor_le hi)

theorem row_spec (g : Gen) (hg : g.Good) (lo hi : ℚ) (whole : Bool) (hle : lo ≤ hi)
    (hlo : -2 ^ 63 ≤ lo) (hhi : hi ≤ 2 ^ 63 - 1) (n : Nat) (st : g.State) (vs : List ℚ)
    (st' : g.State) (h : arrayRow g lo hi whole n st = some (vs, st')) :
    vs.length = n ∧ ∀ v ∈ vs, InRange lo hi whole v := by
  induction n generalizing st vs with
  | zero =>
    simp only [arrayRow, Option.some.injEq, Prod.mk.injEq] at h
    obtain ⟨rfl, _⟩ := h
    simp
  | succ n ih =>
    rw [arrayRow] at h
    split at h
    · cases h
    rename_i v st1 hc
    split at h
    · cases h
    rename_i vs1 st2 hr
    simp only [Option.some.injEq, Prod.mk.injEq] at h
    obtain ⟨rfl, rfl⟩ := h
    obtain ⟨h1, h2⟩ := ih _ _ hr
    refine ⟨by simp [h1], ?_⟩
    intro w hw
    rcases List.mem_cons.mp hw with rfl | hw
    · exact cell_in_range g hg lo hi whole hle hlo hhi _ _ _ hc
    · exact h2 w hw

theorem rows_spec (g : Gen) (hg : g.Good) (lo hi : ℚ) (whole : Bool) (hle : lo ≤ hi)
    (hlo : -2 ^ 63 ≤ lo) (hhi : hi ≤ 2 ^ 63 - 1) (cols n : Nat) (st : g.State)
    (rs : List (List ℚ)) (h : arrayRows g lo hi whole cols n st = some rs) :
    rs.length = n ∧ ∀ r ∈ rs, r.length = cols ∧ ∀ v ∈ r, InRange lo hi whole v := by
  induction n generalizing st rs with
  | zero =>
    simp only [arrayRows, Option.some.injEq] at h
    subst h; simp
  | succ n ih =>
    rw [arrayRows] at h
    split at h
    · cases h
    rename_i r st1 hc
    split at h
    · cases h
    rename_i rs1 hr
    obtain rfl := Option.some.inj h
    obtain ⟨h1, h2⟩ := ih _ _ hr
    refine ⟨by simp [h1], ?_⟩
    intro w hw
    rcases List.mem_cons.mp hw with rfl | hw
    · exact row_spec g hg lo hi whole hle hlo hhi _ _ _ _ hc
    · exact h2 w hw

/-- **C114.** RANDARRAY gives as many rows and columns as asked for, and every value lies between the
bounds: from the one up to the other if whole numbers are asked for, below the other if not. -/
theorem array_spec (g : Gen) (hg : g.Good) (s : Site) (rows cols : Int) (lo hi : ℚ) (whole : Bool)
    (hle : lo ≤ hi) (hlo : -2 ^ 63 ≤ lo) (hhi : hi ≤ 2 ^ 63 - 1) (rs : List (List ℚ))
    (h : randArray g s rows cols lo hi whole = some rs) :
    (rs.length : Int) = rows ∧
      ∀ r ∈ rs, (r.length : Int) = cols ∧
        ∀ v ∈ r, lo ≤ v ∧
          if whole then v ≤ hi ∧ ∃ n : Int, v = n else v < hi ∨ lo = hi := by
  unfold randArray at h
  split at h
  · cases h
  rename_i hp
  split at h
  · cases h
  split at h
  · cases h
  obtain ⟨h1, h2⟩ := rows_spec g hg lo hi whole hle hlo hhi _ _ _ _ h
  refine ⟨by omega, ?_⟩
  intro r hr
  obtain ⟨h3, h4⟩ := h2 r hr
  refine ⟨by omega, ?_⟩
  intro v hv
  have := h4 v hv
  unfold InRange at this
  cases whole <;> simpa using this

theorem cell_some (g : Gen) (lo hi : ℚ) (whole : Bool)
    (hw : whole = true → ∃ n : Int, -2 ^ 63 ≤ n ∧ n ≤ 2 ^ 63 - 1 ∧ lo ≤ n ∧ n ≤ hi)
    (st : g.State) : ∃ r, arrayCell g lo hi whole st = some r := by
  unfold arrayCell
  cases whole with
  | false => simp
  | true =>
    obtain ⟨n, hn0, hn1, hn2, hn3⟩ := hw rfl
    simp only [if_true]
    have h1 : ⌈lo⌉ ≤ n := Int.ceil_le.mpr hn2
    have h2 : n ≤ ⌊hi⌋ := Int.le_floor.mpr hn3
    rw [if_neg (by omega)]
    exact ⟨_, rfl⟩

theorem row_some (g : Gen) (lo hi : ℚ) (whole : Bool)
    (hc : ∀ st, ∃ r, arrayCell g lo hi whole st = some r) (n : Nat) (st : g.State) :
    ∃ r, arrayRow g lo hi whole n st = some r := by
  induction n generalizing st with
  | zero => exact ⟨_, rfl⟩
  | succ n ih =>
    obtain ⟨⟨v, st1⟩, h1⟩ := hc st
    obtain ⟨⟨vs, st2⟩, h2⟩ := ih st1
    exact ⟨(v :: vs, st2), by simp [arrayRow, h1, h2]⟩

theorem rows_some (g : Gen) (lo hi : ℚ) (whole : Bool)
    (hc : ∀ st, ∃ r, arrayCell g lo hi whole st = some r) (cols n : Nat) (st : g.State) :
    ∃ r, arrayRows g lo hi whole cols n st = some r := by
  induction n generalizing st with
  | zero => exact ⟨_, rfl⟩
  | succ n ih =>
    obtain ⟨⟨v, st1⟩, h1⟩ := row_some g lo hi whole hc cols st
    obtain ⟨vs, h2⟩ := ih st1
    exact ⟨v :: vs, by simp [arrayRows, h1, h2]⟩

/-- **C114.** RANDARRAY gives an array whenever the size is one a sheet can hold, has at most `2 ^ 24`
cells, and there is a number to draw. -/
theorem array_some (g : Gen) (s : Site) (rows cols : Int) (lo hi : ℚ) (whole : Bool)
    (hr : 1 ≤ rows ∧ rows ≤ 1048576) (hc : 1 ≤ cols ∧ cols ≤ 16384) (hn : rows * cols ≤ 2 ^ 24)
    (hw : whole = true → ∃ n : Int, -2 ^ 63 ≤ n ∧ n ≤ 2 ^ 63 - 1 ∧ lo ≤ n ∧ n ≤ hi) :
    ∃ rs, randArray g s rows cols lo hi whole = some rs := by
  unfold randArray
  rw [if_neg (by omega), if_neg, if_neg (by omega)]
  · exact rows_some g lo hi whole (cell_some g lo hi whole hw) _ _ _
  · rintro ⟨h, hlt⟩
    obtain ⟨n, _, _, h1, h2⟩ := hw h
    linarith

example (s : Site) : ∃ rs, randArray least s 2 2 (1 / 2) 5 true = some rs :=
  array_some least s 2 2 (1 / 2) 5 true (by decide) (by decide) (by decide)
    (fun _ => ⟨3, by norm_num, by norm_num, by norm_num, by norm_num⟩)

/-- **C114.** An array with no rows or columns, larger than a sheet or of more than `2 ^ 24` cells is
refused. -/
theorem array_refused (g : Gen) (s : Site) (rows cols : Int) (lo hi : ℚ) (whole : Bool)
    (h : rows < 1 ∨ cols < 1 ∨ 1048576 < rows ∨ 16384 < cols ∨ 2 ^ 24 < rows * cols) :
    randArray g s rows cols lo hi whole = none := by
  unfold randArray
  by_cases h1 : rows ≤ 0 ∨ cols ≤ 0
  · rw [if_pos h1]
  · rw [if_neg h1]
    split
    · rfl
    · rw [if_pos (by omega)]

/-- **C114.** Whole numbers are refused if there is none between the bounds. -/
theorem array_empty (g : Gen) (s : Site) (rows cols : Int) (lo hi : ℚ)
    (hlo : -2 ^ 63 ≤ lo) (hhi : hi ≤ 2 ^ 63 - 1) (h : ∀ n : Int, lo ≤ n → ¬ (n : ℚ) ≤ hi) :
    randArray g s rows cols lo hi true = none := by
  unfold randArray
  by_cases h1 : rows ≤ 0 ∨ cols ≤ 0
  · rw [if_pos h1]
  · rw [if_neg h1]
    split
    · rfl
    · rename_i hle
      have hle : lo ≤ hi := by simpa using hle
      split
      · rfl
      · obtain ⟨r, hr⟩ : ∃ r, rows.toNat = r + 1 := ⟨rows.toNat - 1, by omega⟩
        obtain ⟨c, hc⟩ : ∃ c, cols.toNat = c + 1 := ⟨cols.toNat - 1, by omega⟩
        have hlt : ⌊hi⌋ < ⌈lo⌉ := by
          by_contra hcon
          exact h ⌈lo⌉ (Int.le_ceil lo)
            (le_trans (by exact_mod_cast not_lt.mp hcon) (Int.floor_le hi))
        have h3 : -2 ^ 63 ≤ ⌊hi⌋ := Int.le_floor.mpr (by push_cast; linarith)
        have h4 : ⌈lo⌉ ≤ 2 ^ 63 - 1 := Int.ceil_le.mpr (by push_cast; linarith)
        rw [hr, hc, arrayRows, arrayRow, arrayCell]
        simp only [if_true]
        rw [if_pos (by omega)]

/-- **C114, refuted.** Bounds the wrong way round are refused for whole numbers only: between 1 and 0
RANDARRAY gives numbers. -/
theorem array_swapped_fails (g : Gen) (s : Site) :
    randArray g s 1 1 1 0 true = none ∧ ∃ rs, randArray g s 1 1 1 0 false = some rs := by
  constructor
  · unfold randArray
    rw [if_neg (by decide), if_pos (by norm_num)]
  · exact array_some g s 1 1 1 0 false (by decide) (by decide) (by decide) (by simp)

/-! ### The order of the values -/

theorem row_append (g : Gen) (lo hi : ℚ) (whole : Bool) (m n : Nat) (st : g.State) :
    arrayRow g lo hi whole (m + n) st =
      match arrayRow g lo hi whole m st with
      | none => none
      | some (vs, st) =>
        match arrayRow g lo hi whole n st with
        | none => none
        | some (ws, st) => some (vs ++ ws, st) := by
  induction m generalizing st with
  | zero =>
    simp only [Nat.zero_add, arrayRow]
    cases arrayRow g lo hi whole n st <;> simp
  | succ m ih =>
    rw [show m + 1 + n = (m + n) + 1 by omega, arrayRow, arrayRow]
    cases hc : arrayCell g lo hi whole st with
    | none => rfl
    | some r =>
      obtain ⟨v, st1⟩ := r
      simp only
      rw [ih]
      cases h1 : arrayRow g lo hi whole m st1 with
      | none => rfl
      | some q =>
        obtain ⟨vs, st2⟩ := q
        simp only
        cases h2 : arrayRow g lo hi whole n st2 with
        | none => rfl
        | some p => rfl

theorem rows_flatten (g : Gen) (lo hi : ℚ) (whole : Bool) (cols n : Nat) (st : g.State) :
    (arrayRows g lo hi whole cols n st).map List.flatten =
      (arrayRow g lo hi whole (n * cols) st).map Prod.fst := by
  induction n generalizing st with
  | zero => simp [arrayRows, arrayRow]
  | succ n ih =>
    rw [arrayRows, show (n + 1) * cols = cols + n * cols by ring, row_append]
    cases h1 : arrayRow g lo hi whole cols st with
    | none => rfl
    | some q =>
      obtain ⟨vs, st2⟩ := q
      simp only
      have := ih st2
      cases h2 : arrayRow g lo hi whole (n * cols) st2 with
      | none =>
        rw [h2] at this
        cases h3 : arrayRows g lo hi whole cols n st2 with
        | none => rfl
        | some p => rw [h3] at this; simp at this
      | some p =>
        rw [h2] at this
        cases h3 : arrayRows g lo hi whole cols n st2 with
        | none => rw [h3] at this; simp at this
        | some p => rw [h3] at this; simp at this; simp [this]

/-- **C114.** In one cell and one recalculation, two arrays with as many cells hold the same numbers,
row by row: the shape only breaks the lines. -/
theorem array_shape (g : Gen) (s : Site) (r c r' c' : Int) (lo hi : ℚ) (whole : Bool)
    (hn : r * c = r' * c') (rs rs' : List (List ℚ))
    (h : randArray g s r c lo hi whole = some rs)
    (h' : randArray g s r' c' lo hi whole = some rs') : rs.flatten = rs'.flatten := by
  have open_ : ∀ (r c : Int) rs, randArray g s r c lo hi whole = some rs →
      some rs.flatten = (arrayRow g lo hi whole (r * c).toNat
        (g.start (siteSeed s (salt "RANDARRAY")))).map Prod.fst := by
    intro r c rs h
    unfold randArray at h
    split at h
    · cases h
    rename_i hp
    split at h
    · cases h
    split at h
    · cases h
    have := rows_flatten g lo hi whole c.toNat r.toNat (g.start (siteSeed s (salt "RANDARRAY")))
    rw [h] at this
    rw [Int.toNat_mul (by omega) (by omega), ← this]
    rfl
  have h1 := open_ _ _ _ h
  have h2 := open_ _ _ _ h'
  rw [hn, ← h2] at h1
  exact Option.some.inj h1

/-- **C114.** The words RAND and RANDBETWEEN start from are different ones in every cell: with a
generator that hands out the word it started from, they give different numbers. -/
theorem functions_differ (s : Site) (lo hi : Int) (h : lo ≤ hi)
    (hr : hi - lo < 2 ^ 64 - 1) :
    let g : Gen := ⟨Word, id, fun w => (w.toNat, w), fun w _ _ => (w.toNat, w)⟩
    ∃ n, randBetween g s (.int lo) (.int hi) = some n ∧ rand g s ≠ n := by
  intro g
  refine ⟨((siteSeed s (salt "RANDBETWEEN")).toNat : Int), ?_, ?_⟩
  · have h1 : ¬ (Arg.int hi).bound < (Arg.int lo).bound := by
      change ¬ hi < lo
      omega
    have h2 : ¬ ((Arg.int hi).bound - (Arg.int lo).bound) % 2 ^ 64 = 2 ^ 64 - 1 := by
      change ¬ (hi - lo) % 2 ^ 64 = 2 ^ 64 - 1
      omega
    unfold randBetween
    simp only [if_neg h1, if_neg h2]
    rfl
  · intro he
    have h1 : (((siteSeed s (salt "RAND")).toNat : ℕ) : ℚ) =
        ((siteSeed s (salt "RANDBETWEEN")).toNat : ℕ) := by
      have h2 : rand g s = (((siteSeed s (salt "RAND")).toNat : ℕ) : ℚ) := rfl
      rw [← h2, he]
      push_cast
      rfl
    have h3 := BitVec.eq_of_toNat_eq (Nat.cast_injective h1)
    exact salts_differ.1 ((site_seeds s _ _ 0).1.mp h3)

/-- **C114.** Arguments that are not numbers count as 0: RANDBETWEEN draws as between 0 and the
other bound. -/
theorem between_other (g : Gen) (s : Site) (a : Arg) :
    randBetween g s .other a = randBetween g s (.int 0) a ∧
      randBetween g s a .other = randBetween g s a (.int 0) := ⟨rfl, rfl⟩

end Verif.Rng
