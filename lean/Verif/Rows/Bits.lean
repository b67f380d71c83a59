import Verif.Rows.Model
import Mathlib.Tactic.ByContra

/-!
# The sets of rows
-/

namespace Verif.Rows

theorem and_mask (w : BitVec 64) (k : Nat) (hk : k < 64) : ((w &&& (1#64 <<< k)) != 0#64) = w.getLsbD k := by
  rw [← BitVec.twoPow_eq, BitVec.and_twoPow]
  split
  · rename_i h
    rw [h]
    simp only [bne_iff_ne, ne_eq]
    intro h0
    have := congrArg (fun v => v.getLsbD k) h0
    simp [hk] at this
  · rename_i h
    simp only [Bool.not_eq_true] at h
    rw [h]
    simp

theorem get_nil (r : Nat) : get [] r = false := by simp [get]

theorem get_eq (ws : Words) (r : Nat) : get ws r = (ws.getD (r / 64) 0#64).getLsbD (r % 64) := by
  unfold get
  rw [List.getD_eq_getElem?_getD]
  cases h : ws[r / 64]? with
  | none => simp
  | some w => simp only [Option.getD_some]; rw [and_mask _ _ (by omega)]

theorem get_cons (w : BitVec 64) (ws : Words) (r : Nat) : get (w :: ws) r = if r < 64 then w.getLsbD r else get ws (r - 64) := by
  rw [get_eq, get_eq]
  by_cases h : r < 64
  · rw [if_pos h, show r / 64 = 0 by omega, show r % 64 = r by omega]
    rfl
  · rw [if_neg h, show r / 64 = (r - 64) / 64 + 1 by omega, show r % 64 = (r - 64) % 64 by omega]
    rfl

theorem get_zeros (n r : Nat) : get (List.replicate n 0#64) r = false := by
  induction n generalizing r with
  | zero => exact get_nil r
  | succ n ih => rw [List.replicate_succ, get_cons, ih]; simp

theorem get_append_zeros (ws : Words) (n r : Nat) : get (ws ++ List.replicate n 0#64) r = get ws r := by
  induction ws generalizing r with
  | nil => rw [List.nil_append, get_zeros, get_nil]
  | cons w ws ih => rw [List.cons_append, get_cons, get_cons, ih]

theorem get_trim (ws : Words) (r : Nat) : get (trim ws) r = get ws r := by
  induction ws generalizing r with
  | nil => rfl
  | cons w ws ih =>
    unfold trim
    simp only
    split
    · rename_i h
      rw [get_cons, ← ih, h.1, h.2]
      simp [get_nil]
    · rw [get_cons, get_cons, ih]

theorem isEmpty_iff (ws : Words) : isEmpty ws = true ↔ ∀ r, get ws r = false := by
  induction ws with
  | nil => simp [isEmpty, get_nil]
  | cons w ws ih =>
    have e : isEmpty (w :: ws) = (w == 0#64 && isEmpty ws) := rfl
    rw [e, Bool.and_eq_true, ih, beq_iff_eq]
    constructor
    · rintro ⟨h1, h2⟩ r
      rw [get_cons, h1, h2]
      simp
    · intro h
      refine ⟨?_, fun r => ?_⟩
      · apply BitVec.eq_of_getLsbD_eq
        intro i hi
        have := h i
        rw [get_cons, if_pos hi] at this
        simpa using this
      · have := h (r + 64)
        rw [get_cons, if_neg (by omega)] at this
        simpa using this

/-! ### Setting one row -/

theorem get_set_word (ws : Words) (i : Nat) (hi : i < ws.length) (v : BitVec 64) (q : Nat) : get (ws.set i v) q = if q / 64 = i then v.getLsbD (q % 64) else get ws q := by
  rw [get_eq, get_eq, List.getD_eq_getElem?_getD, List.getElem?_set]
  by_cases h : q / 64 = i
  · rw [if_pos h, if_pos h.symm, if_pos (by omega)]
    rfl
  · rw [if_neg h, if_neg (fun he => h he.symm), List.getD_eq_getElem?_getD]

theorem set_spec (ws : Words) (r : Nat) (h : Bool) : (∀ q, get (set ws r h).1 q = if q = r then h else get ws q) ∧ (set ws r h).2 = (get ws r != h) := by
  unfold set
  by_cases hb : r / 64 ≥ ws.length ∧ h = false
  · rw [if_pos hb]
    have hr : get ws r = false := by
      rw [get_eq, List.getD_eq_getElem?_getD, List.getElem?_eq_none hb.1]
      simp
    refine ⟨fun q => ?_, by simp [hr, hb.2]⟩
    split
    · rename_i hq; rw [hq, hr, hb.2]
    · rfl
  · rw [if_neg hb]
    simp only
    have hlen : r / 64 < (ws ++ List.replicate (r / 64 + 1 - ws.length) 0#64).length := by
      rw [List.length_append, List.length_replicate]; omega
    generalize hg : ws ++ List.replicate (r / 64 + 1 - ws.length) 0#64 = g at hlen ⊢
    have hget : ∀ q, get g q = get ws q := fun q => by rw [← hg, get_append_zeros]
    have hw : ∀ k, (g.getD (r / 64) 0#64).getLsbD (k % 64) = get g (r / 64 * 64 + k % 64) := by
      intro k
      rw [get_eq, show (r / 64 * 64 + k % 64) / 64 = r / 64 by omega, show (r / 64 * 64 + k % 64) % 64 = k % 64 by omega]
    have hm := and_mask (g.getD (r / 64) 0#64) (r % 64) (by omega)
    rw [hw, show r / 64 * 64 + r % 64 = r by omega, hget] at hm
    rw [hm]
    by_cases hc : get ws r = h
    · rw [if_pos hc]
      refine ⟨fun q => ?_, by simp [hc]⟩
      rw [hget]
      split
      · rename_i hq; rw [hq, hc]
      · rfl
    · rw [if_neg hc]
      have same : ∀ q, q / 64 = r / 64 → (g.getD (r / 64) 0#64).getLsbD (q % 64) = get ws q := by
        intro q hq
        rw [hw, ← hget, show r / 64 * 64 + q % 64 = q by omega]
      have hmask : ∀ q, (1#64 <<< (r % 64)).getLsbD (q % 64) = decide (q % 64 = r % 64) := by
        intro q
        rw [← BitVec.twoPow_eq, BitVec.getLsbD_twoPow]
        by_cases he : r % 64 = q % 64
        · have : q % 64 < 64 := by omega
          simp [he, this]
        · have : ¬ (q % 64 = r % 64) := fun h => he h.symm
          simp [he, this]
      cases h with
      | true =>
        rw [if_pos rfl]
        refine ⟨fun q => ?_, by simpa using hc⟩
        rw [get_set_word _ _ hlen]
        by_cases hq : q / 64 = r / 64
        · rw [if_pos hq, BitVec.getLsbD_or, same q hq, hmask]
          by_cases he : q = r
          · simp [he]
          · rw [if_neg he, decide_eq_false (by omega), Bool.or_false]
        · rw [if_neg hq, if_neg (fun he => hq (by rw [he])), hget]
      | false =>
        rw [if_neg (by decide)]
        refine ⟨fun q => ?_, by simpa using hc⟩
        rw [get_trim, get_set_word _ _ hlen]
        by_cases hq : q / 64 = r / 64
        · rw [if_pos hq, BitVec.getLsbD_and, same q hq, BitVec.getLsbD_not, hmask]
          by_cases he : q = r
          · simp [he]
          · have : q % 64 < 64 := by omega
            rw [if_neg he, decide_eq_false (p := q % 64 = r % 64) (by omega)]
            simp [this]
        · rw [if_neg hq, if_neg (fun he => hq (by rw [he])), hget]

theorem setAll_spec (h : Bool) (rs : List Nat) (ws : Words) : (∀ q, get (setAll h rs ws).1 q = if q ∈ rs then h else get ws q) ∧
    ((setAll h rs ws).2 = false ↔ ∀ r ∈ rs, get ws r = h) := by
  induction rs generalizing ws with
  | nil => simp [setAll]
  | cons r rs ih =>
    obtain ⟨h1, h2⟩ := set_spec ws r h
    obtain ⟨h3, h4⟩ := ih (set ws r h).1
    unfold setAll
    simp only
    refine ⟨fun q => ?_, ?_⟩
    · rw [h3, h1]
      by_cases hq : q ∈ rs
      · simp [hq]
      · by_cases he : q = r
        · simp [he]
        · simp [hq, he]
    · rw [Bool.or_eq_false_iff, h4, h2]
      constructor
      · rintro ⟨e1, e2⟩ q hq
        have e1' : get ws r = h := by simpa using e1
        rcases List.mem_cons.1 hq with rfl | hq
        · exact e1'
        · have := e2 q hq
          rw [h1] at this
          by_cases he : q = r
          · rw [he, e1']
          · rwa [if_neg he] at this
      · intro e
        refine ⟨by simp [e r (.head _)], fun q hq => ?_⟩
        rw [h1]
        split
        · rfl
        · exact e q (.tail _ hq)

theorem mem_rowsFromTo (a b q : Nat) : q ∈ rowsFromTo a b ↔ a ≤ q ∧ q ≤ b := by
  simp only [rowsFromTo, List.mem_map, List.mem_range]
  constructor
  · rintro ⟨i, hi, rfl⟩; omega
  · intro h; exact ⟨q - a, by omega, by omega⟩

theorem setRange_spec (ws : Words) (a b : Nat) (h : Bool) : (∀ q, get (setRange ws a b h).1 q = if a ≤ q ∧ q ≤ b then h else get ws q) ∧
    ((setRange ws a b h).2 = false → ∀ q, get (setRange ws a b h).1 q = get ws q) := by
  unfold setRange
  split
  · rename_i hab
    refine ⟨fun q => ?_, fun _ _ => rfl⟩
    rw [if_neg (by omega)]
  · obtain ⟨h1, h2⟩ := setAll_spec h (rowsFromTo a b) ws
    refine ⟨fun q => ?_, fun hf q => ?_⟩
    · rw [h1]; simp only [mem_rowsFromTo]
    · rw [h1]
      split
      · rename_i hq; rw [h2.1 hf q hq]
      · rfl

/-! ### The rows of a set -/

theorem ctz_spec {w : BitVec 64} (hw : w ≠ 0#64) : ctz w < 64 ∧ w.getLsbD (ctz w) = true ∧ ∀ k, k < ctz w → w.getLsbD k = false := by
  unfold ctz
  cases hf : (List.range 64).find? fun k => w.getLsbD k with
  | none =>
    exfalso
    apply hw
    apply BitVec.eq_of_getLsbD_eq
    intro i hi
    have := List.find?_eq_none.1 hf i (List.mem_range.2 hi)
    simpa using this
  | some t =>
    rw [List.find?_range_eq_some] at hf
    simp only [Option.getD_some]
    refine ⟨List.mem_range.1 hf.2.1, hf.1, fun k hk => by simpa using hf.2.2 k hk⟩

theorem low_bit {w : BitVec 64} (hw : w ≠ 0#64) (k : Nat) : (w &&& (w - 1#64)).getLsbD k = (w.getLsbD k && decide (k ≠ ctz w)) := by
  obtain ⟨h1, h2, h3⟩ := ctz_spec hw
  generalize ctz w = t at h1 h2 h3
  have hpos : 0 < w.toNat := by
    rcases Nat.eq_zero_or_pos w.toNat with h | h
    · exact absurd (BitVec.eq_of_toNat_eq (by simpa using h)) hw
    · exact h
  have hlow : w.toNat % 2 ^ t = 0 := by
    apply Nat.eq_of_testBit_eq
    intro i
    rw [Nat.testBit_mod_two_pow, Nat.zero_testBit]
    by_cases hi : i < t
    · have := h3 i hi
      rw [BitVec.getLsbD] at this
      simp [this]
    · simp [hi]
  have hodd : w.toNat / 2 ^ t % 2 = 1 := by
    have := h2
    rw [BitVec.getLsbD, Nat.testBit_eq_decide_div_mod_eq] at this
    simpa using this
  have hw' : w.toNat = 2 ^ t * (2 * (w.toNat / 2 ^ t / 2) + 1) := by
    have e1 : 2 * (w.toNat / 2 ^ t / 2) + 1 = w.toNat / 2 ^ t := by omega
    rw [e1]
    have := Nat.div_add_mod w.toNat (2 ^ t)
    omega
  generalize hm : w.toNat / 2 ^ t / 2 = m at hw'
  have hp : 0 < 2 ^ t := Nat.two_pow_pos t
  have hsub : (w - 1#64).toNat = 2 ^ t * (2 * m) + (2 ^ t - 1) := by
    rw [BitVec.toNat_sub]
    have hlt := w.isLt
    have : (1#64).toNat = 1 := rfl
    rw [this]
    have e2 : 2 ^ t * (2 * m + 1) = 2 ^ t * (2 * m) + 2 ^ t := by rw [Nat.mul_add, Nat.mul_one]
    rw [e2] at hw'
    omega
  rw [BitVec.getLsbD_and, BitVec.getLsbD, BitVec.getLsbD, hsub, Nat.testBit_two_pow_mul_add _ (by omega)]
  have hk : w.toNat.testBit k = if k < t then false else (2 * m + 1).testBit (k - t) := by
    have e3 : w.toNat = 2 ^ t * (2 * m + 1) + 0 := by omega
    rw [e3, Nat.testBit_two_pow_mul_add _ hp, Nat.zero_testBit]
  rw [hk]
  by_cases hkt : k < t
  · simp [hkt]
  · rw [if_neg hkt, if_neg hkt]
    by_cases he : k = t
    · subst he
      simp
    · have e4 : k - t = (k - t - 1) + 1 := by omega
      rw [e4, Nat.testBit_succ, Nat.testBit_succ, show (2 * m + 1) / 2 = m by omega, show 2 * m / 2 = m by omega]
      simp [he]

theorem mem_bits (f : Nat) (w : BitVec 64) (hf : ∀ k, w.getLsbD k = true → 64 - f ≤ k) (k : Nat) : k ∈ bits f w ↔ w.getLsbD k = true := by
  induction f generalizing w with
  | zero =>
    simp only [bits, List.not_mem_nil, false_iff]
    intro h
    have h1 := hf k h
    have h2 := BitVec.lt_of_getLsbD h
    omega
  | succ f ih =>
    unfold bits
    by_cases hw : w = 0#64
    · rw [if_pos hw, hw]; simp
    · rw [if_neg hw, List.mem_cons, ih, low_bit hw]
      · obtain ⟨_, h2, _⟩ := ctz_spec hw
        by_cases hk : k = ctz w
        · simp [hk, h2]
        · simp [hk]
      · intro q hq
        rw [low_bit hw] at hq
        obtain ⟨h1, h2, h3⟩ := ctz_spec hw
        simp only [Bool.and_eq_true, decide_eq_true_eq] at hq
        have h4 := hf _ h2
        have h5 : ¬ q < ctz w := fun hlt => by rw [h3 q hlt] at hq; exact absurd hq.1 (by decide)
        omega

theorem mem_collectFrom (ws : Words) (i r : Nat) : r ∈ collectFrom i ws ↔ i * 64 ≤ r ∧ get ws (r - i * 64) = true := by
  induction ws generalizing i with
  | nil => simp [collectFrom, get_nil]
  | cons w ws ih =>
    rw [collectFrom, List.mem_append, ih, get_cons, List.mem_map]
    constructor
    · rintro (⟨k, hk, rfl⟩ | ⟨h1, h2⟩)
      · rw [mem_bits 64 w (fun _ _ => by omega)] at hk
        have := BitVec.lt_of_getLsbD hk
        refine ⟨by omega, ?_⟩
        rw [if_pos (by omega), show i * 64 + k - i * 64 = k by omega]
        exact hk
      · refine ⟨by omega, ?_⟩
        rw [if_neg (by omega), show r - i * 64 - 64 = r - (i + 1) * 64 by omega]
        exact h2
    · rintro ⟨h1, h2⟩
      by_cases hlt : r - i * 64 < 64
      · rw [if_pos hlt] at h2
        exact .inl ⟨r - i * 64, (mem_bits 64 w (fun _ _ => by omega) _).2 h2, by omega⟩
      · rw [if_neg hlt] at h2
        exact .inr ⟨by omega, by rw [show r - (i + 1) * 64 = r - i * 64 - 64 by omega]; exact h2⟩

theorem mem_collect (ws : Words) (r : Nat) : r ∈ collect ws ↔ get ws r = true := by
  unfold collect
  rw [mem_collectFrom]
  simp

theorem get_rebuild (rows : List Nat) (r : Nat) : get (rebuild rows) r = decide (r ∈ rows) := by
  unfold rebuild
  rw [(setAll_spec true rows []).1, get_nil]
  by_cases h : r ∈ rows <;> simp [h]

/-! ### Moving rows -/

/-- Rows from `before` move down; the new rows are not hidden.  No row is at the end of the numbers. -/
theorem insertRows_spec (ws : Words) (before count : Nat) (hw : ∀ r, get ws r = true → r + count ≤ maxU) :
    (∀ q, get (insertRows ws before count).1 q = if q < before then get ws q else if q < before + count then false else get ws (q - count)) ∧
    ((insertRows ws before count).2 = false → ∀ q, get (insertRows ws before count).1 q = get ws q) := by
  unfold insertRows
  by_cases hc : count = 0
  · rw [if_pos hc]
    refine ⟨fun q => ?_, fun _ _ => rfl⟩
    subst hc
    split
    · rfl
    · rw [if_neg (by omega)]; rfl
  · rw [if_neg hc]
    simp only
    by_cases he : collect ws = []
    · rw [if_pos he]
      have hn : ∀ q, get ws q = false := by
        intro q
        by_contra h
        have := (mem_collect ws q).2 (by simpa using h)
        rw [he] at this
        cases this
      refine ⟨fun q => ?_, fun _ _ => rfl⟩
      simp [hn]
    · rw [if_neg he]
      by_cases ha : (collect ws).any (fun r => decide (before ≤ r)) = true
      · rw [if_pos ha]
        refine ⟨fun q => ?_, fun h => absurd h (by simp)⟩
        rw [get_rebuild, Bool.eq_iff_iff, decide_eq_true_eq, List.mem_map]
        constructor
        · rintro ⟨r, hr, hq⟩
          rw [mem_collect] at hr
          have := hw r hr
          split at hq
          · rename_i hb
            unfold satAdd at hq
            rw [Nat.min_eq_left this] at hq
            rw [if_neg (by omega), if_neg (by omega), show q - count = r by omega, hr]
          · rename_i hb
            rw [if_pos (by omega), ← hq, hr]
        · intro h
          by_cases h1 : q < before
          · rw [if_pos h1] at h
            exact ⟨q, (mem_collect ws q).2 h, by rw [if_neg (by omega)]⟩
          · rw [if_neg h1] at h
            by_cases h2 : q < before + count
            · rw [if_pos h2] at h; cases h
            · rw [if_neg h2] at h
              have := hw _ h
              refine ⟨q - count, (mem_collect ws _).2 h, ?_⟩
              rw [if_pos (by omega)]
              unfold satAdd
              omega
      · rw [if_neg ha]
        have hn : ∀ q, before ≤ q → get ws q = false := by
          intro q hq
          by_contra h
          refine ha (List.any_eq_true.2 ⟨q, (mem_collect ws q).2 (by simpa using h), by simpa using hq⟩)
        refine ⟨fun q => ?_, fun _ _ => rfl⟩
        split
        · rfl
        · split
          · rw [hn q (by omega)]
          · rw [hn q (by omega), hn (q - count) (by omega)]

/-- Rows after the deleted ones move up. -/
theorem deleteRows_spec (ws : Words) (start count : Nat) (hw : ∀ r, get ws r = true → r ≤ maxU) :
    (∀ q, get (deleteRows ws start count).1 q = if q < start then get ws q else get ws (q + count)) ∧
    ((deleteRows ws start count).2 = false → ∀ q, get (deleteRows ws start count).1 q = get ws q) := by
  unfold deleteRows
  by_cases hc : count = 0
  · rw [if_pos hc]
    refine ⟨fun q => ?_, fun _ _ => rfl⟩
    subst hc
    split <;> rfl
  · rw [if_neg hc]
    simp only
    by_cases he : collect ws = []
    · rw [if_pos he]
      have hn : ∀ q, get ws q = false := by
        intro q
        by_contra h
        have := (mem_collect ws q).2 (by simpa using h)
        rw [he] at this
        cases this
      exact ⟨fun q => by simp [hn], fun _ _ => rfl⟩
    · rw [if_neg he]
      by_cases ha : (collect ws).any (fun r => decide (start ≤ r)) = true
      · rw [if_pos ha]
        refine ⟨fun q => ?_, fun h => absurd h (by simp)⟩
        rw [get_rebuild, Bool.eq_iff_iff, decide_eq_true_eq, List.mem_filterMap]
        constructor
        · rintro ⟨r, hr, hq⟩
          rw [mem_collect] at hr
          have := hw r hr
          split at hq
          · rename_i hb
            simp only [Option.some.injEq] at hq
            subst hq
            rw [if_pos hb, hr]
          · rename_i hb
            split at hq
            · cases hq
            · rename_i hl
              simp only [Option.some.injEq] at hq
              unfold satAdd at hl
              rw [if_neg (by omega), show q + count = r by omega, hr]
        · intro h
          by_cases h1 : q < start
          · rw [if_pos h1] at h
            exact ⟨q, (mem_collect ws q).2 h, by rw [if_pos h1]⟩
          · rw [if_neg h1] at h
            have := hw _ h
            refine ⟨q + count, (mem_collect ws _).2 h, ?_⟩
            rw [if_neg (by omega), if_neg (by unfold satAdd; omega)]
            simp
      · rw [if_neg ha]
        have hn : ∀ q, start ≤ q → get ws q = false := by
          intro q hq
          by_contra h
          refine ha (List.any_eq_true.2 ⟨q, (mem_collect ws q).2 (by simpa using h), by simpa using hq⟩)
        refine ⟨fun q => ?_, fun _ _ => rfl⟩
        split
        · rfl
        · rw [hn q (by omega), hn (q + count) (by omega)]

end Verif.Rows
