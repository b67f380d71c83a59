import Verif.Base.Digits

/-!
# Conversions between bases
-/

namespace Verif.Base

/-- The bases of the functions of ten digits: even, from 2 to 16. -/
def Even2 (b : Nat) : Prop := 2 ≤ b ∧ b ≤ 16 ∧ b % 2 = 0

theorem half_pow {b : Nat} (h : Even2 b) : b ^ 10 = 2 * (b / 2 * b ^ 9) := by
  have h1 : b = 2 * (b / 2) := by have := h.2.2; omega
  calc b ^ 10 = b * b ^ 9 := by ring
    _ = 2 * (b / 2) * b ^ 9 := by rw [← h1]
    _ = 2 * (b / 2 * b ^ 9) := by ring

theorem pow_bound {b : Nat} (h : Even2 b) : b ^ 10 ≤ 2 ^ 40 := Nat.le_trans (Nat.pow_le_pow_left h.2.1 10) (by decide)

/-- What `BIN2DEC` and its kind compute: the value, less the number of all texts of ten digits if it is in their upper half. -/
theorem toDec_eq {b : Nat} (h : Even2 b) (s : List Char) : (Valid b s ∧ s.length ≤ 10 →
    toDec b s = some (if s.length = 10 ∧ b ^ 10 ≤ 2 * value b s then (value b s : Int) - (b : Int) ^ 10 else (value b s : Int))) ∧ (¬ (Valid b s ∧ s.length ≤ 10) → toDec b s = none) := by
  constructor
  · rintro ⟨hv, hl⟩
    have hb : 0 < b := by have := h.1; omega
    have hany : s.any (fun c => (dig b c).isNone) = false := by
      rw [List.any_eq_false]
      intro c hc
      have := hv c hc
      cases hd : dig b c with
      | none => rw [hd] at this; cases this
      | some d => simp
    unfold toDec
    rw [if_neg (by rw [hany]; simp; exact hl)]
    have hval : (fromStrRadix b s).getD 0 = (value b s : Int) := by
      by_cases hn : s = []
      · subst hn
        rfl
      · rw [fromStr_valid hb hv hn, if_pos]
        · rfl
        · have h1 := value_lt hb s
          have h2 : b ^ s.length ≤ b ^ 10 := Nat.pow_le_pow_right hb hl
          have h3 := pow_bound h
          unfold maxI
          omega
    simp only [hval]
    match s, hl, hv with
    | [], _, _ => simp
    | c :: cs, hl, hv =>
      simp only
      have hiff : ((c :: cs).length = 10 ∧ (dig b c).getD 0 ≥ b / 2) ↔ ((c :: cs).length = 10 ∧ b ^ 10 ≤ 2 * value b (c :: cs)) := by
        refine and_congr_right fun hlen => ?_
        have hcs : cs.length = 9 := by simpa using hlen
        have hrest := value_lt hb cs
        rw [hcs] at hrest
        rw [half_pow h]
        simp only [value, hcs]
        constructor
        · intro hd
          have : b / 2 * b ^ 9 ≤ (dig b c).getD 0 * b ^ 9 := Nat.mul_le_mul_right _ hd
          omega
        · intro hd
          by_contra hlt
          have h1 : (dig b c).getD 0 + 1 ≤ b / 2 := by omega
          have h2 : ((dig b c).getD 0 + 1) * b ^ 9 ≤ b / 2 * b ^ 9 := Nat.mul_le_mul_right _ h1
          have h3 : ((dig b c).getD 0 + 1) * b ^ 9 = (dig b c).getD 0 * b ^ 9 + b ^ 9 := by ring
          omega
      by_cases hc : (c :: cs).length = 10 ∧ (dig b c).getD 0 ≥ b / 2
      · rw [if_pos hc, if_pos (hiff.1 hc)]
      · rw [if_neg hc, if_neg (fun hx => hc (hiff.2 hx))]
  · intro hn
    unfold toDec
    rw [if_pos]
    by_cases hl : s.length > 10
    · exact .inl hl
    · right
      by_contra hany
      refine hn ⟨fun c hc => ?_, by omega⟩
      simp only [List.any_eq_true, not_exists, not_and] at hany
      have := hany c hc
      cases hd : dig b c with
      | none => rw [hd] at this; simp at this
      | some d => rfl

theorem inRange_iff {b : Nat} (h : Even2 b) (n : Int) : inRange b n = true ↔ -((b ^ 10 : Nat) : Int) ≤ 2 * n ∧ 2 * n < ((b ^ 10 : Nat) : Int) := by
  have hp := half_pow h
  have e : (b : Int) ^ 10 = ((b ^ 10 : Nat) : Int) := by push_cast; rfl
  unfold inRange
  rw [e, Bool.and_eq_true, decide_eq_true_eq, decide_eq_true_eq]
  omega

/-- The text that is written before places are filled. -/
def plain (b : Nat) (n : Int) : List Char := if 0 ≤ n then fmt b n.toNat else pad 10 (fmt b (n + (b : Int) ^ 10).toNat)

theorem plain_spec {b : Nat} (h : Even2 b) {n : Int} (hr : inRange b n = true) : Valid b (plain b n) ∧ plain b n ≠ [] ∧ (plain b n).length ≤ 10 ∧
    (0 ≤ n → (value b (plain b n) : Int) = n ∧ ∀ p, (plain b n).length ≤ p ↔ 1 ≤ p ∧ n < (b : Int) ^ p) ∧
    (n < 0 → (value b (plain b n) : Int) = n + (b : Int) ^ 10 ∧ (plain b n).length = 10) := by
  have hb : 2 ≤ b := h.1
  have hb36 : b ≤ 36 := by have := h.2.1; omega
  have e : (b : Int) ^ 10 = ((b ^ 10 : Nat) : Int) := by push_cast; rfl
  have hpb := pow_bound h
  rw [inRange_iff h] at hr
  have key : ∀ m : Nat, m < b ^ 10 → (fmt b m).length ≤ 10 := by
    intro m hm
    obtain ⟨_, _, h3, h4, h5⟩ := fmt_spec (n := m) hb hb36 (by omega)
    by_cases hz : m = 0
    · rw [h5 hz]; omega
    · by_contra hl
      have h6 := h4 (by omega)
      have h7 : b ^ 10 ≤ b ^ ((fmt b m).length - 1) := Nat.pow_le_pow_right (by omega) (by omega)
      omega
  by_cases hn : 0 ≤ n
  · have hpl : plain b n = fmt b n.toNat := by simp [plain, hn]
    rw [hpl]
    obtain ⟨h1, h2, h3, h4, h5⟩ := fmt_spec (n := n.toNat) hb hb36 (by omega)
    refine ⟨h1, h3, key _ (by omega), fun _ => ⟨by rw [h2]; omega, fun p => ?_⟩, fun h => absurd h (by omega)⟩
    have hlen : (fmt b n.toNat).length ≥ 1 := by
      cases hf : fmt b n.toNat with
      | nil => exact absurd hf h3
      | cons _ _ => simp
    have hvl := value_lt (b := b) (by omega) (fmt b n.toNat)
    rw [h2] at hvl
    have ep : (b : Int) ^ p = ((b ^ p : Nat) : Int) := by push_cast; rfl
    rw [ep]
    constructor
    · intro hp
      have : b ^ (fmt b n.toNat).length ≤ b ^ p := Nat.pow_le_pow_right (by omega) hp
      omega
    · rintro ⟨hp1, hp2⟩
      by_contra hlt
      by_cases hz : n.toNat = 0
      · rw [h5 hz] at hlt; omega
      · have h6 := h4 (by omega)
        have h7 : b ^ p ≤ b ^ ((fmt b n.toNat).length - 1) := Nat.pow_le_pow_right (by omega) (by omega)
        omega
  · have hpl : plain b n = pad 10 (fmt b (n + (b : Int) ^ 10).toNat) := by simp [plain, hn]
    rw [hpl]
    have hm : (n + (b : Int) ^ 10).toNat < b ^ 10 := by rw [e]; omega
    obtain ⟨h1, h2, h3, _, _⟩ := fmt_spec (n := (n + (b : Int) ^ 10).toNat) hb hb36 (by omega)
    obtain ⟨p1, p2, p3, p4⟩ := pad_spec hb hb36 10 h1
    have hk := key _ hm
    refine ⟨p1, p4 h3, by rw [p3]; omega, fun h => absurd h hn, fun _ => ⟨by rw [p2, h2, e]; omega, by rw [p3]; omega⟩⟩

theorem write_eq (b : Nat) (n : Int) (places : Option Nat) : write b n places =
    match places with
    | none => some (plain b n)
    | some p => if p < (plain b n).length ∨ p > 10 then none else some (pad p (plain b n)) := rfl

/-- What `DEC2BIN` and its kind write is read back as the same number, also if it was padded. -/
theorem read_back {b : Nat} (h : Even2 b) {n : Int} {places : Option Nat} {t : List Char} (ht : ofDec b n places = some t) : toDec b t = some n := by
  unfold ofDec at ht
  split at ht
  · rename_i hr
    have hb36 : b ≤ 36 := by have := h.2.1; omega
    obtain ⟨h1, h2, h3, h4, h5⟩ := plain_spec h hr
    have hr' := (inRange_iff h n).1 hr
    have e : (b : Int) ^ 10 = ((b ^ 10 : Nat) : Int) := by push_cast; rfl
    have key : ∀ t : List Char, Valid b t → t.length ≤ 10 → value b t = value b (plain b n) → (n < 0 → t.length = 10) → toDec b t = some n := by
      intro t hv hl hval hneg
      rw [(toDec_eq h t).1 ⟨hv, hl⟩, hval]
      by_cases hn : 0 ≤ n
      · have := (h4 hn).1
        rw [if_neg (by omega), this]
      · obtain ⟨e1, _⟩ := h5 (by omega)
        rw [e] at e1
        rw [if_pos ⟨hneg (by omega), by omega⟩, e1, e]
        congr 1
        omega
    rw [write_eq] at ht
    cases places with
    | none =>
      simp only [Option.some.injEq] at ht
      subst ht
      exact key _ h1 h3 rfl fun hn => (h5 hn).2
    | some p =>
      simp only at ht
      split at ht
      · cases ht
      · rename_i hp
        simp only [Option.some.injEq] at ht
        subst ht
        obtain ⟨p1, p2, p3, _⟩ := pad_spec h.1 hb36 p h1
        refine key _ p1 (by rw [p3]; omega) p2 fun hn => ?_
        have := (h5 hn).2
        rw [p3]
        omega
  · cases ht

/-- When `DEC2BIN` and its kind give a text: numbers in the range of ten digits in two's complement; with places, no more than ten and enough for the number, which for negative ones is ten. -/
theorem ofDec_defined {b : Nat} (h : Even2 b) (n : Int) : ((ofDec b n none).isSome = true ↔ -((b ^ 10 : Nat) : Int) ≤ 2 * n ∧ 2 * n < ((b ^ 10 : Nat) : Int)) ∧
    ∀ p, ((ofDec b n (some p)).isSome = true ↔ (-((b ^ 10 : Nat) : Int) ≤ 2 * n ∧ 2 * n < ((b ^ 10 : Nat) : Int)) ∧ p ≤ 10 ∧ (0 ≤ n → 1 ≤ p ∧ n < (b : Int) ^ p) ∧ (n < 0 → p = 10)) := by
  rw [← inRange_iff h]
  unfold ofDec
  refine ⟨?_, fun p => ?_⟩
  · split
    · rename_i hr
      simp [hr, write_eq]
    · rename_i hr
      simp [hr]
  · split
    · rename_i hr
      obtain ⟨_, _, h3, h4, h5⟩ := plain_spec h hr
      rw [write_eq]
      simp only [hr, true_and]
      by_cases hn : 0 ≤ n
      · have hl := (h4 hn).2 p
        split
        · rename_i hp
          refine ⟨fun h => (by cases h), fun hq => ?_⟩
          have := hl.2 (hq.2.1 hn)
          omega
        · rename_i hp
          refine ⟨fun _ => ⟨by omega, fun _ => hl.1 (by omega), fun h => absurd h (by omega)⟩, fun _ => rfl⟩
      · have hl := (h5 (by omega)).2
        split
        · rename_i hp
          refine ⟨fun h => (by cases h), fun hq => ?_⟩
          have := hq.2.2 (by omega)
          omega
        · rename_i hp
          exact ⟨fun _ => ⟨by omega, fun h => absurd h hn, fun _ => by omega⟩, fun _ => rfl⟩
    · rename_i hr
      simp [hr]

/-- With places, the text has as many characters. -/
theorem ofDec_places {b : Nat} (h : Even2 b) {n : Int} {p : Nat} {t : List Char} (ht : ofDec b n (some p) = some t) : t.length = p := by
  unfold ofDec at ht
  split at ht
  · rename_i hr
    have hb36 : b ≤ 36 := by have := h.2.1; omega
    obtain ⟨h1, _, _, _, _⟩ := plain_spec h hr
    rw [write_eq] at ht
    simp only at ht
    split at ht
    · cases ht
    · simp only [Option.some.injEq] at ht
      subst ht
      rw [(pad_spec h.1 hb36 p h1).2.2.1]
      omega
  · cases ht

theorem toDec_range {b : Nat} (h : Even2 b) {s : List Char} {n : Int} (hs : toDec b s = some n) : inRange b n = true := by
  rw [inRange_iff h]
  have e : (b : Int) ^ 10 = ((b ^ 10 : Nat) : Int) := by push_cast; rfl
  by_cases hv : Valid b s ∧ s.length ≤ 10
  · rw [(toDec_eq h s).1 hv, Option.some.injEq] at hs
    have hb : 0 < b := by have := h.1; omega
    have h1 := value_lt hb s
    by_cases hc : s.length = 10 ∧ b ^ 10 ≤ 2 * value b s
    · rw [if_pos hc, e] at hs
      rw [hc.1] at h1
      omega
    · rw [if_neg hc] at hs
      by_cases hl : s.length = 10
      · have : ¬ b ^ 10 ≤ 2 * value b s := fun hx => hc ⟨hl, hx⟩
        omega
      · have h2 : b ^ s.length ≤ b ^ 9 := Nat.pow_le_pow_right hb (by omega)
        have h3 := half_pow h
        have h4 : 1 * b ^ 9 ≤ b / 2 * b ^ 9 := Nat.mul_le_mul_right _ (by have := h.1; omega)
        omega
  · rw [(toDec_eq h s).2 hv] at hs
    cases hs

/-- Every text that is read is written again, by the shortest text with the same number. -/
theorem write_back {b : Nat} (h : Even2 b) {s : List Char} {n : Int} (hs : toDec b s = some n) :
    ∃ t, ofDec b n none = some t ∧ toDec b t = some n ∧ (s ≠ [] → t.length ≤ s.length) := by
  have hr := toDec_range h hs
  have ho : ofDec b n none = some (plain b n) := by simp [ofDec, hr, write_eq]
  refine ⟨plain b n, ho, read_back h ho, fun hne => ?_⟩
  obtain ⟨_, _, h3, h4, h5⟩ := plain_spec h hr
  have e : (b : Int) ^ 10 = ((b ^ 10 : Nat) : Int) := by push_cast; rfl
  have hb : 0 < b := by have := h.1; omega
  have hv : Valid b s ∧ s.length ≤ 10 := by
    by_contra hv
    rw [(toDec_eq h s).2 hv] at hs
    cases hs
  rw [(toDec_eq h s).1 hv, Option.some.injEq] at hs
  have h1 := value_lt hb s
  have hlen : 1 ≤ s.length := by
    cases s with
    | nil => exact absurd rfl hne
    | cons _ _ => simp
  by_cases hc : s.length = 10 ∧ b ^ 10 ≤ 2 * value b s
  · omega
  · rw [if_neg hc] at hs
    have hn : 0 ≤ n := by omega
    refine ((h4 hn).2 s.length).2 ⟨hlen, ?_⟩
    have es : (b : Int) ^ s.length = ((b ^ s.length : Nat) : Int) := by push_cast; rfl
    rw [es]
    omega

/-- `BIN2HEX` and its kind are the two conversions one after the other; where the code does not test the range it need not. -/
theorem cross_eq {b b' : Nat} (h : Even2 b) (h' : Even2 b') {checked : Bool} (hc : checked = true ∨ b ≤ b') (s : List Char) (places : Option Nat) :
    cross b b' checked s places = (toDec b s).bind fun n => ofDec b' n places := by
  unfold cross
  cases hs : toDec b s with
  | none => rfl
  | some n =>
    simp only [Option.bind_some]
    unfold ofDec
    cases hr : inRange b' n with
    | true => simp
    | false =>
      have hct : checked = true := by
        rcases hc with hc | hc
        · exact hc
        · have h1 := (inRange_iff h n).1 (toDec_range h hs)
          have h2 : b ^ 10 ≤ b' ^ 10 := Nat.pow_le_pow_left hc 10
          have h3 : inRange b' n = true := (inRange_iff h' n).2 (by omega)
          rw [h3] at hr
          cases hr
      simp [hct]

/-- The number of the result is that of the argument. -/
theorem cross_reads {b b' : Nat} (h : Even2 b) (h' : Even2 b') {checked : Bool} (hc : checked = true ∨ b ≤ b') {s : List Char} {places : Option Nat} {t : List Char}
    (ht : cross b b' checked s places = some t) : toDec b' t = toDec b s := by
  rw [cross_eq h h' hc] at ht
  cases hs : toDec b s with
  | none => rw [hs] at ht; cases ht
  | some n =>
    rw [hs, Option.bind_some] at ht
    exact read_back h' ht

/-! ### BASE and DECIMAL -/

theorem trim_valid {b : Nat} {s : List Char} (hs : Valid b s) : trim s = s := by
  have hd : ∀ l : List Char, Valid b l → l.dropWhile Char.isWhitespace = l := by
    intro l hl
    cases l with
    | nil => rfl
    | cons c cs => simp [(valid_head hl).2.2]
  unfold trim
  rw [hd s hs, hd s.reverse (fun c hc => hs c (List.mem_reverse.1 hc)), List.reverse_reverse]

/-- `DECIMAL` reads what `BASE` writes, in every base and with any padding. -/
theorem decimal_base {n : Nat} {r : Nat} {m : Nat} (hn : n ≤ maxI) {t : List Char} (ht : base n r m = some t) : decimal t r = some (n : Int) := by
  unfold base at ht
  split at ht
  · cases ht
  · rename_i hc
    simp only [Option.some.injEq] at ht
    have hr : 2 ≤ r ∧ r ≤ 36 := by omega
    obtain ⟨h1, h2, h3, _, _⟩ := fmt_spec (b := r) (n := n) hr.1 hr.2 (by unfold maxI at hn; omega)
    obtain ⟨p1, p2, _, p4⟩ := pad_spec hr.1 hr.2 m h1
    simp only [Int.toNat_natCast] at ht
    subst ht
    unfold decimal
    rw [if_neg (by omega), trim_valid p1, fromStr_valid (by omega) p1 (p4 h3), p2, h2, if_pos hn]

/-- `BASE` gives a text for all numbers from 0 and bases from 2 to 36, with the digits of the number and as many zeros before them as asked for. -/
theorem base_spec (n r : Int) (m : Nat) (hn : n < 2 ^ 64) : (base n r m = none ↔ ¬ (2 ≤ r ∧ r ≤ 36 ∧ 0 ≤ n)) ∧
    ∀ t, base n r m = some t → Valid r.toNat t ∧ (value r.toNat t : Int) = n ∧ m ≤ t.length ∧ (m < t.length → t.head? ≠ some '0' ∨ n = 0) := by
  unfold base
  constructor
  · split
    · rename_i h
      simp only [true_iff]
      omega
    · rename_i h
      simp only [reduceCtorEq, false_iff, not_not]
      omega
  · intro t ht
    split at ht
    · cases ht
    · rename_i hc
      simp only [Option.some.injEq] at ht
      have hr : 2 ≤ r.toNat ∧ r.toNat ≤ 36 := by omega
      obtain ⟨h1, h2, h3, h4, _⟩ := fmt_spec (b := r.toNat) (n := n.toNat) hr.1 hr.2 (by omega)
      obtain ⟨p1, p2, p3, _⟩ := pad_spec hr.1 hr.2 m h1
      subst ht
      refine ⟨p1, by rw [p2, h2]; omega, by rw [p3]; omega, fun hlt => ?_⟩
      by_cases hz : n = 0
      · exact .inr hz
      left
      rw [p3] at hlt
      have hm : m - (fmt r.toNat n.toNat).length = 0 := by omega
      unfold pad
      rw [hm, List.replicate_zero, List.nil_append]
      intro hh
      cases hf : fmt r.toNat n.toNat with
      | nil => exact h3 hf
      | cons c cs =>
        rw [hf] at hh h2 h4
        simp only [List.head?_cons, Option.some.injEq] at hh
        subst hh
        have h0 : dig r.toNat '0' = some 0 := dig_chr (d := 0) (by omega) hr.2
        have hv := value_lt (b := r.toNat) (by omega) cs
        simp only [value, h0, Option.getD_some, Nat.zero_mul, Nat.zero_add] at h2
        have := h4 (by omega)
        simp only [List.length_cons, Nat.add_sub_cancel] at this
        omega

/-! ### Cases -/

example : Even2 2 ∧ Even2 8 ∧ Even2 16 := by unfold Even2; omega

example : ofDec 2 (-3) none = some "1111111101".toList ∧ toDec 2 "1111111101".toList = some (-3) ∧ ofDec 16 255 (some 4) = some "00FF".toList ∧ toDec 16 "fFFFFFFFFF".toList = some (-1) ∧
    cross 16 2 true "1F".toList none = some "11111".toList ∧ cross 16 2 true "FFF".toList none = none ∧ ofDec 2 512 none = none := by decide +kernel

example : base 255 16 4 = some "00FF".toList ∧ decimal " zz ".toList 36 = some 1295 := by decide +kernel

/-- A sign is read, which is no digit; `DECIMAL("-5",10)` is a number. -/
example : decimal "-5".toList 10 = some (-5) := by decide +kernel

end Verif.Base
