import Verif.Days.Week

/-!
# Coupon dates
-/

namespace Verif.Days

open Verif.Dates

/-- The coupon date `k` periods of `m` months before the maturity: the same day of the
month, or the last one where the month is shorter. -/
structure Coupon (maturity : Date) (m k : Nat) (c : Date) : Prop where
  valid : c.Valid
  month : c.monthIndex = maturity.monthIndex - k * m
  day : c.day = min maturity.day (daysInMonth c.year c.month)

theorem fit_eq {y : Int} {m : Nat} (h1 : 1 ≤ m) (h2 : m ≤ 12) (hy : chronoMinYear ≤ y ∧ y ≤ chronoMaxYear) :
    ∀ d : Nat, 1 ≤ d → fit y m d = ⟨y, m, min d (daysInMonth y m)⟩ := by
  intro d
  induction d with
  | zero => intro h; omega
  | succ d ih =>
    intro _
    have hp := month_length y h1 h2
    unfold fit
    by_cases hd : d + 1 ≤ daysInMonth y m
    · have : fromYmd y m (d + 1) = some ⟨y, m, d + 1⟩ := by
        unfold fromYmd
        rw [if_pos]
        exact ⟨⟨h1, h2, by simp only; omega, hd⟩, hy⟩
      rw [this]
      simp only [Date.mk.injEq, true_and]
      omega
    · have : fromYmd y m (d + 1) = none := by
        unfold fromYmd
        rw [if_neg]
        rintro ⟨⟨-, -, -, h⟩, -⟩
        exact hd h
      rw [this]
      simp only
      rw [ih (by omega)]
      simp only [Date.mk.injEq, true_and]
      omega

/-- `add_months` moves by whole months and keeps the day of the month as far as the month
has it. -/
theorem addMonths_spec {d : Date} (h : d.Valid) {k : Int} (h0 : 0 ≤ d.monthIndex + k)
    (h1 : d.monthIndex + k ≤ 12 * 200000) :
    (addMonths d k).Valid ∧ (addMonths d k).monthIndex = d.monthIndex + k ∧
      (addMonths d k).day = min d.day (daysInMonth (addMonths d k).year (addMonths d k).month) := by
  have e : d.year * 12 + (d.month : Int) - 1 + k = d.monthIndex + k := by unfold Date.monthIndex; omega
  unfold addMonths
  simp only [e]
  rw [Int.tdiv_eq_ediv_of_nonneg h0, Int.tmod_eq_emod_of_nonneg h0]
  generalize hY : (d.monthIndex + k) / 12 = Y at *
  generalize hM : ((d.monthIndex + k) % 12 + 1).toNat = M at *
  have m1 : 1 ≤ M := by omega
  have m2 : M ≤ 12 := by omega
  have hc : chronoMinYear ≤ Y ∧ Y ≤ chronoMaxYear := by unfold chronoMinYear chronoMaxYear; omega
  rw [fit_eq m1 m2 hc d.day h.2.2.1]
  have hp := month_length Y m1 m2
  refine ⟨⟨m1, m2, ?_, ?_⟩, ?_, rfl⟩
  · have := h.2.2.1
    simp only; omega
  · simp only; omega
  · unfold Date.monthIndex at *
    simp only
    omega

theorem monthIndex_lt {a b : Date} (ha : a.Valid) (hb : b.Valid) (h : a.monthIndex < b.monthIndex) : a.lt b := by
  unfold Date.monthIndex at h
  have a1 := ha.1
  have a2 := ha.2.1
  have b1 := hb.1
  have b2 := hb.2.1
  unfold Date.lt
  omega

theorem monthIndex_eq {a b : Date} (ha : a.Valid) (hb : b.Valid) (h : a.monthIndex = b.monthIndex) :
    a.year = b.year ∧ a.month = b.month := by
  unfold Date.monthIndex at h
  have a1 := ha.1
  have a2 := ha.2.1
  have b1 := hb.1
  have b2 := hb.2.1
  omega

theorem not_le_iff {a b : Date} : ¬a.le b ↔ b.lt a := by
  rcases Date.lt_trichotomy a b with h | h | h
  · constructor
    · intro h'; exact absurd (Or.inl h) h'
    · intro h' ; unfold Date.lt at h h'; omega
  · subst h
    constructor
    · intro h'; exact absurd (Or.inr rfl) h'
    · intro h'; unfold Date.lt at h'; omega
  · constructor
    · intro _; exact h
    · rintro _ (h' | h')
      · unfold Date.lt at h h'; omega
      · subst h'; unfold Date.lt at h; omega

theorem coupon_unique {M : Date} {m k : Nat} {a b : Date} (ha : Coupon M m k a) (hb : Coupon M m k b) : a = b := by
  obtain ⟨hy, hm⟩ := monthIndex_eq ha.valid hb.valid (by rw [ha.month, hb.month])
  have e := ha.day
  rw [hy, hm, ← hb.day] at e
  cases a; cases b
  simp only at hy hm e
  rw [hy, hm, e]

/-- **C110** (1): the search for the coupon before the settlement ends within as many steps
as there are months between the dates, for every maturity: its result lies before the
settlement. -/
theorem before_ends {S : Date} (hS : S.Valid) {m : Nat} (hm : 1 ≤ m) (h12 : m ≤ 12) (hS0 : 12 ≤ S.monthIndex) :
    ∀ (fuel : Nat) (c : Date), c.Valid → S.monthIndex - 12 ≤ c.monthIndex → c.monthIndex ≤ 12 * 200000 →
      c.monthIndex - S.monthIndex + 1 < fuel → (before S m fuel c).lt S ∧ (before S m fuel c).Valid := by
  intro fuel
  induction fuel with
  | zero =>
    intro c hc h1 h2 h3
    show c.lt S ∧ c.Valid
    exact ⟨monthIndex_lt hc hS (by omega), hc⟩
  | succ n ih =>
    intro c hc h1 h2 h3
    unfold before
    split
    · rename_i hle
      have hge : S.monthIndex ≤ c.monthIndex := by
        by_contra hlt
        exact not_le_iff.2 (monthIndex_lt hc hS (by omega)) hle
      obtain ⟨a1, a2, -⟩ := addMonths_spec hc (k := -m) (by omega) (by omega)
      exact ih _ a1 (by omega) (by omega) (by omega)
    · rename_i hle
      exact ⟨not_le_iff.1 hle, hc⟩

theorem coupon_step {M : Date} (h28 : M.day ≤ 28) {m k : Nat} {c : Date} (hc : Coupon M m k c)
    (h0 : m ≤ c.monthIndex) (h1 : c.monthIndex ≤ 12 * 200000) : Coupon M m (k + 1) (addMonths c (-m)) := by
  obtain ⟨a1, a2, a3⟩ := addMonths_spec hc.valid (k := -m) (by omega) (by omega)
  have l1 := (month_length c.year hc.valid.1 hc.valid.2.1).1
  have l2 := (month_length (addMonths c (-m)).year a1.1 a1.2.1).1
  refine ⟨a1, ?_, ?_⟩
  · rw [a2, hc.month]; push_cast; ring
  · rw [a3, hc.day]; omega

theorem coupon_back {M : Date} (h28 : M.day ≤ 28) {m k : Nat} {c : Date} (hc : Coupon M m (k + 1) c)
    (h0 : 0 ≤ c.monthIndex) (h1 : c.monthIndex + m ≤ 12 * 200000) : Coupon M m k (addMonths c m) := by
  obtain ⟨a1, a2, a3⟩ := addMonths_spec hc.valid (k := m) (by omega) (by omega)
  have l1 := (month_length c.year hc.valid.1 hc.valid.2.1).1
  have l2 := (month_length (addMonths c m).year a1.1 a1.2.1).1
  refine ⟨a1, ?_, ?_⟩
  · rw [a2, hc.month]; push_cast; ring
  · rw [a3, hc.day]; omega

theorem before_coupon {S M : Date} (hS : S.Valid) (h28 : M.day ≤ 28) {m : Nat} (hm : 1 ≤ m) (h12 : m ≤ 12)
    (hS0 : 12 ≤ S.monthIndex) :
    ∀ (fuel k : Nat) (c : Date), Coupon M m k c → S.monthIndex - 12 ≤ c.monthIndex → c.monthIndex ≤ 12 * 200000 →
      c.monthIndex - S.monthIndex + 1 < fuel → (∀ j b, j < k → Coupon M m j b → S.le b) →
      ∃ n, 0 ≤ (before S m fuel c).monthIndex ∧ S.monthIndex - 12 ≤ (before S m fuel c).monthIndex ∧
        Coupon M m n (before S m fuel c) ∧ (before S m fuel c).lt S ∧ (∀ j b, j < n → Coupon M m j b → S.le b) := by
  intro fuel
  induction fuel with
  | zero =>
    intro k c hc h1 h2 h3 hk
    show ∃ n, 0 ≤ c.monthIndex ∧ S.monthIndex - 12 ≤ c.monthIndex ∧ Coupon M m n c ∧ c.lt S ∧
      (∀ j b, j < n → Coupon M m j b → S.le b)
    exact ⟨k, by omega, h1, hc, monthIndex_lt hc.valid hS (by omega), hk⟩
  | succ n ih =>
    intro k c hc h1 h2 h3 hk
    unfold before
    split
    · rename_i hle
      have hge : S.monthIndex ≤ c.monthIndex := by
        by_contra hlt
        exact not_le_iff.2 (monthIndex_lt hc.valid hS (by omega)) hle
      have hs := coupon_step h28 hc (by omega) h2
      obtain ⟨-, a2, -⟩ := addMonths_spec hc.valid (k := -m) (by omega) (by omega)
      exact ih (k + 1) _ hs (by omega) (by omega) (by omega) (by
        intro j b hj hb
        by_cases hjk : j < k
        · exact hk j b hjk hb
        · have : j = k := by omega
          subst this
          rw [coupon_unique hb hc]; exact hle)
    · rename_i hle
      exact ⟨k, by omega, h1, hc, not_le_iff.1 hle, hk⟩

theorem remaining_coupon {M : Date} (hM : M.Valid) (h28 : M.day ≤ 28) {m : Nat} (hm : 1 ≤ m) (h12 : m ≤ 12)
    (hM1 : M.monthIndex + 12 ≤ 12 * 200000) :
    ∀ (fuel k : Nat) (c : Date), Coupon M m k c → 0 ≤ c.monthIndex → k + 1 < fuel →
      remainingLoop M m fuel c = k + 1 := by
  intro fuel
  induction fuel with
  | zero => intro k c _ _ h; omega
  | succ n ih =>
    intro k c hc h0 hf
    have l1 := (month_length c.year hc.valid.1 hc.valid.2.1).1
    have lM := (month_length M.year hM.1 hM.2.1).1
    have hk0 : (0 : Int) ≤ k * m := Int.mul_nonneg (by omega) (by omega)
    have hcm := hc.month
    have hle : c.le M := by
      by_cases hlt : c.monthIndex < M.monthIndex
      · exact Or.inl (monthIndex_lt hc.valid hM hlt)
      · obtain ⟨e1, e2⟩ := monthIndex_eq hc.valid hM (by omega)
        right
        have e3 := hc.day
        cases c; cases M
        simp only at e1 e2 e3 h28 l1 ⊢
        rw [e1, e2, e3]
        congr 1
        omega
    unfold remainingLoop
    rw [if_pos hle]
    cases k with
    | zero =>
      obtain ⟨a1, a2, -⟩ := addMonths_spec hc.valid (k := m) (by omega) (by omega)
      have hgt : ¬(addMonths c m).le M := by
        rw [not_le_iff]
        exact monthIndex_lt hM a1 (by rw [a2, hcm]; push_cast; omega)
      cases n with
      | zero => rfl
      | succ n => unfold remainingLoop; rw [if_neg hgt]
    | succ k =>
      obtain ⟨-, a2, -⟩ := addMonths_spec hc.valid (k := m) (by omega) (by omega)
      rw [ih k _ (coupon_back h28 hc h0 (by omega)) (by omega) (by omega)]

/-- **C110** (2): for a bond that matures on a day up to the 28th, the coupons remaining are
those due on the settlement or later, the previous coupon is the last one before it, and
the next one the first of the remaining. -/
theorem coupons_partial {S M : Date} (hS : S.Valid) (hM : M.Valid) (h28 : M.day ≤ 28) (hSM : S.lt M) {m : Nat}
    (hm : 1 ≤ m) (h12 : m ≤ 12) (hS0 : 12 ≤ S.monthIndex) (hM1 : M.monthIndex + 12 ≤ 12 * 200000) {fuel : Nat}
    (hf : M.monthIndex - S.monthIndex + 13 < fuel) :
    ∃ n, remaining S m fuel M = n + 1 ∧ Coupon M m (n + 1) (before S m fuel M) ∧ Coupon M m n (after S m fuel M) ∧
      (before S m fuel M).lt S ∧ S.le (after S m fuel M) ∧
      (∀ j b, Coupon M m j b → (S.le b ↔ j < n + 1)) := by
  have lM := (month_length M.year hM.1 hM.2.1).1
  have c0 : Coupon M m 0 M := ⟨hM, by simp, by have := hM.2.2.2; omega⟩
  have hSMi : S.monthIndex ≤ M.monthIndex := by
    by_contra hlt
    have := monthIndex_lt hM hS (by omega)
    unfold Date.lt at hSM this
    omega
  obtain ⟨N, b0, b1, q2, q3, q4⟩ := before_coupon hS h28 hm h12 hS0 fuel 0 M c0 (by omega) (by omega) (by omega)
    (fun j b hj => absurd hj (by omega))
  cases N with
  | zero =>
    exfalso
    rw [coupon_unique q2 c0] at q3
    unfold Date.lt at hSM q3
    omega
  | succ n =>
    have hbm := q2.month
    have hbl : (before S m fuel M).monthIndex ≤ S.monthIndex := by
      by_contra hlt
      have := monthIndex_lt hS q2.valid (by omega)
      unfold Date.lt at q3 this
      omega
    have hca := coupon_back h28 q2 b0 (by omega)
    have hn : ((n + 1 : Nat) : Int) ≤ (n + 1 : Nat) * m := by
      have : n + 1 ≤ (n + 1) * m := Nat.le_mul_of_pos_right _ (by omega)
      exact_mod_cast this
    obtain ⟨-, a2, -⟩ := addMonths_spec q2.valid (k := m) (by omega) (by omega)
    refine ⟨n, ?_, q2, hca, q3, q4 n _ (by omega) hca, ?_⟩
    · exact remaining_coupon hM h28 hm h12 hM1 fuel n _ hca (by unfold after; omega) (by omega)
    · intro j b hb
      constructor
      · intro hle
        by_contra hj
        have hlt : b.lt S := by
          by_cases e : j = n + 1
          · subst e
            rw [coupon_unique hb q2]; exact q3
          · have hmul : (((n + 1 : Nat) + 1 : Nat) : Int) * m ≤ j * m := by
              have : (n + 1 + 1) * m ≤ j * m := Nat.mul_le_mul_right _ (by omega)
              exact_mod_cast this
            have hbm' := hb.month
            have : b.lt (before S m fuel M) := monthIndex_lt hb.valid q2.valid (by
              rw [hbm, hbm']
              push_cast at hmul ⊢
              have : ((n : Int) + 1 + 1) * m = ((n : Int) + 1) * m + m := by ring
              omega)
            unfold Date.lt at this q3 ⊢
            omega
        exact not_le_iff.2 hlt hle
      · intro hj; exact q4 j b hj hb

/-- A bond maturing on 2025-08-15, settled on 2024-09-01. -/
example : remaining ⟨2024, 9, 1⟩ 6 40 ⟨2025, 8, 15⟩ = 2 ∧ before ⟨2024, 9, 1⟩ 6 40 ⟨2025, 8, 15⟩ = ⟨2024, 8, 15⟩ ∧
    after ⟨2024, 9, 1⟩ 6 40 ⟨2025, 8, 15⟩ = ⟨2025, 2, 15⟩ := by decide

/-- **C110** (3): for a bond that matures on the 31st of August the dates drift to the 28th:
the coupon of 2024-08-31 is missed on 2024-08-30, and the next coupon of a bond
maturing on the day after tomorrow lies in the past. -/
theorem coupons_fail :
    (Coupon ⟨2025, 8, 31⟩ 6 2 ⟨2024, 8, 31⟩ ∧ (Date.mk 2024 8 30).le ⟨2024, 8, 31⟩ ∧
      remaining ⟨2024, 8, 30⟩ 6 40 ⟨2025, 8, 31⟩ = 2 ∧ before ⟨2024, 8, 30⟩ 6 40 ⟨2025, 8, 31⟩ = ⟨2024, 8, 28⟩) ∧
      (after ⟨2025, 8, 29⟩ 6 40 ⟨2025, 8, 31⟩ = ⟨2025, 8, 28⟩ ∧ (Date.mk 2025 8 28).lt ⟨2025, 8, 29⟩) := by
  refine ⟨⟨⟨by decide, by decide, by decide⟩, by decide, by decide, by decide⟩, by decide, by decide⟩

/-- **C110** (4): with `calc_method` 0, `ACCRINT` counts from the last coupon date before the
settlement as long as the first interest is not paid before the settlement; the dates
go back from it. -/
theorem accrual_partial {S F I : Date} (hS : S.Valid) (hF : F.Valid) (h28 : F.day ≤ 28) (hSF : S.lt F) {m : Nat}
    (hm : 1 ≤ m) (h12 : m ≤ 12) (hS0 : 12 ≤ S.monthIndex) (hF1 : F.monthIndex + 12 ≤ 12 * 200000) {fuel : Nat}
    (hf : F.monthIndex - S.monthIndex + 13 < fuel) :
    ∃ n c, Coupon F m n c ∧ c.lt S ∧ (∀ j b, j < n → Coupon F m j b → S.le b) ∧
      accrualStart I F S m fuel false = if c.lt I then I else c := by
  obtain ⟨n, -, h2, -, h4, -, h6⟩ := coupons_partial hS hF h28 hSF hm h12 hS0 hF1 hf
  refine ⟨n + 1, _, h2, h4, fun j b hj hb => (h6 j b hb).2 hj, ?_⟩
  unfold accrualStart
  rfl

/-- After that it goes on counting from the first interest, however many coupons have been
paid since: more than two years here, where a quarter would be due. -/
theorem accrual_fails :
    accrualStart ⟨2024, 1, 1⟩ ⟨2024, 7, 1⟩ ⟨2026, 10, 1⟩ 6 40 false = ⟨2024, 7, 1⟩ ∧
      yearFraction ⟨2024, 7, 1⟩ ⟨2026, 10, 1⟩ 0 = 9 / 4 ∧ yearFraction ⟨2026, 7, 1⟩ ⟨2026, 10, 1⟩ 0 = 1 / 4 := by
  decide +kernel

/-- **C109**: told to, `ACCRINT` counts from the issue; and it never counts from before the issue. -/
theorem accrual_issue (issue first settlement : Date) (m fuel : Nat) :
    accrualStart issue first settlement m fuel true = issue ∧
      ∀ b, ¬ (accrualStart issue first settlement m fuel b).lt issue ∨
        accrualStart issue first settlement m fuel b = issue := by
  refine ⟨rfl, ?_⟩
  intro b
  cases b with
  | true => exact Or.inr rfl
  | false =>
    unfold accrualStart
    simp only [Bool.false_eq_true, if_false]
    split
    · exact Or.inr rfl
    · rename_i h; exact Or.inl h

end Verif.Days
