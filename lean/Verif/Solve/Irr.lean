import Verif.Solve.Brent
import Verif.Fin.Rates
import Mathlib.Analysis.Calculus.Deriv.Inv
import Mathlib.Analysis.Calculus.Deriv.Pow
import Mathlib.Analysis.SpecialFunctions.Pow.Deriv

/-!
# IRR
-/

namespace Verif.Solve

open Verif.Fin

/-! ## The value and its derivative -/

theorem irrNpv_nil (r : ℝ) : irrNpv [] r = 0 := rfl

/-- C88.  What IRR looks for a root of: the first flow, and NPV of the others. -/
theorem irrNpv_cons (c : ℝ) (cs : List ℝ) (r : ℝ) (hr : 1 + r ≠ 0) : irrNpv (c :: cs) r = c + NPV r cs := by
  simp [irrNpv, npvFrom, NPV]
  have := npvFrom_spec r hr cs 1 c
  rw [this, pow_one, mul_div_assoc, div_self hr, mul_one, NPV]

theorem irrNpv_step (c : ℝ) (cs : List ℝ) (r : ℝ) (hr : 1 + r ≠ 0) : irrNpv (c :: cs) r = c + irrNpv cs r / (1 + r) := by
  rw [irrNpv_cons c cs r hr]
  cases cs with
  | nil => simp [irrNpv, NPV, npvFrom]
  | cons d ds => rw [npv_cons r d ds hr, irrNpv_cons d ds r hr]

theorem npvFrom_acc (r : ℝ) : ∀ (cs : List ℝ) i acc, npvFrom r i cs acc = acc + npvFrom r i cs 0
  | [], _, acc => by simp [npvFrom]
  | c :: cs, i, acc => by
    simp only [npvFrom]
    rw [npvFrom_acc r cs (i + 1) (acc + _), npvFrom_acc r cs (i + 1) (0 + _)]
    ring

theorem derivFrom_acc (r : ℝ) : ∀ (cs : List ℝ) i acc, derivFrom r i cs acc = acc + derivFrom r i cs 0
  | [], _, acc => by simp [derivFrom]
  | c :: cs, i, acc => by
    simp only [derivFrom]
    by_cases h : i > 0
    · rw [if_pos h, if_pos h, derivFrom_acc r cs (i + 1) (acc - _), derivFrom_acc r cs (i + 1) (0 - _)]
      ring
    · rw [if_neg h, if_neg h, derivFrom_acc r cs (i + 1) acc]

theorem hasDeriv_from (r : ℝ) (hr : 1 + r ≠ 0) : ∀ (cs : List ℝ) i, HasDerivAt (fun x => npvFrom x i cs 0) (derivFrom r i cs 0) r
  | [], _ => by
    simp only [npvFrom, derivFrom]
    exact hasDerivAt_const r 0
  | c :: cs, i => by
    have ih := hasDeriv_from r hr cs (i + 1)
    have hp : (1 + r) ^ i ≠ 0 := pow_ne_zero _ hr
    have h1 : HasDerivAt (fun x : ℝ => (1 + x) ^ i) ((i : ℝ) * (1 + r) ^ (i - 1) * 1) r := by
      have := ((hasDerivAt_id r).const_add 1).fun_pow i
      simpa using this
    have h2 : HasDerivAt (fun x : ℝ => c / (1 + x) ^ i) (-(c * ((i : ℝ) * (1 + r) ^ (i - 1) * 1)) / ((1 + r) ^ i) ^ 2) r := by
      have := (hasDerivAt_const r c).fun_div h1 hp
      simpa using this
    have h3 := h2.add ih
    have e1 : (fun x => npvFrom x i (c :: cs) 0) = fun x => c / (1 + x) ^ i + npvFrom x (i + 1) cs 0 := by
      funext x
      rw [npvFrom, npvFrom_acc, zero_add]
    have e2 : derivFrom r i (c :: cs) 0 = -(c * ((i : ℝ) * (1 + r) ^ (i - 1) * 1)) / ((1 + r) ^ i) ^ 2 + derivFrom r (i + 1) cs 0 := by
      rw [derivFrom, derivFrom_acc]
      congr 1
      cases i with
      | zero => simp
      | succ i =>
        rw [if_pos (by omega), Nat.add_sub_cancel, pow_succ]
        have : (1 + r) ^ i ≠ 0 := pow_ne_zero _ hr
        field_simp
        ring
    rw [e1, e2]
    exact h3

/-- C88.  The derivative of the solver is the derivative. -/
theorem irrDeriv_spec (flows : List ℝ) (r : ℝ) (hr : -1 < r) : HasDerivAt (irrNpv flows) (irrDeriv flows r) r := hasDeriv_from r (by linarith) flows 0

theorem irrNpv_continuousOn (flows : List ℝ) (lo hi : ℝ) (h : -1 < lo) : ContinuousOn (irrNpv flows) (Set.Icc lo hi) :=
  fun x hx => (irrDeriv_spec flows x (lt_of_lt_of_le h hx.1)).continuousAt.continuousWithinAt

/-! ## Newton's method -/

theorem newton_found (flows : List ℝ) : ∀ (n : ℕ) (rate r : ℝ), -1 < rate → irrNewton flows n rate = some r →
    -1 < r ∧ ∃ r0, -1 < r0 ∧ |r - r0| < tol ∧ irrDeriv flows r0 ≠ 0 ∧ irrNpv flows r0 = (r0 - r) * irrDeriv flows r0
  | 0, _, _, _, h => by cases h
  | n + 1, rate, r, hr, h => by
    rw [irrNewton] at h
    split at h
    · cases h
    · rename_i hd
      have hd0 : irrDeriv flows rate ≠ 0 := by
        intro h0
        rw [h0, abs_zero] at hd
        exact hd tol_pos
      simp only at h
      split at h
      · rename_i hc
        cases h
        refine ⟨hc.2, rate, hr, hc.1, hd0, ?_⟩
        rw [sub_sub_cancel, div_mul_cancel₀ _ hd0]
      · split at h
        · cases h
        · rename_i hn
          exact newton_found flows n _ r (not_le.mp hn) h

/-! ## The search for a change of sign -/

theorem scan_found (f : ℝ → ℝ) : ∀ (ps : List ℝ) (st : Option (ℝ × ℝ)) (lo hi : ℝ), (∀ p, st = some p → p.2 = f p.1 ∧ ∀ q ∈ ps, p.1 ≤ q) → ps.Pairwise (· ≤ ·) → scan f ps st = some (lo, hi) →
    f lo * f hi < 0 ∧ lo ≤ hi ∧ (lo ∈ ps ∨ ∃ p, st = some p ∧ p.1 = lo) ∧ hi ∈ ps
  | [], _, _, _, _, _, h => by cases h
  | r :: rs, none, lo, hi, _, hp, h => by
    rw [scan] at h
    rw [List.pairwise_cons] at hp
    have := scan_found f rs _ lo hi (fun p e => by cases e; exact ⟨rfl, hp.1⟩) hp.2 h
    refine ⟨this.1, this.2.1, .inl ?_, List.mem_cons_of_mem _ this.2.2.2⟩
    rcases this.2.2.1 with h1 | ⟨p, e, h1⟩
    · exact List.mem_cons_of_mem _ h1
    · cases e; subst h1; exact List.mem_cons_self
  | r :: rs, some (a, fa), lo, hi, hst, hp, h => by
    rw [scan] at h
    rw [List.pairwise_cons] at hp
    have h0 := hst _ rfl
    simp only at h0
    split at h
    · rename_i hs
      cases h
      rw [h0.1] at hs
      exact ⟨hs, h0.2 _ List.mem_cons_self, .inr ⟨_, rfl, rfl⟩, List.mem_cons_self⟩
    · have := scan_found f rs _ lo hi (fun p e => by cases e; exact ⟨rfl, hp.1⟩) hp.2 h
      refine ⟨this.1, this.2.1, .inl ?_, List.mem_cons_of_mem _ this.2.2.2⟩
      rcases this.2.2.1 with h1 | ⟨p, e, h1⟩
      · exact List.mem_cons_of_mem _ h1
      · cases e; subst h1; exact List.mem_cons_self

theorem scan_none (f : ℝ → ℝ) (hne : ∀ p ∈ probes, f p ≠ 0) : ∀ (ps : List ℝ) (a : ℝ), (∀ p ∈ ps, f p ≠ 0) → f a ≠ 0 → scan f ps (some (a, f a)) = none → ∀ p ∈ ps, 0 < f a * f p
  | [], _, _, _, _, p, hp => by cases hp
  | r :: rs, a, h1, h2, h, p, hp => by
    rw [scan] at h
    split at h
    · cases h
    · rename_i hs
      have hr := h1 r List.mem_cons_self
      have hpos : 0 < f a * f r := lt_of_le_of_ne (not_lt.mp hs) (mul_ne_zero h2 hr).symm
      rcases List.mem_cons.mp hp with rfl | hp
      · exact hpos
      · have := scan_none f hne rs r (fun q hq => h1 q (List.mem_cons_of_mem _ hq)) hr h p hp
        rcases mul_pos_iff.mp hpos with ⟨a1, a2⟩ | ⟨a1, a2⟩
        · exact mul_pos a1 (by by_contra hn; nlinarith [mul_nonneg a2.le (neg_nonneg.mpr (not_lt.mp hn))])
        · exact mul_pos_of_neg_of_neg a1 (by by_contra hn; nlinarith [mul_nonneg (neg_nonneg.mpr a2.le) (not_lt.mp hn)])

theorem probes_sorted : probes.Pairwise (· ≤ ·) := by
  unfold probes
  norm_num [List.pairwise_cons]

theorem probes_mem {p : ℝ} (h : p ∈ probes) : -99 / 100 ≤ p ∧ p ≤ 10 := by
  unfold probes at h
  simp only [List.mem_cons, List.not_mem_nil, or_false] at h
  rcases h with rfl | rfl | rfl | rfl | rfl | rfl | rfl | rfl | rfl | rfl | rfl | rfl | rfl | rfl | rfl | rfl | rfl | rfl | rfl | rfl <;> norm_num

/-! ## The rate found -/

/-- C88.  A rate that IRR gives is one Newton step of less than 1e-12 from a rate where the value is that small a step off, or there is a root closer than 1e-12 and rounding, or 200 rounds between two rates
where the value changes its sign were not enough. -/
theorem irr_partial (flows : List ℝ) (guess r : ℝ) (hg : -1 < guess) (h : IRR flows guess = some r) :
    -1 < r ∧ ((∃ r0 d, -1 < r0 ∧ HasDerivAt (irrNpv flows) d r0 ∧ d ≠ 0 ∧ irrNpv flows r0 = (r0 - r) * d ∧ |r - r0| < 1 / 10 ^ 12) ∨
      (∃ z, -1 < z ∧ irrNpv flows z = 0 ∧ |z - r| < 1 / 10 ^ 12 + |r| / 2 ^ 51) ∨
      ∃ lo hi, lo ≤ r ∧ r ≤ hi ∧ -99 / 100 ≤ lo ∧ hi ≤ 10 ∧ bracketed (irrNpv flows) lo hi = .gaveUp r ∧ ∃ z, lo ≤ z ∧ z ≤ hi ∧ irrNpv flows z = 0) := by
  unfold IRR at h
  split at h
  · cases h
  · unfold irrSolve at h
    cases hn : irrNewton flows 100 guess with
    | some r' =>
      rw [hn, Option.some_or] at h
      cases h
      obtain ⟨h1, r0, h2, h3, h4, h5⟩ := newton_found flows 100 guess r hg hn
      exact ⟨h1, .inl ⟨r0, _, h2, irrDeriv_spec flows r0 h2, h4, h5, h3⟩⟩
    | none =>
      rw [hn, Option.none_or] at h
      cases hs : scan (irrNpv flows) probes none with
      | none => rw [hs] at h; cases h
      | some p =>
        obtain ⟨lo, hi⟩ := p
        rw [hs, Option.map_some] at h
        injection h with h
        simp only at h
        obtain ⟨s1, s2, s3, s4⟩ := scan_found _ probes none lo hi (fun p e => by cases e) probes_sorted hs
        have hlo : lo ∈ probes := s3.resolve_right (by rintro ⟨p, e, -⟩; cases e)
        have hl := (probes_mem hlo).1
        have hh := (probes_mem s4).2
        have hcont := irrNpv_continuousOn flows lo hi (by linarith)
        obtain ⟨b1, b2⟩ := bracketed_found hcont s2 s1.le
        rw [h] at b1
        refine ⟨by linarith [b1.1], .inr ?_⟩
        cases hb : bracketed (irrNpv flows) lo hi with
        | found x =>
          rw [hb] at h
          cases h
          obtain ⟨z, hz, h0, hlt⟩ := b2 _ hb
          refine .inl ⟨z, by linarith [hz.1], h0, lt_of_lt_of_le hlt ?_⟩
          have e : ∀ x : ℝ, 0 ≤ |x| → 2 * max (eps * |x| + 1 / 2 * tol) eps ≤ 1 / 10 ^ 12 + |x| / 2 ^ 51 := by
            intro x hx
            rw [max_eq_left]
            · unfold eps tol
              linarith
            · have := mul_nonneg eps_pos.le hx
              have h2 : eps ≤ 1 / 2 * tol := by unfold eps tol; norm_num
              linarith
          exact e _ (abs_nonneg _)
        | gaveUp x =>
          rw [hb] at h
          cases h
          obtain ⟨z, hz, h0⟩ := root_between (hcont.mono (Set.uIcc_of_le s2).subset) s1
          rw [Set.uIcc_of_le s2] at hz
          exact .inr ⟨lo, hi, b1.1, b1.2, hl, hh, hb, z, hz.1, hz.2, h0⟩

/-- C88.  IRR gives a rate when the value has different signs at -99% and 1000%, unless the value is 0 at one of the rates it looks at. -/
theorem irr_needs_two (flows : List ℝ) (guess r : ℝ) (h : IRR flows guess = some r) : 2 ≤ flows.length := by
  unfold IRR at h
  split at h
  · cases h
  · omega

theorem irr_gives (flows : List ℝ) (guess : ℝ) (hl : 2 ≤ flows.length) (hne : ∀ p ∈ probes, irrNpv flows p ≠ 0) (hs : irrNpv flows (-99 / 100) * irrNpv flows 10 < 0) : ∃ r, IRR flows guess = some r := by
  unfold IRR irrSolve
  rw [if_neg (by omega)]
  cases irrNewton flows 100 guess with
  | some r => exact ⟨r, rfl⟩
  | none =>
    rw [Option.none_or]
    cases hsc : scan (irrNpv flows) probes none with
    | some p => exact ⟨_, rfl⟩
    | none =>
      exfalso
      have hp : probes = -99 / 100 :: probes.tail := rfl
      rw [hp, scan] at hsc
      have := scan_none _ hne probes.tail (-99 / 100) (fun p h => hne p (List.mem_of_mem_tail h)) (hne _ (by rw [hp]; exact List.mem_cons_self)) hsc 10 (by unfold probes; simp)
      linarith

/-! ## One root -/

theorem npv_nonneg : ∀ (b : List ℝ) (r : ℝ), -1 < r → (∀ c ∈ b, 0 ≤ c) → 0 ≤ irrNpv b r
  | [], r, _, _ => by rw [irrNpv_nil]
  | c :: cs, r, hr, h => by
    rw [irrNpv_step c cs r (by linarith)]
    have := npv_nonneg cs r hr (fun d hd => h d (List.mem_cons_of_mem _ hd))
    have := div_nonneg this (by linarith : (0 : ℝ) ≤ 1 + r)
    linarith [h c List.mem_cons_self]

theorem div_le_div_grow {x y r s : ℝ} (hr : -1 < r) (hrs : r < s) (hy : 0 ≤ y) (hxy : y ≤ x) : y / (1 + s) ≤ x / (1 + r) := by
  rw [div_le_div_iff₀ (by linarith) (by linarith)]
  nlinarith

theorem npv_anti : ∀ (b : List ℝ) (r s : ℝ), -1 < r → r < s → (∀ c ∈ b, 0 ≤ c) → irrNpv b s ≤ irrNpv b r
  | [], r, s, _, _, _ => by rw [irrNpv_nil, irrNpv_nil]
  | c :: cs, r, s, hr, hrs, h => by
    rw [irrNpv_step c cs r (by linarith), irrNpv_step c cs s (by linarith)]
    have hcs := fun d hd => h d (List.mem_cons_of_mem c hd)
    have := div_le_div_grow hr hrs (npv_nonneg cs s (by linarith) hcs) (npv_anti cs r s hr hrs hcs)
    linarith

theorem npv_conv (b : List ℝ) (hb : ∀ c ∈ b, 0 ≤ c) (r s : ℝ) (hr : -1 < r) (hrs : r < s) : ∀ a : List ℝ, (∀ c ∈ a, c ≤ 0) → irrNpv (a ++ b) s ≤ max (irrNpv (a ++ b) r) 0
  | [], _ => le_max_of_le_left (npv_anti b r s hr hrs hb)
  | c :: a, ha => by
    rw [List.cons_append, irrNpv_step c _ r (by linarith), irrNpv_step c _ s (by linarith)]
    have ih := npv_conv b hb r s hr hrs a (fun d hd => ha d (List.mem_cons_of_mem _ hd))
    have hc := ha c List.mem_cons_self
    by_cases hn : irrNpv (a ++ b) s ≤ 0
    · apply le_max_of_le_right
      have := div_nonpos_of_nonpos_of_nonneg hn (by linarith : (0 : ℝ) ≤ 1 + s)
      linarith
    · have hn := not_le.mp hn
      apply le_max_of_le_left
      have hle : irrNpv (a ++ b) s ≤ irrNpv (a ++ b) r := by
        rcases le_max_iff.mp ih with h | h
        · exact h
        · linarith
      have := div_le_div_grow hr hrs hn.le hle
      linarith

theorem npv_strict (b : List ℝ) (hb : ∀ c ∈ b, 0 ≤ c) (r s : ℝ) (hr : -1 < r) (hrs : r < s) : ∀ a : List ℝ, (∀ c ∈ a, c ≤ 0) → (∃ c ∈ a, c < 0) → irrNpv (a ++ b) r = 0 → irrNpv (a ++ b) s < 0
  | [], _, h, _ => by obtain ⟨c, h, -⟩ := h; cases h
  | c :: a, ha, hneg, h0 => by
    rw [List.cons_append, irrNpv_step c _ r (by linarith)] at h0
    rw [List.cons_append, irrNpv_step c _ s (by linarith)]
    have ha' := fun d hd => ha d (List.mem_cons_of_mem c hd)
    have hc := ha c List.mem_cons_self
    have hm := npv_conv b hb r s hr hrs a ha'
    by_cases hn : irrNpv (a ++ b) s ≤ 0
    · have hdiv := div_nonpos_of_nonpos_of_nonneg hn (by linarith : (0 : ℝ) ≤ 1 + s)
      rcases lt_or_eq_of_le hc with hc | hc
      · linarith
      · subst hc
        rw [zero_add] at h0
        have h0' : irrNpv (a ++ b) r = 0 := by
          rcases div_eq_zero_iff.mp h0 with h | h
          · exact h
          · linarith
        have hneg' : ∃ d ∈ a, d < 0 := by
          obtain ⟨d, hd, hd0⟩ := hneg
          rcases List.mem_cons.mp hd with rfl | hd
          · exact absurd hd0 (lt_irrefl _)
          · exact ⟨d, hd, hd0⟩
        have := npv_strict b hb r s hr hrs a ha' hneg' h0'
        have := div_neg_of_neg_of_pos this (by linarith : (0 : ℝ) < 1 + s)
        linarith
    · have hn := not_le.mp hn
      have hle : irrNpv (a ++ b) s ≤ irrNpv (a ++ b) r := by
        rcases le_max_iff.mp hm with h | h
        · exact h
        · linarith
      have : irrNpv (a ++ b) s / (1 + s) < irrNpv (a ++ b) r / (1 + r) := by
        rw [div_lt_div_iff₀ (by linarith) (by linarith)]
        nlinarith
      linarith

/-- C88.  Payments followed by returns have at most one internal rate of return. -/
theorem irr_unique (a b : List ℝ) (ha : ∀ c ∈ a, c ≤ 0) (hneg : ∃ c ∈ a, c < 0) (hb : ∀ c ∈ b, 0 ≤ c) (r s : ℝ) (hr : -1 < r) (hs : -1 < s) (h1 : irrNpv (a ++ b) r = 0) (h2 : irrNpv (a ++ b) s = 0) : r = s := by
  rcases lt_trichotomy r s with h | h | h
  · have := npv_strict b hb r s hr h a ha hneg h1
    linarith
  · exact h
  · have := npv_strict b hb s r hs h a ha hneg h2
    linarith

/-- An investment that loses half of its value has the rate -50%, and IRR is #NUM!: the root is one of the rates the search for a change of sign looks at. -/
theorem irr_half_wrong : irrNpv [-100, 50] (-1 / 2) = 0 ∧ IRR [-100, 50] = none := by
  constructor
  · norm_num [irrNpv, npvFrom]
  · have hn : irrNewton [-100, 50] 100 (1 / 10) = none := by
      rw [irrNewton]
      norm_num [irrDeriv, derivFrom, irrNpv, npvFrom, tol, abs_of_neg, abs_of_pos]
    unfold IRR irrSolve
    rw [if_neg (by simp), hn, Option.none_or]
    norm_num [probes, scan, irrNpv, npvFrom]

end Verif.Solve
