import Verif.Engin.ComplexProps

/-!
COMPLEX and the IM functions against the complex numbers of Mathlib.
-/
namespace Verif.Engin

/-- The complex number of a parsed text. -/
noncomputable def val (z : Cx) : ℂ := ⟨z.re, z.im⟩

theorem body_suffix (N : Numerals) (t : List Char) (c : Char) (z : Cx) (h : readBody N t c = some z) : z.suffix = c := by
  unfold readBody readParts at h
  split at h
  · cases h; rfl
  · split at h
    · cases h; rfl
    · split at h
      · split at h
        · cases h
        · split at h
          · cases h
          · cases h; rfl
      · split at h
        · cases h
        · cases h; rfl

theorem parse_suffix_ij (N : Numerals) (s : List Char) (z : Cx) (h : parse N s = some z) : z.suffix = 'i' ∨ z.suffix = 'j' := by
  unfold parse at h
  simp only at h
  split at h
  · cases h
  · split at h
    · exact Or.inl (body_suffix N _ _ z h)
    · split at h
      · exact Or.inr (body_suffix N _ _ z h)
      · split at h
        · cases h
        · cases h; exact Or.inl rfl

theorem cx_suffix (N : Numerals) (x : CArg) (z : Cx) (h : x.cx N = .ok z) : z.suffix = 'i' ∨ z.suffix = 'j' := by
  unfold CArg.cx at h
  cases hs : x.str N with
  | error e => rw [hs] at h; cases h
  | ok s =>
    cases hz : parse N s with
    | none => simp only [hs, hz] at h; cases h
    | some w =>
      simp only [hs, hz] at h
      cases h
      exact parse_suffix_ij N s _ hz

/-! ### COMPLEX, IMREAL, IMAGINARY -/

/-- **IMREAL and IMAGINARY give back the parts put in by COMPLEX**, up to the cleaning: a part closer than 10^-10 to an integer
is that integer, others are exact. -/
theorem complex_spec (N : Numerals) (L : Lawful N) (a b : Rat) (s : Suffix) (c : Char) (hs : s.pick = .ok c) :
    ∃ r, complex N (.num a) (.num b) s = .ok r
      ∧ (∃ x, imreal N (.text r) = .ok x ∧ Rounded a x) ∧ (∃ y, imaginary N (.text r) = .ok y ∧ Rounded b y) := by
  have hc : c = 'i' ∨ c = 'j' := by
    unfold Suffix.pick at hs
    split at hs
    · cases hs; exact Or.inl rfl
    · cases hs; exact Or.inl rfl
    · split at hs
      · cases hs; exact Or.inl rfl
      · split at hs
        · cases hs; exact Or.inr rfl
        · split at hs
          · cases hs; exact Or.inl rfl
          · cases hs
    · cases hs
    · cases hs
  refine ⟨format N a b c, by simp only [complex, hs], ?_⟩
  have h := parse_formatClean N L (clean a) (clean b) (clean_settled a) (clean_settled b) c hc
  have e : CArg.cx N (.text (format N a b c)) = .ok ⟨clean a, clean b, if clean b = 0 then 'i' else c⟩ := by
    simp only [CArg.cx, CArg.str, format, h]
  exact ⟨⟨clean a, by rw [imreal, e]; rfl, clean_spec a⟩, ⟨clean b, by rw [imaginary, e]; rfl, clean_spec b⟩⟩

/-- The part is exact unless it is within 10^-10 of an integer without being one; it is never off by 10^-10. -/
theorem rounded_exact {x y : Rat} (h : Rounded x y) :
    |y - x| < 1 / 10 ^ 10 ∧ (y = x ↔ ∀ n : Int, |x - n| < 1 / 10 ^ 10 → x = n) := by
  rcases h with ⟨n, h1, rfl⟩ | ⟨h1, rfl⟩
  · refine ⟨by rw [abs_sub_comm]; exact h1, ?_, fun h => (h n h1).symm⟩
    intro h m hm
    rw [← int_unique x n m h1 hm, h]
  · refine ⟨by simp, fun _ n hn => absurd hn (not_lt.mpr (h1 n)), fun _ => rfl⟩

/-- COMPLEX: errors in their order, and the suffixes taken. -/
theorem complex_errors (N : Numerals) (a b : Rat) (x : Arg) (s : Suffix) (e : Err) :
    complex N (.err e) x s = .error e ∧ complex N (.num a) (.err e) s = .error e
    ∧ complex N (.num a) (.num b) (.err e) = .error e
    ∧ (∀ t, complex N (.num a) (.num b) (.text t) = .error .value ↔ t ≠ ['i'] ∧ t ≠ ['j'] ∧ t ≠ []) := by
  refine ⟨rfl, rfl, rfl, fun t => ?_⟩
  simp only [complex, Suffix.pick]
  by_cases h1 : t = ['i']
  · simp [h1]
  · by_cases h2 : t = ['j']
    · simp [h2]
    · by_cases h3 : t = []
      · simp [h3]
      · simp [h1, h2, h3]

/-! ### Arithmetic -/

theorem loop_ok (N : Numerals) (step : Option Cx → Cx → Cx) : ∀ (xs : List CArg) (zs : List Cx) (st : Option Cx),
    List.Forall₂ (fun x z => x.cx N = .ok z) xs zs →
    loop N step st xs = .ok (zs.foldl (fun s z => some (step s z)) st)
  | [], _, st, h => by cases h; rfl
  | x :: xs, _, st, h => by
    cases h with
    | cons hx ht =>
      unfold loop
      rw [hx]
      simp only [List.foldl_cons]
      exact loop_ok N step xs _ _ ht

theorem sum_fold (zs : List Cx) (a : Cx) :
    ∃ z, zs.foldl (fun s z => some (sumStep s z)) (some a) = some z ∧ z.suffix = a.suffix
      ∧ val z = val a + (zs.map val).sum := by
  induction zs generalizing a with
  | nil => exact ⟨a, rfl, rfl, by simp⟩
  | cons y zs ih =>
    obtain ⟨z, h1, h2, h3⟩ := ih (sumStep (some a) y)
    refine ⟨z, h1, h2, ?_⟩
    rw [h3, List.map_cons, List.sum_cons, ← add_assoc]
    congr 1
    apply Complex.ext <;> simp [val, sumStep]

theorem prod_fold (zs : List Cx) (a : Cx) :
    ∃ z, zs.foldl (fun s z => some (prodStep s z)) (some a) = some z ∧ z.suffix = a.suffix
      ∧ val z = val a * (zs.map val).prod := by
  induction zs generalizing a with
  | nil => exact ⟨a, rfl, rfl, by simp⟩
  | cons y zs ih =>
    obtain ⟨z, h1, h2, h3⟩ := ih (prodStep (some a) y)
    refine ⟨z, h1, h2, ?_⟩
    rw [h3, List.map_cons, List.prod_cons, ← mul_assoc]
    congr 1
    apply Complex.ext <;> simp [val, prodStep]

/-- **IMSUM is the sum and IMPRODUCT the product of complex numbers**, for any number of arguments, written with the suffix
of the first. -/
theorem sum_product_spec (N : Numerals) (L : Lawful N) (x : CArg) (xs : List CArg) (z : Cx) (zs : List Cx)
    (h : List.Forall₂ (fun x z => x.cx N = .ok z) (x :: xs) (z :: zs)) :
    (∃ r, imsum N (x :: xs) = .ok r ∧ Shows N r (((z :: zs).map val).sum) z.suffix)
    ∧ (∃ r, improduct N (x :: xs) = .ok r ∧ Shows N r (((z :: zs).map val).prod) z.suffix) := by
  have hx : x.cx N = .ok z := by cases h; assumption
  have hc := cx_suffix N x z hx
  constructor
  · unfold imsum
    rw [loop_ok N sumStep _ _ none h]
    obtain ⟨w, h1, h2, h3⟩ := sum_fold zs (sumStep none z)
    simp only [List.foldl_cons, h1, Except.map]
    refine ⟨_, rfl, ?_⟩
    have hw : w.suffix = z.suffix := h2
    have : ((z :: zs).map val).sum = val w := by
      rw [h3, List.map_cons, List.sum_cons]
      congr 1
      apply Complex.ext <;> simp [val, sumStep]
    rw [this, hw]
    exact shows_format N L w.re w.im z.suffix hc
  · unfold improduct
    rw [loop_ok N prodStep _ _ none h]
    obtain ⟨w, h1, h2, h3⟩ := prod_fold zs (prodStep none z)
    simp only [List.foldl_cons, h1, Except.map]
    refine ⟨_, rfl, ?_⟩
    have hw : w.suffix = z.suffix := h2
    have : ((z :: zs).map val).prod = val w := by
      rw [h3, List.map_cons, List.prod_cons]
      rfl
    rw [this, hw]
    exact shows_format N L w.re w.im z.suffix hc

/-- The first argument that is an error or no complex number decides the error shown. -/
theorem sum_product_error (N : Numerals) (pre : List CArg) (zs : List Cx) (x : CArg) (post : List CArg) (e : Err)
    (h : List.Forall₂ (fun x z => x.cx N = .ok z) pre zs) (hx : x.cx N = .error e) :
    imsum N (pre ++ x :: post) = .error e ∧ improduct N (pre ++ x :: post) = .error e := by
  have key : ∀ (step : Option Cx → Cx → Cx) (pre : List CArg) (zs : List Cx) (st : Option Cx),
      List.Forall₂ (fun x z => x.cx N = .ok z) pre zs → loop N step st (pre ++ x :: post) = .error e := by
    intro step pre
    induction pre with
    | nil => intro zs st _; simp only [List.nil_append, loop, hx]
    | cons y ys ih =>
      intro zs st h
      cases h with
      | cons hy ht =>
        simp only [List.cons_append, loop, hy]
        exact ih _ _ ht
  unfold imsum improduct
  rw [key sumStep pre zs none h, key prodStep pre zs none h]
  exact ⟨rfl, rfl⟩

theorem two_spec (N : Numerals) (x y : CArg) (z w : Cx) (hx : x.cx N = .ok z) (hy : y.cx N = .ok w) :
    two N x y = .ok (z, w) := by
  unfold CArg.cx at hx hy
  unfold two
  cases hs : x.str N with
  | error e => rw [hs] at hx; cases hx
  | ok s =>
    cases ht : y.str N with
    | error e => rw [ht] at hy; cases hy
    | ok t =>
      cases hz : parse N s with
      | none => simp only [hs, hz] at hx; cases hx
      | some z' =>
        cases hw : parse N t with
        | none => simp only [ht, hw] at hy; cases hy
        | some w' =>
          simp only [hs, hz] at hx
          simp only [ht, hw] at hy
          cases hx; cases hy
          simp only [hz, hw]

/-- Errors of IMSUB and IMDIV: an error of either argument shows before a text that is no complex number. -/
theorem two_errors (N : Numerals) (x y : CArg) :
    (∀ e, x.str N = .error e → imsub N x y = .error e ∧ imdiv N x y = .error e)
    ∧ (∀ s e, x.str N = .ok s → y.str N = .error e → imsub N x y = .error e ∧ imdiv N x y = .error e)
    ∧ (∀ s t, x.str N = .ok s → y.str N = .ok t → (parse N s = none ∨ parse N t = none) →
        imsub N x y = .error .num ∧ imdiv N x y = .error .num) := by
  have k : ∀ e, two N x y = .error e → imsub N x y = .error e ∧ imdiv N x y = .error e := by
    intro e h
    unfold imsub imdiv
    rw [h]
    exact ⟨rfl, rfl⟩
  refine ⟨fun e h => k e ?_, fun s e h h' => k e ?_, fun s t h h' hp => k _ ?_⟩
  · unfold two; rw [h]
  · unfold two; rw [h, h']
  · unfold two; rw [h, h']
    simp only
    rcases hp with hp | hp
    · rw [hp]
    · cases parse N s with
      | none => rfl
      | some z => simp only [hp]

/-- **IMSUB is the difference, IMCONJUGATE the conjugate, IMABS the absolute value, and IMDIV the quotient** unless the
square of the absolute value of the divisor is below 10^-15. -/
theorem other_spec (N : Numerals) (L : Lawful N) (x y : CArg) (z w : Cx) (hx : x.cx N = .ok z) (hy : y.cx N = .ok w) :
    (∃ r, imsub N x y = .ok r ∧ Shows N r (val z - val w) z.suffix)
    ∧ (∃ r, imconjugate N x = .ok r ∧ Shows N r ((starRingEnd ℂ) (val z)) z.suffix)
    ∧ imabs N x = .ok ‖val z‖
    ∧ (1 / 10 ^ 15 ≤ Complex.normSq (val w) → ∃ r, imdiv N x y = .ok r ∧ Shows N r (val z / val w) z.suffix)
    ∧ (Complex.normSq (val w) < 1 / 10 ^ 15 → imdiv N x y = .error .div) := by
  have hc := cx_suffix N x z hx
  have h2 := two_spec N x y z w hx hy
  have hn : Complex.normSq (val w) = ((w.re * w.re + w.im * w.im : Rat) : ℝ) := by
    simp [Complex.normSq_apply, val]
  have hp : 0 ≤ w.re * w.re + w.im * w.im := by nlinarith [mul_self_nonneg w.re, mul_self_nonneg w.im]
  have hiff : |w.re * w.re + w.im * w.im| < 1 / 10 ^ 15 ↔ Complex.normSq (val w) < 1 / 10 ^ 15 := by
    rw [abs_of_nonneg hp, hn, ← Rat.cast_lt (K := ℝ)]
    push_cast
    rfl
  refine ⟨?_, ?_, ?_, ?_, ?_⟩
  · refine ⟨_, by unfold imsub; rw [h2], ?_⟩
    have := shows_format N L (z.re - w.re) (z.im - w.im) z.suffix hc
    have e : val z - val w = ⟨((z.re - w.re : Rat) : ℝ), ((z.im - w.im : Rat) : ℝ)⟩ := by
      apply Complex.ext <;> simp [val]
    rw [e]; exact this
  · refine ⟨_, by unfold imconjugate; rw [hx]; rfl, ?_⟩
    have := shows_format N L z.re (-z.im) z.suffix hc
    have e : (starRingEnd ℂ) (val z) = ⟨((z.re : Rat) : ℝ), ((-z.im : Rat) : ℝ)⟩ := by
      apply Complex.ext <;> simp [val]
    rw [e]; exact this
  · unfold imabs
    rw [hx]
    simp only [Except.map, Complex.norm_def, Complex.normSq_apply, val]
  · intro hd
    have hd' : ¬ |w.re * w.re + w.im * w.im| < 1 / 10 ^ 15 := by rw [hiff]; exact not_lt.mpr hd
    refine ⟨_, by unfold imdiv; rw [h2]; simp only [if_neg hd']; rfl, ?_⟩
    have := shows_format N L ((z.re * w.re + z.im * w.im) / (w.re * w.re + w.im * w.im))
      ((z.im * w.re - z.re * w.im) / (w.re * w.re + w.im * w.im)) z.suffix hc
    have e : val z / val w = ⟨(((z.re * w.re + z.im * w.im) / (w.re * w.re + w.im * w.im) : Rat) : ℝ),
        (((z.im * w.re - z.re * w.im) / (w.re * w.re + w.im * w.im) : Rat) : ℝ)⟩ := by
      apply Complex.ext
      · rw [Complex.div_re, hn]; simp [val]; ring
      · rw [Complex.div_im, hn]; simp [val]; ring
    rw [e]; exact this
  · intro hd
    unfold imdiv
    rw [h2]
    simp only [if_pos (hiff.mpr hd)]

/-- What is shown is determined by the number, so **the order of the arguments of IMSUM and IMPRODUCT does not matter**, the
suffix apart. -/
theorem shows_unique (N : Numerals) (r r' : List Char) (w : ℂ) (c c' : Char) (h : Shows N r w c) (h' : Shows N r' w c') :
    ∃ z z', parse N r = some z ∧ parse N r' = some z' ∧ val z = val z' := by
  obtain ⟨z, a, b, h1, h2, h3, h4, _⟩ := h
  obtain ⟨z', a', b', g1, g2, g3, g4, _⟩ := h'
  refine ⟨z, z', h1, g1, ?_⟩
  rw [h2] at g2
  have ea : a = a' := by have := congrArg Complex.re g2; simp only at this; exact_mod_cast this
  have eb : b = b' := by have := congrArg Complex.im g2; simp only at this; exact_mod_cast this
  subst ea; subst eb
  unfold val
  rw [rounded_unique h3 g3, rounded_unique h4 g4]

theorem order (N : Numerals) (L : Lawful N) (xs ys : List CArg) (hne : xs ≠ []) (hp : xs.Perm ys)
    (hok : ∀ x ∈ xs, ∃ z, x.cx N = .ok z) :
    (∃ r r' z z', imsum N xs = .ok r ∧ imsum N ys = .ok r' ∧ parse N r = some z ∧ parse N r' = some z' ∧ val z = val z')
    ∧ (∃ r r' z z', improduct N xs = .ok r ∧ improduct N ys = .ok r' ∧ parse N r = some z ∧ parse N r' = some z'
        ∧ val z = val z') := by
  have get : ∀ l : List CArg, (∀ x ∈ l, ∃ z, x.cx N = .ok z) →
      List.Forall₂ (fun x z => x.cx N = .ok z) l (l.map fun x => match x.cx N with | .ok z => z | .error _ => ⟨0, 0, 'i'⟩) := by
    intro l
    induction l with
    | nil => intro _; exact .nil
    | cons x l ih =>
      intro h
      obtain ⟨z, hz⟩ := h x (by simp)
      refine .cons ?_ (ih (fun y hy => h y (by simp [hy])))
      simp only [hz]
  have hok' : ∀ x ∈ ys, ∃ z, x.cx N = .ok z := fun x hx => hok x (hp.mem_iff.mpr hx)
  have hx := get xs hok
  have hy := get ys hok'
  have hm := hp.map (fun x => match x.cx N with | .ok z => z | .error _ => (⟨0, 0, 'i'⟩ : Cx))
  generalize hzs : (xs.map fun x => match x.cx N with | .ok z => z | .error _ => (⟨0, 0, 'i'⟩ : Cx)) = zs at *
  generalize hws : (ys.map fun x => match x.cx N with | .ok z => z | .error _ => (⟨0, 0, 'i'⟩ : Cx)) = ws at *
  have hs : (zs.map val).sum = (ws.map val).sum := (hm.map val).sum_eq
  have hq : (zs.map val).prod = (ws.map val).prod := (hm.map val).prod_eq
  cases hx with
  | nil => exact absurd rfl hne
  | cons h1 h2 =>
    cases hy with
    | nil => exact absurd hp.length_eq (by simp)
    | cons g1 g2 =>
      obtain ⟨⟨r, a1, a2⟩, ⟨p, b1, b2⟩⟩ := sum_product_spec N L _ _ _ _ (.cons h1 h2)
      obtain ⟨⟨r', c1, c2⟩, ⟨p', d1, d2⟩⟩ := sum_product_spec N L _ _ _ _ (.cons g1 g2)
      rw [← hs] at c2
      rw [← hq] at d2
      obtain ⟨z, z', e1, e2, e3⟩ := shows_unique N _ _ _ _ _ a2 c2
      obtain ⟨w, w', f1, f2, f3⟩ := shows_unique N _ _ _ _ _ b2 d2
      exact ⟨⟨r, r', z, z', a1, c1, e1, e2, e3⟩, ⟨p, p', w, w', b1, d1, f1, f2, f3⟩⟩

/-! ### Refuted -/

theorem cx_num (N : Numerals) (L : Lawful N) (q : Rat) : CArg.cx N (.num q) = .ok ⟨q, 0, 'i'⟩ := by
  simp only [CArg.cx, CArg.str, parse_real N L]

theorem cx_j (N : Numerals) (L : Lawful N) (b : Rat) : CArg.cx N (.text (N.shown b ++ ['j'])) = .ok ⟨0, b, 'j'⟩ := by
  have : parse N (N.shown b ++ ['j']) = some ⟨0, b, 'j'⟩ := by
    rw [parse_suffix N _ 'j' (Or.inr rfl), read_imag_only N L]
    intro d hd
    rcases shown_chars N L b d hd with h | h
    · exact Or.inl h
    · exact Or.inr (Or.inr h)
  simp only [CArg.cx, CArg.str, this]

/-- Blanks around a text do not matter to `trim`. -/
theorem trim_blanks (l s r : List Char) (hl : ∀ c ∈ l, c.isWhitespace = true) (hr : ∀ c ∈ r, c.isWhitespace = true) :
    trim (l ++ s ++ r) = trim s := by
  have hnil : ∀ t : List Char, (∀ c ∈ t, c.isWhitespace = true) → t.dropWhile Char.isWhitespace = [] := by
    intro t ht
    induction t with
    | nil => rfl
    | cons c t ih =>
      rw [List.dropWhile_cons, if_pos (ht c (List.mem_cons_self ..))]
      exact ih fun x hx => ht x (List.mem_cons_of_mem _ hx)
  have hl' := hnil l hl
  have hr' := hnil r hr
  have hrr := hnil r.reverse (fun c hc => hr c (List.mem_reverse.mp hc))
  have e1 : (l ++ s ++ r).dropWhile Char.isWhitespace = (s ++ r).dropWhile Char.isWhitespace := by
    rw [List.append_assoc, List.dropWhile_append, hl']
    rfl
  unfold trim
  rw [e1, List.dropWhile_append, hr']
  by_cases h : (s.dropWhile Char.isWhitespace).isEmpty = true
  · rw [if_pos h, List.isEmpty_iff.mp h]
  · rw [if_neg h, List.reverse_append, List.dropWhile_append, hrr]
    rfl

/-- **C103** What an argument stands for: an error passes through, other values that are no numbers are `#VALUE!`, blanks
around a text do not count, a number is itself, and a text that ends in no unit and is no number is `#NUM!`. -/
theorem argument_spec (N : Numerals) (L : Lawful N) :
    (∀ e, CArg.cx N (.err e) = .error e) ∧ CArg.cx N .other = .error .value ∧
    (∀ q, CArg.cx N (.num q) = .ok ⟨q, 0, 'i'⟩) ∧
    (∀ l s r, (∀ c ∈ l, c.isWhitespace = true) → (∀ c ∈ r, c.isWhitespace = true) →
      CArg.cx N (.text (l ++ s ++ r)) = CArg.cx N (.text s)) ∧
    (∀ s x, (∀ c ∈ s ++ [x], c.isWhitespace = false) → x ∉ ['i', 'I', 'j', 'J'] → N.read (s ++ [x]) = none →
      CArg.cx N (.text (s ++ [x])) = .error .num) := by
  refine ⟨fun e => rfl, rfl, fun q => cx_num N L q, fun l s r hl hr => ?_, fun s x hb hx hn => ?_⟩
  · simp only [CArg.cx, CArg.str, parse, trim_blanks l s r hl hr]
  · have h1 : ¬ (x = 'i' ∨ x = 'I') := fun h => hx (by rcases h with h | h <;> subst h <;> decide)
    have h2 : ¬ (x = 'j' ∨ x = 'J') := fun h => hx (by rcases h with h | h <;> subst h <;> decide)
    have hp : parse N (s ++ [x]) = none := by
      unfold parse
      simp only [trim_id _ hb, List.getLast?_concat]
      rw [if_neg h1, if_neg h2, hn]
    simp only [CArg.cx, CArg.str, hp]

/-- **Refuted: IMREAL gives back what COMPLEX was given.** A part of 10^-11 becomes 0; the product of 10^-5 and 10^-6 is "0". -/
theorem small_refuted (N : Numerals) (L : Lawful N) :
    (∃ r, complex N (.num (1 / 10 ^ 11)) (.num 1) .absent = .ok r ∧ imreal N (.text r) = .ok 0)
    ∧ improduct N [.num (1 / 10 ^ 5), .num (1 / 10 ^ 6)] = .ok ['0'] := by
  constructor
  · obtain ⟨r, h1, ⟨x, h2, h3⟩, _⟩ := complex_spec N L (1 / 10 ^ 11) 1 .absent 'i' rfl
    refine ⟨r, h1, ?_⟩
    have : Rounded (1 / 10 ^ 11) 0 := Or.inl ⟨0, by norm_num [abs_of_pos], by simp⟩
    rw [h2, rounded_unique h3 this]
  · have c0 : clean (1 / 10 ^ 5 * (1 / 10 ^ 6) - 0 * 0) = 0 := by decide +kernel
    have c1 : clean (1 / 10 ^ 5 * 0 + 0 * (1 / 10 ^ 6)) = 0 := by decide +kernel
    simp only [improduct, loop, cx_num N L, prodStep, Except.map, format, c0, c1]
    simp [formatClean]

/-- **Refuted: IMDIV fails only for the divisor 0.** 1 divided by 10^-8 is #DIV/0!. -/
theorem div_refuted (N : Numerals) (L : Lawful N) : imdiv N (.num 1) (.num (1 / 10 ^ 8)) = .error .div := by
  have h := (other_spec N L _ _ _ _ (cx_num N L 1) (cx_num N L (1 / 10 ^ 8))).2.2.2.2
  apply h
  simp only [Complex.normSq_apply, val]
  norm_num

/-- **Refuted: the suffix j is kept beside real numbers, and mixed suffixes are refused.** 1 + 2j is written with i, 2j + 1
with j, and i beside j is added without complaint. -/
theorem suffix_refuted (N : Numerals) (L : Lawful N) :
    imsum N [.num 1, .text (N.shown 2 ++ ['j'])] = .ok (N.shown 1 ++ '+' :: N.shown 2 ++ ['i'])
    ∧ imsum N [.text (N.shown 2 ++ ['j']), .num 1] = .ok (N.shown 1 ++ '+' :: N.shown 2 ++ ['j'])
    ∧ imsum N [.text ['i'], .text ['j']] = .ok (N.shown 2 ++ ['i']) := by
  have k1 : clean (0 + 1 + 0) = 1 := by decide +kernel
  have k2 : clean (0 + 0 + 2) = 2 := by decide +kernel
  have k3 : clean (0 + 0 + 1) = 1 := by decide +kernel
  have k4 : clean (0 + 2 + 0) = 2 := by decide +kernel
  have k5 : clean (0 + 0 + 0) = 0 := by decide +kernel
  have k6 : clean (0 + 1 + 1) = 2 := by decide +kernel
  have f1 : ∀ c, formatClean N 1 2 c = N.shown 1 ++ '+' :: N.shown 2 ++ [c] := by
    intro c
    unfold formatClean imagText
    norm_num
  have f2 : ∀ c, formatClean N 0 2 c = N.shown 2 ++ [c] := by
    intro c
    unfold formatClean
    norm_num
  have pi : CArg.cx N (.text ['i']) = .ok ⟨0, 1, 'i'⟩ := rfl
  have pj : CArg.cx N (.text ['j']) = .ok ⟨0, 1, 'j'⟩ := rfl
  refine ⟨?_, ?_, ?_⟩
  · simp only [imsum, loop, cx_num N L, cx_j N L, sumStep, joinSuffix, Except.map, format, k1, k2, f1]
  · simp only [imsum, loop, cx_num N L, cx_j N L, sumStep, joinSuffix, Except.map, format, k3, k4, f1]
  · simp only [imsum, loop, pi, pj, sumStep, joinSuffix, Except.map, format, k5, k6, f2]

/-! ### The laws asked of the standard library can be met -/

/-- Strokes: so many as the numerator, a point, so many as the denominator. -/
def strokes (q : Rat) : List Char := List.replicate q.num.natAbs '1' ++ '.' :: List.replicate q.den '1'

def unary : Numerals where
  shown q := if q = 0 then ['0'] else if q < 0 then '-' :: strokes (-q) else strokes q
  read t :=
    let body := fun (t : List Char) =>
      if t = ['0'] then (0 : Rat)
      else ((t.takeWhile (· = '1')).length : Rat) / (((t.dropWhile (· = '1')).length - 1 : Nat) : Rat)
    match t with
    | '-' :: t => some (-(body t))
    | '+' :: t => some (body t)
    | t => some (body t)

theorem strokes_read (q : Rat) (h : 0 < q) :
    ((strokes q).takeWhile (· = '1')).length = q.num.natAbs ∧ ((strokes q).dropWhile (· = '1')).length - 1 = q.den
    ∧ strokes q ≠ ['0'] ∧ (∀ c ∈ strokes q, c = '1' ∨ c = '.') ∧ strokes q ≠ [] := by
  have hn : 0 < q.num.natAbs := Int.natAbs_pos.mpr (ne_of_gt (Rat.num_pos.mpr h))
  have hc : ∀ c ∈ strokes q, c = '1' ∨ c = '.' := by
    intro c hc
    rcases List.mem_append.mp hc with h1 | h1
    · exact Or.inl (List.eq_of_mem_replicate h1)
    · rcases List.mem_cons.mp h1 with h2 | h2
      · exact Or.inr h2
      · exact Or.inl (List.eq_of_mem_replicate h2)
  have t1 : ∀ (n : Nat) (l : List Char), (List.replicate n '1' ++ '.' :: l).takeWhile (· = '1') = List.replicate n '1' := by
    intro n l
    induction n with
    | zero => rfl
    | succ n ih => simp only [List.replicate_succ, List.cons_append]; rw [List.takeWhile_cons]; simp [ih]
  have t2 : ∀ (n : Nat) (l : List Char), (List.replicate n '1' ++ '.' :: l).dropWhile (· = '1') = '.' :: l := by
    intro n l
    induction n with
    | zero => rfl
    | succ n ih => simp only [List.replicate_succ, List.cons_append]; rw [List.dropWhile_cons]; simp [ih]
  refine ⟨?_, ?_, ?_, hc, by unfold strokes; simp⟩
  · unfold strokes; rw [t1, List.length_replicate]
  · unfold strokes; rw [t2]; simp
  · intro h0
    rcases hc '0' (by rw [h0]; simp) with h | h <;> revert h <;> decide

theorem unary_body (q : Rat) (h : 0 < q) : ((q.num.natAbs : Rat) / (q.den : Rat)) = q := by
  have : ((q.num.natAbs : Int) : Rat) = (q.num : Rat) := by
    rw [Int.natAbs_of_nonneg (le_of_lt (Rat.num_pos.mpr h))]
  rw [← Int.cast_natCast (R := Rat) q.num.natAbs, this, Rat.num_div_den]

/-- A lawful way to print and read numbers exists. -/
theorem unary_lawful : Lawful unary where
  zero := by simp [unary]
  digits := by
    intro q hq
    rcases eq_or_lt_of_le hq with h | h
    · subst h
      simp [unary]
    · obtain ⟨_, _, _, h4, h5⟩ := strokes_read q h
      have e : unary.shown q = strokes q := by
        simp only [unary]; rw [if_neg (ne_of_gt h), if_neg (not_lt.mpr hq)]
      rw [e]
      refine ⟨h5, fun c hc => ?_⟩
      rcases h4 c hc with rfl | rfl
      · exact Or.inl (by decide)
      · exact Or.inr rfl
  neg := by
    intro q hq
    have hp : 0 < -q := by linarith
    simp only [unary]
    rw [if_neg (ne_of_lt hq), if_pos hq, if_neg (ne_of_gt hp), if_neg (not_lt.mpr (le_of_lt hp))]
  read := by
    intro q
    rcases lt_trichotomy q 0 with h | h | h
    · have hp : 0 < -q := by linarith
      obtain ⟨h1, h2, h3, _, _⟩ := strokes_read (-q) hp
      simp only [unary]
      rw [if_neg (ne_of_lt h), if_pos h]
      simp only [if_neg h3, h1, h2, unary_body (-q) hp, neg_neg]
    · subst h; decide +kernel
    · obtain ⟨h1, h2, h3, h4, h5⟩ := strokes_read q h
      simp only [unary]
      rw [if_neg (ne_of_gt h), if_neg (not_lt.mpr (le_of_lt h))]
      split
      · rename_i t he
        rcases h4 '-' (by rw [he]; simp) with h | h <;> exact absurd h (by decide)
      · rename_i t he
        rcases h4 '+' (by rw [he]; simp) with h | h <;> exact absurd h (by decide)
      · simp only [if_neg h3, h1, h2, unary_body q h]
  plus := by
    intro q hq
    rcases eq_or_lt_of_le hq with h | h
    · subst h; decide +kernel
    · obtain ⟨h1, h2, h3, h4, h5⟩ := strokes_read q h
      simp only [unary]
      rw [if_neg (ne_of_gt h), if_neg (not_lt.mpr hq)]
      simp only [if_neg h3, h1, h2, unary_body q h]

/-- The same, refusing every text with another character. -/
def unaryStrict : Numerals where
  shown := unary.shown
  read t := if t.all (fun c => c ∈ ['0', '1', '.', '-', '+']) then unary.read t else none

theorem unaryStrict_lawful : Lawful unaryStrict := by
  have hs : ∀ q, (unary.shown q).all (fun c => c ∈ ['0', '1', '.', '-', '+']) = true := by
    intro q
    rw [List.all_eq_true]
    intro c hc
    have key : ∀ r, 0 < r → ∀ c ∈ strokes r, decide (c ∈ ['0', '1', '.', '-', '+']) = true := by
      intro r hr c hc
      rcases (strokes_read r hr).2.2.2.1 c hc with rfl | rfl <;> decide
    rcases lt_trichotomy q 0 with h | h | h
    · have hp : 0 < -q := by linarith
      simp only [unary] at hc
      rw [if_neg (ne_of_lt h), if_pos h] at hc
      rcases List.mem_cons.mp hc with rfl | hc
      · decide
      · exact key _ hp c hc
    · subst h
      rw [unary_lawful.zero] at hc
      rw [List.mem_singleton.mp hc]
      decide
    · simp only [unary] at hc
      rw [if_neg (ne_of_gt h), if_neg (not_lt.mpr (le_of_lt h))] at hc
      exact key _ h c hc
  exact {
    zero := unary_lawful.zero
    digits := unary_lawful.digits
    neg := unary_lawful.neg
    read := fun q => by
      show (if (unary.shown q).all _ then unary.read (unary.shown q) else none) = some q
      rw [hs q]
      exact unary_lawful.read q
    plus := fun q hq => by
      show (if ('+' :: unary.shown q).all _ then unary.read ('+' :: unary.shown q) else none) = some q
      rw [List.all_cons, hs q]
      exact unary_lawful.plus q hq }

/-- The last clause of `argument_spec` at work. -/
example : CArg.cx unaryStrict (.text ("ab".toList ++ ['c'])) = .error .num :=
  (argument_spec unaryStrict unaryStrict_lawful).2.2.2.2 _ _ (by decide +kernel) (by decide) (by decide +kernel)

/-- The theorems at work: 1/2 + 3i by COMPLEX, and (2j)(2j) = -4. -/
example : complex unary (.num (1/2)) (.num 3) (.text ['j']) = .ok "1.11+111.1j".toList := by decide +kernel
example : improduct unary [.text "11.1j".toList, .text "11.1j".toList] = .ok "-1111.1".toList := by decide +kernel
example : List.Forall₂ (fun (x : CArg) z => x.cx unary = .ok z) [.text "1.1-1.11i".toList, .num 2] [⟨1, -1/2, 'i'⟩, ⟨2, 0, 'i'⟩] := by
  refine .cons (by decide +kernel) (.cons (by decide +kernel) .nil)

end Verif.Engin
