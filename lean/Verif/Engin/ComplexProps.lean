import Verif.Engin.Complex

/-!
What complex numbers in cells keep: what is printed is read back up to the cleaning of noise, and the arithmetic is that of
the complex numbers of Mathlib.
-/
namespace Verif.Engin

/-- Specification of the cleaning: an integer closer than 10^-10 is taken instead, else the number itself. -/
def Rounded (x y : Rat) : Prop :=
  (∃ n : Int, |x - n| < 1 / 10 ^ 10 ∧ y = n) ∨ ((∀ n : Int, 1 / 10 ^ 10 ≤ |x - n|) ∧ y = x)

theorem round_near (q : Rat) (n : Int) (h : |q - n| < 1 / 10 ^ 10) : round q = n := by
  have e : (1 : Rat) / 10 ^ 10 < 1 / 2 := by norm_num
  obtain ⟨h1, h2⟩ := abs_lt.mp (lt_trans h e)
  unfold round
  split
  · have : (q + 1/2).floor = n := by
      rw [Rat.floor_def, ← Rat.floor_def', Int.floor_eq_iff]
      constructor <;> linarith
    rw [this]
  · have : (-q + 1/2).floor = -n := by
      rw [Rat.floor_def, ← Rat.floor_def', Int.floor_eq_iff]
      push_cast
      constructor <;> linarith
    rw [this]; push_cast; ring

theorem round_int (q : Rat) : ∃ n : Int, round q = n := by
  unfold round
  split
  · exact ⟨_, rfl⟩
  · exact ⟨-(-q + 1/2).floor, by push_cast; rfl⟩

/-- Cleaning does what is specified. -/
theorem clean_spec (x : Rat) : Rounded x (clean x) := by
  unfold clean
  by_cases hx : ∃ n : Int, |x - n| < 1 / 10 ^ 10
  · obtain ⟨n, hn⟩ := hx
    rw [round_near x n hn, if_pos hn]
    exact Or.inl ⟨n, hn, rfl⟩
  · obtain ⟨m, hm⟩ := round_int x
    rw [hm, if_neg (fun hc => hx ⟨m, hc⟩)]
    exact Or.inr ⟨fun n => not_lt.mp (fun hc => hx ⟨n, hc⟩), rfl⟩

theorem int_unique (x : Rat) (m n : Int) (hm : |x - m| < 1 / 10 ^ 10) (hn : |x - n| < 1 / 10 ^ 10) : m = n := by
  rw [← Int.cast_inj (α := Rat), ← round_near x m hm, round_near x n hn]

theorem rounded_unique {x y z : Rat} (h : Rounded x y) (h' : Rounded x z) : y = z := by
  rcases h with ⟨n, h1, rfl⟩ | ⟨h1, rfl⟩ <;> rcases h' with ⟨m, g1, rfl⟩ | ⟨g1, rfl⟩
  · rw [int_unique x n m h1 g1]
  · exact absurd h1 (not_lt.mpr (g1 n))
  · exact absurd g1 (not_lt.mpr (h1 m))
  · rfl

/-- Settled: cleaning does not change it. -/
def Settled (x : Rat) : Prop := ∀ n : Int, |x - n| < 1 / 10 ^ 10 → x = n

theorem clean_settled (x : Rat) : Settled (clean x) := by
  intro n hn
  rcases clean_spec x with ⟨m, h1, h2⟩ | ⟨h1, h2⟩
  · rw [h2] at hn ⊢
    have : |(m : Rat) - m| < 1 / 10 ^ 10 := by simp
    rw [int_unique m m n this hn]
  · rw [h2] at hn
    exact absurd hn (not_lt.mpr (h1 n))

theorem settled_iff (x : Rat) (hs : Settled x) (n : Int) : |x - n| < 1 / 10 ^ 15 ↔ x = n := by
  constructor
  · intro h
    exact hs n (lt_trans h (by norm_num))
  · rintro h
    rw [h]; simp

/-! ### Characters -/

def isSign (c : Char) : Prop := c = '+' ∨ c = '-'

/-- Digits and points. -/
def Plain (c : Char) : Prop := c.isDigit = true ∨ c = '.'

theorem plain_ne (c : Char) (h : Plain c) :
    c ≠ '+' ∧ c ≠ '-' ∧ c ≠ 'e' ∧ c ≠ 'E' ∧ c ≠ 'i' ∧ c ≠ 'I' ∧ c ≠ 'j' ∧ c ≠ 'J' ∧ c.isWhitespace = false := by
  have hw : c.isWhitespace = false := by
    rcases h with h | rfl
    · by_contra hc
      simp only [Char.isWhitespace, Bool.not_eq_false, Bool.or_eq_true, decide_eq_true_eq] at hc
      rcases hc with ((rfl | rfl) | rfl) | rfl <;> revert h <;> decide
    · decide
  refine ⟨?_, ?_, ?_, ?_, ?_, ?_, ?_, ?_, hw⟩ <;>
  · rintro rfl
    rcases h with h | h <;> revert h <;> decide

theorem shown_chars (N : Numerals) (L : Lawful N) (q : Rat) : ∀ c ∈ N.shown q, Plain c ∨ c = '-' := by
  intro c hc
  by_cases h : 0 ≤ q
  · exact Or.inl ((L.digits q h).2 c hc)
  · rw [L.neg q (not_le.mp h)] at hc
    rcases List.mem_cons.mp hc with h1 | h1
    · exact Or.inr h1
    · exact Or.inl ((L.digits (-q) (by linarith [not_le.mp h])).2 c h1)

theorem shown_ne (N : Numerals) (L : Lawful N) (q : Rat) : N.shown q ≠ [] := by
  by_cases h : 0 ≤ q
  · exact (L.digits q h).1
  · rw [L.neg q (not_le.mp h)]; simp

/-- The last character is a digit or a point. -/
theorem shown_last (N : Numerals) (L : Lawful N) (q : Rat) : ∃ l, (N.shown q).getLast? = some l ∧ Plain l := by
  by_cases h : 0 ≤ q
  · obtain ⟨h1, h2⟩ := L.digits q h
    exact ⟨_, List.getLast?_eq_some_getLast h1, h2 _ (List.getLast_mem h1)⟩
  · obtain ⟨h1, h2⟩ := L.digits (-q) (by linarith [not_le.mp h])
    refine ⟨(N.shown (-q)).getLast h1, ?_, h2 _ (List.getLast_mem h1)⟩
    rw [L.neg q (not_le.mp h), List.getLast?_cons, List.getLast?_eq_some_getLast h1]; rfl

/-- No sign stands after the first character. -/
theorem shown_tail (N : Numerals) (L : Lawful N) (q : Rat) (k : Nat) (hk : 1 ≤ k) (c : Char)
    (h : (N.shown q)[k]? = some c) : Plain c := by
  by_cases hq : 0 ≤ q
  · exact (L.digits q hq).2 c (List.mem_of_getElem? h)
  · rw [L.neg q (not_le.mp hq)] at h
    obtain ⟨j, rfl⟩ : ∃ j, k = j + 1 := ⟨k - 1, by omega⟩
    rw [List.getElem?_cons_succ] at h
    exact (L.digits (-q) (by linarith [not_le.mp hq])).2 c (List.mem_of_getElem? h)

theorem dropWhile_none {p : Char → Bool} : ∀ (t : List Char), (∀ c ∈ t, p c = false) → t.dropWhile p = t
  | [], _ => rfl
  | c :: t, h => by rw [List.dropWhile_cons, h c (by simp)]; simp

theorem trim_id (t : List Char) (h : ∀ c ∈ t, c.isWhitespace = false) : trim t = t := by
  unfold trim
  rw [dropWhile_none t h, dropWhile_none t.reverse (fun c hc => h c (List.mem_reverse.mp hc)), List.reverse_reverse]

theorem split_none (s : List Char) : ∀ i, (∀ k, 1 ≤ k → k ≤ i → ¬ (s[k]? = some '+' ∨ s[k]? = some '-')) →
    splitPos s i = none
  | 0, _ => rfl
  | i + 1, h => by
    unfold splitPos
    rw [if_neg (fun hc => h (i + 1) (by omega) (by omega) hc.1)]
    exact split_none s i (fun k h1 h2 => h k h1 (by omega))

theorem split_some (s : List Char) (p : Nat) (hp : s[p + 1]? = some '+' ∨ s[p + 1]? = some '-')
    (he : ¬ (s[p]? = some 'e' ∨ s[p]? = some 'E')) :
    ∀ i, p + 1 ≤ i → (∀ k, p + 1 < k → k ≤ i → ¬ (s[k]? = some '+' ∨ s[k]? = some '-')) → splitPos s i = some (p + 1)
  | 0, h, _ => by omega
  | i + 1, h, hk => by
    unfold splitPos
    rcases Nat.eq_or_lt_of_le h with h1 | h1
    · have : p = i := by omega
      subst this
      rw [if_pos ⟨hp, he⟩]
    · rw [if_neg (fun hc => hk (i + 1) h1 (by omega) hc.1)]
      exact split_some s p hp he i (by omega) (fun k g1 g2 => hk k g1 (by omega))

/-! ### Reading what was printed -/

theorem read_join (N : Numerals) (L : Lawful N) (a b : Rat) (c s : Char) (v : List Char) (hs : isSign s)
    (hv : ∀ d ∈ v, Plain d) (hr : readImag N (s :: v) = some b) :
    readBody N (N.shown a ++ s :: v) c = some ⟨a, b, c⟩ := by
  have hn := shown_ne N L a
  have hl : 1 ≤ (N.shown a).length := List.length_pos_iff.mpr hn
  have hlen : 2 ≤ (N.shown a ++ s :: v).length := by rw [List.length_append, List.length_cons]; omega
  have n1 : N.shown a ++ s :: v ≠ [] := by intro h; rw [h] at hlen; simp at hlen
  have n2 : N.shown a ++ s :: v ≠ ['+'] := by intro h; rw [h] at hlen; simp at hlen
  have n3 : N.shown a ++ s :: v ≠ ['-'] := by intro h; rw [h] at hlen; simp at hlen
  unfold readBody
  rw [if_neg (by rintro (h | h); exact n1 h; exact n2 h), if_neg n3]
  have hsp : splitPos (N.shown a ++ s :: v) ((N.shown a ++ s :: v).length - 1) = some (N.shown a).length := by
    have e : (N.shown a).length = ((N.shown a).length - 1) + 1 := by omega
    rw [e]
    apply split_some
    · rw [← e, List.getElem?_append_right (le_refl _), Nat.sub_self, List.getElem?_cons_zero]
      rcases hs with rfl | rfl
      · exact Or.inl rfl
      · exact Or.inr rfl
    · rw [List.getElem?_append_left (by omega)]
      rintro (h | h)
      · rcases shown_chars N L a _ (List.mem_of_getElem? h) with h | h
        · exact (plain_ne _ h).2.2.1 rfl
        · revert h; decide
      · rcases shown_chars N L a _ (List.mem_of_getElem? h) with h | h
        · exact (plain_ne _ h).2.2.2.1 rfl
        · revert h; decide
    · rw [List.length_append, List.length_cons]; omega
    · intro k h1 h2 h3
      rw [List.getElem?_append_right (by omega)] at h3
      obtain ⟨j, hj⟩ : ∃ j, k - (N.shown a).length = j + 1 := ⟨k - (N.shown a).length - 1, by omega⟩
      rw [hj, List.getElem?_cons_succ] at h3
      rcases h3 with h3 | h3
      · exact (plain_ne _ (hv _ (List.mem_of_getElem? h3))).1 rfl
      · exact (plain_ne _ (hv _ (List.mem_of_getElem? h3))).2.1 rfl
  unfold readParts
  rw [hsp]
  simp only [List.take_left', List.drop_left', L.read, hr]

theorem read_imag_only (N : Numerals) (L : Lawful N) (b : Rat) (c : Char) :
    readBody N (N.shown b) c = some ⟨0, b, c⟩ := by
  have hn := shown_ne N L b
  have n2 : N.shown b ≠ ['+'] := by
    intro h
    rcases shown_chars N L b '+' (by rw [h]; simp) with h | h
    · exact (plain_ne _ h).1 rfl
    · revert h; decide
  have n3 : N.shown b ≠ ['-'] := by
    intro h
    obtain ⟨l, h1, h2⟩ := shown_last N L b
    rw [h] at h1
    cases h1
    exact (plain_ne _ h2).2.1 rfl
  unfold readBody
  rw [if_neg (by rintro (h | h); exact hn h; exact n2 h), if_neg n3]
  unfold readParts
  rw [split_none]
  · simp only [L.read]
  · intro k h1 _ h3
    rcases h3 with h3 | h3
    · exact (plain_ne _ (shown_tail N L b k h1 _ h3)).1 rfl
    · exact (plain_ne _ (shown_tail N L b k h1 _ h3)).2.1 rfl

/-- A text with a suffix is read by its body. -/
theorem parse_suffix (N : Numerals) (t : List Char) (c : Char) (hc : c = 'i' ∨ c = 'j')
    (ht : ∀ d ∈ t, Plain d ∨ isSign d) : parse N (t ++ [c]) = readBody N t c := by
  have : trim (t ++ [c]) = t ++ [c] := by
    apply trim_id
    intro d hd
    rcases List.mem_append.mp hd with h | h
    · rcases ht d h with h | h | h
      · exact (plain_ne d h).2.2.2.2.2.2.2.2
      · rw [h]; decide
      · rw [h]; decide
    · rw [List.mem_singleton.mp h]
      rcases hc with rfl | rfl <;> decide
  unfold parse
  simp only [this, List.getLast?_append, List.getLast?_singleton, Option.some_or, List.dropLast_concat]
  rcases hc with rfl | rfl
  · rfl
  · rfl

theorem parse_real (N : Numerals) (L : Lawful N) (a : Rat) : parse N (N.shown a) = some ⟨a, 0, 'i'⟩ := by
  have : trim (N.shown a) = N.shown a := by
    apply trim_id
    intro d hd
    rcases shown_chars N L a d hd with h | h
    · exact (plain_ne d h).2.2.2.2.2.2.2.2
    · rw [h]; decide
  obtain ⟨l, h1, h2⟩ := shown_last N L a
  have hp := plain_ne l h2
  unfold parse
  simp only [this, h1]
  rw [if_neg (by rintro (h | h); exact hp.2.2.2.2.1 h; exact hp.2.2.2.2.2.1 h),
    if_neg (by rintro (h | h); exact hp.2.2.2.2.2.2.1 h; exact hp.2.2.2.2.2.2.2.1 h)]
  simp only [L.read]

/-- **What is printed is read back**: any pair of settled parts, either suffix; a number without imaginary part has
suffix i. -/
theorem parse_formatClean (N : Numerals) (L : Lawful N) (a b : Rat) (ha : Settled a) (hb : Settled b) (c : Char)
    (hc : c = 'i' ∨ c = 'j') :
    parse N (formatClean N a b c) = some ⟨a, b, if b = 0 then 'i' else c⟩ := by
  have a0 : |a| < 1 / 10 ^ 15 ↔ a = 0 := by simpa using settled_iff a ha 0
  have b0 : |b| < 1 / 10 ^ 15 ↔ b = 0 := by simpa using settled_iff b hb 0
  have b1 : |b - 1| < 1 / 10 ^ 15 ↔ b = 1 := by simpa using settled_iff b hb 1
  have b2 : |b + 1| < 1 / 10 ^ 15 ↔ b = -1 := by simpa using settled_iff b hb (-1)
  unfold formatClean imagText
  simp only [a0, b0, b1, b2]
  by_cases h1 : b = 0
  · subst h1
    by_cases h2 : a = 0
    · subst h2
      simp only [and_self, if_true]
      rw [← L.zero, parse_real N L]
    · simp only [h2, false_and, if_false, if_true, parse_real N L]
  · by_cases h2 : a = 0
    · subst h2
      simp only [h1, and_false, if_false, if_true]
      by_cases h3 : b = 1
      · subst h3
        simp only [if_true]
        have := parse_suffix N [] c hc (by simp)
        rw [List.nil_append] at this
        rw [this]; rfl
      · by_cases h4 : b = -1
        · subst h4
          simp only [h3, if_false, if_true]
          have := parse_suffix N ['-'] c hc (by intro d hd; exact Or.inr (Or.inr (List.mem_singleton.mp hd)))
          rw [show ['-', c] = ['-'] ++ [c] from rfl, this]; rfl
        · simp only [h3, h4, if_false]
          rw [parse_suffix N _ c hc, read_imag_only N L]
          intro d hd
          rcases shown_chars N L b d hd with h | h
          · exact Or.inl h
          · exact Or.inr (Or.inr h)
    · simp only [h1, h2, and_false, if_false]
      have key : ∀ (s : Char) (v : List Char), isSign s → (∀ d ∈ v, Plain d) → readImag N (s :: v) = some b →
          parse N (N.shown a ++ (s :: v ++ [c])) = some ⟨a, b, c⟩ := by
        intro s v hs hv hr
        rw [← List.append_assoc, parse_suffix N _ c hc, read_join N L a b c s v hs hv hr]
        intro d hd
        rcases List.mem_append.mp hd with h | h
        · rcases shown_chars N L a d h with h | h
          · exact Or.inl h
          · exact Or.inr (Or.inr h)
        · rcases List.mem_cons.mp h with h | h
          · rw [h]; exact Or.inr hs
          · exact Or.inl (hv d h)
      by_cases h3 : b = 1
      · subst h3
        simp only [if_true]
        exact key '+' [] (Or.inl rfl) (by simp) rfl
      · by_cases h4 : b = -1
        · subst h4
          simp only [h3, if_false, if_true]
          exact key '-' [] (Or.inr rfl) (by simp) rfl
        · simp only [h3, h4, if_false]
          by_cases h5 : 0 < b
          · rw [if_pos h5]
            obtain ⟨g1, g2⟩ := L.digits b (le_of_lt h5)
            refine key '+' (N.shown b) (Or.inl rfl) g2 ?_
            unfold readImag
            rw [if_neg (by intro h; exact g1 (List.cons.inj h).2), if_neg (by intro h; have := (List.cons.inj h).1; revert this; decide)]
            exact L.plus b (le_of_lt h5)
          · rw [if_neg h5]
            have hb' : b < 0 := lt_of_le_of_ne (not_lt.mp h5) h1
            obtain ⟨g1, g2⟩ := L.digits (-b) (by linarith)
            rw [L.neg b hb']
            refine key '-' (N.shown (-b)) (Or.inr rfl) g2 ?_
            unfold readImag
            rw [if_neg (by intro h; have := (List.cons.inj h).1; revert this; decide), if_neg (by intro h; exact g1 (List.cons.inj h).2),
              ← L.neg b hb']
            exact L.read b

/-- What a text in a cell stands for. -/
def Shows (N : Numerals) (r : List Char) (w : ℂ) (c : Char) : Prop :=
  ∃ (z : Cx) (a b : Rat), parse N r = some z ∧ w = ⟨a, b⟩ ∧ Rounded a z.re ∧ Rounded b z.im
    ∧ (z.im ≠ 0 → z.suffix = c)

theorem shows_format (N : Numerals) (L : Lawful N) (a b : Rat) (c : Char) (hc : c = 'i' ∨ c = 'j') :
    Shows N (format N a b c) ⟨a, b⟩ c := by
  refine ⟨_, a, b, parse_formatClean N L (clean a) (clean b) (clean_settled a) (clean_settled b) c hc, rfl,
    clean_spec a, clean_spec b, ?_⟩
  intro h
  simp only at h ⊢
  rw [if_neg h]

end Verif.Engin
