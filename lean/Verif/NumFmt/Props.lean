import Verif.NumFmt.Model

/-!
# What decides the class of a number format
-/

namespace Verif.NumFmt

/-! ## The parts of a code -/

/-- The parts a code is written with. -/
inductive Part where
  /-- a text in quotes -/
  | quote (s : List Char)
  /-- a character shown (`\`), left as space (`_`) or repeated (`*`), which says nothing -/
  | mark (m c : Char)
  /-- colours, conditions and locales in brackets -/
  | note (s : List Char)
  /-- elapsed hours, minutes or seconds in brackets -/
  | elapsed (s : List Char)
  /-- anything else -/
  | char (c : Char)

/-- A letter of elapsed time. -/
def isElapsed (c : Char) : Prop := c = 'h' ∨ c = 'm' ∨ c = 's' ∨ c = ':'

/-- Parts as they can be written. -/
def Part.Ok : Part → Prop
  | .quote s => '"' ∉ s
  | .mark m _ => m = '\\' ∨ m = '_' ∨ m = '*'
  | .note s => ']' ∉ s ∧ ((∃ c ∈ s, ¬ isElapsed (lower c)) ∨ ∀ c ∈ s, lower c = ':')
  | .elapsed s => ']' ∉ s ∧ (∀ c ∈ s, isElapsed (lower c)) ∧ ∃ c ∈ s, lower c ≠ ':'
  | .char c => c ≠ '"' ∧ c ≠ '\\' ∧ c ≠ '_' ∧ c ≠ '*' ∧ c ≠ '['

/-- How a part is written. -/
def Part.write : Part → List Char
  | .quote s => '"' :: s ++ ['"']
  | .mark m c => [m, c]
  | .note s => '[' :: s ++ [']']
  | .elapsed s => '[' :: s ++ [']']
  | .char c => [c]

/-- What a part says about the class. -/
def Part.says : Part → List Char
  | .quote _ => []
  | .mark _ _ => []
  | .note _ => []
  | .elapsed s => '[' :: s.map lower ++ [']']
  | .char c => [lower c]

theorem scan_quote (s rest : List Char) (h : '"' ∉ s) :
    scan .quoted (s ++ '"' :: rest) = scan .plain rest := by
  induction s with
  | nil => simp [scan]
  | cons c s ih =>
    simp only [List.mem_cons, not_or] at h
    simp [scan, Ne.symm h.1, ih h.2]

theorem scan_bracket (s r rest : List Char) (h : ']' ∉ s) :
    scan (.bracket r) (s ++ ']' :: rest) = bracketOut (r ++ s) ++ scan .plain rest := by
  induction s generalizing r with
  | nil => simp [scan]
  | cons c s ih =>
    simp only [List.mem_cons, not_or] at h
    simp [scan, Ne.symm h.1, ih _ h.2]

theorem out_note (s : List Char)
    (h : (∃ c ∈ s, ¬ isElapsed (lower c)) ∨ ∀ c ∈ s, lower c = ':') : bracketOut s = [] := by
  unfold bracketOut
  simp only
  rw [if_neg]
  rintro ⟨h1, h2⟩
  simp only [List.all_map, List.all_eq_true, Function.comp, Bool.or_eq_true,
    decide_eq_true_eq] at h1
  simp only [List.any_map, List.any_eq_true, Function.comp, Bool.or_eq_true,
    decide_eq_true_eq] at h2
  rcases h with ⟨c, hc, hn⟩ | h
  · apply hn
    have := h1 c hc
    unfold isElapsed
    tauto
  · obtain ⟨c, hc, hcs⟩ := h2
    rw [h c hc] at hcs
    revert hcs; decide

theorem out_elapsed (s : List Char) (h1 : ∀ c ∈ s, isElapsed (lower c))
    (h2 : ∃ c ∈ s, lower c ≠ ':') : bracketOut s = '[' :: s.map lower ++ [']'] := by
  unfold bracketOut
  simp only
  rw [if_pos]
  constructor
  · simp only [List.all_map, List.all_eq_true, Function.comp, Bool.or_eq_true,
      decide_eq_true_eq]
    intro c hc
    have := h1 c hc
    unfold isElapsed at this
    tauto
  · simp only [List.any_map, List.any_eq_true, Function.comp, Bool.or_eq_true,
      decide_eq_true_eq]
    obtain ⟨c, hc, hn⟩ := h2
    refine ⟨c, hc, ?_⟩
    have := h1 c hc
    unfold isElapsed at this
    tauto

theorem scan_part (p : Part) (h : p.Ok) (rest : List Char) :
    scan .plain (p.write ++ rest) = p.says ++ scan .plain rest := by
  cases p with
  | quote s =>
    simp only [Part.Ok] at h
    simp [Part.write, Part.says, scan, scan_quote _ _ h]
  | mark m c =>
    simp only [Part.Ok] at h
    rcases h with rfl | rfl | rfl <;> simp [Part.write, Part.says, scan]
  | note s =>
    simp only [Part.Ok] at h
    simp [Part.write, Part.says, scan, scan_bracket _ _ _ h.1, out_note s h.2]
  | elapsed s =>
    simp only [Part.Ok] at h
    simp [Part.write, Part.says, scan, scan_bracket _ _ _ h.1, out_elapsed s h.2.1 h.2.2]
  | char c =>
    simp only [Part.Ok] at h
    simp [Part.write, Part.says, scan, h]

theorem visible_parts (ps : List Part) (h : ∀ p ∈ ps, p.Ok) :
    visible (ps.flatMap Part.write) = ps.flatMap Part.says := by
  unfold visible
  induction ps with
  | nil => rfl
  | cons p ps ih =>
    rw [List.flatMap_cons, List.flatMap_cons, scan_part p (h p (by simp)),
      ih (fun q hq => h q (by simp [hq]))]

/-- **C115.** The class of a code depends only on what the parts of its first section say: texts in
quotes, escaped characters, colours, conditions and locales say nothing, and letters count in either
case.  The parts must not contain a semicolon; `quoted_semicolon_fails` shows why. -/
theorem class_parts_partial (ws : Char → Bool) (ps : List Part) (h : ∀ p ∈ ps, p.Ok)
    (hs : ';' ∉ ps.flatMap Part.write) (rest : List Char)
    (hr : rest = [] ∨ ∃ r, rest = ';' :: r)
    (hg : (ps.flatMap Part.write ++ rest).map lower ≠ "general".toList) :
    classify ws (ps.flatMap Part.write ++ rest) = classOf ws (ps.flatMap Part.says) := by
  have ht : (ps.flatMap Part.write ++ rest).takeWhile (· ≠ ';') = ps.flatMap Part.write := by
    rw [List.takeWhile_append_of_pos]
    · rcases hr with rfl | ⟨r, rfl⟩ <;> simp
    · intro c hc
      simp only [ne_eq, decide_not, Bool.not_eq_eq_eq_not, Bool.not_true, decide_eq_false_iff_not]
      rintro rfl
      exact hs hc
  unfold classify
  rw [if_neg hg, ht, visible_parts ps h]

/-- Days that are a unit and not a date. -/
example : classify (· = ' ') "[Red]0.00 \"days\";0".toList = .number 2 false := by decide

/-- **C115.** Texts in quotes change nothing. -/
theorem quote_says_nothing (ws : Char → Bool) (ps qs : List Part) (t : List Char) (ht : '"' ∉ t)
    (ht' : ';' ∉ t) (h : ∀ p ∈ ps ++ qs, p.Ok) (hs : ';' ∉ (ps ++ qs).flatMap Part.write)
    (hg : ((ps ++ qs).flatMap Part.write).map lower ≠ "general".toList) :
    classify ws ((ps ++ .quote t :: qs).flatMap Part.write) =
      classify ws ((ps ++ qs).flatMap Part.write) := by
  have e2 := class_parts_partial ws (ps ++ qs) h hs [] (Or.inl rfl) (by simpa using hg)
  have e1 := class_parts_partial ws (ps ++ .quote t :: qs)
    (by
      intro p hp
      simp only [List.mem_append, List.mem_cons] at hp
      rcases hp with hp | rfl | hp
      · exact h p (by simp [hp])
      · exact ht
      · exact h p (by simp [hp]))
    (by
      simp only [List.flatMap_append, List.mem_append, List.flatMap_cons, not_or] at hs ⊢
      refine ⟨hs.1, ?_, hs.2⟩
      simp [Part.write, ht'])
    [] (Or.inl rfl)
    (by
      intro he
      have hm : '"' ∈ "general".toList := by
        rw [← he]
        refine List.mem_map.mpr ⟨'"', ?_, by decide⟩
        simp [Part.write]
      revert hm; decide)
  simp only [List.append_nil] at e1 e2
  rw [e1, e2]
  simp [Part.says]

/-- **C115, refuted.** Sections are cut before quotes are read: a semicolon in quotes ends the first
section, and a number becomes something else. -/
theorem quoted_semicolon_fails (ws : Char → Bool) (hw : ws '@' = false) :
    classify ws "\"a;b\"0.00".toList = .other ∧
      classify ws "\"a,b\"0.00".toList = .number 2 false := by
  have h1 : visible ("\"a;b\"0.00".toList.takeWhile (· ≠ ';')) = [] := by decide
  have h2 : visible ("\"a,b\"0.00".toList.takeWhile (· ≠ ';')) = "0.00".toList := by decide
  unfold classify
  rw [if_neg (by decide), if_neg (by decide), h1, h2]
  have t2 : ¬ trim ws "0.00".toList = ['@'] := by
    intro h
    have hm : '@' ∈ trim ws "0.00".toList := by rw [h]; simp
    unfold trim at hm
    have := (List.dropWhile_sublist _).mem (List.mem_reverse.mp hm)
    have := (List.dropWhile_sublist _).mem (List.mem_reverse.mp this)
    revert this; decide
  unfold classOf
  constructor
  · rw [if_neg (by simp [trim])]; decide
  · rw [if_neg t2]; decide

/-! ## Upper and lower case -/

theorem lower_nat (c : Char) : (lower c).toNat =
    if 65 ≤ c.toNat ∧ c.toNat ≤ 90 then c.toNat + 32 else c.toNat := by
  unfold lower
  rw [show 'A'.toNat = 65 from rfl, show 'Z'.toNat = 90 from rfl]
  by_cases h : 65 ≤ c.toNat ∧ c.toNat ≤ 90
  · rw [if_pos h, if_pos h, Char.ofNat, dif_pos (show (c.toNat + 32).isValidChar by
      left; omega)]
    rfl
  · rw [if_neg h, if_neg h]

theorem lower_lower (c : Char) : lower (lower c) = lower c := by
  apply Char.toNat_inj.mp
  rw [lower_nat (lower c), lower_nat c]
  repeat' split
  all_goals omega

/-- Only itself becomes a character that is not a letter. -/
theorem lower_eq (c d : Char) (hd : d.toNat < 65 ∨ (90 < d.toNat ∧ d.toNat < 97) ∨ 122 < d.toNat) :
    lower c = d ↔ c = d := by
  rw [← Char.toNat_inj, ← Char.toNat_inj, lower_nat]
  split <;> omega

theorem out_lower (r : List Char) : bracketOut (r.map lower) = bracketOut r := by
  unfold bracketOut
  have : (r.map lower).map lower = r.map lower := by
    rw [List.map_map]
    exact List.map_congr_left fun c _ => lower_lower c
  rw [this]

/-- A state with its bracket in lower case. -/
def St.low : St → St
  | .bracket r => .bracket (r.map lower)
  | s => s

theorem scan_lower (st : St) (s : List Char) : scan st.low (s.map lower) = scan st s := by
  induction s generalizing st with
  | nil => cases st <;> simp [St.low, scan, out_lower]
  | cons c s ih =>
    have hq := lower_eq c '"' (by decide)
    have hb := lower_eq c '\\' (by decide)
    have hu := lower_eq c '_' (by decide)
    have ha := lower_eq c '*' (by decide)
    have ho := lower_eq c '[' (by decide)
    have hc := lower_eq c ']' (by decide)
    have i1 := ih .plain
    have i2 := ih .quoted
    have i3 := ih .hidden
    have i4 := ih (.bracket [])
    simp only [St.low, List.map_nil] at i1 i2 i3 i4
    cases st with
    | plain => simp [St.low, scan, hq, hb, hu, ha, ho, i1, i2, i3, i4, lower_lower]
    | quoted => simp [St.low, scan, hq, i1, i2]
    | hidden => simp [St.low, scan, i1]
    | bracket r =>
      have i5 := ih (.bracket (r ++ [c]))
      simp only [St.low, List.map_append, List.map_cons, List.map_nil] at i5
      simp [St.low, scan, hc, i1, i5, out_lower]

/-- **C115.** Codes count the same in upper and lower case. -/
theorem class_case (ws : Char → Bool) (code : List Char) :
    classify ws (code.map lower) = classify ws code := by
  have hm : (code.map lower).map lower = code.map lower := by
    rw [List.map_map]
    exact List.map_congr_left fun c _ => lower_lower c
  have ht : (code.map lower).takeWhile (· ≠ ';') = (code.takeWhile (· ≠ ';')).map lower := by
    rw [List.takeWhile_map]
    congr 2
    funext c
    simp [lower_eq c ';' (by decide)]
  unfold classify
  rw [hm, ht]
  have := scan_lower .plain (code.takeWhile (· ≠ ';'))
  simp only [St.low] at this
  unfold visible
  rw [this]

example : classify (· = ' ') "YYYY-MM-DD".toList = .date := by decide

/-! ## Reading again -/

theorem trim_trim (ws : Char → Bool) (s : List Char) : trim ws (trim ws s) = trim ws s := by
  have key : ∀ l : List Char, (l.dropWhile ws).head? = none ∨
      ∃ c, (l.dropWhile ws).head? = some c ∧ ws c = false := by
    intro l
    induction l with
    | nil => simp
    | cons c l ih =>
      by_cases h : ws c = true
      · simpa [List.dropWhile_cons, h] using ih
      · right; exact ⟨c, by simp [List.dropWhile_cons, h], by simpa using h⟩
  have idem : ∀ l : List Char, (∀ c, l.head? = some c → ws c = false) → l.dropWhile ws = l := by
    intro l h
    cases l with
    | nil => rfl
    | cons c l => simp [List.dropWhile_cons, h c rfl]
  unfold trim
  have hA : ∀ c, (s.dropWhile ws).head? = some c → ws c = false := by
    intro c hc
    rcases key s with h | ⟨d, h, hd⟩
    · rw [h] at hc; cases hc
    · rw [h] at hc; cases hc; exact hd
  generalize s.dropWhile ws = t at hA
  have hB : ∀ c, (t.reverse.dropWhile ws).head? = some c → ws c = false := by
    intro c hc
    rcases key t.reverse with h | ⟨d, h, hd⟩
    · rw [h] at hc; cases hc
    · rw [h] at hc; cases hc; exact hd
  have hC : ∀ c, ((t.reverse.dropWhile ws).reverse).head? = some c → ws c = false := by
    intro c hc
    apply hA
    have hsuf := List.dropWhile_suffix (l := t.reverse) ws
    obtain ⟨pre, hpre⟩ := hsuf
    have : t = (t.reverse.dropWhile ws).reverse ++ pre.reverse := by
      rw [← List.reverse_append, hpre, List.reverse_reverse]
    rw [this, List.head?_append, hc]
    rfl
  rw [idem _ hC, List.reverse_reverse, idem _ hB]

/-- **C115.** A format read from the code of a format is that format. -/
theorem parse_again (ws : Char → Bool) (code : List Char) :
    parse ws (parse ws code).code = parse ws code := by
  unfold parse
  simp only [trim_trim]

theorem dropWhile_prefix (ws : Char → Bool) (l m : List Char) (hl : ∀ c ∈ l, ws c = true)
    (hm : ∀ c, m.head? = some c → ws c = false) : (l ++ m).dropWhile ws = m := by
  induction l with
  | nil =>
    cases m with
    | nil => rfl
    | cons c m => simp [hm c rfl]
  | cons c l ih =>
    rw [List.cons_append, List.dropWhile_cons_of_pos (hl c (List.mem_cons_self ..))]
    exact ih fun c hc => hl c (List.mem_cons_of_mem _ hc)

/-- **C115.** Blanks around a code are not part of it and change nothing. -/
theorem parse_spaces (ws : Char → Bool) (l code r : List Char) (hl : ∀ c ∈ l, ws c = true)
    (hr : ∀ c ∈ r, ws c = true) (h0 : code ≠ []) (h1 : ∀ c, code.head? = some c → ws c = false)
    (h2 : ∀ c, code.getLast? = some c → ws c = false) :
    (parse ws (l ++ (code ++ r))).code = code ∧ parse ws (l ++ (code ++ r)) = parse ws code := by
  have t : ∀ l r : List Char, (∀ c ∈ l, ws c = true) → (∀ c ∈ r, ws c = true) →
      trim ws (l ++ (code ++ r)) = code := by
    intro l r hl hr
    unfold trim
    rw [dropWhile_prefix ws l (code ++ r) hl (by
      intro c hc
      cases code with
      | nil => exact absurd rfl h0
      | cons x code => exact h1 c hc), List.reverse_append,
      dropWhile_prefix ws r.reverse code.reverse (by simpa using hr) (by simpa using h2),
      List.reverse_reverse]
  have t0 : trim ws code = code := by
    have := t [] [] (by simp) (by simp)
    simpa using this
  unfold parse
  rw [t l r hl hr, t0]
  exact ⟨rfl, rfl⟩

example : (parse (· = ' ') "  0.00 ".toList).code = "0.00".toList := by decide

/-! ## Decimals -/

/-- **C115.** The decimals of a number are the places for digits right after the first point, up to
255. -/
theorem decimals_spec (pre places post : List Char) (hpre : '.' ∉ pre)
    (hpl : ∀ c ∈ places, c = '0' ∨ c = '#' ∨ c = '?')
    (hpost : ∀ c, post.head? = some c → c ≠ '0' ∧ c ≠ '#' ∧ c ≠ '?') :
    decimals (pre ++ '.' :: places ++ post) = min places.length 255 ∧ decimals pre = 0 := by
  have hd : ∀ rest : List Char, (pre ++ rest).dropWhile (· ≠ '.') = rest.dropWhile (· ≠ '.') := by
    intro rest
    rw [List.dropWhile_append_of_pos]
    intro c hc
    simp only [ne_eq, decide_not, Bool.not_eq_eq_eq_not, Bool.not_true, decide_eq_false_iff_not]
    rintro rfl
    exact hpre hc
  constructor
  · unfold decimals
    rw [List.append_assoc, hd]
    simp only [List.cons_append, List.dropWhile_cons, ne_eq, not_true_eq_false, decide_false,
      Bool.false_eq_true, if_false]
    rw [List.takeWhile_append_of_pos]
    · have : post.takeWhile isDigitPlace = [] := by
        cases post with
        | nil => rfl
        | cons c post =>
          have := hpost c rfl
          simp [List.takeWhile_cons, isDigitPlace, this]
      rw [this, List.append_nil]
    · intro c hc
      have := hpl c hc
      simp [isDigitPlace]
      tauto
  · have := hd []
    simp only [List.append_nil] at this
    unfold decimals
    rw [this]
    rfl

example : decimals "#,##0.00_)".toList = 2 := by decide

/-! ## Dates and times -/

/-- Dates, times and both. -/
def Class.temporal (c : Class) : Prop := c = .date ∨ c = .time ∨ c = .dateTime ∨ c = .duration

/-- **C115.** A section without an elapsed time that is not `@` is a date if it names a year or a day
and no hour, second or half of the day; a time if it is the other way round; both if it names both;
and neither if it names none of them. -/
theorem temporal_spec (ws : Char → Bool) (v : List Char) (ht : trim ws v ≠ ['@'])
    (he : has "[h]".toList v = false ∧ has "[m]".toList v = false ∧ has "[s]".toList v = false)
    (D T : Prop) (hD : D ↔ 'y' ∈ v ∨ 'd' ∈ v)
    (hT : T ↔ 'h' ∈ v ∨ 's' ∈ v ∨ has "am/pm".toList v = true ∨ has "a/p".toList v = true) :
    (classOf ws v = .date ↔ D ∧ ¬ T) ∧ (classOf ws v = .time ↔ T ∧ ¬ D) ∧
      (classOf ws v = .dateTime ↔ D ∧ T) ∧ classOf ws v ≠ .duration := by
  unfold classOf
  rw [if_neg ht, he.1, he.2.1, he.2.2]
  simp only [Bool.or_false, Bool.false_eq_true, if_false]
  have d1 : ((v.contains 'y' || v.contains 'd') = true) ↔ D := by rw [hD]; simp
  have t1 : ((v.contains 'h' || v.contains 's' || (has "am/pm".toList v || has "a/p".toList v))
      = true) ↔ T := by
    rw [hT]; simp [or_assoc]
  generalize (v.contains 'y' || v.contains 'd') = d at d1
  generalize (v.contains 'h' || v.contains 's' || (has "am/pm".toList v || has "a/p".toList v)) = t
    at t1
  by_cases hd : D
  · by_cases htt : T
    · have e1 := d1.mpr hd
      have e2 := t1.mpr htt
      simp [e1, e2, hd, htt]
    · have e1 := d1.mpr hd
      have e2 : t = false := by
        cases t with
        | true => exact absurd (t1.mp rfl) htt
        | false => rfl
      simp [e1, e2, hd, htt]
  · have e1 : d = false := by
      cases d with
      | true => exact absurd (d1.mp rfl) hd
      | false => rfl
    by_cases htt : T
    · have e2 := t1.mpr htt
      simp [e1, e2, hd, htt]
    · have e2 : t = false := by
        cases t with
        | true => exact absurd (t1.mp rfl) htt
        | false => rfl
      simp only [e1, e2, hd, htt, Bool.and_false, Bool.false_and, Bool.false_eq_true, if_false,
        false_and, and_false, iff_false, not_false_eq_true, and_true]
      refine ⟨?_, ?_, ?_, ?_⟩ <;> (repeat' split) <;> simp

/-- **C115.** Of the formats built in, those of dates and times are 14 to 22 and 45 to 47.
(None of the codes begins or ends with white space.) -/
theorem builtin_temporal (id : Nat) (code : String) (h : builtin id = some code) :
    (parse (· = ' ') code.toList).cls.temporal ↔ (14 ≤ id ∧ id ≤ 22) ∨ (45 ≤ id ∧ id ≤ 47) := by
  unfold builtin at h
  unfold Class.temporal
  split at h <;> first | (obtain rfl := Option.some.inj h; decide) | cases h

/-- **C115, refuted.** A month alone is not a date. -/
theorem month_fails : classify (· = ' ') "mmmm".toList = .other := by decide

/-- **C115, refuted.** Elapsed hours written with two letters are a time of the day. -/
theorem elapsed_fails : classify (· = ' ') "[hh]:mm:ss".toList = .time ∧
    classify (· = ' ') "[h]:mm:ss".toList = .duration := by decide

/-- **C115, refuted.** A currency in brackets, as files hold it, is lost. -/
theorem currency_fails : classify (· = ' ') "[$€-407] #,##0.00".toList = .number 2 true ∧
    classify (· = ' ') "€ #,##0.00".toList = .currency 2 := by decide

/-- **C115, refuted.** General with a section for negative numbers is not general. -/
theorem general_fails : classify (· = ' ') "General;-General".toList = .other := by decide

theorem has_mem (p v : List Char) (h : has p v = true) : ∀ c ∈ p, c ∈ v := by
  induction v with
  | nil =>
    intro c hc
    exact (List.isPrefixOf_iff_prefix.mp h).subset hc
  | cons x v ih =>
    intro c hc
    unfold has at h
    rcases Bool.or_eq_true_iff.mp h with h | h
    · exact (List.isPrefixOf_iff_prefix.mp h).subset hc
    · exact List.mem_cons_of_mem _ (ih h c hc)

theorem has_not (p v : List Char) (c : Char) (hp : c ∈ p) (h : c ∉ v) : has p v = false := by
  cases hh : has p v with
  | false => rfl
  | true => exact absurd (has_mem p v hh c hp) h

/-- **C115.** What a code without letters of dates and times is: a percentage if it has a percent
sign; otherwise scientific if it has an exponent; otherwise a fraction, an amount of money, or a
number, with as many decimals as it has places for them. -/
theorem numeric_spec (ws : Char → Bool) (v : List Char) (ht : trim ws v ≠ ['@'])
    (hc : 'a' ∉ v ∧ 'd' ∉ v ∧ 'h' ∉ v ∧ 'm' ∉ v ∧ 's' ∉ v ∧ 'y' ∉ v) :
    ('%' ∈ v → classOf ws v = .percent (decimals v)) ∧
    ('%' ∉ v → has ['e', '+'] v = true ∨ has ['e', '-'] v = true → classOf ws v = .scientific) ∧
    ('%' ∉ v → 'e' ∉ v → '/' ∈ v → '?' ∈ v ∨ '#' ∈ v → classOf ws v = .fraction) ∧
    ('%' ∉ v → 'e' ∉ v → '/' ∉ v → '$' ∈ v ∨ '€' ∈ v ∨ '£' ∈ v ∨ '¥' ∈ v →
      classOf ws v = .currency (decimals v)) ∧
    ('%' ∉ v → 'e' ∉ v → '/' ∉ v → '$' ∉ v ∧ '€' ∉ v ∧ '£' ∉ v ∧ '¥' ∉ v →
      ('0' ∈ v ∨ '#' ∈ v ∨ '?' ∈ v → classOf ws v = .number (decimals v) (decide (',' ∈ v))) ∧
      ('0' ∉ v ∧ '#' ∉ v ∧ '?' ∉ v → classOf ws v = .other)) := by
  obtain ⟨ha, hd, hh, hm, hs, hy⟩ := hc
  have e1 : has "[h]".toList v = false := has_not _ v 'h' (by decide) hh
  have e2 : has "[m]".toList v = false := has_not _ v 'm' (by decide) hm
  have e3 : has "[s]".toList v = false := has_not _ v 's' (by decide) hs
  have e4 : has "am/pm".toList v = false := has_not _ v 'm' (by decide) hm
  have e5 : has "a/p".toList v = false := has_not _ v 'a' (by decide) ha
  have c1 : v.contains 'y' = false := by simpa using hy
  have c2 : v.contains 'd' = false := by simpa using hd
  have c3 : v.contains 'h' = false := by simpa using hh
  have c4 : v.contains 's' = false := by simpa using hs
  have base : classOf ws v = if v.contains '%' then .percent (decimals v)
    else if has "e+".toList v || has "e-".toList v then .scientific
    else if v.contains '/' && v.any (fun c => c = '?' || c = '#') then .fraction
    else if v.contains '$' || v.contains '€' || v.contains '£' || v.contains '¥' then
      .currency (decimals v)
    else if v.any isDigitPlace then .number (decimals v) (v.contains ',')
    else .other := by
    unfold classOf
    rw [if_neg ht, e1, e2, e3, e4, e5, c1, c2, c3, c4]
    rfl
  have exps : 'e' ∉ v → has "e+".toList v = false ∧ has "e-".toList v = false := fun h =>
    ⟨has_not _ v 'e' (by decide) h, has_not _ v 'e' (by decide) h⟩
  have k : ∀ {c : Char}, c ∉ v → v.contains c = false := fun h => by simpa using h
  have k' : ∀ {c : Char}, c ∈ v → v.contains c = true := fun h => by simpa using h
  rw [base]
  refine ⟨fun h => by rw [k' h, if_pos rfl], fun h h' => ?_, fun h he hf hq => ?_,
    fun h he hf hm => ?_, fun h he hf hm => ⟨fun hz => ?_, fun hz => ?_⟩⟩
  · rw [k h, if_neg (by decide), if_pos]
    exact Bool.or_eq_true_iff.mpr h'
  · rw [k h, (exps he).1, (exps he).2, k' hf, if_neg (by decide), if_neg (by decide), if_pos]
    rw [Bool.true_and, List.any_eq_true]
    rcases hq with hq | hq
    · exact ⟨_, hq, by decide⟩
    · exact ⟨_, hq, by decide⟩
  · rw [k h, (exps he).1, (exps he).2, k hf, if_neg (by decide), if_neg (by decide),
      if_neg (by rw [Bool.false_and]; decide), if_pos]
    rcases hm with hm | hm | hm | hm <;> rw [k' hm] <;> simp
  · rw [k h, (exps he).1, (exps he).2, k hf, k hm.1, k hm.2.1, k hm.2.2.1, k hm.2.2.2,
      if_neg (by decide), if_neg (by decide), if_neg (by rw [Bool.false_and]; decide),
      if_neg (by decide), if_pos]
    · congr 1
      simp
    · rw [List.any_eq_true]
      rcases hz with hz | hz | hz <;> exact ⟨_, hz, by decide⟩
  · rw [k h, (exps he).1, (exps he).2, k hf, k hm.1, k hm.2.1, k hm.2.2.1, k hm.2.2.2,
      if_neg (by decide), if_neg (by decide), if_neg (by rw [Bool.false_and]; decide),
      if_neg (by decide), if_neg]
    rw [List.any_eq_true]
    rintro ⟨c, hcv, hcz⟩
    unfold isDigitPlace at hcz
    simp only [Bool.or_eq_true, decide_eq_true_eq] at hcz
    rcases hcz with (rfl | rfl) | rfl
    · exact hz.1 hcv
    · exact hz.2.1 hcv
    · exact hz.2.2 hcv

example : classOf (· = ' ') "0.00%".toList = .percent 2 ∧
    classOf (· = ' ') "0.0e-0".toList = .scientific ∧ classOf (· = ' ') "# ?/?".toList = .fraction ∧
    classOf (· = ' ') "$0.00".toList = .currency 2 ∧
    classOf (· = ' ') "#,##0.0".toList = .number 1 true := by decide

end Verif.NumFmt
