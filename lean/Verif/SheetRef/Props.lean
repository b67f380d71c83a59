import Verif.SheetRef.Model
import Verif.A1.Props

/-!
# C06: sheet-name quoting, and C29: reference text round trip
-/

namespace Verif.SheetRef
open Verif.A1

/-! ## Helper lemmas -/

theorem readQuoted_escape (rest : List Char) (hrest : rest.head? ≠ some '\'') : ∀ n : List Char,
    readQuoted (escapeQuotes n ++ '\'' :: rest) = some (escapeQuotes n, rest) := by
  intro n
  induction n with
  | nil =>
    simp only [escapeQuotes, List.nil_append]
    cases rest with
    | nil => rfl
    | cons c r =>
      have : c ≠ '\'' := fun h => hrest (by simp [h])
      rw [readQuoted]
      intro r' h
      simp at h
      exact this h.1
  | cons c n ih =>
    rw [escapeQuotes]
    by_cases h : c = '\''
    · subst h
      simp only [if_true, List.cons_append]
      rw [readQuoted, ih]; rfl
    · simp only [h, if_false, List.cons_append]
      rw [readQuoted, ih]
      · rfl
      · intro r h'; exact absurd h' h
      · exact h

theorem unescape_escape (n : List Char) : unescapeQuotes (escapeQuotes n) = n := by
  induction n with
  | nil => rfl
  | cons c n ih =>
    rw [escapeQuotes]
    by_cases h : c = '\''
    · subst h; simp only [if_true]; rw [unescapeQuotes, ih]
    · simp only [h, if_false]
      rw [unescapeQuotes, ih]
      intro r h'; exact absurd h' h

theorem splitAt?_append (c : Char) (a b : List Char) (h : c ∉ a) :
    splitAt? c (a ++ c :: b) = some (a, b) := by
  induction a with
  | nil => simp [splitAt?]
  | cons d a ih =>
    have hd : d ≠ c := fun e => h (by simp [e])
    simp only [List.cons_append, splitAt?, hd, if_false]
    rw [ih (fun hm => h (by simp [hm]))]; rfl

theorem splitAt?_none (c : Char) (a : List Char) (h : c ∉ a) : splitAt? c a = none := by
  induction a with
  | nil => rfl
  | cons d a ih =>
    have hd : d ≠ c := fun e => h (by simp [e])
    simp only [splitAt?, hd, if_false]
    rw [ih (fun hm => h (by simp [hm]))]; rfl

theorem unquoted_clean (upper : List Char → List Char) (n : List Char)
    (h : needsQuoting upper n = false) : ∀ c ∈ n, c ∉ specialChars := by
  intro c hc hs
  unfold needsQuoting at h
  have hne : n ≠ [] := by rintro rfl; cases hc
  rw [if_neg hne] at h
  split at h
  · cases h
  · split at h
    · cases h
    · rename_i h2
      apply h2
      rw [List.any_eq_true]
      exact ⟨c, hc, by simpa using hs⟩

theorem readSegment_bare (s rest : List Char) (hs : s ≠ []) (hstop : ∀ c ∈ s, bareStop c = false)
    (hrest : ∀ x, rest.head? = some x → bareStop x = true) :
    readSegment (s ++ rest) = some (s, rest) := by
  obtain ⟨c, s', rfl⟩ := List.exists_cons_of_ne_nil hs
  have hc : c ≠ '\'' := by
    rintro rfl; have := hstop '\'' (by simp); simp [bareStop] at this
  have t1 := takeWhile_append_stop (fun c => !bareStop c) (c :: s') rest
    (fun x hx => by simp [hstop x hx]) (fun x hx => by simp [hrest x hx])
  have t2 := dropWhile_append_stop (fun c => !bareStop c) (c :: s') rest
    (fun x hx => by simp [hstop x hx]) (fun x hx => by simp [hrest x hx])
  unfold readSegment
  split
  · rename_i h; simp at h
  · rename_i h; simp at h; exact absurd h.1 hc
  · rw [t1, t2]; simp

theorem readSegment_quoted (n rest : List Char) (hrest : rest.head? ≠ some '\'') :
    readSegment ('\'' :: (escapeQuotes n ++ '\'' :: rest)) = some (n, rest) := by
  unfold readSegment
  simp only [readQuoted_escape rest hrest n, Option.map_some, unescape_escape]

/-- Names that the bare-segment reader reads whole: no tab, line feed or carriage return. -/
def NoControl (n : List Char) : Prop := ∀ c ∈ n, c ≠ '\t' ∧ c ≠ '\n' ∧ c ≠ '\r'

theorem special_of_stop (c : Char) (h : bareStop c = true) (hs : c ∉ specialChars) :
    c = '\t' ∨ c = '\n' ∨ c = '\r' := by
  unfold bareStop at h
  simp only [Bool.or_eq_true, decide_eq_true_eq] at h
  rcases h with (((((h | h) | h) | h) | h) | h) | h
  · subst h; exact absurd (by decide) hs
  · subst h; exact absurd (by decide) hs
  · subst h; exact absurd (by decide) hs
  · subst h; exact absurd (by decide) hs
  · exact Or.inl h
  · exact Or.inr (Or.inl h)
  · exact Or.inr (Or.inr h)

theorem readSegment_format (upper : List Char → List Char) (n rest : List Char) (hn : n ≠ [])
    (hctl : needsQuoting upper n = true ∨ NoControl n)
    (hrest : rest.head? = some ':' ∨ rest.head? = some '!') :
    readSegment (formatSheet upper n ++ rest) = some (n, rest) := by
  unfold formatSheet
  cases hq : needsQuoting upper n with
  | true =>
    simp only [if_true, List.cons_append, List.append_assoc, List.nil_append]
    apply readSegment_quoted
    rcases hrest with h | h <;> rw [h] <;> decide
  | false =>
    simp only [Bool.false_eq_true, if_false]
    have hc : NoControl n := by
      rcases hctl with h | h
      · rw [hq] at h; cases h
      · exact h
    apply readSegment_bare n rest hn
    · intro c hcm
      rw [← Bool.not_eq_true]
      intro hs
      have := special_of_stop c hs (unquoted_clean upper n hq c hcm)
      have := hc c hcm
      grind
    · intro x hx
      rcases hrest with h | h <;> rw [h] at hx <;> cases hx <;> decide

/-! ## C06 -/

/-- **C06**: for every non-empty sheet name and every reference text, the text
`format(name) ! reference` is split back into exactly that name and that reference.
(`upper` is the Unicode upper-casing used for the reserved-word test: any function.) -/
theorem sheet_prefix_roundtrip (upper : List Char → List Char) (name ref : List Char)
    (hn : name ≠ []) :
    extractSpec (formatSheet upper name ++ '!' :: ref) = (.single name, ref) := by
  by_cases hctl : needsQuoting upper name = true ∨ NoControl name
  · unfold extractSpec
    rw [readSegment_format upper name ('!' :: ref) hn hctl (Or.inr rfl)]
    rfl
  · -- unquoted name containing a tab, LF or CR: handled by the fallback
    rw [not_or] at hctl
    have hq : needsQuoting upper name = false := by simpa using hctl.1
    have clean := unquoted_clean upper name hq
    have hbang : '!' ∉ name := fun h => absurd (by decide) (clean _ h)
    unfold formatSheet
    rw [hq]
    simp only [Bool.false_eq_true, if_false]
    have fb : extractFallback (name ++ '!' :: ref) = (.single name, ref) := by
      obtain ⟨c, n', rfl⟩ := List.exists_cons_of_ne_nil hn
      unfold extractFallback
      simp only [List.cons_append]
      rw [splitAt?_append '!' n' ref (fun h => hbang (by simp [h]))]
    have hne : ∃ d ∈ name, bareStop d = true := by
      have h2 := hctl.2
      unfold NoControl at h2
      rw [Classical.not_forall] at h2
      obtain ⟨d, hd⟩ := h2
      rw [Classical.not_imp] at hd
      refine ⟨d, hd.1, ?_⟩
      have := hd.2
      unfold bareStop
      by_cases h1 : d = '\t'
      · simp [h1]
      by_cases h2 : d = '\n'
      · simp [h2]
      by_cases h3 : d = '\r'
      · simp [h3]
      exact absurd ⟨h1, h2, h3⟩ this
    have hsplit : name = name.takeWhile (fun c => !bareStop c) ++ name.dropWhile (fun c => !bareStop c) :=
      (List.takeWhile_append_dropWhile).symm
    have hall : ∀ c ∈ name.takeWhile (fun c => !bareStop c), bareStop c = false := by
      intro c hc
      have := List.all_eq_true.1 (List.all_takeWhile) c hc
      simpa using this
    obtain ⟨d, q, hdq⟩ : ∃ d q, name.dropWhile (fun c => !bareStop c) = d :: q := by
      cases hdw : name.dropWhile (fun c => !bareStop c) with
      | nil =>
        rw [hdw, List.append_nil] at hsplit
        obtain ⟨d, hd, hs⟩ := hne
        rw [hsplit] at hd
        rw [hall d hd] at hs; cases hs
      | cons d q => exact ⟨d, q, rfl⟩
    have hdstop : bareStop d = true := by
      have := List.head?_dropWhile_not (p := fun c => !bareStop c) (l := name)
      rw [hdq] at this
      simpa using this
    have hdm : d ∈ name := by rw [hsplit, hdq]; simp
    have hdctl := special_of_stop d hdstop (clean d hdm)
    generalize hp : name.takeWhile (fun c => !bareStop c) = p at *
    rw [hdq] at hsplit
    unfold extractSpec
    by_cases hp0 : p = []
    · subst hp0
      have : readSegment (name ++ '!' :: ref) = none := by
        rw [hsplit]
        simp only [List.nil_append, List.cons_append]
        unfold readSegment
        split
        · rfl
        · rename_i h; simp at h
          rcases hdctl with h' | h' | h' <;> (rw [h'] at h; exact absurd h.1 (by decide))
        · simp [hdstop]
      rw [this]; exact fb
    · have : readSegment (name ++ '!' :: ref) = some (p, d :: (q ++ '!' :: ref)) := by
        rw [hsplit]
        simp only [List.append_assoc, List.cons_append]
        apply readSegment_bare p _ hp0 hall
        intro x hx; simp at hx; rw [← hx]; exact hdstop
      rw [this]
      rcases hdctl with h' | h' | h' <;> (subst h'; exact fb)

example (upper : List Char → List Char) : formatSheet upper "Bob's data".toList = "'Bob''s data'".toList := by
  have : needsQuoting upper "Bob's data".toList = true := by rfl
  unfold formatSheet; rw [this]; decide
example (upper : List Char → List Char) : "Bob's data".toList ≠ [] := by decide

/-- **C06**: the empty name is the only exception: its prefix is the bare `!`, which is not read
back as a sheet at all. -/
theorem sheet_prefix_empty (upper : List Char → List Char) (ref : List Char) (h : '!' ∉ ref) :
    extractSpec (formatSheet upper [] ++ '!' :: ref) = (.none, '!' :: ref) := by
  have : formatSheet upper [] = [] := rfl
  rw [this]
  simp only [List.nil_append]
  have hs : readSegment ('!' :: ref) = none := by
    unfold readSegment
    simp [bareStop]
  unfold extractSpec
  rw [hs]
  unfold extractFallback
  simp only [splitAt?_none '!' ref h]

example : '!' ∉ "A1".toList := by decide

/-- **C06**: two different sheet names never format to the same prefix. -/
theorem sheet_format_injective (upper : List Char → List Char) (a b : List Char)
    (h : formatSheet upper a = formatSheet upper b) : a = b := by
  have empty : ∀ n, formatSheet upper n = [] → n = [] := by
    intro n hn
    unfold formatSheet at hn
    split at hn
    · simp at hn
    · exact hn
  by_cases ha : a = []
  · subst ha
    exact (empty b (by rw [← h]; rfl)).symm
  · by_cases hb : b = []
    · subst hb; exact empty a (by rw [h]; rfl)
    · have h1 := sheet_prefix_roundtrip upper a [] ha
      have h2 := sheet_prefix_roundtrip upper b [] hb
      rw [h, h2] at h1
      simpa using h1.symm

example : formatSheet id "A B".toList ≠ formatSheet id "'A B'".toList := by decide

/-- **C06**: a name is left bare only if it does not start with a digit, contains none of the 32
ASCII punctuation characters or the space (so in particular neither an apostrophe, a colon, a bang,
nor an operator), and its upper-case form is not a reserved word. -/
theorem sheet_bare_iff (upper : List Char → List Char) (n : List Char) (hn : n ≠ []) :
    formatSheet upper n = n ↔
      (∀ c, n.head? = some c → c.isDigit = false) ∧
      (∀ c ∈ n, c ∉ " !\"#$%&'()*+,-./:;<=>?@[\\]^`{|}~".toList) ∧
      upper n ∉ ["TRUE", "FALSE", "NULL", "REF", "DIV", "NAME", "NUM", "VALUE", "N/A"].map String.toList := by
  rw [show " !\"#$%&'()*+,-./:;<=>?@[\\]^`{|}~".toList = specialChars from by decide,
    show ["TRUE", "FALSE", "NULL", "REF", "DIV", "NAME", "NUM", "VALUE", "N/A"].map String.toList = reservedWords from by decide]
  have h1 : formatSheet upper n = n ↔ needsQuoting upper n = false := by
    unfold formatSheet
    cases hq : needsQuoting upper n with
    | false => simp
    | true =>
      have hlen : ∀ m : List Char, m.length ≤ (escapeQuotes m).length := by
        intro m
        induction m with
        | nil => simp
        | cons c m ih => rw [escapeQuotes]; split <;> simp <;> omega
      constructor
      · intro h
        have := congrArg List.length h
        simp at this
        have := hlen n; omega
      · intro h; cases h
  rw [h1]
  unfold needsQuoting
  rw [if_neg hn]
  cases n with
  | nil => exact absurd rfl hn
  | cons c n =>
    simp only [List.head?_cons, Option.any_some, Option.some.injEq, forall_eq']
    by_cases hd : c.isDigit = true
    · simp [hd]
    · simp only [Bool.not_eq_true] at hd
      simp only [hd, Bool.false_eq_true, if_false, true_and]
      split
      · rename_i h
        rw [List.any_eq_true] at h
        obtain ⟨x, hx, hs⟩ := h
        constructor
        · intro h; cases h
        · rintro ⟨h, -⟩
          exact absurd (by simpa using hs) (h x hx)
      · rename_i h
        rw [List.any_eq_true] at h
        constructor
        · intro hr
          refine ⟨fun x hx hs => h ⟨x, hx, by simpa using hs⟩, ?_⟩
          intro hm
          have : reservedWords.contains (upper (c :: n)) = true := by simpa using hm
          rw [this] at hr; cases hr
        · rintro ⟨-, h⟩
          rw [← Bool.not_eq_true]
          intro hm; exact h (by simpa using hm)

example : formatSheet (fun s => s.map Char.toUpper) "Sheet1".toList = "Sheet1".toList := by decide
example : formatSheet (fun s => s.map Char.toUpper) "true".toList = "'true'".toList := by decide

/-- **C06**: the 3D prefix `first:last!` is split back into the two names, for non-empty names
which are quoted or contain no tab, LF or CR. -/
theorem sheet_prefix3d_roundtrip_partial (upper : List Char → List Char) (first last ref : List Char)
    (h1 : first ≠ []) (h2 : last ≠ [])
    (c1 : needsQuoting upper first = true ∨ NoControl first)
    (c2 : needsQuoting upper last = true ∨ NoControl last) :
    extractSpec (format3d upper first last ++ '!' :: ref) = (.range first last, ref) := by
  unfold extractSpec format3d
  simp only [List.append_assoc, List.cons_append, List.nil_append]
  rw [readSegment_format upper first _ h1 c1 (Or.inl rfl)]
  simp only
  rw [readSegment_format upper last _ h2 c2 (Or.inr rfl)]
  rfl

example : extractSpec (format3d id "Q 1".toList "Sheet3".toList ++ "!A1".toList) =
    (.range "Q 1".toList "Sheet3".toList, "A1".toList) := by decide

/-- Without that restriction the 3D prefix is not reversible: a tab in an unquoted name makes the
whole prefix be read as one sheet name.  (The quoting test has no case for control characters.) -/
theorem sheet_prefix3d_control_fails (upper : List Char → List Char)
    (hu : upper "a\tb".toList ∉ reservedWords) (hv : upper "c".toList ∉ reservedWords) :
    extractSpec (format3d upper "a\tb".toList "c".toList ++ '!' :: "A1".toList) =
      (.single "a\tb:c".toList, "A1".toList) := by
  have f1 : formatSheet upper "a\tb".toList = "a\tb".toList :=
    (sheet_bare_iff upper _ (by decide)).2 ⟨by decide, by decide, hu⟩
  have f2 : formatSheet upper "c".toList = "c".toList :=
    (sheet_bare_iff upper _ (by decide)).2 ⟨by decide, by decide, hv⟩
  unfold format3d
  rw [f1, f2]
  decide

example : (fun s : List Char => s.map Char.toUpper) "a\tb".toList ∉ reservedWords := by decide

/-! ## C29: reference text round trip -/

theorem extract_none (t : List Char) (h : '!' ∉ t) : extractSpec t = (.none, t) := by
  have fb : extractFallback t = (.none, t) := by
    unfold extractFallback
    cases t with
    | nil => rfl
    | cons c r =>
      simp only
      rw [splitAt?_none '!' r (fun hm => h (by simp [hm]))]
  have rq : ∀ s p, readQuoted s = some p → ∀ x ∈ p.2, x ∈ s := by
    intro s
    fun_induction readQuoted s with
    | case1 => intro p h; cases h
    | case2 r ih =>
      intro p hp x hx
      simp only [Option.map_eq_some_iff] at hp
      obtain ⟨q, hq, rfl⟩ := hp
      have := ih q hq x hx
      simp [this]
    | case3 r _ =>
      intro p hp x hx
      simp at hp; subst hp
      simp at hx; simp [hx]
    | case4 c r _ _ ih =>
      intro p hp x hx
      simp only [Option.map_eq_some_iff] at hp
      obtain ⟨q, hq, rfl⟩ := hp
      have := ih q hq x hx
      simp [this]
  have seg : ∀ s p, readSegment s = some p → ∀ x ∈ p.2, x ∈ s := by
    intro s p hp x hx
    unfold readSegment at hp
    split at hp
    · cases hp
    · simp only [Option.map_eq_some_iff] at hp
      obtain ⟨q, hq, rfl⟩ := hp
      have := rq _ q hq x hx
      simp [this]
    · simp only at hp
      split at hp
      · cases hp
      · cases hp
        simp only at hx
        exact (List.dropWhile_sublist _).subset hx
  unfold extractSpec
  split
  · exact fb
  · rename_i first after hseg
    have hmem := seg t _ hseg
    split
    · rename_i second
      have hsec : ∀ x ∈ second, x ∈ t := fun x hx => hmem x (by simp [hx])
      split
      · rename_i last ref hs2
        have := seg second _ hs2 '!' (by simp)
        exact absurd (hsec _ this) h
      · rw [splitAt?_none '!' second (fun hm => h (hsec _ hm))]
        exact fb
    · exact absurd (hmem '!' (by simp)) h
    · exact fb

/-! ### One end of a range -/

theorem numberToColumn_spec (c : Nat) (h1 : 1 ≤ c) (h2 : c ≤ 16384) :
    numberToColumn c ≠ [] ∧ (∀ x ∈ numberToColumn c, x.isUpper = true) ∧
      columnNumber (numberToColumn c) = c := by
  rw [(letters_renderers_agree c h1).2.2 h2]
  have := (letters_print_iff (c - 1) _).1 rfl
  exact ⟨columnToLetters_ne_nil _, this.1, by rw [this.2]; omega⟩

theorem numberToColumn_parse (c : Nat) (h1 : 1 ≤ c) (h2 : c ≤ 16384) :
    colIndexFrom1 (numberToColumn c) = .ok c := by
  obtain ⟨a, b, e⟩ := numberToColumn_spec c h1 h2
  rw [letters_1based_parse]
  exact ⟨a, fun x hx => isUpper_isAlpha x (b x hx), e, h2⟩

theorem parseU32_decimal (r : Nat) (h : r < 2 ^ 32) : parseU32 (decimal r) = some r := by
  rw [parseU32_some]; exact ⟨decimal_value r, h⟩

theorem formatCol_eq (c : Nat) (a : Bool) :
    formatCol c a = (if a then ['$'] else []) ++ numberToColumn c := by
  unfold formatCol; cases a <;> rfl
theorem formatRow_eq (r : Nat) (a : Bool) :
    formatRow r a = (if a then ['$'] else []) ++ decimal r := by
  unfold formatRow; cases a <;> rfl

theorem parseA1_cell (c r : Nat) (ca ra : Bool) (hc : 1 ≤ c ∧ c ≤ 16384) (hr : 1 ≤ r ∧ r < 2 ^ 32) :
    parseA1 (formatCol c ca ++ formatRow r ra) =
      if r > 1048576 then .error (.rowOutOfRange r) else .ok (r, c, ra, ca) := by
  obtain ⟨h1, h2, h3⟩ := numberToColumn_spec c hc.1 hc.2
  have := parseA1_shape ra ca (numberToColumn c) (decimal r) h1
    (fun x hx => isUpper_isAlpha x (h2 x hx)) (decimal_ne_nil r) (decimal_digits r)
  rw [formatCol_eq, formatRow_eq, ← List.append_assoc, this, numberToColumn_parse c hc.1 hc.2]
  simp only [parseU32_decimal r hr.2]
  by_cases h : r > 1048576
  · rw [if_pos (show r = 0 ∨ r > ROW_MAX_1BASED from Or.inr h), if_pos h]
  · rw [if_neg (by unfold ROW_MAX_1BASED; omega), if_neg h]

theorem parseRangePart_end (col row : Option Nat) (ca ra : Bool)
    (hsome : col ≠ none ∨ row ≠ none)
    (hc : ∀ c, col = some c → 1 ≤ c ∧ c ≤ 16384) (hr : ∀ r, row = some r → 1 ≤ r ∧ r < 2 ^ 32) :
    parseRangePart (formatEnd col row ca ra) = some (col.map (·, ca), row.map (·, ra)) := by
  have dg : ∀ r, (decimal r).takeWhile Char.isDigit = decimal r ∧
      (decimal r).dropWhile Char.isDigit = [] := by
    intro r
    have a := takeWhile_append_stop Char.isDigit (decimal r) [] (decimal_digits r) (by simp)
    have b := dropWhile_append_stop Char.isDigit (decimal r) [] (decimal_digits r) (by simp)
    simp only [List.append_nil] at a b
    exact ⟨a, b⟩
  have dhead : ∀ r, (decimal r).head? ≠ some '$' := by
    intro r h
    have := decimal_digits r '$' (List.mem_of_mem_head? h)
    rw [dollar_not_digit] at this; cases this
  have nhead : ∀ c, 1 ≤ c → c ≤ 16384 → ∀ rest, (numberToColumn c ++ rest).head? ≠ some '$' := by
    intro c h1 h2 rest h
    obtain ⟨a, b, -⟩ := numberToColumn_spec c h1 h2
    obtain ⟨x, s, e⟩ := List.exists_cons_of_ne_nil a
    rw [e] at h
    simp at h
    subst h
    have := b '$' (by rw [e]; simp)
    revert this; decide
  cases col with
  | some c =>
    obtain ⟨hc1, hc2⟩ := hc c rfl
    obtain ⟨n1, n2, n3⟩ := numberToColumn_spec c hc1 hc2
    have nal : ∀ x ∈ numberToColumn c, x.isAlpha = true := fun x hx => isUpper_isAlpha x (n2 x hx)
    cases row with
    | some r =>
      obtain ⟨hr1, hr2⟩ := hr r rfl
      unfold formatEnd parseRangePart
      simp only
      rw [parseA1_cell c r ca ra ⟨hc1, hc2⟩ ⟨hr1, hr2⟩]
      by_cases h : r > 1048576
      · rw [if_pos h]
        simp only
        have hb : ∀ x, (formatRow r ra).head? = some x → x.isAlpha = false := by
          intro x hx
          rw [formatRow_eq] at hx
          cases ra
          · simp only [Bool.false_eq_true, if_false, List.nil_append] at hx
            exact digit_not_alpha x (decimal_digits r x (List.mem_of_mem_head? hx))
          · simp at hx; rw [← hx]; exact dollar_not_alpha
        have tl := takeWhile_append_stop _ _ (formatRow r ra) nal hb
        have dl := dropWhile_append_stop _ _ (formatRow r ra) nal hb
        have s1 : (if (formatCol c ca ++ formatRow r ra).head? = some '$' then
            (formatCol c ca ++ formatRow r ra).tail else formatCol c ca ++ formatRow r ra) =
            numberToColumn c ++ formatRow r ra := by
          rw [formatCol_eq]
          cases ca
          · simp only [Bool.false_eq_true, if_false, List.nil_append]
            rw [if_neg (nhead c hc1 hc2 _)]
          · simp
        have hca : decide ((formatCol c ca ++ formatRow r ra).head? = some '$') = ca := by
          rw [formatCol_eq]
          cases ca
          · simp only [Bool.false_eq_true, if_false, List.nil_append]
            exact decide_eq_false (nhead c hc1 hc2 _)
          · simp
        have s3 : (if (formatRow r ra).head? = some '$' then (formatRow r ra).tail
            else formatRow r ra) = decimal r := by
          rw [formatRow_eq]
          cases ra
          · simp [dhead]
          · simp
        have hra : decide ((formatRow r ra).head? = some '$') = ra := by
          rw [formatRow_eq]
          cases ra
          · simp [dhead]
          · simp
        have hne : formatRow r ra ≠ [] := by
          rw [formatRow_eq]; simp [decimal_ne_nil]
        rw [s1, tl, dl, if_pos n1, numberToColumn_parse c hc1 hc2]
        simp only
        rw [if_neg hne, s3, (dg r).1, (dg r).2, if_neg (by simp [decimal_ne_nil]),
          parseU32_decimal r hr2]
        simp only
        rw [if_neg (by omega), hca, hra]
        rfl
      · rw [if_neg h]; rfl
    | none =>
      unfold formatEnd parseRangePart
      simp only
      have tl := takeWhile_append_stop _ _ [] nal (by simp)
      have dl := dropWhile_append_stop _ _ [] nal (by simp)
      simp only [List.append_nil] at tl dl
      have nh := nhead c hc1 hc2 []
      simp only [List.append_nil] at nh
      have s1 : (if (formatCol c ca).head? = some '$' then (formatCol c ca).tail else formatCol c ca) =
          numberToColumn c := by
        rw [formatCol_eq]
        cases ca
        · simp [nh]
        · simp
      have hca : decide ((formatCol c ca).head? = some '$') = ca := by
        rw [formatCol_eq]
        cases ca
        · simp [nh]
        · simp
      have hpa : ∃ e, parseA1 (formatCol c ca) = .error e := by
        unfold parseA1
        simp only [s1, tl, dl]
        split
        · exact ⟨_, rfl⟩
        · split
          · exact ⟨_, rfl⟩
          · exact ⟨_, rfl⟩
      obtain ⟨e, he⟩ := hpa
      rw [he]
      simp only
      rw [s1, tl, dl, if_pos n1, numberToColumn_parse c hc1 hc2]
      simp only [if_true]
      rw [hca]; rfl
  | none =>
    cases row with
    | none => simp at hsome
    | some r =>
      obtain ⟨hr1, hr2⟩ := hr r rfl
      unfold formatEnd parseRangePart
      simp only
      have s1 : (if (formatRow r ra).head? = some '$' then (formatRow r ra).tail
          else formatRow r ra) = decimal r := by
        rw [formatRow_eq]
        cases ra
        · simp [dhead]
        · simp
      have hra : decide ((formatRow r ra).head? = some '$') = ra := by
        rw [formatRow_eq]
        cases ra
        · simp [dhead]
        · simp
      have tw : (decimal r).takeWhile Char.isAlpha = [] := by
        obtain ⟨d, s, e⟩ := List.exists_cons_of_ne_nil (decimal_ne_nil r)
        rw [e]
        have := digit_not_alpha d (decimal_digits r d (by rw [e]; simp))
        simp [this]
      have hpa : ∃ e, parseA1 (formatRow r ra) = .error e := by
        unfold parseA1
        simp only [s1, tw]
        split
        · exact ⟨_, rfl⟩
        · split
          · exact ⟨_, rfl⟩
          · exact ⟨_, rfl⟩
      obtain ⟨e, he⟩ := hpa
      rw [he]
      simp only
      rw [s1, tw]
      simp only [ne_eq, not_true_eq_false, if_false]
      unfold parseRowPart
      simp only
      rw [s1, (dg r).1, (dg r).2, if_neg (by simp [decimal_ne_nil]), parseU32_decimal r hr2]
      simp only
      rw [if_neg (by omega), hra]
      rfl

/-! ### The characters of a formatted cell or range end -/

/-- The characters that occur in `$AB$12`. -/
def coordChar (x : Char) : Prop := x = '$' ∨ x.isUpper = true ∨ x.isDigit = true

theorem coordChar_not (x : Char) (h : coordChar x) : x ≠ '!' ∧ x ≠ ':' ∧ x ≠ '[' ∧ x ≠ ']' := by
  refine ⟨?_, ?_, ?_, ?_⟩ <;> rintro rfl <;> revert h <;> unfold coordChar <;> decide

theorem formatCol_chars (c : Nat) (a : Bool) (h1 : 1 ≤ c) (h2 : c ≤ 16384) :
    ∀ x ∈ formatCol c a, coordChar x := by
  intro x hx
  obtain ⟨-, b, -⟩ := numberToColumn_spec c h1 h2
  rw [formatCol_eq] at hx
  rcases List.mem_append.1 hx with h | h
  · cases a
    · cases h
    · simp at h; exact Or.inl h
  · exact Or.inr (Or.inl (b x h))

theorem formatRow_chars (r : Nat) (a : Bool) : ∀ x ∈ formatRow r a, coordChar x := by
  intro x hx
  rw [formatRow_eq] at hx
  rcases List.mem_append.1 hx with h | h
  · cases a
    · cases h
    · simp at h; exact Or.inl h
  · exact Or.inr (Or.inr (decimal_digits r x h))

theorem formatRow_ne_nil (r : Nat) (a : Bool) : formatRow r a ≠ [] := by
  rw [formatRow_eq]; simp [decimal_ne_nil]

theorem formatCol_ne_nil (c : Nat) (a : Bool) (h1 : 1 ≤ c) (h2 : c ≤ 16384) : formatCol c a ≠ [] := by
  rw [formatCol_eq]; simp [(numberToColumn_spec c h1 h2).1]

/-- A well-formed end of a range: at least one of column and row is present, the column is in the
grid, the row fits 32 bits, and an absent bound carries no anchor. -/
structure GoodEnd (col row : Option Nat) (ca ra : Bool) : Prop where
  hsome : col ≠ none ∨ row ≠ none
  hcol : ∀ c, col = some c → 1 ≤ c ∧ c ≤ 16384
  hrow : ∀ r, row = some r → 1 ≤ r ∧ r < 2 ^ 32
  hca : col = none → ca = false
  hra : row = none → ra = false

theorem formatEnd_chars (col row : Option Nat) (ca ra : Bool) (h : GoodEnd col row ca ra) :
    ∀ x ∈ formatEnd col row ca ra, coordChar x := by
  intro x hx
  unfold formatEnd at hx
  split at hx
  · rename_i c r
    rcases List.mem_append.1 hx with h' | h'
    · exact formatCol_chars c ca (h.hcol c rfl).1 (h.hcol c rfl).2 x h'
    · exact formatRow_chars r ra x h'
  · rename_i c
    exact formatCol_chars c ca (h.hcol c rfl).1 (h.hcol c rfl).2 x hx
  · rename_i r
    exact formatRow_chars r ra x hx
  · cases hx

theorem formatEnd_ne_nil (col row : Option Nat) (ca ra : Bool) (h : GoodEnd col row ca ra) :
    formatEnd col row ca ra ≠ [] := by
  unfold formatEnd
  split
  · simp [formatRow_ne_nil]
  · rename_i c
    exact formatCol_ne_nil c ca (h.hcol c rfl).1 (h.hcol c rfl).2
  · exact formatRow_ne_nil _ _
  · have := h.hsome; simp at this

theorem bounds_back (b : Option Nat) (a : Bool) (h : b = none → a = false) :
    boundVal (b.map (·, a)) = b ∧ boundAbs (b.map (·, a)) = a := by
  cases b with
  | none => simp [boundVal, boundAbs, h rfl]
  | some v => simp [boundVal, boundAbs]

theorem not_bracketed (a b : List Char) (hb : b ≠ []) (hc : ∀ x ∈ b, x ≠ ']') :
    ¬ ((a ++ b).head? = some '[' ∧ (a ++ b).getLast? = some ']' ∧ ¬ (a ++ b).contains '!') := by
  rintro ⟨-, h, -⟩
  have hl : ∃ z, b.getLast? = some z := ⟨b.getLast hb, List.getLast?_eq_some_getLast hb⟩
  obtain ⟨z, hz⟩ := hl
  rw [List.getLast?_append, hz, Option.some_or] at h
  cases h
  exact hc ']' (List.mem_of_getLast? hz) rfl

/-- Sheet names whose references are not read as external-workbook references. -/
def LocalName (n : List Char) : Prop := n ≠ [] ∧ '[' ∉ n

theorem local_no_external (n : List Char) (h : '[' ∉ n) : externalSheet n = none := by
  unfold externalSheet
  rw [splitAt?_none '[' n.reverse (by simpa using h)]

/-- The references the theorem is about: grid references with in-range coordinates. -/
def GoodRef (upper : List Char → List Char) : Ref → Prop
  | .cell sheet row col _ _ => (∀ n, sheet = some n → LocalName n) ∧
      1 ≤ row ∧ row ≤ 1048576 ∧ 1 ≤ col ∧ col ≤ 16384
  | .range sheet sr sc er ec sra sca era eca => (∀ n, sheet = some n → LocalName n) ∧
      GoodEnd sc sr sca sra ∧ GoodEnd ec er eca era
  | .cell3d f l row col _ _ => f ≠ [] ∧ l ≠ [] ∧
      (needsQuoting upper f = true ∨ NoControl f) ∧ (needsQuoting upper l = true ∨ NoControl l) ∧
      1 ≤ row ∧ row ≤ 1048576 ∧ 1 ≤ col ∧ col ≤ 16384
  | .range3d f l sr sc er ec sra sca era eca => f ≠ [] ∧ l ≠ [] ∧
      (needsQuoting upper f = true ∨ NoControl f) ∧ (needsQuoting upper l = true ∨ NoControl l) ∧
      GoodEnd sc sr sca sra ∧ GoodEnd ec er eca era
  | _ => False

/-- **C29**: printing a grid reference (cell, range with any combination of open bounds, 3D cell or
3D range; with or without sheet; any anchors) and parsing the text yields the same reference. -/
theorem ref_roundtrip (upper : List Char → List Char) (r : Ref) (h : GoodRef upper r) :
    parseRef (r.display upper) = some r := by
  -- the extraction of an optional sheet prefix in front of a text without `!`
  have ex : ∀ (sheet : Option (List Char)) (body : List Char), (∀ n, sheet = some n → LocalName n) →
      '!' ∉ body → extractSpec (sheetPrefix upper sheet ++ body) =
        ((match sheet with | some n => SheetSpec.single n | none => SheetSpec.none), body) := by
    intro sheet body hs hb
    cases sheet with
    | none => exact extract_none body hb
    | some n =>
      simp only [sheetPrefix, List.append_assoc, List.cons_append, List.nil_append]
      exact sheet_prefix_roundtrip upper n body (hs n rfl).1
  have noext : ∀ (sheet : Option (List Char)), (∀ n, sheet = some n → LocalName n) →
      sheet.bind externalSheet = none := by
    intro sheet hs
    cases sheet with
    | none => rfl
    | some n => exact local_no_external n (hs n rfl).2
  have cellChars : ∀ row col ra ca, 1 ≤ col → col ≤ 16384 →
      (∀ x ∈ formatCol col ca ++ formatRow row ra, coordChar x) := by
    intro row col ra ca h1 h2 x hx
    rcases List.mem_append.1 hx with h' | h'
    · exact formatCol_chars col ca h1 h2 x h'
    · exact formatRow_chars row ra x h'
  have rangeChars : ∀ sr sc er ec sra sca era eca, GoodEnd sc sr sca sra → GoodEnd ec er eca era →
      (∀ x ∈ formatEnd sc sr sca sra ++ [':'] ++ formatEnd ec er eca era, coordChar x ∨ x = ':') := by
    intro sr sc er ec sra sca era eca g1 g2 x hx
    rcases List.mem_append.1 hx with h' | h'
    · rcases List.mem_append.1 h' with h'' | h''
      · exact Or.inl (formatEnd_chars _ _ _ _ g1 x h'')
      · simp at h''; exact Or.inr h''
    · exact Or.inl (formatEnd_chars _ _ _ _ g2 x h')
  cases r with
  | cell sheet row col ra ca =>
    obtain ⟨hs, hr1, hr2, hc1, hc2⟩ := h
    have ch := cellChars row col ra ca hc1 hc2
    have hne : formatCol col ca ++ formatRow row ra ≠ [] := by simp [formatRow_ne_nil]
    unfold Ref.display parseRef
    simp only
    rw [if_neg (not_bracketed _ _ hne (fun x hx => (coordChar_not x (ch x hx)).2.2.2))]
    rw [ex sheet _ hs (fun hm => (coordChar_not _ (ch _ hm)).1 rfl)]
    have nb : (formatCol col ca ++ formatRow row ra).contains '[' = false := by
      rw [← Bool.not_eq_true]; intro hm
      exact (coordChar_not _ (ch '[' (by simpa using hm))).2.2.1 rfl
    have nc := splitAt?_none ':' _ (fun hm => (coordChar_not _ (ch ':' hm)).2.1 rfl)
    have pa := parseA1_cell col row ca ra ⟨hc1, hc2⟩ ⟨hr1, by omega⟩
    rw [if_neg (by omega)] at pa
    have ne := noext sheet hs
    cases sheet <;> simp_all
  | range sheet sr sc er ec sra sca era eca =>
    obtain ⟨hs, g1, g2⟩ := h
    have ch := rangeChars sr sc er ec sra sca era eca g1 g2
    have hne : formatEnd ec er eca era ≠ [] := formatEnd_ne_nil _ _ _ _ g2
    have c1 := formatEnd_chars _ _ _ _ g1
    have c2 := formatEnd_chars _ _ _ _ g2
    unfold Ref.display parseRef
    simp only
    rw [if_neg (by
      rw [← List.append_assoc]
      exact not_bracketed _ _ hne (fun x hx => (coordChar_not x (c2 x hx)).2.2.2))]
    rw [ex sheet _ hs (fun hm => by
      rcases ch _ hm with h' | h'
      · exact (coordChar_not _ h').1 rfl
      · exact absurd h' (by decide))]
    have nb : (formatEnd sc sr sca sra ++ [':'] ++ formatEnd ec er eca era).contains '[' = false := by
      rw [← Bool.not_eq_true]; intro hm
      rcases ch '[' (by simpa using hm) with h' | h'
      · exact (coordChar_not _ h').2.2.1 rfl
      · exact absurd h' (by decide)
    have nc : splitAt? ':' (formatEnd sc sr sca sra ++ [':'] ++ formatEnd ec er eca era) =
        some (formatEnd sc sr sca sra, formatEnd ec er eca era) := by
      rw [List.append_assoc]
      exact splitAt?_append ':' _ _ (fun hm => (coordChar_not _ (c1 ':' hm)).2.1 rfl)
    have p1 := parseRangePart_end sc sr sca sra g1.hsome g1.hcol g1.hrow
    have p2 := parseRangePart_end ec er eca era g2.hsome g2.hcol g2.hrow
    have ne := noext sheet hs
    have b1 := bounds_back sc sca g1.hca
    have b2 := bounds_back sr sra g1.hra
    have b3 := bounds_back ec eca g2.hca
    have b4 := bounds_back er era g2.hra
    cases sheet
    · simp only [nb, nc, p1, p2, b1, b2, b3, b4, Bool.false_eq_true, if_false, Option.bind_none]
    · simp only [nb, nc, p1, p2, b1, b2, b3, b4, Bool.false_eq_true, if_false, ne]
  | cell3d f l row col ra ca =>
    obtain ⟨hf, hl, cf, cl, hr1, hr2, hc1, hc2⟩ := h
    have ch := cellChars row col ra ca hc1 hc2
    have hne : formatCol col ca ++ formatRow row ra ≠ [] := by simp [formatRow_ne_nil]
    unfold Ref.display parseRef
    simp only
    rw [if_neg (not_bracketed _ _ hne (fun x hx => (coordChar_not x (ch x hx)).2.2.2))]
    have e := sheet_prefix3d_roundtrip_partial upper f l (formatCol col ca ++ formatRow row ra) hf hl cf cl
    rw [List.append_assoc, List.cons_append, List.nil_append, e]
    simp only
    unfold parse3d
    have nb : ¬ (formatCol col ca ++ formatRow row ra).contains '[' = true := by
      intro hm
      exact (coordChar_not _ (ch '[' (by simpa using hm))).2.2.1 rfl
    rw [if_neg (by simp [hf, hl]), if_neg hne, if_neg nb]
    rw [splitAt?_none ':' _ (fun hm => (coordChar_not _ (ch ':' hm)).2.1 rfl)]
    have pa := parseA1_cell col row ca ra ⟨hc1, hc2⟩ ⟨hr1, by omega⟩
    rw [if_neg (by omega)] at pa
    rw [pa]
  | range3d f l sr sc er ec sra sca era eca =>
    obtain ⟨hf, hl, cf, cl, g1, g2⟩ := h
    have ch := rangeChars sr sc er ec sra sca era eca g1 g2
    have hne : formatEnd ec er eca era ≠ [] := formatEnd_ne_nil _ _ _ _ g2
    have c1 := formatEnd_chars _ _ _ _ g1
    have c2 := formatEnd_chars _ _ _ _ g2
    unfold Ref.display parseRef
    simp only
    rw [if_neg (by
      rw [← List.append_assoc]
      exact not_bracketed _ _ hne (fun x hx => (coordChar_not x (c2 x hx)).2.2.2))]
    have e := sheet_prefix3d_roundtrip_partial upper f l
      (formatEnd sc sr sca sra ++ [':'] ++ formatEnd ec er eca era) hf hl cf cl
    rw [List.append_assoc (format3d upper f l), List.cons_append, List.nil_append, e]
    simp only
    unfold parse3d
    have nb : ¬ (formatEnd sc sr sca sra ++ [':'] ++ formatEnd ec er eca era).contains '[' = true := by
      intro hm
      rcases ch '[' (by simpa using hm) with h' | h'
      · exact (coordChar_not _ h').2.2.1 rfl
      · exact absurd h' (by decide)
    have nc : splitAt? ':' (formatEnd sc sr sca sra ++ [':'] ++ formatEnd ec er eca era) =
        some (formatEnd sc sr sca sra, formatEnd ec er eca era) := by
      rw [List.append_assoc]
      exact splitAt?_append ':' _ _ (fun hm => (coordChar_not _ (c1 ':' hm)).2.1 rfl)
    have p1 := parseRangePart_end sc sr sca sra g1.hsome g1.hcol g1.hrow
    have p2 := parseRangePart_end ec er eca era g2.hsome g2.hcol g2.hrow
    have b1 := bounds_back sc sca g1.hca
    have b2 := bounds_back sr sra g1.hra
    have b3 := bounds_back ec eca g2.hca
    have b4 := bounds_back er era g2.hra
    rw [if_neg (by simp [hf, hl]), if_neg (by simp), if_neg nb, nc]
    simp only [p1, p2, b1, b2, b3, b4]
  | external _ _ _ => exact absurd h id
  | named _ => exact absurd h id
  | other => exact absurd h id

/-- The hypotheses are met by an interesting reference: `'Bob''s data'!$C:XFD$2000000`. -/
example (upper : List Char → List Char) : GoodRef upper
    (.range (some "Bob's data".toList) none (some 3) (some 2000000) (some 16384)
      false true true false) := by
  refine ⟨?_, ⟨?_, ?_, ?_, ?_, ?_⟩, ⟨?_, ?_, ?_, ?_, ?_⟩⟩
  · rintro n h
    cases h
    exact ⟨by decide, by decide⟩
  all_goals simp

/-- The exclusion of `[` in the sheet name is needed: a local sheet called `[1]x` prints as a
reference that is read back as external. -/
theorem ref_roundtrip_bracket_fails (upper : List Char → List Char) :
    parseRef (Ref.display upper (.cell (some "[1]x".toList) 1 1 false false)) =
      some (.external "'[1]x'!A1".toList "[1]".toList "x".toList) := by
  have hq : needsQuoting upper "[1]x".toList = true := by rfl
  have h1 : numberToColumn 1 = ['A'] := by decide
  have h2 : decimal 1 = ['1'] := by unfold decimal; rw [decimalRev]; decide
  have : Ref.display upper (.cell (some "[1]x".toList) 1 1 false false) = "'[1]x'!A1".toList := by
    unfold Ref.display sheetPrefix formatSheet formatCol formatRow
    simp only [hq, h1, h2]; decide
  rw [this]
  decide

end Verif.SheetRef
