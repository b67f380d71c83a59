import Verif.SheetRef.Props

/-! # C97: INDIRECT of ADDRESS is the cell

Model of `builtins/lookup/address.rs` and of the reading of texts by INDIRECT (`builtins/reference_fns.rs` 772-897
with parser.rs 553-605 `parse_excel_sheet_ref`), on top of the models of the A1 and sheet texts. -/

namespace Verif.RefFn

open Verif.A1 Verif.SheetRef

/-- address.rs 254-260: which of column and row are anchored. -/
def anchors (abs : Int) : Bool × Bool :=
  if abs = 2 then (false, true) else if abs = 3 then (true, false) else if abs = 4 then (false, false) else (true, true)

/-- address.rs 251-274: A1 notation. -/
def a1Text (row col : Nat) (abs : Int) : List Char :=
  let letters := match colLettersFrom1 col with | .ok s => s | .error _ => []
  (if (anchors abs).1 then '$' :: letters else letters) ++
    (if (anchors abs).2 then '$' :: decimal row else decimal row)

/-- One half of the R1C1 notation (address.rs 286-295). -/
def r1c1Part (letter : Char) (n : Nat) (abs : Bool) : List Char :=
  if abs then letter :: decimal n else letter :: '[' :: (decimal n ++ [']'])

/-- address.rs 275-297: R1C1 notation. -/
def r1c1Text (row col : Nat) (abs : Int) : List Char :=
  r1c1Part 'R' row (anchors abs).2 ++ r1c1Part 'C' col (anchors abs).1

/-- address.rs 302: the names that are quoted. -/
def quoted (s : List Char) : Bool := s.contains ' ' || s.contains '!' || s.contains '\''

/-- address.rs 300-310. -/
def withSheet : Option (List Char) → List Char → List Char
  | none, t => t
  | some s, t => if quoted s then '\'' :: (escapeQuotes s ++ '\'' :: '!' :: t) else s ++ '!' :: t

/-- address.rs 146-315 `ADDRESS` for arguments that are numbers, a logical value and a text; `none` is `#VALUE!`. -/
def address (row col abs : Int) (a1 : Bool) (sheet : Option (List Char)) : Option (List Char) :=
  if ¬ (1 ≤ row ∧ row ≤ 1048576) then none
  else if ¬ (1 ≤ col ∧ col ≤ 16384) then none
  else if ¬ (1 ≤ abs ∧ abs ≤ 4) then none
  else some (withSheet sheet (if a1 then a1Text row.toNat col.toNat abs else r1c1Text row.toNat col.toNat abs))

/-- address.rs 445-465 (common) `from_parts`: bounds that are both given are in order. -/
def inOrder : Option Nat → Option Nat → Bool
  | some a, some b => a ≤ b
  | _, _ => true

/-- reference_fns.rs 860-864: names and tables only. -/
def nameOrTable (t : List Char) : Option SheetRef.Ref :=
  match parseRef t with
  | some (.named n) => some (.named n)
  | some .other => some .other
  | _ => none

/-- The text after the sheet (parser.rs 566-604), read as cell or range. -/
def gridPart (sheet : Option (List Char)) (part : List Char) : Option SheetRef.Ref :=
  if part.contains '[' then none
  else match splitAt? ':' part with
    | some (start, end_) =>
      match parseRangePart start, parseRangePart end_ with
      | some (sc, sr), some (ec, er) =>
        if inOrder (boundVal sr) (boundVal er) && inOrder (boundVal sc) (boundVal ec) then
          some (.range sheet (boundVal sr) (boundVal sc) (boundVal er) (boundVal ec)
            (boundAbs sr) (boundAbs sc) (boundAbs er) (boundAbs ec))
        else none
      | _, _ => none
    | none =>
      match parseA1 part with
      | .ok (row, col, ra, ca) => some (.cell sheet row col ra ca)
      | .error _ => none

/-- parser.rs 553-605 `parse_excel_sheet_ref`. -/
def parseGrid (t : List Char) : Option SheetRef.Ref :=
  match extractSpec t with
  | (.range _ _, _) => none
  | (.single n, part) => gridPart (some n) part
  | (.none, part) => gridPart none part

/-- reference_fns.rs 772-858 `IndirectFn::eval_reference` of a text, in A1 notation: `none` is `#REF!`. -/
def indirect (t : List Char) : Option SheetRef.Ref :=
  match parseGrid t with
  | some r => some r
  | none => nameOrTable t

/-! ## Theorems -/

theorem a1Text_eq (row col : Nat) (abs : Int) (hc : 1 ≤ col ∧ col ≤ 16384) (hr : 1 ≤ row) :
    a1Text row col abs = display (row - 1) (col - 1) (anchors abs).2 (anchors abs).1 := by
  have e : colLettersFrom1 col = .ok (columnToLetters (col - 1)) := by
    unfold colLettersFrom1 COL_MAX_1BASED
    rw [if_neg (by omega)]
  simp only [a1Text, e, display, Nat.sub_add_cancel hr]
  cases (anchors abs).1 <;> cases (anchors abs).2 <;> simp

theorem a1Text_parse (row col : Nat) (abs : Int) (hc : 1 ≤ col ∧ col ≤ 16384) (hr : 1 ≤ row ∧ row ≤ 1048576) :
    parseA1 (a1Text row col abs) = .ok (row, col, (anchors abs).2, (anchors abs).1) := by
  rw [a1Text_eq row col abs hc hr.1]
  have := (parse_a1_iff (display (row - 1) (col - 1) (anchors abs).2 (anchors abs).1) (row - 1 + 1) (col - 1 + 1)
    (anchors abs).2 (anchors abs).1).2
    ⟨⟨columnToLetters (col - 1), decimal (row - 1 + 1), rfl, columnToLetters_ne_nil _,
      fun c h => isUpper_isAlpha c (columnToLetters_upper _ c h),
      ((letters_print_iff (col - 1) _).1 rfl).2, decimal_ne_nil _, decimal_digits _, decimal_value _⟩,
      by omega, by omega, by omega, by omega⟩
  rw [this, Nat.sub_add_cancel hr.1, Nat.sub_add_cancel hc.1]

theorem a1Text_chars (row col : Nat) (abs : Int) (hc : 1 ≤ col ∧ col ≤ 16384) (hr : 1 ≤ row) :
    ∀ x ∈ a1Text row col abs, coordChar x := by
  rw [a1Text_eq row col abs hc hr]
  intro x hx
  simp only [display, List.mem_append] at hx
  rcases hx with ((h | h) | h) | h
  · split at h
    · simp at h; exact Or.inl h
    · cases h
  · exact Or.inr (Or.inl (columnToLetters_upper _ x h))
  · split at h
    · simp at h; exact Or.inl h
    · cases h
  · exact Or.inr (Or.inr (decimal_digits _ x h))

theorem gridPart_a1 (sheet : Option (List Char)) (row col : Nat) (abs : Int) (hc : 1 ≤ col ∧ col ≤ 16384)
    (hr : 1 ≤ row ∧ row ≤ 1048576) :
    gridPart sheet (a1Text row col abs) = some (.cell sheet row col (anchors abs).2 (anchors abs).1) := by
  have hch := a1Text_chars row col abs hc hr.1
  have h1 : '[' ∉ a1Text row col abs := fun h => (coordChar_not _ (hch _ h)).2.2.1 rfl
  have h2 : ':' ∉ a1Text row col abs := fun h => (coordChar_not _ (hch _ h)).2.1 rfl
  unfold gridPart
  rw [if_neg (by simpa using h1), splitAt?_none ':' _ h2, a1Text_parse row col abs hc hr]

theorem extract_bare (name ref : List Char) (hn : name ≠ []) (hc : NoControl name) (hq : quoted name = false)
    (hcol : ':' ∉ name) : extractSpec (name ++ '!' :: ref) = (.single name, ref) := by
  have hstop : ∀ c ∈ name, bareStop c = false := by
    intro c h
    obtain ⟨a1, a2, a3⟩ := hc c h
    simp only [quoted, Bool.or_eq_false_iff] at hq
    obtain ⟨⟨q1, q2⟩, q3⟩ := hq
    have ne : ∀ d, name.contains d = false → c ≠ d := by
      rintro d hd rfl
      simp [h] at hd
    have := ne _ q1; have := ne _ q2; have := ne _ q3
    have : c ≠ ':' := by rintro rfl; exact hcol h
    simp [bareStop, *]
  unfold extractSpec
  rw [readSegment_bare name ('!' :: ref) hn hstop (by rintro x hx; simp at hx; subst hx; rfl)]
  rfl

theorem extract_quoted (name ref : List Char) :
    extractSpec ('\'' :: (escapeQuotes name ++ '\'' :: '!' :: ref)) = (.single name, ref) := by
  unfold extractSpec
  rw [readSegment_quoted name ('!' :: ref) (by simp)]
  rfl

/-- **C97** `ADDRESS` is a text exactly for a cell of the grid and an anchor number from 1 to 4, else `#VALUE!`. -/
theorem address_iff (row col abs : Int) (a1 : Bool) (sheet : Option (List Char)) :
    (address row col abs a1 sheet).isSome ↔
      (1 ≤ row ∧ row ≤ 1048576) ∧ (1 ≤ col ∧ col ≤ 16384) ∧ (1 ≤ abs ∧ abs ≤ 4) := by
  unfold address
  split
  · simp; omega
  · split
    · simp; omega
    · split
      · simp; omega
      · simp; omega

/-- The anchors that an anchor number stands for: row and column. -/
def IsAnchors (abs : Int) (rowAbs colAbs : Bool) : Prop :=
  (abs = 1 ∧ rowAbs = true ∧ colAbs = true) ∨ (abs = 2 ∧ rowAbs = true ∧ colAbs = false) ∨
    (abs = 3 ∧ rowAbs = false ∧ colAbs = true) ∨ (abs = 4 ∧ rowAbs = false ∧ colAbs = false)

theorem anchors_is (abs : Int) (ra ca : Bool) (h : IsAnchors abs ra ca) : anchors abs = (ca, ra) := by
  rcases h with ⟨rfl, rfl, rfl⟩ | ⟨rfl, rfl, rfl⟩ | ⟨rfl, rfl, rfl⟩ | ⟨rfl, rfl, rfl⟩ <;> rfl

/-- **C97** `INDIRECT(ADDRESS(row, col, abs))` is the cell in that row and column, with the anchors of `abs`; and
with a sheet name it is the cell of that sheet. Missing: sheet names with a colon that are not quoted
(`indirect_colon_wrong`), the empty name, names with control characters, and R1C1 notation, which INDIRECT does
not read. -/
theorem indirect_address_partial (row col abs : Int) (ra ca : Bool) (sheet : Option (List Char))
    (hr : 1 ≤ row ∧ row ≤ 1048576) (hc : 1 ≤ col ∧ col ≤ 16384) (ha : IsAnchors abs ra ca)
    (hs : ∀ n, sheet = some n → quoted n = true ∨ (n ≠ [] ∧ NoControl n ∧ ':' ∉ n)) :
    ∃ t, address row col abs true sheet = some t ∧
      indirect t = some (.cell sheet row.toNat col.toNat ra ca) := by
  have habs : 1 ≤ abs ∧ abs ≤ 4 := by rcases ha with h | h | h | h <;> omega
  refine ⟨withSheet sheet (a1Text row.toNat col.toNat abs), ?_, ?_⟩
  · unfold address
    rw [if_neg (by omega), if_neg (by omega), if_neg (by omega)]
    rfl
  · have hg := fun s => gridPart_a1 s row.toNat col.toNat abs (by omega) (by omega)
    rw [anchors_is abs ra ca ha] at hg
    unfold indirect parseGrid
    cases sheet with
    | none =>
      have hch := a1Text_chars row.toNat col.toNat abs (by omega) (by omega)
      rw [withSheet, extract_none _ (fun h => (coordChar_not _ (hch _ h)).1 rfl)]
      simp only [hg]
    | some n =>
      by_cases hq : quoted n = true
      · rw [withSheet, if_pos hq, extract_quoted]
        simp only [hg]
      · rcases hs n rfl with h | ⟨h1, h2, h3⟩
        · exact absurd h hq
        · rw [withSheet, if_neg hq, extract_bare n _ h1 h2 (by simpa using hq) h3]
          simp only [hg]

/-- **C97** (refuted) A sheet name with a colon is not quoted by ADDRESS, so INDIRECT reads two sheets and gives
`#REF!`. -/
theorem indirect_colon_wrong : indirect (withSheet (some ['a', ':', 'b']) ['$', 'A', '$', '1']) = none := by
  decide +kernel

/-- **C97** Whatever the text, a cell found by INDIRECT lies in the grid ... -/
theorem indirect_cell_in_grid (t : List Char) (sheet : Option (List Char)) (row col : Nat) (ra ca : Bool)
    (h : indirect t = some (.cell sheet row col ra ca)) : 1 ≤ row ∧ row ≤ 1048576 ∧ 1 ≤ col ∧ col ≤ 16384 := by
  have key : ∀ s part, gridPart s part = some (.cell sheet row col ra ca) →
      1 ≤ row ∧ row ≤ 1048576 ∧ 1 ≤ col ∧ col ≤ 16384 := by
    intro s part hg
    unfold gridPart at hg
    split at hg
    · cases hg
    · split at hg
      · split at hg
        · split at hg <;> cases hg
        · cases hg
      · split at hg
        · rename_i e
          cases hg
          exact ((parse_a1_iff _ _ _ _ _).1 e).2
        · cases hg
  unfold indirect at h
  split at h
  · rename_i r hp
    cases h
    unfold parseGrid at hp
    split at hp
    · cases hp
    · exact key _ _ hp
    · exact key _ _ hp
  · unfold nameOrTable at h
    split at h <;> cases h

/-- ... but (refuted) a range may not: `INDIRECT("A1:A2000000")` is a range of 2000000 rows, which panics when it
is read (`beyond_panics`). -/
theorem indirect_range_beyond :
    indirect ['A', '1', ':', 'A', '2', '0', '0', '0', '0', '0', '0'] =
      some (.range none (some 1) (some 1) (some 2000000) (some 1) false false false false) := by
  decide +kernel

example : IsAnchors 3 false true := by simp [IsAnchors]
example : quoted ['i', 't', '\'', 's'] = true ∧ (['D'] ≠ [] ∧ NoControl ['D'] ∧ ':' ∉ ['D']) := by
  refine ⟨by decide, by decide, ?_, by decide⟩
  simp [NoControl]

end Verif.RefFn
