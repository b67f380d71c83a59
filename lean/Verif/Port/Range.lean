import Verif.Port.Table

/-!
# Layouts of ranges

Model of `/repo/crates/formualizer-sheetport/src`: `layout.rs` 51-114
(`resolve_range_layout`), `runtime.rs` 757-803 (`read_range`) and 1081-1134, 1175-1214
(`write_range`, `write_grid`) for layouts.
-/

namespace Verif.Port

variable {ws : Char → Bool}

/-- The columns after the first: to the right as long as the header is not blank: layout.rs
60-83. The first argument bounds the steps: the columns of a sheet. -/
def headerCols (ws : Char → Bool) (sh : Sheet) (header : Nat) : Nat → Nat → List Nat
  | 0, _ => []
  | n + 1, col => if isBlank ws (sh.cells header (col + 1)) = true then [] else (col + 1) :: headerCols ws sh header n (col + 1)

/-- The columns of a range: layout.rs 58-83. -/
def rangeCols (ws : Char → Bool) (sh : Sheet) (L : Layout) : List Nat :=
  L.anchor :: headerCols ws sh L.header (maxCols - L.anchor) L.anchor

/-- `resolve_range_layout`: layout.rs 51-114. -/
def rangeBounds (ws : Char → Bool) (sh : Sheet) (L : Layout) : Except Err (Nat × List Nat) :=
  if maxRows < L.header + 1 then .error .safety
  else
    match endRow ws sh (L.header + 1) (rangeCols ws sh L) L.term with
    | .error e => .error e
    | .ok last => .ok (last, rangeCols ws sh L)

/-- `read_range` for a layout: runtime.rs 774-793. The columns follow each other, so that the
rectangle read is the rows of these columns. -/
def readRange (ws : Char → Bool) (sh : Sheet) (L : Layout) : Except Err (List (List Val)) :=
  match rangeBounds ws sh L with
  | .error e => .error e
  | .ok (last, cols) => .ok ((List.range (max last L.header + 1 - L.header)).map fun i => cols.map fun c => sh.cells (L.header + i) c)

/-- `write_range` for a layout with `write_grid`: runtime.rs 1081-1134, 1175-1214. -/
def writeRange (ws : Char → Bool) (sh : Sheet) (L : Layout) (grid : List (List Val)) : Except Err (List Write) :=
  match rangeBounds ws sh L with
  | .error e => .error e
  | .ok (last, cols) =>
    if (grid.head?.map List.length).getD 0 ≠ cols.length then .error .invariant
    else if ¬(grid.all fun row => row.length = cols.length) then .error .invariant
    else
      .ok (block L.header cols grid ++
        (if grid.length < last - L.header + 1 then
          block (L.header + grid.length) cols (List.replicate (last - L.header + 1 - grid.length) (blanks cols)) else []) ++
        (if L.term = .sheetEnd then [] else rowWrites (L.header + grid.length) cols (blanks cols)))

/-- **C111** (6): the columns of a range are those up to which all headers right of the
anchor are filled, within the sheet. -/
theorem header_cols_spec {sh : Sheet} {header n col c : Nat} :
    c ∈ headerCols ws sh header n col ↔
      col < c ∧ c ≤ col + n ∧ ∀ k, col < k → k ≤ c → isBlank ws (sh.cells header k) = false := by
  induction n generalizing col with
  | zero => simp [headerCols]; intro h1 h2; omega
  | succ n ih =>
    unfold headerCols
    by_cases hb : isBlank ws (sh.cells header (col + 1)) = true
    · rw [if_pos hb]
      simp only [List.not_mem_nil, false_iff]
      rintro ⟨h1, h2, h3⟩
      rw [h3 (col + 1) (by omega) (by omega)] at hb
      cases hb
    · rw [if_neg hb, List.mem_cons, ih]
      constructor
      · rintro (h | ⟨h1, h2, h3⟩)
        · subst h
          refine ⟨by omega, by omega, fun k k1 k2 => ?_⟩
          have : k = col + 1 := by omega
          rw [this]; simpa using hb
        · refine ⟨by omega, by omega, fun k k1 k2 => ?_⟩
          by_cases e : k = col + 1
          · rw [e]; simpa using hb
          · exact h3 k (by omega) k2
      · rintro ⟨h1, h2, h3⟩
        by_cases e : c = col + 1
        · exact Or.inl e
        · exact Or.inr ⟨by omega, by omega, fun k k1 k2 => h3 k (by omega) k2⟩

/-- The columns follow each other, as `read_range` and `write_grid` suppose. -/
theorem headerCols_run {sh : Sheet} {header n col : Nat} :
    headerCols ws sh header n col = List.range' (col + 1) (headerCols ws sh header n col).length := by
  induction n generalizing col with
  | zero => rfl
  | succ n ih =>
    unfold headerCols
    split
    · rfl
    · rw [List.length_cons, List.range'_succ, ← ih]

theorem range_cols_run {sh : Sheet} {L : Layout} :
    rangeCols ws sh L = List.range' L.anchor (rangeCols ws sh L).length := by
  unfold rangeCols
  rw [List.length_cons, List.range'_succ, ← headerCols_run]

theorem headerCols_nodup {sh : Sheet} {header n col : Nat} : (headerCols ws sh header n col).Nodup := by
  induction n generalizing col with
  | zero => exact List.nodup_nil
  | succ n ih =>
    unfold headerCols
    split
    · exact List.nodup_nil
    · refine List.nodup_cons.2 ⟨fun h => ?_, ih⟩
      have := (header_cols_spec.1 h).1
      omega

theorem rangeCols_nodup {sh : Sheet} {L : Layout} : (rangeCols ws sh L).Nodup := by
  refine List.nodup_cons.2 ⟨fun h => ?_, headerCols_nodup⟩
  have := (header_cols_spec.1 h).1
  omega

theorem headerCols_congr {sh sh' : Sheet} {header n col : Nat}
    (h1 : ∀ c ∈ headerCols ws sh header n col, isBlank ws (sh'.cells header c) = false)
    (h2 : ∀ c, col < c → c ∉ headerCols ws sh header n col → sh'.cells header c = sh.cells header c) :
    headerCols ws sh' header n col = headerCols ws sh header n col := by
  induction n generalizing col with
  | zero => rfl
  | succ n ih =>
    unfold headerCols at h1 h2 ⊢
    by_cases hb : isBlank ws (sh.cells header (col + 1)) = true
    · simp only [if_pos hb] at h1 h2 ⊢
      rw [h2 (col + 1) (by omega) (by simp), if_pos hb]
    · simp only [if_neg hb] at h1 h2 ⊢
      have hb' := h1 (col + 1) List.mem_cons_self
      rw [if_neg (by rw [hb']; simp)]
      congr 1
      apply ih
      · intro c hc
        exact h1 c (List.mem_cons_of_mem _ hc)
      · intro c hc hn
        apply h2 c (by omega)
        rw [List.mem_cons, not_or]
        exact ⟨by omega, hn⟩

/-- A block, empty rows up to `top`, and maybe an empty row after the block. -/
theorem grid_cells {cols : List Nat} (hn : cols.Nodup) (cells : Nat → Nat → Val) {a ex : Nat} {grid : List (List Val)}
    (hlen : ∀ row ∈ grid, row.length = cols.length) (more : Prop) [Decidable more] {l : List Write}
    (hl : l = block a cols grid ++
      (if grid.length < ex then block (a + grid.length) cols (List.replicate (ex - grid.length) (blanks cols)) else []) ++
      (if more then [] else rowWrites (a + grid.length) cols (blanks cols))) :
    (∀ i (h : i < grid.length), (cols.map fun c => apply cells l (a + i) c) = grid[i]) ∧
      (∀ r c, c ∈ cols → a + grid.length ≤ r → r < a + ex ∨ (¬more ∧ r = a + grid.length) → apply cells l r c = .empty) ∧
      (∀ r c, c ∉ cols ∨ r < a ∨ (a + grid.length ≤ r ∧ a + ex ≤ r ∧ (more ∨ r ≠ a + grid.length)) →
        apply cells l r c = cells r c) := by
  subst hl
  refine ⟨?_, ?_, ?_⟩
  · intro i hi
    have := apply_block hn cells (start := a) hlen i hi
    refine Eq.trans (List.map_congr_left fun c _ => ?_) this
    rw [List.append_assoc, apply_append]
    apply apply_other
    rintro w hw ⟨h1, -⟩
    rcases List.mem_append.1 hw with hw | hw
    · split at hw
      · have := block_mem hw; omega
      · cases hw
    · split at hw
      · cases hw
      · have := row_mem hw; omega
  · intro r c hc hr hcase
    rw [apply_append]
    by_cases hz : ¬more ∧ r = a + grid.length
    · rw [if_neg hz.1, hz.2]
      exact map_blanks (apply_row hn _ _ (by simp [blanks])) c hc
    · have hl : r < a + ex := hcase.resolve_right hz
      have hne : ∀ w ∈ (if more then [] else rowWrites (a + grid.length) cols (blanks cols)), ¬(w.row = r ∧ w.col = c) := by
        rintro w hw ⟨h1, -⟩
        split at hw
        · cases hw
        · rename_i ht
          have := row_mem hw
          exact hz ⟨ht, by omega⟩
      rw [apply_other hne, apply_append, if_pos (by omega)]
      obtain ⟨i, rfl⟩ : ∃ i, r = a + grid.length + i := ⟨r - (a + grid.length), by omega⟩
      have hi : i < ex - grid.length := by omega
      have := apply_block hn (apply cells (block a cols grid)) (start := a + grid.length)
        (rows := List.replicate (ex - grid.length) (blanks cols))
        (fun row hr => by rw [List.eq_of_mem_replicate hr]; simp [blanks]) i (by simpa using hi)
      rw [List.getElem_replicate] at this
      exact map_blanks this c hc
  · intro r c h
    apply apply_other
    rintro w hw ⟨h1, h2⟩
    rcases List.mem_append.1 hw with hw | hw
    · rcases List.mem_append.1 hw with hw | hw
      · have := block_mem hw
        rw [h1, h2] at this
        rcases h with h | h | h
        · exact h this.2.2
        · omega
        · omega
      · split at hw
        · have := block_mem hw
          rw [h1, h2, List.length_replicate] at this
          rcases h with h | h | h
          · exact h this.2.2
          · omega
          · omega
        · cases hw
    · split at hw
      · cases hw
      · rename_i ht
        have := row_mem hw
        rw [h1, h2] at this
        rcases h with h | h | h
        · exact h this.2
        · omega
        · rcases h.2.2 with h' | h'
          · exact ht h'
          · omega

/-- **C111** (7): a range is read back as it was written, headers and data, if its rows have the
width of the headers in place, the new headers after the first are not blank, none of the
rows of data is blank or begins with the marker, and a row is left below it. Cells outside
its columns, and above the headers, keep their values. -/
theorem write_read_range_partial {sh sh' : Sheet} {L : Layout} {last : Nat} {cols : List Nat}
    (hb : rangeBounds ws sh L = .ok (last, cols)) (h1 : L.term ≠ .sheetEnd) (h2 : L.term ≠ .marker none)
    {v : Val} {head : List Val} {data : List (List Val)} (hh : (v :: head).length = cols.length)
    (hhead : ∀ x ∈ head, isBlank ws x = false) (hlen : ∀ row ∈ data, row.length = cols.length)
    (hrow : ∀ row ∈ data, ¬Ends ws L.term row) (hfit : L.header + data.length < maxRows) :
    ∃ l, writeRange ws sh L ((v :: head) :: data) = .ok l ∧
      (∀ r c, c ∉ cols ∨ r < L.header → apply sh.cells l r c = sh.cells r c) ∧
      (sh'.cells = apply sh.cells l → Tidy sh' → readRange ws sh' L = .ok ((v :: head) :: data)) := by
  have hcols : cols = rangeCols ws sh L := by
    unfold rangeBounds at hb
    split at hb
    · cases hb
    · split at hb
      · cases hb
      · cases hb; rfl
  have hall : ∀ row ∈ (v :: head) :: data, row.length = cols.length := by
    intro row hr
    rcases List.mem_cons.1 hr with h | h
    · rw [h]; exact hh
    · exact hlen row h
  have hn : cols.Nodup := by rw [hcols]; exact rangeCols_nodup
  have hw : ∃ l, writeRange ws sh L ((v :: head) :: data) = .ok l ∧
      l = block L.header cols ((v :: head) :: data) ++
        (if ((v :: head) :: data).length < last - L.header + 1 then
          block (L.header + ((v :: head) :: data).length) cols
            (List.replicate (last - L.header + 1 - ((v :: head) :: data).length) (blanks cols)) else []) ++
        (if L.term = .sheetEnd then [] else rowWrites (L.header + ((v :: head) :: data).length) cols (blanks cols)) := by
    unfold writeRange
    rw [hb]
    simp only
    rw [if_neg (by simpa using hh), if_neg (by simpa using hall)]
    exact ⟨_, rfl, rfl⟩
  obtain ⟨l, hl, el⟩ := hw
  obtain ⟨w1, w2, w3⟩ := grid_cells hn sh.cells hall _ el
  refine ⟨l, hl, fun r c h => w3 r c (by rcases h with h | h; exact Or.inl h; exact Or.inr (Or.inl h)), ?_⟩
  intro hc ht
  rw [← hc] at w1 w2 w3
  have w0 := w1 0 (by simp)
  rw [Nat.add_zero, List.getElem_cons_zero] at w0
  have hcols' : rangeCols ws sh' L = cols := by
    rw [hcols] at w0 w3 ⊢
    unfold rangeCols at w0 w3 ⊢
    congr 1
    apply headerCols_congr
    · intro c hc'
      rw [List.map_cons] at w0
      have := (List.cons.inj w0).2
      apply hhead
      rw [← this]
      exact List.mem_map.2 ⟨c, hc', rfl⟩
    · intro c hc' hno
      apply w3 _ _ (Or.inl _)
      rw [List.mem_cons, not_or]
      exact ⟨by omega, hno⟩
  have hlenc : ((v :: head) :: data).length = data.length + 1 := by simp
  have he : endRow ws sh' (L.header + 1) cols L.term = .ok (L.header + data.length) := by
    obtain ⟨a, cs, e⟩ : ∃ a cs, cols = a :: cs := ⟨_, _, hcols⟩
    rw [e] at w1 w2 ⊢
    apply ((end_row_spec ht (by omega) (by omega) h1 h2 a cs).1 _).2
    refine ⟨by omega, by omega, ?_, ?_⟩
    · rw [stops_iff h1 h2]
      left
      intro x hx
      obtain ⟨c, hc', rfl⟩ := List.mem_map.1 hx
      rw [w2 _ c hc' (by omega) (Or.inr ⟨h1, by omega⟩)]
      rfl
    · intro r r1 r2
      rw [← Bool.not_eq_true, stops_iff h1 h2]
      obtain ⟨i, rfl⟩ : ∃ i, r = L.header + (i + 1) := ⟨r - (L.header + 1), by omega⟩
      rw [w1 (i + 1) (by omega), List.getElem_cons_succ]
      exact hrow _ (List.getElem_mem _)
  unfold readRange rangeBounds
  rw [hcols', if_neg (by omega), he]
  simp only
  congr 1
  apply List.ext_getElem
  · rw [List.length_map, List.length_range, hlenc]; omega
  · intro i i1 i2
    rw [List.getElem_map, List.getElem_range]
    exact w1 i i2

/-- Headers in A1:B1 and one row of data. -/
def pair : Sheet :=
  ⟨fun r c => if r = 1 ∧ (c = 1 ∨ c = 2) then .text ['H'] else if r = 2 ∧ (c = 1 ∨ c = 2) then .other 1 else .empty, 2⟩

example : rangeBounds (· = ' ') pair ⟨1, 1, .firstBlank⟩ = .ok (2, [1, 2]) ∧
    readRange (· = ' ') pair ⟨1, 1, .firstBlank⟩ = .ok [[.text ['H'], .text ['H']], [.other 1, .other 1]] ∧ Tidy pair := by
  refine ⟨rfl, rfl, ?_⟩
  intro r c h
  have h : 2 < r := h
  simp only [pair]
  rw [if_neg (by omega), if_neg (by omega)]

/-- With a blank header in the middle the range becomes narrower, and the column no longer
read keeps the values written; they are not reached by the next write. -/
theorem header_gap_fails :
    ∃ l, writeRange (· = ' ') pair ⟨1, 1, .firstBlank⟩ [[.text ['H'], .empty], [.other 1, .other 7]] = .ok l ∧
      readRange (· = ' ') (pair.write l) ⟨1, 1, .firstBlank⟩ = .ok [[.text ['H']], [.other 1]] ∧
      (pair.write l).cells 2 2 = .other 7 ∧
      ∃ e, writeRange (· = ' ') (pair.write l) ⟨1, 1, .firstBlank⟩ [[.text ['H'], .text ['H']], [.other 1, .other 1]] = .error e := by
  refine ⟨_, rfl, rfl, rfl, _, rfl⟩

/-! ## Smaller parts -/

/-- **C111**: a layout to the end of the sheet takes all rows the store holds, and none but
these. -/
theorem sheet_end_spec {sh : Sheet} {start : Nat} {cols : List Nat} (h0 : 0 < start) (h1 : start ≤ maxRows) :
    ∃ last, endRow ws sh start cols .sheetEnd = .ok last ∧
      ∀ r, start ≤ r → (r ≤ last ↔ r ≤ sh.used ∧ r ≤ maxRows) ∧ start ≤ last + 1 := by
  refine ⟨max (usedEnd sh) (start - 1), ?_, ?_⟩
  · unfold endRow
    rw [if_neg (by omega), if_pos rfl]
  · intro r hr
    unfold usedEnd
    generalize maxRows = K at *
    omega

/-- A marker must be given. -/
theorem marker_missing {sh : Sheet} {start : Nat} {cols : List Nat} (h0 : 0 < start) (h1 : start ≤ maxRows) :
    endRow ws sh start cols (.marker none) = .error .invariant := by
  unfold endRow
  rw [if_neg (by omega), if_neg (by simp), if_pos rfl]

/-- **C111**: the columns of a table are those named, or follow the anchor by their place; all lie
within the sheet. -/
theorem table_cols_spec {anchor : Nat} {hints : List (Option Nat)} {cols : List Nat} (hne : hints ≠ [])
    (h : tableCols anchor hints = .ok cols) :
    cols.length = hints.length ∧ (∀ (i : Nat) (o : Option Nat), hints[i]? = some o → cols[i]? = some (o.getD (anchor + i))) ∧ ∀ c ∈ cols, c ≤ maxCols := by
  unfold tableCols at h
  simp only at h
  split at h
  · cases h
  · rename_i hmax
    have hcs : hints.zipIdx.map (fun p => p.1.getD (anchor + p.2)) ≠ [] := by simpa using hne
    rw [if_neg hcs] at h
    cases h
    refine ⟨by simp, ?_, ?_⟩
    · intro i o ho
      simp [List.getElem?_zipIdx, ho]
    · intro c hc
      simp only [List.any_eq_true, not_exists, not_and, decide_eq_true_eq] at hmax
      exact Nat.le_of_not_lt (hmax c hc)

example : tableCols 3 [none, some 9, none] = .ok [3, 9, 5] := rfl

/-- Values missing at the end of a row are empty. -/
theorem fit_row_spec {n : Nat} {row : List Val} {i : Nat} (h : i < n) : (fitRow n row)[i]? = some (row[i]?.getD .empty) := by
  unfold fitRow
  simp [h]

/-- **C111** (6) with the first column and the end of the sheet. -/
theorem range_cols_spec {sh : Sheet} {L : Layout} {c : Nat} (ha : L.anchor ≤ maxCols) :
    c ∈ rangeCols ws sh L ↔
      L.anchor ≤ c ∧ c ≤ maxCols ∧ ∀ k, L.anchor < k → k ≤ c → isBlank ws (sh.cells L.header k) = false := by
  unfold rangeCols
  rw [List.mem_cons, header_cols_spec]
  generalize maxCols = K at *
  constructor
  · rintro (h | ⟨h1, h2, h3⟩)
    · refine ⟨by omega, by omega, fun k k1 k2 => by omega⟩
    · exact ⟨by omega, by omega, h3⟩
  · rintro ⟨h1, h2, h3⟩
    by_cases e : c = L.anchor
    · exact Or.inl e
    · exact Or.inr ⟨by omega, by omega, h3⟩

/-- A grid with a row of another width than the headers is refused. -/
theorem range_width {sh : Sheet} {L : Layout} {last : Nat} {cols : List Nat} (hb : rangeBounds ws sh L = .ok (last, cols))
    {grid : List (List Val)} {row : List Val} (hr : row ∈ grid) (hlen : row.length ≠ cols.length) :
    writeRange ws sh L grid = .error .invariant := by
  unfold writeRange
  rw [hb]
  simp only
  split
  · rfl
  · rw [if_pos]
    intro h
    rw [List.all_eq_true] at h
    exact hlen (by simpa using h row hr)

end Verif.Port
