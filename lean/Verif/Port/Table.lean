import Mathlib.Tactic.Tauto
import Verif.Port.Model

/-!
# Layouts and tables: where they end, what is written, what is read back
-/

namespace Verif.Port

variable {ws : Char → Bool}

/-- Nothing lies below the rows that the store holds. -/
def Tidy (sh : Sheet) : Prop := ∀ r c, sh.used < r → sh.cells r c = .empty

theorem scan_some {stop : Nat → Bool} {n row last : Nat} (h : last + 1 = row) {k : Nat} :
    scan stop n row last = some k ↔
      row ≤ k + 1 ∧ k + 1 < row + n ∧ stop (k + 1) = true ∧ ∀ r, row ≤ r → r ≤ k → stop r = false := by
  induction n generalizing row last with
  | zero => simp [scan]; omega
  | succ n ih =>
    unfold scan
    by_cases hs : stop row = true
    · rw [if_pos hs]
      constructor
      · rintro e
        cases e
        refine ⟨by omega, by omega, by rw [h]; exact hs, fun r h1 h2 => by omega⟩
      · rintro ⟨h1, h2, h3, h4⟩
        by_cases e : row = k + 1
        · congr 1; omega
        · have := h4 row (Nat.le_refl _) (by omega)
          rw [hs] at this; cases this
    · rw [if_neg hs, ih rfl]
      constructor
      · rintro ⟨h1, h2, h3, h4⟩
        refine ⟨by omega, by omega, h3, fun r r1 r2 => ?_⟩
        by_cases e : r = row
        · rw [e]; simpa using hs
        · exact h4 r (by omega) r2
      · rintro ⟨h1, h2, h3, h4⟩
        have : row ≠ k + 1 := by rintro rfl; exact hs h3
        exact ⟨by omega, by omega, h3, fun r r1 r2 => h4 r (by omega) r2⟩

theorem scan_none {stop : Nat → Bool} {n row last : Nat} :
    scan stop n row last = none ↔ ∀ r, row ≤ r → r < row + n → stop r = false := by
  induction n generalizing row last with
  | zero => simp [scan]; intro r h1 h2; omega
  | succ n ih =>
    unfold scan
    by_cases hs : stop row = true
    · rw [if_pos hs]
      simp only [reduceCtorEq, false_iff]
      intro h
      have := h row (Nat.le_refl _) (by omega)
      rw [hs] at this; cases this
    · rw [if_neg hs, ih]
      constructor
      · intro h r r1 r2
        by_cases e : r = row
        · rw [e]; simpa using hs
        · exact h r (by omega) (by omega)
      · intro h r r1 r2
        exact h r (by omega) (by omega)

theorem blank_below {sh : Sheet} (ht : Tidy sh) {term : Term} (h1 : term ≠ .sheetEnd) (cols : List Nat) (anchor : Nat) {r : Nat}
    (h : sh.used < r) : stops ws sh term cols anchor r = true := by
  have hb : rowBlank ws sh r cols = true := by
    unfold rowBlank
    rw [List.all_eq_true]
    intro c _
    rw [ht r c h]; rfl
  unfold stops
  cases term with
  | firstBlank => exact hb
  | marker m => simp only [hb, Bool.true_or]
  | sheetEnd => exact absurd rfl h1

/-- **C111** (1): the data of a layout end before the first row that ends it (a blank row, or the
marker), wherever the store ends; and a layout is exhausted just when no row up to the
last of a sheet ends it. -/
theorem end_row_spec {sh : Sheet} (ht : Tidy sh) {start : Nat} (h0 : 1 ≤ start) (hm : start ≤ maxRows) {term : Term}
    (h1 : term ≠ .sheetEnd) (h2 : term ≠ .marker none) (anchor : Nat) (cs : List Nat) :
    (∀ last, endRow ws sh start (anchor :: cs) term = .ok last ↔
        start ≤ last + 1 ∧ last + 1 ≤ maxRows ∧ stops ws sh term (anchor :: cs) anchor (last + 1) = true ∧
          ∀ r, start ≤ r → r ≤ last → stops ws sh term (anchor :: cs) anchor r = false) ∧
      (endRow ws sh start (anchor :: cs) term = .error .exhausted ↔
        ∀ r, start ≤ r → r ≤ maxRows → stops ws sh term (anchor :: cs) anchor r = false) := by
  have e : endRow ws sh start (anchor :: cs) term =
      match scan (stops ws sh term (anchor :: cs) anchor)
          (min (min (usedEnd sh + 1) maxRows - start + 1) (maxRows - start + 1)) start (start - 1) with
      | some last => .ok last
      | none => .error .exhausted := by
    unfold endRow
    rw [if_neg (by omega), if_neg h1, if_neg h2]
    rfl
  have hb : ∀ r, sh.used < r → stops ws sh term (anchor :: cs) anchor r = true := fun r h => blank_below ht h1 _ _ h
  generalize stops ws sh term (anchor :: cs) anchor = stop at *
  generalize hn : min (min (usedEnd sh + 1) maxRows - start + 1) (maxRows - start + 1) = n at *
  have hu : usedEnd sh = min sh.used maxRows := rfl
  rw [e]
  clear e
  generalize usedEnd sh = U at *
  generalize maxRows = K at *
  constructor
  · intro last
    have hs := scan_some (stop := stop) (n := n) (row := start) (last := start - 1) (by omega) (k := last)
    cases hc : scan stop n start (start - 1) with
    | none =>
      have hc' := scan_none.1 hc
      simp only [reduceCtorEq, false_iff]
      rintro ⟨a1, a2, a3, a4⟩
      by_cases hk : last + 1 < start + n
      · have := hc' (last + 1) a1 hk
        rw [a3] at this; cases this
      · have u1 : sh.used < start + n - 1 := by omega
        have := hb _ u1
        rw [hc' (start + n - 1) (by omega) (by omega)] at this
        cases this
    | some k =>
      have hk := (scan_some (stop := stop) (n := n) (row := start) (last := start - 1) (by omega) (k := k)).1 hc
      constructor
      · intro h
        cases h
        exact ⟨hk.1, by omega, hk.2.2.1, hk.2.2.2⟩
      · rintro ⟨a1, a2, a3, a4⟩
        obtain ⟨b1, b2, b3, b4⟩ := hk
        rcases Nat.lt_trichotomy k last with h | h | h
        · rw [a4 (k + 1) b1 (by omega)] at b3; cases b3
        · rw [h]
        · rw [b4 (last + 1) a1 (by omega)] at a3; cases a3
  · cases hc : scan stop n start (start - 1) with
    | none =>
      have hc' := scan_none.1 hc
      simp only [true_iff]
      intro r r1 r2
      by_cases hk : r < start + n
      · exact hc' r r1 hk
      · have u1 : sh.used < start + n - 1 := by omega
        have := hb _ u1
        rw [hc' (start + n - 1) (by omega) (by omega)] at this
        cases this
    | some k =>
      have hk := (scan_some (stop := stop) (n := n) (row := start) (last := start - 1) (by omega) (k := k)).1 hc
      simp only [reduceCtorEq, false_iff]
      intro h
      have := h (k + 1) hk.1 (by omega)
      rw [hk.2.2.1] at this; cases this

/-! ## Writing -/

theorem apply_append (cells : Nat → Nat → Val) (a b : List Write) : apply cells (a ++ b) = apply (apply cells a) b := by
  unfold apply; rw [List.foldl_append]

/-- Cells that are not written keep their values. -/
theorem apply_other {cells : Nat → Nat → Val} {l : List Write} {r c : Nat} (h : ∀ w ∈ l, ¬(w.row = r ∧ w.col = c)) :
    apply cells l r c = cells r c := by
  induction l generalizing cells with
  | nil => rfl
  | cons w l ih =>
    show apply (put cells w) l r c = _
    rw [ih (fun x hx => h x (List.mem_cons_of_mem _ hx))]
    unfold put
    rw [if_neg]
    rintro ⟨h1, h2⟩
    exact h w List.mem_cons_self ⟨h1.symm, h2.symm⟩

/-- A cell after the writes depends on the same cell before them only. -/
theorem apply_congr {a b : Nat → Nat → Val} {l : List Write} {r c : Nat} (h : a r c = b r c) :
    apply a l r c = apply b l r c := by
  induction l generalizing a b with
  | nil => exact h
  | cons w l ih =>
    show apply (put a w) l r c = apply (put b w) l r c
    apply ih
    unfold put
    rw [h]

theorem row_mem {r : Nat} {cols : List Nat} {vals : List Val} {w : Write} (h : w ∈ rowWrites r cols vals) :
    w.row = r ∧ w.col ∈ cols := by
  unfold rowWrites at h
  obtain ⟨p, hp, rfl⟩ := List.mem_map.1 h
  exact ⟨rfl, (List.of_mem_zip hp).1⟩

theorem apply_row {cols : List Nat} (hn : cols.Nodup) (cells : Nat → Nat → Val) (r : Nat) {vals : List Val}
    (hl : vals.length = cols.length) : (cols.map fun c => apply cells (rowWrites r cols vals) r c) = vals := by
  induction cols generalizing cells vals with
  | nil => cases vals with
    | nil => rfl
    | cons => simp at hl
  | cons c cs ih =>
    cases vals with
    | nil => simp at hl
    | cons v vs =>
      have hc := (List.nodup_cons.1 hn)
      have e : ∀ x, apply cells (rowWrites r (c :: cs) (v :: vs)) r x = apply (put cells ⟨r, c, v⟩) (rowWrites r cs vs) r x :=
        fun x => rfl
      simp only [List.map_cons, e]
      rw [ih hc.2 _ (by simpa using hl)]
      congr 1
      rw [apply_other]
      · simp [put]
      · rintro w hw ⟨-, h⟩
        exact hc.1 (h ▸ (row_mem hw).2)

theorem block_mem {start : Nat} {cols : List Nat} {rows : List (List Val)} {w : Write} (h : w ∈ block start cols rows) :
    start ≤ w.row ∧ w.row < start + rows.length ∧ w.col ∈ cols := by
  induction rows generalizing start with
  | nil => simp [block] at h
  | cons row rest ih =>
    unfold block at h
    rw [List.length_cons]
    rcases List.mem_append.1 h with h | h
    · have := row_mem h
      exact ⟨by omega, by omega, this.2⟩
    · have := ih h
      exact ⟨by omega, by omega, this.2.2⟩

theorem apply_block {cols : List Nat} (hn : cols.Nodup) (cells : Nat → Nat → Val) {start : Nat} {rows : List (List Val)}
    (hl : ∀ row ∈ rows, row.length = cols.length) :
    ∀ i (h : i < rows.length), (cols.map fun c => apply cells (block start cols rows) (start + i) c) = rows[i] := by
  induction rows generalizing start cells with
  | nil => intro i h; simp at h
  | cons row rest ih =>
    intro i h
    unfold block
    simp only [apply_append]
    cases i with
    | zero =>
      have := apply_row hn cells start (hl row List.mem_cons_self)
      rw [List.getElem_cons_zero]
      refine Eq.trans (List.map_congr_left fun c _ => ?_) this
      apply apply_other
      rintro w hw ⟨h1, -⟩
      have := block_mem hw
      omega
    | succ i =>
      rw [List.getElem_cons_succ]
      have := ih (apply cells (rowWrites start cols row)) (start := start + 1) (fun r hr => hl r (List.mem_cons_of_mem _ hr)) i
        (by simpa using h)
      rw [show start + 1 + i = start + (i + 1) by omega] at this
      exact this

theorem tableCols_length {anchor : Nat} {hints : List (Option Nat)} (h : hints ≠ []) {cols : List Nat}
    (hc : tableCols anchor hints = .ok cols) : cols.length = hints.length := by
  unfold tableCols at hc
  simp only at hc
  split at hc
  · cases hc
  · cases hc
    rw [if_neg]
    · simp
    · intro e
      apply h
      have := congrArg List.length e
      simp at this
      exact this

theorem map_blanks {cells : Nat → Nat → Val} {r : Nat} {cols : List Nat} (h : (cols.map fun c => cells r c) = blanks cols) :
    ∀ c ∈ cols, cells r c = .empty := by
  intro c hc
  unfold blanks at h
  exact List.map_inj_left.1 h c hc

/-- **C111** (2): what writing a table leaves: the rows of the update below the header, empty
values after them to the end of the former data and in the next row, and everything else
as it was. -/
theorem write_table_cells {sh : Sheet} {L : Layout} {hints : List (Option Nat)} (hh : hints ≠ []) {last : Nat} {cols : List Nat}
    (hb : tableBounds ws sh L hints = .ok (last, cols)) (hn : cols.Nodup) (rows : List (List Val))
    (hlen : ∀ row ∈ rows, row.length = hints.length) :
    ∃ l, writeTable ws sh L hints rows = .ok l ∧
      (∀ i (h : i < rows.length), (cols.map fun c => apply sh.cells l (L.header + 1 + i) c) = rows[i]) ∧
      (∀ r c, c ∈ cols → L.header + rows.length < r →
        r ≤ last ∨ (L.term ≠ .sheetEnd ∧ r = L.header + rows.length + 1) → apply sh.cells l r c = .empty) ∧
      (∀ r c, c ∉ cols ∨ r ≤ L.header ∨
          (L.header + rows.length < r ∧ last < r ∧ (L.term = .sheetEnd ∨ r ≠ L.header + rows.length + 1)) →
        apply sh.cells l r c = sh.cells r c) := by
  have hcl : cols.length = hints.length := by
    unfold tableBounds at hb
    split at hb
    · cases hb
    · rename_i cs hcs
      split at hb
      · cases hb
      · split at hb
        · cases hb
        · cases hb; exact tableCols_length hh hcs
  have hfit : ∀ row ∈ rows, fitRow hints.length row = row := by
    intro row hr
    unfold fitRow
    apply List.ext_getElem
    · simp [hlen row hr]
    · intro i h1 h2
      simp [List.getD_eq_getElem?_getD, h2]
  have hmap : rows.map (fitRow hints.length) = rows := by
    rw [List.map_congr_left hfit, List.map_id']
  unfold writeTable
  rw [hb]
  simp only [hmap]
  refine ⟨_, rfl, ?_, ?_, ?_⟩
  · intro i hi
    have := apply_block hn sh.cells (start := L.header + 1) (rows := rows) (fun row hr => by rw [hlen row hr, hcl]) i hi
    refine Eq.trans (List.map_congr_left fun c _ => ?_) this
    rw [List.append_assoc, apply_append]
    apply apply_other
    rintro w hw ⟨h1, -⟩
    rcases List.mem_append.1 hw with hw | hw
    · split at hw
      · have := block_mem hw; omega
      · cases hw
    · split at hw
      · cases hw
      · have := row_mem hw; omega
  · intro r c hc hr hcase
    rw [apply_append]
    by_cases hz : L.term ≠ .sheetEnd ∧ r = L.header + rows.length + 1
    · rw [if_neg hz.1, hz.2, show L.header + rows.length + 1 = L.header + 1 + rows.length by omega]
      exact map_blanks (apply_row hn _ _ (by simp [blanks])) c hc
    · have hl : r ≤ last := hcase.resolve_right hz
      have hne : ∀ w ∈ (if L.term = .sheetEnd then [] else rowWrites (L.header + 1 + rows.length) cols (blanks cols)),
          ¬(w.row = r ∧ w.col = c) := by
        rintro w hw ⟨h1, -⟩
        split at hw
        · cases hw
        · rename_i ht
          have := row_mem hw
          exact hz ⟨ht, by omega⟩
      rw [apply_other hne, apply_append, if_pos (by omega)]
      obtain ⟨i, rfl⟩ : ∃ i, r = L.header + 1 + rows.length + i := ⟨r - (L.header + 1 + rows.length), by omega⟩
      have hi : i < last - L.header - rows.length := by omega
      have := apply_block hn (apply sh.cells (block (L.header + 1) cols rows)) (start := L.header + 1 + rows.length)
        (rows := List.replicate (last - L.header - rows.length) (blanks cols))
        (fun row hr => by rw [List.eq_of_mem_replicate hr]; simp [blanks]) i (by simpa using hi)
      rw [List.getElem_replicate] at this
      exact map_blanks this c hc
  · intro r c h
    apply apply_other
    rintro w hw ⟨h1, h2⟩
    rcases List.mem_append.1 hw with hw | hw
    · rcases List.mem_append.1 hw with hw | hw
      · have := block_mem hw
        rw [h1, h2] at this
        rcases h with h | h | h
        · exact h this.2.2
        · omega
        · omega
      · split at hw
        · have := block_mem hw
          rw [h1, h2, List.length_replicate] at this
          rcases h with h | h | h
          · exact h this.2.2
          · omega
          · omega
        · cases hw
    · split at hw
      · cases hw
      · rename_i ht
        have := row_mem hw
        rw [h1, h2] at this
        rcases h with h | h | h
        · exact h this.2
        · omega
        · rcases h.2.2 with h' | h'
          · exact ht h'
          · omega

/-! ## Reading back -/

/-- Whether the values of a row of a table end it. -/
def Ends (ws : Char → Bool) (term : Term) (row : List Val) : Prop :=
  (∀ v ∈ row, isBlank ws v = true) ∨ ∃ m s rest, term = .marker (some m) ∧ row = .text s :: rest ∧ trim ws s = m

theorem stops_iff {sh : Sheet} {term : Term} (h1 : term ≠ .sheetEnd) (h2 : term ≠ .marker none) (anchor : Nat) (cs : List Nat)
    (r : Nat) : stops ws sh term (anchor :: cs) anchor r = true ↔ Ends ws term ((anchor :: cs).map fun c => sh.cells r c) := by
  have hb : rowBlank ws sh r (anchor :: cs) = true ↔ ∀ v ∈ (anchor :: cs).map (fun c => sh.cells r c), isBlank ws v = true := by
    unfold rowBlank
    rw [List.all_eq_true]
    simp only [List.mem_map, forall_exists_index, and_imp, forall_apply_eq_imp_iff₂]
  unfold stops Ends
  cases term with
  | sheetEnd => exact absurd rfl h1
  | firstBlank =>
    simp only [hb]
    constructor
    · exact Or.inl
    · rintro (h | ⟨m, s, rest, h, -⟩)
      · exact h
      · cases h
  | marker m =>
    cases m with
    | none => exact absurd rfl h2
    | some m =>
      simp only [Bool.or_eq_true, hb]
      apply or_congr Iff.rfl
      unfold isMarker
      constructor
      · intro h
        cases hc : sh.cells r anchor with
        | empty => rw [hc] at h; cases h
        | other n => rw [hc] at h; cases h
        | text s =>
          rw [hc] at h
          exact ⟨m, s, _, rfl, by rw [List.map_cons, hc], by simpa using h⟩
      · rintro ⟨m', s, rest, e, e2, e3⟩
        cases e
        rw [List.map_cons] at e2
        rw [(List.cons.inj e2).1]
        simpa using e3

theorem map_take_self {α β : Type} (f : α → β) (l : List α) {n : Nat} (h : l.length = n) : (l.take n).map f = l.map f := by
  rw [← h, List.take_length]

/-- **C111** (3): a table is read back as it was written, if none of its rows is blank or begins with
the marker, and a row is left below it. -/
theorem write_read_partial {sh sh' : Sheet} {L : Layout} {hints : List (Option Nat)} (hh : hints ≠ []) {last : Nat}
    {cols : List Nat} (hb : tableBounds ws sh L hints = .ok (last, cols)) (hn : cols.Nodup) (h1 : L.term ≠ .sheetEnd)
    (h2 : L.term ≠ .marker none) {rows : List (List Val)} (hlen : ∀ row ∈ rows, row.length = hints.length)
    (hrow : ∀ row ∈ rows, ¬Ends ws L.term row) (hfit : L.header + rows.length < maxRows) {l : List Write}
    (hw : writeTable ws sh L hints rows = .ok l) (hc : sh'.cells = apply sh.cells l) (ht : Tidy sh') :
    readTable ws sh' L hints = .ok rows := by
  obtain ⟨l', hl', w1, w2, -⟩ := write_table_cells hh hb hn rows hlen
  rw [hw] at hl'
  cases hl'
  rw [← hc] at w1 w2
  have hcols : tableCols L.anchor hints = .ok cols := by
    unfold tableBounds at hb
    split at hb
    · cases hb
    · rename_i cs hcs
      split at hb
      · cases hb
      · split at hb
        · cases hb
        · cases hb; exact hcs
  have hcl := tableCols_length hh hcols
  obtain ⟨a, cs, rfl⟩ : ∃ a cs, cols = a :: cs := by
    cases cols with
    | nil => exact absurd (List.length_eq_zero_iff.1 hcl.symm) hh
    | cons a cs => exact ⟨a, cs, rfl⟩
  have he : endRow ws sh' (L.header + 1) (a :: cs) L.term = .ok (L.header + rows.length) := by
    apply ((end_row_spec ht (by omega) (by omega) h1 h2 a cs).1 _).2
    refine ⟨by omega, by omega, ?_, ?_⟩
    · rw [stops_iff h1 h2]
      left
      intro v hv
      obtain ⟨c, hc', rfl⟩ := List.mem_map.1 hv
      rw [w2 _ c hc' (by omega) (Or.inr ⟨h1, rfl⟩)]
      rfl
    · intro r r1 r2
      rw [← Bool.not_eq_true, stops_iff h1 h2]
      obtain ⟨i, rfl⟩ : ∃ i, r = L.header + 1 + i := ⟨r - (L.header + 1), by omega⟩
      rw [w1 i (by omega)]
      exact hrow _ (List.getElem_mem _)
  unfold readTable tableBounds
  rw [hcols]
  simp only
  rw [if_neg (by omega), he]
  simp only
  congr 1
  apply List.ext_getElem
  · simp
  · intro i i1 i2
    rw [List.getElem_map, List.getElem_range, map_take_self _ _ hcl]
    exact w1 i i2

end Verif.Port
