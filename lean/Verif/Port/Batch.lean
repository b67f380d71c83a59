import Mathlib.Tactic.SplitIfs
import Verif.Port.Table

/-!
# Batches: every scenario starts from the baseline, and the baseline is restored
-/

namespace Verif.Port

variable {ws : Char → Bool}

/-- The columns of a table port. -/
def colsOf (L : Layout) (hints : List (Option Nat)) : List Nat :=
  match tableCols L.anchor hints with
  | .ok cols => cols
  | .error _ => []

/-- The cells a port may write: its cell, or the columns of the table below the header. -/
def Region : Port → Nat → Nat → Prop
  | .cell r c, r', c' => r' = r ∧ c' = c
  | .table L hints, r', c' => L.header < r' ∧ c' ∈ colsOf L hints

/-- Ports this file is about: cells, and tables up to the first blank row with at least one
column and no column twice. -/
def Sound : Port → Prop
  | .cell _ _ => True
  | .table L hints => L.term = .firstBlank ∧ hints ≠ [] ∧ (∃ cols, tableCols L.anchor hints = .ok cols ∧ cols.Nodup)

/-- No cell belongs to two ports. -/
def Apart (ports : List Port) : Prop :=
  ∀ (i j : Nat) (p q : Port), ports[i]? = some p → ports[j]? = some q → i ≠ j → ∀ r c, Region p r c → ¬Region q r c

/-- `n` rows of data without a blank one, and nothing below them. -/
def Filled (ws : Char → Bool) (cells : Nat → Nat → Val) (L : Layout) (cols : List Nat) (n : Nat) : Prop :=
  L.header + n < maxRows ∧ (∀ r, L.header < r → r ≤ L.header + n → ∃ c ∈ cols, isBlank ws (cells r c) = false) ∧
    ∀ r c, c ∈ cols → L.header + n < r → cells r c = .empty

/-- All tables have nothing below their data. -/
def Free (ws : Char → Bool) (ports : List Port) (cells : Nat → Nat → Val) : Prop :=
  ∀ L hints, Port.table L hints ∈ ports → ∃ n, Filled ws cells L (colsOf L hints) n

/-- A value for a port without blank rows, that leaves a row below it. -/
def Proper (ws : Char → Bool) : Port → PortVal → Prop
  | .table L hints, .rows l => L.header + l.length < maxRows ∧
      ∀ row ∈ l, row.length = hints.length ∧ ∃ v ∈ row, isBlank ws v = false
  | _, _ => True

/-- An update: every port at most once, with proper values. -/
def Update (ws : Char → Bool) (ports : List Port) (u : List (Nat × PortVal)) : Prop :=
  (u.map Prod.fst).Nodup ∧ ∀ i v p, (i, v) ∈ u → ports[i]? = some p → Proper ws p v

theorem sound_cols {L : Layout} {hints : List (Option Nat)} (h : Sound (.table L hints)) :
    L.term = .firstBlank ∧ hints ≠ [] ∧ tableCols L.anchor hints = .ok (colsOf L hints) ∧ (colsOf L hints).Nodup ∧
      ∃ a cs, colsOf L hints = a :: cs := by
  obtain ⟨h1, h2, cols, h3, h4⟩ := h
  have e : colsOf L hints = cols := by unfold colsOf; rw [h3]
  rw [e]
  refine ⟨h1, h2, h3, h4, ?_⟩
  have := tableCols_length h2 h3
  cases cols with
  | nil => exact absurd (List.length_eq_zero_iff.1 this.symm) h2
  | cons a cs => exact ⟨a, cs, rfl⟩

theorem filled_bounds {sh : Sheet} (ht : Tidy sh) {L : Layout} {hints : List (Option Nat)} (hs : Sound (.table L hints)) {n : Nat}
    (hf : Filled ws sh.cells L (colsOf L hints) n) : tableBounds ws sh L hints = .ok (L.header + n, colsOf L hints) := by
  obtain ⟨h1, h2, h3, h4, a, cs, e⟩ := sound_cols hs
  obtain ⟨f1, f2, f3⟩ := hf
  unfold tableBounds
  rw [h3]
  simp only
  rw [if_neg (by omega)]
  have he : endRow ws sh (L.header + 1) (colsOf L hints) L.term = .ok (L.header + n) := by
    rw [h1, e]
    apply ((end_row_spec ht (by omega) (by omega) (by simp) (by simp) a cs).1 _).2
    rw [e] at f2 f3
    refine ⟨by omega, by omega, ?_, ?_⟩
    · rw [stops_iff (by simp) (by simp)]
      left
      intro v hv
      obtain ⟨c, hc, rfl⟩ := List.mem_map.1 hv
      rw [f3 _ c hc (by omega)]
      rfl
    · intro r r1 r2
      rw [← Bool.not_eq_true, stops_iff (by simp) (by simp)]
      rintro (h | ⟨m, s, rest, h, -⟩)
      · obtain ⟨c, hc, hb⟩ := f2 r (by omega) r2
        rw [h _ (List.mem_map.2 ⟨c, hc, rfl⟩)] at hb
        cases hb
      · cases h
  rw [he]

theorem write_region {sh : Sheet} {p : Port} {v : PortVal} {l : List Write} (h : writePort ws sh p v = .ok l) :
    ∀ w ∈ l, Region p w.row w.col := by
  cases p with
  | cell r c =>
    cases v with
    | one v => cases h; intro w hw; rw [List.mem_singleton] at hw; subst hw; exact ⟨rfl, rfl⟩
    | rows _ => cases h
  | table L hints =>
    cases v with
    | one _ => cases h
    | rows rows =>
      replace h : writeTable ws sh L hints rows = .ok l := h
      unfold writeTable at h
      split at h
      · cases h
      · rename_i last cols hb
        cases h
        have hc : colsOf L hints = cols := by
          unfold tableBounds at hb
          split at hb
          · cases hb
          · rename_i cs hcs
            split at hb
            · cases hb
            · split at hb
              · cases hb
              · cases hb; unfold colsOf; rw [hcs]
        intro w hw
        show L.header < w.row ∧ w.col ∈ colsOf L hints
        rw [hc]
        rcases List.mem_append.1 hw with hw | hw
        · rcases List.mem_append.1 hw with hw | hw
          · have := block_mem hw; exact ⟨by omega, this.2.2⟩
          · split at hw
            · have := block_mem hw; exact ⟨by omega, this.2.2⟩
            · cases hw
        · split at hw
          · cases hw
          · have := row_mem hw; exact ⟨by omega, this.2⟩

/-- What prepared writes do to the cells of a port. -/
theorem prepare_apply {ports : List Port} (ha : Apart ports) {ok : Port → PortVal → Bool} {sh : Sheet} {u : List (Nat × PortVal)}
    (hk : (u.map Prod.fst).Nodup) {l : List Write} (h : prepare ws ports ok sh u = .ok l) (cells : Nat → Nat → Val) :
    (∀ r c, (∀ p ∈ ports, ¬Region p r c) → apply cells l r c = cells r c) ∧
      (∀ i p v, (i, v) ∈ u → ports[i]? = some p → ∃ li, writePort ws sh p v = .ok li ∧
        ∀ r c, Region p r c → apply cells l r c = apply cells li r c) ∧
      (∀ i p, ports[i]? = some p → i ∉ u.map Prod.fst → ∀ r c, Region p r c → apply cells l r c = cells r c) := by
  induction u generalizing l cells with
  | nil =>
    cases h
    exact ⟨fun _ _ _ => rfl, fun i p v hv => (by cases hv), fun _ _ _ _ _ _ _ => rfl⟩
  | cons e rest ih =>
    obtain ⟨j, x⟩ := e
    rw [List.map_cons, List.nodup_cons] at hk
    unfold prepare at h
    split at h
    · cases h
    · rename_i q hq
      split at h
      · cases h
      · split at h
        · cases h
        · rename_i lj hlj
          split at h
          · cases h
          · rename_i l' hl'
            cases h
            have hr := write_region hlj
            obtain ⟨i1, i2, i3⟩ := ih hk.2 hl' (apply cells lj)
            have hmem : q ∈ ports := List.mem_of_getElem? hq
            refine ⟨?_, ?_, ?_⟩
            · intro r c hrc
              rw [apply_append, i1 r c hrc]
              apply apply_other
              rintro w hw ⟨h1, h2⟩
              have := hr w hw
              rw [h1, h2] at this
              exact hrc q hmem this
            · intro i p v hv hp
              rcases List.mem_cons.1 hv with hv | hv
              · cases hv
                rw [hq] at hp
                cases hp
                refine ⟨lj, hlj, fun r c hrc => ?_⟩
                rw [apply_append]
                exact i3 j q hq hk.1 r c hrc
              · obtain ⟨li, w1, w2⟩ := i2 i p v hv hp
                refine ⟨li, w1, fun r c hrc => ?_⟩
                rw [apply_append, w2 r c hrc]
                apply apply_congr
                apply apply_other
                rintro w hw ⟨h1, h2⟩
                have hz := hr w hw
                rw [h1, h2] at hz
                refine ha i j p q hp hq ?_ r c hrc hz
                intro e
                exact hk.1 (List.mem_map.2 ⟨(i, v), hv, e⟩)
            · intro i p hp hi r c hrc
              rw [List.map_cons, List.mem_cons, not_or] at hi
              rw [apply_append, i3 i p hp hi.2 r c hrc]
              apply apply_other
              rintro w hw ⟨h1, h2⟩
              have hz := hr w hw
              rw [h1, h2] at hz
              exact ha i j p q hp hq hi.1 r c hrc hz

theorem fold_max_le (l : List Write) (n : Nat) : n ≤ l.foldl (fun n w => max n w.row) n ∧
    ∀ w ∈ l, w.row ≤ l.foldl (fun n w => max n w.row) n := by
  induction l generalizing n with
  | nil => exact ⟨Nat.le_refl _, fun w hw => (by cases hw)⟩
  | cons x l ih =>
    obtain ⟨h1, h2⟩ := ih (max n x.row)
    rw [List.foldl_cons]
    refine ⟨by omega, fun w hw => ?_⟩
    rcases List.mem_cons.1 hw with h | h
    · subst h; omega
    · exact h2 w h

theorem tidy_write {sh : Sheet} (ht : Tidy sh) (l : List Write) : Tidy (sh.write l) := by
  intro r c h
  obtain ⟨h1, h2⟩ := fold_max_le l sh.used
  have h : l.foldl (fun n w => max n w.row) sh.used < r := h
  show apply sh.cells l r c = .empty
  rw [apply_other]
  · exact ht r c (by omega)
  · rintro w hw ⟨h3, -⟩
    have := h2 w hw
    omega

theorem filled_congr {a b : Nat → Nat → Val} {L : Layout} {hints : List (Option Nat)} {n : Nat}
    (h : ∀ r c, Region (.table L hints) r c → a r c = b r c) (hf : Filled ws a L (colsOf L hints) n) :
    Filled ws b L (colsOf L hints) n := by
  obtain ⟨f1, f2, f3⟩ := hf
  refine ⟨f1, fun r r1 r2 => ?_, fun r c hc hr => ?_⟩
  · obtain ⟨c, hc, hb⟩ := f2 r r1 r2
    exact ⟨c, hc, by rw [← h r c ⟨r1, hc⟩]; exact hb⟩
  · rw [← h r c ⟨by omega, hc⟩]; exact f3 r c hc hr

/-- A table written over a free area leaves a free area. -/
theorem table_filled {sh : Sheet} (ht : Tidy sh) {L : Layout} {hints : List (Option Nat)} (hs : Sound (.table L hints)) {n : Nat}
    (hf : Filled ws sh.cells L (colsOf L hints) n) {rows : List (List Val)} (hp : Proper ws (.table L hints) (.rows rows)) :
    ∃ l, writeTable ws sh L hints rows = .ok l ∧ Filled ws (apply sh.cells l) L (colsOf L hints) rows.length ∧
      ∀ i (h : i < rows.length), ((colsOf L hints).map fun c => apply sh.cells l (L.header + 1 + i) c) = rows[i] := by
  obtain ⟨h1, h2, h3, h4, -⟩ := sound_cols hs
  have hb := filled_bounds ht hs hf
  obtain ⟨p1, p2⟩ := hp
  obtain ⟨l, w0, w1, w2, w3⟩ := write_table_cells h2 hb h4 rows (fun row hr => (p2 row hr).1)
  refine ⟨l, w0, ⟨p1, ?_, ?_⟩, w1⟩
  · intro r r1 r2
    obtain ⟨i, rfl⟩ : ∃ i, r = L.header + 1 + i := ⟨r - (L.header + 1), by omega⟩
    obtain ⟨v, hv, hb'⟩ := (p2 rows[i] (List.getElem_mem _)).2
    rw [← w1 i (by omega)] at hv
    obtain ⟨c, hc, rfl⟩ := List.mem_map.1 hv
    exact ⟨c, hc, hb'⟩
  · intro r c hc hr
    by_cases hl : r ≤ L.header + n ∨ r = L.header + rows.length + 1
    · exact w2 r c hc hr (hl.imp_right fun h => ⟨by rw [h1]; simp, h⟩)
    · rw [not_or] at hl
      rw [w3 r c (Or.inr (Or.inr ⟨hr, by omega, Or.inr hl.2⟩))]
      exact hf.2.2 r c hc (by omega)

/-- An update keeps the tables free below and the other cells as they are. -/
theorem update_keeps {ports : List Port} (ha : Apart ports) (hs : ∀ p ∈ ports, Sound p) {ok : Port → PortVal → Bool} {sh sh' : Sheet}
    (ht : Tidy sh) (hf : Free ws ports sh.cells) {u : List (Nat × PortVal)} (hu : Update ws ports u)
    (h : writeInputs ws ports ok sh u = .ok sh') :
    Tidy sh' ∧ Free ws ports sh'.cells ∧ ∀ r c, (∀ p ∈ ports, ¬Region p r c) → sh'.cells r c = sh.cells r c := by
  unfold writeInputs at h
  split at h
  · cases h
  · rename_i l hl
    cases h
    obtain ⟨a1, a2, a3⟩ := prepare_apply ha hu.1 hl sh.cells
    refine ⟨tidy_write ht l, ?_, a1⟩
    intro L hints hm
    obtain ⟨n, hn⟩ := hf L hints hm
    obtain ⟨i, hi⟩ := List.mem_iff_getElem?.1 hm
    by_cases hk : i ∈ u.map Prod.fst
    · obtain ⟨⟨j, v⟩, hv, e⟩ := List.mem_map.1 hk
      simp only at e
      subst e
      obtain ⟨li, w1, w2⟩ := a2 j _ v hv hi
      have hp := hu.2 j v _ hv hi
      cases v with
      | one v => cases w1
      | rows rows =>
        obtain ⟨l2, t1, t2, -⟩ := table_filled ht (hs _ hm) hn hp
        have : li = l2 := by
          have e : writeTable ws sh L hints rows = .ok li := w1
          rw [t1] at e; cases e; rfl
        subst this
        exact ⟨_, filled_congr (fun r c hrc => (w2 r c hrc).symm) t2⟩
    · exact ⟨n, filled_congr (fun r c hrc => (a3 i _ hi hk r c hrc).symm) hn⟩

theorem readFrom_spec {sh : Sheet} {ports : List Port} {i : Nat} {base : List (Nat × PortVal)}
    (h : readFrom ws sh i ports = .ok base) :
    (base.map Prod.fst) = (List.range ports.length).map (i + ·) ∧
      ∀ j v, (j, v) ∈ base → ∃ p, i ≤ j ∧ ports[j - i]? = some p ∧ readPort ws sh p = .ok v := by
  induction ports generalizing i base with
  | nil => cases h; exact ⟨rfl, fun j v hv => (by cases hv)⟩
  | cons p rest ih =>
    unfold readFrom at h
    split at h
    · cases h
    · rename_i v hv
      split at h
      · cases h
      · rename_i l hl
        cases h
        obtain ⟨h1, h2⟩ := ih hl
        refine ⟨?_, ?_⟩
        · rw [List.map_cons, h1, List.length_cons, List.range_succ_eq_map, List.map_cons, List.map_map]
          congr 1
          apply List.map_congr_left
          intro k _
          simp only [Function.comp]
          omega
        · intro j x hx
          rcases List.mem_cons.1 hx with hx | hx
          · cases hx
            exact ⟨p, Nat.le_refl _, by simp, hv⟩
          · obtain ⟨q, q1, q2, q3⟩ := h2 j x hx
            refine ⟨q, by omega, ?_, q3⟩
            rw [show j - i = (j - (i + 1)) + 1 by omega, List.getElem?_cons_succ]
            exact q2

/-- What is read from a free table is proper and has as many rows as the table. -/
theorem read_filled {sh : Sheet} (ht : Tidy sh) {L : Layout} {hints : List (Option Nat)} (hs : Sound (.table L hints)) {n : Nat}
    (hf : Filled ws sh.cells L (colsOf L hints) n) :
    ∃ rows, readTable ws sh L hints = .ok rows ∧ rows.length = n ∧ Proper ws (.table L hints) (.rows rows) ∧
      ∀ i (h : i < rows.length), rows[i] = (colsOf L hints).map fun c => sh.cells (L.header + 1 + i) c := by
  obtain ⟨h1, h2, h3, h4, -⟩ := sound_cols hs
  have hcl := tableCols_length h2 h3
  unfold readTable
  rw [filled_bounds ht hs hf]
  simp only [map_take_self _ _ hcl]
  refine ⟨_, rfl, by simp, ⟨by simpa using hf.1, ?_⟩, ?_⟩
  · intro row hr
    obtain ⟨i, hi, rfl⟩ := List.mem_map.1 hr
    rw [List.mem_range] at hi
    refine ⟨by simpa using hcl, ?_⟩
    obtain ⟨c, hc, hb⟩ := hf.2.1 (L.header + 1 + i) (by omega) (by omega)
    exact ⟨_, List.mem_map.2 ⟨c, hc, rfl⟩, hb⟩
  · intro i hi
    simp

theorem prepare_ok {ports : List Port} {sh : Sheet} {u : List (Nat × PortVal)}
    (h : ∀ i v, (i, v) ∈ u → ∃ p l, ports[i]? = some p ∧ writePort ws sh p v = .ok l) :
    ∃ l, prepare ws ports (fun _ _ => true) sh u = .ok l := by
  induction u with
  | nil => exact ⟨[], rfl⟩
  | cons e rest ih =>
    obtain ⟨i, v⟩ := e
    obtain ⟨l', hl'⟩ := ih fun j x hx => h j x (List.mem_cons_of_mem _ hx)
    obtain ⟨p, l, hp, hl⟩ := h i v List.mem_cons_self
    unfold prepare
    rw [hp]
    simp only
    rw [if_neg (by simp), hl, hl']
    exact ⟨_, rfl⟩

/-- Writing the baseline brings back the values it was read from. -/
theorem base_restores {ports : List Port} (ha : Apart ports) (hs : ∀ p ∈ ports, Sound p) {sh0 sh : Sheet} (ht0 : Tidy sh0)
    (hf0 : Free ws ports sh0.cells) (ht : Tidy sh) (hf : Free ws ports sh.cells)
    (ho : ∀ r c, (∀ p ∈ ports, ¬Region p r c) → sh.cells r c = sh0.cells r c) {base : List (Nat × PortVal)}
    (hb : readFrom ws sh0 0 ports = .ok base) :
    ∃ sh1, writeInputs ws ports (fun _ _ => true) sh base = .ok sh1 ∧ sh1.cells = sh0.cells ∧ Tidy sh1 := by
  obtain ⟨b1, b2⟩ := readFrom_spec hb
  have hk : (base.map Prod.fst).Nodup := by
    rw [b1]
    simp only [Nat.zero_add, List.map_id']
    exact List.nodup_range
  have hw : ∀ i v, (i, v) ∈ base → ∃ p l, ports[i]? = some p ∧ writePort ws sh p v = .ok l := by
    intro i v hv
    obtain ⟨p, -, q2, q3⟩ := b2 i v hv
    rw [Nat.sub_zero] at q2
    refine ⟨p, ?_⟩
    have hm := List.mem_of_getElem? q2
    cases p with
    | cell r c => cases q3; exact ⟨_, q2, rfl⟩
    | table L hints =>
      obtain ⟨n0, hn0⟩ := hf0 L hints hm
      obtain ⟨n, hn⟩ := hf L hints hm
      obtain ⟨rows, r1, r2, r3, r4⟩ := read_filled ht0 (hs _ hm) hn0
      obtain ⟨l, t1, -⟩ := table_filled ht (hs _ hm) hn r3
      unfold readPort at q3
      simp only [r1] at q3
      cases q3
      exact ⟨l, q2, t1⟩
  obtain ⟨l, hl⟩ := prepare_ok hw
  obtain ⟨a1, a2, a3⟩ := prepare_apply ha hk hl sh.cells
  refine ⟨sh.write l, by unfold writeInputs; rw [hl], ?_, tidy_write ht l⟩
  funext r c
  show apply sh.cells l r c = sh0.cells r c
  by_cases hex : ∃ p ∈ ports, Region p r c
  · obtain ⟨p, hm, hrc⟩ := hex
    obtain ⟨i, hi⟩ := List.mem_iff_getElem?.1 hm
    have hlt : i < ports.length := (List.getElem?_eq_some_iff.1 hi).1
    have hmem : i ∈ base.map Prod.fst := by rw [b1]; simpa using hlt
    obtain ⟨⟨j, v⟩, hv, e⟩ := List.mem_map.1 hmem
    simp only at e
    subst e
    obtain ⟨li, w1, w2⟩ := a2 j p v hv hi
    obtain ⟨p', -, q2, q3⟩ := b2 j v hv
    rw [Nat.sub_zero, hi] at q2
    cases q2
    rw [w2 r c hrc]
    cases p with
    | cell r' c' =>
      cases q3
      cases w1
      obtain ⟨rfl, rfl⟩ := hrc
      show put sh.cells _ r c = _
      unfold put
      rw [if_pos ⟨rfl, rfl⟩]
    | table L hints =>
      obtain ⟨n0, hn0⟩ := hf0 L hints hm
      obtain ⟨n, hn⟩ := hf L hints hm
      obtain ⟨rows, r1, r2, r3, r4⟩ := read_filled ht0 (hs _ hm) hn0
      obtain ⟨l2, t1, t2, t3⟩ := table_filled ht (hs _ hm) hn r3
      unfold readPort at q3
      simp only [r1] at q3
      cases q3
      have : li = l2 := by
        have e : writeTable ws sh L hints rows = .ok li := w1
        rw [t1] at e; cases e; rfl
      subst this
      obtain ⟨g1, g2⟩ := hrc
      by_cases hin : r ≤ L.header + rows.length
      · obtain ⟨i, rfl⟩ : ∃ i, r = L.header + 1 + i := ⟨r - (L.header + 1), by omega⟩
        have e := t3 i (by omega)
        rw [r4 i (by omega)] at e
        exact List.map_inj_left.1 e c g2
      · rw [t2.2.2 r c g2 (by omega), hn0.2.2 r c g2 (by omega)]
  · have hne : ∀ p ∈ ports, ¬Region p r c := fun p hp h => hex ⟨p, hp, h⟩
    rw [a1 r c hne, ho r c hne]

/-- Updates do not look at how many rows the store holds. -/
theorem prepare_cells {ports : List Port} (hs : ∀ p ∈ ports, Sound p) {ok : Port → PortVal → Bool} {a b : Sheet} (hta : Tidy a)
    (htb : Tidy b) (hf : Free ws ports a.cells) (e : a.cells = b.cells) (u : List (Nat × PortVal)) :
    prepare ws ports ok a u = prepare ws ports ok b u := by
  induction u with
  | nil => rfl
  | cons x rest ih =>
    obtain ⟨i, v⟩ := x
    unfold prepare
    cases hp : ports[i]? with
    | none => rfl
    | some p =>
      have hm := List.mem_of_getElem? hp
      have hw : writePort ws a p v = writePort ws b p v := by
        cases p with
        | cell r c => cases v <;> rfl
        | table L hints =>
          cases v with
          | one v => rfl
          | rows rows =>
            obtain ⟨n, hn⟩ := hf L hints hm
            show writeTable ws a L hints rows = writeTable ws b L hints rows
            unfold writeTable
            rw [filled_bounds hta (hs _ hm) hn, filled_bounds htb (hs _ hm) (e ▸ hn)]
      simp only [hw, ih]

/-- What one scenario sees: the sheet as the batch found it, with the update of the scenario
on it. -/
def Sees (ws : Char → Bool) (ports : List Port) (ok : Port → PortVal → Bool) (sh0 : Sheet) (case : List (Nat × PortVal))
    (cells : Nat → Nat → Val) : Prop :=
  (case = [] ∧ cells = sh0.cells) ∨ (case ≠ [] ∧ ∃ sh, writeInputs ws ports ok sh0 case = .ok sh ∧ cells = sh.cells)

theorem scenarios_spec {Out : Type} {ports : List Port} (ha : Apart ports) (hs : ∀ p ∈ ports, Sound p)
    {ok : Port → PortVal → Bool} {eval : (Nat → Nat → Val) → Except Err Out} {sh0 : Sheet} (ht0 : Tidy sh0)
    (hf0 : Free ws ports sh0.cells) {base : List (Nat × PortVal)} (hb : readFrom ws sh0 0 ports = .ok base)
    (cases' : List (List (Nat × PortVal))) (hc : ∀ u ∈ cases', Update ws ports u) (sh : Sheet) (ht : Tidy sh)
    (hf : Free ws ports sh.cells) (ho : ∀ r c, (∀ p ∈ ports, ¬Region p r c) → sh.cells r c = sh0.cells r c) :
    (Tidy (scenarios ws ports ok eval base cases' sh).2 ∧ Free ws ports (scenarios ws ports ok eval base cases' sh).2.cells ∧
      ∀ r c, (∀ p ∈ ports, ¬Region p r c) → (scenarios ws ports ok eval base cases' sh).2.cells r c = sh0.cells r c) ∧
    ∀ outs, (scenarios ws ports ok eval base cases' sh).1 = .ok outs →
      List.Forall₂ (fun case out => ∃ cells, Sees ws ports ok sh0 case cells ∧ eval cells = .ok out) cases' outs := by
  induction cases' generalizing sh with
  | nil =>
    refine ⟨⟨ht, hf, ho⟩, ?_⟩
    intro outs h
    cases h
    exact .nil
  | cons case rest ih =>
    obtain ⟨sh1, e1, e2, e3⟩ := base_restores ha hs ht0 hf0 ht hf ho hb
    unfold scenarios
    rw [e1]
    simp only
    have hf1 : Free ws ports sh1.cells := by rw [e2]; exact hf0
    have ho1 : ∀ r c, (∀ p ∈ ports, ¬Region p r c) → sh1.cells r c = sh0.cells r c := fun r c _ => by rw [e2]
    cases h2 : (if case = [] then .ok sh1 else writeInputs ws ports ok sh1 case : Except Err Sheet) with
    | error e =>
      refine ⟨⟨e3, hf1, ho1⟩, ?_⟩
      intro outs h; cases h
    | ok sh2 =>
      have key : (Tidy sh2 ∧ Free ws ports sh2.cells ∧ ∀ r c, (∀ p ∈ ports, ¬Region p r c) → sh2.cells r c = sh0.cells r c) ∧
          Sees ws ports ok sh0 case sh2.cells := by
        by_cases hn : case = []
        · rw [if_pos hn] at h2
          cases h2
          exact ⟨⟨e3, hf1, ho1⟩, Or.inl ⟨hn, e2⟩⟩
        · rw [if_neg hn] at h2
          obtain ⟨k1, k2, k3⟩ := update_keeps ha hs e3 hf1 (hc case List.mem_cons_self) h2
          refine ⟨⟨k1, k2, fun r c h => by rw [k3 r c h, e2]⟩, Or.inr ⟨hn, ?_⟩⟩
          unfold writeInputs at h2 ⊢
          rw [prepare_cells hs e3 ht0 hf1 e2] at h2
          split at h2
          · cases h2
          · rename_i l hl
            cases h2
            refine ⟨_, rfl, ?_⟩
            show apply sh1.cells l = apply sh0.cells l
            rw [e2]
      obtain ⟨⟨k1, k2, k3⟩, k4⟩ := key
      simp only
      cases h3 : eval sh2.cells with
      | error e =>
        refine ⟨⟨k1, k2, k3⟩, ?_⟩
        intro outs h; cases h
      | ok out =>
        simp only
        obtain ⟨j1, j2⟩ := ih (fun u hu => hc u (List.mem_cons_of_mem _ hu)) sh2 k1 k2 k3
        cases h4 : scenarios ws ports ok eval base rest sh2 with
        | mk res sh3 =>
          rw [h4] at j1 j2
          cases res with
          | error e =>
            refine ⟨j1, ?_⟩
            intro outs h; cases h
          | ok l =>
            refine ⟨j1, ?_⟩
            intro outs h
            cases h
            exact .cons ⟨_, k4, h3⟩ (j2 l rfl)

/-- **C111** (4): a batch leaves all values as it found them, whether it succeeds or not; and each result
is what its scenario alone gives on the sheet as it was, whatever scenarios came before.
For ports of cells and of tables that end at a blank row with nothing below, and
scenarios without blank rows. -/
theorem batch_partial {Out : Type} {ports : List Port} (ha : Apart ports) (hs : ∀ p ∈ ports, Sound p) (ok : Port → PortVal → Bool)
    (eval : (Nat → Nat → Val) → Except Err Out) {sh : Sheet} (ht : Tidy sh) (hf : Free ws ports sh.cells)
    {base : List (Nat × PortVal)} (hb : readFrom ws sh 0 ports = .ok base) {cases' : List (List (Nat × PortVal))}
    (hc : ∀ u ∈ cases', Update ws ports u) :
    (run ws ports ok eval base cases' sh).2.cells = sh.cells ∧
      ∀ outs, (run ws ports ok eval base cases' sh).1 = .ok outs →
        List.Forall₂ (fun case out => ∃ cells, Sees ws ports ok sh case cells ∧ eval cells = .ok out) cases' outs := by
  obtain ⟨⟨j1, j2, j3⟩, j4⟩ := scenarios_spec (eval := eval) (ok := ok) ha hs ht hf hb cases' hc sh ht hf (fun _ _ _ => rfl)
  unfold run
  cases h : scenarios ws ports ok eval base cases' sh with
  | mk primary sh1 =>
    rw [h] at j1 j2 j3 j4
    simp only at j1 j2 j3 j4 ⊢
    obtain ⟨sh2, e1, e2, -⟩ := base_restores ha hs ht hf j1 j2 j3 hb
    rw [e1]
    simp only
    cases he : eval sh2.cells with
    | error e =>
      refine ⟨e2, ?_⟩
      intro outs hx
      cases primary <;> cases hx
    | ok out => exact ⟨e2, fun outs hx => j4 outs hx⟩

/-! ## What fails -/

/-- A sheet with a header in row 1, the value 1 in row 2, and a text in a row below, all in
column A. -/
def note (row : Nat) (s : List Char) : Sheet :=
  ⟨fun r c => if c = 1 then (if r = 1 then .text ['H'] else if r = 2 then .other 1 else if r = row then .text s else .empty)
    else .empty, 9⟩

/-- **C111** (5): writing a table that ends at a marker erases the marker, even if it is
written as it was read; a batch without scenarios does so. -/
theorem marker_fails :
    let L : Layout := ⟨1, 1, .marker (some ['T'])⟩
    let sh := note 3 ['T']
    let base : List (Nat × PortVal) := [(0, .rows [[.other 1]])]
    readFrom (· = ' ') sh 0 [.table L [none]] = .ok base ∧ sh.cells 3 1 = .text ['T'] ∧
      (run (· = ' ') [.table L [none]] (fun _ _ => true) (fun _ => .ok ()) base [] sh).2.cells 3 1 = .empty := by
  refine ⟨rfl, rfl, by decide +kernel⟩

/-- A scenario with one row more erases what lies in the row after the next, and it is not
restored. -/
theorem below_fails :
    let L : Layout := ⟨1, 1, .firstBlank⟩
    let sh := note 4 ['N']
    let base : List (Nat × PortVal) := [(0, .rows [[.other 1]])]
    readFrom (· = ' ') sh 0 [.table L [none]] = .ok base ∧ sh.cells 4 1 = .text ['N'] ∧
      (run (· = ' ') [.table L [none]] (fun _ _ => true) (fun _ => .ok ()) base
        [[(0, .rows [[.other 5], [.other 6]])]] sh).2.cells 4 1 = .empty := by
  refine ⟨rfl, rfl, by decide +kernel⟩

/-- Rows after a blank one are not read back, and remain after a batch. -/
theorem gap_fails :
    let L : Layout := ⟨1, 1, .firstBlank⟩
    let sh := note 9 []
    let base : List (Nat × PortVal) := [(0, .rows [[.other 1]])]
    let u : List (List Val) := [[.other 5], [.text [' ']], [.other 6]]
    readFrom (· = ' ') sh 0 [.table L [none]] = .ok base ∧ sh.cells 4 1 = .empty ∧
      (∃ l, writeTable (· = ' ') sh L [none] u = .ok l ∧ readTable (· = ' ') (sh.write l) L [none] = .ok [[.other 5]]) ∧
      (run (· = ' ') [.table L [none]] (fun _ _ => true) (fun _ => .ok ()) base [[(0, .rows u)]] sh).2.cells 4 1 =
        .other 6 := by
  refine ⟨rfl, rfl, ⟨_, rfl, rfl⟩, by decide +kernel⟩

/-- A marker with spaces around it is never met, since the cells are trimmed. -/
theorem marker_spaces_fails :
    let L : Layout := ⟨1, 1, .marker (some ['T', ' '])⟩
    (note 3 ['T', ' ']).cells 3 1 = .text ['T', ' '] ∧
      readTable (· = ' ') (note 3 ['T', ' ']) L [none] = .ok [[.other 1], [.text ['T', ' ']]] := by
  refine ⟨rfl, rfl⟩

/-- A batch over a cell and a table, with a longer and a failing scenario: the conditions
hold. -/
example :
    let L : Layout := ⟨1, 1, .firstBlank⟩
    let ports : List Port := [.table L [none], .cell 1 4]
    let sh := note 0 []
    Apart ports ∧ (∀ p ∈ ports, Sound p) ∧ Tidy sh ∧ Free (· = ' ') ports sh.cells ∧
      (∃ base, readFrom (· = ' ') sh 0 ports = .ok base) ∧
      (∀ u ∈ ([[(0, .rows [[.other 5], [.other 6]]), (1, .one (.other 2))], [(7, .one .empty)]] : List (List (Nat × PortVal))),
        Update (· = ' ') ports u) := by
  have hc : ∀ c, c ∈ colsOf ⟨1, 1, .firstBlank⟩ [none] ↔ c = 1 := by
    intro c
    show c ∈ [1] ↔ c = 1
    simp
  refine ⟨?_, ?_, ?_, ?_, ⟨_, rfl⟩, ?_⟩
  · intro i j p q hi hj hij r c h1 h2
    rcases i with _ | _ | i <;> rcases j with _ | _ | j <;>
      simp only [List.getElem?_cons_zero, List.getElem?_cons_succ, List.getElem?_nil, Option.some.injEq, reduceCtorEq] at hi hj <;>
      first
        | exact hij rfl
        | (subst hi; subst hj; simp only [Region, hc] at h1 h2; omega)
  · intro p hp
    simp only [List.mem_cons, List.not_mem_nil, or_false] at hp
    rcases hp with rfl | rfl
    · exact ⟨rfl, by simp, [1], rfl, by simp⟩
    · trivial
  · intro r c h
    have h : 9 < r := h
    simp only [note]
    split_ifs <;> first | omega | rfl
  · intro L hints hm
    simp only [List.mem_cons, List.not_mem_nil, or_false, reduceCtorEq, Port.table.injEq] at hm
    obtain ⟨rfl, rfl⟩ := hm
    refine ⟨1, by show 1 + 1 < maxRows; unfold maxRows; omega, ?_, ?_⟩
    · intro r r1 r2
      have r1 : 1 < r := r1
      have r2 : r ≤ 2 := r2
      have : r = 2 := by omega
      subst this
      exact ⟨1, (hc 1).2 rfl, rfl⟩
    · intro r c h1 h2
      have h2 : 2 < r := h2
      simp only [note]
      split_ifs <;> first | omega | rfl
  · intro u hu
    simp only [List.mem_cons, List.not_mem_nil, or_false] at hu
    rcases hu with rfl | rfl
    · refine ⟨by decide, ?_⟩
      intro i v p hv hp
      simp only [List.mem_cons, List.not_mem_nil, or_false, Prod.mk.injEq] at hv
      rcases hv with ⟨rfl, rfl⟩ | ⟨rfl, rfl⟩
      · simp only [List.getElem?_cons_zero, Option.some.injEq] at hp
        subst hp
        refine ⟨by show 1 + 2 < maxRows; unfold maxRows; omega, ?_⟩
        intro row hr
        simp only [List.mem_cons, List.not_mem_nil, or_false] at hr
        rcases hr with rfl | rfl <;> exact ⟨rfl, _, List.mem_cons_self, rfl⟩
      · simp only [List.getElem?_cons_succ, List.getElem?_cons_zero, Option.some.injEq] at hp
        subst hp
        trivial
    · refine ⟨by decide, ?_⟩
      intro i v p hv hp
      simp only [List.mem_cons, List.not_mem_nil, or_false, Prod.mk.injEq] at hv
      obtain ⟨rfl, rfl⟩ := hv
      simp at hp

end Verif.Port
