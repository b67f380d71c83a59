/-
The cells a structured reference selects, against a description by rows and columns.
-/
import Verif.Tables.Model

namespace Verif.Tables

open Verif.Struct (Str Spec Special RowSpec)

/-! ### The specification -/

/-- The rectangle has cells. -/
def Table.Proper (t : Table) : Prop := t.r0 ≤ t.r1 ∧ t.c0 ≤ t.c1

def Table.IsHeader (t : Table) (r : Nat) : Prop := t.header = true ∧ r = t.r0
def Table.IsTotals (t : Table) (r : Nat) : Prop := t.totals = true ∧ r = t.r1
/-- A row of the table that is neither its header nor its totals. -/
def Table.IsData (t : Table) (r : Nat) : Prop := t.r0 ≤ r ∧ r ≤ t.r1 ∧ ¬t.IsHeader r ∧ ¬t.IsTotals r
/-- A column of the table. -/
def Table.IsCol (t : Table) (c : Nat) : Prop := t.c0 ≤ c ∧ c ≤ t.c1

/-- The column `i` is the first whose header is the name `n`, when `eq` tells whether
two names are the same. -/
def Table.Named (eq : Str → Str → Prop) (t : Table) (n : Str) (i : Nat) : Prop :=
  (∃ h, t.headers[i]? = some h ∧ eq h n) ∧ ∀ j < i, ∀ h, t.headers[j]? = some h → ¬eq h n

/-- The same in lower case. -/
def SameFold (fold : Str → Str) (a b : Str) : Prop := fold a = fold b

/-- The specifiers that select the same cells wherever they are written, and whose
columns the table has. -/
inductive Plain (eq : Str → Str → Prop) (t : Table) : Spec → Prop
  | all : Plain eq t .all
  | data : Plain eq t .data
  | headers : Plain eq t .headers
  | totals : Plain eq t .totals
  | item {s : Special} : s ≠ .thisRow → Plain eq t (.item s)
  | column {n : Str} {i : Nat} : t.Named eq n i → Plain eq t (.column n)
  | columns {m n : Str} {i j : Nat} : t.Named eq m i → t.Named eq n j → Plain eq t (.columns m n)

/-- The cell in row `r` and column `c` is among those selected. -/
inductive Selected (eq : Str → Str → Prop) (t : Table) : Spec → Nat → Nat → Prop
  | all {r c : Nat} : t.r0 ≤ r → r ≤ t.r1 → t.IsCol c → Selected eq t .all r c
  | data {r c : Nat} : t.IsData r → t.IsCol c → Selected eq t .data r c
  | headers {r c : Nat} : t.IsHeader r → t.IsCol c → Selected eq t .headers r c
  | totals {r c : Nat} : t.IsTotals r → t.IsCol c → Selected eq t .totals r c
  | itemAll {r c : Nat} : Selected eq t .all r c → Selected eq t (.item .all) r c
  | itemData {r c : Nat} : Selected eq t .data r c → Selected eq t (.item .data) r c
  | itemHeaders {r c : Nat} : Selected eq t .headers r c → Selected eq t (.item .headers) r c
  | itemTotals {r c : Nat} : Selected eq t .totals r c → Selected eq t (.item .totals) r c
  | column {n : Str} {i r : Nat} : t.Named eq n i → t.IsData r → Selected eq t (.column n) r (t.c0 + i)
  | columns {m n : Str} {i j k r : Nat} : t.Named eq m i → t.Named eq n j → min i j ≤ k → k ≤ max i j →
      t.IsData r → Selected eq t (.columns m n) r (t.c0 + k)

/-- The cell is in the rectangle. -/
def Area.Has (a : Area) (r c : Nat) : Prop := a.r0 ≤ r ∧ r ≤ a.r1 ∧ a.c0 ≤ c ∧ c ≤ a.c1

/-! ### Proofs -/

theorem findIdx_spec {p : Str → Bool} {hs : List Str} {i : Nat} :
    hs.findIdx? p = some i ↔ (∃ h, hs[i]? = some h ∧ p h = true) ∧ ∀ j < i, ∀ h, hs[j]? = some h → p h = false := by
  rw [List.findIdx?_eq_some_iff_getElem]
  constructor
  · rintro ⟨h1, h2, h3⟩
    refine ⟨⟨hs[i], List.getElem?_eq_getElem h1, h2⟩, fun j hj h hh => ?_⟩
    have hl : j < hs.length := Nat.lt_trans hj h1
    rw [List.getElem?_eq_getElem hl] at hh
    cases hh
    simpa using h3 j hj
  · rintro ⟨⟨h, h1, h2⟩, h3⟩
    obtain ⟨hl, e⟩ := List.getElem?_eq_some_iff.1 h1
    refine ⟨hl, by rw [e]; exact h2, fun j hj => ?_⟩
    have := h3 j hj _ (List.getElem?_eq_getElem (Nat.lt_trans hj hl))
    simpa using this

theorem index_spec {fold : Str → Str} {t : Table} {n : Str} {i : Nat} :
    t.index fold n = some i ↔ t.Named (SameFold fold) n i := by
  unfold Table.index Table.Named SameFold
  rw [findIdx_spec]
  simp

theorem Named.unique {eq : Str → Str → Prop} {t : Table} {n : Str} {i j : Nat} (hi : t.Named eq n i) (hj : t.Named eq n j) : i = j := by
  obtain ⟨⟨a, a1, a2⟩, a3⟩ := hi
  obtain ⟨⟨b, b1, b2⟩, b3⟩ := hj
  rcases Nat.lt_trichotomy i j with h | h | h
  · exact absurd a2 (b3 i h a a1)
  · exact h
  · exact absurd b2 (a3 j h b b1)

theorem select_has {sr sc er ec r c : Nat} :
    (∃ a, select sr sc er ec = some a ∧ a.Has r c) ↔ sr ≤ r ∧ r ≤ er ∧ sc ≤ c ∧ c ≤ ec := by
  unfold select Area.Has
  split
  · simp; omega
  · simp

/-- The last row of a table is below the first row of its sheet, unless it has no
totals. -/
def Table.Room (t : Table) : Prop := t.totals = true → t.header = false → 0 < t.r1

theorem data_rows {t : Table} (hp : t.Proper) (hr : t.Room) (r : Nat) :
    (t.dataFirst ≤ r ∧ r ≤ t.dataLast) ↔ t.IsData r := by
  unfold Table.dataFirst Table.dataLast Table.IsData Table.IsHeader Table.IsTotals
  unfold Table.Room at hr
  have := hp.1
  cases h1 : t.header <;> cases h2 : t.totals <;> simp [h1, h2] at hr ⊢ <;> omega

theorem sel_all {eq : Str → Str → Prop} {t : Table} {r c : Nat} : Selected eq t .all r c ↔ (t.r0 ≤ r ∧ r ≤ t.r1) ∧ t.IsCol c :=
  ⟨fun h => by cases h with | all h1 h2 h3 => exact ⟨⟨h1, h2⟩, h3⟩, fun h => .all h.1.1 h.1.2 h.2⟩

theorem sel_data {eq : Str → Str → Prop} {t : Table} {r c : Nat} : Selected eq t .data r c ↔ t.IsData r ∧ t.IsCol c :=
  ⟨fun h => by cases h with | data h1 h2 => exact ⟨h1, h2⟩, fun h => .data h.1 h.2⟩

theorem sel_headers {eq : Str → Str → Prop} {t : Table} {r c : Nat} : Selected eq t .headers r c ↔ t.IsHeader r ∧ t.IsCol c :=
  ⟨fun h => by cases h with | headers h1 h2 => exact ⟨h1, h2⟩, fun h => .headers h.1 h.2⟩

theorem sel_totals {eq : Str → Str → Prop} {t : Table} {r c : Nat} : Selected eq t .totals r c ↔ t.IsTotals r ∧ t.IsCol c :=
  ⟨fun h => by cases h with | totals h1 h2 => exact ⟨h1, h2⟩, fun h => .totals h.1 h.2⟩

/-- C93.  What a formula reads through a reference to a table: it is an error just
when a column is unknown or the reference depends on the formula's row, and
otherwise the cells are those of the rows and columns named. -/
theorem eval_selects {fold : Str → Str} {t : Table} (hp : t.Proper) (hr : t.Room) {x : Spec} (hx : Plain (SameFold fold) t x) :
    ∃ o, evalArea fold t (some x) = .ok o ∧ ∀ r c, (∃ a, o = some a ∧ a.Has r c) ↔ Selected (SameFold fold) t x r c := by
  have hd := data_rows hp hr
  have all : ∀ r c, (∃ a, select t.r0 t.c0 t.r1 t.c1 = some a ∧ a.Has r c) ↔ Selected (SameFold fold) t .all r c := by
    intro r c
    rw [select_has, sel_all, and_assoc]; rfl
  have data : ∀ r c, (∃ a, select t.dataFirst t.c0 t.dataLast t.c1 = some a ∧ a.Has r c) ↔ Selected (SameFold fold) t .data r c := by
    intro r c
    rw [select_has, ← and_assoc, hd, sel_data]; rfl
  have headers : ∀ r c, (∃ a, (if t.header then select t.r0 t.c0 t.r0 t.c1 else none) = some a ∧ a.Has r c) ↔ Selected (SameFold fold) t .headers r c := by
    intro r c
    cases h : t.header with
    | false =>
      simp only [Bool.false_eq_true, if_false]
      rw [sel_headers]
      constructor
      · rintro ⟨a, h, _⟩; cases h
      · rintro ⟨⟨h1, _⟩, _⟩; rw [h] at h1; cases h1
    | true =>
      simp only [if_true]
      rw [select_has, sel_headers]
      constructor
      · rintro ⟨h1, h2, h3⟩; exact ⟨⟨h, by omega⟩, h3⟩
      · rintro ⟨⟨_, h1⟩, h3⟩; exact ⟨by omega, by omega, h3⟩
  have totals : ∀ r c, (∃ a, (if t.totals then select t.r1 t.c0 t.r1 t.c1 else none) = some a ∧ a.Has r c) ↔ Selected (SameFold fold) t .totals r c := by
    intro r c
    cases h : t.totals with
    | false =>
      simp only [Bool.false_eq_true, if_false]
      rw [sel_totals]
      constructor
      · rintro ⟨a, h, _⟩; cases h
      · rintro ⟨⟨h1, _⟩, _⟩; rw [h] at h1; cases h1
    | true =>
      simp only [if_true]
      rw [select_has, sel_totals]
      constructor
      · rintro ⟨h1, h2, h3⟩; exact ⟨⟨h, by omega⟩, h3⟩
      · rintro ⟨⟨_, h1⟩, h3⟩; exact ⟨by omega, by omega, h3⟩
  cases hx with
  | all => exact ⟨_, rfl, all⟩
  | data => exact ⟨_, rfl, data⟩
  | headers => exact ⟨_, rfl, headers⟩
  | totals => exact ⟨_, rfl, totals⟩
  | @item s hs =>
    cases s with
    | all => exact ⟨_, rfl, fun r c => (all r c).trans ⟨.itemAll, fun | .itemAll h => h⟩⟩
    | data => exact ⟨_, rfl, fun r c => (data r c).trans ⟨.itemData, fun | .itemData h => h⟩⟩
    | headers => exact ⟨_, rfl, fun r c => (headers r c).trans ⟨.itemHeaders, fun | .itemHeaders h => h⟩⟩
    | totals => exact ⟨_, rfl, fun r c => (totals r c).trans ⟨.itemTotals, fun | .itemTotals h => h⟩⟩
    | thisRow => exact absurd rfl hs
  | @column n i hn =>
    refine ⟨select t.dataFirst (t.c0 + i) t.dataLast (t.c0 + i), by simp only [evalArea, index_spec.2 hn], fun r c => ?_⟩
    rw [select_has, ← and_assoc, hd]
    constructor
    · rintro ⟨h1, h2, h3⟩
      have : c = t.c0 + i := by omega
      subst this
      exact .column hn h1
    · intro h
      cases h with
      | column hn' h1 =>
        rw [Named.unique hn' hn]
        exact ⟨h1, Nat.le_refl _, Nat.le_refl _⟩
  | @columns m n i j hm hn =>
    refine ⟨select t.dataFirst (t.c0 + min i j) t.dataLast (t.c0 + max i j), ?_, fun r c => ?_⟩
    · simp only [evalArea, Table.columns, index_spec.2 hm, index_spec.2 hn]
      split
      · rw [Nat.min_eq_right (by omega), Nat.max_eq_left (by omega)]; rfl
      · rw [Nat.min_eq_left (by omega), Nat.max_eq_right (by omega)]; rfl
    · rw [select_has, ← and_assoc, hd]
      constructor
      · rintro ⟨h1, h2, h3⟩
        obtain ⟨k, rfl⟩ : ∃ k, c = t.c0 + k := ⟨c - t.c0, by omega⟩
        exact .columns hm hn (by omega) (by omega) h1
      · intro h
        cases h with
        | columns hm' hn' h1 h2 h3 =>
          rw [Named.unique hm' hm, Named.unique hn' hn] at h1 h2
          exact ⟨h3, by omega, by omega⟩

/-- C93.  A reference that names an unknown column is the error `#REF!`. -/
theorem eval_unknown {fold : Str → Str} {t : Table} {m n : Str} (h : ∀ i, ¬t.Named (SameFold fold) m i) :
    evalArea fold t (some (.column m)) = .error .ref ∧
    evalArea fold t (some (.columns m n)) = .error .ref ∧ evalArea fold t (some (.columns n m)) = .error .ref := by
  have hm : t.index fold m = none := by
    cases hi : t.index fold m with
    | none => rfl
    | some i => exact absurd (index_spec.1 hi) (h i)
  refine ⟨by simp only [evalArea, hm], by simp only [evalArea, Table.columns, hm]; rfl, ?_⟩
  simp only [evalArea, Table.columns, hm]
  cases t.index fold n <;> rfl

/-- The header, the data and the totals of a table do not share cells and make up
the table. -/
theorem parts_of_table {eq : Str → Str → Prop} {t : Table} (h : t.header = true → t.totals = true → t.r0 < t.r1) (hp : t.Proper) (r c : Nat) :
    (Selected eq t .all r c ↔ Selected eq t .headers r c ∨ Selected eq t .data r c ∨ Selected eq t .totals r c) ∧
    ¬(Selected eq t .headers r c ∧ Selected eq t .data r c) ∧ ¬(Selected eq t .data r c ∧ Selected eq t .totals r c) ∧
    ¬(Selected eq t .headers r c ∧ Selected eq t .totals r c) := by
  simp only [sel_all, sel_headers, sel_data, sel_totals]
  have hpr := hp.1
  refine ⟨⟨?_, ?_⟩, ?_, ?_, ?_⟩
  · rintro ⟨⟨h1, h2⟩, h3⟩
    by_cases a : t.IsHeader r
    · exact .inl ⟨a, h3⟩
    · by_cases b : t.IsTotals r
      · exact .inr (.inr ⟨b, h3⟩)
      · exact .inr (.inl ⟨⟨h1, h2, a, b⟩, h3⟩)
  · rintro (⟨⟨_, e⟩, h3⟩ | ⟨⟨h1, h2, _⟩, h3⟩ | ⟨⟨_, e⟩, h3⟩)
    · exact ⟨by omega, h3⟩
    · exact ⟨⟨h1, h2⟩, h3⟩
    · exact ⟨by omega, h3⟩
  · rintro ⟨⟨a, _⟩, ⟨b, _⟩⟩; exact b.2.2.1 a
  · rintro ⟨⟨b, _⟩, ⟨a, _⟩⟩; exact b.2.2.2 a
  · rintro ⟨⟨a, _⟩, ⟨b, _⟩⟩
    have := h a.1 b.1
    have := a.2
    have := b.2
    omega

/-- The one row of a table of totals at the top of a sheet is read as its data; one
row further down the data are empty. -/
theorem totals_read_as_data :
    evalArea asciiLower ⟨['T'], 0, 0, 0, 0, 0, false, [['a']], true⟩ (some .data) = .ok (some ⟨0, 0, 0, 0⟩) ∧
    evalArea asciiLower ⟨['T'], 0, 1, 0, 1, 0, false, [['a']], true⟩ (some .data) = .ok none := by
  refine ⟨rfl, rfl⟩

/-! ### The inspection -/

theorem ascii_spec {t : Table} {n : Str} {i : Nat} :
    t.asciiIndex n = some i ↔ t.Named (SameFold asciiLower) n i := by
  unfold Table.asciiIndex Table.Named SameFold
  rw [findIdx_spec]
  simp

/-- The area with rows and columns counted from 1. -/
def Area.from1 (a : Area) : Area := ⟨a.r0 + 1, a.c0 + 1, a.r1 + 1, a.c1 + 1⟩

theorem proper_select {a b c d : Nat} : proper ⟨a + 1, b + 1, c + 1, d + 1⟩ = (select a b c d).map Area.from1 := by
  unfold proper select
  simp only
  split <;> split
  · rfl
  · omega
  · omega
  · rfl

theorem proper_data {t : Table} (hr : t.Room) (b d : Nat) :
    proper ⟨t.dataFirst1, b + 1, t.dataLast1, d + 1⟩ = (select t.dataFirst b t.dataLast d).map Area.from1 := by
  have e1 : t.dataFirst1 = t.dataFirst + 1 := by
    unfold Table.dataFirst1 Table.dataFirst; cases t.header <;> simp
  by_cases h : t.totals = true ∧ t.r1 = 0
  · obtain ⟨h1, h2⟩ := h
    have h3 : t.header = true := by
      cases hh : t.header with
      | true => rfl
      | false => have := hr h1 hh; omega
    have e2 : t.dataLast1 = 0 := by unfold Table.dataLast1; simp [h1, h2]
    have e3 : t.dataLast = 0 := by unfold Table.dataLast; simp [h1, h2]
    have e4 : t.dataFirst = t.r0 + 1 := by unfold Table.dataFirst; simp [h3]
    unfold proper select
    simp only [e1, e2, e3, e4]
    rw [if_pos (by omega), if_pos (by omega)]; rfl
  · have e2 : t.dataLast1 = t.dataLast + 1 := by
      unfold Table.dataLast1 Table.dataLast
      cases ht : t.totals with
      | false => simp
      | true => simp [ht] at h ⊢; omega
    rw [e1, e2, proper_select]

/-- C93.  The cells that the inspection of a formula reports are those the formula
reads, if the names of columns are compared alike. -/
theorem inspect_agrees {fold : Str → Str} {t : Table} (hr : t.Room)
    {x : Spec} (hx : Plain (SameFold fold) t x)
    (hf : ∀ h ∈ t.headers, ∀ n, (x = .column n ∨ ∃ m, x = .columns m n ∨ x = .columns n m) →
      (fold h = fold n ↔ asciiLower h = asciiLower n)) (row : Nat) (o : Option Area) (ho : evalArea fold t (some x) = .ok o) :
    inspectArea t row (some x) = o.map Area.from1 := by
  have same : ∀ n, (x = .column n ∨ ∃ m, x = .columns m n ∨ x = .columns n m) → t.asciiIndex n = t.index fold n := by
    intro n hn
    unfold Table.asciiIndex Table.index
    have : ∀ hs : List Str, (∀ h ∈ hs, (fold h = fold n ↔ asciiLower h = asciiLower n)) →
        hs.findIdx? (fun h => decide (asciiLower h = asciiLower n)) = hs.findIdx? (fun h => decide (fold h = fold n)) := by
      intro hs
      induction hs with
      | nil => intro _; rfl
      | cons a hs ih =>
        intro h
        rw [List.findIdx?_cons, List.findIdx?_cons, ih fun y hy => h y (by simp [hy])]
        have := h a (by simp)
        by_cases e : fold a = fold n
        · simp [e, this.1 e]
        · have e' : ¬asciiLower a = asciiLower n := fun e' => e (this.2 e')
          simp [e, e']
    exact this t.headers fun h hh => hf h hh n hn
  cases hx with
  | all => cases ho; exact proper_select
  | data => cases ho; exact proper_data hr _ _
  | headers =>
    cases ho
    simp only [inspectArea]
    split
    · exact proper_select
    · rfl
  | totals =>
    cases ho
    simp only [inspectArea]
    split
    · exact proper_select
    · rfl
  | @item s hs =>
    cases s with
    | all => cases ho; exact proper_select
    | data => cases ho; exact proper_data hr _ _
    | headers =>
      cases ho
      simp only [inspectArea]
      split
      · exact proper_select
      · rfl
    | totals =>
      cases ho
      simp only [inspectArea]
      split
      · exact proper_select
      · rfl
    | thisRow => exact absurd rfl hs
  | @column n i hn =>
    have hi := index_spec.2 hn
    simp only [evalArea, hi] at ho
    cases ho
    simp only [inspectArea, same n (.inl rfl), hi]
    rw [Nat.add_right_comm]
    exact proper_data hr _ _
  | @columns m n i j hm hn =>
    have hi := index_spec.2 hm
    have hj := index_spec.2 hn
    simp only [evalArea, Table.columns, hi, hj] at ho
    simp only [inspectArea, Table.asciiColumns, same n (.inr ⟨m, .inl rfl⟩), same m (.inr ⟨n, .inr rfl⟩), hi, hj]
    split at ho
    · rename_i h
      cases ho
      simp only [h, if_true]
      rw [Nat.add_right_comm, Nat.add_right_comm t.c0 1 i]
      exact proper_data hr _ _
    · rename_i h
      cases ho
      simp only [h, if_false]
      rw [Nat.add_right_comm, Nat.add_right_comm t.c0 1 j]
      exact proper_data hr _ _

/-- C93 refuted: a letter outside ASCII is compared in different ways.  The formula
reads the column, the inspection reports nothing. -/
theorem inspect_misses {fold : Str → Str} (h : fold ['É'] = fold ['é']) :
    evalArea fold ⟨['T'], 0, 0, 0, 2, 0, true, [['É']], false⟩ (some (.column ['é'])) = .ok (some ⟨1, 0, 2, 0⟩) ∧
    inspectArea ⟨['T'], 0, 0, 0, 2, 0, true, [['É']], false⟩ 1 (some (.column ['é'])) = none := by
  constructor
  · have : (⟨['T'], 0, 0, 0, 2, 0, true, [['É']], false⟩ : Table).index fold ['é'] = some 0 := by
      simp [Table.index, List.findIdx?_cons, h]
    simp only [evalArea, this]
    rfl
  · decide +kernel

/-- Whether an area was reported, to compute with. -/
def reported (o a : Option Area) : Bool := decide (o = a)

/-- C93 refuted: the headers of a column, `T[[#Headers],[a]]`, are reported as its
data, and so are its totals. -/
theorem inspect_headers_as_data :
    inspectArea ⟨['T'], 0, 0, 0, 4, 1, true, [['a'], ['b']], true⟩ 9 (some (.combo [.item .headers, .column ['a']])) = some ⟨2, 1, 4, 1⟩ ∧
    inspectArea ⟨['T'], 0, 0, 0, 4, 1, true, [['a'], ['b']], true⟩ 9 (some (.combo [.item .totals, .column ['a']])) = some ⟨2, 1, 4, 1⟩ := by
  decide +kernel

/-- C93 refuted: data and totals together, `T[[#Data],[#Totals]]`, are reported as
the last row of the data; headers and data as the data only. -/
theorem inspect_union_lost :
    inspectArea ⟨['T'], 0, 0, 0, 4, 1, true, [['a'], ['b']], true⟩ 9 (some (.combo [.item .data, .item .totals])) = some ⟨4, 1, 4, 2⟩ ∧
    inspectArea ⟨['T'], 0, 0, 0, 4, 1, true, [['a'], ['b']], true⟩ 9 (some (.combo [.item .headers, .item .data])) = some ⟨2, 1, 4, 2⟩ := by
  decide +kernel

/-- The inspection reports cells for references that a formula cannot evaluate. -/
theorem combinations_unread (fold : Str → Str) (t : Table) (ps : List Spec) (r : RowSpec) :
    evalArea fold t (some (.combo ps)) = .error .nimpl ∧ evalArea fold t (some (.row r)) = .error .nimpl ∧
    evalArea fold t (some (.item .thisRow)) = .error .nimpl ∧ evalArea fold t none = .error .nimpl := ⟨rfl, rfl, rfl, rfl⟩

/-- C93.  The current row of a column is reported as one cell, in the row of the
formula, if that is a row of data. -/
theorem inspect_this_row {t : Table} (hp : t.Proper) (hr : t.Room) {n : Str} {i : Nat} (hn : t.Named (SameFold asciiLower) n i) (row : Nat) :
    inspectArea t (row + 1) (some (.combo [.item .thisRow, .column n])) =
      if t.dataFirst ≤ row ∧ row ≤ t.dataLast then some ⟨row + 1, t.c0 + i + 1, row + 1, t.c0 + i + 1⟩ else none := by
  have hi := ascii_spec.2 hn
  simp only [inspectArea, Table.parts, hi, Table.found]
  have hd : (row + 1 < t.dataFirst1 ∨ row + 1 > t.dataLast1) ↔ ¬(t.dataFirst ≤ row ∧ row ≤ t.dataLast) := by
    have := hp.1
    unfold Table.Room at hr
    unfold Table.dataFirst1 Table.dataLast1 Table.dataFirst Table.dataLast
    cases h1 : t.header <;> cases h2 : t.totals <;> simp [h1, h2] at hr ⊢ <;> omega
  by_cases h : t.dataFirst ≤ row ∧ row ≤ t.dataLast
  · rw [if_neg (by rw [hd]; simp [h]), if_pos h]
    simp only [if_true, proper]
    rw [if_neg (by omega)]
    congr 2 <;> omega
  · rw [if_pos ⟨trivial, hd.2 h⟩, if_neg h]

/-! ### Targets -/

/-- The specifier of a selection. -/
def Selection.spec : Selection → Spec
  | .whole => .all
  | .headers => .headers
  | .data => .data
  | .totals => .totals
  | .column n => .column n
  | .columns m n => .columns m n

/-- C93.  What is brought up to date for a part of a table has every cell that a
formula reads through the same part. -/
theorem target_covers {fold : Str → Str} {t : Table} (hp : t.Proper) {s : Selection} {a : Area}
    (hx : Plain (SameFold fold) t s.spec) (h : targetArea fold t s = .ok a) (r c : Nat) (hs : Selected (SameFold fold) t s.spec r c) :
    a.Has (r + 1) (c + 1) := by
  have region : ∀ {d : Bool} {r0 c0 r1 c1 : Nat}, t.region d r0 c0 r1 c1 = .ok a → r0 ≤ r + 1 → r + 1 ≤ r1 → c0 ≤ c + 1 → c + 1 ≤ c1 → a.Has (r + 1) (c + 1) := by
    intro d r0 c0 r1 c1 h h1 h2 h3 h4
    unfold Table.region at h
    have e : ¬(r0 > r1 ∧ d = true) := by omega
    simp only [e, if_false] at h
    rw [if_neg (by omega)] at h
    cases h
    exact ⟨h1, h2, h3, h4⟩
  have hpr := hp.1
  cases s with
  | whole =>
    cases hs with
    | all h1 h2 h3 => exact region h (by omega) (by omega) (by have := h3.1; omega) (by have := h3.2; omega)
  | headers =>
    cases hs with
    | headers h1 h3 =>
      simp only [targetArea, h1.1, if_true] at h
      have := h1.2
      exact region h (by omega) (by omega) (by have := h3.1; omega) (by have := h3.2; omega)
  | totals =>
    cases hs with
    | totals h1 h3 =>
      simp only [targetArea, h1.1, if_true] at h
      have := h1.2
      exact region h (by omega) (by omega) (by have := h3.1; omega) (by have := h3.2; omega)
  | data =>
    cases hs with
    | data h1 h3 =>
      obtain ⟨a1, a2, a3, a4⟩ := h1
      unfold Table.IsHeader at a3
      unfold Table.IsTotals at a4
      refine region h ?_ ?_ (by have := h3.1; omega) (by have := h3.2; omega)
      · split
        · rename_i e; simp [e] at a3; omega
        · omega
      · split
        · rename_i e; simp [e] at a4; omega
        · omega
  | column n =>
    cases hs with
    | column hn h1 =>
      simp only [targetArea, index_spec.2 hn] at h
      exact region h (by have := h1.1; omega) (by have := h1.2.1; omega) (by omega) (by omega)
  | columns m n =>
    cases hs with
    | columns hm hn k1 k2 h1 =>
      simp only [targetArea, index_spec.2 hm, index_spec.2 hn] at h
      split at h
      · cases h
      · exact region h (by have := h1.1; omega) (by have := h1.2.1; omega) (by omega) (by omega)

/-- Columns that a formula may name in either order are an error as a target when
they are named from right to left; and the empty data of a table are its header. -/
theorem target_differs :
    targetArea asciiLower ⟨['T'], 0, 0, 0, 2, 1, true, [['a'], ['b']], false⟩ (.columns ['b'] ['a']) = .error .value ∧
    evalArea asciiLower ⟨['T'], 0, 0, 0, 2, 1, true, [['a'], ['b']], false⟩ (some (.columns ['b'] ['a'])) = .ok (some ⟨1, 0, 2, 1⟩) ∧
    targetArea asciiLower ⟨['T'], 0, 0, 0, 0, 1, true, [['a'], ['b']], false⟩ .data = .ok ⟨1, 1, 1, 2⟩ ∧
    evalArea asciiLower ⟨['T'], 0, 0, 0, 0, 1, true, [['a'], ['b']], false⟩ (some .data) = .ok none := by
  decide +kernel

/-! ### Rows and columns inserted -/

/-- Where a row goes when `n` rows are inserted before row `p`. -/
def moved (p n r : Nat) : Nat := if p ≤ r then r + n else r

/-- C93 refuted: inserting or deleting rows and columns leaves the tables' ranges as
they are (`tables` is written by `define_table`, `update_table` and `delete_table`
only, graph/tables.rs 75-189).  When rows are inserted above a table, the last row
of its data is no longer read. -/
theorem insert_loses_row {fold : Str → Str} {t : Table} {p n r c : Nat} (hn : 0 < n) (hpr : p ≤ t.r0)
    (hd : t.IsData r) (last : ∀ r', t.IsData r' → r' ≤ r) :
    Selected (SameFold fold) t .data r c → ¬Selected (SameFold fold) t .data (moved p n r) c := by
  rw [sel_data, sel_data]
  rintro _ ⟨h, _⟩
  have h1 := last _ h
  have := hd.1
  unfold moved at h1
  rw [if_pos (by omega)] at h1
  omega

/-! ### Examples -/

example : (⟨['T'], 0, 3, 2, 9, 4, true, [['I', 'd'], ['Q', 't', 'y'], ['i', 'D']], true⟩ : Table).Named (SameFold asciiLower) ['i', 'd'] 0 := by
  rw [← index_spec]; decide +kernel

example : (⟨['T'], 0, 3, 2, 9, 4, true, [['I', 'd'], ['Q', 't', 'y'], ['P']], true⟩ : Table).Proper ∧
    (⟨['T'], 0, 3, 2, 9, 4, true, [['I', 'd'], ['Q', 't', 'y'], ['P']], true⟩ : Table).Room := by
  unfold Table.Proper Table.Room; decide

example : evalArea asciiLower ⟨['T'], 0, 3, 2, 9, 4, true, [['I', 'd'], ['Q', 't', 'y'], ['P']], true⟩ (some (.columns ['p'] ['q', 't', 'y'])) =
    .ok (some ⟨4, 3, 8, 4⟩) ∧
    inspectArea ⟨['T'], 0, 3, 2, 9, 4, true, [['I', 'd'], ['Q', 't', 'y'], ['P']], true⟩ 1 (some (.columns ['p'] ['q', 't', 'y'])) =
    some ⟨5, 4, 9, 5⟩ := by decide +kernel

end Verif.Tables
