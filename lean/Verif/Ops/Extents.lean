import Verif.Ops.Ranges

/-!
What a formula is ordered after when it reads an open range: `engine/used_extent.rs` 84-252 with the policies of virtual
dependencies and of the graph, `engine/virtual_deps.rs` 289-387 (`RangeVirtualDepProvider`).

The evaluation reads the rectangle of `resolve`. The formulas to compute before are those of `resolveDep`.
-/
namespace Verif.Ops.Ranges

/-- used_extent.rs 153-175 and 177-199 with `use_used_minimum`: both sides of one axis are open. -/
def bothOpenDep (hint : Hint) (fallback lo hi : Option Nat) (s e : Option Nat) : Option Nat × Option Nat :=
  if s = none ∧ e = none then
    match hint (lo.getD 1) (hi.getD (lo.getD 1)) with
    | some (first, last) => (some first, some last)
    | none =>
      match fallback with
      | some f => (some 1, some f)
      | none => (none, none)
  else (s, e)

/-- used_extent.rs 211-221 and 233-243 with `use_used_minimum`: the start of one axis is open. -/
def openStartDep (hint : Hint) (lo hi : Option Nat) (s e : Option Nat) : Option Nat :=
  if e ≠ none ∧ s = none then
    match hint (lo.getD 1) (hi.getD (lo.getD 1)) with
    | some (first, _) => some first
    | none => some 1
  else s

/-- used_extent.rs 84-252 with the policy of virtual dependencies. -/
def resolveDep (usedRows usedCols : Hint) (maxRow maxCol : Option Nat) (b : Bounds) : Option Extent :=
  let rows := bothOpenDep usedRows maxRow b.sc b.ec b.sr b.er
  let cols := bothOpenDep usedCols maxCol rows.1 rows.2 b.sc b.ec
  let er := openEnd usedRows maxRow cols.1 cols.2 rows.1 rows.2
  let sr := openStartDep usedRows cols.1 cols.2 rows.1 er
  let ec := openEnd usedCols maxCol sr er cols.1 cols.2
  let sc := openStartDep usedCols sr er cols.1 ec
  let e : Extent := ⟨sr.getD 1, sc.getD 1, er.getD (sr.getD 1 - 1), ec.getD (sc.getD 1 - 1)⟩
  if e.sr ≤ e.er ∧ e.sc ≤ e.ec then some e else none

/-- used_extent.rs 111-139, the policy of the graph; `maxRow` and `maxCol` are the last row and column assumed. Positions
count from 0. -/
def resolveGraph (usedRows usedCols : Hint) (maxRow maxCol : Nat) (b : Bounds) : Option Extent :=
  let rows := usedRows (b.sc.getD 0) (b.ec.getD maxCol)
  let cols := usedCols (b.sr.getD 0) (b.er.getD maxRow)
  let e : Extent :=
    ⟨b.sr.getD 0, b.sc.getD 0,
      (b.er.orElse fun _ => rows.map (·.2)).getD maxRow, (b.ec.orElse fun _ => cols.map (·.2)).getD maxCol⟩
  if e.sr ≤ e.er ∧ e.sc ≤ e.ec then some e else none

/-- virtual_deps.rs 337-387: the formulas that are computed before `v` because of one range: those in the rectangle that are
dirty or volatile. `cells` are the vertices of the sheet with their places. -/
def virtualDeps (pending : Nat → Bool) (cells : List (Nat × Nat × Nat)) (v : Nat) (ext : Option Extent) : List Nat :=
  match ext with
  | none => []
  | some e =>
    (cells.filter fun p => decide (e.sc ≤ p.2.2 ∧ p.2.2 ≤ e.ec ∧ ¬ (p.2.1 < e.sr ∨ p.2.1 > e.er)) && (pending p.1 && decide (p.1 ≠ v))).map (·.1)

/-- Right hints: no used cell lies outside of the rows and columns that they give. -/
structure Exact (used : Nat → Nat → Prop) (usedRows usedCols : Hint) : Prop where
  rows : ∀ c1 c2 r c, used r c → c1 ≤ c → c ≤ c2 → ∃ lo hi, usedRows c1 c2 = some (lo, hi) ∧ lo ≤ r ∧ r ≤ hi
  cols : ∀ r1 r2 r c, used r c → r1 ≤ r → r ≤ r2 → ∃ lo hi, usedCols r1 r2 = some (lo, hi) ∧ lo ≤ c ∧ c ≤ hi

/-- **Every used cell that the evaluation of a range reads lies in the rectangle of its dependencies**, unless the range has
an open start of its rows beside an open end of its columns that begin at a written one, or columns open on both sides beside
an open end of its rows. Missing for the full statement: these, where it is false (`dep_misses`). -/
theorem dep_covers_partial {used : Nat → Nat → Prop} {usedRows usedCols : Hint} (maxRow maxCol : Option Nat)
    (H : Exact used usedRows usedCols) {b : Bounds} (g1 : ¬ (b.sr = none ∧ b.ec = none ∧ b.sc ≠ none))
    (g2 : ¬ (b.sc = none ∧ b.ec = none ∧ b.er = none)) {e : Extent} (h : resolve usedRows usedCols maxRow maxCol b = some e)
    {r c : Nat} (hu : used r c) (hin : e.Has r c) :
    ∃ e', resolveDep usedRows usedCols maxRow maxCol b = some e' ∧ e'.Has r c := by
  have ok : ∀ e' : Extent, e'.sr ≤ r → r ≤ e'.er → e'.sc ≤ c → c ≤ e'.ec →
      (resolveDep usedRows usedCols maxRow maxCol b = if e'.sr ≤ e'.er ∧ e'.sc ≤ e'.ec then some e' else none) →
      ∃ e', resolveDep usedRows usedCols maxRow maxCol b = some e' ∧ e'.Has r c := by
    intro e' k1 k2 k3 k4 k5
    exact ⟨e', by rw [k5, if_pos ⟨by omega, by omega⟩], k1, k2, k3, k4⟩
  have inv : ∀ e' : Extent, (if e'.sr ≤ e'.er ∧ e'.sc ≤ e'.ec then some e' else none) = some e → e' = e := by
    intro e' h'
    split at h'
    · exact Option.some.inj h'
    · cases h'
  obtain ⟨i1, i2, i3, i4⟩ := hin
  obtain ⟨sr, sc, er, ec⟩ := b
  cases sr with
  | some sr =>
    cases er with
    | some er =>
      cases sc with
      | some sc =>
        cases ec with
        | some ec =>
          have he := inv ⟨sr, sc, er, ec⟩ (by simpa [resolve, bothOpen, openEnd, openStart] using h)
          subst he
          exact ok ⟨sr, sc, er, ec⟩ i1 i2 i3 i4 (by simp [resolveDep, bothOpenDep, openEnd, openStartDep])
        | none =>
          have : resolveDep usedRows usedCols maxRow maxCol ⟨some sr, some sc, some er, none⟩
              = resolve usedRows usedCols maxRow maxCol ⟨some sr, some sc, some er, none⟩ := by
            simp [resolveDep, resolve, bothOpenDep, bothOpen, openEnd, openStartDep, openStart]
          exact ⟨e, this.trans h, i1, i2, i3, i4⟩
      | none =>
        cases ec with
        | some ec =>
          have he := inv ⟨sr, 1, er, ec⟩ (by simpa [resolve, bothOpen, openEnd, openStart] using h)
          subst he
          obtain ⟨lo, hi, q1, q2, q3⟩ := H.cols sr er r c hu i1 i2
          exact ok ⟨sr, lo, er, ec⟩ i1 i2 q2 i4 (by simp [resolveDep, bothOpenDep, openEnd, openStartDep, q1])
        | none =>
          have i1' : sr ≤ r ∧ r ≤ er := by
            have key : e.sr = sr ∧ e.er = er := by
              simp only [resolve, bothOpen, openEnd, openStart] at h
              cases hq : usedCols sr er with
              | some p => simp [hq] at h; rw [← h.2]; exact ⟨rfl, rfl⟩
              | none => cases maxCol <;> simp [hq] at h <;> (rw [← h.2]; exact ⟨rfl, rfl⟩)
            omega
          obtain ⟨lo, hi, q1, q2, q3⟩ := H.cols sr er r c hu i1'.1 i1'.2
          exact ok ⟨sr, lo, er, hi⟩ i1'.1 i1'.2 q2 q3 (by simp [resolveDep, bothOpenDep, openEnd, openStartDep, q1])
    | none =>
      cases sc with
      | some sc =>
        have : resolveDep usedRows usedCols maxRow maxCol ⟨some sr, some sc, none, ec⟩
            = resolve usedRows usedCols maxRow maxCol ⟨some sr, some sc, none, ec⟩ := by
          cases ec <;> simp [resolveDep, resolve, bothOpenDep, bothOpen, openEnd, openStartDep, openStart]
        exact ⟨e, this.trans h, i1, i2, i3, i4⟩
      | none =>
        cases ec with
        | none => exact absurd ⟨rfl, rfl, rfl⟩ g2
        | some ec =>
          have key : e.sr = sr ∧ e.sc = 1 ∧ e.ec = ec := by
            simp only [resolve, bothOpen, openEnd, openStart] at h
            cases hq : usedRows 1 ec with
            | some p => simp [hq] at h; rw [← h.2]; exact ⟨rfl, rfl, rfl⟩
            | none => cases maxRow <;> simp [hq] at h <;> (rw [← h.2]; exact ⟨rfl, rfl, rfl⟩)
          obtain ⟨k1, k2, k3⟩ := key
          obtain ⟨lo, hi, q1, q2, q3⟩ := H.rows 1 ec r c hu (by omega) (by omega)
          obtain ⟨lo', hi', p1, p2, p3⟩ := H.cols sr hi r c hu (by omega) (by omega)
          exact ok ⟨sr, lo', hi, ec⟩ (by simp only; omega) q3 p2 (by simp only; omega)
            (by simp [resolveDep, bothOpenDep, openEnd, openStartDep, q1, p1])
  | none =>
    cases sc with
    | some sc =>
      cases ec with
      | none => exact absurd ⟨rfl, rfl, by simp⟩ g1
      | some ec =>
        cases er with
        | some er =>
          have he := inv ⟨1, sc, er, ec⟩ (by simpa [resolve, bothOpen, openEnd, openStart] using h)
          subst he
          obtain ⟨lo, hi, q1, q2, q3⟩ := H.rows sc ec r c hu i3 i4
          exact ok ⟨lo, sc, er, ec⟩ q2 i2 i3 i4 (by simp [resolveDep, bothOpenDep, openEnd, openStartDep, q1])
        | none =>
          have key : e.sc = sc ∧ e.ec = ec := by
            simp only [resolve, bothOpen, openEnd, openStart] at h
            cases hq : usedRows sc ec with
            | some p => simp [hq] at h; rw [← h.2]; exact ⟨rfl, rfl⟩
            | none => cases maxRow <;> simp [hq] at h <;> (rw [← h.2]; exact ⟨rfl, rfl⟩)
          obtain ⟨lo, hi, q1, q2, q3⟩ := H.rows sc ec r c hu (by omega) (by omega)
          exact ok ⟨lo, sc, hi, ec⟩ q2 q3 (by simp only; omega) (by simp only; omega)
            (by simp [resolveDep, bothOpenDep, openEnd, openStartDep, q1])
    | none =>
      cases ec with
      | some ec =>
        cases er with
        | some er =>
          have he := inv ⟨1, 1, er, ec⟩ (by simpa [resolve, bothOpen, openEnd, openStart] using h)
          subst he
          obtain ⟨lo, hi, q1, q2, q3⟩ := H.rows 1 ec r c hu i3 i4
          obtain ⟨lo', hi', p1, p2, p3⟩ := H.cols lo er r c hu q2 i2
          exact ok ⟨lo, lo', er, ec⟩ q2 i2 p2 i4 (by simp [resolveDep, bothOpenDep, openEnd, openStartDep, q1, p1])
        | none =>
          have key : e.sc = 1 ∧ e.ec = ec := by
            simp only [resolve, bothOpen, openEnd, openStart] at h
            cases hq : usedRows 1 ec with
            | some p => simp [hq] at h; rw [← h.2]; exact ⟨rfl, rfl⟩
            | none => cases maxRow <;> simp [hq] at h <;> (rw [← h.2]; exact ⟨rfl, rfl⟩)
          obtain ⟨lo, hi, q1, q2, q3⟩ := H.rows 1 ec r c hu (by omega) (by omega)
          obtain ⟨lo', hi', p1, p2, p3⟩ := H.cols lo hi r c hu q2 q3
          exact ok ⟨lo, lo', hi, ec⟩ q2 q3 p2 (by simp only; omega)
            (by simp [resolveDep, bothOpenDep, openEnd, openStartDep, q1, p1])
      | none =>
        cases er with
        | none => exact absurd ⟨rfl, rfl, rfl⟩ g2
        | some er =>
          have key : e.sr = 1 ∧ e.er = er := by
            simp only [resolve, bothOpen, openEnd, openStart] at h
            cases hq : usedCols 1 er with
            | some p => simp [hq] at h; rw [← h.2]; exact ⟨rfl, rfl⟩
            | none => cases maxCol <;> simp [hq] at h <;> (rw [← h.2]; exact ⟨rfl, rfl⟩)
          obtain ⟨lo, hi, q1, q2, q3⟩ := H.cols 1 er r c hu (by omega) (by omega)
          obtain ⟨lo', hi', p1, p2, p3⟩ := H.rows lo hi r c hu q2 q3
          exact ok ⟨lo', lo, er, hi⟩ p2 (by simp only; omega) q2 q3
            (by simp [resolveDep, bothOpenDep, openEnd, openStartDep, q1, p1])

/-- Of the ranges that can be written, with a cell, a column or a row before and after the colon, only a column before a row
(A:3, which the parser takes) is left out. -/
theorem dep_covers_written {used : Nat → Nat → Prop} {usedRows usedCols : Hint} (maxRow maxCol : Option Nat)
    (H : Exact used usedRows usedCols) {b : Bounds} (h1 : b.sr ≠ none ∨ b.sc ≠ none) (h2 : b.er ≠ none ∨ b.ec ≠ none)
    (g : ¬ (b.sr = none ∧ b.ec = none)) {e : Extent} (h : resolve usedRows usedCols maxRow maxCol b = some e)
    {r c : Nat} (hu : used r c) (hin : e.Has r c) :
    ∃ e', resolveDep usedRows usedCols maxRow maxCol b = some e' ∧ e'.Has r c := by
  refine dep_covers_partial maxRow maxCol H (fun hc => g ⟨hc.1, hc.2.1⟩) (fun hc => ?_) h hu hin
  rcases h2 with h2 | h2
  · exact h2 hc.2.2
  · exact h2 hc.2.1

/-! ### Hints from the used cells -/

/-- The least and the greatest of a list. -/
def span : List Nat → Option (Nat × Nat)
  | [] => none
  | x :: xs =>
    match span xs with
    | none => some (x, x)
    | some (a, b) => some (min x a, max x b)

theorem span_mem : ∀ (l : List Nat) (x : Nat), x ∈ l → ∃ a b, span l = some (a, b) ∧ a ≤ x ∧ x ≤ b
  | y :: ys, x, h => by
    unfold span
    rcases List.mem_cons.mp h with h | h
    · subst h
      cases span ys with
      | none => exact ⟨x, x, rfl, by omega, by omega⟩
      | some p => exact ⟨_, _, rfl, by omega, by omega⟩
    · obtain ⟨a, b, h1, h2, h3⟩ := span_mem ys x h
      rw [h1]
      exact ⟨_, _, rfl, by omega, by omega⟩

/-- The hints that a list of used cells gives. -/
def rowsOf (cells : List (Nat × Nat)) : Hint := fun c1 c2 =>
  span ((cells.filter fun p => decide (c1 ≤ p.2 ∧ p.2 ≤ c2)).map (·.1))

def colsOf (cells : List (Nat × Nat)) : Hint := fun r1 r2 =>
  span ((cells.filter fun p => decide (r1 ≤ p.1 ∧ p.1 ≤ r2)).map (·.2))

/-- Such hints are right: the hypothesis of the theorems can be met for every set of used cells. -/
theorem exact_of (cells : List (Nat × Nat)) : Exact (fun r c => (r, c) ∈ cells) (rowsOf cells) (colsOf cells) where
  rows := by
    intro c1 c2 r c hu h1 h2
    exact span_mem _ r (List.mem_map.mpr ⟨(r, c), List.mem_filter.mpr ⟨hu, by simp [h1, h2]⟩, rfl⟩)
  cols := by
    intro r1 r2 r c hu h1 h2
    exact span_mem _ c (List.mem_map.mpr ⟨(r, c), List.mem_filter.mpr ⟨hu, by simp [h1, h2]⟩, rfl⟩)

/-- C:D over cells in C5 and D2: the evaluation reads C1:D5, the dependencies are those of C2:D5. -/
example : resolve (rowsOf [(5, 3), (2, 4)]) (colsOf [(5, 3), (2, 4)]) none none ⟨none, some 3, none, some 4⟩ = some ⟨1, 3, 5, 4⟩
    ∧ resolveDep (rowsOf [(5, 3), (2, 4)]) (colsOf [(5, 3), (2, 4)]) none none ⟨none, some 3, none, some 4⟩ = some ⟨2, 3, 5, 4⟩ := by
  decide

/-- **Refuted: the dependencies of every open range cover what its evaluation reads.** A:3 over A3 and B2 reads A1:B3, but is
ordered after the formulas in row 3 only, so B2 may be computed later. The same with a range open on all sides over A3
and B2. -/
theorem dep_misses :
    (∃ e e' : Extent, resolve (rowsOf [(3, 1), (2, 2)]) (colsOf [(3, 1), (2, 2)]) none none ⟨none, some 1, some 3, none⟩ = some e
      ∧ resolveDep (rowsOf [(3, 1), (2, 2)]) (colsOf [(3, 1), (2, 2)]) none none ⟨none, some 1, some 3, none⟩ = some e'
      ∧ e.Has 2 2 ∧ ¬ e'.Has 2 2)
    ∧ (∃ e e' : Extent, resolve (rowsOf [(3, 1), (2, 2)]) (colsOf [(3, 1), (2, 2)]) none none ⟨none, none, none, none⟩ = some e
      ∧ resolveDep (rowsOf [(3, 1), (2, 2)]) (colsOf [(3, 1), (2, 2)]) none none ⟨none, none, none, none⟩ = some e'
      ∧ e.Has 2 2 ∧ ¬ e'.Has 2 2) := by
  refine ⟨⟨⟨1, 1, 3, 2⟩, ⟨3, 1, 3, 1⟩, by decide, by decide, ?_, ?_⟩, ⟨⟨1, 1, 3, 2⟩, ⟨3, 1, 3, 1⟩, by decide, by decide, ?_, ?_⟩⟩ <;>
  simp [Extent.Has]

/-! ### Formulas to compute before -/

/-- Exactly the pending formulas in the rectangle, the formula itself left out. -/
theorem virtual_iff (pending : Nat → Bool) (cells : List (Nat × Nat × Nat)) (v u : Nat) (ext : Option Extent) :
    u ∈ virtualDeps pending cells v ext ↔
      u ≠ v ∧ pending u = true ∧ ∃ e r c, ext = some e ∧ (u, r, c) ∈ cells ∧ e.Has r c := by
  unfold virtualDeps
  cases ext with
  | none => simp
  | some e =>
    simp only [List.mem_map, List.mem_filter, Bool.and_eq_true, decide_eq_true_eq, Option.some.injEq, Extent.Has]
    constructor
    · rintro ⟨⟨w, r, c⟩, ⟨h1, ⟨h2, h3, h4⟩, h5, h6⟩, rfl⟩
      exact ⟨h6, h5, e, r, c, rfl, h1, by simp only at *; omega, by simp only at *; omega, h2, h3⟩
    · rintro ⟨h1, h2, e', r, c, rfl, h3, h4, h5, h6, h7⟩
      exact ⟨(u, r, c), ⟨h3, ⟨h6, h7, by simp only; omega⟩, h2, h1⟩, rfl⟩

/-- **A formula is ordered after every pending formula among the cells it reads through a range**, for the ranges of
`dep_covers_partial`. Pending formulas count as used cells. -/
theorem ordered_after_partial {usedRows usedCols : Hint} (maxRow maxCol : Option Nat) (pending : Nat → Bool)
    (cells : List (Nat × Nat × Nat)) (H : Exact (fun r c => ∃ u, (u, r, c) ∈ cells) usedRows usedCols) {b : Bounds}
    (g1 : ¬ (b.sr = none ∧ b.ec = none ∧ b.sc ≠ none)) (g2 : ¬ (b.sc = none ∧ b.ec = none ∧ b.er = none))
    {e : Extent} (h : resolve usedRows usedCols maxRow maxCol b = some e) (v u r c : Nat) (hm : (u, r, c) ∈ cells)
    (hin : e.Has r c) (hp : pending u = true) (hne : u ≠ v) :
    u ∈ virtualDeps pending cells v (resolveDep usedRows usedCols maxRow maxCol b) := by
  obtain ⟨e', h1, h2⟩ := dep_covers_partial maxRow maxCol H g1 g2 h (r := r) (c := c) ⟨u, hm⟩ hin
  exact (virtual_iff pending cells v u _).mpr ⟨hne, hp, e', r, c, h1, hm, h2⟩

/-- No formula outside of the range as it is written is waited for. -/
theorem dep_within {usedRows usedCols : Hint} (maxRow maxCol : Option Nat) {b : Bounds} {e : Extent}
    (h : resolveDep usedRows usedCols maxRow maxCol b = some e) {r c : Nat} (h1 : 1 ≤ r) (h2 : 1 ≤ c) (hin : e.Has r c) :
    Inside b r c := by
  have hs : ∀ (hint : Hint) (fb lo hi s t x : Option Nat) (y : Nat), (bothOpenDep hint fb lo hi s t).1 = x → s = some y → x = some y := by
    intro hint fb lo hi s t x y hx hy
    subst hy
    rw [← hx]
    simp [bothOpenDep]
  have he : ∀ (hint : Hint) (fb lo hi s t x : Option Nat) (y : Nat), (bothOpenDep hint fb lo hi s t).2 = x → t = some y → x = some y := by
    intro hint fb lo hi s t x y hx hy
    subst hy
    rw [← hx]
    simp [bothOpenDep]
  have he2 : ∀ (hint : Hint) (fb lo hi s t : Option Nat) (y : Nat), t = some y → openEnd hint fb lo hi s t = some y := by
    intro hint fb lo hi s t y hy
    subst hy
    simp [openEnd]
  have hs2 : ∀ (hint : Hint) (lo hi s t : Option Nat) (y : Nat), s = some y → openStartDep hint lo hi s t = some y := by
    intro hint lo hi s t y hy
    subst hy
    simp [openStartDep]
  unfold resolveDep at h
  simp only at h
  split at h
  · have h := Option.some.inj h
    subst h
    obtain ⟨i1, i2, i3, i4⟩ := hin
    simp only at i1 i2 i3 i4
    refine ⟨h1, h2, ?_, ?_, ?_, ?_⟩
    · intro x hx
      rw [hs2 _ _ _ _ _ x (hs _ _ _ _ _ _ _ x rfl hx)] at i1
      simpa using i1
    · intro x hx
      rw [he2 _ _ _ _ _ _ x (he _ _ _ _ _ _ _ x rfl hx)] at i2
      simpa using i2
    · intro x hx
      rw [hs2 _ _ _ _ _ x (hs _ _ _ _ _ _ _ x rfl hx)] at i3
      simpa using i3
    · intro x hx
      rw [he2 _ _ _ _ _ _ x (he _ _ _ _ _ _ _ x rfl hx)] at i4
      simpa using i4
  · cases h

/-! ### The policy of the graph -/

/-- **The rectangle that the graph takes contains every used cell of the range** up to the last row and column assumed: it
asks for both axes over the whole of the other. -/
theorem graph_covers {used : Nat → Nat → Prop} {usedRows usedCols : Hint} (maxRow maxCol : Nat)
    (H : Exact used usedRows usedCols) {b : Bounds} {r c : Nat} (hu : used r c)
    (hsr : ∀ x, b.sr = some x → x ≤ r) (her : ∀ x, b.er = some x → r ≤ x) (hsc : ∀ x, b.sc = some x → x ≤ c)
    (hec : ∀ x, b.ec = some x → c ≤ x) (hr : r ≤ maxRow) (hc : c ≤ maxCol) :
    ∃ e, resolveGraph usedRows usedCols maxRow maxCol b = some e ∧ e.Has r c := by
  have a1 : b.sr.getD 0 ≤ r := by cases h : b.sr with | none => simp | some x => simpa using hsr x h
  have a2 : r ≤ b.er.getD maxRow := by cases h : b.er with | none => simpa using hr | some x => simpa using her x h
  have a3 : b.sc.getD 0 ≤ c := by cases h : b.sc with | none => simp | some x => simpa using hsc x h
  have a4 : c ≤ b.ec.getD maxCol := by cases h : b.ec with | none => simpa using hc | some x => simpa using hec x h
  obtain ⟨lo, hi, q1, q2, q3⟩ := H.rows _ _ r c hu a3 a4
  obtain ⟨lo', hi', p1, p2, p3⟩ := H.cols _ _ r c hu a1 a2
  have b2 : r ≤ (b.er.orElse fun _ => (usedRows (b.sc.getD 0) (b.ec.getD maxCol)).map (·.2)).getD maxRow := by
    rw [q1]
    cases h : b.er with
    | none => simpa using q3
    | some x => simpa using her x h
  have b4 : c ≤ (b.ec.orElse fun _ => (usedCols (b.sr.getD 0) (b.er.getD maxRow)).map (·.2)).getD maxCol := by
    rw [p1]
    cases h : b.ec with
    | none => simpa using p3
    | some x => simpa using hec x h
  unfold resolveGraph
  simp only
  rw [if_pos ⟨by omega, by omega⟩]
  exact ⟨_, rfl, a1, b2, a3, b4⟩

example : resolveGraph (rowsOf [(3, 1), (2, 2)]) (colsOf [(3, 1), (2, 2)]) 100 100 ⟨none, none, none, none⟩ = some ⟨0, 0, 3, 2⟩ := by
  decide

end Verif.Ops.Ranges
