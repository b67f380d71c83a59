import Verif.Dirty.Props

/-!
# `mark_dirty_many_value_cells`

`crates/formualizer-eval/src/engine/graph/mod.rs` 3708-3788: the bulk variant used for spilled values. Range
dependents are collected once per sheet for the bounding rectangle of the sources.
-/

namespace Verif.Dirty

variable {V : Type} [DecidableEq V]

/-- Bounding rectangle: smallest and largest row, smallest and largest column. -/
structure Bounds where
  minRow : Nat
  maxRow : Nat
  minCol : Nat
  maxCol : Nat

/-- What the bulk variant reads besides the graph: positions (sheet, row, column) and
`collect_range_dependents_for_rect`. -/
structure Sheets (V : Type) where
  pos : V → Nat × Nat × Nat
  rectDeps : Nat → Bounds → List V

/-- graph/mod.rs 3755-3767: one step of the loop that grows the rectangle of each sheet. The map from sheet to
rectangle is a list of pairs. -/
def growBounds (sh : Sheets V) (m : List (Nat × Bounds)) (v : V) : List (Nat × Bounds) :=
  match m with
  | [] => [((sh.pos v).1, ⟨(sh.pos v).2.1, (sh.pos v).2.1, (sh.pos v).2.2, (sh.pos v).2.2⟩)]
  | (t, b) :: rest =>
    if t = (sh.pos v).1 then
      (t, ⟨min b.minRow (sh.pos v).2.1, max b.maxRow (sh.pos v).2.1,
        min b.minCol (sh.pos v).2.2, max b.maxCol (sh.pos v).2.2⟩) :: rest
    else (t, b) :: growBounds sh rest v

/-- graph/mod.rs 3708-3788 `mark_dirty_many_value_cells` (the rebuild of the edge store does not change the
edges). -/
def markValueCells (g : Graph V) (sh : Sheets V) (s : State V) (sources : List V) : Option (State V × List V) :=
  if sources = [] then some (s, [])
  else if s.depth > 0 then some ({ s with pending := s.pending ++ sources }, sources)
  else
    let pushed := sources.flatMap (fun v => g.direct v ++ g.nameDeps v) ++
      (sources.foldl (growBounds sh) []).flatMap fun p => sh.rectDeps p.1 p.2
    let stack := pushed.reverse
    match propagate g (stepBound g stack) stack [] with
    | none => none
    | some visited =>
      let affected := visited ++ sources
      some ({ s with flags := visited ++ s.flags, dirtySet := affected ++ s.dirtySet }, affected)

/-- A position lies in a rectangle. -/
def Bounds.Has (b : Bounds) (row col : Nat) : Prop :=
  b.minRow ≤ row ∧ row ≤ b.maxRow ∧ b.minCol ≤ col ∧ col ≤ b.maxCol

/-- Range lookup is as proved in `Verif.Stripes`: a rectangle finds at least what its cells find, and only known
vertices. -/
structure Sheets.Ok (sh : Sheets V) (g : Graph V) : Prop where
  covers : ∀ v b, b.Has (sh.pos v).2.1 (sh.pos v).2.2 → ∀ x ∈ g.rangeDeps v, x ∈ sh.rectDeps (sh.pos v).1 b
  known : ∀ t b, ∀ x ∈ sh.rectDeps t b, x ∈ g.vertices

/-- `m` has a rectangle that contains the position of `v`. -/
def Boxed (sh : Sheets V) (m : List (Nat × Bounds)) (v : V) : Prop :=
  ∃ b, ((sh.pos v).1, b) ∈ m ∧ b.Has (sh.pos v).2.1 (sh.pos v).2.2

theorem grow_boxed (sh : Sheets V) (m : List (Nat × Bounds)) (v w : V) (h : w = v ∨ Boxed sh m w) :
    Boxed sh (growBounds sh m v) w := by
  induction m with
  | nil =>
    rcases h with rfl | ⟨b, hb, -⟩
    · exact ⟨⟨_, _, _, _⟩, List.mem_singleton.2 rfl, by simp [Bounds.Has]⟩
    · cases hb
  | cons p rest ih =>
    obtain ⟨t, b⟩ := p
    simp only [growBounds]
    split
    · rename_i ht
      rcases h with rfl | ⟨b', hb', hh⟩
      · exact ⟨_, by rw [← ht]; exact List.mem_cons_self, by simp only [Bounds.Has]; omega⟩
      · rcases List.mem_cons.1 hb' with h1 | h1
        · simp only [Prod.mk.injEq] at h1
          obtain ⟨h1, rfl⟩ := h1
          refine ⟨_, by rw [h1]; exact List.mem_cons_self, ?_⟩
          simp only [Bounds.Has] at *; omega
        · exact ⟨b', by simp [h1], hh⟩
    · rcases h with rfl | ⟨b', hb', hh⟩
      · obtain ⟨b2, h2, h3⟩ := ih (Or.inl rfl)
        exact ⟨b2, by simp [h2], h3⟩
      · rcases List.mem_cons.1 hb' with h1 | h1
        · exact ⟨b', by simp [h1], hh⟩
        · obtain ⟨b2, h2, h3⟩ := ih (Or.inr ⟨b', h1, hh⟩)
          exact ⟨b2, by simp [h2], h3⟩

theorem fold_boxed (sh : Sheets V) (sources : List V) (m : List (Nat × Bounds)) (w : V)
    (h : w ∈ sources ∨ Boxed sh m w) : Boxed sh (sources.foldl (growBounds sh) m) w := by
  induction sources generalizing m with
  | nil => rcases h with h | h; cases h; exact h
  | cons v rest ih =>
    apply ih
    rcases h with h | h
    · rcases List.mem_cons.1 h with rfl | h
      · exact Or.inr (grow_boxed sh m _ _ (Or.inl rfl))
      · exact Or.inl h
    · exact Or.inr (grow_boxed sh m v w (Or.inr h))

/-- The rectangles are spanned by sources: each side is the position of a source of that sheet. -/
def Spanned (sh : Sheets V) (sources : List V) (t : Nat) (b : Bounds) : Prop :=
  ∃ x1 ∈ sources, ∃ x2 ∈ sources, ∃ x3 ∈ sources, ∃ x4 ∈ sources,
    sh.pos x1 = (t, b.minRow, (sh.pos x1).2.2) ∧ sh.pos x2 = (t, b.maxRow, (sh.pos x2).2.2) ∧
    sh.pos x3 = (t, (sh.pos x3).2.1, b.minCol) ∧ sh.pos x4 = (t, (sh.pos x4).2.1, b.maxCol)

theorem grow_spanned (sh : Sheets V) (sources : List V) (m : List (Nat × Bounds)) (v : V) (hv : v ∈ sources)
    (h : ∀ p ∈ m, Spanned sh sources p.1 p.2) : ∀ p ∈ growBounds sh m v, Spanned sh sources p.1 p.2 := by
  induction m with
  | nil =>
    intro p hp
    simp only [growBounds, List.mem_singleton] at hp
    subst hp
    exact ⟨v, hv, v, hv, v, hv, v, hv, rfl, rfl, rfl, rfl⟩
  | cons q rest ih =>
    obtain ⟨t, b⟩ := q
    intro p hp
    simp only [growBounds] at hp
    split at hp
    · rename_i ht
      rcases List.mem_cons.1 hp with rfl | hp
      · obtain ⟨x1, h1, x2, h2, x3, h3, x4, h4, e1, e2, e3, e4⟩ := h (t, b) (by simp)
        simp only at e1 e2 e3 e4
        have pick : ∀ x y : V, x ∈ sources → y ∈ sources → ∀ P : V → Prop, (P x ∨ P y) → ∃ z ∈ sources, P z := by
          intro x y hx hy P hP
          rcases hP with hP | hP
          · exact ⟨x, hx, hP⟩
          · exact ⟨y, hy, hP⟩
        have vp : sh.pos v = (t, (sh.pos v).2.1, (sh.pos v).2.2) := by rw [ht]
        obtain ⟨z1, m1, p1⟩ := pick x1 v h1 hv (fun x => sh.pos x = (t, min b.minRow (sh.pos v).2.1, (sh.pos x).2.2)) (by
          by_cases hc : b.minRow ≤ (sh.pos v).2.1
          · left; simp only [Nat.min_eq_left hc]; exact e1
          · right; rw [Nat.min_eq_right (by omega)]; exact vp)
        obtain ⟨z2, m2, p2⟩ := pick x2 v h2 hv (fun x => sh.pos x = (t, max b.maxRow (sh.pos v).2.1, (sh.pos x).2.2)) (by
          by_cases hc : (sh.pos v).2.1 ≤ b.maxRow
          · left; simp only [Nat.max_eq_left hc]; exact e2
          · right; rw [Nat.max_eq_right (by omega)]; exact vp)
        obtain ⟨z3, m3, p3⟩ := pick x3 v h3 hv (fun x => sh.pos x = (t, (sh.pos x).2.1, min b.minCol (sh.pos v).2.2)) (by
          by_cases hc : b.minCol ≤ (sh.pos v).2.2
          · left; simp only [Nat.min_eq_left hc]; exact e3
          · right; rw [Nat.min_eq_right (by omega)]; exact vp)
        obtain ⟨z4, m4, p4⟩ := pick x4 v h4 hv (fun x => sh.pos x = (t, (sh.pos x).2.1, max b.maxCol (sh.pos v).2.2)) (by
          by_cases hc : (sh.pos v).2.2 ≤ b.maxCol
          · left; simp only [Nat.max_eq_left hc]; exact e4
          · right; rw [Nat.max_eq_right (by omega)]; exact vp)
        exact ⟨z1, m1, z2, m2, z3, m3, z4, m4, p1, p2, p3, p4⟩
      · exact h p (by simp [hp])
    · rcases List.mem_cons.1 hp with rfl | hp
      · exact h (t, b) (by simp)
      · exact ih (fun q hq => h q (by simp [hq])) p hp

theorem fold_spanned (sh : Sheets V) (all sources : List V) (m : List (Nat × Bounds)) (hs : ∀ v ∈ sources, v ∈ all)
    (h : ∀ p ∈ m, Spanned sh all p.1 p.2) : ∀ p ∈ sources.foldl (growBounds sh) m, Spanned sh all p.1 p.2 := by
  induction sources generalizing m with
  | nil => exact h
  | cons v rest ih =>
    exact ih _ (fun x hx => hs x (by simp [hx])) (grow_spanned sh all m v (hs v (by simp)) h)

/-- **C15** The bulk variant terminates, marks everything that depends on a source, and marks only what depends
on a source or on a formula found for the bounding rectangle of the sources of one sheet. -/
theorem markValueCells_covers {g : Graph V} (hg : g.Ok) {sh : Sheets V} (hsh : sh.Ok g) (s : State V)
    (hd : s.depth = 0) (sources : List V) :
    ∃ s' affected, markValueCells g sh s sources = some (s', affected) ∧
      (∀ v, v ∈ s.flags ∨ (∃ t ∈ sources, g.Reaches t v) → v ∈ s'.flags) ∧
      (∀ v, v ∈ s'.flags → v ∈ s.flags ∨ (∃ t ∈ sources, g.Reaches t v) ∨
        ∃ t b x, Spanned sh sources t b ∧ x ∈ sh.rectDeps t b ∧ (v = x ∨ g.Reaches x v)) := by
  unfold markValueCells
  by_cases hne : sources = []
  · subst hne
    exact ⟨s, [], by simp, by simp, fun v hv => Or.inl hv⟩
  · simp only [hne, if_false, if_neg (show ¬ s.depth > 0 by omega)]
    generalize hst : (sources.flatMap (fun v => g.direct v ++ g.nameDeps v) ++
      (sources.foldl (growBounds sh) []).flatMap fun p => sh.rectDeps p.1 p.2) = pushed
    have hmem : ∀ v, v ∈ pushed.reverse ↔ (∃ t ∈ sources, v ∈ g.direct t ∨ v ∈ g.nameDeps t) ∨
        ∃ p ∈ sources.foldl (growBounds sh) [], v ∈ sh.rectDeps p.1 p.2 := by
      intro v
      rw [List.mem_reverse, ← hst]
      simp only [List.mem_append, List.mem_flatMap]
    have hspan := fold_spanned sh sources sources [] (fun _ h => h) (by simp)
    obtain ⟨r, hr⟩ := propagate_some hg (stepBound g pushed.reverse) pushed.reverse []
      (by
        intro v hv
        rcases (hmem v).1 hv with ⟨t, -, h⟩ | ⟨p, -, h⟩
        · apply hg.closed t v
          rcases h with h | h
          · exact Or.inl h
          · exact Or.inr (Or.inl h)
        · exact hsh.known _ _ v h)
      (sum_zero_visited g _)
    rw [hr]
    refine ⟨_, _, rfl, ?_, ?_⟩
    · rintro v (hv | ⟨t, ht, hv⟩)
      · simp [hv]
      · simp only [List.mem_append]
        left
        rw [propagate_spec hg _ _ _ _ hr (by simp) v]
        have dep : ∀ w, g.Dep t w → w ∈ pushed.reverse := by
          intro w hw
          rw [hmem]
          rcases hw with h | h | h
          · exact Or.inl ⟨t, ht, Or.inl h⟩
          · exact Or.inl ⟨t, ht, Or.inr h⟩
          · obtain ⟨b, hb, hh⟩ := fold_boxed sh sources [] t (Or.inl ht)
            exact Or.inr ⟨_, hb, hsh.covers t b hh w h⟩
        cases hv with
        | one h => exact Or.inr (Or.inl (dep _ h))
        | cons h h' => exact Or.inr (Or.inr ⟨_, dep _ h, h'⟩)
    · intro v hv
      simp only [List.mem_append] at hv
      rcases hv with hv | hv
      · rw [propagate_spec hg _ _ _ _ hr (by simp) v] at hv
        right
        have src : ∀ x, x ∈ pushed.reverse → (∃ t ∈ sources, g.Dep t x) ∨
            ∃ t b, Spanned sh sources t b ∧ x ∈ sh.rectDeps t b := by
          intro x hx
          rcases (hmem x).1 hx with ⟨t, ht, h⟩ | ⟨p, hp, h⟩
          · left
            refine ⟨t, ht, ?_⟩
            rcases h with h | h
            · exact Or.inl h
            · exact Or.inr (Or.inl h)
          · exact Or.inr ⟨p.1, p.2, hspan p hp, h⟩
        rcases hv with hv | hv | ⟨x, hx, hxv⟩
        · cases hv
        · rcases src v hv with ⟨t, ht, h⟩ | ⟨t, b, h1, h2⟩
          · exact Or.inl ⟨t, ht, .one h⟩
          · exact Or.inr ⟨t, b, v, h1, h2, Or.inl rfl⟩
        · rcases src x hx with ⟨t, ht, h⟩ | ⟨t, b, h1, h2⟩
          · exact Or.inl ⟨t, ht, .cons h hxv⟩
          · exact Or.inr ⟨t, b, x, h1, h2, Or.inr hxv⟩
      · exact Or.inl hv

/-- Two value cells of one row; a formula reads the cell between them through a range: it is marked too. -/
example :
    let sh : Sheets Nat := ⟨fun v => (0, 0, v), fun _ b => if b.minCol ≤ 0 ∧ 0 ≤ b.maxCol then [1] else []⟩
    ∃ s a, markValueCells exGraph sh {} [0] = some (s, a) ∧ s.flags = [4, 3, 2, 1] :=
  ⟨{ flags := [4, 3, 2, 1], dirtySet := [4, 3, 2, 1, 0] }, [4, 3, 2, 1, 0], rfl, rfl⟩

end Verif.Dirty
