import Verif.Snap.Bounds
import Mathlib.Tactic.ByContra

/-!
# Used rows and columns are those of the last edit

`Verif.Snap.Bounds` has the model and the specification.
-/

namespace Verif.Snap

theorem bounds_none {l : List Nat} (h : bounds l = none) : l = [] := by
  cases l with
  | nil => rfl
  | cons n ns => rw [bounds] at h; split at h <;> cases h

theorem bounds_some {l : List Nat} : ∀ {a b : Nat}, bounds l = some (a, b) → a ∈ l ∧ b ∈ l ∧ ∀ n ∈ l, a ≤ n ∧ n ≤ b := by
  induction l with
  | nil => intro a b h; cases h
  | cons n ns ih =>
    intro a b h
    rw [bounds] at h
    split at h
    · rename_i hn
      cases h
      have := bounds_none hn
      subst this
      simp
    · rename_i c d hs
      cases h
      obtain ⟨hc, hd, hall⟩ := ih hs
      refine ⟨?_, ?_, ?_⟩
      · rcases Nat.le_total n c with hle | hle
        · rw [Nat.min_eq_left hle]; exact List.mem_cons_self ..
        · rw [Nat.min_eq_right hle]; exact List.mem_cons_of_mem _ hc
      · rcases Nat.le_total n d with hle | hle
        · rw [Nat.max_eq_right hle]; exact List.mem_cons_of_mem _ hd
        · rw [Nat.max_eq_left hle]; exact List.mem_cons_self ..
      · intro m hm
        rcases List.mem_cons.mp hm with rfl | hm
        · constructor <;> omega
        · have := hall m hm
          constructor <;> omega

theorem extent_bounds (l : List Nat) : Extent (fun n => n ∈ l) ((bounds l).map fun b => (b.1 + 1, b.2 + 1)) := by
  cases h : bounds l with
  | none => have := bounds_none h; subst this; intro n; simp
  | some b =>
    obtain ⟨ha, hb, hall⟩ := bounds_some h
    exact ⟨b.1, b.2, rfl, rfl, ha, hb, hall⟩

theorem Extent.congr {P Q : Nat → Prop} {b : Bounds} (h : Extent P b) (hq : ∀ n, P n ↔ Q n) : Extent Q b := by
  have : P = Q := funext fun n => propext (hq n)
  exact this ▸ h

/-- There is only one extent. -/
theorem Extent.unique {P : Nat → Prop} {b c : Bounds} (hb : Extent P b) (hc : Extent P c) : b = c := by
  cases b with
  | none =>
    cases c with
    | none => rfl
    | some c => obtain ⟨m, M, _, _, hm, _, _⟩ := hc; exact absurd hm (hb m)
  | some b =>
    obtain ⟨m, M, h1, h2, hm, hM, hall⟩ := hb
    cases c with
    | none => exact absurd hm (hc m)
    | some c =>
      obtain ⟨k, K, h3, h4, hk, hK, hall'⟩ := hc
      have a1 := hall k hk
      have a2 := hall K hK
      have a3 := hall' m hm
      have a4 := hall' M hM
      congr 1
      ext <;> simp [*] <;> omega

theorem extent_rowsIn (ps : List (Nat × Nat)) (sc ec : Nat) : Extent (InCols ps sc ec) (rowsIn ps sc ec) := by
  refine (extent_bounds _).congr fun n => ?_
  simp only [List.mem_map, List.mem_filter, decide_eq_true_eq, InCols]
  constructor
  · rintro ⟨⟨r, c⟩, ⟨hm, h1, h2⟩, rfl⟩; exact ⟨c, h1, h2, hm⟩
  · rintro ⟨c, h1, h2, hm⟩; exact ⟨(n, c), ⟨hm, h1, h2⟩, rfl⟩

theorem extent_colsIn (ps : List (Nat × Nat)) (sr er : Nat) : Extent (InRows ps sr er) (colsIn ps sr er) := by
  refine (extent_bounds _).congr fun n => ?_
  simp only [List.mem_map, List.mem_filter, decide_eq_true_eq, InRows]
  constructor
  · rintro ⟨⟨r, c⟩, ⟨hm, h1, h2⟩, rfl⟩; exact ⟨r, h1, h2, hm⟩
  · rintro ⟨c, h1, h2, hm⟩; exact ⟨(c, n), ⟨hm, h1, h2⟩, rfl⟩

theorem extent_union {P Q : Nat → Prop} {b c : Bounds} (hb : Extent P b) (hc : Extent Q c) : Extent (fun n => P n ∨ Q n) (union b c) := by
  cases b with
  | none => exact hc.congr fun n => ⟨Or.inr, fun h => h.resolve_left (hb n)⟩
  | some b =>
    cases c with
    | none => exact hb.congr fun n => ⟨Or.inl, fun h => h.resolve_right (hc n)⟩
    | some c =>
      obtain ⟨m, M, h1, h2, hm, hM, hall⟩ := hb
      obtain ⟨k, K, h3, h4, hk, hK, hall'⟩ := hc
      refine ⟨min m k, max M K, by omega, by omega, ?_, ?_, ?_⟩
      · rcases Nat.le_total m k with hle | hle
        · rw [Nat.min_eq_left hle]; exact .inl hm
        · rw [Nat.min_eq_right hle]; exact .inr hk
      · rcases Nat.le_total M K with hle | hle
        · rw [Nat.max_eq_right hle]; exact .inr hK
        · rw [Nat.max_eq_left hle]; exact .inl hM
      · rintro n (h | h)
        · have := hall n h; omega
        · have := hall' n h; omega

theorem scan_mem {s : Sheet} {c n : Nat} : n ∈ ((s.used.filter fun p => decide (p.2 = c)).map Prod.fst) ↔ (n, c) ∈ s.used := by
  simp only [List.mem_map, List.mem_filter, decide_eq_true_eq]
  constructor
  · rintro ⟨⟨r, d⟩, ⟨hm, rfl⟩, rfl⟩; exact hm
  · intro h; exact ⟨(n, c), ⟨h, rfl⟩, rfl⟩

theorem scan_none {s : Sheet} {c : Nat} (h : scan s c = none) (r : Nat) : (r, c) ∉ s.used := by
  have := bounds_none h
  intro hm
  rw [← scan_mem, this] at hm
  cases hm

theorem scan_some {s : Sheet} {c a b : Nat} (h : scan s c = some (a, b)) : (a, c) ∈ s.used ∧ (b, c) ∈ s.used ∧ ∀ r, (r, c) ∈ s.used → a ≤ r ∧ r ≤ b := by
  obtain ⟨ha, hb, hall⟩ := bounds_some h
  exact ⟨scan_mem.mp ha, scan_mem.mp hb, fun r hr => hall r (scan_mem.mpr hr)⟩

/-! ## Tables -/

/-- All entries of a table that are read in this snapshot meet a condition, and none is of a later one. -/
def Cache.All {K V : Type} [BEq K] (c : Cache K V) (snap : Nat) (P : K → V → Prop) : Prop := c.snapshot ≤ snap ∧ ∀ k v, c.get k snap = some v → P k v

theorem Cache.All.put {K V : Type} [BEq K] [LawfulBEq K] {c : Cache K V} {snap : Nat} {P : K → V → Prop} (h : c.All snap P) {k : K} {v : V} (hv : P k v) : (c.put k v snap).All snap P := by
  unfold Cache.put
  split
  · refine ⟨Nat.le_refl _, fun k' v' hg => ?_⟩
    simp only [Cache.get, ne_eq, not_true_eq_false, if_false, List.lookup_cons, List.lookup_nil] at hg
    split at hg
    · rename_i hk
      cases hg
      rw [beq_iff_eq] at hk
      exact hk ▸ hv
    · cases hg
  · rename_i hs
    simp only [ne_eq, Decidable.not_not] at hs
    refine ⟨h.1, fun k' v' hg => ?_⟩
    simp only [Cache.get, hs, ne_eq, not_true_eq_false, if_false, List.lookup_cons] at hg
    split at hg
    · rename_i hk
      cases hg
      rw [beq_iff_eq] at hk
      exact hk ▸ hv
    · refine h.2 k' v' ?_
      simp only [Cache.get, hs, ne_eq, not_true_eq_false, if_false]
      exact hg

theorem Cache.All.next {K V : Type} [BEq K] {c : Cache K V} {snap : Nat} {P Q : K → V → Prop} (h : c.All snap P) : c.All (snap + 1) Q := by
  refine ⟨Nat.le_succ_of_le h.1, fun k v hg => ?_⟩
  unfold Cache.get at hg
  have := h.1
  rw [if_pos (by omega)] at hg
  cases hg

theorem Cache.get_put {K V : Type} [BEq K] [LawfulBEq K] (c : Cache K V) (k : K) (v : V) (snap : Nat) : (c.put k v snap).get k snap = some v := by
  unfold Cache.put
  split
  · simp [Cache.get]
  · rename_i h
    simp only [ne_eq, Decidable.not_not] at h
    simp [Cache.get, h]

/-! ## The loops over columns -/

abbrev RowCache.Right (rc : RowCache) (book : Book) (snap : Nat) : Prop := rc.All snap fun k v => v = scan (book k.1) k.2

/-- What a loop finds without a table. -/
def found (pick : Nat × Nat → Nat) (f : Nat → Nat → Nat) (s : Sheet) (cs : List Nat) (acc : Option Nat) : Option Nat :=
  cs.foldl (fun acc ci => match scan s ci with | some b => join f acc (pick b) | none => acc) acc

theorem loop_found (pick : Nat × Nat → Nat) (f : Nat → Nat → Nat) (book : Book) (sheet snap : Nat) (cs : List Nat) :
    ∀ (rc : RowCache) (acc : Option Nat), rc.Right book snap →
      (loop pick f (book sheet) sheet snap cs rc acc).1.Right book snap ∧ (loop pick f (book sheet) sheet snap cs rc acc).2 = found pick f (book sheet) cs acc := by
  induction cs with
  | nil => intro rc acc h; exact ⟨h, rfl⟩
  | cons ci cs ih =>
    intro rc acc h
    rw [loop]
    split
    · rename_i b hb
      have hs := h.2 _ _ hb
      obtain ⟨i1, i2⟩ := ih rc (join f acc (pick b)) h
      refine ⟨i1, i2.trans ?_⟩
      simp only at hs
      simp only [found, List.foldl_cons, ← hs]
    · have := h.put (k := (sheet, ci)) (v := scan (book sheet) ci) rfl
      obtain ⟨i1, i2⟩ := ih _ (match scan (book sheet) ci with | some b => join f acc (pick b) | none => acc) this
      exact ⟨i1, i2⟩

theorem found_spec (pick : Nat × Nat → Nat) (f : Nat → Nat → Nat) (le : Nat → Nat → Prop) (hrefl : ∀ a, le a a) (htrans : ∀ a b c, le a b → le b c → le a c)
    (hl : ∀ a b, le (f a b) a) (hr : ∀ a b, le (f a b) b) (hor : ∀ a b, f a b = a ∨ f a b = b) (s : Sheet) (cs : List Nat) :
    ∀ acc, (found pick f s cs acc = none → acc = none ∧ ∀ c ∈ cs, scan s c = none) ∧
      ∀ m, found pick f s cs acc = some m → (acc = some m ∨ ∃ c ∈ cs, ∃ b, scan s c = some b ∧ pick b = m) ∧ (∀ n, acc = some n → le m n) ∧ ∀ c ∈ cs, ∀ b, scan s c = some b → le m (pick b) := by
  induction cs with
  | nil =>
    intro acc
    refine ⟨fun h => ⟨h, by simp⟩, fun m h => ⟨.inl h, fun n hn => ?_, by simp⟩⟩
    rw [show acc = some m from h] at hn
    cases hn
    exact hrefl _
  | cons ci cs ih =>
    intro acc
    cases hs : scan s ci with
    | none =>
      have e : found pick f s (ci :: cs) acc = found pick f s cs acc := by simp only [found, List.foldl_cons, hs]
      rw [e]
      obtain ⟨i1, i2⟩ := ih acc
      refine ⟨fun h => ⟨(i1 h).1, ?_⟩, fun m h => ?_⟩
      · intro c hc
        rcases List.mem_cons.mp hc with rfl | hc
        · exact hs
        · exact (i1 h).2 c hc
      · obtain ⟨j1, j2, j3⟩ := i2 m h
        refine ⟨?_, j2, ?_⟩
        · rcases j1 with j1 | ⟨c, hc, b, hb⟩
          · exact .inl j1
          · exact .inr ⟨c, List.mem_cons_of_mem _ hc, b, hb⟩
        · intro c hc b hb
          rcases List.mem_cons.mp hc with rfl | hc
          · rw [hs] at hb; cases hb
          · exact j3 c hc b hb
    | some b0 =>
      have e : found pick f s (ci :: cs) acc = found pick f s cs (join f acc (pick b0)) := by simp only [found, List.foldl_cons, hs]
      rw [e]
      obtain ⟨i1, i2⟩ := ih (join f acc (pick b0))
      refine ⟨fun h => ?_, fun m h => ?_⟩
      · have := (i1 h).1
        cases acc <;> cases this
      · obtain ⟨j1, j2, j3⟩ := i2 m h
        have hb0 : le m (pick b0) := by
          cases acc with
          | none => exact j2 _ rfl
          | some a => exact htrans _ _ _ (j2 _ rfl) (hr _ _)
        refine ⟨?_, ?_, ?_⟩
        · rcases j1 with j1 | ⟨c, hc, b, hb⟩
          · cases acc with
            | none => cases j1; exact .inr ⟨ci, List.mem_cons_self .., b0, hs, rfl⟩
            | some a =>
              cases j1
              rcases hor a (pick b0) with h' | h'
              · exact .inl (by rw [h'])
              · exact .inr ⟨ci, List.mem_cons_self .., b0, hs, h'.symm⟩
          · exact .inr ⟨c, List.mem_cons_of_mem _ hc, b, hb⟩
        · intro n hn
          subst hn
          exact htrans _ _ _ (j2 _ rfl) (hl _ _)
        · intro c hc b hb
          rcases List.mem_cons.mp hc with rfl | hc
          · rw [hs] at hb; cases hb; exact hb0
          · exact j3 c hc b hb

theorem mem_span {a b c : Nat} : c ∈ span a b ↔ a ≤ c ∧ c ≤ b := by
  simp only [span, List.mem_map, List.mem_range]
  constructor
  · rintro ⟨i, hi, rfl⟩; omega
  · rintro ⟨h1, h2⟩; exact ⟨c - a, by omega, by omega⟩

theorem arrowRows_right {book : Book} {sheet snap : Nat} (sc ec : Nat) {rc : RowCache} (hok : (book sheet).Ok) (h : rc.Right book snap) :
    (arrowRows (book sheet) sheet snap sc ec rc).1.Right book snap ∧ Extent (InCols (book sheet).used sc ec) (arrowRows (book sheet) sheet snap sc ec rc).2 := by
  unfold arrowRows
  split
  · rename_i h0
    refine ⟨h, fun n hn => ?_⟩
    obtain ⟨c, _, _, hm⟩ := hn
    have := hok _ hm
    simp only at this
    omega
  · split
    · rename_i h0 h1
      refine ⟨h, fun n hn => ?_⟩
      obtain ⟨c, _, _, hm⟩ := hn
      have := hok _ hm
      simp only at this
      omega
    · rename_i h0 h1
      have hcol : ∀ r c, (r, c) ∈ (book sheet).used → sc - 1 ≤ c → c ≤ ec - 1 → c ∈ span (sc - 1) (min (ec - 1) ((book sheet).ncols - 1)) := by
        intro r c hm h2 h3
        have := hok _ hm
        simp only at this
        exact mem_span.mpr ⟨h2, by omega⟩
      obtain ⟨l1, l2⟩ := loop_found Prod.fst min book sheet snap (span (sc - 1) (min (ec - 1) ((book sheet).ncols - 1))) rc none h
      have sp := found_spec Prod.fst min (· ≤ ·) (fun a => Nat.le_refl a) (fun a b c => Nat.le_trans) (fun a b => Nat.min_le_left a b) (fun a b => Nat.min_le_right a b) (fun a b => by omega)
        (book sheet) (span (sc - 1) (min (ec - 1) ((book sheet).ncols - 1))) none
      simp only
      split
      · rename_i hn
        refine ⟨l1, fun n hn' => ?_⟩
        obtain ⟨c, h2, h3, hm⟩ := hn'
        rw [l2] at hn
        exact scan_none ((sp.1 hn).2 c (hcol n c hm h2 h3)) n hm
      · rename_i a ha
        rw [l2] at ha
        obtain ⟨m1, _, m3⟩ := sp.2 a ha
        obtain ⟨u1, u2⟩ := loop_found Prod.snd max book sheet snap (span (sc - 1) (min (ec - 1) ((book sheet).ncols - 1))) _ none l1
        have sq := found_spec Prod.snd max (fun x y => y ≤ x) (fun a => Nat.le_refl a) (fun a b c h1 h2 => Nat.le_trans h2 h1) (fun a b => Nat.le_max_left a b) (fun a b => Nat.le_max_right a b)
          (fun a b => by omega) (book sheet) (span (sc - 1) (min (ec - 1) ((book sheet).ncols - 1))) none
        obtain ⟨c, hc, b, hb, hba⟩ := m1.resolve_left (by simp)
        split
        · rename_i hn
          rw [u2] at hn
          have := (sq.1 hn).2 c hc
          rw [hb] at this
          cases this
        · rename_i B hB
          rw [u2] at hB
          obtain ⟨n1, _, n3⟩ := sq.2 B hB
          obtain ⟨c', hc', b', hb', hba'⟩ := n1.resolve_left (by simp)
          refine ⟨u1, a, B, rfl, rfl, ?_, ?_, ?_⟩
          · have := mem_span.mp hc
            exact ⟨c, by omega, by omega, hba ▸ (scan_some (a := b.1) (b := b.2) hb).1⟩
          · have := mem_span.mp hc'
            exact ⟨c', by omega, by omega, hba' ▸ (scan_some (a := b'.1) (b := b'.2) hb').2.1⟩
          · rintro n ⟨d, h2, h3, hm⟩
            have hd := hcol n d hm h2 h3
            cases hsd : scan (book sheet) d with
            | none => exact absurd hm (scan_none hsd n)
            | some x =>
              have q1 := m3 d hd x hsd
              have q2 := n3 d hd x hsd
              have q3 := (scan_some (a := x.1) (b := x.2) hsd).2.2 n hm
              omega

/-! ## The engine -/

structure Engine.Inv (e : Engine) : Prop where
  rows : e.rows.Right e.book e.snapshot
  rowSpans : e.rowSpans.All e.snapshot fun k v => RowsRight (e.book k.1) k.2.1 k.2.2 v
  colSpans : e.colSpans.All e.snapshot fun k v => ColsRight (e.book k.1) k.2.1 k.2.2 v

/-- What holds of the tables in all histories: no entry is of a later snapshot. -/
structure Engine.Past (e : Engine) : Prop where
  rows : e.rows.snapshot ≤ e.snapshot
  rowSpans : e.rowSpans.snapshot ≤ e.snapshot
  colSpans : e.colSpans.snapshot ≤ e.snapshot

theorem extent_pick {P Q : Nat → Prop} {b c : Bounds} (hb : Extent P b) (hc : Extent Q c) :
    ((∃ n, P n) → Extent P (b.or c)) ∧ ((¬∃ n, P n) → Extent Q (b.or c)) := by
  cases b with
  | none => exact ⟨fun ⟨n, hn⟩ => absurd hn (hb n), fun _ => hc⟩
  | some b =>
    obtain ⟨m, _, _, _, hm, _⟩ := id hb
    exact ⟨fun _ => hb, fun h => absurd ⟨m, hm⟩ h⟩

theorem inCols_append (a b : List (Nat × Nat)) (sc ec n : Nat) : (InCols a sc ec n ∨ InCols b sc ec n) ↔ InCols (a ++ b) sc ec n := by
  simp only [InCols, List.mem_append]
  constructor
  · rintro (⟨c, h1, h2, h3⟩ | ⟨c, h1, h2, h3⟩)
    · exact ⟨c, h1, h2, .inl h3⟩
    · exact ⟨c, h1, h2, .inr h3⟩
  · rintro ⟨c, h1, h2, h3 | h3⟩
    · exact .inl ⟨c, h1, h2, h3⟩
    · exact .inr ⟨c, h1, h2, h3⟩

theorem inRows_append (a b : List (Nat × Nat)) (sc ec n : Nat) : (InRows a sc ec n ∨ InRows b sc ec n) ↔ InRows (a ++ b) sc ec n := by
  simp only [InRows, List.mem_append]
  constructor
  · rintro (⟨c, h1, h2, h3⟩ | ⟨c, h1, h2, h3⟩)
    · exact ⟨c, h1, h2, .inl h3⟩
    · exact ⟨c, h1, h2, .inr h3⟩
  · rintro ⟨c, h1, h2, h3 | h3⟩
    · exact .inl ⟨c, h1, h2, h3⟩
    · exact .inr ⟨c, h1, h2, h3⟩

theorem askRows_right {e : Engine} (h : e.Inv) (hok : OkBook e.book) (sheet sc ec : Nat) :
    (e.askRows sheet sc ec).1.Inv ∧ RowsRight (e.book sheet) sc ec (e.askRows sheet sc ec).2 := by
  unfold Engine.askRows
  split
  · rename_i b hb
    exact ⟨h, h.rowSpans.2 _ _ hb⟩
  · obtain ⟨a1, a2⟩ := arrowRows_right (snap := e.snapshot) sc ec (hok sheet) h.rows
    have hu := (extent_union a2 (extent_rowsIn (e.book sheet).formulas sc ec)).congr fun n => inCols_append _ _ sc ec n
    have hr : RowsRight (e.book sheet) sc ec _ := extent_pick hu (extent_rowsIn (e.book sheet).vertices sc ec)
    exact ⟨⟨a1, h.rowSpans.put hr, h.colSpans⟩, hr⟩

theorem askCols_right {e : Engine} (h : e.Inv) (hok : OkBook e.book) (sheet sr er : Nat) :
    (e.askCols sheet sr er).1.Inv ∧ ColsRight (e.book sheet) sr er (e.askCols sheet sr er).2 := by
  unfold Engine.askCols
  split
  · rename_i b hb
    exact ⟨h, h.colSpans.2 _ _ hb⟩
  · have hf : ((e.book sheet).used.filter fun p => decide (p.2 < (e.book sheet).ncols)) = (e.book sheet).used := by
      rw [List.filter_eq_self]
      intro p hp
      exact decide_eq_true (hok sheet p hp)
    simp only [hf]
    have hu := (extent_union (extent_colsIn (e.book sheet).used sr er) (extent_colsIn (e.book sheet).formulas sr er)).congr fun n => inRows_append _ _ sr er n
    have hr : ColsRight (e.book sheet) sr er _ := extent_pick hu (extent_colsIn (e.book sheet).vertices sr er)
    exact ⟨⟨h.rows, h.rowSpans, h.colSpans.put hr⟩, hr⟩

theorem RowsRight.unique {s : Sheet} {sc ec : Nat} {b c : Bounds} (hb : RowsRight s sc ec b) (hc : RowsRight s sc ec c) : b = c := by
  by_cases h : ∃ r, InCols (s.used ++ s.formulas) sc ec r
  · exact (hb.1 h).unique (hc.1 h)
  · exact (hb.2 h).unique (hc.2 h)

theorem SameExtent.rows {b b' : Book} (h : SameExtent b b') {s sc ec : Nat} {x : Bounds} (hr : RowsRight (b s) sc ec x) : RowsRight (b' s) sc ec x := by
  obtain ⟨_, h2, h3, h4⟩ := h s
  unfold RowsRight at hr ⊢
  rw [← h2, ← h3, ← h4]
  exact hr

theorem SameExtent.cols {b b' : Book} (h : SameExtent b b') {s sc ec : Nat} {x : Bounds} (hr : ColsRight (b s) sc ec x) : ColsRight (b' s) sc ec x := by
  obtain ⟨_, h2, h3, h4⟩ := h s
  unfold ColsRight at hr ⊢
  rw [← h2, ← h3, ← h4]
  exact hr

/-- The tables have no entry of this snapshot. -/
def Engine.Fresh (e : Engine) : Prop := e.rows.snapshot < e.snapshot ∧ e.rowSpans.snapshot < e.snapshot ∧ e.colSpans.snapshot < e.snapshot

theorem Cache.All.of_lt {K V : Type} [BEq K] {c : Cache K V} {snap : Nat} {P : K → V → Prop} (h : c.snapshot < snap) : c.All snap P := by
  refine ⟨Nat.le_of_lt h, fun k v hg => ?_⟩
  unfold Cache.get at hg
  rw [if_pos (Nat.ne_of_lt h)] at hg
  cases hg

theorem Engine.Fresh.inv {e : Engine} (h : e.Fresh) : e.Inv := ⟨.of_lt h.1, .of_lt h.2.1, .of_lt h.2.2⟩

theorem Cache.put_snapshot {K V : Type} (c : Cache K V) (k : K) (v : V) (snap : Nat) : (c.put k v snap).snapshot = snap := by
  unfold Cache.put
  split
  · rfl
  · rename_i h
    simpa using h

theorem loop_snapshot (pick : Nat × Nat → Nat) (f : Nat → Nat → Nat) (s : Sheet) (sheet snap : Nat) (cs : List Nat) :
    ∀ (rc : RowCache) (acc : Option Nat), rc.snapshot ≤ snap → (loop pick f s sheet snap cs rc acc).1.snapshot ≤ snap := by
  induction cs with
  | nil => intro rc acc h; exact h
  | cons ci cs ih =>
    intro rc acc h
    rw [loop]
    split
    · exact ih _ _ h
    · exact ih _ _ (Nat.le_of_eq (Cache.put_snapshot ..))

theorem arrowRows_snapshot (s : Sheet) (sheet snap sc ec : Nat) {rc : RowCache} (h : rc.snapshot ≤ snap) : (arrowRows s sheet snap sc ec rc).1.snapshot ≤ snap := by
  unfold arrowRows
  split
  · exact h
  · split
    · exact h
    · simp only
      have h1 := loop_snapshot Prod.fst min s sheet snap (span (sc - 1) (min (ec - 1) (s.ncols - 1))) rc none h
      split
      · exact h1
      · have h2 := loop_snapshot Prod.snd max s sheet snap (span (sc - 1) (min (ec - 1) (s.ncols - 1))) _ none h1
        split <;> exact h2

theorem Engine.Past.apply {e : Engine} (h : e.Past) (o : Op) : (e.apply o).Past := by
  cases o with
  | edit b => exact ⟨Nat.le_succ_of_le h.1, Nat.le_succ_of_le h.2, Nat.le_succ_of_le h.3⟩
  | write b => exact ⟨h.1, h.2, h.3⟩
  | rows sheet sc ec =>
    simp only [Engine.apply, Engine.askRows]
    split
    · exact h
    · exact ⟨arrowRows_snapshot _ _ _ _ _ h.1, Nat.le_of_eq (Cache.put_snapshot ..), h.3⟩
  | cols sheet sr er =>
    simp only [Engine.apply, Engine.askCols]
    split
    · exact h
    · exact ⟨h.1, h.2, Nat.le_of_eq (Cache.put_snapshot ..)⟩

theorem Engine.Past.run {e : Engine} (h : e.Past) (os : List Op) : (e.run os).Past := by
  induction os generalizing e with
  | nil => exact h
  | cons o os ih => exact ih (h.apply o)

theorem askRows_book (e : Engine) (sheet sc ec : Nat) : (e.askRows sheet sc ec).1.book = e.book := by
  unfold Engine.askRows
  split <;> rfl

theorem askCols_book (e : Engine) (sheet sr er : Nat) : (e.askCols sheet sr er).1.book = e.book := by
  unfold Engine.askCols
  split <;> rfl

/-- All workbooks of a history have their cells in stored columns. -/
def OkOps : List Op → Prop
  | [] => True
  | .edit b :: os => OkBook b ∧ OkOps os
  | .write b :: os => OkBook b ∧ OkOps os
  | _ :: os => OkOps os

theorem run_inv (os : List Op) : ∀ (e : Engine) (asked : Bool), e.Inv → (asked = false → e.Fresh) → OkBook e.book → OkOps os → Calm asked e.book os → (e.run os).Inv ∧ OkBook (e.run os).book := by
  induction os with
  | nil => intro e asked h _ hb _ _; exact ⟨h, hb⟩
  | cons o os ih =>
    intro e asked h hf hb ho hc
    cases o with
    | edit b =>
      have hfr : (e.apply (.edit b)).Fresh := ⟨Nat.lt_succ_of_le h.rows.1, Nat.lt_succ_of_le h.rowSpans.1, Nat.lt_succ_of_le h.colSpans.1⟩
      exact ih (e.apply (.edit b)) false hfr.inv (fun _ => hfr) ho.1 ho.2 hc
    | write b =>
      refine ih (e.apply (.write b)) asked ?_ hf ho.1 ho.2 hc.2
      cases asked with
      | false => exact Engine.Fresh.inv (e := e.apply (.write b)) (hf rfl)
      | true =>
        have hs := hc.1 rfl
        refine ⟨⟨h.rows.1, fun k v hg => ?_⟩, ⟨h.rowSpans.1, fun k v hg => hs.rows (h.rowSpans.2 k v hg)⟩, ⟨h.colSpans.1, fun k v hg => hs.cols (h.colSpans.2 k v hg)⟩⟩
        have := h.rows.2 k v hg
        simp only at this ⊢
        rw [this]
        simp only [scan, (hs k.1).2.1, Engine.apply]
    | rows sheet sc ec =>
      have hi := (askRows_right h hb sheet sc ec).1
      have e1 : (e.apply (.rows sheet sc ec)).book = e.book := askRows_book ..
      exact ih (e.apply (.rows sheet sc ec)) true hi (by simp) (by rw [e1]; exact hb) ho (by rw [e1]; exact hc)
    | cols sheet sr er =>
      have hi := (askCols_right h hb sheet sr er).1
      have e1 : (e.apply (.cols sheet sr er)).book = e.book := askCols_book ..
      exact ih (e.apply (.cols sheet sr er)) true hi (by simp) (by rw [e1]; exact hb) ho (by rw [e1]; exact hc)

theorem start_fresh (b : Book) : Engine.Fresh { book := b } := ⟨Nat.one_pos, Nat.one_pos, Nat.one_pos⟩

/-- C85.  As long as evaluation fills and empties no cell after somebody asked since the last edit, the used rows are those of the workbook as it is now. -/
theorem rows_current_partial (b : Book) (os : List Op) (hb : OkBook b) (ho : OkOps os) (hc : Calm false b os) (sheet sc ec : Nat) :
    RowsRight ((Engine.run { book := b } os).book sheet) sc ec ((Engine.run { book := b } os).askRows sheet sc ec).2 := by
  obtain ⟨h, h'⟩ := run_inv os { book := b } false (start_fresh b).inv (fun _ => start_fresh b) hb ho hc
  exact (askRows_right h h' sheet sc ec).2

/-- C85.  The same for the used columns. -/
theorem cols_current_partial (b : Book) (os : List Op) (hb : OkBook b) (ho : OkOps os) (hc : Calm false b os) (sheet sr er : Nat) :
    ColsRight ((Engine.run { book := b } os).book sheet) sr er ((Engine.run { book := b } os).askCols sheet sr er).2 := by
  obtain ⟨h, h'⟩ := run_inv os { book := b } false (start_fresh b).inv (fun _ => start_fresh b) hb ho hc
  exact (askCols_right h h' sheet sr er).2

theorem past_edit {e : Engine} (h : e.Past) (b : Book) : (e.apply (.edit b)).Fresh := ⟨Nat.lt_succ_of_le h.1, Nat.lt_succ_of_le h.2, Nat.lt_succ_of_le h.3⟩

theorem start_past (b : Book) : Engine.Past { book := b } := ⟨Nat.zero_le _, Nat.zero_le _, Nat.zero_le _⟩

/-- C85.  After an edit nothing of the past is left: whatever happened before, calm or not, the answers from the edit on are right for as long as evaluation is calm. -/
theorem after_edit (b b' : Book) (os os' : List Op) (hb : OkBook b') (ho : OkOps os') (hc : Calm false b' os') (sheet m n : Nat) :
    let e := Engine.run { book := b } (os ++ .edit b' :: os')
    RowsRight (e.book sheet) m n (e.askRows sheet m n).2 ∧ ColsRight (e.book sheet) m n (e.askCols sheet m n).2 := by
  have hp := past_edit ((start_past b).run os) b'
  have e1 : Engine.run { book := b } (os ++ .edit b' :: os') = ((Engine.run { book := b } os).apply (.edit b')).run os' := by
    simp [Engine.run]
  rw [e1]
  obtain ⟨h, h'⟩ := run_inv os' _ false hp.inv (fun _ => hp) hb ho hc
  exact ⟨(askRows_right h h' sheet m n).2, (askCols_right h h' sheet m n).2⟩

/-- Asking again without an edit in between gives the same answer, whatever evaluation did. -/
theorem rows_repeat (e : Engine) (sheet sc ec : Nat) (b : Book) : (((e.askRows sheet sc ec).1.apply (.write b)).askRows sheet sc ec).2 = (e.askRows sheet sc ec).2 := by
  have key : ∀ e' : Engine, ∀ x, e'.rowSpans.get (sheet, sc, ec) e'.snapshot = some x → (e'.askRows sheet sc ec).2 = x := by
    intro e' x h
    unfold Engine.askRows
    rw [h]
  apply key
  cases hx : e.rowSpans.get (sheet, sc, ec) e.snapshot with
  | some x => simp only [Engine.askRows, hx, Engine.apply]
  | none =>
    simp only [Engine.askRows, hx, Engine.apply]
    exact Cache.get_put ..

/-! ## A spill after the question -/

/-- The workbook with `=SEQUENCE(5)` in A1 and `=SUM(A:A)` in C1, before and after the spill. -/
def spillBefore : Book := fun _ => { ncols := 3, used := [], formulas := [(0, 0), (0, 2)], vertices := [(0, 0), (0, 2)] }
def spillAfter : Book := fun _ => { ncols := 3, used := [(0, 0), (1, 0), (2, 0), (3, 0), (4, 0)], formulas := [(0, 0), (0, 2)], vertices := [(0, 0), (0, 2)] }

/-- C85 fails in general.  The dependencies of C1 are asked for before evaluation (`virtual_deps.rs` 300-375), when column A has one row; after the spill the answer is still that row, until the next edit. -/
theorem spill_stale : ∃ (b : Book) (os : List Op), OkBook b ∧ OkOps os ∧ ¬RowsRight ((Engine.run { book := b } os).book 0) 1 1 ((Engine.run { book := b } os).askRows 0 1 1).2 := by
  refine ⟨spillBefore, [.rows 0 1 1, .write spillAfter], (by intro s p hp; cases hp), ⟨?_, trivial⟩, ?_⟩
  · intro s p hp
    simp only [spillAfter, List.mem_cons, List.not_mem_nil, or_false] at hp
    rcases hp with rfl | rfl | rfl | rfl | rfl <;> exact Nat.succ_pos 2
  · intro h
    have e1 : ((Engine.run { book := spillBefore } [.rows 0 1 1, .write spillAfter]).askRows 0 1 1).2 = some (1, 1) := by decide +kernel
    rw [e1] at h
    have hex : InCols ((spillAfter 0).used ++ (spillAfter 0).formulas) 1 1 4 := ⟨0, by decide, by decide, by decide⟩
    obtain ⟨m, M, h1, h2, _, _, hall⟩ := h.1 ⟨4, hex⟩
    have := (hall 4 hex).2
    omega

/-! ## Cases -/

example : OkBook spillAfter ∧ Calm false spillBefore [.write spillAfter, .rows 0 1 1, .write spillAfter, .cols 0 1 1] := by
  refine ⟨fun s p hp => ?_, by simp, fun _ s => ⟨rfl, rfl, rfl, rfl⟩, trivial⟩
  simp only [spillAfter, List.mem_cons, List.not_mem_nil, or_false] at hp
  rcases hp with rfl | rfl | rfl | rfl | rfl <;> exact Nat.succ_pos 2
example : ((Engine.run { book := spillBefore } [.write spillAfter]).askRows 0 1 1).2 = some (1, 5) := by decide +kernel
example : ((Engine.run { book := spillBefore } [.write spillAfter, .rows 0 1 1]).askRows 0 1 3).2 = some (1, 5) := by decide +kernel
example : ((Engine.run { book := spillBefore } [.rows 0 1 1, .write spillAfter, .edit spillAfter]).askRows 0 1 1).2 = some (1, 5) := by decide +kernel
example : ((Engine.run { book := spillBefore } []).askCols 0 1 1).2 = some (1, 3) := by decide +kernel
example : ((Engine.run { book := spillBefore } []).askRows 0 2 2).2 = none := by decide +kernel

end Verif.Snap
