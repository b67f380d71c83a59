/-
What a search of the index returns.
-/
import Verif.Plane.IndexProps

namespace Verif.Plane
namespace Index

/-- Every candidate is the number of an entry. -/
theorem collect_valid {x : Index} (h : x.Inv) {id : Nat} {q : Region} (hm : id ∈ x.collect q) :
    id < x.entries.length := by
  have at_ : ∀ {r : Region}, x.At id r → id < x.entries.length := by
    rintro r ⟨r0, h1, -⟩
    exact (List.getElem?_eq_some_iff.1 h1).1
  have v1 : ∀ {s p}, id ∈ x.pointsMatching s p → id < x.entries.length := fun hm => by
    obtain ⟨_, _, _, ha⟩ := (mem_pointsMatching h _ _ _).1 hm; exact at_ ha
  have v2 : ∀ {s r c}, id ∈ x.pointExact s r c → id < x.entries.length := fun hm =>
    at_ ((mem_pointExact h _ _ _ _).1 hm)
  have v3 : ∀ {s k lo hi}, id ∈ intervalExact x.colIntervals s k lo hi → id < x.entries.length := fun hm => by
    obtain ⟨_, _, ha, _⟩ := (mem_intervalExact h.colIntervals _ _ _ _ _).1 hm; exact at_ ha
  have v4 : ∀ {s k lo hi}, id ∈ intervalExact x.rowIntervals s k lo hi → id < x.entries.length := fun hm => by
    obtain ⟨_, _, ha, _⟩ := (mem_intervalExact h.rowIntervals _ _ _ _ _).1 hm; exact at_ ha
  have v5 : ∀ {s p lo hi}, id ∈ intervalsMatching x.colIntervals s p lo hi → id < x.entries.length := fun hm => by
    obtain ⟨_, _, _, _, ha, _⟩ := (mem_intervalsMatching h.colIntervals _ _ _ _ _).1 hm; exact at_ ha
  have v6 : ∀ {s p lo hi}, id ∈ intervalsMatching x.rowIntervals s p lo hi → id < x.entries.length := fun hm => by
    obtain ⟨_, _, _, _, ha, _⟩ := (mem_intervalsMatching h.rowIntervals _ _ _ _ _).1 hm; exact at_ ha
  have v7 : ∀ {s rb cb}, id ∈ x.rectKey s rb cb → id < x.entries.length := fun hm => by
    obtain ⟨_, _, _, _, ha, _⟩ := (h.rectBuckets _ _ _ _).1 ((mem_rectKey h _ _ _ _).1 hm); exact at_ ha
  have v8 : ∀ {s a b c}, id ∈ x.rectRowSpanPointCol s a b c → id < x.entries.length := fun hm => by
    obtain ⟨_, _, hm⟩ := List.mem_flatMap.1 hm; exact v7 hm
  have v9 : ∀ {s a b c}, id ∈ x.rectPointRowColSpan s a b c → id < x.entries.length := fun hm => by
    obtain ⟨_, _, hm⟩ := List.mem_flatMap.1 hm; exact v7 hm
  have v10 : ∀ {s p}, id ∈ x.rectMatching s p → id < x.entries.length := fun hm => by
    obtain ⟨_, _, _, hm⟩ := (mem_rectMatching h _ _ _).1 hm
    obtain ⟨_, _, _, _, ha, _⟩ := (h.rectBuckets _ _ _ _).1 hm; exact at_ ha
  have v11 : ∀ {s e}, id ∈ fromThrough x.rowsFrom s e → id < x.entries.length := fun hm => by
    obtain ⟨_, _, hm⟩ := (mem_fromThrough _ _ _ _).1 hm; exact at_ ((h.rowsFrom _ _ _).1 hm)
  have v12 : ∀ {s e}, id ∈ fromThrough x.colsFrom s e → id < x.entries.length := fun hm => by
    obtain ⟨_, _, hm⟩ := (mem_fromThrough _ _ _ _).1 hm; exact at_ ((h.colsFrom _ _ _).1 hm)
  have v13 : ∀ {s k}, id ∈ wholeExact x.wholeRows s k → id < x.entries.length := fun hm =>
    at_ ((h.wholeRows _ _ _).1 ((mem_wholeExact _ _ _ _).1 hm))
  have v14 : ∀ {s k}, id ∈ wholeExact x.wholeCols s k → id < x.entries.length := fun hm =>
    at_ ((h.wholeCols _ _ _).1 ((mem_wholeExact _ _ _ _).1 hm))
  have v15 : ∀ {s p}, id ∈ wholeMatching x.wholeRows s p → id < x.entries.length := fun hm => by
    obtain ⟨_, _, hm⟩ := (mem_wholeMatching _ _ _ _).1 hm; exact at_ ((h.wholeRows _ _ _).1 hm)
  have v16 : ∀ {s p}, id ∈ wholeMatching x.wholeCols s p → id < x.entries.length := fun hm => by
    obtain ⟨_, _, hm⟩ := (mem_wholeMatching _ _ _ _).1 hm; exact at_ ((h.wholeCols _ _ _).1 hm)
  have v17 : ∀ {s}, id ∈ x.wholeSheet s → id < x.entries.length := fun hm => by
    obtain ⟨_, _, ha, _⟩ := (h.wholeSheets _ _).1 ((mem_wholeSheet _ _).1 hm); exact at_ ha
  have v18 : ∀ {s}, id ∈ x.sheetEntries s → id < x.entries.length := fun hm =>
    List.mem_range.1 (List.mem_filter.1 hm).1
  have v19 : ∀ {l : List (Nat × Nat × Nat)}, (id ∈ l.flatMap fun b => x.rectKey b.1 b.2.1 b.2.2) →
      id < x.entries.length := fun hm => by
    obtain ⟨_, _, hm⟩ := List.mem_flatMap.1 hm; exact v7 hm
  unfold collect at hm
  split at hm <;> (try exact v18 hm) <;> simp only [List.mem_append, or_assoc] at hm <;>
    rcases hm with hm | hm | hm | hm | hm | hm | hm | hm | hm <;>
    first
    | exact v1 hm | exact v2 hm | exact v3 hm | exact v4 hm | exact v5 hm | exact v6 hm | exact v7 hm
    | exact v8 hm | exact v9 hm | exact v10 hm | exact v11 hm | exact v12 hm | exact v13 hm | exact v14 hm
    | exact v15 hm | exact v16 hm | exact v17 hm | exact v19 hm

theorem keep_spec (x : Index) (q : Region) : ∀ ids : List Nat, (∀ id ∈ ids, id < x.entries.length) →
    ∃ l, x.keep q ids = some l ∧ l.Sublist ids ∧
      ∀ id, id ∈ l ↔ id ∈ ids ∧ ∃ r, x.entries[id]? = some r ∧ r.intersects q = true := by
  intro ids
  induction ids with
  | nil => intro _; exact ⟨[], rfl, List.Sublist.refl _, by simp⟩
  | cons a ids ih =>
    intro hv
    obtain ⟨l, h1, h2, h3⟩ := ih fun id hid => hv id (List.mem_cons_of_mem _ hid)
    obtain ⟨ra, ha⟩ : ∃ ra, x.entries[a]? = some ra := ⟨_, List.getElem?_eq_getElem (hv a List.mem_cons_self)⟩
    unfold keep
    rw [ha, h1]
    dsimp only
    by_cases hi : ra.intersects q = true
    · refine ⟨a :: l, by rw [if_pos hi], h2.cons_cons a, fun id => ?_⟩
      simp only [List.mem_cons, h3]
      constructor
      · rintro (rfl | ⟨h4, h5⟩)
        · exact ⟨Or.inl rfl, _, ha, hi⟩
        · exact ⟨Or.inr h4, h5⟩
      · rintro ⟨rfl | h4, h5⟩
        · exact Or.inl rfl
        · exact Or.inr ⟨h4, h5⟩
    · refine ⟨l, by rw [if_neg hi], h2.cons a, fun id => ?_⟩
      simp only [List.mem_cons, h3]
      constructor
      · rintro ⟨h4, h5⟩
        exact ⟨Or.inr h4, h5⟩
      · rintro ⟨rfl | h4, r, h5, h6⟩
        · rw [ha] at h5
          rw [Option.some.inj h5] at hi
          exact absurd h6 hi
        · exact ⟨h4, r, h5, h6⟩

theorem nodup_eraseDups [BEq α] [LawfulBEq α] : ∀ (n : Nat) (l : List α), l.length ≤ n → l.eraseDups.Nodup := by
  intro n
  induction n with
  | zero => intro l hl; rw [List.eq_nil_of_length_eq_zero (l := l) (by omega)]; simp
  | succ n ih =>
    intro l hl
    cases l with
    | nil => simp
    | cons a l =>
      rw [List.eraseDups_cons, List.nodup_cons]
      refine ⟨by simp, ih _ ?_⟩
      have := List.length_filter_le (fun b => !b == a) l
      simp only [List.length_cons] at hl
      omega

/-- A search succeeds, and returns each entry that has a cell in common with the query exactly once, and nothing
else: whatever regions were inserted and in whatever order. -/
theorem query_exact (br bc : Nat) (rs : List Region) (hrs : ∀ r ∈ rs, r.Ok) (q : Region) (hq : q.Ok) :
    ∃ l, (build br bc rs).query q = some l ∧ l.Nodup ∧
      ∀ id, id ∈ l ↔ ∃ r, rs[id]? = some r ∧ ∃ k : Key, k.Fits ∧ r.Has k ∧ q.Has k := by
  have h := inv_build br bc rs hrs
  have he := build_entries br bc rs
  obtain ⟨l, h1, h2, h3⟩ := keep_spec (build br bc rs) q ((build br bc rs).collect q.normalized).eraseDups
    fun id hid => collect_valid h (List.mem_eraseDups.1 hid)
  refine ⟨l, h1, h2.nodup (nodup_eraseDups _ _ (Nat.le_refl _)), fun id => ?_⟩
  rw [h3, he, List.mem_eraseDups]
  constructor
  · rintro ⟨-, r, h4, h5⟩
    have hr := hrs r (List.mem_of_getElem? h4)
    exact ⟨r, h4, (Region.intersects_iff hr hq).1 h5⟩
  · rintro ⟨r, h4, k, h5, h6, h7⟩
    have hr := hrs r (List.mem_of_getElem? h4)
    refine ⟨?_, r, h4, (Region.intersects_iff hr hq).2 ⟨k, h5, h6, h7⟩⟩
    refine collect_complete h (r := r.normalized) ⟨r, by rw [he]; exact h4, rfl⟩ (Region.normalized_ok hr)
      (Region.normalized_ok hq) ?_
    rw [Region.intersects_iff (Region.normalized_ok hr) (Region.normalized_ok hq)]
    exact ⟨k, h5, (Region.normalized_has _ _).2 h6, (Region.normalized_has _ _).2 h7⟩

/-- Rectangles, a column, a row, a cell and open regions, searched by a rectangle. -/
example : ((build 64 16 [⟨0, .span 2 200, .span 1 20⟩, ⟨0, .all, .point 4⟩, ⟨0, .point 150, .all⟩,
    ⟨0, .point 3, .point 9⟩, ⟨1, .all, .all⟩, ⟨0, .from_ 140, .to 2⟩, ⟨0, .from_ 161, .all⟩]).query
    ⟨0, .span 130 160, .span 0 5⟩).map (fun l => (List.range 7).filter (l.contains ·)) = some [0, 1, 2, 5] := by
  decide +kernel

end Index
end Verif.Plane
