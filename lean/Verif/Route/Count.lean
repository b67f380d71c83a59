import Verif.Route.Tree
import Verif.Evid.Partition

/-!
# The checks on a shared formula taken in parts

What `validate` and `reconciles_compact_geometry` establish, said with the cells of the
declared rectangle.
-/

namespace Verif.Route

open Verif.Evid

instance (f : Family) (c : Coord) : Decidable (Belongs f c) := by unfold Belongs; infer_instance

/-- The cells of the declared rectangle that belong to the family. -/
def owned (f : Family) : Finset (ℕ × ℕ) := (cells f.declared).filter fun q => Belongs f ⟨q.1, q.2⟩

/-- The cells of the declared rectangle nobody claims: neither the family nor an ordinary formula. -/
def unclaimed (f : Family) : Finset (ℕ × ℕ) :=
  (cells f.declared).filter fun q => ¬Belongs f ⟨q.1, q.2⟩ ∧ ⟨⟨q.1, q.2⟩, .ordinary⟩ ∉ f.legacy

/-- A part lies within the declared rectangle. -/
def Fits (declared : Rect) (d : Domain) : Prop :=
  valid (rectOf d) ∧ contains declared (rectOf d).start ∧ contains declared (rectOf d).stop

/-- The parts and the cells listed alone are within the declared rectangle, no cell has two owners, and the numbers
given are those of the cells. -/
structure Exact (f : Family) : Prop where
  fits : ∀ d ∈ f.fragments, Fits f.declared d
  apart : (f.fragments.map rectOf).Pairwise fun a b => ∀ c, ¬(contains a c ∧ contains b c)
  inside : ∀ x ∈ f.legacy, contains f.declared x.coord
  alone : ∀ x ∈ f.legacy, ∀ d ∈ f.fragments, ¬contains (rectOf d) x.coord
  surviving : f.surviving = (owned f).card
  shared : f.sharedMembers = (owned f).card
  ordinary : f.ordinaryExceptions = ordinaryCount f.legacy
  holes : f.holes = (unclaimed f).card

theorem area_fits {dcl : Rect} {d : Domain} (ha : area dcl ≠ none) (h : Fits dcl d) : ∃ a, area (rectOf d) = some a := by
  obtain ⟨b, hb⟩ := Option.ne_none_iff_exists'.mp ha
  have h1 := area_span hb
  obtain ⟨⟨h2, h3⟩, h4, h5⟩ := h
  unfold contains at h4 h5
  unfold area span
  rw [if_neg (by omega), if_neg (by omega), if_neg (by omega), if_neg (by omega)]
  exact ⟨_, rfl⟩

theorem compactLoop_iff (dcl : Rect) (ha : area dcl ≠ none) (ds : List Domain) (rects : List Rect) (n : Nat) (R : List Rect) (t : Nat)
    (hn : n < 2 ^ 64) : compactLoop dcl ds rects n = some (R, t) ↔
      (∀ d ∈ ds, Fits dcl d) ∧ ((ds.map rectOf).Pairwise fun a b => ¬overlap a b) ∧ (∀ p ∈ rects, ∀ d ∈ ds, ¬overlap p (rectOf d)) ∧
      R = rects ++ ds.map rectOf ∧ t = n + ((ds.map rectOf).map fun r => (area r).getD 0).sum ∧ t < 2 ^ 64 := by
  induction ds generalizing rects n with
  | nil =>
    simp only [compactLoop, Option.some.injEq, Prod.mk.injEq]
    constructor
    · rintro ⟨rfl, rfl⟩
      refine ⟨by simp, by simp, by simp, by simp, by simp, hn⟩
    · rintro ⟨-, -, -, h1, h2, -⟩
      exact ⟨by simpa using h1.symm, by simpa using h2.symm⟩
  | cons d ds ih =>
    unfold compactLoop
    simp only
    by_cases hf : Fits dcl d ∧ ∀ p ∈ rects, ¬overlap p (rectOf d)
    · obtain ⟨hf, hp⟩ := hf
      rw [if_neg]
      · obtain ⟨a, hra⟩ := area_fits ha hf
        rw [hra]
        simp only [addU64]
        by_cases hlt : n + a < 2 ^ 64
        · simp only [if_pos hlt]
          rw [ih (rects ++ [rectOf d]) (n + a) hlt]
          simp only [List.mem_cons, List.map_cons, List.pairwise_cons, List.mem_append, List.not_mem_nil, or_false, List.sum_cons,
            hra, Option.getD_some, List.append_assoc, List.cons_append, List.nil_append, List.mem_map]
          constructor
          · rintro ⟨h1, h2, h3, h4, h5, h6⟩
            refine ⟨?_, ⟨?_, h2⟩, ?_, h4, by omega, h6⟩
            · rintro e (rfl | he)
              · exact hf
              · exact h1 e he
            · rintro r ⟨e, he, rfl⟩
              exact h3 _ (.inr rfl) e he
            · rintro p hpm e (rfl | he)
              · exact hp p hpm
              · exact h3 p (.inl hpm) e he
          · rintro ⟨h1, ⟨h2, h3⟩, h4, h5, h6, h7⟩
            refine ⟨fun e he => h1 e (.inr he), h3, ?_, h5, by omega, h7⟩
            rintro p (hpm | rfl) e he
            · exact h4 p hpm e (.inr he)
            · exact h2 _ ⟨e, he, rfl⟩
        · simp only [if_neg hlt, List.map_cons, List.sum_cons, hra, Option.getD_some]
          constructor
          · intro h; cases h
          · rintro ⟨-, -, -, -, h1, h2⟩
            omega
      · rintro (h | h | h | h | h)
        · exact absurd hf.1.1 (by omega)
        · exact absurd hf.1.2 (by omega)
        · exact h hf.2.1
        · exact h hf.2.2
        · rw [List.any_eq_true] at h
          obtain ⟨p, hpm, ho⟩ := h
          exact hp p hpm (by simpa using ho)
    · rw [if_pos]
      · constructor
        · intro h; cases h
        · rintro ⟨h1, -, h2, -⟩
          exact absurd ⟨h1 d (by simp), fun p hp => h2 p hp d (by simp)⟩ hf
      · by_contra hc
        simp only [not_or, not_not, Nat.not_lt] at hc
        obtain ⟨c1, c2, c3, c4, c5⟩ := hc
        refine hf ⟨⟨⟨c1, c2⟩, c3, c4⟩, ?_⟩
        intro p hp ho
        exact c5 (List.any_eq_true.mpr ⟨p, hp, by simpa using ho⟩)

/-! ### Counting -/

theorem member_card (ms : List Member) (k : Kind) (hn : (ms.map Member.coord).Nodup) :
    (((ms.filter fun m => m.kind = k).map fun m => (m.coord.row, m.coord.col)).toFinset).card = (ms.filter fun m => m.kind = k).length := by
  rw [List.toFinset_card_of_nodup, List.length_map]
  have h1 : ((ms.filter fun m => m.kind = k).map Member.coord).Nodup := hn.sublist (List.filter_sublist.map _)
  have h2 : (fun m : Member => (m.coord.row, m.coord.col)) = (fun c : Coord => (c.row, c.col)) ∘ Member.coord := rfl
  rw [h2, ← List.map_map]
  refine List.Nodup.map ?_ h1
  rintro ⟨a, b⟩ ⟨c, d⟩ h
  simpa using h

theorem mem_member_set (ms : List Member) (k : Kind) (q : ℕ × ℕ) :
    q ∈ (((ms.filter fun m => m.kind = k).map fun m => (m.coord.row, m.coord.col)).toFinset) ↔ ⟨⟨q.1, q.2⟩, k⟩ ∈ ms := by
  simp only [List.mem_toFinset, List.mem_map, List.mem_filter, decide_eq_true_eq]
  constructor
  · rintro ⟨⟨⟨r, c⟩, k'⟩, ⟨hm, rfl⟩, rfl⟩
    exact hm
  · intro h
    exact ⟨_, ⟨h, rfl⟩, rfl⟩

/-- The cells of the parts, those listed alone, the ordinary ones and the unclaimed ones make up the rectangle. -/
theorem counts (f : Family) (a : Nat) (ha : area f.declared = some a) (hn : (f.legacy.map Member.coord).Nodup)
    (fits : ∀ d ∈ f.fragments, Fits f.declared d)
    (apart : (f.fragments.map rectOf).Pairwise fun a b => ∀ c, ¬(contains a c ∧ contains b c))
    (inside : ∀ x ∈ f.legacy, contains f.declared x.coord)
    (alone : ∀ x ∈ f.legacy, ∀ d ∈ f.fragments, ¬contains (rectOf d) x.coord) :
    (owned f).card = ((f.fragments.map rectOf).map fun r => (area r).getD 0).sum + sharedCount f.legacy ∧
    (owned f).card + ordinaryCount f.legacy + (unclaimed f).card = a := by
  classical
  let U : Finset (ℕ × ℕ) := (cells f.declared).filter fun q => ∃ d ∈ f.fragments, contains (rectOf d) ⟨q.1, q.2⟩
  let S : Finset (ℕ × ℕ) := ((f.legacy.filter fun m => m.kind = .shared).map fun m => (m.coord.row, m.coord.col)).toFinset
  let O : Finset (ℕ × ℕ) := ((f.legacy.filter fun m => m.kind = .ordinary).map fun m => (m.coord.row, m.coord.col)).toFinset
  have hS : S.card = sharedCount f.legacy := member_card _ _ hn
  have hO : O.card = ordinaryCount f.legacy := member_card _ _ hn
  have hU : ((f.fragments.map rectOf).map fun r => (area r).getD 0).sum = U.card := by
    refine sum_areas _ ?_ apart U ?_
    · intro r hr
      obtain ⟨d, hd, rfl⟩ := List.mem_map.mp hr
      obtain ⟨b, hb⟩ := area_fits (by rw [ha]; simp) (fits d hd)
      rw [hb]; simp
    · intro q
      rw [Finset.mem_filter, mem_cells]
      simp only [List.mem_map, exists_exists_and_eq_and]
      constructor
      · exact fun h => h.2
      · rintro ⟨d, hd, hc⟩
        exact ⟨rect_subset (fits d hd).2.1 (fits d hd).2.2 hc, d, hd, hc⟩
  have mS : ∀ q, q ∈ S ↔ ⟨⟨q.1, q.2⟩, .shared⟩ ∈ f.legacy := mem_member_set f.legacy .shared
  have mO : ∀ q, q ∈ O ↔ ⟨⟨q.1, q.2⟩, .ordinary⟩ ∈ f.legacy := mem_member_set f.legacy .ordinary
  have hown : owned f = U ∪ S := by
    ext q
    unfold owned
    rw [Finset.mem_filter, Finset.mem_union, Finset.mem_filter, mS, mem_cells]
    constructor
    · rintro ⟨h1, h2 | h2⟩
      · exact .inl ⟨h1, h2⟩
      · exact .inr h2
    · rintro (⟨h1, h2⟩ | h2)
      · exact ⟨h1, .inl h2⟩
      · exact ⟨inside _ h2, .inr h2⟩
  have hUS : Disjoint U S := by
    rw [Finset.disjoint_left]
    intro q hq hs
    rw [mS] at hs
    obtain ⟨d, hd, hc⟩ := (Finset.mem_filter.mp hq).2
    exact alone _ hs d hd hc
  have hOwnO : Disjoint (owned f) O := by
    rw [Finset.disjoint_left]
    intro q hq ho
    rw [mO] at ho
    rcases (Finset.mem_filter.mp hq).2 with ⟨d, hd, hc⟩ | hs
    · exact alone _ ho d hd hc
    · have := List.inj_on_of_nodup_map hn hs ho rfl
      simp at this
  have hall : cells f.declared = (owned f ∪ O) ∪ unclaimed f := by
    ext q
    unfold owned unclaimed
    rw [Finset.mem_union, Finset.mem_union, Finset.mem_filter, Finset.mem_filter, mO]
    constructor
    · intro h
      by_cases hb : Belongs f ⟨q.1, q.2⟩
      · exact .inl (.inl ⟨h, hb⟩)
      · by_cases ho : ⟨⟨q.1, q.2⟩, .ordinary⟩ ∈ f.legacy
        · exact .inl (.inr ho)
        · exact .inr ⟨h, hb, ho⟩
    · rintro ((h | h) | h)
      · exact h.1
      · exact (mem_cells _ _).mpr (inside _ h)
      · exact h.1
  have hrest : Disjoint (owned f ∪ O) (unclaimed f) := by
    rw [Finset.disjoint_left]
    intro q hq hu
    unfold unclaimed at hu
    have hu := (Finset.mem_filter.mp hu).2
    rcases Finset.mem_union.mp hq with h | h
    · exact hu.1 (Finset.mem_filter.mp h).2
    · exact hu.2 ((mO q).mp h)
  constructor
  · rw [hown, Finset.card_union_of_disjoint hUS, hS, hU]
  · rw [← card_cells ha, hall, Finset.card_union_of_disjoint hrest, Finset.card_union_of_disjoint hOwnO, hO]

theorem overlap_pairwise {dcl : Rect} {ds : List Domain} (h : ∀ d ∈ ds, Fits dcl d) :
    ((ds.map rectOf).Pairwise fun a b => ¬overlap a b) ↔ (ds.map rectOf).Pairwise fun a b => ∀ c, ¬(contains a c ∧ contains b c) := by
  refine List.Pairwise.iff_of_mem fun {a b} ha hb => ?_
  obtain ⟨d, hd, rfl⟩ := List.mem_map.mp ha
  obtain ⟨e, he, rfl⟩ := List.mem_map.mp hb
  rw [overlap_iff (h d hd).1 (h e he).1, not_exists]

theorem area_small {r : Rect} {a : Nat} (h : area r = some a) : a < 2 ^ 64 := by
  obtain ⟨-, h1⟩ := area_valid h
  obtain ⟨h2, h3⟩ := area_span h
  rw [h1]
  calc _ < 2 ^ 32 * 2 ^ 32 := Nat.mul_lt_mul'' h2 h3
    _ = 2 ^ 64 := by decide

theorem sum_small (f : Family) (a : Nat) (ha : area f.declared = some a) (hn : (f.legacy.map Member.coord).Nodup) (h : Exact f) :
    ((f.fragments.map rectOf).map fun r => (area r).getD 0).sum + sharedCount f.legacy + ordinaryCount f.legacy + f.holes = a := by
  obtain ⟨h1, h2⟩ := counts f a ha hn h.fits h.apart h.inside h.alone
  have := h.holes
  omega

/-- C108. The check made before the parts are installed holds just when the parts and the cells listed alone share no
cell, lie within the declared rectangle, and the numbers given count the cells of the family, the ordinary formulas
and the cells nobody claims. -/
theorem compact_iff (f : Family) (hn : (f.legacy.map Member.coord).Nodup) (ha : area f.declared ≠ none) : compact f = true ↔ Exact f := by
  obtain ⟨a, ha'⟩ := Option.ne_none_iff_exists'.mp ha
  have hsmall := area_small ha'
  constructor
  · intro h
    unfold compact at h
    cases hc : compactLoop f.declared f.fragments [] 0 with
    | none => rw [hc] at h; cases h
    | some x =>
      obtain ⟨R, t⟩ := x
      rw [hc] at h
      obtain ⟨h1, h2, -, h4, h5, h6⟩ := (compactLoop_iff _ ha _ _ _ _ _ (by decide)).mp hc
      simp only at h
      split at h
      · cases h
      next hm =>
        have inside : ∀ x ∈ f.legacy, contains f.declared x.coord := by
          intro x hx
          by_contra hc
          exact hm (List.any_eq_true.mpr ⟨x, hx, by simp [hc]⟩)
        have alone : ∀ x ∈ f.legacy, ∀ d ∈ f.fragments, ¬contains (rectOf d) x.coord := by
          intro x hx d hd hc
          refine hm (List.any_eq_true.mpr ⟨x, hx, ?_⟩)
          rw [decide_eq_true_eq]
          refine .inr (List.any_eq_true.mpr ⟨rectOf d, ?_, by simpa using hc⟩)
          rw [h4]
          exact List.mem_map.mpr ⟨d, hd, rfl⟩
        have apart := (overlap_pairwise h1).mp h2
        obtain ⟨k1, k2⟩ := counts f a ha' hn h1 apart inside alone
        unfold addU64 at h
        split at h
        next => cases h
        next s hs =>
          split at hs
          next hlt =>
            obtain rfl := Option.some.inj hs
            split at h
            next => cases h
            next u hu =>
              simp only [Bool.and_eq_true, decide_eq_true_eq] at h
              obtain ⟨⟨⟨e1, e2⟩, e3⟩, e4⟩ := h
              have hu' : u = t + sharedCount f.legacy + ordinaryCount f.legacy + f.holes := by
                split at hu
                · simp only [Option.bind_some] at hu
                  split at hu
                  · exact (Option.some.inj hu).symm
                  · cases hu
                · cases hu
              rw [ha'] at e1
              have := Option.some.inj e1
              exact ⟨h1, apart, inside, alone, by omega, by omega, e4, by omega⟩
          next => cases hs
  · intro h
    have hs := sum_small f a ha' hn h
    obtain ⟨k1, k2⟩ := counts f a ha' hn h.fits h.apart h.inside h.alone
    have e1 := h.surviving
    have e2 := h.shared
    have e3 := h.ordinary
    unfold compact
    rw [(compactLoop_iff _ ha _ _ _ _ _ (by decide)).mpr
      ⟨h.fits, (overlap_pairwise h.fits).mpr h.apart, by simp, rfl, rfl, by omega⟩]
    simp only [List.nil_append, Nat.zero_add]
    rw [if_neg]
    · unfold addU64
      rw [if_pos (by omega)]
      simp only
      rw [if_pos (by omega), Option.bind_some, if_pos (by omega)]
      simp only [ha', Bool.and_eq_true, decide_eq_true_eq, Option.some.injEq]
      exact ⟨⟨⟨by omega, by omega⟩, by omega⟩, e3⟩
    · intro hany
      obtain ⟨x, hx, hc⟩ := List.any_eq_true.mp hany
      rw [decide_eq_true_eq] at hc
      rcases hc with hc | hc
      · exact hc (h.inside x hx)
      · obtain ⟨r, hr, hrc⟩ := List.any_eq_true.mp hc
        obtain ⟨d, hd, rfl⟩ := List.mem_map.mp hr
        exact h.alone x hx d hd (by simpa using hrc)

end Verif.Route
