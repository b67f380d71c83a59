import Verif.Route.Plan

/-!
# From the records of a sheet to the plan

What the loader hands over (`workbook/src/backends/calamine.rs` 655-706) for a shared
formula taken in parts is exact, so that every record of the family has one place to go.
-/

namespace Verif.Route

open Verif.Evid

instance : Std.Total (fun a b : Member => a.coord.le b.coord) := ⟨fun a b => by unfold Coord.le; omega⟩

instance : IsTrans Member (fun a b : Member => a.coord.le b.coord) := ⟨fun a b c => by unfold Coord.le; omega⟩

theorem sorted_increasing (l : List Member) (h : l.Pairwise fun a b => a.coord.le b.coord) :
    ((l.zip l.tail).any fun p => decide (p.1.coord = p.2.coord)) = false ↔ increasing (l.map Member.coord) = true := by
  induction l with
  | nil => simp [increasing]
  | cons a l ih =>
    cases l with
    | nil => simp [increasing]
    | cons b l =>
      rw [List.pairwise_cons] at h
      have hab := h.1 b (by simp)
      have := ih h.2
      simp only [List.tail_cons, List.zip_cons_cons, List.any_cons, Bool.or_eq_false_iff, decide_eq_false_iff_not, List.map_cons, increasing, Bool.and_eq_true, decide_eq_true_eq] at this ⊢
      rw [this]
      refine and_congr_left fun _ => ?_
      obtain ⟨⟨r, c⟩, k⟩ := a
      obtain ⟨⟨r', c'⟩, k'⟩ := b
      unfold Coord.le at hab
      unfold Coord.lt
      simp only [Coord.mk.injEq] at *
      omega

/-- C108. The list of cells kept alone: accepted just when it has at most 4096 cells and none twice; the cells stay the
same and are put in order. -/
theorem tryNew_spec (ms : List Member) :
    ((∃ s, tryNew ms = .ok s) ↔ ms.length ≤ 4096 ∧ (ms.map Member.coord).Nodup) ∧
    ∀ s, tryNew ms = .ok s → s.Perm ms ∧ increasing (s.map Member.coord) = true := by
  have hperm := List.perm_insertionSort (fun a b : Member => a.coord.le b.coord) ms
  have hsort := List.pairwise_insertionSort (fun a b : Member => a.coord.le b.coord) ms
  have hiff := sorted_increasing _ hsort
  unfold tryNew
  by_cases h1 : 4096 < ms.length
  · rw [if_pos h1]
    exact ⟨⟨fun ⟨_, h⟩ => (by cases h), fun h => absurd h.1 (by omega)⟩, fun s h => (by cases h)⟩
  rw [if_neg h1]
  simp only
  split
  next h2 =>
    refine ⟨⟨fun ⟨_, h⟩ => (by cases h), fun h => ?_⟩, fun s h => (by cases h)⟩
    exfalso
    have hn : ((ms.insertionSort fun a b : Member => a.coord.le b.coord).map Member.coord).Nodup := (hperm.map _).nodup_iff.mpr h.2
    have : increasing ((ms.insertionSort fun a b : Member => a.coord.le b.coord).map Member.coord) = true := by
      have hs : ((ms.insertionSort fun a b : Member => a.coord.le b.coord).map Member.coord).Pairwise Coord.lt := by
        have h3 : ((ms.insertionSort fun a b : Member => a.coord.le b.coord).map Member.coord).Pairwise Coord.le := List.pairwise_map.mpr hsort
        refine (h3.and hn).imp ?_
        rintro ⟨r, c⟩ ⟨r', c'⟩ ⟨hle, hne⟩
        unfold Coord.le at hle
        unfold Coord.lt
        simp only [ne_eq, Coord.mk.injEq] at *
        omega
      generalize ((ms.insertionSort fun a b : Member => a.coord.le b.coord).map Member.coord) = l at hs
      induction l with
      | nil => rfl
      | cons a l ih =>
        cases l with
        | nil => rfl
        | cons b l =>
          rw [List.pairwise_cons] at hs
          unfold increasing
          rw [Bool.and_eq_true, decide_eq_true_eq]
          exact ⟨hs.1 b (by simp), ih hs.2⟩
    rw [hiff.mpr this] at h2
    cases h2
  next h2 =>
    have hinc := hiff.mp (by simpa using h2)
    refine ⟨⟨fun _ => ⟨by omega, ?_⟩, fun _ => ⟨_, rfl⟩⟩, ?_⟩
    · exact (hperm.map _).nodup_iff.mp (increasing_nodup hinc)
    · intro s hs
      obtain rfl := Except.ok.inj hs
      exact ⟨hperm, hinc⟩

/-- Whether an excluded cell holds an ordinary formula. -/
def isOrdinary : Exclusion → Bool
  | .ordinary _ => true
  | .hole _ => false

/-- The members handed over: calamine.rs 659-691. -/
def legacyOf (p : Fragmented) : List Member :=
  p.fallback.map (fun c => ⟨c, .shared⟩) ++ (p.exclusions.filter isOrdinary).map fun x => ⟨x.coord, .ordinary⟩

/-- What is handed over for a family taken in parts: calamine.rs 655-706. The counts do not reach the width of `u64`. -/
def handOver (p : Fragmented) : Except String Family :=
  match tryNew (legacyOf p) with
  | .error e => .error e
  | .ok legacy => .ok
    { id := p.family, origin := p.anchor, declared := p.declared, surviving := p.members, fragments := p.fragments, legacy := legacy,
      sharedMembers := p.members, ordinaryExceptions := (p.exclusions.filter isOrdinary).length,
      holes := (p.exclusions.filter fun x => !isOrdinary x).length }

/-- Every family taken in parts was cut by `partition`. -/
theorem frag_partition (cfg : Config) (fams : ℕ → Fam) (fs : List ℕ) (bytes : ℕ) (clean : List Clean) (frag : List Fragmented)
    (h : collectFamilies cfg fams fs bytes = some (clean, frag)) (p : Fragmented) (hp : p ∈ frag) :
    partition p.declared p.exclusions p.members cfg.maxFragments = .ok (p.fragments, p.fallback) := by
  induction fs generalizing bytes clean frag with
  | nil =>
    simp only [collectFamilies, Option.some.injEq, Prod.mk.injEq] at h
    rw [← h.2] at hp
    cases hp
  | cons f fs ih =>
    unfold collectFamilies at h
    cases hone : finishOne cfg f (fams f) bytes with
    | none => rw [hone] at h; cases h
    | some x =>
      obtain ⟨c, g, b⟩ := x
      rw [hone] at h
      simp only at h
      obtain ⟨⟨cl, fr⟩, h1, h2⟩ := Option.map_eq_some_iff.mp h
      simp only [Prod.mk.injEq] at h2
      rw [← h2.2] at hp
      rcases List.mem_append.mp hp with hp | hp
      · have hg : g = some p := by simpa using hp
        subst hg
        unfold finishOne at hone
        split at hone
        · split at hone
          · split at hone
            · simp at hone
            · split at hone
              · simp at hone
              next hpart =>
                simp only at hone
                split at hone
                · simp at hone
                · simp only [Option.some.injEq, Prod.mk.injEq] at hone
                  obtain ⟨-, rfl, -⟩ := hone
                  exact hpart
          · cases hone
        · simp at hone
      · exact ih b cl fr h1 hp

theorem finish_partition (cfg : Config) (events : List (Coord × Record)) (clean : List Clean) (frag : List Fragmented)
    (h : (observeAll cfg events).finish cfg = some (clean, frag)) (p : Fragmented) (hp : p ∈ frag) :
    partition p.declared p.exclusions p.members cfg.maxFragments = .ok (p.fragments, p.fallback) := by
  unfold State.finish at h
  split at h
  · simp only [Option.some.injEq, Prod.mk.injEq] at h
    rw [← h.2] at hp
    cases hp
  · simp only at h
    split at h
    · simp only [Option.some.injEq, Prod.mk.injEq] at h
      rw [← h.2] at hp
      cases hp
    · exact frag_partition _ _ _ _ _ _ h p hp

theorem partition_counts (d : Rect) (xs : List Exclusion) (members maxF : ℕ) (o : List Domain × List Coord) (h : partition d xs members maxF = .ok o) :
    area d = some (members + xs.length) ∧ increasing (xs.map Exclusion.coord) = true := by
  unfold partition at h
  cases ha : area d with
  | none => simp [ha] at h
  | some a =>
    simp only [ha] at h
    split at h
    · simp at h
    next hc =>
      split at h
      · simp at h
      next hi =>
        simp only [Bool.or_eq_true, not_or, Bool.not_eq_true', Bool.not_eq_false] at hi
        rw [not_not] at hc
        exact ⟨by rw [hc], hi.1⟩

theorem has_rect (d : Domain) (c : Coord) : d.has c ↔ contains (rectOf d) c := by
  cases d <;> simp only [Domain.has, rectOf, contains] <;> omega

theorem rect_of_cell {r : Rect} {c : Coord} (h : contains r c) : valid r ∧ contains r r.start ∧ contains r r.stop := by
  unfold contains valid at *
  omega

theorem exclusion_split (xs : List Exclusion) : (xs.filter isOrdinary).length + (xs.filter fun x => !isOrdinary x).length = xs.length := by
  induction xs with
  | nil => rfl
  | cons x xs ih => cases h : isOrdinary x <;> simp [h] <;> omega

/-- C108. What is handed over for a shared formula taken in parts is exact, and the cells that belong to it are those
whose record belongs to the shared formula. -/
theorem handOver_exact (cfg : Config) (events : List (Coord × Record)) (clean : List Clean) (frag : List Fragmented)
    (h : (observeAll cfg events).finish cfg = some (clean, frag)) (p : Fragmented) (hp : p ∈ frag) (hw : p.declared.stop.row < 2 ^ 32)
    (f : Family) (hf : handOver p = .ok f) :
    f.id = p.family ∧ f.declared = p.declared ∧ f.fragments = p.fragments ∧ f.origin = p.declared.start ∧
    (∀ c, Belongs f c ↔ Owns events f.id c) ∧ (∀ c, ⟨c, .ordinary⟩ ∈ f.legacy → (c, Record.ordinary) ∈ events) ∧
    increasing (f.legacy.map Member.coord) = true ∧ Exact f := by
  obtain ⟨s1, s2, s3, s4, s5, s6, s7, s8, s9, -⟩ := fragmented_sound cfg events clean frag h p hp hw
  have hpart := finish_partition cfg events clean frag h p hp
  obtain ⟨c1, c2⟩ := partition_counts _ _ _ _ _ hpart
  obtain ⟨q1, q2, q3, q4, q5, q6⟩ := partition_spec _ hw _ _ _ _ _ hpart
  unfold handOver at hf
  cases ht : tryNew (legacyOf p) with
  | error e => rw [ht] at hf; cases hf
  | ok legacy =>
    rw [ht] at hf
    obtain rfl := Except.ok.inj hf
    obtain ⟨hperm, hinc⟩ := (tryNew_spec _).2 _ ht
    have hn := increasing_nodup hinc
    have memS : ∀ c, (⟨c, .shared⟩ : Member) ∈ legacy ↔ c ∈ p.fallback := by
      intro c
      rw [hperm.mem_iff]
      simp [legacyOf]
    have memO : ∀ c, (⟨c, .ordinary⟩ : Member) ∈ legacy ↔ .ordinary c ∈ p.exclusions := by
      intro c
      rw [hperm.mem_iff]
      simp only [legacyOf, List.mem_append, List.mem_map, Member.mk.injEq, reduceCtorEq, and_false, exists_false, false_or, and_true, List.mem_filter]
      constructor
      · rintro ⟨x, ⟨hx, ho⟩, rfl⟩
        cases x with
        | hole c => cases ho
        | ordinary c => exact hx
      · intro hx
        exact ⟨_, ⟨hx, rfl⟩, rfl⟩
    have excl : ∀ x ∈ p.exclusions, contains p.declared x.coord ∧ ¬Owns events p.family x.coord := by
      intro x hx
      have hm : x.coord ∈ p.exclusions.map Exclusion.coord := List.mem_map.mpr ⟨x, hx, rfl⟩
      refine ⟨(s6 _).mpr (.inr hm), fun ho => ?_⟩
      exact ((q1 _).mp ((s1 _).mpr ho)).2 hm
    have belongs : ∀ c, ((∃ d ∈ p.fragments, contains (rectOf d) c) ∨ (⟨c, .shared⟩ : Member) ∈ legacy) ↔ Owns events p.family c := by
      intro c
      rw [← s1 c, memS]
      simp only [has_rect]
    have fits : ∀ d ∈ p.fragments, Fits p.declared d := by
      intro d hd
      obtain ⟨a, -, -, ha, -⟩ := q5 d hd
      obtain ⟨v1, v2, v3⟩ := rect_of_cell ((has_rect d a).mp ha)
      exact ⟨v1, (s6 _).mpr (.inl ((s1 _).mp (.inl ⟨d, hd, (has_rect d _).mpr v2⟩))),
        (s6 _).mpr (.inl ((s1 _).mp (.inl ⟨d, hd, (has_rect d _).mpr v3⟩)))⟩
    have apart : (p.fragments.map rectOf).Pairwise fun a b => ∀ c, ¬(contains a c ∧ contains b c) := by
      rw [List.pairwise_map]
      refine s2.imp ?_
      intro a b hab c hc
      exact hab c ⟨(has_rect _ _).mpr hc.1, (has_rect _ _).mpr hc.2⟩
    have inside : ∀ x ∈ legacy, contains p.declared x.coord := by
      rintro ⟨c, k⟩ hx
      cases k with
      | shared => exact (s6 _).mpr (.inl ((belongs c).mp (.inr hx)))
      | ordinary => exact (excl _ ((memO c).mp hx)).1
    have alone : ∀ x ∈ legacy, ∀ d ∈ p.fragments, ¬contains (rectOf d) x.coord := by
      rintro ⟨c, k⟩ hx d hd hc
      cases k with
      | shared => exact s4 d hd c ((memS c).mp hx) ((has_rect d c).mpr hc)
      | ordinary => exact (excl _ ((memO c).mp hx)).2 ((belongs c).mp (.inl ⟨d, hd, hc⟩))
    have hordl : ordinaryCount legacy = (p.exclusions.filter isOrdinary).length := by
      unfold ordinaryCount
      rw [(hperm.filter _).length_eq]
      unfold legacyOf
      rw [List.filter_append, List.length_append]
      have e1 : ((p.fallback.map fun c => (⟨c, .shared⟩ : Member)).filter fun m => decide (m.kind = .ordinary)) = [] := by
        rw [List.filter_eq_nil_iff]
        intro x hx
        obtain ⟨c, -, rfl⟩ := List.mem_map.mp hx
        simp
      have e2 : (((p.exclusions.filter isOrdinary).map fun x => (⟨x.coord, .ordinary⟩ : Member)).filter fun m => decide (m.kind = .ordinary)) =
          (p.exclusions.filter isOrdinary).map fun x => (⟨x.coord, .ordinary⟩ : Member) := by
        rw [List.filter_eq_self]
        intro x hx
        obtain ⟨c, -, rfl⟩ := List.mem_map.mp hx
        simp
      rw [e1, e2, List.length_nil, List.length_map, Nat.zero_add]
    generalize hF : ({ id := p.family, origin := p.anchor, declared := p.declared, surviving := p.members, fragments := p.fragments, legacy := legacy, sharedMembers := p.members, ordinaryExceptions := (p.exclusions.filter isOrdinary).length, holes := (p.exclusions.filter fun x => !isOrdinary x).length } : Family) = F
    have hB : ∀ c, Belongs F c ↔ Owns events p.family c := by
      subst hF
      exact belongs
    have hcard : (owned F).card = p.members := by
      have hx : ((p.exclusions.map fun x => (x.coord.row, x.coord.col)).toFinset).card = p.exclusions.length := by
        rw [List.toFinset_card_of_nodup, List.length_map]
        have hpw := increasing_pairwise _ c2
        unfold List.Nodup
        rw [List.pairwise_map] at hpw ⊢
        refine hpw.imp ?_
        intro a b hlt he
        unfold Coord.lt at hlt
        simp only [Prod.mk.injEq] at he
        omega
      have hsub : (p.exclusions.map fun x => (x.coord.row, x.coord.col)).toFinset ⊆ cells p.declared := by
        intro q hq
        rw [List.mem_toFinset, List.mem_map] at hq
        obtain ⟨x, hx, rfl⟩ := hq
        exact (mem_cells _ _).mpr (excl x hx).1
      have heq : owned F = cells p.declared \ (p.exclusions.map fun x => (x.coord.row, x.coord.col)).toFinset := by
        ext q
        unfold owned
        rw [Finset.mem_filter, Finset.mem_sdiff, hB, List.mem_toFinset, List.mem_map]
        have hd : F.declared = p.declared := by rw [← hF]
        rw [hd, mem_cells]
        constructor
        · rintro ⟨h1, h2⟩
          refine ⟨h1, ?_⟩
          rintro ⟨x, hx, rfl⟩
          exact (excl x hx).2 h2
        · rintro ⟨h1, h2⟩
          refine ⟨h1, ?_⟩
          rcases (s6 _).mp h1 with ho | hm
          · exact ho
          · obtain ⟨x, hx, he⟩ := List.mem_map.mp hm
            exact absurd ⟨x, hx, by rw [he]⟩ h2
      rw [heq, Finset.card_sdiff_of_subset hsub, hx, card_cells c1]
      omega
    have hcounts : (owned F).card + ordinaryCount F.legacy + (unclaimed F).card = p.members + p.exclusions.length := by
      subst hF
      exact (counts _ _ c1 hn fits apart inside alone).2
    have hl : F.legacy = legacy := by rw [← hF]
    rw [hl] at hcounts
    have hsplit := exclusion_split p.exclusions
    have e1 : F.id = p.family := by rw [← hF]
    refine ⟨e1, by rw [← hF], by rw [← hF], by rw [← hF]; exact s9, by rw [e1]; exact hB, ?_, by rw [hl]; exact hinc, ?_⟩
    · intro c hc
      rw [hl, memO] at hc
      exact s8 c hc
    · refine ⟨by rw [← hF]; exact fits, by rw [← hF]; exact apart, by rw [← hF]; exact inside, by rw [← hF]; exact alone, ?_, ?_, ?_, ?_⟩
      · rw [hcard, ← hF]
      · rw [hcard, ← hF]
      · rw [hl, hordl, ← hF]
      · have : F.holes = (p.exclusions.filter fun x => !isOrdinary x).length := by rw [← hF]
        rw [this]
        omega

/-- C108. `validate` accepts what is handed over if the rectangle is within the sheet, there is a part, and the loader
makes at most 128 parts. -/
theorem handOver_valid (cfg : Config) (events : List (Coord × Record)) (clean : List Clean) (frag : List Fragmented)
    (h : (observeAll cfg events).finish cfg = some (clean, frag)) (p : Fragmented) (hp : p ∈ frag)
    (f : Family) (hf : handOver p = .ok f) (l : Limits) (hl : l.rows < 2 ^ 32 ∧ l.cols < 2 ^ 32) (hb : rectValid l p.declared = true)
    (hm : cfg.maxFragments ≤ 128) (hne : p.fragments ≠ []) (hc : (cells p.declared).card ≤ l.cells) : validate l f = .ok () := by
  have hr := (rectValid_iff _ _).mp hb
  obtain ⟨h1, h2, h3, h4, h5, -, h7, h8⟩ := handOver_exact cfg events clean frag h p hp (by omega) f hf
  have hlen := (fragmented_sound cfg events clean frag h p hp (by omega)).2.2.2.2.1
  obtain ⟨-, -, -, -, -, -, -, -, ha, hev, -⟩ := fragmented_sound cfg events clean frag h p hp (by omega)
  rw [validate_iff l hl, h2, h3, h4]
  refine ⟨hr.2.1, hb, ⟨List.length_pos_iff.mpr hne, by omega⟩, h7, h8, ?_, hc⟩
  rw [h5, h1, ← ha]
  exact ⟨_, hev, rfl, rfl⟩

/-- C108. Once a family handed over is owned by the plan and known to the router, each of its records has one place to
go: it is handled directly if its cell lies in a part, and goes to the graph if it is listed alone; an ordinary formula
within goes to the graph in the name of the family. -/
theorem records_routed (cfg : Config) (events : List (Coord × Record)) (clean : List Clean) (frag : List Fragmented)
    (h : (observeAll cfg events).finish cfg = some (clean, frag)) (hw : ∀ p ∈ frag, p.declared.stop.row < 2 ^ 32 - 1 ∧ p.declared.stop.col < 2 ^ 32 - 1)
    (fs : List Family) (hfs : ∀ f ∈ fs, ∃ p ∈ frag, handOver p = .ok f) (m : List (Nat × Entry)) (hm : router fs [] = .ok m)
    (plan : Plan) (hp : plan.Wf) (f : Family) (hf : f ∈ fs) (ho : plan.owns f = true) (c : Coord) :
    (Owns events f.id c → (route m plan f.id c = .direct ↔ ∃ d ∈ f.fragments, contains (rectOf d) c) ∧
      (route m plan f.id c = .legacyShared ↔ ⟨c, .shared⟩ ∈ f.legacy)) ∧
    (⟨c, .ordinary⟩ ∈ f.legacy → (c, Record.ordinary) ∈ events ∧ plan.ordinary c = (.legacyOrdinary, some f.id)) := by
  have facts : ∀ g ∈ fs, (g.legacy.map Member.coord).Nodup ∧ Exact g ∧ (g.declared.stop.row < 2 ^ 32 - 1 ∧ g.declared.stop.col < 2 ^ 32 - 1) ∧
      (∀ c, Belongs g c ↔ Owns events g.id c) ∧ ∀ c, ⟨c, .ordinary⟩ ∈ g.legacy → (c, Record.ordinary) ∈ events := by
    intro g hg
    obtain ⟨p, hpm, hh⟩ := hfs g hg
    have hwp := hw p hpm
    obtain ⟨-, h2, -, -, h5, h6, h7, h8⟩ := handOver_exact cfg events clean frag h p hpm (by omega) g hh
    exact ⟨increasing_nodup h7, h8, by rw [h2]; exact hwp, h5, h6⟩
  obtain ⟨n1, n2, n3, n4, n5⟩ := facts f hf
  obtain ⟨r1, -, -⟩ := route_spec fs m hm (fun g hg => (facts g hg).1) (fun g hg => (facts g hg).2.1.inside) (fun g hg => (facts g hg).2.1.alone) plan c
  obtain ⟨o1, o2, o3, -⟩ := owned_cells plan hp f n2 n1 n3 ho c
  refine ⟨fun hown => ?_, fun hc => ⟨n5 c hc, (o3 hc).2⟩⟩
  have hb := (n4 c).mpr hown
  rw [r1 f hf hb]
  rcases hb with hd | hs
  · rw [(o1 hd).2]
    refine ⟨⟨fun _ => hd, fun _ => rfl⟩, ⟨fun h => (by cases h), fun hs => ?_⟩⟩
    obtain ⟨d, hd, hc⟩ := hd
    exact absurd hc (n2.alone _ hs d hd)
  · rw [(o2 hs).2]
    refine ⟨⟨fun h => (by cases h), ?_⟩, ⟨fun _ => hs, fun _ => rfl⟩⟩
    rintro ⟨d, hd, hc⟩
    exact absurd hc (n2.alone _ hs d hd)

/-- A shared formula over seven cells whose third is an ordinary one and whose fifth is a hole. -/
def sheet : List (Coord × Record) :=
  [(⟨0, 0⟩, .anchor 4 (some ⟨⟨0, 0⟩, ⟨6, 0⟩⟩) [65]), (⟨1, 0⟩, .descendant 4), (⟨2, 0⟩, .ordinary), (⟨3, 0⟩, .descendant 4),
    (⟨5, 0⟩, .descendant 4), (⟨6, 0⟩, .descendant 4)]

/-- What is handed over for it. -/
def sheetFamily : Family :=
  { id := 4, origin := ⟨0, 0⟩, declared := ⟨⟨0, 0⟩, ⟨6, 0⟩⟩, surviving := 5, fragments := [.rowRun 0 1 0, .rowRun 5 6 0],
    legacy := [⟨⟨2, 0⟩, .ordinary⟩, ⟨⟨3, 0⟩, .shared⟩], sharedMembers := 5, ordinaryExceptions := 1, holes := 1 }

example : (observeAll ⟨8388608, 64, 128, 256, 16, 12, 20, 8⟩ sheet).finish ⟨8388608, 64, 128, 256, 16, 12, 20, 8⟩ =
      some ([], [⟨4, ⟨0, 0⟩, [65], ⟨⟨0, 0⟩, ⟨6, 0⟩⟩, [.rowRun 0 1 0, .rowRun 5 6 0], [⟨3, 0⟩], [.ordinary ⟨2, 0⟩, .hole ⟨4, 0⟩], 5⟩]) ∧
    handOver ⟨4, ⟨0, 0⟩, [65], ⟨⟨0, 0⟩, ⟨6, 0⟩⟩, [.rowRun 0 1 0, .rowRun 5 6 0], [⟨3, 0⟩], [.ordinary ⟨2, 0⟩, .hole ⟨4, 0⟩], 5⟩ = .ok sheetFamily ∧
    validate ⟨1048576, 16384, 10 ^ 9⟩ sheetFamily = .ok () := by
  decide +kernel

example : ∃ p m, Plan.register {} sheetFamily true = .ok p ∧ p.owns sheetFamily = true ∧ router [sheetFamily] [] = .ok m ∧
    route m p 4 ⟨5, 0⟩ = .direct ∧ route m p 4 ⟨3, 0⟩ = .legacyShared ∧ p.ordinary ⟨2, 0⟩ = (.legacyOrdinary, some 4) := by
  obtain ⟨m, hm⟩ := router_accepts ⟨1048576, 16384, 10 ^ 9⟩ (by decide) [sheetFamily] (by simp only [List.mem_singleton, forall_eq]; decide +kernel) (by decide)
  obtain ⟨r1, -, -⟩ := route_spec [sheetFamily] m hm (by decide) (by decide) (by decide) ((Plan.register {} sheetFamily true).toOption.getD {}) ⟨5, 0⟩
  obtain ⟨r2, -, -⟩ := route_spec [sheetFamily] m hm (by decide) (by decide) (by decide) ((Plan.register {} sheetFamily true).toOption.getD {}) ⟨3, 0⟩
  refine ⟨_, m, rfl, by decide +kernel, hm, ?_, ?_, by decide +kernel⟩
  · exact (r1 sheetFamily (by simp) (by decide)).trans (by decide +kernel)
  · exact (r2 sheetFamily (by simp) (by decide)).trans (by decide +kernel)

end Verif.Route
