import Mathlib.Tactic.Tauto
import Verif.Route.Count

/-!
# Checks, plan and router together
-/

namespace Verif.Route

open Verif.Evid

theorem rectValid_iff (l : Limits) (r : Rect) : rectValid l r = true ↔
    valid r ∧ (r.start.row < l.rows ∧ r.start.col < l.cols) ∧ r.stop.row < l.rows ∧ r.stop.col < l.cols := by
  unfold rectValid inBounds valid
  simp only [Bool.and_eq_true, decide_eq_true_eq]
  tauto

theorem validateLoop_eq (l : Limits) (dcl : Rect) (hv : rectValid l dcl = true) (ds : List Domain) (rects : List Rect) (n : Nat) :
    (validateLoop l dcl ds rects n).toOption = compactLoop dcl ds rects n := by
  rw [rectValid_iff] at hv
  induction ds generalizing rects n with
  | nil => rfl
  | cons d ds ih =>
    unfold validateLoop compactLoop
    simp only
    by_cases h1 : valid (rectOf d) ∧ contains dcl (rectOf d).start ∧ contains dcl (rectOf d).stop
    · have hb : rectValid l (rectOf d) = true := by
        rw [rectValid_iff]
        refine ⟨h1.1, ?_⟩
        have h2 := h1.2
        unfold contains at h2
        omega
      have hv1 := h1.1
      unfold valid at hv1
      rw [if_neg (by simp [hb]), if_neg (by simp [h1.2.1, h1.2.2])]
      by_cases ho : (rects.any fun p => decide (overlap p (rectOf d))) = true
      · rw [if_pos ho, if_pos (by tauto)]
        rfl
      · rw [if_neg ho, if_neg (by
          rintro (h | h | h | h | h)
          · omega
          · omega
          · exact h h1.2.1
          · exact h h1.2.2
          · exact ho h)]
        cases area (rectOf d) with
        | none => rfl
        | some a =>
          simp only
          cases addU64 n a with
          | none => rfl
          | some m => exact ih _ _
    · have hc : (rectOf d).stop.row < (rectOf d).start.row ∨ (rectOf d).stop.col < (rectOf d).start.col ∨ ¬contains dcl (rectOf d).start ∨
          ¬contains dcl (rectOf d).stop ∨ (rects.any fun p => decide (overlap p (rectOf d))) = true := by
        by_contra hc
        simp only [not_or, not_not, Nat.not_lt] at hc
        exact h1 ⟨⟨hc.1, hc.2.1⟩, hc.2.2.1, hc.2.2.2.1⟩
      rw [if_pos hc]
      split
      · rfl
      next hb =>
        split
        · rfl
        next hb2 =>
          exfalso
          simp only [not_not] at hb
          rw [not_or, not_not, not_not] at hb2
          exact h1 ⟨((rectValid_iff _ _).mp hb).1, hb2⟩

theorem validateMembers_iff (dcl : Rect) (rects : List Rect) (ms : List Member) : validateMembers dcl rects ms = .ok () ↔
    ∀ x ∈ ms, contains dcl x.coord ∧ ∀ r ∈ rects, ¬contains r x.coord := by
  induction ms with
  | nil => simp [validateMembers]
  | cons m ms ih =>
    unfold validateMembers
    rw [List.forall_mem_cons]
    by_cases h1 : contains dcl m.coord
    · rw [if_neg (by simpa using h1)]
      by_cases h2 : (rects.any fun r => decide (contains r m.coord)) = true
      · rw [if_pos h2]
        obtain ⟨r, hr, hc⟩ := List.any_eq_true.mp h2
        constructor
        · intro h; cases h
        · rintro ⟨⟨-, h⟩, -⟩
          exact absurd (by simpa using hc) (h r hr)
      · rw [if_neg h2, ih]
        have : ∀ r ∈ rects, ¬contains r m.coord := fun r hr hc => h2 (List.any_eq_true.mpr ⟨r, hr, by simpa using hc⟩)
        exact ⟨fun h => ⟨⟨h1, this⟩, h⟩, fun h => h.2⟩
    · rw [if_pos h1]
      constructor
      · intro h; cases h
      · rintro ⟨⟨h, -⟩, -⟩
        exact absurd h h1

theorem increasing_nodup {ms : List Member} (h : increasing (ms.map Member.coord) = true) : (ms.map Member.coord).Nodup :=
  (increasing_pairwise _ h).imp fun {a b} hlt he => by
    subst he
    unfold Coord.lt at hlt
    omega

theorem anyOrigin_iff (f : Family) : ¬((((f.fragments.map rectOf).any fun r => decide (contains r f.origin)) = false ∧
      (f.legacy.any fun m => decide (m.coord = f.origin) && decide (m.kind = .shared)) = false)) ↔ Belongs f f.origin := by
  unfold Belongs
  constructor
  · intro h
    by_contra hc
    rw [not_or] at hc
    apply h
    constructor
    · rw [List.any_eq_false]
      intro r hr
      obtain ⟨d, hd, rfl⟩ := List.mem_map.mp hr
      simpa using fun hh => hc.1 ⟨d, hd, hh⟩
    · rw [List.any_eq_false]
      rintro ⟨c, k⟩ hm hh
      simp only [Bool.and_eq_true, decide_eq_true_eq] at hh
      obtain ⟨rfl, rfl⟩ := hh
      exact hc.2 hm
  · rintro (⟨d, hd, hc⟩ | hm) ⟨h1, h2⟩
    · rw [List.any_eq_false] at h1
      exact h1 _ (List.mem_map.mpr ⟨d, hd, rfl⟩) (by simpa using hc)
    · rw [List.any_eq_false] at h2
      exact h2 _ hm (by simp)

/-- C108. What `validate` accepts: the origin and the declared rectangle are within the sheet, there are 1 to 128 parts,
the cells listed alone increase, the family is exact, the origin belongs to it, and the rectangle is not too large. -/
theorem validate_iff (l : Limits) (hl : l.rows < 2 ^ 32 ∧ l.cols < 2 ^ 32) (f : Family) : validate l f = .ok () ↔
    (f.origin.row < l.rows ∧ f.origin.col < l.cols) ∧ rectValid l f.declared = true ∧ (1 ≤ f.fragments.length ∧ f.fragments.length ≤ 128) ∧
    increasing (f.legacy.map Member.coord) = true ∧ Exact f ∧ Belongs f f.origin ∧ (cells f.declared).card ≤ l.cells := by
  unfold validate
  by_cases h1 : inBounds l f.origin = true
  swap
  · rw [if_pos h1]
    constructor
    · intro h; cases h
    · rintro ⟨h, -⟩
      unfold inBounds at h1
      simp at h1
      omega
  rw [if_neg (by simpa using h1)]
  have h1' : f.origin.row < l.rows ∧ f.origin.col < l.cols := by
    unfold inBounds at h1
    simpa using h1
  by_cases h2 : rectValid l f.declared = true
  swap
  · rw [if_pos h2]
    constructor
    · intro h; cases h
    · rintro ⟨-, h, -⟩
      exact absurd h h2
  rw [if_neg (by simpa using h2)]
  have h2' := (rectValid_iff _ _).mp h2
  have harea : ∃ a, area f.declared = some a := by
    obtain ⟨⟨v1, v2⟩, v3⟩ := h2'
    unfold area span
    rw [if_neg (by omega), if_neg (by omega), if_neg (by omega), if_neg (by omega)]
    exact ⟨_, rfl⟩
  obtain ⟨a, ha⟩ := harea
  have hsmall := area_small ha
  have ha0 : area f.declared ≠ none := by rw [ha]; simp
  by_cases h3 : f.fragments = []
  · rw [if_pos h3, h3]
    constructor
    · intro h; cases h
    · rintro ⟨-, -, ⟨h, -⟩, -⟩
      simp at h
  rw [if_neg h3]
  have h3' := List.length_pos_iff.mpr h3
  by_cases h4 : 128 < f.fragments.length
  · rw [if_pos h4]
    constructor
    · intro h; cases h
    · rintro ⟨-, -, ⟨-, h⟩, -⟩
      omega
  rw [if_neg h4, card_cells ha]
  have hloop := validateLoop_eq l f.declared h2 f.fragments [] 0
  constructor
  · intro h
    cases hv : validateLoop l f.declared f.fragments [] 0 with
    | error e => rw [hv] at h; cases h
    | ok x =>
      obtain ⟨R, t⟩ := x
      rw [hv] at h hloop
      obtain ⟨k1, k2, -, k4, k5, k6⟩ := (compactLoop_iff _ ha0 _ _ _ _ _ (by decide)).mp hloop.symm
      simp only at h
      cases hL : validateLegacy l f.legacy with
      | error e => rw [hL] at h; cases h
      | ok u =>
        rw [hL] at h
        simp only at h
        have hinc : increasing (f.legacy.map Member.coord) = true := by
          unfold validateLegacy at hL
          split at hL
          · cases hL
          · split at hL
            · cases hL
            next hi => simpa using hi
        have hn := increasing_nodup hinc
        cases hM : validateMembers f.declared R f.legacy with
        | error e => rw [hM] at h; cases h
        | ok u =>
          rw [hM] at h
          simp only at h
          have hM' := (validateMembers_iff _ _ _).mp hM
          rw [k4, List.nil_append] at hM' h
          have inside : ∀ x ∈ f.legacy, contains f.declared x.coord := fun x hx => (hM' x hx).1
          have alone : ∀ x ∈ f.legacy, ∀ d ∈ f.fragments, ¬contains (rectOf d) x.coord :=
            fun x hx d hd => (hM' x hx).2 _ (List.mem_map.mpr ⟨d, hd, rfl⟩)
          have apart := (overlap_pairwise k1).mp k2
          obtain ⟨c1, c2⟩ := counts f a ha hn k1 apart inside alone
          unfold validateCounts addU64 at h
          split at h
          next => cases h
          next s hs =>
            split at hs
            next hlt =>
              obtain rfl := Option.some.inj hs
              split at h
              next => cases h
              next hne =>
                rw [not_or, not_or, not_not, not_not, not_not] at hne
                rw [ha] at h
                simp only at h
                split at h
                next => cases h
                next u hu =>
                  have hu' : u = f.sharedMembers + f.ordinaryExceptions + f.holes := by
                    split at hu
                    · simp only [Option.bind_some] at hu
                      split at hu
                      · exact (Option.some.inj hu).symm
                      · cases hu
                    · cases hu
                  split at h
                  next => cases h
                  next he =>
                    rw [not_not] at he
                    split at h
                    next => cases h
                    next ho =>
                      split at h
                      next => cases h
                      next hcell =>
                        exact ⟨h1', h2, ⟨h3', by omega⟩, hinc, ⟨k1, apart, inside, alone, by omega, by omega, by omega, by omega⟩,
                          (anyOrigin_iff f).mp ho, by omega⟩
            next => cases hs
  · rintro ⟨-, -, -, hinc, hE, hB, hcell⟩
    have hn := increasing_nodup hinc
    have hs := sum_small f a ha hn hE
    obtain ⟨c1, c2⟩ := counts f a ha hn hE.fits hE.apart hE.inside hE.alone
    have e1 := hE.surviving
    have e2 := hE.shared
    have e3 := hE.ordinary
    rw [(compactLoop_iff _ ha0 _ _ _ _ _ (by decide)).mpr
      ⟨hE.fits, (overlap_pairwise hE.fits).mpr hE.apart, by simp, rfl, rfl, by omega⟩] at hloop
    cases hv : validateLoop l f.declared f.fragments [] 0 with
    | error e => rw [hv] at hloop; cases hloop
    | ok x =>
      rw [hv] at hloop
      obtain rfl := Option.some.inj hloop
      simp only [List.nil_append, Nat.zero_add]
      have hL : validateLegacy l f.legacy = .ok () := by
        unfold validateLegacy
        rw [if_neg, if_neg (by simpa using hinc)]
        intro hany
        obtain ⟨x, hx, hb⟩ := List.any_eq_true.mp hany
        have hin := hE.inside x hx
        unfold contains at hin
        unfold inBounds at hb
        simp at hb
        omega
      have hM : validateMembers f.declared (f.fragments.map rectOf) f.legacy = .ok () := by
        rw [validateMembers_iff]
        intro x hx
        refine ⟨hE.inside x hx, ?_⟩
        intro r hr
        obtain ⟨d, hd, rfl⟩ := List.mem_map.mp hr
        exact hE.alone x hx d hd
      rw [hL, hM]
      simp only
      unfold validateCounts addU64
      rw [if_pos (by omega)]
      simp only
      rw [if_neg (by omega), ha]
      simp only
      rw [if_pos (by omega), Option.bind_some, if_pos (by omega)]
      simp only
      rw [if_neg (by omega), if_neg ((anyOrigin_iff f).mpr hB), if_neg (by omega)]

/-- C108. Families that passed `validate` pass the check before installing, and the router takes them unless two have
the same number. -/
theorem validate_compact (l : Limits) (hl : l.rows < 2 ^ 32 ∧ l.cols < 2 ^ 32) (f : Family) (h : validate l f = .ok ()) : compact f = true := by
  obtain ⟨-, h2, -, h4, h5, -⟩ := (validate_iff l hl f).mp h
  refine (compact_iff f (increasing_nodup h4) ?_).mpr h5
  obtain ⟨⟨v1, v2⟩, v3⟩ := (rectValid_iff _ _).mp h2
  unfold area span
  rw [if_neg (by omega), if_neg (by omega), if_neg (by omega), if_neg (by omega)]
  simp

theorem router_accepts_from (fs : List Family) (m : List (Nat × Entry)) (hv : ∀ f ∈ fs, valid f.declared ∧ Exact f)
    (hid : (fs.map Family.id).Nodup) (hm : ∀ f ∈ fs, get f.id m = none) : ∃ m', router fs m = .ok m' := by
  induction fs generalizing m with
  | nil => exact ⟨m, rfl⟩
  | cons f fs ih =>
    obtain ⟨h1, h2⟩ := hv f (by simp)
    rw [List.map_cons, List.nodup_cons] at hid
    unfold router
    simp only
    rw [if_neg (by simpa using h1), if_neg, if_neg, if_neg]
    · refine ih _ (fun g hg => hv g (by simp [hg])) hid.2 ?_
      intro g hg
      rw [get_put, if_neg, hm g (by simp [hg])]
      intro he
      exact hid.1 (List.mem_map.mpr ⟨g, hg, he⟩)
    · rw [hm f (by simp)]; simp
    · rw [not_not, disjointOk_iff]
      · exact h2.apart
      · intro r hr
        obtain ⟨d, hd, rfl⟩ := List.mem_map.mp hr
        exact (h2.fits d hd).1
    · intro hany
      obtain ⟨r, hr, hc⟩ := List.any_eq_true.mp hany
      obtain ⟨d, hd, rfl⟩ := List.mem_map.mp hr
      obtain ⟨f1, f2, f3⟩ := h2.fits d hd
      simp [f1, f2, f3] at hc

/-- C108. The router takes families that passed `validate` and have different numbers. -/
theorem router_accepts (l : Limits) (hl : l.rows < 2 ^ 32 ∧ l.cols < 2 ^ 32) (fs : List Family) (hv : ∀ f ∈ fs, validate l f = .ok ())
    (hid : (fs.map Family.id).Nodup) : ∃ m, router fs [] = .ok m := by
  refine router_accepts_from fs [] ?_ hid (fun _ _ => rfl)
  intro f hf
  obtain ⟨-, h2, -, -, h5, -⟩ := (validate_iff l hl f).mp (hv f hf)
  exact ⟨((rectValid_iff _ _).mp h2).1, h5⟩

/-- The family of the tests: a column of nine cells with a hole, an ordinary formula and one cell left to the graph. -/
def sample : Family :=
  { id := 7, origin := ⟨0, 2⟩, declared := ⟨⟨0, 2⟩, ⟨8, 2⟩⟩, surviving := 7,
    fragments := [.rowRun 0 2 2, .rowRun 6 8 2], legacy := [⟨⟨3, 2⟩, .ordinary⟩, ⟨⟨4, 2⟩, .shared⟩],
    sharedMembers := 7, ordinaryExceptions := 1, holes := 1 }

example : validate ⟨1048576, 16384, 10 ^ 9⟩ sample = .ok () ∧ compact sample = true := by decide +kernel

example : validate ⟨1048576, 16384, 10 ^ 9⟩ { sample with holes := 2 } = .error "PartitionReconciliationMismatch" := by decide +kernel

end Verif.Route
