import Verif.Route.Sweep

/-!
# The tree of rectangles and the router
-/

namespace Verif.Route

open Verif.Evid

instance : Std.Total colLe := ⟨fun a b => by unfold colLe; omega⟩

instance : IsTrans Rect colLe := ⟨fun a b c => by unfold colLe; omega⟩

/-- The row a node is built on is the middle row of one of its rectangles. -/
theorem center_mem (l : List Rect) (h : l ≠ []) :
    ∃ p ∈ l, middle p = ((l.map middle).insertionSort (· ≤ ·)).getD (l.length / 2) 0 := by
  have hlen : l.length / 2 < ((l.map middle).insertionSort (· ≤ ·)).length := by
    rw [List.length_insertionSort, List.length_map]
    have := List.length_pos_iff.mpr h
    omega
  rw [← List.getElem_eq_getD (h := hlen)]
  have := List.getElem_mem hlen
  rw [List.mem_insertionSort, List.mem_map] at this
  exact this

theorem middle_in {r : Rect} (h : valid r) : r.start.row ≤ middle r ∧ middle r ≤ r.stop.row := by
  unfold valid at h
  unfold middle
  omega

/-- Rectangles on one row that share no cell are found by their columns. -/
theorem find_col (l : List Rect) (center : Nat) (hv : ∀ r ∈ l, valid r) (hc : ∀ r ∈ l, r.start.row ≤ center ∧ center ≤ r.stop.row)
    (hd : l.Pairwise fun a b => ∀ c, ¬(contains a c ∧ contains b c)) (c : Coord) :
    ((((l.insertionSort colLe).takeWhile fun r => r.start.col ≤ c.col).getLast?).any fun r => contains r c) = true ↔
      ∃ r ∈ l, contains r c := by
  have hperm := List.perm_insertionSort colLe l
  have hv' : ∀ r ∈ l.insertionSort colLe, valid r := fun r hr => hv r (hperm.mem_iff.mp hr)
  have hd' : (l.insertionSort colLe).Pairwise fun a b => ∀ c, ¬(contains a c ∧ contains b c) :=
    (hperm.pairwise_iff (fun {a b} h c hc => h c ⟨hc.2, hc.1⟩)).mpr hd
  have hb : (l.insertionSort colLe).Pairwise Before := by
    have hs := List.pairwise_insertionSort colLe l
    refine List.Pairwise.imp_of_mem ?_ (hs.and hd')
    rintro a b ha hb ⟨h1, h2⟩
    have hva := hv' a ha
    have hvb := hv' b hb
    have hca := hc a (hperm.mem_iff.mp ha)
    have hcb := hc b (hperm.mem_iff.mp hb)
    have := h2 ⟨center, b.start.col⟩
    unfold contains at this
    unfold colLe at h1
    unfold valid at hva hvb
    unfold Before
    simp only at this
    omega
  constructor
  · intro h
    obtain ⟨r, hr, hin⟩ := any_some h
    exact ⟨r, hperm.mem_iff.mp (last_spec _ _ _ hr).1, by simpa using hin⟩
  · rintro ⟨r, hr, hin⟩
    have : r ∈ l.insertionSort colLe := hperm.mem_iff.mpr hr
    rw [last_before _ _ hb hv' r this hin.2.2.1 hin.2.2.2]
    simpa using hin

/-- C108. The tree built of rectangles that share no cell finds a cell just when one of them has it. -/
theorem build_has (n : Nat) (l : List Rect) (hn : l.length ≤ n) (hv : ∀ r ∈ l, valid r)
    (hd : l.Pairwise fun a b => ∀ c, ¬(contains a c ∧ contains b c)) (c : Coord) :
    (build n l).has c = true ↔ ∃ r ∈ l, contains r c := by
  induction n generalizing l with
  | zero =>
    obtain rfl : l = [] := List.length_eq_zero_iff.mp (by omega)
    simp [build, Node.has]
  | succ n ih =>
    cases l with
    | nil => simp [build, Node.has]
    | cons r rs =>
      rw [build]
      obtain ⟨p, hp, hpc⟩ := center_mem (r :: rs) (by simp)
      generalize hL : r :: rs = L at *
      generalize ((L.map middle).insertionSort (· ≤ ·)).getD (L.length / 2) 0 = center at *
      have hmid := middle_in (hv p hp)
      have short : ∀ q : Rect → Bool, q p = false → (L.filter q).length ≤ n := by
        intro q hq
        have : (L.filter q).length < L.length := List.length_filter_lt_length_iff_exists.mpr ⟨p, hp, by simp [hq]⟩
        omega
      have hl := ih (L.filter fun q => q.stop.row < center) (short _ (by simp; omega))
        (fun r hr => hv r (List.mem_filter.mp hr).1) (hd.filter _)
      have hrt := ih (L.filter fun q => ¬q.stop.row < center ∧ center < q.start.row) (short _ (by simp; omega))
        (fun r hr => hv r (List.mem_filter.mp hr).1) (hd.filter _)
      have hm := find_col (L.filter fun q => ¬q.stop.row < center ∧ ¬center < q.start.row) center
        (fun r hr => hv r (List.mem_filter.mp hr).1)
        (fun r hr => by
          have := (List.mem_filter.mp hr).2
          simp at this
          omega) (hd.filter _) c
      unfold Node.has
      constructor
      · intro h
        split at h
        next h1 =>
          obtain ⟨q, hq, hin⟩ := hm.mp h1
          exact ⟨q, (List.mem_filter.mp hq).1, hin⟩
        next h1 =>
          split at h
          · obtain ⟨q, hq, hin⟩ := hl.mp h
            exact ⟨q, (List.mem_filter.mp hq).1, hin⟩
          · split at h
            · obtain ⟨q, hq, hin⟩ := hrt.mp h
              exact ⟨q, (List.mem_filter.mp hq).1, hin⟩
            · cases h
      · rintro ⟨q, hq, hin⟩
        split
        next => rfl
        next h1 =>
          have hnot : ¬(¬q.stop.row < center ∧ ¬center < q.start.row) := fun hh =>
            h1 (hm.mpr ⟨q, List.mem_filter.mpr ⟨hq, by simpa using hh⟩, hin⟩)
          have hvq := hv q hq
          unfold valid at hvq
          unfold contains at hin
          split
          next h2 => exact hl.mpr ⟨q, List.mem_filter.mpr ⟨hq, by simp; omega⟩, hin⟩
          next h2 =>
            split
            next h3 => exact hrt.mpr ⟨q, List.mem_filter.mpr ⟨hq, by simp; omega⟩, hin⟩
            next h3 => omega

example : (build 3 [⟨⟨0, 0⟩, ⟨9, 0⟩⟩, ⟨⟨0, 1⟩, ⟨4, 3⟩⟩, ⟨⟨5, 1⟩, ⟨9, 3⟩⟩]).has ⟨7, 2⟩ = true ∧
    (build 3 [⟨⟨0, 0⟩, ⟨9, 0⟩⟩, ⟨⟨0, 1⟩, ⟨4, 3⟩⟩, ⟨⟨5, 1⟩, ⟨9, 3⟩⟩]).has ⟨7, 4⟩ = false := by decide +kernel

/-! ### Maps -/

section Maps

variable {α β : Type} [DecidableEq α]

theorem get_filter_ne (k : α) (m : List (α × β)) (k' : α) (h : k' ≠ k) : get k' (m.filter fun p => p.1 ≠ k) = get k' m := by
  induction m with
  | nil => rfl
  | cons p m ih =>
    obtain ⟨a, b⟩ := p
    rw [List.filter_cons]
    split
    next hk => simp only [get]; rw [ih]
    next hk =>
      have : a = k := by simpa using hk
      subst this
      rw [ih, get, if_neg (Ne.symm h)]

theorem get_put (k k' : α) (v : β) (m : List (α × β)) : get k' (put k v m) = if k' = k then some v else get k' m := by
  unfold put
  rw [get]
  by_cases h : k' = k
  · subst h; simp
  · rw [if_neg (Ne.symm h), if_neg h, get_filter_ne k m k' h]

end Maps

theorem legacyMap_get (c : Coord) (ms : List Member) (m : List (Coord × Kind)) (hn : (ms.map Member.coord).Nodup) :
    get c (legacyMap ms m) = match ms.find? fun x => x.coord = c with | some x => some x.kind | none => get c m := by
  induction ms generalizing m with
  | nil => rfl
  | cons x xs ih =>
    rw [List.map_cons, List.nodup_cons] at hn
    rw [legacyMap, ih _ hn.2, List.find?_cons]
    by_cases h : x.coord = c
    · have hnone : xs.find? (fun x => decide (x.coord = c)) = none := by
        rw [List.find?_eq_none]
        intro y hy hyc
        exact hn.1 (List.mem_map.mpr ⟨y, hy, by rw [h]; simpa using hyc⟩)
      simp only [hnone, get_put, h, decide_true, if_true]
    · simp only [h, decide_false, get_put, if_neg (Ne.symm h)]

/-! ### The router -/

/-- A cell of a family that is not an exception: in one of the parts, or listed alone. -/
def Belongs (f : Family) (c : Coord) : Prop :=
  (∃ d ∈ f.fragments, contains (rectOf d) c) ∨ ⟨c, .shared⟩ ∈ f.legacy

theorem router_get (fs : List Family) (m m' : List (Nat × Entry)) (h : router fs m = .ok m') :
    (fs.map Family.id).Nodup ∧ (∀ f ∈ fs, get f.id m = none) ∧
    (∀ f ∈ fs, get f.id m' = some ⟨f.declared, legacyMap f.legacy [], build f.fragments.length (f.fragments.map rectOf)⟩) ∧
    (∀ i, i ∉ fs.map Family.id → get i m' = get i m) ∧
    ∀ f ∈ fs, valid f.declared ∧ (∀ d ∈ f.fragments, valid (rectOf d) ∧ contains f.declared (rectOf d).start ∧ contains f.declared (rectOf d).stop) ∧
      (f.fragments.map rectOf).Pairwise fun a b => ∀ c, ¬(contains a c ∧ contains b c) := by
  induction fs generalizing m with
  | nil =>
    simp only [router, Except.ok.injEq] at h
    subst h
    simp
  | cons f fs ih =>
    unfold router at h
    split at h
    · cases h
    next hv =>
      simp only at h
      split at h
      · cases h
      next hr =>
        split at h
        · cases h
        next hd =>
          split at h
          · cases h
          next hn =>
            obtain ⟨i1, i2, i3, i4, i5⟩ := ih _ h
            have hv' : valid f.declared := by
              by_contra hc; exact hv hc
            have hr' : ∀ d ∈ f.fragments, valid (rectOf d) ∧ contains f.declared (rectOf d).start ∧ contains f.declared (rectOf d).stop := by
              intro d hd
              by_contra hc
              apply hr
              rw [List.any_eq_true]
              refine ⟨rectOf d, List.mem_map.mpr ⟨d, hd, rfl⟩, ?_⟩
              rw [decide_eq_true_eq]
              by_contra hc'
              apply hc
              refine ⟨?_, ?_, ?_⟩ <;> · by_contra h'; exact hc' (by simp [h'])
            have hnone : get f.id m = none := by
              cases hg : get f.id m with
              | none => rfl
              | some x => rw [hg] at hn; simp at hn
            have hfresh : ∀ g ∈ fs, g.id ≠ f.id ∧ get g.id m = none := by
              intro g hg
              have := i2 g hg
              rw [get_put] at this
              split at this
              · cases this
              next hne => exact ⟨hne, this⟩
            have hid : f.id ∉ fs.map Family.id := by
              intro hm
              obtain ⟨g, hg, he⟩ := List.mem_map.mp hm
              exact (hfresh g hg).1 he
            refine ⟨List.nodup_cons.mpr ⟨hid, i1⟩, ?_, ?_, ?_, ?_⟩
            · intro g hg
              rcases List.mem_cons.mp hg with rfl | hg
              · exact hnone
              · exact (hfresh g hg).2
            · intro g hg
              rcases List.mem_cons.mp hg with rfl | hg
              · rw [i4 _ hid, get_put, if_pos rfl, List.length_map]
              · exact i3 g hg
            · intro i hi
              rw [List.map_cons, List.mem_cons, not_or] at hi
              rw [i4 i hi.2, get_put, if_neg hi.1]
            · intro g hg
              rcases List.mem_cons.mp hg with rfl | hg
              · refine ⟨hv', hr', ?_⟩
                refine (disjointOk_iff _ ?_).mp (by simpa using hd)
                intro r hr
                obtain ⟨d, hd, rfl⟩ := List.mem_map.mp hr
                exact (hr' d hd).1
              · exact i5 g hg

theorem rect_subset {f : Rect} {r : Rect} (h1 : contains f r.start) (h2 : contains f r.stop) {c : Coord} (hc : contains r c) : contains f c := by
  unfold contains at *
  omega

/-- C108. A router that was built sends a record of one of its families where the plan says if the cell belongs to the
family, and to the graph if not; records of other families go where the plan says. -/
theorem route_spec (fs : List Family) (m : List (Nat × Entry)) (h : router fs [] = .ok m)
    (hl : ∀ f ∈ fs, (f.legacy.map Member.coord).Nodup) (hs : ∀ f ∈ fs, ∀ x ∈ f.legacy, contains f.declared x.coord)
    (hx : ∀ f ∈ fs, ∀ x ∈ f.legacy, ∀ d ∈ f.fragments, ¬contains (rectOf d) x.coord) (p : Plan) (c : Coord) :
    (∀ f ∈ fs, Belongs f c → route m p f.id c = p.shared f.id c) ∧
    (∀ f ∈ fs, ¬Belongs f c → route m p f.id c = .legacyShared) ∧
    (∀ i, i ∉ fs.map Family.id → route m p i c = p.shared i c) := by
  obtain ⟨-, -, h3, h4, h5⟩ := router_get fs [] m h
  have key : ∀ f ∈ fs, (Belongs f c → route m p f.id c = p.shared f.id c) ∧ (¬Belongs f c → route m p f.id c = .legacyShared) := by
    intro f hf
    obtain ⟨-, hr, hdis⟩ := h5 f hf
    have hhas := build_has f.fragments.length (f.fragments.map rectOf) (by rw [List.length_map])
      (fun r hr' => by
        obtain ⟨d, hd, rfl⟩ := List.mem_map.mp hr'
        exact (hr d hd).1) hdis c
    simp only [List.mem_map, exists_exists_and_eq_and] at hhas
    unfold route
    rw [h3 f hf]
    simp only
    by_cases hin : contains f.declared c
    · rw [if_neg (by simpa using hin), legacyMap_get _ _ _ (hl f hf)]
      cases hfind : f.legacy.find? fun x => x.coord = c with
      | some x =>
        obtain ⟨xc, k⟩ := x
        have hxc : xc = c := by simpa using List.find?_some hfind
        have hmem := List.mem_of_find?_eq_some hfind
        subst hxc
        cases k with
        | shared => exact ⟨fun _ => rfl, fun hb => absurd (.inr hmem) hb⟩
        | ordinary =>
          refine ⟨fun hb => ?_, fun _ => rfl⟩
          rcases hb with ⟨d, hd, hdc⟩ | hsh
          · exact absurd hdc (hx f hf _ hmem d hd)
          · have := List.inj_on_of_nodup_map (hl f hf) hsh hmem rfl
            simp at this
      | none =>
        have hno : ⟨c, .shared⟩ ∉ f.legacy := by
          intro hm
          have := (List.find?_eq_none.mp hfind) _ hm
          simp at this
        simp only [get]
        constructor
        · rintro (hb | hb)
          · rw [if_pos (hhas.mpr hb)]
          · exact absurd hb hno
        · intro hb
          rw [if_neg (fun ht => hb (.inl (hhas.mp ht)))]
    · rw [if_pos (by simpa using hin)]
      refine ⟨fun hb => ?_, fun _ => rfl⟩
      rcases hb with ⟨d, hd, hdc⟩ | hsh
      · exact absurd (rect_subset (hr d hd).2.1 (hr d hd).2.2 hdc) hin
      · exact absurd (hs f hf _ hsh) hin
  refine ⟨fun f hf => (key f hf).1, fun f hf => (key f hf).2, ?_⟩
  intro i hi
  unfold route
  rw [h4 i hi]
  rfl

end Verif.Route
