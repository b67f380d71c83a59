import Verif.Evid.Partition

/-!
# What the evidence about one family says
-/

namespace Verif.Evid

/-- Rows and columns of a rectangle. -/
def height (r : Rect) : ℕ := r.stop.row - r.start.row + 1
def width (r : Rect) : ℕ := r.stop.col - r.start.col + 1

/-- The place of a cell in a rectangle, row by row. -/
def ofs (r : Rect) (c : Coord) : ℕ := (c.row - r.start.row) * width r + (c.col - r.start.col)

theorem offset_ofs {r : Rect} {c : Coord} {a : ℕ} (ha : area r = some a) (h : contains r c) : offset r c = some (ofs r c) := by
  unfold offset ofs width span
  obtain ⟨⟨h1, h2⟩, -⟩ := area_valid ha
  have := area_span ha
  rw [if_pos h, if_neg (by omega), if_neg (by omega)]

theorem area_eq {r : Rect} {a : ℕ} (ha : area r = some a) : a = height r * width r := (area_valid ha).2

theorem row_step {r : Rect} {c d : Coord} (hc : contains r c) (h : c.row < d.row) : ofs r c < ofs r d := by
  unfold ofs
  unfold contains at hc
  have h1 : (c.row - r.start.row + 1) * width r ≤ (d.row - r.start.row) * width r := Nat.mul_le_mul_right _ (by omega)
  rw [Nat.add_mul, Nat.one_mul] at h1
  have h2 : c.col - r.start.col < width r := by unfold width; omega
  generalize (c.row - r.start.row) * width r = x at *
  generalize (d.row - r.start.row) * width r = y at *
  omega

theorem ofs_lt {r : Rect} {c d : Coord} (hc : contains r c) (hd : contains r d) : c.lt d ↔ ofs r c < ofs r d := by
  constructor
  · rintro (h | ⟨h1, h2⟩)
    · exact row_step hc h
    · unfold ofs
      rw [h1]
      unfold contains at hc hd
      omega
  · intro h
    by_cases h1 : c.row < d.row
    · exact .inl h1
    · by_cases h2 : d.row < c.row
      · have := row_step hd h2
        omega
      · have e : c.row = d.row := by omega
        refine .inr ⟨e, ?_⟩
        unfold ofs at h
        rw [e] at h
        omega

theorem ofs_inj {r : Rect} {c d : Coord} (hc : contains r c) (hd : contains r d) (h : ofs r c = ofs r d) : c = d := by
  have h1 := (ofs_lt hc hd).not.mpr (by omega)
  have h2 := (ofs_lt hd hc).not.mpr (by omega)
  unfold Coord.lt at h1 h2
  obtain ⟨a, b⟩ := c
  obtain ⟨a', b'⟩ := d
  simp only [Coord.mk.injEq] at *
  omega

theorem ofs_area {r : Rect} {c : Coord} (hc : contains r c) : ofs r c < height r * width r := by
  unfold ofs
  have h1 : (c.row - r.start.row + 1) * width r ≤ height r * width r := Nat.mul_le_mul_right _ (by unfold height; unfold contains at hc; omega)
  rw [Nat.add_mul, Nat.one_mul] at h1
  have h2 : c.col - r.start.col < width r := by unfold contains at hc; unfold width; omega
  omega

theorem ofs_start (r : Rect) : ofs r r.start = 0 := by simp [ofs]

theorem start_in {r : Rect} (h : valid r) : contains r r.start := ⟨le_refl _, h.1, le_refl _, h.2⟩

theorem next_in {r : Rect} {c d : Coord} (hv : valid r) (hc : contains r c) (h : nextCoord c r = some d) : contains r d ∧ ofs r d = ofs r c + 1 := by
  unfold nextCoord at h
  unfold contains at *
  unfold valid at hv
  split at h
  · obtain rfl := Option.some.inj h
    simp only
    refine ⟨by omega, ?_⟩
    unfold ofs
    simp only
    omega
  · split at h
    · obtain rfl := Option.some.inj h
      simp only
      refine ⟨by omega, ?_⟩
      unfold ofs
      simp only
      have e1 : c.row + 1 - r.start.row = (c.row - r.start.row) + 1 := by omega
      have e2 : c.col - r.start.col + 1 = width r := by unfold width; omega
      rw [e1, Nat.add_mul, Nat.one_mul, ← e2]
      omega
    · simp at h

theorem next_none {r : Rect} {c : Coord} (hc : contains r c) (h : nextCoord c r = none) : ofs r c + 1 = height r * width r := by
  unfold nextCoord at h
  unfold contains at hc
  split at h
  · simp at h
  · split at h
    · simp at h
    · unfold ofs
      have e1 : height r = (c.row - r.start.row) + 1 := by unfold height; omega
      have e2 : c.col - r.start.col + 1 = width r := by unfold width; omega
      rw [e1, Nat.add_mul, Nat.one_mul, ← e2]
      omega

theorem not_before {r : Rect} {c d : Coord} (hc : contains r c) (h : d.lt r.start) : d ≠ c := by
  rintro rfl
  unfold contains at hc
  unfold Coord.lt at h
  omega

theorem not_after {r : Rect} {c : Coord} (h : r.stop.lt c) : ¬contains r c := by
  intro hc
  unfold contains at hc
  unfold Coord.lt at h
  omega

/-- The place of the next cell to look for, or the end. -/
def pos (r : Rect) : Option Coord → ℕ
  | some n => ofs r n
  | none => height r * width r

theorem pos_next {r : Rect} {c : Coord} (hv : valid r) (hc : contains r c) : pos r (nextCoord c r) = ofs r c + 1 := by
  cases h : nextCoord c r with
  | none => exact (next_none hc h).symm
  | some d => exact (next_in hv hc h).2

/-! ## Holes -/

theorem holes_spec {r : Rect} (hv : valid r) (n : ℕ) (c : Coord) (hc : contains r c) (hn : ofs r c + n ≤ height r * width r) :
    (∀ x, x ∈ (holes r n c).1 ↔ ∃ d, x = .hole d ∧ contains r d ∧ ofs r c ≤ ofs r d ∧ ofs r d < ofs r c + n) ∧ ((holes r n c).1.map Exclusion.coord).Pairwise Coord.lt ∧ ((holes r n c).2 = true → ofs r c + n = height r * width r) := by
  induction n generalizing c with
  | zero =>
    simp only [holes, List.not_mem_nil, false_iff, List.map_nil, List.Pairwise.nil, Bool.false_eq_true, false_implies, and_true, Nat.add_zero]
    rintro x ⟨d, -, -, h1, h2⟩
    omega
  | succ n ih =>
    simp only [holes]
    cases h : nextCoord c r with
    | none =>
      have := next_none hc h
      simp only [List.mem_singleton, List.map_cons, List.map_nil, List.pairwise_singleton, true_and]
      refine ⟨fun x => ?_, fun _ => by omega⟩
      constructor
      · rintro rfl
        exact ⟨c, rfl, hc, le_refl _, by omega⟩
      · rintro ⟨d, rfl, hd, h1, h2⟩
        rw [ofs_inj hc hd (by omega)]
    | some d =>
      obtain ⟨d1, d2⟩ := next_in hv hc h
      obtain ⟨i1, i2, i3⟩ := ih d d1 (by omega)
      simp only [List.mem_cons, List.map_cons, List.pairwise_cons]
      refine ⟨fun x => ?_, ⟨?_, i2⟩, fun hb => by have := i3 hb; omega⟩
      · rw [i1]
        constructor
        · rintro (rfl | ⟨e, rfl, he, h1, h2⟩)
          · exact ⟨c, rfl, hc, le_refl _, by omega⟩
          · exact ⟨e, rfl, he, by omega, by omega⟩
        · rintro ⟨e, rfl, he, h1, h2⟩
          by_cases hce : ofs r c = ofs r e
          · exact .inl (by rw [ofs_inj hc he hce])
          · exact .inr ⟨e, rfl, he, by omega, by omega⟩
      · intro x hx
        obtain ⟨y, hy, rfl⟩ := List.mem_map.mp hx
        obtain ⟨e, rfl, he, h1, h2⟩ := (i1 y).mp hy
        exact (ofs_lt hc he).mpr (by omega)

/-! ## One family -/

/-- What the records say about an excluded cell. -/
def Because (events : List (Coord × Record)) : Exclusion → Prop
  | .hole c => ∀ e ∈ events, e.1 ≠ c
  | .ordinary c => (c, Record.ordinary) ∈ events

/-- Up to the next cell to look for, every cell of the rectangle belongs to the family or is excluded, for a reason. -/
structure Cov (events : List (Coord × Record)) (f : ℕ) (e : Fam) (r : Rect) : Prop where
  nextIn : ∀ n, e.next = some n → contains r n
  below : ∀ c, contains r c → ofs r c < pos r e.next → Owns events f c ∨ c ∈ e.exclusions.map Exclusion.coord
  excl : ∀ x ∈ e.exclusions, contains r x.coord ∧ ofs r x.coord < pos r e.next ∧ ¬Owns events f x.coord ∧ Because events x
  sorted : (e.exclusions.map Exclusion.coord).Pairwise Coord.lt
  seen : ∀ ev ∈ events, contains r ev.1 → ofs r ev.1 < pos r e.next

theorem owns_snoc {events : List (Coord × Record)} {f : ℕ} {c d : Coord} {rec_ : Record} : Owns (events ++ [(c, rec_)]) f d ↔ Owns events f d ∨ (c = d ∧ rec_.owner = some f) := by
  unfold Owns
  simp only [List.mem_append, List.mem_singleton]
  constructor
  · rintro ⟨e, he | rfl, h⟩
    · exact .inl ⟨e, he, h⟩
    · exact .inr h
  · rintro (⟨e, he, h⟩ | h)
    · exact ⟨e, .inl he, h⟩
    · exact ⟨_, .inr rfl, h⟩

theorem because_snoc {events : List (Coord × Record)} {x : Exclusion} {c : Coord} {rec_ : Record} (h : Because events x) (hne : c ≠ x.coord) : Because (events ++ [(c, rec_)]) x := by
  cases x with
  | hole d =>
    intro e he
    rcases List.mem_append.mp he with he | he
    · exact h e he
    · obtain rfl := List.mem_singleton.mp he
      exact hne
  | ordinary d => exact List.mem_append.mpr (.inl h)

theorem cov_outside {events : List (Coord × Record)} {f : ℕ} {e : Fam} {r : Rect} (h : Cov events f e r) {c : Coord} (rec_ : Record) (hc : ¬contains r c) : Cov (events ++ [(c, rec_)]) f e r := by
  refine ⟨h.nextIn, fun d hd hp => ?_, fun x hx => ?_, h.sorted, fun ev hev hr => ?_⟩
  · rcases h.below d hd hp with h | h
    · exact .inl (owns_snoc.mpr (.inl h))
    · exact .inr h
  · obtain ⟨h1, h2, h3, h4⟩ := h.excl x hx
    have hne : c ≠ x.coord := fun e => hc (e ▸ h1)
    refine ⟨h1, h2, ?_, because_snoc h4 hne⟩
    rw [owns_snoc]
    rintro (h | h)
    · exact h3 h
    · exact hne h.1
  · rcases List.mem_append.mp hev with hev | hev
    · exact h.seen ev hev hr
    · obtain rfl := List.mem_singleton.mp hev
      exact absurd hr hc

/-- Filling up with holes. -/
theorem cov_holes {events : List (Coord × Record)} {f : ℕ} {e : Fam} {r : Rect} (hv : valid r) (h : Cov events f e r) {n : Coord} (hn : e.next = some n) (t : ℕ) (ht : ofs r n ≤ t) (hta : t ≤ height r * width r) (next' : Option Coord) (hp : pos r next' = t) (hin : ∀ m, next' = some m → contains r m)
    (e' : Fam) (he1 : e'.exclusions = e.exclusions ++ (holes r (t - ofs r n) n).1) (he2 : e'.next = next') : Cov events f e' r := by
  have hpos : pos r e.next = ofs r n := by rw [hn]; rfl
  have hnin := h.nextIn n hn
  obtain ⟨i1, i2, -⟩ := holes_spec hv (t - ofs r n) n hnin (by omega)
  have hnone : ∀ d, contains r d → ofs r n ≤ ofs r d → ∀ ev ∈ events, ev.1 ≠ d := by
    rintro d hd hle ev hev rfl
    have := h.seen ev hev hd
    omega
  refine ⟨by rw [he2]; exact hin, ?_, ?_, ?_, ?_⟩
  · intro d hd hlt
    rw [he2, hp] at hlt
    rw [he1, List.map_append, List.mem_append]
    by_cases hb : ofs r d < ofs r n
    · rcases h.below d hd (by omega) with h | h
      · exact .inl h
      · exact .inr (.inl h)
    · exact .inr (.inr (List.mem_map.mpr ⟨.hole d, (i1 _).mpr ⟨d, rfl, hd, by omega, by omega⟩, rfl⟩))
  · intro x hx
    rw [he1] at hx
    rw [he2, hp]
    rcases List.mem_append.mp hx with hx | hx
    · obtain ⟨h1, h2, h3⟩ := h.excl x hx
      exact ⟨h1, by omega, h3⟩
    · obtain ⟨d, rfl, hd, h1, h2⟩ := (i1 x).mp hx
      simp only [Exclusion.coord]
      refine ⟨hd, by omega, ?_, hnone d hd h1⟩
      rintro ⟨ev, hev, h3, -⟩
      exact hnone d hd h1 ev hev h3
  · rw [he1, List.map_append, List.pairwise_append]
    refine ⟨h.sorted, i2, ?_⟩
    intro a ha b hb
    obtain ⟨x, hx, rfl⟩ := List.mem_map.mp ha
    obtain ⟨y, hy, rfl⟩ := List.mem_map.mp hb
    obtain ⟨h1, h2, -⟩ := h.excl x hx
    obtain ⟨d, rfl, hd, h3, -⟩ := (i1 y).mp hy
    exact (ofs_lt h1 hd).mpr (by omega)
  · intro ev hev hr
    have := h.seen ev hev hr
    rw [he2, hp]
    omega

/-- `append_holes` to the end of the rectangle. -/
theorem appendHoles_end {events : List (Coord × Record)} {f : ℕ} {e : Fam} {r : Rect} (hv : valid r) (h : Cov events f e r) {n : Coord} (hn : e.next = some n) (cap : ℕ) (ha : (appendHoles e r n none cap).anomaly = none) (he : e.anomaly = none) :
    Cov events f (appendHoles e r n none cap) r ∧ (appendHoles e r n none cap).next = none := by
  have hnin := h.nextIn n hn
  unfold appendHoles at *
  cases har : area r with
  | none => simp [har] at ha
  | some a =>
    have hae := area_eq har
    simp only [har, offset_ofs har hnin, stopOffset, fillHoles] at ha ⊢
    split at ha
    · simp at ha
    · rw [if_neg (by assumption)]
      have hlt := ofs_area hnin
      have key : ∀ e' : Fam, e'.exclusions = e.exclusions ++ (holes r (a - ofs r n) n).1 → e'.next = none → Cov events f e' r ∧ e'.next = none := by
        intro e' h1 h2
        exact ⟨cov_holes hv h hn a (by omega) (by omega) none (by rw [hae]; rfl) (by simp) e' h1 h2, h2⟩
      by_cases hb : (holes r (a - ofs r n) n).2 = true
      · rw [if_pos hb]
        exact key _ rfl rfl
      · rw [if_neg hb, if_pos trivial]
        exact key _ rfl rfl

/-- `append_holes` up to a cell of the rectangle. -/
theorem appendHoles_to {events : List (Coord × Record)} {f : ℕ} {e : Fam} {r : Rect} (hv : valid r) (h : Cov events f e r) {n c : Coord} (hn : e.next = some n) (hc : contains r c) (hle : ofs r n ≤ ofs r c) (cap : ℕ)
    (ha : (appendHoles e r n (some c) cap).anomaly = none) (he : e.anomaly = none) : Cov events f (appendHoles e r n (some c) cap) r ∧ (appendHoles e r n (some c) cap).next = some c := by
  have hnin := h.nextIn n hn
  have hlt := ofs_area hc
  unfold appendHoles at *
  cases har : area r with
  | none => simp [har] at ha
  | some a =>
    have hae := area_eq har
    simp only [har, offset_ofs har hnin, stopOffset, fillHoles, offset_ofs har hc, if_pos hc, Option.getD_some] at ha ⊢
    split at ha
    · simp at ha
    · rw [if_neg (by assumption)]
      obtain ⟨-, -, i3⟩ := holes_spec hv (ofs r c - ofs r n) n hnin (by omega)
      have hf : (holes r (ofs r c - ofs r n) n).2 ≠ true := fun hb => by
        have := i3 hb
        omega
      rw [if_neg hf, if_neg (by omega)]
      exact ⟨cov_holes hv h hn (ofs r c) hle (by omega) (some c) rfl (by intro m hm; rw [← Option.some.inj hm]; exact hc) _ rfl rfl, rfl⟩

/-- The cell `c` is dealt with. -/
theorem dispose_cov {events : List (Coord × Record)} {f : ℕ} {e : Fam} {r : Rect} (hv : valid r) (h : Cov events f e r) {c : Coord} (hn : e.next = some c) (hev : ∀ ev ∈ events, ev.1.lt c) (rec_ : Record) (cap : ℕ) (he : e.anomaly = none)
    (ha : (dispose e r c rec_ (rec_.owner = some f) cap).anomaly = none) :
    Cov (events ++ [(c, rec_)]) f (dispose e r c rec_ (rec_.owner = some f) cap) r ∧ (dispose e r c rec_ (rec_.owner = some f) cap).next = nextCoord c r := by
  have hc := h.nextIn c hn
  have hpos : pos r e.next = ofs r c := by rw [hn]; rfl
  have hne : ∀ x ∈ e.exclusions, c ≠ x.coord := by
    rintro x hx rfl
    have := (h.excl x hx).2.1
    omega
  have hnext := pos_next hv hc
  have hin : ∀ m, nextCoord c r = some m → contains r m := fun m hm => (next_in hv hc hm).1
  have hold : ∀ x ∈ e.exclusions, contains r x.coord ∧ ofs r x.coord < ofs r c + 1 ∧ ¬Owns (events ++ [(c, rec_)]) f x.coord ∧ Because (events ++ [(c, rec_)]) x := by
    intro x hx
    obtain ⟨h1, h2, h3, h4⟩ := h.excl x hx
    refine ⟨h1, by omega, ?_, because_snoc h4 (hne x hx)⟩
    rw [owns_snoc]
    rintro (h | h)
    · exact h3 h
    · exact hne x hx h.1
  have hseen : ∀ ev ∈ events ++ [(c, rec_)], contains r ev.1 → ofs r ev.1 < ofs r c + 1 := by
    intro ev hev hr
    rcases List.mem_append.mp hev with hev | hev
    · have := h.seen ev hev hr
      omega
    · obtain rfl := List.mem_singleton.mp hev
      exact Nat.lt_succ_self _
  have hbelow : ∀ d, contains r d → ofs r d < ofs r c + 1 → d ≠ c → Owns (events ++ [(c, rec_)]) f d ∨ d ∈ e.exclusions.map Exclusion.coord := by
    intro d hd hlt hdc
    have hne : ofs r d ≠ ofs r c := fun h => hdc (ofs_inj hd hc h)
    rcases h.below d hd (by omega) with h | h
    · exact .inl (owns_snoc.mpr (.inl h))
    · exact .inr h
  unfold dispose at ha ⊢
  by_cases hm : rec_.owner = some f
  · simp only [hm, decide_true, if_true]
    refine ⟨⟨hin, ?_, ?_, h.sorted, ?_⟩, trivial⟩
    · intro d hd hlt
      simp only [hnext] at hlt
      by_cases hdc : d = c
      · exact .inl (owns_snoc.mpr (.inr ⟨hdc.symm, hm⟩))
      · exact hbelow d hd hlt hdc
    · simp only [hnext]
      exact hold
    · simp only [hnext]
      exact hseen
  · simp only [hm, decide_false, Bool.false_eq_true, if_false] at ha ⊢
    cases rec_ with
    | ordinary =>
      simp only at ha ⊢
      unfold pushExclusion at ha ⊢
      split at ha
      · simp at ha
      · rw [if_neg (by assumption)]
        refine ⟨⟨hin, ?_, ?_, ?_, ?_⟩, trivial⟩
        · intro d hd hlt
          simp only [hnext] at hlt
          simp only [List.map_append, List.mem_append]
          by_cases hdc : d = c
          · exact .inr (.inr (by simp [Exclusion.coord, hdc]))
          · rcases hbelow d hd hlt hdc with h | h
            · exact .inl h
            · exact .inr (.inl h)
        · intro x hx
          simp only [hnext]
          rcases List.mem_append.mp hx with hx | hx
          · exact hold x hx
          · obtain rfl := List.mem_singleton.mp hx
            refine ⟨hc, Nat.lt_succ_self _, ?_, List.mem_append.mpr (.inr (by simp))⟩
            rw [owns_snoc]
            rintro (⟨ev, hev', h1, -⟩ | h)
            · have := hev ev hev'
              rw [h1] at this
              unfold Coord.lt at this
              simp only [Exclusion.coord] at this
              omega
            · exact hm h.2
        · simp only [List.map_append]
          rw [List.pairwise_append]
          refine ⟨h.sorted, by simp, ?_⟩
          intro a ha' b hb
          obtain ⟨x, hx, rfl⟩ := List.mem_map.mp ha'
          simp only [List.map_cons, List.map_nil, List.mem_singleton, Exclusion.coord] at hb
          subst hb
          exact (ofs_lt (h.excl x hx).1 hc).mpr (by have := (h.excl x hx).2.1; omega)
        · simp only [hnext]
          exact hseen
    | unsupported => simp at ha
    | anchor g q t => simp at ha
    | descendant g => simp at ha

/-- The family is still being filled, with the last cell met just before the next one; or it is done. -/
structure Live (act : Prop) (events : List (Coord × Record)) (e : Fam) (r : Rect) : Prop where
  on : act → ∃ ev ∈ events, contains r ev.1 ∧ ofs r ev.1 + 1 = pos r e.next
  off : ¬act → e.next = none ∧ ∃ ev ∈ events, r.stop.lt ev.1

theorem advance_cov {events : List (Coord × Record)} {f : ℕ} {e : Fam} {r : Rect} (hv : valid r) (h : Cov events f e r) (hl : Live True events e r) {c : Coord} (hev : ∀ ev ∈ events, ev.1.lt c) (rec_ : Record) (cap : ℕ) (he : e.anomaly = none)
    (ha : (advance e r c rec_ (rec_.owner = some f) cap).anomaly = none) :
    Cov (events ++ [(c, rec_)]) f (advance e r c rec_ (rec_.owner = some f) cap) r ∧ Live (c.le r.stop) (events ++ [(c, rec_)]) (advance e r c rec_ (rec_.owner = some f) cap) r := by
  obtain ⟨w, hw1, hw2, hw3⟩ := hl.on trivial
  unfold advance at ha ⊢
  simp only [he, ne_eq, not_true_eq_false, if_false] at ha ⊢
  by_cases hafter : r.stop.lt c
  · simp only [hafter, if_true] at ha ⊢
    have hout := not_after hafter
    have hle : ¬c.le r.stop := by unfold Coord.lt at hafter; unfold Coord.le; omega
    have hoff : ∀ e' : Fam, e'.next = none → Live (c.le r.stop) (events ++ [(c, rec_)]) e' r := fun e' h => ⟨fun h => absurd h hle, fun _ => ⟨h, (c, rec_), by simp, hafter⟩⟩
    cases hn : e.next with
    | none =>
      simp only
      exact ⟨cov_outside h rec_ hout, hoff e hn⟩
    | some n =>
      simp only [hn] at ha ⊢
      obtain ⟨k1, k2⟩ := appendHoles_end hv h hn cap ha he
      exact ⟨cov_outside k1 rec_ hout, hoff _ k2⟩
  · simp only [hafter, if_false] at ha ⊢
    have hle : c.le r.stop := by unfold Coord.lt at hafter; unfold Coord.le; omega
    by_cases hc : contains r c
    · simp only [hc, not_true_eq_false, if_false] at ha ⊢
      have hwc := (ofs_lt hw2 hc).mp (hev w hw1)
      cases hn : e.next with
      | none =>
        have := ofs_area hc
        rw [hn] at hw3
        simp only [pos] at hw3
        omega
      | some n =>
        rw [hn] at hw3
        simp only [pos] at hw3
        simp only [hn] at ha ⊢
        by_cases hap : (appendHoles e r n (some c) cap).anomaly = none
        · simp only [hap, not_true_eq_false, if_false] at ha ⊢
          obtain ⟨k1, k2⟩ := appendHoles_to hv h hn hc (by omega) cap hap he
          obtain ⟨d1, d2⟩ := dispose_cov hv k1 k2 hev rec_ cap hap ha
          refine ⟨d1, fun _ => ⟨(c, rec_), by simp, hc, ?_⟩, fun h => absurd hle h⟩
          rw [d2, pos_next hv hc]
        · simp only [hap, not_false_eq_true, if_true] at ha
    · simp only [hc, not_false_eq_true, if_true] at ha ⊢
      exact ⟨cov_outside h rec_ hc, fun _ => ⟨w, by simp [hw1], hw2, hw3⟩, fun h => absurd hle h⟩

/-- **C91.** Going on to a cell outside the rectangle and not behind its first one leaves no cell out. -/
theorem no_holes_before (e : Fam) (r : Rect) (cursor c : Coord) (cap : ℕ) (hc : ¬ contains r c)
    (hle : c.le r.start) : (appendHoles e r cursor (some c) cap).exclusions = e.exclusions := by
  unfold appendHoles
  cases area r with
  | none => rfl
  | some a =>
    cases offset r cursor with
    | none => rfl
    | some s => simp [stopOffset, hc, hle, fillHoles, holes]

/-- Cells B2 to C3, going on to A1. -/
example : (appendHoles {} ⟨⟨1, 1⟩, ⟨2, 2⟩⟩ ⟨1, 1⟩ (some ⟨0, 0⟩) 9).exclusions = [] := by
  decide +kernel

end Verif.Evid
