import Mathlib.Data.List.Sort
import Verif.Route.Model
import Verif.Evid.Observe

/-!
# The sweep and the tree of rectangles

The sweep accepts just the lists of rectangles that share no cell, and the tree finds a
cell just when it lies in one of the rectangles.
-/

namespace Verif.Route

open Verif.Evid

theorem any_some {α : Type} {o : Option α} {p : α → Bool} (h : o.any p = true) : ∃ a, o = some a ∧ p a = true := by
  cases o with
  | none => cases h
  | some a => exact ⟨a, rfl, h⟩

theorem takeWhile_holds {α : Type} (p : α → Bool) (l : List α) (x : α) (h : x ∈ l.takeWhile p) : p x = true := by
  induction l with
  | nil => cases h
  | cons a l ih =>
    rw [List.takeWhile_cons] at h
    split at h
    next ha =>
      rcases List.mem_cons.mp h with rfl | h
      · exact ha
      · exact ih h
    · cases h

/-- No column in common, and `a` first. -/
def Before (a b : Rect) : Prop := a.stop.col < b.start.col

theorem last_before (x : Nat) (l : List Rect) (h : l.Pairwise Before) (hv : ∀ r ∈ l, valid r) (r : Rect) (hr : r ∈ l)
    (h1 : r.start.col ≤ x) (h2 : x ≤ r.stop.col) : (l.takeWhile fun a => a.start.col ≤ x).getLast? = some r := by
  induction l with
  | nil => cases hr
  | cons a t ih =>
    rw [List.pairwise_cons] at h
    rcases List.mem_cons.mp hr with rfl | hr
    · rw [List.takeWhile_cons, if_pos (by simpa using h1)]
      cases t with
      | nil => simp
      | cons b u =>
        have hb := h.1 b (by simp)
        unfold Before at hb
        rw [List.takeWhile_cons, if_neg (by simp; omega)]
        simp
    · have hb := h.1 r hr
      unfold Before at hb
      have hva := hv a (by simp)
      unfold valid at hva
      rw [List.takeWhile_cons, if_pos (by simp; omega), List.getLast?_cons,
        ih h.2 (fun r hr => hv r (by simp [hr])) hr]
      rfl

theorem last_spec (x : Nat) (l : List Rect) (r : Rect) (h : (l.takeWhile fun a => a.start.col ≤ x).getLast? = some r) :
    r ∈ l ∧ r.start.col ≤ x := by
  have hm := List.mem_of_getLast? h
  exact ⟨(List.takeWhile_sublist _).subset hm, by simpa using takeWhile_holds _ _ _ hm⟩

/-- Whether a column is met by one of the rectangles, looked for as the code does. -/
theorem first_from (x y : Nat) (l : List Rect) (h : l.Pairwise Before) (hv : ∀ r ∈ l, valid r) (r : Rect) (hr : r ∈ l)
    (h1 : x ≤ r.start.col) (h2 : r.start.col ≤ y) :
    ((l.dropWhile fun a => a.start.col < x).head?).any (fun a => a.start.col ≤ y) = true := by
  induction l with
  | nil => cases hr
  | cons a t ih =>
    rw [List.pairwise_cons] at h
    rw [List.dropWhile_cons]
    split
    next hx =>
      rcases List.mem_cons.mp hr with rfl | hr
      · simp at hx; omega
      · exact ih h.2 (fun r hr => hv r (by simp [hr])) hr
    next hx =>
      rcases List.mem_cons.mp hr with rfl | hr
      · simpa using h2
      · have hb := h.1 r hr
        unfold Before at hb
        have hva := hv a (by simp)
        unfold valid at hva
        simp
        omega

theorem first_spec (x : Nat) (l : List Rect) (r : Rect) (h : (l.dropWhile fun a => a.start.col < x).head? = some r) :
    r ∈ l ∧ x ≤ r.start.col := by
  have hm := List.mem_of_head? h
  refine ⟨(List.dropWhile_sublist _).subset hm, ?_⟩
  have := List.head?_dropWhile_not (fun a : Rect => decide (a.start.col < x)) l
  rw [h] at this
  simpa using this

/-- The columns of two rectangles meet. -/
def ColsMeet (a b : Rect) : Prop := a.start.col ≤ b.stop.col ∧ b.start.col ≤ a.stop.col

theorem check_iff (l : List Rect) (h : l.Pairwise Before) (hv : ∀ r ∈ l, valid r) (q : Rect) (hq : valid q) :
    (((l.takeWhile fun a => a.start.col ≤ q.start.col).getLast?).any (fun a => q.start.col ≤ a.stop.col)
        || ((l.dropWhile fun a => a.start.col < q.start.col).head?).any (fun a => a.start.col ≤ q.stop.col)) = true
      ↔ ∃ a ∈ l, ColsMeet a q := by
  unfold valid at hq
  constructor
  · intro hc
    rw [Bool.or_eq_true] at hc
    rcases hc with hc | hc
    · obtain ⟨a, ha, hs⟩ := any_some hc
      obtain ⟨hm, hl⟩ := last_spec _ _ _ ha
      simp only [decide_eq_true_eq] at hs
      exact ⟨_, hm, by omega, hs⟩
    · obtain ⟨a, ha, hs⟩ := any_some hc
      obtain ⟨hm, hl⟩ := first_spec _ _ _ ha
      simp only [decide_eq_true_eq] at hs
      have hva := hv _ hm
      unfold valid at hva
      exact ⟨_, hm, hs, by omega⟩
  · rintro ⟨a, ha, h1, h2⟩
    rw [Bool.or_eq_true]
    by_cases hle : a.start.col ≤ q.start.col
    · left
      rw [last_before _ l h hv a ha hle h2]
      simpa using h2
    · right
      exact first_from _ _ l h hv a ha (by omega) h1

theorem place_perm (r : Rect) (l : List Rect) (h : ∀ a ∈ l, a.start.col ≠ r.start.col) : (place r l).Perm (r :: l) := by
  induction l with
  | nil => exact .refl _
  | cons a l ih =>
    unfold place
    split
    · exact .refl _
    · split
      next _ he => exact absurd he.symm (h a (by simp))
      · exact ((ih fun b hb => h b (by simp [hb])).cons a).trans (.swap r a l)

theorem place_before (r : Rect) (l : List Rect) (h : l.Pairwise Before) (hv : ∀ a ∈ l, valid a) (hr : valid r)
    (hd : ∀ a ∈ l, ¬ColsMeet a r) : (place r l).Pairwise Before := by
  induction l with
  | nil => simp [place]
  | cons a l ih =>
    rw [List.pairwise_cons] at h
    have ha := hd a (by simp)
    have hva := hv a (by simp)
    unfold ColsMeet at ha
    unfold valid at hva hr
    unfold place
    split
    next hlt =>
      rw [List.pairwise_cons, List.pairwise_cons]
      refine ⟨?_, h⟩
      intro b hb
      rcases List.mem_cons.mp hb with rfl | hb
      · unfold Before; omega
      · have := h.1 b hb
        unfold Before at this ⊢
        omega
    next hlt =>
      split
      next he => exact absurd ⟨by omega, by omega⟩ ha
      next he =>
        have hne : ∀ b ∈ l, b.start.col ≠ r.start.col := by
          intro b hb e
          have hvb := hv b (by simp [hb])
          unfold valid at hvb
          exact hd b (by simp [hb]) ⟨by omega, by omega⟩
        rw [List.pairwise_cons]
        refine ⟨?_, ih h.2 (fun b hb => hv b (by simp [hb])) fun b hb => hd b (by simp [hb])⟩
        intro b hb
        rcases List.mem_cons.mp ((place_perm r l hne).mem_iff.mp hb) with rfl | hb
        · unfold Before; omega
        · exact h.1 b hb

/-- The rectangles whose start is still to come. -/
def starts (es : List Event) : List Rect := (es.filter fun e => e.isEnd = false).map Event.rect

/-- The rectangles whose end is still to come. -/
def ends (es : List Event) : List Rect := (es.filter fun e => e.isEnd = true).map Event.rect

theorem starts_cons (e : Event) (es : List Event) : starts (e :: es) = if e.isEnd then starts es else e.rect :: starts es := by
  unfold starts
  cases h : e.isEnd <;> simp [h]

theorem ends_cons (e : Event) (es : List Event) : ends (e :: es) = if e.isEnd then e.rect :: ends es else ends es := by
  unfold ends
  cases h : e.isEnd <;> simp [h]

theorem mem_starts {es : List Event} {r : Rect} : r ∈ starts es ↔ ∃ e ∈ es, e.isEnd = false ∧ e.rect = r := by
  unfold starts
  simp [and_assoc]

theorem mem_ends {es : List Event} {r : Rect} : r ∈ ends es ↔ ∃ e ∈ es, e.isEnd = true ∧ e.rect = r := by
  unfold ends
  simp [and_assoc]

/-- Two rectangles, one open when the other begins, meet just when their columns do. -/
theorem remove_perm (r : Rect) (l : List Rect) (h : l.Pairwise Before) (hv : ∀ a ∈ l, valid a) (hr : r ∈ l) :
    l.Perm (r :: l.filter fun a => a.start.col ≠ r.start.col) := by
  induction l with
  | nil => cases hr
  | cons a l ih =>
    rw [List.pairwise_cons] at h
    have hva := hv a (by simp)
    unfold valid at hva
    rcases List.mem_cons.mp hr with rfl | hr
    · rw [List.filter_cons, if_neg (by simp), List.filter_eq_self.mpr]
      intro b hb
      have hb' := h.1 b hb
      unfold Before at hb'
      simp
      omega
    · have hb := h.1 r hr
      unfold Before at hb
      rw [List.filter_cons, if_pos (by simp; omega)]
      exact ((ih h.2 (fun b hb => hv b (by simp [hb])) hr).cons a).trans (.swap r a _)

theorem sweep_iff (es : List Event) (A : List Rect) (hb : A.Pairwise Before) (hA : ∀ a ∈ A, valid a)
    (hE : ∀ e ∈ es, valid e.rect) (hs : es.Pairwise evLe) (hp : (A ++ starts es).Perm (ends es))
    (hr : ∀ a ∈ A, ∀ e ∈ es, a.start.row ≤ e.row)
    (hrow : ∀ e ∈ es, e.row = if e.isEnd then e.rect.stop.row else e.rect.start.row) :
    sweep A es = true ↔ (starts es).Pairwise (fun a b => ¬overlap a b) ∧ ∀ a ∈ A, ∀ r ∈ starts es, ¬overlap a r := by
  induction es generalizing A with
  | nil => simp [sweep, starts]
  | cons e es ih =>
    rw [List.pairwise_cons] at hs
    have hve := hE e (by simp)
    have hre := hrow e (by simp)
    have hE' : ∀ e ∈ es, valid e.rect := fun e he => hE e (by simp [he])
    have hrow' : ∀ e ∈ es, e.row = if e.isEnd then e.rect.stop.row else e.rect.start.row := fun e he => hrow e (by simp [he])
    rw [sweep]
    cases hend : e.isEnd with
    | true =>
      rw [if_pos rfl]
      rw [hend, if_pos rfl] at hre
      have later : ∀ r ∈ starts es, e.rect.stop.row < r.start.row := by
        intro r hm
        obtain ⟨f, hf, h1, rfl⟩ := mem_starts.mp hm
        have := hs.1 f hf
        have hrf := hrow' f hf
        rw [h1] at hrf
        simp at hrf
        unfold evLe at this
        rw [hend, h1] at this
        simp at this
        omega
      rw [starts_cons, ends_cons, hend] at hp
      simp only [if_true] at hp
      have hmem : e.rect ∈ A := by
        have : e.rect ∈ A ++ starts es := hp.mem_iff.mpr (by simp)
        rcases List.mem_append.mp this with h | h
        · exact h
        · have := later _ h
          unfold valid at hve
          omega
      have hrem := remove_perm e.rect A hb hA hmem
      rw [ih _ (hb.filter _) (fun a ha => hA a (List.mem_filter.mp ha).1) hE' hs.2
        (List.Perm.cons_inv ((hrem.symm.append_right _).trans hp))
        (fun a ha f hf => hr a (List.mem_filter.mp ha).1 f (by simp [hf])) hrow', starts_cons, hend]
      simp only [if_true]
      refine and_congr_right fun _ => ⟨?_, ?_⟩
      · intro h a ha r hm
        rcases List.mem_cons.mp (hrem.mem_iff.mp ha) with rfl | ha'
        · have := later r hm
          unfold overlap
          omega
        · exact h a ha' r hm
      · intro h a ha
        exact h a (List.mem_filter.mp ha).1
    | false =>
      rw [hend] at hre
      simp only [Bool.false_eq_true, if_false] at hre ⊢
      rw [starts_cons, ends_cons, hend] at hp
      simp only [Bool.false_eq_true, if_false] at hp
      have meet : ∀ a ∈ A, (overlap a e.rect ↔ ColsMeet a e.rect) := by
        intro a ha
        have h1 := hr a ha e (by simp)
        have : a ∈ ends es := hp.mem_iff.mp (by simp [ha])
        obtain ⟨f, hf, hf1, rfl⟩ := mem_ends.mp this
        have hle := hs.1 f hf
        have hrf := hrow' f hf
        rw [hf1, if_pos rfl] at hrf
        unfold evLe at hle
        unfold overlap ColsMeet
        unfold valid at hve
        constructor
        · intro h; omega
        · intro h
          refine ⟨by omega, by omega, h.1, h.2⟩
      by_cases hc : ∃ a ∈ A, ColsMeet a e.rect
      · rw [if_pos ((check_iff A hb hA e.rect hve).mpr hc)]
        obtain ⟨a, ha, hm⟩ := hc
        constructor
        · intro h; cases h
        · rintro ⟨-, h⟩
          exact absurd ((meet a ha).mpr hm) (h a ha e.rect (by rw [starts_cons, hend]; simp))
      · have hno : ∀ a ∈ A, ¬ColsMeet a e.rect := fun a ha hm => hc ⟨a, ha, hm⟩
        have hne : ∀ a ∈ A, a.start.col ≠ e.rect.start.col := by
          intro a ha he
          have hva := hA a ha
          unfold valid at hva hve
          exact hno a ha ⟨by omega, by omega⟩
        rw [if_neg (fun h => hc ((check_iff A hb hA e.rect hve).mp h)),
          if_neg (by simpa using hne)]
        have hperm := place_perm e.rect A hne
        rw [ih (place e.rect A) (place_before _ _ hb hA hve hno)
          (fun a ha => by
            rcases List.mem_cons.mp (hperm.mem_iff.mp ha) with rfl | ha
            · exact hve
            · exact hA a ha) hE' hs.2
          ((hperm.append_right _).trans (List.perm_middle.symm.trans hp))
          (fun a ha f hf => by
            rcases List.mem_cons.mp (hperm.mem_iff.mp ha) with rfl | ha
            · have := hs.1 f hf
              unfold evLe at this
              omega
            · exact hr a ha f (by simp [hf])) hrow', starts_cons, hend]
        simp only [Bool.false_eq_true, if_false, List.pairwise_cons, List.mem_cons]
        constructor
        · rintro ⟨h1, h2⟩
          refine ⟨⟨fun r hm => h2 _ (hperm.mem_iff.mpr (by simp)) r hm, h1⟩, ?_⟩
          rintro a ha r (rfl | hm)
          · exact fun ho => hno a ha ((meet a ha).mp ho)
          · exact h2 a (hperm.mem_iff.mpr (by simp [ha])) r hm
        · rintro ⟨⟨h1, h2⟩, h3⟩
          refine ⟨h2, ?_⟩
          intro a ha r hm
          rcases List.mem_cons.mp (hperm.mem_iff.mp ha) with rfl | ha
          · exact h1 r hm
          · exact h3 a ha r (.inr hm)

theorem events_spec (i : Nat) (rs : List Rect) : starts (events i rs) = rs ∧ ends (events i rs) = rs ∧
    ∀ e ∈ events i rs, e.rect ∈ rs ∧ e.row = if e.isEnd then e.rect.stop.row else e.rect.start.row := by
  induction rs generalizing i with
  | nil => simp [events, starts, ends]
  | cons r rs ih =>
    obtain ⟨h1, h2, h3⟩ := ih (i + 1)
    rw [events]
    refine ⟨by simp [starts_cons, h1], by simp [ends_cons, h2], ?_⟩
    intro e he
    simp only [List.mem_cons] at he
    rcases he with rfl | rfl | he
    · simp
    · simp
    · exact ⟨by simp [(h3 e he).1], (h3 e he).2⟩

instance : Std.Total evLe := ⟨fun a b => by
  unfold evLe
  rcases a with ⟨_, _ | _, _, _⟩ <;> rcases b with ⟨_, _ | _, _, _⟩ <;> simp <;> omega⟩

instance : IsTrans Event evLe := ⟨fun a b c => by
  unfold evLe
  rcases a with ⟨_, _ | _, _, _⟩ <;> rcases b with ⟨_, _ | _, _, _⟩ <;> rcases c with ⟨_, _ | _, _, _⟩ <;> simp <;> omega⟩

/-- C108. The sweep over the rows accepts just the rectangles that share no cell. -/
theorem disjointOk_iff (rs : List Rect) (hv : ∀ r ∈ rs, valid r) :
    disjointOk rs = true ↔ rs.Pairwise fun a b => ∀ c, ¬(contains a c ∧ contains b c) := by
  obtain ⟨h1, h2, h3⟩ := events_spec 0 rs
  have hperm := List.perm_insertionSort evLe (events 0 rs)
  have hS : (starts ((events 0 rs).insertionSort evLe)).Perm rs := by
    have := (hperm.filter fun e => e.isEnd = false).map Event.rect
    exact this.trans (by rw [show ((events 0 rs).filter fun e => e.isEnd = false).map Event.rect = rs from h1])
  have hN : (ends ((events 0 rs).insertionSort evLe)).Perm rs := by
    have := (hperm.filter fun e => e.isEnd = true).map Event.rect
    exact this.trans (by rw [show ((events 0 rs).filter fun e => e.isEnd = true).map Event.rect = rs from h2])
  unfold disjointOk
  rw [sweep_iff _ [] .nil (by simp) (fun e he => hv _ (h3 e (hperm.mem_iff.mp he)).1)
    (List.pairwise_insertionSort evLe _) (by simpa using hS.trans hN.symm) (by simp)
    (fun e he => (h3 e (hperm.mem_iff.mp he)).2)]
  have hsym : ∀ {a b : Rect}, ¬overlap a b → ¬overlap b a := by
    intro a b h h'
    unfold overlap at h h'
    omega
  rw [hS.pairwise_iff hsym]
  simp only [List.not_mem_nil, false_implies, implies_true, and_true]
  have go : ∀ (a b : Rect), a ∈ rs → b ∈ rs → (¬overlap a b ↔ ∀ c, ¬(contains a c ∧ contains b c)) := by
    intro a b ha hb
    rw [overlap_iff (hv a ha) (hv b hb), not_exists]
  exact List.Pairwise.iff_of_mem (fun {a b} ha hb => go a b ha hb)

/-- The rectangles of the tests meet the hypotheses; nesting is found, though it shows neither at the start nor at the
end of the outer one. -/
example : disjointOk [⟨⟨0, 0⟩, ⟨9, 0⟩⟩, ⟨⟨0, 1⟩, ⟨4, 3⟩⟩, ⟨⟨5, 1⟩, ⟨9, 3⟩⟩] = true ∧
    disjointOk [⟨⟨0, 0⟩, ⟨9, 9⟩⟩, ⟨⟨4, 4⟩, ⟨5, 5⟩⟩] = false := by decide +kernel

end Verif.Route
