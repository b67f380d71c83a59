import Verif.Evid.Observe

/-!
The number of exclusions a family may have.
-/

namespace Verif.Evid

theorem holes_length (r : Rect) (n : ℕ) (c : Coord) : (holes r n c).1.length ≤ n := by
  induction n generalizing c with
  | zero => simp [holes]
  | succ n ih =>
    simp only [holes]
    split
    · simp
    · have := ih ‹Coord›
      simp only [List.length_cons]
      omega

theorem fillHoles_length (e : Fam) (r : Rect) (n : Coord) (stop : Option Coord) (cap a s t m : ℕ) (hc : cap ≤ m) (h : e.exclusions.length ≤ m) :
    (fillHoles e r n stop cap a s t).exclusions.length ≤ m := by
  have hl := holes_length r (t - s) n
  unfold fillHoles
  split
  · exact h
  · split <;>
    · simp only [List.length_append]
      omega

theorem appendHoles_length (e : Fam) (r : Rect) (n : Coord) (stop : Option Coord) (cap m : ℕ) (hc : cap ≤ m) (h : e.exclusions.length ≤ m) :
    (appendHoles e r n stop cap).exclusions.length ≤ m := by
  unfold appendHoles
  split
  · exact h
  · split
    · exact h
    · exact fillHoles_length _ _ _ _ _ _ _ _ _ hc h

theorem dispose_length (e : Fam) (r : Rect) (c : Coord) (rec_ : Record) (mine : Bool) (cap m : ℕ) (hc : cap ≤ m) (h : e.exclusions.length ≤ m) :
    (dispose e r c rec_ mine cap).exclusions.length ≤ m := by
  unfold dispose
  split
  · exact h
  · split
    · simp only [pushExclusion]
      split
      · exact h
      · simp only [List.length_append, List.length_cons, List.length_nil]
        omega
    · exact h
    · exact h

theorem advance_length (e : Fam) (r : Rect) (c : Coord) (rec_ : Record) (mine : Bool) (cap m : ℕ) (hc : cap ≤ m) (h : e.exclusions.length ≤ m) :
    (advance e r c rec_ mine cap).exclusions.length ≤ m := by
  unfold advance
  split
  · exact h
  · split
    · split
      · exact appendHoles_length _ _ _ _ _ _ hc h
      · exact h
    · split
      · exact h
      · simp only
        split
        · split
          · exact appendHoles_length _ _ _ _ _ _ hc h
          · exact dispose_length _ _ _ _ _ _ _ hc (appendHoles_length _ _ _ _ _ _ hc h)
        · split
          · exact h
          · exact dispose_length _ _ _ _ _ _ _ hc h

theorem advanceLoop_length (c : Coord) (rec_ : Record) (cap m : ℕ) (hc : cap ≤ m) (act : List ℕ) (fams : ℕ → Fam) (h : ∀ f, (fams f).exclusions.length ≤ m) :
    ∀ f, ((advanceLoop c rec_ cap act fams).1 f).exclusions.length ≤ m := by
  induction act generalizing fams with
  | nil => exact h
  | cons g act ih =>
    simp only [advanceLoop]
    split
    · exact ih fams h
    · refine ih _ fun f => ?_
      split
      · exact advance_length _ _ _ _ _ _ _ hc (h _)
      · exact h f

/-- No family has more exclusions than the limit. -/
def Bounded (m : ℕ) (s : State) : Prop := ∀ f, (s.fams f).exclusions.length ≤ m

theorem Bounded.fams {m : ℕ} {s t : State} (h : Bounded m s) (e : t.fams = s.fams) : Bounded m t := fun f => by rw [e]; exact h f

theorem Bounded.set {m : ℕ} {s : State} (h : Bounded m s) (f : ℕ) {e : Fam} (he : e.exclusions.length ≤ m) : Bounded m (s.set f e) := by
  intro k
  simp only [State.set]
  split
  · exact he
  · exact h k

theorem Bounded.halt {m : ℕ} {s : State} (h : Bounded m s) (r : Reason) : Bounded m (s.halt r) := h.fams (halt_fields s r).1

theorem capOf_le (cfg : Config) (s : State) : capOf cfg s ≤ cfg.maxExclusions := Nat.min_le_left _ _

theorem Bounded.advance {cfg : Config} {s : State} (h : Bounded cfg.maxExclusions s) (c : Coord) (rec_ : Record) : Bounded cfg.maxExclusions (s.advance cfg c rec_) := by
  have h' := advanceLoop_length c rec_ (capOf cfg s) cfg.maxExclusions (capOf_le cfg s) s.active s.fams h
  unfold State.advance
  simp only
  split
  · exact Bounded.halt (fun f => h' f) _
  · exact fun f => h' f

theorem Bounded.conflicts {m : ℕ} {s : State} (h : Bounded m s) (f : ℕ) (q : Option Rect) : Bounded m (s.markConflicts f q) := by
  cases q with
  | none => exact h
  | some r =>
    intro k
    simp only [State.markConflicts]
    split
    · exact h k
    · exact h k

theorem Bounded.anchor {m : ℕ} {s : State} (h0 : Bounded m s) (cfg : Config) (c : Coord) (f : ℕ) (range : Option Rect) (text : List ℕ) : Bounded m (s.anchor cfg c f range text) := by
  have h := h0.conflicts f range
  generalize hs : s.markConflicts f range = t at h
  unfold State.anchor
  simp only [hs]
  split
  · refine Bounded.halt (h.set f ?_) _
    exact h f
  · split
    · refine h.set f ?_
      split <;> exact h f
    · rename_i r
      split
      · refine h.set f ?_
        split <;> exact h f
      · split
        · refine Bounded.halt (h.set f ?_) _
          split <;> (try split) <;> exact h f
        · refine fun k => ?_
          simp only [State.set]
          split
          · simp only
            split <;> (try split) <;> exact h f
          · exact h k

theorem Bounded.descendant {m : ℕ} {s : State} (h : Bounded m s) (c : Coord) (f : ℕ) : Bounded m (s.descendant c f) := by
  unfold State.descendant
  simp only
  split
  · exact h.halt _
  · split
    · split
      · exact h
      · exact h.set f (h f)
    · exact h.set f (h f)

theorem Bounded.order {m : ℕ} {s : State} (h : Bounded m s) (c : Coord) : Bounded m (s.order c) := by
  unfold State.order
  simp only
  split
  · split
    · exact (h.halt _).fams rfl
    · split
      · exact (h.halt _).fams rfl
      · exact h.fams rfl
  · exact h.fams rfl

theorem Bounded.ensure {m : ℕ} {s : State} (h : Bounded m s) (cfg : Config) (f : ℕ) : Bounded m (s.ensure cfg f).1 := by
  unfold State.ensure
  split
  · exact h
  · split
    · exact h
    · split
      · exact h.halt _
      · exact h.fams rfl

theorem Bounded.counted {m : ℕ} {s : State} (h : Bounded m s) (cfg : Config) (rec_ : Record) : Bounded m (counted cfg s rec_).1 := by
  unfold Verif.Evid.counted
  split
  · rename_i f _
    have h' := h.ensure cfg f
    simp only
    split
    · exact h'.set f (h' f)
    · exact h'
  · exact h

theorem Bounded.observe {cfg : Config} {s : State} (h : Bounded cfg.maxExclusions s) (c : Coord) (rec_ : Record) : Bounded cfg.maxExclusions (s.observe cfg c rec_) := by
  have h1 := (h.order c).counted cfg rec_
  have h2 := h1.advance c rec_
  rw [observe_eq]
  split
  · exact h1
  · split
    · exact h1
    · split
      · exact h2
      · split
        · exact h2
        · exact h2
        · exact h2.anchor _ _ _ _ _
        · exact h2.descendant _ _

theorem observeAll_bounded (cfg : Config) (events : List (Coord × Record)) : Bounded cfg.maxExclusions (observeAll cfg events) := by
  unfold observeAll
  have : ∀ s : State, Bounded cfg.maxExclusions s → Bounded cfg.maxExclusions (events.foldl (fun s e => s.observe cfg e.1 e.2) s) := by
    induction events with
    | nil => exact fun s h => h
    | cons e es ih => exact fun s h => ih _ (h.observe _ _)
  exact this {} fun f => Nat.zero_le _

theorem finishLoop_bounded (cfg : Config) (fs : List ℕ) (s : State) (h : Bounded cfg.maxExclusions s) : Bounded cfg.maxExclusions (finishLoop cfg fs s) := by
  induction fs generalizing s with
  | nil => exact h
  | cons f fs ih =>
    simp only [finishLoop]
    split
    · exact ih s h
    · rename_i r _
      apply ih
      refine Bounded.fams (s := s.set f _) ?_ rfl
      refine h.set f ?_
      split
      · exact h f
      · split
        · exact appendHoles_length _ _ _ _ _ _ (capOf_le cfg s) (h f)
        · exact h f

theorem collectFamilies_bounded (cfg : Config) (fams : ℕ → Fam) (m : ℕ) (h : ∀ f, (fams f).exclusions.length ≤ m) (fs : List ℕ) (bytes : ℕ) (o : List Clean × List Fragmented) (ho : collectFamilies cfg fams fs bytes = some o) :
    ∀ p ∈ o.2, p.exclusions.length ≤ m := by
  induction fs generalizing bytes o with
  | nil =>
    simp only [collectFamilies, Option.some.injEq] at ho
    subst ho
    simp
  | cons f fs ih =>
    simp only [collectFamilies] at ho
    cases hf : finishOne cfg f (fams f) bytes with
    | none => simp [hf] at ho
    | some x =>
      obtain ⟨c, g, b⟩ := x
      simp only [hf] at ho
      obtain ⟨o', ho', rfl⟩ := Option.map_eq_some_iff.mp ho
      intro p hp
      rcases List.mem_append.mp hp with hp | hp
      · have hg : g = some p := by simpa using hp
        subst hg
        unfold finishOne at hf
        split at hf
        · split at hf
          · split at hf
            · simp at hf
            · split at hf
              · simp at hf
              · simp only at hf
                split at hf
                · simp at hf
                · simp only [Option.some.injEq, Prod.mk.injEq] at hf
                  rw [← hf.2.1]
                  exact h f
          · simp at hf
        · simp at hf
      · exact ih b o' ho' p hp

/-- C91.  A family taken in parts has at most the agreed number of excluded cells. -/
theorem exclusions_bounded (cfg : Config) (events : List (Coord × Record)) (clean : List Clean) (frag : List Fragmented) (h : (observeAll cfg events).finish cfg = some (clean, frag)) (p : Fragmented) (hp : p ∈ frag) :
    p.exclusions.length ≤ cfg.maxExclusions := by
  unfold State.finish at h
  split at h
  · simp only [Option.some.injEq, Prod.mk.injEq] at h
    rw [← h.2] at hp
    simp at hp
  · simp only at h
    split at h
    · simp only [Option.some.injEq, Prod.mk.injEq] at h
      rw [← h.2] at hp
      simp at hp
    · exact collectFamilies_bounded cfg _ _ (finishLoop_bounded cfg _ _ (observeAll_bounded cfg events)) _ _ _ h p hp

/-- With at most one exclusion the family of two is taken, with none it is given up. -/
example : (observeAll ⟨8388608, 1, 128, 256, 16, 12, 20, 8⟩ [(⟨0, 0⟩, .anchor 1 (some ⟨⟨0, 0⟩, ⟨3, 0⟩⟩) [65]), (⟨1, 0⟩, .descendant 1), (⟨3, 0⟩, .descendant 1)]).finish ⟨8388608, 1, 128, 256, 16, 12, 20, 8⟩ =
    some ([], [⟨1, ⟨0, 0⟩, [65], ⟨⟨0, 0⟩, ⟨3, 0⟩⟩, [.rowRun 0 1 0], [⟨3, 0⟩], [.hole ⟨2, 0⟩], 3⟩]) ∧
    (observeAll ⟨8388608, 0, 128, 256, 16, 12, 20, 8⟩ [(⟨0, 0⟩, .anchor 1 (some ⟨⟨0, 0⟩, ⟨3, 0⟩⟩) [65]), (⟨1, 0⟩, .descendant 1), (⟨3, 0⟩, .descendant 1)]).finish ⟨8388608, 0, 128, 256, 16, 12, 20, 8⟩ =
    some ([], []) := by
  decide +kernel

end Verif.Evid
