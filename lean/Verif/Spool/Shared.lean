import Verif.Spool.Store
import Mathlib.Data.List.Pairwise

/-!
# Shared formulas are expanded from their anchor
-/

namespace Verif.Spool

/-- What a record stands for: its own formula, or that of its anchor expanded to its cell, if its route keeps it. -/
def meaning (expand : List ℕ → Coord → Coord → Option (List ℕ)) (keep : ℕ → Coord → Bool) (keepOrdinary : Coord → Bool) (before : List Rec) (r : Rec) (after : List Rec) : Option Out :=
  match r with
  | .ordinary seq c text => if keepOrdinary c then some ⟨seq, c, text, none⟩ else none
  | .anchor seq c idx _ text => if keep idx c then some ⟨seq, c, text, some idx⟩ else none
  | .descendant seq c idx =>
    match anchorFor before after idx with
    | none => none
    | some (a, template) => if keep idx c then (expand template a c).map fun t => ⟨seq, c, t, some idx⟩ else none
  | .unsupported .. => none

/-- What the records after `before` stand for, in their order. -/
def meanings (expand : List ℕ → Coord → Coord → Option (List ℕ)) (keep : ℕ → Coord → Bool) (keepOrdinary : Coord → Bool) : List Rec → List Rec → List Out
  | _, [] => []
  | before, r :: rs => (meaning expand keep keepOrdinary before r rs).toList ++ meanings expand keep keepOrdinary (before ++ [r]) rs

variable {expand : List ℕ → Coord → Coord → Option (List ℕ)} {keep : ℕ → Coord → Bool} {keepOrdinary : Coord → Bool}

/-- A formula expanded from an anchor. -/
def expanded (expand : List ℕ → Coord → Coord → Option (List ℕ)) (keep : ℕ → Coord → Bool) (k seq : ℕ) (c : Coord) : Option (Coord × List ℕ) → Option Out
  | none => none
  | some (a, template) => if keep k c then (expand template a c).map fun t => ⟨seq, c, t, some k⟩ else none

/-- What a formula waiting for its anchor will become. -/
def late (expand : List ℕ → Coord → Coord → Option (List ℕ)) (keep : ℕ → Coord → Bool) (rs : List Rec) (p : ℕ × ℕ × Coord) : List Out :=
  (expanded expand keep p.1 p.2.1 p.2.2 (rs.filterMap (anchorOf p.1)).head?).toList

theorem late_skip {r : Rec} (rs : List Rec) (p : ℕ × ℕ × Coord) (h : anchorOf p.1 r = none) : late expand keep (r :: rs) p = late expand keep rs p := by
  unfold late
  rw [List.filterMap_cons_none h]

theorem late_here {r : Rec} (rs : List Rec) (p : ℕ × ℕ × Coord) {a : Coord × List ℕ} (h : anchorOf p.1 r = some a) : late expand keep (r :: rs) p = (expanded expand keep p.1 p.2.1 p.2.2 (some a)).toList := by
  unfold late
  rw [List.filterMap_cons_some h, List.head?_cons]

theorem emitWaiting_spec (idx : ℕ) (c : Coord) (text : List ℕ) (ws : List (ℕ × ℕ × Coord)) (hk : ∀ p ∈ ws, p.1 = idx) (w : List Out) (h : emitWaiting expand keep idx c text ws = some w) :
    w = ws.flatMap fun p => (expanded expand keep p.1 p.2.1 p.2.2 (some (c, text))).toList := by
  induction ws generalizing w with
  | nil => simpa [emitWaiting] using h.symm
  | cons p ws ih =>
    obtain ⟨k, seq, target⟩ := p
    have hk0 : k = idx := hk (k, seq, target) (by simp)
    subst hk0
    have hk' : ∀ p ∈ ws, p.1 = k := fun p hp => hk p (by simp [hp])
    rw [List.flatMap_cons]
    simp only [emitWaiting] at h
    by_cases hkeep : keep k target
    · simp only [hkeep, if_true, bind, Option.bind] at h
      cases ht : expand text c target with
      | none => simp [ht] at h
      | some t =>
        cases hr : emitWaiting expand keep k c text ws with
        | none => simp [ht, hr] at h
        | some rest =>
          simp only [ht, hr] at h
          rw [← Option.some.inj h, ← ih hk' rest hr]
          simp [expanded, hkeep, ht]
    · simp only [hkeep, Bool.false_eq_true, if_false] at h
      rw [← ih hk' w h]
      simp [expanded, hkeep]

/-- `shared` holds the last anchors, and nothing waits whose anchor is known. -/
structure Inv (before : List Rec) (s : RState) : Prop where
  shared : ∀ k, s.shared k = (before.filterMap (anchorOf k)).getLast?
  pending : ∀ p ∈ s.pending, s.shared p.1 = none

theorem inv_skip {before : List Rec} {s : RState} (h : Inv before s) {r : Rec} (hr : ∀ k, anchorOf k r = none) : Inv (before ++ [r]) s := by
  refine ⟨fun k => ?_, h.pending⟩
  rw [h.shared, List.filterMap_append, List.filterMap_cons_none (hr k), List.filterMap_nil, List.append_nil]

theorem replay_perm (rs : List Rec) (before : List Rec) (s : RState) (hi : Inv before s) (outs : List Out) (h : replayLoop expand keep rs s = some outs) :
    outs.Perm (s.pending.flatMap (late expand keep rs) ++ meanings expand keep (fun _ => true) before rs) := by
  induction rs generalizing before s outs with
  | nil =>
    have h0 : outs = [] := by simpa [replayLoop] using h.symm
    subst h0
    have : s.pending.flatMap (late expand keep []) = [] := by
      rw [List.flatMap_eq_nil_iff]
      intro p _
      simp [late, expanded]
    rw [this]
    exact List.Perm.refl _
  | cons r rs ih =>
    cases r with
    | ordinary seq c text =>
      simp only [replayLoop, bind, Option.bind] at h
      cases hr : replayLoop expand keep rs s with
      | none => simp [hr] at h
      | some rest =>
        simp only [hr] at h
        rw [← Option.some.inj h]
        have := ih _ s (inv_skip hi (r := .ordinary seq c text) fun k => rfl) rest hr
        have hl : s.pending.flatMap (late expand keep (.ordinary seq c text :: rs)) = s.pending.flatMap (late expand keep rs) := List.flatMap_congr fun p _ => late_skip rs p rfl
        rw [hl, meanings]
        simp only [meaning, if_true, Option.toList_some, List.singleton_append]
        exact (List.Perm.cons _ this).trans List.perm_middle.symm
    | anchor seq c idx range text =>
      simp only [replayLoop, bind, Option.bind] at h
      cases hw : emitWaiting expand keep idx c text (s.pending.filter fun p => p.1 = idx) with
      | none => simp [hw] at h
      | some w =>
        cases hr : replayLoop expand keep rs ⟨fun k => if k = idx then some (c, text) else s.shared k, s.pending.filter fun p => !(p.1 = idx)⟩ with
        | none => simp [hw, hr] at h
        | some rest =>
          simp only [hw, hr] at h
          rw [← Option.some.inj h]
          have hw' := emitWaiting_spec idx c text _ (by intro p hp; simpa using (List.mem_filter.mp hp).2) w hw
          have hinv : Inv (before ++ [.anchor seq c idx range text]) ⟨fun k => if k = idx then some (c, text) else s.shared k, s.pending.filter fun p => !(p.1 = idx)⟩ := by
            constructor
            · intro k
              rw [List.filterMap_append]
              by_cases hk : k = idx
              · subst hk
                simp [anchorOf]
              · have hk' : ¬idx = k := fun h => hk h.symm
                simp [anchorOf, hk, hk', hi.shared]
            · intro p hp
              obtain ⟨h1, h2⟩ := List.mem_filter.mp hp
              have hne : p.1 ≠ idx := by simpa using h2
              simp only [hne, if_false]
              exact hi.pending p h1
          have hrest := ih _ _ hinv rest hr
          simp only at hrest
          have hsplit : (s.pending.flatMap (late expand keep (.anchor seq c idx range text :: rs))).Perm (w ++ (s.pending.filter fun p => !(p.1 = idx)).flatMap (late expand keep rs)) := by
            refine (List.Perm.flatMap_right _ (List.filter_append_perm (fun p => decide (p.1 = idx)) s.pending)).symm.trans ?_
            rw [List.flatMap_append, hw']
            have e1 : (s.pending.filter fun p => decide (p.1 = idx)).flatMap (late expand keep (.anchor seq c idx range text :: rs)) = (s.pending.filter fun p => decide (p.1 = idx)).flatMap fun p => (expanded expand keep p.1 p.2.1 p.2.2 (some (c, text))).toList := by
              apply List.flatMap_congr
              intro p hp
              have hp1 : p.1 = idx := by simpa using (List.mem_filter.mp hp).2
              exact late_here rs p (by simp [anchorOf, hp1])
            have e2 : (s.pending.filter fun p => !decide (p.1 = idx)).flatMap (late expand keep (.anchor seq c idx range text :: rs)) = (s.pending.filter fun p => !decide (p.1 = idx)).flatMap (late expand keep rs) := by
              apply List.flatMap_congr
              intro p hp
              have hp1 : ¬idx = p.1 := by
                have := (List.mem_filter.mp hp).2
                simp only [Bool.not_eq_true', decide_eq_false_iff_not] at this
                exact fun h => this h.symm
              exact late_skip rs p (by simp [anchorOf, hp1])
            rw [e1, e2]
          rw [meanings]
          have hown : (meaning expand keep (fun _ => true) before (.anchor seq c idx range text) rs).toList = if keep idx c then [⟨seq, c, text, some idx⟩] else [] := by
            simp only [meaning]
            split <;> rfl
          rw [hown]
          generalize (if keep idx c = true then [(⟨seq, c, text, some idx⟩ : Out)] else []) = own
          have p1 : (own ++ w ++ rest).Perm (own ++ w ++ ((s.pending.filter fun p => !(p.1 = idx)).flatMap (late expand keep rs) ++ meanings expand keep (fun _ => true) (before ++ [.anchor seq c idx range text]) rs)) := List.Perm.append_left _ hrest
          refine p1.trans ?_
          rw [List.append_assoc, ← List.append_assoc w]
          refine (List.Perm.append_left own (List.Perm.append_right _ hsplit.symm)).trans ?_
          rw [← List.append_assoc, ← List.append_assoc]
          exact List.Perm.append_right _ List.perm_append_comm
    | descendant seq c idx =>
      have hskip : ∀ k, anchorOf k (.descendant seq c idx) = none := fun k => rfl
      have hl : ∀ l : List (ℕ × ℕ × Coord), l.flatMap (late expand keep (.descendant seq c idx :: rs)) = l.flatMap (late expand keep rs) := fun l => List.flatMap_congr fun p _ => late_skip rs p rfl
      have hm : meaning expand keep (fun _ => true) before (.descendant seq c idx) rs = expanded expand keep idx seq c (anchorFor before rs idx) := by
        simp only [meaning, expanded]
      rw [hl, meanings, hm]
      simp only [replayLoop] at h
      cases hs : s.shared idx with
      | none =>
        rw [hs] at h
        simp only at h
        have hinv : Inv (before ++ [.descendant seq c idx]) ⟨s.shared, s.pending ++ [(idx, seq, c)]⟩ := by
          refine ⟨(inv_skip hi hskip).shared, ?_⟩
          intro p hp
          rcases List.mem_append.mp hp with hp | hp
          · exact hi.pending p hp
          · obtain rfl := List.mem_singleton.mp hp
            exact hs
        have := ih _ _ hinv outs h
        simp only [List.flatMap_append, List.flatMap_cons, List.flatMap_nil, List.append_nil] at this
        have ha : anchorFor before rs idx = (rs.filterMap (anchorOf idx)).head? := by
          unfold anchorFor
          rw [← hi.shared, hs]
        rw [ha]
        rw [List.append_assoc] at this
        exact this
      | some at_ =>
        obtain ⟨a, template⟩ := at_
        rw [hs] at h
        simp only at h
        have ha : anchorFor before rs idx = some (a, template) := by
          unfold anchorFor
          rw [← hi.shared, hs]
        rw [ha]
        by_cases hkeep : keep idx c
        · simp only [hkeep, if_true, bind, Option.bind] at h
          cases ht : expand template a c with
          | none => simp [ht] at h
          | some t =>
            cases hr : replayLoop expand keep rs s with
            | none => simp [ht, hr] at h
            | some rest =>
              simp only [ht, hr] at h
              rw [← Option.some.inj h]
              have := ih _ s (inv_skip hi hskip) rest hr
              simp only [expanded, hkeep, if_true, ht, Option.map_some, Option.toList_some, List.singleton_append]
              exact (List.Perm.cons _ this).trans List.perm_middle.symm
        · simp only [hkeep, Bool.false_eq_true, if_false] at h
          have := ih _ s (inv_skip hi hskip) outs h
          simpa [expanded, hkeep] using this
    | unsupported seq c => simp [replayLoop] at h

theorem replay_meanings (rs : List Rec) (outs : List Out) (h : replayLoop expand keep rs ⟨fun _ => none, []⟩ = some outs) : outs.Perm (meanings expand keep (fun _ => true) [] rs) := by
  have := replay_perm rs [] ⟨fun _ => none, []⟩ ⟨fun k => rfl, by simp⟩ outs h
  simpa using this

/-! ## Order -/

theorem meaning_seq {before after : List Rec} {r : Rec} {o : Out} (h : meaning expand keep keepOrdinary before r after = some o) : o.seq = r.seq ∧ o.at_ = r.cell := by
  cases r with
  | ordinary seq c text =>
    simp only [meaning] at h
    split at h
    · rw [← Option.some.inj h]; exact ⟨rfl, rfl⟩
    · simp at h
  | anchor seq c idx range text =>
    simp only [meaning] at h
    split at h
    · rw [← Option.some.inj h]; exact ⟨rfl, rfl⟩
    · simp at h
  | descendant seq c idx =>
    simp only [meaning] at h
    cases ha : anchorFor before after idx with
    | none => simp [ha] at h
    | some a =>
      obtain ⟨a, t⟩ := a
      simp only [ha] at h
      split at h
      · obtain ⟨x, -, rfl⟩ := Option.map_eq_some_iff.mp h
        exact ⟨rfl, rfl⟩
      · simp at h
  | unsupported seq c => simp [meaning] at h

theorem meanings_mem {before rs : List Rec} {o : Out} (h : o ∈ meanings expand keep keepOrdinary before rs) : ∃ r ∈ rs, o.seq = r.seq ∧ o.at_ = r.cell := by
  induction rs generalizing before with
  | nil => simp [meanings] at h
  | cons r rs ih =>
    rw [meanings] at h
    rcases List.mem_append.mp h with h | h
    · exact ⟨r, by simp, meaning_seq (Option.mem_toList.mp h)⟩
    · obtain ⟨x, hx, e⟩ := ih h
      exact ⟨x, by simp [hx], e⟩

theorem meanings_pairwise {α : Type} (R : α → α → Prop) (f : Rec → α) (g : Out → α) (hfg : ∀ (o : Out) (r : Rec), o.seq = r.seq → o.at_ = r.cell → g o = f r) (before rs : List Rec) (h : rs.Pairwise fun a b => R (f a) (f b)) :
    (meanings expand keep keepOrdinary before rs).Pairwise fun a b => R (g a) (g b) := by
  induction rs generalizing before with
  | nil => simp [meanings]
  | cons r rs ih =>
    rw [List.pairwise_cons] at h
    rw [meanings]
    cases hm : meaning expand keep keepOrdinary before r rs with
    | none => simpa using ih _ h.2
    | some o =>
      obtain ⟨e1, e2⟩ := meaning_seq hm
      simp only [Option.toList_some, List.singleton_append, List.pairwise_cons]
      refine ⟨fun x hx => ?_, ih _ h.2⟩
      obtain ⟨y, hy, f1, f2⟩ := meanings_mem hx
      rw [hfg o r e1 e2, hfg x y f1 f2]
      exact h.1 y hy

theorem meanings_filter (before rs : List Rec) :
    (meanings expand keep (fun _ => true) before rs).filter (fun o => match o.family with | some idx => keep idx o.at_ | none => keepOrdinary o.at_) = meanings expand keep keepOrdinary before rs := by
  induction rs generalizing before with
  | nil => rfl
  | cons r rs ih =>
    rw [meanings, meanings, List.filter_append, ih]
    congr 1
    cases r with
    | ordinary seq c text =>
      simp only [meaning, if_true, Option.toList_some]
      by_cases hk : keepOrdinary c <;> simp [hk]
    | anchor seq c idx range text =>
      simp only [meaning]
      by_cases hk : keep idx c <;> simp [hk]
    | descendant seq c idx =>
      simp only [meaning]
      cases anchorFor before rs idx with
      | none => rfl
      | some a =>
        by_cases hk : keep idx c
        · simp only [hk, if_true]
          cases expand a.2 a.1 c with
          | none => rfl
          | some t => simp [hk]
        · simp [hk]
    | unsupported seq c => rfl

/-- C90.  The formulas of a sheet come back in the order of the source, each once: ordinary formulas and anchors as they are, the others expanded from the last anchor of their index before them, or else from the first one after. -/
theorem replay_spec (rs : List Rec) (hs : rs.Pairwise fun a b => a.seq < b.seq) (outs : List Out) (h : replayRouted expand keep keepOrdinary rs = some outs) : outs = meanings expand keep keepOrdinary [] rs := by
  unfold replayRouted at h
  obtain ⟨l, hl, rfl⟩ := Option.map_eq_some_iff.mp h
  have hp := (replay_meanings rs l hl).filter fun o => match o.family with | some idx => keep idx o.at_ | none => keepOrdinary o.at_
  rw [meanings_filter] at hp
  have hp2 := (List.mergeSort_perm (l.filter fun o => match o.family with | some idx => keep idx o.at_ | none => keepOrdinary o.at_) fun a b => decide (a.seq ≤ b.seq)).trans hp
  have hlt : (meanings expand keep keepOrdinary [] rs).Pairwise fun a b => a.seq < b.seq := meanings_pairwise (· < ·) Rec.seq Out.seq (fun _ _ e _ => e) [] rs hs
  have huniq : ∀ a ∈ meanings expand keep keepOrdinary [] rs, ∀ b ∈ meanings expand keep keepOrdinary [] rs, a.seq = b.seq → a = b := by
    intro a ha b hb e
    by_contra hne
    have hpw : (meanings expand keep keepOrdinary [] rs).Pairwise fun a b => a.seq ≠ b.seq := hlt.imp fun h => Nat.ne_of_lt h
    haveI : Std.Symm (fun a b : Out => a.seq ≠ b.seq) := ⟨fun _ _ h => h.symm⟩
    exact hpw.forall ha hb hne e
  refine List.Perm.eq_of_pairwise (le := fun a b => a.seq ≤ b.seq) ?_ ?_ (hlt.imp fun h => Nat.le_of_lt h) hp2
  · intro a b ha hb h1 h2
    exact huniq a (hp2.mem_iff.mp ha) b hb (Nat.le_antisymm h1 h2)
  · refine (List.pairwise_mergeSort ?_ ?_ _).imp fun h => of_decide_eq_true h
    · intro a b c h1 h2
      simp only [decide_eq_true_eq] at *
      omega
    · intro a b
      simp only [Bool.or_eq_true, decide_eq_true_eq]
      omega

/-- C90.  Asking for the formula of one cell gives the same. -/
theorem formulaAt_spec (rs : List Rec) (hc : rs.Pairwise fun a b => a.cell ≠ b.cell) (c : Coord) (f : Option Out) (h : formulaAt expand rs c = some f) :
    f = (meanings expand (fun _ _ => true) (fun _ => true) [] rs).find? fun o => o.at_ = c := by
  unfold formulaAt at h
  obtain ⟨l, hl, rfl⟩ := Option.map_eq_some_iff.mp h
  have hp := (replay_meanings rs l hl).filter fun o => decide (o.at_ = c)
  have hne : (meanings expand (fun _ _ => true) (fun _ => true) [] rs).Pairwise fun a b => a.at_ ≠ b.at_ := meanings_pairwise (· ≠ ·) Rec.cell Out.at_ (fun _ _ _ e => e) [] rs hc
  rw [← List.head?_filter]
  have hpw : ((meanings expand (fun _ _ => true) (fun _ => true) [] rs).filter fun o => decide (o.at_ = c)).Pairwise fun a b => a.at_ ≠ b.at_ := hne.filter _
  have hall : ∀ o ∈ (meanings expand (fun _ _ => true) (fun _ => true) [] rs).filter (fun o => decide (o.at_ = c)), o.at_ = c := by
    intro o ho
    simpa using (List.mem_filter.mp ho).2
  generalize (meanings expand (fun _ _ => true) (fun _ => true) [] rs).filter (fun o => decide (o.at_ = c)) = m at *
  match m, hp, hpw, hall with
  | [], hp, _, _ => rw [List.perm_nil.mp hp]; rfl
  | [x], hp, _, _ => rw [List.perm_singleton.mp hp]; rfl
  | x :: y :: m, _, hpw, hall =>
    exfalso
    rw [List.pairwise_cons] at hpw
    exact hpw.1 y (by simp) ((hall x (by simp)).trans (hall y (by simp)).symm)

theorem emitWaiting_total (he : ∀ t a c, expand t a c ≠ none) (idx : ℕ) (c : Coord) (text : List ℕ) (ws : List (ℕ × ℕ × Coord)) : emitWaiting expand keep idx c text ws ≠ none := by
  induction ws with
  | nil => simp [emitWaiting]
  | cons p ws ih =>
    obtain ⟨k, seq, target⟩ := p
    obtain ⟨w, hw⟩ := Option.ne_none_iff_exists'.mp ih
    obtain ⟨t, ht⟩ := Option.ne_none_iff_exists'.mp (he text c target)
    simp only [emitWaiting]
    split
    · simp [ht, hw]
    · exact ih

/-- C90.  Loading fails only for a record of a kind not supported, or where a formula cannot be expanded. -/
theorem replay_total (he : ∀ t a c, expand t a c ≠ none) (rs : List Rec) (hu : ∀ r ∈ rs, ∀ s c, r ≠ .unsupported s c) : replayRouted expand keep keepOrdinary rs ≠ none := by
  have gen : ∀ s, replayLoop expand keep rs s ≠ none := by
    induction rs with
    | nil => simp [replayLoop]
    | cons r rs ih =>
      have ih := ih fun x hx => hu x (by simp [hx])
      intro s
      cases r with
      | ordinary seq c text =>
        obtain ⟨l, hl⟩ := Option.ne_none_iff_exists'.mp (ih s)
        simp [replayLoop, hl]
      | anchor seq c idx range text =>
        obtain ⟨w, hw⟩ := Option.ne_none_iff_exists'.mp (emitWaiting_total (keep := keep) he idx c text (s.pending.filter fun p => p.1 = idx))
        obtain ⟨l, hl⟩ := Option.ne_none_iff_exists'.mp (ih ⟨fun k => if k = idx then some (c, text) else s.shared k, s.pending.filter fun p => !(p.1 = idx)⟩)
        simp only [replayLoop, hw, hl, bind, Option.bind]
        simp
      | descendant seq c idx =>
        simp only [replayLoop]
        cases s.shared idx with
        | none => exact ih _
        | some a =>
          obtain ⟨t, ht⟩ := Option.ne_none_iff_exists'.mp (he a.2 a.1 c)
          obtain ⟨l, hl⟩ := Option.ne_none_iff_exists'.mp (ih s)
          simp only
          split
          · simp [ht, hl]
          · exact ih s
      | unsupported seq c => exact absurd rfl (hu _ (by simp) seq c)
  unfold replayRouted
  intro h
  exact gen _ (Option.map_eq_none_iff.mp h)

/-- A descendant before its anchor, and one after. -/
example : replayRouted (fun t _ c => some (t ++ [c.row])) (fun _ _ => true) (fun _ => true) [.descendant 0 ⟨5, 0⟩ 3, .anchor 1 ⟨6, 0⟩ 3 none [65], .descendant 2 ⟨7, 0⟩ 3] =
    some [⟨0, ⟨5, 0⟩, [65, 5], some 3⟩, ⟨1, ⟨6, 0⟩, [65], some 3⟩, ⟨2, ⟨7, 0⟩, [65, 7], some 3⟩] := by
  obtain ⟨l, hl⟩ := Option.ne_none_iff_exists'.mp (replay_total (expand := fun t _ c => some (t ++ [c.row])) (keep := fun _ _ => true) (keepOrdinary := fun _ => true) (by simp)
    [.descendant 0 ⟨5, 0⟩ 3, .anchor 1 ⟨6, 0⟩ 3 none [65], .descendant 2 ⟨7, 0⟩ 3] (by simp))
  rw [hl, replay_spec _ (by decide) l hl]
  decide

end Verif.Spool
