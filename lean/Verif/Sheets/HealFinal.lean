/-
Property C66: removing a sheet and adding it again, and what goes wrong otherwise.
-/
import Verif.Sheets.HealThms

namespace Verif.Sheets

open Verif.Arena

variable {lower : String → String}

/-- What a formula misses is not there. -/
def Gone (lower : String → String) (g : Spec) : Prop :=
  ∀ v f t, g.fmls v = some f → Target.missing t ∈ f.targets → g.reg.getId lower t = none

theorem mem_restore {s t : String} {j : Nat} {ts : List Target} (h : Target.missing t ∈ ts.map (Target.restore s j)) : t ≠ s ∧ Target.missing t ∈ ts := by
  obtain ⟨x, hx, he⟩ := List.mem_map.1 h
  cases x with
  | own => cases he
  | live i => cases he
  | missing u =>
    simp only [Target.restore] at he
    split at he
    · cases he
    · next hne => cases he; exact ⟨hne, hx⟩

theorem mem_lose {s t : String} {i : Nat} {ts : List Target} (h : Target.missing t ∈ ts.map (Target.lose s i)) : t = s ∨ Target.missing t ∈ ts := by
  obtain ⟨x, hx, he⟩ := List.mem_map.1 h
  cases x with
  | own => cases he
  | live j =>
    simp only [Target.lose] at he
    split at he
    · cases he; exact Or.inl rfl
    · cases he
  | missing u => cases he; exact Or.inr hx

theorem idFor_getId {g : Reg} {s : String} (h : g.getId lower s = none) (t : String) :
    (g.idFor lower s).1.getId lower t = if lower t = lower s then some (g.names.length % 2 ^ 16) else g.getId lower t := by
  unfold Reg.getId at h ⊢
  unfold Reg.idFor
  rw [h]

theorem remove_getId {g g' : Reg} {i : Nat} (h : graphRemove lower g i = some g') :
    g.name i ≠ "" ∧ ∀ t, g'.getId lower t = if lower t = lower (g.name i) then none else g.getId lower t := by
  unfold graphRemove at h
  split at h
  · cases h
  · next hi =>
    refine ⟨hi, fun t => ?_⟩
    split at h
    · cases h
    · unfold Reg.remove at h
      rw [name_getElem rfl hi] at h
      dsimp only at h
      rw [if_neg hi] at h
      cases h
      rfl

theorem rename_getId {g g' : Reg} {i : Nat} {s : String} (h : graphRename lower g i s = some g') (hs : g.getId lower s = none) :
    g.name i ≠ "" ∧ ∀ t, g'.getId lower t = if lower t = lower s then some i else if lower t = lower (g.name i) then none else g.getId lower t := by
  unfold graphRename at h
  split at h
  · cases h
  · split at h
    · cases h
    · next hi =>
      refine ⟨hi, fun t => ?_⟩
      rw [hs] at h
      dsimp only at h
      unfold Reg.rename at h
      rw [name_getElem rfl hi] at h
      dsimp only at h
      split at h
      · cases h
      · cases h; rfl

/-- Under allowed operations, what a formula misses is never there. -/
theorem gone_step {sp : Spec} (h : Gone lower sp) {op : FOp} (ha : Allowed lower sp op) : Gone lower (sp.step lower op) := by
  obtain ⟨reg, fmls⟩ := sp
  have restored : ∀ {s : String} {j : Nat} {v : Nat} {f : SFml} {t : String}, (fmls v).map (SFml.restore s j) = some f → Target.missing t ∈ f.targets →
      ∃ f', fmls v = some f' ∧ t ≠ s ∧ Target.missing t ∈ f'.targets := by
    intro s j v f t hf ht
    cases hv : fmls v with
    | none => rw [hv] at hf; cases hf
    | some f' =>
      rw [hv] at hf
      cases hf
      exact ⟨f', rfl, mem_restore ht⟩
  have added : ∀ s, reg.getId lower s = none → SpelledAlike lower ⟨reg, fmls⟩ s →
      Gone lower ⟨(reg.idFor lower s).1, fun v => (fmls v).map (SFml.restore s (reg.idFor lower s).2)⟩ := by
    intro s hg hal v f t hf ht
    obtain ⟨f', h1, h2, h3⟩ := restored hf ht
    rw [idFor_getId hg, if_neg fun e => h2 (hal v f' t h1 h3 e)]
    exact h v f' t h1 h3
  cases op with
  | add s =>
    simp only [Spec.step]
    cases hg : reg.getId lower s with
    | some i => exact h
    | none => exact added s hg ha.2
  | touch s =>
    simp only [Spec.step]
    cases hg : reg.getId lower s with
    | some i => exact h
    | none => exact added s hg fun v f t hf ht e => absurd e (ha.2 v f t hf ht)
  | remove i =>
    simp only [Spec.step]
    cases hr : graphRemove lower reg i with
    | none => exact h
    | some reg' =>
      obtain ⟨_, hk⟩ := remove_getId hr
      intro v f t hf ht
      dsimp only at hf ⊢
      rw [hk]
      cases hv : fmls v with
      | none => rw [hv] at hf; cases hf
      | some f' =>
        rw [hv] at hf
        dsimp only at hf
        split at hf
        · cases hf
        · cases hf
          split
          · rfl
          · next hne =>
            rcases mem_lose ht with e | hm
            · exact absurd (by rw [e]) hne
            · exact h v f' t hv hm
  | rename i s =>
    simp only [Spec.step]
    cases hr : graphRename lower reg i s with
    | none => exact h
    | some reg' =>
      cases hg : reg.getId lower s with
      | some _ => exact h
      | none =>
        obtain ⟨_, hk⟩ := rename_getId hr hg
        intro v f t hf ht
        obtain ⟨f', h1, h2, h3⟩ := restored hf ht
        dsimp only
        rw [hk, if_neg fun e => h2 (ha.2 v f' t h1 h3 e)]
        split
        · rfl
        · exact h v f' t h1 h3
  | set v home names =>
    simp only [Spec.step]
    split
    · exact h
    · intro u f t hf ht
      dsimp only at hf
      split at hf
      · cases hf
        obtain ⟨n, _, he⟩ := List.mem_map.1 ht
        cases n with
        | none => cases he
        | some s =>
          dsimp only at he
          cases hg : reg.getId lower s with
          | some i => rw [hg] at he; cases he
          | none => rw [hg] at he; cases he; exact hg
      · exact h u f t hf ht
  | clear v =>
    intro u f t hf ht
    simp only [Spec.step] at hf
    split at hf
    · cases hf
    · exact h u f t hf ht

theorem gone_run (ops : List FOp) {sp : Spec} (h : Gone lower sp) (ha : AllAllowed lower sp ops) : Gone lower (sp.run lower ops) := by
  induction ops generalizing sp with
  | nil => exact h
  | cons op ops ih => exact ih (gone_step h ha.1) ha.2

theorem lose_restore_show {reg reg' : Reg} {i j : Nat} {ts : List Target} (hj : reg'.name j = reg.name i) (hi : reg.name i ≠ "")
    (hm : Target.missing (reg.name i) ∉ ts) (hk : ∀ k, Target.live k ∈ ts → k ≠ i → reg'.name k = reg.name k) :
    ((ts.map (Target.lose (reg.name i) i)).map (Target.restore (reg.name i) j)).map (Target.show reg') = ts.map (Target.show reg) ∧
      ((ts.map (Target.lose (reg.name i) i)).map (Target.restore (reg.name i) j)).any Target.isMissing = ts.any Target.isMissing := by
  have key : ∀ t ∈ ts, ((Target.lose (reg.name i) i t).restore (reg.name i) j).show reg' = t.show reg ∧
      ((Target.lose (reg.name i) i t).restore (reg.name i) j).isMissing = t.isMissing := by
    intro t ht
    cases t with
    | own => exact ⟨rfl, rfl⟩
    | live k =>
      by_cases e : k = i
      · subst e
        simp [Target.lose, Target.restore, Target.show, Target.isMissing, hj]
      · simp [Target.lose, Target.restore, Target.show, Target.isMissing, e, hk k ht e]
    | missing u =>
      have : u ≠ reg.name i := fun e => hm (e ▸ ht)
      simp [Target.lose, Target.restore, Target.show, Target.isMissing, this]
  constructor
  · rw [List.map_map, List.map_map]
    exact List.map_congr_left fun t ht => (key t ht).1
  · rw [List.any_map, List.any_map, Bool.eq_iff_iff, List.any_eq_true, List.any_eq_true]
    constructor
    · rintro ⟨t, ht, h⟩; exact ⟨t, ht, (key t ht).2 ▸ h⟩
    · rintro ⟨t, ht, h⟩; exact ⟨t, ht, by simpa only [Function.comp, (key t ht).2] using h⟩

/-- A sheet that is removed and added again under its name: all formulas on the other sheets are shown as before, and are broken
only if they were before.  Here no formula that refers to the sheet is half restored. -/
theorem remove_add_restores (hl : Lower lower) (ops : List FOp) (ha : AllAllowed lower Spec.new ops) (hn : ops.length + 2 ≤ 2 ^ 16) {i v : Nat} {f : Fml}
    (hf : (Graph.new.run lower ops).fmls v = some f) (hh : f.home ≠ i)
    (hi0 : (Graph.new.run lower ops).reg.name i ≠ "") (hhalf : Allowed lower (Spec.new.run lower ops) (.remove i)) :
    let g := Graph.new.run lower ops
    let g' := (g.step lower (.remove i)).step lower (.add (g.reg.name i))
    ∃ f', g'.fmls v = some f' ∧ f'.home = f.home ∧ shown g'.reg f'.refs = shown g.reg f.refs ∧ f'.bad = f.bad := by
  intro g g'
  have hrel : Rel lower g (Spec.new.run lower ops) := heal_run hl ops new_rel ha (by simpa [Graph.new, Reg.new] using Nat.le_of_lt (by omega : ops.length < 2 ^ 16))
  have hlen : g.reg.names.length ≤ ops.length := by
    have : ∀ (ops : List FOp) (g : Graph), (g.run lower ops).reg.names.length ≤ g.reg.names.length + ops.length := by
      intro ops
      induction ops with
      | nil => intro g; exact Nat.le_refl _
      | cons op ops ih =>
        intro g
        have h1 := ih (g.step lower op)
        have h2 := graph_step_names (lower := lower) g op
        rw [List.length_cons]
        exact Nat.le_trans h1 (by omega)
    have := this ops Graph.new
    exact Nat.le_trans this (by simp [Graph.new, Reg.new])
  have hgone : Gone lower (Spec.new.run lower ops) := gone_run ops (fun v f t h => (by cases h)) ha
  revert hrel hhalf hgone
  generalize Spec.new.run lower ops = sp
  intro hhalf hrel hgone
  obtain ⟨reg, sfmls⟩ := sp
  have hreg : g.reg = reg := hrel.reg
  have hfine : RegFine lower reg := hreg ▸ hrel.fine
  have hv := hrel.fmls v
  rw [show g.fmls v = some f from hf] at hv
  cases hsv : sfmls v with
  | none => rw [show Spec.fmls ⟨reg, sfmls⟩ v = none from hsv] at hv; exact hv.elim
  | some sf =>
  rw [show Spec.fmls ⟨reg, sfmls⟩ v = some sf from hsv] at hv
  have hsame : Same g.reg (fun s => g.waiting s v) f sf := hv
  cases hr : graphRemove lower reg i with
  | none =>
    have hstep : g.step lower (.remove i) = g := by
      simp only [Graph.step]; rw [hreg, hr]
    · have hni : reg.name i ≠ "" := hreg ▸ hi0
      have hadd : g' = g := by
        show (g.step lower (.remove i)).step lower (.add (g.reg.name i)) = g
        rw [hstep]
        simp only [Graph.step]
        rw [hreg, getId_of_name hfine.ok hni]
      rw [hadd]
      exact ⟨f, hf, rfl, rfl, rfl⟩
  | some reg' =>
    obtain ⟨hi, hk⟩ := remove_getId hr
    have hrel1 := heal_step hl hrel hhalf (by omega)
    have hsp1 : Spec.step lower ⟨reg, sfmls⟩ (.remove i) = ⟨reg', fun v => match sfmls v with
        | none => none
        | some f => if f.home = i then none else some ⟨f.home, f.targets.map (Target.lose (reg.name i) i), f.half⟩⟩ := by
      simp only [Spec.step, hr]
      rfl
    have hal : Allowed lower (Spec.step lower ⟨reg, sfmls⟩ (.remove i)) (.add (g.reg.name i)) := by
      rw [hreg, hsp1]
      refine ⟨hfine.name hi, fun u fu t hu ht e => ?_⟩
      dsimp only at hu
      cases huv : sfmls u with
      | none => rw [huv] at hu; cases hu
      | some fu' =>
        rw [huv] at hu
        dsimp only at hu
        split at hu
        · cases hu
        · cases hu
          rcases mem_lose ht with e' | hm
          · exact e'
          · have := hgone u fu' t huv hm
            unfold Reg.getId at this
            rw [e] at this
            exact absurd (getId_of_name hfine.ok hi) (by unfold Reg.getId; rw [this]; exact fun h => by cases h)
    have hlen1 := graph_step_names (lower := lower) g (.remove i)
    have hrel2 := heal_step hl hrel1 hal (by omega)
    have hnone : reg'.getId lower (reg.name i) = none := by rw [hk, if_pos rfl]
    have hnames : reg'.names.length < 2 ^ 16 := by
      have := graphRemove_names hr
      have h2 : reg.names.length ≤ ops.length := hreg ▸ hlen
      omega
    obtain ⟨_, n2, n3⟩ := new_sheet_fresh (lower := lower) hnone hnames
    have hsp2 : Spec.step lower (Spec.step lower ⟨reg, sfmls⟩ (.remove i)) (.add (g.reg.name i)) = ⟨(reg'.idFor lower (reg.name i)).1,
        fun v => (match sfmls v with
        | none => none
        | some f => if f.home = i then none else some ⟨f.home, f.targets.map (Target.lose (reg.name i) i), f.half⟩ : Option SFml).map (SFml.restore (reg.name i) (reg'.idFor lower (reg.name i)).2)⟩ := by
      rw [hreg, hsp1]
      simp only [Spec.step]
      rw [hnone]
    rw [hsp2] at hrel2
    have hv2 := hrel2.fmls v
    dsimp only at hv2
    rw [hsv] at hv2
    dsimp only at hv2
    rw [if_neg (hsame.home ▸ hh)] at hv2
    cases hf2 : g'.fmls v with
    | none => rw [show Graph.fmls _ v = none from hf2] at hv2; exact hv2.elim
    | some f' =>
      rw [show Graph.fmls _ v = some f' from hf2] at hv2
      have hs2 : Same g'.reg (fun s => g'.waiting s v) f' _ := hv2
      have hreg2 : g'.reg = (reg'.idFor lower (reg.name i)).1 := hrel2.reg
      have hx := lose_restore_show (reg := reg) (reg' := (reg'.idFor lower (reg.name i)).1) (i := i) (j := (reg'.idFor lower (reg.name i)).2) (ts := sf.targets) n2 hi
        (fun hm => by
          have := hgone v sf _ hsv hm
          rw [show Reg.getId lower reg (reg.name i) = some i from getId_of_name hfine.ok hi] at this
          cases this)
        (fun k hkm hki => by
          have hlive : reg.name k ≠ "" := hreg ▸ hsame.live k hkm
          have hrm : reg.remove lower i = some reg' := by
            unfold graphRemove at hr
            rw [if_neg hi] at hr
            split at hr
            · cases hr
            · exact hr
          have h2 := (remove_only hrm).2 k hki
          rw [← h2]
          refine n3 k ?_
          rw [← h2] at hlive
          exact (List.getElem?_eq_some_iff.1 (name_getElem rfl hlive)).1)
      refine ⟨f', rfl, hs2.home.trans hsame.home.symm, ?_, ?_⟩
      · rw [hs2.refs, shown_key, hsame.refs, shown_key, hreg2, hreg]
        exact hx.1
      · rw [hs2.bad, hsame.bad]
        exact hx.2

/-! ### What goes wrong otherwise -/

/-- A formula without dependencies, as it is when only one of its missing sheets came back, is left alone when a sheet that it
refers to is removed.  The reference then has an empty name, and no sheet that is added later is given to it: the formula is shown
in this way for ever. -/
theorem half_healed_forgets {g : Graph} {v i : Nat} {f : Fml} {k : Nat} (hf : g.fmls v = some f) (hd : f.deps = []) (hh : f.home ≠ i)
    (hk : f.refs[k]? = some (some (.id i))) {reg : Reg} (hr : graphRemove lower g.reg i = some reg) :
    (g.step lower (.remove i)).fmls v = some f ∧ (shown (g.step lower (.remove i)).reg f.refs)[k]? = some (some "") := by
  have hrm : g.reg.remove lower i = some reg := by
    unfold graphRemove at hr
    split at hr
    · cases hr
    · split at hr
      · cases hr
      · exact hr
  simp only [Graph.step, hr, hf]
  rw [if_neg hh, if_neg (by rw [hd]; exact List.not_mem_nil)]
  refine ⟨rfl, ?_⟩
  rw [shown, List.getElem?_map, hk]
  simp [readKey, (remove_only hrm).1]

/-- A sheet that comes back because a value is written to it does not restore any formula, and adding it afterwards does not
either. -/
theorem touched_not_healed {g : Graph} {s : String} (hl : Lower lower) (h : RegFine lower g.reg) (hs : Plain lower s) (hn : g.reg.names.length < 2 ^ 16) (v : Nat) :
    ((g.step lower (.touch s)).step lower (.add s)).fmls v = g.fmls v := by
  have : ∃ j, (g.reg.idFor lower s).1.getId lower s = some j := by
    cases hg : g.reg.getId lower s with
    | some j => rw [idFor_old hg]; exact ⟨j, hg⟩
    | none => exact ⟨_, (idFor_fine hl h hs hg hn).2.1⟩
  obtain ⟨j, hj⟩ := this
  simp only [Graph.step, hj]

/-- A sheet that comes back in another spelling does not restore the formulas that wait for the first spelling, and adding it in
that spelling afterwards does not either. -/
theorem other_case_not_healed {g : Graph} {s t : String} (hl : Lower lower) (h : RegFine lower g.reg) (hs : Plain lower s) (hn : g.reg.names.length < 2 ^ 16)
    (hst : lower t = lower s) (hg : g.reg.getId lower s = none) {v : Nat} (hw : g.waiting s v = false) :
    ((g.step lower (.add s)).step lower (.add t)).fmls v = g.fmls v := by
  have hj : (g.reg.idFor lower s).1.getId lower t = some (g.reg.idFor lower s).2 := by
    have := (idFor_fine hl h hs hg hn).2.1
    unfold Reg.getId at this ⊢
    rw [hst]
    exact this
  simp only [Graph.step, hg, heal, hj, hw]
  simp

/-! ### Examples -/

theorem marker_head (t : String) : (marker t).toList.head? = some '_' := by
  have h : ∀ l : List Char, l.head? = some '_' → (l ++ t.toList).head? = some '_' := by
    intro l hl
    cases l with
    | nil => cases hl
    | cons c l => exact hl
  unfold marker
  have e := congrArg List.head? (String.toList_append (s := "__FZ_MISSING_SHEET__") (t := t))
  exact e.trans (h _ (by decide))

theorem toyLower_marker (t : String) : toyLower (marker t) = marker t := by
  have hne : ∀ x : String, x.toList.head? ≠ some '_' → marker t ≠ x := fun x hx e => hx (e ▸ marker_head t)
  unfold toyLower
  rw [if_neg (hne _ (by decide)), if_neg (hne _ (by decide))]

theorem plain_of {s : String} (hs : s ≠ "") (hm : (toyLower s).toList.head? ≠ some '_') : Plain toyLower s := by
  refine ⟨hs, fun t e => hm ?_⟩
  rw [e, toyLower_marker]
  exact marker_head t

/-- A formula on `Main` that refers to its own sheet, to `A` and to `B`. -/
def threeSheets : List FOp := [.add "Main", .add "A", .add "B", .set 0 0 [none, some "A", some "B"]]

theorem threeSheets_allowed : AllAllowed toyLower Spec.new threeSheets := by
  refine ⟨⟨plain_of (by decide) (by decide), fun v f t h => ?_⟩, ⟨plain_of (by decide) (by decide), fun v f t h => ?_⟩,
    ⟨plain_of (by decide) (by decide), fun v f t h => ?_⟩, (by decide : some "" ∉ [none, some "A", some "B"]), trivial⟩
  · cases h
  · simp [Spec.step, Spec.new, Reg.getId, Reg.new] at h
  · revert h
    simp only [Spec.step]
    rw [show Reg.getId toyLower Spec.new.reg "Main" = none by decide]
    dsimp only
    rw [show Reg.getId toyLower _ "A" = none by decide]
    intro h
    cases h

/-- After `A` is removed and added again the formula is as before. -/
example : ∃ f', (((Graph.new.run toyLower threeSheets).step toyLower (.remove 1)).step toyLower (.add "A")).fmls 0 = some f' ∧
    shown (((Graph.new.run toyLower threeSheets).step toyLower (.remove 1)).step toyLower (.add "A")).reg f'.refs = [none, some "A", some "B"] ∧ f'.bad = false := by
  have := remove_add_restores toyLower_ok threeSheets threeSheets_allowed (by decide) (i := 1) (v := 0) (f := ⟨0, [none, some (.id 1), some (.id 2)], [0, 1, 2], false⟩)
    (by decide +kernel) (by decide) (by decide +kernel) (by
      intro v f hf _
      revert hf
      simp only [threeSheets, Spec.run, List.foldl, Spec.step]
      rw [show Reg.getId toyLower Spec.new.reg "Main" = none by decide]
      dsimp only
      rw [show Reg.getId toyLower _ "A" = none by decide]
      dsimp only
      rw [show Reg.getId toyLower _ "B" = none by decide]
      dsimp only
      intro hf
      split at hf
      · cases hf
      · dsimp only at hf
        split at hf
        · cases hf; rfl
        · cases hf)
  obtain ⟨f', h1, h2, h3, h4⟩ := this
  exact ⟨f', h1, h3.trans (by decide +kernel), h4⟩

/-- Both sheets go, one comes back, goes and comes back, and then the other: all three are there, but the formula does not find the
first any more. -/
example : let g := Graph.new.run toyLower (threeSheets ++ [.remove 1, .remove 2, .add "A", .remove 3, .add "A", .add "B"])
    (g.fmls 0).map (fun f => (shown g.reg f.refs, f.bad)) = some ([none, some "", some "B"], true) ∧
      (g.reg.getId toyLower "A").isSome ∧ (g.reg.getId toyLower "B").isSome := by
  decide +kernel

/-- The sheet comes back by a value that is written to it. -/
example : let g := Graph.new.run toyLower (threeSheets ++ [.remove 1, .touch "A", .add "A"])
    (g.fmls 0).map (fun f => (shown g.reg f.refs, f.bad)) = some ([none, some (marker "A"), some "B"], true) ∧ (g.reg.getId toyLower "A").isSome := by
  decide +kernel

/-- The sheet comes back in another spelling. -/
example : let g := Graph.new.run toyLower [.add "Main", .add "Data", .set 0 0 [some "Data"], .remove 1, .add "DATA", .add "Data"]
    (g.fmls 0).map (fun f => (shown g.reg f.refs, f.bad)) = some ([some (marker "Data")], true) ∧ (g.reg.getId toyLower "Data").isSome := by
  decide +kernel

end Verif.Sheets
