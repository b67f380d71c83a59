/-
Property C66, the theorems, and what goes wrong otherwise.
-/
import Verif.Sheets.HealRefine
import Verif.Arena.AstFinal

namespace Verif.Sheets

open Verif.Arena

variable {lower : String → String}

/-- No formula misses a sheet of this name in another spelling. -/
def SpelledAlike (lower : String → String) (g : Spec) (s : String) : Prop :=
  ∀ v f t, g.fmls v = some f → Target.missing t ∈ f.targets → lower t = lower s → t = s

/-- The operations that are carried out as specified.  Names are not like marks, sheets come back in the spelling in which they
went, and by `add` or `rename`; and no sheet is removed on which a formula depends that still misses another sheet when one came
back. -/
def Allowed (lower : String → String) (g : Spec) : FOp → Prop
  | .add s => Plain lower s ∧ SpelledAlike lower g s
  | .touch s => Plain lower s ∧ ∀ v f t, g.fmls v = some f → Target.missing t ∈ f.targets → lower t ≠ lower s
  | .remove i => ∀ v f, g.fmls v = some f → Target.live i ∈ f.targets → f.half = false
  | .rename _ s => Plain lower s ∧ SpelledAlike lower g s
  | .set _ _ names => some "" ∉ names
  | .clear _ => True

/-- The two formulas at a vertex. -/
def SameAt (g : Reg) (w : String → Bool) : Option Fml → Option SFml → Prop
  | none, none => True
  | some f, some sf => Same g w f sf
  | _, _ => False

/-- The graph is as specified. -/
structure Rel (lower : String → String) (g : Graph) (sp : Spec) : Prop where
  reg : g.reg = sp.reg
  fine : RegFine lower g.reg
  fmls : ∀ v, SameAt g.reg (fun s => g.waiting s v) (g.fmls v) (sp.fmls v)

theorem Same.mono {g g' : Reg} {w : String → Bool} {f : Fml} {sf : SFml} (h : Same g w f sf) (hg : ∀ i, g.name i ≠ "" → g'.name i ≠ "") : Same g' w f sf :=
  ⟨h.home, hg _ h.homeLive, h.refs, fun i hi => hg i (h.live i hi), h.bad, h.waits, h.deps, h.none⟩

theorem idFor_fine (hl : Lower lower) {g : Reg} (h : RegFine lower g) {s : String} (hs : Plain lower s) (hg : g.getId lower s = none) (hn : g.names.length < 2 ^ 16) :
    RegFine lower (g.idFor lower s).1 ∧ (g.idFor lower s).1.getId lower s = some (g.idFor lower s).2 ∧ (g.idFor lower s).1.name (g.idFor lower s).2 = s ∧
      ∀ i, g.name i ≠ "" → (g.idFor lower s).1.name i ≠ "" := by
  obtain ⟨h1, h2, h3⟩ := new_sheet_fresh (lower := lower) hg hn
  have hfine : RegFine lower (g.idFor lower s).1 := by
    refine ⟨Reg.idFor_ok h.ok s hn, fun n hm hne => ?_⟩
    rw [idFor_new hg] at hm
    rcases List.mem_append.1 hm with hm | hm
    · exact h.plain n hm hne
    · simp only [List.mem_cons, List.not_mem_nil, or_false] at hm
      exact hm ▸ hs
  refine ⟨hfine, ?_, h2, fun i hi => ?_⟩
  · have := getId_of_name hfine.ok (i := (g.idFor lower s).2) (by rw [h2]; exact hs.1)
    rw [h2] at this
    exact this
  · have hlt : i < g.names.length := (List.getElem?_eq_some_iff.1 (name_getElem rfl hi)).1
    rw [h3 i hlt]
    exact hi

theorem SameAt.map {g : Reg} {w w' : String → Bool} {a : Option Fml} {b : Option SFml} {p : Fml → Fml} {q : SFml → SFml} (h : SameAt g w a b)
    (hpq : ∀ f sf, b = some sf → Same g w f sf → Same g w' (p f) (q sf)) : SameAt g w' (a.map p) (b.map q) := by
  cases a with
  | none => cases b with
    | none => trivial
    | some sf => exact h.elim
  | some f => cases b with
    | none => exact h.elim
    | some sf => exact hpq f sf rfl h

/-- A sheet comes back. -/
theorem heal_rel (hl : Lower lower) {g : Reg} (hg : RegFine lower g) {fmls : Nat → Option Fml} {waiting : String → Nat → Bool} {sf : Nat → Option SFml}
    (h : ∀ v, SameAt g (fun s => waiting s v) (fmls v) (sf v)) {s : String} {j : Nat} (hs : Plain lower s) (hj : g.getId lower s = some j)
    (hjn : g.name j ≠ "") (v : Nat) :
    SameAt g (fun t => (heal lower ⟨g, fmls, waiting⟩ s).waiting t v) ((heal lower ⟨g, fmls, waiting⟩ s).fmls v) ((sf v).map (SFml.restore s j)) := by
  have : (heal lower ⟨g, fmls, waiting⟩ s).fmls v = (fmls v).map fun f => if waiting s v then healOne lower g s f else f := by
    unfold heal
    dsimp only
    split
    · rfl
    · simp
  rw [this]
  exact (h v).map fun f sf _ hsame => heal_same hl hg hsame hs hj hjn

theorem getId_extract {g : Reg} (home : Nat) (names : List (Option String)) :
    extract lower g home names = (names.map fun n => match n with
      | none => Target.own
      | some s => match g.getId lower s with
        | some i => .live i
        | none => .missing s).mapM (Target.dep home) := by
  unfold extract
  refine mapM_congr fun n _ => ?_
  cases n with
  | none => rfl
  | some s =>
    dsimp only
    cases g.getId lower s <;> rfl

theorem getId_named (hl : Lower lower) {g : Reg} (h : RegFine lower g) {s : String} {i : Nat} (hg : g.getId lower s = some i) (hs : s ≠ "") : g.name i ≠ "" := by
  obtain ⟨n, h1, h2⟩ := h.ok.found _ _ hg
  unfold Reg.name
  rw [h1, Option.getD_some]
  rintro rfl
  rw [(hl "").2 rfl] at h2
  exact hs ((hl s).1 h2.symm)

theorem restore_fixed {s : String} {j : Nat} {f : SFml} (h : Target.missing s ∉ f.targets) : f.restore s j = f := by
  unfold SFml.restore
  rw [restore_id.2 h]
  simp

/-- Each allowed operation does to the graph what it is to do. -/
theorem heal_step (hl : Lower lower) {g : Graph} {sp : Spec} (h : Rel lower g sp) {op : FOp} (ha : Allowed lower sp op) (hn : g.reg.names.length < 2 ^ 16) :
    Rel lower (g.step lower op) (sp.step lower op) := by
  obtain ⟨hreg, hfine, hf⟩ := h
  obtain ⟨reg, fmls, waiting⟩ := g
  obtain ⟨sreg, sfmls⟩ := sp
  cases hreg
  dsimp only at hfine hf hn
  cases op with
  | add s =>
    simp only [Graph.step, Spec.step]
    cases hg : reg.getId lower s with
    | some i => exact ⟨rfl, hfine, hf⟩
    | none =>
      dsimp only
      obtain ⟨h1, h2, h3, h4⟩ := idFor_fine hl hfine ha.1 hg hn
      refine ⟨rfl, h1, fun v => ?_⟩
      refine heal_rel hl h1 (fmls := fmls) (waiting := waiting) (sf := sfmls) (fun v => ?_) ha.1 h2 (by rw [h3]; exact ha.1.1) v
      have := (hf v).map (w' := fun s => waiting s v) (p := id) (q := id) (fun f sf _ hs => hs)
      revert this
      rw [Option.map_id, Option.map_id]
      intro this
      cases hfv : fmls v with
      | none => rw [hfv] at this; cases hsv : sfmls v with
        | none => trivial
        | some sf => rw [hsv] at this; exact this.elim
      | some f => rw [hfv] at this; cases hsv : sfmls v with
        | none => rw [hsv] at this; exact this.elim
        | some sf => rw [hsv] at this; exact Same.mono this h4
  | touch s =>
    simp only [Graph.step, Spec.step]
    cases hg : reg.getId lower s with
    | some i =>
      dsimp only
      rw [idFor_old hg]
      exact ⟨rfl, hfine, hf⟩
    | none =>
      dsimp only
      obtain ⟨h1, h2, h3, h4⟩ := idFor_fine hl hfine ha.1 hg hn
      refine ⟨rfl, h1, fun v => ?_⟩
      have hid : (sfmls v).map (SFml.restore s (reg.idFor lower s).2) = sfmls v := by
        cases hsv : sfmls v with
        | none => rfl
        | some sf => exact congrArg some (restore_fixed fun hm => ha.2 v sf s hsv hm rfl)
      dsimp only
      rw [hid]
      have := hf v
      cases hfv : fmls v with
      | none => rw [hfv] at this; cases hsv : sfmls v with
        | none => trivial
        | some sf => rw [hsv] at this; exact this.elim
      | some f => rw [hfv] at this; cases hsv : sfmls v with
        | none => rw [hsv] at this; exact this.elim
        | some sf => rw [hsv] at this; exact Same.mono this h4
  | remove id =>
    simp only [Graph.step, Spec.step]
    cases hr : graphRemove lower reg id with
    | none => exact ⟨rfl, hfine, hf⟩
    | some reg' =>
      dsimp only
      unfold graphRemove at hr
      split at hr
      · cases hr
      · next hid =>
        split at hr
        · cases hr
        · obtain ⟨k1, k2⟩ := remove_only hr
          have hfine' : RegFine lower reg' := by
            refine ⟨Reg.remove_ok hfine.ok hr, fun n hm hne => ?_⟩
            obtain ⟨i, hi⟩ := List.mem_iff_getElem?.1 hm
            have hni : reg'.name i = n := by unfold Reg.name; rw [hi]; rfl
            by_cases e : i = id
            · rw [e, k1] at hni; exact absurd hni.symm hne
            · rw [k2 i e] at hni
              rw [← hni] at hne ⊢
              exact hfine.name hne
          refine ⟨rfl, hfine', fun v => ?_⟩
          have := hf v
          dsimp only
          cases hfv : fmls v with
          | none => rw [hfv] at this; cases hsv : sfmls v with
            | none => trivial
            | some sf => rw [hsv] at this; exact this.elim
          | some f => rw [hfv] at this; cases hsv : sfmls v with
            | none => rw [hsv] at this; exact this.elim
            | some sf =>
              rw [hsv] at this
              dsimp only
              have hsame : Same reg (fun s => waiting s v) f sf := this
              rw [hsame.home]
              by_cases hh : sf.home = id
              · rw [if_pos hh, if_pos hh]; trivial
              · rw [if_neg hh, if_neg hh]
                have hb := bury_same hl hfine hsame hid (g' := reg') (fun i hi => k2 i hi) (hsame.home ▸ hh) (ha v sf hsv)
                by_cases hd : id ∈ f.deps
                · rw [if_pos hd] at hb ⊢
                  simpa [SameAt, hd] using hb
                · rw [if_neg hd] at hb ⊢
                  simpa [SameAt, hd] using hb
  | rename id new =>
    simp only [Graph.step, Spec.step]
    cases hr : graphRename lower reg id new with
    | none => exact ⟨rfl, hfine, hf⟩
    | some reg' =>
      dsimp only
      cases hg : reg.getId lower new with
      | some i => exact ⟨rfl, hfine, hf⟩
      | none =>
        dsimp only
        have hidname : reg.name id ≠ "" := by
          intro e
          simp [graphRename, e] at hr
        have hrr : reg.rename lower id new = some reg' := by
          unfold graphRename at hr
          split at hr
          · cases hr
          · first
            | (rw [if_neg hidname, hg] at hr; exact hr)
            | (rw [hg] at hr; exact hr)
            | (simp only [hidname, if_false, hg] at hr; exact hr)
        obtain ⟨k1, k2⟩ := rename_only hrr
        have hfine' : RegFine lower reg' := by
          refine ⟨Reg.rename_ok hl hfine.ok hrr, fun n hm hne => ?_⟩
          obtain ⟨i, hi⟩ := List.mem_iff_getElem?.1 hm
          have hni : reg'.name i = n := by unfold Reg.name; rw [hi]; rfl
          by_cases e : i = id
          · rw [e, k1] at hni; rw [← hni]; exact ha.1
          · rw [k2 i e] at hni
            rw [← hni] at hne ⊢
            exact hfine.name hne
        have hmono : ∀ i, reg.name i ≠ "" → reg'.name i ≠ "" := by
          intro i hi
          by_cases e : i = id
          · rw [e, k1]; exact ha.1.1
          · rw [k2 i e]; exact hi
        have hj : reg'.getId lower new = some id := by
          have := getId_of_name hfine'.ok (i := id) (by rw [k1]; exact ha.1.1)
          rw [k1] at this
          exact this
        have hbase : ∀ v, SameAt reg' (fun s => waiting s v) (fmls v) (sfmls v) := by
          intro v
          have := hf v
          cases hfv : fmls v with
          | none => rw [hfv] at this; cases hsv : sfmls v with
            | none => trivial
            | some sf => rw [hsv] at this; exact this.elim
          | some f => rw [hfv] at this; cases hsv : sfmls v with
            | none => rw [hsv] at this; exact this.elim
            | some sf => rw [hsv] at this; exact Same.mono this hmono
        have hheal := heal_rel hl hfine' hbase ha.1 hj (by rw [k1]; exact ha.1.1)
        refine ⟨rfl, hfine', fun v => ?_⟩
        dsimp only
        have := (hheal v).map (w' := fun t => (heal lower ⟨reg', fmls, waiting⟩ new).waiting t v) (q := _root_.id)
          (p := fun f => let names := update (reg.name id) new (shown reg' f.refs)
            if names = shown reg' f.refs then f else { rebuildDeps lower reg' f names with refs := storeAllKeys lower reg' names })
          (fun f sf _ hs => by
            dsimp only
            rw [if_pos]
            · exact hs
            · rw [hs.refs, shown_key, update, List.map_map]
              refine List.map_congr_left fun t ht => ?_
              simp only [Function.comp]
              rw [if_neg]
              cases t with
              | own => exact fun e => by cases e
              | live i =>
                intro e
                simp only [Target.show, Option.some.injEq] at e
                by_cases x : i = id
                · rw [x, k1] at e
                  have := getId_of_name hfine.ok hidname
                  rw [← e, hg] at this
                  cases this
                · rw [k2 i x] at e
                  have h1 := getId_of_name hfine.ok (i := i) (by rw [e]; exact hidname)
                  rw [e, getId_of_name hfine.ok hidname] at h1
                  exact x (Option.some.inj h1).symm
              | missing u =>
                intro e
                simp only [Target.show, Option.some.injEq] at e
                exact (hfine.name hidname).ne u e.symm)
        rw [Option.map_id] at this
        exact this
  | set v home names =>
    simp only [Graph.step, Spec.step]
    by_cases hh : reg.name home = ""
    · rw [if_pos hh, if_pos (Or.inl hh)]
      exact ⟨rfl, hfine, hf⟩
    · rw [if_neg hh, getId_extract]
      obtain ⟨m1, m2⟩ := mapM_dep home (names.map fun n => match n with
        | none => Target.own
        | some s => match reg.getId lower s with
          | some i => .live i
          | none => .missing s)
      have hiff : ((names.map fun n => match n with
          | none => Target.own
          | some s => match reg.getId lower s with
            | some i => .live i
            | none => .missing s).any Target.isMissing) = names.any fun n => n.any fun s => (reg.getId lower s).isNone := by
        rw [List.any_map]
        refine List.any_congr rfl fun n => ?_
        cases n with
        | none => rfl
        | some s =>
          simp only [Function.comp, Option.any_some]
          cases reg.getId lower s <;> rfl
      cases hany : (names.any fun n => n.any fun s => (reg.getId lower s).isNone) with
      | true =>
        rw [m1 (hiff.trans hany), if_pos (Or.inr rfl)]
        exact ⟨rfl, hfine, hf⟩
      | false =>
        obtain ⟨l, e, hmem⟩ := m2 (hiff.trans hany)
        rw [e, if_neg (by simp [hh])]
        dsimp only
        have hall : ∀ s, some s ∈ names → ∃ i, reg.getId lower s = some i := by
          intro s hs
          rw [List.any_eq_false] at hany
          have := hany _ hs
          cases hg : reg.getId lower s with
          | some i => exact ⟨i, rfl⟩
          | none => simp [hg] at this
        refine ⟨rfl, hfine, fun u => ?_⟩
        dsimp only
        by_cases hu : u = v
        · rw [if_pos hu, if_pos hu]
          refine ⟨rfl, hh, ?_, fun i hi => ?_, ?_, fun s hs => ?_, fun _ => hmem, fun e => (by cases e)⟩
          · dsimp only
            rw [storeAllKeys, List.map_map]
            refine List.map_congr_left fun n hm => ?_
            cases n with
            | none => rfl
            | some s =>
              obtain ⟨i, hi⟩ := hall s hm
              simp only [Option.map_some, storeKey, Function.comp, hi, Target.key]
          · dsimp only at hi
            rw [List.mem_map] at hi
            obtain ⟨n, hm, he⟩ := hi
            cases n with
            | none => cases he
            | some s =>
              obtain ⟨i', hi'⟩ := hall s hm
              simp only [hi'] at he
              cases he
              exact getId_named hl hfine hi' (by rintro rfl; exact ha hm)
          · exact (hiff.trans hany).symm
          · dsimp only at hs
            rw [List.mem_map] at hs
            obtain ⟨n, hm, he⟩ := hs
            cases n with
            | none => cases he
            | some s =>
              obtain ⟨i', hi'⟩ := hall s hm
              simp only [hi'] at he
              cases he
        · rw [if_neg hu, if_neg hu]
          exact hf u
  | clear v =>
    refine ⟨rfl, hfine, fun u => ?_⟩
    simp only [Graph.step, Spec.step]
    by_cases hu : u = v
    · rw [if_pos hu, if_pos hu]; trivial
    · rw [if_neg hu, if_neg hu]; exact hf u

/-! ### Histories -/

/-- The graph after a list of operations. -/
def Graph.run (lower : String → String) (g : Graph) (ops : List FOp) : Graph := ops.foldl (fun g op => g.step lower op) g

/-- The specification after a list of operations. -/
def Spec.run (lower : String → String) (g : Spec) (ops : List FOp) : Spec := ops.foldl (fun g op => g.step lower op) g

/-- No sheets and no formulas. -/
def Graph.new : Graph := ⟨Reg.new, fun _ => none, fun _ _ => false⟩

/-- No sheets and no formulas. -/
def Spec.new : Spec := ⟨Reg.new, fun _ => none⟩

/-- All operations are allowed, one after the other. -/
def AllAllowed (lower : String → String) : Spec → List FOp → Prop
  | _, [] => True
  | g, op :: ops => Allowed lower g op ∧ AllAllowed lower (g.step lower op) ops

theorem graphRemove_names {g g' : Reg} {i : Nat} (h : graphRemove lower g i = some g') : g'.names.length ≤ g.names.length + 1 := by
  unfold graphRemove at h
  split at h
  · cases h
  · split at h
    · cases h
    · have := Reg.step_names (lower := lower) g (.remove i)
      rw [Reg.step, h] at this
      exact this

theorem graphRename_names {g g' : Reg} {i : Nat} {s : String} (h : graphRename lower g i s = some g') : g'.names.length ≤ g.names.length + 1 := by
  unfold graphRename at h
  split at h
  · cases h
  · split at h
    · cases h
    · split at h
      · split at h
        · cases h
        · cases h; omega
      · have := Reg.step_names (lower := lower) g (.rename i s)
        rw [Reg.step, h] at this
        exact this

theorem graph_step_names (g : Graph) (op : FOp) : (g.step lower op).reg.names.length ≤ g.reg.names.length + 1 := by
  have hid : ∀ s, (g.reg.idFor lower s).1.names.length ≤ g.reg.names.length + 1 := by
    intro s
    cases hg : g.reg.getId lower s with
    | some i => rw [idFor_old hg]; omega
    | none => rw [idFor_new hg]; simp
  cases op with
  | add s =>
    simp only [Graph.step]
    split
    · omega
    · exact hid s
  | touch s => exact hid s
  | remove i =>
    simp only [Graph.step]
    split
    · omega
    · next h => exact graphRemove_names h
  | rename i s =>
    simp only [Graph.step]
    split
    · omega
    · next h =>
      split
      · omega
      · exact graphRename_names h
  | set v h names =>
    simp only [Graph.step]
    split
    · omega
    · split
      · omega
      · exact Nat.le_succ _
  | clear v => exact Nat.le_succ _

theorem heal_run (hl : Lower lower) (ops : List FOp) {g : Graph} {sp : Spec} (h : Rel lower g sp) (ha : AllAllowed lower sp ops)
    (hn : g.reg.names.length + ops.length ≤ 2 ^ 16) : Rel lower (g.run lower ops) (sp.run lower ops) := by
  induction ops generalizing g sp with
  | nil => exact h
  | cons op ops ih =>
    rw [List.length_cons] at hn
    have := graph_step_names (lower := lower) g op
    exact ih (heal_step hl h ha.1 (by omega)) ha.2 (by dsimp only; omega)

theorem new_rel : Rel lower Graph.new Spec.new := ⟨rfl, ⟨Reg.new_ok lower, fun n h => by cases h⟩, fun _ => trivial⟩

/-- A formula is shown with the present names of the sheets that it was written for, whatever was done to these sheets since: they
may have been renamed, removed, and brought back.  It is marked as broken if, and only if, one of them is missing. -/
theorem formulas_survive (hl : Lower lower) (ops : List FOp) (ha : AllAllowed lower Spec.new ops) (hn : ops.length ≤ 2 ^ 16) (v : Nat) :
    ((Graph.new.run lower ops).fmls v).map (fun f => (f.home, shown (Graph.new.run lower ops).reg f.refs, f.bad)) =
      ((Spec.new.run lower ops).fmls v).map (fun f => (f.home, f.targets.map (Target.show (Spec.new.run lower ops).reg), f.targets.any Target.isMissing)) := by
  have h := heal_run hl ops new_rel ha (by simpa [Graph.new, Reg.new] using hn)
  have hv := h.fmls v
  cases hf : (Graph.new.run lower ops).fmls v with
  | none =>
    rw [hf] at hv
    cases hs : (Spec.new.run lower ops).fmls v with
    | none => rfl
    | some sf => rw [hs] at hv; exact hv.elim
  | some f =>
    rw [hf] at hv
    cases hs : (Spec.new.run lower ops).fmls v with
    | none => rw [hs] at hv; exact hv.elim
    | some sf =>
      rw [hs] at hv
      have hsame : Same _ _ f sf := hv
      simp only [Option.map_some]
      rw [hsame.home, hsame.refs, shown_key, hsame.bad, h.reg]

end Verif.Sheets
