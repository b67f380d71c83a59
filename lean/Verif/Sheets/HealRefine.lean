/-
Property C66: the graph keeps the formulas as specified.
-/
import Verif.Sheets.Heal
import Verif.Sheets.Refine

namespace Verif.Sheets

open Verif.Arena

variable {lower : String → String}

/-- A name that is not like the mark of a missing sheet. -/
def Plain (lower : String → String) (s : String) : Prop := s ≠ "" ∧ ∀ t, lower s ≠ lower (marker t)

theorem Plain.ne {s : String} (h : Plain lower s) (t : String) : s ≠ marker t := fun e => h.2 t (by rw [e])

theorem marker_inj {s t : String} (h : marker s = marker t) : s = t := by
  unfold marker at h
  have := congrArg String.toList h
  rw [String.toList_append, String.toList_append] at this
  exact String.ext (List.append_cancel_left this)

theorem marker_ne (s : String) : marker s ≠ "" := by
  intro h
  have := congrArg String.toList h
  unfold marker at this
  rw [String.toList_append] at this
  exact absurd (List.append_eq_nil_iff.1 this).1 (by decide)

/-- How a reference is stored. -/
def Target.key : Target → Option Key
  | .own => none
  | .live i => some (.id i)
  | .missing s => some (.text (marker s))

/-- The sheet that a reference depends on. -/
def Target.dep (home : Nat) : Target → Option Nat
  | .own => some home
  | .live i => some i
  | .missing _ => none

/-- Registry in order. -/
structure RegFine (lower : String → String) (g : Reg) : Prop where
  ok : g.Ok lower
  plain : ∀ n ∈ g.names, n ≠ "" → Plain lower n

/-- A formula of the graph is the one of the specification. -/
structure Same (g : Reg) (waiting : String → Bool) (f : Fml) (sf : SFml) : Prop where
  home : f.home = sf.home
  homeLive : g.name sf.home ≠ ""
  refs : f.refs = sf.targets.map Target.key
  live : ∀ i, Target.live i ∈ sf.targets → g.name i ≠ ""
  bad : f.bad = sf.targets.any Target.isMissing
  waits : ∀ s, Target.missing s ∈ sf.targets → waiting s = true
  deps : sf.half = false → ∀ i, i ∈ f.deps ↔ Target.live i ∈ sf.targets ∨ (Target.own ∈ sf.targets ∧ sf.home = i)
  none : sf.half = true → f.deps = []

theorem RegFine.name {g : Reg} (h : RegFine lower g) {i : Nat} (hi : g.name i ≠ "") : Plain lower (g.name i) :=
  h.plain _ (List.mem_of_getElem? (name_getElem rfl hi)) hi

theorem RegFine.unmarked (hl : Lower lower) {g : Reg} (h : RegFine lower g) (t : String) : g.getId lower (marker t) = none := by
  cases hg : g.getId lower (marker t) with
  | none => rfl
  | some i =>
    obtain ⟨n, h1, h2⟩ := h.ok.found _ _ hg
    have hn : n ≠ "" := by
      rintro rfl
      rw [(hl "").2 rfl] at h2
      exact marker_ne t ((hl _).1 h2.symm)
    exact absurd h2 ((h.plain n (List.mem_of_getElem? h1) hn).2 t)

theorem shown_key (g : Reg) (ts : List Target) : shown g (ts.map Target.key) = ts.map (Target.show g) := by
  unfold shown
  rw [List.map_map]
  refine List.map_congr_left fun t _ => ?_
  cases t <;> rfl

theorem mapM_dep (home : Nat) : ∀ ts : List Target,
    (ts.any Target.isMissing = true → ts.mapM (Target.dep home) = none) ∧
    (ts.any Target.isMissing = false → ∃ l, ts.mapM (Target.dep home) = some l ∧ ∀ i, i ∈ l ↔ Target.live i ∈ ts ∨ (Target.own ∈ ts ∧ home = i))
  | [] => ⟨fun h => (by cases h), fun _ => ⟨[], rfl, by simp⟩⟩
  | t :: ts => by
    obtain ⟨h1, h2⟩ := mapM_dep home ts
    cases t with
    | missing s =>
      refine ⟨fun _ => ?_, fun h => ?_⟩
      · simp [List.mapM_cons, Target.dep]
      · simp [Target.isMissing] at h
    | own =>
      refine ⟨fun h => ?_, fun h => ?_⟩
      · simp only [List.any_cons, Target.isMissing, Bool.false_or] at h
        simp [List.mapM_cons, Target.dep, h1 h]
      · simp only [List.any_cons, Target.isMissing, Bool.false_or] at h
        obtain ⟨l, e, hm⟩ := h2 h
        refine ⟨home :: l, by simp [List.mapM_cons, Target.dep, e], fun i => ?_⟩
        simp only [List.mem_cons, hm, reduceCtorEq, false_or, true_or, true_and]
        constructor
        · rintro (rfl | h | ⟨-, h⟩)
          · exact Or.inr rfl
          · exact Or.inl h
          · exact Or.inr h
        · rintro (h | rfl)
          · exact Or.inr (Or.inl h)
          · exact Or.inl rfl
    | live j =>
      refine ⟨fun h => ?_, fun h => ?_⟩
      · simp only [List.any_cons, Target.isMissing, Bool.false_or] at h
        simp [List.mapM_cons, Target.dep, h1 h]
      · simp only [List.any_cons, Target.isMissing, Bool.false_or] at h
        obtain ⟨l, e, hm⟩ := h2 h
        refine ⟨j :: l, by simp [List.mapM_cons, Target.dep, e], fun i => ?_⟩
        simp only [List.mem_cons, hm, Target.live.injEq, reduceCtorEq, false_or]
        tauto

/-- `mapM` of pointwise equal functions. -/
theorem mapM_congr {α β : Type} {f : α → Option β} {γ : Type} {k : γ → Option β} {r : α → γ} : ∀ {l : List α},
    (∀ a ∈ l, f a = k (r a)) → l.mapM f = (l.map r).mapM k
  | [], _ => rfl
  | a :: l, h => by
    rw [List.map_cons, List.mapM_cons, List.mapM_cons, h a (by simp), mapM_congr fun b hb => h b (by simp [hb])]

theorem map_id_iff {α : Type} {f : α → α} {l : List α} : l.map f = l ↔ ∀ a ∈ l, f a = a := by
  constructor
  · intro h a ha
    exact List.map_inj_left.1 (h.trans (List.map_id l).symm) a ha
  · intro h
    exact (List.map_congr_left h).trans (List.map_id l)

theorem restore_id {s : String} {i : Nat} {ts : List Target} : ts.map (Target.restore s i) = ts ↔ Target.missing s ∉ ts := by
  rw [map_id_iff]
  constructor
  · intro h hm
    have := h _ hm
    simp [Target.restore] at this
  · intro h t ht
    cases t with
    | missing u =>
      simp only [Target.restore]
      rw [if_neg]
      rintro rfl
      exact h ht
    | own => rfl
    | live j => rfl

theorem lose_id {s : String} {i : Nat} {ts : List Target} : ts.map (Target.lose s i) = ts ↔ Target.live i ∉ ts := by
  rw [map_id_iff]
  constructor
  · intro h hm
    have := h _ hm
    simp [Target.lose] at this
  · intro h t ht
    cases t with
    | live u =>
      simp only [Target.lose]
      rw [if_neg]
      rintro rfl
      exact h ht
    | own => rfl
    | missing j => rfl

/-- A sheet comes back: the formulas that wait for it. -/
theorem heal_same (hl : Lower lower) {g : Reg} (hg : RegFine lower g) {w : String → Bool} {f : Fml} {sf : SFml} (h : Same g w f sf) {s : String} {j : Nat}
    (hs : Plain lower s) (hj : g.getId lower s = some j) (hjn : g.name j ≠ "") :
    Same g (fun t => if t = s then false else w t) (if w s then healOne lower g s f else f) (sf.restore s j) := by
  have hnames : update (marker s) s (shown g f.refs) = sf.targets.map fun t => if t = .missing s then some s else t.show g := by
    rw [h.refs, shown_key, update, List.map_map]
    refine List.map_congr_left fun t ht => ?_
    simp only [Function.comp]
    cases t with
    | own => simp [Target.show]
    | live i =>
      have := (hg.name (h.live i ht)).ne s
      simp [Target.show, this]
    | missing u =>
      simp only [Target.show, Option.some.injEq, Target.missing.injEq]
      by_cases e : u = s
      · rw [if_pos e, if_pos (by rw [e])]
      · rw [if_neg e, if_neg (fun x => e (marker_inj x))]
  have hsame : update (marker s) s (shown g f.refs) = shown g f.refs ↔ Target.missing s ∉ sf.targets := by
    rw [hnames, h.refs, shown_key]
    constructor
    · intro e hm
      have := List.map_inj_left.1 e _ hm
      simp only [if_true, Target.show, Option.some.injEq] at this
      exact hs.ne s this
    · intro hm
      refine List.map_congr_left fun t ht => ?_
      rw [if_neg]
      rintro rfl
      exact hm ht
  by_cases hm : Target.missing s ∈ sf.targets
  · have hw := h.waits s hm
    have hbad : f.bad = true := by rw [h.bad, List.any_eq_true]; exact ⟨_, hm, rfl⟩
    rw [if_pos hw]
    have hne : sf.targets.map (Target.restore s j) ≠ sf.targets := fun e => restore_id.1 e hm
    have hstore : storeAllKeys lower g (update (marker s) s (shown g f.refs)) = (sf.targets.map (Target.restore s j)).map Target.key := by
      rw [hnames, storeAllKeys, List.map_map, List.map_map]
      refine List.map_congr_left fun t ht => ?_
      simp only [Function.comp]
      cases t with
      | own => simp [Target.show, Target.restore, Target.key]
      | live i =>
        simp only [reduceCtorEq, if_false, Target.show, Option.map_some, Target.restore, Target.key, storeKey]
        rw [getId_of_name hg.ok (h.live i ht)]
      | missing u =>
        by_cases e : u = s
        · subst e
          simp only [if_true, Option.map_some, Target.restore, Target.key, storeKey]
          rw [hj]
        · rw [if_neg (fun x => e (Target.missing.inj x))]
          simp only [Target.show, Option.map_some, Target.restore, if_neg e, Target.key, storeKey]
          rw [hg.unmarked hl]
    have hext : extract lower g f.home (update (marker s) s (shown g f.refs)) = (sf.targets.map (Target.restore s j)).mapM (Target.dep sf.home) := by
      rw [hnames, extract, ← mapM_congr (l := sf.targets) (r := Target.restore s j) (k := Target.dep sf.home)
        (f := fun t => (Target.restore s j t).dep sf.home) (fun _ _ => rfl)]
      refine (mapM_congr (r := fun t : Target => if t = .missing s then some s else t.show g) fun t ht => ?_).symm
      cases t with
      | own => simp [Target.restore, Target.dep, Target.show, h.home]
      | live i =>
        simp only [Target.restore, Target.dep, reduceCtorEq, if_false, Target.show]
        exact (getId_of_name hg.ok (h.live i ht)).symm
      | missing u =>
        by_cases e : u = s
        · subst e
          simp only [Target.restore, if_true, Target.dep]
          exact hj.symm
        · rw [if_neg (fun x => e (Target.missing.inj x))]
          simp only [Target.restore, if_neg e, Target.dep, Target.show]
          exact (hg.unmarked hl u).symm
    obtain ⟨m1, m2⟩ := mapM_dep sf.home (sf.targets.map (Target.restore s j))
    have hlive : ∀ i, Target.live i ∈ sf.targets.map (Target.restore s j) → g.name i ≠ "" := by
      intro i hi
      rw [List.mem_map] at hi
      obtain ⟨t, ht, he⟩ := hi
      cases t with
      | own => cases he
      | live i' => cases he; exact h.live _ ht
      | missing u =>
        simp only [Target.restore] at he
        split at he
        · cases he; exact hjn
        · cases he
    have hwaits : ∀ u, Target.missing u ∈ sf.targets.map (Target.restore s j) → (if u = s then false else w u) = true := by
      intro u hu
      rw [List.mem_map] at hu
      obtain ⟨t, ht, he⟩ := hu
      cases t with
      | own => cases he
      | live i' => cases he
      | missing u' =>
        simp only [Target.restore] at he
        split at he
        · cases he
        · next hne => cases he; rw [if_neg hne]; exact h.waits _ ht
    unfold healOne
    rw [if_pos hbad]
    dsimp only
    rw [if_neg (fun e => hsame.1 e hm)]
    unfold rebuildDeps
    dsimp only
    rw [hext]
    unfold SFml.restore
    dsimp only
    rw [if_neg hne]
    cases hany : (sf.targets.map (Target.restore s j)).any Target.isMissing with
    | true =>
      rw [m1 hany]
      exact ⟨h.home, h.homeLive, hstore, hlive, hany.symm, hwaits, fun e => (by cases e), fun _ => rfl⟩
    | false =>
      obtain ⟨l, e, hmem⟩ := m2 hany
      rw [e]
      exact ⟨h.home, h.homeLive, hstore, hlive, hany.symm, hwaits, fun _ => hmem, fun e => (by cases e)⟩
  · have hid := (restore_id (s := s) (i := j)).2 hm
    have hf : (if w s then healOne lower g s f else f) = f := by
      split
      · unfold healOne
        split
        · dsimp only; rw [if_pos (hsame.2 hm)]
        · rfl
      · rfl
    rw [hf]
    have : sf.restore s j = sf := by
      unfold SFml.restore
      rw [hid]
      simp
    rw [this]
    refine ⟨h.home, h.homeLive, h.refs, h.live, h.bad, fun t ht => ?_, h.deps, h.none⟩
    have : t ≠ s := by rintro rfl; exact hm ht
    rw [if_neg this]
    exact h.waits t ht

/-- A sheet is removed: the formulas on other sheets. -/
theorem bury_same (hl : Lower lower) {g g' : Reg} (hg : RegFine lower g) {w : String → Bool} {f : Fml} {sf : SFml} (h : Same g w f sf) {id : Nat}
    (hid : g.name id ≠ "") (hg' : ∀ i, i ≠ id → g'.name i = g.name i) (hhome : f.home ≠ id) (hhalf : Target.live id ∈ sf.targets → sf.half = false) :
    Same g' (fun s => w s || (decide (s = g.name id) && decide (id ∈ f.deps)))
      (if id ∈ f.deps then { bury lower g (g.name id) f with
          deps := f.deps.filter (· ≠ id)
          bad := true } else f)
      ⟨sf.home, sf.targets.map (Target.lose (g.name id) id), sf.half⟩ := by
  have hplain := hg.name hid
  have hsh : sf.home ≠ id := h.home ▸ hhome
  by_cases hm : Target.live id ∈ sf.targets
  · have hh := hhalf hm
    have hdep : id ∈ f.deps := (h.deps hh id).2 (Or.inl hm)
    rw [if_pos hdep]
    have hnames : update (g.name id) (marker (g.name id)) (shown g f.refs) = (sf.targets.map fun t => (Target.lose (g.name id) id t).show g) := by
      rw [h.refs, shown_key, update, List.map_map]
      refine List.map_congr_left fun t ht => ?_
      simp only [Function.comp]
      cases t with
      | own => simp [Target.show, Target.lose]
      | live i =>
        simp only [Target.show, Option.some.injEq, Target.lose]
        by_cases e : i = id
        · subst e; rw [if_pos rfl, if_pos rfl]
        · rw [if_neg e, if_neg]
          intro x
          have h1 := getId_of_name hg.ok (h.live i ht)
          rw [x, getId_of_name hg.ok hid] at h1
          exact e (Option.some.inj h1).symm
      | missing u =>
        simp only [Target.show, Target.lose, Option.some.injEq]
        rw [if_neg]
        exact fun x => hplain.ne u x.symm
    have hne : update (g.name id) (marker (g.name id)) (shown g f.refs) ≠ shown g f.refs := by
      rw [hnames, h.refs, shown_key]
      intro e
      have := List.map_inj_left.1 e _ hm
      simp only [Target.lose, if_true, Target.show, Option.some.injEq] at this
      exact hplain.ne _ this.symm
    unfold bury
    dsimp only
    rw [if_neg hne]
    refine ⟨h.home, ?_, ?_, ?_, ?_, ?_, ?_, ?_⟩
    · dsimp only; rw [hg' _ hsh]; exact h.homeLive
    · dsimp only
      rw [hnames, storeAllKeys, List.map_map, List.map_map]
      refine List.map_congr_left fun t ht => ?_
      simp only [Function.comp]
      cases t with
      | own => rfl
      | live i =>
        simp only [Target.lose]
        split
        · simp only [Target.show, Option.map_some, Target.key, storeKey]
          rw [hg.unmarked hl]
        · simp only [Target.show, Option.map_some, Target.key, storeKey]
          rw [getId_of_name hg.ok (h.live i ht)]
      | missing u =>
        simp only [Target.lose, Target.show, Option.map_some, Target.key, storeKey]
        rw [hg.unmarked hl]
    · intro i hi
      dsimp only at hi
      rw [List.mem_map] at hi
      obtain ⟨t, ht, he⟩ := hi
      cases t with
      | own => cases he
      | live i' =>
        simp only [Target.lose] at he
        split at he
        · cases he
        · next hne => cases he; rw [hg' _ hne]; exact h.live _ ht
      | missing u => cases he
    · dsimp only
      symm
      rw [List.any_eq_true]
      exact ⟨_, List.mem_map_of_mem hm, by simp [Target.lose, Target.isMissing]⟩
    · intro s hs
      dsimp only at hs
      rw [List.mem_map] at hs
      obtain ⟨t, ht, he⟩ := hs
      cases t with
      | own => cases he
      | live i' =>
        simp only [Target.lose] at he
        split at he
        · cases he; simp [hdep]
        · cases he
      | missing u => cases he; simp [h.waits _ ht]
    · intro _ i
      dsimp only
      rw [List.mem_filter, h.deps hh]
      simp only [decide_eq_true_eq]
      constructor
      · rintro ⟨h1 | ⟨h1, h2⟩, h3⟩
        · exact Or.inl (List.mem_map.2 ⟨_, h1, by simp [Target.lose, h3]⟩)
        · exact Or.inr ⟨List.mem_map.2 ⟨_, h1, rfl⟩, h2⟩
      · rintro (h1 | ⟨h1, h2⟩)
        · rw [List.mem_map] at h1
          obtain ⟨t, ht, he⟩ := h1
          cases t with
          | own => cases he
          | missing u => cases he
          | live i' =>
            simp only [Target.lose] at he
            split at he
            · cases he
            · next hne => cases he; exact ⟨Or.inl ht, hne⟩
        · rw [List.mem_map] at h1
          obtain ⟨t, ht, he⟩ := h1
          cases t with
          | own => exact ⟨Or.inr ⟨ht, h2⟩, h2 ▸ hsh⟩
          | missing u => cases he
          | live i' =>
            simp only [Target.lose] at he
            split at he <;> cases he
    · intro e
      dsimp only at e
      rw [hh] at e
      cases e
  · have hdep : id ∉ f.deps := by
      cases hh : sf.half with
      | true => rw [h.none hh]; simp
      | false =>
        rw [h.deps hh]
        rintro (e | ⟨-, e⟩)
        · exact hm e
        · exact hsh e
    rw [if_neg hdep, lose_id.2 hm]
    refine ⟨h.home, ?_, h.refs, fun i hi => ?_, h.bad, fun s hs => ?_, h.deps, h.none⟩
    · dsimp only; rw [hg' _ hsh]; exact h.homeLive
    · rw [hg' i (by rintro rfl; exact hm hi)]; exact h.live i hi
    · simp [h.waits s hs]

end Verif.Sheets
