import Verif.Recalc.Edit
import Verif.Edges.Lemmas

/-!
# C18: `evaluate_all`
-/

namespace Verif.Recalc

open Verif.Sched (upd sortNat dedupSorted Schedule Orders Valid Edge)
open Relation

variable {α : Type}

/-- Time passing keeps the invariant. -/
theorem clock_inv {e : Engine α} (h : Inv e) (now : Nat) : Inv { e with clock := now } := by
  refine ⟨h.ok, h.depth, h.same, h.vol, h.closed, ?_, h.cache⟩
  intro v hk hv
  obtain ⟨h1, h2⟩ := h.clean v hk hv
  refine ⟨h1, fun hc => ?_⟩
  show e.store v = (e.book.body v).sem now e.store
  rw [h2 hc]
  exact h.ok.still v e.clock now e.store hk fun hm => hv (h.vol v hm hk)

/-- Marking volatile formulas, from a state without dirty formulas that are not volatile. -/
theorem redirty_inv {e : Engine α} (hok : e.book.Ok) (hd : e.dirty.depth = 0)
    (hsame : ∀ v, e.book.kind v ≠ .value → (v ∈ e.dirty.dirtySet ↔ v ∈ e.dirty.flags))
    (hclosed : ∀ u v, e.book.kind u ≠ .value → u ∈ e.dirty.flags →
      u ∈ (e.book.body v).deps ∨ u ∈ (e.book.body v).ranges → v ∈ e.dirty.flags)
    (hclean : ∀ v, e.book.kind v ≠ .value → v ∉ e.dirty.flags → e.book.Correct e.clock e.store v)
    (hcache : ∀ k, e.cache = some k → k.epoch = e.epoch →
      Valid k.candidates (fun v => (e.book.body v).deps) k.schedule.steps) :
    Inv (redirty e) ∧ (redirty e).book = e.book ∧ (redirty e).store = e.store ∧ (redirty e).clock = e.clock := by
  obtain ⟨s, hm, hdep, hfl, hds⟩ := mark_spec hd e.book.volatile hok.volMem
  unfold redirty
  rw [hm]
  refine ⟨⟨hok, hdep, ?_, ?_, ?_, ?_, hcache⟩, rfl, rfl, rfl⟩
  · intro v hk
    show v ∈ s.dirtySet ↔ v ∈ s.flags
    rw [hfl, hds, hsame v hk]
    constructor
    · rintro (h | h | h)
      · exact Or.inl h
      · exact Or.inr (Or.inl ⟨h, (isF_iff _ _).2 hk⟩)
      · exact Or.inr h
    · rintro (h | h)
      · exact Or.inl h
      · exact Or.inr (Or.inr h)
  · intro v hv hk
    exact (hfl v).2 (Or.inr (Or.inl ⟨hv, (isF_iff _ _).2 hk⟩))
  · intro u v hk hu hd
    rcases (hfl u).1 hu with h | h
    · exact (hfl v).2 (Or.inl (hclosed u v hk h hd))
    · exact (hfl v).2 (Or.inr (mustMark_next hok h hd))
  · intro v hk hv
    exact hclean v hk fun h => hv ((hfl v).2 (Or.inl h))

/-- The schedule that the first pass of `evaluate_all` uses. -/
def FirstPass (c : Config) (e : Engine α) (s : Schedule) (vd : Sched.VDeps) : Prop :=
  ∃ k, schedule c e (candidates e) = .ok (s, vd, k)

/-- **C48** (part) Computed references included: if the virtual dependencies found before the first pass are still the right
ones after it, and no computed reference meets its own cell, then `evaluate_all` brings the workbook up to date. Missing:
the request that needs a second pass; see `replan_wrong`. -/
theorem evaluateAll_dynamic_partial {c : Config} (hc : c.Fair) {e : Engine α} (h : Inv e) (now : Nat)
    (hset : ∀ s vd, FirstPass c { e with clock := now } s vd →
      (runPass c { e with clock := now } (candidates e) (candidates e) s vd).2 = [] ∧
      NoSelf e.book (runUnits c e.book now s e.store)) :
    ∃ e', evaluateAll c now e = .done e' ∧ e'.book = e.book ∧ e'.clock = now ∧
      e.book.Recalculated now e.store e'.store ∧ Inv e' := by
  have h0 := clock_inv h now
  have hS := mem_candidates h0
  have hcand : candidates { e with clock := now } = candidates e := rfl
  rw [hcand] at hS
  unfold evaluateAll
  rw [evalLoop.eq_def]
  simp only [hcand]
  by_cases hnil : candidates e = []
  · rw [if_pos hnil]
    have hnone : ∀ v, e.book.kind v ≠ .value → v ∉ e.dirty.flags := by
      intro v hk hv
      have := (hS v).2 ⟨hk, hv⟩
      rw [hnil] at this
      cases this
    obtain ⟨h1, h2, h3, h4⟩ := redirty_inv h0.ok h0.depth h0.same h0.closed h0.clean h0.cache
    refine ⟨_, rfl, h2, h4, ?_, h1⟩
    rw [h3]
    exact ⟨fun _ _ => rfl, fun v hk => h0.clean v hk (hnone v hk)⟩
  · rw [if_neg hnil]
    obtain ⟨s, vd, k, hs, hvd, hV, hk⟩ := schedule_valid hc h0 (candidates e)
    obtain ⟨hch, hself⟩ := hset s vd ⟨k, hs⟩
    have hR := pass_recalculates c h0 hS hvd hV hch hself
    simp only [hs]
    have hch' : (runPass c { e with clock := now, cache := k } (candidates e) (candidates e) s vd).2 = [] := hch
    rw [if_pos hch']
    have hst : (runPass c { e with clock := now, cache := k } (candidates e) (candidates e) s vd).1 =
        { e with
          clock := now
          cache := k
          store := runUnits c e.book now s e.store
          dirty := Dirty.clearDirty e.dirty (candidates e) } := by
      unfold runPass at hch' ⊢
      simp only at hch' ⊢
      rw [hch']
      rfl
    rw [hst]
    have hnone : ∀ v, e.book.kind v ≠ .value → v ∉ (Dirty.clearDirty e.dirty (candidates e)).flags := by
      intro v hkv hv
      simp only [Dirty.clearDirty, List.mem_filter, decide_eq_true_eq] at hv
      exact hv.2 ((hS v).2 ⟨hkv, hv.1⟩)
    obtain ⟨h1, h2, h3, h4⟩ := redirty_inv
      (e := { e with
          clock := now
          cache := k
          store := runUnits c e.book now s e.store
          dirty := Dirty.clearDirty e.dirty (candidates e) })
      h.ok h.depth
      (by
        intro v hkv
        show v ∈ (Dirty.clearDirty e.dirty (candidates e)).dirtySet ↔ v ∈ (Dirty.clearDirty e.dirty (candidates e)).flags
        simp only [Dirty.clearDirty, List.mem_filter]
        rw [h.same v hkv])
      (fun u v hkv hu _ => absurd hu (hnone u hkv))
      (fun v hkv _ => hR.formulas v hkv) hk.cache
    refine ⟨_, rfl, h2, h4, ?_, h1⟩
    rw [h3]
    exact hR

/-- C18: in a workbook without computed references, `evaluate_all` ends and brings the workbook up to date. -/
theorem evaluateAll_recalculates {c : Config} (hc : c.Fair) {e : Engine α} (h : Inv e) (hst : e.book.Static) (now : Nat) :
    ∃ e', evaluateAll c now e = .done e' ∧ e'.book = e.book ∧ e'.clock = now ∧
      e.book.Recalculated now e.store e'.store ∧ Inv e' := by
  refine evaluateAll_dynamic_partial hc h now fun s vd _ => ⟨?_, ?_⟩
  · have hno : ((candidates e).any fun v => e.book.dynamic v) = false := by
      rw [List.any_eq_false]
      intro v hv
      rw [hst v ((mem_candidates h v).1 hv).1]
      simp
    show changedVDeps _ _ _ _ = []
    unfold changedVDeps
    rw [if_neg]
    simp only [hno]
    simp
  · intro v hd
    by_cases hk : e.book.kind v = .value
    · rw [h.ok.empty v hk]
      simp [Formula.empty]
    · rw [hst v hk] at hd
      cases hd

/-! ## There is only one right answer -/

/-- The formulas and names of a book, each after what it refers to. -/
theorem order_all {b : Book α} (hb : b.Ok) (hst : b.Static) :
    ∃ steps, ∀ σ : Nat → α, ∃ S, Valid S (fun v => (b.body v).deps ++ (b.body v).ranges.filter (· ≠ v)) steps ∧
      (∀ v, v ∈ S ↔ b.kind v ≠ .value) ∧
      (∀ v ∈ S, ∀ d, b.Refers σ v d ↔ d ∈ (b.body v).deps ++ (b.body v).ranges.filter (· ≠ v)) := by
  obtain ⟨s, -, hV⟩ := Sched.createScheduleVirtual_valid ⟨id, id⟩ (fun _ => .refl _) (fun _ => .refl _) b.sgraph
    (fun v => (b.body v).ranges.filter (· ≠ v)) (by intro v hv; simp at hv) (b.vertices.filter b.isF)
  refine ⟨s.steps, fun σ => ⟨b.vertices.filter b.isF, hV, ?_, ?_⟩⟩
  · intro v
    rw [List.mem_filter, isF_iff]
    exact ⟨fun h => h.2, fun h => ⟨hb.mem v h, h⟩⟩
  · intro v hv d
    rw [List.mem_filter, isF_iff] at hv
    rw [refers_static (hst v hv.2), List.mem_append, List.mem_filter, decide_eq_true_eq]

/-- In a book without computed references, values that are right on a set of cells closed under references are
determined there by the plain values. -/
theorem unique_on {b : Book α} (hb : b.Ok) (hst : b.Static) {clock : Nat} {σ τ : Nat → α} {D : Nat → Prop}
    (hD : ∀ v d, D v → b.Refers σ v d → D d) (hval : ∀ v, D v → b.kind v = .value → σ v = τ v)
    (hσ : ∀ v, D v → b.kind v ≠ .value → b.Correct clock σ v) (hτ : ∀ v, D v → b.kind v ≠ .value → b.Correct clock τ v)
    (v : Nat) (hv : D v) : σ v = τ v := by
  obtain ⟨steps, hsteps⟩ := order_all hb hst
  obtain ⟨S, hV, hS, href⟩ := hsteps σ
  have href' : ∀ v d, b.Refers σ v d ↔ b.Refers τ v d := by
    intro v d
    by_cases hk : b.kind v = .value
    · exact ⟨fun h => absurd h (hb.no_refs hk), fun h => absurd h (hb.no_refs hk)⟩
    · rw [refers_static (hst v hk), refers_static (hst v hk)]
  have hcyc : ∀ v, b.OnCycle σ v ↔ b.OnCycle τ v := by
    intro v
    have : b.Refers σ = b.Refers τ := by
      funext x y
      exact propext (href' x y)
    unfold Book.OnCycle
    rw [this]
  have hDr : ∀ v d, b.Reads σ v d → D v → D d := by
    intro v d hr
    induction hr with
    | direct hr => exact fun hv => hD _ _ hv hr
    | name hr _ _ ih => exact fun hv => ih (hD _ _ hv hr)
  have key : ∀ pre post, steps = pre ++ post → ∀ v ∈ pre.flatMap Prod.snd, D v → σ v = τ v := by
    intro pre
    induction pre using Edges.snocInd with
    | h0 => intro post _ v hv; simp at hv
    | h1 pre u ih =>
      obtain ⟨c, l⟩ := u
      intro post he v hv hDv
      rw [List.flatMap_append, List.mem_append] at hv
      have he' : steps = pre ++ (c, l) :: post := by rw [he]; simp
      rcases hv with hv | hv
      · exact ih ((c, l) :: post) he' v hv hDv
      · simp only [List.flatMap_cons, List.flatMap_nil, List.append_nil] at hv
        have hvS : v ∈ S := by
          refine (hV.mem v).1 ?_
          rw [he', List.flatMap_append, List.flatMap_cons]
          exact List.mem_append.2 (Or.inr (List.mem_append.2 (Or.inl hv)))
        have hk := (hS v).1 hvS
        by_cases hoc : b.OnCycle σ v
        · rw [(hσ v hDv hk).1 hoc, (hτ v hDv hk).1 ((hcyc v).1 hoc)]
        · rw [(hσ v hDv hk).2 hoc, (hτ v hDv hk).2 (fun h => hoc ((hcyc v).2 h))]
          refine (hb.congr v clock σ τ hk fun d hd => ?_).symm
          by_cases hdk : b.kind d = .value
          · exact (hval d (hDr v d hd hDv) hdk).symm
          · rcases reads_before hV (fun v hv d _ hr => (href v hv d).1 hr)
              (fun n d hn _ _ _ => (hS n).2 (by rw [hn]; simp)) hd pre c l post he' hv ((hS d).2 hdk) with h1 | h1
            · exact (ih ((c, l) :: post) he' d h1 (hDr v d hd hDv)).symm
            · refine absurd ?_ hoc
              obtain ⟨rfl, -⟩ := h1
              have hmem : (true, l) ∈ steps := by rw [he']; simp
              have := (hV.cyc l hmem).2 v hv
              exact TransGen.mono (fun x y he => (href x he.1 y).2 he.2.2) _ _ this.1
  by_cases hk : b.kind v = .value
  · exact hval v hv hk
  · exact key steps [] (by simp) v ((hV.mem v).2 ((hS v).2 hk)) hv

/-- C18: in a book without computed references the up-to-date workbook is determined by the plain values. -/
theorem recalculated_unique {b : Book α} (hb : b.Ok) (hst : b.Static) {clock : Nat} {base σ τ : Nat → α}
    (hσ : b.Recalculated clock base σ) (hτ : b.Recalculated clock base τ) : σ = τ := by
  funext v
  exact unique_on hb hst (D := fun _ => True) (fun _ _ _ _ => trivial)
    (fun v _ hk => by rw [hσ.values v hk, hτ.values v hk]) (fun v _ => hσ.formulas v) (fun v _ => hτ.formulas v) v trivial

end Verif.Recalc
