import Verif.Recalc.Demand

/-!
# C18: histories of edits and recalculations
-/

namespace Verif.Recalc

open Verif.Sched (upd sortNat dedupSorted Schedule Orders Valid Edge)
open Relation

variable {α : Type}

/-- What a user does. -/
inductive Op (α : Type)
  | value (v : Nat) (a : α)
  | formula (bulk : Bool) (v : Nat) (f : Formula α) (old : α)
  | all (c : Config) (now : Nat)
  | targets (c : Config) (now : Nat) (roots : List Nat)

/-- What a cell holds, as the user sees it. -/
inductive Content (α : Type)
  | plain (a : α)
  | formula (f : Formula α)
  | name (f : Formula α)

/-- What the cells hold after a step: recalculation changes nothing. -/
def Content.step (k : Nat → Content α) : Op α → Nat → Content α
  | .value v a => fun x => if x = v then .plain a else k x
  | .formula _ v f _ => fun x => if x = v then .formula f else k x
  | .all _ _ => k
  | .targets _ _ _ => k

/-- The engine holds these contents. -/
def Holds (e : Engine α) (k : Nat → Content α) : Prop :=
  ∀ v, match k v with
    | .plain a => e.book.kind v = .value ∧ e.store v = a
    | .formula f => e.book.kind v = .formula ∧ e.book.body v = f
    | .name f => e.book.kind v = .name ∧ e.book.body v = f

def step (e : Engine α) : Op α → Option (Engine α)
  | .value v a => some (setValue e v a)
  | .formula bulk v f old => setFormula bulk e v f old
  | .all c now =>
    match evaluateAll c now e with
    | .done e' => some e'
    | _ => none
  | .targets c now roots =>
    match evaluateTargets c now e roots with
    | .done e' => some e'
    | _ => none

def run (e : Engine α) : List (Op α) → Option (Engine α)
  | [] => some e
  | o :: os =>
    match step e o with
    | none => none
    | some e' => run e' os

/-- What is assumed of a step: edits are of cells; a formula has no computed references, refers to itself only when loaded
in bulk, and is well formed; targets exist. -/
def Allowed (e : Engine α) : Op α → Prop
  | .value v _ => e.book.kind v ≠ .name
  | .formula bulk v f _ => e.book.kind v ≠ .name ∧ f.dynamic = false ∧ f.Fits e.book v ∧ ¬ (bulk = false ∧ v ∈ f.deps)
  | .all c _ => c.Fair
  | .targets c _ roots => c.Fair ∧ (∀ r ∈ roots, r ∈ e.book.vertices) ∧ NoNameCycle e

/-- Every step of the history is allowed where it happens. -/
def AllAllowed (e : Engine α) : List (Op α) → Prop
  | [] => True
  | o :: os => Allowed e o ∧ ∀ e', step e o = some e' → AllAllowed e' os

theorem mark_frame (e : Engine α) (vs : List Nat) : (mark e vs).book = e.book ∧ (mark e vs).store = e.store ∧
    (mark e vs).clock = e.clock := by
  unfold mark
  split <;> exact ⟨rfl, rfl, rfl⟩

theorem setValue_frame (e : Engine α) (v : Nat) (a : α) :
    (setValue e v a).book = e.book.setValue v ∧ (setValue e v a).store = upd e.store v a := by
  obtain ⟨h1, h2, -⟩ := mark_frame { e with book := e.book.setValue v, store := upd e.store v a } [v]
  unfold setValue
  simp only
  split
  · exact ⟨h1, h2⟩
  · exact ⟨h1, h2⟩

theorem putFormula_frame (e : Engine α) (v : Nat) (f : Formula α) (old : α) :
    (putFormula e v f old).book = e.book.setFormula v f ∧ (putFormula e v f old).store = upd e.store v old := by
  obtain ⟨h1, h2, -⟩ := mark_frame { e with book := e.book.setFormula v f, store := upd e.store v old } [v]
  exact ⟨h1, h2⟩

theorem holds_upd {e e' : Engine α} {k : Nat → Content α} (h : Holds e k) {v : Nat} {x : Content α}
    (hoff : ∀ y, y ≠ v → e'.book.kind y = e.book.kind y ∧ e'.book.body y = e.book.body y ∧ e'.store y = e.store y)
    (hv : match x with
      | .plain a => e'.book.kind v = .value ∧ e'.store v = a
      | .formula f => e'.book.kind v = .formula ∧ e'.book.body v = f
      | .name f => e'.book.kind v = .name ∧ e'.book.body v = f) :
    Holds e' (fun y => if y = v then x else k y) := by
  intro y
  by_cases hy : y = v
  · subst hy
    simp only [if_true]
    exact hv
  · simp only [if_neg hy]
    obtain ⟨h1, h2, h3⟩ := hoff y hy
    have := h y
    rw [h1, h2, h3]
    exact this

/-- C18: one step keeps the invariant and does to the contents what the user asked. -/
theorem step_inv {e : Engine α} (h : Inv e) (hst : e.book.Static) {k : Nat → Content α} (hk : Holds e k) (o : Op α)
    (ho : Allowed e o) : ∃ e', step e o = some e' ∧ Inv e' ∧ e'.book.Static ∧ Holds e' (Content.step k o) ∧
      e'.book.circ = e.book.circ := by
  have recalc : ∀ e' : Engine α, e'.book = e.book → (∀ v, e.book.kind v = .value → e'.store v = e.store v) → Holds e' k := by
    intro e' hb hs v
    have := hk v
    rw [hb]
    cases hkv : k v with
    | plain a =>
      rw [hkv] at this
      simp only at this ⊢
      exact ⟨this.1, by rw [hs v this.1]; exact this.2⟩
    | formula f => rw [hkv] at this; exact this
    | name f => rw [hkv] at this; exact this
  cases o with
  | value v a =>
    obtain ⟨h1, h2⟩ := setValue_frame e v a
    refine ⟨_, rfl, setValue_inv h ho a, ?_, ?_, ?_⟩
    · intro x hx
      rw [h1] at hx ⊢
      by_cases hxv : x = v
      · subst hxv
        exact absurd (upd_same _ _ _) hx
      · rw [(setValue_off e.book v ho).kind x hxv] at hx
        exact hst x hx
    · refine holds_upd hk ?_ ?_
      · intro y hy
        rw [h1, h2]
        exact ⟨upd_ne _ _ hy, upd_ne _ _ hy, upd_ne _ _ hy⟩
      · rw [h1, h2]
        exact ⟨upd_same _ _ _, upd_same _ _ _⟩
    · rw [h1]; rfl
  | formula bulk v f old =>
    obtain ⟨h1, h2, h3, h4⟩ := ho
    obtain ⟨h5, h6⟩ := putFormula_frame e v f old
    have he : setFormula bulk e v f old = some (markTopology (putFormula e v f old)) := by
      unfold setFormula
      rw [if_neg h4]
    refine ⟨_, he, setFormula_inv h h1 h3 he, ?_, ?_, ?_⟩
    · intro x hx
      have hx : (putFormula e v f old).book.kind x ≠ .value := hx
      show (putFormula e v f old).book.dynamic x = false
      rw [h5] at hx ⊢
      by_cases hxv : x = v
      · subst hxv
        rw [← h2]
        exact upd_same _ _ _
      · rw [(setFormula_off e.book v f h1).kind x hxv] at hx
        rw [(setFormula_off e.book v f h1).dyn x hxv]
        exact hst x hx
    · refine holds_upd hk ?_ ?_
      · intro y hy
        show (putFormula e v f old).book.kind y = _ ∧ (putFormula e v f old).book.body y = _ ∧
          (putFormula e v f old).store y = _
        rw [h5, h6]
        exact ⟨upd_ne _ _ hy, upd_ne _ _ hy, upd_ne _ _ hy⟩
      · show (putFormula e v f old).book.kind v = _ ∧ (putFormula e v f old).book.body v = _
        rw [h5]
        exact ⟨upd_same _ _ _, upd_same _ _ _⟩
    · show (putFormula e v f old).book.circ = _
      rw [h5]; rfl
  | all c now =>
    obtain ⟨e', h1, h2, -, h4, h5⟩ := evaluateAll_recalculates ho h hst now
    refine ⟨e', by simp only [step, h1], h5, by rw [h2]; exact hst, recalc e' h2 h4.values, by rw [h2]⟩
  | targets c now roots =>
    obtain ⟨hc, hr, hn⟩ := ho
    obtain ⟨e', -, h1, -, h2, h5, -, -, h4, -⟩ := evaluateTargets_agrees hc hc h hst hn now roots hr
    refine ⟨e', by simp only [step, h1], h5, by rw [h2]; exact hst, recalc e' h2 h4, by rw [h2]⟩

/-- C18: no history gets stuck, and the invariant holds at its end. -/
theorem run_inv {e : Engine α} (h : Inv e) (hst : e.book.Static) {k : Nat → Content α} (hk : Holds e k) (os : List (Op α))
    (ho : AllAllowed e os) : ∃ e', run e os = some e' ∧ Inv e' ∧ e'.book.Static ∧
      Holds e' (os.foldl Content.step k) ∧ e'.book.circ = e.book.circ := by
  induction os generalizing e k with
  | nil => exact ⟨e, rfl, h, hst, hk, rfl⟩
  | cons o os ih =>
    obtain ⟨e1, h1, h2, h3, h4, h5⟩ := step_inv h hst hk o ho.1
    obtain ⟨e', h6, h7, h8, h9, h10⟩ := ih h2 h3 h4 (ho.2 e1 h1)
    exact ⟨e', by simp only [run, h1]; exact h6, h7, h8, h9, h10.trans h5⟩

/-! ## Contents determine the result -/

/-- The values a user expects: plain cells show what was entered; a formula or name shows the error if it refers to
itself, and otherwise what it computes from the values shown. -/
structure Shows (k : Nat → Content α) (circ : α) (clock : Nat) (σ : Nat → α) : Prop where
  plain : ∀ v a, k v = .plain a → σ v = a
  formula : ∀ v f, k v = .formula f ∨ k v = .name f →
    let refers := fun x d => ∃ g, (k x = .formula g ∨ k x = .name g) ∧ (d ∈ g.deps ∨ (d ∈ g.ranges ∧ d ≠ x))
    (TransGen refers v v → σ v = circ) ∧ (¬ TransGen refers v v → σ v = f.sem clock σ)

theorem holds_refers {e : Engine α} (h : e.book.Ok) (hst : e.book.Static) {k : Nat → Content α} (hk : Holds e k)
    (σ : Nat → α) : e.book.Refers σ =
      fun x d => ∃ g, (k x = .formula g ∨ k x = .name g) ∧ (d ∈ g.deps ∨ (d ∈ g.ranges ∧ d ≠ x)) := by
  funext x d
  have hx := hk x
  apply propext
  cases hkx : k x with
  | plain a =>
    rw [hkx] at hx
    constructor
    · intro hr
      exact absurd hr (h.no_refs hx.1)
    · rintro ⟨g, h1 | h1, -⟩ <;> cases h1
  | formula f =>
    rw [hkx] at hx
    simp only at hx
    rw [refers_static (hst x (by rw [hx.1]; simp)), hx.2]
    constructor
    · intro hr
      exact ⟨f, Or.inl rfl, hr⟩
    · rintro ⟨g, h1 | h1, h2⟩
      · cases h1; exact h2
      · cases h1
  | name f =>
    rw [hkx] at hx
    simp only at hx
    rw [refers_static (hst x (by rw [hx.1]; simp)), hx.2]
    constructor
    · intro hr
      exact ⟨f, Or.inr rfl, hr⟩
    · rintro ⟨g, h1 | h1, h2⟩
      · cases h1
      · cases h1; exact h2

theorem shows_iff {e : Engine α} (h : e.book.Ok) (hst : e.book.Static) {k : Nat → Content α} (hk : Holds e k) (clock : Nat)
    (σ : Nat → α) : Shows k e.book.circ clock σ ↔ e.book.Recalculated clock e.store σ := by
  have hr := holds_refers h hst hk σ
  have hkind : ∀ v, e.book.kind v ≠ .value → ∃ f, (k v = .formula f ∨ k v = .name f) ∧ e.book.body v = f := by
    intro v hv
    have hx := hk v
    cases hkv : k v with
    | plain a => rw [hkv] at hx; exact absurd hx.1 hv
    | formula f => rw [hkv] at hx; exact ⟨f, Or.inl rfl, hx.2⟩
    | name f => rw [hkv] at hx; exact ⟨f, Or.inr rfl, hx.2⟩
  have hbody : ∀ v f, k v = .formula f ∨ k v = .name f → e.book.kind v ≠ .value ∧ e.book.body v = f := by
    intro v f hf
    have hx := hk v
    rcases hf with hf | hf
    · rw [hf] at hx
      simp only at hx
      exact ⟨by rw [hx.1]; simp, hx.2⟩
    · rw [hf] at hx
      simp only at hx
      exact ⟨by rw [hx.1]; simp, hx.2⟩
  constructor
  · intro hs
    refine ⟨?_, ?_⟩
    · intro v hv
      have hx := hk v
      cases hkv : k v with
      | plain a =>
        rw [hkv] at hx
        rw [hs.plain v a hkv]
        exact hx.2.symm
      | formula f =>
        rw [hkv] at hx
        simp only at hx
        rw [hv] at hx
        cases hx.1
      | name f =>
        rw [hkv] at hx
        simp only at hx
        rw [hv] at hx
        cases hx.1
    · intro v hv
      obtain ⟨f, h1, h2⟩ := hkind v hv
      have := hs.formula v f h1
      simp only at this
      unfold Book.Correct Book.OnCycle
      rw [hr, h2]
      exact this
  · intro hs
    refine ⟨?_, ?_⟩
    · intro v a hv
      have hx := hk v
      rw [hv] at hx
      simp only at hx
      rw [hs.values v hx.1]
      exact hx.2
    · intro v f hf
      obtain ⟨h1, h2⟩ := hbody v f hf
      have := hs.formulas v h1
      unfold Book.Correct Book.OnCycle at this
      rw [hr, h2] at this
      exact this

/-- **C18** After any history of edits, partial and full recalculations, a full recalculation shows the values that the
contents of the cells determine. -/
theorem recalculation_correct {e : Engine α} (h : Inv e) (hst : e.book.Static) {k : Nat → Content α} (hk : Holds e k)
    (os : List (Op α)) (ho : AllAllowed e os) {c : Config} (hc : c.Fair) (now : Nat) :
    ∃ e1 e', run e os = some e1 ∧ evaluateAll c now e1 = .done e' ∧
      Shows (os.foldl Content.step k) e.book.circ now e'.store ∧
      ∀ σ, Shows (os.foldl Content.step k) e.book.circ now σ → e'.store = σ := by
  obtain ⟨e1, h1, h2, h3, h4, h5⟩ := run_inv h hst hk os ho
  obtain ⟨e', h6, -, -, h8, -⟩ := evaluateAll_recalculates hc h2 h3 now
  refine ⟨e1, e', h1, h6, ?_, ?_⟩
  · rw [← h5]
    exact (shows_iff h2.ok h3 h4 now _).2 h8
  · intro σ hσ
    rw [← h5] at hσ
    exact recalculated_unique h2.ok h3 h8 ((shows_iff h2.ok h3 h4 now σ).1 hσ)

/-- **C18** Two histories that leave the cells with the same contents show the same values after a full recalculation:
neither the order of the edits, nor the recalculations in between, nor threads and hash orders are visible. -/
theorem histories_agree {e f : Engine α} (he : Inv e) (hf : Inv f) (hse : e.book.Static) (hsf : f.book.Static)
    {k l : Nat → Content α} (hk : Holds e k) (hl : Holds f l) (os ps : List (Op α)) (ho : AllAllowed e os)
    (hp : AllAllowed f ps) (hcirc : e.book.circ = f.book.circ) (hsame : os.foldl Content.step k = ps.foldl Content.step l)
    {c d : Config} (hc : c.Fair) (hd : d.Fair) (now : Nat) :
    ∃ e1 e' f1 f', run e os = some e1 ∧ evaluateAll c now e1 = .done e' ∧ run f ps = some f1 ∧
      evaluateAll d now f1 = .done f' ∧ e'.store = f'.store := by
  obtain ⟨e1, e', h1, h2, -, h4⟩ := recalculation_correct he hse hk os ho hc now
  obtain ⟨f1, f', g1, g2, g3, -⟩ := recalculation_correct hf hsf hl ps hp hd now
  refine ⟨e1, e', f1, f', h1, h2, g1, g2, h4 _ ?_⟩
  rw [hsame, hcirc]
  exact g3

/-- **C46** (part) After any history, evaluating chosen cells shows in them what a full recalculation would. Missing: workbooks
with a name on a cycle (`name_cycle_wrong`) or with computed references. -/
theorem targets_correct_partial {e : Engine α} (h : Inv e) (hst : e.book.Static) {k : Nat → Content α} (hk : Holds e k)
    (os : List (Op α)) (ho : AllAllowed e os) {c : Config} (now : Nat) (roots : List Nat)
    (hr : ∀ e1, run e os = some e1 → Allowed e1 (.targets c now roots)) :
    ∃ e1 e', run e os = some e1 ∧ evaluateTargets c now e1 roots = .done e' ∧
      ∀ σ, Shows (os.foldl Content.step k) e.book.circ now σ → ∀ r ∈ roots, e'.store r = σ r := by
  obtain ⟨e1, h1, h2, h3, h4, h5⟩ := run_inv h hst hk os ho
  obtain ⟨hc, hr1, hr2⟩ := hr e1 h1
  obtain ⟨e', f', g1, g2, -, -, -, g3, -, -⟩ := evaluateTargets_agrees hc hc h2 h3 hr2 now roots hr1
  refine ⟨e1, e', h1, g1, ?_⟩
  intro σ hσ r hrr
  obtain ⟨f'', g4, -, -, g5, -⟩ := evaluateAll_recalculates hc h2 h3 now
  rw [g2] at g4
  cases g4
  rw [g3 r hrr]
  rw [← h5] at hσ
  rw [recalculated_unique h2.ok h3 g5 ((shows_iff h2.ok h3 h4 now σ).1 hσ)]

/-! ## Where histories start -/

/-- An engine that has evaluated nothing yet. -/
def fresh (b : Book α) (σ : Nat → α) : Engine α :=
  { book := b
    store := σ
    dirty := { flags := b.vertices, dirtySet := b.vertices }
    epoch := 0
    cache := none
    clock := 0 }

theorem fresh_inv {b : Book α} (hb : b.Ok) (σ : Nat → α) : Inv (fresh b σ) := by
  refine ⟨hb, rfl, fun _ _ => Iff.rfl, fun v hv _ => hb.volMem v hv, ?_, ?_, ?_⟩
  · intro u v _ _ hr
    exact (graph_ok b).closed u v ((graph_dep hb u v).2 hr)
  · intro v hk hv
    exact absurd (hb.mem v hk) hv
  · intro k hk
    cases hk

/-- The empty workbook. -/
def emptyBook (circ : α) : Book α :=
  { vertices := []
    kind := fun _ => .value
    body := fun _ => .empty
    volatile := []
    dynamic := fun _ => false
    circ := circ }

theorem emptyBook_ok (circ : α) : (emptyBook circ).Ok := by
  refine ⟨List.nodup_nil, ?_, ?_, ?_, ?_, ?_, ?_, ?_, ?_, ?_, ?_, ?_⟩ <;> intros <;>
    simp_all [emptyBook, Formula.empty]

end Verif.Recalc
