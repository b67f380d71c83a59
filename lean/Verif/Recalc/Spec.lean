import Verif.Recalc.Run
import Mathlib.Logic.Relation

/-!
# C18: what a recalculated workbook is

Stated on the book and the values alone: no schedules, no dirty flags.
-/

namespace Verif.Recalc

open Verif.Sched (upd)
open Relation

variable {α : Type}

/-- With cell values `σ`, the formula of `v` refers to `d`: by an edge, inside one of its ranges, or through a computed
reference. -/
def Book.Refers (b : Book α) (σ : Nat → α) (v d : Nat) : Prop :=
  d ∈ (b.body v).deps ∨ (d ∈ (b.body v).ranges ∧ d ≠ v) ∨
    (b.dynamic v = true ∧ (d ∈ (b.body v).cells σ ∨ d ∈ (b.body v).areas σ))

/-- What the value of a formula may depend on: what it refers to, and what the names it refers to read. -/
inductive Book.Reads (b : Book α) (σ : Nat → α) : Nat → Nat → Prop
  | direct {v d} : b.Refers σ v d → Book.Reads b σ v d
  | name {v n d} : b.Refers σ v n → b.kind n = .name → Book.Reads b σ n d → Book.Reads b σ v d

/-- `v` refers to itself, possibly through others. -/
def Book.OnCycle (b : Book α) (σ : Nat → α) (v : Nat) : Prop := TransGen (b.Refers σ) v v

/-- The value of a formula is right: the error on a cycle, and otherwise what the formula computes from the values
shown. -/
def Book.Correct (b : Book α) (clock : Nat) (σ : Nat → α) (v : Nat) : Prop :=
  (b.OnCycle σ v → σ v = b.circ) ∧ (¬ b.OnCycle σ v → σ v = (b.body v).sem clock σ)

/-- A workbook that is up to date: the plain values are the given ones, and every formula and name has its right value. -/
structure Book.Recalculated (b : Book α) (clock : Nat) (base σ : Nat → α) : Prop where
  values : ∀ v, b.kind v = .value → σ v = base v
  formulas : ∀ v, b.kind v ≠ .value → b.Correct clock σ v

/-- What is assumed of the formulas. -/
structure Book.Ok (b : Book α) : Prop where
  nodup : b.vertices.Nodup
  mem : ∀ v, b.kind v ≠ .value → v ∈ b.vertices
  empty : ∀ v, b.kind v = .value → b.body v = .empty
  depsNodup : ∀ v, (b.body v).deps.Nodup
  depsMem : ∀ v, ∀ d ∈ (b.body v).deps, d ∈ b.vertices
  volMem : ∀ v ∈ b.volatile, v ∈ b.vertices
  /-- evaluation looks only at what it reads -/
  congr : ∀ v clock (σ τ : Nat → α), b.kind v ≠ .value → (∀ d, b.Reads σ v d → τ d = σ d) →
    (b.body v).sem clock τ = (b.body v).sem clock σ
  /-- only volatile formulas depend on the clock -/
  still : ∀ v c c' σ, b.kind v ≠ .value → v ∉ b.volatile → (b.body v).sem c σ = (b.body v).sem c' σ
  /-- computed references are volatile (reference_fns.rs 553, 758) -/
  dyn : ∀ v, b.kind v ≠ .value → b.dynamic v = true → v ∈ b.volatile
  noRange : ∀ v, (b.body v).hasRange = false → (b.body v).ranges = []
  /-- names are not on the grid -/
  rangeCells : ∀ v, ∀ u ∈ (b.body v).ranges, b.kind u ≠ .name
  areaCells : ∀ v σ, ∀ u ∈ (b.body v).areas σ, b.kind u ≠ .name

/-- A book without computed references. -/
def Book.Static (b : Book α) : Prop := ∀ v, b.kind v ≠ .value → b.dynamic v = false

theorem Book.Ok.no_refs {b : Book α} (h : b.Ok) {σ : Nat → α} {v d : Nat} (hk : b.kind v = .value) : ¬ b.Refers σ v d := by
  intro hr
  unfold Book.Refers at hr
  rw [h.empty v hk] at hr
  simp [Formula.empty] at hr

theorem Book.Ok.refs_kind {b : Book α} (h : b.Ok) {σ : Nat → α} {v d : Nat} (hr : b.Refers σ v d) : b.kind v ≠ .value :=
  fun hk => h.no_refs hk hr

theorem Book.Ok.reads_kind {b : Book α} (h : b.Ok) {σ : Nat → α} {v d : Nat} (hr : b.Reads σ v d) : b.kind v ≠ .value := by
  cases hr with
  | direct hr => exact h.refs_kind hr
  | name hr _ _ => exact h.refs_kind hr

/-! ## Moving between books and values

`Agree b b' σ σ' C`: the formulas in `C` are the same in both books, hold no computed references, refer only to members
of `C` or to plain values, and what they refer to has the same value. -/

structure Agree (b b' : Book α) (σ σ' : Nat → α) (C : Nat → Prop) : Prop where
  body : ∀ x, C x → b'.body x = b.body x
  kind : ∀ x, C x → b'.kind x = b.kind x
  dyn : ∀ x, C x → b.dynamic x = false
  dyn' : ∀ x, C x → b'.dynamic x = false
  val : ∀ x, C x → ∀ d, d ∈ (b.body x).deps ∨ (d ∈ (b.body x).ranges ∧ d ≠ x) → σ' d = σ d
  next : ∀ x, C x → ∀ d, d ∈ (b.body x).deps ∨ (d ∈ (b.body x).ranges ∧ d ≠ x) →
    C d ∨ (b.kind d = .value ∧ b'.kind d = .value)

theorem Agree.symm {b b' : Book α} {σ σ' : Nat → α} {C : Nat → Prop} (h : Agree b b' σ σ' C) : Agree b' b σ' σ C where
  body x hx := (h.body x hx).symm
  kind x hx := (h.kind x hx).symm
  dyn := h.dyn'
  dyn' := h.dyn
  val x hx d hd := by rw [h.body x hx] at hd; exact (h.val x hx d hd).symm
  next x hx d hd := by
    rw [h.body x hx] at hd
    rcases h.next x hx d hd with h | h
    · exact Or.inl h
    · exact Or.inr ⟨h.2, h.1⟩

theorem refers_static {b : Book α} {σ : Nat → α} {v d : Nat} (h : b.dynamic v = false) :
    b.Refers σ v d ↔ d ∈ (b.body v).deps ∨ (d ∈ (b.body v).ranges ∧ d ≠ v) := by
  unfold Book.Refers
  simp [h]

theorem Agree.refers {b b' : Book α} {σ σ' : Nat → α} {C : Nat → Prop} (h : Agree b b' σ σ' C) {x d : Nat} (hx : C x) :
    b.Refers σ x d ↔ b'.Refers σ' x d := by
  rw [refers_static (h.dyn x hx), refers_static (h.dyn' x hx), h.body x hx]

theorem Agree.reads_to {b b' : Book α} {σ σ' : Nat → α} {C : Nat → Prop} (h : Agree b b' σ σ' C) {x d : Nat} (hx : C x)
    (hr : b.Reads σ x d) : b'.Reads σ' x d ∧ σ' d = σ d := by
  induction hr with
  | direct hr => exact ⟨.direct ((h.refers hx).1 hr), h.val _ hx _ ((refers_static (h.dyn _ hx)).1 hr)⟩
  | @name v n d hr hk _ ih =>
    have hn : C n := by
      rcases h.next _ hx _ ((refers_static (h.dyn _ hx)).1 hr) with h1 | h1
      · exact h1
      · rw [hk] at h1; exact absurd h1.1 (by simp)
    obtain ⟨h1, h2⟩ := ih hn
    exact ⟨.name ((h.refers hx).1 hr) (by rw [h.kind n hn]; exact hk) h1, h2⟩

theorem Agree.path_to {b b' : Book α} (hb : b.Ok) {σ σ' : Nat → α} {C : Nat → Prop} (h : Agree b b' σ σ' C) {x y : Nat}
    (hx : C x) (hr : TransGen (b.Refers σ) x y) : TransGen (b'.Refers σ') x y ∧ (b.kind y = .value ∨ C y) := by
  have next : ∀ x, C x → ∀ d, b.Refers σ x d → b.kind d = .value ∨ C d := by
    intro x hx d hd
    rcases h.next x hx d ((refers_static (h.dyn _ hx)).1 hd) with h1 | h1
    · exact Or.inr h1
    · exact Or.inl h1.1
  induction hr with
  | single hr => exact ⟨.single ((h.refers hx).1 hr), next _ hx _ hr⟩
  | tail _ hr ih =>
    rcases ih.2 with h1 | h1
    · exact absurd hr (hb.no_refs h1)
    · exact ⟨.tail ih.1 ((h.refers h1).1 hr), next _ h1 _ hr⟩

theorem Agree.cycle {b b' : Book α} (hb : b.Ok) (hb' : b'.Ok) {σ σ' : Nat → α} {C : Nat → Prop} (h : Agree b b' σ σ' C)
    {x : Nat} (hx : C x) : b.OnCycle σ x ↔ b'.OnCycle σ' x :=
  ⟨fun hr => (h.path_to hb hx hr).1, fun hr => (h.symm.path_to hb' hx hr).1⟩

theorem Agree.correct {b b' : Book α} (hb : b.Ok) (hb' : b'.Ok) {σ σ' : Nat → α} {C : Nat → Prop}
    (h : Agree b b' σ σ' C) (hcirc : b'.circ = b.circ) {x : Nat} (hx : C x) (hv : σ' x = σ x) {clock : Nat}
    (hc : b.Correct clock σ x) (hk : b.kind x ≠ .value) : b'.Correct clock σ' x := by
  refine ⟨fun hr => ?_, fun hr => ?_⟩
  · rw [hv, hcirc, hc.1 ((h.cycle hb hb' hx).2 hr)]
  · rw [hv, hc.2 (fun h' => hr ((h.cycle hb hb' hx).1 h')), h.body x hx]
    exact (hb.congr x clock σ σ' hk fun d hd => (h.reads_to hx hd).2).symm

end Verif.Recalc
