/-
Property C68: what the cells of a span compute after rows and columns were inserted or deleted elsewhere.
-/
import Verif.Template.Thms
import Verif.Template.Shift

namespace Verif.Template

/-! ### Specification: a formula whose references are moved -/

section Spec

variable {V : Type}

mutual

/-- All relative references moved by the same distance; constants stay. -/
def moveRefs (mr mc : Int) : Fm V → Option (Fm V)
  | .lit v => some (.lit v)
  | .omitted => some .omitted
  | .ref r => (relocate mr mc r).map .ref
  | .unary op e => (moveRefs mr mc e).map (.unary op)
  | .binary op l r => do
    let l ← moveRefs mr mc l
    let r ← moveRefs mr mc r
    some (.binary op l r)
  | .func f args => (moveRefsArgs mr mc args).map (.func f)

/-- The arguments of a function. -/
def moveRefsArgs (mr mc : Int) : List (Fm V) → Option (List (Fm V))
  | [] => some []
  | a :: as => do
    let a ← moveRefs mr mc a
    let as ← moveRefsArgs mr mc as
    some (a :: as)

end

mutual

theorem moveRefs_lits {mr mc : Int} (H G : Fm V) (h : moveRefs mr mc H = some G) : lits G = lits H := by
  cases H with
  | lit v => cases h; rfl
  | omitted => cases h; rfl
  | ref r =>
    simp only [moveRefs, Option.map_eq_some_iff] at h
    obtain ⟨s, -, rfl⟩ := h
    rfl
  | unary op e =>
    simp only [moveRefs, Option.map_eq_some_iff] at h
    obtain ⟨s, h1, rfl⟩ := h
    exact moveRefs_lits e s h1
  | binary op l r =>
    simp only [moveRefs, bind, Option.bind_eq_some_iff] at h
    obtain ⟨l', h1, r', h2, h⟩ := h
    cases h
    simp only [lits, moveRefs_lits l l' h1, moveRefs_lits r r' h2]
  | func f args =>
    simp only [moveRefs, Option.map_eq_some_iff] at h
    obtain ⟨s, h1, rfl⟩ := h
    exact moveRefs_litsArgs args s h1

theorem moveRefs_litsArgs {mr mc : Int} (as bs : List (Fm V)) (h : moveRefsArgs mr mc as = some bs) : litsArgs bs = litsArgs as := by
  cases as with
  | nil => cases h; rfl
  | cons a as =>
    simp only [moveRefsArgs, bind, Option.bind_eq_some_iff] at h
    obtain ⟨l', h1, r', h2, h⟩ := h
    cases h
    simp only [litsArgs, moveRefs_lits a l' h1, moveRefs_litsArgs as r' h2]

end

theorem shiftAxis_comp {v w u : Nat} {a b : Int} {f : Bool} (h1 : shiftAxis v a f = some w) (h2 : shiftAxis w b f = some u) :
    shiftAxis v (a + b) f = some u := by
  cases f with
  | true => simp only [shiftAxis, if_true, Option.some.injEq] at h1 h2 ⊢; omega
  | false =>
    simp only [shiftAxis, Bool.false_eq_true, if_false] at h1 h2 ⊢
    split at h1
    · cases h1
    · split at h2
      · cases h2
      · have h1 := Option.some.inj h1
        have h2 := Option.some.inj h2
        rw [if_neg (by omega)]
        congr 1
        omega

theorem shiftOpt_comp {v w u : Option Nat} {a b : Int} {f : Bool} (h1 : shiftOpt v a f = some w) (h2 : shiftOpt w b f = some u) :
    shiftOpt v (a + b) f = some u := by
  cases v with
  | none => cases h1; cases h2; rfl
  | some v =>
    simp only [shiftOpt, Option.map_eq_some_iff] at h1
    obtain ⟨w', h1, rfl⟩ := h1
    simp only [shiftOpt, Option.map_eq_some_iff] at h2
    obtain ⟨u', h2, rfl⟩ := h2
    simp only [shiftOpt, shiftAxis_comp h1 h2, Option.map_some]

theorem relocate_comp {r s t : Ref} {a b m n : Int} (h1 : relocate a b r = some s) (h2 : relocate m n s = some t) :
    relocate (a + m) (b + n) r = some t := by
  cases r with
  | named x => cases h1; cases h2; rfl
  | cell sh x y f g =>
    simp only [relocate, bind, Option.bind_eq_some_iff] at h1
    obtain ⟨x', k1, y', k2, h⟩ := h1
    cases h
    simp only [relocate, bind, Option.bind_eq_some_iff] at h2
    obtain ⟨x'', l1, y'', l2, h⟩ := h2
    cases h
    simp only [relocate, bind, shiftAxis_comp k1 l1, shiftAxis_comp k2 l2, Option.bind_some]
  | range sh x y z w f g i j =>
    simp only [relocate, bind, Option.bind_eq_some_iff] at h1
    obtain ⟨x', k1, y', k2, z', k3, w', k4, h⟩ := h1
    cases h
    simp only [relocate, bind, Option.bind_eq_some_iff] at h2
    obtain ⟨x'', l1, y'', l2, z'', l3, w'', l4, h⟩ := h2
    cases h
    simp only [relocate, bind, shiftOpt_comp k1 l1, shiftOpt_comp k2 l2, shiftOpt_comp k3 l3, shiftOpt_comp k4 l4, Option.bind_some]

theorem effectiveRef_of {r t : Ref} {a b : Int} (h : relocate a b r = some t) : effectiveRef a b r = some t := by
  unfold effectiveRef
  split
  · rename_i hz
    rw [hz.1, hz.2] at h
    rw [relocate_zero h]
  · exact h

variable {slots : Nat → Option Nat} {vals : List V} {p q p' q' : Nat} {mr mc : Int}

mutual

/-- A formula `T` of the same shape as `H`: at the distance from `T` to `H` plus the distance of the move, the formula computed from `T` is
the moved `H` exactly when its constants become those of `H`. -/
theorem moved_iff (T : Fm (Nat × V)) (H G : Fm V) (c c' : Ctx) (h : shape (canon p q c T.plain) = shape (canon p' q' c' H)) (hT : T.Ok) (hH : H.Ok)
    (hm : moveRefs mr mc H = some G) :
    effective slots vals ((p' : Int) - p + mr) ((q' : Int) - q + mc) T = some G ↔ (lits T).map (pick slots vals) = lits H := by
  cases T with
  | lit v =>
    cases H with
    | lit w =>
      cases hm
      simp only [effective, lits, List.map_cons, List.map_nil, List.cons.injEq, and_true, Option.some.injEq, Fm.lit.injEq]
      exact Iff.rfl
    | _ => simp [Fm.plain, Fm.map, canon, shape] at h
  | omitted =>
    cases H with
    | omitted => cases hm; simp [effective, lits]
    | _ => simp [Fm.plain, Fm.map, canon, shape] at h
  | ref r =>
    cases H with
    | ref s =>
      simp only [moveRefs, Option.map_eq_some_iff] at hm
      obtain ⟨t, hm, rfl⟩ := hm
      simp only [Fm.plain, Fm.map, canon, shape, CExpr.ref.injEq] at h
      simp [effective, lits, effectiveRef_of (relocate_comp (relocate_canon h.2 hT hH) hm)]
    | _ => simp [Fm.plain, Fm.map, canon, shape] at h
  | unary op e =>
    cases H with
    | unary op' e' =>
      simp only [moveRefs, Option.map_eq_some_iff] at hm
      obtain ⟨t, hm, rfl⟩ := hm
      simp only [Fm.plain, Fm.map, canon, shape, CExpr.unary.injEq] at h
      have := moved_iff e e' t _ _ h.2 hT hH hm
      rw [lits, lits, ← this, h.1]
      simp [effective]
    | _ => simp [Fm.plain, Fm.map, canon, shape] at h
  | binary op l r =>
    cases H with
    | binary op' l' r' =>
      simp only [moveRefs, bind, Option.bind_eq_some_iff] at hm
      obtain ⟨l'', hm1, r'', hm2, hm⟩ := hm
      cases hm
      simp only [Fm.plain, Fm.map, canon, shape, CExpr.binary.injEq] at h
      have h1 := moved_iff l l' l'' _ _ h.2.1 hT.1 hH.1 hm1
      have h2 := moved_iff r r' r'' _ _ h.2.2 hT.2 hH.2 hm2
      have hl : ((lits l).map (pick slots vals)).length = (lits l').length := by
        have := shape_count _ _ _ _ _ _ _ _ h.2.1
        rw [← this, List.length_map, ← Fm.plain, lits_plain, List.length_map]
      rw [lits, lits, List.map_append]
      constructor
      · intro k
        simp only [effective, bind, Option.bind_eq_some_iff] at k
        obtain ⟨x, k1, y, k2, k⟩ := k
        have k := Option.some.inj k
        simp only [Fm.binary.injEq] at k
        rw [← h1.1 (k1.trans (congrArg some k.2.1)), ← h2.1 (k2.trans (congrArg some k.2.2))]
      · intro k
        obtain ⟨k1, k2⟩ := List.append_inj k hl
        simp [effective, h1.2 k1, h2.2 k2, h.1]
    | _ => simp [Fm.plain, Fm.map, canon, shape] at h
  | func f args =>
    cases H with
    | func f' args' =>
      simp only [moveRefs, Option.map_eq_some_iff] at hm
      obtain ⟨t, hm, rfl⟩ := hm
      simp only [Fm.plain, Fm.map, canon, shape, CExpr.func.injEq] at h
      have := movedArgs_iff args args' t _ _ _ _ h.2 hT hH hm
      rw [lits, lits, ← this, h.1]
      simp [effective]
    | _ => simp [Fm.plain, Fm.map, canon, shape] at h

theorem movedArgs_iff (as : List (Fm (Nat × V))) (bs cs : List (Fm V)) (f f' : Fn) (i j : Nat)
    (h : shapes (canonArgs p q f i (Fm.mapArgs Prod.snd as)) = shapes (canonArgs p' q' f' j bs)) (hT : Fm.OkArgs as) (hH : Fm.OkArgs bs)
    (hm : moveRefsArgs mr mc bs = some cs) :
    effectiveArgs slots vals ((p' : Int) - p + mr) ((q' : Int) - q + mc) as = some cs ↔ (litsArgs as).map (pick slots vals) = litsArgs bs := by
  cases as with
  | nil =>
    cases bs with
    | nil => cases hm; simp [effectiveArgs, litsArgs]
    | cons b bs => simp [Fm.mapArgs, canonArgs, shapes] at h
  | cons a as =>
    cases bs with
    | nil => simp [Fm.mapArgs, canonArgs, shapes] at h
    | cons b bs =>
      simp only [moveRefsArgs, bind, Option.bind_eq_some_iff] at hm
      obtain ⟨l'', hm1, r'', hm2, hm⟩ := hm
      cases hm
      simp only [Fm.mapArgs, canonArgs, shapes, List.cons.injEq] at h
      have h1 := moved_iff a b l'' _ _ h.1 hT.1 hH.1 hm1
      have h2 := movedArgs_iff as bs r'' _ _ _ _ h.2 hT.2 hH.2 hm2
      have hl : ((lits a).map (pick slots vals)).length = (lits b).length := by
        have := shape_count _ _ _ _ _ _ _ _ h.1
        rw [← this, List.length_map, ← Fm.plain, lits_plain, List.length_map]
      rw [litsArgs, litsArgs, List.map_append]
      constructor
      · intro k
        simp only [effectiveArgs, bind, Option.bind_eq_some_iff] at k
        obtain ⟨x, k1, y, k2, k⟩ := k
        have k := Option.some.inj k
        simp only [List.cons.injEq] at k
        rw [← h1.1 (k1.trans (congrArg some k.1)), ← h2.1 (k2.trans (congrArg some k.2))]
      · intro k
        obtain ⟨k1, k2⟩ := List.append_inj k hl
        simp [effectiveArgs, h1.2 k1, h2.2 k2]

end

end Spec

variable {F E : Type}

/-! ### Domains -/

theorem shiftU32_some {v w : Nat} {d : Int} (h : shiftU32 v d = some w) : (w : Int) = v + d := by
  unfold shiftU32 at h
  split at h
  · have := Option.some.inj h
    omega
  · cases h

theorem ordinal_shift {d d' : Domain} {dr dc : Int} (h : d.shift dr dc = some d') {r c r' c' : Nat} (hr : (r' : Int) = r + dr) (hc : (c' : Int) = c + dc) :
    d'.ordinalOf r' c' = d.ordinalOf r c := by
  cases d with
  | rowRun r0 r1 k =>
    simp only [Domain.shift, bind, Option.bind_eq_some_iff] at h
    obtain ⟨x, h1, y, h2, z, h3, h⟩ := h
    cases h
    have h1 := shiftU32_some h1
    have h2 := shiftU32_some h2
    have h3 := shiftU32_some h3
    unfold Domain.ordinalOf
    dsimp only
    by_cases g : c = k ∧ r ≥ r0 ∧ r ≤ r1
    · rw [if_pos g, if_pos (by omega)]; congr 1; omega
    · rw [if_neg g, if_neg (by omega)]
  | colRun k c0 c1 =>
    simp only [Domain.shift, bind, Option.bind_eq_some_iff] at h
    obtain ⟨x, h1, y, h2, z, h3, h⟩ := h
    cases h
    have h1 := shiftU32_some h1
    have h2 := shiftU32_some h2
    have h3 := shiftU32_some h3
    unfold Domain.ordinalOf
    dsimp only
    by_cases g : r = k ∧ c ≥ c0 ∧ c ≤ c1
    · rw [if_pos g, if_pos (by omega)]; congr 1; omega
    · rw [if_neg g, if_neg (by omega)]
  | rect r0 r1 c0 c1 =>
    simp only [Domain.shift, bind, Option.bind_eq_some_iff] at h
    obtain ⟨x, h1, y, h2, z, h3, w, h4, h⟩ := h
    cases h
    have h1 := shiftU32_some h1
    have h2 := shiftU32_some h2
    have h3 := shiftU32_some h3
    have h4 := shiftU32_some h4
    unfold Domain.ordinalOf
    dsimp only
    by_cases g : r ≥ r0 ∧ r ≤ r1 ∧ c ≥ c0 ∧ c ≤ c1
    · rw [if_pos g, if_pos (by omega)]
      rw [show r' - x = r - r0 by omega, show w - z + 1 = c1 - c0 + 1 by omega, show c' - z = c - c0 by omega]
    · rw [if_neg g, if_neg (by omega)]

/-- A domain moved by a sequence of shifts. -/
def Domain.Moved (dr dc : Int) (d d' : Domain) : Prop := d.shift dr dc = some d' ∨ d' = d ∧ dr = 0 ∧ dc = 0

theorem ordinal_moved {d d' : Domain} {dr dc : Int} (h : d.Moved dr dc d') {r c r' c' : Nat} (hr : (r' : Int) = r + dr) (hc : (c' : Int) = c + dc) :
    d'.ordinalOf r' c' = d.ordinalOf r c := by
  rcases h with h | ⟨rfl, rfl, rfl⟩
  · exact ordinal_shift h hr hc
  · rw [show r' = r by omega, show c' = c by omega]

theorem shiftU32_comp {v w u : Nat} {a b : Int} (h1 : shiftU32 v a = some w) (h2 : shiftU32 w b = some u) : shiftU32 v (a + b) = some u := by
  have e1 := shiftU32_some h1
  unfold shiftU32 at h2 ⊢
  rw [e1] at h2
  rw [← Int.add_assoc]
  exact h2

theorem moved_step {d d' d'' : Domain} {a b m n : Int} (h1 : d.shift a b = some d') (h2 : d'.Moved m n d'') : d.Moved (a + m) (b + n) d'' := by
  rcases h2 with h2 | ⟨rfl, rfl, rfl⟩
  · left
    cases d with
    | rowRun r0 r1 k =>
      simp only [Domain.shift, bind, Option.bind_eq_some_iff] at h1
      obtain ⟨x, k1, y, k2, z, k3, h⟩ := h1
      cases h
      simp only [Domain.shift, bind, Option.bind_eq_some_iff] at h2
      obtain ⟨x', l1, y', l2, z', l3, h⟩ := h2
      cases h
      simp only [Domain.shift, bind, shiftU32_comp k1 l1, shiftU32_comp k2 l2, shiftU32_comp k3 l3, Option.bind_some]
    | colRun r0 r1 k =>
      simp only [Domain.shift, bind, Option.bind_eq_some_iff] at h1
      obtain ⟨x, k1, y, k2, z, k3, h⟩ := h1
      cases h
      simp only [Domain.shift, bind, Option.bind_eq_some_iff] at h2
      obtain ⟨x', l1, y', l2, z', l3, h⟩ := h2
      cases h
      simp only [Domain.shift, bind, shiftU32_comp k1 l1, shiftU32_comp k2 l2, shiftU32_comp k3 l3, Option.bind_some]
    | rect r0 r1 c0 c1 =>
      simp only [Domain.shift, bind, Option.bind_eq_some_iff] at h1
      obtain ⟨x, k1, y, k2, z, k3, w, k4, h⟩ := h1
      cases h
      simp only [Domain.shift, bind, Option.bind_eq_some_iff] at h2
      obtain ⟨x', l1, y', l2, z', l3, w', l4, h⟩ := h2
      cases h
      simp only [Domain.shift, bind, shiftU32_comp k1 l1, shiftU32_comp k2 l2, shiftU32_comp k3 l3, shiftU32_comp k4 l4, Option.bind_some]
  · left
    rw [Int.add_zero, Int.add_zero]
    exact h1

/-! ### Constants -/

theorem chk_some' {n m : Int} (h : chk n = some m) : m = n := by
  unfold chk at h
  split at h
  · exact (Option.some.inj h).symm
  · cases h

theorem applyStep_inj {N : Num F E} {b v : Const F E} {s d x s' d' x' : Int} (h : applyStep N b s d x = some v) (h' : applyStep N b s' d' x' = some v) :
    s * d + x = s' * d' + x' := by
  simp only [applyStep, bind, Option.bind_eq_some_iff] at h h'
  obtain ⟨p, h1, o, h2, h⟩ := h
  obtain ⟨p', h1', o', h2', h'⟩ := h'
  have h1 := chk_some' h1
  have h2 := chk_some' h2
  have h1' := chk_some' h1'
  have h2' := chk_some' h2'
  have : o = o' := by
    cases b with
    | int b =>
      simp only [Option.bind_eq_some_iff] at h h'
      obtain ⟨w, k, h⟩ := h
      obtain ⟨w', k', h'⟩ := h'
      have k := chk_some' k
      have k' := chk_some' k'
      cases h
      cases h'
      omega
    | num b =>
      simp only [Option.bind_eq_some_iff] at h h'
      obtain ⟨e, he, w, k, h⟩ := h
      obtain ⟨e', he', w', k', h'⟩ := h'
      rw [he] at he'
      cases he'
      have k := chk_some' k
      have k' := chk_some' k'
      split at h
      · split at h'
        · rename_i g g'
          cases h
          have h' := Option.some.inj h'
          simp only [Const.num.injEq] at h'
          rw [h'] at g'
          omega
        · cases h'
      · cases h
    | _ => cases h
  omega

theorem applyStep_congr {N : Num F E} {b v : Const F E} {s d x s' d' x' : Int} (h : applyStep N b s d x = some v) (he : s * d + x = s' * d' + x')
    (hp : I64 (s' * d')) : applyStep N b s' d' x' = some v := by
  simp only [applyStep, bind, Option.bind_eq_some_iff] at h ⊢
  obtain ⟨p, h1, o, h2, h⟩ := h
  have h1' := chk_some' h1
  subst h1'
  rw [he] at h2
  exact ⟨_, if_pos hp, o, h2, h⟩

theorem affineVals_inj {N : Num F E} {d d' : Int} : ∀ (bs : List (Const F E)) (ss : List Int) {vs : List (Const F E)}, bs.length = ss.length →
    affineVals N d bs ss = some vs → affineVals N d' bs ss = some vs → ∀ s ∈ ss, s * d = s * d' := by
  intro bs
  induction bs with
  | nil =>
    intro ss vs hl _ _ s hs
    rw [List.length_eq_zero_iff.1 hl.symm] at hs
    cases hs
  | cons b bs ih =>
    intro ss vs hl h h' s hs
    cases ss with
    | nil => cases hs
    | cons t ss =>
      simp only [affineVals, bind, Option.bind_eq_some_iff] at h h'
      obtain ⟨v, k1, r, k2, h⟩ := h
      obtain ⟨v', k1', r', k2', h'⟩ := h'
      cases h
      have h' := Option.some.inj h'
      simp only [List.cons.injEq] at h'
      rw [h'.1] at k1'
      rw [h'.2] at k2'
      rcases List.mem_cons.1 hs with rfl | hs
      · have := applyStep_inj k1 k1'
        omega
      · exact ih ss (Nat.succ.inj hl) k2 k2' s hs

theorem affineVals_congr {N : Num F E} {d d' : Int} : ∀ (bs : List (Const F E)) (ss : List Int), (∀ s ∈ ss, s * d = s * d') →
    affineVals N d bs ss = affineVals N d' bs ss := by
  intro bs
  induction bs with
  | nil => intro ss _; cases ss <;> rfl
  | cons b bs ih =>
    intro ss h
    cases ss with
    | nil => rfl
    | cons t ss =>
      simp only [affineVals, applyStep, h t (List.mem_cons_self ..), ih ss fun s hs => h s (List.mem_cons_of_mem _ hs)]

theorem rectVals_inj {N : Num F E} {d e d' e' : Int} : ∀ (bs : List (Const F E)) (rs cs : List Int) {vs : List (Const F E)},
    bs.length = rs.length → bs.length = cs.length → rectVals N d e bs rs cs = some vs → rectVals N d' e' bs rs cs = some vs →
    ∀ s ∈ rs.zip cs, s.1 * d + s.2 * e = s.1 * d' + s.2 * e' := by
  intro bs
  induction bs with
  | nil =>
    intro rs cs vs hl hl' _ _ s hs
    rw [List.length_eq_zero_iff.1 hl.symm] at hs
    cases hs
  | cons b bs ih =>
    intro rs cs vs hl hl' h h' s hs
    cases rs with
    | nil => cases hs
    | cons r rs =>
      cases cs with
      | nil => cases hs
      | cons c cs =>
        simp only [rectVals, bind, Option.bind_eq_some_iff] at h h'
        obtain ⟨x, k0, v, k1, t, k2, h⟩ := h
        obtain ⟨x', k0', v', k1', t', k2', h'⟩ := h'
        cases h
        have h' := Option.some.inj h'
        simp only [List.cons.injEq] at h'
        rw [h'.1] at k1'
        rw [h'.2] at k2'
        rw [List.zip_cons_cons] at hs
        rcases List.mem_cons.1 hs with rfl | hs
        · have := applyStep_inj k1 k1'
          have k0 := chk_some' k0
          have k0' := chk_some' k0'
          dsimp only
          omega
        · exact ih rs cs (Nat.succ.inj hl) (Nat.succ.inj hl') k2 k2' s hs

/-- The distances that do not change what the table of constants says. -/
def Encoding.Still (dr dc : Int) : Encoding F E → Prop
  | .dictionary _ _ => True
  | .byRow _ _ steps => ∀ s ∈ steps, s * dr = 0
  | .byCol _ _ steps => ∀ s ∈ steps, s * dc = 0
  | .affineRect _ _ _ rs cs => ∀ s ∈ rs.zip cs, s.1 * dr = 0 ∧ s.2 * dc = 0

/-- The distances at which the constants of a plane come back: its two steps can make up for each other. -/
def Encoding.Balanced (dr dc : Int) : Encoding F E → Prop
  | .affineRect _ _ _ rs cs => ∀ s ∈ rs.zip cs, s.1 * dr + s.2 * dc = 0
  | enc => enc.Still dr dc

theorem rectVals_congr {N : Num F E} {d e d' e' : Int} : ∀ (bs : List (Const F E)) (rs cs : List Int),
    (∀ s ∈ rs.zip cs, s.1 * d = s.1 * d' ∧ s.2 * e = s.2 * e') → rectVals N d e bs rs cs = rectVals N d' e' bs rs cs := by
  intro bs
  induction bs with
  | nil => intro rs cs _; cases rs <;> cases cs <;> rfl
  | cons b bs ih =>
    intro rs cs h
    cases rs with
    | nil => cases cs <;> rfl
    | cons r rs =>
      cases cs with
      | nil => rfl
      | cons c cs =>
        have h0 := h (r, c) (List.mem_cons_self ..)
        simp only [rectVals, applyStep, h0.1, h0.2, ih rs cs fun s hs => h s (List.mem_cons_of_mem _ hs)]

/-- Constants that the table gives for a cell are given for the moved cell if the distances do not matter. -/
theorem values_still {N : Num F E} {enc : Encoding F E} {d d' : Domain} {dr dc : Int} (h : d.Moved dr dc d') {r c r' c' : Nat}
    (hr : (r' : Int) = r + dr) (hc : (c' : Int) = c + dc) (hs : enc.Still dr dc) : enc.valuesAt N d' r' c' = enc.valuesAt N d r c := by
  cases enc with
  | dictionary uniq ids => simp only [Encoding.valuesAt, ordinal_moved h hr hc]
  | byRow r0 base steps =>
    simp only [Encoding.valuesAt]
    rw [affineVals_congr base steps (d := (r' : Int) - r0) (d' := (r : Int) - r0)]
    intro s hm
    have := hs s hm
    rw [hr, show (r : Int) + dr - r0 = (r - r0) + dr by omega, Int.mul_add, this, Int.add_zero]
  | byCol c0 base steps =>
    simp only [Encoding.valuesAt]
    rw [affineVals_congr base steps (d := (c' : Int) - c0) (d' := (c : Int) - c0)]
    intro s hm
    have := hs s hm
    rw [hc, show (c : Int) + dc - c0 = (c - c0) + dc by omega, Int.mul_add, this, Int.add_zero]
  | affineRect r0 c0 base rs cs =>
    simp only [Encoding.valuesAt]
    rw [rectVals_congr base rs cs (d := (r' : Int) - r0) (d' := (r : Int) - r0) (e := (c' : Int) - c0) (e' := (c : Int) - c0)]
    intro s hm
    have := hs s hm
    constructor
    · rw [hr, show (r : Int) + dr - r0 = (r - r0) + dr by omega, Int.mul_add, this.1, Int.add_zero]
    · rw [hc, show (c : Int) + dc - c0 = (c - c0) + dc by omega, Int.mul_add, this.2, Int.add_zero]

/-- If the table gives the same constants for the moved cell, the distances are balanced. -/
theorem values_balanced {N : Num F E} {enc : Encoding F E} {d d' : Domain} {dr dc : Int} {r c r' c' : Nat}
    (hr : (r' : Int) = r + dr) (hc : (c' : Int) = c + dc) {vs : List (Const F E)} (h : enc.valuesAt N d r c = some vs)
    (h' : enc.valuesAt N d' r' c' = some vs) : enc.Balanced dr dc := by
  cases enc with
  | dictionary uniq ids => trivial
  | byRow r0 base steps =>
    simp only [Encoding.valuesAt] at h h'
    split at h
    · cases h
    · rename_i hl
      rw [if_neg hl] at h'
      intro s hs
      have := affineVals_inj base steps (Classical.not_not.1 hl) h h' s hs
      rw [hr, show (r : Int) + dr - r0 = (r - r0) + dr by omega, Int.mul_add] at this
      omega
  | byCol c0 base steps =>
    simp only [Encoding.valuesAt] at h h'
    split at h
    · cases h
    · rename_i hl
      rw [if_neg hl] at h'
      intro s hs
      have := affineVals_inj base steps (Classical.not_not.1 hl) h h' s hs
      rw [hc, show (c : Int) + dc - c0 = (c - c0) + dc by omega, Int.mul_add] at this
      omega
  | affineRect r0 c0 base rs cs =>
    simp only [Encoding.valuesAt] at h h'
    split at h
    · cases h
    · rename_i hl
      rw [if_neg hl] at h'
      simp only [not_or, Classical.not_not] at hl
      intro s hs
      have := rectVals_inj base rs cs hl.1 hl.2 h h' s hs
      rw [hr, hc, show (r : Int) + dr - r0 = (r - r0) + dr by omega, show (c : Int) + dc - c0 = (c - c0) + dc by omega, Int.mul_add, Int.mul_add] at this
      omega

theorem balanced_still {enc : Encoding F E} {dr dc : Int} (h : enc.Balanced dr dc) (hz : dr = 0 ∨ dc = 0) : enc.Still dr dc := by
  cases enc with
  | affineRect r0 c0 base rs cs =>
    intro s hs
    have := h s hs
    rcases hz with rfl | rfl
    · rw [Int.mul_zero, Int.zero_add] at this
      exact ⟨Int.mul_zero _, this⟩
    · rw [Int.mul_zero, Int.add_zero] at this
      exact ⟨this, Int.mul_zero _⟩
  | _ => exact h

theorem affineVals_length {N : Num F E} {d : Int} : ∀ (bs : List (Const F E)) (ss : List Int) {vs : List (Const F E)}, bs.length = ss.length →
    affineVals N d bs ss = some vs → vs.length = bs.length := by
  intro bs
  induction bs with
  | nil =>
    intro ss vs _ h
    cases ss <;> cases h <;> rfl
  | cons b bs ih =>
    intro ss vs hl h
    cases ss with
    | nil => cases hl
    | cons t ss =>
      simp only [affineVals, bind, Option.bind_eq_some_iff] at h
      obtain ⟨v, k1, r, k2, h⟩ := h
      cases h
      rw [List.length_cons, List.length_cons, ih ss (Nat.succ.inj hl) k2]

theorem rectVals_length {N : Num F E} {d e : Int} : ∀ (bs : List (Const F E)) (rs cs : List Int) {vs : List (Const F E)}, bs.length = rs.length →
    bs.length = cs.length → rectVals N d e bs rs cs = some vs → vs.length = bs.length := by
  intro bs
  induction bs with
  | nil =>
    intro rs cs vs _ _ h
    cases rs <;> cases cs <;> cases h <;> rfl
  | cons b bs ih =>
    intro rs cs vs hl hl' h
    cases rs with
    | nil => cases hl
    | cons r rs =>
      cases cs with
      | nil => cases hl'
      | cons c cs =>
        simp only [rectVals, bind, Option.bind_eq_some_iff] at h
        obtain ⟨x, k0, v, k1, t, k2, h⟩ := h
        cases h
        rw [List.length_cons, List.length_cons, ih rs cs (Nat.succ.inj hl) (Nat.succ.inj hl') k2]

/-- The number of constants that an arithmetic table gives does not depend on the cell. -/
theorem values_length {N : Num F E} {enc : Encoding F E} {d d' : Domain} {r c r' c' : Nat} {vs vs' : List (Const F E)}
    (hn : ∀ uniq ids, enc ≠ .dictionary uniq ids) (h : enc.valuesAt N d r c = some vs) (h' : enc.valuesAt N d' r' c' = some vs') :
    vs'.length = vs.length := by
  cases enc with
  | dictionary uniq ids => exact absurd rfl (hn uniq ids)
  | byRow r0 base steps =>
    simp only [Encoding.valuesAt] at h h'
    split at h
    · cases h
    · rename_i hl
      rw [if_neg hl] at h'
      rw [affineVals_length base steps (Classical.not_not.1 hl) h, affineVals_length base steps (Classical.not_not.1 hl) h']
  | byCol c0 base steps =>
    simp only [Encoding.valuesAt] at h h'
    split at h
    · cases h
    · rename_i hl
      rw [if_neg hl] at h'
      rw [affineVals_length base steps (Classical.not_not.1 hl) h, affineVals_length base steps (Classical.not_not.1 hl) h']
  | affineRect r0 c0 base rs cs =>
    simp only [Encoding.valuesAt] at h h'
    split at h
    · cases h
    · rename_i hl
      rw [if_neg hl] at h'
      simp only [not_or, Classical.not_not] at hl
      rw [rectVals_length base rs cs hl.1 hl.2 h, rectVals_length base rs cs hl.1 hl.2 h']

mutual

/-- A formula whose references are the same for all cells does not move. -/
theorem moveRefs_fixed {V : Type} {p q : Nat} {m n : Int} (T : Fm V) (c : Ctx) (hf : (canon p q c T).fixed = true) : moveRefs m n T = some T := by
  cases T with
  | lit v => rfl
  | omitted => rfl
  | ref r =>
    have := relocate_fixed (m := m) (n := n) (p := p) (q := q) hf
    simp only [moveRefs, this, Option.map_some]
  | unary op e =>
    have := moveRefs_fixed (p := p) (q := q) (m := m) (n := n) e _ hf
    simp only [moveRefs, this, Option.map_some]
  | binary op l r =>
    simp only [canon, CExpr.fixed, Bool.and_eq_true] at hf
    have h1 := moveRefs_fixed (p := p) (q := q) (m := m) (n := n) l _ hf.1
    have h2 := moveRefs_fixed (p := p) (q := q) (m := m) (n := n) r _ hf.2
    simp only [moveRefs, h1, h2, bind, Option.bind_some]
  | func f args =>
    have := moveRefsArgs_fixed (p := p) (q := q) (m := m) (n := n) args _ _ hf
    simp only [moveRefs, this, Option.map_some]

theorem moveRefsArgs_fixed {V : Type} {p q : Nat} {m n : Int} (as : List (Fm V)) (f : Fn) (i : Nat)
    (hf : CExpr.fixedArgs (canonArgs p q f i as) = true) : moveRefsArgs m n as = some as := by
  cases as with
  | nil => rfl
  | cons a as =>
    simp only [canonArgs, CExpr.fixedArgs, Bool.and_eq_true] at hf
    have h1 := moveRefs_fixed (p := p) (q := q) (m := m) (n := n) a _ hf.1
    have h2 := moveRefsArgs_fixed (p := p) (q := q) (m := m) (n := n) as _ _ hf.2
    simp only [moveRefsArgs, h1, h2, bind, Option.bind_some]

end

end Verif.Template
