/-
Property C69: evaluation in groups gives every cell the value it has on its own.
-/
import Verif.Template.Memo

namespace Verif.Template

variable {V W L : Type}

/-! ### Functions that read what they are given -/

/-- Whether a reference is a cell. -/
def Ref.isCell : Ref → Bool
  | .cell .. => true
  | _ => false

/-- Arguments that a function cannot tell apart: results with one literal, one reference, or, where an argument counts as a value, cells whose
values have one literal. -/
def ArgSame (w : World V W) (literal : W → L) (byValue : Bool) : Arg W → Arg W → Prop
  | .val a, .val b => literal a = literal b
  | .omitted, .omitted => True
  | .ref r, .ref s => r = s ∨ byValue = true ∧ r.isCell = true ∧ s.isCell = true ∧ literal (w.value r) = literal (w.value s)
  | _, _ => False

/-- The literal of a result depends on the literals of the operands, and on arguments as far as `ArgSame` goes. -/
structure World.Honest (w : World V W) (literal : W → L) (byValue : Fn → Nat → Bool) : Prop where
  unary : ∀ op a b, literal a = literal b → literal (w.unary op a) = literal (w.unary op b)
  binary : ∀ op a b c d, literal a = literal b → literal c = literal d → literal (w.binary op a c) = literal (w.binary op b d)
  range : ∀ a b c d, ArgSame w literal false a b → ArgSame w literal false c d → literal (w.range a c) = literal (w.range b d)
  fn : ∀ f (as bs : List (Arg W)), as.length = bs.length →
    (∀ (i : Nat) a b, as[i]? = some a → bs[i]? = some b → ArgSame w literal (byValue f i) a b) → literal (w.fn f as) = literal (w.fn f bs)

/-! ### References -/

/-- An axis that is moved, without tests. -/
def movedAxis (v : Nat) (d : Int) (a : Bool) : Nat := if a then v else ((v : Int) + d).toNat

/-- A reference that is moved, without tests. -/
def movedRef (d e : Int) : Ref → Ref
  | .cell s r c ra ca => .cell s (movedAxis r d ra) (movedAxis c e ca) ra ca
  | .range s sr sc er ec sra sca era eca =>
    .range s (sr.map (movedAxis · d sra)) (sc.map (movedAxis · e sca)) (er.map (movedAxis · d era)) (ec.map (movedAxis · e eca)) sra sca era eca
  | .named n => .named n

theorem shiftAxis_moved {v : Nat} {d : Int} {a : Bool} {x : Nat} (h : shiftAxis v d a = some x) : x = movedAxis v d a := by
  unfold shiftAxis at h
  unfold movedAxis
  split at h
  · rename_i ha
    rw [if_pos ha]
    exact (Option.some.inj h).symm
  · rename_i ha
    rw [if_neg ha]
    split at h
    · cases h
    · exact (Option.some.inj h).symm

theorem shiftOpt_moved {v : Option Nat} {d : Int} {a : Bool} {x : Option Nat} (h : shiftOpt v d a = some x) : x = v.map (movedAxis · d a) := by
  cases v with
  | none => cases h; rfl
  | some v =>
    simp only [shiftOpt, Option.map_eq_some_iff] at h
    obtain ⟨y, h, rfl⟩ := h
    rw [shiftAxis_moved h]
    rfl

theorem movedAxis_zero (v : Nat) (a : Bool) : movedAxis v 0 a = v := by
  unfold movedAxis
  split
  · rfl
  · omega

theorem movedRef_zero (r : Ref) : movedRef 0 0 r = r := by
  cases r with
  | cell => simp only [movedRef, movedAxis_zero]
  | range => simp only [movedRef, movedAxis_zero, Option.map_id']
  | named => rfl

theorem effectiveRef_moved {d e : Int} {r x : Ref} (h : effectiveRef d e r = some x) : x = movedRef d e r := by
  unfold effectiveRef at h
  split at h
  · rename_i hz
    rw [hz.1, hz.2, movedRef_zero]
    exact (Option.some.inj h).symm
  · cases r with
    | named n => exact (Option.some.inj h).symm
    | cell s a b ra ca =>
      simp only [relocate, bind, Option.bind_eq_some_iff] at h
      obtain ⟨y, h1, z, h2, h⟩ := h
      rw [← Option.some.inj h, shiftAxis_moved h1, shiftAxis_moved h2]
      rfl
    | range s sr sc er ec sra sca era eca =>
      simp only [relocate, bind, Option.bind_eq_some_iff] at h
      obtain ⟨y1, h1, y2, h2, y3, h3, y4, h4, h⟩ := h
      rw [← Option.some.inj h, shiftOpt_moved h1, shiftOpt_moved h2, shiftOpt_moved h3, shiftOpt_moved h4]
      rfl

theorem movedAxis_same {v p : Nat} {a : Bool} {d d' : Int} (h : (axisOf v p a).isRel = true → d = d') : movedAxis v d a = movedAxis v d' a := by
  cases a with
  | true => rfl
  | false => rw [h rfl]

theorem pair_same {x y : Option Nat} {p : Nat} {a b : Bool} {d d' : Int}
    (h : ((axisPair x y p a b).1.isRel || (axisPair x y p a b).2.isRel) = true → d = d') :
    x.map (movedAxis · d a) = x.map (movedAxis · d' a) ∧ y.map (movedAxis · d b) = y.map (movedAxis · d' b) := by
  cases x with
  | none =>
    refine ⟨rfl, ?_⟩
    cases y with
    | none => rfl
    | some y => exact congrArg some (movedAxis_same (p := p) fun k => h (by simp only [axisPair, k, Bool.or_true]))
  | some x =>
    cases y with
    | none => exact ⟨congrArg some (movedAxis_same (p := p) fun k => h (by simp only [axisPair, k, Bool.true_or])), rfl⟩
    | some y =>
      exact ⟨congrArg some (movedAxis_same (p := p) fun k => h (by simp only [axisPair, k, Bool.true_or])),
        congrArg some (movedAxis_same (p := p) fun k => h (by simp only [axisPair, k, Bool.or_true]))⟩

/-- A reference is the same for two cells that agree in the axes in which it is relative. -/
theorem movedRef_same {r : Ref} {p q : Nat} {d e d' e' : Int} (h1 : (canonRef p q r).relAxes.1 = true → d = d')
    (h2 : (canonRef p q r).relAxes.2 = true → e = e') : movedRef d e r = movedRef d' e' r := by
  cases r with
  | named n => rfl
  | cell s a b ra ca =>
    simp only [canonRef, CRef.relAxes] at h1 h2
    simp only [movedRef, movedAxis_same h1, movedAxis_same h2]
  | range s sr sc er ec sra sca era eca =>
    simp only [canonRef, CRef.relAxes] at h1 h2
    obtain ⟨k1, k2⟩ := pair_same h1
    obtain ⟨k3, k4⟩ := pair_same h2
    simp only [movedRef, k1, k2, k3, k4]

theorem at_moved {v p pos x : Nat} {a : Bool} (h : (axisOf v p a).at pos = some x) : x = movedAxis v ((pos : Int) + 1 - p) a := by
  unfold movedAxis
  cases a with
  | true => exact (Option.some.inj h).symm
  | false =>
    simp only [axisOf, Axis.at, Bool.false_eq_true, if_false] at h ⊢
    split at h
    · have := Option.some.inj h
      omega
    · cases h

/-- The value of a reference that is a parameter is the one the formula reads. -/
theorem slot_moved {w : World V W} {r : Ref} {p q row col : Nat} {v : W} (h : w.slot row col (canonRef p q r) = some v) :
    r.isCell = true ∧ v = w.value (movedRef ((row : Int) + 1 - p) ((col : Int) + 1 - q) r) := by
  cases r with
  | named n => cases h
  | range => cases h
  | cell s a b ra ca =>
    simp only [canonRef, World.slot, bind, Option.bind_eq_some_iff] at h
    obtain ⟨x, h1, y, h2, h⟩ := h
    refine ⟨rfl, ?_⟩
    rw [← Option.some.inj h, at_moved h1, at_moved h2]
    rfl

theorem movedRef_isCell (d e : Int) (r : Ref) : (movedRef d e r).isCell = r.isCell := by cases r <;> rfl

/-! ### Formulas -/

theorem slots_append {w : World V W} {row col : Nat} {ps qs : List CRef} {vs : List W} (h : w.slots row col (ps ++ qs) = some vs) :
    ∃ as bs, w.slots row col ps = some as ∧ w.slots row col qs = some bs ∧ vs = as ++ bs ∧ as.length = ps.length := by
  induction ps generalizing vs with
  | nil => exact ⟨[], vs, rfl, h, rfl, rfl⟩
  | cons p ps ih =>
    simp only [List.cons_append, World.slots, bind, Option.bind_eq_some_iff] at h
    obtain ⟨v, h1, rest, h2, h⟩ := h
    obtain ⟨as, bs, k1, k2, rfl, k4⟩ := ih h2
    cases h
    exact ⟨v :: as, bs, by simp [World.slots, h1, k1], k2, rfl, by simp [k4]⟩

/-- Two cells whose parameters have one literal each. -/
def SlotsSame (w : World V W) (literal : W → L) (row col row' col' : Nat) (ps : List CRef) : Prop :=
  ∃ vs vs', w.slots row col ps = some vs ∧ w.slots row' col' ps = some vs' ∧ vs.map literal = vs'.map literal

theorem slotsSame_append {w : World V W} {literal : W → L} {row col row' col' : Nat} {ps qs : List CRef}
    (h : SlotsSame w literal row col row' col' (ps ++ qs)) : SlotsSame w literal row col row' col' ps ∧ SlotsSame w literal row col row' col' qs := by
  obtain ⟨vs, vs', h1, h2, h3⟩ := h
  obtain ⟨as, bs, k1, k2, rfl, k3⟩ := slots_append h1
  obtain ⟨as', bs', l1, l2, rfl, l3⟩ := slots_append h2
  rw [List.map_append, List.map_append] at h3
  obtain ⟨m1, m2⟩ := List.append_inj h3 (by rw [List.length_map, List.length_map, k3, l3])
  exact ⟨⟨as, as', k1, l1, m1⟩, ⟨bs, bs', k2, l2, m2⟩⟩

/-- Whether references in a context are parameters. -/
def Ctx.byValue (byValue : Fn → Nat → Bool) : Ctx → Bool
  | .value => true
  | .reference => false
  | .arg f i => byValue f i

theorem arg_same {w : World V W} {literal : W → L} {b : Bool} {G G' : Fm V} (h : ∀ r, G ≠ .ref r) (h' : ∀ r, G' ≠ .ref r) (ho : G ≠ .omitted)
    (ho' : G' ≠ .omitted) (he : literal (w.eval G) = literal (w.eval G')) : ArgSame w literal b (w.arg G) (w.arg G') := by
  cases G with
  | ref r => exact absurd rfl (h r)
  | omitted => exact absurd rfl ho
  | _ =>
    cases G' with
    | ref r => exact absurd rfl (h' r)
    | omitted => exact absurd rfl ho'
    | _ => simpa only [World.arg, ArgSame, World.eval] using he

variable {w : World V W} {literal : W → L} {byValue : Fn → Nat → Bool} {slots : Nat → Option Nat} {vals : List V} {p q row col row' col' : Nat}

mutual

/-- Cells with equal parameters have results with one literal. -/
theorem eval_same (hw : w.Honest literal byValue) (T : Fm (Nat × V)) (c : Ctx) (G G' : Fm V)
    (h : effective slots vals ((row : Int) + 1 - p) ((col : Int) + 1 - q) T = some G)
    (h' : effective slots vals ((row' : Int) + 1 - p) ((col' : Int) + 1 - q) T = some G')
    (hs : SlotsSame w literal row col row' col' (valueSlots byValue (canon p q c T.plain)))
    (hr : (residual byValue (canon p q c T.plain)).1 = true → row = row') (hc : (residual byValue (canon p q c T.plain)).2 = true → col = col') :
    literal (w.eval G) = literal (w.eval G') ∧ ArgSame w literal (c.byValue byValue) (w.arg G) (w.arg G') := by
  cases T with
  | lit v =>
    cases h
    cases h'
    exact ⟨rfl, rfl⟩
  | omitted =>
    cases h
    cases h'
    exact ⟨rfl, trivial⟩
  | ref r =>
    simp only [effective, Option.map_eq_some_iff] at h h'
    obtain ⟨x, hx, rfl⟩ := h
    obtain ⟨x', hx', rfl⟩ := h'
    have ex := effectiveRef_moved hx
    have ex' := effectiveRef_moved hx'
    simp only [Fm.plain, Fm.map, canon, valueSlots, residual] at hs hr hc
    simp only [World.eval, World.arg, ArgSame]
    by_cases hcap : captured byValue c (canonRef p q r) = true
    · rw [if_pos hcap] at hs
      obtain ⟨vs, vs', k1, k2, k3⟩ := hs
      simp only [World.slots, bind, Option.bind_eq_some_iff] at k1 k2
      obtain ⟨v, m1, e1, f1, k1⟩ := k1
      obtain ⟨v', m2, e2, f2, k2⟩ := k2
      cases f1
      cases f2
      cases k1
      cases k2
      obtain ⟨n1, n2⟩ := slot_moved m1
      obtain ⟨-, n3⟩ := slot_moved m2
      have hv : literal (w.value x) = literal (w.value x') := by
        rw [ex, ex', ← n2, ← n3]
        simpa using k3
      refine ⟨hv, Or.inr ⟨?_, ?_, ?_, hv⟩⟩
      · simp only [captured, Bool.and_eq_true] at hcap
        cases c <;> first | exact hcap.1 | rfl
      · rw [ex, movedRef_isCell, n1]
      · rw [ex', movedRef_isCell, n1]
    · rw [if_neg hcap] at hr hc
      have : x = x' := by
        rw [ex, ex']
        exact movedRef_same (p := p) (q := q) (fun k => by rw [hr k]) (fun k => by rw [hc k])
      rw [this]
      exact ⟨rfl, Or.inl rfl⟩
  | unary op e =>
    simp only [effective, Option.map_eq_some_iff] at h h'
    obtain ⟨x, hx, rfl⟩ := h
    obtain ⟨x', hx', rfl⟩ := h'
    have ih := eval_same hw e .value x x' hx hx' hs hr hc
    have he := hw.unary op _ _ ih.1
    exact ⟨by simpa only [World.eval] using he, arg_same (by simp) (by simp) (by simp) (by simp) (by simpa only [World.eval] using he)⟩
  | binary op l r =>
    simp only [effective, bind, Option.bind_eq_some_iff] at h h'
    obtain ⟨x, hx, y, hy, h⟩ := h
    obtain ⟨x', hx', y', hy', h'⟩ := h'
    cases h
    cases h'
    simp only [Fm.plain, Fm.map, canon, valueSlots, residual, Bool.or_eq_true] at hs hr hc
    obtain ⟨hs1, hs2⟩ := slotsSame_append hs
    have ih1 := eval_same hw l _ x x' hx hx' hs1 (fun k => hr (Or.inl k)) (fun k => hc (Or.inl k))
    have ih2 := eval_same hw r _ y y' hy hy' hs2 (fun k => hr (Or.inr k)) (fun k => hc (Or.inr k))
    have he : literal (w.eval (.binary op x y)) = literal (w.eval (.binary op x' y')) := by
      simp only [World.eval]
      by_cases ho : op = [':']
      · rw [if_pos ho] at ih1 ih2
        rw [if_pos ho, if_pos ho]
        exact hw.range _ _ _ _ ih1.2 ih2.2
      · rw [if_neg ho, if_neg ho]
        exact hw.binary _ _ _ _ _ ih1.1 ih2.1
    exact ⟨he, arg_same (by simp) (by simp) (by simp) (by simp) he⟩
  | func f args =>
    simp only [effective, Option.map_eq_some_iff] at h h'
    obtain ⟨x, hx, rfl⟩ := h
    obtain ⟨x', hx', rfl⟩ := h'
    obtain ⟨hl, ih⟩ := evalArgs_same hw args f 0 x x' hx hx' hs hr hc
    have he : literal (w.eval (.func f x)) = literal (w.eval (.func f x')) := by
      simp only [World.eval]
      exact hw.fn f _ _ hl fun i a b ha hb => by simpa using ih i a b ha hb
    exact ⟨he, arg_same (by simp) (by simp) (by simp) (by simp) he⟩

theorem evalArgs_same (hw : w.Honest literal byValue) (as : List (Fm (Nat × V))) (f : Fn) (i : Nat) (Gs Gs' : List (Fm V))
    (h : effectiveArgs slots vals ((row : Int) + 1 - p) ((col : Int) + 1 - q) as = some Gs)
    (h' : effectiveArgs slots vals ((row' : Int) + 1 - p) ((col' : Int) + 1 - q) as = some Gs')
    (hs : SlotsSame w literal row col row' col' (valueSlotsArgs byValue (canonArgs p q f i (Fm.mapArgs Prod.snd as))))
    (hr : (residualArgs byValue (canonArgs p q f i (Fm.mapArgs Prod.snd as))).1 = true → row = row')
    (hc : (residualArgs byValue (canonArgs p q f i (Fm.mapArgs Prod.snd as))).2 = true → col = col') :
    (w.args Gs).length = (w.args Gs').length ∧ ∀ (j : Nat) a b, (w.args Gs)[j]? = some a → (w.args Gs')[j]? = some b →
      ArgSame w literal (byValue f (i + j)) a b := by
  cases as with
  | nil =>
    cases h
    cases h'
    exact ⟨rfl, fun j a b ha _ => (by simp [World.args] at ha)⟩
  | cons x xs =>
    simp only [effectiveArgs, bind, Option.bind_eq_some_iff] at h h'
    obtain ⟨y, hy, ys, hys, h⟩ := h
    obtain ⟨y', hy', ys', hys', h'⟩ := h'
    cases h
    cases h'
    simp only [Fm.mapArgs, canonArgs, valueSlotsArgs, residualArgs, Bool.or_eq_true] at hs hr hc
    obtain ⟨hs1, hs2⟩ := slotsSame_append hs
    have ih1 := eval_same hw x (.arg f i) y y' hy hy' hs1 (fun k => hr (Or.inl k)) (fun k => hc (Or.inl k))
    have ih2 := evalArgs_same hw xs f (i + 1) ys ys' hys hys' hs2 (fun k => hr (Or.inr k)) (fun k => hc (Or.inr k))
    refine ⟨by simp only [World.args, List.length_cons, ih2.1], fun j a b ha hb => ?_⟩
    cases j with
    | zero =>
      simp only [World.args, List.getElem?_cons_zero, Option.some.injEq] at ha hb
      rw [← ha, ← hb]
      exact ih1.2
    | succ j =>
      simp only [World.args, List.getElem?_cons_succ] at ha hb
      have := ih2.2 j a b ha hb
      rwa [show i + 1 + j = i + (j + 1) by omega] at this

end

/-- **C69.** The value of a reference is a parameter just when it is read as a value, it is one cell, and its row or its
column is relative. -/
theorem captured_iff (byValue : Fn → Nat → Bool) (ctx : Ctx) (r : CRef) :
    captured byValue ctx r = true ↔
      (ctx = .value ∨ ∃ f i, ctx = .arg f i ∧ byValue f i = true) ∧
      ∃ s row col, r = .cell s row col ∧
        ((∃ a b, row = .rel a ∧ col = .rel b) ∨ (∃ a b, row = .rel a ∧ col = .abs b) ∨
          ∃ a b, row = .abs a ∧ col = .rel b) := by
  unfold captured
  rw [Bool.and_eq_true]
  refine and_congr ?_ ?_
  · cases ctx with
    | value => simp
    | reference => simp
    | arg f i =>
      constructor
      · intro h
        exact Or.inr ⟨f, i, rfl, h⟩
      · rintro (h | ⟨_, _, h, hb⟩)
        · cases h
        · cases h
          exact hb
  · constructor
    · intro h
      cases r with
      | cell s row col =>
        refine ⟨s, row, col, rfl, ?_⟩
        revert h
        cases row <;> cases col <;> simp [CRef.finiteRel, Axis.isPlace, Axis.isRel]
      | _ => cases h
    · rintro ⟨s, row, col, rfl, ⟨_, _, rfl, rfl⟩ | ⟨_, _, rfl, rfl⟩ | ⟨_, _, rfl, rfl⟩⟩ <;> rfl

example : captured (fun _ _ => false) .value (.cell none (.rel 1) (.abs 2)) = true ∧
    captured (fun _ _ => false) .value (.cell none (.abs 1) (.abs 2)) = false ∧
    captured (fun _ _ => false) .value (.cell none (.rel 1) .whole) = false := by decide

end Verif.Template
