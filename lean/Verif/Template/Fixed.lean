/-
Property C67: formulas whose references are the same for all cells.
-/
import Verif.Template.Effective
import Verif.Template.BindThms

namespace Verif.Template

variable {V W F E : Type}

mutual

theorem shape_fixed (e : CExpr V) : (shape e).fixed = e.fixed := by
  cases e with
  | lit v => rfl
  | omitted => rfl
  | ref c r => rfl
  | unary op e => exact shape_fixed e
  | binary op l r =>
    have h1 := shape_fixed l
    have h2 := shape_fixed r
    simp only [shape, CExpr.fixed, h1, h2]
  | func f args => exact shapes_fixed args

theorem shapes_fixed (as : List (CExpr V)) : CExpr.fixedArgs (shapes as) = CExpr.fixedArgs as := by
  cases as with
  | nil => rfl
  | cons a as =>
    have h1 := shape_fixed a
    have h2 := shapes_fixed as
    simp only [shapes, CExpr.fixedArgs, h1, h2]

end

theorem axisOf_fixed {v p : Nat} {a : Bool} (h : (axisOf v p a).fixed = true) : a = true := by
  cases a with
  | true => rfl
  | false => cases h

theorem shiftAxis_abs {v : Nat} {d : Int} : shiftAxis v d true = some v := rfl

theorem pair_fixed {s e : Option Nat} {p : Nat} {sa ea : Bool} {d : Int} (h1 : (axisPair s e p sa ea).1.fixed = true)
    (h2 : (axisPair s e p sa ea).2.fixed = true) : shiftOpt s d sa = some s ∧ shiftOpt e d ea = some e := by
  cases s with
  | none =>
    cases e with
    | none => exact ⟨rfl, rfl⟩
    | some e => cases h1
  | some s =>
    cases e with
    | none => cases h2
    | some e =>
      rw [axisOf_fixed (v := s) h1, axisOf_fixed (v := e) h2]
      exact ⟨rfl, rfl⟩

/-- A reference that is the same for all cells does not move. -/
theorem relocate_fixed {r : Ref} {p q : Nat} {m n : Int} (h : (canonRef p q r).fixed = true) : relocate m n r = some r := by
  cases r with
  | named x => rfl
  | cell s x y a b =>
    simp only [canonRef, CRef.fixed, Bool.and_eq_true] at h
    rw [axisOf_fixed h.1, axisOf_fixed h.2]
    rfl
  | range s x y z w a b c d =>
    simp only [canonRef, CRef.fixed, Bool.and_eq_true] at h
    obtain ⟨⟨⟨h1, h2⟩, h3⟩, h4⟩ := h
    obtain ⟨k1, k2⟩ := pair_fixed (d := m) h1 h3
    obtain ⟨k3, k4⟩ := pair_fixed (d := n) h2 h4
    simp only [relocate, bind, k1, k2, k3, k4, Option.bind_some]

variable {p q p' q' : Nat}

mutual

/-- Two formulas of one shape whose references are the same for all cells, with the same constants, are the same. -/
theorem fixed_same (T H : Fm V) (c c' : Ctx) (h : shape (canon p q c T) = shape (canon p' q' c' H)) (hf : (canon p q c T).fixed = true) (hT : T.Ok)
    (hH : H.Ok) (hl : lits T = lits H) : T = H := by
  cases T with
  | lit v =>
    cases H with
    | lit w => rw [(List.cons.inj hl).1]
    | _ => simp [canon, shape] at h
  | omitted =>
    cases H with
    | omitted => rfl
    | _ => simp [canon, shape] at h
  | ref r =>
    cases H with
    | ref s =>
      simp only [canon, shape, CExpr.ref.injEq] at h
      have := (relocate_canon h.2 hT hH).symm.trans (relocate_fixed (p := p) (q := q) hf)
      rw [Option.some.inj this]
    | _ => simp [canon, shape] at h
  | unary op e =>
    cases H with
    | unary op' e' =>
      simp only [canon, shape, CExpr.unary.injEq] at h
      rw [fixed_same e e' _ _ h.2 hf hT hH hl, h.1]
    | _ => simp [canon, shape] at h
  | binary op l r =>
    cases H with
    | binary op' l' r' =>
      simp only [canon, shape, CExpr.binary.injEq] at h
      simp only [canon, CExpr.fixed, Bool.and_eq_true] at hf
      obtain ⟨k1, k2⟩ := List.append_inj hl (shape_count _ _ _ _ _ _ _ _ h.2.1)
      rw [fixed_same l l' _ _ h.2.1 hf.1 hT.1 hH.1 k1, fixed_same r r' _ _ h.2.2 hf.2 hT.2 hH.2 k2, h.1]
    | _ => simp [canon, shape] at h
  | func f args =>
    cases H with
    | func f' args' =>
      simp only [canon, shape, CExpr.func.injEq] at h
      rw [fixedArgs_same args args' _ _ _ _ h.2 hf hT hH hl, h.1]
    | _ => simp [canon, shape] at h

theorem fixedArgs_same (as bs : List (Fm V)) (f f' : Fn) (i j : Nat) (h : shapes (canonArgs p q f i as) = shapes (canonArgs p' q' f' j bs))
    (hf : CExpr.fixedArgs (canonArgs p q f i as) = true) (hT : Fm.OkArgs as) (hH : Fm.OkArgs bs) (hl : litsArgs as = litsArgs bs) : as = bs := by
  cases as with
  | nil =>
    cases bs with
    | nil => rfl
    | cons b bs => simp [canonArgs, shapes] at h
  | cons a as =>
    cases bs with
    | nil => simp [canonArgs, shapes] at h
    | cons b bs =>
      simp only [canonArgs, shapes, List.cons.injEq] at h
      simp only [canonArgs, CExpr.fixedArgs, Bool.and_eq_true] at hf
      obtain ⟨k1, k2⟩ := List.append_inj hl (shape_count _ _ _ _ _ _ _ _ h.1)
      rw [fixed_same a b _ _ h.1 hf.1 hT.1 hH.1 k1, fixedArgs_same as bs _ _ _ _ h.2 hf.2 hT.2 hH.2 k2]

end

theorem constSame_eq {N : Num F E} (L : N.Laws) {a b : Const F E} (h : constSame N a b = true) : a = b := by
  cases a <;> cases b <;> simp only [constSame, Bool.false_eq_true, decide_eq_true_eq, beq_iff_eq] at h <;>
    first | rfl | contradiction | (rw [h]) | (rw [L.same _ _ h]) | (rw [L.sameErr _ _ h])

theorem constsSame_eq {N : Num F E} (L : N.Laws) {a b : List (Const F E)} (h : constsSame N a b = true) : a = b := by
  induction a generalizing b with
  | nil =>
    cases b with
    | nil => rfl
    | cons y b => cases h
  | cons x a ih =>
    cases b with
    | nil => cases h
    | cons y b =>
      simp only [constsSame, Bool.and_eq_true] at h
      rw [constSame_eq L h.1, ih h.2]

end Verif.Template
