/-
Property C67: two formulas have the same key only if they have the same shape.
-/
import Verif.Template.Model

namespace Verif.Template

variable {V W : Type}

/-! ### Numbers and texts at the head of a text -/

/-- Two beginnings of the same text, both up to the first character without a property. -/
theorem head_split {p : Char → Prop} {a b r r' : Text} {c c' : Char} (ha : ∀ x ∈ a, p x) (hb : ∀ x ∈ b, p x) (hc : ¬p c) (hc' : ¬p c')
    (h : a ++ c :: r = b ++ c' :: r') : a = b ∧ c :: r = c' :: r' := by
  induction a generalizing b with
  | nil =>
    cases b with
    | nil => exact ⟨rfl, h⟩
    | cons y b =>
      simp only [List.nil_append, List.cons_append, List.cons.injEq] at h
      exact absurd (h.1 ▸ hb y (by simp)) hc
  | cons x a ih =>
    cases b with
    | nil =>
      simp only [List.nil_append, List.cons_append, List.cons.injEq] at h
      exact absurd (h.1 ▸ ha x (by simp)) hc'
    | cons y b =>
      simp only [List.cons_append, List.cons.injEq] at h
      obtain ⟨e, h⟩ := h
      obtain ⟨h1, h2⟩ := ih (fun z hz => ha z (by simp [hz])) (fun z hz => hb z (by simp [hz])) h
      exact ⟨by rw [e, h1], h2⟩

theorem dec_inj {m n : Nat} (h : dec m = dec n) : m = n := by
  have := congrArg (fun l => Nat.ofDigitChars 10 l 0) h
  simpa only [dec, Nat.ofDigitChars_ten_toDigits] using this

theorem dec_digit {n : Nat} {c : Char} (h : c ∈ dec n) : c.isDigit = true := Nat.isDigit_of_mem_toDigits (by decide) (by decide) h

theorem dec_ne (n : Nat) : dec n ≠ [] := Nat.toDigits_ne_nil

theorem dec_head {m n : Nat} {r r' : Text} {c c' : Char} (hc : c.isDigit = false) (hc' : c'.isDigit = false) (h : dec m ++ c :: r = dec n ++ c' :: r') :
    m = n ∧ c :: r = c' :: r' := by
  obtain ⟨h1, h2⟩ := head_split (p := fun c => c.isDigit = true) (fun _ => dec_digit) (fun _ => dec_digit) (by simp [hc]) (by simp [hc']) h
  exact ⟨dec_inj h1, h2⟩

theorem decInt_head {m n : Int} {r r' : Text} {c c' : Char} (hc : c.isDigit = false) (hc' : c'.isDigit = false) (h : decInt m ++ c :: r = decInt n ++ c' :: r') :
    m = n ∧ c :: r = c' :: r' := by
  have minus : ∀ (k : Nat) (s t : Text) (d : Char), '-' :: s ≠ dec k ++ d :: t := by
    intro k s t d e
    cases hk : dec k with
    | nil => exact dec_ne k hk
    | cons x xs =>
      rw [hk] at e
      simp only [List.cons_append, List.cons.injEq] at e
      have := dec_digit (n := k) (c := x) (by rw [hk]; simp)
      rw [← e.1] at this
      cases this
  cases m with
  | ofNat a =>
    cases n with
    | ofNat b =>
      obtain ⟨h1, h2⟩ := dec_head hc hc' h
      exact ⟨by rw [h1], h2⟩
    | negSucc b => exact absurd h.symm (minus a _ r c)
  | negSucc a =>
    cases n with
    | ofNat b => exact absurd h (minus b _ r' c')
    | negSucc b =>
      simp only [decInt, List.cons_append, List.cons.injEq, true_and] at h
      obtain ⟨h1, h2⟩ := dec_head hc hc' h
      exact ⟨by rw [show a = b by omega], h2⟩

theorem bytes_append (s t : Text) : bytes (s ++ t) = bytes s + bytes t := by simp [bytes]

theorem bytes_zero {s : Text} (h : bytes s = 0) : s = [] := by
  cases s with
  | nil => rfl
  | cons c s =>
    have : 0 < c.utf8Size := Char.utf8Size_pos c
    simp [bytes] at h
    omega

theorem text_head {s t r r' : Text} (hb : bytes s = bytes t) (h : s ++ r = t ++ r') : s = t ∧ r = r' := by
  rcases List.append_eq_append_iff.1 h with ⟨u, h1, h2⟩ | ⟨u, h1, h2⟩
  · have : bytes u = 0 := by rw [h1, bytes_append] at hb; omega
    rw [bytes_zero this] at h1 h2
    exact ⟨by simpa using h1.symm, by simpa using h2⟩
  · have : bytes u = 0 := by rw [h1, bytes_append] at hb; omega
    rw [bytes_zero this] at h1 h2
    exact ⟨by simpa using h1, by simpa using h2.symm⟩

theorem stringKey_head {s t r r' : Text} (h : stringKey s ++ r = stringKey t ++ r') : s = t ∧ r = r' := by
  unfold stringKey at h
  rw [List.append_assoc, List.append_assoc, List.cons_append, List.cons_append] at h
  obtain ⟨h1, h2⟩ := dec_head (by decide) (by decide) h
  exact text_head h1 (List.cons.inj h2).2

theorem hexDigit_ne {n : Nat} (h : n < 16) : Nat.digitChar n ≠ ';' ∧ Nat.digitChar n ≠ ':' := by
  have : ∀ n : Fin 16, Nat.digitChar n.1 ≠ ';' ∧ Nat.digitChar n.1 ≠ ':' := by decide
  exact this ⟨n, h⟩

theorem hexDigit_inj {m n : Nat} (hm : m < 16) (hn : n < 16) (h : Nat.digitChar m = Nat.digitChar n) : m = n := by
  have : ∀ m n : Fin 16, Nat.digitChar m.1 = Nat.digitChar n.1 → m = n := by decide
  exact congrArg Fin.val (this ⟨m, hm⟩ ⟨n, hn⟩ h)

theorem hex_inj {a b : UInt8} (h : hex a = hex b) : a = b := by
  have ha := a.toNat_lt
  have hb := b.toNat_lt
  simp only [hex, List.cons.injEq, and_true] at h
  have h1 := hexDigit_inj (by omega) (by omega) h.1
  have h2 := hexDigit_inj (by omega) (by omega) h.2
  exact UInt8.toNat_inj.1 (by omega)

theorem hexes_inj {f g : Fn} (h : f.flatMap hex = g.flatMap hex) : f = g := by
  induction f generalizing g with
  | nil =>
    cases g with
    | nil => rfl
    | cons b g => simp [hex] at h
  | cons a f ih =>
    cases g with
    | nil => simp [hex] at h
    | cons b g =>
      rw [List.flatMap_cons, List.flatMap_cons] at h
      have := List.append_inj h rfl
      rw [hex_inj this.1, ih this.2]

theorem fnKey_head {f g : Fn} {r r' : Text} {c c' : Char} (hc : c = ';' ∨ c = ':') (hc' : c' = ';' ∨ c' = ':') (h : fnKey f ++ c :: r = fnKey g ++ c' :: r') :
    f = g ∧ c :: r = c' :: r' := by
  unfold fnKey at h
  rw [List.append_assoc, List.append_assoc] at h
  have h := List.append_cancel_left h
  have key : ∀ (f : Fn), ∀ x ∈ f.flatMap hex, ¬(x = ';' ∨ x = ':') := by
    intro f x hx
    obtain ⟨b, _, hb⟩ := List.mem_flatMap.1 hx
    have := b.toNat_lt
    simp only [hex, List.mem_cons, List.not_mem_nil, or_false] at hb
    rcases hb with rfl | rfl
    · exact not_or.2 (hexDigit_ne (by omega))
    · exact not_or.2 (hexDigit_ne (by omega))
  obtain ⟨h1, h2⟩ := head_split (p := fun x => ¬(x = ';' ∨ x = ':')) (key f) (key g) (fun k => k hc) (fun k => k hc') h
  exact ⟨hexes_inj h1, h2⟩

/-! ### The parts of a reference -/

/-- The characters after an axis. -/
def Stop (c : Char) : Prop := c = ';' ∨ c = ')'

theorem Stop.digit {c : Char} (h : Stop c) : c.isDigit = false := by
  rcases h with rfl | rfl <;> rfl

theorem axisKey_head {a b : Axis} {r r' : Text} {c c' : Char} (hc : Stop c) (hc' : Stop c') (h : axisKey a ++ c :: r = axisKey b ++ c' :: r') :
    a = b ∧ c :: r = c' :: r' := by
  cases a <;> cases b <;> simp only [axisKey, List.cons_append, List.nil_append, List.cons.injEq, true_and] at h <;>
    first
    | exact absurd h.1 (by decide)
    | exact absurd h.2.1 (by decide)
    | (obtain ⟨h1, h2⟩ := decInt_head hc.digit hc'.digit h; exact ⟨by rw [h1], h2⟩)
    | (obtain ⟨h1, h2⟩ := dec_head hc.digit hc'.digit h; exact ⟨by rw [h1], h2⟩)
    | exact ⟨rfl, by rw [h.1, h.2]⟩

theorem sheetKey_head {s t : Option Text} {r r' : Text} (h : sheetKey s ++ r = sheetKey t ++ r') : s = t ∧ r = r' := by
  cases s with
  | none =>
    cases t with
    | none => exact ⟨rfl, List.append_cancel_left h⟩
    | some t => simp [sheetKey] at h
  | some s =>
    cases t with
    | none => simp [sheetKey] at h
    | some t =>
      simp only [sheetKey, List.append_assoc] at h
      obtain ⟨h1, h2⟩ := stringKey_head (List.append_cancel_left h)
      exact ⟨by rw [h1], h2⟩

theorem semi : Stop ';' := Or.inl rfl

theorem close : Stop ')' := Or.inr rfl

theorem refKey_head {a b : CRef} {r r' : Text} (h : refKey a ++ r = refKey b ++ r') : a = b ∧ r = r' := by
  cases a with
  | cell s x y =>
    cases b with
    | cell s' x' y' =>
      simp only [refKey, List.append_assoc, List.cons_append, List.nil_append, List.cons.injEq, true_and] at h
      obtain ⟨e1, h⟩ := sheetKey_head h
      obtain ⟨e2, h⟩ := axisKey_head semi semi (List.cons.inj h).2
      obtain ⟨e3, h⟩ := axisKey_head close close (List.cons.inj h).2
      exact ⟨by rw [e1, e2, e3], (List.cons.inj h).2⟩
    | range => simp [refKey] at h
    | named => simp [refKey] at h
  | range s x y z w =>
    cases b with
    | cell => simp [refKey] at h
    | range s' x' y' z' w' =>
      simp only [refKey, List.append_assoc, List.cons_append, List.nil_append, List.cons.injEq, true_and] at h
      obtain ⟨e1, h⟩ := sheetKey_head h
      obtain ⟨e2, h⟩ := axisKey_head semi semi (List.cons.inj h).2
      obtain ⟨e3, h⟩ := axisKey_head semi semi (List.cons.inj h).2
      obtain ⟨e4, h⟩ := axisKey_head semi semi (List.cons.inj h).2
      obtain ⟨e5, h⟩ := axisKey_head close close (List.cons.inj h).2
      exact ⟨by rw [e1, e2, e3, e4, e5], (List.cons.inj h).2⟩
    | named => simp [refKey] at h
  | named n =>
    cases b with
    | cell => simp [refKey] at h
    | range => simp [refKey] at h
    | named m =>
      simp only [refKey, List.append_assoc] at h
      obtain ⟨e1, h⟩ := stringKey_head (List.append_cancel_left h)
      exact ⟨by rw [e1], List.append_cancel_left h⟩

theorem ctxKey_head {a b : Ctx} {r r' : Text} (h : ctxKey a ++ ';' :: r = ctxKey b ++ ';' :: r') : a = b ∧ r = r' := by
  cases a with
  | value =>
    cases b with
    | value => exact ⟨rfl, (List.cons.inj (List.append_cancel_left h)).2⟩
    | reference => simp [ctxKey] at h
    | arg => simp [ctxKey] at h
  | reference =>
    cases b with
    | value => simp [ctxKey] at h
    | reference => exact ⟨rfl, (List.cons.inj (List.append_cancel_left h)).2⟩
    | arg => simp [ctxKey] at h
  | arg f i =>
    cases b with
    | value => simp [ctxKey] at h
    | reference => simp [ctxKey] at h
    | arg g j =>
      simp only [ctxKey, List.append_assoc, List.cons_append] at h
      obtain ⟨e1, h⟩ := fnKey_head (Or.inr rfl) (Or.inr rfl) (List.append_cancel_left (as := ['f', 'n', '_', 'a', 'r', 'g', ':']) h)
      obtain ⟨e2, h⟩ := dec_head (by decide) (by decide) (List.cons.inj h).2
      exact ⟨by rw [e1, e2], (List.cons.inj h).2⟩

/-! ### Formulas -/

mutual

/-- The form without the constants. -/
def shape : CExpr V → CExpr Unit
  | .lit _ => .lit ()
  | .omitted => .omitted
  | .ref ctx r => .ref ctx r
  | .unary op e => .unary op (shape e)
  | .binary op l r => .binary op (shape l) (shape r)
  | .func f args => .func f (shapes args)

/-- The forms without the constants. -/
def shapes : List (CExpr V) → List (CExpr Unit)
  | [] => []
  | a :: as => shape a :: shapes as

end

mutual

theorem exprKey_head (e : CExpr V) (e' : CExpr W) (n : Nat) (r r' : Text) (h : (exprKey n e).1 ++ r = (exprKey n e').1 ++ r') :
    shape e = shape e' ∧ (exprKey n e).2 = (exprKey n e').2 ∧ r = r' := by
  cases e with
  | lit v =>
    cases e' with
    | lit w => exact ⟨rfl, rfl, List.append_cancel_left h⟩
    | omitted => simp [exprKey] at h
    | ref => simp [exprKey] at h
    | unary => simp [exprKey] at h
    | binary => simp [exprKey] at h
    | func => simp [exprKey] at h
  | omitted =>
    cases e' with
    | lit w => simp [exprKey] at h
    | omitted => exact ⟨rfl, rfl, List.append_cancel_left h⟩
    | ref => simp [exprKey] at h
    | unary => simp [exprKey] at h
    | binary => simp [exprKey] at h
    | func => simp [exprKey] at h
  | ref c x =>
    cases e' with
    | lit w => simp [exprKey] at h
    | omitted => simp [exprKey] at h
    | ref c' x' =>
      simp only [exprKey, List.append_assoc, List.cons_append, List.nil_append, List.cons.injEq, true_and] at h
      obtain ⟨e1, h⟩ := ctxKey_head h
      obtain ⟨e2, h⟩ := refKey_head h
      exact ⟨by rw [shape, shape, e1, e2], rfl, (List.cons.inj h).2⟩
    | unary => simp [exprKey] at h
    | binary => simp [exprKey] at h
    | func => simp [exprKey] at h
  | unary op a =>
    cases e' with
    | lit w => simp [exprKey] at h
    | omitted => simp [exprKey] at h
    | ref => simp [exprKey] at h
    | unary op' a' =>
      simp only [exprKey, List.append_assoc, List.cons_append, List.nil_append, List.cons.injEq, true_and] at h
      obtain ⟨e1, h⟩ := stringKey_head h
      obtain ⟨e2, e3, h⟩ := exprKey_head a a' n _ _ (List.cons.inj h).2
      exact ⟨by rw [shape, shape, e1, e2], by rw [exprKey, exprKey]; exact e3, (List.cons.inj h).2⟩
    | binary => simp [exprKey] at h
    | func => simp [exprKey] at h
  | binary op a b =>
    cases e' with
    | lit w => simp [exprKey] at h
    | omitted => simp [exprKey] at h
    | ref => simp [exprKey] at h
    | unary => simp [exprKey] at h
    | binary op' a' b' =>
      simp only [exprKey, List.append_assoc, List.cons_append, List.nil_append, List.cons.injEq, true_and] at h
      obtain ⟨e1, h⟩ := stringKey_head h
      obtain ⟨e2, e3, h⟩ := exprKey_head a a' n _ _ (List.cons.inj h).2
      rw [e3] at h
      obtain ⟨e4, e5, h⟩ := exprKey_head b b' _ _ _ (List.cons.inj h).2
      exact ⟨by rw [shape, shape, e1, e2, e4], by rw [exprKey, exprKey]; dsimp only; rw [e3, e5], (List.cons.inj h).2⟩
    | func => simp [exprKey] at h
  | func f args =>
    cases e' with
    | lit w => simp [exprKey] at h
    | omitted => simp [exprKey] at h
    | ref => simp [exprKey] at h
    | unary => simp [exprKey] at h
    | binary => simp [exprKey] at h
    | func f' args' =>
      simp only [exprKey, List.append_assoc, List.cons_append, List.nil_append, List.cons.injEq, true_and] at h
      obtain ⟨e1, h⟩ := fnKey_head (Or.inl rfl) (Or.inl rfl) h
      obtain ⟨e2, h⟩ := dec_head (by decide) (by decide) (List.cons.inj h).2
      obtain ⟨e3, e4, h⟩ := argsKey_head args args' e2 n _ _ (List.cons.inj h).2
      exact ⟨by rw [shape, shape, e1, e3], by rw [exprKey, exprKey]; exact e4, (List.cons.inj h).2⟩

theorem argsKey_head (as : List (CExpr V)) (bs : List (CExpr W)) (hl : as.length = bs.length) (n : Nat) (r r' : Text)
    (h : (argsKey n as).1 ++ r = (argsKey n bs).1 ++ r') : shapes as = shapes bs ∧ (argsKey n as).2 = (argsKey n bs).2 ∧ r = r' := by
  cases as with
  | nil =>
    cases bs with
    | nil => exact ⟨rfl, rfl, h⟩
    | cons b bs => cases hl
  | cons a as =>
    cases bs with
    | nil => cases hl
    | cons b bs =>
      simp only [argsKey, List.append_assoc, List.cons_append] at h
      obtain ⟨e1, e2, h⟩ := exprKey_head a b n _ _ h
      rw [e2] at h
      obtain ⟨e3, e4, h⟩ := argsKey_head as bs (by simpa using hl) _ _ _ (List.cons.inj h).2
      exact ⟨by rw [shapes, shapes, e1, e3], by rw [argsKey, argsKey]; dsimp only; rw [e2, e4], h⟩

end

/-- Equal keys: equal forms, up to the constants. -/
theorem payload_shape {e : CExpr V} {e' : CExpr W} {l l' : Text} (h : payload e l = payload e' l') : shape e = shape e' := by
  unfold payload at h
  simp only [List.append_assoc] at h
  exact (exprKey_head e e' 0 _ _ (List.append_cancel_left h)).1

end Verif.Template
