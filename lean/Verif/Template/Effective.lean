/-
Property C67: what a cell of a span computes.
-/
import Verif.Template.Key

namespace Verif.Template

variable {V W : Type}

/-! ### References -/

/-- A row or column that exists. -/
def InSheet (n : Nat) : Prop := 1 ≤ n ∧ n ≤ 2 ^ 32 - 1

/-- A reference as it is written: its rows and columns exist, and an axis that is not there has no mark. -/
def Ref.Ok : Ref → Prop
  | .cell _ r c _ _ => InSheet r ∧ InSheet c
  | .range _ sr sc er ec sra sca era eca =>
    (∀ n, sr = some n → InSheet n) ∧ (∀ n, sc = some n → InSheet n) ∧ (∀ n, er = some n → InSheet n) ∧ (∀ n, ec = some n → InSheet n) ∧
      (sr = none → sra = false) ∧ (sc = none → sca = false) ∧ (er = none → era = false) ∧ (ec = none → eca = false)
  | .named _ => True

mutual

/-- A formula as it is written. -/
def Fm.Ok : Fm V → Prop
  | .lit _ => True
  | .omitted => True
  | .ref r => r.Ok
  | .unary _ e => e.Ok
  | .binary _ l r => l.Ok ∧ r.Ok
  | .func _ args => Fm.OkArgs args

/-- Formulas as they are written. -/
def Fm.OkArgs : List (Fm V) → Prop
  | [] => True
  | a :: as => a.Ok ∧ Fm.OkArgs as

end

theorem axisOf_shift {v w p q : Nat} {a b : Bool} (h : axisOf v p a = axisOf w q b) (hw : InSheet w) :
    a = b ∧ shiftAxis v ((q : Int) - p) a = some w := by
  unfold InSheet at hw
  cases a <;> cases b
  · simp only [axisOf, Bool.false_eq_true, if_false, Axis.rel.injEq] at h
    refine ⟨rfl, ?_⟩
    unfold shiftAxis
    rw [if_neg (by decide), if_neg (by omega)]
    congr 1
    omega
  · simp [axisOf] at h
  · simp [axisOf] at h
  · simp only [axisOf, if_true, Axis.abs.injEq] at h
    exact ⟨rfl, by simp [shiftAxis, h]⟩

theorem axisPair_shift {s e s' e' : Option Nat} {p q : Nat} {sa ea sa' ea' : Bool} (h : axisPair s e p sa ea = axisPair s' e' q sa' ea')
    (h1 : ∀ n, s' = some n → InSheet n) (h2 : ∀ n, e' = some n → InSheet n) (h3 : s = none → sa = false) (h4 : e = none → ea = false)
    (h3' : s' = none → sa' = false) (h4' : e' = none → ea' = false) :
    sa = sa' ∧ ea = ea' ∧ shiftOpt s ((q : Int) - p) sa = some s' ∧ shiftOpt e ((q : Int) - p) ea = some e' := by
  have no : ∀ v a n, axisOf v n a ≠ .whole ∧ axisOf v n a ≠ .openStart ∧ axisOf v n a ≠ .openEnd := by
    intro v a n
    cases a <;> simp [axisOf]
  cases s <;> cases e <;> cases s' <;> cases e' <;> simp only [axisPair, Prod.mk.injEq] at h <;>
    first
    | exact absurd h.1 (by decide)
    | exact absurd h.2 (by decide)
    | exact absurd h.1 (no _ _ _).1
    | exact absurd h.1 (no _ _ _).2.1
    | exact absurd h.1 (no _ _ _).2.2
    | exact absurd h.2 (no _ _ _).1
    | exact absurd h.2 (no _ _ _).2.1
    | exact absurd h.2 (no _ _ _).2.2
    | exact absurd h.1.symm (no _ _ _).1
    | exact absurd h.1.symm (no _ _ _).2.1
    | exact absurd h.1.symm (no _ _ _).2.2
    | exact absurd h.2.symm (no _ _ _).1
    | exact absurd h.2.symm (no _ _ _).2.1
    | exact absurd h.2.symm (no _ _ _).2.2
    | skip
  · rw [h3 rfl, h4 rfl, h3' rfl, h4' rfl]; exact ⟨rfl, rfl, rfl, rfl⟩
  · obtain ⟨k1, k2⟩ := axisOf_shift h.2 (h2 _ rfl)
    rw [h3 rfl, h3' rfl]
    exact ⟨rfl, k1, rfl, by simp [shiftOpt, k2]⟩
  · obtain ⟨k1, k2⟩ := axisOf_shift h.1 (h1 _ rfl)
    rw [h4 rfl, h4' rfl]
    exact ⟨k1, rfl, by simp [shiftOpt, k2], rfl⟩
  · obtain ⟨k1, k2⟩ := axisOf_shift h.1 (h1 _ rfl)
    obtain ⟨k3, k4⟩ := axisOf_shift h.2 (h2 _ rfl)
    exact ⟨k1, k3, by simp [shiftOpt, k2], by simp [shiftOpt, k4]⟩

theorem relocate_canon {r s : Ref} {p q p' q' : Nat} (h : canonRef p q r = canonRef p' q' s) (hr : r.Ok) (hs : s.Ok) :
    relocate ((p' : Int) - p) ((q' : Int) - q) r = some s := by
  cases r with
  | cell t x y a b =>
    cases s with
    | cell t' x' y' a' b' =>
      simp only [canonRef, CRef.cell.injEq] at h
      obtain ⟨k1, k2⟩ := axisOf_shift h.2.1 hs.1
      obtain ⟨k3, k4⟩ := axisOf_shift h.2.2 hs.2
      subst k1 k3
      simp [relocate, k2, k4, h.1]
    | range => simp [canonRef] at h
    | named => simp [canonRef] at h
  | range t x y z w a b c d =>
    cases s with
    | cell => simp [canonRef] at h
    | range t' x' y' z' w' a' b' c' d' =>
      simp only [canonRef, CRef.range.injEq] at h
      obtain ⟨e1, e2, e3, e4, e5⟩ := h
      obtain ⟨r1, r2, r3, r4, r5, r6, r7, r8⟩ := hr
      obtain ⟨s1, s2, s3, s4, s5, s6, s7, s8⟩ := hs
      obtain ⟨k1, k2, k3, k4⟩ := axisPair_shift (Prod.ext e2 e4) s1 s3 r5 r7 s5 s7
      obtain ⟨l1, l2, l3, l4⟩ := axisPair_shift (Prod.ext e3 e5) s2 s4 r6 r8 s6 s8
      subst k1 k2 l1 l2
      simp [relocate, k3, k4, l3, l4, e1]
    | named => simp [canonRef] at h
  | named n =>
    cases s with
    | cell => simp [canonRef] at h
    | range => simp [canonRef] at h
    | named m =>
      simp only [canonRef, CRef.named.injEq] at h
      simp [relocate, h]

theorem shiftAxis_zero {v w : Nat} {a : Bool} (h : shiftAxis v 0 a = some w) : v = w := by
  unfold shiftAxis at h
  split at h
  · exact Option.some.inj h
  · split at h
    · cases h
    · have := Option.some.inj h
      omega

theorem shiftOpt_zero {v w : Option Nat} {a : Bool} (h : shiftOpt v 0 a = some w) : v = w := by
  cases v with
  | none => exact Option.some.inj h
  | some v =>
    simp only [shiftOpt, Option.map_eq_some_iff] at h
    obtain ⟨x, h1, h2⟩ := h
    rw [← h2, shiftAxis_zero h1]

theorem relocate_zero {r s : Ref} (h : relocate 0 0 r = some s) : r = s := by
  cases r with
  | cell t x y a b =>
    simp only [relocate, bind, Option.bind_eq_some_iff] at h
    obtain ⟨x', h1, y', h2, h⟩ := h
    rw [← Option.some.inj h, shiftAxis_zero h1, shiftAxis_zero h2]
  | range t x y z w a b c d =>
    simp only [relocate, bind, Option.bind_eq_some_iff] at h
    obtain ⟨x', h1, y', h2, z', h3, w', h4, h⟩ := h
    rw [← Option.some.inj h, shiftOpt_zero h1, shiftOpt_zero h2, shiftOpt_zero h3, shiftOpt_zero h4]
  | named n => exact Option.some.inj h

theorem effectiveRef_canon {r s : Ref} {p q p' q' : Nat} (h : canonRef p q r = canonRef p' q' s) (hr : r.Ok) (hs : s.Ok) :
    effectiveRef ((p' : Int) - p) ((q' : Int) - q) r = some s := by
  have key := relocate_canon h hr hs
  unfold effectiveRef
  split
  · rename_i hz
    rw [hz.1, hz.2] at key
    rw [relocate_zero key]
  · exact key

/-! ### Formulas -/

/-- The constant that is used at a node. -/
def pick (slots : Nat → Option Nat) (vals : List V) (p : Nat × V) : V :=
  match (slots p.1).bind fun s => vals[s]? with
  | some v => v
  | none => p.2

mutual

theorem lits_plain (F : Fm (Nat × V)) : lits F.plain = (lits F).map Prod.snd := by
  cases F with
  | lit v => rfl
  | omitted => rfl
  | ref r => rfl
  | unary op e => exact lits_plain e
  | binary op l r =>
    have h1 := lits_plain l
    have h2 := lits_plain r
    unfold Fm.plain at h1 h2
    simp [Fm.plain, Fm.map, lits, h1, h2]
  | func f args => exact litsArgs_plain args

theorem litsArgs_plain (as : List (Fm (Nat × V))) : litsArgs (Fm.mapArgs Prod.snd as) = (litsArgs as).map Prod.snd := by
  cases as with
  | nil => rfl
  | cons a as =>
    have h1 := lits_plain a
    unfold Fm.plain at h1
    simp [Fm.mapArgs, litsArgs, h1, litsArgs_plain as]

end

mutual

theorem shape_count (F : Fm V) (G : Fm W) (p q p' q' : Nat) (c c' : Ctx) (h : shape (canon p q c F) = shape (canon p' q' c' G)) :
    (lits F).length = (lits G).length := by
  cases F with
  | lit v =>
    cases G <;> simp only [canon, shape] at h <;> first | rfl | cases h
  | omitted =>
    cases G <;> simp only [canon, shape] at h <;> first | rfl | cases h
  | ref r =>
    cases G <;> simp only [canon, shape] at h <;> first | rfl | cases h
  | unary op e =>
    cases G with
    | unary op' e' =>
      simp only [canon, shape, CExpr.unary.injEq] at h
      exact shape_count e e' _ _ _ _ _ _ h.2
    | _ => simp [canon, shape] at h
  | binary op l r =>
    cases G with
    | binary op' l' r' =>
      simp only [canon, shape, CExpr.binary.injEq] at h
      have h1 := shape_count l l' _ _ _ _ _ _ h.2.1
      have h2 := shape_count r r' _ _ _ _ _ _ h.2.2
      simp [lits, h1, h2]
    | _ => simp [canon, shape] at h
  | func f args =>
    cases G with
    | func f' args' =>
      simp only [canon, shape, CExpr.func.injEq] at h
      exact shape_countArgs args args' _ _ _ _ _ _ _ _ h.2
    | _ => simp [canon, shape] at h

theorem shape_countArgs (as : List (Fm V)) (bs : List (Fm W)) (p q p' q' : Nat) (f f' : Fn) (i j : Nat)
    (h : shapes (canonArgs p q f i as) = shapes (canonArgs p' q' f' j bs)) : (litsArgs as).length = (litsArgs bs).length := by
  cases as with
  | nil =>
    cases bs with
    | nil => rfl
    | cons b bs => simp [canonArgs, shapes] at h
  | cons a as =>
    cases bs with
    | nil => simp [canonArgs, shapes] at h
    | cons b bs =>
      simp only [canonArgs, shapes, List.cons.injEq] at h
      have h1 := shape_count a b _ _ _ _ _ _ h.1
      have h2 := shape_countArgs as bs _ _ _ _ _ _ _ _ h.2
      simp [litsArgs, h1, h2]

end

variable {slots : Nat → Option Nat} {vals : List V} {p q p' q' : Nat}

mutual

/-- Of two formulas of one shape, the first gives the second exactly when its constants become those of the second. -/
theorem effective_iff (F : Fm (Nat × V)) (G : Fm V) (c c' : Ctx) (h : shape (canon p q c F.plain) = shape (canon p' q' c' G)) (hF : F.Ok) (hG : G.Ok) :
    effective slots vals ((p' : Int) - p) ((q' : Int) - q) F = some G ↔ (lits F).map (pick slots vals) = lits G := by
  cases F with
  | lit v =>
    cases G with
    | lit w =>
      simp only [effective, lits, List.map_cons, List.map_nil, List.cons.injEq, and_true, Option.some.injEq, Fm.lit.injEq]
      exact Iff.rfl
    | _ => simp [Fm.plain, Fm.map, canon, shape] at h
  | omitted =>
    cases G with
    | omitted => simp [effective, lits]
    | _ => simp [Fm.plain, Fm.map, canon, shape] at h
  | ref r =>
    cases G with
    | ref s =>
      simp only [Fm.plain, Fm.map, canon, shape, CExpr.ref.injEq] at h
      simp [effective, lits, effectiveRef_canon h.2 hF hG]
    | _ => simp [Fm.plain, Fm.map, canon, shape] at h
  | unary op e =>
    cases G with
    | unary op' e' =>
      simp only [Fm.plain, Fm.map, canon, shape, CExpr.unary.injEq] at h
      have := effective_iff e e' _ _ h.2 hF hG
      rw [lits, lits, ← this, h.1]
      simp [effective]
    | _ => simp [Fm.plain, Fm.map, canon, shape] at h
  | binary op l r =>
    cases G with
    | binary op' l' r' =>
      simp only [Fm.plain, Fm.map, canon, shape, CExpr.binary.injEq] at h
      have h1 := effective_iff l l' _ _ h.2.1 hF.1 hG.1
      have h2 := effective_iff r r' _ _ h.2.2 hF.2 hG.2
      have hl : ((lits l).map (pick slots vals)).length = (lits l').length := by
        have := shape_count _ _ _ _ _ _ _ _ h.2.1
        rw [← this, List.length_map, ← Fm.plain, lits_plain, List.length_map]
      rw [lits, lits, List.map_append]
      constructor
      · intro k
        simp only [effective, bind, Option.bind_eq_some_iff] at k
        obtain ⟨x, k1, y, k2, k⟩ := k
        have k := Option.some.inj k
        simp only [Fm.binary.injEq] at k
        rw [← h1.1 (k1.trans (congrArg some k.2.1)), ← h2.1 (k2.trans (congrArg some k.2.2))]
      · intro k
        obtain ⟨k1, k2⟩ := List.append_inj k hl
        simp [effective, h1.2 k1, h2.2 k2, h.1]
    | _ => simp [Fm.plain, Fm.map, canon, shape] at h
  | func f args =>
    cases G with
    | func f' args' =>
      simp only [Fm.plain, Fm.map, canon, shape, CExpr.func.injEq] at h
      have := effectiveArgs_iff args args' _ _ _ _ h.2 hF hG
      rw [lits, lits, ← this, h.1]
      simp [effective]
    | _ => simp [Fm.plain, Fm.map, canon, shape] at h

theorem effectiveArgs_iff (as : List (Fm (Nat × V))) (bs : List (Fm V)) (f f' : Fn) (i j : Nat)
    (h : shapes (canonArgs p q f i (Fm.mapArgs Prod.snd as)) = shapes (canonArgs p' q' f' j bs)) (hF : Fm.OkArgs as) (hG : Fm.OkArgs bs) :
    effectiveArgs slots vals ((p' : Int) - p) ((q' : Int) - q) as = some bs ↔ (litsArgs as).map (pick slots vals) = litsArgs bs := by
  cases as with
  | nil =>
    cases bs with
    | nil => simp [effectiveArgs, litsArgs]
    | cons b bs => simp [Fm.mapArgs, canonArgs, shapes] at h
  | cons a as =>
    cases bs with
    | nil => simp [Fm.mapArgs, canonArgs, shapes] at h
    | cons b bs =>
      simp only [Fm.mapArgs, canonArgs, shapes, List.cons.injEq] at h
      have h1 := effective_iff a b _ _ h.1 hF.1 hG.1
      have h2 := effectiveArgs_iff as bs _ _ _ _ h.2 hF.2 hG.2
      have hl : ((lits a).map (pick slots vals)).length = (lits b).length := by
        have := shape_count _ _ _ _ _ _ _ _ h.1
        rw [← this, List.length_map, ← Fm.plain, lits_plain, List.length_map]
      rw [litsArgs, litsArgs, List.map_append]
      constructor
      · intro k
        simp only [effectiveArgs, bind, Option.bind_eq_some_iff] at k
        obtain ⟨x, k1, y, k2, k⟩ := k
        have k := Option.some.inj k
        simp only [List.cons.injEq] at k
        rw [← h1.1 (k1.trans (congrArg some k.1)), ← h2.1 (k2.trans (congrArg some k.2))]
      · intro k
        obtain ⟨k1, k2⟩ := List.append_inj k hl
        simp [effectiveArgs, h1.2 k1, h2.2 k2]

end

/-! ### The table of constants -/

theorem slotMap_other {ids : List Nat} {id : Nat} (h : id ∉ ids) : ∀ (n : Nat) (m : Nat → Option Nat), (slotMap ids n m).1 id = m id := by
  induction ids with
  | nil => intro n m; rfl
  | cons x ids ih =>
    intro n m
    simp only [List.mem_cons, not_or] at h
    rw [slotMap, ih h.2, if_neg h.1]

/-- A node leads to the last place where it is. -/
theorem slotMap_last {ids : List Nat} {id : Nat} (h : id ∈ ids) : ∀ (n : Nat) (m : Nat → Option Nat), n + ids.length ≤ 65536 →
    ∃ i, ids[i]? = some id ∧ (slotMap ids n m).1 id = some (n + i) := by
  induction ids with
  | nil => cases h
  | cons x ids ih =>
    intro n m hn
    simp only [List.length_cons] at hn
    by_cases hi : id ∈ ids
    · have hpos := List.length_pos_of_mem hi
      have hs : nextSlot n = n + 1 := by unfold nextSlot; omega
      obtain ⟨i, h1, h2⟩ := ih hi (nextSlot n) (fun k => if k = x then some n else m k) (by omega)
      exact ⟨i + 1, by simpa using h1, by rw [slotMap, h2, hs]; congr 1; omega⟩
    · have hx : id = x := by
        rcases List.mem_cons.1 h with h | h
        · exact h
        · exact absurd h hi
      exact ⟨0, by simp [hx], by rw [slotMap, slotMap_other hi, if_pos hx]; rfl⟩

/-- Two constants that share a node in the first formula are equal in the second. -/
def Together (ids : List Nat) (vals : List V) : Prop := ∀ i j id : Nat, ids[i]? = some id → ids[j]? = some id → vals[i]? = vals[j]?

theorem pick_iff {F : Fm (Nat × V)} {vals : List V} (hl : (lits F).length = vals.length) (hn : vals.length ≤ 65536) :
    (lits F).map (pick (slotsOf F) vals) = vals ↔ Together ((lits F).map Prod.fst) vals := by
  have key : ∀ id ∈ (lits F).map Prod.fst, ∃ j : Nat, ((lits F).map Prod.fst)[j]? = some id ∧ ∀ v : V, vals[j]? = some (pick (slotsOf F) vals (id, v)) := by
    intro id hid
    obtain ⟨j, h1, h2⟩ := slotMap_last hid 0 (fun _ => none) (by simp [hl]; exact hn)
    refine ⟨j, h1, fun v => ?_⟩
    have hj : j < vals.length := by
      rw [← hl, ← List.length_map (f := Prod.fst)]
      exact (List.getElem?_eq_some_iff.1 h1).1
    unfold pick slotsOf
    rw [h2, Nat.zero_add, Option.bind_some, List.getElem?_eq_getElem hj]
  constructor
  · intro h
    have here : ∀ i id : Nat, ((lits F).map Prod.fst)[i]? = some id → ∃ v : V, vals[i]? = some (pick (slotsOf F) vals (id, v)) := by
      intro i id hi
      rw [List.getElem?_map, Option.map_eq_some_iff] at hi
      obtain ⟨x, hx, rfl⟩ := hi
      refine ⟨x.2, ?_⟩
      have := congrArg (fun l => l[i]?) h
      simp only [List.getElem?_map, hx] at this
      exact this.symm
    intro i j id hi hj
    obtain ⟨l, -, hv⟩ := key id (List.mem_of_getElem? hi)
    obtain ⟨v, h1⟩ := here i id hi
    obtain ⟨w, h2⟩ := here j id hj
    rw [h1, h2, ← hv v, ← hv w]
  · intro h
    refine List.ext_getElem? fun i => ?_
    rw [List.getElem?_map]
    cases hx : (lits F)[i]? with
    | none =>
      have := List.getElem?_eq_none_iff.1 hx
      exact (List.getElem?_eq_none (by omega)).symm
    | some x =>
      have hi : ((lits F).map Prod.fst)[i]? = some x.1 := by rw [List.getElem?_map, hx]; rfl
      obtain ⟨l, h1, hv⟩ := key x.1 (List.mem_of_getElem? hi)
      rw [h i l x.1 hi h1, hv x.2]
      rfl

/-! ### A cell of a span -/

mutual

theorem plain_ok (F : Fm (Nat × V)) (h : F.Ok) : F.plain.Ok := by
  cases F with
  | lit v => trivial
  | omitted => trivial
  | ref r => exact h
  | unary op e => exact plain_ok e h
  | binary op l r => exact ⟨plain_ok l h.1, plain_ok r h.2⟩
  | func f args => exact plain_okArgs args h

theorem plain_okArgs (as : List (Fm (Nat × V))) (h : Fm.OkArgs as) : Fm.OkArgs (Fm.mapArgs Prod.snd as) := by
  cases as with
  | nil => trivial
  | cons a as => exact ⟨plain_ok a h.1, plain_okArgs as h.2⟩

end

/-- A cell with the key of the stored formula computes its own formula, if and only if its constants agree where those of the stored
formula share a node. -/
theorem computes_own_iff {F : Fm (Nat × V)} {G : Fm V} {labels labels' : Text}
    (hkey : payload (canon p q .value F.plain) labels = payload (canon p' q' .value G) labels') (hF : F.Ok) (hG : G.Ok) (hn : (lits G).length ≤ 65536) :
    effective (slotsOf F) (lits G) ((p' : Int) - p) ((q' : Int) - q) F = some G ↔ Together ((lits F).map Prod.fst) (lits G) := by
  have h := payload_shape hkey
  rw [effective_iff F G _ _ h hF hG]
  refine pick_iff ?_ hn
  rw [← shape_count _ _ _ _ _ _ _ _ h, lits_plain, List.length_map]

/-- No node is shared: every cell with the key computes its own formula. -/
theorem computes_own {F : Fm (Nat × V)} {G : Fm V} {labels labels' : Text}
    (hkey : payload (canon p q .value F.plain) labels = payload (canon p' q' .value G) labels') (hF : F.Ok) (hG : G.Ok) (hn : (lits G).length ≤ 65536)
    (hd : ((lits F).map Prod.fst).Nodup) : effective (slotsOf F) (lits G) ((p' : Int) - p) ((q' : Int) - q) F = some G := by
  refine (computes_own_iff hkey hF hG hn).2 fun i j id hi hj => ?_
  rw [(List.getElem?_inj (List.getElem?_eq_some_iff.1 hi).1 hd).1 (hi.trans hj.symm)]

/-- The cell of the stored formula itself computes it, whatever is shared: a node has one constant. -/
theorem origin_computes_own {F : Fm (Nat × V)} (hF : F.Ok) (hn : (lits F).length ≤ 65536)
    (hone : ∀ x ∈ lits F, ∀ y ∈ lits F, x.1 = y.1 → x.2 = y.2) : effective (slotsOf F) (lits F.plain) 0 0 F = some F.plain := by
  have := (computes_own_iff (p := 1) (p' := 1) (q := 1) (q' := 1) (F := F) (G := F.plain) (labels := []) rfl hF (plain_ok F hF)
    (by rw [lits_plain, List.length_map]; exact hn)).2 ?_
  · exact this
  · intro i j id hi hj
    rw [List.getElem?_map, Option.map_eq_some_iff] at hi hj
    obtain ⟨x, hx, rfl⟩ := hi
    obtain ⟨y, hy, he⟩ := hj
    rw [lits_plain, List.getElem?_map, List.getElem?_map, hx, hy, Option.map_some, Option.map_some,
      hone x (List.mem_of_getElem? hx) y (List.mem_of_getElem? hy) he.symm]

end Verif.Template
