/-
Property C67: constants in arithmetic progressions.
-/
import Verif.Template.BindThms

namespace Verif.Template

variable {F E : Type}

theorem chk_some {n m : Int} (h : chk n = some m) : I64 n ∧ m = n := by
  unfold chk at h
  split at h
  · exact ⟨by assumption, (Option.some.inj h).symm⟩
  · cases h

theorem chk_of {n : Int} (h : I64 n) : chk n = some n := if_pos h

/-- A constant that fits. -/
def Const.Ok (v : Const F E) : Prop := ∀ n, v = .int n → I64 n

theorem exactOf_fits {N : Num F E} (L : N.Laws) {v : Const F E} {n : Int} (h : exactOf N v = some n) (hv : v.Ok) : I64 n := by
  cases v with
  | int m => exact hv n (congrArg Const.int (Option.some.inj h))
  | num x => exact L.fits x n h
  | _ => cases h

/-- The constant whose exact value is known. -/
theorem applyStep_own {N : Num F E} (L : N.Laws) {b v : Const F E} {e w s d x : Int} (hb : exactOf N b = some e) (hv : exactOf N v = some w)
    (hk : b.kind = v.kind) (h1 : I64 (s * d)) (h2 : I64 (s * d + x)) (hw : w = e + (s * d + x)) (hok : v.Ok) :
    applyStep N b s d x = some v := by
  have hwf : I64 (e + (s * d + x)) := hw ▸ exactOf_fits L hv hok
  cases b with
  | int n =>
    cases v with
    | int m =>
      have e1 := Option.some.inj hb
      have e2 := Option.some.inj hv
      subst e1
      subst e2
      simp [applyStep, chk_of h1, chk_of h2, chk_of hwf, hw]
    | num y => cases hk
    | _ => cases hv
  | num y =>
    cases v with
    | int m => cases hk
    | num z =>
      have hb' : N.exact y = some e := hb
      obtain ⟨k1, k2⟩ := L.back z w hv
      rw [hw] at k1 k2
      simp [applyStep, chk_of h1, chk_of h2, chk_of hwf, hb', k2]
      exact k1
    | _ => cases hv
  | _ => cases hb

/-! ### One direction -/

/-- The constants `vs` are those of the origin and the steps, at a distance. -/
def Stepped (N : Num F E) (d : Int) : List (Const F E) → List (Const F E) → List (Option Int) → Prop
  | b :: bs, v :: vs, s :: ss =>
    (∃ e w, exactOf N b = some e ∧ exactOf N v = some w ∧ I64 (w - e) ∧ (d = 0 ∧ w = e ∨ ∃ k, s = some k ∧ w - e = k * d)) ∧ Stepped N d bs vs ss
  | [], [], [] => True
  | _, _, _ => False

/-- Steps that were found later are added to those found before. -/
def Finer (ss ss' : List (Option Int)) : Prop := List.Forall₂ (fun s s' => s = none ∨ s = s') ss ss'

theorem Finer.refl (ss : List (Option Int)) : Finer ss ss := by
  induction ss with
  | nil => exact .nil
  | cons s ss ih => exact .cons (Or.inr rfl) ih

theorem Finer.trans {a b c : List (Option Int)} (h : Finer a b) (k : Finer b c) : Finer a c := by
  induction h generalizing c with
  | nil => exact k
  | cons h1 _ ih =>
    cases k with
    | cons k1 k2 =>
      refine .cons ?_ (ih k2)
      rcases h1 with rfl | rfl
      · exact Or.inl rfl
      · exact k1

theorem Stepped.mono {N : Num F E} {d : Int} : ∀ {bs vs : List (Const F E)} {ss ss' : List (Option Int)}, Stepped N d bs vs ss → Finer ss ss' →
    Stepped N d bs vs ss'
  | [], [], [], _, _, h => by cases h; trivial
  | b :: bs, v :: vs, s :: ss, _, h, k => by
    cases k with
    | cons k1 k2 =>
      obtain ⟨⟨e, w, h1, h2, h3, h4⟩, h5⟩ := h
      refine ⟨⟨e, w, h1, h2, h3, ?_⟩, h5.mono k2⟩
      rcases h4 with h4 | ⟨x, hx, h4⟩
      · exact Or.inl h4
      · rcases k1 with k1 | k1
        · rw [k1] at hx; cases hx
        · exact Or.inr ⟨x, k1 ▸ hx, h4⟩
  | [], [], _ :: _, _, h, _ => h.elim
  | [], _ :: _, _, _, h, _ => h.elim
  | _ :: _, [], _, _, h, _ => h.elim
  | _ :: _, _ :: _, [], _, h, _ => h.elim

theorem Stepped.length {N : Num F E} {d : Int} : ∀ {bs vs : List (Const F E)} {ss : List (Option Int)}, Stepped N d bs vs ss → bs.length = ss.length
  | [], [], [], _ => rfl
  | _ :: _, _ :: _, _ :: _, h => congrArg (· + 1) h.2.length
  | [], [], _ :: _, h => h.elim
  | [], _ :: _, _, h => h.elim
  | _ :: _, [], _, h => h.elim
  | _ :: _, _ :: _, [], h => h.elim

theorem stepBetween_some {N : Num F E} {b v : Const F E} {d : Int} {r : Option Int} (h : stepBetween N b v d = some r) :
    ∃ e w, exactOf N b = some e ∧ exactOf N v = some w ∧ I64 (w - e) ∧ (d = 0 ∧ w = e ∧ r = none ∨ ∃ k, r = some k ∧ w - e = k * d) := by
  simp only [stepBetween, bind, Option.bind_eq_some_iff] at h
  obtain ⟨e, h1, w, h2, diff, h3, h⟩ := h
  obtain ⟨i3, rfl⟩ := chk_some h3
  refine ⟨e, w, h1, h2, i3, ?_⟩
  split at h
  · split at h
    · exact Or.inl ⟨by assumption, by omega, (Option.some.inj h).symm⟩
    · cases h
  · split at h
    · cases h
    · rename_i hm
      refine Or.inr ⟨_, (Option.some.inj h).symm, ?_⟩
      have hm : Int.tmod (w - e) d = 0 := by
        by_cases hz : Int.tmod (w - e) d = 0
        · exact hz
        · exact absurd hz hm
      have := Int.tdiv_mul_add_tmod (w - e) d
      rw [hm, Int.add_zero] at this
      exact this.symm

theorem addSteps_some {N : Num F E} {d : Int} : ∀ {bs vs : List (Const F E)} {ss ss' : List (Option Int)}, bs.length = vs.length →
    bs.length = ss.length → addSteps N d bs vs ss = some ss' → Finer ss ss' ∧ Stepped N d bs vs ss'
  | [], [], [], ss', _, _, h => by
    have := Option.some.inj h
    subst this
    exact ⟨.nil, trivial⟩
  | b :: bs, v :: vs, s :: ss, ss', hl, hl', h => by
    simp only [addSteps, bind, Option.bind_eq_some_iff] at h
    obtain ⟨r, h1, s', h2, rest, h3, h⟩ := h
    have := Option.some.inj h
    subst this
    obtain ⟨k1, k2⟩ := addSteps_some (by simpa using hl) (by simpa using hl') h3
    obtain ⟨e, w, e1, e2, e3, e4⟩ := stepBetween_some h1
    have key : (s = none ∨ s = s') ∧ (r = none ∨ s' = r) := by
      cases r with
      | none =>
        exact ⟨Or.inr (Option.some.inj h2), Or.inl rfl⟩
      | some k =>
        cases s with
        | none =>
          exact ⟨Or.inl rfl, Or.inr (Option.some.inj h2).symm⟩
        | some x =>
          simp only [addStep] at h2
          split at h2
          · cases h2
          · rename_i hx
            have hx : x = k := by
              by_cases hz : x = k
              · exact hz
              · exact absurd hz hx
            have := Option.some.inj h2
            exact ⟨Or.inr this, Or.inr (by rw [← this, hx])⟩
    refine ⟨.cons key.1 k1, ⟨e, w, e1, e2, e3, ?_⟩, k2⟩
    rcases e4 with ⟨e4, e5, -⟩ | ⟨k, e4, e5⟩
    · exact Or.inl ⟨e4, e5⟩
    · refine Or.inr ⟨k, ?_, e5⟩
      rcases key.2 with z | z
      · rw [z] at e4; cases e4
      · rw [z, e4]
  | [], [], _ :: _, _, _, hl', _ => by cases hl'
  | [], _ :: _, _, _, hl, _, _ => by cases hl
  | _ :: _, [], _, _, hl, _, _ => by cases hl
  | _ :: _, _ :: _, [], _, _, hl', _ => by cases hl'

theorem detectSteps_some {N : Num F E} {m : By F E} {base : List (Const F E)} {delta : Nat × Nat → Int} : ∀ {cells : List (Nat × Nat)}
    {ss : List (Option Int)} {steps : List Int}, base.length = ss.length → detectSteps N m base delta cells ss = some steps →
    ∃ ss', Finer ss ss' ∧ steps = ss'.map (fun s => s.getD 0) ∧ ∀ c ∈ cells, ∃ b, m c = some b ∧ Stepped N (delta c) base b ss'
  | [], ss, steps, _, h => ⟨ss, Finer.refl ss, (Option.some.inj h).symm, fun c hc => by cases hc⟩
  | c :: cells, ss, steps, hl, h => by
    simp only [detectSteps, bind, Option.bind_eq_some_iff] at h
    obtain ⟨b, h1, h⟩ := h
    split at h
    · cases h
    · rename_i hb
      have hb : base.length = b.length := by omega
      simp only [Option.bind_eq_some_iff] at h
      obtain ⟨ss1, h2, h⟩ := h
      obtain ⟨k1, k2⟩ := addSteps_some hb hl h2
      obtain ⟨ss', k3, k4, k5⟩ := detectSteps_some (by rw [hl]; exact k1.length_eq) h
      refine ⟨ss', k1.trans k3, k4, ?_⟩
      intro x hx
      rcases List.mem_cons.1 hx with rfl | hx
      · exact ⟨b, h1, k2.mono k3⟩
      · exact k5 x hx

theorem affineVals_own {N : Num F E} (L : N.Laws) {d : Int} : ∀ {bs vs : List (Const F E)} {ss : List (Option Int)}, Stepped N d bs vs ss →
    bs.map Const.kind = vs.map Const.kind → (∀ v ∈ vs, v.Ok) → affineVals N d bs (ss.map fun s => s.getD 0) = some vs
  | [], [], [], _, _, _ => rfl
  | b :: bs, v :: vs, s :: ss, h, hk, hok => by
    obtain ⟨⟨e, w, h1, h2, h3, h4⟩, h5⟩ := h
    simp only [List.map_cons, List.cons.injEq] at hk
    have hs : w - e = s.getD 0 * d := by
      rcases h4 with ⟨h4, h6⟩ | ⟨k, h4, h6⟩
      · rw [h4, Int.mul_zero]; omega
      · rw [h4]; exact h6
    have z : (0 : Int) = 0 := rfl
    have := applyStep_own L (s := s.getD 0) (d := d) (x := 0) h1 h2 hk.1 (hs ▸ h3) (by rw [Int.add_zero]; exact hs ▸ h3)
      (by rw [Int.add_zero]; omega) (hok v (by simp))
    simp only [List.map_cons, affineVals, this, affineVals_own L h5 hk.2 (fun x hx => hok x (by simp [hx])), bind, Option.bind_some]
  | [], [], _ :: _, h, _, _ => h.elim
  | [], _ :: _, _, h, _, _ => h.elim
  | _ :: _, [], _, h, _, _ => h.elim
  | _ :: _, _ :: _, [], h, _, _ => h.elim

/-! ### Two directions -/

theorem rectSteps_length {N : Num F E} : ∀ {bs vs : List (Const F E)} {ss : List Int}, bs.length = vs.length → rectSteps N bs vs = some ss →
    ss.length = bs.length
  | [], [], ss, _, h => by rw [← Option.some.inj h]; rfl
  | b :: bs, v :: vs, ss, hl, h => by
    simp only [rectSteps, bind, Option.bind_eq_some_iff] at h
    obtain ⟨_, -, s, -, rest, h3, h⟩ := h
    rw [← Option.some.inj h, List.length_cons, List.length_cons, rectSteps_length (by simpa using hl) h3]
  | [], _ :: _, _, hl, _ => by cases hl
  | _ :: _, [], _, hl, _ => by cases hl

theorem constEq_toLike {N : Num F E} (L : N.Laws) {n : Int} {b x v : Const F E} (h : toLike N n b = some x) (k : constEq N x v = true) : x = v := by
  cases x <;> cases v <;> simp [constEq] at k
  · rw [k]
  · rw [L.same _ _ k]

/-- A constant that is not negative. -/
def Const.NonNeg (N : Num F E) : Const F E → Prop
  | .int n => 0 ≤ n
  | .num x => 0 ≤ N.toInt x
  | _ => True

theorem exactOf_nonneg {N : Num F E} (L : N.Laws) {v : Const F E} {n : Int} (h : exactOf N v = some n) (hv : v.NonNeg N) : 0 ≤ n := by
  cases v with
  | int m => exact Option.some.inj h ▸ hv
  | num x =>
    have := L.back x n h
    have hv : 0 ≤ N.toInt x := hv
    rw [← this.1, this.2] at hv
    exact hv
  | _ => cases h

theorem toLike_nonneg {N : Num F E} {n : Int} {b x : Const F E} (h : toLike N n b = some x) (hx : x.NonNeg N) : 0 ≤ n := by
  cases b with
  | int m =>
    have := Option.some.inj h
    subst this
    exact hx
  | num y =>
    simp only [toLike] at h
    split at h
    · rename_i hn
      have := Option.some.inj h
      subst this
      exact hn ▸ hx
    · cases h
  | _ => cases h

theorem applyStep_like {N : Num F E} {b x : Const F E} {e s d z : Int} (hb : exactOf N b = some e) (h1 : I64 (s * d)) (h2 : I64 (s * d + z))
    (h3 : I64 (e + (s * d + z))) (h : toLike N (e + (s * d + z)) b = some x) : applyStep N b s d z = some x := by
  cases b with
  | int n =>
    have hb := Option.some.inj hb
    subst hb
    rw [← h]
    simp [applyStep, chk_of h1, chk_of h2, chk_of h3, toLike]
  | num y =>
    have hb' : N.exact y = some e := hb
    rw [← h]
    simp [applyStep, chk_of h1, chk_of h2, chk_of h3, toLike, hb']
  | _ => cases hb

theorem rectVals_own {N : Num F E} (L : N.Laws) {dr dc : Int} : ∀ {bs vs : List (Const F E)} {rs cs : List Int}, bs.length = vs.length →
    rs.length = bs.length → cs.length = bs.length → rectOk N dr dc bs rs cs vs = some () →
    (∀ v ∈ bs, v.Ok ∧ v.NonNeg N) → (∀ v ∈ vs, v.NonNeg N) → rectVals N dr dc bs rs cs = some vs
  | [], [], [], [], _, _, _, _, _, _ => rfl
  | b :: bs, v :: vs, r :: rs, c :: cs, hl, h1, h2, h, hb, hv => by
    simp only [rectOk, bind, Option.bind_eq_some_iff] at h
    obtain ⟨e, k1, p, k2, e1, k3, q, k4, e2, k5, x, k6, h⟩ := h
    obtain ⟨i2, rfl⟩ := chk_some k2
    obtain ⟨i3, rfl⟩ := chk_some k3
    obtain ⟨i4, rfl⟩ := chk_some k4
    obtain ⟨i5, rfl⟩ := chk_some k5
    split at h
    · rename_i hx
      have hxv := constEq_toLike L k6 hx
      subst hxv
      have b1 := exactOf_nonneg L k1 (hb b (by simp)).2
      have b2 := toLike_nonneg k6 (hv x (by simp))
      have b3 := exactOf_fits L k1 (hb b (by simp)).1
      have hs : I64 (r * dr + c * dc) := by
        unfold I64 at b3 i5 ⊢
        omega
      rw [Int.add_assoc] at k6 i5
      have := applyStep_like k1 i2 hs i5 k6
      have ih := rectVals_own L (dr := dr) (dc := dc) (bs := bs) (vs := vs) (rs := rs) (cs := cs) (by simpa using hl) (by simpa using h1)
        (by simpa using h2) h (fun y hy => hb y (by simp [hy])) (fun y hy => hv y (by simp [hy]))
      simp only [rectVals, bind, chk_of i4, Option.bind_some, this, ih]
    · cases h
  | [], [], [], _ :: _, _, _, h, _, _, _ => by cases h
  | [], [], _ :: _, _, _, h, _, _, _, _ => by cases h
  | [], _ :: _, _, _, h, _, _, _, _, _ => by cases h
  | _ :: _, [], _, _, h, _, _, _, _, _ => by cases h
  | _ :: _, _ :: _, [], _, _, h, _, _, _, _ => by cases h
  | _ :: _, _ :: _, _ :: _, [], _, _, h, _, _, _ => by cases h

theorem rectAll_some {N : Num F E} {m : By F E} {o : Nat × Nat} {base : List (Const F E)} {rs cs : List Int} : ∀ {cells : List (Nat × Nat)},
    rectAll N m o base rs cs cells = some () →
    ∀ c ∈ cells, ∃ b, m c = some b ∧ b.length = base.length ∧ rectOk N ((c.1 : Int) - o.1) ((c.2 : Int) - o.2) base rs cs b = some ()
  | [], _, c, hc => by cases hc
  | x :: cells, h, c, hc => by
    simp only [rectAll, bind, Option.bind_eq_some_iff] at h
    obtain ⟨b, h1, h⟩ := h
    split at h
    · cases h
    · rename_i hb
      simp only [Option.bind_eq_some_iff] at h
      obtain ⟨_, h2, h⟩ := h
      rcases List.mem_cons.1 hc with rfl | hc
      · exact ⟨b, h1, by omega, h2⟩
      · exact rectAll_some h c hc

end Verif.Template
