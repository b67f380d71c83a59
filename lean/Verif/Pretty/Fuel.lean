import Verif.Pretty.Model
import Mathlib.Tactic.SplitIfs

/-!
# The parser ends, and fuel does not change its result
-/

namespace Verif.Pretty

variable {α : Type}

theorem skipWs_length (ts : List (Tok α)) : (skipWs ts).length ≤ ts.length := by
  fun_induction skipWs ts
  · simp; omega
  · exact Nat.le_refl _

theorem skipWs_cons_length {ts : List (Tok α)} {t : Tok α} {rest : List (Tok α)} (h : skipWs ts = t :: rest) :
    rest.length < ts.length := by
  have := skipWs_length ts
  rw [h] at this
  simp only [List.length_cons] at this
  omega

/-- Enough fuel: the result is there, and a success consumed at least `k` tokens. -/
def Enough {β : Type} (k : Nat) (ts : List (Tok α)) (r : R α β) : Prop :=
  r = some none ∨ ∃ e rest, r = some (some (e, rest)) ∧ rest.length + k ≤ ts.length

theorem Enough.ok {β : Type} {k : Nat} {ts : List (Tok α)} {e : β} {rest : List (Tok α)} (h : rest.length + k ≤ ts.length) :
    Enough k ts (some (some (e, rest)) : R α β) := Or.inr ⟨e, rest, rfl, h⟩

theorem Enough.err {β : Type} {k : Nat} {ts : List (Tok α)} : Enough k ts (some none : R α β) := Or.inl rfl

theorem Enough.mono {β : Type} {k k' : Nat} {ts ts' : List (Tok α)} {r : R α β} (h : Enough k ts r) (hl : ts.length + k' ≤ ts'.length + k) :
    Enough k' ts' r := by
  rcases h with h | ⟨e, rest, h, hr⟩
  · exact Or.inl h
  · exact Or.inr ⟨e, rest, h, by omega⟩

/-- All the parser's functions have enough fuel at `n`. -/
structure Total (α : Type) (n : Nat) : Prop where
  bp : ∀ d m (ts : List (Tok α)), 6 * ts.length + 2 ≤ n → Enough 1 ts (parseBp n d m ts)
  loop : ∀ d m l (ts : List (Tok α)), 6 * ts.length + 1 ≤ n → Enough 0 ts (loop n d m l ts)
  pre : ∀ d (ts : List (Tok α)), 6 * ts.length + 1 ≤ n → Enough 1 ts (parsePrefix n d ts)
  args : ∀ c d (ts : List (Tok α)), 6 * ts.length + 4 ≤ n → Enough 1 ts (parseArgs n c d ts)
  argsLoop : ∀ c d e s acc (ts : List (Tok α)), 6 * ts.length + 3 ≤ n → Enough 1 ts (argsLoop n c d e s acc ts)
  arrLoop : ∀ d rows row (ts : List (Tok α)), 6 * ts.length + 1 ≤ n → Enough 0 ts (arrLoop n d rows row ts)

theorem total : ∀ n, Total α n
  | 0 => ⟨by intros; omega, by intros; omega, by intros; omega, by intros; omega, by intros; omega, by intros; omega⟩
  | n + 1 => by
    have ih := total n
    constructor
    · intro d m ts hn
      rw [parseBp]
      rcases ih.pre d ts (by omega) with h | ⟨e, rest, h, hr⟩
      · rw [h]; exact .err
      · rw [h]
        exact (ih.loop d m e rest (by omega)).mono (by omega)
    · intro d m l ts hn
      rw [loop]
      have hl := skipWs_length ts
      split
      · next ts' hs =>
        have := skipWs_cons_length hs
        rcases ih.args true d ts' (by omega) with h | ⟨e, rest, h, hr⟩
        · rw [h]; exact .err
        · rw [h]; exact (ih.loop d m _ rest (by omega)).mono (by omega)
      · next op rest hs =>
        have := skipWs_cons_length hs
        split
        · exact .ok (by simp; omega)
        · exact (ih.loop d m _ rest (by omega)).mono (by omega)
      · next op rest hs =>
        have := skipWs_cons_length hs
        split
        · exact .ok (by simp; omega)
        split
        · exact .ok (by simp; omega)
        · rcases ih.bp d op.nextMin rest (by omega) with h | ⟨e, rest', h, hr⟩
          · rw [h]; exact .err
          · rw [h]; exact (ih.loop d m _ rest' (by omega)).mono (by omega)
      · exact .ok (by omega)
    · intro d ts hn
      rw [parsePrefix]
      have hl := skipWs_length ts
      split
      · next op ts' hs =>
        have := skipWs_cons_length hs
        rcases ih.bp d 6 ts' (by omega) with h | ⟨e, rest, h, hr⟩
        · rw [h]; exact .err
        · rw [h]; exact .ok (by omega)
      · next a ts' hs =>
        have := skipWs_cons_length hs
        exact .ok (by omega)
      · next name ts' hs =>
        have := skipWs_cons_length hs
        rcases ih.args false d ts' (by omega) with h | ⟨e, rest, h, hr⟩
        · rw [h]; exact .err
        · rw [h]; exact .ok (by omega)
      · next ts' hs =>
        have := skipWs_cons_length hs
        rcases ih.args false d ts' (by omega) with h | ⟨e, rest, h, hr⟩
        · rw [h]; exact .err
        · rw [h]; exact .ok (by omega)
      · next ts' hs =>
        have := skipWs_cons_length hs
        rcases ih.bp d 0 ts' (by omega) with h | ⟨e, rest, h, hr⟩
        · rw [h]; exact .err
        · rw [h]
          simp only
          split
          · next ts'' hs' =>
            have := skipWs_cons_length hs'
            exact .ok (by omega)
          · exact .err
      · next ts' hs =>
        have := skipWs_cons_length hs
        have hl' := skipWs_length ts'
        split
        · next ts'' hs' =>
          have := skipWs_cons_length hs'
          exact .ok (by omega)
        · rcases ih.bp d 0 (skipWs ts') (by omega) with h | ⟨e, rest, h, hr⟩
          · rw [h]; exact .err
          · rw [h]
            simp only
            rcases ih.arrLoop d [] [e] rest (by omega) with h | ⟨e', rest', h, hr'⟩
            · rw [h]; exact .err
            · rw [h]; exact .ok (by omega)
      · exact .err
    · intro c d ts hn
      rw [parseArgs]
      have hl := skipWs_length ts
      split
      · next t ts' hs =>
        have := skipWs_cons_length hs
        split
        · exact .ok (by omega)
        · rw [← hs]
          exact (ih.argsLoop c _ true false [] (skipWs ts) (by omega)).mono (by omega)
      · next hs =>
        exact (ih.argsLoop c _ true false [] [] (by simp; omega)).mono (by simp)
    · intro c d ex s acc ts hn
      rw [argsLoop]
      have hl := skipWs_length ts
      split
      · exact .err
      · next t ts' hs =>
        have := skipWs_cons_length hs
        split
        · split
          · exact .ok (by omega)
          split
          · exact (ih.argsLoop c d true true _ ts' (by omega)).mono (by omega)
          · rw [← hs]
            rcases ih.bp d 0 (skipWs ts) (by omega) with h | ⟨e, rest, h, hr⟩
            · rw [h]; exact .err
            · rw [h]; exact (ih.argsLoop c d false true _ rest (by omega)).mono (by omega)
        · split
          · exact (ih.argsLoop c d true s _ ts' (by omega)).mono (by omega)
          split
          · exact .ok (by omega)
          · exact .err
    · intro d rows row ts hn
      rw [arrLoop]
      split
      · exact .ok (by simp)
      · next ts' hs =>
        have := skipWs_cons_length hs
        rcases ih.bp d 0 ts' (by omega) with h | ⟨e, rest, h, hr⟩
        · rw [h]; exact .err
        · rw [h]; exact (ih.arrLoop d _ _ rest (by omega)).mono (by omega)
      · next ts' hs =>
        have := skipWs_cons_length hs
        rcases ih.bp d 0 ts' (by omega) with h | ⟨e, rest, h, hr⟩
        · rw [h]; exact .err
        · rw [h]; exact (ih.arrLoop d _ _ rest (by omega)).mono (by omega)
      · next ts' hs =>
        have := skipWs_cons_length hs
        exact .ok (by omega)
      · exact .err

/-- C42: the parser ends on every token list: the model's fuel is never exhausted. -/
theorem parse_total (ts : List (Tok α)) : ∃ r, parse ts = some r := by
  unfold parse
  split
  · exact ⟨_, rfl⟩
  · next ts' _ =>
    rcases (total (fuel (skipWs ts))).bp false 0 (skipWs ts) (by unfold fuel; omega) with h | ⟨e, rest, h, _⟩
    · rw [h]; exact ⟨_, rfl⟩
    · rw [h]
      simp only
      split <;> exact ⟨_, rfl⟩

/-! ## Monotonicity -/

/-- The second has the first's result if the first has one. -/
def Le {β : Type} (x y : Option β) : Prop := ∀ r, x = some r → y = some r

theorem Le.refl {β : Type} (x : Option β) : Le x x := fun _ h => h

structure Mono (α : Type) (n : Nat) : Prop where
  bp : ∀ d m (ts : List (Tok α)), Le (parseBp n d m ts) (parseBp (n + 1) d m ts)
  loop : ∀ d m l (ts : List (Tok α)), Le (loop n d m l ts) (loop (n + 1) d m l ts)
  pre : ∀ d (ts : List (Tok α)), Le (parsePrefix n d ts) (parsePrefix (n + 1) d ts)
  args : ∀ c d (ts : List (Tok α)), Le (parseArgs n c d ts) (parseArgs (n + 1) c d ts)
  argsLoop : ∀ c d e s acc (ts : List (Tok α)), Le (argsLoop n c d e s acc ts) (argsLoop (n + 1) c d e s acc ts)
  arrLoop : ∀ d rows row (ts : List (Tok α)), Le (arrLoop n d rows row ts) (arrLoop (n + 1) d rows row ts)

theorem mono : ∀ n, Mono α n
  | 0 => ⟨fun _ _ _ _ h => by simp [parseBp] at h, fun _ _ _ _ _ h => by simp [Pretty.loop] at h, fun _ _ _ h => by simp [parsePrefix] at h,
      fun _ _ _ _ h => by simp [parseArgs] at h, fun _ _ _ _ _ _ _ h => by simp [Pretty.argsLoop] at h,
      fun _ _ _ _ _ h => by simp [Pretty.arrLoop] at h⟩
  | n + 1 => by
    have ih := mono n
    constructor
    · intro d m ts r h
      rw [parseBp] at h ⊢
      rcases hx : parsePrefix n d ts with _ | _ | ⟨e, rest⟩
      · simp [hx] at h
      · rw [hx] at h; rw [ih.pre d ts _ hx]; exact h
      · rw [hx] at h; rw [ih.pre d ts _ hx]; exact ih.loop _ _ _ _ _ h
    · intro d m l ts r h
      rw [loop] at h ⊢
      split at h
      · next ts' hs =>
        rcases hx : parseArgs n true d ts' with _ | _ | ⟨e, rest⟩
        · simp [hx] at h
        · rw [hx] at h; simp only [ih.args _ _ _ _ hx]; exact h
        · rw [hx] at h; simp only [ih.args _ _ _ _ hx]; exact ih.loop _ _ _ _ _ h
      · next op rest hs =>
        split at h
        · next hp => rw [if_pos hp]; exact h
        · next hp => rw [if_neg hp]; exact ih.loop _ _ _ _ _ h
      · next op rest hs =>
        split at h
        · next hp => rw [if_pos hp]; exact h
        · next hp =>
          rw [if_neg hp]
          split at h
          · next hq => rw [if_pos hq]; exact h
          · next hq =>
            rw [if_neg hq]
            rcases hx : parseBp n d op.nextMin rest with _ | _ | ⟨e, rest⟩
            · simp [hx] at h
            · rw [hx] at h; rw [ih.bp _ _ _ _ hx]; exact h
            · rw [hx] at h; rw [ih.bp _ _ _ _ hx]; exact ih.loop _ _ _ _ _ h
      · exact h
    · intro d ts r h
      rw [parsePrefix] at h ⊢
      split at h
      · next op ts' hs =>
        rcases hx : parseBp n d 6 ts' with _ | _ | ⟨e, rest⟩
        · simp [hx] at h
        · rw [hx] at h; rw [ih.bp _ _ _ _ hx]; exact h
        · rw [hx] at h; rw [ih.bp _ _ _ _ hx]; exact h
      · exact h
      · next name ts' hs =>
        rcases hx : parseArgs n false d ts' with _ | _ | ⟨e, rest⟩
        · simp [hx] at h
        · rw [hx] at h; rw [ih.args _ _ _ _ hx]; exact h
        · rw [hx] at h; rw [ih.args _ _ _ _ hx]; exact h
      · next ts' hs =>
        rcases hx : parseArgs n false d ts' with _ | _ | ⟨e, rest⟩
        · simp [hx] at h
        · rw [hx] at h; rw [ih.args _ _ _ _ hx]; exact h
        · rw [hx] at h; rw [ih.args _ _ _ _ hx]; exact h
      · next ts' hs =>
        rcases hx : parseBp n d 0 ts' with _ | _ | ⟨e, rest⟩
        · simp [hx] at h
        · rw [hx] at h; rw [ih.bp _ _ _ _ hx]; exact h
        · rw [hx] at h; rw [ih.bp _ _ _ _ hx]; exact h
      · next ts' hs =>
        split at h
        · exact h
        · rcases hx : parseBp n d 0 (skipWs ts') with _ | _ | ⟨e, rest⟩
          · simp [hx] at h
          · rw [hx] at h; rw [ih.bp _ _ _ _ hx]; exact h
          · rw [hx] at h; rw [ih.bp _ _ _ _ hx]
            simp only at h ⊢
            rcases hy : arrLoop n d [] [e] rest with _ | _ | ⟨e', rest'⟩
            · simp [hy] at h
            · rw [hy] at h; rw [ih.arrLoop _ _ _ _ _ hy]; exact h
            · rw [hy] at h; rw [ih.arrLoop _ _ _ _ _ hy]; exact h
      · exact h
    · intro c d ts r h
      rw [parseArgs] at h ⊢
      split at h
      · next t ts' hs =>
        split at h
        · next hc => rw [if_pos hc]; exact h
        · next hc => rw [if_neg hc]; exact ih.argsLoop _ _ _ _ _ _ _ h
      · exact ih.argsLoop _ _ _ _ _ _ _ h
    · intro c d ex s acc ts r h
      rw [argsLoop] at h ⊢
      split at h
      · exact h
      · next t ts' hs =>
        split at h
        · next he =>
          rw [if_pos he]
          split at h
          · next hc => rw [if_pos hc]; exact h
          · next hc =>
            rw [if_neg hc]
            split at h
            · next hp => rw [if_pos hp]; exact ih.argsLoop _ _ _ _ _ _ _ h
            · next hp =>
              rw [if_neg hp]
              rcases hx : parseBp n d 0 (t :: ts') with _ | _ | ⟨e, rest⟩
              · simp [hx] at h
              · rw [hx] at h; rw [ih.bp _ _ _ _ hx]; exact h
              · rw [hx] at h; rw [ih.bp _ _ _ _ hx]; exact ih.argsLoop _ _ _ _ _ _ _ h
        · next he =>
          rw [if_neg he]
          split at h
          · next hp => rw [if_pos hp]; exact ih.argsLoop _ _ _ _ _ _ _ h
          · next hp => rw [if_neg hp]; exact h
    · intro d rows row ts r h
      rw [arrLoop] at h ⊢
      split at h
      · exact h
      · next ts' hs =>
        rcases hx : parseBp n d 0 ts' with _ | _ | ⟨e, rest⟩
        · simp [hx] at h
        · rw [hx] at h; rw [ih.bp _ _ _ _ hx]; exact h
        · rw [hx] at h; rw [ih.bp _ _ _ _ hx]; exact ih.arrLoop _ _ _ _ _ h
      · next ts' hs =>
        rcases hx : parseBp n d 0 ts' with _ | _ | ⟨e, rest⟩
        · simp [hx] at h
        · rw [hx] at h; rw [ih.bp _ _ _ _ hx]; exact h
        · rw [hx] at h; rw [ih.bp _ _ _ _ hx]; exact ih.arrLoop _ _ _ _ _ h
      · exact h
      · exact h

end Verif.Pretty
