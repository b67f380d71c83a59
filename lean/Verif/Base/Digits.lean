import Verif.Base.Model
import Mathlib.Tactic.Ring

/-!
# Digits and their values
-/

namespace Verif.Base

/-- The digits of a base. -/
def Valid (b : Nat) (s : List Char) : Prop := ∀ c ∈ s, (dig b c).isSome = true

/-- The value of a text: every digit counts `b` to the power of the number of characters after it. -/
def value (b : Nat) : List Char → Nat
  | [] => 0
  | c :: cs => (dig b c).getD 0 * b ^ cs.length + value b cs

theorem dig_chr {b d : Nat} (h : d < b) (hb : b ≤ 36) : dig b (chr d) = some d := by
  have h1 : ∀ d : Fin 36, ∀ b : Fin 37, d.val < b.val → dig b.val (chr d.val) = some d.val := by decide +kernel
  exact h1 ⟨d, by omega⟩ ⟨b, by omega⟩ h

theorem dig_lt {b : Nat} {c : Char} {d : Nat} (h : dig b c = some d) : d < b := by
  unfold dig at h
  simp only at h
  split at h
  · split at h
    · cases h
      assumption
    · cases h
  · cases h

theorem dig_getD_lt {b : Nat} (hb : 0 < b) (c : Char) : (dig b c).getD 0 < b := by
  cases h : dig b c with
  | none => exact hb
  | some d => exact dig_lt h

theorem value_lt {b : Nat} (hb : 0 < b) : ∀ s : List Char, value b s < b ^ s.length := by
  intro s
  induction s with
  | nil => simp [value]
  | cons c s ih =>
    have h1 := dig_getD_lt hb c
    simp only [value, List.length_cons, Nat.pow_succ]
    have h2 : ((dig b c).getD 0 + 1) * b ^ s.length ≤ b * b ^ s.length := Nat.mul_le_mul_right _ h1
    have h3 : ((dig b c).getD 0 + 1) * b ^ s.length = (dig b c).getD 0 * b ^ s.length + b ^ s.length := by ring
    have h4 : b ^ s.length * b = b * b ^ s.length := by ring
    omega

theorem value_append (b : Nat) (s t : List Char) : value b (s ++ t) = value b s * b ^ t.length + value b t := by
  induction s with
  | nil => simp [value]
  | cons c s ih =>
    simp only [List.cons_append, value, ih, List.length_append, Nat.pow_add]
    ring

theorem parse_value {b limit : Nat} : ∀ (s : List Char) (acc : Nat), Valid b s → 0 < b → parseGo b limit s acc = if acc * b ^ s.length + value b s ≤ limit ∨ s = [] then some (acc * b ^ s.length + value b s) else none := by
  intro s
  induction s with
  | nil => intro acc _ _; simp [parseGo, value]
  | cons c s ih =>
    intro acc hv hb
    have hc := hv c (by simp)
    obtain ⟨d, hd⟩ := Option.isSome_iff_exists.1 hc
    have hs : Valid b s := fun x hx => hv x (by simp [hx])
    simp only [parseGo, hd, value, Option.getD_some, List.length_cons, reduceCtorEq, or_false]
    have e : (acc * b + d) * b ^ s.length + value b s = acc * b ^ (s.length + 1) + (d * b ^ s.length + value b s) := by
      rw [Nat.pow_succ]
      ring
    by_cases h : acc * b + d ≤ limit
    · rw [if_pos h, ih _ hs hb, e]
      by_cases hn : s = []
      · subst hn
        simp only [List.length_nil, Nat.pow_zero, Nat.mul_one, value, Nat.add_zero, Nat.zero_add, Nat.pow_one] at h ⊢
        simp [h]
      · simp [hn]
    · rw [if_neg h, if_neg]
      intro h2
      have h3 : (acc * b + d) * 1 ≤ (acc * b + d) * b ^ s.length := Nat.mul_le_mul_left _ (Nat.one_le_pow _ _ hb)
      omega

theorem valid_head {b : Nat} {c : Char} {s : List Char} (h : Valid b (c :: s)) : c ≠ '+' ∧ c ≠ '-' ∧ c.isWhitespace = false := by
  have hc := h c (by simp)
  have key : (c.toNat = 43 ∨ c.toNat = 45 ∨ c.toNat = 32 ∨ c.toNat = 9 ∨ c.toNat = 13 ∨ c.toNat = 10) → False := by
    intro hn
    unfold dig at hc
    simp only at hc
    rw [if_neg (by omega), if_neg (by omega), if_neg (by omega)] at hc
    simp at hc
  refine ⟨fun he => key (by subst he; simp), fun he => key (by subst he; simp), ?_⟩
  cases hw : c.isWhitespace with
  | false => rfl
  | true =>
    exfalso
    apply key
    simp only [Char.isWhitespace, Bool.or_eq_true, decide_eq_true_eq, beq_iff_eq] at hw
    rcases hw with ((h | h) | h) | h <;> subst h <;> simp

theorem fromStr_valid {b : Nat} (hb : 0 < b) {s : List Char} (hs : Valid b s) (hn : s ≠ []) : fromStrRadix b s = if value b s ≤ maxI then some (value b s : Int) else none := by
  match s, hs, hn with
  | c :: cs, hs, _ =>
    obtain ⟨h1, h2, _⟩ := valid_head hs
    have : fromStrRadix b (c :: cs) = (parseGo b maxI (c :: cs) 0).map fun n => (n : Int) := by
      unfold fromStrRadix
      split
      · rename_i h; cases h
      · rename_i h; cases h; exact absurd rfl h1
      · rename_i h; cases h; exact absurd rfl h2
      · rfl
    rw [this, parse_value _ _ hs hb]
    simp only [Nat.zero_mul, Nat.zero_add, reduceCtorEq, or_false]
    split <;> rfl

/-- What `digitsGo` puts before the characters collected. -/
theorem digitsGo_spec {b : Nat} (hb : 2 ≤ b) (hb' : b ≤ 36) : ∀ (f n : Nat) (acc : List Char), n < b ^ f →
    ∃ ds, digitsGo b f n acc = ds ++ acc ∧ Valid b ds ∧ value b ds = n ∧ (0 < n → ds ≠ [] ∧ b ^ (ds.length - 1) ≤ n) ∧ (n = 0 → ds = []) := by
  intro f
  induction f with
  | zero =>
    intro n acc h
    have : n = 0 := by simpa using h
    subst this
    exact ⟨[], rfl, fun c hc => by simp at hc, rfl, fun h => absurd h (by omega), fun _ => rfl⟩
  | succ f ih =>
    intro n acc h
    simp only [digitsGo]
    by_cases hn : n = 0
    · rw [if_pos hn]
      subst hn
      exact ⟨[], rfl, fun c hc => by simp at hc, rfl, fun h => absurd h (by omega), fun _ => rfl⟩
    · rw [if_neg hn]
      have hlt : n / b < b ^ f := by
        rw [Nat.div_lt_iff_lt_mul (by omega), ← Nat.pow_succ]
        exact h
      obtain ⟨ds, h1, h2, h3, h4, h5⟩ := ih (n / b) (chr (n % b) :: acc) hlt
      have hm : n % b < b := Nat.mod_lt _ (by omega)
      have hc := dig_chr hm hb'
      refine ⟨ds ++ [chr (n % b)], by simp [h1], ?_, ?_, ?_, fun h => absurd h hn⟩
      · intro c hc'
        rcases List.mem_append.1 hc' with h | h
        · exact h2 c h
        · simp only [List.mem_singleton] at h
          rw [h, hc]
          rfl
      · rw [value_append, h3]
        simp only [value, hc, List.length_singleton, List.length_nil, Option.getD_some, Nat.pow_zero, Nat.pow_one, Nat.mul_one, Nat.add_zero]
        rw [Nat.mul_comm]
        exact Nat.div_add_mod n b
      · intro _
        refine ⟨by simp, ?_⟩
        simp only [List.length_append, List.length_singleton, Nat.add_sub_cancel]
        by_cases hz : n / b = 0
        · rw [h5 hz]
          simp
          omega
        · obtain ⟨hne, hp⟩ := h4 (by omega)
          have hl : ds.length = ds.length - 1 + 1 := by
            cases ds with
            | nil => exact absurd rfl hne
            | cons _ _ => simp
          rw [hl, Nat.pow_succ]
          calc b ^ (ds.length - 1) * b ≤ n / b * b := Nat.mul_le_mul_right _ hp
            _ ≤ n := Nat.div_mul_le_self n b

/-- The text of a number: digits, with its value, and without needless zeros. -/
theorem fmt_spec {b n : Nat} (hb : 2 ≤ b) (hb' : b ≤ 36) (hn : n < 2 ^ 64) :
    Valid b (fmt b n) ∧ value b (fmt b n) = n ∧ fmt b n ≠ [] ∧ (0 < n → b ^ ((fmt b n).length - 1) ≤ n) ∧ (n = 0 → (fmt b n).length = 1) := by
  unfold fmt
  by_cases h : n = 0
  · rw [if_pos h]
    subst h
    have h0 : dig b '0' = some 0 := dig_chr (d := 0) (by omega) hb'
    refine ⟨?_, by simp [value, h0], by simp, fun h => absurd h (by omega), fun _ => rfl⟩
    intro c hc
    simp only [List.mem_singleton] at hc
    rw [hc, h0]
    rfl
  · rw [if_neg h]
    have hlt : n < b ^ 64 := Nat.lt_of_lt_of_le hn (Nat.pow_le_pow_left hb 64)
    obtain ⟨ds, h1, h2, h3, h4, _⟩ := digitsGo_spec hb hb' 64 n [] hlt
    rw [h1, List.append_nil]
    exact ⟨h2, h3, (h4 (by omega)).1, fun h => (h4 h).2, fun h' => absurd h' h⟩

theorem pad_spec {b : Nat} (hb : 2 ≤ b) (hb' : b ≤ 36) (w : Nat) {s : List Char} (hs : Valid b s) :
    Valid b (pad w s) ∧ value b (pad w s) = value b s ∧ (pad w s).length = max w s.length ∧ (s ≠ [] → pad w s ≠ []) := by
  have h0 : dig b '0' = some 0 := dig_chr (d := 0) (by omega) hb'
  have hz : ∀ k, value b (List.replicate k '0') = 0 := by
    intro k
    induction k with
    | zero => rfl
    | succ k ih => simp [List.replicate_succ, value, h0, ih]
  unfold pad
  refine ⟨?_, by rw [value_append, hz]; simp, by simp; omega, fun h => by simp [h]⟩
  intro c hc
  rcases List.mem_append.1 hc with h | h
  · rw [(List.mem_replicate.1 h).2, h0]
    rfl
  · exact hs c h

end Verif.Base
