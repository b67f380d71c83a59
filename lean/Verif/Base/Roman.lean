import Verif.Base.Model

/-!
# Roman numerals
-/

namespace Verif.Base

/-- The largest digit of a text. -/
def top : List Char → Int
  | [] => 0
  | c :: cs => max ((romanDigit c).getD 0) (top cs)

/-- The number of a Roman numeral: a digit counts negatively if a larger one follows anywhere. -/
def numeral : List Char → Int
  | [] => 0
  | c :: cs => (if (romanDigit c).getD 0 < top cs then -(romanDigit c).getD 0 else (romanDigit c).getD 0) + numeral cs

theorem fold_eq (s : List Char) : s.reverse.foldl arabicStep (some (0, 0)) = if s.all (fun c => (romanDigit c).isSome) = true then some (numeral s, top s) else none := by
  rw [List.foldl_reverse]
  induction s with
  | nil => rfl
  | cons c cs ih =>
    rw [List.foldr_cons, ih]
    cases hr : romanDigit c with
    | none =>
      simp only [List.all_cons, hr, Option.isSome_none, Bool.false_and, Bool.false_eq_true, if_false]
      split <;> simp [arabicStep, hr]
    | some v =>
      simp only [List.all_cons, hr, Option.isSome_some, Bool.true_and, numeral, top, Option.getD_some]
      by_cases ha : cs.all (fun c => (romanDigit c).isSome) = true
      · rw [if_pos ha, if_pos ha]
        simp only [arabicStep, hr]
        by_cases hlt : v < top cs
        · rw [if_pos hlt, if_pos hlt, Int.max_eq_right (by omega), Int.sub_eq_add_neg, Int.add_comm]
        · rw [if_neg hlt, if_neg hlt, Int.max_eq_left (by omega), Int.add_comm]
      · rw [if_neg ha, if_neg ha]
        simp [arabicStep]

/-- `ARABIC` gives the number of a numeral of at most 255 characters, with a sign before it negated, and an error for all other texts. -/
theorem arabic_eq (s : List Char) (h : s.length ≤ 255) (hs : s.head? ≠ some '-') : arabic s = if s.all (fun c => (romanDigit c).isSome) = true then some (numeral s) else none := by
  unfold arabic
  rw [if_neg (by omega)]
  cases s with
  | nil => rfl
  | cons c cs =>
    have hne : c ≠ '-' := fun he => hs (by rw [he]; rfl)
    split
    · rename_i heq; cases heq
    · rename_i heq; injection heq with h1 _; exact absurd h1 hne
    · rename_i heq; injection heq with h1 _; exact absurd h1 hne
    · rw [fold_eq]
      split <;> rfl

theorem arabic_neg (s : List Char) (h : s.length ≤ 254) (hs : s ≠ []) : arabic ('-' :: s) = if s.all (fun c => (romanDigit c).isSome) = true then some (-(numeral s)) else none := by
  unfold arabic
  rw [if_neg (by simp; omega)]
  cases s with
  | nil => exact absurd rfl hs
  | cons c cs =>
    simp only
    rw [fold_eq]
    split <;> rfl

/-! ### The way back -/

theorem classic_split (n : Nat) : classic n = repeatGlyph ['M'] (n / 1000) ++ classic (n % 1000) := by
  have h1 : n % 1000 / 1000 = 0 := by omega
  have h2 : n % 1000 % 1000 = n % 1000 := by omega
  unfold classic table
  conv => lhs; unfold classicGo
  conv => rhs; rhs; unfold classicGo
  rw [h1, h2]
  rfl

theorem small_ok : ∀ m : Fin 1000, (classic m.1).all (fun c => (romanDigit c).isSome) = true ∧ numeral (classic m.1) = m.1 ∧ top (classic m.1) ≤ 1000 ∧ (classic m.1).length ≤ 12 := by decide +kernel

theorem thousands (k : Nat) (s : List Char) (ha : s.all (fun c => (romanDigit c).isSome) = true) (ht : top s ≤ 1000) :
    (repeatGlyph ['M'] k ++ s).all (fun c => (romanDigit c).isSome) = true ∧ numeral (repeatGlyph ['M'] k ++ s) = 1000 * k + numeral s ∧ top (repeatGlyph ['M'] k ++ s) ≤ 1000 ∧
    (repeatGlyph ['M'] k ++ s).length = k + s.length := by
  induction k with
  | zero => simp [repeatGlyph, ha, ht]
  | succ k ih =>
    obtain ⟨h1, h2, h3, h4⟩ := ih
    have hM : romanDigit 'M' = some 1000 := rfl
    have e : repeatGlyph ['M'] (k + 1) ++ s = 'M' :: (repeatGlyph ['M'] k ++ s) := rfl
    rw [e]
    refine ⟨by rw [List.all_cons, h1, hM]; rfl, ?_, ?_, by rw [List.length_cons, h4]; omega⟩
    · simp only [numeral, hM, Option.getD_some]
      rw [if_neg (by omega), h2]
      omega
    · simp only [top, hM, Option.getD_some]
      omega

/-- A classic numeral is one of its number, for every number. -/
theorem classic_numeral (n : Nat) : (classic n).all (fun c => (romanDigit c).isSome) = true ∧ numeral (classic n) = n ∧ (classic n).length ≤ n / 1000 + 12 := by
  obtain ⟨h1, h2, h3, h4⟩ := small_ok ⟨n % 1000, Nat.mod_lt _ (by decide)⟩
  simp only at h1 h2 h3 h4
  obtain ⟨t1, t2, _, t4⟩ := thousands (n / 1000) (classic (n % 1000)) h1 h3
  rw [classic_split]
  exact ⟨t1, by rw [t2, h2]; omega, by rw [t4]; omega⟩

/-- `ARABIC` reads what `ROMAN` writes in the classic form. -/
theorem arabic_roman {n : Int} {s : List Char} (h : roman n 0 = some s) : arabic s = some n := by
  unfold roman at h
  split at h
  · cases h
  · rename_i hr
    split at h
    · rename_i h0
      simp only [Option.some.injEq] at h
      subst h h0
      rfl
    · rw [if_neg (by decide)] at h
      simp only [Int.toNat_zero, applyForm, Option.some.injEq] at h
      subst h
      obtain ⟨h1, h2, h3⟩ := classic_numeral n.toNat
      rw [arabic_eq _ (by omega), if_pos h1, h2]
      · congr 1; omega
      · intro hh
        cases hc : classic n.toNat with
        | nil => rw [hc] at hh; cases hh
        | cons c cs =>
          rw [hc] at hh h1
          simp only [List.head?_cons, Option.some.injEq] at hh
          subst hh
          rw [List.all_cons, show romanDigit '-' = none from rfl] at h1
          cases h1

/-- `ROMAN` in the classic form is defined from 0 to 3999 and gives different texts for different numbers. -/
theorem roman_defined (n : Int) : (roman n 0).isSome = true ↔ 0 ≤ n ∧ n ≤ 3999 := by
  unfold roman
  split
  · rename_i h; simp only [Option.isSome_none, Bool.false_eq_true, false_iff]; exact h
  · rename_i h
    refine ⟨fun _ => by omega, fun _ => ?_⟩
    split
    · rfl
    · rw [if_neg (by decide)]; rfl

theorem roman_injective {n m : Int} {s : List Char} (hn : roman n 0 = some s) (hm : roman m 0 = some s) : n = m := by
  have h1 := arabic_roman hn
  rw [arabic_roman hm, Option.some.injEq] at h1
  exact h1.symm

/-- In the other forms the texts are wrong: 4 and 9 are written alike, so are 40 and 90, and 900 is read as 950. -/
theorem forms_wrong : roman 4 1 = roman 9 1 ∧ roman 40 1 = roman 90 1 ∧ (roman 900 1).bind arabic = some 950 ∧
    (∀ form ∈ [1, 2, 3, 4], ∃ n, 0 ≤ n ∧ n ≤ 3999 ∧ ∃ s, roman n form = some s ∧ arabic s ≠ some n) := by
  refine ⟨by decide +kernel, by decide +kernel, by decide +kernel, ?_⟩
  intro form hf
  refine ⟨9, by decide, by decide, ?_⟩
  simp only [List.mem_cons, List.not_mem_nil, or_false] at hf
  rcases hf with rfl | rfl | rfl | rfl <;> exact ⟨['I', 'V'], by decide +kernel, by decide +kernel⟩

example : roman 1999 0 = some "MCMXCIX".toList ∧ arabic "MCMXCIX".toList = some 1999 ∧ arabic "-IX".toList = some (-9) ∧ arabic "IIX".toList = some 8 ∧ arabic "IQ".toList = none := by decide +kernel

end Verif.Base
