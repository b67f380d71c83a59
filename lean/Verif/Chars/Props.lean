import Verif.Chars.Model
import Mathlib.Tactic.IntervalCases
import Mathlib.Tactic.Linarith

/-!
# CHAR and CODE, UNICHAR and UNICODE, ASC, CLEAN and REPT
-/

namespace Verif.Chars

/-! ## Codes -/

/-- The characters of Windows-1252, except that of code 0. -/
def Western (c : Nat) : Prop := (1 ≤ c ∧ c ≤ 127) ∨ (160 ≤ c ∧ c ≤ 255) ∨ ∃ k, (k, c) ∈ table

/-- The codes to which Windows-1252 gives no character. -/
def gaps : List Nat := [129, 141, 143, 144, 157]

theorem char_small : ∀ n : Fin 256, 1 ≤ n.val →
    ((∃ c, char n.val = some c ∧ codeOf c = n.val) ↔ n.val ∉ gaps) := by
  have key : ∀ n : Fin 256, 1 ≤ n.val → (((char n.val).map codeOf == some n.val) = true ↔ n.val ∉ gaps) := by
    decide +kernel
  intro n h
  rw [← key n h, beq_iff_eq, Option.map_eq_some_iff]

/-- **C113** (1): `CODE(CHAR(n))` is `n` for the codes from 1 to 255 that have a character, and for
no others; `CHAR` refuses all other numbers. -/
theorem code_char (n : Int) : (∃ c, char n = some c ∧ code [c] = some n.toNat) ↔ 1 ≤ n ∧ n ≤ 255 ∧ n.toNat ∉ gaps := by
  by_cases h : 1 ≤ n ∧ n ≤ 255
  · have hn : n = (n.toNat : Int) := by omega
    have := char_small ⟨n.toNat, by omega⟩ (show 1 ≤ n.toNat by omega)
    simp only [← hn] at this
    simp only [code, Option.some.injEq]
    rw [this]
    exact ⟨fun x => ⟨h.1, h.2, x⟩, fun x => x.2.2⟩
  · constructor
    · rintro ⟨c, hc, -⟩
      unfold char at hc
      rw [if_pos h] at hc
      cases hc
    · intro x
      exact absurd ⟨x.1, x.2.1⟩ h

theorem swap_mem : ∀ p ∈ table, codeOf p.2 = p.1 ∧ char p.1 = some p.2 := by decide

theorem codeOf_other {c : Nat} (h : ∀ k, (k, c) ∉ table) : codeOf c = c := by
  unfold codeOf
  rw [List.lookup_eq_none_iff.2]
  intro p hp
  obtain ⟨q, hq, rfl⟩ := List.mem_map.1 hp
  have : c ≠ q.2 := fun e => h q.1 (by rw [e]; exact hq)
  simpa using this

/-- **C113** (2): `CHAR(CODE(c))` is `c` for the characters of Windows-1252, and for no others. -/
theorem char_code (c : Nat) : char (codeOf c) = some c ↔ Western c := by
  by_cases ht : ∃ k, (k, c) ∈ table
  · obtain ⟨k, hk⟩ := ht
    have := swap_mem _ hk
    simp only at this
    rw [this.1, this.2]
    exact ⟨fun _ => Or.inr (Or.inr ⟨k, hk⟩), fun _ => rfl⟩
  · rw [codeOf_other (fun k hk => ht ⟨k, hk⟩)]
    have hw : Western c ↔ (1 ≤ c ∧ c ≤ 127) ∨ (160 ≤ c ∧ c ≤ 255) := by
      unfold Western
      constructor
      · rintro (h | h | h)
        · exact Or.inl h
        · exact Or.inr h
        · exact absurd h ht
      · rintro (h | h)
        · exact Or.inl h
        · exact Or.inr (Or.inl h)
    rw [hw]
    by_cases hc : c < 256
    · have key : ∀ n : Fin 256, char n.val = some n.val ↔ (1 ≤ n.val ∧ n.val ≤ 127) ∨ (160 ≤ n.val ∧ n.val ≤ 255) := by
        decide +kernel
      exact key ⟨c, hc⟩
    · constructor
      · intro h
        unfold char at h
        rw [if_pos (by omega)] at h
        cases h
      · omega

/-- **C113** (3): two characters share a code only if one is a control character and the other the
one that Windows-1252 puts in its place. -/
theorem code_shared {a b : Nat} (h : codeOf a = codeOf b) : a = b ∨ (a, b) ∈ table ∨ (b, a) ∈ table := by
  by_cases ha : ∃ k, (k, a) ∈ table
  · obtain ⟨k, hk⟩ := ha
    have h1 := swap_mem _ hk
    simp only at h1
    by_cases hb : ∃ j, (j, b) ∈ table
    · obtain ⟨j, hj⟩ := hb
      have h2 := swap_mem _ hj
      simp only at h2
      left
      rw [h1.1, h2.1] at h
      subst h
      exact Option.some.inj (h1.2.symm.trans h2.2)
    · right; right
      rw [h1.1, codeOf_other (fun j hj => hb ⟨j, hj⟩)] at h
      rw [← h]; exact hk
  · rw [codeOf_other (fun j hj => ha ⟨j, hj⟩)] at h
    by_cases hb : ∃ j, (j, b) ∈ table
    · obtain ⟨j, hj⟩ := hb
      have h2 := swap_mem _ hj
      simp only at h2
      right; left
      rw [h, h2.1]; exact hj
    · left
      rw [h, codeOf_other (fun j hj => hb ⟨j, hj⟩)]

/-- The code 129 comes back as 65533, and UNICHAR(128) has the code of the Euro sign. -/
theorem code_char_fails : char 129 = some 65533 ∧ code [65533] = some 65533 ∧ code [128] = code [0x20AC] := by decide

example : char 128 = some 0x20AC ∧ code [0x20AC, 65] = some 128 ∧ Western 0x20AC :=
  ⟨by decide, by decide, Or.inr (Or.inr ⟨0x80, by decide⟩)⟩

/-! ## Code points -/

/-- **C113** (4): `UNICHAR` gives a character exactly for the Unicode scalar values except 0, and it is
the character of that number. -/
theorem unichar_spec (n : Int) (c : Nat) : unichar n = some c ↔ n = c ∧ c ≠ 0 ∧ Scalar c := by
  unfold unichar toU32 Scalar
  simp only
  split
  · rename_i h
    simp only [reduceCtorEq, false_iff]
    omega
  · rename_i h
    rw [Option.some.injEq]
    omega

/-- **C113** (4): `UNICODE` and `UNICHAR` undo each other. -/
theorem unicode_unichar (n : Int) (c : Nat) (h : unichar n = some c) : unicode [c] = some n.toNat ∧ 0 ≤ n := by
  obtain ⟨h1, h2, h3⟩ := (unichar_spec n c).1 h
  refine ⟨?_, by omega⟩
  show some c = _
  congr 1
  omega

theorem unichar_unicode {c : Nat} {s : List Nat} (h0 : c ≠ 0) (hs : Scalar c) :
    ∃ k, unicode (c :: s) = some k ∧ unichar k = some c :=
  ⟨c, rfl, (unichar_spec _ _).2 ⟨rfl, h0, hs⟩⟩

example : unichar 0x20AC = some 0x20AC ∧ unichar 0xD800 = none ∧ unichar (-1) = none := by decide

/-! ## ASC -/

/-- The full-width form of a printable ASCII character. -/
def wide (c : Nat) : Nat := if c = 0x20 then 0x3000 else if 0x21 ≤ c ∧ c ≤ 0x7E then c + 0xFEE0 else c

/-- **C113** (5): `ASC` keeps the number of characters and their places, undoes the full-width forms,
and leaves everything else alone. -/
theorem asc_spec (s : List Nat) :
    (asc s).length = s.length ∧ (∀ i : Nat, (asc s)[i]? = s[i]?.map ascOne) ∧ asc (asc s) = asc s ∧
      ((∀ c ∈ s, c ≤ 0x7E) → asc s = s ∧ asc (s.map wide) = s) := by
  refine ⟨by simp [asc], fun i => by simp [asc], ?_, ?_⟩
  · unfold asc
    rw [List.map_map]
    refine List.map_congr_left fun c _ => ?_
    simp only [Function.comp, ascOne]
    split_ifs <;> omega
  · intro h
    unfold asc
    constructor
    · conv_rhs => rw [← List.map_id s]
      refine List.map_congr_left fun c hc => ?_
      have := h c hc
      simp only [ascOne, id]
      split_ifs <;> omega
    · rw [List.map_map]
      conv_rhs => rw [← List.map_id s]
      refine List.map_congr_left fun c hc => ?_
      have := h c hc
      simp only [Function.comp, ascOne, wide, id]
      split_ifs <;> omega

/-- Which characters `ASC` changes. -/
theorem asc_changes (c : Nat) : ascOne c ≠ c ↔ c = 0x3000 ∨ (0xFF01 ≤ c ∧ c ≤ 0xFF5E) := by
  unfold ascOne
  split_ifs <;> omega

example : asc [0xFF21, 0x3000, 0x30A2] = [65, 32, 0x30A2] := by decide

/-! ## CLEAN -/

/-- **C113** (6): `CLEAN` removes the characters below 32 and keeps the others in their order; cleaning
again, or cleaning parts, makes no difference. -/
theorem clean_spec (s t : List Nat) :
    (∀ c, (clean s).count c = if 32 ≤ c then s.count c else 0) ∧ (clean s).Sublist s ∧
      clean (clean s) = clean s ∧ clean (s ++ t) = clean s ++ clean t := by
  unfold clean
  refine ⟨?_, List.filter_sublist, by simp, by simp⟩
  intro c
  by_cases h : 32 ≤ c
  · rw [if_pos h, List.count_filter (by simpa using h)]
  · rw [if_neg h, List.count_eq_zero]
    intro hm
    exact h (by simpa using (List.mem_filter.1 hm).2)

example : clean [72, 0, 31, 32, 105] = [72, 32, 105] := by decide

/-! ## REPT -/

/-- **C113** (7): the text repeated, up to 32767 bytes; `#VALUE!` for negative numbers and longer
results, as long as their length is below `2^64`. -/
theorem rept_spec_partial {s : List Nat} {n : Int} (h : bytes s * n.toNat < 2 ^ 64) (hn : n < 2 ^ 63) :
    rept s n = if n < 0 ∨ 32767 < bytes s * n.toNat then .value else .text (List.replicate n.toNat s).flatten := by
  unfold rept
  by_cases h0 : n < 0
  · rw [if_pos (Or.inl h0)]
    simp only
    rw [if_pos (by unfold toI64; omega)]
  · have hk : toI64 n = n := by unfold toI64; omega
    simp only [hk]
    rw [if_neg h0, Nat.mod_eq_of_lt h]
    unfold strRepeat
    by_cases hl : 32767 < bytes s * n.toNat
    · rw [if_pos hl, if_pos (Or.inr hl)]
    · rw [if_neg hl, if_neg (by omega), if_neg (by omega)]

theorem width_pos (c : Nat) : 1 ≤ width c := by unfold width; split_ifs <;> omega

theorem length_le_bytes (s : List Nat) : s.length ≤ bytes s := by
  induction s with
  | nil => exact Nat.zero_le _
  | cons c s ih =>
    have := width_pos c
    simp only [bytes, List.map_cons, List.sum_cons, List.length_cons] at ih ⊢
    omega

theorem flatten_length (s : List Nat) (k : Nat) : (List.replicate k s).flatten.length = s.length * k := by
  induction k with
  | zero => simp
  | succ k ih => rw [List.replicate_succ, List.flatten_cons, List.length_append, ih, Nat.mul_succ]; omega

theorem flatten_get (s : List Nat) (k i : Nat) (h : i < s.length * k) :
    (List.replicate k s).flatten[i]? = s[i % s.length]? := by
  induction k generalizing i with
  | zero => simp at h
  | succ k ih =>
    rw [List.replicate_succ, List.flatten_cons]
    by_cases hi : i < s.length
    · rw [List.getElem?_append_left hi, Nat.mod_eq_of_lt hi]
    · rw [List.getElem?_append_right (by omega), ih (i - s.length) (by rw [Nat.mul_succ] at h; omega)]
      congr 1
      exact (Nat.mod_eq_sub_mod (by omega)).symm

/-- **C113** (8): a text that `REPT` returns has the length asked for, at most 32767, and at every
place the character of the text that the repetition puts there. -/
theorem rept_text {s r : List Nat} {n : Int} (h : rept s n = .text r) :
    r.length = s.length * (toI64 n).toNat ∧ r.length ≤ 32767 ∧ ∀ i < r.length, r[i]? = s[i % s.length]? := by
  unfold rept at h
  simp only at h
  split at h
  · cases h
  · split at h
    · cases h
    · rename_i h1
      unfold strRepeat at h
      split at h
      · cases h
      · rename_i h2
        rw [Nat.mod_eq_of_lt (by omega)] at h1
        cases h
        have hl := flatten_length s (toI64 n).toNat
        refine ⟨hl, ?_, ?_⟩
        · rw [hl]
          have := Nat.mul_le_mul_right (toI64 n).toNat (length_le_bytes s)
          omega
        · intro i hi
          rw [hl] at hi
          exact flatten_get s _ i hi

/-- **C113** (9): when `REPT` does not return: the length passes `2^64` and what is left of it is small. -/
theorem rept_panics {s : List Nat} {n : Int} :
    rept s n = .panic ↔ 0 ≤ n ∧ 2 ^ 64 ≤ bytes s * (toI64 n).toNat ∧ (bytes s * (toI64 n).toNat) % 2 ^ 64 ≤ 32767 := by
  have hneg : toI64 n < 0 ↔ n < 0 := by unfold toI64; omega
  unfold rept strRepeat
  simp only [hneg]
  generalize bytes s * (toI64 n).toNat = B at *
  by_cases h0 : n < 0
  · rw [if_pos h0]; simp only [reduceCtorEq, false_iff]; omega
  · rw [if_neg h0]
    by_cases h1 : 32767 < B % 2 ^ 64
    · rw [if_pos h1]; simp only [reduceCtorEq, false_iff]; omega
    · rw [if_neg h1]
      by_cases h2 : 2 ^ 64 ≤ B
      · rw [if_pos h2]; simp only [true_iff]; omega
      · rw [if_neg h2]; simp only [reduceCtorEq, false_iff]; omega

/-- Four letters repeated `2^62` times. -/
theorem rept_panic_fails : rept [97, 98, 99, 100] (2 ^ 62) = .panic := by
  rw [rept_panics]
  decide

/-- The limit counts bytes: 20000 times é is refused, though it has fewer than 32767 characters. -/
theorem rept_bytes_fails : rept [233] 20000 = .value ∧ [233].length * 20000 ≤ 32767 := by decide

example : rept [97, 98] 3 = .text [97, 98, 97, 98, 97, 98] ∧ rept [97] (-1) = .value := by decide

end Verif.Chars
