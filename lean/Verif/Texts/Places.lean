import Verif.Texts.Model
import Mathlib.Data.List.SplitOn
import Mathlib.Data.List.Basic
import Mathlib.Data.Nat.Find

/-!
# Functions that count characters
-/

namespace Verif.Texts

/-! ### LEFT, RIGHT, MID, REPLACE -/

/-- `LEFT`: the first `n` characters, or all if there are fewer. -/
theorem left_spec (s : Str) {n : Int} (h : 0 ≤ n) : left s n = .text (s.take n.toNat) := by
  unfold left
  rw [if_neg (by omega)]
  congr 1
  rcases Nat.le_total n.toNat s.length with h | h
  · rw [Nat.min_eq_left h]
  · rw [Nat.min_eq_right h, List.take_length, List.take_of_length_le h]

/-- `RIGHT`: the last `n` characters, or all if there are fewer. -/
theorem right_spec (s : Str) {n : Int} (h : 0 ≤ n) :
    ∃ a b, s = a ++ b ∧ right s n = .text b ∧ b.length = min n.toNat s.length := by
  refine ⟨s.take (s.length - n.toNat), s.drop (s.length - n.toNat), (List.take_append_drop ..).symm, ?_, ?_⟩
  · unfold right
    rw [if_neg (by omega)]
  · rw [List.length_drop]
    omega

/-- A text cut in two by `LEFT` and `RIGHT`. -/
theorem left_right (s : Str) {n : Int} (h : 0 ≤ n) (h' : n ≤ len s) : ∃ a b, left s n = .text a ∧ right s (len s - n) = .text b ∧ a ++ b = s := by
  unfold len at *
  refine ⟨s.take n.toNat, s.drop n.toNat, left_spec s h, ?_, List.take_append_drop ..⟩
  unfold right
  rw [if_neg (by omega), show s.length - (s.length - n : Int).toNat = n.toNat by omega]

/-- `MID`: `count` characters from the place `start`, or those that there are. -/
theorem mid_spec (s : Str) {start count : Int} (h : 1 ≤ start) (h' : 0 ≤ count) : mid s start count = .text ((s.drop (start.toNat - 1)).take count.toNat) := by
  unfold mid
  rw [if_neg (by omega)]
  split
  · rw [List.drop_eq_nil_of_le (by omega), List.take_nil]
  · congr 1
    have e : (start - 1 + count).toNat = start.toNat - 1 + count.toNat := by omega
    rw [e, List.drop_take]
    rcases Nat.le_total (start.toNat - 1 + count.toNat) s.length with hl | hl
    · rw [Nat.min_eq_left hl, Nat.add_sub_cancel_left]
    · rw [Nat.min_eq_right hl, List.take_of_length_le (by simp), List.take_of_length_le (by rw [List.length_drop]; omega)]

/-- `REPLACE` at a place of the text or right behind it: the characters from `start` on are replaced. -/
theorem replace_spec_partial (s : Str) {start num : Int} (new : Str) (h : 1 ≤ start) (hs : start ≤ len s + 1) (h' : 0 ≤ num) :
    replace s start num new = .text (s.take (start.toNat - 1) ++ new ++ s.drop (start.toNat - 1 + num.toNat)) := by
  unfold replace len at *
  rw [if_neg (by omega), if_neg (by omega)]
  rcases Nat.le_total (start.toNat - 1 + num.toNat) s.length with hl | hl
  · rw [Nat.min_eq_left hl]
  · rw [Nat.min_eq_right hl, List.drop_length, List.drop_eq_nil_of_le hl]

/-- Behind the text nothing is inserted: the text of `REPLACE("abc",10,1,"x")` is `abc`.  Excel gives `abcx`. -/
theorem replace_beyond (s new : Str) {start num : Int} (hs : len s + 1 < start) (h' : 0 ≤ num) : replace s start num new = .text s := by
  unfold replace len at *
  rw [if_neg (by omega), if_pos (by omega)]

/-- Negative numbers and the place 0. -/
theorem places_bad (s new : Str) {start n : Int} (h : n < 0 ∨ start < 1) :
    mid s start n = .badValue ∧ replace s start n new = .badValue ∧ (n < 0 → left s n = .badValue ∧ right s n = .badValue) := by
  refine ⟨?_, ?_, fun hn => ⟨?_, ?_⟩⟩
  · unfold mid
    rw [if_pos (by omega)]
  · unfold replace
    rw [if_pos (by omega)]
  · unfold left
    rw [if_pos hn]
  · unfold right
    rw [if_pos hn]

example : mid "hello".toList 2 3 = .text "ell".toList ∧ replace "hello".toList 2 2 "YY".toList = .text "hYYlo".toList ∧ right "hello".toList 2 = .text "lo".toList := by
  decide +kernel

/-! ### FIND -/

/-- The text `d` stands in `s` behind the first `i` characters. -/
def At (d s : Str) (i : Nat) : Prop := d <+: s.drop i

theorem at_iff (d s : Str) (i : Nat) : (s.drop i).take d.length = d ↔ At d s i := by
  rw [At, List.prefix_iff_eq_take]
  exact eq_comm

theorem at_le {d s : Str} {i : Nat} (hd : d ≠ []) (h : At d s i) : i + d.length ≤ s.length := by
  have h1 := h.length_le
  rw [List.length_drop] at h1
  have := List.length_pos_iff.2 hd
  omega

theorem findFrom_iff (needle hay : Str) (n i k : Nat) :
    findFrom needle hay n i = some k ↔ i ≤ k ∧ k < i + n ∧ At needle hay k ∧ ∀ j, i ≤ j → j < k → ¬ At needle hay j := by
  induction n generalizing i with
  | zero =>
    constructor
    · intro h
      cases h
    · rintro ⟨h1, h2, _⟩
      omega
  | succ n ih =>
    rw [findFrom]
    by_cases h0 : At needle hay i
    · rw [if_pos ((at_iff ..).2 h0)]
      constructor
      · intro h
        cases h
        exact ⟨Nat.le_refl _, by omega, h0, fun j h1 h2 => by omega⟩
      · rintro ⟨h1, h2, h3, h4⟩
        rcases Nat.lt_or_ge i k with hk | hk
        · exact absurd h0 (h4 i (Nat.le_refl _) hk)
        · rw [show i = k by omega]
    · rw [if_neg (fun h => h0 ((at_iff ..).1 h)), ih]
      constructor
      · rintro ⟨h1, h2, h3, h4⟩
        refine ⟨by omega, by omega, h3, fun j h5 h6 => ?_⟩
        rcases Nat.lt_or_ge i j with hj | hj
        · exact h4 j hj h6
        · rwa [show j = i by omega]
      · rintro ⟨h1, h2, h3, h4⟩
        have : i ≠ k := by
          rintro rfl
          exact h0 h3
        exact ⟨by omega, by omega, h3, fun j h5 h6 => h4 j (by omega) h6⟩

theorem charFind_iff {hay needle : Str} (hd : needle ≠ []) (start k : Nat) :
    charFind hay needle start = some k ↔ start ≤ k ∧ At needle hay k ∧ ∀ j, start ≤ j → j < k → ¬ At needle hay j := by
  have hpos := List.length_pos_iff.2 hd
  unfold charFind
  rw [if_neg hd]
  split
  · constructor
    · intro h
      cases h
    · rintro ⟨h1, h2, _⟩
      have := at_le hd h2
      omega
  · rw [findFrom_iff]
    constructor
    · rintro ⟨h1, _, h3, h4⟩
      exact ⟨h1, h3, h4⟩
    · rintro ⟨h1, h3, h4⟩
      have := at_le hd h3
      exact ⟨h1, by omega, h3, h4⟩

/-- `FIND` gives the first place from `start` on where the text stands. -/
theorem find_iff {needle : Str} (hay : Str) (hd : needle ≠ []) {start : Int} (h : 1 ≤ start) (k : Nat) :
    find needle hay start = .int k ↔ start ≤ k ∧ At needle hay (k - 1) ∧ ∀ j : Nat, start ≤ j → j < k → ¬ At needle hay (j - 1) := by
  unfold find
  rw [if_neg (by omega), if_neg hd]
  constructor
  · intro hf
    split at hf
    · rename_i i hi
      cases hf
      obtain ⟨h1, h2, h3⟩ := (charFind_iff hd _ _).1 hi
      exact ⟨by omega, by simpa using h2, fun j h4 h5 => h3 (j - 1) (by omega) (by omega)⟩
    · cases hf
  · rintro ⟨h1, h2, h3⟩
    have : charFind hay needle (start - 1).toNat = some (k - 1) := by
      rw [charFind_iff hd]
      refine ⟨by omega, h2, fun j h4 h5 => ?_⟩
      have := h3 (j + 1) (by omega) (by omega)
      simpa using this
    rw [this]
    simp only [Out.int.injEq]
    omega

/-- `FIND` gives `#VALUE!` if the text stands nowhere from `start` on. -/
theorem find_none {needle : Str} (hay : Str) (hd : needle ≠ []) {start : Int} (h : 1 ≤ start) :
    find needle hay start = .badValue ↔ ∀ j : Nat, start ≤ j → ¬ At needle hay (j - 1) := by
  constructor
  · intro hf j hj ha
    have hex : ∃ k : Nat, start ≤ k ∧ At needle hay (k - 1) := ⟨j, hj, ha⟩
    classical
    have := (find_iff hay hd h (Nat.find hex)).2 ⟨(Nat.find_spec hex).1, (Nat.find_spec hex).2, fun i h1 h2 h3 => Nat.find_min hex h2 ⟨h1, h3⟩⟩
    rw [hf] at this
    cases this
  · intro hno
    have h0 : ∀ k, charFind hay needle (start - 1).toNat ≠ some k := by
      intro k hk
      obtain ⟨h1, h2, _⟩ := (charFind_iff hd _ _).1 hk
      have := hno (k + 1) (by omega)
      exact this (by simpa using h2)
    unfold find
    rw [if_neg (by omega), if_neg hd]
    cases hc : charFind hay needle (start - 1).toNat with
    | none => rfl
    | some k => exact absurd hc (h0 k)

/-- At the place that `FIND` gives, `MID` finds the text. -/
theorem find_mid {needle hay : Str} (hd : needle ≠ []) {start : Int} (h : 1 ≤ start) {k : Nat} (hf : find needle hay start = .int k) :
    mid hay k (len needle) = .text needle := by
  obtain ⟨h1, h2, _⟩ := (find_iff hay hd h k).1 hf
  rw [mid_spec hay (by omega) (by unfold len; omega)]
  congr 1
  exact (at_iff ..).2 (by simpa using h2)

/-- The empty text is found at place 1, wherever the search begins.  Excel gives the place where it begins. -/
theorem find_empty (hay : Str) {start : Int} (h : 1 ≤ start) : find [] hay start = .int 1 := by
  unfold find
  rw [if_neg (by omega), if_pos rfl]

example : find "l".toList "hello world".toList 5 = .int 10 ∧ find "ab".toList "aab".toList 1 = .int 2 ∧ find "x".toList "abc".toList 1 = .badValue := by decide +kernel

/-! ### SEARCH -/

/-- A text fits a pattern: `*` stands for any text, `?` for any character, every other character for itself. -/
inductive Fits : Str → Str → Prop where
  | nil : Fits [] []
  | star (u : Str) {p t : Str} : Fits p t → Fits ('*' :: p) (u ++ t)
  | any (c : Char) {p t : Str} : Fits p t → Fits ('?' :: p) (c :: t)
  | char {c : Char} {p t : Str} : c ≠ '*' → c ≠ '?' → Fits p t → Fits (c :: p) (c :: t)

theorem wild_iff (p t : Str) : wild p t = true ↔ ∃ u v, t = u ++ v ∧ Fits p u := by
  induction p, t using wild.induct with
  | case1 t =>
    rw [wild]
    exact ⟨fun _ => ⟨[], t, rfl, .nil⟩, fun _ => rfl⟩
  | case2 p t ih =>
    rw [wild, List.any_eq_true]
    constructor
    · rintro ⟨i, hi, hw⟩
      obtain ⟨u, v, h1, h2⟩ := (ih i).1 hw
      exact ⟨t.take i ++ u, v, by rw [List.append_assoc, ← h1, List.take_append_drop], .star _ h2⟩
    · rintro ⟨u, v, rfl, hf⟩
      cases hf with
      | @star a _ b hb =>
        refine ⟨a.length, by simp; omega, (ih _).2 ⟨b, v, ?_, hb⟩⟩
        rw [List.append_assoc, List.drop_left]
      | char h => exact absurd rfl h
  | case3 p =>
    rw [wild]
    constructor
    · intro h
      cases h
    · rintro ⟨u, v, h, hf⟩
      obtain ⟨rfl, rfl⟩ := List.append_eq_nil_iff.1 h.symm
      cases hf
  | case4 p c t ih =>
    rw [wild, ih]
    constructor
    · rintro ⟨u, v, rfl, hf⟩
      exact ⟨c :: u, v, rfl, .any c hf⟩
    · rintro ⟨u, v, h, hf⟩
      cases hf with
      | any d hf =>
        cases h
        exact ⟨_, v, rfl, hf⟩
      | char _ hq => exact absurd rfl hq
  | case5 c p h1 h2 =>
    rw [wild]
    · constructor
      · intro h
        cases h
      · rintro ⟨u, v, h, hf⟩
        obtain ⟨hu, _⟩ := List.append_eq_nil_iff.1 h.symm
        cases hf with
        | star => exact absurd rfl h1
        | any => cases hu
        | char => cases hu
    · exact h1
    · exact h2
  | case6 c p d t h1 h2 ih =>
    rw [wild, Bool.and_eq_true, decide_eq_true_iff, ih]
    · constructor
      · rintro ⟨rfl, u, v, rfl, hf⟩
        exact ⟨d :: u, v, rfl, .char h1 h2 hf⟩
      · rintro ⟨u, v, h, hf⟩
        cases hf with
        | star => exact absurd rfl h1
        | any => exact absurd rfl h2
        | char _ _ hf =>
          cases h
          exact ⟨rfl, _, v, rfl, hf⟩
    · exact h1
    · exact h2

/-- A pattern without `*` and `?` fits itself only. -/
theorem fits_plain {p : Str} (h : ¬ ('*' ∈ p ∨ '?' ∈ p)) (u : Str) : Fits p u ↔ u = p := by
  induction p generalizing u with
  | nil =>
    constructor
    · intro h
      cases h
      rfl
    · rintro rfl
      exact .nil
  | cons c p ih =>
    have h1 : c ≠ '*' := by
      rintro rfl
      exact h (.inl (List.mem_cons_self ..))
    have h2 : c ≠ '?' := by
      rintro rfl
      exact h (.inr (List.mem_cons_self ..))
    have h3 : ¬ ('*' ∈ p ∨ '?' ∈ p) := by
      rintro (k | k)
      · exact h (.inl (List.mem_cons_of_mem _ k))
      · exact h (.inr (List.mem_cons_of_mem _ k))
    constructor
    · intro hf
      cases hf with
      | star => exact absurd rfl h1
      | any => exact absurd rfl h2
      | char _ _ hf => rw [(ih h3 _).1 hf]
    · rintro rfl
      exact .char h1 h2 ((ih h3 _).2 rfl)

/-- From the place behind the first `i` characters on, the text begins with one that fits. -/
def FitsAt (p s : Str) (i : Nat) : Prop := i ≤ s.length ∧ ∃ u v, s.drop i = u ++ v ∧ Fits p u

theorem wildFrom_iff (p hay : Str) (n i k : Nat) :
    wildFrom p hay n i = some k ↔ i ≤ k ∧ k < i + n ∧ wild p (hay.drop k) = true ∧ ∀ j, i ≤ j → j < k → wild p (hay.drop j) = false := by
  induction n generalizing i with
  | zero =>
    constructor
    · intro h
      cases h
    · rintro ⟨h1, h2, _⟩
      omega
  | succ n ih =>
    rw [wildFrom]
    cases h0 : wild p (hay.drop i)
    · simp only [Bool.false_eq_true, if_false]
      rw [ih]
      constructor
      · rintro ⟨h1, h2, h3, h4⟩
        refine ⟨by omega, by omega, h3, fun j h5 h6 => ?_⟩
        rcases Nat.lt_or_ge i j with hj | hj
        · exact h4 j hj h6
        · rwa [show j = i by omega]
      · rintro ⟨h1, h2, h3, h4⟩
        have : i ≠ k := by
          rintro rfl
          rw [h0] at h3
          cases h3
        exact ⟨by omega, by omega, h3, fun j h5 h6 => h4 j (by omega) h6⟩
    · simp only [if_true]
      constructor
      · intro h
        cases h
        exact ⟨Nat.le_refl _, by omega, h0, fun j h1 h2 => by omega⟩
      · rintro ⟨h1, h2, h3, h4⟩
        rcases Nat.lt_or_ge i k with hk | hk
        · have := h4 i (Nat.le_refl _) hk
          rw [h0] at this
          cases this
        · rw [show i = k by omega]

/-- The place that `SEARCH` looks for. -/
theorem searchPlace_iff {p hay : Str} (hp : p ≠ []) {a : Nat} (ha : a ≤ hay.length) (k : Nat) :
    (if '*' ∈ p ∨ '?' ∈ p then wildFrom p hay (hay.length + 1 - a) a else charFind hay p a) = some k ↔
      a ≤ k ∧ FitsAt p hay k ∧ ∀ j, a ≤ j → j < k → ¬ FitsAt p hay j := by
  split
  · rw [wildFrom_iff]
    constructor
    · rintro ⟨h1, h2, h3, h4⟩
      refine ⟨h1, ⟨by omega, (wild_iff ..).1 h3⟩, fun j h5 h6 h7 => ?_⟩
      have := h4 j h5 h6
      rw [(wild_iff ..).2 h7.2] at this
      cases this
    · rintro ⟨h1, ⟨h2, h3⟩, h4⟩
      refine ⟨h1, by omega, (wild_iff ..).2 h3, fun j h5 h6 => ?_⟩
      cases hw : wild p (hay.drop j)
      · rfl
      · exact absurd ⟨by omega, (wild_iff ..).1 hw⟩ (h4 j h5 h6)
  · rename_i hno
    have e : ∀ j, FitsAt p hay j ↔ At p hay j := by
      intro j
      constructor
      · rintro ⟨_, u, v, h1, h2⟩
        rw [(fits_plain hno u).1 h2] at h1
        exact ⟨v, h1.symm⟩
      · intro h
        have := at_le hp h
        obtain ⟨v, hv⟩ := h
        exact ⟨by omega, p, v, hv.symm, (fits_plain hno p).2 rfl⟩
    simp only [e]
    exact charFind_iff hp a k

/-- `SEARCH` gives the first place from `start` on where a text stands that fits the pattern, up to the case of ASCII letters. -/
theorem search_iff {needle : Str} (hay : Str) (hd : needle ≠ []) {start : Int} (h : 1 ≤ start) (k : Nat) :
    search needle hay start = .int k ↔ start ≤ k ∧ FitsAt (needle.map asciiLower) (hay.map asciiLower) (k - 1) ∧
      ∀ j : Nat, start ≤ j → j < k → ¬ FitsAt (needle.map asciiLower) (hay.map asciiLower) (j - 1) := by
  have hp : needle.map asciiLower ≠ [] := by simpa using hd
  unfold search
  simp only
  rw [if_neg (by omega), if_neg hp]
  split
  · rename_i hlong
    constructor
    · intro hf
      cases hf
    · rintro ⟨h1, ⟨h2, _⟩, _⟩
      omega
  · rename_i hlong
    have key := searchPlace_iff hp (hay := hay.map asciiLower) (a := (start - 1).toNat) (by omega)
    constructor
    · intro hf
      split at hf
      · rename_i i hi
        cases hf
        obtain ⟨h1, h2, h3⟩ := (key _).1 hi
        exact ⟨by omega, by simpa using h2, fun j h4 h5 => h3 (j - 1) (by omega) (by omega)⟩
      · cases hf
    · rintro ⟨h1, h2, h3⟩
      rw [(key (k - 1)).2]
      · simp only [Out.int.injEq]
        omega
      · refine ⟨by omega, h2, fun j h4 h5 => ?_⟩
        have := h3 (j + 1) (by omega) (by omega)
        simpa using this

/-- `SEARCH` gives `#VALUE!` if no text that fits stands from `start` on. -/
theorem search_none {needle : Str} (hay : Str) (hd : needle ≠ []) {start : Int} (h : 1 ≤ start) :
    search needle hay start = .badValue ↔ ∀ j : Nat, start ≤ j → ¬ FitsAt (needle.map asciiLower) (hay.map asciiLower) (j - 1) := by
  constructor
  · intro hf j hj ha
    have hex : ∃ k : Nat, start ≤ k ∧ FitsAt (needle.map asciiLower) (hay.map asciiLower) (k - 1) := ⟨j, hj, ha⟩
    classical
    have := (search_iff hay hd h (Nat.find hex)).2 ⟨(Nat.find_spec hex).1, (Nat.find_spec hex).2, fun i h1 h2 h3 => Nat.find_min hex h2 ⟨h1, h3⟩⟩
    rw [hf] at this
    cases this
  · intro hno
    cases hc : search needle hay start with
    | badValue => rfl
    | int k =>
      obtain ⟨h1, h2, _⟩ := (search_iff hay hd h k).1 hc
      exact absurd h2 (hno k h1)
    | text s =>
      unfold search at hc
      simp only at hc
      split at hc <;> first | cases hc | (split at hc <;> first | cases hc | (split at hc <;> first | cases hc | (split at hc <;> cases hc)))
    | na =>
      unfold search at hc
      simp only at hc
      split at hc <;> first | cases hc | (split at hc <;> first | cases hc | (split at hc <;> first | cases hc | (split at hc <;> cases hc)))

/-- The letters that `SEARCH` takes for equal. -/
theorem asciiLower_eq (c : Char) : asciiLower c = c.toLower := by
  unfold asciiLower Char.toLower
  simp only [ge_iff_le]
  have e : ('A' ≤ c ∧ c ≤ 'Z') ↔ ('A'.val ≤ c.val ∧ c.val ≤ 'Z'.val) := Iff.rfl
  by_cases h : 'A' ≤ c ∧ c ≤ 'Z'
  · rw [if_pos h, dif_pos (e.1 h)]
    have h1 : c.toNat ≤ 90 := h.2
    apply Char.ext
    apply UInt32.toNat_inj.1
    have h2 : (Char.ofNat (c.toNat + 32)).toNat = c.toNat + 32 := by
      unfold Char.ofNat
      rw [dif_pos (Or.inl (by omega) : (c.toNat + 32).isValidChar)]
      rfl
    have h3 : (c.val + ('a'.val - 'A'.val)).toNat = c.toNat + 32 := by
      rw [UInt32.toNat_add]
      exact Nat.mod_eq_of_lt (show c.toNat + 32 < 2 ^ 32 by omega)
    exact h2.trans h3.symm
  · rw [if_neg h, dif_neg (fun k => h (e.2 k))]

example : search "W?r*D".toList "hello world".toList 1 = .int 7 ∧ search "L*O".toList "hello world".toList 5 = .badValue := by decide +kernel

/-- A tilde does not take the meaning of `?`: `SEARCH("~?","a?")` is `#VALUE!`.  Excel gives 2. -/
theorem search_tilde : search "~?".toList "a?".toList 1 = .badValue := by decide +kernel

/-- Letters outside of ASCII keep their case: `SEARCH("É","é")` is `#VALUE!`.  Excel gives 1. -/
theorem search_accents : search "É".toList "é".toList 1 = .badValue := by decide +kernel

/-! ### TRIM -/

/-- The words of a text. -/
def words (space : Char → Bool) (s : Str) : List Str := (s.splitOnP space).filter fun w => decide (w ≠ [])

/-- Words behind the first one. -/
def tailWords (ws : List Str) : Str := (ws.filter fun w => decide (w ≠ [])).flatMap fun w => ' ' :: w

theorem trimLoop_words (space : Char → Bool) (s out : Str) (h : out ≠ []) :
    trimLoop space s true out = out ++ tailWords (s.splitOnP space) ∧
      ∀ w ws, s.splitOnP space = w :: ws → trimLoop space s false out = out ++ w ++ tailWords ws := by
  induction s generalizing out with
  | nil =>
    refine ⟨by simp [trimLoop, tailWords], ?_⟩
    intro w ws hw
    rw [List.splitOnP_nil] at hw
    cases hw
    simp [trimLoop, tailWords]
  | cons c s ih =>
    rw [List.splitOnP_cons_eq_if_modifyHead]
    cases hc : space c
    · obtain ⟨w, ws, hw⟩ := List.exists_cons_of_ne_nil (List.splitOnP_ne_nil space s)
      have hne : out ++ [' '] ++ [c] ≠ [] := by simp
      have hne' : out ++ [c] ≠ [] := by simp
      refine ⟨?_, ?_⟩
      · simp only [trimLoop, hc, Bool.false_eq_true, if_false, true_and]
        rw [if_pos h, (ih _ hne).2 w ws hw, hw]
        simp [tailWords]
      · intro w' ws' hw'
        simp only [Bool.false_eq_true, if_false] at hw'
        rw [hw] at hw'
        simp only [List.modifyHead_cons, List.cons.injEq] at hw'
        obtain ⟨rfl, rfl⟩ := hw'
        simp only [trimLoop, hc, Bool.false_eq_true, if_false, false_and]
        rw [(ih _ hne').2 w ws hw]
        simp
    · refine ⟨?_, ?_⟩
      · simp only [trimLoop, hc, if_true]
        rw [(ih out h).1]
        simp [tailWords]
      · intro w' ws' hw'
        simp only [if_true, List.cons.injEq] at hw'
        obtain ⟨rfl, rfl⟩ := hw'
        simp only [trimLoop, hc, if_true]
        rw [(ih out h).1, List.append_nil]

theorem intercalate_cons (w : Str) (ws : List Str) (h : ∀ x ∈ ws, x ≠ []) : [' '].intercalate (w :: ws) = w ++ tailWords ws := by
  induction ws generalizing w with
  | nil => simp [tailWords]
  | cons x ws ih =>
    have := ih x fun y hy => h y (List.mem_cons_of_mem _ hy)
    have hx := h x (List.mem_cons_self ..)
    have e : [' '].intercalate (w :: x :: ws) = w ++ [' '] ++ [' '].intercalate (x :: ws) := by simp [List.intercalate, List.intersperse]
    rw [e, this]
    simp [tailWords, hx]

theorem trimLoop_start (space : Char → Bool) (s : Str) (prev : Bool) : trimLoop space s prev [] = [' '].intercalate (words space s) := by
  induction s generalizing prev with
  | nil => simp [trimLoop, words, List.intercalate]
  | cons c s ih =>
    cases hc : space c
    · obtain ⟨w, ws, hw⟩ := List.exists_cons_of_ne_nil (List.splitOnP_ne_nil space s)
      simp only [trimLoop, hc, Bool.false_eq_true, if_false, ne_eq, not_true, and_false, List.nil_append]
      rw [(trimLoop_words space s [c] (by simp)).2 w ws hw]
      have e : words space (c :: s) = (c :: w) :: ws.filter fun w => decide (w ≠ []) := by
        unfold words
        rw [List.splitOnP_cons_eq_if_modifyHead, hc, hw]
        simp
      rw [e, intercalate_cons _ _ (by intro x hx; simpa using (List.mem_filter.1 hx).2)]
      simp [tailWords]
    · simp only [trimLoop, hc, if_true]
      rw [ih]
      congr 1
      unfold words
      rw [List.splitOnP_cons_eq_if_modifyHead, hc]
      simp

theorem mem_splitOnP {space : Char → Bool} {s w : Str} (h : w ∈ s.splitOnP space) : ∀ c ∈ w, space c = false := by
  induction s generalizing w with
  | nil =>
    rw [List.splitOnP_nil] at h
    cases List.mem_singleton.1 h
    intro c hc
    cases hc
  | cons a s ih =>
    rw [List.splitOnP_cons_eq_if_modifyHead] at h
    cases ha : space a
    · rw [ha] at h
      simp only [Bool.false_eq_true, if_false] at h
      obtain ⟨x, xs, hx⟩ := List.exists_cons_of_ne_nil (List.splitOnP_ne_nil space s)
      rw [hx] at h ih
      simp only [List.modifyHead_cons] at h
      rcases List.mem_cons.1 h with rfl | h
      · intro c hc
        rcases List.mem_cons.1 hc with rfl | hc
        · exact ha
        · exact ih (List.mem_cons_self ..) c hc
      · exact ih (List.mem_cons_of_mem _ h)
    · rw [ha] at h
      simp only [if_true] at h
      rcases List.mem_cons.1 h with rfl | h
      · intro c hc
        cases hc
      · exact ih h

theorem trimEnds_self {space : Char → Bool} {s : Str} (h1 : ∀ c, s.head? = some c → space c = false) (h2 : ∀ c, s.getLast? = some c → space c = false) :
    trimEnds space s = s := by
  have key : ∀ l : Str, (∀ c, l.head? = some c → space c = false) → l.dropWhile space = l := by
    intro l hl
    cases l with
    | nil => rfl
    | cons a l => rw [List.dropWhile_cons, hl a rfl]; rfl
  unfold trimEnds
  rw [key s h1, key s.reverse (by intro c hc; rw [List.head?_reverse] at hc; exact h2 c hc), List.reverse_reverse]

/-- `TRIM`: the words of the text with one space between them. -/
theorem trim_words (space : Char → Bool) (s : Str) : trim space s = [' '].intercalate (words space s) := by
  unfold trim
  rw [trimLoop_start]
  have hw : ∀ w ∈ words space s, w ≠ [] ∧ ∀ c ∈ w, space c = false := by
    intro w hw
    obtain ⟨h1, h2⟩ := List.mem_filter.1 hw
    exact ⟨by simpa using h2, mem_splitOnP h1⟩
  have hd : ∀ ws : List Str, (∀ w ∈ ws, w ≠ [] ∧ ∀ c ∈ w, space c = false) → ∀ c, (([' '].intercalate ws).head? = some c ∨ ([' '].intercalate ws).getLast? = some c) → space c = false := by
    intro ws
    induction ws with
    | nil =>
      intro _ c hc
      simp [List.intercalate] at hc
    | cons w ws ih =>
      intro h c hc
      obtain ⟨hne, hs⟩ := h w (List.mem_cons_self ..)
      cases ws with
      | nil =>
        have e : [' '].intercalate [w] = w := by simp [List.intercalate]
        rw [e] at hc
        rcases hc with hc | hc
        · exact hs c (List.mem_of_mem_head? hc)
        · exact hs c (List.mem_of_mem_getLast? hc)
      | cons x ws =>
        have e : [' '].intercalate (w :: x :: ws) = w ++ ([' '] ++ [' '].intercalate (x :: ws)) := by simp [List.intercalate, List.intersperse]
        have hx : [' '].intercalate (x :: ws) ≠ [] := by
          have := (h x (by simp)).1
          cases ws <;> simp [List.intercalate, List.intersperse, this]
        rw [e] at hc
        rcases hc with hc | hc
        · rw [List.head?_append_of_ne_nil _ hne] at hc
          exact hs c (List.mem_of_mem_head? hc)
        · refine ih (fun y hy => h y (List.mem_cons_of_mem _ hy)) c (.inr ?_)
          rwa [List.getLast?_append_of_ne_nil _ (by simp), List.getLast?_append_of_ne_nil _ hx] at hc
  exact trimEnds_self (fun c hc => hd _ hw c (.inl hc)) (fun c hc => hd _ hw c (.inr hc))

theorem words_join {space : Char → Bool} (hs : space ' ' = true) (ws : List Str) (h : ∀ w ∈ ws, w ≠ [] ∧ ∀ c ∈ w, space c = false) :
    words space ([' '].intercalate ws) = ws := by
  unfold words
  induction ws with
  | nil => simp [List.intercalate]
  | cons w ws ih =>
    obtain ⟨hne, hw⟩ := h w (List.mem_cons_self ..)
    cases ws with
    | nil =>
      have e : [' '].intercalate [w] = w := by simp [List.intercalate]
      rw [e, List.splitOnP_eq_singleton hw]
      simp [hne]
    | cons x ws =>
      have e : [' '].intercalate (w :: x :: ws) = w ++ ' ' :: [' '].intercalate (x :: ws) := by simp [List.intercalate, List.intersperse]
      rw [e, List.splitOnP_append_cons_of_forall_mem hw ' ' hs]
      rw [List.filter_cons, if_pos (by simpa using hne), ih fun y hy => h y (List.mem_cons_of_mem _ hy)]

/-- `TRIM` changes nothing the second time. -/
theorem trim_trim {space : Char → Bool} (hs : space ' ' = true) (s : Str) : trim space (trim space s) = trim space s := by
  rw [trim_words, trim_words, words_join hs]
  intro w hw
  obtain ⟨h1, h2⟩ := List.mem_filter.1 hw
  exact ⟨by simpa using h2, mem_splitOnP h1⟩

/-- Line breaks within the text are lost too: `TRIM` of `a`, a line break, `b` is `a b`.  Excel keeps the line break. -/
theorem trim_newline {space : Char → Bool} (hn : space '\n' = true) (ha : space 'a' = false) (hb : space 'b' = false) :
    trim space ['a', '\n', 'b'] = ['a', ' ', 'b'] := by
  simp [trim, trimLoop, trimEnds, hn, ha, hb]

example : trim Char.isWhitespace "  a  b c ".toList = "a b c".toList := by decide +kernel

end Verif.Texts
