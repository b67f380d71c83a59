import Verif.Spool.Model

/-!
# Records written are records read
-/

namespace Verif.Spool

/-! ## Numbers -/

theorem shift7 (v : ℕ) : v >>> 7 = v / 128 := by rw [Nat.shiftRight_eq_div_pow]

theorem varint_length (v : ℕ) : (varint v).length = varintLen v := by
  induction v using Nat.strong_induction_on with
  | _ v ih =>
    unfold varint varintLen
    split
    · rw [List.length_cons, ih _ (by rw [shift7]; omega), Nat.add_comm]
    · rfl

theorem varintLen_pos (v : ℕ) : 1 ≤ varintLen v := by
  unfold varintLen
  split <;> omega

theorem varintLen_le_iff (k v : ℕ) : varintLen v ≤ k + 1 ↔ v < 128 ^ (k + 1) := by
  induction k generalizing v with
  | zero =>
    unfold varintLen
    split
    · have := varintLen_pos (v >>> 7)
      omega
    · omega
  | succ k ih =>
    unfold varintLen
    have hp : 128 ≤ 128 ^ (k + 1) := Nat.le_self_pow (by omega) 128
    split
    · have h := ih (v >>> 7)
      rw [shift7, Nat.div_lt_iff_lt_mul (by omega), ← Nat.pow_succ] at h
      rw [shift7]
      omega
    · rw [Nat.pow_succ]
      omega

/-- The loop that recovers the length of the payload ends after at most three rounds, and is right. -/
theorem payloadLoop_spec (p fuel : ℕ) : payloadLoop (p + varintLen p) (fuel + 3) (p + varintLen p) = some p := by
  obtain ⟨k, hk⟩ : ∃ k, varintLen p = k + 1 := ⟨varintLen p - 1, by have := varintLen_pos p; omega⟩
  have hp : p < 128 ^ (k + 1) := (varintLen_le_iff k p).mp (by omega)
  have hself : k < 128 ^ k := Nat.lt_pow_self (by omega)
  have hpow : 128 ^ (k + 1) = 128 * 128 ^ k := by rw [Nat.pow_succ, Nat.mul_comm]
  have hpow2 : 128 ^ (k + 2) = 128 * 128 ^ (k + 1) := by rw [Nat.pow_succ, Nat.mul_comm]
  have hF : varintLen (p + (k + 1)) ≤ k + 2 := (varintLen_le_iff (k + 1) _).mpr (by omega)
  have hF1 : k + 1 ≤ varintLen (p + (k + 1)) := by
    rcases Nat.eq_zero_or_pos k with rfl | hk0
    · exact varintLen_pos _
    · obtain ⟨j, rfl⟩ : ∃ j, k = j + 1 := ⟨k - 1, by omega⟩
      have h1 : ¬varintLen p ≤ j + 1 := by omega
      rw [varintLen_le_iff] at h1
      have h2 : ¬varintLen (p + (j + 1 + 1)) ≤ j + 1 := by rw [varintLen_le_iff]; omega
      omega
  have last : ∀ fuel, payloadLoop (p + (k + 1)) (fuel + 1) p = some p := by
    intro fuel
    rw [payloadLoop, hk, if_neg (by omega), if_pos (by omega)]
  rw [hk]
  rcases (by omega : varintLen (p + (k + 1)) = k + 1 ∨ varintLen (p + (k + 1)) = k + 2) with h | h
  · rw [payloadLoop, h, if_neg (by omega), if_neg (by omega), show p + (k + 1) - (k + 1) = p by omega]
    exact last _
  · have hge : 128 ^ (k + 1) ≤ p + (k + 1) := by
      have : ¬varintLen (p + (k + 1)) ≤ k + 1 := by omega
      rw [varintLen_le_iff] at this
      omega
    have hv : varintLen (p - 1) = k + 1 := by
      have h1 : varintLen (p - 1) ≤ k + 1 := (varintLen_le_iff k _).mpr (by omega)
      rcases Nat.eq_zero_or_pos k with rfl | hk0
      · have := varintLen_pos (p - 1)
        omega
      · obtain ⟨j, rfl⟩ : ∃ j, k = j + 1 := ⟨k - 1, by omega⟩
        have h2 : ¬varintLen (p - 1) ≤ j + 1 := by rw [varintLen_le_iff]; omega
        omega
    rw [payloadLoop, h, if_neg (by omega), if_neg (by omega), show p + (k + 1) - (k + 2) = p - 1 by omega]
    rw [payloadLoop, hv, if_neg (by omega), if_neg (by omega), show p + (k + 1) - (k + 1) = p by omega]
    exact last _

theorem byte_or : ∀ b : Fin 256, (b.val ||| 128) = b.val % 128 + 128 := by decide +kernel

theorem byte_and : ∀ b : Fin 256, (b.val &&& 128 = 0) = (b.val < 128) := by
  have : ∀ b : Fin 256, decide (b.val &&& 128 = 0) = decide (b.val < 128) := by decide +kernel
  intro b
  have h := this b
  by_cases h1 : b.val < 128 <;> simp_all

theorem and127 (b : ℕ) : b &&& 127 = b % 128 := Nat.and_two_pow_sub_one_eq_mod b 7

theorem or_shift {a s : ℕ} (x : ℕ) (h : a < 2 ^ s) : a ||| x <<< s = a + x * 2 ^ s := by
  rw [Nat.or_comm, ← Nat.shiftLeft_add_eq_or_of_lt h, Nat.shiftLeft_eq, Nat.add_comm]

/-- The bytes of `varint`, one by one. -/
theorem varint_big {v : ℕ} (h : 128 ≤ v) : varint v = (v % 128 + 128) :: varint (v / 128) := by
  rw [varint, if_pos h, shift7]
  have := byte_or ⟨v % 256, Nat.mod_lt _ (by omega)⟩
  simp only at this
  rw [this, Nat.mod_mod_of_dvd _ (by omega)]

theorem varint_small {v : ℕ} (h : v < 128) : varint v = [v] := by
  rw [varint, if_neg (by omega), Nat.mod_eq_of_lt (by omega)]

theorem getVarintLoop_spec (v j acc : ℕ) (rest : List ℕ) (hj : j < 10) (ha : acc < 2 ^ (7 * j)) (hv : v * 2 ^ (7 * j) + acc < 2 ^ 64) :
    getVarintLoop (10 - j) (7 * j) acc (varint v ++ rest) = .ok (acc + v * 2 ^ (7 * j), rest) := by
  induction v using Nat.strong_induction_on generalizing j acc with
  | _ v ih =>
    obtain ⟨r, hr⟩ : ∃ r, 10 - j = r + 1 := ⟨9 - j, by omega⟩
    rcases Nat.lt_or_ge v 128 with h | h
    · have h1 : ¬(7 * j = 63 ∧ 1 < v) := by
        rintro ⟨h1, h2⟩
        rw [h1] at hv
        omega
      have h2 := byte_and ⟨v, by omega⟩
      simp only at h2
      rw [varint_small h, hr, List.singleton_append, getVarintLoop, if_neg h1]
      simp only [and127, Nat.mod_eq_of_lt h, h2, if_pos h, or_shift v ha]
    · have hj9 : j < 9 := by
        by_contra hc
        have : j = 9 := by omega
        subst this
        omega
      have h1 : ¬(7 * j = 63 ∧ 1 < v % 128 + 128) := by omega
      have h2 := byte_and ⟨v % 128 + 128, by omega⟩
      simp only at h2
      have h3 : ¬v % 128 + 128 < 128 := by omega
      have hpow : 2 ^ (7 * (j + 1)) = 128 * 2 ^ (7 * j) := by rw [show 7 * (j + 1) = 7 * j + 7 by omega, Nat.pow_add, Nat.mul_comm]
      have hpos : 0 < 2 ^ (7 * j) := Nat.pow_pos (by omega)
      have hdm : v * 2 ^ (7 * j) = v / 128 * 2 ^ (7 * (j + 1)) + v % 128 * 2 ^ (7 * j) := by
        rw [hpow, ← Nat.mul_assoc, ← Nat.add_mul]
        congr 1
        omega
      have hacc : acc + v % 128 * 2 ^ (7 * j) < 2 ^ (7 * (j + 1)) := by
        have : v % 128 * 2 ^ (7 * j) ≤ 127 * 2 ^ (7 * j) := Nat.mul_le_mul_right _ (by omega)
        omega
      rw [varint_big h, hr, List.cons_append, getVarintLoop, if_neg h1]
      simp only [and127, h2, if_neg h3, Nat.add_mod_right, Nat.mod_mod, or_shift _ ha]
      rw [show r = 10 - (j + 1) by omega, show 7 * j + 7 = 7 * (j + 1) by omega, ih (v / 128) (by omega) (j + 1) _ (by omega) hacc (by omega)]
      congr 2
      omega

/-- A number written is the number read. -/
theorem getVarint_varint {v : ℕ} (h : v < 2 ^ 64) (rest : List ℕ) : getVarint (varint v ++ rest) = .ok (v, rest) := by
  have := getVarintLoop_spec v 0 0 rest (by omega) (by omega) (by omega)
  simpa [getVarint] using this

theorem getVarintLoop_trunc (v j acc m : ℕ) (hj : j < 10) (hv : v * 2 ^ (7 * j) < 2 ^ 64) (hm : m < (varint v).length) :
    getVarintLoop (10 - j) (7 * j) acc ((varint v).take m) = .error .truncated := by
  induction v using Nat.strong_induction_on generalizing j acc m with
  | _ v ih =>
    obtain ⟨r, hr⟩ : ∃ r, 10 - j = r + 1 := ⟨9 - j, by omega⟩
    cases m with
    | zero => rw [List.take_zero, hr, getVarintLoop]
    | succ m =>
      rcases Nat.lt_or_ge v 128 with h | h
      · rw [varint_small h] at hm
        simp at hm
      · have hj9 : j < 9 := by
          by_contra hc
          have : j = 9 := by omega
          subst this
          omega
        have h1 : ¬(7 * j = 63 ∧ 1 < v % 128 + 128) := by omega
        have h2 := byte_and ⟨v % 128 + 128, by omega⟩
        simp only at h2
        have h3 : ¬v % 128 + 128 < 128 := by omega
        rw [varint_big h, List.length_cons] at hm
        have hpow : 2 ^ (7 * (j + 1)) = 128 * 2 ^ (7 * j) := by rw [show 7 * (j + 1) = 7 * j + 7 by omega, Nat.pow_add, Nat.mul_comm]
        have hle : v / 128 * 2 ^ (7 * (j + 1)) ≤ v * 2 ^ (7 * j) := by
          rw [hpow, ← Nat.mul_assoc]
          exact Nat.mul_le_mul_right _ (by omega)
        rw [varint_big h, hr, List.take_succ_cons, getVarintLoop, if_neg h1]
        simp only [h2, if_neg h3]
        rw [show r = 10 - (j + 1) by omega, show 7 * j + 7 = 7 * (j + 1) by omega]
        exact ih (v / 128) (by omega) (j + 1) _ m (by omega) (by omega) (by omega)

theorem getVarint_trunc {v m : ℕ} (h : v < 2 ^ 64) (hm : m < (varint v).length) : getVarint ((varint v).take m) = .error .truncated := by
  have := getVarintLoop_trunc v 0 0 m (by omega) (by omega) hm
  simpa [getVarint] using this

/-! ## Records -/

theorem getU32_varint {v : ℕ} (h : v < 2 ^ 32) (rest : List ℕ) : getU32 (varint v ++ rest) = .ok (v, rest) := by
  unfold getU32
  rw [getVarint_varint (by omega)]
  change (if v < 2 ^ 32 then _ else _) = _
  rw [if_pos h]

theorem getCoord_bytes {c : Coord} (h1 : c.row < 2 ^ 32) (h2 : c.col < 2 ^ 32) (rest : List ℕ) : getCoord (coordBytes c ++ rest) = .ok (c, rest) := by
  unfold getCoord coordBytes
  rw [List.append_assoc, getU32_varint h1]
  change (getU32 (varint c.col ++ rest)).bind _ = _
  rw [getU32_varint h2]
  rfl

theorem getText_bytes {utf8 : List ℕ → Bool} {t : List ℕ} (h : utf8 t = true) (hl : t.length < 2 ^ 64) : getText utf8 (varint t.length ++ t) = .ok (t, []) := by
  unfold getText
  rw [getVarint_varint hl]
  change (if t.length < t.length then _ else _) = _
  rw [if_neg (by omega), List.take_length, List.drop_length, if_pos h]

theorem ok_bind {ε α β : Type} (a : α) (f : α → Except ε β) : ((Except.ok a : Except ε α) >>= f) = f a := rfl

/-- A record written is the record read. -/
theorem decodeRecord_payload {utf8 : List ℕ → Bool} {r : Rec} (h : r.Ok utf8) : decodeRecord utf8 (head r ++ textOf r) = .ok r := by
  cases r with
  | ordinary s c t =>
    obtain ⟨h1, h2, h3, h4, h5⟩ := h
    simp only [head, textOf, List.cons_append, List.append_assoc]
    unfold decodeRecord
    simp only [takeByte, ok_bind, getVarint_varint h1, getCoord_bytes h2 h3, getText_bytes h4 (by omega : t.length < 2 ^ 64), if_true]
  | anchor s c i range t =>
    obtain ⟨h1, h2, h3, h4, h5, h6, h7⟩ := h
    cases range with
    | none =>
      simp only [head, textOf, List.cons_append, List.append_assoc, List.nil_append]
      unfold decodeRecord
      simp only [takeByte, ok_bind, getVarint_varint h1, getVarint_varint h4, getCoord_bytes h2 h3, getText_bytes h6 (by omega : t.length < 2 ^ 64), if_true]
    | some ab =>
      obtain ⟨a, b⟩ := ab
      obtain ⟨a1, a2, b1, b2⟩ := h5 a b rfl
      simp only [head, textOf, List.cons_append, List.append_assoc, List.nil_append]
      unfold decodeRecord
      simp only [takeByte, ok_bind, getVarint_varint h1, getVarint_varint h4, getCoord_bytes h2 h3, getCoord_bytes a1 a2, getCoord_bytes b1 b2, getText_bytes h6 (by omega : t.length < 2 ^ 64), if_true]
  | descendant s c i =>
    obtain ⟨h1, h2, h3, h4⟩ := h
    have e : ∀ l : List ℕ, l = l ++ [] := fun l => (List.append_nil l).symm
    simp only [head, textOf, List.cons_append, List.append_assoc]
    unfold decodeRecord
    simp only [takeByte, ok_bind, getVarint_varint h1, getVarint_varint h4, getCoord_bytes h2 h3, if_true]
  | unsupported s c =>
    obtain ⟨h1, h2, h3⟩ := h
    simp only [head, textOf, List.cons_append, List.append_assoc]
    unfold decodeRecord
    simp only [takeByte, ok_bind, getVarint_varint h1, getCoord_bytes h2 h3, if_true]

theorem getText_more {utf8 : List ℕ → Bool} {t : List ℕ} (h : utf8 t = true) (hl : t.length < 2 ^ 64) (rest : List ℕ) : getText utf8 (varint t.length ++ (t ++ rest)) = .ok (t, rest) := by
  unfold getText
  rw [getVarint_varint hl]
  change (if (t ++ rest).length < t.length then _ else _) = _
  rw [if_neg (by rw [List.length_append]; omega), List.take_left, List.drop_left, if_pos h]

/-- C90.  A record followed by bytes that belong to nothing is refused. -/
theorem trailing_refused {utf8 : List ℕ → Bool} {r : Rec} (h : r.Ok utf8) (extra : List ℕ) (he : extra ≠ []) : decodeRecord utf8 (head r ++ textOf r ++ extra) = .error .malformed := by
  cases r with
  | ordinary s c t =>
    obtain ⟨h1, h2, h3, h4, h5⟩ := h
    simp only [head, textOf, List.cons_append, List.append_assoc]
    unfold decodeRecord
    simp only [takeByte, ok_bind, getVarint_varint h1, getCoord_bytes h2 h3, getText_more h4 (by omega : t.length < 2 ^ 64), if_neg he]
  | anchor s c i range t =>
    obtain ⟨h1, h2, h3, h4, h5, h6, h7⟩ := h
    cases range with
    | none =>
      simp only [head, textOf, List.cons_append, List.append_assoc, List.nil_append]
      unfold decodeRecord
      simp only [takeByte, ok_bind, getVarint_varint h1, getVarint_varint h4, getCoord_bytes h2 h3, getText_more h6 (by omega : t.length < 2 ^ 64), if_neg he]
    | some ab =>
      obtain ⟨a, b⟩ := ab
      obtain ⟨a1, a2, b1, b2⟩ := h5 a b rfl
      simp only [head, textOf, List.cons_append, List.append_assoc, List.nil_append]
      unfold decodeRecord
      simp only [takeByte, ok_bind, getVarint_varint h1, getVarint_varint h4, getCoord_bytes h2 h3, getCoord_bytes a1 a2, getCoord_bytes b1 b2, getText_more h6 (by omega : t.length < 2 ^ 64), if_neg he]
  | descendant s c i =>
    obtain ⟨h1, h2, h3, h4⟩ := h
    simp only [head, textOf, List.cons_append, List.append_assoc, List.nil_append]
    unfold decodeRecord
    simp only [takeByte, ok_bind, getVarint_varint h1, getVarint_varint h4, getCoord_bytes h2 h3, if_neg he]
  | unsupported s c =>
    obtain ⟨h1, h2, h3⟩ := h
    simp only [head, textOf, List.cons_append, List.append_assoc, List.nil_append]
    unfold decodeRecord
    simp only [takeByte, ok_bind, getVarint_varint h1, getCoord_bytes h2 h3, if_neg he]

theorem payload_length (r : Rec) : (head r ++ textOf r).length = payloadLen r := by
  rcases r with ⟨s, c, t⟩ | ⟨s, c, i, _ | ⟨a, b⟩, t⟩ | ⟨s, c, i⟩ | ⟨s, c⟩ <;>
    simp only [head, textOf, coordBytes, payloadLen, List.length_append, List.length_cons, List.length_nil, varint_length] <;> omega

theorem varintLen_le {v : ℕ} (k : ℕ) (h : v < 128 ^ (k + 1)) : varintLen v ≤ k + 1 := (varintLen_le_iff k v).mpr h

theorem head_le {utf8 : List ℕ → Bool} {r : Rec} (h : r.Ok utf8) : (head r).length ≤ 58 ∧ payloadLen r < 2 ^ 42 + 64 ∧ (varintLen (payloadLen r) + (head r).length ≤ 64) := by
  have hp := payload_length r
  rw [List.length_append] at hp
  rcases r with ⟨s, c, t⟩ | ⟨s, c, i, _ | ⟨a, b⟩, t⟩ | ⟨s, c, i⟩ | ⟨s, c⟩
  · obtain ⟨h1, h2, h3, h4, h5⟩ := h
    have e1 := varintLen_le (v := s) 9 (by omega)
    have e2 := varintLen_le (v := c.row) 4 (by omega)
    have e3 := varintLen_le (v := c.col) 4 (by omega)
    have e4 := varintLen_le (v := t.length) 5 (by omega)
    simp only [head, textOf, coordBytes, List.length_append, List.length_cons, varint_length] at hp ⊢
    have e5 := varintLen_le (v := payloadLen (.ordinary s c t)) 6 (by omega)
    omega
  · obtain ⟨h1, h2, h3, h4, h5, h6, h7⟩ := h
    have e1 := varintLen_le (v := s) 9 (by omega)
    have e2 := varintLen_le (v := c.row) 4 (by omega)
    have e3 := varintLen_le (v := c.col) 4 (by omega)
    have e4 := varintLen_le (v := t.length) 5 (by omega)
    have e6 := varintLen_le (v := i) 9 (by omega)
    simp only [head, textOf, coordBytes, List.length_append, List.length_cons, List.length_nil, varint_length] at hp ⊢
    have e5 := varintLen_le (v := payloadLen (.anchor s c i none t)) 5 (by omega)
    omega
  · obtain ⟨h1, h2, h3, h4, h5, h6, h7⟩ := h
    obtain ⟨a1, a2, b1, b2⟩ := h5 a b rfl
    have e1 := varintLen_le (v := s) 9 (by omega)
    have e2 := varintLen_le (v := c.row) 4 (by omega)
    have e3 := varintLen_le (v := c.col) 4 (by omega)
    have e4 := varintLen_le (v := t.length) 5 (by omega)
    have e6 := varintLen_le (v := i) 9 (by omega)
    have f1 := varintLen_le (v := a.row) 4 (by omega)
    have f2 := varintLen_le (v := a.col) 4 (by omega)
    have f3 := varintLen_le (v := b.row) 4 (by omega)
    have f4 := varintLen_le (v := b.col) 4 (by omega)
    simp only [head, textOf, coordBytes, List.length_append, List.length_cons, List.length_nil, varint_length] at hp ⊢
    have e5 := varintLen_le (v := payloadLen (.anchor s c i (some (a, b)) t)) 5 (by omega)
    omega
  · obtain ⟨h1, h2, h3, h4⟩ := h
    have e1 := varintLen_le (v := s) 9 (by omega)
    have e2 := varintLen_le (v := c.row) 4 (by omega)
    have e3 := varintLen_le (v := c.col) 4 (by omega)
    have e6 := varintLen_le (v := i) 9 (by omega)
    simp only [head, textOf, coordBytes, List.length_append, List.length_cons, List.length_nil, varint_length] at hp ⊢
    have e5 := varintLen_le (v := payloadLen (.descendant s c i)) 1 (by omega)
    omega
  · obtain ⟨h1, h2, h3⟩ := h
    have e1 := varintLen_le (v := s) 9 (by omega)
    have e2 := varintLen_le (v := c.row) 4 (by omega)
    have e3 := varintLen_le (v := c.col) 4 (by omega)
    simp only [head, textOf, coordBytes, List.length_append, List.length_cons, List.length_nil, varint_length] at hp ⊢
    have e5 := varintLen_le (v := payloadLen (.unsupported s c)) 1 (by omega)
    omega

theorem frame_eq {utf8 : List ℕ → Bool} {r : Rec} (h : r.Ok utf8) : frame r = some (varint (payloadLen r) ++ (head r ++ textOf r)) := by
  unfold frame prefixBytes
  rw [show frameLen r = payloadLen r + varintLen (payloadLen r) from rfl, payloadLoop_spec (payloadLen r) 1]
  have := (head_le h).2.2
  simp only [List.length_append, varint_length]
  rw [if_pos this, Option.map_some, List.append_assoc]

/-- C90.  Every record of a text shorter than 2^42 bytes fits the 64 bytes of the encoder, and takes as many bytes as was computed before. -/
theorem frame_fits {utf8 : List ℕ → Bool} {r : Rec} (h : r.Ok utf8) : ∃ bytes, frame r = some bytes ∧ bytes.length = frameLen r := by
  refine ⟨_, frame_eq h, ?_⟩
  rw [List.length_append, varint_length, payload_length]
  exact Nat.add_comm _ _

/-- C90.  A record written is the record read, and reading goes on right behind it. -/
theorem frame_reads {utf8 : List ℕ → Bool} {r : Rec} (h : r.Ok utf8) (bytes rest : List ℕ) (hb : frame r = some bytes) : decodeFrame utf8 (bytes ++ rest) = .ok (r, rest) := by
  rw [frame_eq h] at hb
  obtain rfl := Option.some.inj hb
  have hl := payload_length r
  unfold decodeFrame
  rw [List.append_assoc, getVarint_varint (by have := (head_le h).2.1; omega), ok_bind]
  simp only
  rw [if_neg (by rw [List.length_append]; omega), List.take_left' hl, List.drop_left' hl, decodeRecord_payload h]
  rfl

/-- C90.  A record cut short is reported as such, wherever it is cut. -/
theorem frame_cut {utf8 : List ℕ → Bool} {r : Rec} (h : r.Ok utf8) (bytes : List ℕ) (hb : frame r = some bytes) (n : ℕ) (hn : n < bytes.length) : decodeFrame utf8 (bytes.take n) = .error .truncated := by
  rw [frame_eq h] at hb
  obtain rfl := Option.some.inj hb
  have hl := payload_length r
  have hp : payloadLen r < 2 ^ 64 := by have := (head_le h).2.1; omega
  unfold decodeFrame
  rcases Nat.lt_or_ge n (varint (payloadLen r)).length with h1 | h1
  · rw [List.take_append_of_le_length h1.le, getVarint_trunc hp h1]
    rfl
  · rw [List.take_append, List.take_of_length_le h1, getVarint_varint hp, ok_bind]
    rw [List.length_append] at hn
    simp only
    rw [if_pos]
    rw [List.length_take]
    omega

/-- C90.  Two records with the same bytes are the same. -/
theorem frame_injective {utf8 : List ℕ → Bool} {r r' : Rec} (h : r.Ok utf8) (h' : r'.Ok utf8) (e : frame r = frame r') : r = r' := by
  obtain ⟨b, hb, -⟩ := frame_fits h
  have h1 := frame_reads h b [] hb
  have h2 := frame_reads h' b [] (e ▸ hb)
  rw [h1] at h2
  exact (Prod.mk.inj (Except.ok.inj h2)).1

example : Rec.Ok (fun _ => true) (.anchor 7 ⟨1048575, 16383⟩ 3 (some (⟨0, 0⟩, ⟨1048575, 16383⟩)) [65, 49]) := by
  refine ⟨by omega, by simp, by simp, by omega, ?_, rfl, by simp⟩
  rintro a b hab
  obtain ⟨rfl, rfl⟩ := Prod.mk.inj (Option.some.inj hab)
  simp

end Verif.Spool
