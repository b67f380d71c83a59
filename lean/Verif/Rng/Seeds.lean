import Verif.Rng.Model
import Mathlib.Data.Fintype.Pigeonhole
import Mathlib.Data.Fintype.Prod

/-!
# Seeds of random numbers

Different cells and different recalculations never share both lanes of a seed, and in one cell
different workbook seeds and different functions never share a seed.
-/

namespace Verif.Rng

/-! ## Bits -/

theorem shift_involutive (x : Word) :
    (x ^^^ (x >>> 33)) ^^^ ((x ^^^ (x >>> 33)) >>> 33) = x := by
  ext i hi
  simp only [BitVec.getElem_xor, BitVec.getElem_ushiftRight, BitVec.getLsbD_xor,
    BitVec.getLsbD_ushiftRight]
  have : x.getLsbD (33 + (33 + i)) = false := BitVec.getLsbD_of_ge _ _ (by omega)
  rw [this]
  simp [Bool.xor_assoc]

theorem shift_injective {x y : Word} (h : x ^^^ (x >>> 33) = y ^^^ (y >>> 33)) : x = y := by
  rw [← shift_involutive x, ← shift_involutive y, h]

theorem mul_injective {c d x y : Word} (hc : c * d = 1#64) (h : x * c = y * c) : x = y := by
  have := congrArg (· * d) h
  simpa [BitVec.mul_assoc, hc] using this

theorem xor_left_injective {a x y : Word} (h : a ^^^ x = a ^^^ y) : x = y := by
  have := congrArg (a ^^^ ·) h
  simpa [← BitVec.xor_assoc] using this

theorem bit_rotate (x : Word) (r i : Nat) (hr : r < 64) (hi : i < 64) :
    (x.rotateLeft r).getLsbD i = x.getLsbD (if i < r then 64 - r + i else i - r) := by
  rw [BitVec.getLsbD_rotateLeft, Nat.mod_eq_of_lt hr]
  by_cases h : i < r <;> simp [hi, h]

theorem rotate_injective {x y : Word} {r : Nat} (hr : r < 64)
    (h : x.rotateLeft r = y.rotateLeft r) : x = y := by
  apply BitVec.eq_of_getLsbD_eq
  intro j hj
  by_cases hlt : j + r < 64
  · have := congrArg (fun w : Word => w.getLsbD (j + r)) h
    simp only [bit_rotate _ _ _ hr hlt, if_neg (show ¬ j + r < r by omega)] at this
    simpa using this
  · have := congrArg (fun w : Word => w.getLsbD (j + r - 64)) h
    simp only [bit_rotate _ _ _ hr (show j + r - 64 < 64 by omega),
      if_pos (show j + r - 64 < r by omega)] at this
    rwa [show 64 - r + (j + r - 64) = j by omega] at this

/-! ## Mixing -/

/-- What is done after the two words are put together. -/
def finish (x : Word) : Word :=
  let x := x ^^^ (x >>> 33)
  let x := x * 0xff51afd7ed558ccd#64
  let x := x ^^^ (x >>> 33)
  let x := x * 0xc4ceb9fe1a85ec53#64
  x ^^^ (x >>> 33)

theorem mix_eq (a b : Word) : mix a b = finish (a ^^^ b.rotateLeft 17) := rfl

theorem finish_injective {x y : Word} (h : finish x = finish y) : x = y := by
  unfold finish at h
  have h1 := shift_injective h
  have h2 := mul_injective (d := 0x9cb4b2f8129337db#64) (by decide) h1
  have h3 := shift_injective h2
  have h4 := mul_injective (d := 0x4f74430c22a54005#64) (by decide) h3
  exact shift_injective h4

/-- **C114.** Mixing loses nothing of the first word when the second is known. -/
theorem mix_left (a a' b : Word) : mix a b = mix a' b ↔ a = a' := by
  constructor
  · intro h
    have := finish_injective h
    rw [BitVec.xor_comm a, BitVec.xor_comm a'] at this
    exact xor_left_injective this
  · rintro rfl; rfl

/-- **C114.** Mixing loses nothing of the second word when the first is known. -/
theorem mix_right (a b b' : Word) : mix a b = mix a b' ↔ b = b' := by
  constructor
  · intro h
    exact rotate_injective (by decide) (xor_left_injective (finish_injective h))
  · rintro rfl; rfl

example : mix 1 2 ≠ mix 3 2 := by rw [Ne, mix_left]; decide

/-! ## Positions -/

theorem position_bit (c : Cell) (i : Nat) (hi : i < 64) :
    (position c).getLsbD i =
      if i < 14 then c.col.getLsbD i
      else if i < 20 then false
      else if i < 40 then c.row.getLsbD (i - 20)
      else c.sheet.getLsbD (i - 40) := by
  unfold position
  simp only [BitVec.getLsbD_xor, BitVec.getLsbD_shiftLeft, BitVec.truncate_eq_setWidth,
    BitVec.getLsbD_setWidth]
  have hc : ∀ k, 14 ≤ k → c.col.getLsbD k = false := fun k hk => BitVec.getLsbD_of_ge _ _ hk
  have hr : ∀ k, 20 ≤ k → c.row.getLsbD k = false := fun k hk => BitVec.getLsbD_of_ge _ _ hk
  by_cases h14 : i < 14
  · simp [h14, hi, show i < 20 by omega, show i < 40 by omega]
  · by_cases h20 : i < 20
    · simp [h14, h20, hi, show i < 40 by omega, hc i (by omega)]
    · by_cases h40 : i < 40
      · simp [h14, h20, h40, hi, hc i (by omega), show i - 20 < 64 by omega]
      · simp [h14, h20, h40, hi, hc i (by omega), hr (i - 20) (by omega),
          show i - 40 < 64 by omega]

/-- **C114.** Two cells have the same position only if they are the same cell. -/
theorem position_injective (c d : Cell) : position c = position d ↔ c = d := by
  constructor
  · intro h
    have hb : ∀ i, i < 64 → (position c).getLsbD i = (position d).getLsbD i := fun i _ => by rw [h]
    have hs : c.sheet = d.sheet := by
      apply BitVec.eq_of_getLsbD_eq
      intro i hi
      have := hb (i + 40) (by omega)
      rw [position_bit _ _ (by omega), position_bit _ _ (by omega)] at this
      simpa [show ¬ i + 40 < 14 by omega, show ¬ i + 40 < 20 by omega] using this
    have hr : c.row = d.row := by
      apply BitVec.eq_of_getLsbD_eq
      intro i hi
      have := hb (i + 20) (by omega)
      rw [position_bit _ _ (by omega), position_bit _ _ (by omega)] at this
      simpa [show ¬ i + 20 < 14 by omega, show i + 20 < 40 by omega] using this
    have hc : c.col = d.col := by
      apply BitVec.eq_of_getLsbD_eq
      intro i hi
      have := hb i (by omega)
      rw [position_bit _ _ (by omega), position_bit _ _ (by omega)] at this
      simpa [hi] using this
    cases c; cases d; simp_all
  · rintro rfl; rfl

/-! ## Lanes -/

/-- A word whose last byte is empty and that looks the same turned by 17 and by 24 bits is 0. -/
theorem periodic_zero (d : Word) (htop : ∀ i, 56 ≤ i → d.getLsbD i = false)
    (h : d.rotateLeft 17 = (d.rotateLeft 7).rotateLeft 17) : d = 0#64 := by
  have h7 : d = d.rotateLeft 7 := rotate_injective (by decide) h
  have step : ∀ j, j < 57 → d.getLsbD j = d.getLsbD (j + 7) := by
    intro j hj
    have := congrArg (fun w : Word => w.getLsbD (j + 7)) h7
    simp only [bit_rotate d 7 (j + 7) (by decide) (by omega),
      if_neg (show ¬ j + 7 < 7 by omega)] at this
    rw [this]; simp
  have all : ∀ n j, 64 ≤ j + n → d.getLsbD j = false := by
    intro n
    induction n with
    | zero => intro j hj; exact htop j (by omega)
    | succ n ih =>
      intro j hj
      by_cases h56 : 56 ≤ j
      · exact htop j h56
      · rw [step j (by omega)]; exact ih (j + 7) (by omega)
  apply BitVec.eq_of_getLsbD_eq
  intro i _
  rw [all 64 i (by omega)]; simp

theorem rotate_xor (x y : Word) (r : Nat) (hr : r < 64) :
    (x ^^^ y).rotateLeft r = x.rotateLeft r ^^^ y.rotateLeft r := by
  apply BitVec.eq_of_getLsbD_eq
  intro i hi
  rw [BitVec.getLsbD_xor, bit_rotate _ _ _ hr hi, bit_rotate _ _ _ hr hi, bit_rotate _ _ _ hr hi,
    BitVec.getLsbD_xor]

theorem xor_move {a b c d : Word} (h : a ^^^ b = c ^^^ d) : a ^^^ c = b ^^^ d := by
  have : a = c ^^^ d ^^^ b := by
    rw [← h, BitVec.xor_assoc, BitVec.xor_self, BitVec.xor_zero]
  rw [this, BitVec.xor_comm c d, BitVec.xor_assoc d c b, BitVec.xor_comm c b, ← BitVec.xor_assoc,
    BitVec.xor_assoc, BitVec.xor_self, BitVec.xor_zero, BitVec.xor_comm]

/-- **C114.** Within a workbook and for one function, two evaluations share both lanes only if they
are in the same cell and in the same recalculation. -/
theorem lanes_injective (w salt : Word) (c c' : Cell) (e e' : Word) :
    lanes w c salt e = lanes w c' salt e' ↔ c = c' ∧ e = e' := by
  constructor
  · intro h
    unfold lanes at h
    simp only [Prod.mk.injEq, mix_eq] at h
    obtain ⟨h0, h1⟩ := h
    have h0 := xor_move (finish_injective h0)
    have h1 := xor_move (finish_injective h1)
    have e0 : (w ^^^ salt ^^^ e) ^^^ (w ^^^ salt ^^^ e') = e ^^^ e' := by
      rw [BitVec.xor_comm (w ^^^ salt) e, BitVec.xor_assoc, ← BitVec.xor_assoc (w ^^^ salt),
        BitVec.xor_self, BitVec.zero_xor]
    have e1 : (e ^^^ 0xA5A5A5A55A5A5A5A#64) ^^^ (e' ^^^ 0xA5A5A5A55A5A5A5A#64) = e ^^^ e' := by
      rw [BitVec.xor_comm e' _, BitVec.xor_assoc, ← BitVec.xor_assoc _ _ e', BitVec.xor_self,
        BitVec.zero_xor]
    rw [e0, ← rotate_xor _ _ _ (by decide)] at h0
    rw [e1, ← rotate_xor _ _ _ (by decide), ← rotate_xor _ _ _ (by decide)] at h1
    have hd : position c ^^^ position c' = 0#64 := by
      apply periodic_zero
      · intro i hi
        by_cases h64 : i < 64
        · rw [BitVec.getLsbD_xor, position_bit _ _ h64, position_bit _ _ h64]
          simp [show ¬ i < 14 by omega, show ¬ i < 20 by omega, show ¬ i < 40 by omega,
            BitVec.getLsbD_of_ge c.sheet (i - 40) (by omega),
            BitVec.getLsbD_of_ge c'.sheet (i - 40) (by omega)]
        · exact BitVec.getLsbD_of_ge _ _ (by omega)
      · rw [← h0, h1]
    rw [hd] at h0
    have he : e ^^^ e' = 0#64 := by rw [h0]; decide
    have zero_eq : ∀ {x y : Word}, x ^^^ y = 0#64 → x = y := by
      intro x y hxy
      have : x ^^^ y = x ^^^ x := by rw [hxy, BitVec.xor_self]
      exact (xor_left_injective this).symm
    exact ⟨(position_injective _ _).mp (zero_eq hd), zero_eq he⟩
  · rintro ⟨rfl, rfl⟩; rfl

/-- Two cells side by side differ in their lanes, whatever the recalculation. -/
example (w s e e' : Word) : lanes w ⟨0, 0, 0⟩ s e ≠ lanes w ⟨0, 0, 1⟩ s e' := by
  rw [Ne, lanes_injective]; simp

/-- **C114.** In one cell and one recalculation, the generator is started from the same word only if
the workbook's seed and the function's salt together are the same. -/
theorem seed_injective (c : Cell) (e w w' s s' : Word) :
    seed (lanes w c s e) = seed (lanes w' c s' e) ↔ w ^^^ s = w' ^^^ s' := by
  unfold seed lanes
  simp only
  rw [mix_left, mix_left]
  constructor
  · intro h
    rw [BitVec.xor_comm _ e, BitVec.xor_comm _ e] at h
    exact xor_left_injective h
  · intro h; rw [h]

theorem pigeonhole (n : Nat) (hn : 0 < n) (f : Fin n × Fin 2 → Fin n) :
    ∃ x y, x ≠ y ∧ f x = f y := by
  apply Fintype.exists_ne_map_eq_of_card_lt
  rw [Fintype.card_prod, Fintype.card_fin, Fintype.card_fin]
  omega

/-- **C114, refuted.** The two lanes are mixed into one word, and there are more cells and
recalculations than words: different cells or recalculations of one workbook start their generators
from the same word. -/
theorem seed_collides (w s : Word) :
    ∃ p q : Cell × Word, p ≠ q ∧ seed (lanes w p.1 s p.2) = seed (lanes w q.1 s q.2) := by
  obtain ⟨x, y, hne, h⟩ := pigeonhole (2 ^ 64) (by decide)
    (fun x => (seed (lanes w ⟨0, 0, BitVec.ofNat 14 x.2.val⟩ s (BitVec.ofNat 64 x.1.val))).toFin)
  refine ⟨(⟨0, 0, BitVec.ofNat 14 x.2.val⟩, BitVec.ofNat 64 x.1.val),
    (⟨0, 0, BitVec.ofNat 14 y.2.val⟩, BitVec.ofNat 64 y.1.val), ?_, ?_⟩
  · intro he
    apply hne
    simp only [Prod.mk.injEq, Cell.mk.injEq, true_and] at he
    have h1 := congrArg BitVec.toNat he.1
    have h2 := congrArg BitVec.toNat he.2
    simp only [BitVec.toNat_ofNat] at h1 h2
    rw [Nat.mod_eq_of_lt x.1.isLt, Nat.mod_eq_of_lt y.1.isLt] at h2
    rw [Nat.mod_eq_of_lt (by omega), Nat.mod_eq_of_lt (by omega)] at h1
    exact Prod.ext (Fin.ext h2) (Fin.ext h1)
  · exact BitVec.eq_of_toFin_eq h

end Verif.Rng
