/-
Property C67: every cell of a span gets its own constants back.
-/
import Verif.Template.Bind
import Mathlib.Data.List.Forall2
import Mathlib.Tactic.Ring

namespace Verif.Template

variable {F E : Type}

/-- What is assumed of floating-point numbers and of the printed errors. -/
structure Num.Laws (N : Num F E) : Prop where
  fits : ∀ x n, N.exact x = some n → I64 n
  back : ∀ x n, N.exact x = some n → N.ofInt n = x ∧ N.toInt (N.ofInt n) = n
  same : ∀ x y, N.same x y = true → x = y
  sameErr : ∀ x y, N.sameErr x y = true → x = y
  bits : ∀ x y (r r' : Text), N.bits x ++ ';' :: r = N.bits y ++ ';' :: r' → x = y ∧ r = r'
  dbg : ∀ x y (r r' : Text), N.dbg x ++ ';' :: r = N.dbg y ++ ';' :: r' → x = y ∧ r = r'

/-! ### Domains -/

theorem collect_row (a b e : Nat) (r1 c : Nat) : ∀ (k n r : Nat), k < n → r + k ≤ r1 →
    (Iter.collect (.rowRun a b e) n ⟨r, r1, c, c, c, false⟩)[k]? = some (r + k, c) := by
  intro k
  induction k with
  | zero =>
    intro n r hn hr
    obtain ⟨m, rfl⟩ : ∃ m, n = m + 1 := ⟨n - 1, by omega⟩
    simp [Iter.collect, Iter.next]
  | succ k ih =>
    intro n r hn hr
    obtain ⟨m, rfl⟩ : ∃ m, n = m + 1 := ⟨n - 1, by omega⟩
    have hne : r ≠ r1 := by omega
    have := ih m (r + 1) (by omega) (by omega)
    simp only [Iter.collect, Iter.next, Bool.false_eq_true, if_false, if_neg hne, List.getElem?_cons_succ]
    rw [this]
    congr 2
    omega

theorem collect_col (a b e : Nat) (r c0 c1 : Nat) : ∀ (k n c : Nat), k < n → c + k ≤ c1 →
    (Iter.collect (.colRun a b e) n ⟨r, r, c, c0, c1, false⟩)[k]? = some (r, c + k) := by
  intro k
  induction k with
  | zero =>
    intro n c hn hc
    obtain ⟨m, rfl⟩ : ∃ m, n = m + 1 := ⟨n - 1, by omega⟩
    simp [Iter.collect, Iter.next]
  | succ k ih =>
    intro n c hn hc
    obtain ⟨m, rfl⟩ : ∃ m, n = m + 1 := ⟨n - 1, by omega⟩
    have hne : c ≠ c1 := by omega
    have := ih m (c + 1) (by omega) (by omega)
    simp only [Iter.collect, Iter.next, Bool.false_eq_true, if_false, if_neg hne, List.getElem?_cons_succ]
    rw [this]
    congr 2
    omega

theorem collect_rect (a b e f : Nat) (r0 r1 c0 w : Nat) : ∀ (k n i j : Nat), k < n → j ≤ w → r0 + i ≤ r1 →
    i * (w + 1) + j + k < (r1 - r0 + 1) * (w + 1) →
    (Iter.collect (.rect a b e f) n ⟨r0 + i, r1, c0 + j, c0, c0 + w, false⟩)[k]? =
      some (r0 + (i * (w + 1) + j + k) / (w + 1), c0 + (i * (w + 1) + j + k) % (w + 1)) := by
  intro k
  induction k with
  | zero =>
    intro n i j hn hj hi hk
    obtain ⟨m, rfl⟩ : ∃ m, n = m + 1 := ⟨n - 1, by omega⟩
    have h1 : (i * (w + 1) + j + 0) / (w + 1) = i := by
      rw [Nat.add_zero, Nat.mul_comm, Nat.mul_add_div (by omega), Nat.div_eq_of_lt (by omega), Nat.add_zero]
    have h2 : (i * (w + 1) + j + 0) % (w + 1) = j := by
      rw [Nat.add_zero, Nat.mul_comm, Nat.mul_add_mod, Nat.mod_eq_of_lt (by omega)]
    rw [h1, h2]
    simp [Iter.collect, Iter.next]
  | succ k ih =>
    intro n i j hn hj hi hk
    obtain ⟨m, rfl⟩ : ∃ m, n = m + 1 := ⟨n - 1, by omega⟩
    simp only [Iter.collect, Iter.next, Bool.false_eq_true, if_false, List.getElem?_cons_succ]
    by_cases hjw : j < w
    · have := ih m i (j + 1) (by omega) (by omega) hi (by omega)
      rw [if_pos (by omega : c0 + j < c0 + w)]
      rw [show c0 + j + 1 = c0 + (j + 1) by omega, this, show i * (w + 1) + (j + 1) + k = i * (w + 1) + j + (k + 1) by omega]
    · have hjw : j = w := by omega
      have e1 : (i + 1) * (w + 1) = i * (w + 1) + (w + 1) := by ring
      have hlt : (i + 1) * (w + 1) < (r1 - r0 + 1) * (w + 1) := by omega
      have hlt := Nat.lt_of_mul_lt_mul_right hlt
      have := ih m (i + 1) 0 (by omega) (by omega) (by omega) (by omega)
      rw [if_neg (by omega : ¬c0 + j < c0 + w), if_pos (by omega : r0 + i < r1)]
      rw [show r0 + i + 1 = r0 + (i + 1) by omega]
      rw [show (i + 1) * (w + 1) + 0 + k = i * (w + 1) + j + (k + 1) by omega] at this
      exact this

/-- The number of a cell is its place in the order of the iterator. -/
theorem iter_get {d : Domain} {r c k : Nat} (h : d.ordinalOf r c = some k) : d.iter[k]? = some (r, c) := by
  cases d with
  | rowRun r0 r1 c' =>
    simp only [Domain.ordinalOf] at h
    split at h
    · rename_i hh
      have hk := Option.some.inj h
      have := collect_row r0 r1 c' r1 c' k (r1 - r0 + 1) r0 (by omega) (by omega)
      have hd : decide (r0 > r1) = false := decide_eq_false (by omega)
      simp only [Domain.iter, Domain.count, Iter.new, hd, this, hh.1]
      congr 2
      omega
    · cases h
  | colRun r' c0 c1 =>
    simp only [Domain.ordinalOf] at h
    split at h
    · rename_i hh
      have hk := Option.some.inj h
      have := collect_col r' c0 c1 r' c0 c1 k (c1 - c0 + 1) c0 (by omega) (by omega)
      have hd : decide (c0 > c1) = false := decide_eq_false (by omega)
      simp only [Domain.iter, Domain.count, Iter.new, hd, this, hh.1]
      congr 2
      omega
    · cases h
  | rect r0 r1 c0 c1 =>
    simp only [Domain.ordinalOf] at h
    split at h
    · rename_i hh
      have hk := Option.some.inj h
      have hlt : k < (r1 - r0 + 1) * (c1 - c0 + 1) := by
        have : (r - r0 + 1) * (c1 - c0 + 1) ≤ (r1 - r0 + 1) * (c1 - c0 + 1) := Nat.mul_le_mul_right _ (by omega)
        have e : (r - r0 + 1) * (c1 - c0 + 1) = (r - r0) * (c1 - c0 + 1) + (c1 - c0 + 1) := by ring
        omega
      have := collect_rect r0 r1 c0 c1 r0 r1 c0 (c1 - c0) k ((r1 - r0 + 1) * (c1 - c0 + 1)) 0 0 hlt (by omega) (by omega) (by omega)
      rw [show c0 + (c1 - c0) = c1 by omega, Nat.zero_mul, Nat.zero_add] at this
      have hd : (decide (r0 > r1) || decide (c0 > c1)) = false := by simp; omega
      simp only [Domain.iter, Domain.count, Iter.new, hd]
      refine this.trans ?_
      rw [← hk]
      have h1 : ((r - r0) * (c1 - c0 + 1) + (c - c0)) / (c1 - c0 + 1) = r - r0 := by
        rw [Nat.mul_comm, Nat.mul_add_div (by omega), Nat.div_eq_of_lt (by omega), Nat.add_zero]
      have h2 : ((r - r0) * (c1 - c0 + 1) + (c - c0)) % (c1 - c0 + 1) = c - c0 := by
        rw [Nat.mul_comm, Nat.mul_add_mod, Nat.mod_eq_of_lt (by omega)]
      rw [h1, h2]
      congr 2 <;> omega
    · cases h

theorem iter_mem {d : Domain} {r c k : Nat} (h : d.ordinalOf r c = some k) : (r, c) ∈ d.iter := List.mem_of_getElem? (iter_get h)

/-! ### Keys of constants -/

theorem constKey_head {N : Num F E} (L : N.Laws) {a b : Const F E} {r r' : Text} (h : constKey N a ++ r = constKey N b ++ r') : a = b ∧ r = r' := by
  have semiDigit : (';' : Char).isDigit = false := rfl
  rcases a with m | x | s | x | e | _ | _ <;> rcases b with n | y | t | y | f | _ | _
  all_goals try (cases x)
  all_goals try (cases y)
  all_goals simp only [constKey, List.append_assoc, List.cons_append, List.nil_append, List.cons.injEq, true_and] at h
  all_goals first
    | exact absurd h.1 (by decide)
    | exact ⟨rfl, h⟩
    | skip
  · obtain ⟨h1, h2⟩ := decInt_head semiDigit semiDigit h
    exact ⟨by rw [h1], (List.cons.inj h2).2⟩
  · obtain ⟨h1, h2⟩ := L.bits _ _ _ _ h
    exact ⟨by rw [h1], h2⟩
  · obtain ⟨h1, h2⟩ := stringKey_head h
    exact ⟨by rw [h1], (List.cons.inj h2).2⟩
  · obtain ⟨h1, h2⟩ := L.dbg _ _ _ _ h
    exact ⟨by rw [h1], h2⟩

theorem constKey_ne (N : Num F E) (a : Const F E) : constKey N a ≠ [] := by
  rcases a with m | x | s | (_ | _) | e | _ | _ <;> simp [constKey]

/-- Lists of constants with one key are one list. -/
theorem bindingKey_inj {N : Num F E} (L : N.Laws) {a b : List (Const F E)} (h : bindingKey N a = bindingKey N b) : a = b := by
  induction a generalizing b with
  | nil =>
    cases b with
    | nil => rfl
    | cons y b => simp [bindingKey, constKey_ne] at h
  | cons x a ih =>
    cases b with
    | nil => simp [bindingKey, constKey_ne] at h
    | cons y b =>
      simp only [bindingKey, List.flatMap_cons] at h
      obtain ⟨h1, h2⟩ := constKey_head L h
      rw [h1, ih h2]

/-! ### The table of distinct lists -/

theorem dictionary_get {N : Num F E} (L : N.Laws) {m : By F E} : ∀ (cells : List (Nat × Nat)) {uniq uniq' : List (List (Const F E))}
    {keys : Text → Option Nat} {ids ids' : List Nat}, dictionary N m cells uniq keys ids = some (uniq', ids') →
    (∀ k id, keys k = some id → ∃ b, uniq[id]? = some b ∧ bindingKey N b = k) →
    uniq <+: uniq' ∧ ids <+: ids' ∧ ∀ (k : Nat) c, cells[k]? = some c → ∃ b id, m c = some b ∧ ids'[ids.length + k]? = some id ∧ uniq'[id]? = some b := by
  intro cells
  induction cells with
  | nil =>
    intro uniq uniq' keys ids ids' h _
    simp only [dictionary, Option.some.injEq, Prod.mk.injEq] at h
    exact ⟨h.1 ▸ List.prefix_rfl, h.2 ▸ List.prefix_rfl, fun k c hk => by simp at hk⟩
  | cons c cells ih =>
    intro uniq uniq' keys ids ids' h inv
    rw [dictionary] at h
    cases hb : m c with
    | none => rw [hb] at h; cases h
    | some b =>
      rw [hb] at h
      dsimp only at h
      have fin : ∀ {u : List (List (Const F E))} {id : Nat}, u <+: uniq' → ids ++ [id] <+: ids' → u[id]? = some b →
          (∀ (k : Nat) x, cells[k]? = some x → ∃ b id', m x = some b ∧ ids'[(ids ++ [id]).length + k]? = some id' ∧ uniq'[id']? = some b) →
          ids <+: ids' ∧ ∀ (k : Nat) x, (c :: cells)[k]? = some x → ∃ b id', m x = some b ∧ ids'[ids.length + k]? = some id' ∧ uniq'[id']? = some b := by
        intro u id hu hi hid hrest
        refine ⟨(List.prefix_append _ _).trans hi, ?_⟩
        intro k x hk
        cases k with
        | zero =>
          simp only [List.getElem?_cons_zero, Option.some.injEq] at hk
          refine ⟨b, id, hk ▸ hb, ?_, ?_⟩
          · obtain ⟨t, ht⟩ := hi
            rw [← ht]
            simp
          · obtain ⟨t, ht⟩ := hu
            rw [← ht, List.getElem?_append_left (List.getElem?_eq_some_iff.1 hid).1, hid]
        | succ k =>
          obtain ⟨b', id', h1, h2, h3⟩ := hrest k x (by simpa using hk)
          exact ⟨b', id', h1, by rw [← h2]; congr 1; simp; omega, h3⟩
      cases hk : keys (bindingKey N b) with
      | some id =>
        rw [hk] at h
        obtain ⟨h1, h2, h3⟩ := ih h inv
        obtain ⟨b', hb', he⟩ := inv _ _ hk
        rw [bindingKey_inj L he] at hb'
        exact ⟨h1, fin h1 h2 hb' h3⟩
      | none =>
        rw [hk] at h
        obtain ⟨h1, h2, h3⟩ := ih h (by
          intro k id hid
          split at hid
          · rename_i hkk
            refine ⟨b, ?_, hkk.symm⟩
            rw [← Option.some.inj hid]
            simp
          · obtain ⟨b', hb', he⟩ := inv k id hid
            exact ⟨b', by rw [List.getElem?_append_left (List.getElem?_eq_some_iff.1 hb').1, hb'], he⟩)
        exact ⟨(List.prefix_append _ _).trans h1, fin h1 h2 (by simp) h3⟩

end Verif.Template
