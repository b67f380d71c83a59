import Verif.Ops.Model
import Mathlib.Data.List.Basic
import Mathlib.Data.Rat.Lemmas

/-!
# Operators work cell by cell
-/

namespace Verif.Ops

/-- An array of `m` rows and `n` columns. -/
def Rect (m n : Nat) (a : List (List S)) : Prop := a.length = m ∧ ∀ row ∈ a, row.length = n

/-- The cell in row `i` and column `j`. -/
def cell (a : List (List S)) (i j : Nat) : Option S := a[i]?.bind fun row => row[j]?

theorem cell_rect {m n : Nat} {a : List (List S)} (h : Rect m n a) {i j : Nat} (hi : i < m) (hj : j < n) : ∃ x, cell a i j = some x := by
  have hl : i < a.length := by
    rw [h.1]
    exact hi
  have hr : j < a[i].length := by
    rw [h.2 _ (List.getElem_mem hl)]
    exact hj
  exact ⟨a[i][j], by simp [cell, hl, hr]⟩

theorem shape_rect {m n : Nat} {a : List (List S)} (h : Rect m n a) (hm : 0 < m) : shape a = (m, n) := by
  cases a with
  | nil =>
    have := h.1
    simp at this
    omega
  | cons row a =>
    simp only [shape, List.head?_cons, Option.map_some, Option.getD_some]
    rw [h.1, h.2 row (List.mem_cons_self ..)]

theorem project_cell {m n : Nat} {a : List (List S)} (h : Rect m n a) (hm : 0 < m) {i j : Nat} {x : S} (hx : cell a (if m = 1 then 0 else i) (if n = 1 then 0 else j) = some x) :
    project a i j = x := by
  unfold project at_
  rw [shape_rect h hm]
  unfold cell at hx
  simp only at hx ⊢
  rw [hx]
  rfl

/-- Two numbers of rows (or columns) fit together: they are equal, or one of them is 1. -/
def Fit (m p : Nat) : Prop := m = p ∨ m = 1 ∨ p = 1

theorem dim_fit {m p : Nat} (hp : 0 < p) (hm : 0 < m) (h : Fit m p) : dim m p = some (max m p) := by
  unfold dim
  rcases h with h | h | h
  · rw [if_pos (.inl h), Nat.max_comm]
  · rw [if_pos (.inr h), Nat.max_comm]
  · rw [if_pos h]
    split
    · rw [Nat.max_comm]
    · rfl

theorem dim_one (m : Nat) (hm : 0 < m) : dim 1 m = some m := by
  unfold dim
  rw [if_pos (.inr rfl)]
  congr 1
  omega

theorem dim_unfit {m p : Nat} (h : ¬ Fit m p) : dim m p = none := by
  unfold dim Fit at *
  rw [if_neg (by omega), if_neg (by omega)]

theorem target_eq {m n p q : Nat} (hm : 0 < m) (hn : 0 < n) : target (m, n) (p, q) = (dim m p).bind fun a => (dim n q).map fun b => (a, b) := by
  unfold target
  simp only [dim_one m hm, dim_one n hn, Option.bind_eq_bind, Option.bind_some]
  cases dim m p <;> cases dim n q <;> rfl

theorem cell_table (m n : Nat) (g : Nat → Nat → S) {i j : Nat} (hi : i < m) (hj : j < n) :
    cell ((List.range m).map fun i => (List.range n).map fun j => g i j) i j = some (g i j) := by
  simp [cell, hi, hj]

theorem rect_table (m n : Nat) (g : Nat → Nat → S) : Rect m n ((List.range m).map fun i => (List.range n).map fun j => g i j) := by
  refine ⟨by simp, ?_⟩
  intro row hr
  obtain ⟨i, _, rfl⟩ := List.mem_map.1 hr
  simp

/-- A binary operator on two arrays that fit together: every cell of the result comes from the cells at its place, where a single row or column stands for all. -/
theorem broadcast_arrays (f : S → S → S) {m n p q : Nat} {l r : List (List S)} (hl : Rect m n l) (hr : Rect p q r) (hm : 0 < m) (hn : 0 < n) (hp : 0 < p) (hq : 0 < q)
    (h1 : Fit m p) (h2 : Fit n q) :
    ∃ out, broadcast f (.arr l) (.arr r) = .arr out ∧ Rect (max m p) (max n q) out ∧
      ∀ i j, i < max m p → j < max n q → ∃ x y, cell l (if m = 1 then 0 else i) (if n = 1 then 0 else j) = some x ∧
        cell r (if p = 1 then 0 else i) (if q = 1 then 0 else j) = some y ∧ cell out i j = some (f x y) := by
  refine ⟨(List.range (max m p)).map fun i => (List.range (max n q)).map fun j => f (project l i j) (project r i j), ?_, rect_table .., ?_⟩
  · simp only [broadcast, combine]
    rw [shape_rect hl hm, shape_rect hr hp, target_eq hm hn, dim_fit hp hm h1, dim_fit hq hn h2]
    rfl
  · intro i j hi hj
    have hfit : ∀ {a b k : Nat}, 0 < a → Fit a b → k < max a b → (if a = 1 then 0 else k) < a := by
      intro a b k ha hf hk
      unfold Fit at hf
      split <;> omega
    have hsym : ∀ {a b : Nat}, Fit a b → Fit b a := by
      intro a b h
      unfold Fit at *
      omega
    obtain ⟨x, hx⟩ := cell_rect hl (hfit hm h1 hi) (hfit hn h2 hj)
    obtain ⟨y, hy⟩ := cell_rect hr (hfit hp (hsym h1) (by rwa [Nat.max_comm])) (hfit hq (hsym h2) (by rwa [Nat.max_comm] : j < max q n))
    refine ⟨x, y, hx, hy, ?_⟩
    rw [cell_table _ _ (fun i j => f (project l i j) (project r i j)) hi hj, project_cell hl hm hx, project_cell hr hp hy]

/-- Arrays that do not fit together give `#VALUE!` for the whole.  Excel gives `#N/A` in the cells where one of them has no value, and results in the others. -/
theorem broadcast_unfit (f : S → S → S) {m n p q : Nat} {l r : List (List S)} (hl : Rect m n l) (hr : Rect p q r) (hm : 0 < m) (hn : 0 < n) (hp : 0 < p)
    (h : ¬ (Fit m p ∧ Fit n q)) : broadcast f (.arr l) (.arr r) = .one (.err .value) := by
  simp only [broadcast, combine]
  rw [shape_rect hl hm, shape_rect hr hp, target_eq hm hn]
  by_cases h1 : Fit m p
  · rw [dim_unfit fun h2 => h ⟨h1, h2⟩]
    cases dim m p <;> rfl
  · rw [dim_unfit h1]
    rfl

theorem table_map {m n : Nat} {a : List (List S)} (h : Rect m n a) (hm : 0 < m) (g : S → S) :
    ((List.range m).map fun i => (List.range n).map fun j => g (project a i j)) = a.map fun row => row.map g := by
  have hproj : ∀ i j x, i < m → j < n → cell a i j = some x → project a i j = x := by
    intro i j x hi hj hx
    refine project_cell h hm ?_
    rw [← hx]
    congr 1 <;> split <;> omega
  apply List.ext_getElem
  · simp [h.1]
  · intro i h1 h2
    have hi : i < m := by simpa using h1
    have hlen : a[i]'(by simpa using h2) ∈ a := List.getElem_mem _
    have hrow := h.2 _ hlen
    simp only [List.getElem_map, List.getElem_range]
    apply List.ext_getElem
    · simp [hrow]
    · intro j h3 h4
      have hj : j < n := by simpa using h3
      simp only [List.getElem_map, List.getElem_range]
      rw [hproj i j _ hi hj]
      simp [cell, h.1, hi, hrow, hj]

/-- An array and one value: the operator with the value on every cell. -/
theorem broadcast_right (f : S → S → S) {m n : Nat} {a : List (List S)} (h : Rect m n a) (hm : 0 < m) (hn : 0 < n) (v : S) :
    broadcast f (.arr a) (.one v) = .arr (a.map fun row => row.map fun x => f x v) := by
  simp only [broadcast]
  rw [shape_rect h hm, target_eq hm hn, dim_fit (by omega) hm (.inr (.inr rfl)), dim_fit (by omega) hn (.inr (.inr rfl))]
  simp only [Option.bind_some, Option.map_some]
  rw [Nat.max_eq_left (by omega), Nat.max_eq_left (by omega), table_map h hm fun x => f x v]

/-- One value and an array. -/
theorem broadcast_left (f : S → S → S) {m n : Nat} {a : List (List S)} (h : Rect m n a) (hm : 0 < m) (hn : 0 < n) (v : S) :
    broadcast f (.one v) (.arr a) = .arr (a.map fun row => row.map fun x => f v x) := by
  simp only [broadcast]
  rw [shape_rect h hm, target_eq (by omega) (by omega), dim_one m hm, dim_one n hn]
  simp only [Option.bind_some, Option.map_some]
  rw [table_map h hm fun x => f v x]

/-- A comparison of arrays is a comparison of their cells. -/
theorem compare_arrays (env : Env) (op : Cmp) (l r : Val) (hl : ∀ e, l ≠ .one (.err e)) (hr : ∀ e, r ≠ .one (.err e)) :
    compare env op l r = broadcast (compareCell env op) l r := by
  unfold compare
  split
  · rename_i e
    exact absurd rfl (hl e)
  · rename_i e _
    exact absurd rfl (hr e)
  · rfl

/-- An error as operand is the result of a comparison, the left one first. -/
theorem compare_error (env : Env) (op : Cmp) (e : E) (v : Val) : compare env op (.one (.err e)) v = .one (.err e) ∧
    ((∀ e', v ≠ .one (.err e')) → compare env op v (.one (.err e)) = .one (.err e)) := by
  refine ⟨by simp [compare], fun h => ?_⟩
  unfold compare
  split
  · rename_i e'
    exact absurd rfl (h e')
  · rename_i e' _ he
    cases he
    rfl
  · rename_i h1 h2
    exact absurd rfl (h2 e)

/-! ### Arithmetic -/

/-- The number that a cell stands for in arithmetic. -/
theorem toArith_iff (env : Env) (v : S) (x : F) :
    toArith env v = .ok x ↔ v = .num x ∨ (∃ b, v = .bool b ∧ x = if b then .fin 1 else .fin 0) ∨ v = .empty ∧ x = .fin 0 ∨
      ∃ s, v = .text s ∧ (env.parse s = some x ∨ env.parse s = none ∧ env.date s = some x) := by
  cases v with
  | num y => simp [toArith, toNumber]
  | bool b => simp [toArith, toNumber, eq_comm]
  | empty => simp [toArith, toNumber, eq_comm]
  | err e => simp [toArith, toNumber]
  | text s =>
    simp only [toArith]
    cases hp : env.parse s with
    | some y => simp [hp]
    | none =>
      cases hd : env.date s with
      | some y => simp [hp, hd]
      | none => simp [hp, hd]

/-- Arithmetic on cells that stand for numbers. -/
theorem arith_ok (env : Env) (op : F → F → F) {l r : S} {a b : F} (hl : toArith env l = .ok a) (hr : toArith env r = .ok b) :
    arith env op l r = sanitize (op a b) ∧ divide env op l r = (if b = .fin 0 then .err .div0 else sanitize (op a b)) := by
  unfold arith divide
  rw [hl, hr]
  exact ⟨rfl, rfl⟩

/-- An operand that stands for no number gives its error, the left one first; a text gives `#VALUE!`. -/
theorem arith_error (env : Env) (op pow : F → F → F) {l : S} {e : E} (r : S) (hl : toArith env l = .error e) :
    (arith env op l r = .err e ∧ divide env op l r = .err e ∧ power env pow l r = .err e) ∧
      ((∃ a, toArith env r = .ok a) → arith env op r l = .err e ∧ divide env op r l = .err e ∧ power env pow r l = .err e) ∧ (l = .err e ∨ e = .value ∧ ∃ s, l = .text s) := by
  refine ⟨?_, ?_, ?_⟩
  · unfold arith divide power
    rw [hl]
    cases toArith env r <;> exact ⟨rfl, rfl, rfl⟩
  · rintro ⟨a, ha⟩
    unfold arith divide power
    rw [hl, ha]
    exact ⟨rfl, rfl, rfl⟩
  · cases l with
    | num y => simp [toArith, toNumber] at hl
    | bool b => simp [toArith, toNumber] at hl
    | empty => simp [toArith, toNumber] at hl
    | err e' =>
      simp [toArith, toNumber] at hl
      exact .inl (by rw [hl])
    | text s =>
      simp only [toArith] at hl
      split at hl
      · cases hl
      · split at hl
        · cases hl
        · cases hl
          exact .inr ⟨rfl, s, rfl⟩

theorem sanitize_num {x y : F} (h : sanitize x = .num y) : x = y ∧ ∃ q, y = .fin q := by
  cases x <;> cases h
  exact ⟨rfl, _, rfl⟩

/-- A finite number stays as it is; the infinities and NaN become `#NUM!`. -/
theorem sanitize_spec (x : F) : (∀ q, x = .fin q → sanitize x = .num (.fin q)) ∧ ((∀ q, x ≠ .fin q) → sanitize x = .err .num) := by
  refine ⟨fun q h => by rw [h]; rfl, fun h => ?_⟩
  cases x with
  | fin q => exact absurd rfl (h q)
  | _ => rfl

/-- Two single values give one value, the left operand first. -/
theorem broadcast_one (f : S → S → S) (a b : S) : broadcast f (.one a) (.one b) = .one (f a b) := rfl

/-- The results of arithmetic are finite numbers or errors, whatever the operations are. -/
theorem arith_finite (env : Env) (op pow : F → F → F) (l r : S) : ∀ v ∈ [arith env op l r, divide env op l r, power env pow l r], (∃ q, v = .num (.fin q)) ∨ ∃ e, v = .err e := by
  have hs : ∀ x : F, (∃ q, sanitize x = .num (.fin q)) ∨ ∃ e, sanitize x = .err e := by
    intro x
    cases x with
    | fin q => exact .inl ⟨q, rfl⟩
    | ninf => exact .inr ⟨_, rfl⟩
    | inf => exact .inr ⟨_, rfl⟩
    | nan => exact .inr ⟨_, rfl⟩
  intro v hv
  simp only [List.mem_cons, List.not_mem_nil, or_false] at hv
  rcases hv with rfl | rfl | rfl
  · unfold arith
    split
    · exact hs _
    · exact .inr ⟨_, rfl⟩
    · exact .inr ⟨_, rfl⟩
  · unfold divide
    split
    · split
      · exact .inr ⟨_, rfl⟩
      · exact hs _
    · exact .inr ⟨_, rfl⟩
    · exact .inr ⟨_, rfl⟩
  · unfold power
    split
    · split
      · exact .inr ⟨_, rfl⟩
      · exact hs _
    · exact .inr ⟨_, rfl⟩
    · exact .inr ⟨_, rfl⟩

/-- A power is `#NUM!` for a negative base and an exponent that is not whole, and the power otherwise. -/
theorem power_ok (env : Env) (pow : F → F → F) {l r : S} {a b : Rat} (hl : toArith env l = .ok (.fin a)) (hr : toArith env r = .ok (.fin b)) :
    (a < 0 ∧ (¬ ∃ k : Int, b = k) → power env pow l r = .err .num) ∧ (¬ (a < 0 ∧ ¬ ∃ k : Int, b = k) → power env pow l r = sanitize (pow (.fin a) (.fin b))) := by
  have hw : (F.fin b).whole = false ↔ ¬ ∃ k : Int, b = k := by
    simp only [F.whole, decide_eq_false_iff_not]
    constructor
    · rintro h ⟨k, rfl⟩
      exact h rfl
    · intro h hd
      exact h ⟨b.num, ((Rat.den_eq_one_iff b).1 hd).symm⟩
  have hn : (F.fin a).neg = true ↔ a < 0 := by simp [F.neg]
  unfold power
  rw [hl, hr]
  simp only
  exact ⟨fun h => if_pos ⟨hn.2 h.1, hw.2 h.2⟩, fun h => if_neg fun k => h ⟨hn.1 k.1, hw.1 k.2⟩⟩

/-- `0^0` is 1 as for floating point numbers.  Excel gives `#NUM!`. -/
theorem power_zero (env : Env) {pow : F → F → F} (h : pow (.fin 0) (.fin 0) = .fin 1) : power env pow (.num (.fin 0)) (.num (.fin 0)) = .num (.fin 1) := by
  rw [(power_ok env pow (a := 0) (b := 0) rfl rfl).2 (fun k => absurd k.1 (by decide)), h]
  rfl

/-! ### Unary operators and `&` -/

/-- Unary operators work on every cell. -/
theorem unary_cells (f : S → S) (a : List (List S)) (i j : Nat) : ∃ out, unary f (.arr a) = .arr out ∧ cell out i j = (cell a i j).map f := by
  refine ⟨_, rfl, ?_⟩
  simp only [cell, List.getElem?_map]
  cases a[i]? with
  | none => rfl
  | some row => simp

/-- An operator on one operand: the number, `#NUM!` if it is not finite, or the error of the operand. -/
theorem unary_number (env : Env) (op : F → F) (v : S) : (∀ a q, toArith env v = .ok a → op a = .fin q → numberUnary env op v = .num (.fin q)) ∧
    (∀ a, toArith env v = .ok a → (∀ q, op a ≠ .fin q) → numberUnary env op v = .err .num) ∧ ∀ e, toArith env v = .error e → numberUnary env op v = .err e := by
  unfold numberUnary
  refine ⟨fun a q h h' => ?_, fun a h h' => ?_, fun e h => ?_⟩
  · rw [h]
    exact (sanitize_spec _).1 q h'
  · rw [h]
    exact (sanitize_spec _).2 h'
  · rw [h]

/-- Comparison of two cells: the first error, else a truth value. -/
theorem compare_cell (env : Env) (op : Cmp) (a b : S) : (∀ e, a = .err e → compareCell env op a b = .err e) ∧
    ((∀ e, a ≠ .err e) → ∀ e, b = .err e → compareCell env op a b = .err e) ∧ ((∀ e, a ≠ .err e) → (∀ e, b ≠ .err e) → compareCell env op a b = .bool (holds env op a b)) := by
  cases a <;> cases b <;> simp [compareCell]

/-- `&` of two values is the text of the left followed by that of the right. -/
theorem concat_text (env : Env) (l r : S) : concat env (.one l) (.one r) = .one (.text (toText env l ++ toText env r)) := rfl

/-- An error becomes part of the text: `"a"&NA()` is the text `a#N/A`.  Excel gives the error. -/
theorem concat_error (env : Env) (s : Str) (e : E) : concat env (.one (.text s)) (.one (.err e)) = .one (.text (s ++ env.showErr e)) := rfl

/-- `&` of an array is one text and no array: `A1:A3&"x"` is the debug text of the array followed by `x`. -/
theorem concat_array (env : Env) (a : List (List S)) (s : Str) : concat env (.arr a) (.one (.text s)) = .one (.text (env.debug a ++ s)) ∧ ∀ out, concat env (.arr a) (.one (.text s)) ≠ .arr out :=
  ⟨rfl, fun _ h => by cases h⟩

example (f : S → S → S) (a b c x y : S) : broadcast f (.arr [[a, b, c]]) (.arr [[x], [y]]) = .arr [[f a x, f b x, f c x], [f a y, f b y, f c y]] := rfl

example : Rect 1 3 [[S.empty, .empty, .empty]] ∧ Rect 2 1 [[S.empty], [.empty]] ∧ Fit 1 2 ∧ Fit 3 1 := by
  simp [Rect, Fit]

end Verif.Ops
