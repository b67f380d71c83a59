import Verif.Scc.Order
import Mathlib.Algebra.Order.Ring.Rat
import Mathlib.Algebra.Order.Group.Unbundled.Abs
import Mathlib.Algebra.Order.Group.Abs

/-!
# The test of convergence

Model of `/repo/crates/formualizer-eval/src/engine/convergence.rs` 24-164.  All values of the numeric classes are their serial numbers (59-69).  A finite number is a rational and the difference is exact
(the code rounds it to `f64`).
-/

namespace Verif.Scc.Conv

/-- A number. -/
inductive Num where
  | fin (q : Rat)
  | inf (negative : Bool)
  | nan (bits : Nat)
deriving DecidableEq

/-- `LiteralValue`, with its numeric classes as one. -/
inductive Val where
  | num (x : Num)
  | bool (b : Bool)
  | text (s : String)
  | err (kind : Nat)
  | empty
  | arr (rows : List (List Val))
  | pending

/-- convergence.rs 28-38, `ConvergenceOutcome`; an infinite or undefined difference is left out of `delta`. -/
structure Out where
  converged : Bool
  delta : Option Rat
  nan : Bool
deriving DecidableEq

/-- convergence.rs 41-54. -/
def Out.yes : Out := ⟨true, none, false⟩
def Out.no : Out := ⟨false, none, false⟩

/-- convergence.rs 80-105. -/
def numbers (m : Rat) : Num → Num → Out
  | .nan a, .nan b => if a = b then ⟨true, none, true⟩ else .no
  | .nan _, _ => .no
  | _, .nan _ => .no
  | .fin a, .fin b => ⟨decide (|b - a| < m), some |b - a|, false⟩
  | _, _ => .no

/-- convergence.rs 148-152: the outcomes of the cells together. -/
def merge (acc e : Out) : Out :=
  ⟨acc.converged,
    (match acc.delta, e.delta with
      | some x, some y => some (max x y)
      | some x, none => some x
      | none, y => y),
    acc.nan || e.nan⟩

/-- convergence.rs 136-138. -/
def sameShape : List (List Val) → List (List Val) → Bool
  | [], [] => true
  | a :: as, b :: bs => decide (a.length = b.length) && sameShape as bs
  | _, _ => false

mutual
/-- convergence.rs 73-163, `values_converged`. -/
def conv (m : Rat) : Val → Val → Out
  | .num a, .num b => numbers m a b
  | .bool a, .bool b => if a = b then .yes else .no
  | .text a, .text b => if a = b then .yes else .no
  | .err a, .err b => if a = b then .yes else .no
  | .empty, .empty => .yes
  | .arr a, .arr b => if sameShape a b = true then convRows m a b .yes else .no
  | _, _ => .no
/-- convergence.rs 140-155. -/
def convRows (m : Rat) : List (List Val) → List (List Val) → Out → Out
  | a :: as, b :: bs, acc =>
    match convRow m a b acc with
    | none => .no
    | some acc => convRows m as bs acc
  | _, _, acc => acc
/-- convergence.rs 141-154. -/
def convRow (m : Rat) : List Val → List Val → Out → Option Out
  | a :: as, b :: bs, acc => if (conv m a b).converged = true then convRow m as bs (merge acc (conv m a b)) else none
  | _, _, acc => some acc
end

/-- Two values that differ by less than `m`. -/
inductive Close (m : Rat) : Val → Val → Prop where
  | fin {a b : Rat} (h : |b - a| < m) : Close m (.num (.fin a)) (.num (.fin b))
  | nan (bits : Nat) : Close m (.num (.nan bits)) (.num (.nan bits))
  | bool (b : Bool) : Close m (.bool b) (.bool b)
  | text (s : String) : Close m (.text s) (.text s)
  | err (k : Nat) : Close m (.err k) (.err k)
  | empty : Close m .empty .empty
  | arr {a b : List (List Val)} (h : List.Forall₂ (List.Forall₂ (Close m)) a b) : Close m (.arr a) (.arr b)

theorem numbers_iff (m : Rat) (a b : Num) : (numbers m a b).converged = true ↔ Close m (.num a) (.num b) := by
  constructor
  · intro h
    unfold numbers at h
    split at h
    · split at h
      · rename_i he
        subst he
        exact .nan _
      · cases h
    · cases h
    · cases h
    · exact .fin (by simpa using h)
    · cases h
  · intro h
    cases h with
    | fin h => simpa [numbers] using h
    | nan bits => simp [numbers]

theorem shape_of_forall {R : Val → Val → Prop} {a b : List (List Val)} (h : List.Forall₂ (List.Forall₂ R) a b) : sameShape a b = true := by
  induction h with
  | nil => rfl
  | cons h _ ih => simp [sameShape, h.length_eq, ih]

mutual
/-- The test is whether the values are close. -/
theorem conv_iff (m : Rat) : ∀ a b : Val, (conv m a b).converged = true ↔ Close m a b
  | .num a, b => by
    cases b with
    | num b => simpa only [conv] using numbers_iff m a b
    | _ => exact ⟨fun h => by simp [conv, Out.no] at h, fun h => by cases h⟩
  | .bool a, b => by
    cases b with
    | bool b =>
      simp only [conv]
      constructor
      · intro h
        split at h
        · rename_i he
          subst he
          exact .bool _
        · cases h
      · intro h
        cases h
        simp [Out.yes]
    | _ => exact ⟨fun h => by simp [conv, Out.no] at h, fun h => by cases h⟩
  | .text a, b => by
    cases b with
    | text b =>
      simp only [conv]
      constructor
      · intro h
        split at h
        · rename_i he
          subst he
          exact .text _
        · cases h
      · intro h
        cases h
        simp [Out.yes]
    | _ => exact ⟨fun h => by simp [conv, Out.no] at h, fun h => by cases h⟩
  | .err a, b => by
    cases b with
    | err b =>
      simp only [conv]
      constructor
      · intro h
        split at h
        · rename_i he
          subst he
          exact .err _
        · cases h
      · intro h
        cases h
        simp [Out.yes]
    | _ => exact ⟨fun h => by simp [conv, Out.no] at h, fun h => by cases h⟩
  | .empty, b => by
    cases b with
    | empty => exact ⟨fun _ => .empty, fun _ => rfl⟩
    | _ => exact ⟨fun h => by simp [conv, Out.no] at h, fun h => by cases h⟩
  | .pending, b => by
    cases b <;> exact ⟨fun h => by simp [conv, Out.no] at h, fun h => by cases h⟩
  | .arr a, b => by
    cases b with
    | arr b =>
      simp only [conv]
      constructor
      · intro h
        split at h
        · rename_i hs
          exact .arr ((convRows_iff m a b hs .yes rfl).1 h)
        · cases h
      · intro h
        cases h with
        | arr h =>
          rw [if_pos (shape_of_forall h)]
          exact (convRows_iff m a b (shape_of_forall h) .yes rfl).2 h
    | _ => exact ⟨fun h => by simp [conv, Out.no] at h, fun h => by cases h⟩
theorem convRows_iff (m : Rat) : ∀ (a b : List (List Val)), sameShape a b = true → ∀ acc : Out, acc.converged = true →
    ((convRows m a b acc).converged = true ↔ List.Forall₂ (List.Forall₂ (Close m)) a b)
  | [], [], _, acc, ha => by simp [convRows, ha]
  | [], _ :: _, hs, _, _ => by simp [sameShape] at hs
  | _ :: _, [], hs, _, _ => by simp [sameShape] at hs
  | a :: as, b :: bs, hs, acc, ha => by
    simp only [sameShape, Bool.and_eq_true, decide_eq_true_eq] at hs
    have hr := convRow_iff m a b hs.1 acc
    simp only [convRows, List.forall₂_cons]
    cases h : convRow m a b acc with
    | none =>
      simp only [h] at hr
      constructor
      · intro hc
        cases hc
      · intro hc
        have := (hr.2).1 hc.1
        simp at this
    | some acc' =>
      simp only [h] at hr
      have hacc : acc'.converged = true := (hr.1 acc' rfl).trans ha
      rw [convRows_iff m as bs hs.2 acc' hacc]
      exact ⟨fun hc => ⟨hr.2.2 rfl, hc⟩, fun hc => hc.2⟩
theorem convRow_iff (m : Rat) : ∀ (a b : List Val), a.length = b.length → ∀ acc : Out,
    (∀ acc', convRow m a b acc = some acc' → acc'.converged = acc.converged) ∧ (List.Forall₂ (Close m) a b ↔ (convRow m a b acc).isSome = true)
  | [], [], _, acc => by simp [convRow]
  | [], _ :: _, hs, _ => by simp at hs
  | _ :: _, [], hs, _ => by simp at hs
  | a :: as, b :: bs, hs, acc => by
    have h1 := conv_iff m a b
    have h2 := convRow_iff m as bs (by simpa using hs) (merge acc (conv m a b))
    simp only [convRow, List.forall₂_cons]
    by_cases hc : (conv m a b).converged = true
    · rw [if_pos hc]
      exact ⟨fun acc' h => (h2.1 acc' h).trans rfl, ⟨fun h => h2.2.1 h.2, fun h => ⟨h1.1 hc, h2.2.2 h⟩⟩⟩
    · rw [if_neg hc]
      exact ⟨fun acc' h => by (cases h), ⟨fun h => absurd (h1.2 h.1) hc, fun h => by (cases h)⟩⟩
end

theorem forall_imp {α : Type} {R S : α → α → Prop} : ∀ {a b : List α}, (∀ x ∈ a, ∀ y, R x y → S x y) → List.Forall₂ R a b → List.Forall₂ S a b
  | _, _, _, .nil => .nil
  | _, _, h, .cons h1 h2 => .cons (h _ (by simp) _ h1) (forall_imp (fun x hx => h x (by simp [hx])) h2)

mutual
/-- Closeness goes both ways. -/
theorem close_symm (m : Rat) : ∀ {a b : Val}, Close m a b → Close m b a
  | .num _, _, .fin h => .fin (by rw [abs_sub_comm]; exact h)
  | .num _, _, .nan b => .nan b
  | .bool _, _, .bool b => .bool b
  | .text _, _, .text b => .text b
  | .err _, _, .err b => .err b
  | .empty, _, .empty => .empty
  | .arr _, _, .arr h => .arr (close_symm_rows m h)
theorem close_symm_rows (m : Rat) : ∀ {a b : List (List Val)}, List.Forall₂ (List.Forall₂ (Close m)) a b → List.Forall₂ (List.Forall₂ (Close m)) b a
  | [], _, .nil => .nil
  | _ :: _, _, .cons h1 h2 => .cons (close_symm_row m h1) (close_symm_rows m h2)
theorem close_symm_row (m : Rat) : ∀ {a b : List Val}, List.Forall₂ (Close m) a b → List.Forall₂ (Close m) b a
  | [], _, .nil => .nil
  | _ :: _, _, .cons h1 h2 => .cons (close_symm m h1) (close_symm_row m h2)
end

mutual
/-- A wider bound accepts more. -/
theorem close_mono {m m' : Rat} (hm : m ≤ m') : ∀ {a b : Val}, Close m a b → Close m' a b
  | .num _, _, .fin h => .fin (lt_of_lt_of_le h hm)
  | .num _, _, .nan b => .nan b
  | .bool _, _, .bool b => .bool b
  | .text _, _, .text b => .text b
  | .err _, _, .err b => .err b
  | .empty, _, .empty => .empty
  | .arr _, _, .arr h => .arr (close_mono_rows hm h)
theorem close_mono_rows {m m' : Rat} (hm : m ≤ m') : ∀ {a b : List (List Val)}, List.Forall₂ (List.Forall₂ (Close m)) a b → List.Forall₂ (List.Forall₂ (Close m')) a b
  | [], _, .nil => .nil
  | _ :: _, _, .cons h1 h2 => .cons (close_mono_row hm h1) (close_mono_rows hm h2)
theorem close_mono_row {m m' : Rat} (hm : m ≤ m') : ∀ {a b : List Val}, List.Forall₂ (Close m) a b → List.Forall₂ (Close m') a b
  | [], _, .nil => .nil
  | _ :: _, _, .cons h1 h2 => .cons (close_mono hm h1) (close_mono_row hm h2)
end

/-- The largest difference reported is below the bound. -/
def Below (m : Rat) (o : Out) : Prop := ∀ d, o.delta = some d → d < m

theorem merge_below {m : Rat} {acc e : Out} (h1 : Below m acc) (h2 : Below m e) : Below m (merge acc e) := by
  intro d hd
  unfold merge at hd
  simp only at hd
  split at hd
  · rename_i x y hx hy
    cases hd
    exact max_lt (h1 x hx) (h2 y hy)
  · rename_i hx _
    cases hd
    exact h1 _ hx
  · exact h2 d hd

mutual
theorem conv_below (m : Rat) : ∀ a b : Val, (conv m a b).converged = true → Below m (conv m a b)
  | .num a, b => by
    intro h d hd
    cases b with
    | num b =>
      simp only [conv] at h hd
      unfold numbers at h hd
      split at h
      · split at h
        · rename_i he
          simp [he] at hd
        · cases h
      · cases h
      · cases h
      · simp only [Option.some.injEq] at hd
        rw [← hd]
        simpa using h
      · cases h
    | _ => simp [conv, Out.no] at h
  | .bool a, b => by
    intro h d hd
    cases b with
    | bool b => simp only [conv] at hd; split at hd <;> cases hd
    | _ => simp [conv, Out.no] at h
  | .text a, b => by
    intro h d hd
    cases b with
    | text b => simp only [conv] at hd; split at hd <;> cases hd
    | _ => simp [conv, Out.no] at h
  | .err a, b => by
    intro h d hd
    cases b with
    | err b => simp only [conv] at hd; split at hd <;> cases hd
    | _ => simp [conv, Out.no] at h
  | .empty, b => by
    intro h d hd
    cases b with
    | empty => simp [conv, Out.yes] at hd
    | _ => simp [conv, Out.no] at h
  | .pending, b => by
    intro h
    cases b <;> simp [conv, Out.no] at h
  | .arr a, b => by
    intro h
    cases b with
    | arr b =>
      simp only [conv] at h ⊢
      split at h
      · rename_i hs
        rw [if_pos hs]
        exact convRows_below m a b .yes (fun d hd => by cases hd)
      · cases h
    | _ => simp [conv, Out.no] at h
theorem convRows_below (m : Rat) : ∀ (a b : List (List Val)) (acc : Out), Below m acc → Below m (convRows m a b acc)
  | [], _, acc, ha => by simpa [convRows] using ha
  | _ :: _, [], acc, ha => by simpa [convRows] using ha
  | a :: as, b :: bs, acc, ha => by
    simp only [convRows]
    cases h : convRow m a b acc with
    | none => exact fun d hd => by cases hd
    | some acc' => exact convRows_below m as bs acc' (convRow_below m a b acc ha acc' h)
theorem convRow_below (m : Rat) : ∀ (a b : List Val) (acc : Out), Below m acc → ∀ acc', convRow m a b acc = some acc' → Below m acc'
  | [], _, acc, ha, acc', h => by simp only [convRow, Option.some.injEq] at h; exact h ▸ ha
  | _ :: _, [], acc, ha, acc', h => by simp only [convRow, Option.some.injEq] at h; exact h ▸ ha
  | a :: as, b :: bs, acc, ha, acc', h => by
    simp only [convRow] at h
    split at h
    · rename_i hc
      exact convRow_below m as bs _ (merge_below ha (conv_below m a b hc)) acc' h
    · cases h
end

/-- A number that does not move has converged only if the bound is positive, and an infinite one never. -/
theorem close_self (m : Rat) : (∀ q, Close m (.num (.fin q)) (.num (.fin q)) ↔ 0 < m) ∧ ∀ s b, ¬ Close m (.num (.inf s)) b := by
  refine ⟨fun q => ⟨fun h => ?_, fun h => .fin (by simpa using h)⟩, fun s b h => by cases h⟩
  cases h with
  | fin h => simpa using h

/-- The test of a unit with these values: all members that are not excluded are close to their values of the pass before. -/
theorem converged_values {n : Nat} [DecidableEq Val] {a : (Fin n → List (Fin n)) → Analysis n} {m : Rat} {u : Members n Val} {pol : Policy} {val : Fin n → Val} {excl : Fin n → Bool} {k : Nat}
    {R : Loop n Val} (h : evaluate a (fun x y => (conv m x y).converged) u pol val excl k = some (R, .converged)) :
    ∃ st : St n Val, R.st = pass u st st.live ∧ ∀ i, R.st.excl i = false → Close m (st.val i) (R.st.val i) := by
  obtain ⟨st, h1, h2⟩ := converged_close h
  exact ⟨st, h1, fun i hi => (conv_iff m _ _).1 (h2 i hi)⟩

/-- Kinds that differ are never close, and arrays of different shapes are not. -/
example : ¬ Close 1 .empty (.num (.fin 0)) ∧ ¬ Close 1 (.bool true) (.num (.fin 1)) ∧ Close (1 / 2) (.arr [[.num (.fin 1), .text "a"]]) (.arr [[.num (.fin (5 / 4)), .text "a"]]) := by
  refine ⟨fun h => (by cases h), fun h => (by cases h), .arr (.cons (.cons (.fin ?_) (.cons (.text _) .nil)) .nil)⟩
  decide +kernel

end Verif.Scc.Conv
