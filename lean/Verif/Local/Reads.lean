import Verif.Local.Halt

/-!
# What a formula declares is what its value depends on

`reads` says which references and names a formula mentions outside of its local names; `visit` of the model lists them with a stack.  If two workbooks agree on them, the
formula has the same value in both.
-/

namespace Verif.Local

/-- The names in scope after the name `x` is bound. -/
def inScope (x : Expr) (S : List Str) : List Str :=
  match localName x with
  | some s => norm s :: S
  | none => S

mutual

/-- The references and names that a formula mentions, where the names of `S` are local. -/
def reads (w : World) (S : List Str) : Expr → List Item
  | .lit _ => []
  | .ref r => [.ref r]
  | .name s => if norm s ∈ S then [] else [.name s]
  | .op _ args => readsAll w S args
  | .call c args => reads w S c ++ readsAll w S args
  | .fn f args =>
    match style w f args.length with
    | .pairs => readsLet w S args
    | .params => readsLam w S [] args
    | .none => readsAll w S args

/-- Those of a list of formulas. -/
def readsAll (w : World) (S : List Str) : List Expr → List Item
  | [] => []
  | e :: rest => reads w S e ++ readsAll w S rest

/-- Those of the pairs and the last formula of `LET`: a name is local behind its formula. -/
def readsLet (w : World) (S : List Str) : List Expr → List Item
  | [] => []
  | [body] => reads w S body
  | x :: e :: rest => reads w S e ++ readsLet w (inScope x S) rest

/-- Those of the last formula of `LAMBDA`, where all parameters are local. -/
def readsLam (w : World) (S P : List Str) : List Expr → List Item
  | [] => []
  | [body] => reads w (P ++ S) body
  | x :: rest => readsLam w S (P ++ inScope x []) rest

end

theorem readsLam_eq (w : World) (S : List Str) : ∀ (args : List Expr) (P : List Str) (body : Expr), args.getLast? = some body →
    readsLam w S P args = reads w (P ++ paramScope args.dropLast ++ S) body := by
  intro args
  induction args with
  | nil => intro P body h; simp at h
  | cons a as ih =>
    intro P body h
    cases as with
    | nil =>
      simp only [List.getLast?_singleton, Option.some.injEq] at h
      subst h
      simp [readsLam, paramScope]
    | cons b bs =>
      have h' : (b :: bs).getLast? = some body := by simpa [List.getLast?_cons_cons] using h
      rw [readsLam, ih _ body h']
      · simp only [List.dropLast_cons_of_ne_nil (List.cons_ne_nil b bs), paramScope, inScope]
        cases localName a <;> simp
      · intro hc
        cases hc

/-! ### The stack -/

theorem visit_all (w : World) (args : List Expr) (h : ∀ e ∈ args, ∀ stack scopes out, ∃ k, ∀ n, visit w (k + n) (.node e :: stack) scopes out = visit w n stack scopes (out ++ reads w scopes.flatten e))
    (stack : List Frame) (scopes : List (List Str)) : ∀ out, ∃ k, ∀ n, visit w (k + n) (args.map .node ++ stack) scopes out = visit w n stack scopes (out ++ readsAll w scopes.flatten args) := by
  induction args with
  | nil => intro out; exact ⟨0, fun n => by simp [readsAll]⟩
  | cons e es ih =>
    intro out
    obtain ⟨k, hk⟩ := h e (by simp) (es.map .node ++ stack) scopes out
    obtain ⟨l, hl⟩ := ih (fun x hx => h x (by simp [hx])) (out ++ reads w scopes.flatten e)
    refine ⟨k + l, fun n => ?_⟩
    simp only [List.map_cons, List.cons_append, readsAll]
    rw [Nat.add_assoc, hk, hl, List.append_assoc]

theorem visit_pairs (w : World) (stack : List Frame) (scopes : List (List Str)) : ∀ (m : Nat) (args : List Expr), args.length ≤ m →
    (∀ e ∈ args, ∀ stack scopes out, ∃ k, ∀ n, visit w (k + n) (.node e :: stack) scopes out = visit w n stack scopes (out ++ reads w scopes.flatten e)) →
    ∀ top out, ∃ k, ∀ n, visit w (k + n) (pairFrames args ++ .exitScope :: stack) (top :: scopes) out = visit w n stack scopes (out ++ readsLet w (top ++ scopes.flatten) args) := by
  intro m
  induction m with
  | zero =>
    intro args hm _ top out
    cases args with
    | nil => exact ⟨1, fun n => by rw [Nat.add_comm]; simp [pairFrames, readsLet, visit]⟩
    | cons a as => simp at hm
  | succ m ih =>
    intro args hm h top out
    match args, hm, h with
    | [], _, _ => exact ⟨1, fun n => by rw [Nat.add_comm]; simp [pairFrames, readsLet, visit]⟩
    | [body], _, h =>
      obtain ⟨k, hk⟩ := h body (by simp) (.exitScope :: stack) (top :: scopes) out
      refine ⟨k + 1, fun n => ?_⟩
      simp only [pairFrames, List.cons_append, List.nil_append, readsLet]
      rw [Nat.add_assoc, hk, Nat.add_comm 1 n]
      simp [visit]
    | x :: e :: rest, hm, h =>
      obtain ⟨k, hk⟩ := h e (by simp) ((match localName x with
        | some s => [.addBinding s]
        | none => []) ++ pairFrames rest ++ .exitScope :: stack) (top :: scopes) out
      cases hx : localName x with
      | none =>
        obtain ⟨l, hl⟩ := ih rest (by simp at hm; omega) (fun a ha => h a (by simp [ha])) top (out ++ reads w (top :: scopes).flatten e)
        refine ⟨k + l, fun n => ?_⟩
        simp only [hx, List.nil_append] at hk
        simp only [pairFrames, hx, List.cons_append, List.nil_append, readsLet, inScope]
        rw [Nat.add_assoc, hk, hl]
        simp
      | some s =>
        obtain ⟨l, hl⟩ := ih rest (by simp at hm; omega) (fun a ha => h a (by simp [ha])) (norm s :: top) (out ++ reads w (top :: scopes).flatten e)
        refine ⟨k + (1 + l), fun n => ?_⟩
        simp only [hx, List.cons_append, List.nil_append] at hk
        simp only [pairFrames, hx, List.cons_append, List.nil_append, readsLet, inScope]
        rw [Nat.add_assoc, hk, show 1 + l + n = (l + n) + 1 by omega, visit]
        rw [hl]
        simp

theorem visit_node (w : World) : ∀ (m : Nat) (e : Expr), sizeOf e < m → ∀ stack scopes out, ∃ k, ∀ n,
    visit w (k + n) (.node e :: stack) scopes out = visit w n stack scopes (out ++ reads w scopes.flatten e) := by
  intro m
  induction m with
  | zero => intro e h; exact absurd h (Nat.not_lt_zero _)
  | succ m ih =>
    intro e he stack scopes out
    cases e with
    | lit v => exact ⟨1, fun n => by rw [Nat.add_comm]; simp [visit, reads]⟩
    | ref r => exact ⟨1, fun n => by rw [Nat.add_comm]; simp [visit, reads]⟩
    | name s =>
      refine ⟨1, fun n => ?_⟩
      have hiff : (scopes.any fun scope => scope.contains (norm s)) = true ↔ norm s ∈ scopes.flatten := by
        simp [List.mem_flatten]
      rw [Nat.add_comm, visit, reads]
      by_cases hc : norm s ∈ scopes.flatten
      · rw [if_pos (hiff.2 hc), if_pos hc, List.append_nil]
      · rw [if_neg (fun h => hc (hiff.1 h)), if_neg hc]
    | op o args =>
      obtain ⟨k, hk⟩ := visit_all w args (fun a ha => ih a (by have := List.sizeOf_lt_of_mem ha; simp at he; omega)) stack scopes out
      exact ⟨k + 1, fun n => by rw [show k + 1 + n = (k + n) + 1 by omega, visit, reads, hk]⟩
    | call c args =>
      obtain ⟨l, hl⟩ := ih c (by simp at he; omega) (args.map .node ++ stack) scopes out
      obtain ⟨k, hk⟩ := visit_all w args (fun a ha => ih a (by have := List.sizeOf_lt_of_mem ha; simp at he; omega)) stack scopes (out ++ reads w scopes.flatten c)
      exact ⟨l + k + 1, fun n => by rw [show l + k + 1 + n = (l + (k + n)) + 1 by omega, visit, reads, hl, hk, List.append_assoc]⟩
    | fn f args =>
      have hsub : ∀ a ∈ args, ∀ stack scopes out, ∃ k, ∀ n, visit w (k + n) (.node a :: stack) scopes out = visit w n stack scopes (out ++ reads w scopes.flatten a) :=
        fun a ha => ih a (by have := List.sizeOf_lt_of_mem ha; simp at he; omega)
      cases hst : style w f args.length with
      | none =>
        obtain ⟨k, hk⟩ := visit_all w args hsub stack scopes out
        refine ⟨k + 1, fun n => ?_⟩
        rw [show k + 1 + n = (k + n) + 1 by omega, visit, reads]
        simp only [hst]
        rw [hk]
      | pairs =>
        obtain ⟨k, hk⟩ := visit_pairs w stack scopes args.length args (Nat.le_refl _) hsub [] out
        refine ⟨k + 1, fun n => ?_⟩
        rw [show k + 1 + n = (k + n) + 1 by omega, visit, reads]
        simp only [hst]
        rw [hk]
        simp
      | params =>
        cases hl : args.getLast? with
        | none =>
          have : args = [] := List.getLast?_eq_none_iff.1 hl
          subst this
          refine ⟨1, fun n => ?_⟩
          rw [Nat.add_comm, visit, reads]
          simp only [hst, hl]
          simp [readsLam]
        | some body =>
          obtain ⟨k, hk⟩ := hsub body (List.mem_of_getLast? hl) (.exitScope :: stack) (paramScope args.dropLast :: scopes) out
          refine ⟨k + 2, fun n => ?_⟩
          rw [show k + 2 + n = (k + (n + 1)) + 1 by omega, visit, reads]
          simp only [hst, hl]
          rw [hk, visit, readsLam_eq w _ args [] body hl]
          simp

/-- The stack lists what the formula reads, in the order in which it is written. -/
theorem visit_more (w : World) : ∀ {n : Nat} {stack : List Frame} {scopes : List (List Str)} {out items : List Item}, visit w n stack scopes out = some items → ∀ k,
    visit w (n + k) stack scopes out = some items := by
  intro n
  induction n with
  | zero =>
    intro stack scopes out items h k
    cases stack with
    | nil => cases k <;> simpa [visit] using h
    | cons f fs => simp [visit] at h
  | succ n ih =>
    intro stack scopes out items h k
    rw [show n + 1 + k = n + k + 1 by omega]
    cases stack with
    | nil => simpa [visit] using h
    | cons f fs =>
      cases f with
      | addBinding s => simp only [visit] at h ⊢; exact ih h k
      | exitScope => simp only [visit] at h ⊢; exact ih h k
      | node e =>
        cases e with
        | lit v => simp only [visit] at h ⊢; exact ih h k
        | ref r => simp only [visit] at h ⊢; exact ih h k
        | name s =>
          simp only [visit] at h ⊢
          split at h
          · rename_i hc; rw [if_pos hc]; exact ih h k
          · rename_i hc; rw [if_neg hc]; exact ih h k
        | op o args => simp only [visit] at h ⊢; exact ih h k
        | call c args => simp only [visit] at h ⊢; exact ih h k
        | fn f args =>
          simp only [visit] at h ⊢
          cases hs : style w f args.length with
          | pairs => simp only [hs] at h ⊢; exact ih h k
          | none => simp only [hs] at h ⊢; exact ih h k
          | params =>
            simp only [hs] at h ⊢
            cases hl : args.getLast? with
            | none => simp only [hl] at h ⊢; exact ih h k
            | some b => simp only [hl] at h ⊢; exact ih h k

theorem visit_reads (w : World) (e : Expr) : ∃ k, ∀ n, visit w (k + n) [.node e] [] [] = some (reads w [] e) := by
  obtain ⟨k, hk⟩ := visit_node w (sizeOf e + 1) e (Nat.lt_succ_self _) [] [] []
  refine ⟨k, fun n => ?_⟩
  rw [hk]
  cases n <;> simp [visit]

end Verif.Local
