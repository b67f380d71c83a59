import Verif.Adjust.Model

/-!
# The tree traversal of the structural adjuster

Specification: `Ast.refs` lists the references of a formula, `Ast.subst` replaces each of them. The adjuster is shown to
be exactly such a replacement, whatever the nesting, and to answer "unchanged" exactly when no reference changes.
-/

namespace Verif.Adjust

mutual
/-- The references of a formula, left to right. -/
def Ast.refs : Ast → List Ref
  | .lit _ => []
  | .refErr => []
  | .ref _ r => [r]
  | .un _ e => e.refs
  | .bin _ l r => l.refs ++ r.refs
  | .fn _ args => refsList args
  | .call c args => c.refs ++ refsList args
  | .arr rows => refsRows rows
def refsList : List Ast → List Ref
  | [] => []
  | x :: xs => x.refs ++ refsList xs
def refsRows : List (List Ast) → List Ref
  | [] => []
  | x :: xs => refsList x ++ refsRows xs
end

mutual
/-- The formula with every reference replaced. -/
def Ast.subst (g : String → Ref → Ast) : Ast → Ast
  | .lit t => .lit t
  | .refErr => .refErr
  | .ref o r => g o r
  | .un op e => .un op (e.subst g)
  | .bin op l r => .bin op (l.subst g) (r.subst g)
  | .fn name args => .fn name (substList g args)
  | .call c args => .call (c.subst g) (substList g args)
  | .arr rows => .arr (substRows g rows)
def substList (g : String → Ref → Ast) : List Ast → List Ast
  | [] => []
  | x :: xs => x.subst g :: substList g xs
def substRows (g : String → Ref → Ast) : List (List Ast) → List (List Ast)
  | [] => []
  | x :: xs => substList g x :: substRows g xs
end

/-- What replaces a reference: itself if it does not change, the new one with its canonical text, or `#REF!`. -/
def put (norm : Ref → String) (g : Ref → Adj) (o : String) (r : Ref) : Ast :=
  match g r with
  | .ref r' => if r' = r then .ref o r else .ref (norm r') r'
  | .invalid => .refErr

mutual
theorem adjust_spec (norm : Ref → String) (f : Ref → Option Adj) (g : Ref → Adj) : ∀ t : Ast, (∀ r ∈ t.refs, f r = some (g r)) →
    ∃ o, adjust norm f t = some o ∧ o.getD t = t.subst (put norm g) ∧ (o = none ↔ ∀ r ∈ t.refs, g r = .ref r)
  | .lit _, _ => ⟨none, by simp [adjust, Ast.subst, Ast.refs]⟩
  | .refErr, _ => ⟨none, by simp [adjust, Ast.subst, Ast.refs]⟩
  | .ref o r, h => by
    have hr := h r (by simp [Ast.refs])
    refine ⟨_, by rw [adjust, hr]; rfl, ?_, ?_⟩
    · simp only [Ast.subst, put]
      cases g r with
      | invalid => rfl
      | ref r' => simp only; split <;> rfl
    · simp only [Ast.refs, List.mem_singleton, forall_eq]
      cases g r with
      | invalid => simp
      | ref r' => simp only [Adj.ref.injEq]; split <;> simp [*]
  | .un op e, h => by
    obtain ⟨o, h1, h2, h3⟩ := adjust_spec norm f g e (by simpa [Ast.refs] using h)
    refine ⟨_, by rw [adjust, h1]; rfl, ?_, ?_⟩
    · simp only [Ast.subst]; rw [← h2]; cases o <;> rfl
    · simp only [Ast.refs]; rw [← h3]; cases o <;> simp
  | .bin op l r, h => by
    obtain ⟨ol, l1, l2, l3⟩ := adjust_spec norm f g l (fun r' hr => h r' (by simp [Ast.refs, hr]))
    obtain ⟨or, r1, r2, r3⟩ := adjust_spec norm f g r (fun r' hr => h r' (by simp [Ast.refs, hr]))
    refine ⟨_, by rw [adjust, l1, r1]; rfl, ?_, ?_⟩
    · simp only [Ast.subst]; rw [← l2, ← r2]; cases ol <;> cases or <;> rfl
    · simp only [Ast.refs, List.mem_append, or_imp, forall_and, ← l3, ← r3]
      cases ol <;> cases or <;> simp
  | .fn name args, h => by
    obtain ⟨xs, b, h1, h2, h3⟩ := adjustList_spec norm f g args (by simpa [Ast.refs] using h)
    refine ⟨_, by rw [adjust, h1]; rfl, ?_, ?_⟩
    · cases b
      · simp only [Ast.subst]; rw [← h2]; simp [h3.1 rfl]
      · simp only [Ast.subst]; rw [← h2]; simp
    · simp only [Ast.refs]
      rw [← h3.2]
      cases b <;> simp
  | .call c args, h => by
    obtain ⟨oc, c1, c2, c3⟩ := adjust_spec norm f g c (fun r' hr => h r' (by simp [Ast.refs, hr]))
    obtain ⟨xs, b, h1, h2, h3⟩ := adjustList_spec norm f g args (fun r' hr => h r' (by simp [Ast.refs, hr]))
    refine ⟨_, by rw [adjust, c1, h1]; rfl, ?_, ?_⟩
    · simp only [Ast.subst]
      rw [← h2, ← c2]
      cases oc <;> cases b <;> simp
      exact (h3.1 rfl).symm
    · simp only [Ast.refs, List.mem_append, or_imp, forall_and, ← c3, ← h3.2]
      cases oc <;> cases b <;> simp
  | .arr rows, h => by
    obtain ⟨xs, b, h1, h2, h3⟩ := adjustRows_spec norm f g rows (by simpa [Ast.refs] using h)
    refine ⟨_, by rw [adjust, h1]; rfl, ?_, ?_⟩
    · cases b
      · simp only [Ast.subst]; rw [← h2]; simp [h3.1 rfl]
      · simp only [Ast.subst]; rw [← h2]; simp
    · simp only [Ast.refs]
      rw [← h3.2]
      cases b <;> simp
theorem adjustList_spec (norm : Ref → String) (f : Ref → Option Adj) (g : Ref → Adj) : ∀ ts : List Ast,
    (∀ r ∈ refsList ts, f r = some (g r)) →
    ∃ xs b, adjustList norm f ts = some (xs, b) ∧ xs = substList (put norm g) ts ∧ (b = false → xs = ts) ∧
      (b = false ↔ ∀ r ∈ refsList ts, g r = .ref r)
  | [], _ => ⟨[], false, by simp [adjustList, substList, refsList]⟩
  | x :: ts, h => by
    obtain ⟨o, h1, h2, h3⟩ := adjust_spec norm f g x (fun r' hr => h r' (by simp [refsList, hr]))
    obtain ⟨xs, b, t1, t2, t3, t4⟩ := adjustList_spec norm f g ts (fun r' hr => h r' (by simp [refsList, hr]))
    simp only [refsList, List.mem_append, or_imp, forall_and, ← h3, ← t4]
    rw [adjustList, h1, t1]
    cases o with
    | none =>
      refine ⟨x :: xs, b, rfl, ?_, fun hb => by rw [t3 hb], by simp⟩
      simp only [substList, ← h2, t2]; rfl
    | some y =>
      refine ⟨y :: xs, true, rfl, ?_, by simp, by simp⟩
      simp only [substList, ← h2, t2]; rfl
theorem adjustRows_spec (norm : Ref → String) (f : Ref → Option Adj) (g : Ref → Adj) : ∀ ts : List (List Ast),
    (∀ r ∈ refsRows ts, f r = some (g r)) →
    ∃ xs b, adjustRows norm f ts = some (xs, b) ∧ xs = substRows (put norm g) ts ∧ (b = false → xs = ts) ∧
      (b = false ↔ ∀ r ∈ refsRows ts, g r = .ref r)
  | [], _ => ⟨[], false, by simp [adjustRows, substRows, refsRows]⟩
  | x :: ts, h => by
    obtain ⟨ys, b', h1, h2, h3, h4⟩ := adjustList_spec norm f g x (fun r' hr => h r' (by simp [refsRows, hr]))
    obtain ⟨xs, b, t1, t2, t3, t4⟩ := adjustRows_spec norm f g ts (fun r' hr => h r' (by simp [refsRows, hr]))
    simp only [refsRows, List.mem_append, or_imp, forall_and, ← h4, ← t4]
    rw [adjustRows, h1, t1]
    refine ⟨ys :: xs, b' || b, rfl, by simp only [substRows, h2, t2], ?_, by simp⟩
    intro hb
    simp only [Bool.or_eq_false_iff] at hb
    rw [h3 hb.1, t3 hb.2]
end

/-- C21/C22, trees: the adjusted formula is the formula with each reference adjusted, at any depth and inside calls and
arrays as well; "unchanged" is reported exactly when no reference changes. -/
theorem adjustAst_spec (norm : Ref → String) (ctx : Option Ctx) (op : Shift) (t : Ast) (g : Ref → Adj)
    (h : ∀ r ∈ t.refs, adjustRef ctx op r = some (g r)) :
    adjustAst norm ctx op t = some (t.subst (put norm g)) ∧
      (adjust norm (adjustRef ctx op) t = some none ↔ ∀ r ∈ t.refs, g r = .ref r) := by
  obtain ⟨o, h1, h2, h3⟩ := adjust_spec norm _ g t h
  refine ⟨by rw [adjustAst, h1]; simp [h2], ?_⟩
  rw [h1, ← h3]; simp

mutual
theorem subst_subst (f g : String → Ref → Ast) : ∀ t : Ast, (t.subst f).subst g = t.subst fun o r => (f o r).subst g
  | .lit _ => rfl
  | .refErr => rfl
  | .ref _ _ => rfl
  | .un op e => by simp only [Ast.subst, subst_subst f g e]
  | .bin op l r => by simp only [Ast.subst, subst_subst f g l, subst_subst f g r]
  | .fn name args => by simp only [Ast.subst, substList_substList f g args]
  | .call c args => by simp only [Ast.subst, subst_subst f g c, substList_substList f g args]
  | .arr rows => by simp only [Ast.subst, substRows_substRows f g rows]
theorem substList_substList (f g : String → Ref → Ast) : ∀ t : List Ast,
    substList g (substList f t) = substList (fun o r => (f o r).subst g) t
  | [] => rfl
  | x :: xs => by simp only [substList, subst_subst f g x, substList_substList f g xs]
theorem substRows_substRows (f g : String → Ref → Ast) : ∀ t : List (List Ast),
    substRows g (substRows f t) = substRows (fun o r => (f o r).subst g) t
  | [] => rfl
  | x :: xs => by simp only [substRows, substList_substList f g x, substRows_substRows f g xs]
end

mutual
theorem subst_congr (f g : String → Ref → Ast) : ∀ t : Ast, (∀ r ∈ t.refs, ∀ o, f o r = g o r) → t.subst f = t.subst g
  | .lit _, _ => rfl
  | .refErr, _ => rfl
  | .ref o r, h => h r (by simp [Ast.refs]) o
  | .un op e, h => by simp only [Ast.subst]; rw [subst_congr f g e (by simpa [Ast.refs] using h)]
  | .bin op l r, h => by
    simp only [Ast.subst]
    rw [subst_congr f g l (fun r' hr => h r' (by simp [Ast.refs, hr])),
      subst_congr f g r (fun r' hr => h r' (by simp [Ast.refs, hr]))]
  | .fn name args, h => by simp only [Ast.subst]; rw [substList_congr f g args (by simpa [Ast.refs] using h)]
  | .call c args, h => by
    simp only [Ast.subst]
    rw [subst_congr f g c (fun r' hr => h r' (by simp [Ast.refs, hr])),
      substList_congr f g args (fun r' hr => h r' (by simp [Ast.refs, hr]))]
  | .arr rows, h => by simp only [Ast.subst]; rw [substRows_congr f g rows (by simpa [Ast.refs] using h)]
theorem substList_congr (f g : String → Ref → Ast) : ∀ t : List Ast, (∀ r ∈ refsList t, ∀ o, f o r = g o r) →
    substList f t = substList g t
  | [], _ => rfl
  | x :: xs, h => by
    simp only [substList]
    rw [subst_congr f g x (fun r' hr => h r' (by simp [refsList, hr])),
      substList_congr f g xs (fun r' hr => h r' (by simp [refsList, hr]))]
theorem substRows_congr (f g : String → Ref → Ast) : ∀ t : List (List Ast), (∀ r ∈ refsRows t, ∀ o, f o r = g o r) →
    substRows f t = substRows g t
  | [], _ => rfl
  | x :: xs, h => by
    simp only [substRows]
    rw [substList_congr f g x (fun r' hr => h r' (by simp [refsRows, hr])),
      substRows_congr f g xs (fun r' hr => h r' (by simp [refsRows, hr]))]
end

mutual
theorem refs_subst (f : String → Ref → Ast) : ∀ (t : Ast) (r : Ref), r ∈ (t.subst f).refs → ∃ r0 ∈ t.refs, ∃ o, r ∈ (f o r0).refs
  | .lit _, r, h => by simp [Ast.subst, Ast.refs] at h
  | .refErr, r, h => by simp [Ast.subst, Ast.refs] at h
  | .ref o r0, r, h => ⟨r0, by simp [Ast.refs], o, h⟩
  | .un op e, r, h => by simpa [Ast.refs] using refs_subst f e r (by simpa [Ast.subst, Ast.refs] using h)
  | .bin op a b, r, h => by
    simp only [Ast.subst, Ast.refs, List.mem_append] at h
    rcases h with h | h
    · obtain ⟨r0, h0, x⟩ := refs_subst f a r h; exact ⟨r0, by simp [Ast.refs, h0], x⟩
    · obtain ⟨r0, h0, x⟩ := refs_subst f b r h; exact ⟨r0, by simp [Ast.refs, h0], x⟩
  | .fn name args, r, h => by simpa [Ast.refs] using refsList_subst f args r (by simpa [Ast.subst, Ast.refs] using h)
  | .call c args, r, h => by
    simp only [Ast.subst, Ast.refs, List.mem_append] at h
    rcases h with h | h
    · obtain ⟨r0, h0, x⟩ := refs_subst f c r h; exact ⟨r0, by simp [Ast.refs, h0], x⟩
    · obtain ⟨r0, h0, x⟩ := refsList_subst f args r h; exact ⟨r0, by simp [Ast.refs, h0], x⟩
  | .arr rows, r, h => by simpa [Ast.refs] using refsRows_subst f rows r (by simpa [Ast.subst, Ast.refs] using h)
theorem refsList_subst (f : String → Ref → Ast) : ∀ (t : List Ast) (r : Ref), r ∈ refsList (substList f t) →
    ∃ r0 ∈ refsList t, ∃ o, r ∈ (f o r0).refs
  | [], r, h => by simp [substList, refsList] at h
  | x :: xs, r, h => by
    simp only [substList, refsList, List.mem_append] at h
    rcases h with h | h
    · obtain ⟨r0, h0, y⟩ := refs_subst f x r h; exact ⟨r0, by simp [refsList, h0], y⟩
    · obtain ⟨r0, h0, y⟩ := refsList_subst f xs r h; exact ⟨r0, by simp [refsList, h0], y⟩
theorem refsRows_subst (f : String → Ref → Ast) : ∀ (t : List (List Ast)) (r : Ref), r ∈ refsRows (substRows f t) →
    ∃ r0 ∈ refsRows t, ∃ o, r ∈ (f o r0).refs
  | [], r, h => by simp [substRows, refsRows] at h
  | x :: xs, r, h => by
    simp only [substRows, refsRows, List.mem_append] at h
    rcases h with h | h
    · obtain ⟨r0, h0, y⟩ := refsList_subst f x r h; exact ⟨r0, by simp [refsRows, h0], y⟩
    · obtain ⟨r0, h0, y⟩ := refsRows_subst f xs r h; exact ⟨r0, by simp [refsRows, h0], y⟩
end

end Verif.Adjust
