import Verif.Logic.Model

/-! # Logical functions: AND, OR, NOT, XOR -/

namespace Verif.Logic

/-! ## Specification -/

/-- Values that count as TRUE. -/
def Truthy : Lit → Prop
  | .one (.bool b) => b = true
  | .one (.num q) => q ≠ 0
  | .one (.int i) => i ≠ 0
  | _ => False

/-- Values that count as FALSE. -/
def Falsy : Lit → Prop
  | .one (.bool b) => b = false
  | .one (.num q) => q = 0
  | .one (.int i) => i = 0
  | .one .empty => True
  | _ => False

/-- All others are errors: an error value itself, texts, dates and arrays as `#VALUE!`. -/
def errorOf : Lit → Option Err
  | .one (.err e) => some e
  | .one (.text _) | .one (.stamp _) | .arr _ => some .value
  | _ => none

/-- A value is TRUE, FALSE or an error, and one of these only. -/
theorem trichotomy (v : Lit) :
    (Truthy v ∧ ¬ Falsy v ∧ errorOf v = none) ∨ (¬ Truthy v ∧ Falsy v ∧ errorOf v = none) ∨
    (¬ Truthy v ∧ ¬ Falsy v ∧ (errorOf v).isSome) := by
  rcases v with v | cells
  · rcases v with b | q | i | _ | s | e | q
    · cases b <;> simp [Truthy, Falsy, errorOf]
    · by_cases h : q = 0 <;> simp [Truthy, Falsy, errorOf, h]
    · by_cases h : i = 0 <;> simp [Truthy, Falsy, errorOf, h]
    all_goals simp [Truthy, Falsy, errorOf]
  · simp [Truthy, Falsy, errorOf]

/-- The values of all arguments, one after the other, if none fails. -/
def Gives (args : List Arg) (vs : List Lit) : Prop :=
  ∃ vss : List (List Lit), args.map Arg.values = vss.map .ok ∧ vs = vss.flatten

theorem gives_nil : Gives [] [] := ⟨[], rfl, rfl⟩

theorem gives_cons {a : Arg} {as : List Arg} {vs : List Lit} (h : Gives (a :: as) vs) :
    ∃ v ws, a.values = .ok v ∧ Gives as ws ∧ vs = v ++ ws := by
  obtain ⟨vss, h1, h2⟩ := h
  cases vss with
  | nil => simp at h1
  | cons v vss =>
    simp only [List.map_cons, List.cons.injEq] at h1
    exact ⟨v, vss.flatten, h1.1, ⟨vss, h1.2, rfl⟩, by simpa using h2⟩

/-! ## AND and OR -/

theorem and_stop (v : Lit) : andJudge v = .stop ↔ Falsy v := by
  rcases v with v | cells
  · rcases v with b | q | i | _ | s | e | q
    · cases b <;> simp [andJudge, Falsy]
    · by_cases h : q = 0 <;> simp [andJudge, Falsy, h]
    · by_cases h : i = 0 <;> simp [andJudge, Falsy, h]
    all_goals simp [andJudge, Falsy]
  · simp [andJudge, Falsy]

theorem or_stop (v : Lit) : orJudge v = .stop ↔ Truthy v := by
  rcases v with v | cells
  · rcases v with b | q | i | _ | s | e | q
    · cases b <;> simp [orJudge, Truthy]
    · by_cases h : q = 0 <;> simp [orJudge, Truthy, h]
    · by_cases h : i = 0 <;> simp [orJudge, Truthy, h]
    all_goals simp [orJudge, Truthy]
  · simp [orJudge, Truthy]

/-- Both judge errors alike. -/
def Bads (j : Lit → Verdict) : Prop := ∀ v e, j v = .bad e ↔ errorOf v = some e

theorem and_bads : Bads andJudge := by
  intro v e
  rcases v with v | cells
  · rcases v with b | q | i | _ | s | e | q
    · cases b <;> simp [andJudge, errorOf]
    · by_cases h : q = 0 <;> simp [andJudge, errorOf, h]
    · by_cases h : i = 0 <;> simp [andJudge, errorOf, h]
    all_goals simp [andJudge, errorOf]
  · simp [andJudge, errorOf]

theorem or_bads : Bads orJudge := by
  intro v e
  rcases v with v | cells
  · rcases v with b | q | i | _ | s | e | q
    · cases b <;> simp [orJudge, errorOf]
    · by_cases h : q = 0 <;> simp [orJudge, errorOf, h]
    · by_cases h : i = 0 <;> simp [orJudge, errorOf, h]
    all_goals simp [orJudge, errorOf]
  · simp [orJudge, errorOf]

theorem scan_spec {j : Lit → Verdict} (hj : Bads j) : ∀ (vs : List Lit) (first : Option Err),
    ((∃ v ∈ vs, j v = .stop) → scan j first vs = none) ∧
    ((∀ v ∈ vs, j v ≠ .stop) → scan j first vs = some (first.or (vs.findSome? errorOf)))
  | [], first => ⟨fun ⟨_, h, _⟩ => (by cases h), fun _ => by simp [scan]⟩
  | v :: vs, first => by
    cases hv : j v with
    | stop =>
      constructor
      · intro _; simp only [scan, hv]
      · intro h; exact absurd hv (h v (by simp))
    | pass =>
      have he : errorOf v = none := by
        cases h : errorOf v with
        | none => rfl
        | some e => rw [(hj v e).mpr h] at hv; cases hv
      have ih := scan_spec hj vs first
      constructor
      · rintro ⟨w, hw, hs⟩
        simp only [scan, hv]
        rcases List.mem_cons.mp hw with rfl | hw
        · rw [hv] at hs; cases hs
        · exact ih.1 ⟨w, hw, hs⟩
      · intro h
        simp only [scan, hv, List.findSome?_cons, he]
        exact ih.2 fun w hw => h w (List.mem_cons_of_mem _ hw)
    | bad e =>
      have he : errorOf v = some e := (hj v e).mp hv
      have ih := scan_spec hj vs (first.or (some e))
      constructor
      · rintro ⟨w, hw, hs⟩
        simp only [scan, hv]
        rcases List.mem_cons.mp hw with rfl | hw
        · rw [hv] at hs; cases hs
        · exact ih.1 ⟨w, hw, hs⟩
      · intro h
        simp only [scan, hv, List.findSome?_cons, he]
        rw [ih.2 fun w hw => h w (List.mem_cons_of_mem _ hw)]
        cases first <;> rfl

theorem reduce_spec {j : Lit → Verdict} (hj : Bads j) (hit : Bool) : ∀ (args : List Arg) (vs : List Lit) (i : Nat)
    (first : Option Err), Gives args vs →
    ((∃ v ∈ vs, j v = .stop) → (reduce j hit args i first).1 = .ok (.one (.bool hit))) ∧
    ((∀ v ∈ vs, j v ≠ .stop) → (reduce j hit args i first).1 = .ok (.one (ending (!hit) (first.or (vs.findSome? errorOf)))))
  | [], vs, i, first, h => by
    obtain ⟨vss, h1, h2⟩ := h
    cases vss with
    | cons v vss => simp at h1
    | nil =>
      subst h2
      exact ⟨fun ⟨_, h, _⟩ => (by cases h), fun _ => by simp [reduce, give]⟩
  | a :: as, vs, i, first, h => by
    obtain ⟨v, ws, h1, h2, rfl⟩ := gives_cons h
    have hs := scan_spec hj v first
    by_cases hstop : ∃ x ∈ v, j x = .stop
    · constructor
      · intro _
        simp only [reduce, h1, hs.1 hstop, give]
      · intro hn
        obtain ⟨x, hx, hx2⟩ := hstop
        exact absurd hx2 (hn x (List.mem_append_left _ hx))
    · have hstop' : ∀ x ∈ v, j x ≠ .stop := fun x hx hx2 => hstop ⟨x, hx, hx2⟩
      have ih := reduce_spec hj hit as ws (i + 1) (first.or (v.findSome? errorOf)) h2
      constructor
      · rintro ⟨x, hx, hx2⟩
        simp only [reduce, h1, hs.2 hstop']
        rcases List.mem_append.mp hx with hx | hx
        · exact absurd hx2 (hstop' x hx)
        · exact ih.1 ⟨x, hx, hx2⟩
      · intro hn
        simp only [reduce, h1, hs.2 hstop']
        rw [ih.2 fun x hx => hn x (List.mem_append_right _ hx), List.findSome?_append]
        cases first <;> rfl

theorem falsy_or {v : Lit} (h : ¬ Falsy v) (he : errorOf v = none) : Truthy v := by
  rcases trichotomy v with h1 | h1 | h1
  · exact h1.1
  · exact absurd h1.2.1 h
  · rw [he] at h1; simp at h1

theorem findSome_none {vs : List Lit} (h : vs.findSome? errorOf = none) : ∀ v ∈ vs, errorOf v = none :=
  List.findSome?_eq_none_iff.mp h

theorem ne_of_gives {args : List Arg} (h : args ≠ []) : ¬ args.length < 1 := by
  cases args with
  | nil => exact absurd rfl h
  | cons _ _ => simp

/-- **AND**, if no argument fails: FALSE if some value counts as FALSE, else the first error, else TRUE. -/
theorem and_spec (args : List Arg) (vs : List Lit) (hne : args ≠ []) (h : Gives args vs) :
    ((∃ v ∈ vs, Falsy v) → (AND args).1 = .ok (.one (.bool false))) ∧
    (∀ e, (∀ v ∈ vs, ¬ Falsy v) → vs.findSome? errorOf = some e → (AND args).1 = .ok (.one (.err e))) ∧
    ((∀ v ∈ vs, Truthy v) → (AND args).1 = .ok (.one (.bool true))) := by
  unfold AND
  rw [if_neg (ne_of_gives hne)]
  have hs := reduce_spec and_bads false args vs 0 none h
  refine ⟨?_, ?_, ?_⟩
  · rintro ⟨v, hv, hf⟩
    exact hs.1 ⟨v, hv, (and_stop v).mpr hf⟩
  · intro e hn he
    rw [hs.2 fun v hv => fun hst => hn v hv ((and_stop v).mp hst), he]
    rfl
  · intro ht
    have h1 : ∀ v ∈ vs, andJudge v ≠ .stop := by
      intro v hv hst
      rcases trichotomy v with h2 | h2 | h2
      · exact h2.2.1 ((and_stop v).mp hst)
      · exact h2.1 (ht v hv)
      · exact h2.1 (ht v hv)
    have h2 : vs.findSome? errorOf = none := by
      rw [List.findSome?_eq_none_iff]
      intro v hv
      rcases trichotomy v with h2 | h2 | h2
      · exact h2.2.2
      · exact h2.2.2
      · exact absurd (ht v hv) h2.1
    rw [hs.2 h1, h2]
    rfl

/-- **OR**, if no argument fails: TRUE if some value counts as TRUE, else the first error, else FALSE. -/
theorem or_spec (args : List Arg) (vs : List Lit) (hne : args ≠ []) (h : Gives args vs) :
    ((∃ v ∈ vs, Truthy v) → (OR args).1 = .ok (.one (.bool true))) ∧
    (∀ e, (∀ v ∈ vs, ¬ Truthy v) → vs.findSome? errorOf = some e → (OR args).1 = .ok (.one (.err e))) ∧
    ((∀ v ∈ vs, Falsy v) → (OR args).1 = .ok (.one (.bool false))) := by
  unfold OR
  rw [if_neg (ne_of_gives hne)]
  have hs := reduce_spec or_bads true args vs 0 none h
  refine ⟨?_, ?_, ?_⟩
  · rintro ⟨v, hv, hf⟩
    exact hs.1 ⟨v, hv, (or_stop v).mpr hf⟩
  · intro e hn he
    rw [hs.2 fun v hv => fun hst => hn v hv ((or_stop v).mp hst), he]
    rfl
  · intro ht
    have h1 : ∀ v ∈ vs, orJudge v ≠ .stop := by
      intro v hv hst
      rcases trichotomy v with h2 | h2 | h2
      · exact h2.2.1 (ht v hv)
      · exact h2.1 ((or_stop v).mp hst)
      · exact h2.2.1 (ht v hv)
    have h2 : vs.findSome? errorOf = none := by
      rw [List.findSome?_eq_none_iff]
      intro v hv
      rcases trichotomy v with h2 | h2 | h2
      · exact h2.2.2
      · exact h2.2.2
      · exact absurd (ht v hv) h2.2.1
    rw [hs.2 h1, h2]
    rfl

/-- The three cases of `and_spec` are all there are. -/
theorem and_cases (vs : List Lit) : (∃ v ∈ vs, Falsy v) ∨
    (∃ e, (∀ v ∈ vs, ¬ Falsy v) ∧ vs.findSome? errorOf = some e) ∨ ∀ v ∈ vs, Truthy v := by
  by_cases h : ∃ v ∈ vs, Falsy v
  · exact .inl h
  · have h' : ∀ v ∈ vs, ¬ Falsy v := fun v hv hf => h ⟨v, hv, hf⟩
    cases he : vs.findSome? errorOf with
    | some e => exact .inr (.inl ⟨e, h', rfl⟩)
    | none => exact .inr (.inr fun v hv => falsy_or (h' v hv) (findSome_none he v hv))

theorem or_cases (vs : List Lit) : (∃ v ∈ vs, Truthy v) ∨
    (∃ e, (∀ v ∈ vs, ¬ Truthy v) ∧ vs.findSome? errorOf = some e) ∨ ∀ v ∈ vs, Falsy v := by
  by_cases h : ∃ v ∈ vs, Truthy v
  · exact .inl h
  · have h' : ∀ v ∈ vs, ¬ Truthy v := fun v hv hf => h ⟨v, hv, hf⟩
    cases he : vs.findSome? errorOf with
    | some e => exact .inr (.inl ⟨e, h', rfl⟩)
    | none =>
      refine .inr (.inr fun v hv => ?_)
      rcases trichotomy v with h1 | h1 | h1
      · exact absurd h1.1 (h' v hv)
      · exact h1.2.1
      · rw [findSome_none he v hv] at h1; simp at h1

/-- **The order of the arguments does not matter** where no value is an error. -/
theorem and_perm (as bs : List Arg) (vs ws : List Lit) (hne : as ≠ []) (ha : Gives as vs) (hb : Gives bs ws)
    (hp : as.Perm bs) (hm : ∀ v, v ∈ vs ↔ v ∈ ws) (hok : ∀ v ∈ vs, errorOf v = none) :
    (AND as).1 = (AND bs).1 ∧ (OR as).1 = (OR bs).1 := by
  have hne' : bs ≠ [] := fun h => hne (by subst h; exact hp.eq_nil)
  have hx : ∀ v ∈ vs, Truthy v ∨ Falsy v := by
    intro v hv
    rcases trichotomy v with h | h | h
    · exact .inl h.1
    · exact .inr h.2.1
    · rw [hok v hv] at h; simp at h
  constructor
  · by_cases h : ∃ v ∈ vs, Falsy v
    · obtain ⟨v, hv, hf⟩ := h
      rw [(and_spec as vs hne ha).1 ⟨v, hv, hf⟩, (and_spec bs ws hne' hb).1 ⟨v, (hm v).mp hv, hf⟩]
    · have ht : ∀ v ∈ vs, Truthy v := fun v hv => (hx v hv).resolve_right fun hf => h ⟨v, hv, hf⟩
      rw [(and_spec as vs hne ha).2.2 ht, (and_spec bs ws hne' hb).2.2 fun v hv => ht v ((hm v).mpr hv)]
  · by_cases h : ∃ v ∈ vs, Truthy v
    · obtain ⟨v, hv, hf⟩ := h
      rw [(or_spec as vs hne ha).1 ⟨v, hv, hf⟩, (or_spec bs ws hne' hb).1 ⟨v, (hm v).mp hv, hf⟩]
    · have ht : ∀ v ∈ vs, Falsy v := fun v hv => (hx v hv).resolve_left fun hf => h ⟨v, hv, hf⟩
      rw [(or_spec as vs hne ha).2.2 ht, (or_spec bs ws hne' hb).2.2 fun v hv => ht v ((hm v).mpr hv)]

/-- An argument that fails ends AND and OR unless an argument before it decides, whatever comes after it. -/
theorem and_failing (pre post : List Arg) (a : Arg) (vs : List Lit) (e : Err) (hp : Gives pre vs) (ha : a.values = .error e) :
    ((∀ v ∈ vs, ¬ Falsy v) → (AND (pre ++ a :: post)).1 = .error e) ∧
    ((∀ v ∈ vs, ¬ Truthy v) → (OR (pre ++ a :: post)).1 = .error e) := by
  have key : ∀ (j : Lit → Verdict) (_ : Bads j) (hit : Bool) (pre : List Arg) (vs : List Lit) (i : Nat) (first : Option Err),
      Gives pre vs → (∀ v ∈ vs, j v ≠ .stop) → (reduce j hit (pre ++ a :: post) i first).1 = .error e := by
    intro j hj hit pre
    induction pre with
    | nil => intro vs i first _ _; simp only [List.nil_append, reduce, ha]
    | cons b pre ih =>
      intro vs i first hg hn
      obtain ⟨v, ws, h1, h2, rfl⟩ := gives_cons hg
      simp only [List.cons_append, reduce, h1]
      rw [(scan_spec hj v first).2 fun x hx => hn x (List.mem_append_left _ hx)]
      exact ih ws _ _ h2 fun x hx => hn x (List.mem_append_right _ hx)
  have hl : ¬ (pre ++ a :: post).length < 1 := by simp
  constructor
  · intro h
    unfold AND
    rw [if_neg hl]
    exact key andJudge and_bads false pre vs 0 none hp fun v hv hs => h v hv ((and_stop v).mp hs)
  · intro h
    unfold OR
    rw [if_neg hl]
    exact key orJudge or_bads true pre vs 0 none hp fun v hv hs => h v hv ((or_stop v).mp hs)

/-! ## De Morgan -/

/-- A call as an argument of another. -/
def call (w : W) : Arg := .expr w.1

theorem gives_calls (vs : List CV) : Gives (vs.map fun v => .expr (.ok v)) (vs.map CV.lit) := by
  refine ⟨vs.map fun v => [v.lit], ?_, ?_⟩
  · simp [Arg.values, Function.comp_def]
  · induction vs with
    | nil => rfl
    | cons v vs ih => simp only [List.map_cons, List.flatten_cons, ← ih]; rfl

theorem gives_nots (vs : List CV) :
    Gives (vs.map fun v => call (NOT [.expr (.ok v)])) (vs.map fun v => .one (notLit v.lit)) := by
  refine ⟨vs.map fun v => [.one (notLit v.lit)], ?_, ?_⟩
  · simp [Arg.values, Function.comp_def, call, NOT, Arg.value, give, CV.lit]
  · induction vs with
    | nil => rfl
    | cons v vs ih => simp only [List.map_cons, List.flatten_cons, ← ih]; rfl

theorem not_truthy (v : Lit) : Truthy (.one (notLit v)) ↔ Falsy v := by
  rcases v with v | cells
  · rcases v with b | q | i | _ | s | e | q
    · cases b <;> simp [notLit, Truthy, Falsy]
    all_goals simp [notLit, Truthy, Falsy]
  · simp [notLit, Truthy, Falsy]

theorem not_falsy (v : Lit) : Falsy (.one (notLit v)) ↔ Truthy v := by
  rcases v with v | cells
  · rcases v with b | q | i | _ | s | e | q
    · cases b <;> simp [notLit, Truthy, Falsy]
    all_goals simp [notLit, Truthy, Falsy]
  · simp [notLit, Truthy, Falsy]

theorem not_error (v : Lit) : errorOf (.one (notLit v)) = errorOf v := by
  rcases v with v | cells
  · rcases v with b | q | i | _ | s | e | q <;> simp [notLit, errorOf]
  · simp [notLit, errorOf]

theorem find_nots (vs : List CV) :
    (vs.map fun v => Lit.one (notLit v.lit)).findSome? errorOf = (vs.map CV.lit).findSome? errorOf := by
  induction vs with
  | nil => rfl
  | cons v vs ih => simp only [List.map_cons, List.findSome?_cons, not_error, ih]

theorem not_of_value {w : W} {v : V} (h : w.1 = .ok (.one v)) : (NOT [call w]).1 = .ok (.one (notLit (.one v))) := by
  simp only [NOT, call, Arg.value, h, give, CV.lit]

/-- **De Morgan**: `NOT(AND(x, y, …))` is `OR(NOT(x), NOT(y), …)` and `NOT(OR(x, y, …))` is `AND(NOT(x), NOT(y), …)`,
whatever the values of the arguments are, errors and texts among them. -/
theorem de_morgan (vs : List CV) (hne : vs ≠ []) :
    (NOT [call (AND (vs.map fun v => .expr (.ok v)))]).1 = (OR (vs.map fun v => call (NOT [.expr (.ok v)]))).1 ∧
    (NOT [call (OR (vs.map fun v => .expr (.ok v)))]).1 = (AND (vs.map fun v => call (NOT [.expr (.ok v)]))).1 := by
  have g1 := gives_calls vs
  have g2 := gives_nots vs
  have n1 : (vs.map fun v => Arg.expr (.ok v)) ≠ [] := by simpa using hne
  have n2 : (vs.map fun v => call (NOT [.expr (.ok v)])) ≠ [] := by simpa using hne
  constructor
  · rcases and_cases (vs.map CV.lit) with h | ⟨e, h, he⟩ | h
    · rw [not_of_value ((and_spec _ _ n1 g1).1 h)]
      obtain ⟨x, hx, hf⟩ := h
      obtain ⟨v, hv, rfl⟩ := List.mem_map.mp hx
      rw [(or_spec _ _ n2 g2).1 ⟨_, List.mem_map.mpr ⟨v, hv, rfl⟩, (not_truthy _).mpr hf⟩]
      rfl
    · rw [not_of_value ((and_spec _ _ n1 g1).2.1 e h he)]
      rw [(or_spec _ _ n2 g2).2.1 e ?_ (by rw [find_nots]; exact he)]
      · rfl
      · intro x hx
        obtain ⟨v, hv, rfl⟩ := List.mem_map.mp hx
        rw [not_truthy]
        exact h _ (List.mem_map.mpr ⟨v, hv, rfl⟩)
    · rw [not_of_value ((and_spec _ _ n1 g1).2.2 h)]
      rw [(or_spec _ _ n2 g2).2.2 ?_]
      · rfl
      · intro x hx
        obtain ⟨v, hv, rfl⟩ := List.mem_map.mp hx
        rw [not_falsy]
        exact h _ (List.mem_map.mpr ⟨v, hv, rfl⟩)
  · rcases or_cases (vs.map CV.lit) with h | ⟨e, h, he⟩ | h
    · rw [not_of_value ((or_spec _ _ n1 g1).1 h)]
      obtain ⟨x, hx, hf⟩ := h
      obtain ⟨v, hv, rfl⟩ := List.mem_map.mp hx
      rw [(and_spec _ _ n2 g2).1 ⟨_, List.mem_map.mpr ⟨v, hv, rfl⟩, (not_falsy _).mpr hf⟩]
      rfl
    · rw [not_of_value ((or_spec _ _ n1 g1).2.1 e h he)]
      rw [(and_spec _ _ n2 g2).2.1 e ?_ (by rw [find_nots]; exact he)]
      · rfl
      · intro x hx
        obtain ⟨v, hv, rfl⟩ := List.mem_map.mp hx
        rw [not_falsy]
        exact h _ (List.mem_map.mpr ⟨v, hv, rfl⟩)
    · rw [not_of_value ((or_spec _ _ n1 g1).2.2 h)]
      rw [(and_spec _ _ n2 g2).2.2 ?_]
      · rfl
      · intro x hx
        obtain ⟨v, hv, rfl⟩ := List.mem_map.mp hx
        rw [not_truthy]
        exact h _ (List.mem_map.mpr ⟨v, hv, rfl⟩)

/-! ## XOR -/

theorem xor_stop (v : Lit) : xorJudge v = .stop ↔ Truthy v := by
  rcases v with v | cells
  · rcases v with b | q | i | _ | s | e | q
    · cases b <;> simp [xorJudge, Truthy]
    · by_cases h : q = 0 <;> simp [xorJudge, Truthy, h]
    · by_cases h : i = 0 <;> simp [xorJudge, Truthy, h]
    all_goals simp [xorJudge, Truthy]
  · simp [xorJudge, Truthy]

theorem xor_pass (v : Lit) : xorJudge v = .pass ↔ Falsy v := by
  rcases v with v | cells
  · rcases v with b | q | i | _ | s | e | q
    · cases b <;> simp [xorJudge, Falsy]
    · by_cases h : q = 0 <;> simp [xorJudge, Falsy, h]
    · by_cases h : i = 0 <;> simp [xorJudge, Falsy, h]
    all_goals simp [xorJudge, Falsy]
  · simp [xorJudge, Falsy]

/-- The values of an argument of XOR: the cells of a range, or one value. -/
def xorValues (a : Arg) : Option (List Lit) :=
  match a.view with
  | some cells => some (cells.map .one)
  | none => match a.value with
    | .error _ => none
    | .ok cv => some [cv.lit]

/-- How many of the values count as TRUE. -/
def trues (vs : List Lit) : Nat := (vs.filter fun v => xorJudge v = .stop).length

theorem xorCells_clean (first : Option Err) : ∀ (vs : List V) (n : Nat) (err : Option Err),
    (∀ v ∈ vs, Truthy (.one v) ∨ Falsy (.one v)) → xorCells first vs n err = (n + trues (vs.map .one), err)
  | [], n, err, _ => rfl
  | v :: vs, n, err, h => by
    have ih := fun m => xorCells_clean first vs m err fun w hw => h w (List.mem_cons_of_mem _ hw)
    rcases h v (by simp) with hv | hv
    · have hj := (xor_stop _).mpr hv
      simp only [xorCells, hj, ih, trues, List.map_cons, List.filter_cons, decide_true, if_true, List.length_cons]
      congr 1
      omega
    · have hj := (xor_pass _).mpr hv
      simp [xorCells, hj, ih, trues, List.filter_cons]

theorem xorLoop_clean : ∀ (args : List Arg) (vss : List (List Lit)) (n : Nat), args.map xorValues = vss.map some →
    (∀ vs ∈ vss, ∀ v ∈ vs, Truthy v ∨ Falsy v) → xorLoop args n none = .ok (.bool ((n + trues vss.flatten) % 2 = 1))
  | [], vss, n, h, _ => by
    cases vss with
    | nil => rfl
    | cons _ _ => simp at h
  | a :: as, vss, n, h, hc => by
    cases vss with
    | nil => simp at h
    | cons vs vss =>
      simp only [List.map_cons, List.cons.injEq] at h
      have ih := fun m => xorLoop_clean as vss m h.2 fun ws hws => hc ws (List.mem_cons_of_mem _ hws)
      have hvs := hc vs (by simp)
      have hsum : trues (vs :: vss).flatten = trues vs + trues vss.flatten := by
        simp [trues]
      rw [hsum]
      have h1 := h.1
      unfold xorValues at h1
      cases hview : a.view with
      | some cells =>
        rw [hview] at h1
        simp only [Option.some.injEq] at h1
        subst h1
        have hx := xorCells_clean none cells n none fun v hv => hvs (.one v) (List.mem_map.mpr ⟨v, hv, rfl⟩)
        simp only [xorLoop, hview, hx]
        rw [show (none : Option Err).or none = none from rfl, ih]
        congr 3
        rw [Nat.add_assoc]
      | none =>
        rw [hview] at h1
        cases hval : a.value with
        | error e => rw [hval] at h1; simp at h1
        | ok cv =>
          rw [hval] at h1
          simp only [Option.some.injEq] at h1
          subst h1
          rcases hvs cv.lit (by simp) with hv | hv
          · have hj := (xor_stop _).mpr hv
            simp only [xorLoop, hview, hval, hj, ih]
            simp [trues, List.filter_cons, hj, Nat.add_assoc]
          · have hj := (xor_pass _).mpr hv
            simp only [xorLoop, hview, hval, hj, ih]
            simp [trues, List.filter_cons, hj]

/-- **XOR** is TRUE exactly when the number of values that count as TRUE is odd, if no value is an error. -/
theorem xor_spec (args : List Arg) (vss : List (List Lit)) (hne : args ≠ []) (h : args.map xorValues = vss.map some)
    (hc : ∀ vs ∈ vss, ∀ v ∈ vs, errorOf v = none) :
    ∃ b, (XOR args).1 = .ok (.one (.bool b)) ∧
      (b = true ↔ ∃ ts fs : List Lit, (ts ++ fs).Perm vss.flatten ∧ (∀ v ∈ ts, Truthy v) ∧ (∀ v ∈ fs, Falsy v) ∧ ts.length % 2 = 1) := by
  have hc' : ∀ vs ∈ vss, ∀ v ∈ vs, Truthy v ∨ Falsy v := by
    intro vs hvs v hv
    rcases trichotomy v with h | h | h
    · exact .inl h.1
    · exact .inr h.2.1
    · rw [hc vs hvs v hv] at h; simp at h
  refine ⟨decide (trues vss.flatten % 2 = 1), ?_, ?_⟩
  · unfold XOR
    rw [if_neg (ne_of_gives hne), xorLoop_clean args vss 0 h hc', Nat.zero_add]
    rfl
  · rw [decide_eq_true_iff]
    constructor
    · intro hodd
      refine ⟨vss.flatten.filter fun v => xorJudge v = .stop, vss.flatten.filter fun v => ¬ xorJudge v = .stop, ?_, ?_, ?_, hodd⟩
      · have := List.filter_append_perm (fun v : Lit => decide (xorJudge v = .stop)) vss.flatten
        simpa using this
      · intro v hv
        have := (List.mem_filter.mp hv).2
        exact (xor_stop v).mp (by simpa using this)
      · intro v hv
        obtain ⟨h1, h2⟩ := List.mem_filter.mp hv
        obtain ⟨vs, h3, h4⟩ := List.mem_flatten.mp h1
        rcases hc' vs h3 v h4 with h5 | h5
        · simp [(xor_stop v).mpr h5] at h2
        · exact h5
    · rintro ⟨ts, fs, hp, ht, hf, hodd⟩
      have h1 : trues vss.flatten = trues (ts ++ fs) := by
        unfold trues
        exact ((hp.symm).filter _).length_eq
      have h2 : ts.filter (fun v => xorJudge v = .stop) = ts := by
        rw [List.filter_eq_self]
        intro v hv
        simpa using (xor_stop v).mpr (ht v hv)
      have h3 : fs.filter (fun v => xorJudge v = .stop) = [] := by
        rw [List.filter_eq_nil_iff]
        intro v hv
        have := (xor_pass v).mpr (hf v hv)
        simp [this]
      rw [h1]
      unfold trues
      rw [List.filter_append, h2, h3, List.append_nil]
      exact hodd

end Verif.Logic
