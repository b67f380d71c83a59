import Verif.Local.Depends

/-!
# Local names stand for their values

`LET(x,e,body)` has the value of `body` with the value of `e` in place of every free `x`; a call of a local function that of its body with the arguments in place of the
parameters.  Names bound again inside, in upper or lower case, hide the outer ones.
-/

namespace Verif.Local

mutual

/-- The formula with `v` in place of the name `X` (in upper case), where no inner `LET` or `LAMBDA` binds it again. -/
def sub (w : World) (X : Str) (v : Nat) : Expr → Expr
  | .lit u => .lit u
  | .ref r => .ref r
  | .name s => if norm s = X then .lit v else .name s
  | .op o args => .op o (subAll w X v args)
  | .call c args => .call (sub w X v c) (subAll w X v args)
  | .fn f args =>
    match style w f args.length with
    | .pairs => .fn f (subLet w X v args)
    | .params => .fn f (subLam w X v args)
    | .none => .fn f (subAll w X v args)

/-- In every formula of a list. -/
def subAll (w : World) (X : Str) (v : Nat) : List Expr → List Expr
  | [] => []
  | e :: rest => sub w X v e :: subAll w X v rest

/-- In the pairs and the last formula of `LET`: up to the formula of the pair that binds `X`. -/
def subLet (w : World) (X : Str) (v : Nat) : List Expr → List Expr
  | [] => []
  | [body] => [sub w X v body]
  | x :: e :: rest => x :: sub w X v e :: (if (localName x).map norm = some X then rest else subLet w X v rest)

/-- In the last formula of `LAMBDA`, if no parameter is `X`. -/
def subLam (w : World) (X : Str) (v : Nat) : List Expr → List Expr
  | [] => []
  | [body] => [sub w X v body]
  | x :: rest => x :: (if (localName x).map norm = some X then rest else subLam w X v rest)

end

theorem subAll_map (w : World) (X : Str) (v : Nat) : ∀ args, subAll w X v args = args.map (sub w X v) := by
  intro args
  induction args with
  | nil => rfl
  | cons a as ih => simp [subAll, ih]

theorem subLam_length (w : World) (X : Str) (v : Nat) : ∀ args : List Expr, (subLam w X v args).length = args.length := by
  intro args
  induction args with
  | nil => rfl
  | cons a as ih =>
    cases as with
    | nil => rfl
    | cons b bs =>
      rw [subLam]
      · split <;> simp [ih]
      · intro hc; cases hc

theorem subLam_dropLast (w : World) (X : Str) (v : Nat) : ∀ args : List Expr, (subLam w X v args).dropLast = args.dropLast := by
  intro args
  induction args with
  | nil => rfl
  | cons a as ih =>
    cases as with
    | nil => rfl
    | cons b bs =>
      rw [subLam]
      · split
        · rfl
        · have hne : subLam w X v (b :: bs) ≠ [] := by
            intro h
            have := subLam_length w X v (b :: bs)
            rw [h] at this
            simp at this
          rw [List.dropLast_cons_of_ne_nil hne, ih, List.dropLast_cons_of_ne_nil (List.cons_ne_nil b bs)]
      · intro hc; cases hc

theorem subLam_last (w : World) (X : Str) (v : Nat) : ∀ args : List Expr, (subLam w X v args).getLast? = args.getLast?.map fun b => if X ∈ paramScope args.dropLast then b else sub w X v b := by
  intro args
  induction args with
  | nil => rfl
  | cons a as ih =>
    cases as with
    | nil => simp [subLam, paramScope]
    | cons b bs =>
      rw [subLam]
      · rw [List.dropLast_cons_of_ne_nil (List.cons_ne_nil b bs)]
        split
        · rename_i h
          have : X ∈ paramScope (a :: (b :: bs).dropLast) := by
            cases ha : localName a with
            | none => simp [ha] at h
            | some s =>
              simp only [ha, Option.map_some, Option.some.injEq] at h
              simp [paramScope, ha, h]
          simp [this]
        · rename_i h
          have hiff : X ∈ paramScope (a :: (b :: bs).dropLast) ↔ X ∈ paramScope (b :: bs).dropLast := by
            cases ha : localName a with
            | none => simp [paramScope, ha]
            | some s =>
              simp only [ha, Option.map_some, Option.some.injEq] at h
              simp only [paramScope, ha, List.singleton_append, List.mem_cons]
              exact ⟨fun hh => hh.elim (fun he => absurd he.symm h) id, .inr⟩
          have hne : subLam w X v (b :: bs) ≠ [] := by
            intro h
            have := subLam_length w X v (b :: bs)
            rw [h] at this
            simp at this
          obtain ⟨c, cs, hc⟩ := List.exists_cons_of_ne_nil hne
          rw [hc, List.getLast?_cons_cons, ← hc, ih, List.getLast?_cons_cons]
          simp only [hiff]
      · intro hc; cases hc

theorem subLet_length (w : World) (X : Str) (v : Nat) : ∀ (m : Nat) (args : List Expr), args.length ≤ m → (subLet w X v args).length = args.length := by
  intro m
  induction m with
  | zero => intro args h; cases args <;> simp_all [subLet]
  | succ m ih =>
    intro args h
    match args, h with
    | [], _ => rfl
    | [b], _ => rfl
    | x :: e :: rest, h =>
      rw [subLet]
      split
      · simp
      · simp [ih rest (by simp at h; omega)]

/-- In a formula no free `X` stands where a function reads a range. -/
def Plain (w : World) (X : Str) (e : Expr) : Prop := ∃ S, X ∈ S ∧ ∀ s ∈ hidden w S e, norm s ≠ X

section

variable (w : World) (X : Str) (v : Nat)

mutual

/-- Values that look the same: values, or local functions with the same parameters, one of which has been substituted in. -/
inductive BRel : Bind → Bind → Prop where
  | val (u : Nat) : BRel (.val u) (.val u)
  | clos (fl : Bool) {ps : List Str} {body : Expr} {env env' : Env} (he : ERel fl env env') (hp : fl = true → X ∉ ps.map norm → Plain w X body) :
      BRel (.clos ps body env) (.clos ps (if fl = true ∧ X ∉ ps.map norm then sub w X v body else body) env')

/-- Bindings, in the first of which `X` stands for `v`; in the second it is unbound.  With the flag `false`, `X` is bound in both or in neither. -/
inductive ERel : Bool → Env → Env → Prop where
  | nil : ERel false [] []
  | cons {fl : Bool} {k : Str} {b b' : Bind} {env env' : Env} (hk : k ≠ X) (hb : BRel b b') (he : ERel fl env env') : ERel fl ((k, b) :: env) ((k, b') :: env')
  | shadow {fl : Bool} {b b' : Bind} {env env' : Env} (hb : BRel b b') (he : ERel fl env env') : ERel false ((X, b) :: env) ((X, b') :: env')
  | here {env env' : Env} (he : ERel false env env') (hX : X ∉ keys env') : ERel true ((X, .val v) :: env) env'

end

theorem refl_all : ∀ m : Nat, (∀ b : Bind, sizeOf b < m → BRel w X v b b) ∧ ∀ env : Env, sizeOf env < m → ERel w X v false env env := by
  intro m
  induction m with
  | zero => exact ⟨fun b h => absurd h (Nat.not_lt_zero _), fun b h => absurd h (Nat.not_lt_zero _)⟩
  | succ m ih =>
    constructor
    · intro b hb
      cases b with
      | val u => exact .val u
      | clos ps body env =>
        have hs : sizeOf env < m := by simp at hb; omega
        have := BRel.clos (w := w) (X := X) (v := v) false (ps := ps) (body := body) (ih.2 env hs) (fun h => by cases h)
        simpa using this
    · intro env he
      cases env with
      | nil => exact .nil
      | cons p env =>
        obtain ⟨k, b⟩ := p
        simp at he
        by_cases h : k = X
        · subst h
          exact .shadow (ih.1 b (by omega)) (ih.2 env (by omega))
        · exact .cons h (ih.1 b (by omega)) (ih.2 env (by omega))

theorem erel_refl (env : Env) : ERel w X v false env env := (refl_all w X v (sizeOf env + 1)).2 env (Nat.lt_succ_self _)

end

/-- Results that look the same. -/
inductive RRel (w : World) (X : Str) (v : Nat) : Option Res → Option Res → Prop where
  | none : RRel w X v none none
  | error (e : Nat) : RRel w X v (some (.error e)) (some (.error e))
  | ok {b b' : Bind} (h : BRel w X v b b') : RRel w X v (some (.ok b)) (some (.ok b'))

theorem rrel_map {w : World} {X : Str} {v : Nat} (r : Except Nat Nat) : RRel w X v (some (r.map Bind.val)) (some (r.map Bind.val)) := by
  cases r with
  | error e => exact .error e
  | ok u => exact .ok (.val u)

theorem brel_lit {w : World} {X : Str} {v : Nat} {b b' : Bind} (h : BRel w X v b b') : lit w b = lit w b' := by
  cases h <;> rfl

theorem erel_keys {w : World} {X : Str} {v : Nat} : ∀ {env env' : Env} {fl : Bool}, ERel w X v fl env env' → fl = true → X ∉ keys env' := by
  intro env
  induction env with
  | nil => intro env' fl h hf; cases h; cases hf
  | cons p env ih =>
    intro env' fl h hf
    cases h with
    | cons hk hb he =>
      have := ih he hf
      simp only [keys, List.map_cons, List.mem_cons, not_or]
      exact ⟨fun h => hk h.symm, this⟩
    | shadow hb he => cases hf
    | here he hX => exact hX

theorem erel_lookup {w : World} {X : Str} {v : Nat} (s : Str) : ∀ {env env' : Env} {fl : Bool}, ERel w X v fl env env' →
    (fl = true → norm s ≠ X) → (lookup env s = none ∧ lookup env' s = none) ∨ ∃ b b', lookup env s = some b ∧ lookup env' s = some b' ∧ BRel w X v b b' := by
  intro env
  induction env with
  | nil => intro env' fl h hf; cases h; exact .inl ⟨rfl, rfl⟩
  | cons p env ih =>
    intro env' fl h hf
    cases h with
    | cons hk hb he =>
      rename_i k b b' env'
      by_cases hs : k = norm s
      · exact .inr ⟨b, b', by simp [lookup, hs], by simp [lookup, hs], hb⟩
      · have h1 : lookup ((k, b) :: env) s = lookup env s := by simp [lookup, hs]
        have h2 : lookup ((k, b') :: env') s = lookup env' s := by simp [lookup, hs]
        rw [h1, h2]
        exact ih he hf
    | shadow hb he =>
      rename_i fl b b' env'
      by_cases hs : X = norm s
      · exact .inr ⟨b, b', by simp [lookup, hs], by simp [lookup, hs], hb⟩
      · have h1 : lookup ((X, b) :: env) s = lookup env s := by simp [lookup, hs]
        have h2 : lookup ((X, b') :: env') s = lookup env' s := by simp [lookup, hs]
        rw [h1, h2]
        exact ih he fun _ h => hs h.symm
    | here he hX =>
      have hs : ¬ X = norm s := fun h => hf rfl h.symm
      have h1 : lookup ((X, .val v) :: env) s = lookup env s := by simp [lookup, hs]
      rw [h1]
      exact ih he fun h => by cases h

theorem erel_lookup_here {w : World} {X : Str} {v : Nat} (s : Str) (hs : norm s = X) : ∀ {env env' : Env} {fl : Bool}, ERel w X v fl env env' → fl = true →
    lookup env s = some (.val v) ∧ lookup env' s = none := by
  intro env env' fl h hf
  constructor
  · subst hf
    revert h
    generalize hfl : true = fl
    intro h
    induction env generalizing env' with
    | nil => cases h; cases hfl
    | cons p env ih =>
      cases h with
      | cons hk hb he =>
        rename_i k b b' env'
        have hs' : ¬ k = norm s := fun h => hk (h.trans hs)
        have h1 : lookup ((k, b) :: env) s = lookup env s := by simp [lookup, hs']
        rw [h1]
        exact ih he
      | shadow hb he => cases hfl
      | here he hX => simp [lookup, hs]
  · have := erel_keys h hf
    cases hl : lookup env' s with
    | none => rfl
    | some b =>
      exact absurd (hs ▸ lookup_key.1 ⟨b, hl⟩) this

theorem erel_bind {w : World} {X : Str} {v : Nat} {env env' : Env} {fl : Bool} (h : ERel w X v fl env env') (s : Str) {b b' : Bind} (hb : BRel w X v b b') :
    ERel w X v (fl && decide (norm s ≠ X)) (bind env s b) (bind env' s b') := by
  unfold bind
  by_cases hs : norm s = X
  · subst hs
    simp only [ne_eq, not_true_eq_false, decide_false, Bool.and_false]
    exact .shadow hb h
  · simp only [ne_eq, hs, not_false_eq_true, decide_true, Bool.and_true]
    exact .cons hs hb h

theorem erel_bindAll {w : World} {X : Str} {v : Nat} : ∀ (ps : List Str) (vs : List Nat) {env env' : Env} {fl : Bool}, vs.length = ps.length → ERel w X v fl env env' →
    ERel w X v (fl && decide (X ∉ ps.map norm)) (bindAll env ps vs) (bindAll env' ps vs) := by
  intro ps
  induction ps with
  | nil => intro vs env env' fl hl h; cases vs <;> simpa [bindAll] using h
  | cons p ps ih =>
    intro vs env env' fl hl h
    cases vs with
    | nil => simp at hl
    | cons u vs =>
      have := ih vs (by simpa using hl) (erel_bind h p (.val u))
      rw [bindAll, bindAll]
      have hflag : (fl && decide (X ∉ (p :: ps).map norm)) = (fl && decide (norm p ≠ X) && decide (X ∉ ps.map norm)) := by
        by_cases h1 : norm p = X <;> by_cases h2 : X ∈ ps.map norm <;> simp_all [eq_comm]
      rw [hflag]
      exact this

/-- The formula that belongs to the second bindings. -/
def subIf (w : World) (X : Str) (v : Nat) (fl : Bool) (e : Expr) : Expr := if fl = true then sub w X v e else e

theorem subIf_false (w : World) (X : Str) (v : Nat) : subIf w X v false = id := by
  funext e
  simp [subIf]

theorem subIf_true (w : World) (X : Str) (v : Nat) : subIf w X v true = sub w X v := by
  funext e
  simp [subIf]

theorem evs_rel {w : World} {X : Str} {v : Nat} {ev ev' : Expr → Option Res} {f : Expr → Expr} : ∀ (args : List Expr), (∀ a ∈ args, RRel w X v (ev a) (ev' (f a))) →
    (evs ev args).map (fun rs => (strict rs).map (List.map (lit w))) = (evs ev' (args.map f)).map (fun rs => (strict rs).map (List.map (lit w))) := by
  intro args
  induction args with
  | nil => intro _; rfl
  | cons a as ih =>
    intro h
    have ha := h a (by simp)
    have iht := ih fun x hx => h x (by simp [hx])
    simp only [evs, List.map_cons]
    cases h1 : evs ev as with
    | none =>
      cases h2 : evs ev' (as.map f) with
      | none => cases ev a <;> cases ev' (f a) <;> simp
      | some rs' => simp [h1, h2] at iht
    | some rs =>
      cases h2 : evs ev' (as.map f) with
      | none => simp [h1, h2] at iht
      | some rs' =>
        simp only [h1, h2, Option.map_some, Option.some.injEq] at iht
        revert ha
        generalize ev a = x
        generalize ev' (f a) = x'
        intro ha
        cases ha with
        | none => simp
        | error e => simp [strict, Except.map]
        | ok hb =>
          simp only [Option.bind_eq_bind, Option.bind_some, Option.map_some, strict]
          cases h3 : strict rs with
          | error e =>
            cases h4 : strict rs' with
            | error e' => simpa [h3, h4, Except.map] using iht
            | ok bs' => simp [h3, h4, Except.map] at iht
          | ok bs =>
            cases h4 : strict rs' with
            | error e' => simp [h3, h4, Except.map] at iht
            | ok bs' =>
              simp only [h3, h4, Except.map, Except.ok.injEq] at iht
              simp [Except.map, iht, brel_lit hb]

theorem argsOf_rel {w : World} {X : Str} {v : Nat} {ev ev' : Expr → Option Res} {fl : Bool} {S : List Str} (b : Nat → Bool) : ∀ (args : List Expr) (i : Nat),
    (∀ a ∈ args, RRel w X v (ev a) (ev' (subIf w X v fl a))) → (fl = true → X ∈ S ∧ ∀ s ∈ rangeNames b S i args, norm s ≠ X) →
    argsOf w ev b i args = argsOf w ev' b i (args.map (subIf w X v fl)) := by
  intro args
  induction args with
  | nil => intro i _ _; rfl
  | cons a as ih =>
    intro i h hr
    have h2 : fl = true → X ∈ S ∧ ∀ s ∈ rangeNames b S (i + 1) as, norm s ≠ X := by
      intro hf
      refine ⟨(hr hf).1, fun s hs => (hr hf).2 s ?_⟩
      cases a <;> simp [rangeNames, hs]
    have hval : (ev a).map (fun r => r.map (lit w)) = (ev' (subIf w X v fl a)).map (fun r => r.map (lit w)) := by
      have := h a (by simp)
      revert this
      generalize ev a = x
      generalize ev' (subIf w X v fl a) = x'
      intro ha
      cases ha with
      | none => rfl
      | error e => rfl
      | ok hb => simp [Except.map, brel_lit hb]
    have h1 : argOf w ev (b i) a = argOf w ev' (b i) (subIf w X v fl a) := by
      cases hb : b i with
      | false => simpa [argOf] using hval
      | true =>
        cases a with
        | name s =>
          have : subIf w X v fl (.name s) = .name s := by
            cases fl with
            | false => rfl
            | true =>
              have hs : norm s ≠ X := by
                intro he
                exact (hr rfl).2 s (by simp [rangeNames, hb, he, (hr rfl).1]) he
              simp [subIf, sub, hs]
          rw [this]
          simp [argOf]
        | ref r =>
          have : subIf w X v fl (.ref r) = .ref r := by cases fl <;> simp [subIf, sub]
          rw [this]
          simp [argOf]
        | lit u =>
          have : subIf w X v fl (.lit u) = .lit u := by cases fl <;> simp [subIf, sub]
          rw [this] at hval ⊢
          simpa [argOf] using hval
        | op o l =>
          cases fl <;> simpa [argOf, subIf, sub] using hval
        | call c l =>
          cases fl <;> simpa [argOf, subIf, sub] using hval
        | fn f l =>
          cases fl with
          | false => simpa [argOf, subIf] using hval
          | true =>
            simp only [subIf, if_true, sub] at hval ⊢
            cases hs : style w f l.length <;> simpa [argOf, hs] using hval
    simp only [argsOf, List.map_cons]
    rw [h1, ih (i + 1) (fun x hx => h x (by simp [hx])) h2]

theorem hidden_all {w : World} {S : List Str} {P : Str → Prop} : ∀ {args : List Expr}, (∀ s ∈ hiddenAll w S args, P s) → ∀ a ∈ args, ∀ s ∈ hidden w S a, P s := by
  intro args
  induction args with
  | nil => intro _ a ha; simp at ha
  | cons x xs ih =>
    intro h a ha
    simp only [hiddenAll, List.mem_append] at h
    rcases List.mem_cons.1 ha with rfl | ha
    · exact fun s hs => h s (.inl hs)
    · exact ih (fun s hs => h s (.inr hs)) a ha

theorem letGo_rel {w : World} {X : Str} {v : Nat} {n : Nat}
    (ih : ∀ (e : Expr) (env env' : Env) (fl : Bool), ERel w X v fl env env' → (fl = true → Plain w X e) → RRel w X v (eval w n env e) (eval w n env' (subIf w X v fl e))) :
    ∀ (m : Nat) (args : List Expr), args.length ≤ m → ∀ (env env' : Env) (fl : Bool), ERel w X v fl env env' → (fl = true → ∃ S, X ∈ S ∧ ∀ s ∈ hiddenLet w S args, norm s ≠ X) →
      RRel w X v (letGo w (eval w n) env args) (letGo w (eval w n) env' (if fl = true then subLet w X v args else args)) := by
  intro m
  induction m with
  | zero =>
    intro args hm env env' fl _ _
    cases args with
    | nil => cases fl <;> exact .ok (.val _)
    | cons a as => simp at hm
  | succ m ihm =>
    intro args hm env env' fl henv hp
    match args, hm, hp with
    | [], _, _ => cases fl <;> exact .ok (.val _)
    | [body], _, hp =>
      have := ih body env env' fl henv fun hf => by
        obtain ⟨S, h1, h2⟩ := hp hf
        exact ⟨S, h1, by simpa [hiddenLet] using h2⟩
      cases fl <;> simpa [letGo, subLet, subIf] using this
    | x :: e :: rest, hm, hp =>
      have he := ih e env env' fl henv fun hf => by
        obtain ⟨S, h1, h2⟩ := hp hf
        exact ⟨S, h1, fun s hs => h2 s (by simp [hiddenLet, hs])⟩
      have hshape : (if fl = true then subLet w X v (x :: e :: rest) else x :: e :: rest) =
          x :: subIf w X v fl e :: (if (fl = true ∧ (localName x).map norm ≠ some X) then subLet w X v rest else rest) := by
        cases fl with
        | false => simp [subIf]
        | true =>
          simp only [if_true, subLet, subIf, true_and]
          by_cases h : (localName x).map norm = some X
          · rw [if_pos h, if_neg (by simp [h])]
          · rw [if_neg h, if_pos (by simpa using h)]
      rw [hshape]
      simp only [letGo]
      cases hx : localName x with
      | none => exact .ok (.val _)
      | some s =>
        simp only
        revert he
        generalize eval w n env e = r
        generalize eval w n env' (subIf w X v fl e) = r'
        intro he
        cases he with
        | none => exact .none
        | error err => exact .error err
        | ok hb =>
          simp only
          have := ihm rest (by simp at hm; omega) _ _ _ (erel_bind henv s hb) ?_
          · simp only [Option.map_some, ne_eq, Option.some.injEq]
            simpa only [Bool.and_eq_true, decide_eq_true_eq, ne_eq] using this
          · intro hf
            obtain ⟨S, h1, h2⟩ := hp (by simp at hf; exact hf.1)
            refine ⟨inScope x S, by simp [inScope, hx, h1], fun t ht => h2 t (by simp [hiddenLet, ht])⟩

theorem eval_rel {w : World} {X : Str} {v : Nat} : ∀ (n : Nat) (e : Expr) (env env' : Env) (fl : Bool), ERel w X v fl env env' → (fl = true → Plain w X e) →
    RRel w X v (eval w n env e) (eval w n env' (subIf w X v fl e)) := by
  intro n
  induction n with
  | zero => intro e env env' fl _ _; simp only [eval]; exact .none
  | succ n ih =>
    intro e env env' fl henv hp
    cases e with
    | lit u =>
      have : subIf w X v fl (.lit u) = .lit u := by cases fl <;> simp [subIf, sub]
      rw [this]
      simp only [eval]
      exact .ok (.val u)
    | ref r =>
      have : subIf w X v fl (.ref r) = .ref r := by cases fl <;> simp [subIf, sub]
      rw [this]
      simp only [eval]
      exact rrel_map _
    | call c args =>
      have : ∃ c' args', subIf w X v fl (.call c args) = .call c' args' := by cases fl <;> simp [subIf, sub]
      obtain ⟨c', args', hc⟩ := this
      rw [hc]
      simp only [eval]
      exact .ok (.val _)
    | name s =>
      by_cases hs : fl = true ∧ norm s = X
      · obtain ⟨hf, hs⟩ := hs
        obtain ⟨h1, h2⟩ := erel_lookup_here s hs henv hf
        simp only [subIf, hf, if_true, sub, hs, eval, h1]
        exact .ok (.val v)
      · have : subIf w X v fl (.name s) = .name s := by
          cases fl with
          | false => rfl
          | true => simp only [subIf, if_true, sub]; rw [if_neg fun h => hs ⟨rfl, h⟩]
        rw [this]
        simp only [eval]
        rcases erel_lookup s henv (fun hf h => hs ⟨hf, h⟩) with ⟨h1, h2⟩ | ⟨b, b', h1, h2, hb⟩
        · simp only [h1, h2]
          exact rrel_map _
        · simp only [h1, h2]
          exact .ok hb
    | op o args =>
      have hsub : subIf w X v fl (.op o args) = .op o (args.map (subIf w X v fl)) := by
        cases fl with
        | false => rw [subIf_false]; simp [subIf]
        | true => simp [subIf_true, sub, subAll_map]
      rw [hsub]
      have hev := evs_rel (w := w) (X := X) (v := v) (ev := eval w n env) (ev' := eval w n env') (f := subIf w X v fl) args fun a ha => ih a env env' fl henv fun hf => by
        obtain ⟨S, h1, h2⟩ := hp hf
        exact ⟨S, h1, hidden_all (by simpa [hidden] using h2) a ha⟩
      rw [eval, eval]
      revert hev
      generalize evs (eval w n env) args = r
      generalize evs (eval w n env') (args.map (subIf w X v fl)) = r'
      intro hev
      cases r with
      | none =>
        cases r' with
        | none => exact .none
        | some rs' => simp at hev
      | some rs =>
        cases r' with
        | none => simp at hev
        | some rs' =>
          simp only [Option.map_some, Option.some.injEq] at hev
          simp only [Option.bind_eq_bind, Option.bind_some]
          cases h3 : strict rs with
          | error e =>
            cases h4 : strict rs' with
            | error e' =>
              simp only [h3, h4, Except.map, Except.error.injEq] at hev
              subst hev
              exact .error e
            | ok bs' => simp [h3, h4, Except.map] at hev
          | ok bs =>
            cases h4 : strict rs' with
            | error e' => simp [h3, h4, Except.map] at hev
            | ok bs' =>
              simp only [h3, h4, Except.map, Except.ok.injEq] at hev
              simp only [hev]
              exact rrel_map _
    | fn f args =>
      cases hf : w.fn f with
      | some kd =>
        cases kd with
        | let_ =>
          by_cases hc : args.length < 3 ∨ args.length % 2 = 0
          · have hst : style w f args.length = .none := by
              simp only [style, hf]
              rw [if_neg (by omega)]
            have : ∃ args', subIf w X v fl (.fn f args) = .fn f args' ∧ args'.length = args.length := by
              cases fl with
              | false => exact ⟨args, rfl, rfl⟩
              | true => exact ⟨subAll w X v args, by simp [subIf, sub, hst], by simp [subAll_map]⟩
            obtain ⟨args', h1, h2⟩ := this
            rw [h1]
            simp only [eval, hf, h2]
            rw [if_pos hc, if_pos hc]
            exact .ok (.val _)
          · have hst : style w f args.length = .pairs := by
              simp only [style, hf]
              rw [if_pos (by omega)]
            have hsub : subIf w X v fl (.fn f args) = .fn f (if fl = true then subLet w X v args else args) := by
              cases fl <;> simp [subIf, sub, hst]
            have hlen : (if fl = true then subLet w X v args else args).length = args.length := by
              cases fl
              · rfl
              · exact subLet_length w X v _ args (Nat.le_refl _)
            rw [hsub]
            simp only [eval, hf, hlen]
            rw [if_neg hc, if_neg hc]
            refine letGo_rel ih args.length args (Nat.le_refl _) env env' fl henv fun h => ?_
            obtain ⟨S, h1, h2⟩ := hp h
            exact ⟨S, h1, by simpa [hidden, hst] using h2⟩
        | lambda =>
          cases hl : args.getLast? with
          | none =>
            have : args = [] := by simpa using hl
            subst this
            have hsub : subIf w X v fl (.fn f []) = .fn f [] := by
              cases fl with
              | false => rfl
              | true => simp [subIf, sub, style, hf, subAll]
            rw [hsub]
            simp only [eval, hf]
            exact .ok (.val _)
          | some body =>
            have hst : style w f args.length = .params := by
              simp only [style, hf]
              rw [if_pos ?_]
              cases args with
              | nil => simp at hl
              | cons a as => simp
            have hsub : subIf w X v fl (.fn f args) = .fn f (if fl = true then subLam w X v args else args) := by
              cases fl <;> simp [subIf, sub, hst]
            have hd : (if fl = true then subLam w X v args else args).dropLast = args.dropLast := by
              cases fl
              · rfl
              · exact subLam_dropLast w X v args
            have hlast : (if fl = true then subLam w X v args else args).getLast? = some (if fl = true ∧ X ∉ paramScope args.dropLast then sub w X v body else body) := by
              cases fl with
              | false => simpa using hl
              | true =>
                rw [if_pos rfl, subLam_last, hl]
                by_cases hX : X ∈ paramScope args.dropLast <;> simp [hX]
            rw [hsub]
            simp only [eval, hf, lamGo, hl, hlast, hd]
            cases hps : lamParams args.dropLast [] with
            | none => exact .ok (.val _)
            | some ps =>
              simp only
              have hsc : ps.map norm = paramScope args.dropLast := by simpa using lamParams_scope _ _ _ hps
              rw [← hsc]
              refine .ok (.clos fl henv fun h hX => ?_)
              obtain ⟨S, h1, h2⟩ := hp h
              refine ⟨ps.map norm ++ S, List.mem_append_right _ h1, ?_⟩
              rw [hsc]
              simpa [hidden, hst, hiddenLam_eq w S args [] body hl] using h2
        | builtin bi =>
          have hst : style w f args.length = .none := by simp [style, hf]
          have hsub : subIf w X v fl (.fn f args) = .fn f (args.map (subIf w X v fl)) := by
            cases fl with
            | false => rw [subIf_false]; simp [subIf]
            | true => simp [subIf_true, sub, hst, subAll_map]
          rw [hsub]
          simp only [eval, hf]
          have : argsOf w (eval w n env) bi.byRange 0 args = argsOf w (eval w n env') bi.byRange 0 (args.map (subIf w X v fl)) := by
            cases fl with
            | false =>
              exact argsOf_rel (S := []) bi.byRange args 0 (fun a _ => ih a env env' false henv fun h => by cases h) fun h => by cases h
            | true =>
              obtain ⟨S, h1, h2⟩ := hp rfl
              simp only [hidden, hst, hf, List.mem_append] at h2
              exact argsOf_rel (S := S) bi.byRange args 0 (fun a ha => ih a env env' true henv fun _ => ⟨S, h1, hidden_all (fun s hs => h2 s (.inr hs)) a ha⟩)
                fun _ => ⟨h1, fun s hs => h2 s (.inl hs)⟩
          rw [this]
          cases argsOf w (eval w n env') bi.byRange 0 (args.map (subIf w X v fl)) with
          | none => exact .none
          | some rs => exact rrel_map _
      | none =>
        have hst : style w f args.length = .none := by simp [style, hf]
        have hsub : subIf w X v fl (.fn f args) = .fn f (args.map (subIf w X v fl)) := by
          cases fl with
          | false => rw [subIf_false]; simp [subIf]
          | true => simp [subIf_true, sub, hst, subAll_map]
        rw [hsub]
        have hev := evs_rel (w := w) (X := X) (v := v) (ev := eval w n env) (ev' := eval w n env') (f := subIf w X v fl) args fun a ha => ih a env env' fl henv fun h => by
          obtain ⟨S, h1, h2⟩ := hp h
          exact ⟨S, h1, hidden_all (by simpa [hidden, hst, hf] using h2) a ha⟩
        rw [eval, eval]
        simp only [hf]
        by_cases hs : fl = true ∧ norm f = X
        · obtain ⟨h1, h2⟩ := erel_lookup_here f hs.2 henv hs.1
          simp only [h1, h2]
          exact .error _
        · rcases erel_lookup f henv (fun hf h => hs ⟨hf, h⟩) with ⟨h1, h2⟩ | ⟨b, b', h1, h2, hb⟩
          · simp only [h1, h2]
            exact .error _
          · simp only [h1, h2]
            cases hb with
            | val u => exact .error _
            | clos fl' he' hp' =>
              rename_i ps body cenv cenv'
              simp only
              revert hev
              generalize evs (eval w n env) args = r
              generalize evs (eval w n env') (args.map (subIf w X v fl)) = r'
              intro hev
              cases r with
              | none =>
                cases r' with
                | none => exact .none
                | some rs' => simp at hev
              | some rs =>
                cases r' with
                | none => simp at hev
                | some rs' =>
                  simp only [Option.map_some, Option.some.injEq] at hev
                  simp only [Option.bind_eq_bind, Option.bind_some]
                  cases h3 : strict rs with
                  | error e =>
                    cases h4 : strict rs' with
                    | error e' =>
                      simp only [h3, h4, Except.map, Except.error.injEq] at hev
                      subst hev
                      exact .error e
                    | ok bs' => simp [h3, h4, Except.map] at hev
                  | ok bs =>
                    cases h4 : strict rs' with
                    | error e' => simp [h3, h4, Except.map] at hev
                    | ok bs' =>
                      simp only [h3, h4, Except.map, Except.ok.injEq] at hev
                      have hlen : bs.length = bs'.length := by simpa using congrArg List.length hev
                      simp only [hev, hlen]
                      by_cases hc : bs'.length = ps.length
                      · rw [if_neg (by simp [hc]), if_neg (by simp [hc])]
                        have hrel := erel_bindAll ps (bs'.map (lit w)) (by simp [hc]) he'
                        have := ih body _ _ _ hrel fun h => by
                          simp only [Bool.and_eq_true, decide_eq_true_eq] at h
                          exact hp' h.1 h.2
                        simpa only [subIf, Bool.and_eq_true, decide_eq_true_eq] using this
                      · rw [if_pos hc, if_pos hc]
                        exact .ok (.val _)

/-- What a cell shows of a result. -/
def shown (w : World) (r : Option Res) : Option (Except Nat Nat) := r.map fun r => r.map (lit w)

theorem rrel_shown {w : World} {X : Str} {v : Nat} {r r' : Option Res} (h : RRel w X v r r') : shown w r = shown w r' := by
  cases h with
  | none => rfl
  | error e => rfl
  | ok hb => simp [shown, Except.map, brel_lit hb]

/-- A formula under a bound name shows what the formula with the value in place of the name shows. -/
theorem bound_is_value_partial (w : World) {x : Str} {v : Nat} {env : Env} {body : Expr} (hx : norm x ∉ keys env) (hp : Plain w (norm x) body) (n : Nat) :
    shown w (eval w n (bind env x (.val v)) body) = shown w (eval w n env (sub w (norm x) v body)) :=
  rrel_shown (by simpa [subIf, bind] using eval_rel n body _ _ true (.here (erel_refl w (norm x) v env) hx) fun _ => hp)

/-- `LET(x,e,body)` shows what `body` with the value of `e` in place of `x` shows. -/
theorem let_is_value_partial (w : World) {f x : Str} {v n : Nat} {env : Env} {e body : Expr} (hf : w.fn f = some .let_) (hx : norm x ∉ keys env) (hp : Plain w (norm x) body)
    (he : eval w n env e = some (.ok (.val v))) : shown w (eval w (n + 1) env (.fn f [.name x, e, body])) = shown w (eval w n env (sub w (norm x) v body)) := by
  rw [← bound_is_value_partial w hx hp n]
  simp [eval, hf, letGo, localName, he]

/-- `LET(f,LAMBDA(p,body),f(e))` shows what `body` with the value of `e` in place of `p` shows. -/
theorem call_is_value_partial (w : World) {l k f p : Str} {v n : Nat} {env : Env} {e body : Expr} (hl : w.fn l = some .let_) (hk : w.fn k = some .lambda) (hf : w.fn f = none)
    (hx : norm p ∉ keys env) (hp : Plain w (norm p) body) (he : shown w (eval w n (bind env f (.clos [p] body env)) e) = some (.ok v)) :
    shown w (eval w (n + 2) env (.fn l [.name f, .fn k [.name p, body], .fn f [e]])) = shown w (eval w n env (sub w (norm p) v body)) := by
  rw [← bound_is_value_partial w hx hp n]
  have h1 : lookup (bind env f (.clos [p] body env)) f = some (.clos [p] body env) := by simp [lookup, bind]
  cases hr : eval w n (bind env f (.clos [p] body env)) e with
  | none => simp [hr, shown] at he
  | some r =>
    cases r with
    | error err => simp [hr, shown, Except.map] at he
    | ok b =>
      have hb : lit w b = v := by simpa [hr, shown, Except.map] using he
      simp [eval, hl, hk, hf, letGo, localName, lamGo, lamParams, h1, evs, hr, strict, bindAll, hb]

/-! ### Several pairs, parameters -/

/-- A formula has this result. -/
def Yields (w : World) (env : Env) (e : Expr) (r : Res) : Prop := ∃ n, eval w n env e = some r

/-- `LET` with several pairs is `LET` with the first pair around `LET` with the others. -/
theorem let_nested (w : World) {f x : Str} {env : Env} {e : Expr} {rest : List Expr} (hf : w.fn f = some .let_) (h3 : 3 ≤ rest.length) (ho : rest.length % 2 = 1) (r : Res) :
    Yields w env (.fn f (.name x :: e :: rest)) r ↔ Yields w env (.fn f [.name x, e, .fn f rest]) r := by
  have hc1 : ¬ ((Expr.name x :: e :: rest).length < 3 ∨ (Expr.name x :: e :: rest).length % 2 = 0) := by simp; omega
  have hc2 : ¬ (rest.length < 3 ∨ rest.length % 2 = 0) := by omega
  have key : ∀ n, eval w (n + 1) env (.fn f (.name x :: e :: rest)) = match eval w n env e with
      | none => none
      | some (.error err) => some (.error err)
      | some (.ok b) => letGo w (eval w n) (bind env x b) rest := by
    intro n
    rw [eval]
    simp only [hf]
    rw [if_neg hc1]
    simp only [letGo, localName]
    cases rest with
    | nil => simp at h3
    | cons a as => rfl
  have key2 : ∀ n, eval w (n + 2) env (.fn f [.name x, e, .fn f rest]) = match eval w (n + 1) env e with
      | none => none
      | some (.error err) => some (.error err)
      | some (.ok b) => letGo w (eval w n) (bind env x b) rest := by
    intro n
    rw [eval]
    simp only [hf]
    rw [if_neg (by simp)]
    simp only [letGo, localName]
    cases eval w (n + 1) env e with
    | none => rfl
    | some r =>
      cases r with
      | error err => rfl
      | ok b =>
        simp only
        rw [eval]
        simp only [hf]
        rw [if_neg hc2]
  constructor
  · rintro ⟨n, hn⟩
    cases n with
    | zero => simp [eval] at hn
    | succ n =>
      refine ⟨n + 2, ?_⟩
      rw [key2]
      rw [key] at hn
      cases he : eval w n env e with
      | none => simp [he] at hn
      | some q => rw [eval_more w (Nat.le_succ n) he]; rw [he] at hn; exact hn
  · rintro ⟨n, hn⟩
    have hn2 := eval_more w (Nat.le_add_right n 2) hn
    rw [key2] at hn2
    refine ⟨n + 2, ?_⟩
    rw [key]
    cases he : eval w (n + 1) env e with
    | none => simp [he] at hn2
    | some q =>
      rw [he] at hn2
      cases q with
      | error err => simpa using hn2
      | ok b =>
        simp only at hn2 ⊢
        exact letGo_mono w (eval_mono w n) _ _ _ _ (Nat.le_refl _) hn2

/-- The parameters of `LAMBDA` are accepted exactly if they are names that differ in more than case. -/
theorem params_spec (args : List Expr) (ps : List Str) : lamParams args [] = some ps ↔ args = ps.map Expr.name ∧ (ps.map norm).Nodup := by
  have key : ∀ (args : List Expr) (acc : List Str), (acc.map norm).Nodup → ∀ ps, lamParams args acc = some ps ↔ ∃ qs, ps = acc ++ qs ∧ args = qs.map Expr.name ∧ ((acc ++ qs).map norm).Nodup := by
    intro args
    induction args with
    | nil =>
      intro acc hacc ps
      simp only [lamParams, Option.some.injEq]
      constructor
      · rintro rfl
        exact ⟨[], by simp, rfl, by simpa using hacc⟩
      · rintro ⟨qs, rfl, h, _⟩
        have : qs = [] := by simpa using h.symm
        simp [this]
    | cons a as ih =>
      intro acc hacc ps
      simp only [lamParams]
      cases ha : localName a with
      | none =>
        simp only
        constructor
        · intro h; cases h
        · rintro ⟨qs, _, h, _⟩
          cases qs with
          | nil => simp at h
          | cons q qs =>
            simp only [List.map_cons, List.cons.injEq] at h
            rw [h.1] at ha
            simp [localName] at ha
      | some s =>
        have has : a = .name s := by cases a <;> simp_all [localName]
        simp only
        by_cases hm : acc.any (fun t => norm t == norm s) = true
        · rw [if_pos hm]
          constructor
          · intro h; cases h
          · rintro ⟨qs, _, h, hn⟩
            cases qs with
            | nil => simp at h
            | cons q qs =>
              simp only [List.map_cons, List.cons.injEq, has, Expr.name.injEq] at h
              obtain ⟨h1, _⟩ := h
              subst h1
              simp only [List.any_eq_true, beq_iff_eq] at hm
              obtain ⟨t, ht, hts⟩ := hm
              simp only [List.map_append, List.map_cons, List.nodup_append] at hn
              exact absurd hts (hn.2.2 _ (List.mem_map_of_mem ht) _ (by simp))
        · rw [if_neg hm]
          have hn : ((acc ++ [s]).map norm).Nodup := by
            simp only [List.map_append, List.map_cons, List.map_nil, List.nodup_append, hacc, true_and]
            refine ⟨by simp, ?_⟩
            intro y hy z hz
            obtain ⟨t, ht, rfl⟩ := List.mem_map.1 hy
            simp only [List.mem_singleton] at hz
            subst hz
            intro he
            exact hm (List.any_eq_true.2 ⟨t, ht, by simpa using he⟩)
          rw [ih _ hn]
          constructor
          · rintro ⟨qs, rfl, h, hq⟩
            exact ⟨s :: qs, by simp, by simp [h, has], by simpa using hq⟩
          · rintro ⟨qs, rfl, h, hq⟩
            cases qs with
            | nil => simp at h
            | cons q qs =>
              simp only [List.map_cons, List.cons.injEq, has, Expr.name.injEq] at h
              obtain ⟨h1, h2⟩ := h
              subst h1
              exact ⟨qs, by simp, h2, by simpa using hq⟩
  rw [key args [] (by simp)]
  simp

/-! ### A case -/

/-- `LET(X,2,x+k)+x` under `x`, with `LET` in any case. -/
def exShadow : Expr := .op 0 [.fn ['L', 'E', 'T'] [.name ['X'], .op 0 [.name ['x'], .lit 1], .op 0 [.name ['x'], .name ['k']]], .name ['x']]

example : sub (exWorld 7) ['X'] 5 exShadow = .op 0 [.fn ['L', 'E', 'T'] [.name ['X'], .op 0 [.lit 5, .lit 1], .op 0 [.name ['x'], .name ['k']]], .lit 5] := rfl

example : norm ['x'] ∉ keys [] ∧ Plain (exWorld 7) (norm ['x']) exShadow ∧ shown (exWorld 7) (eval (exWorld 7) 9 [] (.fn ['L', 'E', 'T'] [.name ['x'], .lit 5, exShadow])) = some (.ok 18) :=
  ⟨by simp [keys], ⟨[['X']], by decide, by decide⟩, rfl⟩

/-- The condition is needed: `LET(x,1,SUM(x))` shows the name of the workbook, `SUM(1)` shows 1. -/
theorem let_is_value_wrong : shown (exWorld 7) (eval (exWorld 7) 9 [] exLetSum) ≠ shown (exWorld 7) (eval (exWorld 7) 9 [] (sub (exWorld 7) ['X'] 1 (.fn ['S', 'U', 'M'] [.name ['x']]))) := by
  intro h
  have : (some (.ok 7) : Option (Except Nat Nat)) = some (.ok 1) := h
  simp at this

end Verif.Local
