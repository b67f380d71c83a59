import Verif.Local.Reads

/-!
# The value of a formula depends on what it reads only

This holds for formulas in which no local name stands where a function reads a range.  There the name is looked up in the workbook, and the formula depends on something that
it does not declare.
-/

namespace Verif.Local

/-- The local names among the arguments that a function reads as ranges. -/
def rangeNames (byRange : Nat → Bool) (S : List Str) : Nat → List Expr → List Str
  | _, [] => []
  | i, .name s :: rest => (if byRange i = true ∧ norm s ∈ S then [s] else []) ++ rangeNames byRange S (i + 1) rest
  | i, _ :: rest => rangeNames byRange S (i + 1) rest

mutual

/-- The local names that a function reads as ranges anywhere in a formula. -/
def hidden (w : World) (S : List Str) : Expr → List Str
  | .op _ args => hiddenAll w S args
  | .fn f args =>
    match style w f args.length with
    | .pairs => hiddenLet w S args
    | .params => hiddenLam w S [] args
    | .none =>
      (match w.fn f with
        | some (.builtin b) => rangeNames b.byRange S 0 args
        | _ => []) ++ hiddenAll w S args
  | _ => []

/-- Those of a list of formulas. -/
def hiddenAll (w : World) (S : List Str) : List Expr → List Str
  | [] => []
  | e :: rest => hidden w S e ++ hiddenAll w S rest

/-- Those of the pairs and the last formula of `LET`. -/
def hiddenLet (w : World) (S : List Str) : List Expr → List Str
  | [] => []
  | [body] => hidden w S body
  | x :: e :: rest => hidden w S e ++ hiddenLet w (inScope x S) rest

/-- Those of the last formula of `LAMBDA`. -/
def hiddenLam (w : World) (S P : List Str) : List Expr → List Str
  | [] => []
  | [body] => hidden w (P ++ S) body
  | x :: rest => hiddenLam w S (P ++ inScope x []) rest

end

theorem hiddenLam_eq (w : World) (S : List Str) : ∀ (args : List Expr) (P : List Str) (body : Expr), args.getLast? = some body →
    hiddenLam w S P args = hidden w (P ++ paramScope args.dropLast ++ S) body := by
  intro args
  induction args with
  | nil => intro P body h; simp at h
  | cons a as ih =>
    intro P body h
    cases as with
    | nil =>
      simp only [List.getLast?_singleton, Option.some.injEq] at h
      subst h
      simp [hiddenLam, paramScope]
    | cons b bs =>
      have h' : (b :: bs).getLast? = some body := by simpa [List.getLast?_cons_cons] using h
      rw [hiddenLam, ih _ body h']
      · simp only [List.dropLast_cons_of_ne_nil (List.cons_ne_nil b bs), paramScope, inScope]
        cases localName a <;> simp
      · intro hc
        cases hc

theorem lamParams_scope : ∀ (args : List Expr) (acc ps : List Str), lamParams args acc = some ps → ps.map norm = acc.map norm ++ paramScope args := by
  intro args
  induction args with
  | nil => intro acc ps h; simp only [lamParams, Option.some.injEq] at h; subst h; simp [paramScope]
  | cons a as ih =>
    intro acc ps h
    simp only [lamParams] at h
    cases ha : localName a with
    | none => simp [ha] at h
    | some s =>
      simp only [ha] at h
      split at h
      · cases h
      · rw [ih _ _ h]
        simp [paramScope, ha]

/-- The other workbook: other cells and names, the same functions. -/
def World.other (w : World) (ref' : Nat → Except Nat Nat) (name' : Str → Except Nat Nat) : World := { w with ref := ref', name := name' }

/-- The workbooks agree on these references and names. -/
def Agree (w w' : World) (items : List Item) : Prop := (∀ r, .ref r ∈ items → w.ref r = w'.ref r) ∧ ∀ s, .name s ∈ items → w.name s = w'.name s

theorem Agree.mono {w w' : World} {a b : List Item} (h : Agree w w' b) (hs : ∀ x ∈ a, x ∈ b) : Agree w w' a := ⟨fun r hr => h.1 r (hs _ hr), fun s hr => h.2 s (hs _ hr)⟩

/-- A formula whose value cannot differ: the workbooks agree on what it reads, and it reads no local name as a range. -/
def Safe (w w' : World) (S : List Str) (e : Expr) : Prop := hidden w S e = [] ∧ Agree w w' (reads w S e)

/-- The names that are bound. -/
def keys (env : Env) : List Str := env.map (·.1)

/-- A local function whose values cannot differ. -/
inductive Cov (w w' : World) : Bind → Prop where
  | val (v : Nat) : Cov w w' (.val v)
  | clos {ps : List Str} {body : Expr} {env : Env} (S : List Str) (dom : ∀ s ∈ S, s ∈ keys env) (safe : Safe w w' (ps.map norm ++ S) body) (deep : ∀ p ∈ env, Cov w w' p.2) :
      Cov w w' (.clos ps body env)

theorem lookup_key {env : Env} {s : Str} : (∃ b, lookup env s = some b) ↔ norm s ∈ keys env := by
  unfold lookup keys
  rw [List.mem_map]
  constructor
  · rintro ⟨b, h⟩
    cases hf : env.find? fun p => p.1 == norm s with
    | none => simp [hf] at h
    | some p => exact ⟨p, List.mem_of_find?_eq_some hf, by simpa using List.find?_some hf⟩
  · rintro ⟨p, hp, he⟩
    cases hf : env.find? fun p => p.1 == norm s with
    | none =>
      have := List.find?_eq_none.1 hf p hp
      simp [he] at this
    | some q => exact ⟨q.2, by simp⟩

theorem keys_bindAll : ∀ (ps : List Str) (vs : List Nat) (env : Env), vs.length = ps.length → ∀ k, k ∈ keys (bindAll env ps vs) ↔ k ∈ ps.map norm ∨ k ∈ keys env := by
  intro ps
  induction ps with
  | nil => intro vs env _ k; cases vs <;> simp [bindAll]
  | cons p ps ih =>
    intro vs env h k
    cases vs with
    | nil => simp at h
    | cons v vs =>
      rw [bindAll, ih vs _ (by simpa using h)]
      simp only [bind, keys, List.map_cons, List.mem_cons]
      constructor
      · rintro (h | h | h)
        · exact .inl (.inr h)
        · exact .inl (.inl h)
        · exact .inr h
      · rintro ((h | h) | h)
        · exact .inr (.inl h)
        · exact .inl h
        · exact .inr (.inr h)

theorem cov_bindAll {w w' : World} : ∀ (ps : List Str) (vs : List Nat) {env : Env}, (∀ p ∈ env, Cov w w' p.2) → ∀ p ∈ bindAll env ps vs, Cov w w' p.2 := by
  intro ps
  induction ps with
  | nil => intro vs env h; cases vs <;> exact h
  | cons q ps ih =>
    intro vs env h
    cases vs with
    | nil => exact h
    | cons v vs =>
      refine ih vs ?_
      intro p hp
      rcases List.mem_cons.1 hp with rfl | hp
      · exact .val v
      · exact h p hp

/-- Both evaluations agree on a formula, and the value is a local function whose values cannot differ, if it is one. -/
def Same (w w' : World) (n : Nat) (env : Env) (e : Expr) : Prop := eval w n env e = eval w' n env e ∧ ∀ b, eval w n env e = some (.ok b) → Cov w w' b

theorem evs_same {w w' : World} {n : Nat} {env : Env} : ∀ (args : List Expr), (∀ a ∈ args, Same w w' n env a) → evs (eval w n env) args = evs (eval w' n env) args := by
  intro args
  induction args with
  | nil => intro _; rfl
  | cons a as ih =>
    intro h
    simp only [evs]
    rw [(h a (by simp)).1, ih fun x hx => h x (by simp [hx])]

theorem safe_all {w w' : World} {S : List Str} : ∀ {args : List Expr}, hiddenAll w S args = [] → Agree w w' (readsAll w S args) → ∀ a ∈ args, Safe w w' S a := by
  intro args
  induction args with
  | nil => intro _ _ a ha; simp at ha
  | cons x xs ih =>
    intro h1 h2 a ha
    simp only [hiddenAll, List.append_eq_nil_iff] at h1
    simp only [readsAll] at h2
    rcases List.mem_cons.1 ha with rfl | ha
    · exact ⟨h1.1, h2.mono fun x hx => List.mem_append_left _ hx⟩
    · exact ih h1.2 (h2.mono fun x hx => List.mem_append_right _ hx) a ha

theorem argsOf_same {w w' : World} {n : Nat} {env : Env} {S : List Str} (hc : w'.calcErr = w.calcErr) (b : Nat → Bool) : ∀ (args : List Expr) (i : Nat), (∀ a ∈ args, Same w w' n env a) →
    rangeNames b S i args = [] → Agree w w' (readsAll w S args) → argsOf w (eval w n env) b i args = argsOf w' (eval w' n env) b i args := by
  have hlit : lit w' = lit w := by
    funext x
    cases x <;> simp [lit, hc]
  intro args
  induction args with
  | nil => intro i _ _ _; rfl
  | cons a as ih =>
    intro i h hr hag
    have h2 : rangeNames b S (i + 1) as = [] := by
      cases a <;> simp_all [rangeNames]
    have h1 : argOf w (eval w n env) (b i) a = argOf w' (eval w' n env) (b i) a := by
      unfold argOf
      rw [hlit]
      have hs := (h a (by simp)).1
      cases a with
      | name s =>
        cases hb : b i with
        | false => simp only; rw [hs]
        | true =>
          simp only
          have : norm s ∉ S := by
            intro hm
            simp [rangeNames, hb, hm] at hr
          rw [hag.2 s (by simp [readsAll, reads, this])]
      | ref r =>
        cases hb : b i with
        | false => simp only; rw [hs]
        | true =>
          simp only
          rw [hag.1 r (by simp [readsAll, reads])]
      | lit v => cases b i <;> (simp only; rw [hs])
      | op o l => cases b i <;> (simp only; rw [hs])
      | fn f l => cases b i <;> (simp only; rw [hs])
      | call c l => cases b i <;> (simp only; rw [hs])
    simp only [argsOf]
    rw [h1, ih (i + 1) (fun x hx => h x (by simp [hx])) h2 (hag.mono fun x hx => by simp only [readsAll]; exact List.mem_append_right _ hx)]

theorem letGo_same {w w' : World} {n : Nat} (hv : w'.valueErr = w.valueErr)
    (ih : ∀ (e : Expr) (env : Env) (S : List Str), (∀ s ∈ S, s ∈ keys env) → (∀ p ∈ env, Cov w w' p.2) → Safe w w' S e → Same w w' n env e) :
    ∀ (m : Nat) (args : List Expr), args.length ≤ m → ∀ (env : Env) (S : List Str), (∀ s ∈ S, s ∈ keys env) → (∀ p ∈ env, Cov w w' p.2) → hiddenLet w S args = [] →
      Agree w w' (readsLet w S args) → letGo w (eval w n) env args = letGo w' (eval w' n) env args ∧ ∀ b, letGo w (eval w n) env args = some (.ok b) → Cov w w' b := by
  intro m
  induction m with
  | zero =>
    intro args hm env S _ _ _ _
    cases args with
    | nil => refine ⟨by simp [letGo, hv], fun b hb => ?_⟩; simp only [letGo] at hb; cases hb; exact .val _
    | cons a as => simp at hm
  | succ m ihm =>
    intro args hm env S hdom hcov hh hag
    match args, hm, hh, hag with
    | [], _, _, _ => refine ⟨by simp [letGo, hv], fun b hb => ?_⟩; simp only [letGo] at hb; cases hb; exact .val _
    | [body], _, hh, hag =>
      have := ih body env S hdom hcov ⟨by simpa [hiddenLet] using hh, by simpa [readsLet] using hag⟩
      exact ⟨by simpa [letGo] using this.1, fun b hb => this.2 b (by simpa [letGo] using hb)⟩
    | x :: e :: rest, hm, hh, hag =>
      simp only [hiddenLet, List.append_eq_nil_iff] at hh
      simp only [readsLet] at hag
      simp only [letGo]
      cases hx : localName x with
      | none => exact ⟨by simp [hv], fun b hb => by simp only [Option.some.injEq, Except.ok.injEq] at hb; subst hb; exact .val _⟩
      | some s =>
        have he := ih e env S hdom hcov ⟨hh.1, hag.mono fun x hx => List.mem_append_left _ hx⟩
        simp only
        rw [← he.1]
        cases hr : eval w n env e with
        | none => exact ⟨rfl, fun b hb => (by simp at hb)⟩
        | some r =>
          cases r with
          | error err => exact ⟨rfl, fun b hb => (by simp at hb)⟩
          | ok b =>
            simp only
            have hin : inScope x S = norm s :: S := by simp [inScope, hx]
            refine ihm rest (by simp at hm; omega) (bind env s b) (norm s :: S) ?_ ?_ (hin ▸ hh.2) ((hin ▸ hag : Agree w w' (reads w S e ++ readsLet w (norm s :: S) rest)).mono fun x hx => List.mem_append_right _ hx)
            · intro k hk
              rcases List.mem_cons.1 hk with rfl | hk
              · simp [bind, keys]
              · have := hdom k hk
                simp only [bind, keys, List.map_cons, List.mem_cons]
                exact .inr this
            · intro p hp
              rcases List.mem_cons.1 hp with rfl | hp
              · exact he.2 b hr
              · exact hcov p hp

theorem cov_map {w w' : World} {r : Except Nat Nat} {b : Bind} (h : some (r.map Bind.val) = some (.ok b)) : Cov w w' b := by
  cases r with
  | error e => simp [Except.map] at h
  | ok v =>
    simp only [Except.map, Option.some.injEq, Except.ok.injEq] at h
    subst h
    exact .val _

theorem eval_same (w : World) (ref' : Nat → Except Nat Nat) (name' : Str → Except Nat Nat) : ∀ (n : Nat) (e : Expr) (env : Env) (S : List Str), (∀ s ∈ S, s ∈ keys env) →
    (∀ p ∈ env, Cov w (w.other ref' name') p.2) → Safe w (w.other ref' name') S e → Same w (w.other ref' name') n env e := by
  intro n
  induction n with
  | zero => intro e env S _ _ _; exact ⟨rfl, fun b hb => (by simp [eval] at hb)⟩
  | succ n ih =>
    intro e env S hdom hcov hsafe
    cases e with
    | lit v => exact ⟨rfl, fun b hb => (by simp only [eval, Option.some.injEq, Except.ok.injEq] at hb; subst hb; exact .val _)⟩
    | call c args => exact ⟨rfl, fun b hb => (by simp only [eval, Option.some.injEq, Except.ok.injEq] at hb; subst hb; exact .val _)⟩
    | ref r =>
      refine ⟨?_, fun b hb => cov_map (by simpa only [eval] using hb)⟩
      simp only [eval]
      rw [hsafe.2.1 r (by simp [reads])]
    | name s =>
      cases hl : lookup env s with
      | some b =>
        refine ⟨by simp [eval, hl], fun b' hb => ?_⟩
        simp only [eval, hl, Option.some.injEq, Except.ok.injEq] at hb
        subst hb
        obtain ⟨x, hx⟩ := lookup_mem hl
        exact hcov _ hx
      | none =>
        have hk : norm s ∉ S := by
          intro h
          obtain ⟨b, hb⟩ := lookup_key.2 (hdom _ h)
          rw [hl] at hb
          cases hb
        refine ⟨?_, fun b hb => cov_map (by simpa only [eval, hl] using hb)⟩
        simp only [eval, hl]
        rw [hsafe.2.2 s (by simp [reads, hk])]
    | op o args =>
      have hall : ∀ a ∈ args, Same w (w.other ref' name') n env a := fun a ha =>
        ih a env S hdom hcov (safe_all (by simpa [hidden] using hsafe.1) (by simpa [reads] using hsafe.2) a ha)
      constructor
      · rw [eval, eval, evs_same args hall]
        rfl
      · intro b hb
        rw [eval] at hb
        cases h1 : evs (eval w n env) args with
        | none => simp [h1] at hb
        | some rs =>
          simp only [h1, Option.bind_eq_bind, Option.bind_some] at hb
          cases h2 : strict rs with
          | error e => simp [h2] at hb
          | ok bs => simp only [h2] at hb; exact cov_map hb
    | fn f args =>
      have hs := hsafe.1
      have hr := hsafe.2
      rw [hidden] at hs
      rw [reads] at hr
      cases hf : w.fn f with
      | some kd =>
        cases kd with
        | let_ =>
          by_cases hc : args.length < 3 ∨ args.length % 2 = 0
          · constructor
            · simp only [eval, World.other, hf]
              rw [if_pos hc, if_pos hc]
            · intro b hb
              simp only [eval, hf] at hb
              rw [if_pos hc] at hb
              cases hb
              exact .val _
          · have hst : style w f args.length = .pairs := by
              simp only [style, hf]
              rw [if_pos (by omega)]
            simp only [hst] at hs hr
            have := letGo_same (w := w) (w' := w.other ref' name') rfl ih args.length args (Nat.le_refl _) env S hdom hcov hs hr
            constructor
            · rw [eval, eval]
              simp only [hf, show (w.other ref' name').fn f = some .let_ from hf]
              rw [if_neg hc, if_neg hc]
              exact this.1
            · intro b hb
              rw [eval] at hb
              simp only [hf] at hb
              rw [if_neg hc] at hb
              exact this.2 b hb
        | lambda =>
          constructor
          · simp only [eval, World.other, hf]
            rfl
          · intro b hb
            simp only [eval, hf, Option.some.injEq] at hb
            unfold lamGo at hb
            cases hl : args.getLast? with
            | none => simp only [hl] at hb; cases hb; exact .val _
            | some body =>
              simp only [hl] at hb
              cases hp : lamParams args.dropLast [] with
              | none => simp only [hp] at hb; cases hb; exact .val _
              | some ps =>
                simp only [hp] at hb
                cases hb
                have hst : style w f args.length = .params := by
                  simp only [style, hf]
                  rw [if_pos ?_]
                  cases args with
                  | nil => simp at hl
                  | cons a as => simp
                simp only [hst] at hs hr
                have hsc : ps.map norm = paramScope args.dropLast := by simpa using lamParams_scope _ _ _ hp
                refine .clos S hdom ⟨?_, ?_⟩ hcov
                · rw [hsc]
                  simpa [hiddenLam_eq w S args [] body hl] using hs
                · rw [hsc]
                  simpa [readsLam_eq w S args [] body hl] using hr
        | builtin bi =>
          have hst : style w f args.length = .none := by simp [style, hf]
          simp only [hst, hf, List.append_eq_nil_iff] at hs
          simp only [hst] at hr
          have hall : ∀ a ∈ args, Same w (w.other ref' name') n env a := fun a ha => ih a env S hdom hcov (safe_all hs.2 hr a ha)
          constructor
          · rw [eval, eval]
            simp only [hf, show (w.other ref' name').fn f = some (.builtin bi) from hf]
            rw [argsOf_same (w := w) (w' := w.other ref' name') (n := n) (env := env) rfl bi.byRange args 0 hall hs.1 hr]
          · intro b hb
            rw [eval] at hb
            simp only [hf] at hb
            cases h1 : argsOf w (eval w n env) bi.byRange 0 args with
            | none => simp [h1] at hb
            | some rs =>
              simp only [h1, Option.bind_eq_bind, Option.bind_some] at hb
              exact cov_map hb
      | none =>
        have hst : style w f args.length = .none := by simp [style, hf]
        simp only [hst, hf, List.nil_append] at hs
        simp only [hst] at hr
        have hall : ∀ a ∈ args, Same w (w.other ref' name') n env a := fun a ha => ih a env S hdom hcov (safe_all hs hr a ha)
        cases hl : lookup env f with
        | none => exact ⟨by simp only [eval, World.other, hf, hl], fun b hb => (by simp [eval, hf, hl] at hb)⟩
        | some bd =>
          cases bd with
          | val v => exact ⟨by simp only [eval, World.other, hf, hl], fun b hb => (by simp [eval, hf, hl] at hb)⟩
          | clos ps body cenv =>
            obtain ⟨key, hkey⟩ := lookup_mem hl
            rw [Same, eval, eval]
            simp only [hf, hl, show (w.other ref' name').fn f = none from hf]
            rw [← evs_same args hall]
            cases h1 : evs (eval w n env) args with
            | none => exact ⟨rfl, fun b hb => (by simp at hb)⟩
            | some rs =>
              simp only [Option.bind_eq_bind, Option.bind_some]
              cases h2 : strict rs with
              | error e => exact ⟨rfl, fun b hb => (by simp at hb)⟩
              | ok bs =>
                simp only
                by_cases hc : bs.length = ps.length
                · rw [if_neg (by simp [hc]), if_neg (by simp [hc])]
                  cases hcov _ hkey with
                  | clos S' dom safe deep =>
                    have hlen : (bs.map (lit w)).length = ps.length := by simp [hc]
                    refine ih body (bindAll cenv ps (bs.map (lit w))) (ps.map norm ++ S') ?_ (cov_bindAll ps _ deep) safe
                    intro s hs
                    rw [keys_bindAll ps _ cenv hlen]
                    rcases List.mem_append.1 hs with h | h
                    · exact .inl h
                    · exact .inr (dom s h)
                · rw [if_pos hc, if_pos hc]
                  exact ⟨rfl, fun b hb => (by simp only [Option.some.injEq, Except.ok.injEq] at hb; subst hb; exact .val _)⟩

/-- Two workbooks that agree on what a formula declares to read give it the same value, if it has no local name where a function reads a range. -/
theorem value_by_reads_partial (w : World) (ref' : Nat → Except Nat Nat) (name' : Str → Except Nat Nat) {e : Expr} (hh : hidden w [] e = [])
    (hr : ∀ r, .ref r ∈ reads w [] e → w.ref r = ref' r) (hn : ∀ s, .name s ∈ reads w [] e → w.name s = name' s) (n : Nat) :
    eval w n [] e = eval (w.other ref' name') n [] e :=
  (eval_same w ref' name' n e [] [] (by simp) (by simp) ⟨hh, hr, hn⟩).1

/-- The same for what the visit of the formula declares. -/
theorem value_by_declared_partial (w : World) (ref' : Nat → Except Nat Nat) (name' : Str → Except Nat Nat) {e : Expr} (hh : hidden w [] e = []) {m : Nat} {items : List Item}
    (hv : visit w m [.node e] [] [] = some items) (hr : ∀ r, .ref r ∈ items → w.ref r = ref' r) (hn : ∀ s, .name s ∈ items → w.name s = name' s) (n : Nat) :
    eval w n [] e = eval (w.other ref' name') n [] e := by
  obtain ⟨k, hk⟩ := visit_reads w e
  have : items = reads w [] e := by
    have h1 := hk m
    have h2 := visit_more w hv k
    rw [Nat.add_comm] at h2
    rw [h1] at h2
    exact (Option.some.inj h2).symm
  subst this
  exact value_by_reads_partial w ref' name' hh hr hn n

/-! ### The exception -/

/-- `SUM` reads its arguments as ranges. -/
def exSum : Builtin := ⟨fun _ => true, fun rs => rs.headD (.ok 0)⟩

/-- A workbook with `LET`, `LAMBDA` and `SUM`; its name `x` is the value 7. -/
def exWorld (x : Nat) : World where
  ref := fun r => .ok r
  name := fun _ => .ok x
  op := fun _ vs => .ok vs.sum
  fn := fun f => if f = ['L', 'E', 'T'] then some .let_ else if f = ['L', 'A', 'M', 'B', 'D', 'A'] then some .lambda else if f = ['S', 'U', 'M'] then some (.builtin exSum) else none
  valueErr := 1001
  calcErr := 1002
  nameErr := 1003
  nimplErr := 1004

/-- `LET(x,1,SUM(x))` -/
def exLetSum : Expr := .fn ['L', 'E', 'T'] [.name ['x'], .lit 1, .fn ['S', 'U', 'M'] [.name ['x']]]

/-- `LET(x,1,SUM(x))` reads nothing, yet it has the value of the name x of the workbook. -/
theorem let_range_wrong (v : Nat) : reads (exWorld v) [] exLetSum = [] ∧ ∀ n, eval (exWorld v) (n + 3) [] exLetSum = some (.ok (.val v)) := by
  exact ⟨rfl, fun n => rfl⟩

/-- `LET(k,10,f,LAMBDA(n,n+k),f(A5))` -/
def exAdd : Expr := .fn ['L', 'E', 'T'] [.name ['k'], .lit 10, .name ['f'], .fn ['L', 'A', 'M', 'B', 'D', 'A'] [.name ['n'], .op 0 [.name ['N'], .name ['K']]], .fn ['f'] [.ref 5]]

example : hidden (exWorld 7) [] exAdd = [] ∧ reads (exWorld 7) [] exAdd = [.ref 5] ∧ eval (exWorld 7) 9 [] exAdd = some (.ok (.val 15)) := ⟨by decide, by decide, rfl⟩

end Verif.Local
