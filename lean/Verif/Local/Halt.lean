import Verif.Local.Model

/-!
# `LET` and `LAMBDA` cannot loop

Local functions may call local functions, and calls may return functions, but every formula has a value after finitely many steps.
-/

namespace Verif.Local

/-! ### More steps change nothing -/

/-- The second evaluation has at least the values of the first. -/
def Below (ev ev' : Env → Expr → Option Res) : Prop := ∀ env e r, ev env e = some r → ev' env e = some r

theorem evs_mono {f g : Expr → Option Res} (h : ∀ e r, f e = some r → g e = some r) : ∀ (es : List Expr) (rs : List Res), evs f es = some rs → evs g es = some rs := by
  intro es
  induction es with
  | nil => intro rs h'; exact h'
  | cons e es ih =>
    intro rs h'
    simp only [evs] at h' ⊢
    cases h1 : f e with
    | none => simp [h1] at h'
    | some r =>
      cases h2 : evs f es with
      | none => simp [h1, h2] at h'
      | some rs' =>
        rw [h e r h1, ih rs' h2]
        simpa [h1, h2] using h'

theorem argOf_mono (w : World) {f g : Expr → Option Res} (h : ∀ e r, f e = some r → g e = some r) (b : Bool) (e : Expr) (r : Except Nat Nat) (hr : argOf w f b e = some r) :
    argOf w g b e = some r := by
  unfold argOf at *
  split at hr
  · exact hr
  · exact hr
  · cases h1 : f e with
    | none => simp [h1] at hr
    | some x =>
      rw [h e x h1]
      simpa [h1] using hr

theorem argsOf_mono (w : World) {f g : Expr → Option Res} (h : ∀ e r, f e = some r → g e = some r) (b : Nat → Bool) :
    ∀ (es : List Expr) (i : Nat) (rs : List (Except Nat Nat)), argsOf w f b i es = some rs → argsOf w g b i es = some rs := by
  intro es
  induction es with
  | nil => intro i rs h'; exact h'
  | cons e es ih =>
    intro i rs h'
    simp only [argsOf] at h' ⊢
    cases h1 : argOf w f (b i) e with
    | none => simp [h1] at h'
    | some r =>
      cases h2 : argsOf w f b (i + 1) es with
      | none => simp [h1, h2] at h'
      | some rs' =>
        rw [argOf_mono w h _ e r h1, ih _ rs' h2]
        simpa [h1, h2] using h'

theorem letGo_mono (w : World) {ev ev' : Env → Expr → Option Res} (h : Below ev ev') : ∀ (k : Nat) (args : List Expr) (env : Env) (r : Res), args.length ≤ k →
    letGo w ev env args = some r → letGo w ev' env args = some r := by
  intro k
  induction k with
  | zero =>
    intro args env r hk h'
    cases args with
    | nil => simpa [letGo] using h'
    | cons a as => simp at hk
  | succ k ih =>
    intro args env r hk h'
    match args, hk, h' with
    | [], _, h' => simpa [letGo] using h'
    | [b], _, h' => exact h _ _ _ (by simpa [letGo] using h')
    | x :: e :: rest, hk, h' =>
      simp only [letGo] at h' ⊢
      cases hx : localName x with
      | none => simpa [hx] using h'
      | some s =>
        simp only [hx] at h' ⊢
        cases he : ev env e with
        | none => simp [he] at h'
        | some r' =>
          rw [h _ _ _ he]
          cases r' with
          | error err => simpa [he] using h'
          | ok b =>
            simp only [he] at h' ⊢
            exact ih rest _ r (by simp at hk; omega) h'

theorem eval_mono (w : World) : ∀ n, Below (eval w n) (eval w (n + 1)) := by
  intro n
  induction n with
  | zero => intro env e r h; simp [eval] at h
  | succ n ih =>
    intro env e r h
    cases e with
    | lit v => simpa [eval] using h
    | ref x => simpa [eval] using h
    | name s => simpa [eval] using h
    | call c args => simpa [eval] using h
    | op o args =>
      rw [eval] at h ⊢
      cases h1 : evs (eval w n env) args with
      | none => simp [h1] at h
      | some rs =>
        rw [evs_mono (ih env) args rs h1]
        rw [h1] at h
        exact h
    | fn f args =>
      rw [eval] at h ⊢
      cases hf : w.fn f with
      | some k =>
        cases k with
        | let_ =>
          simp only [hf] at h ⊢
          split at h
          · rename_i hc
            rw [if_pos hc]
            exact h
          · rename_i hc
            rw [if_neg hc]
            exact letGo_mono w ih args.length args env r (Nat.le_refl _) h
        | lambda => simpa [hf] using h
        | builtin b =>
          simp only [hf] at h ⊢
          cases h1 : argsOf w (eval w n env) b.byRange 0 args with
          | none => simp [h1] at h
          | some rs =>
            rw [argsOf_mono w (ih env) b.byRange args 0 rs h1]
            rw [h1] at h
            exact h
      | none =>
        simp only [hf] at h ⊢
        cases hl : lookup env f with
        | none => simpa [hl] using h
        | some b =>
          cases b with
          | val v => simpa [hl] using h
          | clos ps body cenv =>
            simp only [hl] at h ⊢
            cases h1 : evs (eval w n env) args with
            | none => simp [h1] at h
            | some rs =>
              rw [evs_mono (ih env) args rs h1]
              simp only [h1, Option.bind_eq_bind, Option.bind_some] at h ⊢
              cases hs : strict rs with
              | error e => simpa [hs] using h
              | ok bs =>
                simp only [hs] at h ⊢
                split at h
                · rename_i hc
                  rw [if_pos hc]
                  exact h
                · rename_i hc
                  rw [if_neg hc]
                  exact ih _ _ _ h

/-- More steps do not change a value. -/
theorem eval_more (w : World) {n m : Nat} (h : n ≤ m) {env : Env} {e : Expr} {r : Res} (hr : eval w n env e = some r) : eval w m env e = some r := by
  induction h with
  | refl => exact hr
  | step _ ih => exact eval_mono w _ _ _ _ ih

/-! ### Every formula has a value -/

/-- A local function that has a value for all arguments, and if that is a function, a good one. -/
inductive Good (w : World) : Bind → Prop where
  | val (v : Nat) : Good w (.val v)
  | clos {ps : List Str} {body : Expr} {env : Env} (g : List Nat → Res) (halts : ∀ vs, vs.length = ps.length → ∃ n, eval w n (bindAll env ps vs) body = some (g vs))
      (good : ∀ vs b, vs.length = ps.length → g vs = .ok b → Good w b) : Good w (.clos ps body env)

/-- All local functions are good. -/
def GoodEnv (w : World) (env : Env) : Prop := ∀ p ∈ env, Good w p.2

theorem goodEnv_bind {w : World} {env : Env} (h : GoodEnv w env) (s : Str) {b : Bind} (hb : Good w b) : GoodEnv w (bind env s b) := by
  intro p hp
  rcases List.mem_cons.1 hp with rfl | hp
  · exact hb
  · exact h p hp

theorem goodEnv_bindAll {w : World} : ∀ (ps : List Str) (vs : List Nat) {env : Env}, GoodEnv w env → GoodEnv w (bindAll env ps vs) := by
  intro ps
  induction ps with
  | nil => intro vs env h; exact h
  | cons p ps ih =>
    intro vs env h
    cases vs with
    | nil => exact h
    | cons v vs => exact ih vs (goodEnv_bind h p (.val v))

theorem lookup_mem {env : Env} {s : Str} {b : Bind} (h : lookup env s = some b) : ∃ k, (k, b) ∈ env := by
  unfold lookup at h
  cases hf : env.find? fun p => p.1 == norm s with
  | none => simp [hf] at h
  | some p =>
    have : p.2 = b := by simpa [hf] using h
    exact ⟨p.1, by rw [← this]; exact List.mem_of_find?_eq_some hf⟩

/-- A formula has a value, and if that is a function, a good one. -/
def Fine (w : World) (env : Env) (e : Expr) : Prop := ∃ r, (∃ n, eval w n env e = some r) ∧ ∀ b, r = .ok b → Good w b

theorem evs_halt {w : World} {env : Env} : ∀ (args : List Expr), (∀ a ∈ args, Fine w env a) → ∃ rs, (∃ n, evs (eval w n env) args = some rs) ∧ ∀ r ∈ rs, ∀ b, r = .ok b → Good w b := by
  intro args
  induction args with
  | nil => intro _; exact ⟨[], ⟨0, rfl⟩, by simp⟩
  | cons a as ih =>
    intro h
    obtain ⟨r, ⟨n, hn⟩, hg⟩ := h a (by simp)
    obtain ⟨rs, ⟨m, hm⟩, hgs⟩ := ih fun x hx => h x (by simp [hx])
    refine ⟨r :: rs, ⟨max n m, ?_⟩, ?_⟩
    · simp only [evs]
      rw [eval_more w (Nat.le_max_left n m) hn, evs_mono (fun e r => eval_more w (Nat.le_max_right n m)) as rs hm]
      rfl
    · intro x hx
      rcases List.mem_cons.1 hx with rfl | hx
      · exact hg
      · exact hgs x hx

theorem argsOf_halt {w : World} {env : Env} (b : Nat → Bool) : ∀ (args : List Expr) (i : Nat), (∀ a ∈ args, Fine w env a) → ∃ n rs, argsOf w (eval w n env) b i args = some rs := by
  intro args
  induction args with
  | nil => intro i _; exact ⟨0, [], rfl⟩
  | cons a as ih =>
    intro i h
    obtain ⟨r, ⟨n, hn⟩, hg⟩ := h a (by simp)
    obtain ⟨m, rs, hm⟩ := ih (i + 1) fun x hx => h x (by simp [hx])
    have h1 : ∃ x, argOf w (eval w n env) (b i) a = some x := by
      unfold argOf
      split
      · exact ⟨_, rfl⟩
      · exact ⟨_, rfl⟩
      · rw [hn]
        exact ⟨_, rfl⟩
    obtain ⟨x, hx⟩ := h1
    refine ⟨max n m, x :: rs, ?_⟩
    simp only [argsOf]
    rw [argOf_mono w (fun e r => eval_more w (Nat.le_max_left n m)) _ a x hx, argsOf_mono w (fun e r => eval_more w (Nat.le_max_right n m)) b as (i + 1) rs hm]
    rfl

theorem strict_ok : ∀ {rs : List Res} {bs : List Bind}, strict rs = .ok bs → ∀ b ∈ bs, .ok b ∈ rs := by
  intro rs
  induction rs with
  | nil => intro bs h b hb; simp [strict] at h; subst h; simp at hb
  | cons r rs ih =>
    intro bs h b hb
    cases r with
    | error e => simp [strict] at h
    | ok x =>
      simp only [strict] at h
      cases hs : strict rs with
      | error e => simp [hs] at h
      | ok bs' =>
        simp only [hs] at h
        cases h
        rcases List.mem_cons.1 hb with rfl | hb
        · simp
        · exact List.mem_cons_of_mem _ (ih hs b hb)

theorem letGo_halt {w : World} : ∀ (k : Nat) (args : List Expr), args.length ≤ k → (∀ a ∈ args, ∀ env, GoodEnv w env → Fine w env a) → ∀ env, GoodEnv w env →
    ∃ r, (∃ n, letGo w (eval w n) env args = some r) ∧ ∀ b, r = .ok b → Good w b := by
  intro k
  induction k with
  | zero =>
    intro args hk _ env _
    cases args with
    | nil => exact ⟨.ok (.val w.valueErr), ⟨0, by simp [letGo]⟩, fun b hb => by cases hb; exact .val _⟩
    | cons a as => simp at hk
  | succ k ih =>
    intro args hk h env henv
    match args, hk, h with
    | [], _, _ => exact ⟨.ok (.val w.valueErr), ⟨0, by simp [letGo]⟩, fun b hb => by cases hb; exact .val _⟩
    | [b], _, h =>
      obtain ⟨r, ⟨n, hn⟩, hg⟩ := h b (by simp) env henv
      exact ⟨r, ⟨n, by simpa [letGo] using hn⟩, hg⟩
    | x :: e :: rest, hk, h =>
      cases hx : localName x with
      | none => exact ⟨.ok (.val w.valueErr), ⟨0, by simp [letGo, hx]⟩, fun b hb => by cases hb; exact .val _⟩
      | some s =>
        obtain ⟨r, ⟨n, hn⟩, hg⟩ := h e (by simp) env henv
        cases r with
        | error err => exact ⟨.error err, ⟨n, by simp [letGo, hx, hn]⟩, fun b hb => by cases hb⟩
        | ok b =>
          obtain ⟨r', ⟨m, hm⟩, hg'⟩ := ih rest (by simp at hk; omega) (fun a ha => h a (by simp [ha])) (bind env s b) (goodEnv_bind henv s (hg b rfl))
          refine ⟨r', ⟨max n m, ?_⟩, hg'⟩
          simp only [letGo, hx]
          rw [eval_more w (Nat.le_max_left n m) hn]
          exact letGo_mono w (fun env e r => eval_more w (Nat.le_max_right n m)) rest.length rest _ _ (Nat.le_refl _) hm

theorem fine_all (w : World) : ∀ (k : Nat) (e : Expr), sizeOf e < k → ∀ env, GoodEnv w env → Fine w env e := by
  intro k
  induction k with
  | zero => intro e h; exact absurd h (Nat.not_lt_zero _)
  | succ k ih =>
    intro e he env henv
    cases e with
    | lit v => exact ⟨_, ⟨1, rfl⟩, fun b hb => by cases hb; exact .val _⟩
    | ref r =>
      refine ⟨_, ⟨1, rfl⟩, fun b hb => ?_⟩
      cases hr : w.ref r with
      | error e => simp [hr, Except.map] at hb
      | ok v =>
        simp only [hr, Except.map, Except.ok.injEq] at hb
        subst hb
        exact .val _
    | name s =>
      cases hl : lookup env s with
      | some b =>
        refine ⟨.ok b, ⟨1, by simp [eval, hl]⟩, fun b' hb => ?_⟩
        cases hb
        obtain ⟨x, hx⟩ := lookup_mem hl
        exact henv _ hx
      | none =>
        refine ⟨(w.name s).map .val, ⟨1, by simp [eval, hl]⟩, fun b hb => ?_⟩
        cases hr : w.name s with
        | error e => simp [hr, Except.map] at hb
        | ok v =>
          simp only [hr, Except.map, Except.ok.injEq] at hb
          subst hb
          exact .val _
    | call c args => exact ⟨_, ⟨1, rfl⟩, fun b hb => by cases hb; exact .val _⟩
    | op o args =>
      have hsub : ∀ a ∈ args, Fine w env a := fun a ha => ih a (by have := List.sizeOf_lt_of_mem ha; simp at he; omega) env henv
      obtain ⟨rs, ⟨n, hn⟩, _⟩ := evs_halt args hsub
      cases hs : strict rs with
      | error e => exact ⟨.error e, ⟨n + 1, by simp [eval, hn, hs]⟩, fun b hb => by cases hb⟩
      | ok bs =>
        refine ⟨_, ⟨n + 1, by simp only [eval, hn, Option.bind_eq_bind, Option.bind_some, hs]; rfl⟩, fun b hb => ?_⟩
        cases ho : w.op o (bs.map (lit w)) with
        | error e => simp [ho, Except.map] at hb
        | ok v =>
          simp only [ho, Except.map, Except.ok.injEq] at hb
          subst hb
          exact .val _
    | fn f args =>
      have hsub : ∀ a ∈ args, ∀ env, GoodEnv w env → Fine w env a := fun a ha => ih a (by have := List.sizeOf_lt_of_mem ha; simp at he; omega)
      cases hf : w.fn f with
      | some kd =>
        cases kd with
        | let_ =>
          by_cases hc : args.length < 3 ∨ args.length % 2 = 0
          · exact ⟨.ok (.val w.valueErr), ⟨1, by simp only [eval, hf]; rw [if_pos hc]⟩, fun b hb => by cases hb; exact .val _⟩
          · obtain ⟨r, ⟨n, hn⟩, hg⟩ := letGo_halt args.length args (Nat.le_refl _) hsub env henv
            exact ⟨r, ⟨n + 1, by simp only [eval, hf]; rw [if_neg hc]; exact hn⟩, hg⟩
        | lambda =>
          refine ⟨lamGo w env args, ⟨1, by simp [eval, hf]⟩, fun b hb => ?_⟩
          unfold lamGo at hb
          cases hl : args.getLast? with
          | none => simp only [hl] at hb; cases hb; exact .val _
          | some body =>
            simp only [hl] at hb
            cases hp : lamParams args.dropLast [] with
            | none => simp only [hp] at hb; cases hb; exact .val _
            | some ps =>
              simp only [hp] at hb
              cases hb
              have hb : ∀ vs : List Nat, ∃ r, (∃ n, eval w n (bindAll env ps vs) body = some r) ∧ ∀ b, r = .ok b → Good w b := fun vs =>
                hsub body (List.mem_of_getLast? hl) _ (goodEnv_bindAll ps vs henv)
              exact .clos (fun vs => (hb vs).choose) (fun vs _ => (hb vs).choose_spec.1) (fun vs b _ h => (hb vs).choose_spec.2 b h)
        | builtin bi =>
          obtain ⟨n, rs, hn⟩ := argsOf_halt bi.byRange args 0 fun a ha => hsub a ha env henv
          refine ⟨(bi.run rs).map .val, ⟨n + 1, by simp [eval, hf, hn]⟩, fun b hb => ?_⟩
          cases ho : bi.run rs with
          | error e => simp [ho, Except.map] at hb
          | ok v =>
            simp only [ho, Except.map, Except.ok.injEq] at hb
            subst hb
            exact .val _
      | none =>
        cases hl : lookup env f with
        | none => exact ⟨.error w.nameErr, ⟨1, by simp [eval, hf, hl]⟩, fun b hb => by cases hb⟩
        | some b =>
          cases b with
          | val v => exact ⟨.error w.nameErr, ⟨1, by simp [eval, hf, hl]⟩, fun b hb => by cases hb⟩
          | clos ps body cenv =>
            obtain ⟨rs, ⟨n, hn⟩, _⟩ := evs_halt args fun a ha => hsub a ha env henv
            cases hs : strict rs with
            | error e => exact ⟨.error e, ⟨n + 1, by simp [eval, hf, hl, hn, hs]⟩, fun b hb => by cases hb⟩
            | ok bs =>
              by_cases hc : bs.length = ps.length
              · obtain ⟨key, hkey⟩ := lookup_mem hl
                cases henv _ hkey with
                | clos g halts good =>
                  have hlen : (bs.map (lit w)).length = ps.length := by simp [hc]
                  obtain ⟨m, hm⟩ := halts _ hlen
                  refine ⟨g (bs.map (lit w)), ⟨max n m + 1, ?_⟩, fun b hb => good _ b hlen hb⟩
                  simp only [eval, hf, hl]
                  rw [evs_mono (fun e r => eval_more w (Nat.le_max_left n m)) args rs hn]
                  simp only [Option.bind_eq_bind, Option.bind_some, hs]
                  rw [if_neg (by simp [hc])]
                  exact eval_more w (Nat.le_max_right n m) hm
              · refine ⟨.ok (.val w.valueErr), ⟨n + 1, ?_⟩, fun b hb => by cases hb; exact .val _⟩
                simp only [eval, hf, hl, hn, Option.bind_eq_bind, Option.bind_some, hs]
                rw [if_pos hc]

/-- Every formula has a value after finitely many steps, whatever the workbook is. -/
theorem eval_halts (w : World) (e : Expr) : ∃ n r, ∀ m, n ≤ m → eval w m [] e = some r := by
  obtain ⟨r, ⟨n, hn⟩, _⟩ := fine_all w (sizeOf e + 1) e (Nat.lt_succ_self _) [] (fun p hp => absurd hp (by simp))
  exact ⟨n, r, fun m hm => eval_more w hm hn⟩

end Verif.Local
