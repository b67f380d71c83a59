import Verif.Pretty.Run

/-!
# The round trip at the level of text

Printing a formula and tokenizing and parsing the text gives the formula back.
-/

namespace Verif.Pretty

open Verif.Token

variable {α : Type} {cfg : Cfg} {dec : Sub → List Char → α} {shw : α → List Char}

/-! ## Segments -/

/-- The tokenizer goes from one state to the other and on the way produces, counting the pending operand as produced, the given
parser tokens. -/
structure Seg (cfg : Cfg) (dec : Sub → List Char → α) (sp st : List Span) (ts off : Nat) (sp' st' : List Span) (ts' off' : Nat)
    (toks : List (Tok α)) : Prop where
  intro ::
  runs : Runs cfg (mk sp st ts off) (mk sp' st' ts' off')
  le : ts' ≤ off'
  new : ∃ ns, saved cfg sp' ts' off' = ns ++ saved cfg sp ts off ∧ ns.reverse.map (toTok dec cfg.text) = toks.map some

theorem Seg.trans {sp st sp' st' sp'' st'' : List Span} {ts off ts' off' ts'' off'' : Nat} {a b : List (Tok α)}
    (h : Seg cfg dec sp st ts off sp' st' ts' off' a) (h' : Seg cfg dec sp' st' ts' off' sp'' st'' ts'' off'' b) :
    Seg cfg dec sp st ts off sp'' st'' ts'' off'' (a ++ b) := by
  obtain ⟨n, hn, hm⟩ := h.new
  obtain ⟨n', hn', hm'⟩ := h'.new
  refine ⟨h.runs.trans h'.runs, h'.le, n' ++ n, ?_, ?_⟩
  · rw [hn', hn, List.append_assoc]
  · rw [List.reverse_append, List.map_append, hm, hm', List.map_append]

theorem Seg.refl (sp st : List Span) {ts off : Nat} (h : ts ≤ off) : Seg cfg dec sp st ts off sp st ts off ([] : List (Tok α)) :=
  ⟨Runs.refl _, h, [], rfl, rfl⟩

theorem Seg.one {sp st st' : List Span} {ts off o : Nat} {t : Span} {k : Tok α}
    (h : Runs cfg (mk sp st ts off) (mk (t :: saved cfg sp ts off) st' o o)) (ht : toTok dec cfg.text t = some k) :
    Seg cfg dec sp st ts off (t :: saved cfg sp ts off) st' o o [k] := by
  refine ⟨h, Nat.le_refl _, [t], by simp, ?_⟩
  simp [ht]

theorem Seg.one' {sp st st' : List Span} {off o : Nat} {t : Span} {k : Tok α}
    (h : Runs cfg (mk sp st off off) (mk (t :: sp) st' o o)) (ht : toTok dec cfg.text t = some k) :
    Seg cfg dec sp st off off (t :: sp) st' o o [k] := by
  have := Seg.one (dec := dec) (sp := sp) (st := st) (ts := off) (off := off) (by rw [saved_self]; exact h) ht
  rwa [saved_self] at this

/-- Whether the innermost open bracket is a function's or an array's. -/
def bareOf (st : List Span) : Bool :=
  match st with
  | t :: _ => decide (t.ty = .func ∨ t.ty = .array)
  | [] => false

theorem tok_infix {f : List Char} {a b : Nat} (op : Op) (h : slice f a b = op.text) :
    toTok dec f ⟨.opIn, .none, a, b⟩ = some (.infix op) := by
  unfold toTok
  simp only [h]
  have : infixOf op.text = some op := by cases op <;> decide
  rw [this]; rfl

theorem slice1 {f : List Char} {off : Nat} {c : Char} {r : List Char} (h : f.drop off = c :: r) : slice f off (off + 1) = [c] :=
  slice_at (a := [c]) h

theorem tok_pre {f : List Char} {off : Nat} {r : List Char} (op : PreOp) (h : f.drop off = op.char :: r) :
    toTok dec f ⟨.opPre, .none, off, off + 1⟩ = some (.pre op) := by
  unfold toTok
  simp only [slice1 h]
  cases op <;> rfl

theorem tok_post {f : List Char} {off : Nat} {r : List Char} (op : PostOp) (h : f.drop off = op.char :: r) :
    toTok dec f ⟨.opPost, .none, off, off + 1⟩ = some (.post op) := by
  unfold toTok
  simp only [slice1 h]
  cases op <;> rfl

/-- What may follow a text that ends with the given leaf. -/
def Follows (cfg : Cfg) (shw : α → List Char) (last : Option α) (rest : List Char) : Prop :=
  ∀ c, rest.head? = some c → isEnder c = true ∨ (c = ':' ∧ ∀ a, last = some a → ColonOk (shw a)) ∨
    (c = '#' ∧ ∀ a, last = some a → HashOk cfg.isNum (shw a)) ∨ (c = '(' ∧ last = none)

/-- The state after a text that ends with the given leaf. -/
def Last (cfg : Cfg) (shw : α → List Char) (sp : List Span) (ts off : Nat) : Option α → Prop
  | none => ts = off ∧ ∃ t r, sp = t :: r ∧ (t.ty = .opPost ∨ (t.ty = .paren ∨ t.ty = .func ∨ t.ty = .array) ∧ t.sub = .close)
  | some a => ∃ t r, saved cfg sp ts off = t :: r ∧ t.ty = .operand ∧ t.sub = subtype cfg.isNum (shw a) ∧ slice cfg.text t.start t.stop = shw a ∧
      ((ts < off ∧ slice cfg.text ts off = shw a) ∨ (ts = off ∧ ((shw a).head? = some '"' ∨ (shw a).head? = some '#')))

theorem prevOf_cons {t : Span} {p : List Span} (h : t.ty ≠ .white) : prevOf (t :: p) = some t := by
  unfold prevOf; rw [List.find?_cons]; simp [h]

theorem prevOf_white {t : Span} {p : List Span} (h : t.ty = .white) : prevOf (t :: p) = prevOf p := by
  unfold prevOf; rw [List.find?_cons]; simp [h]

theorem Last.ends {sp : List Span} {ts off : Nat} {last : Option α} (h : Last cfg shw sp ts off last) : Ends (saved cfg sp ts off) := by
  cases last with
  | none =>
    obtain ⟨rfl, t, r, rfl, h⟩ := h
    rw [saved_self]
    rcases h with h | ⟨h, hc⟩
    · exact ⟨t, prevOf_cons (by rw [h]; decide), Or.inr (Or.inl h)⟩
    · exact ⟨t, prevOf_cons (by rcases h with h | h | h <;> rw [h] <;> decide), Or.inl hc⟩
  | some a =>
    obtain ⟨t, r, hs, hty, -⟩ := h
    rw [hs]
    exact ⟨t, prevOf_cons (by rw [hty]; decide), Or.inr (Or.inr hty)⟩

theorem closed_ref {t : Span} {r : List Span} (h : t.ty = .opPost ∨ (t.ty = .paren ∨ t.ty = .func ∨ t.ty = .array) ∧ t.sub = .close) :
    refs cfg (t :: r) = true := by
  have hp : prevOf (t :: r) = some t := prevOf_cons (by rcases h with h | ⟨h | h | h, -⟩ <;> rw [h] <;> decide)
  show prevRef cfg _ = true
  unfold prevRef
  rw [show prevTok (⟨t :: r, [], 0, 0, 0, []⟩ : St) = prevOf (t :: r) from rfl, hp]
  simp only
  rcases h with h | ⟨h | h | h, hc⟩ <;> rw [h] <;> simp [*]

theorem Last.ref {sp : List Span} {ts off : Nat} {last : Option α} (h : Last cfg shw sp ts off last)
    (hr : ∀ a, last = some a → refOperand cfg.isNum (shw a) = true) : refs cfg (saved cfg sp ts off) = true := by
  cases last with
  | none =>
    obtain ⟨rfl, t, r, rfl, h⟩ := h
    rw [saved_self]
    exact closed_ref h
  | some a =>
    obtain ⟨t, r, hs, hty, hsub, hsl, -⟩ := h
    have ha := hr a rfl
    rw [hs]
    show prevRef cfg _ = true
    unfold prevRef
    rw [show prevTok (⟨t :: r, [], 0, 0, 0, []⟩ : St) = prevOf (t :: r) from rfl, prevOf_cons (by rw [hty]; decide)]
    simp only [hty, hsub, hsl, ha, Bool.and_true]
    unfold refOperand at ha
    simp only [Bool.and_eq_true] at ha
    exact ha.1

theorem simple_head {v : List Char} (h : Simple v) : ∃ c r, v = c :: r ∧ c ≠ '"' ∧ c ≠ '#' ∧ isWs c = false := by
  cases h with
  | word _ hne hp =>
    cases v with
    | nil => exact absurd rfl hne
    | cons c r =>
      have := plain_facts (hp c (List.mem_cons_self ..))
      exact ⟨c, r, rfl, this.1, this.2.2.2.1, this.2.2.2.2.2.2.2.2.2.2.2.1⟩
  | quoted q w _ => exact ⟨'\'', _, rfl, by decide, by decide, by decide⟩

theorem Last.colon {sp st : List Span} {ts off : Nat} {last : Option α} (h : Last cfg shw sp ts off last)
    (hr : ∀ a, last = some a → ColonOk (shw a)) : colonInfix cfg (mk sp st ts off) = true := by
  cases last with
  | none =>
    obtain ⟨rfl, t, r, rfl, h⟩ := h
    unfold colonInfix
    rw [mk_hasTok, mk_prevRef, closed_ref h]
    simp
  | some a =>
    obtain ⟨t, r, -, -, -, -, hp⟩ := h
    obtain ⟨u, w, he, hu, hw⟩ := hr a rfl
    obtain ⟨c, x, hx, h1, h2, -⟩ := simple_head hu
    rcases hp with ⟨hlt, hc⟩ | ⟨-, hc⟩
    · unfold colonInfix
      rw [mk_hasTok, show (mk sp st ts off).cur cfg = shw a from hc]
      have hl : (shw a).getLast? ≠ some '!' := by
        rw [he, List.getLast?_append, List.getLast?_cons]
        intro h
        simp at h
        cases hw' : w.getLast? with
        | none => rw [hw'] at h; simp at h
        | some z => rw [hw'] at h; simp at h; subst h; exact hw (List.mem_of_getLast? hw')
      have hcol : hasColon (shw a) = true := by rw [he]; exact range_colon hw
      simp [hlt, hl, hcol]
    · rw [he, hx] at hc
      simp [h1, h2] at hc

theorem last_char {f : List Char} {a b : Nat} {v : List Char} (hlt : a < b) (h : slice f a b = v) (hb : b ≤ f.length) : f[b - 1]? = v.getLast? := by
  subst h
  unfold slice
  rw [List.getLast?_eq_getElem?, List.length_take, List.length_drop, List.getElem?_take, List.getElem?_drop]
  rw [if_pos (by omega)]
  congr 1; omega

theorem Last.hash {sp st : List Span} {ts off : Nat} {last : Option α} (h : Last cfg shw sp ts off last)
    (hr : ∀ a, last = some a → HashOk cfg.isNum (shw a)) (hb : off ≤ cfg.text.length) : hashPostfix cfg (mk sp st ts off) = true := by
  cases last with
  | none =>
    obtain ⟨rfl, t, r, rfl, h⟩ := h
    unfold hashPostfix
    rw [mk_hasTok, mk_prevTok, prevOf_cons (by rcases h with h | ⟨h | h | h, -⟩ <;> rw [h] <;> decide)]
    simp only [Nat.lt_irrefl, decide_false, Bool.false_eq_true, if_false]
    rcases h with h | ⟨h | h | h, hc⟩ <;> rw [h] <;> simp [*]
  | some a =>
    obtain ⟨t, r, -, -, -, -, hp⟩ := h
    obtain ⟨hs, hl, hsub⟩ := hr a rfl
    obtain ⟨c, x, hx, h1, h2, -⟩ := simple_head hs
    rcases hp with ⟨hlt, hc⟩ | ⟨-, hc⟩
    · unfold hashPostfix
      rw [mk_hasTok, show (mk sp st ts off).cur cfg = shw a from hc, show (mk sp st ts off).te = off from rfl, last_char hlt hc hb]
      simp [hlt, hl, hsub]
    · rw [hx] at hc
      simp [h1, h2] at hc

/-! ## Trees -/

/-- The tokenizer makes of a printed tree the tokens `print` gives. -/
def Ok (cfg : Cfg) (dec : Sub → List Char → α) (shw : α → List Char) (e : Ast α) : Prop :=
  ∀ (d : Bool) (sp st : List Span) (off : Nat) (rest : List Char), cfg.text.drop off = text shw e ++ rest → Fresh sp →
    Good d (bareOf st) e → Spelt cfg.isNum dec shw e → Follows cfg shw (lastAtom e) rest →
    ∃ sp' ts', Seg cfg dec sp st off off sp' st ts' (off + (text shw e).length) (print (bareOf st) e) ∧
      Last cfg shw sp' ts' (off + (text shw e).length) (lastAtom e)

theorem pend_seg {sp st : List Span} {off off' : Nat} {a : α} (h : Runs cfg (mk sp st off off) (mk sp st off off'))
    (hlt : off < off') (hs : slice cfg.text off off' = shw a) (hd : dec (subtype cfg.isNum (shw a)) (shw a) = a) :
    Seg cfg dec sp st off off sp st off off' [.operand a] ∧ Last cfg shw sp off off' (some a) := by
  have hsv : saved cfg sp off off' = ⟨.operand, subtype cfg.isNum (shw a), off, off'⟩ :: sp := by
    unfold saved; rw [if_pos hlt, hs]
  refine ⟨⟨h, by omega, [⟨.operand, subtype cfg.isNum (shw a), off, off'⟩], ?_, ?_⟩, ⟨_, _, hsv, rfl, rfl, hs, Or.inl ⟨hlt, hs⟩⟩⟩
  · rw [hsv, saved_self]; rfl
  · simp [toTok, hs, hd]

theorem follows_ender {a : α} {rest : List Char} (h : Follows cfg shw (some a) rest) {c : Char} (hc : rest.head? = some c) :
    isEnder c = true ∨ c = ':' ∨ c = '#' := by
  rcases h c hc with h | h | h | h
  · exact Or.inl h
  · exact Or.inr (Or.inl h.1)
  · exact Or.inr (Or.inr h.1)
  · cases h.2

theorem ok_atom (a : α) : Ok cfg dec shw (.atom a) := by
  intro d sp st off rest ht hf _ hs hfo
  obtain ⟨hl, hd⟩ := hs
  simp only [text] at ht ⊢
  simp only [lastAtom, print] at hfo ⊢
  obtain ⟨v, heq⟩ : ∃ v, v = shw a := ⟨_, rfl⟩
  rw [← heq] at hl
  cases hl with
  | simple _ hv =>
    rw [heq] at hv
    exact ⟨sp, off, pend_seg (simple_runs hv ht) (by have := simple_pos hv; omega) (slice_at ht) hd⟩
  | range u w hu hlu hbu hne hw hwb =>
    have hr : ∀ c, rest.head? = some c → isEnder c = true ∨ c = ':' := by
      intro c hc
      rcases hfo c hc with h | h | ⟨rfl, h⟩ | h
      · exact Or.inl h
      · exact Or.inr h.1
      rotate_left
      · cases h.2
      · exfalso
        obtain ⟨hs, -⟩ := h a rfl
        have := simple_no_colon hs
        rw [← heq, range_colon hwb] at this
        cases this
    have := range_runs (cfg := cfg) (sp := sp) (st := st) (off := off) (r := rest) hu hlu hbu hne hw hwb hr (by rw [ht, ← heq])
    rw [heq] at this
    exact ⟨sp, off, pend_seg this (by rw [← heq]; simp; omega) (slice_at ht) hd⟩
  | str q =>
    have hr : rest.head? ≠ some '"' := by
      intro h
      rcases follows_ender hfo h with h | h | h <;> revert h <;> decide
    have hrun := str_runs (cfg := cfg) (sp := sp) (st := st) (off := off) (q := q) (r := rest) (by rw [ht, ← heq]; simp) hr
    have hlen : (shw a).length = (escape '"' q).length + 2 := by rw [← heq]; simp
    rw [← hlen] at hrun
    have hsub : subtype cfg.isNum (shw a) = .text := by rw [← heq]; simp [subtype]
    have hsl : slice cfg.text off (off + (shw a).length) = shw a := slice_at ht
    refine ⟨_, _, Seg.one (t := ⟨.operand, .text, off, off + (shw a).length⟩) (by rw [saved_self]; exact hrun) ?_, ?_⟩
    · simp only [toTok, hsl]; rw [← hsub, hd]
    · refine ⟨_, _, saved_self _ _, rfl, hsub.symm, hsl, Or.inr ⟨rfl, Or.inl ?_⟩⟩
      rw [← heq]; rfl
  | err _ he =>
    rw [heq] at he
    have hrun := err_runs (cfg := cfg) (sp := sp) (st := st) (off := off) (r := rest) he ht hf
    obtain ⟨x, hx⟩ := codes_hash _ he
    have hsub : subtype cfg.isNum (shw a) = .error := by rw [hx]; simp [subtype]
    have hsl : slice cfg.text off (off + (shw a).length) = shw a := slice_at ht
    refine ⟨_, _, Seg.one (t := ⟨.operand, .error, off, off + (shw a).length⟩) (by rw [saved_self]; exact hrun) ?_, ?_⟩
    · simp only [toTok, hsl]; rw [← hsub, hd]
    · refine ⟨_, _, saved_self _ _, rfl, hsub.symm, hsl, Or.inr ⟨rfl, Or.inr ?_⟩⟩
      rw [hx]; rfl

theorem fresh_cons {t : Span} {p : List Span} (h1 : t.ty ≠ .white) (h2 : ¬ Ending t) : Fresh (t :: p) := by
  intro x hx
  rw [prevOf_cons h1] at hx
  cases hx
  exact h2

theorem fresh_white {t : Span} {p : List Span} (h : t.ty = .white) (hp : Fresh p) : Fresh (t :: p) := by
  intro x hx
  rw [prevOf_white h] at hx
  exact hp x hx

theorem follows_of_ender {last : Option α} {c : Char} {rest : List Char} (h : isEnder c = true) : Follows cfg shw last (c :: rest) := by
  intro x hx
  cases hx
  exact Or.inl h

theorem paren_head (b : Bool) {s : List Char} (h : ∃ c r, s = c :: r ∧ isWs c = false) : ∃ c r, paren b s = c :: r ∧ isWs c = false := by
  cases b
  · exact h
  · exact ⟨'(', _, rfl, by decide⟩

/-- The text of a tree begins with something other than a space. -/
theorem head_text : ∀ (e : Ast α) (d bare : Bool), Good d bare e → Spelt cfg.isNum dec shw e → ∃ c r, text shw e = c :: r ∧ isWs c = false
  | .atom a, _, _, _, hs => by
    simp only [text]
    have hl := hs.1
    obtain ⟨v, heq⟩ : ∃ v, v = shw a := ⟨_, rfl⟩
    rw [← heq] at hl ⊢
    cases hl with
    | simple _ hv =>
      obtain ⟨c, r, h, -, -, hw⟩ := simple_head hv
      exact ⟨c, r, h, hw⟩
    | range u w hu =>
      obtain ⟨c, r, h, -, -, hw⟩ := simple_head hu
      exact ⟨c, r ++ ':' :: w, by rw [h]; rfl, hw⟩
    | str q => exact ⟨_, _, rfl, by decide⟩
    | err _ he =>
      obtain ⟨x, hx⟩ := codes_hash _ he
      exact ⟨_, _, hx, by decide⟩
  | .omitted, _, _, hg, _ => by simp [Good] at hg
  | .pre op e, _, _, _, _ => ⟨op.char, _, rfl, by cases op <;> decide⟩
  | .post op e, d, bare, hg, hs => by
    simp only [Good, Spelt] at hg hs
    obtain ⟨c, r, h, hw⟩ := paren_head (postParens e) (head_text e _ _ hg.2 hs.1)
    exact ⟨c, _, by rw [text, h]; rfl, hw⟩
  | .bin op l r, d, bare, hg, hs => by
    simp only [Good, Spelt] at hg hs
    obtain ⟨c, r, h, hw⟩ := paren_head (leftParens op l) (head_text l _ _ hg.2.2.1 hs.1)
    exact ⟨c, _, by rw [text, h]; rfl, hw⟩
  | .func name args, _, _, _, hs => by
    simp only [Spelt] at hs
    obtain ⟨hn, hp, -⟩ := hs
    cases name with
    | nil => exact absurd rfl hn
    | cons c n =>
      refine ⟨upper c, _, by rw [text]; rfl, ?_⟩
      exact (plain_facts (hp (upper c) (by simp))).2.2.2.2.2.2.2.2.2.2.2.1
  | .call f args, d, bare, hg, hs => by
    simp only [Good, Spelt] at hg hs
    obtain ⟨c, r, h, hw⟩ := paren_head (!bareCallee f) (head_text f _ _ hg.2.1 hs.1)
    exact ⟨c, _, by rw [text, h]; rfl, hw⟩
  | .arr rows, _, _, _, _ => ⟨'{', _, by rw [text]; rfl, by decide⟩

/-- A child, in parentheses or not. -/
theorem child {e : Ast α} (he : Ok cfg dec shw e) {d b : Bool} {sp st : List Span} {off : Nat} {rest : List Char}
    (ht : cfg.text.drop off = paren b (text shw e) ++ rest) (hf : Fresh sp) (hg : Good d (bareOf st && !b) e)
    (hs : Spelt cfg.isNum dec shw e) (hfo : Follows cfg shw (if b then none else lastAtom e) rest) :
    ∃ sp' ts', Seg cfg dec sp st off off sp' st ts' (off + (paren b (text shw e)).length)
        (if b then .lpar :: print false e ++ [.rpar] else print (bareOf st) e) ∧
      Last cfg shw sp' ts' (off + (paren b (text shw e)).length) (if b then none else lastAtom e) := by
  cases b with
  | false =>
    simp only [Bool.not_false, Bool.and_true] at hg
    exact he d sp st off rest ht hf hg hs hfo
  | true =>
    simp only [Bool.not_true, Bool.and_false] at hg
    have ht1 : cfg.text.drop off = '(' :: (text shw e ++ ')' :: rest) := by rw [ht]; simp [paren]
    have hopen := lpar_runs (cfg := cfg) (sp := sp) (st := st) ht1
    have ht2 := at_next ht1
    obtain ⟨sp', ts', hseg, -⟩ := he d (⟨.paren, .opn, off, off + 1⟩ :: sp) (⟨.paren, .opn, off, off + 1⟩ :: st) (off + 1) (')' :: rest) ht2
      (fresh_cons (by simp) (by simp [Ending])) hg hs (follows_of_ender (by decide))
    have ht3 := at_app ht2
    have hclose := close_runs (cfg := cfg) (sp := sp') (st := st) (t := ⟨.paren, .opn, off, off + 1⟩) hseg.le ht3 rfl
    have hlen : off + (paren true (text shw e)).length = off + 1 + (text shw e).length + 1 := by simp [paren]; omega
    rw [hlen]
    refine ⟨_, _, Seg.trans (Seg.trans (Seg.one' (k := .lpar) hopen rfl) hseg)
      (Seg.one (k := .rpar) hclose rfl), ?_⟩
    exact ⟨rfl, _, _, rfl, Or.inr ⟨Or.inl rfl, rfl⟩⟩

theorem ok_pre (op : PreOp) {e : Ast α} (he : Ok cfg dec shw e) : Ok cfg dec shw (.pre op e) := by
  intro d sp st off rest ht hf hg hs hfo
  simp only [Good, Spelt] at hg hs
  have ht1 : cfg.text.drop off = op.char :: (paren (preParens e) (text shw e) ++ rest) := by rw [ht]; simp [text]
  have h1 := pre_runs (cfg := cfg) (sp := sp) (st := st) ht1 hf
  obtain ⟨sp', ts', hseg, hl⟩ := child (sp := ⟨.opPre, .none, off, off + 1⟩ :: sp) he (at_next ht1)
    (fresh_cons (by simp) (by simp [Ending])) hg hs hfo
  have hlen : off + (text shw (.pre op e)).length = off + 1 + (paren (preParens e) (text shw e)).length := by simp [text]; omega
  rw [hlen]
  refine ⟨sp', ts', ?_, hl⟩
  rw [print]
  exact Seg.trans (Seg.one' h1 (tok_pre op ht1)) hseg

theorem off_le {f : List Char} {off : Nat} {c : Char} {r : List Char} (h : f.drop off = c :: r) : off ≤ f.length := by
  have := congrArg List.length h
  rw [List.length_drop, List.length_cons] at this
  omega

theorem ok_post (op : PostOp) {e : Ast α} (he : Ok cfg dec shw e) : Ok cfg dec shw (.post op e) := by
  intro d sp st off rest ht hf hg hs hfo
  simp only [Good, Spelt] at hg hs
  have hh : op = .hash → ∀ a, (if postParens e then none else lastAtom e) = some a → HashOk cfg.isNum (shw a) := by
    intro ho a ha
    cases hb : postParens e with
    | true => rw [hb] at ha; cases ha
    | false => rw [hb] at ha; exact hs.2 ho hb a ha
  have ht1 : cfg.text.drop off = paren (postParens e) (text shw e) ++ op.char :: rest := by rw [ht]; simp [text]
  obtain ⟨sp', ts', hseg, hl⟩ := child he ht1 hf hg.2 hs.1 (rest := op.char :: rest) (by
    cases op with
    | pct => exact follows_of_ender (by decide)
    | hash =>
      intro c hc
      cases hc
      exact Or.inr (Or.inr (Or.inl ⟨rfl, hh rfl⟩)))
  have ht2 := at_app ht1
  have h2 : Runs cfg (mk sp' st ts' (off + (paren (postParens e) (text shw e)).length))
      (mk (⟨.opPost, .none, off + (paren (postParens e) (text shw e)).length, off + (paren (postParens e) (text shw e)).length + 1⟩ ::
        saved cfg sp' ts' (off + (paren (postParens e) (text shw e)).length)) st
        (off + (paren (postParens e) (text shw e)).length + 1) (off + (paren (postParens e) (text shw e)).length + 1)) := by
    cases op with
    | pct => exact pct_runs hseg.le ht2
    | hash => exact hash_runs ht2 (hl.hash (hh rfl) (off_le ht2))
  have hlen : off + (text shw (.post op e)).length = off + (paren (postParens e) (text shw e)).length + 1 := by simp [text]; omega
  rw [hlen]
  refine ⟨_, _, Seg.trans hseg (Seg.one h2 (tok_post op ht2)), ?_⟩
  exact ⟨rfl, _, _, rfl, Or.inl rfl⟩

theorem refs_op {t : Span} {p : List Span} (h : t.ty = .opIn ∨ t.ty = .sep) : refs cfg (t :: p) = false := by
  show prevRef cfg _ = false
  unfold prevRef
  rw [show prevTok (⟨t :: p, [], 0, 0, 0, []⟩ : St) = prevOf (t :: p) from rfl, prevOf_cons (by rcases h with h | h <;> rw [h] <;> decide)]
  rcases h with h | h <;> simp [h]

/-- A space after an operator or separator. -/
theorem space_seg {t : Span} {sp st : List Span} {off : Nat} {r : List Char} (ht : cfg.text.drop off = ' ' :: r)
    (h : t.ty = .opIn ∨ t.ty = .sep) (hr : ∃ c x, r = c :: x ∧ isWs c = false) :
    Seg cfg dec (t :: sp) st off off (⟨.white, .none, off, off + 1⟩ :: t :: sp) st (off + 1) (off + 1) [.ws] := by
  obtain ⟨c, x, rfl, hc⟩ := hr
  have := white_runs (cfg := cfg) (sp := t :: sp) (st := st) (Nat.le_refl off) ht (by intro y hy; cases hy; exact hc)
  rw [saved_self, refs_op h] at this
  exact Seg.one' this rfl

theorem head_append {s r : List Char} (h : ∃ c x, s = c :: x ∧ isWs c = false) : ∃ c x, s ++ r = c :: x ∧ isWs c = false := by
  obtain ⟨c, x, rfl, hc⟩ := h
  exact ⟨c, x ++ r, rfl, hc⟩

/-- The tokens of `,` by the bracket around it. -/
theorem comma_seg {sp st : List Span} {ts off : Nat} {r : List Char} (hle : ts ≤ off) (ht : cfg.text.drop off = ',' :: r) :
    ∃ t : Span, (t.ty = .opIn ∨ t.ty = .sep) ∧ t.sub ≠ .close ∧
      Seg cfg dec sp st ts off (t :: saved cfg sp ts off) st (off + 1) (off + 1) [if bareOf st then .sepArg else .infix .comma] := by
  have h := sep_runs (cfg := cfg) (sp := sp) (st := st) hle ht (Or.inl rfl)
  have hb : sepTy cfg (mk [] st 0 0) ',' = if bareOf st then (.sep, .arg) else (.opIn, .none) := by
    unfold sepTy bareOf
    cases st with
    | nil => simp [mk]
    | cons t st => simp [mk]
  rw [hb] at h
  cases hbs : bareOf st with
  | true =>
    rw [hbs] at h
    exact ⟨_, Or.inr rfl, by simp, Seg.one h rfl⟩
  | false =>
    rw [hbs] at h
    exact ⟨_, Or.inl rfl, by simp, Seg.one h (tok_infix .comma (slice1 ht))⟩

theorem not_ref_op : ∀ op, spaced op = true → ∀ r, startsRef (op.text ++ ' ' :: r) = false := by
  intro op h r
  cases op <;> first | (simp [spaced] at h; done) | simp [startsRef, Op.text, isWs, isAlpha]

theorem refStart_starts {s : List Char} (h : ∃ c x, s = c :: x ∧ isWs c = false) (hr : RefStart s) (r : List Char) : startsRef (s ++ r) = true := by
  obtain ⟨c, x, rfl, hc⟩ := h
  obtain ⟨c', hc', h⟩ := hr
  cases hc'
  unfold startsRef
  rw [List.cons_append, List.dropWhile_cons_of_neg (by simp [hc])]
  rcases h with h | h | h | h | h <;> simp [h]

/-- The operator with the spaces around it. -/
theorem op_seg {op : Op} {sp st : List Span} {ts off : Nat} {last : Option α} {s r : List Char} (hle : ts ≤ off) (hl : Last cfg shw sp ts off last)
    (ht : cfg.text.drop off = opText op ++ (s ++ r)) (hs : ∃ c x, s = c :: x ∧ isWs c = false)
    (hcolon : op = .colon → ∀ a, last = some a → ColonOk (shw a))
    (hspace : op = .space → (∀ a, last = some a → refOperand cfg.isNum (shw a) = true) ∧ RefStart s) :
    ∃ sp', Fresh sp' ∧ Seg cfg dec sp st ts off sp' st (off + (opText op).length) (off + (opText op).length) (opToks (bareOf st) op) := by
  by_cases hsp : spaced op = true
  · have htx : opText op = ' ' :: op.text ++ [' '] := by cases op <;> first | rfl | simp [spaced] at hsp
    have hto : opToks (bareOf st) op = ([.ws, .infix op, .ws] : List (Tok α)) := by cases op <;> first | rfl | simp [spaced] at hsp
    have ht1 : cfg.text.drop off = ' ' :: (op.text ++ ' ' :: (s ++ r)) := by rw [ht, htx]; simp
    have hw : ∀ c, (op.text ++ ' ' :: (s ++ r)).head? = some c → isWs c = false := by
      intro c hc
      cases op <;> first | (simp [spaced] at hsp; done) | (cases hc; decide)
    have h1 := white_runs (cfg := cfg) (sp := sp) (st := st) hle ht1 hw
    rw [not_ref_op op hsp, Bool.and_false] at h1
    have g1 := Seg.one (dec := dec) (k := .ws) h1 rfl
    have ht2 : cfg.text.drop (off + 1) = op.text ++ ' ' :: (s ++ r) := at_next ht1
    have he : Ends (⟨.white, .none, off, off + 1⟩ :: saved cfg sp ts off) := by
      obtain ⟨t, h, h'⟩ := hl.ends
      exact ⟨t, by rw [prevOf_white rfl]; exact h, h'⟩
    have h2 := infix_runs (cfg := cfg) (st := st) hsp ht2 he
    have g2 := Seg.one' (dec := dec) (st := st) (k := .infix op) h2 (tok_infix op (slice_at ht2))
    have ht3 := at_app ht2
    have g3 := space_seg (dec := dec) (st := st) (t := ⟨.opIn, .none, off + 1, off + 1 + op.text.length⟩)
      (sp := ⟨.white, .none, off, off + 1⟩ :: saved cfg sp ts off) ht3 (Or.inl rfl) (head_append hs)
    have hlen : off + (opText op).length = off + 1 + op.text.length + 1 := by rw [htx]; simp; omega
    rw [hlen, hto]
    exact ⟨_, fresh_white rfl (fresh_cons (by simp) (by simp [Ending])), Seg.trans g1 (Seg.trans g2 g3)⟩
  · cases op <;> first | (exact absurd rfl hsp; done) | skip
    · have ht1 : cfg.text.drop off = ':' :: (s ++ r) := ht
      have h1 := colon_runs (cfg := cfg) (st := st) ht1 (hl.colon (hcolon rfl))
      exact ⟨_, fresh_cons (by simp) (by simp [Ending]), Seg.one h1 (tok_infix .colon (slice1 ht1))⟩
    · have ht1 : cfg.text.drop off = ' ' :: (s ++ r) := ht
      have hw : ∀ c, (s ++ r).head? = some c → isWs c = false := by
        obtain ⟨c, x, rfl, hc⟩ := hs
        intro y hy
        cases hy
        exact hc
      have h1 := white_runs (cfg := cfg) (sp := sp) (st := st) hle ht1 hw
      rw [hl.ref (hspace rfl).1, refStart_starts hs (hspace rfl).2] at h1
      exact ⟨_, fresh_cons (by simp) (by simp [Ending]), Seg.one h1 (tok_infix .space (slice1 ht1))⟩
    · have ht1 : cfg.text.drop off = ',' :: ' ' :: (s ++ r) := ht
      obtain ⟨t, hty, hsub, g1⟩ := comma_seg (dec := dec) (sp := sp) (st := st) hle ht1
      have g2 := space_seg (dec := dec) (st := st) (sp := saved cfg sp ts off) (at_next ht1) hty (head_append hs)
      refine ⟨_, fresh_white rfl (fresh_cons ?_ ?_), Seg.trans g1 g2⟩
      · rcases hty with h | h <;> rw [h] <;> decide
      · rcases hty with h | h <;> simp [Ending, h, hsub]

theorem ok_bin (op : Op) {e f : Ast α} (he : Ok cfg dec shw e) (hf' : Ok cfg dec shw f) : Ok cfg dec shw (.bin op e f) := by
  intro d sp st off rest ht hf hg hs hfo
  simp only [Good, Spelt] at hg hs
  obtain ⟨-, -, hge, hgf⟩ := hg
  obtain ⟨hse, hsf, hcol, hspc⟩ := hs
  have hif : ∀ {P : α → Prop}, (leftParens op e = false → ∀ a, lastAtom e = some a → P a) →
      ∀ a, (if leftParens op e then none else lastAtom e) = some a → P a := by
    intro P h a ha
    cases hb : leftParens op e with
    | true => rw [hb] at ha; cases ha
    | false => rw [hb] at ha; exact h hb a ha
  have ht1 : cfg.text.drop off = paren (leftParens op e) (text shw e) ++ (opText op ++ (paren (rightParens op f) (text shw f) ++ rest)) := by
    rw [ht]; simp [text]
  obtain ⟨sp1, ts1, g1, l1⟩ := child he ht1 hf hge hse (by
    intro c hc
    by_cases hsp : spaced op = true
    · have htx : opText op = ' ' :: op.text ++ [' '] := by cases op <;> first | rfl | simp [spaced] at hsp
      rw [htx] at hc
      cases hc
      exact Or.inl (by decide)
    · cases op <;> first | (exact absurd rfl hsp; done) | skip
      · cases hc
        exact Or.inr (Or.inl ⟨rfl, hif (hcol rfl)⟩)
      · cases hc
        exact Or.inl (by decide)
      · cases hc
        exact Or.inl (by decide))
  have hhead := paren_head (rightParens op f) (head_text f _ _ hgf hsf)
  have ht2 := at_app ht1
  obtain ⟨sp2, hf2, g2⟩ := op_seg (dec := dec) (st := st) g1.le l1 ht2 hhead (fun h => hif (hcol h)) (fun h => ⟨hif (hspc h).1, (hspc h).2⟩)
  have ht3 := at_app ht2
  obtain ⟨sp3, ts3, g3, l3⟩ := child hf' ht3 hf2 hgf hsf hfo
  have hlen : off + (text shw (.bin op e f)).length =
      off + (paren (leftParens op e) (text shw e)).length + (opText op).length + (paren (rightParens op f) (text shw f)).length := by
    simp [text]; omega
  rw [hlen]
  refine ⟨sp3, ts3, ?_, l3⟩
  rw [print]
  exact Seg.trans (Seg.trans g1 g2) g3

/-! ### Lists -/

/-- An argument, which may be omitted. -/
theorem arg_seg {a : Ast α} (ha : Ok cfg dec shw a) {d : Bool} {sp st : List Span} {off : Nat} {c : Char} {rest : List Char}
    (ht : cfg.text.drop off = text shw a ++ c :: rest) (hc : isEnder c = true) (hf : Fresh sp)
    (hg : isOmitted a = true ∨ Good d (bareOf st) a) (hs : Spelt cfg.isNum dec shw a) :
    ∃ sp' ts', Seg cfg dec sp st off off sp' st ts' (off + (text shw a).length) (print (bareOf st) a) := by
  rcases hg with hg | hg
  · rw [omitted_eq hg]
    exact ⟨sp, off, Seg.refl _ _ (Nat.le_refl _)⟩
  · obtain ⟨sp', ts', h, -⟩ := ha d sp st off _ ht hf hg hs (follows_of_ender hc)
    exact ⟨sp', ts', h⟩

/-- The list ends in a character that ends an operand. -/
def Ended (s : List Char) : Prop := ∃ c r, s = c :: r ∧ isEnder c = true

theorem ended_more (as : List (Ast α)) {rest : List Char} (h : Ended rest) : Ended (textMore shw as ++ rest) := by
  cases as with
  | nil => exact h
  | cons a as =>
    rw [textMore, sepText]
    split <;> exact ⟨',', _, rfl, by decide⟩

theorem ended_cells (as : List (Ast α)) {rest : List Char} (h : Ended rest) : Ended (textCells shw as ++ rest) := by
  cases as with
  | nil => exact h
  | cons a as => exact ⟨',', _, rfl, by decide⟩

theorem ended_tail (rs : List (List (Ast α))) {rest : List Char} (h : Ended rest) : Ended (textTail shw rs ++ rest) := by
  cases rs with
  | nil => exact h
  | cons a as => exact ⟨';', _, rfl, by decide⟩

theorem more_seg {d : Bool} {st : List Span} {rest : List Char} (hr : Ended rest) : ∀ (as : List (Ast α)), (∀ a ∈ as, Ok cfg dec shw a) →
    GoodArgs d (bareOf st) as → SpeltL cfg.isNum dec shw as → ∀ (sp : List Span) (ts off : Nat), ts ≤ off →
    cfg.text.drop off = textMore shw as ++ rest →
    ∃ sp' ts', Seg cfg dec sp st ts off sp' st ts' (off + (textMore shw as).length)
      (printMore (if bareOf st then .sepArg else .infix .comma) (bareOf st) as)
  | [], _, _, _, sp, ts, off, hle, _ => ⟨sp, ts, Seg.refl _ _ hle⟩
  | a :: as, hok, hg, hs, sp, ts, off, hle, ht => by
    simp only [GoodArgs, SpeltL] at hg hs
    have ht0 : cfg.text.drop off = sepText a ++ (text shw a ++ (textMore shw as ++ rest)) := by rw [ht]; simp [textMore]
    have hsep : ∃ sp1, Fresh sp1 ∧ Seg cfg dec sp st ts off sp1 st (off + (sepText a).length) (off + (sepText a).length)
        (sepToks (if bareOf st then .sepArg else .infix .comma) a) := by
      unfold sepText sepToks
      cases ho : isOmitted a with
      | true =>
        rw [sepText, ho] at ht0
        obtain ⟨t, hty, hsub, g⟩ := comma_seg (dec := dec) (sp := sp) (st := st) hle ht0
        refine ⟨_, fresh_cons ?_ ?_, g⟩
        · rcases hty with h | h <;> rw [h] <;> decide
        · rcases hty with h | h <;> simp [Ending, h, hsub]
      | false =>
        rw [sepText, ho] at ht0
        have hga : Good d (bareOf st) a := by
          rcases hg.1 with h | h
          · rw [ho] at h; cases h
          · exact h
        obtain ⟨t, hty, hsub, g⟩ := comma_seg (dec := dec) (sp := sp) (st := st) hle ht0
        have g2 := space_seg (dec := dec) (st := st) (sp := saved cfg sp ts off) (r := text shw a ++ (textMore shw as ++ rest)) (at_next ht0) hty
          (head_append (head_text (cfg := cfg) (dec := dec) a _ _ hga hs.1))
        refine ⟨_, fresh_white rfl (fresh_cons ?_ ?_), Seg.trans g g2⟩
        · rcases hty with h | h <;> rw [h] <;> decide
        · rcases hty with h | h <;> simp [Ending, h, hsub]
    obtain ⟨sp1, hf1, g1⟩ := hsep
    have ht1 := at_app ht0
    obtain ⟨c, r, he, hc⟩ := ended_more (shw := shw) as hr
    obtain ⟨sp2, ts2, g2⟩ := arg_seg (hok a (List.mem_cons_self ..)) (by rw [ht1, he]) hc hf1 hg.1 hs.1
    obtain ⟨sp3, ts3, g3⟩ := more_seg hr as (fun b hb => hok b (List.mem_cons_of_mem _ hb)) hg.2 hs.2 sp2 ts2 _ g2.le (at_app ht1)
    have hlen : off + (textMore shw (a :: as)).length = off + (sepText a).length + (text shw a).length + (textMore shw as).length := by
      simp [textMore]; omega
    rw [hlen, printMore]
    exact ⟨sp3, ts3, Seg.trans (Seg.trans g1 g2) g3⟩

theorem args_seg {d : Bool} {st : List Span} {rest : List Char} (hr : Ended rest) (as : List (Ast α)) (hok : ∀ a ∈ as, Ok cfg dec shw a)
    (hg : GoodArgs d (bareOf st) as) (hs : SpeltL cfg.isNum dec shw as) {sp : List Span} {off : Nat} (hf : Fresh sp)
    (ht : cfg.text.drop off = textArgs shw as ++ rest) :
    ∃ sp' ts', Seg cfg dec sp st off off sp' st ts' (off + (textArgs shw as).length)
      (printArgs (if bareOf st then .sepArg else .infix .comma) (bareOf st) as) := by
  cases as with
  | nil => exact ⟨sp, off, Seg.refl _ _ (Nat.le_refl _)⟩
  | cons a as =>
    simp only [GoodArgs, SpeltL] at hg hs
    have ht0 : cfg.text.drop off = text shw a ++ (textMore shw as ++ rest) := by rw [ht]; simp [textArgs]
    obtain ⟨c, r, he, hc⟩ := ended_more (shw := shw) as hr
    obtain ⟨sp2, ts2, g2⟩ := arg_seg (hok a (List.mem_cons_self ..)) (by rw [ht0, he]) hc hf hg.1 hs.1
    obtain ⟨sp3, ts3, g3⟩ := more_seg hr as (fun b hb => hok b (List.mem_cons_of_mem _ hb)) hg.2 hs.2 sp2 ts2 _ g2.le (at_app ht0)
    have hlen : off + (textArgs shw (a :: as)).length = off + (text shw a).length + (textMore shw as).length := by
      simp [textArgs]; omega
    rw [hlen, printArgs]
    exact ⟨sp3, ts3, Seg.trans g2 g3⟩

theorem ok_func (name : List Char) {as : List (Ast α)} (hok : ∀ a ∈ as, Ok cfg dec shw a) : Ok cfg dec shw (.func name as) := by
  intro d sp st off rest ht hf hg hs hfo
  simp only [Good, Spelt] at hg hs
  obtain ⟨hn, hp, hs⟩ := hs
  have ht1 : cfg.text.drop off = name.map upper ++ '(' :: (textArgs shw as ++ ')' :: rest) := by rw [ht]; simp [text]
  have hpos : 0 < name.length := List.length_pos_of_ne_nil hn
  have ht2 := at_app ht1
  have hrun := Runs.trans (plain_runs (name.map upper) _ sp st off off (Nat.le_refl _) ht1 hp)
    (func_runs (cfg := cfg) (sp := sp) (st := st) (by simp; omega) ht2)
  have hsl : slice cfg.text off (off + (name.map upper).length + 1) = name.map upper ++ ['('] := by
    have := slice_at (f := cfg.text) (off := off) (a := name.map upper ++ ['(']) (b := textArgs shw as ++ ')' :: rest) (by rw [ht1]; simp)
    rw [← this]; congr 1; simp; omega
  have g1 := Seg.one' (dec := dec) (k := .func (name.map upper)) hrun (by
    simp only [toTok, hsl]
    simp)
  have ht3 := at_next ht2
  obtain ⟨sp2, ts2, g2⟩ := args_seg (cfg := cfg) (dec := dec) (d := d) (st := ⟨.func, .opn, off, off + (name.map upper).length + 1⟩ :: st)
    (sp := ⟨.func, .opn, off, off + (name.map upper).length + 1⟩ :: sp) ⟨')', rest, rfl, by decide⟩ as hok hg.2 hs
    (fresh_cons (by simp) (by simp [Ending])) ht3
  have ht4 := at_app ht3
  have h3 := close_runs (cfg := cfg) (sp := sp2) (st := st) (t := ⟨.func, .opn, off, off + (name.map upper).length + 1⟩) g2.le ht4 rfl
  have g3 := Seg.one (dec := dec) (k := .funcClose) h3 rfl
  have hlen : off + (text shw (.func name as)).length = off + (name.map upper).length + 1 + (textArgs shw as).length + 1 := by
    simp [text]; omega
  rw [hlen, print]
  refine ⟨_, _, Seg.trans (Seg.trans g1 g2) g3, ?_⟩
  exact ⟨rfl, _, _, rfl, Or.inr ⟨Or.inr (Or.inl rfl), rfl⟩⟩

theorem ok_call {c : Ast α} (hc : Ok cfg dec shw c) {as : List (Ast α)} (hok : ∀ a ∈ as, Ok cfg dec shw a) : Ok cfg dec shw (.call c as) := by
  intro d sp st off rest ht hf hg hs hfo
  simp only [Good, Spelt] at hg hs
  have ht1 : cfg.text.drop off = paren (!bareCallee c) (text shw c) ++ '(' :: (textArgs shw as ++ ')' :: rest) := by rw [ht]; simp [text]
  have hl0 : (if !bareCallee c then none else lastAtom c) = none := by
    cases c <;> simp [bareCallee, lastAtom]
  have hl1 : (if (!bareCallee c) = true then none else lastAtom c) = none := hl0
  obtain ⟨sp1, ts1, g1, l1⟩ := child hc ht1 hf (by simpa using hg.2.1) hs.1 (by
    rw [hl1]
    intro x hx
    cases hx
    exact Or.inr (Or.inr (Or.inr ⟨rfl, rfl⟩)))
  rw [hl1] at l1
  obtain ⟨rfl, -⟩ := l1
  have ht2 := at_app ht1
  have g2 := Seg.one' (dec := dec) (k := .lpar) (lpar_runs (cfg := cfg) (sp := sp1) (st := st) ht2) rfl
  have ht3 := at_next ht2
  obtain ⟨sp3, ts3, g3⟩ := args_seg (cfg := cfg) (dec := dec) (d := true)
    (st := ⟨.paren, .opn, off + (paren (!bareCallee c) (text shw c)).length, off + (paren (!bareCallee c) (text shw c)).length + 1⟩ :: st)
    (sp := ⟨.paren, .opn, off + (paren (!bareCallee c) (text shw c)).length, off + (paren (!bareCallee c) (text shw c)).length + 1⟩ :: sp1)
    ⟨')', rest, rfl, by decide⟩ as hok hg.2.2 hs.2 (fresh_cons (by simp) (by simp [Ending])) ht3
  have ht4 := at_app ht3
  have h4 := close_runs (cfg := cfg) (sp := sp3) (st := st)
    (t := ⟨.paren, .opn, off + (paren (!bareCallee c) (text shw c)).length, off + (paren (!bareCallee c) (text shw c)).length + 1⟩) g3.le ht4 rfl
  have g4 := Seg.one (dec := dec) (k := .rpar) h4 rfl
  have hlen : off + (text shw (.call c as)).length = off + (paren (!bareCallee c) (text shw c)).length + 1 + (textArgs shw as).length + 1 := by
    simp [text]; omega
  rw [hlen, print]
  have g := Seg.trans g1 (Seg.trans (Seg.trans g2 g3) g4)
  have e : (if (!bareCallee c) = true then (.lpar :: print false c ++ [.rpar] : List (Tok α)) else print (bareOf st) c) =
      if bareCallee c = true then print (bareOf st) c else .lpar :: print false c ++ [.rpar] := by cases bareCallee c <;> rfl
  rw [e] at g
  exact ⟨_, _, by simpa [bareOf] using g, ⟨rfl, _, _, rfl, Or.inr ⟨Or.inl rfl, rfl⟩⟩⟩

/-! ### Arrays -/

theorem semi_seg {sp st : List Span} {ts off : Nat} {t : Span} {r : List Char} (hle : ts ≤ off) (hty : t.ty = .array)
    (ht : cfg.text.drop off = ';' :: r) :
    Seg cfg dec sp (t :: st) ts off (⟨.sep, .row, off, off + 1⟩ :: saved cfg sp ts off) (t :: st) (off + 1) (off + 1) [.sepRow] := by
  have h := sep_runs (cfg := cfg) (sp := sp) (st := t :: st) hle ht (Or.inr rfl)
  have hb : sepTy cfg (mk [] (t :: st) 0 0) ';' = (.sep, .row) := by
    unfold sepTy
    simp [mk, hty]
  rw [hb] at h
  exact Seg.one h rfl

theorem bare_array {t : Span} {st : List Span} (h : t.ty = .array) : bareOf (t :: st) = true := by simp [bareOf, h]

theorem cells_seg {d : Bool} {t : Span} {st : List Span} (hty : t.ty = .array) {rest : List Char} (hr : Ended rest) :
    ∀ (as : List (Ast α)), (∀ a ∈ as, Ok cfg dec shw a) →
    GoodCells d as → SpeltL cfg.isNum dec shw as → ∀ (sp : List Span) (ts off : Nat), ts ≤ off →
    cfg.text.drop off = textCells shw as ++ rest →
    ∃ sp' ts', Seg cfg dec sp (t :: st) ts off sp' (t :: st) ts' (off + (textCells shw as).length) (printCells as)
  | [], _, _, _, sp, ts, off, hle, _ => ⟨sp, ts, Seg.refl _ _ hle⟩
  | a :: as, hok, hg, hs, sp, ts, off, hle, ht => by
    simp only [GoodCells, SpeltL] at hg hs
    have ht0 : cfg.text.drop off = ',' :: ' ' :: (text shw a ++ (textCells shw as ++ rest)) := by rw [ht]; simp [textCells]
    obtain ⟨t', hty', hsub, g⟩ := comma_seg (dec := dec) (sp := sp) (st := t :: st) hle ht0
    have g2 := space_seg (dec := dec) (st := t :: st) (sp := saved cfg sp ts off) (r := text shw a ++ (textCells shw as ++ rest)) (at_next ht0) hty'
      (head_append (head_text (cfg := cfg) (dec := dec) a _ _ hg.1 hs.1))
    have ht1 := at_next (at_next ht0)
    obtain ⟨c, r, he, hc⟩ := ended_cells (shw := shw) as hr
    obtain ⟨sp3, ts3, g3⟩ := arg_seg (sp := ⟨.white, .none, off + 1, off + 1 + 1⟩ :: t' :: saved cfg sp ts off) (st := t :: st)
      (hok a (List.mem_cons_self ..)) (by rw [ht1, he]) hc
      (fresh_white rfl (fresh_cons (by rcases hty' with h | h <;> rw [h] <;> decide) (by rcases hty' with h | h <;> simp [Ending, h, hsub])))
      (Or.inr (by rw [bare_array hty]; exact hg.1)) hs.1
    obtain ⟨sp4, ts4, g4⟩ := cells_seg hty hr as (fun b hb => hok b (List.mem_cons_of_mem _ hb)) hg.2 hs.2 sp3 ts3 _ g3.le (at_app ht1)
    have hlen : off + (textCells shw (a :: as)).length = off + 1 + 1 + (text shw a).length + (textCells shw as).length := by
      simp [textCells]; omega
    rw [hlen, printCells]
    rw [bare_array hty] at g g3
    exact ⟨sp4, ts4, Seg.trans (Seg.trans (Seg.trans g g2) g3) g4⟩

theorem row_seg {d : Bool} {t : Span} {st : List Span} (hty : t.ty = .array) {rest : List Char} (hr : Ended rest)
    (as : List (Ast α)) (hok : ∀ a ∈ as, Ok cfg dec shw a)
    (hg : GoodCells d as) (hs : SpeltL cfg.isNum dec shw as) {sp : List Span} {off : Nat} (hf : Fresh sp)
    (ht : cfg.text.drop off = textRow shw as ++ rest) :
    ∃ sp' ts', Seg cfg dec sp (t :: st) off off sp' (t :: st) ts' (off + (textRow shw as).length) (printRow as) := by
  cases as with
  | nil => exact ⟨sp, off, Seg.refl _ _ (Nat.le_refl _)⟩
  | cons a as =>
    simp only [GoodCells, SpeltL] at hg hs
    have ht0 : cfg.text.drop off = text shw a ++ (textCells shw as ++ rest) := by rw [ht]; simp [textRow]
    obtain ⟨c, r, he, hc⟩ := ended_cells (shw := shw) as hr
    obtain ⟨sp2, ts2, g2⟩ := arg_seg (st := t :: st) (hok a (List.mem_cons_self ..)) (by rw [ht0, he]) hc hf (Or.inr (by rw [bare_array hty]; exact hg.1)) hs.1
    obtain ⟨sp3, ts3, g3⟩ := cells_seg hty hr as (fun b hb => hok b (List.mem_cons_of_mem _ hb)) hg.2 hs.2 sp2 ts2 _ g2.le (at_app ht0)
    have hlen : off + (textRow shw (a :: as)).length = off + (text shw a).length + (textCells shw as).length := by
      simp [textRow]; omega
    rw [hlen, printRow]
    rw [bare_array hty] at g2
    exact ⟨sp3, ts3, Seg.trans g2 g3⟩

theorem row_head {d : Bool} {x : List (Ast α)} (hne : x ≠ []) (hg : GoodCells d x) (hs : SpeltL cfg.isNum dec shw x) :
    ∃ c r, textRow shw x = c :: r ∧ isWs c = false := by
  cases x with
  | nil => exact absurd rfl hne
  | cons a as =>
    simp only [GoodCells, SpeltL] at hg hs
    rw [textRow]
    exact head_append (head_text (cfg := cfg) (dec := dec) a _ _ hg.1 hs.1)

theorem tail_seg {d : Bool} {t : Span} {st : List Span} (hty : t.ty = .array) {rest : List Char} (hr : Ended rest) :
    ∀ (rs : List (List (Ast α))), (∀ x ∈ rs, ∀ a ∈ x, Ok cfg dec shw a) →
    GoodRows d rs → SpeltLL cfg.isNum dec shw rs → ∀ (sp : List Span) (ts off : Nat), ts ≤ off →
    cfg.text.drop off = textTail shw rs ++ rest →
    ∃ sp' ts', Seg cfg dec sp (t :: st) ts off sp' (t :: st) ts' (off + (textTail shw rs).length) (printTail rs)
  | [], _, _, _, sp, ts, off, hle, _ => ⟨sp, ts, Seg.refl _ _ hle⟩
  | x :: rs, hok, hg, hs, sp, ts, off, hle, ht => by
    simp only [GoodRows, SpeltLL] at hg hs
    have ht0 : cfg.text.drop off = ';' :: ' ' :: (textRow shw x ++ (textTail shw rs ++ rest)) := by rw [ht]; simp [textTail]
    have g := semi_seg (dec := dec) (sp := sp) (st := st) hle hty ht0
    have g2 := space_seg (dec := dec) (st := t :: st) (t := ⟨.sep, .row, off, off + 1⟩) (sp := saved cfg sp ts off)
      (r := textRow shw x ++ (textTail shw rs ++ rest)) (at_next ht0) (Or.inr rfl)
      (head_append (row_head (cfg := cfg) (dec := dec) hg.1 hg.2.1 hs.1))
    have ht1 := at_next (at_next ht0)
    obtain ⟨sp3, ts3, g3⟩ := row_seg (sp := ⟨.white, .none, off + 1, off + 1 + 1⟩ :: ⟨.sep, .row, off, off + 1⟩ :: saved cfg sp ts off) (st := st)
      hty (ended_tail (shw := shw) rs hr) x (hok x (List.mem_cons_self ..)) hg.2.1 hs.1
      (fresh_white rfl (fresh_cons (by simp) (by simp [Ending]))) ht1
    obtain ⟨sp4, ts4, g4⟩ := tail_seg hty hr rs (fun b hb => hok b (List.mem_cons_of_mem _ hb)) hg.2.2 hs.2 sp3 ts3 _ g3.le (at_app ht1)
    have hlen : off + (textTail shw (x :: rs)).length = off + 1 + 1 + (textRow shw x).length + (textTail shw rs).length := by
      simp [textTail]; omega
    rw [hlen, printTail]
    exact ⟨sp4, ts4, Seg.trans (Seg.trans (Seg.trans g g2) g3) g4⟩

theorem ok_arr {rows : List (List (Ast α))} (hok : ∀ x ∈ rows, ∀ a ∈ x, Ok cfg dec shw a) : Ok cfg dec shw (.arr rows) := by
  intro d sp st off rest ht hf hg hs hfo
  simp only [Good, Spelt] at hg hs
  have ht1 : cfg.text.drop off = '{' :: (textRows shw rows ++ '}' :: rest) := by rw [ht]; simp [text]
  have g1 := Seg.one' (dec := dec) (k := .arrOpen) (arr_runs (cfg := cfg) (sp := sp) (st := st) ht1) rfl
  have ht2 := at_next ht1
  have hend : Ended ('}' :: rest) := ⟨'}', rest, rfl, by decide⟩
  have hfr : Fresh ((⟨.array, .opn, off, off + 1⟩ : Span) :: sp) := fresh_cons (by simp) (by simp [Ending])
  have hrows : ∃ sp' ts', Seg cfg dec (⟨.array, .opn, off, off + 1⟩ :: sp) (⟨.array, .opn, off, off + 1⟩ :: st) (off + 1) (off + 1)
      sp' (⟨.array, .opn, off, off + 1⟩ :: st) ts' (off + 1 + (textRows shw rows).length) (printRows rows) := by
    cases rows with
    | nil => exact ⟨_, _, Seg.refl _ _ (Nat.le_refl _)⟩
    | cons x rs =>
      simp only [GoodRows, SpeltLL] at hg hs
      have ht3 : cfg.text.drop (off + 1) = textRow shw x ++ (textTail shw rs ++ '}' :: rest) := by rw [ht2]; simp [textRows]
      obtain ⟨sp3, ts3, g3⟩ := row_seg (st := st) (t := ⟨.array, .opn, off, off + 1⟩) rfl (ended_tail (shw := shw) rs hend) x
        (hok x (List.mem_cons_self ..)) hg.2.1 hs.1 hfr ht3
      obtain ⟨sp4, ts4, g4⟩ := tail_seg (st := st) (t := ⟨.array, .opn, off, off + 1⟩) rfl hend rs (fun b hb => hok b (List.mem_cons_of_mem _ hb)) hg.2.2 hs.2 sp3 ts3 _ g3.le (at_app ht3)
      have hlen : off + 1 + (textRows shw (x :: rs)).length = off + 1 + (textRow shw x).length + (textTail shw rs).length := by
        simp [textRows]; omega
      rw [hlen, printRows]
      exact ⟨sp4, ts4, Seg.trans g3 g4⟩
  obtain ⟨sp2, ts2, g2⟩ := hrows
  have ht4 := at_app ht2
  have h3 := close_runs (cfg := cfg) (sp := sp2) (st := st) (t := ⟨.array, .opn, off, off + 1⟩) g2.le ht4 rfl
  have g3 := Seg.one (dec := dec) (k := .arrClose) h3 rfl
  have hlen : off + (text shw (.arr rows)).length = off + 1 + (textRows shw rows).length + 1 := by simp [text]; omega
  rw [hlen, print]
  exact ⟨_, _, Seg.trans (Seg.trans g1 g2) g3, ⟨rfl, _, _, rfl, Or.inr ⟨Or.inr (Or.inr rfl), rfl⟩⟩⟩

theorem ok_omitted : Ok cfg dec shw (.omitted : Ast α) := by
  intro d sp st off rest _ _ hg
  simp [Good] at hg

mutual
theorem ok_all : ∀ e : Ast α, Ok cfg dec shw e
  | .atom a => ok_atom a
  | .omitted => ok_omitted
  | .pre op e => ok_pre op (ok_all e)
  | .post op e => ok_post op (ok_all e)
  | .bin op l r => ok_bin op (ok_all l) (ok_all r)
  | .func name args => ok_func name (ok_allL args)
  | .call c args => ok_call (ok_all c) (ok_allL args)
  | .arr rows => ok_arr (ok_allLL rows)

theorem ok_allL : ∀ (as : List (Ast α)), ∀ a ∈ as, Ok cfg dec shw a
  | [] => fun _ h => by cases h
  | b :: as => fun a h => by
    have hb := ok_all b
    have has := ok_allL as
    rcases List.mem_cons.mp h with rfl | h
    · exact hb
    · exact has a h

theorem ok_allLL : ∀ (rs : List (List (Ast α))), ∀ x ∈ rs, ∀ a ∈ x, Ok cfg dec shw a
  | [] => fun _ h => by cases h
  | y :: rs => fun x h => by
    have hy := ok_allL y
    have hrs := ok_allLL rs
    rcases List.mem_cons.mp h with rfl | h
    · exact hy
    · exact hrs x h
end

/-! ## The theorem -/

theorem mapM_some {β γ : Type} (f : β → Option γ) : ∀ (l : List β) (m : List γ), l.map f = m.map some → l.mapM f = some m
  | [], [], _ => rfl
  | [], _ :: _, h => by simp at h
  | _ :: _, [], h => by simp at h
  | x :: l, y :: m, h => by
    simp only [List.map_cons, List.cons.injEq] at h
    rw [List.mapM_cons, h.1, mapM_some f l m h.2]
    rfl

theorem run_mono : ∀ (fuel n : Nat) (s : St) (best : Bool) r, run cfg best fuel s = some r → run cfg best (fuel + n) s = some r
  | 0, _, _, _, _, h => by simp [run] at h
  | fuel + 1, n, s, best, r, h => by
    rw [show fuel + 1 + n = (fuel + n) + 1 by omega]
    rw [run] at h ⊢
    cases hc : cfg.text[s.off]? with
    | none => rw [hc] at h; exact h
    | some c =>
      rw [hc] at h
      simp only at h ⊢
      rcases hst : step cfg s c with ⟨s', _ | e⟩
      · simp only [hst] at h ⊢
        exact run_mono fuel n s' best r h
      · simp only [hst] at h ⊢
        cases best with
        | true =>
          rw [if_pos rfl] at h ⊢
          exact run_mono fuel n _ true r h
        | false => exact h

/-- The tokens of a printed formula. -/
theorem tokenize_canonical (isNum : List Char → Bool) (openFormula : Bool) (e : Ast α) (hg : Good false false e)
    (hs : Spelt isNum dec shw e) :
    ∃ spans, tokenize ⟨canonical shw e, isNum, openFormula⟩ = some (.ok spans) ∧
      spans.mapM (toTok dec (canonical shw e)) = some (print false e) := by
  let cfg : Cfg := ⟨canonical shw e, isNum, openFormula⟩
  obtain ⟨sp', ts', hseg, -⟩ := ok_all (cfg := cfg) (dec := dec) (shw := shw) e false [] [] 1 [] (by simp [cfg, canonical])
    (by intro t ht; simp [prevOf] at ht) hg hs (by intro c hc; simp at hc)
  have hpos : (canonical shw e).length = 1 + (text shw e).length := by simp [canonical]; omega
  obtain ⟨ns, hn, hm⟩ := hseg.new
  rw [saved_self, List.append_nil] at hn
  obtain ⟨k, hk⟩ := hseg.runs
  have hfin : ∀ n, run cfg false (n + 1 + k) (mk [] [] 1 1) = some ((mk ns [] ts' (1 + (text shw e).length)), none) := by
    intro n
    rw [hk, run]
    have : cfg.text[(mk sp' [] ts' (1 + (text shw e).length)).off]? = none := by
      rw [List.getElem?_eq_none_iff, mk_off, ← hpos]
    rw [this]
    simp only [finish, mk_save, hn]
    rfl
  refine ⟨ns.reverse, ?_, ?_⟩
  · obtain ⟨r, hr⟩ := (tokenize_total cfg).1
    unfold tokenize at hr ⊢
    rw [parse_formula (cfg := cfg) rfl] at hr ⊢
    cases hrun : run cfg false (2 * cfg.text.length + 2) Token.start with
    | none => rw [hrun] at hr; cases hr
    | some x =>
      have h1 := run_mono _ (1 + k) _ _ _ hrun
      have h2 := hfin (2 * cfg.text.length + 2)
      rw [show 2 * cfg.text.length + 2 + 1 + k = 2 * cfg.text.length + 2 + (1 + k) by omega] at h2
      rw [show Token.start = mk [] [] 1 1 from rfl, h2] at h1
      cases h1
      rfl
  · exact mapM_some _ _ _ hm

/-- C24, on texts: tokenizing and parsing the canonical text of a formula gives the formula back, up to the case of function names.
Missing: the trees excluded by `Good` and the spellings excluded by `Spelt`; see the theorems below and in `Verif.Pretty.Props`. -/
theorem roundtrip_text_partial (dec : Sub → List Char → α) (shw : α → List Char) (isNum : List Char → Bool) (openFormula : Bool) (e : Ast α)
    (hg : Good false false e) (hs : Spelt isNum dec shw e) :
    parseFormula dec ⟨canonical shw e, isNum, openFormula⟩ = some (norm e) := by
  obtain ⟨spans, h, hm⟩ := tokenize_canonical isNum openFormula e hg hs
  unfold parseFormula tokensOf
  rw [h]
  simp only
  rw [hm]
  simp only
  rw [roundtrip_partial e hg]
  rfl

/-- The names of functions change only in case. -/
theorem upper_same (name : List Char) : eqIgnoreCase (name.map upper) name = true := by
  unfold eqIgnoreCase
  rw [decide_eq_true_eq, List.map_map]
  refine List.map_congr_left fun c _ => ?_
  simp only [Function.comp]
  unfold upper
  split
  · rename_i h
    have h1 : 97 ≤ c.toNat := h.1
    have h2 : c.toNat ≤ 122 := h.2
    have hc : c = Char.ofNat c.toNat := (Char.ofNat_toNat c).symm
    have : ∀ n, 97 ≤ n → n ≤ 122 → lower (Char.ofNat (n - 32)) = lower (Char.ofNat n) := by
      intro n a b
      have key : ∀ k : Fin 26, lower (Char.ofNat (k.val + 97 - 32)) = lower (Char.ofNat (k.val + 97)) := by decide +kernel
      have := key ⟨n - 97, by omega⟩
      simp only [show n - 97 + 97 = n by omega] at this
      exact this
    rw [this _ h1 h2, Char.ofNat_toNat]
  · rfl

/-! ## A case -/

section Example

/-- Leaves as their own texts. -/
def rawShow (v : List Char) : List Char := v
def rawDec (_ : Sub) (v : List Char) : List Char := v
def digits (v : List Char) : Bool := !v.isEmpty && v.all isDigit

/-- `=SUM(A1:B2, 'My Sheet'!C3, , "say ""hi""") * -(x + #N/A) & D4#% & {1, 2; 3, 4}`. -/
def sample : Ast (List Char) :=
  .bin .cat (.bin .cat
    (.bin .mul (.func "sum".toList [.atom "A1:B2".toList, .atom "'My Sheet'!C3".toList, .omitted, .atom "\"say \"\"hi\"\"\"".toList])
      (.pre .minus (.bin .add (.atom "x".toList) (.atom "#N/A".toList))))
    (.post .pct (.post .hash (.atom "D4".toList))))
    (.arr [[.atom "1".toList, .atom "2".toList], [.atom "3".toList, .atom "4".toList]])

theorem word_of {w : List Char} (h : (!w.isEmpty && w.all plain) = true) : Simple w := by
  simp only [Bool.and_eq_true, Bool.not_eq_true', List.all_eq_true] at h
  exact .word w (by intro he; rw [he] at h; simp at h) h.2

example : canonical rawShow sample =
    "=SUM(A1:B2, 'My Sheet'!C3,, \"say \"\"hi\"\"\") * -(x + #N/A) & D4#% & {1, 2; 3, 4}".toList := by decide +kernel

example : Good false false sample ∧ Spelt digits rawDec rawShow sample := by
  refine ⟨?_, ?_⟩
  · simp [sample, Good, GoodArgs, GoodRows, GoodCells, Repeats, Captures, isOmitted]
  · have hw : ∀ w, (!w.isEmpty && w.all plain) = true → LeafText w := fun w h => .simple _ (word_of h)
    simp only [sample, Spelt, SpeltL, SpeltLL, rawDec, rawShow, and_true, true_and]
    refine ⟨⟨⟨⟨by decide, by decide +kernel, ?_, ?_, ?_⟩, ⟨?_, ?_, ?_⟩, ?_⟩, ⟨⟨?_, ?_⟩, ?_⟩, ?_⟩, ⟨⟨?_, ?_⟩, ?_, ?_⟩, ?_⟩
    · exact .range "A1".toList "B2".toList (word_of (by decide +kernel)) (by decide +kernel) (by decide +kernel) (by decide +kernel) (by decide +kernel) (by decide +kernel)
    · exact .simple _ (.quoted "My Sheet".toList "C3".toList (by decide +kernel))
    · exact .str "say \"hi\"".toList
    · exact hw _ (by decide +kernel)
    · exact .err _ (by decide +kernel)
    · exact ⟨by simp, by simp⟩
    · exact ⟨by simp, by simp⟩
    · exact hw _ (by decide +kernel)
    · intro _ _ a ha
      cases ha
      exact ⟨word_of (by decide +kernel), by decide +kernel, by decide +kernel⟩
    · simp
    · exact ⟨by simp, by simp⟩
    · exact hw _ (by decide +kernel)
    · exact hw _ (by decide +kernel)
    · exact hw _ (by decide +kernel)
    · exact hw _ (by decide +kernel)
    · exact ⟨by simp, by simp⟩

end Example

/-- Operands that are literals, references or function calls print without parentheses, on either side of every operator. -/
theorem text_atoms (shw : α → List Char) (op : Op) (a b : α) (f : List Char) (args : List (Ast α)) :
    text shw (.bin op (.atom a) (.atom b)) = shw a ++ opText op ++ shw b ∧
    text shw (.bin op (.func f args) (.atom b)) = text shw (.func f args) ++ opText op ++ shw b ∧
    text shw (.bin op (.atom a) (.func f args)) = shw a ++ opText op ++ text shw (.func f args) := by
  cases op <;> simp [text, paren, leftParens, rightParens, nodePrec, Op.prec, Op.rightAssoc, isBin]

example : text rawShow (.bin .pow (.atom "A1".toList) (.atom "2".toList)) = "A1 ^ 2".toList := by decide +kernel

/-! ## What `Spelt` excludes -/

/-- A range operator between two cells, `(A1):(B1)`, prints `A1:B1`, which is one reference. -/
theorem colon_fused : parseFormula rawDec ⟨canonical rawShow (.bin .colon (.atom "A1".toList) (.atom "B1".toList)), digits, false⟩ =
    some (.atom "A1:B1".toList) := by
  unfold parseFormula
  rw [show tokensOf rawDec ⟨canonical rawShow (.bin .colon (.atom "A1".toList) (.atom "B1".toList)), digits, false⟩ =
    some [.operand "A1:B1".toList] by decide +kernel]
  rfl

/-- The intersection of two names, `(foo) (bar)`, prints `foo bar`, which is not a formula. -/
theorem names_intersection_refused :
    parseFormula rawDec ⟨"=(foo) (bar)".toList, digits, false⟩ = some (.bin .space (.atom "foo".toList) (.atom "bar".toList)) ∧
    canonical rawShow (.bin .space (.atom "foo".toList) (.atom "bar".toList)) = "=foo bar".toList ∧
    parseFormula rawDec ⟨"=foo bar".toList, digits, false⟩ = none := by
  refine ⟨?_, by decide +kernel, ?_⟩
  · unfold parseFormula
    rw [show tokensOf rawDec ⟨"=(foo) (bar)".toList, digits, false⟩ =
      some [.lpar, .operand "foo".toList, .rpar, .infix .space, .lpar, .operand "bar".toList, .rpar] by decide +kernel]
    rfl
  · unfold parseFormula
    rw [show tokensOf rawDec ⟨"=foo bar".toList, digits, false⟩ = some [.operand "foo".toList, .ws, .operand "bar".toList] by decide +kernel]
    rfl

/-- A range in another workbook is split at its colon. -/
theorem external_range_split :
    parseFormula rawDec ⟨canonical rawShow (.atom "'[1]S'!A1:B2".toList), digits, false⟩ =
      some (.bin .colon (.atom "'[1]S'!A1".toList) (.atom "B2".toList)) := by
  unfold parseFormula
  rw [show tokensOf rawDec ⟨canonical rawShow (.atom "'[1]S'!A1:B2".toList), digits, false⟩ =
    some [.operand "'[1]S'!A1".toList, .infix .colon, .operand "B2".toList] by decide +kernel]
  rfl

end Verif.Pretty
