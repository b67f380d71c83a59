import Verif.Token.Model
import Verif.Util
import Mathlib.Tactic.SplitIfs
import Mathlib.Tactic.Set
import Mathlib.Tactic.ByContra

/-!
# Tokens tile the text and nest (C25, C26, C41)
-/

namespace Verif.Token

variable (cfg : Cfg)

/-! ## Specification -/

/-- Spans in order cover the text from `p` to `q`: each begins where the previous ended, or, for an error literal, after a
gap that ends in `!`. -/
inductive Cover (f : List Char) : Nat → List Span → Nat → Prop
  | nil (p : Nat) : Cover f p [] p
  | tok (s : Span) (l : List Span) (q : Nat) : s.start < s.stop → Cover f s.stop l q → Cover f s.start (s :: l) q
  | gap (p : Nat) (s : Span) (l : List Span) (q : Nat) : p < s.start → s.start < s.stop → s.sub = .error →
      f[s.start - 1]? = some '!' → f[s.start]? = some '#' → Cover f s.stop l q → Cover f p (s :: l) q

/-- An opening or closing token of a kind. -/
inductive Brk
  | opn (k : Ty)
  | close (k : Ty)
  deriving DecidableEq

/-- The brackets of a token sequence. -/
def brk (s : Span) : Option Brk := if s.sub = .opn then some (.opn s.ty) else if s.sub = .close then some (.close s.ty) else none

/-- Properly nested. -/
inductive Nested : List Brk → Prop
  | nil : Nested []
  | wrap (k : Ty) (a b : List Brk) : Nested a → Nested b → Nested (.opn k :: a ++ .close k :: b)

/-- An opening token ends in its bracket; a closing one is it. -/
def BracketText (f : List Char) (s : Span) : Prop :=
  (s.sub = .opn → s.ty = .array ∧ f[s.stop - 1]? = some '{' ∨ (s.ty = .paren ∨ s.ty = .func) ∧ f[s.stop - 1]? = some '(') ∧
  (s.sub = .close → s.stop = s.start + 1 ∧
    (s.ty = .array ∧ f[s.start]? = some '}' ∨ (s.ty = .paren ∨ s.ty = .func) ∧ f[s.start]? = some ')'))

/-! ## Invariant of the main loop -/

/-- `Cover` from the right, spans newest first. With `lossy` text may be lost anywhere between tokens. -/
inductive Cov (f : List Char) (p : Nat) (lossy : Bool) : List Span → Nat → Prop
  | nil : Cov f p lossy [] p
  | tok (s : Span) (l : List Span) (a : Nat) : Cov f p lossy l a → s.start = a → s.start < s.stop → Cov f p lossy (s :: l) s.stop
  | gap (s : Span) (l : List Span) (a : Nat) : Cov f p lossy l a → a < s.start → s.start < s.stop → s.sub = .error →
      f[s.start - 1]? = some '!' → f[s.start]? = some '#' → Cov f p lossy (s :: l) s.stop
  | lose (l : List Span) (a b : Nat) : lossy = true → Cov f p lossy l a → a ≤ b → Cov f p lossy l b

/-- The text of the spans ends at `ts`, the accumulated token at `off`. -/
structure Inv (L : Bool) (s : St) : Prop where
  cov : Cov cfg.text 1 L s.spans s.ts
  le : s.ts ≤ s.off
  te : s.te = s.off
  off : s.off ≤ cfg.text.length

variable {cfg} {L : Bool}

theorem St.hasTok_iff {s : St} : s.hasTok = true ↔ s.ts < s.te := by simp [St.hasTok]

theorem cov_push {f : List Char} {p a : Nat} {l : List Span} (h : Cov f p L l a) (ty : Ty) (sub : Sub) {b : Nat} (hb : a < b) :
    Cov f p L (⟨ty, sub, a, b⟩ :: l) b := Cov.tok ⟨ty, sub, a, b⟩ l a h rfl hb

/-- After saving, spans reach `off`. -/
theorem save_cov {s : St} (h : Inv cfg L s) : Cov cfg.text 1 L (s.save cfg).spans s.off := by
  unfold St.save
  split
  · next ht =>
    rw [St.hasTok_iff] at ht
    have := cov_push h.cov .operand (subtype cfg.isNum (s.cur cfg)) ht
    rw [h.te] at this
    simpa [St.push, h.te] using this
  · next ht =>
    rw [St.hasTok_iff, h.te] at ht
    have : s.ts = s.off := by have := h.le; omega
    rw [← this]; exact h.cov

@[simp] theorem save_off (s : St) : (s.save cfg).off = s.off := by unfold St.save; split <;> rfl
@[simp] theorem save_stack (s : St) : (s.save cfg).stack = s.stack := by unfold St.save; split <;> rfl
@[simp] theorem save_diags (s : St) : (s.save cfg).diags = s.diags := by unfold St.save; split <;> rfl
@[simp] theorem save_ts (s : St) : (s.save cfg).ts = s.ts := by unfold St.save; split <;> rfl
@[simp] theorem save_te (s : St) : (s.save cfg).te = s.te := by unfold St.save; split <;> rfl

theorem save_start_inv {s : St} (h : Inv cfg L s) : Inv cfg L (s.save cfg).startTok :=
  ⟨by simpa [St.startTok] using save_cov h, by simp [St.startTok], by simp [St.startTok], by simpa [St.startTok] using h.off⟩

theorem startTok_inv {s : St} (h : Inv cfg L s) (ht : s.hasTok = false) : Inv cfg L s.startTok := by
  have hn : ¬ s.ts < s.te := fun hc => by rw [St.hasTok_iff.2 hc] at ht; exact absurd ht (by simp)
  have he := h.te
  have hl := h.le
  have : s.ts = s.off := by omega
  exact ⟨by simpa [St.startTok, ← this] using h.cov, by simp [St.startTok], by simp [St.startTok], h.off⟩

theorem emit_inv {s : St} (h : Inv cfg L s) (ty : Ty) (sub : Sub) {n : Nat} (hn : 0 < n) (hb : s.off + n ≤ cfg.text.length) :
    Inv cfg L (s.emit cfg ty sub n) := by
  refine ⟨?_, by simp [St.emit, St.startTok], by simp [St.emit, St.startTok], by simpa [St.emit, St.startTok, St.push] using hb⟩
  have := cov_push (save_cov h) ty sub (b := s.off + n) (by omega)
  simpa [St.emit, St.startTok, St.push] using this

theorem extend_inv {s : St} (h : Inv cfg L s) {n : Nat} (hb : s.off + n ≤ cfg.text.length) : Inv cfg L (s.extend n) := by
  unfold St.extend
  cases ht : s.hasTok with
  | true =>
    simp only [if_true]
    exact ⟨h.cov, by have := h.le; simp only; omega, rfl, hb⟩
  | false =>
    simp only [Bool.false_eq_true, if_false]
    have h' := startTok_inv h ht
    exact ⟨h'.cov, by simp only [St.startTok]; omega, rfl, hb⟩

theorem scanString_le (d : Char) : ∀ (l : List Char) (n : Nat), scanString d l = some n → 0 < n ∧ n ≤ l.length
  | [], n, h => by simp [scanString] at h
  | [c], n, h => by
    simp only [scanString] at h
    split at h
    · cases h; simp
    · exact absurd h (by simp)
  | c :: c2 :: rest, n, h => by
    simp only [scanString] at h
    split at h
    · split at h
      · obtain ⟨m, hm, rfl⟩ := Option.map_eq_some_iff.1 h
        have := scanString_le d rest m hm
        simp only [List.length_cons]; omega
      · cases h; simp
    · obtain ⟨m, hm, rfl⟩ := Option.map_eq_some_iff.1 h
      have := scanString_le d (c2 :: rest) m hm
      simp only [List.length_cons] at this ⊢; omega

theorem scanBrackets_le : ∀ (k : Nat) (l : List Char) (n : Nat), scanBrackets k l = some n → 0 < n ∧ n ≤ l.length := by
  intro k l
  induction k, l using scanBrackets.induct with
  | case1 => intro n h; simp [scanBrackets] at h
  | case2 => intro n h; simp [scanBrackets] at h
  | case3 k c rest ih =>
    intro n h
    simp only [scanBrackets] at h
    obtain ⟨m, hm, rfl⟩ := Option.map_eq_some_iff.1 h
    have := ih m hm
    simp only [List.length_cons]; omega
  | case4 k rest h1 h2 ih =>
    intro n h
    rw [scanBrackets] at h
    · simp only [if_true] at h
      obtain ⟨m, hm, rfl⟩ := Option.map_eq_some_iff.1 h
      have := ih m hm
      simp only [List.length_cons]; omega
    all_goals assumption
  | case5 rest h1 h2 h3 =>
    intro n h
    rw [scanBrackets] at h
    · simp at h; subst h; simp
    all_goals assumption
  | case6 k rest h1 h2 h3 h4 ih =>
    intro n h
    rw [scanBrackets] at h
    · simp only [h4, if_false, h1, if_true] at h
      obtain ⟨m, hm, rfl⟩ := Option.map_eq_some_iff.1 h
      have := ih m hm
      simp only [List.length_cons]; omega
    all_goals assumption
  | case7 k c rest h1 h2 h3 h4 ih =>
    intro n h
    rw [scanBrackets] at h
    · simp only [h3, if_false, h4] at h
      obtain ⟨m, hm, rfl⟩ := Option.map_eq_some_iff.1 h
      have := ih m hm
      simp only [List.length_cons]; omega
    all_goals assumption

theorem takeWhile_le {p : Char → Bool} (l : List Char) : (l.takeWhile p).length ≤ l.length :=
  (List.takeWhile_prefix p).length_le

/-- What an error leaves: the recovery span lies after the saved spans, and the round makes progress. -/
structure ErrOk (cfg : Cfg) (L : Bool) (s s' : St) (e : Err) : Prop where
  cov : ∃ a, Cov cfg.text 1 L s'.spans a ∧ a ≤ (recoverSpan cfg e).start
  lt : (recoverSpan cfg e).start < (recoverSpan cfg e).stop
  le : (recoverSpan cfg e).stop ≤ cfg.text.length
  off : s.off < (recoverSpan cfg e).stop ∨ s.off = (recoverSpan cfg e).stop ∧ s.hasTok = true

/-- A round from `s` went well. -/
def Good (cfg : Cfg) (L : Bool) (s : St) (r : St × Option Err) : Prop :=
  match r with
  | (s', none) => Inv cfg L s' ∧ s.off < s'.off
  | (s', some e) => ErrOk cfg L s s' e

theorem lt_of_get {f : List Char} {i : Nat} {c : Char} (h : f[i]? = some c) : i < f.length := by
  by_contra hn
  rw [List.getElem?_eq_none (by omega)] at h
  exact absurd h (by simp)

@[simp] theorem startTok_off (s : St) : s.startTok.off = s.off := rfl
@[simp] theorem startTok_spans (s : St) : s.startTok.spans = s.spans := rfl

theorem emit_good {s : St} (h : Inv cfg L s) (ty : Ty) (sub : Sub) {n : Nat} (hn : 0 < n) (hb : s.off + n ≤ cfg.text.length) :
    Good cfg L s (s.emit cfg ty sub n, none) :=
  ⟨emit_inv h ty sub hn hb, by simp only [St.emit, St.startTok, St.push, save_off]; omega⟩

theorem parseString_good {s : St} (h : Inv cfg L s) {c : Char} (hc : cfg.text[s.off]? = some c) (hd : c = '"' ∨ c = '\'') :
    Good cfg L s (parseString cfg s c) := by
  have hlt := lt_of_get hc
  unfold parseString
  simp only
  set dollar := (decide (c = '\'') && s.hasTok && decide (s.te - s.ts = 1) && decide (cfg.text[s.ts]? = some '$')) with hdl
  set glue := (decide (c = '\'') && s.hasTok && decide (0 < s.te) && decide (cfg.text[s.te - 1]? = some ':')) with hgl
  set s1 := if (!dollar && !glue && s.hasTok) = true then (s.save cfg).startTok else s with hs1
  have h1 : Inv cfg L s1 := by rw [hs1]; split; exact save_start_inv h; exact h
  have ho : s1.off = s.off := by rw [hs1]; split <;> simp
  have hq : c = '"' → dollar = false ∧ s1.ts = s1.off := by
    intro hcq
    have hd0 : dollar = false := by rw [hdl, hcq]; simp
    have hg0 : glue = false := by rw [hgl, hcq]; simp
    refine ⟨hd0, ?_⟩
    rw [hs1, hd0, hg0]
    cases ht : s.hasTok with
    | true => simp [St.startTok]
    | false =>
      simp only [Bool.not_false, Bool.and_false, Bool.false_eq_true, if_false]
      have hn : ¬ s.ts < s.te := fun hx => by rw [St.hasTok_iff.2 hx] at ht; exact absurd ht (by simp)
      have he := h.te; have hl := h.le; omega
  cases hsc : scanString c (cfg.text.drop (s1.off + 1)) with
  | none =>
    simp only [Good]
    have hts : s1.ts ≤ s1.off := h1.le
    refine ⟨⟨s1.ts, h1.cov, ?_⟩, ?_, Nat.le_refl _, Or.inl hlt⟩
    · simp only [recoverSpan, Option.getD_some]; split <;> omega
    · simp only [recoverSpan, Option.getD_some]; split <;> omega
  | some n =>
    have hn := scanString_le c _ n hsc
    rw [List.length_drop] at hn
    simp only
    split
    · next hcq =>
      obtain ⟨hd0, hts⟩ := hq hcq
      refine ⟨⟨?_, by simp [St.startTok], by simp [St.startTok], by simp only [St.startTok]; omega⟩, by simp only [St.startTok]; omega⟩
      have hcov := h1.cov
      rw [hts] at hcov
      have := cov_push hcov .operand (subtype cfg.isNum (slice cfg.text s1.off (s1.off + 1 + n))) (b := s1.off + 1 + n) (by omega)
      simpa [St.startTok, St.push, hd0] using this
    · refine ⟨⟨h1.cov, ?_, rfl, by simp only; omega⟩, by simp only; omega⟩
      have := h1.le; simp only; omega

theorem parseBrackets_good {s : St} (h : Inv cfg L s) {c : Char} (hc : cfg.text[s.off]? = some c) :
    Good cfg L s (parseBrackets cfg s) := by
  have hlt := lt_of_get hc
  unfold parseBrackets
  simp only
  set s1 := if s.hasTok = true then s else s.startTok with hs1
  have h1 : Inv cfg L s1 := by
    rw [hs1]
    cases ht : s.hasTok with
    | true => simpa using h
    | false => simpa using startTok_inv h ht
  have ho : s1.off = s.off := by rw [hs1]; split <;> simp
  cases hsc : scanBrackets 1 (cfg.text.drop (s1.off + 1)) with
  | none =>
    simp only [Good]
    refine ⟨⟨s1.ts, h1.cov, ?_⟩, ?_, Nat.le_refl _, Or.inl hlt⟩
    · simp only [recoverSpan, Option.getD_some]; exact h1.le
    · simp only [recoverSpan, Option.getD_some]; omega
  | some n =>
    have hn := scanBrackets_le 1 _ n hsc
    rw [List.length_drop] at hn
    simp only
    refine ⟨⟨h1.cov, ?_, rfl, by simp only; omega⟩, by simp only; omega⟩
    have := h1.le; simp only; omega

theorem badErrorEnd_le {off : Nat} (h : off < cfg.text.length) : off < badErrorEnd cfg off ∧ badErrorEnd cfg off ≤ cfg.text.length := by
  unfold badErrorEnd
  have := takeWhile_le (p := fun c => !(isEnder c || isWs c || c = '(' || c = '{' || c = '[' || c = '"' || c = '\'')) (cfg.text.drop (off + 1))
  rw [List.length_drop] at this
  omega

theorem errorCodes_pos : ∀ e ∈ errorCodes, 0 < e.length := by decide

theorem parseError_good {s : St} (h : Inv cfg L s) (hc : cfg.text[s.off]? = some '#') : Good cfg L s (parseError cfg s) := by
  have hlt := lt_of_get hc
  unfold parseError
  simp only
  set pre := (s.hasTok && decide (0 < s.te) && decide (cfg.text[s.te - 1]? = some '!')) with hpre
  split
  · next hp =>
    simp only [Bool.and_eq_true] at hp
    have ht : s.hasTok = true := by
      have := hp.1; rw [hpre] at this; simp only [Bool.and_eq_true] at this; exact this.1.1
    have htl := St.hasTok_iff.1 ht
    refine ⟨⟨s.ts, h.cov, by simp [recoverSpan]⟩, ?_, ?_, Or.inr ⟨by simp [recoverSpan], ht⟩⟩
    · simp only [recoverSpan, Option.getD_some]; rw [← h.te]; exact htl
    · simp only [recoverSpan, Option.getD_some]; exact h.off
  · cases hpv : pre with
    | true =>
      simp only [if_true]
      have hb : cfg.text[s.off - 1]? = some '!' := by
        rw [hpre] at hpv; simp only [Bool.and_eq_true, decide_eq_true_eq] at hpv
        rw [← h.te]; exact hpv.2
      have ht : s.ts < s.off := by
        rw [hpre] at hpv; simp only [Bool.and_eq_true, decide_eq_true_eq] at hpv
        have := St.hasTok_iff.1 hpv.1.1; rw [h.te] at this; exact this
      cases hf : errorCodes.find? fun e => decide (s.startTok.off + e.length ≤ cfg.text.length) &&
          eqIgnoreCase (slice cfg.text s.startTok.off (s.startTok.off + e.length)) e with
      | none =>
        simp only [Good]
        have hbe := badErrorEnd_le hlt
        refine ⟨⟨s.ts, h.cov, ?_⟩, ?_, ?_, Or.inl ?_⟩
        · simp only [recoverSpan, Option.getD_some, startTok_off]; omega
        · simpa [recoverSpan] using hbe.1
        · simpa [recoverSpan] using hbe.2
        · simpa [recoverSpan] using hbe.1
      | some e =>
        have he := List.find?_some hf
        rw [Bool.and_eq_true, decide_eq_true_eq, startTok_off] at he
        have hpos := errorCodes_pos e (List.mem_of_find?_eq_some hf)
        refine ⟨⟨?_, by simp [St.startTok], by simp [St.startTok], by simpa [St.startTok, St.push] using he.1⟩,
          by simp only [St.startTok, St.push]; omega⟩
        simp only [St.startTok, St.push]
        exact Cov.gap ⟨.operand, .error, s.off, s.off + e.length⟩ _ s.ts h.cov ht (by simp only; omega) rfl hb hc
    | false =>
      simp only [Bool.false_eq_true, if_false]
      set s1 := if s.hasTok = true then (s.save cfg).startTok else s with hs1
      have h1 : Inv cfg L s1 := by rw [hs1]; split; exact save_start_inv h; exact h
      have ho : s1.off = s.off := by rw [hs1]; split <;> simp
      have hts : s1.ts = s1.off := by
        rw [hs1]
        cases ht : s.hasTok with
        | true => simp [St.startTok]
        | false =>
          simp only [Bool.false_eq_true, if_false]
          have hn : ¬ s.ts < s.te := fun hx => by rw [St.hasTok_iff.2 hx] at ht; exact absurd ht (by simp)
          have he := h.te; have hl := h.le; omega
      cases hf : errorCodes.find? fun e => decide (s1.off + e.length ≤ cfg.text.length) &&
          eqIgnoreCase (slice cfg.text s1.off (s1.off + e.length)) e with
      | none =>
        simp only [Good]
        have hbe := badErrorEnd_le hlt
        rw [← ho] at hbe
        refine ⟨⟨s1.ts, h1.cov, ?_⟩, ?_, ?_, Or.inl ?_⟩
        · simp only [recoverSpan, Option.getD_some]; omega
        · simpa [recoverSpan] using hbe.1
        · simpa [recoverSpan] using hbe.2
        · rw [← ho]; simpa [recoverSpan] using hbe.1
      | some e =>
        have he := List.find?_some hf
        simp only [Bool.and_eq_true, decide_eq_true_eq] at he
        have hpos := errorCodes_pos e (List.mem_of_find?_eq_some hf)
        refine ⟨⟨?_, by simp [St.startTok], by simp [St.startTok], by simpa [St.startTok, St.push] using he.1⟩,
          by simp only [St.startTok, St.push]; omega⟩
        have hcov := h1.cov
        rw [hts] at hcov
        have := cov_push hcov .operand .error (b := s1.off + e.length) (by omega)
        simpa [St.startTok, St.push] using this

theorem takeWhile_pos {p : Char → Bool} {l : List Char} {c : Char} (h : l.head? = some c) (hp : p c = true) :
    0 < (l.takeWhile p).length := by
  cases l with
  | nil => simp at h
  | cons a l => simp at h; subst h; simp [List.takeWhile_cons, hp]

theorem parseWhite_good {s : St} (h : Inv cfg L s) {c : Char} (hc : cfg.text[s.off]? = some c) (hw : isWs c = true) :
    Good cfg L s (parseWhite cfg s) := by
  have hpos : 0 < ((cfg.text.drop s.off).takeWhile isWs).length := takeWhile_pos (c := c) (by simpa using hc) hw
  have hle := takeWhile_le (p := isWs) (cfg.text.drop s.off)
  rw [List.length_drop] at hle
  have hlt := lt_of_get hc
  unfold parseWhite
  simp only [save_off]
  refine ⟨⟨?_, by simp [St.startTok], by simp [St.startTok], by simp only [St.startTok]; omega⟩, by simp only [St.startTok]; omega⟩
  have := cov_push (save_cov h) (if (((cfg.text.drop s.off).takeWhile isWs).contains ' ' && prevRef cfg (s.save cfg) &&
    startsRef (cfg.text.drop (s.off + ((cfg.text.drop s.off).takeWhile isWs).length))) = true then Ty.opIn else .white) .none
    (b := s.off + ((cfg.text.drop s.off).takeWhile isWs).length) (by omega)
  simpa [St.startTok, St.push] using this

theorem parseOperator_good {s : St} (h : Inv cfg L s) {c : Char} (hc : cfg.text[s.off]? = some c) :
    Good cfg L s (parseOperator cfg s c) := by
  have hlt := lt_of_get hc
  unfold parseOperator
  simp only
  split
  · next h2 =>
    refine emit_good h _ _ (by omega) ?_
    have : (slice cfg.text s.off (s.off + 2)).length = 2 := by rcases h2 with h | h | h <;> rw [h] <;> rfl
    simp only [slice, List.length_take, List.length_drop] at this
    omega
  · exact emit_good h _ _ (by omega) (by omega)

theorem parseOpener_good {s : St} (h : Inv cfg L s) {c : Char} (hc : cfg.text[s.off]? = some c) :
    Good cfg L s (parseOpener cfg s c) := by
  have hlt := lt_of_get hc
  unfold parseOpener
  by_cases h1 : c = '{'
  · simp only [h1, if_true]
    refine ⟨⟨?_, by simp [St.startTok], by simp [St.startTok], by simp only [St.startTok, save_off]; omega⟩, by simp [St.startTok]⟩
    have := cov_push (save_cov h) .array .opn (b := s.off + 1) (by omega)
    simpa [St.startTok] using this
  · simp only [h1, if_false]
    cases ht : s.hasTok with
    | true =>
      simp only [if_true]
      refine ⟨⟨?_, by simp [St.startTok], by simp [St.startTok], by simp only [St.startTok]; omega⟩, by simp [St.startTok]⟩
      have := cov_push h.cov .func .opn (b := s.off + 1) (by have := h.le; omega)
      simpa [St.startTok] using this
    | false =>
      simp only [Bool.false_eq_true, if_false]
      refine ⟨⟨?_, by simp [St.startTok], by simp [St.startTok], by simp only [St.startTok]; omega⟩, by simp [St.startTok]⟩
      have := cov_push (startTok_inv h ht).cov .paren .opn (b := s.off + 1) (by simp [St.startTok])
      simpa [St.startTok] using this

theorem parseCloser_good {s : St} (h : Inv cfg L s) {c : Char} (hc : cfg.text[s.off]? = some c) :
    Good cfg L s (parseCloser cfg s c) := by
  have hlt := lt_of_get hc
  have herr : ∀ k, Good cfg L s (s.save cfg, some ⟨k, s.off, some s.off, some (s.off + 1)⟩) := by
    intro k
    refine ⟨⟨s.off, save_cov h, ?_⟩, ?_, ?_, Or.inl ?_⟩ <;> cases k <;> simp [recoverSpan] <;> omega
  unfold parseCloser
  simp only [save_stack, save_off]
  rcases s.stack with _ | ⟨t, rest⟩
  · exact herr _
  · simp only
    generalize (if t.ty = .array then '}' else ')') = w
    by_cases hw : c ≠ w
    · rw [if_pos hw]; exact herr _
    · rw [if_neg hw]
      refine ⟨⟨?_, by simp [St.startTok], by simp [St.startTok], by simp only [St.startTok]; omega⟩, by simp [St.startTok]⟩
      have := cov_push (save_cov h) t.ty .close (b := s.off + 1) (by omega)
      simpa [St.startTok, St.push] using this

theorem extend_good {s : St} (h : Inv cfg L s) (hlt : s.off < cfg.text.length) : Good cfg L s (s.extend 1, none) := by
  refine ⟨extend_inv h (by omega), ?_⟩
  unfold St.extend
  simp only
  split <;> simp [St.startTok]

theorem dispatch_good {s : St} (h : Inv cfg L s) {c : Char} (hc : cfg.text[s.off]? = some c) : Good cfg L s (dispatch cfg s c) := by
  have hlt := lt_of_get hc
  unfold dispatch
  split
  · next h1 => exact parseString_good h hc h1
  split
  · exact parseBrackets_good h hc
  split
  · next h1 =>
    split
    · exact emit_good h _ _ (by omega) (by omega)
    · exact parseError_good h (h1 ▸ hc)
  split
  · next h1 => exact parseWhite_good h hc h1
  split
  · split
    · exact emit_good h _ _ (by omega) (by omega)
    · exact extend_good h hlt
  split
  · exact parseOperator_good h hc
  split
  · exact parseOpener_good h hc
  split
  · exact parseCloser_good h hc
  split
  · exact emit_good h _ _ (by omega) (by omega)
  · exact extend_good h hlt

theorem step_good {s : St} (h : Inv cfg L s) {c : Char} (hc : cfg.text[s.off]? = some c) : Good cfg L s (step cfg s c) := by
  have hlt := lt_of_get hc
  unfold step
  split
  · exact ⟨⟨h.cov, by have := h.le; simp only; omega, rfl, hlt⟩, by simp⟩
  · split
    · next he =>
      have hg := dispatch_good (save_start_inv h) (c := c) (by simpa using hc)
      simp only [Bool.and_eq_true] at he
      revert hg
      rcases dispatch cfg (s.save cfg).startTok c with ⟨s', _ | e⟩
      · simp only [Good, startTok_off, save_off]; exact id
      · rintro ⟨h1, h2, h3, h4⟩
        exact ⟨h1, h2, h3, by rcases h4 with h4 | h4; exact Or.inl (by simpa using h4); exact Or.inr ⟨by simpa using h4.1, he.2⟩⟩
    · exact dispatch_good h hc

theorem recover_inv {s s' : St} {e : Err} (h : ErrOk cfg true s s' e) : Inv cfg true (recover cfg s' e) := by
  obtain ⟨⟨a, ha, hle⟩, h2, h3, h4⟩ := h
  refine ⟨?_, by simp [recover, St.startTok], by simp [recover, St.startTok], by simpa [recover, St.startTok] using h3⟩
  simp only [recover, St.startTok]
  exact Cov.tok _ _ _ (Cov.lose _ _ _ rfl ha hle) rfl h2

/-- Rounds left. -/
def measure (cfg : Cfg) (s : St) : Nat := 2 * (cfg.text.length - s.off) + if s.hasTok then 1 else 0

theorem measure_ok {s s' : St} (h : Inv cfg L s') (hlt : s.off < s'.off) : measure cfg s' < measure cfg s := by
  have := h.off
  unfold measure
  split <;> split <;> omega

theorem measure_recover {s s' : St} {e : Err} (h : ErrOk cfg true s s' e) : measure cfg (recover cfg s' e) < measure cfg s := by
  obtain ⟨_, h2, h3, h4⟩ := h
  have hn : (recover cfg s' e).hasTok = false := by simp [recover, St.startTok, St.hasTok]
  have ho : (recover cfg s' e).off = (recoverSpan cfg e).stop := by simp [recover, St.startTok]
  unfold measure
  rw [hn, ho]
  rcases h4 with h4 | h4
  · simp only [Bool.false_eq_true, if_false]; split <;> omega
  · rw [h4.2, h4.1]; simp

theorem finish_cov {s : St} (h : Inv cfg L s) (he : cfg.text[s.off]? = none) (best : Bool) :
    Cov cfg.text 1 L (finish cfg best s).1.spans cfg.text.length := by
  have : cfg.text.length ≤ s.off := List.getElem?_eq_none_iff.1 he
  have he' : s.off = cfg.text.length := by have := h.off; omega
  have hc := save_cov h
  rw [he'] at hc
  unfold finish
  simp only
  split
  · exact hc
  · split <;> exact hc

/-- Strict mode: enough fuel, and on success the spans cover the text. -/
theorem run_strict : ∀ (fuel : Nat) (s : St), Inv cfg false s → measure cfg s < fuel →
    ∃ s' e, run cfg false fuel s = some (s', e) ∧ (e = none → Cov cfg.text 1 false s'.spans cfg.text.length)
  | 0, _, _, hf => by omega
  | fuel + 1, s, h, hf => by
    rw [run]
    cases hc : cfg.text[s.off]? with
    | none => exact ⟨_, _, rfl, fun _ => finish_cov h hc false⟩
    | some c =>
      have hg := step_good h hc
      simp only
      revert hg
      rcases step cfg s c with ⟨s', _ | e⟩
      · rintro ⟨hi, hlt⟩
        exact run_strict fuel s' hi (by have := measure_ok hi hlt; omega)
      · intro _
        exact ⟨s', some e, by simp, by simp⟩

theorem run_best : ∀ (fuel : Nat) (s : St), Inv cfg true s → measure cfg s < fuel →
    ∃ s', run cfg true fuel s = some (s', none) ∧ Cov cfg.text 1 true s'.spans cfg.text.length
  | 0, _, _, hf => by omega
  | fuel + 1, s, h, hf => by
    rw [run]
    cases hc : cfg.text[s.off]? with
    | none =>
      refine ⟨(finish cfg true s).1, ?_, finish_cov h hc true⟩
      simp only [finish]
      split <;> simp
    | some c =>
      have hg := step_good h hc
      simp only
      revert hg
      rcases step cfg s c with ⟨s', _ | e⟩
      · rintro ⟨hi, hlt⟩
        exact run_best fuel s' hi (by have := measure_ok hi hlt; omega)
      · intro he
        simp only [if_true]
        exact run_best fuel _ (recover_inv he) (by have := measure_recover he; omega)

theorem start_inv (hne : cfg.text ≠ []) : Inv cfg L start :=
  ⟨Cov.nil, by simp [start], rfl, by
    have : 0 < cfg.text.length := List.length_pos_iff.2 hne
    simp only [start]; omega⟩

theorem start_measure : measure cfg start < 2 * cfg.text.length + 2 := by
  simp only [measure, start, St.hasTok]; simp; omega

theorem cov_cover_aux {f : List Char} {p : Nat} {l : List Span} {a : Nat} (h : Cov f p false l a) :
    ∀ (r : List Span) (q : Nat), Cover f a r q → Cover f p (l.reverse ++ r) q := by
  induction h with
  | nil => intro r q hr; simpa using hr
  | tok s l a _ hs hlt ih =>
    intro r q hr
    simp only [List.reverse_cons, List.append_assoc, List.singleton_append]
    exact ih _ _ (hs ▸ Cover.tok s r q hlt hr)
  | gap s l a _ h1 h2 h3 h4 h5 ih =>
    intro r q hr
    simp only [List.reverse_cons, List.append_assoc, List.singleton_append]
    exact ih _ _ (Cover.gap a s r q h1 h2 h3 h4 h5 hr)
  | lose _ _ _ hb => exact absurd hb (by simp)

theorem cov_cover {f : List Char} {p : Nat} {l : List Span} {a : Nat} (h : Cov f p false l a) : Cover f p l.reverse a := by
  simpa using cov_cover_aux h [] a (Cover.nil a)

theorem parse_formula {body : List Char} (ht : cfg.text = '=' :: body) (best : Bool) :
    parse cfg best = run cfg best (2 * cfg.text.length + 2) start := by
  unfold parse; simp [ht]

/-- C25: the tokenizer always ends (the model's fuel is never exhausted), in either mode. -/
theorem tokenize_total (cfg : Cfg) : (∃ r, tokenize cfg = some r) ∧ ∃ r, bestEffort cfg = some r := by
  unfold tokenize bestEffort
  by_cases h : ∃ body, cfg.text = '=' :: body
  · obtain ⟨body, ht⟩ := h
    rw [parse_formula ht, parse_formula ht]
    obtain ⟨s', e, h, _⟩ := run_strict _ start (start_inv (cfg := cfg) (by simp [ht])) start_measure
    obtain ⟨s'', h', _⟩ := run_best _ start (start_inv (cfg := cfg) (by simp [ht])) start_measure
    rw [h, h']
    exact ⟨⟨_, rfl⟩, ⟨_, rfl⟩⟩
  · have : ∀ b, ∃ r, parse cfg b = some r := by
      intro b
      unfold parse
      split
      · exact ⟨_, rfl⟩
      · next c rest hc =>
        rw [if_neg (fun he : c = '=' => h ⟨rest, he ▸ hc⟩)]
        exact ⟨_, rfl⟩
    obtain ⟨r, hr⟩ := this false
    obtain ⟨r', hr'⟩ := this true
    rw [hr, hr']
    exact ⟨⟨_, rfl⟩, ⟨_, rfl⟩⟩

/-- C25 (partial): the tokens of an accepted formula cover its text after `=`, in order and without overlap, except for a
sheet prefix before an error literal. Missing: that prefix, see `sheet_prefix_lost`. -/
theorem tokens_cover_partial (cfg : Cfg) (body : List Char) (ht : cfg.text = '=' :: body) (spans : List Span)
    (h : tokenize cfg = some (.ok spans)) : Cover cfg.text 1 spans cfg.text.length := by
  unfold tokenize at h
  rw [parse_formula ht] at h
  obtain ⟨s', e, hr, hcov⟩ := run_strict _ start (start_inv (cfg := cfg) (by simp [ht])) start_measure
  rw [hr] at h
  cases e with
  | some e => simp at h
  | none =>
    simp only [Option.map_some, Option.some.injEq, Except.ok.injEq] at h
    rw [← h]
    exact cov_cover (hcov rfl)

theorem drop_slice (f : List Char) {a b : Nat} (h : a ≤ b) : f.drop a = slice f a b ++ f.drop b := by
  unfold slice
  conv => lhs; rw [← List.take_append_drop (b - a) (f.drop a)]
  rw [List.drop_drop]
  congr 2; omega

theorem cover_render {f : List Char} (hno : ∀ i, f[i]? = some '!' → f[i + 1]? ≠ some '#') {p q : Nat} {l : List Span}
    (h : Cover f p l q) : p ≤ q ∧ f.drop p = render f l ++ f.drop q := by
  induction h with
  | nil p => simp [render]
  | tok s l q hlt _ ih =>
    refine ⟨by omega, ?_⟩
    rw [drop_slice f (Nat.le_of_lt hlt), ih.2]
    simp [render]
  | gap p s l q h1 h2 h3 h4 h5 _ ih =>
    exact absurd h5 (by have := hno _ h4; rwa [show s.start - 1 + 1 = s.start by omega] at this)

/-- C25 (partial): where no `!` stands before a `#`, rendering the tokens gives the text back. -/
theorem render_partial (cfg : Cfg) (body : List Char) (ht : cfg.text = '=' :: body) (spans : List Span)
    (h : tokenize cfg = some (.ok spans)) (hno : ∀ i, cfg.text[i]? = some '!' → cfg.text[i + 1]? ≠ some '#') :
    render cfg.text spans = body := by
  have := (cover_render hno (tokens_cover_partial cfg body ht spans h)).2
  rw [List.drop_length, List.append_nil, ht, List.drop_one, List.tail_cons] at this
  rw [ht]; exact this.symm

/-- Text that does not begin with `=` is one literal token. -/
theorem literal_token (cfg : Cfg) (c : Char) (body : List Char) (ht : cfg.text = c :: body) (hc : c ≠ '=') :
    tokenize cfg = some (.ok [⟨.literal, .none, 0, cfg.text.length⟩]) := by
  unfold tokenize parse
  rw [ht]
  simp [hc]

/-- C25 fails: the sheet prefix of a broken reference belongs to no token, and rendering loses it. -/
theorem sheet_prefix_lost (isNum : List Char → Bool) :
    tokenize ⟨"=S!#REF!".toList, isNum, false⟩ = some (.ok [⟨.operand, .error, 3, 8⟩]) ∧
    render "=S!#REF!".toList [⟨.operand, .error, 3, 8⟩] = "#REF!".toList := by
  constructor <;> rfl

/-! ## Brackets -/

theorem nested_append {a b : List Brk} (ha : Nested a) (hb : Nested b) : Nested (a ++ b) := by
  induction ha with
  | nil => simpa using hb
  | wrap k a c h1 _ _ ih =>
    have := Nested.wrap k a (c ++ b) h1 ih
    simpa using this

/-- Nested up to the openings of a stack, newest first. -/
inductive Pre : List Brk → List Ty → Prop
  | nil : Pre [] []
  | sub (a b : List Brk) (st : List Ty) : Pre a st → Nested b → Pre (a ++ b) st
  | opn (a : List Brk) (k : Ty) (st : List Ty) : Pre a st → Pre (a ++ [.opn k]) (k :: st)

theorem pre_nested {x : List Brk} {st : List Ty} (h : Pre x st) : st = [] → Nested x := by
  induction h with
  | nil => intro _; exact .nil
  | sub a b st _ hb ih => intro he; exact nested_append (ih he) hb
  | opn => intro he; exact absurd he (by simp)

theorem pre_split {x : List Brk} {st : List Ty} (h : Pre x st) : ∀ k rest, st = k :: rest →
    ∃ a b, x = a ++ .opn k :: b ∧ Pre a rest ∧ Nested b := by
  induction h with
  | nil => intro k r he; exact absurd he (by simp)
  | sub a b st _ hb ih =>
    intro k r he
    obtain ⟨a', b', rfl, hp, hn⟩ := ih k r he
    exact ⟨a', b' ++ b, by simp, hp, nested_append hn hb⟩
  | opn a k st hp _ =>
    intro k' r he
    simp only [List.cons.injEq] at he
    obtain ⟨rfl, rfl⟩ := he
    exact ⟨a, [], by simp, hp, .nil⟩

theorem pre_close {x : List Brk} {k : Ty} {st : List Ty} (h : Pre x (k :: st)) : Pre (x ++ [.close k]) st := by
  obtain ⟨a, b, rfl, hp, hn⟩ := pre_split h k st rfl
  have := Pre.sub a _ st hp (Nested.wrap k b [] hn .nil)
  simpa using this

/-- Invariant of the brackets. -/
structure IB (cfg : Cfg) (spans stack : List Span) : Prop where
  pre : Pre (spans.reverse.filterMap brk) (stack.map (·.ty))
  txt : ∀ t ∈ spans, BracketText cfg.text t
  kind : ∀ t ∈ stack, t.ty = .array ∨ t.ty = .paren ∨ t.ty = .func
  mem : ∀ t ∈ stack, t ∈ spans

theorem ib_push {spans stack : List Span} (h : IB cfg spans stack) {t : Span} (h1 : t.sub ≠ .opn) (h2 : t.sub ≠ .close) :
    IB cfg (t :: spans) stack := by
  refine ⟨?_, ?_, h.kind, fun x hx => List.mem_cons_of_mem _ (h.mem x hx)⟩
  · have : brk t = none := by simp [brk, h1, h2]
    simpa [List.filterMap_append, this] using h.pre
  · intro x hx
    rcases List.mem_cons.1 hx with rfl | hx
    · exact ⟨fun h => absurd h h1, fun h => absurd h h2⟩
    · exact h.txt x hx

theorem subtype_nb (isNum : List Char → Bool) (v : List Char) : subtype isNum v ≠ .opn ∧ subtype isNum v ≠ .close := by
  unfold subtype
  repeat' split
  all_goals simp

theorem save_ib {s : St} (h : IB cfg s.spans s.stack) : IB cfg (s.save cfg).spans s.stack := by
  unfold St.save
  split
  · have := subtype_nb cfg.isNum (s.cur cfg)
    simpa [St.push] using ib_push h (t := ⟨.operand, subtype cfg.isNum (s.cur cfg), s.ts, s.te⟩) this.1 this.2
  · exact h

theorem emit_ib {s : St} (h : IB cfg s.spans s.stack) (ty : Ty) {sub : Sub} (n : Nat) (h1 : sub ≠ .opn) (h2 : sub ≠ .close) :
    IB cfg (s.emit cfg ty sub n).spans (s.emit cfg ty sub n).stack := by
  have := ib_push (save_ib h) (t := ⟨ty, sub, s.off, s.off + n⟩) h1 h2
  simpa [St.emit, St.push, St.startTok] using this

theorem extend_ib {s : St} (h : IB cfg s.spans s.stack) (n : Nat) : IB cfg (s.extend n).spans (s.extend n).stack := by
  unfold St.extend
  simp only
  split <;> exact h

theorem parseString_ib {s : St} (h : IB cfg s.spans s.stack) (c : Char) :
    IB cfg (parseString cfg s c).1.spans (parseString cfg s c).1.stack := by
  unfold parseString
  simp only
  set s1 := if (!(decide (c = '\'') && s.hasTok && decide (s.te - s.ts = 1) && decide (cfg.text[s.ts]? = some '$')) &&
    !(decide (c = '\'') && s.hasTok && decide (0 < s.te) && decide (cfg.text[s.te - 1]? = some ':')) && s.hasTok) = true
    then (s.save cfg).startTok else s with hs1
  have h1 : IB cfg s1.spans s1.stack := by
    rw [hs1]; split
    · simpa [St.startTok] using save_ib h
    · exact h
  cases scanString c (cfg.text.drop (s1.off + 1)) with
  | none => exact h1
  | some n =>
    simp only
    split
    · simp only [St.push, St.startTok]
      exact ib_push h1 (subtype_nb _ _).1 (subtype_nb _ _).2
    · exact h1

theorem parseBrackets_ib {s : St} (h : IB cfg s.spans s.stack) :
    IB cfg (parseBrackets cfg s).1.spans (parseBrackets cfg s).1.stack := by
  unfold parseBrackets
  simp only
  set s1 := if s.hasTok = true then s else s.startTok with hs1
  have h1 : IB cfg s1.spans s1.stack := by rw [hs1]; split <;> exact h
  cases scanBrackets 1 (cfg.text.drop (s1.off + 1)) with
  | none => exact h1
  | some n => exact h1

theorem parseError_ib {s : St} (h : IB cfg s.spans s.stack) : IB cfg (parseError cfg s).1.spans (parseError cfg s).1.stack := by
  unfold parseError
  simp only
  split
  · exact h
  · set s1 := (if (s.hasTok && decide (0 < s.te) && decide (cfg.text[s.te - 1]? = some '!')) = true then s.startTok
      else if s.hasTok = true then (s.save cfg).startTok else s) with hs1
    have h1 : IB cfg s1.spans s1.stack := by
      rw [hs1]
      split
      · exact h
      · split
        · simpa [St.startTok] using save_ib h
        · exact h
    split
    · next e _ => simpa [St.push, St.startTok] using ib_push h1 (t := ⟨.operand, .error, s1.off, s1.off + e.length⟩) (by simp) (by simp)
    · exact h1

theorem parseWhite_ib {s : St} (h : IB cfg s.spans s.stack) : IB cfg (parseWhite cfg s).1.spans (parseWhite cfg s).1.stack := by
  unfold parseWhite
  simp only [save_off]
  have := ib_push (save_ib h) (t := ⟨if (((cfg.text.drop s.off).takeWhile isWs).contains ' ' && prevRef cfg (s.save cfg) &&
    startsRef (cfg.text.drop (s.off + ((cfg.text.drop s.off).takeWhile isWs).length))) = true then Ty.opIn else .white, .none,
    s.off, s.off + ((cfg.text.drop s.off).takeWhile isWs).length⟩) (by simp) (by simp)
  simpa [St.startTok, St.push] using this

theorem ib_open {spans stack : List Span} (h : IB cfg spans stack) {t : Span} (h1 : t.sub = .opn)
    (h2 : t.ty = .array ∧ cfg.text[t.stop - 1]? = some '{' ∨ (t.ty = .paren ∨ t.ty = .func) ∧ cfg.text[t.stop - 1]? = some '(') :
    IB cfg (t :: spans) (t :: stack) := by
  refine ⟨?_, ?_, ?_, ?_⟩
  · have : brk t = some (.opn t.ty) := by simp [brk, h1]
    simpa [List.filterMap_append, this] using Pre.opn _ t.ty _ h.pre
  · intro x hx
    rcases List.mem_cons.1 hx with rfl | hx
    · exact ⟨fun _ => h2, fun h => absurd (h1.symm.trans h) (by simp)⟩
    · exact h.txt x hx
  · intro x hx
    rcases List.mem_cons.1 hx with rfl | hx
    · rcases h2 with h2 | h2
      · exact Or.inl h2.1
      · exact Or.inr h2.1
    · exact h.kind x hx
  · intro x hx
    rcases List.mem_cons.1 hx with rfl | hx
    · exact List.mem_cons_self
    · exact List.mem_cons_of_mem _ (h.mem x hx)

theorem parseOpener_ib {s : St} (h : IB cfg s.spans s.stack) {c : Char} (hc : cfg.text[s.off]? = some c) (hb : c = '{' ∨ c = '(') :
    IB cfg (parseOpener cfg s c).1.spans (parseOpener cfg s c).1.stack := by
  unfold parseOpener
  by_cases h1 : c = '{'
  · simp only [h1, if_true]
    have := ib_open (save_ib h) (t := ⟨.array, .opn, s.off, s.off + 1⟩) rfl (Or.inl ⟨rfl, by simpa using h1 ▸ hc⟩)
    simpa [St.startTok] using this
  · simp only [h1, if_false]
    have hp : c = '(' := by rcases hb with h | h; exact absurd h h1; exact h
    cases ht : s.hasTok with
    | true =>
      simp only [if_true]
      have := ib_open h (t := ⟨.func, .opn, s.ts, s.off + 1⟩) rfl (Or.inr ⟨Or.inr rfl, by simpa using hp ▸ hc⟩)
      simpa [St.startTok] using this
    | false =>
      simp only [Bool.false_eq_true, if_false]
      have := ib_open h (t := ⟨.paren, .opn, s.off, s.off + 1⟩) rfl (Or.inr ⟨Or.inl rfl, by simpa using hp ▸ hc⟩)
      simpa [St.startTok] using this

theorem ib_close {spans rest : List Span} {t u : Span} (h : IB cfg spans (t :: rest)) (h1 : u.sub = .close) (h2 : u.ty = t.ty)
    (h3 : u.stop = u.start + 1) (h4 : u.ty = .array ∧ cfg.text[u.start]? = some '}' ∨ (u.ty = .paren ∨ u.ty = .func) ∧ cfg.text[u.start]? = some ')') :
    IB cfg (u :: spans) rest := by
  refine ⟨?_, ?_, fun x hx => h.kind x (List.mem_cons_of_mem _ hx), fun x hx => List.mem_cons_of_mem _ (h.mem x (List.mem_cons_of_mem _ hx))⟩
  · have hb : brk u = some (.close t.ty) := by simp [brk, h1, h2]
    have := pre_close h.pre
    simpa [List.filterMap_append, hb] using this
  · intro x hx
    rcases List.mem_cons.1 hx with rfl | hx
    · exact ⟨fun h => absurd (h1.symm.trans h) (by simp), fun _ => ⟨h3, h4⟩⟩
    · exact h.txt x hx

theorem parseCloser_ib {s : St} (h : IB cfg s.spans s.stack) {c : Char} (hc : cfg.text[s.off]? = some c) :
    IB cfg (parseCloser cfg s c).1.spans (parseCloser cfg s c).1.stack := by
  unfold parseCloser
  simp only [save_stack, save_off]
  have hs := save_ib h
  rcases hst : s.stack with _ | ⟨t, rest⟩
  · simpa [hst] using hs
  · rw [hst] at hs
    simp only
    by_cases hw : c ≠ (if t.ty = .array then '}' else ')')
    · rw [if_pos hw]; simpa [hst] using hs
    · rw [if_neg hw]
      rw [not_not] at hw
      have := ib_close hs (u := ⟨t.ty, .close, s.off, s.off + 1⟩) rfl rfl rfl (by
        rcases hs.kind t List.mem_cons_self with hk | hk
        · exact Or.inl ⟨hk, by rw [hk] at hw; simp only [if_true] at hw; simpa using hw ▸ hc⟩
        · refine Or.inr ⟨hk, ?_⟩
          have : t.ty ≠ .array := by rcases hk with hk | hk <;> rw [hk] <;> simp
          rw [if_neg this] at hw
          simpa using hw ▸ hc)
      simpa [St.startTok, St.push] using this

theorem dispatch_ib {s : St} (h : IB cfg s.spans s.stack) {c : Char} (hc : cfg.text[s.off]? = some c) :
    IB cfg (dispatch cfg s c).1.spans (dispatch cfg s c).1.stack := by
  unfold dispatch
  split
  · exact parseString_ib h c
  split
  · exact parseBrackets_ib h
  split
  · split
    · exact emit_ib h _ _ (by simp) (by simp)
    · exact parseError_ib h
  split
  · exact parseWhite_ib h
  split
  · split
    · exact emit_ib h _ _ (by simp) (by simp)
    · exact extend_ib h 1
  split
  · unfold parseOperator
    simp only
    split
    · exact emit_ib h _ _ (by simp) (by simp)
    · exact emit_ib h _ _ (by simp) (by simp)
  split
  · next hb => exact parseOpener_ib h hc hb
  split
  · exact parseCloser_ib h hc
  split
  · unfold parseSeparator
    simp only
    refine emit_ib h _ _ ?_ ?_ <;>
    · unfold sepTy
      simp only
      repeat' split
      all_goals simp
  · exact extend_ib h 1

theorem step_ib {s : St} (h : IB cfg s.spans s.stack) {c : Char} (hc : cfg.text[s.off]? = some c) :
    IB cfg (step cfg s c).1.spans (step cfg s c).1.stack := by
  unfold step
  split
  · exact h
  · split
    · exact dispatch_ib (by simpa [St.startTok] using save_ib h) (by simpa using hc)
    · exact dispatch_ib h hc

theorem recover_ib {s : St} (e : Err) (h : IB cfg s.spans s.stack) : IB cfg (recover cfg s e).spans (recover cfg s e).stack := by
  have : IB cfg (recoverSpan cfg e :: s.spans) s.stack := by
    refine ib_push h ?_ ?_ <;> cases he : e.kind <;> simp [recoverSpan, he]
  simpa [recover, St.startTok] using this

theorem run_ib : ∀ (fuel : Nat) (s : St) (s' : St), IB cfg s.spans s.stack → run cfg false fuel s = some (s', none) →
    Nested (s'.spans.reverse.filterMap brk) ∧ ∀ t ∈ s'.spans, BracketText cfg.text t
  | 0, _, _, _, hr => by simp [run] at hr
  | fuel + 1, s, s', h, hr => by
    rw [run] at hr
    cases hc : cfg.text[s.off]? with
    | none =>
      rw [hc] at hr
      simp only [finish, save_stack, Bool.false_eq_true, if_false, Option.some.injEq] at hr
      have hs := save_ib h
      cases hst : s.stack with
      | nil =>
        rw [hst] at hr hs
        simp only [List.isEmpty_nil, if_true, Prod.mk.injEq] at hr
        rw [← hr.1]
        exact ⟨pre_nested hs.pre rfl, hs.txt⟩
      | cons t rest => rw [hst] at hr; simp at hr
    | some c =>
      rw [hc] at hr
      have hg := step_ib h hc
      simp only at hr
      revert hg hr
      rcases step cfg s c with ⟨s1, _ | e⟩
      · intro hr hg; exact run_ib fuel s1 s' hg hr
      · intro hr; simp at hr

theorem start_ib : IB cfg start.spans start.stack := ⟨Pre.nil, by simp [start], by simp [start], by simp [start]⟩

/-- C26: in an accepted formula the opening and closing tokens form a properly nested sequence of matching kinds, and each
is the bracket of its kind in the text. -/
theorem brackets_nested (cfg : Cfg) (body : List Char) (ht : cfg.text = '=' :: body) (spans : List Span)
    (h : tokenize cfg = some (.ok spans)) : Nested (spans.filterMap brk) ∧ ∀ t ∈ spans, BracketText cfg.text t := by
  unfold tokenize at h
  rw [parse_formula ht] at h
  cases hr : run cfg false (2 * cfg.text.length + 2) start with
  | none => simp [hr] at h
  | some r =>
    obtain ⟨s', _ | e⟩ := r
    · rw [hr] at h
      simp only [Option.map_some, Option.some.injEq, Except.ok.injEq] at h
      have := run_ib _ _ s' start_ib hr
      rw [← h]
      exact ⟨this.1, fun t ht => this.2 t (List.mem_reverse.1 ht)⟩
    · simp [hr] at h

/-! ## Best effort -/

/-- Spans in order from `p` to at most `q`, non-empty and disjoint, with gaps. -/
inductive Ordered : Nat → List Span → Nat → Prop
  | nil (p q : Nat) : p ≤ q → Ordered p [] q
  | cons (p : Nat) (s : Span) (l : List Span) (q : Nat) : p ≤ s.start → s.start < s.stop → Ordered s.stop l q → Ordered p (s :: l) q

theorem cov_ordered {f : List Char} {p : Nat} {l : List Span} {a : Nat} (h : Cov f p L l a) :
    ∀ (r : List Span) (b q : Nat), a ≤ b → Ordered b r q → Ordered p (l.reverse ++ r) q := by
  have weak : ∀ {a b : Nat} {r : List Span} {q : Nat}, a ≤ b → Ordered b r q → Ordered a r q := by
    intro a b r q hab hr
    cases hr with
    | nil _ _ h => exact .nil _ _ (by omega)
    | cons _ s l _ h1 h2 h3 => exact .cons _ _ _ _ (by omega) h2 h3
  induction h with
  | nil => intro r b q hab hr; simpa using weak hab hr
  | tok s l a _ hs hlt ih =>
    intro r b q hab hr
    simp only [List.reverse_cons, List.append_assoc, List.singleton_append]
    exact ih _ _ _ (Nat.le_refl _) (Ordered.cons _ _ _ _ (by omega) hlt (weak hab hr))
  | gap s l a _ h1 h2 h3 h4 h5 ih =>
    intro r b q hab hr
    simp only [List.reverse_cons, List.append_assoc, List.singleton_append]
    exact ih _ _ _ (Nat.le_refl _) (Ordered.cons _ _ _ _ (by omega) h2 (weak hab hr))
  | lose l a c _ _ hac ih => intro r b q hab hr; exact ih r b q (by omega) hr

/-- C41: best-effort tokenization of any formula gives tokens that are in order, disjoint, non-empty and inside the text. -/
theorem best_effort_ordered (cfg : Cfg) (body : List Char) (ht : cfg.text = '=' :: body) :
    ∃ spans diags, bestEffort cfg = some (spans, diags) ∧ Ordered 1 spans cfg.text.length := by
  unfold bestEffort
  rw [parse_formula ht]
  obtain ⟨s', h, hc⟩ := run_best _ start (start_inv (cfg := cfg) (by simp [ht])) start_measure
  rw [h]
  refine ⟨_, _, rfl, ?_⟩
  simpa using cov_ordered hc [] _ _ (Nat.le_refl _) (Ordered.nil _ _ (Nat.le_refl _))

theorem parseString_diags (s : St) (c : Char) : (parseString cfg s c).1.diags = s.diags := by
  unfold parseString
  simp only
  set s1 := if (!(decide (c = '\'') && s.hasTok && decide (s.te - s.ts = 1) && decide (cfg.text[s.ts]? = some '$')) &&
    !(decide (c = '\'') && s.hasTok && decide (0 < s.te) && decide (cfg.text[s.te - 1]? = some ':')) && s.hasTok) = true
    then (s.save cfg).startTok else s with hs1
  have h1 : s1.diags = s.diags := by rw [hs1]; split <;> simp [St.startTok]
  split
  · split
    · simpa [St.startTok, St.push] using h1
    · exact h1
  · exact h1

theorem parseBrackets_diags (s : St) : (parseBrackets cfg s).1.diags = s.diags := by
  unfold parseBrackets
  simp only
  set s1 := if s.hasTok = true then s else s.startTok with hs1
  have h1 : s1.diags = s.diags := by rw [hs1]; split <;> simp [St.startTok]
  split <;> exact h1

theorem parseError_diags (s : St) : (parseError cfg s).1.diags = s.diags := by
  unfold parseError
  simp only
  split
  · rfl
  · set s1 := (if (s.hasTok && decide (0 < s.te) && decide (cfg.text[s.te - 1]? = some '!')) = true then s.startTok
      else if s.hasTok = true then (s.save cfg).startTok else s) with hs1
    have h1 : s1.diags = s.diags := by rw [hs1]; (repeat' split) <;> simp [St.startTok]
    split
    · simpa [St.startTok, St.push] using h1
    · exact h1

theorem emit_diags (s : St) (ty : Ty) (sub : Sub) (n : Nat) : (s.emit cfg ty sub n).diags = s.diags := by
  simp [St.emit, St.push, St.startTok]

theorem extend_diags (s : St) (n : Nat) : (s.extend n).diags = s.diags := by
  unfold St.extend; simp only; split <;> simp [St.startTok]

theorem parseOpener_diags (s : St) (c : Char) : (parseOpener cfg s c).1.diags = s.diags := by
  unfold parseOpener
  by_cases h1 : c = '{'
  · simp [h1, St.startTok]
  · cases ht : s.hasTok <;> simp [h1, St.startTok]

theorem parseCloser_diags (s : St) (c : Char) : (parseCloser cfg s c).1.diags = s.diags := by
  unfold parseCloser
  simp only [save_stack, save_off]
  rcases s.stack with _ | ⟨t, rest⟩
  · simp
  · simp only
    by_cases hw : c ≠ (if t.ty = .array then '}' else ')')
    · rw [if_pos hw]; simp
    · rw [if_neg hw]; simp [St.startTok, St.push]

theorem dispatch_diags (s : St) (c : Char) : (dispatch cfg s c).1.diags = s.diags := by
  unfold dispatch
  split
  · exact parseString_diags s c
  split
  · exact parseBrackets_diags s
  split
  · split
    · exact emit_diags ..
    · exact parseError_diags s
  split
  · simp [parseWhite, St.startTok, St.push]
  split
  · split
    · exact emit_diags ..
    · exact extend_diags ..
  split
  · unfold parseOperator
    simp only
    split <;> exact emit_diags ..
  split
  · exact parseOpener_diags ..
  split
  · exact parseCloser_diags ..
  split
  · exact emit_diags ..
  · exact extend_diags ..

theorem step_diags (s : St) (c : Char) : (step cfg s c).1.diags = s.diags := by
  unfold step
  split
  · rfl
  · rw [dispatch_diags]
    split <;> simp [St.startTok]

theorem run_same : ∀ (fuel : Nat) (s s' : St), run cfg false fuel s = some (s', none) → run cfg true fuel s = some (s', none) ∧ s'.diags = s.diags
  | 0, _, _, hr => by simp [run] at hr
  | fuel + 1, s, s', hr => by
    rw [run] at hr ⊢
    cases hc : cfg.text[s.off]? with
    | none =>
      rw [hc] at hr
      simp only [finish, save_stack, Bool.false_eq_true, if_false, Option.some.injEq] at hr ⊢
      cases hst : s.stack with
      | nil =>
        rw [hst] at hr
        simp only [List.isEmpty_nil, if_true, Prod.mk.injEq] at hr ⊢
        exact ⟨hr, by rw [← hr.1]; simp⟩
      | cons t rest => rw [hst] at hr; simp at hr
    | some c =>
      rw [hc] at hr
      have hd := step_diags (cfg := cfg) s c
      rcases hst : step cfg s c with ⟨s1, _ | e⟩
      · simp only [hst] at hr hd ⊢
        obtain ⟨h1, h2⟩ := run_same fuel s1 s' hr
        exact ⟨h1, h2.trans hd⟩
      · simp [hst] at hr

theorem run_diags_mono : ∀ (fuel : Nat) (s s' : St) (e : Option Err), run cfg true fuel s = some (s', e) → s.diags.length ≤ s'.diags.length
  | 0, _, _, _, hr => by simp [run] at hr
  | fuel + 1, s, s', e, hr => by
    rw [run] at hr
    cases hc : cfg.text[s.off]? with
    | none =>
      rw [hc] at hr
      simp only [finish, if_true, Option.some.injEq] at hr
      split at hr
      · simp only [Prod.mk.injEq] at hr; rw [← hr.1]; simp
      · simp only [Prod.mk.injEq] at hr; rw [← hr.1]; simp
    | some c =>
      rw [hc] at hr
      have hd := step_diags (cfg := cfg) s c
      rcases hst : step cfg s c with ⟨s1, _ | e1⟩
      · simp only [hst] at hr hd
        have := run_diags_mono fuel s1 s' e hr
        rw [← hd]; exact this
      · simp only [hst, if_true] at hr hd
        have := run_diags_mono fuel _ s' e hr
        simp only [recover, St.startTok, List.length_cons] at this
        rw [← hd]; omega

theorem run_clean : ∀ (fuel : Nat) (s s' : St) (e : Option Err), IB cfg s.spans s.stack → run cfg true fuel s = some (s', e) →
    s'.diags.length = s.diags.length → run cfg false fuel s = some (s', none)
  | 0, _, _, _, _, hr, _ => by simp [run] at hr
  | fuel + 1, s, s', e, hib, hr, hl => by
    rw [run] at hr ⊢
    cases hc : cfg.text[s.off]? with
    | none =>
      rw [hc] at hr
      simp only [finish, save_stack, Option.some.injEq, if_true] at hr
      simp only [finish, save_stack, Option.some.injEq]
      have hs := save_ib hib
      cases hst : s.stack with
      | nil =>
        rw [hst] at hr
        simp only [List.isEmpty_nil, if_true, Prod.mk.injEq] at hr ⊢
        exact ⟨hr.1, trivial⟩
      | cons t rest =>
        rw [hst] at hr hs
        simp only [List.isEmpty_cons, Bool.false_eq_true, if_false, Prod.mk.injEq] at hr
        rw [← hr.1] at hl
        have : (s.save cfg).spans.contains t = true := by
          simpa using hs.mem t List.mem_cons_self
        rw [List.filter_cons, if_pos this] at hl
        simp at hl
        omega
    | some c =>
      rw [hc] at hr
      have hd := step_diags (cfg := cfg) s c
      have hg := step_ib hib hc
      rcases hst : step cfg s c with ⟨s1, _ | e1⟩
      · simp only [hst] at hr hd hg ⊢
        exact run_clean fuel s1 s' e hg hr (by rw [hd]; exact hl)
      · simp only [hst, if_true] at hr hd
        have := run_diags_mono fuel _ s' e hr
        simp only [recover, St.startTok, List.length_cons] at this
        rw [hd] at this; omega

/-- C41: best-effort tokenization reports nothing exactly when strict tokenization accepts, and then the tokens agree. -/
theorem best_effort_clean_iff (cfg : Cfg) (spans : List Span) :
    bestEffort cfg = some (spans, []) ↔ tokenize cfg = some (.ok spans) := by
  by_cases hb : ∃ body, cfg.text = '=' :: body
  · obtain ⟨body, ht⟩ := hb
    unfold bestEffort tokenize
    rw [parse_formula ht, parse_formula ht]
    constructor
    · intro h
      cases hr : run cfg true (2 * cfg.text.length + 2) start with
      | none => simp [hr] at h
      | some r =>
        obtain ⟨s', e⟩ := r
        simp only [hr, Option.map_some, Option.some.injEq, Prod.mk.injEq, List.reverse_eq_nil_iff] at h
        rw [run_clean _ _ s' e start_ib hr (by rw [h.2]; rfl)]
        simp [h.1]
    · intro h
      cases hr : run cfg false (2 * cfg.text.length + 2) start with
      | none => simp [hr] at h
      | some r =>
        obtain ⟨s', _ | e⟩ := r
        · rw [hr] at h
          simp only [Option.map_some, Option.some.injEq, Except.ok.injEq] at h
          obtain ⟨h1, h2⟩ := run_same _ _ _ hr
          rw [h1]
          simp [h, h2, start]
        · simp [hr] at h
  · unfold bestEffort tokenize parse
    split
    · simp
    · next c rest hc =>
      rw [if_neg (fun he : c = '=' => hb ⟨rest, he ▸ hc⟩), if_neg (fun he : c = '=' => hb ⟨rest, he ▸ hc⟩)]
      simp

/-- C41: best-effort tokens do not cover the text: the name before an unclosed `[` and the operand before an unclosed quote
after `:` belong to no token. -/
theorem best_effort_loses (isNum : List Char → Bool) :
    bestEffort ⟨"=T[a".toList, isNum, false⟩ =
      some ([⟨.operand, .none, 2, 4⟩], [(⟨.operand, .none, 2, 4⟩, .unmatchedBracket)]) ∧
    bestEffort ⟨"=A1:'b".toList, isNum, false⟩ =
      some ([⟨.operand, .none, 4, 6⟩], [(⟨.operand, .none, 4, 6⟩, .unterminatedString)]) := by
  constructor <;> rfl

/-! ## Cases -/

/-- A call with an array argument: a tokenization the theorems above speak of. -/
example : tokenize ⟨"=F(A1,{B1;\"x\"})*-A1".toList, fun _ => false, false⟩ = some (.ok [⟨.func, .opn, 1, 3⟩, ⟨.operand, .range, 3, 5⟩, ⟨.sep, .arg, 5, 6⟩,
      ⟨.array, .opn, 6, 7⟩, ⟨.operand, .range, 7, 9⟩, ⟨.sep, .row, 9, 10⟩, ⟨.operand, .text, 10, 13⟩, ⟨.array, .close, 13, 14⟩,
      ⟨.func, .close, 14, 15⟩, ⟨.opIn, .none, 15, 16⟩, ⟨.opPre, .none, 16, 17⟩, ⟨.operand, .range, 17, 19⟩]) := by
  decide +kernel

end Verif.Token
