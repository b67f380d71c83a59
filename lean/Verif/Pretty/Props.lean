import Verif.Pretty.Fuel
import Mathlib.Tactic.ByContra
import Mathlib.Tactic.Set

/-!
# Parsing what the printer prints (C24, C42)
-/

namespace Verif.Pretty

variable {α : Type}

/-! ## Specification -/

mutual
/-- The tree up to the case of function names: the only thing printing is allowed to change. -/
def norm : Ast α → Ast α
  | .atom a => .atom a
  | .omitted => .omitted
  | .pre op e => .pre op (norm e)
  | .post op e => .post op (norm e)
  | .bin op l r => .bin op (norm l) (norm r)
  | .func name args => .func (name.map upper) (normL args)
  | .call c args => .call (norm c) (normL args)
  | .arr rows => .arr (normLL rows)

def normL : List (Ast α) → List (Ast α)
  | [] => []
  | a :: as => norm a :: normL as

def normLL : List (List (Ast α)) → List (List (Ast α))
  | [] => []
  | r :: rs => normL r :: normLL rs
end

/-- The right child of a left associative operator repeats it: `a + (b + c)`, whose parentheses the printer drops. -/
def Repeats (op : Op) : Ast α → Prop
  | .bin cop _ _ => cop = op ∧ op ≠ .sub ∧ op ≠ .div ∧ op ≠ .pow
  | _ => False

/-- A postfix operator over an operand it would take over: a prefix operator, or `#` over `%`. -/
def Captures (op : PostOp) : Ast α → Prop
  | .pre _ _ => True
  | .post .pct _ => op = .hash
  | _ => False

mutual
/-- Trees the printer prints faithfully. `d`: inside the arguments of a postfix call, where the union operator cannot stand;
`bare`: directly inside a function's arguments or an array, where a `,` separates. -/
def Good (d bare : Bool) : Ast α → Prop
  | .atom _ => True
  | .omitted => False
  | .pre _ e => Good d (bare && !preParens e) e
  | .post op e => ¬ Captures op e ∧ Good d (bare && !postParens e) e
  | .bin op l r => (op = .comma → d = false ∧ bare = false) ∧ ¬ Repeats op r ∧
      Good d (bare && !leftParens op l) l ∧ Good d (bare && !rightParens op r) r
  | .func _ args => (∀ a, args = [a] → isOmitted a = false) ∧ GoodArgs d true args
  | .call c args => (∀ a, args = [a] → isOmitted a = false) ∧ Good d (bare && bareCallee c) c ∧ GoodArgs true false args
  | .arr rows => GoodRows d rows

/-- Arguments may be omitted. -/
def GoodArgs (d bare : Bool) : List (Ast α) → Prop
  | [] => True
  | a :: as => (isOmitted a = true ∨ Good d bare a) ∧ GoodArgs d bare as

def GoodCells (d : Bool) : List (Ast α) → Prop
  | [] => True
  | a :: as => Good d true a ∧ GoodCells d as

/-- No row of an array is empty. -/
def GoodRows (d : Bool) : List (List (Ast α)) → Prop
  | [] => True
  | r :: rs => r ≠ [] ∧ GoodCells d r ∧ GoodRows d rs
end

/-! ## Evaluation rules -/

/-- With enough fuel the result is `r`. -/
def Ev {β : Type} (f : Nat → Option β) (r : β) : Prop := ∃ N, ∀ n, N ≤ n → f n = some r

theorem Ev.step {β : Type} {f g : Nat → Option β} {r : β} (h : ∀ n, g (n + 1) = f n) (hf : Ev f r) : Ev g r := by
  obtain ⟨N, hN⟩ := hf
  refine ⟨N + 1, fun n hn => ?_⟩
  obtain ⟨k, rfl⟩ : ∃ k, n = k + 1 := ⟨n - 1, by omega⟩
  rw [h]; exact hN k (by omega)

theorem Ev.const {β : Type} {g : Nat → Option β} {r : β} (h : ∀ n, g (n + 1) = some r) : Ev g r := by
  refine ⟨1, fun n hn => ?_⟩
  obtain ⟨k, rfl⟩ : ∃ k, n = k + 1 := ⟨n - 1, by omega⟩
  exact h k

/-- Two stages. -/
theorem Ev.bind {β γ : Type} {f : Nat → Option β} {g h : Nat → Option γ} {b : β} {r : γ} (hf : Ev f b) (hh : Ev h r)
    (e : ∀ n, f n = some b → g (n + 1) = h n) : Ev g r := by
  obtain ⟨N, hN⟩ := hf
  obtain ⟨M, hM⟩ := hh
  refine ⟨max N M + 1, fun n hn => ?_⟩
  obtain ⟨k, rfl⟩ : ∃ k, n = k + 1 := ⟨n - 1, by omega⟩
  rw [e k (hN k (by omega))]
  exact hM k (by omega)

@[simp] theorem skipWs_ws (ts : List (Tok α)) : skipWs (.ws :: ts) = skipWs ts := rfl

theorem skipWs_idem (ts : List (Tok α)) : skipWs (skipWs ts) = skipWs ts := by
  fun_induction skipWs ts
  · assumption
  · next t h => rw [skipWs.eq_def]; split; exact absurd rfl (h _); rfl

theorem loop_ws (n : Nat) (d : Bool) (m : Nat) (l : Ast α) (ts : List (Tok α)) : loop n d m l (skipWs ts) = loop n d m l ts := by
  cases n <;> simp [loop, skipWs_idem]

theorem loop_ws1 (n : Nat) (d : Bool) (m : Nat) (l : Ast α) (ts : List (Tok α)) : loop n d m l (.ws :: ts) = loop n d m l ts := by
  cases n <;> simp [loop]

theorem pre_ws1 (n : Nat) (d : Bool) (ts : List (Tok α)) : parsePrefix n d (.ws :: ts) = parsePrefix n d ts := by
  cases n <;> simp [parsePrefix]

theorem bp_ws1 (n : Nat) (d : Bool) (m : Nat) (ts : List (Tok α)) : parseBp n d m (.ws :: ts) = parseBp n d m ts := by
  cases n <;> simp [parseBp, pre_ws1]

theorem argsLoop_ws (n : Nat) (c d e s : Bool) (acc : List (Ast α)) (ts : List (Tok α)) :
    argsLoop n c d e s acc (skipWs ts) = argsLoop n c d e s acc ts := by
  cases n <;> simp [argsLoop, skipWs_idem]

theorem argsLoop_ws1 (n : Nat) (c d e s : Bool) (acc : List (Ast α)) (ts : List (Tok α)) :
    argsLoop n c d e s acc (.ws :: ts) = argsLoop n c d e s acc ts := by
  cases n <;> simp [argsLoop]

theorem arrLoop_ws (n : Nat) (d : Bool) (rows : List (List (Ast α))) (row : List (Ast α)) (ts : List (Tok α)) :
    arrLoop n d rows row (skipWs ts) = arrLoop n d rows row ts := by
  cases n <;> simp [arrLoop, skipWs_idem]

theorem ev_bp {d : Bool} {m : Nat} {ts ts' : List (Tok α)} {l : Ast α} {r : Option (Ast α × List (Tok α))}
    (h1 : Ev (fun n => parsePrefix n d ts) (some (l, ts'))) (h2 : Ev (fun n => loop n d m l ts') r) :
    Ev (fun n => parseBp n d m ts) r :=
  h1.bind h2 fun n hn => by rw [parseBp, hn]

/-- What follows does not extend an expression parsed at minimum precedence `k`. -/
def Stops (d : Bool) (k : Nat) (ts : List (Tok α)) : Prop :=
  match skipWs ts with
  | .lpar :: _ => False
  | .post op :: _ => op.prec < k
  | .infix op :: _ => (d = true ∧ op = .comma) ∨ op.prec < k
  | _ => True

theorem Stops.mono {d : Bool} {k k' : Nat} {ts : List (Tok α)} (h : Stops d k ts) (hk : k ≤ k') : Stops d k' ts := by
  unfold Stops at h ⊢
  split at h
  · exact h
  · omega
  · rcases h with h | h
    · exact Or.inl h
    · exact Or.inr (by omega)
  · trivial

theorem ev_stop {d : Bool} {k : Nat} {ts : List (Tok α)} (h : Stops d k ts) (l : Ast α) :
    Ev (fun n => loop n d k l ts) (some (l, skipWs ts)) := by
  refine Ev.const fun n => ?_
  rw [loop]
  unfold Stops at h
  split at h
  · exact h.elim
  · next op rest hs =>
    rw [hs]
    simp only
    rw [if_pos h]
  · next op rest hs =>
    rw [hs]
    simp only
    rcases h with h | h
    · rw [if_pos (by simp [h.1, h.2])]
    · rw [if_pos h]; simp
  · next x h1 h2 h3 =>
    split
    · next hs => exact absurd hs (h1 _)
    · next hs => exact absurd hs (h2 _ _)
    · next hs => exact absurd hs (h3 _ _)
    · rfl

/-- The precedence at which an expression shows to the left. -/
def lvl : Ast α → Nat
  | .bin op _ _ => op.prec
  | .post op _ => op.prec
  | _ => 100

/-- The minimum precedence in force at its right end. -/
def rm : Ast α → Option Nat
  | .bin op _ _ => some op.nextMin
  | .pre _ _ => some 6
  | _ => none

/-- What follows does not extend the expression's right end. -/
def Clear (d : Bool) (e : Ast α) (ts : List (Tok α)) : Prop := ∀ k, rm e = some k → Stops d k ts

/-- Parsing the print of `e` leads to the loop with `e` parsed. -/
def Reads (e : Ast α) : Prop := ∀ (d bare : Bool) (m : Nat) (rest : List (Tok α)) r, Good d bare e → m ≤ lvl e → Clear d e rest →
  Ev (fun n => loop n d m (norm e) rest) r → Ev (fun n => parseBp n d m (print bare e ++ rest)) r

theorem stops_rpar (d : Bool) (k : Nat) (ts : List (Tok α)) : Stops d k (.rpar :: ts) := by simp [Stops, skipWs]
theorem stops_funcClose (d : Bool) (k : Nat) (ts : List (Tok α)) : Stops d k (.funcClose :: ts) := by simp [Stops, skipWs]
theorem stops_arrClose (d : Bool) (k : Nat) (ts : List (Tok α)) : Stops d k (.arrClose :: ts) := by simp [Stops, skipWs]
theorem stops_sepArg (d : Bool) (k : Nat) (ts : List (Tok α)) : Stops d k (.sepArg :: ts) := by simp [Stops, skipWs]
theorem stops_sepRow (d : Bool) (k : Nat) (ts : List (Tok α)) : Stops d k (.sepRow :: ts) := by simp [Stops, skipWs]
theorem stops_comma (k : Nat) (ts : List (Tok α)) : Stops true k (.infix .comma :: ts) := by simp [Stops, skipWs]

/-- In parentheses anything good reads back. -/
theorem ev_paren {e : Ast α} (h : Reads e) {d : Bool} (hg : Good d false e) (rest : List (Tok α)) :
    Ev (fun n => parsePrefix n d (.lpar :: (print false e ++ (.rpar :: rest)))) (some (norm e, rest)) := by
  have h1 := h d false 0 (.rpar :: rest) _ hg (Nat.zero_le _) (fun k _ => stops_rpar d k rest) (ev_stop (stops_rpar d 0 rest) (norm e))
  refine h1.bind (h := fun _ => some (some (norm e, rest))) ⟨0, fun _ _ => rfl⟩ fun n hn => ?_
  rw [parsePrefix]
  simp only [skipWs] at hn ⊢
  rw [hn]
  simp only [skipWs]

/-- A child, in parentheses or not. -/
theorem ev_child {e : Ast α} (h : Reads e) {d bare b : Bool} {m : Nat} {rest : List (Tok α)} {r}
    (hg : Good d (bare && !b) e) (hb : b = false → m ≤ lvl e ∧ Clear d e rest) (hl : Ev (fun n => loop n d m (norm e) rest) r) :
    Ev (fun n => parseBp n d m ((if b then .lpar :: print false e ++ [.rpar] else print bare e) ++ rest)) r := by
  cases b with
  | true =>
    simp only [if_true, List.cons_append, List.append_assoc, List.nil_append]
    exact ev_bp (ev_paren h (by simpa using hg) rest) hl
  | false =>
    simp only [Bool.false_eq_true, if_false]
    exact h d bare m rest r (by simpa using hg) (hb rfl).1 (hb rfl).2 hl

/-! ## Precedence facts -/

theorem left_bin : ∀ op cop : Op,
    (if cop.prec < op.prec then true else if op.prec < cop.prec then false else op.rightAssoc && true) = false →
    op.prec ≤ cop.prec ∧ op.prec < cop.nextMin := by
  intro op cop; cases op <;> cases cop <;> decide

theorem left_ok {op : Op} {l : Ast α} (h : leftParens op l = false) : op.prec ≤ lvl l ∧ ∀ k, rm l = some k → op.prec < k := by
  have h100 : op.prec ≤ 100 := by cases op <;> decide
  cases l with
  | bin cop a b =>
    have := left_bin op cop h
    exact ⟨this.1, fun k hk => by cases hk; exact this.2⟩
  | pre cop a =>
    refine ⟨h100, fun k hk => ?_⟩
    cases hk
    by_contra hn
    have h6 : 6 < op.prec ∨ op.prec = 6 := by omega
    rcases h6 with h6 | h6
    · simp [leftParens, nodePrec, h6] at h
    · cases op <;> simp [Op.prec] at h6
  | post cop a =>
    refine ⟨?_, fun k hk => by cases hk⟩
    by_contra hn
    simp only [lvl] at hn
    simp [leftParens, nodePrec, Nat.lt_of_not_le hn] at h
  | _ => exact ⟨h100, fun k hk => by cases hk⟩

theorem right_bin : ∀ op cop : Op,
    (if cop.prec < op.prec then true else if op.prec < cop.prec then false
      else if op.rightAssoc then decide (cop ≠ op) else decide (cop ≠ op) || decide (op = .sub) || decide (op = .div)) = false →
    ¬ (cop = op ∧ op ≠ .sub ∧ op ≠ .div ∧ op ≠ .pow) → op.nextMin ≤ cop.prec ∧ op.nextMin ≤ cop.nextMin := by
  intro op cop; cases op <;> cases cop <;> decide

theorem right_ok {op : Op} {r : Ast α} (h : rightParens op r = false) (hr : ¬ Repeats op r) :
    op.nextMin ≤ lvl r ∧ ∀ k, rm r = some k → op.nextMin ≤ k := by
  have h100 : op.nextMin ≤ 100 := by cases op <;> decide
  cases r with
  | bin cop a b =>
    have := right_bin op cop h hr
    exact ⟨this.1, fun k hk => by cases hk; exact this.2⟩
  | pre cop a =>
    refine ⟨h100, fun k hk => ?_⟩
    cases hk
    have h6 : ¬ 6 < op.prec := fun h6 => by simp [rightParens, nodePrec, h6] at h
    cases op <;> simp [Op.prec] at h6 <;> decide
  | post cop a =>
    refine ⟨?_, fun k hk => by cases hk⟩
    have h6 : ¬ cop.prec < op.prec := fun h6 => by simp [rightParens, nodePrec, h6] at h
    simp only [lvl]
    revert h6
    clear h hr h100
    cases op <;> cases cop <;> decide
  | _ => exact ⟨h100, fun k hk => by cases hk⟩

theorem pre_ok {e : Ast α} (h : preParens e = false) : 6 ≤ lvl e ∧ ∀ k, rm e = some k → 6 ≤ k := by
  cases e with
  | bin cop a b =>
    have h6 : ¬ cop.prec < 6 := fun h6 => by simp [preParens, nodePrec, isBin, h6] at h
    refine ⟨by simp only [lvl]; omega, fun k hk => ?_⟩
    cases hk
    unfold Op.nextMin
    split <;> omega
  | pre cop a => exact ⟨by simp [lvl], fun k hk => by cases hk; exact Nat.le_refl _⟩
  | post cop a => refine ⟨?_, fun k hk => by cases hk⟩; cases cop <;> simp [lvl, PostOp.prec]
  | _ => exact ⟨by simp [lvl], fun k hk => by cases hk⟩

theorem post_ok {op : PostOp} {e : Ast α} (h : postParens e = false) (hc : ¬ Captures op e) : op.prec ≤ lvl e ∧ rm e = none := by
  cases e with
  | bin cop a b => simp [postParens, isBin] at h
  | pre cop a => simp [Captures] at hc
  | post cop a =>
    refine ⟨?_, rfl⟩
    cases op <;> cases cop <;> simp_all [lvl, PostOp.prec, Captures]
  | _ => refine ⟨?_, rfl⟩; cases op <;> simp [lvl, PostOp.prec]

/-! ## Reading back -/

theorem reads_atom (a : α) : Reads (.atom a) := by
  intro d bare m rest r _ _ _ h
  refine ev_bp (Ev.const fun n => ?_) h
  simp [print, parsePrefix, skipWs, norm]

theorem reads_pre (op : PreOp) {e : Ast α} (he : Reads e) : Reads (.pre op e) := by
  intro d bare m rest r hg _ hc h
  rw [Good] at hg
  have hs : Stops d 6 rest := hc 6 rfl
  have h1 := ev_child (m := 6) he hg (fun hb => ⟨(pre_ok hb).1, fun k hk => hs.mono ((pre_ok hb).2 k hk)⟩) (ev_stop hs (norm e))
  refine ev_bp (ts' := skipWs rest) (l := .pre op (norm e)) (h1.bind (h := fun _ => some (some (.pre op (norm e), skipWs rest)))
    ⟨0, fun _ _ => rfl⟩ fun n hn => ?_) ?_
  · rw [print, List.cons_append, parsePrefix]
    simp only [skipWs]
    rw [hn]
  · simp only [loop_ws]; exact h

theorem reads_post (op : PostOp) {e : Ast α} (he : Reads e) : Reads (.post op e) := by
  intro d bare m rest r hg hm _ h
  rw [Good] at hg
  rw [print, List.append_assoc]
  simp only [lvl] at hm
  refine ev_child he hg.2 (fun hb => ?_) ?_
  · have := post_ok hb hg.1
    exact ⟨by omega, fun k hk => by rw [this.2] at hk; simp at hk⟩
  · refine h.step fun n => ?_
    rw [loop]
    simp only [List.singleton_append, skipWs]
    rw [if_neg (by omega)]
    rfl

theorem opToks_cases {d bare : Bool} {op : Op} (h : op = .comma → d = false ∧ bare = false) (X : List (Tok α)) :
    (skipWs (opToks bare op ++ X) = .infix op :: X ∨ skipWs (opToks bare op ++ X) = .infix op :: .ws :: X) := by
  by_cases hc : op = .comma
  · subst hc
    right
    simp [opToks, (h rfl).2, skipWs]
  · cases op <;> simp [opToks, skipWs] at hc ⊢

theorem reads_bin (op : Op) {e f : Ast α} (he : Reads e) (hf : Reads f) : Reads (.bin op e f) := by
  intro d bare m rest r hg hm hc h
  rw [Good] at hg
  obtain ⟨hcom, hrep, hgl, hgr⟩ := hg
  rw [print, List.append_assoc, List.append_assoc]
  simp only [lvl] at hm
  have hs : Stops d op.nextMin rest := hc _ rfl
  have hd : (d && decide (op = .comma)) = false := by
    by_cases ho : op = .comma
    · simp [(hcom ho).1]
    · simp [ho]
  set R := (if rightParens op f then Tok.lpar :: print false f ++ [.rpar] else print bare f) ++ rest with hR
  have h1 : Ev (fun n => parseBp n d op.nextMin R) (some (norm f, skipWs rest)) :=
    ev_child hf hgr (fun hb => ⟨(right_ok hb hrep).1, fun k hk => hs.mono ((right_ok hb hrep).2 k hk)⟩) (ev_stop hs (norm f))
  refine ev_child he hgl (fun hb => ⟨Nat.le_trans hm (left_ok hb).1, fun k hk => ?_⟩) ?_
  · have := (left_ok hb).2 k hk
    unfold Stops
    rcases opToks_cases hcom R with h | h <;> rw [h] <;> exact Or.inr this
  · refine h1.bind (h := fun n => loop n d m (.bin op (norm e) (norm f)) (skipWs rest)) (by simp only [loop_ws]; exact h) fun n hn => ?_
    rw [loop]
    rcases opToks_cases hcom R with h | h <;> rw [h] <;> simp only [hd, Bool.false_eq_true, if_false] <;> rw [if_neg (by omega)]
    · rw [hn]
    · rw [bp_ws1, hn]

/-- The first token of a good expression. -/
def Starts : List (Tok α) → Prop
  | .operand _ :: _ | .func _ :: _ | .pre _ :: _ | .lpar :: _ | .arrOpen :: _ => True
  | _ => False

theorem starts_append {a b : List (Tok α)} (h : Starts a) : Starts (a ++ b) := by
  cases a with
  | nil => simp [Starts] at h
  | cons t a => cases t <;> simp_all [Starts]

theorem starts_print : ∀ (e : Ast α) (d bare : Bool), Good d bare e → Starts (print bare e)
  | .atom a, _, _, _ => by simp [print, Starts]
  | .omitted, _, _, h => by simp [Good] at h
  | .pre op e, _, _, _ => by simp [print, Starts]
  | .post op e, d, bare, h => by
    rw [Good] at h
    rw [print]
    apply starts_append
    cases hb : postParens e with
    | true => simp [Starts]
    | false => simpa [hb] using starts_print e d bare (by simpa [hb] using h.2)
  | .bin op l r, d, bare, h => by
    rw [Good] at h
    rw [print, List.append_assoc]
    apply starts_append
    cases hb : leftParens op l with
    | true => simp [Starts]
    | false => simpa [hb] using starts_print l d bare (by simpa [hb] using h.2.2.1)
  | .func name args, _, _, _ => by simp [print, Starts]
  | .call c args, d, bare, h => by
    rw [Good] at h
    rw [print, List.append_assoc]
    apply starts_append
    cases hb : bareCallee c with
    | false => simp [Starts]
    | true => simpa [hb] using starts_print c d bare (by simpa [hb] using h.2.1)
  | .arr rows, _, _, _ => by simp [print, Starts]

/-- The closing token and separator of an argument list. -/
def closeTok (call : Bool) : Tok α := if call then .rpar else .funcClose
def sepTok (call : Bool) : Tok α := if call then .infix .comma else .sepArg

theorem starts_arg {call : Bool} {ts : List (Tok α)} (h : Starts ts) :
    ∃ t rest, ts = t :: rest ∧ skipWs ts = t :: rest ∧ isClose call t = false ∧ isSep call t = false := by
  cases ts with
  | nil => simp [Starts] at h
  | cons t ts => cases t <;> simp_all [Starts, isClose, isSep, skipWs]

theorem stops_more (call d : Bool) (hd : call = true → d = true) (k : Nat) (bare : Bool) (as : List (Ast α)) (rest : List (Tok α)) :
    Stops d k (printMore (sepTok call) bare as ++ closeTok call :: rest) := by
  cases as with
  | nil => cases call <;> simp [printMore, closeTok, stops_rpar, stops_funcClose]
  | cons a as =>
    cases call with
    | true =>
      rw [hd rfl]
      cases ho : isOmitted a <;> simp [printMore, sepToks, ho, sepTok, stops_comma]
    | false => cases ho : isOmitted a <;> simp [printMore, sepToks, ho, sepTok, stops_sepArg]

theorem omitted_eq {a : Ast α} (h : isOmitted a = true) : a = .omitted := by cases a <;> simp_all [isOmitted]

theorem not_omitted {d bare : Bool} {a : Ast α} (h : Good d bare a) : isOmitted a = false := by
  cases a <;> first | rfl | simp [Good] at h

theorem isSep_sepTok (call : Bool) : isSep call (sepTok call : Tok α) = true := by cases call <;> rfl
theorem isClose_sepTok (call : Bool) : isClose call (sepTok call : Tok α) = false := by cases call <;> rfl
theorem isClose_closeTok (call : Bool) : isClose call (closeTok call : Tok α) = true := by cases call <;> rfl
theorem isSep_closeTok (call : Bool) : isSep call (closeTok call : Tok α) = false := by cases call <;> rfl
theorem skip_sepTok (call : Bool) (ts : List (Tok α)) : skipWs (sepTok call :: ts) = sepTok call :: ts := by cases call <;> rfl
theorem skip_closeTok (call : Bool) (ts : List (Tok α)) : skipWs (closeTok call :: ts) = closeTok call :: ts := by cases call <;> rfl

/-- The argument loop before an argument. -/
theorem ev_args (call d bare : Bool) (hd : call = true → d = true) (rest : List (Tok α)) :
    ∀ (as : List (Ast α)) (a : Ast α) (saw : Bool) (acc : List (Ast α)), Reads a → (∀ b ∈ as, Reads b) → GoodArgs d bare (a :: as) →
      (saw = true ∨ isOmitted a = false ∨ as ≠ []) →
      Ev (fun n => argsLoop n call d true saw acc (print bare a ++ (printMore (sepTok call) bare as ++ closeTok call :: rest)))
        (some (acc.reverse ++ normL (a :: as), rest)) := by
  intro as
  induction as with
  | nil =>
    intro a saw acc ha _ hg hsaw
    rw [GoodArgs] at hg
    rcases hg.1 with ho | hgood
    · have := omitted_eq ho; subst this
      have hs : saw = true := by rcases hsaw with h | h | h; exact h; simp [isOmitted] at h; exact absurd rfl h
      subst hs
      refine Ev.const fun n => ?_
      rw [argsLoop]
      simp only [print, printMore, List.nil_append, skip_closeTok, if_true, isClose_closeTok, normL, norm]
      simp
    · obtain ⟨t, ts, h1, h2, h3, h4⟩ := starts_arg (call := call)
        (starts_append (b := printMore (sepTok call) bare [] ++ closeTok call :: rest) (starts_print a d bare hgood))
      have hst := stops_more call d hd 0 bare [] rest
      have he := ha d bare 0 (printMore (sepTok call) bare [] ++ closeTok call :: rest) _ hgood (Nat.zero_le _)
        (fun k _ => stops_more call d hd k bare [] rest) (ev_stop hst (norm a))
      refine he.bind (h := fun n => argsLoop n call d false true (norm a :: acc) (printMore (sepTok call) bare [] ++ closeTok call :: rest))
        (Ev.const fun n => ?_) fun n hn => ?_
      · rw [argsLoop]
        simp only [printMore, List.nil_append, skip_closeTok, isClose_closeTok, isSep_closeTok, normL]
        simp
      · rw [argsLoop, h2]
        simp only [if_true, h3, h4, Bool.false_eq_true, if_false]
        rw [← h1, hn]
        simp only [argsLoop_ws]
  | cons b bs ih =>
    intro a saw acc ha hbs hg hsaw
    rw [GoodArgs] at hg
    have hsep : ∀ (acc : List (Ast α)), Ev (fun n => argsLoop n call d true true acc ((if isOmitted b then [] else [.ws]) ++
        (print bare b ++ (printMore (sepTok call) bare bs ++ closeTok call :: rest)))) (some (acc.reverse ++ normL (b :: bs), rest)) := by
      intro acc
      have := ih b true acc (hbs b List.mem_cons_self) (fun x hx => hbs x (List.mem_cons_of_mem _ hx)) hg.2 (Or.inl rfl)
      cases isOmitted b
      · simpa [argsLoop_ws1] using this
      · simpa using this
    have hmore : printMore (sepTok call) bare (b :: bs) ++ closeTok call :: rest = sepTok call :: ((if isOmitted b then [] else [.ws]) ++
        (print bare b ++ (printMore (sepTok call) bare bs ++ closeTok call :: rest))) := by
      rw [printMore, sepToks]; cases isOmitted b <;> simp
    rcases hg.1 with ho | hgood
    · have := omitted_eq ho; subst this
      rw [hmore]
      have h := hsep (.omitted :: acc)
      have e : (Ast.omitted :: acc).reverse ++ normL (b :: bs) = acc.reverse ++ normL (.omitted :: b :: bs) := by simp [normL, norm]
      rw [e] at h
      refine h.step fun n => ?_
      rw [argsLoop]
      simp only [print, List.nil_append, skip_sepTok, if_true, isClose_sepTok, isSep_sepTok, Bool.false_eq_true, if_false]
    · obtain ⟨t, ts, h1, h2, h3, h4⟩ := starts_arg (call := call)
        (starts_append (b := printMore (sepTok call) bare (b :: bs) ++ closeTok call :: rest) (starts_print a d bare hgood))
      have he := ha d bare 0 (printMore (sepTok call) bare (b :: bs) ++ closeTok call :: rest) _ hgood (Nat.zero_le _)
        (fun k _ => stops_more call d hd k bare (b :: bs) rest) (ev_stop (stops_more call d hd 0 bare (b :: bs) rest) (norm a))
      have h := hsep (norm a :: acc)
      have e : (norm a :: acc).reverse ++ normL (b :: bs) = acc.reverse ++ normL (a :: b :: bs) := by simp [normL]
      rw [e] at h
      refine he.bind (h := fun n => argsLoop n call d false true (norm a :: acc) (printMore (sepTok call) bare (b :: bs) ++ closeTok call :: rest))
        (h.step fun n => ?_) fun n hn => ?_
      · rw [hmore, argsLoop]
        simp only [skip_sepTok, isSep_sepTok, Bool.false_eq_true, if_false, if_true]
      · rw [argsLoop, h2]
        simp only [if_true, h3, h4, Bool.false_eq_true, if_false]
        rw [← h1, hn]
        simp only [argsLoop_ws]

/-- A whole argument list. -/
theorem ev_arglist (call d bare : Bool) (as : List (Ast α)) (has : ∀ b ∈ as, Reads b) (hg : GoodArgs (call || d) bare as)
    (hno : ∀ a, as = [a] → isOmitted a = false) (rest : List (Tok α)) :
    Ev (fun n => parseArgs n call d (printArgs (sepTok call) bare as ++ closeTok call :: rest)) (some (normL as, rest)) := by
  cases as with
  | nil =>
    refine Ev.const fun n => ?_
    simp only [printArgs, List.nil_append]
    rw [parseArgs, skip_closeTok]
    simp [isClose_closeTok, normL]
  | cons a as =>
    have h := ev_args call (call || d) bare (fun h => by simp [h]) rest as a false [] (has a List.mem_cons_self)
      (fun b hb => has b (List.mem_cons_of_mem _ hb)) hg (by
        cases as with
        | nil => exact Or.inr (Or.inl (hno a rfl))
        | cons b bs => exact Or.inr (Or.inr (by simp)))
    simp only [List.reverse_nil, List.nil_append] at h
    refine h.step fun n => ?_
    rw [printArgs, List.append_assoc]
    rw [parseArgs]
    rw [GoodArgs] at hg
    rw [← argsLoop_ws n]
    rcases hg.1 with ho | hgood
    · have := omitted_eq ho; subst this
      cases as with
      | nil => have := hno _ rfl; simp [isOmitted] at this
      | cons b bs =>
        have : print bare (.omitted : Ast α) ++ (printMore (sepTok call) bare (b :: bs) ++ closeTok call :: rest) =
            sepTok call :: ((if isOmitted b then [] else [.ws]) ++ (print bare b ++ (printMore (sepTok call) bare bs ++ closeTok call :: rest))) := by
          rw [print, printMore, sepToks]; cases isOmitted b <;> simp
        rw [this, skip_sepTok]
        simp [isClose_sepTok]
    · obtain ⟨t, ts, h1, h2, h3, h4⟩ := starts_arg (call := call)
        (starts_append (b := printMore (sepTok call) bare as ++ closeTok call :: rest) (starts_print a _ bare hgood))
      rw [h2]
      simp only [h3, Bool.false_eq_true, if_false]
      rw [h1]

theorem reads_func (name : List Char) {as : List (Ast α)} (has : ∀ a ∈ as, Reads a) : Reads (.func name as) := by
  intro d bare m rest r hg _ _ h
  rw [Good] at hg
  have h1 := ev_arglist false d true as has (by simpa using hg.2) hg.1 rest
  refine ev_bp (ts' := rest) (l := .func (name.map upper) (normL as)) (h1.bind
    (h := fun _ => some (some (.func (name.map upper) (normL as), rest))) ⟨0, fun _ _ => rfl⟩ fun n hn => ?_) h
  rw [print, List.cons_append, List.cons_append, parsePrefix]
  simp only [skipWs, List.append_assoc, List.singleton_append]
  simp only [sepTok, closeTok, Bool.false_eq_true, if_false] at hn
  rw [hn]

theorem reads_call {c : Ast α} (hc : Reads c) {as : List (Ast α)} (has : ∀ a ∈ as, Reads a) : Reads (.call c as) := by
  intro d bare m rest r hg hm _ h
  rw [Good] at hg
  have h1 := ev_arglist true d false as has (by simpa using hg.2.2) hg.1 rest
  have hl : Ev (fun n => loop n d m (norm c) (.lpar :: (printArgs (.infix .comma) false as ++ .rpar :: rest))) r := by
    refine h1.bind (h := fun n => loop n d m (.call (norm c) (normL as)) rest) h fun n hn => ?_
    rw [loop]
    simp only [skipWs]
    simp only [sepTok, closeTok, if_true] at hn
    rw [hn]
  have := ev_child (b := !bareCallee c) (bare := bare) (m := m) hc (by simpa using hg.2.1) (fun hb => ?_) hl
  · rw [print]
    cases hb : bareCallee c <;> simpa [hb] using this
  · simp only [lvl] at hm
    cases c <;> simp_all [bareCallee, lvl, Clear, rm]

theorem stops_cells (d : Bool) (k : Nat) (as : List (Ast α)) {X : List (Tok α)} (hX : Stops d k X) : Stops d k (printCells as ++ X) := by
  cases as with
  | nil => simpa [printCells] using hX
  | cons a as => simp [printCells, stops_sepArg]

theorem stops_tail (d : Bool) (k : Nat) (rs : List (List (Ast α))) (rest : List (Tok α)) :
    Stops d k (printTail rs ++ .arrClose :: rest) := by
  cases rs with
  | nil => simp [printTail, stops_arrClose]
  | cons a as => simp [printTail, stops_sepRow]

theorem ev_cells {d : Bool} (X : List (Tok α)) (hX : ∀ k, Stops d k X) {r} (rows : List (List (Ast α))) :
    ∀ (as row : List (Ast α)), (∀ a ∈ as, Reads a) → GoodCells d as →
      Ev (fun n => arrLoop n d rows ((normL as).reverse ++ row) X) r → Ev (fun n => arrLoop n d rows row (printCells as ++ X)) r
  | [], row, _, _, h => by simpa [printCells, normL] using h
  | a :: as, row, has, hg, h => by
    rw [GoodCells] at hg
    have hrec := ev_cells X hX rows as (norm a :: row) (fun b hb => has b (List.mem_cons_of_mem _ hb)) hg.2 (by simpa [normL] using h)
    have he := has a List.mem_cons_self d true 0 (printCells as ++ X) _ hg.1 (Nat.zero_le _) (fun k _ => stops_cells d k as (hX k))
      (ev_stop (stops_cells d 0 as (hX 0)) (norm a))
    refine he.bind hrec fun n hn => ?_
    rw [printCells]
    simp only [List.cons_append, List.append_assoc]
    rw [arrLoop]
    simp only [skipWs]
    rw [bp_ws1, hn]
    simp only [arrLoop_ws]

/-- The rows after the first, whose cells are in `row`. -/
theorem ev_rows {d : Bool} (rest : List (Tok α)) :
    ∀ (rs rows : List (List (Ast α))) (row : List (Ast α)), (∀ x ∈ rs, ∀ a ∈ x, Reads a) → GoodRows d rs →
      Ev (fun n => arrLoop n d rows row (printTail rs ++ .arrClose :: rest)) (some (rows.reverse ++ row.reverse :: normLL rs, rest))
  | [], rows, row, _, _ => by
    refine Ev.const fun n => ?_
    simp only [printTail, List.nil_append]
    rw [arrLoop]
    simp [skipWs, normLL]
  | [] :: rs, _, _, _, hg => by rw [GoodRows] at hg; exact absurd rfl hg.1
  | (a :: as) :: rs, rows, row, hrs, hg => by
    rw [GoodRows, GoodCells] at hg
    have hrec := ev_rows (d := d) rest rs (row.reverse :: rows) ((normL as).reverse ++ [norm a])
      (fun x hx => hrs x (List.mem_cons_of_mem _ hx)) hg.2.2
    have has := hrs (a :: as) List.mem_cons_self
    have h2 := ev_cells (d := d) (printTail rs ++ .arrClose :: rest) (fun k => stops_tail d k rs rest) (row.reverse :: rows) as [norm a]
      (fun b hb => has b (List.mem_cons_of_mem _ hb)) hg.2.1.2 hrec
    have hst : ∀ k, Stops d k (printCells as ++ (printTail rs ++ .arrClose :: rest)) := fun k => stops_cells d k as (stops_tail d k rs rest)
    have he := has a List.mem_cons_self d true 0 (printCells as ++ (printTail rs ++ .arrClose :: rest)) _ hg.2.1.1 (Nat.zero_le _)
      (fun k _ => hst k) (ev_stop (hst 0) (norm a))
    have e : (row.reverse :: rows).reverse ++ ((normL as).reverse ++ [norm a]).reverse :: normLL rs =
        rows.reverse ++ row.reverse :: normLL ((a :: as) :: rs) := by simp [normLL, normL]
    rw [e] at h2
    refine he.bind h2 fun n hn => ?_
    rw [printTail, printRow]
    simp only [List.cons_append, List.append_assoc]
    rw [arrLoop]
    simp only [skipWs]
    rw [bp_ws1, hn]
    simp only [arrLoop_ws]

theorem reads_arr {rows : List (List (Ast α))} (hrs : ∀ x ∈ rows, ∀ a ∈ x, Reads a) : Reads (.arr rows) := by
  intro d bare m rest r hg _ _ h
  rw [Good] at hg
  rw [print, List.append_assoc]
  refine ev_bp (ts' := rest) (l := .arr (normLL rows)) ?_ (by simpa [norm] using h)
  match rows, hrs, hg with
  | [], _, _ =>
    refine Ev.const fun n => ?_
    simp [printRows, parsePrefix, skipWs, normLL]
  | [] :: rs, _, hg => rw [GoodRows] at hg; exact absurd rfl hg.1
  | (a :: as) :: rs, hrs, hg =>
    rw [GoodRows, GoodCells] at hg
    have has := hrs (a :: as) List.mem_cons_self
    have hst : ∀ k, Stops d k (printCells as ++ (printTail rs ++ .arrClose :: rest)) := fun k => stops_cells d k as (stops_tail d k rs rest)
    have he := has a List.mem_cons_self d true 0 (printCells as ++ (printTail rs ++ .arrClose :: rest)) _ hg.2.1.1 (Nat.zero_le _)
      (fun k _ => hst k) (ev_stop (hst 0) (norm a))
    have hrec := ev_rows (d := d) rest rs [] ((normL as).reverse ++ [norm a]) (fun x hx => hrs x (List.mem_cons_of_mem _ hx)) hg.2.2
    have h2 := ev_cells (d := d) (printTail rs ++ .arrClose :: rest) (fun k => stops_tail d k rs rest) [] as [norm a]
      (fun b hb => has b (List.mem_cons_of_mem _ hb)) hg.2.1.2 hrec
    have e : ([] : List (List (Ast α))).reverse ++ ((normL as).reverse ++ [norm a]).reverse :: normLL rs = normLL ((a :: as) :: rs) := by
      simp [normLL, normL]
    rw [e] at h2
    obtain ⟨t, ts, h1, h3, _, _⟩ := starts_arg (call := true)
      (starts_append (b := printCells as ++ (printTail rs ++ .arrClose :: rest)) (starts_print a d true hg.2.1.1))
    obtain ⟨N, hN⟩ := he
    obtain ⟨M, hM⟩ := h2
    refine ⟨max N M + 1, fun n hn => ?_⟩
    obtain ⟨k, rfl⟩ : ∃ k, n = k + 1 := ⟨n - 1, by omega⟩
    have hN := hN k (by omega)
    have hM := hM k (by omega)
    simp only at hN hM
    rw [← arrLoop_ws] at hM
    rw [printRows, printRow]
    simp only [List.cons_append, List.append_assoc, List.singleton_append, List.nil_append]
    rw [parsePrefix]
    simp only [skipWs]
    rw [h3]
    have hne : t ≠ .arrClose := by
      rintro rfl
      have := starts_append (b := printCells as ++ (printTail rs ++ .arrClose :: rest)) (starts_print a d true hg.2.1.1)
      rw [h1] at this
      simp [Starts] at this
    split
    · next heq => simp only [List.cons.injEq] at heq; exact absurd heq.1 hne
    · rw [← h1, hN]
      simp only [hM]

mutual
theorem reads : ∀ e : Ast α, Reads e
  | .atom a => reads_atom a
  | .omitted => fun _ _ _ _ _ hg => by rw [Good] at hg; exact hg.elim
  | .pre op e => reads_pre op (reads e)
  | .post op e => reads_post op (reads e)
  | .bin op l r => reads_bin op (reads l) (reads r)
  | .func name args => reads_func name (readsL args)
  | .call c args => reads_call (reads c) (readsL args)
  | .arr rows => reads_arr (readsLL rows)

theorem readsL : ∀ (as : List (Ast α)), ∀ a ∈ as, Reads a
  | [], _, h => by simp at h
  | b :: bs, a, h => by
    rcases List.mem_cons.1 h with h | h
    · exact h ▸ reads b
    · exact readsL bs a h

theorem readsLL : ∀ (rs : List (List (Ast α))), ∀ x ∈ rs, ∀ a ∈ x, Reads a
  | [], _, h => by simp at h
  | r :: rs, x, h => by
    rcases List.mem_cons.1 h with h | h
    · exact h ▸ readsL r
    · exact readsLL rs x h
end

/-- C24 (partial): parsing the tokens the printer prints for a good tree gives the tree back, function names in upper case.
Missing: the trees excluded by `Good`, where it fails, see the theorems below. -/
theorem roundtrip_partial (e : Ast α) (h : Good false false e) : parse (print false e) = some (some (norm e)) := by
  have hstop : Stops (α := α) false 0 [] := by simp [Stops, skipWs]
  have hev := reads e false false 0 [] _ h (Nat.zero_le _) (fun k _ => by simp [Stops, skipWs]) (ev_stop hstop (norm e))
  simp only [List.append_nil, skipWs] at hev
  obtain ⟨t, ts, h1, h2, _, _⟩ := starts_arg (call := true) (starts_print e false false h)
  obtain ⟨N, hN⟩ := hev
  simp only at hN
  have hfin : parseBp (fuel (print false e)) false 0 (print false e) = some (some (norm e, [])) := by
    rcases (total (fuel (print false e))).bp false 0 (print false e) (by unfold fuel; omega) with h | ⟨x, rest, h, _⟩
    · have : ∀ k, parseBp (fuel (print false e) + k) false 0 (print false e) = some none := by
        intro k
        induction k with
        | zero => exact h
        | succ k ih => exact (mono _).bp _ _ _ _ ih
      have := this N
      rw [hN _ (by omega)] at this
      simp at this
    · have : ∀ k, parseBp (fuel (print false e) + k) false 0 (print false e) = some (some (x, rest)) := by
        intro k
        induction k with
        | zero => exact h
        | succ k ih => exact (mono _).bp _ _ _ _ ih
      have := this N
      rw [hN _ (by omega)] at this
      rw [h, ← this]
  rw [h1] at hfin
  unfold parse
  rw [h2]
  simp only [hfin, skipWs]

/-! ## Where it fails -/

/-- C24 fails: the parentheses of `a + (b + c)` are dropped, and the formula reads back as `(a + b) + c`; likewise for `=`, where
the value changes too: `1 = (1 = 1)` is false, `(1 = 1) = 1` is not. -/
theorem repeat_dropped (a b c : α) :
    parse (print false (.bin .add (.atom a) (.bin .add (.atom b) (.atom c)))) =
      some (some (.bin .add (.bin .add (.atom a) (.atom b)) (.atom c))) ∧
    parse (print false (.bin .eq (.atom a) (.bin .eq (.atom b) (.atom c)))) =
      some (some (.bin .eq (.bin .eq (.atom a) (.atom b)) (.atom c))) := by
  constructor <;> rfl

/-- C24 fails: `(-a)%` prints as `-a%`, which reads as `-(a%)`; `(-a)#` likewise. -/
theorem postfix_captured (a : α) (op : PostOp) :
    parse (print false (.post op (.pre .minus (.atom a)))) = some (some (.pre .minus (.post op (.atom a)))) := by
  cases op <;> rfl

/-- C24 fails: `(a%)#` after `:` needs parentheses it does not get. -/
theorem hash_over_percent (a b : α) :
    parse (print false (.bin .colon (.atom a) (.post .hash (.post .pct (.atom b))))) =
      some (some (.post .hash (.post .pct (.bin .colon (.atom a) (.atom b))))) := by
  rfl

/-- C24 fails: a union as an argument prints without its parentheses and becomes two arguments; in an array, two cells. -/
theorem union_argument_split (f : List Char) (a b : α) :
    parse (print false (.func f [.bin .comma (.atom a) (.atom b)])) = some (some (.func (f.map upper) [.atom a, .atom b])) ∧
    parse (print false (.arr [[.bin .comma (.atom a) (.atom b)]])) = some (some (.arr [[.atom a, .atom b]])) := by
  constructor <;> rfl

/-- C24 fails: inside the arguments of a postfix call even a parenthesised union is refused, so `f()(g((a, b)%))` does not parse. -/
theorem union_in_call_refused (f g : List Char) (a b : α) :
    parse (print false (.call (.func f []) [.func g [.post .pct (.bin .comma (.atom a) (.atom b))]])) = some none := by
  rfl

/-- C24 fails: a single omitted argument is lost. -/
theorem sole_omitted_lost (f : List Char) : parse (print false (.func f [.omitted] : Ast α)) = some (some (.func (f.map upper) [])) := by
  rfl

/-- A non-trivial good tree: `SUM(-a ^ b%, , {a, b; b, a}) * (a - (b - a))` and its print. -/
example : Good false false (.bin .mul (.func "Sum".toList [.bin .pow (.pre .minus (.atom 0)) (.post .pct (.atom 1)), .omitted,
    .arr [[.atom 0, .atom 1], [.atom 1, .atom 0]]]) (.bin .sub (.atom 0) (.bin .sub (.atom 1) (.atom 0))) : Ast Nat) := by
  simp [Good, GoodArgs, GoodRows, GoodCells, Repeats, Captures, isOmitted]

example : print false (.bin .mul (.atom 0) (.bin .sub (.atom 1) (.bin .sub (.atom 1) (.atom 0))) : Ast Nat) =
    [.operand 0, .ws, .infix .mul, .ws, .lpar, .operand 1, .ws, .infix .sub, .ws, .lpar, .operand 1, .ws, .infix .sub, .ws, .operand 0,
      .rpar, .rpar] := by rfl

end Verif.Pretty
