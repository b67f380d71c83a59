import Mathlib.Data.List.Basic
import Mathlib.Tactic.Ring
import Verif.NumFmt.Props
import Verif.TextFn.Props

/-!
# NUMBERVALUE

Model of `/repo/crates/formualizer-eval/src/builtins/text/value_text.rs` 155-224
(`NumberValueFn::eval` from the texts of its arguments on).  Reading a float (`str::parse::<f64>`)
and white space are parameters; numbers are rationals, so texts that read as infinities or as
not-a-number are left out.
-/

namespace Verif.TextFn

open Verif.NumFmt (trim)

/-- `str::trim_end`. -/
def trimEnd (ws : Char → Bool) (s : List Char) : List Char := (s.reverse.dropWhile ws).reverse

/-- The loop that takes percent signs off the end, value_text.rs 194-199; on the text reversed, with
the count so far. Each step shortens the text, so its length is fuel enough. -/
def percents (ws : Char → Bool) : Nat → List Char → Nat → List Char × Nat
  | 0, t, k => (t, k)
  | fuel + 1, t, k =>
    match t.reverse with
    | '%' :: r => percents ws fuel (trimEnd ws r.reverse) (k + 1)
    | _ => (t, k)

/-- `str::replace` of a text that is not empty; the count is of characters still to be passed over. -/
def replaceGo (p r : List Char) : Nat → List Char → List Char
  | _, [] => []
  | k + 1, _ :: cs => replaceGo p r k cs
  | 0, c :: cs =>
    if p.isPrefixOf (c :: cs) then r ++ replaceGo p r (p.length - 1) cs else c :: replaceGo p r 0 cs

/-- `str::replace` by nothing or of a text that is not empty. -/
def replace (p r t : List Char) : List Char := if p = [] then t else replaceGo p r 0 t

/-- NUMBERVALUE; `none` is `#VALUE!`: value_text.rs 188-222. -/
def numberValue (ws : Char → Bool) (parse : List Char → Option ℚ) (text dec grp : List Char) :
    Option ℚ :=
  if dec = [] ∨ dec = grp then none
  else
    let t := trim ws text
    let (t, k) := percents ws (t.length + 1) t 0
    if t = [] then none
    else
      let cleaned := replace dec ['.'] (replace grp [] t)
      if 1 < cleaned.count '.' then none
      else (parse cleaned).map fun n => n / 100 ^ k

/-! ## Separators of one character -/

theorem replace_char (c : Char) (r t : List Char) :
    replace [c] r t = t.flatMap fun x => if x = c then r else [x] := by
  unfold replace
  rw [if_neg (by simp)]
  induction t with
  | nil => rfl
  | cons x t ih =>
    rw [replaceGo, List.flatMap_cons]
    by_cases h : x = c
    · subst h
      simp [List.isPrefixOf, ih]
    · have : ([c].isPrefixOf (x :: t)) = false := by
        simp [List.isPrefixOf, Ne.symm h]
      rw [this, if_neg (by decide), if_neg h, ih]
      rfl

/-- What is left without the group separators and with a point for the decimal separator. -/
theorem cleaned_spec (d g : Char) (t : List Char) :
    replace [d] ['.'] (replace [g] [] t) =
      (t.filter (· ≠ g)).map fun x => if x = d then '.' else x := by
  rw [replace_char, replace_char]
  induction t with
  | nil => rfl
  | cons x t ih =>
    rw [List.flatMap_cons, List.flatMap_append, ih]
    by_cases hg : x = g
    · simp [hg]
    · by_cases hd : x = d
      · subst hd
        simp [hg]
      · simp [hg, hd]

theorem percents_spec (ws : Char → Bool) (hp : ws '%' = false) (t : List Char)
    (hl : ∀ c, t.getLast? = some c → c ≠ '%' ∧ ws c = false) (k : Nat) (fuel : Nat) (hf : k < fuel)
    (m : Nat) : percents ws fuel (t ++ List.replicate k '%') m = (t, m + k) := by
  induction k generalizing fuel m with
  | zero =>
    cases fuel with
    | zero => omega
    | succ fuel =>
      simp only [List.replicate_zero, List.append_nil, percents]
      split
      · next r hr =>
        have : t.getLast? = some '%' := by
          rw [← List.head?_reverse, hr]; rfl
        exact absurd rfl (hl _ this).1
      · rfl
  | succ k ih =>
    cases fuel with
    | zero => omega
    | succ fuel =>
      have hrev : (t ++ List.replicate (k + 1) '%').reverse =
          '%' :: (t ++ List.replicate k '%').reverse := by
        rw [List.replicate_succ', ← List.append_assoc, List.reverse_append]
        rfl
      rw [percents, hrev]
      simp only [List.reverse_reverse]
      have htrim : trimEnd ws (t ++ List.replicate k '%') = t ++ List.replicate k '%' := by
        unfold trimEnd
        cases hc : (t ++ List.replicate k '%').reverse with
        | nil =>
          have := congrArg List.reverse hc
          rw [List.reverse_reverse] at this
          rw [this]
          rfl
        | cons c r =>
          have hlast : (t ++ List.replicate k '%').getLast? = some c := by
            rw [← List.head?_reverse, hc]; rfl
          have hw : ws c = false := by
            cases k with
            | zero =>
              simp only [List.replicate_zero, List.append_nil] at hlast
              exact (hl c hlast).2
            | succ k =>
              rw [List.replicate_succ', ← List.append_assoc, List.getLast?_concat] at hlast
              rw [← Option.some.inj hlast]
              exact hp
          rw [List.dropWhile_cons_of_neg (by simp [hw]), ← hc, List.reverse_reverse]
      rw [htrim, ih fuel (by omega) (m + 1)]
      congr 1
      ring

theorem trim_id (ws : Char → Bool) (t : List Char) (h1 : ∀ c, t.head? = some c → ws c = false)
    (h2 : ∀ c, t.getLast? = some c → ws c = false) : trim ws t = t := by
  have dw : ∀ l : List Char, (∀ c, l.head? = some c → ws c = false) → l.dropWhile ws = l := by
    intro l hl
    cases l with
    | nil => rfl
    | cons c l => exact List.dropWhile_cons_of_neg (by simp [hl c rfl])
  unfold trim
  rw [dw t h1, dw t.reverse (by simpa using h2), List.reverse_reverse]

/-- **C119.** With two different separators of one character, a text with any number of percent
signs behind it is read by leaving the group separators out and writing a point for the decimal
separator; every percent sign divides by 100, and a second point is refused. -/
theorem number_value_spec (ws : Char → Bool) (parse : List Char → Option ℚ) (hp : ws '%' = false)
    (t : List Char) (d g : Char) (hdg : d ≠ g) (h0 : t ≠ [])
    (h1 : ∀ c, t.head? = some c → ws c = false)
    (hl : ∀ c, t.getLast? = some c → c ≠ '%' ∧ ws c = false) (k : Nat) :
    let s := (t.filter (· ≠ g)).map fun x => if x = d then '.' else x
    numberValue ws parse (t ++ List.replicate k '%') [d] [g] =
      if s.count '.' ≤ 1 then (parse s).map fun n => n / 100 ^ k else none := by
  intro s
  have htr : trim ws (t ++ List.replicate k '%') = t ++ List.replicate k '%' := by
    apply trim_id
    · intro c hc
      cases t with
      | nil => exact absurd rfl h0
      | cons x t => exact h1 c hc
    · intro c hc
      cases k with
      | zero =>
        simp only [List.replicate_zero, List.append_nil] at hc
        exact (hl c hc).2
      | succ k =>
        rw [List.replicate_succ', ← List.append_assoc, List.getLast?_concat] at hc
        rw [← Option.some.inj hc]
        exact hp
  unfold numberValue
  rw [if_neg (by simp [hdg])]
  simp only [htr]
  rw [percents_spec ws hp t hl k _ (by simp; omega) 0]
  simp only [if_neg h0, cleaned_spec, Nat.zero_add]
  change (if 1 < s.count '.' then none else _) = _
  by_cases hc : s.count '.' ≤ 1
  · rw [if_neg (by omega), if_pos hc]
  · rw [if_pos (by omega), if_neg hc]

/-- **C119.** White space around the text changes nothing. -/
theorem number_value_spaces (ws : Char → Bool) (parse : List Char → Option ℚ)
    (l t r d g : List Char) (hl : ∀ c ∈ l, ws c = true) (hr : ∀ c ∈ r, ws c = true) (h0 : t ≠ [])
    (h1 : ∀ c, t.head? = some c → ws c = false) (h2 : ∀ c, t.getLast? = some c → ws c = false) :
    numberValue ws parse (l ++ (t ++ r)) d g = numberValue ws parse t d g := by
  have a : trim ws (l ++ (t ++ r)) = t := (NumFmt.parse_spaces ws l t r hl hr h0 h1 h2).1
  have b : trim ws t = t := trim_id ws t h1 h2
  unfold numberValue
  rw [a, b]

/-- **C119.** Equal separators, no decimal separator and a text of white space are refused. -/
theorem number_value_refuses (ws : Char → Bool) (parse : List Char → Option ℚ) (t d g : List Char) :
    numberValue ws parse t d d = none ∧ numberValue ws parse t [] g = none ∧
      numberValue ws parse [] d g = none := by
  refine ⟨by simp [numberValue], by simp [numberValue], ?_⟩
  unfold numberValue
  split
  · rfl
  · rfl

/-- **C119, refuted.** Group separators are left out behind the decimal separator too, and next to
one another: `1.2,3` is read like `1.23`. -/
theorem group_after_fails (ws : Char → Bool) (parse : List Char → Option ℚ)
    (hw : ∀ c ∈ "13,%".toList, ws c = false) :
    numberValue ws parse "1.2,3".toList ['.'] [','] = parse "1.23".toList ∧
      numberValue ws parse ",1,,2.3".toList ['.'] [','] = parse "12.3".toList := by
  have e1 : ws '1' = false := hw _ (by decide)
  have e3 : ws '3' = false := hw _ (by decide)
  have ec : ws ',' = false := hw _ (by decide)
  have hp : ws '%' = false := hw _ (by decide)
  constructor
  · have := number_value_spec ws parse hp "1.2,3".toList '.' ',' (by decide) (by decide)
      (by intro c hc; obtain rfl := Option.some.inj hc; exact e1)
      (by intro c hc; obtain rfl := Option.some.inj hc; exact ⟨by decide, e3⟩) 0
    simp only [List.replicate_zero, List.append_nil, pow_zero, div_one] at this
    rw [this]
    rw [if_pos (by decide)]
    have hs : ((("1.2,3".toList).filter (· ≠ ',')).map fun x => if x = '.' then '.' else x) =
        "1.23".toList := by decide
    rw [hs]
    cases parse "1.23".toList <;> rfl
  · have := number_value_spec ws parse hp ",1,,2.3".toList '.' ',' (by decide) (by decide)
      (by intro c h; obtain rfl := Option.some.inj h; exact ec)
      (by intro c h; obtain rfl := Option.some.inj h; exact ⟨by decide, e3⟩) 0
    simp only [List.replicate_zero, List.append_nil, pow_zero, div_one] at this
    rw [this]
    rw [if_pos (by decide)]
    have hs : (((",1,,2.3".toList).filter (· ≠ ',')).map fun x => if x = '.' then '.' else x) =
        "12.3".toList := by decide
    rw [hs]
    cases parse "12.3".toList <;> rfl

/-- **C119, refuted.** A point is a decimal separator even if another one is given and points are
not group separators. -/
theorem point_fails (ws : Char → Bool) (parse : List Char → Option ℚ) (h1 : ws '1' = false)
    (h5 : ws '5' = false) (hp : ws '%' = false) :
    numberValue ws parse "1.5".toList [','] [' '] = numberValue ws parse "1,5".toList [','] [' '] := by
  have a := number_value_spec ws parse hp "1.5".toList ',' ' ' (by decide) (by decide)
    (by intro c h; obtain rfl := Option.some.inj h; exact h1)
    (by intro c h; obtain rfl := Option.some.inj h; exact ⟨by decide, h5⟩) 0
  have b := number_value_spec ws parse hp "1,5".toList ',' ' ' (by decide) (by decide)
    (by intro c h; obtain rfl := Option.some.inj h; exact h1)
    (by intro c h; obtain rfl := Option.some.inj h; exact ⟨by decide, h5⟩) 0
  simp only [List.replicate_zero, List.append_nil] at a b
  rw [a, b]
  rfl

example : numberValue (· = ' ') (fun t => if t = "1234.50".toList then some (2469 / 2) else none)
    " 1.234,50%% ".toList [','] ['.'] = some (2469 / 20000) := by decide +kernel

end Verif.TextFn
