import Mathlib.Algebra.Order.Field.Rat
import Mathlib.Tactic.Ring
import Verif.NumFmt.Model

/-!
# TEXT of a number

Model of `/repo/crates/formualizer-eval/src/builtins/text/value_text.rs` 299-372 and 374-437 (`TextFn::eval` from
the number on, `format_percent`, `format_number_basic`, `format_with_thousands`).  Numbers are
rationals.  How a number is written with a given count of decimals (`format!("{:.p}")`) or with as
many as it needs (`to_string`), and the texts of dates, are parameters.
-/

namespace Verif.TextFn

open Verif.NumFmt (has)

/-- What comes from elsewhere: `{:.p}`, `to_string`, and `format_serial_date`, which may fail. -/
structure Env where
  fixed : Nat → ℚ → List Char
  shw : ℚ → List Char
  date : ℚ → List Char → Option (List Char)

/-- The separators of `format_with_thousands`: value_text.rs 408-422. -/
def group (ds : List Char) : List Char :=
  ((ds.reverse.zipIdx.flatMap fun x => if 0 < x.2 ∧ x.2 % 3 = 0 then [',', x.1] else [x.1])).reverse

/-- `format_with_thousands`: value_text.rs 385-437. -/
def thousands (E : Env) (n : ℚ) (fmt : List Char) : List Char :=
  let p := if has ".00".toList fmt then 2 else if has ".0".toList fmt then 1 else 0
  let t := E.fixed p |n|
  let int := group (t.takeWhile (· ≠ '.'))
  let r := match t.dropWhile (· ≠ '.') with
    | [] => int
    | _ :: dec => int ++ '.' :: dec.takeWhile (· ≠ '.')
  if n < 0 then '-' :: r else r

/-- `format_number_basic`: value_text.rs 377-383. -/
def basic (E : Env) (n : ℚ) : List Char := if n.den = 1 then E.fixed 0 n else E.shw n

/-- TEXT of a number; `none` is `#VALUE!`: value_text.rs 299-304 and 341-372. -/
def text (E : Env) (n : ℚ) (fmt : List Char) : Option (List Char) :=
  if fmt = [] then some []
  else if fmt.contains '%' then some (E.fixed 0 (n * 100) ++ ['%'])
  else if fmt.contains '#' && fmt.contains ',' then some (thousands E n fmt)
  else if has "0.00".toList fmt then some (E.fixed 2 n)
  else if fmt.contains '0' then
    if has ".00".toList fmt then some (E.fixed 2 n) else some (basic E n)
  else if has "yyyy".toList fmt || has "dd".toList fmt || has "mm".toList fmt then E.date n fmt
  else some (E.shw n)

/-! ## Separators -/

theorem zip_shift (f : Char × Nat → List Char) (hf : ∀ c k, 0 < k → f (c, k + 3) = f (c, k))
    (l : List Char) (k : Nat) (hk : 0 < k) :
    (l.zipIdx (k + 3)).flatMap f = (l.zipIdx k).flatMap f := by
  induction l generalizing k with
  | nil => rfl
  | cons c l ih =>
    rw [List.zipIdx_cons, List.zipIdx_cons, List.flatMap_cons, List.flatMap_cons, hf c k hk,
      show k + 3 + 1 = k + 1 + 3 by ring, ih (k + 1) (by omega)]

/-- **C118.** Up to three digits stand alone. -/
theorem group_few (ds : List Char) (h : ds.length ≤ 3) : group ds = ds := by
  match ds, h with
  | [], _ => rfl
  | [_], _ => rfl
  | [_, _], _ => rfl
  | [_, _, _], _ => rfl

/-- **C118.** The last three of more digits follow a comma, and the digits before them are separated
in the same way. -/
theorem group_more (ds : List Char) (x y z : Char) (h : ds ≠ []) :
    group (ds ++ [x, y, z]) = group ds ++ [',', x, y, z] := by
  obtain ⟨a, c, rfl⟩ : ∃ a c, ds = a ++ [c] := ⟨_, _, (List.dropLast_append_getLast h).symm⟩
  unfold group
  have hs := zip_shift (fun x => if 0 < x.2 ∧ x.2 % 3 = 0 then [',', x.1] else [x.1]) (by
    intro c k hk
    simp only [Nat.add_mod_right]
    simp [hk]) a.reverse 1 (by decide)
  simp only [List.reverse_append, List.reverse_cons, List.reverse_nil, List.nil_append,
    List.cons_append, List.zipIdx_cons, List.flatMap_cons]
  simp only [show 0 + 1 + 1 + 1 + 1 = 1 + 3 from rfl, hs]
  simp

/-- **C118.** Taking the commas out gives the digits back. -/
theorem group_digits (ds : List Char) (h : ',' ∉ ds) : (group ds).filter (· ≠ ',') = ds := by
  have key : ∀ (l : List Char) (k : Nat), ',' ∉ l →
      ((l.zipIdx k).flatMap fun x => if 0 < x.2 ∧ x.2 % 3 = 0 then [',', x.1] else [x.1]).filter
        (· ≠ ',') = l := by
    intro l
    induction l with
    | nil => intro k _; rfl
    | cons c l ih =>
      intro k hl
      have hc : c ≠ ',' := fun h => hl (by rw [h]; exact List.mem_cons_self ..)
      rw [List.zipIdx_cons, List.flatMap_cons, List.filter_append,
        ih (k + 1) fun h => hl (List.mem_cons_of_mem _ h)]
      by_cases hk : 0 < k ∧ k % 3 = 0
      · simp [hk, hc]
      · rw [if_neg hk]
        simp [hc]
  unfold group
  rw [List.filter_reverse, key _ _ (by simpa using h), List.reverse_reverse]

/-- **C118.** A number in a code with `#` and a comma is written with its digits separated, a point
and two decimals if the code has `.00`, one if it has `.0`, none otherwise, and a sign in front. -/
theorem thousands_spec (E : Env) (n : ℚ) (fmt : List Char) (hp : '%' ∉ fmt) (hh : '#' ∈ fmt)
    (hc : ',' ∈ fmt) (p : Nat)
    (h : (has ".00".toList fmt = true ∧ p = 2) ∨
      (has ".00".toList fmt = false ∧ has ".0".toList fmt = true ∧ p = 1) ∨
      (has ".00".toList fmt = false ∧ has ".0".toList fmt = false ∧ p = 0))
    (ds fs : List Char) (hd : '.' ∉ ds) (hf : '.' ∉ fs) :
    (E.fixed p |n| = ds ++ '.' :: fs →
      text E n fmt = some ((if n < 0 then ['-'] else []) ++ group ds ++ '.' :: fs)) ∧
    (E.fixed p |n| = ds →
      text E n fmt = some ((if n < 0 then ['-'] else []) ++ group ds)) := by
  have hne : fmt ≠ [] := by rintro rfl; cases hh
  have e1 : fmt.contains '%' = false := by simpa using hp
  have e2 : fmt.contains '#' = true := by simpa using hh
  have e3 : fmt.contains ',' = true := by simpa using hc
  have ht : text E n fmt = some (thousands E n fmt) := by
    unfold text
    rw [if_neg hne, e1, e2, e3]
    rfl
  have hpp : (if has ".00".toList fmt then 2 else if has ".0".toList fmt then 1 else 0) = p := by
    rcases h with ⟨h1, h2⟩ | ⟨h1, h2, h3⟩ | ⟨h1, h2, h3⟩
    · rw [h1, h2]; rfl
    · rw [h1, h2, h3]; rfl
    · rw [h1, h2, h3]; rfl
  have tw : ∀ l r : List Char, '.' ∉ l → (l ++ r).takeWhile (· ≠ '.') = l ++ r.takeWhile (· ≠ '.') := by
    intro l r hl
    apply List.takeWhile_append_of_pos
    intro c hc
    simp only [ne_eq, decide_not, Bool.not_eq_eq_eq_not, Bool.not_true, decide_eq_false_iff_not]
    rintro rfl
    exact hl hc
  have dw : ∀ l r : List Char, '.' ∉ l → (l ++ r).dropWhile (· ≠ '.') = r.dropWhile (· ≠ '.') := by
    intro l r hl
    apply List.dropWhile_append_of_pos
    intro c hc
    simp only [ne_eq, decide_not, Bool.not_eq_eq_eq_not, Bool.not_true, decide_eq_false_iff_not]
    rintro rfl
    exact hl hc
  rw [ht]
  unfold thousands
  simp only [hpp]
  constructor
  · intro hfix
    have a1 : (ds ++ '.' :: fs).takeWhile (· ≠ '.') = ds := by rw [tw _ _ hd]; simp
    have a2 : (ds ++ '.' :: fs).dropWhile (· ≠ '.') = '.' :: fs := by rw [dw _ _ hd]; simp
    have a3 : fs.takeWhile (· ≠ '.') = fs := by simpa using tw fs [] hf
    rw [hfix, a1, a2]
    simp only [a3]
    by_cases hn : n < 0 <;> simp [hn]
  · intro hfix
    have a1 : ds.takeWhile (· ≠ '.') = ds := by simpa using tw ds [] hd
    have a2 : ds.dropWhile (· ≠ '.') = [] := by simpa using dw ds [] hd
    rw [hfix, a1, a2]
    by_cases hn : n < 0 <;> simp [hn]

/-- **C118.** `0.00` writes two decimals, `0` a whole number without any, `General` and `@` the
number as it is; a code of dates is left to the writing of dates, and no code gives no text. -/
theorem plain_spec (E : Env) (n : ℚ) :
    text E n "0.00".toList = some (E.fixed 2 n) ∧
      (n.den = 1 → text E n "0".toList = some (E.fixed 0 n)) ∧
      text E n "General".toList = some (E.shw n) ∧ text E n "@".toList = some (E.shw n) ∧
      text E n "yyyy-mm-dd".toList = E.date n "yyyy-mm-dd".toList ∧
      text E n "dd".toList = E.date n "dd".toList ∧ text E n "mm".toList = E.date n "mm".toList ∧
      text E n "yyyy".toList = E.date n "yyyy".toList ∧
      text E n "#.00".toList = some (E.fixed 2 n) ∧ text E n [] = some [] := by
  refine ⟨rfl, fun h => ?_, rfl, rfl, rfl, rfl, rfl, rfl, rfl, rfl⟩
  change some (basic E n) = _
  rw [basic, if_pos h]

/-! ## What fails -/

/-- **C118, refuted.** A percentage never has decimals, whatever the code asks for. -/
theorem percent_fails (E : Env) (n : ℚ) (fmt : List Char) (h : '%' ∈ fmt) :
    text E n fmt = some (E.fixed 0 (n * 100) ++ ['%']) := by
  have hne : fmt ≠ [] := by rintro rfl; cases h
  unfold text
  rw [if_neg hne, if_pos (by simpa using h)]

/-- **C118, refuted.** Three places for decimals give two, one place or none gives as many
as the number has, a comma without `#` gives no separators, and places
for leading zeros give none. -/
theorem places_fail (E : Env) (n : ℚ) :
    text E n "0.000".toList = some (E.fixed 2 n) ∧
      text E n "#,##0.000".toList = text E n "#,##0.00".toList ∧
      (n.den ≠ 1 → text E n "0.0".toList = some (E.shw n) ∧ text E n "0".toList = some (E.shw n)) ∧
      (n.den = 1 → text E n "0,000".toList = some (E.fixed 0 n) ∧
        text E n "0.0".toList = some (E.fixed 0 n) ∧ text E n "00000".toList = some (E.fixed 0 n)) := by
  refine ⟨rfl, rfl, fun h => ⟨?_, ?_⟩, fun h => ⟨?_, ?_, ?_⟩⟩
  · change some (basic E n) = _
    rw [basic, if_neg h]
  · change some (basic E n) = _
    rw [basic, if_neg h]
  all_goals
    change some (basic E n) = _
    rw [basic, if_pos h]

/-- **C118, refuted.** A negative number that rounds to 0 keeps its sign. -/
theorem negative_zero_fails (E : Env) (n : ℚ) (h : n < 0) (h0 : E.fixed 0 |n| = ['0']) :
    text E n "#,##0".toList = some ['-', '0'] := by
  have := (thousands_spec E n "#,##0".toList (by decide) (by decide) (by decide) 0
    (Or.inr (Or.inr ⟨by decide, by decide, rfl⟩)) ['0'] [] (by decide) (by decide)).2 h0
  rw [this, if_pos h]
  rfl

/-- **C118, refuted.** Letters of dates and times that are single, or capitals, are not seen: the
code is ignored and the number written as it is. -/
theorem letters_fail (E : Env) (n : ℚ) :
    text E n "d/m/yy".toList = some (E.shw n) ∧ text E n "YYYY-MM-DD".toList = some (E.shw n) ∧
      text E n "h:m".toList = some (E.shw n) := ⟨rfl, rfl, rfl⟩

example : group "1234567".toList = "1,234,567".toList ∧ group "123456".toList = "123,456".toList := by
  decide

example : text ⟨fun _ _ => "1234567.50".toList, fun _ => [], fun _ _ => none⟩ (-(2469135 / 2))
    "#,##0.00".toList = some "-1,234,567.50".toList := by decide +kernel

end Verif.TextFn
