import Verif.Ops.Model
import Mathlib.Algebra.Order.Ring.Rat

/-!
# Comparison operators
-/

namespace Verif.Ops

/-! ### Numbers and texts -/

theorem lt_asymm {a b : F} (h : a.lt b = true) : b.lt a = false := by
  cases a <;> cases b <;> simp_all [F.lt]
  exact le_of_lt h

theorem lt_ne {a b : F} (h : a.lt b = true) : a.eq b = false := by
  cases a <;> cases b <;> simp_all [F.lt, F.eq]
  exact ne_of_lt h

theorem eq_comm_ (a b : F) : a.eq b = b.eq a := by
  unfold F.eq
  by_cases h : a = b
  · rw [h]
  · simp [h, Ne.symm h]

theorem lt_total {a b : F} (ha : a ≠ .nan) (hb : b ≠ .nan) : a.lt b = true ∨ a.eq b = true ∨ b.lt a = true := by
  cases a <;> cases b <;> simp_all [F.lt, F.eq]
  exact lt_trichotomy _ _

theorem lt_trans_ {a b c : F} (h : a.lt b = true) (h' : b.lt c = true) : a.lt c = true := by
  cases a <;> cases b <;> cases c <;> simp_all [F.lt]
  exact lt_trans h h'

/-- Texts come in the order of a dictionary by the numbers of their characters. -/
theorem cmpStr_lt (s t : Str) : cmpStr s t = .lt ↔ (∃ x, x ≠ [] ∧ t = s ++ x) ∨ ∃ p a b x y, s = p ++ a :: x ∧ t = p ++ b :: y ∧ a.toNat < b.toNat := by
  induction s generalizing t with
  | nil =>
    cases t with
    | nil => simp [cmpStr]
    | cons b t => simp [cmpStr]
  | cons a s ih =>
    cases t with
    | nil => simp [cmpStr]
    | cons b t =>
      rw [cmpStr]
      by_cases h1 : a.toNat < b.toNat
      · rw [if_pos h1]
        exact ⟨fun _ => .inr ⟨[], a, b, s, t, rfl, rfl, h1⟩, fun _ => rfl⟩
      · rw [if_neg h1]
        by_cases h2 : b.toNat < a.toNat
        · rw [if_pos h2]
          constructor
          · intro h
            cases h
          · rintro (⟨x, _, hx⟩ | ⟨p, c, d, x, y, h3, h4, h5⟩)
            · cases hx
              omega
            · cases p with
              | nil =>
                cases h3
                cases h4
                omega
              | cons e p =>
                cases h3
                cases h4
                omega
        · rw [if_neg h2, ih]
          have hab : a = b := Char.ext (UInt32.toNat_inj.1 (show a.toNat = b.toNat by omega))
          subst hab
          constructor
          · rintro (⟨x, h3, rfl⟩ | ⟨p, c, d, x, y, rfl, rfl, h5⟩)
            · exact .inl ⟨x, h3, rfl⟩
            · exact .inr ⟨a :: p, c, d, x, y, rfl, rfl, h5⟩
          · rintro (⟨x, h3, h4⟩ | ⟨p, c, d, x, y, h3, h4, h5⟩)
            · cases h4
              exact .inl ⟨x, h3, rfl⟩
            · cases p with
              | nil =>
                cases h3
                cases h4
                omega
              | cons e p =>
                cases h3
                cases h4
                exact .inr ⟨p, c, d, x, y, rfl, rfl, h5⟩

theorem cmpStr_eq (s t : Str) : cmpStr s t = .eq ↔ s = t := by
  induction s generalizing t with
  | nil => cases t <;> simp [cmpStr]
  | cons a s ih =>
    cases t with
    | nil => simp [cmpStr]
    | cons b t =>
      rw [cmpStr]
      by_cases h1 : a.toNat < b.toNat
      · rw [if_pos h1]
        constructor
        · intro h
          cases h
        · intro h
          cases h
          omega
      · rw [if_neg h1]
        by_cases h2 : b.toNat < a.toNat
        · rw [if_pos h2]
          constructor
          · intro h
            cases h
          · intro h
            cases h
            omega
        · rw [if_neg h2, ih]
          have hab : a = b := Char.ext (UInt32.toNat_inj.1 (show a.toNat = b.toNat by omega))
          simp [hab]

theorem cmpStr_swap (s t : Str) : cmpStr t s = (cmpStr s t).swap := by
  induction s generalizing t with
  | nil => cases t <;> rfl
  | cons a s ih =>
    cases t with
    | nil => rfl
    | cons b t =>
      rw [cmpStr, cmpStr]
      by_cases h1 : a.toNat < b.toNat
      · rw [if_neg (by omega), if_pos h1, if_pos h1]
        rfl
      · by_cases h2 : b.toNat < a.toNat
        · rw [if_pos h2, if_neg h1, if_pos h2]
          rfl
        · rw [if_neg h2, if_neg h1, if_neg h1, if_neg h2, ih]

theorem cmpStr_trans {s t u : Str} (h : cmpStr s t = .lt) (h' : cmpStr t u = .lt) : cmpStr s u = .lt := by
  induction s generalizing t u with
  | nil =>
    cases t with
    | nil => cases h
    | cons b t =>
      cases u with
      | nil => cases h'
      | cons c u => rfl
  | cons a s ih =>
    cases t with
    | nil => cases h
    | cons b t =>
      cases u with
      | nil => cases h'
      | cons c u =>
        rw [cmpStr] at h h' ⊢
        by_cases h1 : a.toNat < b.toNat
        · by_cases h2 : b.toNat < c.toNat
          · rw [if_pos (by omega)]
          · rw [if_neg h2] at h'
            by_cases h3 : c.toNat < b.toNat
            · rw [if_pos h3] at h'
              cases h'
            · rw [if_pos (by omega)]
        · rw [if_neg h1] at h
          by_cases h4 : b.toNat < a.toNat
          · rw [if_pos h4] at h
            cases h
          · rw [if_neg h4] at h
            by_cases h2 : b.toNat < c.toNat
            · rw [if_pos (by omega)]
            · rw [if_neg h2] at h'
              by_cases h3 : c.toNat < b.toNat
              · rw [if_pos h3] at h'
                cases h'
              · rw [if_neg h3] at h'
                rw [if_neg (by omega), if_neg (by omega)]
                exact ih h h'

theorem ordNum_cmp (o : Ordering) : (ordNum o).lt (.fin 0) = decide (o = .lt) ∧ (F.fin 0).lt (ordNum o) = decide (o = .gt) ∧ (ordNum o).eq (.fin 0) = decide (o = .eq) := by
  cases o <;> decide +kernel

/-! ### The six operators belong together -/

/-- How two cells are compared: as numbers or as texts. -/
theorem holds_cases (env : Env) (a b : S) : (∃ x y, (∀ op, holds env op a b = cmpF op x y) ∧ (∀ op, holds env op b a = cmpF op y x) ∧ toNumber env a = .ok x ∧ toNumber env b = .ok y) ∨
    ∃ s t, (∀ op, holds env op a b = cmpText op s t) ∧ ∀ op, holds env op b a = cmpText op t s := by
  have gen : ∀ a b : S, (∀ op, holds env op a b = match toNumber env a, toNumber env b with
      | .ok x, .ok y => cmpF op x y
      | _, _ => cmpText op (toText env a) (toText env b)) →
      (∀ op, holds env op b a = match toNumber env b, toNumber env a with
      | .ok x, .ok y => cmpF op x y
      | _, _ => cmpText op (toText env b) (toText env a)) →
      (∃ x y, (∀ op, holds env op a b = cmpF op x y) ∧ (∀ op, holds env op b a = cmpF op y x) ∧ toNumber env a = .ok x ∧ toNumber env b = .ok y) ∨
      ∃ s t, (∀ op, holds env op a b = cmpText op s t) ∧ ∀ op, holds env op b a = cmpText op t s := by
    intro a b h1 h2
    cases ha : toNumber env a with
    | ok x =>
      cases hb : toNumber env b with
      | ok y =>
        refine .inl ⟨x, y, fun op => ?_, fun op => ?_, rfl, rfl⟩
        · rw [h1, ha, hb]
        · rw [h2, ha, hb]
      | error e =>
        refine .inr ⟨toText env a, toText env b, fun op => ?_, fun op => ?_⟩
        · rw [h1, ha, hb]
        · rw [h2, ha, hb]
    | error e =>
      refine .inr ⟨toText env a, toText env b, fun op => ?_, fun op => ?_⟩
      · rw [h1, ha]
      · rw [h2, ha]
        cases toNumber env b <;> rfl
  cases a with
  | num x =>
    cases b with
    | num y => exact .inl ⟨x, y, fun _ => rfl, fun _ => rfl, rfl, rfl⟩
    | _ => exact gen _ _ (fun _ => rfl) (fun _ => rfl)
  | bool x =>
    cases b with
    | bool y => exact .inl ⟨_, _, fun _ => rfl, fun _ => rfl, rfl, rfl⟩
    | _ => exact gen _ _ (fun _ => rfl) (fun _ => rfl)
  | text x =>
    cases b with
    | text y => exact .inr ⟨x, y, fun _ => rfl, fun _ => rfl⟩
    | _ => exact gen _ _ (fun _ => rfl) (fun _ => rfl)
  | empty => exact gen _ _ (fun _ => by cases b <;> rfl) (fun _ => by cases b <;> rfl)
  | err e => exact gen _ _ (fun _ => by cases b <;> rfl) (fun _ => by cases b <;> rfl)

/-- `<>` is not `=`; `<=` and `>=` are `<` or `=`, and `>` or `=`. -/
theorem holds_ops (env : Env) (a b : S) : holds env .ne a b = (!holds env .eq a b) ∧ holds env .le a b = (holds env .lt a b || holds env .eq a b) ∧
    holds env .ge a b = (holds env .gt a b || holds env .eq a b) := by
  rcases holds_cases env a b with ⟨x, y, h, _⟩ | ⟨s, t, h, _⟩
  · simp only [h]
    exact ⟨rfl, rfl, rfl⟩
  · simp only [h]
    exact ⟨rfl, rfl, rfl⟩

/-- Exchanging the operands turns the sign round. -/
theorem holds_swap (env : Env) (a b : S) : holds env .gt a b = holds env .lt b a ∧ holds env .eq a b = holds env .eq b a := by
  rcases holds_cases env a b with ⟨x, y, h, h', _⟩ | ⟨s, t, h, h'⟩
  · rw [h, h', h, h']
    exact ⟨rfl, eq_comm_ ..⟩
  · rw [h, h', h, h']
    unfold cmpText
    rw [cmpStr_swap (s.map lower) (t.map lower)]
    cases cmpStr (s.map lower) (t.map lower) <;> decide +kernel

/-- At most one of `<`, `=`, `>` holds. -/
theorem holds_one (env : Env) (a b : S) : (holds env .lt a b = true → holds env .eq a b = false ∧ holds env .gt a b = false) ∧ (holds env .eq a b = true → holds env .gt a b = false) := by
  rcases holds_cases env a b with ⟨x, y, h, _⟩ | ⟨s, t, h, _⟩
  · simp only [h, cmpF]
    refine ⟨fun hl => ⟨lt_ne hl, lt_asymm hl⟩, fun he => ?_⟩
    unfold F.eq at he
    simp only [Bool.and_eq_true, decide_eq_true_iff] at he
    obtain ⟨rfl, _⟩ := he
    cases hx : x.lt x
    · rfl
    · have := lt_asymm hx
      rw [hx] at this
      cases this
  · simp only [h, cmpText]
    cases cmpStr (s.map lower) (t.map lower) <;> decide +kernel

/-- One of `<`, `=`, `>` holds, unless a text that reads as not-a-number is compared with something else. -/
theorem holds_total_partial (env : Env) {a b : S} (ha : ∀ x, toNumber env a = .ok x → x ≠ .nan) (hb : ∀ x, toNumber env b = .ok x → x ≠ .nan) :
    holds env .lt a b = true ∨ holds env .eq a b = true ∨ holds env .gt a b = true := by
  rcases holds_cases env a b with ⟨x, y, h, _, hx, hy⟩ | ⟨s, t, h, _⟩
  · simp only [h, cmpF]
    exact lt_total (ha x hx) (hb y hy)
  · simp only [h, cmpText]
    cases cmpStr (s.map lower) (t.map lower) <;> decide +kernel

/-- The text `nan` reads as not-a-number, so that none of `1<"nan"`, `1="nan"`, `1>"nan"` holds. -/
theorem holds_nan (env : Env) (h : env.parse ['n', 'a', 'n'] = some .nan) (op : Cmp) : holds env op (.num (.fin 1)) (.text ['n', 'a', 'n']) = decide (op = .ne) := by
  have e : ∀ op, holds env op (.num (.fin 1)) (.text ['n', 'a', 'n']) = cmpF op (.fin 1) .nan := by
    intro op
    simp only [holds, toNumber, h]
  rw [e]
  cases op <;> decide +kernel

/-! ### Order within one kind -/

/-- A NaN differs from itself and is neither below nor above anything. -/
theorem holds_nan_self (env : Env) {a : S} (h : a = .num .nan) (op : Cmp) (x : F) : holds env op a (.num x) = decide (op = .ne) := by
  subst h
  cases op <;> cases x <;> simp [holds, cmpF, F.lt, F.eq]

/-- Numbers are compared as numbers. -/
theorem holds_numbers (env : Env) (p q : Rat) : (holds env .lt (.num (.fin p)) (.num (.fin q)) = true ↔ p < q) ∧ (holds env .eq (.num (.fin p)) (.num (.fin q)) = true ↔ p = q) := by
  simp [holds, cmpF, F.lt, F.eq]

/-- Texts are compared in the order of a dictionary, with small letters in place of ASCII capitals. -/
theorem holds_texts (env : Env) (s t : Str) : (holds env .lt (.text s) (.text t) = true ↔ cmpStr (s.map Char.toLower) (t.map Char.toLower) = .lt) ∧
    (holds env .eq (.text s) (.text t) = true ↔ s.map Char.toLower = t.map Char.toLower) := by
  have e : s.map lower = s.map Char.toLower ∧ t.map lower = t.map Char.toLower := ⟨rfl, rfl⟩
  simp only [holds, cmpText, e.1, e.2, cmpF]
  rw [(ordNum_cmp _).1, (ordNum_cmp _).2.2]
  simp [cmpStr_eq]

/-- Values of one kind: numbers, texts, or truth values. -/
def sameKind : S → S → Bool
  | .num _, .num _ => true
  | .text _, .text _ => true
  | .bool _, .bool _ => true
  | _, _ => false

/-- Within one kind `<` is transitive. -/
theorem holds_trans_partial (env : Env) {a b c : S} (hab : sameKind a b = true) (hbc : sameKind b c = true) (h : holds env .lt a b = true) (h' : holds env .lt b c = true) :
    holds env .lt a c = true := by
  cases a <;> cases b <;> cases hab <;> cases c <;> cases hbc
  · exact lt_trans_ h h'
  · simp only [holds, cmpText, cmpF, (ordNum_cmp _).1, decide_eq_true_iff] at h h' ⊢
    exact cmpStr_trans h h'
  · exact lt_trans_ h h'

/-! ### Order across kinds -/

/-- The way that `f64::from_str` and `f64::to_string` treat the texts and numbers below. -/
structure Usual (env : Env) : Prop where
  one : env.parse ['1'] = some (.fin 1)
  onePoint : env.parse ['1', '.', '0'] = some (.fin 1)
  letter : env.parse ['1', 'a'] = none
  nothing : env.parse [] = none
  nine : env.show_ (.fin 9) = ['9']
  ten : env.show_ (.fin 10) = ['1', '0']

/-- Numbers and texts together are in no order: `9<10`, `10<"1a"` and `"1a"<9`. -/
theorem holds_cycle {env : Env} (h : Usual env) : holds env .lt (.num (.fin 9)) (.num (.fin 10)) = true ∧ holds env .lt (.num (.fin 10)) (.text ['1', 'a']) = true ∧
    holds env .lt (.text ['1', 'a']) (.num (.fin 9)) = true := by
  refine ⟨by simp only [holds]; decide +kernel, ?_, ?_⟩
  · have e : holds env .lt (.num (.fin 10)) (.text ['1', 'a']) = cmpText .lt ['1', '0'] ['1', 'a'] := by
      simp only [holds, toNumber, h.letter, toText, h.ten]
    rw [e]
    decide +kernel
  · have e : holds env .lt (.text ['1', 'a']) (.num (.fin 9)) = cmpText .lt ['1', 'a'] ['9'] := by
      simp only [holds, toNumber, h.letter, toText, h.nine]
    rw [e]
    decide +kernel

/-- `=` is not transitive: `"1"=1` and `1="1.0"`, but not `"1"="1.0"`. -/
theorem holds_eq_intransitive {env : Env} (h : Usual env) : holds env .eq (.text ['1']) (.num (.fin 1)) = true ∧ holds env .eq (.num (.fin 1)) (.text ['1', '.', '0']) = true ∧
    holds env .eq (.text ['1']) (.text ['1', '.', '0']) = false := by
  refine ⟨?_, ?_, by simp only [holds]; decide +kernel⟩
  · simp only [holds, toNumber, h.one]
    decide +kernel
  · simp only [holds, toNumber, h.onePoint]
    decide +kernel

/-- Values of different kinds may be equal: `1="1"` and `TRUE=1`.  In Excel a number is less than a text and a text less than a truth value, always. -/
theorem holds_kinds {env : Env} (h : Usual env) : holds env .eq (.num (.fin 1)) (.text ['1']) = true ∧ holds env .eq (.bool true) (.num (.fin 1)) = true ∧
    holds env .gt (.num (.fin 9)) (.text []) = true := by
  refine ⟨?_, ?_, ?_⟩
  · simp only [holds, toNumber, h.one]
    decide +kernel
  · simp only [holds, toNumber]
    decide +kernel
  · simp only [holds, toNumber, h.nothing, toText, h.nine]
    decide +kernel

/-- An empty cell equals zero, `FALSE` and the empty text. -/
theorem holds_empty {env : Env} (h : env.parse [] = none) : holds env .eq .empty (.num (.fin 0)) = true ∧ holds env .eq .empty (.bool false) = true ∧ holds env .eq .empty (.text []) = true := by
  refine ⟨?_, ?_, ?_⟩
  · simp only [holds, toNumber]
    decide +kernel
  · simp only [holds, toNumber]
    decide +kernel
  · simp only [holds, toNumber, h, toText]
    decide +kernel

example : ∃ env : Env, Usual env :=
  ⟨⟨fun s => if s = ['1'] ∨ s = ['1', '.', '0'] then some (.fin 1) else none, fun _ => none, fun x => if x = .fin 9 then ['9'] else ['1', '0'], fun _ => [], fun _ => []⟩,
    by constructor <;> decide +kernel⟩

end Verif.Ops
