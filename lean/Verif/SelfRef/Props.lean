import Verif.SelfRef.Model

/-! # C105: a formula that reads its own cell through a range is circular -/
namespace Verif.SelfRef

open Verif.Ops.Ranges (Extent Bounds Hint resolveGraph Exact graph_covers)

/-! ### Specification -/

/-- `Occ k t s0 s`: the range `k` occurs in `t`, where `s` is selected from it by the INDEX directly around it (`none`: no
INDEX, or one whose numbers are not written down). `s0` is what is selected from `t` itself. -/
inductive Occ (k : Key) : Tree → Option Sel → Option Sel → Prop
  | here {sheet sr sc er ec s} (h : matching k (.range sheet sr sc er ec) = true) : Occ k (.range sheet sr sc er ec) s s
  | un {op e s0 s} (h : Occ k e none s) : Occ k (.un op e) s0 s
  | left {l r s0 s} (h : Occ k l none s) : Occ k (.bin l r) s0 s
  | right {l r s0 s} (h : Occ k r none s) : Occ k (.bin l r) s0 s
  | arg {args s0 s a} (hm : a ∈ args) (h : Occ k a none s) : Occ k (.fn false args) s0 s
  | first {a rest s0 s} (hl : rest.length = 1 ∨ rest.length = 2) (h : Occ k a (selection rest) s) :
      Occ k (.fn true (a :: rest)) s0 s
  | firstOther {a rest s0 s} (hl : ¬ (rest.length = 1 ∨ rest.length = 2)) (h : Occ k a none s) :
      Occ k (.fn true (a :: rest)) s0 s
  | behind {a rest s0 s b} (hm : b ∈ rest) (h : Occ k b none s) : Occ k (.fn true (a :: rest)) s0 s
  | callee {f args s0 s} (h : Occ k f none s) : Occ k (.call f args) s0 s
  | callArg {f args s0 s a} (hm : a ∈ args) (h : Occ k a none s) : Occ k (.call f args) s0 s
  | item {items s0 s a} (hm : a ∈ items) (h : Occ k a none s) : Occ k (.arr items) s0 s

/-! ### The visit of a formula -/

theorem merge_assoc (a b c : Use) : (a.merge b).merge c = a.merge (b.merge c) := by
  cases a <;> cases b <;> cases c <;> rfl

theorem merge_comm (a b : Use) : a.merge b = b.merge a := by cases a <;> cases b <;> rfl

def Facts (v : Option Sel → Use) (u : Use) (P : Option Sel → Prop) : Prop :=
  (u = .included ↔ ∃ s, P s ∧ v s = .included) ∧ (u = .noMatch ↔ ∀ s, ¬ P s)

theorem facts_congr {v : Option Sel → Use} {u : Use} {P Q : Option Sel → Prop} (h : Facts v u P) (e : ∀ s, P s ↔ Q s) :
    Facts v u Q := by
  have : P = Q := funext fun s => propext (e s)
  exact this ▸ h

theorem facts_none (v : Option Sel → Use) {P : Option Sel → Prop} (h : ∀ s, ¬ P s) : Facts v .noMatch P :=
  ⟨⟨fun e => (by cases e), fun ⟨s, a, _⟩ => absurd a (h s)⟩, ⟨fun _ => h, fun _ => rfl⟩⟩

theorem facts_merge {v : Option Sel → Use} {a b : Use} {P Q : Option Sel → Prop} (ha : Facts v a P) (hb : Facts v b Q) :
    Facts v (a.merge b) (fun s => P s ∨ Q s) := by
  constructor
  · have e : a.merge b = .included ↔ a = .included ∨ b = .included := by cases a <;> cases b <;> simp [Use.merge]
    rw [e, ha.1, hb.1]
    constructor
    · rintro (⟨s, h1, h2⟩ | ⟨s, h1, h2⟩)
      · exact ⟨s, .inl h1, h2⟩
      · exact ⟨s, .inr h1, h2⟩
    · rintro ⟨s, h1 | h1, h2⟩
      · exact .inl ⟨s, h1, h2⟩
      · exact .inr ⟨s, h1, h2⟩
  · have e : a.merge b = .noMatch ↔ a = .noMatch ∧ b = .noMatch := by cases a <;> cases b <;> simp [Use.merge]
    rw [e, ha.2, hb.2]
    exact ⟨fun h s hs => hs.elim (h.1 s) (h.2 s), fun h => ⟨fun s hs => h s (.inl hs), fun s hs => h s (.inr hs)⟩⟩

theorem verdict_ne (g : Option Extent) (own : Nat × Nat) (s : Option Sel) : verdict g own s ≠ .noMatch := by
  unfold verdict
  cases s with
  | none => simp
  | some s =>
    simp only
    cases selected g own s with
    | none => simp
    | some b => cases b <;> simp

mutual
theorem visit_facts (k : Key) (g : Option Extent) (own : Nat × Nat) : (t : Tree) → (s0 : Option Sel) →
    Facts (verdict g own) (visit k g own t s0) (Occ k t s0)
  | .range sheet sr sc er ec, s0 => by
    unfold visit
    by_cases h : matching k (.range sheet sr sc er ec) = true
    · rw [if_pos h]
      constructor
      · constructor
        · intro e
          exact ⟨s0, .here h, e⟩
        · rintro ⟨s, h1, h2⟩
          cases h1
          exact h2
      · constructor
        · intro e
          exact absurd e (verdict_ne g own s0)
        · intro e
          exact absurd (.here h) (e s0)
    · rw [if_neg h]
      refine facts_none _ fun s hs => ?_
      cases hs with
      | here h' => exact h h'
  | .fn true (a :: rest), s0 => by
    unfold visit
    by_cases hl : rest.length = 1 ∨ rest.length = 2
    · rw [if_pos hl]
      refine facts_congr (facts_merge (visit_facts k g own a (selection rest)) (visitAll_facts k g own rest)) fun s => ?_
      constructor
      · rintro (h | ⟨b, hb, h⟩)
        · exact .first hl h
        · exact .behind hb h
      · intro h
        cases h with
        | first _ h => exact .inl h
        | firstOther hn _ => exact absurd hl hn
        | behind hb h => exact .inr ⟨_, hb, h⟩
    · rw [if_neg hl]
      refine facts_congr (facts_merge (visit_facts k g own a none) (visitAll_facts k g own rest)) fun s => ?_
      constructor
      · rintro (h | ⟨b, hb, h⟩)
        · exact .firstOther hl h
        · exact .behind hb h
      · intro h
        cases h with
        | first hn _ => exact absurd hn hl
        | firstOther _ h => exact .inl h
        | behind hb h => exact .inr ⟨_, hb, h⟩
  | .fn true [], s0 => by
    unfold visit
    exact facts_none _ fun s h => by cases h
  | .fn false args, s0 => by
    unfold visit
    refine facts_congr (visitAll_facts k g own args) fun s => ?_
    constructor
    · rintro ⟨b, hb, h⟩
      exact .arg hb h
    · intro h
      cases h with
      | arg hb h => exact ⟨_, hb, h⟩
  | .un _ e, s0 => by
    unfold visit
    refine facts_congr (visit_facts k g own e none) fun s => ?_
    constructor
    · exact .un
    · intro h
      cases h with
      | un h => exact h
  | .bin l r, s0 => by
    unfold visit
    refine facts_congr (facts_merge (visit_facts k g own l none) (visit_facts k g own r none)) fun s => ?_
    constructor
    · rintro (h | h)
      · exact .left h
      · exact .right h
    · intro h
      cases h with
      | left h => exact .inl h
      | right h => exact .inr h
  | .call f args, s0 => by
    unfold visit
    refine facts_congr (facts_merge (visit_facts k g own f none) (visitAll_facts k g own args)) fun s => ?_
    constructor
    · rintro (h | ⟨b, hb, h⟩)
      · exact .callee h
      · exact .callArg hb h
    · intro h
      cases h with
      | callee h => exact .inl h
      | callArg hb h => exact .inr ⟨_, hb, h⟩
  | .arr items, s0 => by
    unfold visit
    refine facts_congr (visitAll_facts k g own items) fun s => ?_
    constructor
    · rintro ⟨b, hb, h⟩
      exact .item hb h
    · intro h
      cases h with
      | item hb h => exact ⟨_, hb, h⟩
  | .lit l, s0 => by
    unfold visit
    exact facts_none _ fun s h => by cases h
  | .ref, s0 => by
    unfold visit
    exact facts_none _ fun s h => by cases h

theorem visitAll_facts (k : Key) (g : Option Extent) (own : Nat × Nat) : (ts : List Tree) →
    Facts (verdict g own) (visitAll k g own ts) (fun s => ∃ a ∈ ts, Occ k a none s)
  | [] => by
    unfold visitAll
    exact facts_none _ fun s ⟨a, h, _⟩ => by cases h
  | t :: ts => by
    unfold visitAll
    refine facts_congr (facts_merge (visit_facts k g own t none) (visitAll_facts k g own ts)) fun s => ?_
    constructor
    · rintro (h | ⟨b, hb, h⟩)
      · exact ⟨t, List.mem_cons_self .., h⟩
      · exact ⟨b, List.mem_cons_of_mem _ hb, h⟩
    · rintro ⟨b, hb, h⟩
      rcases List.mem_cons.mp hb with e | hb
      · exact .inl (e ▸ h)
      · exact .inr ⟨b, hb, h⟩
end

/-- A selection that misses the cell of the formula. -/
def Misses (g : Option Extent) (own : Nat × Nat) (s : Option Sel) : Prop := ∃ x, s = some x ∧ selected g own x = some false

theorem verdict_excluded (g : Option Extent) (own : Nat × Nat) (s : Option Sel) :
    verdict g own s = .excluded ↔ Misses g own s := by
  unfold verdict Misses
  cases s with
  | none => simp
  | some s =>
    simp only
    cases h : selected g own s with
    | none => simp [h]
    | some b => cases b <;> simp [h]

/-- **C105** A range is passed over exactly if it occurs in the formula and each of its occurrences stands directly in an
INDEX with written numbers that miss the cell of the formula. -/
theorem excluded_iff (k : Key) (g : Option Extent) (own : Nat × Nat) (t : Tree) :
    visit k g own t none = .excluded ↔ (∃ s, Occ k t none s) ∧ ∀ s, Occ k t none s → Misses g own s := by
  have h := visit_facts k g own t none
  have e : ∀ u : Use, u = .excluded ↔ u ≠ .included ∧ u ≠ .noMatch := by intro u; cases u <;> simp
  rw [e, ne_eq, ne_eq, h.1, h.2]
  constructor
  · rintro ⟨h1, h2⟩
    refine ⟨Classical.byContradiction fun hc => h2 fun s hs => hc ⟨s, hs⟩, fun s hs => ?_⟩
    rw [← verdict_excluded, e]
    exact ⟨fun hv => h1 ⟨s, hs, hv⟩, verdict_ne g own s⟩
  · rintro ⟨⟨s, hs⟩, h2⟩
    refine ⟨?_, fun hc => hc s hs⟩
    rintro ⟨s', h1, h3⟩
    have := (verdict_excluded g own s').mpr (h2 s' h1)
    rw [h3] at this
    cases this

/-- **C105** A formula entered by an edit is recorded as reading itself exactly if one of its ranges covers its cell and is
not passed over. -/
theorem records_iff (f : Formula) (ranges : List Key) :
    records f ranges = true ↔ ∃ k ∈ ranges, covers f.sheet f.own k = true ∧
      ¬ ((∃ s, Occ k f.tree none s) ∧ ∀ s, Occ k f.tree none s → Misses (f.bounds k) f.own s) := by
  simp only [records, List.any_eq_true, Bool.and_eq_true, decide_eq_true_eq, ne_eq, excluded_iff]

/-! ### What INDEX selects -/

/-- The cell is one of those that INDEX selects, if the first row and column of the range are `sr` and `sc`. -/
def Selects (sr sc : Nat) (own : Nat × Nat) (i j : Int) : Prop :=
  0 ≤ i ∧ 0 ≤ j ∧ (i ≠ 0 → (own.1 : Int) = sr + i - 1) ∧ (j ≠ 0 → (own.2 : Int) = sc + j - 1)

/-- **C105** If the cell of the formula lies in the bounds, the numbers of an INDEX with three arguments miss it exactly if
it is in another row or in another column. The ends of the bounds do not matter. -/
theorem selected_two (g : Extent) (own : Nat × Nat) (hin : g.Has own.1 own.2) (i j : Int)
    (hi : g.sr + i < 4294967296) (hj : g.sc + j < 4294967296) :
    (selected (some g) own (i, some j) = some false ↔ ¬ Selects g.sr g.sc own i j) ∧
    (selected (some g) own (i, some j) = some true ↔ Selects g.sr g.sc own i j) := by
  obtain ⟨h1, h2, h3, h4⟩ := hin
  have e0 : selected (some g) own (i, some j) = selectedAt g own i j := rfl
  rw [e0]
  simp only [Selects, selectedAt]
  by_cases hn : i < 0 ∨ j < 0
  · rw [if_pos hn]
    constructor
    · simp only [true_iff]
      omega
    · simp only [Option.some.injEq, Bool.false_eq_true, false_iff]
      omega
  · rw [if_neg hn]
    unfold containsAt
    by_cases c1 : i = 0 ∧ j = 0
    · rw [if_pos c1]
      simp only [Option.some.injEq, decide_eq_false_iff_not, decide_eq_true_eq]
      constructor <;> omega
    · rw [if_neg c1]
      by_cases c2 : j = 0
      · rw [if_pos c2]
        have e : step32 g.sr i = some (g.sr + (i.toNat - 1)) := by
          simp only [step32]
          rw [if_pos (by omega), if_pos (by omega)]
        rw [e]
        simp only [Option.map_some, Option.some.injEq, decide_eq_false_iff_not, decide_eq_true_eq]
        constructor <;> omega
      · rw [if_neg c2]
        have e2 : step32 g.sc j = some (g.sc + (j.toNat - 1)) := by
          simp only [step32]
          rw [if_pos (by omega), if_pos (by omega)]
        by_cases c3 : i = 0
        · rw [if_pos c3, e2]
          simp only [Option.map_some, Option.some.injEq, decide_eq_false_iff_not, decide_eq_true_eq]
          constructor <;> omega
        · rw [if_neg c3]
          have e : step32 g.sr i = some (g.sr + (i.toNat - 1)) := by
            simp only [step32]
            rw [if_pos (by omega), if_pos (by omega)]
          rw [e, e2]
          simp only [Option.some.injEq, decide_eq_false_iff_not, decide_eq_true_eq]
          constructor <;> omega

/-- **One INDEX with two written numbers.** The range is passed over exactly if it is the registered range, on its
sheet, and row `i`, column `j` of it is not the own cell. -/
theorem index_passed_over (k : Key) (g : Extent) (own : Nat × Nat) (hin : g.Has own.1 own.2) (i j : Int)
    (hi : g.sr + i < 4294967296) (hj : g.sc + j < 4294967296) (sheet sr sc er ec : Option Nat) :
    visit k (some g) own (.fn true [.range sheet sr sc er ec, .lit (.int i), .lit (.int j)]) none = .excluded ↔
      (sheet = some k.sheet ∧ sr.map (· - 1) = k.b.sr ∧ sc.map (· - 1) = k.b.sc ∧
        er.map (· - 1) = k.b.er ∧ ec.map (· - 1) = k.b.ec) ∧ ¬ Selects g.sr g.sc own i j := by
  have e : visit k (some g) own (.fn true [.range sheet sr sc er ec, .lit (.int i), .lit (.int j)]) none =
      if matching k (.range sheet sr sc er ec) then verdict (some g) own (some (i, some j)) else .noMatch := by
    simp only [visit, visitAll, List.length_cons, List.length_nil]
    rw [if_pos (Or.inr trivial)]
    simp only [selection, staticIndex]
    by_cases h : matching k (.range sheet sr sc er ec) = true
    · rw [if_pos h]
      cases verdict (some g) own (some (i, some j)) <;> rfl
    · rw [if_neg h]; rfl
  rw [e]
  by_cases h : matching k (.range sheet sr sc er ec) = true
  · rw [if_pos h, verdict_excluded]
    simp only [matching, decide_eq_true_eq] at h
    have h2 := (selected_two g own hin i j hi hj).1
    constructor
    · rintro ⟨x, hx, hs⟩
      cases hx
      exact ⟨⟨h.1, h.2.1, h.2.2.2.1, h.2.2.1, h.2.2.2.2⟩, h2.1 hs⟩
    · rintro ⟨_, hs⟩
      exact ⟨_, rfl, h2.2 hs⟩
  · rw [if_neg h]
    simp only [matching, decide_eq_true_eq] at h
    constructor
    · intro x; cases x
    · rintro ⟨⟨a, b, c, d, e⟩, _⟩; exact absurd ⟨a, b, d, c, e⟩ h

/-- The cell of the formula lies in the bounds that the graph takes for a range that covers it, as the formula itself is a
used cell. -/
theorem own_in_bounds {used : Nat → Nat → Prop} {usedRows usedCols : Hint} (maxRow maxCol : Nat)
    (H : Exact used usedRows usedCols) {mine : Nat} {own : Nat × Nat} {k : Key} (hc : covers mine own k = true)
    (hu : used own.1 own.2) (hr : own.1 ≤ maxRow) (hcol : own.2 ≤ maxCol) :
    ∃ e, resolveGraph usedRows usedCols maxRow maxCol k.b = some e ∧ e.Has own.1 own.2 ∧
      e.sr = k.b.sr.getD 0 ∧ e.sc = k.b.sc.getD 0 := by
  simp only [covers, decide_eq_true_eq] at hc
  obtain ⟨_, h1, h2, h3, h4⟩ := hc
  obtain ⟨e, he, hin⟩ := graph_covers maxRow maxCol H (b := k.b) hu h1 h2 h3 h4 hr hcol
  refine ⟨e, he, hin, ?_⟩
  unfold resolveGraph at he
  simp only at he
  split at he
  · rw [← Option.some.inj he]
    exact ⟨rfl, rfl⟩
  · cases he

open Verif.RefFn (indexRef resolveBounds readRef Good In height cols pick)

/-- **C105** What is passed over is not read: if the written numbers miss the cell of the formula, the cells that INDEX reads
do not contain it, whatever end the range has when INDEX is computed (`b`, counted from 1). With one number the ranges must be
of one row both times or not of one row both times. Missing for the full statement: there it is false (`one_number_differs`). -/
theorem excluded_not_read_partial (ck : Bool) (view : RefFn.Ref → Option RefFn.Bounds) (base : RefFn.Ref) (p : RefFn.Lit)
    (c : Option RefFn.Lit) (b b' : RefFn.Bounds) (i : Int) (j : Option Int) (g : Extent) (own : Nat × Nat)
    (hb : resolveBounds view base = .ok b) (hgood : Good b) (hp : p.whole = .ok i)
    (hc : (c = none ∧ j = none) ∨ ∃ l v, c = some l ∧ l.whole = .ok v ∧ j = some v)
    (hi : i < 2147483648) (hj : ∀ v, j = some v → v < 2147483648)
    (hsr : b.sr = g.sr + 1) (hsc : b.sc = g.sc + 1) (hrow : j = none → (g.sr = g.er ↔ b.sr = b.er))
    (hin : g.Has own.1 own.2) (hmiss : selected (some g) own (i, j) = some false)
    (hread : (indexRef ck view base p c).bind readRef = .ok b') : ¬ In b' (own.1 + 1) (own.2 + 1) := by
  have hg := hgood
  obtain ⟨q1, q2, q3, q4, q5, q6⟩ := hgood
  have main : ∀ (p : RefFn.Lit) (l : RefFn.Lit) (x y : Int), p.whole = .ok x → l.whole = .ok y → x < 2147483648 →
      y < 2147483648 → ¬ Selects g.sr g.sc own x y → (indexRef ck view base p (some l)).bind readRef = .ok b' →
      ¬ In b' (own.1 + 1) (own.2 + 1) := by
    intro p l x y hp hl hx hy hns hrd hmem
    obtain ⟨m1, m2⟩ := RefFn.index_cells_partial ck view base p l b x y hb hg hp hl hx hy
    by_cases hr : 0 ≤ x ∧ x ≤ height b ∧ 0 ≤ y ∧ y ≤ cols b
    · obtain ⟨b'', e1, _, e3⟩ := m1 hr
      rw [e1] at hrd
      injection hrd with hrd
      subst hrd
      obtain ⟨_, k1, k2⟩ := (e3 _ _).mp hmem
      apply hns
      refine ⟨hr.1, hr.2.2.1, fun h => ?_, fun h => ?_⟩
      · have := k1 h
        omega
      · have := k2 h
        omega
    · rw [m2 hr] at hrd
      simp [RefFn.Out.bind] at hrd
  have hsr' : g.sr < 1048576 := by omega
  have hsc' : g.sc < 1048576 := by omega
  rcases hc with ⟨rfl, rfl⟩ | ⟨l, v, rfl, hl, rfl⟩
  · rw [RefFn.index_one ck view base p b hb] at hread
    by_cases h1 : g.sr = g.er
    · rw [if_pos ((hrow rfl).mp h1)] at hread
      have e : selected (some g) own (1, some i) = some false := by
        have : selected (some g) own (i, none) = selected (some g) own (1, some i) := by simp [selected, pickRC, h1, selectedAt]
        rw [← this]
        exact hmiss
      exact main (.int 1) p 1 i rfl hp (by omega) hi
        ((selected_two g own hin 1 i (by omega) (by omega)).1.mp e) hread
    · rw [if_neg (fun h => h1 ((hrow rfl).mpr h))] at hread
      have e : selected (some g) own (i, some 1) = some false := by
        have : selected (some g) own (i, none) = selected (some g) own (i, some 1) := by simp [selected, pickRC, h1, selectedAt]
        rw [← this]
        exact hmiss
      exact main p (.int 1) i 1 hp rfl hi (by omega)
        ((selected_two g own hin i 1 (by omega) (by omega)).1.mp e) hread
  · have hv := hj v rfl
    exact main p l i v hp hl hi hv ((selected_two g own hin i v (by omega) (by omega)).1.mp hmiss) hread

/-- The value an argument of INDEX has when it is computed, for the trees `static_index` takes: a sign before a number makes
a number (interpreter). -/
inductive Written : Tree → RefFn.Lit → Prop
  | lit {l} : Written (.lit l) l
  | plus {e l} (h : Written e l) : Written (.un .plus e) l
  | minusInt {e i} (h : Written e (.int i)) : Written (.un .minus e) (.int (-i))
  | minusNumber {e q} (h : Written e (.number q)) : Written (.un .minus e) (.number (-q))

theorem asI64_neg (q : Rat) (h : -9223372036854775808 < q ∧ q < 9223372036854775808) :
    RefFn.asI64 (-q) = - RefFn.asI64 q := by
  unfold RefFn.asI64
  have f1 : ⌊-q⌋ = -⌈q⌉ := Int.floor_neg
  have f2 : ⌈-q⌉ = -⌊q⌋ := Int.ceil_neg
  have b1 : -9223372036854775808 ≤ ⌊q⌋ := Int.le_floor.mpr (by exact_mod_cast h.1.le)
  have b2 : ⌈q⌉ ≤ 9223372036854775808 := Int.ceil_le.mpr (by exact_mod_cast h.2.le)
  have b3 : ⌊q⌋ < 9223372036854775808 := Int.floor_lt.mpr (by exact_mod_cast h.2)
  have b4 : -9223372036854775808 < ⌈q⌉ := Int.lt_ceil.mpr (by exact_mod_cast h.1)
  rcases lt_trichotomy q 0 with hq | hq | hq
  · have c0 : ⌈q⌉ ≤ 0 := Int.ceil_le.mpr (by exact_mod_cast hq.le)
    rw [if_pos (by linarith : (0 : Rat) ≤ -q), if_neg (by linarith : ¬ (0 : Rat) ≤ q), f1]
    omega
  · subst hq
    simp
  · have c0 : 0 ≤ ⌊q⌋ := Int.floor_nonneg.mpr hq.le
    rw [if_neg (by linarith : ¬ (0 : Rat) ≤ -q), if_pos hq.le, f2]
    omega

/-- **C105** The written numbers are those INDEX works with (numbers of less than 2^63). -/
theorem static_is_value {t : Tree} {l : RefFn.Lit} (h : Written t l)
    (hsmall : ∀ q, l = .number q → -9223372036854775808 < q ∧ q < 9223372036854775808) {i : Int}
    (hs : staticIndex t = some i) : l.whole = .ok i := by
  induction h generalizing i with
  | @lit l =>
    cases l with
    | number q => simpa [staticIndex, RefFn.Lit.whole] using hs
    | int v => simpa [staticIndex, RefFn.Lit.whole] using hs
    | other => simp [staticIndex] at hs
  | plus h ih => exact ih hsmall (by simpa [staticIndex] using hs)
  | @minusInt e v h ih =>
    simp only [staticIndex] at hs
    cases he : staticIndex e with
    | none => simp [he] at hs
    | some x =>
      have := ih (fun q hq => by cases hq) he
      simp only [RefFn.Lit.whole, RefFn.Out.ok.injEq] at this
      subst this
      rw [he] at hs
      simp only at hs
      split at hs
      · cases hs
      · simpa [RefFn.Lit.whole] using hs
  | @minusNumber e q h ih =>
    simp only [staticIndex] at hs
    cases he : staticIndex e with
    | none => simp [he] at hs
    | some x =>
      have hq := hsmall (-q) rfl
      have hq' : -9223372036854775808 < q ∧ q < 9223372036854775808 := ⟨by linarith [hq.2], by linarith [hq.1]⟩
      have := ih (fun q' e => by injection e with e; exact e ▸ hq') he
      simp only [RefFn.Lit.whole, RefFn.Out.ok.injEq] at this
      rw [he] at hs
      simp only at hs
      split at hs
      · cases hs
      · simp only [Option.some.injEq] at hs
        simp only [RefFn.Lit.whole, RefFn.Out.ok.injEq]
        rw [asI64_neg q hq', this, hs]

/-- **C105** (refuted for one number) B:D with the formula in C1. The graph sees only the row of the formula, takes the range as one row, and
the second cell is C1 itself. INDEX sees the values of further rows and reads B2. So `=INDEX(B:D, 2)` in C1 is reported as
circular although it does not read itself; with the rows the other way round it reads itself and is not reported. -/
theorem one_number_differs (ck : Bool) (n : Nat) (hn : 2 ≤ n ∧ n ≤ 1048576) :
    let base : RefFn.Ref := .range none none (some 2) none (some 4)
    (selected (some ⟨0, 1, 0, 3⟩) (0, 2) (2, none) = some true ∧
      indexRef ck (fun _ => some ⟨none, 1, 2, n, 4⟩) base (.int 2) none = .ok (.cell none 2 2)) ∧
    (selected (some ⟨0, 1, n - 1, 3⟩) (0, 2) (2, none) = some false ∧
      indexRef ck (fun _ => some ⟨none, 1, 2, 1, 4⟩) base (.int 2) none = .ok (.cell none 1 3)) := by
  refine ⟨⟨by decide, ?_⟩, ⟨?_, by cases ck <;> rfl⟩⟩
  · rw [RefFn.index_one ck _ _ _ ⟨none, 1, 2, n, 4⟩ rfl, if_neg (by simp only; omega),
      RefFn.indexRef_two ck _ _ _ _ ⟨none, 1, 2, n, 4⟩ 2 1 rfl rfl rfl, RefFn.indexAt_pos ck _ 2 1 (by omega) (by omega),
      RefFn.indexCell, RefFn.nth_small ck _ 2 (by simp only; omega) (by omega) (by omega),
      RefFn.nth_small ck _ 1 (by simp only; omega) (by omega) (by omega)]
    simp only [RefFn.Out.bind]
    rw [if_neg (by simp; omega)]
    rfl
  · have e : pickRC ⟨0, 1, n - 1, 3⟩ (2, none) = (2, 1) := by
      simp only [pickRC]
      rw [if_neg (by omega)]
    simp only [selected, e, selectedAt]
    rw [if_neg (by omega)]
    simp [containsAt, step32]

/-! ### Loading in bulk -/

/-- **C105** Ranges of which all bounds are written, and those of one whole row or one whole column, are registered in bulk
as they are by an edit, so the same self references are recorded at first. -/
theorem bulk_records_partial (f : Formula) (ranges : List Key)
    (h : ∀ k ∈ ranges, (∃ a b c d, k.b = ⟨some a, some b, some c, some d⟩ ∧ a ≤ c ∧ b ≤ d) ∨
      (∃ c, k.b = ⟨none, some c, none, some c⟩) ∨ (∃ r, k.b = ⟨some r, none, some r, none⟩)) :
    records f (bulkKeys ranges) = records f ranges := by
  have e : bulkKeys ranges = ranges := by
    induction ranges with
    | nil => rfl
    | cons k ks ih =>
      have ih' := ih fun x hx => h x (List.mem_cons_of_mem _ hx)
      have one : Stripes.rangeOfKey (Stripes.rangeKeyFromShared k.toRange) = some k.toRange := by
        obtain ⟨sheet, b⟩ := k
        rcases h _ (List.mem_cons_self ..) with ⟨a, b', c, d, e, l1, l2⟩ | ⟨c, e⟩ | ⟨r, e⟩
        · simp only at e
          subst e
          simp [Key.toRange, Stripes.rangeKeyFromShared, Stripes.rangeOfKey, Stripes.fromParts, l1, l2]
        · simp only at e
          subst e
          simp [Key.toRange, Stripes.rangeKeyFromShared, Stripes.rangeOfKey, Stripes.fromParts]
        · simp only at e
          subst e
          simp [Key.toRange, Stripes.rangeKeyFromShared, Stripes.rangeOfKey, Stripes.fromParts]
      simp only [bulkKeys, List.filterMap_cons, one, List.map_cons] at ih' ⊢
      rw [ih']
      rfl
  rw [e]

/-- **C105** (refuted) Building the edges at the end of a bulk load drops the self reference that was recorded: after any
history, a loaded formula has an edge to itself only if its own cell is among its single cells. -/
theorem bulk_drops (ops : List Edges.Op) (adj : List (Nat × List Nat)) (coords : List Edges.Key) (ids : List Nat)
    (hok : Edges.OkFrom [] (ops ++ [.bulk adj coords ids])) (v : Nat) (row : List Nat)
    (hrow : Edges.lastRow adj v = some row) :
    v ∈ (Edges.run (ops ++ [.bulk adj coords ids])).outEdges v ↔ v ∈ row := by
  rw [Edges.out_edges_exact _ hok]
  simp only [Edges.expected, List.foldl_append, List.foldl_cons, List.foldl_nil, Edges.expect, hrow]

/-- `=SUM(B:B)` on sheet 0. -/
def sumB : Tree := .fn false [.range (some 0) none (some 2) none (some 2)]

/-- `=SUM(A:C)` on sheet 0. -/
def sumAC : Tree := .fn false [.range (some 0) none (some 1) none (some 3)]

def keyB : Key := ⟨0, ⟨none, some 1, none, some 1⟩⟩

def keyAC : Key := ⟨0, ⟨none, some 0, none, some 2⟩⟩

/-- **C105** (refuted) `=SUM(B:B)` in B3 is circular if it is entered, whatever rows are used, and has no edge to itself if it is loaded. -/
theorem loaded_self_lost (bounds : Key → Option Extent) :
    records ⟨0, (2, 1), sumB, bounds⟩ [keyB] = true ∧
    records ⟨0, (2, 1), sumB, bounds⟩ (bulkKeys [keyB]) = true ∧
    7 ∉ (Edges.run [.addVertex (2, 1) 7, .addEdge 7 7, .bulk [(7, [])] [(2, 1)] [7]]).outEdges 7 := by
  refine ⟨?_, ?_, by decide +kernel⟩
  · have : visit keyB (bounds keyB) (2, 1) sumB none = .included := by
      simp [visit, visitAll, sumB, matching, keyB, verdict, Use.merge]
    simp only [records, List.any_cons, List.any_nil, Bool.or_false, this]
    decide
  · have e : bulkKeys [keyB] = [keyB] := by decide
    have : visit keyB (bounds keyB) (2, 1) sumB none = .included := by
      simp [visit, visitAll, sumB, matching, keyB, verdict, Use.merge]
    rw [e]
    simp only [records, List.any_cons, List.any_nil, Bool.or_false, this]
    decide

/-- **C105** (refuted) `=SUM(A:C)` in E1 does not read itself. Loaded in bulk its range has lost all bounds and covers E1, so a
self reference is recorded; it stays where the edges are added one by one (ingest_builder.rs 634-652, large sheets with few
formulas). -/
theorem loaded_self_added (bounds : Key → Option Extent) :
    records ⟨0, (0, 4), sumAC, bounds⟩ [keyAC] = false ∧ records ⟨0, (0, 4), sumAC, bounds⟩ (bulkKeys [keyAC]) = true := by
  have e : bulkKeys [keyAC] = [⟨0, ⟨none, none, none, none⟩⟩] := by decide
  refine ⟨?_, ?_⟩
  · have : covers 0 (0, 4) keyAC = false := by simp [covers, keyAC]
    simp [records, this]
  · rw [e]
    simp [records, covers, visit, visitAll, sumAC, matching, Use.merge]

/-! ### Cases -/

/-- `=INDEX(B:B, 2)` in B3 is passed over, `=INDEX(B:B, 3)` and `=INDEX(B:B, 2)+SUM(B:B)` are not. -/
example : visit keyB (some ⟨0, 1, 9, 1⟩) (2, 1) (.fn true [.range (some 0) none (some 2) none (some 2), .lit (.int 2)]) none =
    .excluded := by decide +kernel
example : visit keyB (some ⟨0, 1, 9, 1⟩) (2, 1) (.fn true [.range (some 0) none (some 2) none (some 2), .lit (.int 3)]) none =
    .included := by decide +kernel
example : visit keyB (some ⟨0, 1, 9, 1⟩) (2, 1)
    (.bin (.fn true [.range (some 0) none (some 2) none (some 2), .lit (.int 2)]) sumB) none = .included := by decide +kernel

example : Occ keyB (.fn true [.range (some 0) none (some 2) none (some 2), .lit (.int 2)]) none (some (2, none)) :=
  .first (.inl rfl) (.here (by decide))

/-- The hypotheses of `excluded_not_read_partial`: `=INDEX(B:B, 2)` in B3, ten rows used. -/
example : ¬ In ⟨none, 2, 2, 2, 2⟩ (2 + 1) (1 + 1) :=
  excluded_not_read_partial false (fun _ => some ⟨none, 1, 2, 10, 2⟩) (.range none none (some 2) none (some 2)) (.int 2) none
    ⟨none, 1, 2, 10, 2⟩ _ 2 none ⟨0, 1, 9, 1⟩ (2, 1) rfl ⟨by decide, by decide, by decide, by decide, by decide, by decide⟩ rfl
    (.inl ⟨rfl, rfl⟩) (by omega) (by simp) rfl rfl (by simp) ⟨by decide, by decide, by decide, by decide⟩ (by decide +kernel)
    (by decide +kernel)

/-- `-(+2.5)` is the number -2 both times. -/
example : (RefFn.Lit.number (-(5/2))).whole = .ok (-2) :=
  static_is_value (t := .un .minus (.un .plus (.lit (.number (5/2))))) (.minusNumber (.plus .lit))
    (fun q h => by injection h with h; subst h; norm_num) (by decide +kernel)

example : Selects 0 1 (2, 1) 3 0 := by unfold Selects; omega

end Verif.SelfRef
