import Verif.Pretty.Props

/-!
# How operators group (C45)

A chain of operands and infix operators of any length, with any spaces, and the grouping the parser gives it.
-/

namespace Verif.Pretty

variable {α : Type}

/-! ## Specification -/

/-- The spreadsheet's table of infix operators, tightest first. -/
def levels : List (List Op) :=
  [[.colon], [.space], [.comma], [.pow], [.mul, .div], [.add, .sub], [.cat], [.eq, .lt, .gt, .le, .ge, .ne]]

/-- `a` stands in an earlier line of the table than `b`. -/
def Tighter (a b : Op) : Prop := ∃ i j : Nat, i < j ∧ (∃ l, levels[i]? = some l ∧ a ∈ l) ∧ ∃ l, levels[j]? = some l ∧ b ∈ l

/-- `a` and `b` stand in the same line. -/
def SameLine (a b : Op) : Prop := ∃ l ∈ levels, a ∈ l ∧ b ∈ l

/-- One link of a chain: spaces, an operator, spaces, an operand. -/
structure Link (α : Type) where
  before : Nat
  op : Op
  after : Nat
  operand : α

def linkToks (k : Link α) : List (Tok α) :=
  List.replicate k.before .ws ++ .infix k.op :: List.replicate k.after .ws ++ [.operand k.operand]

/-- The tokens of a chain. -/
def chain (a : α) (ks : List (Link α)) : List (Tok α) := .operand a :: ks.flatMap linkToks

/-- The operands and operators of a tree, from left to right. -/
inductive Reading : Ast α → α → List (Op × α) → Prop
  | atom (a : α) : Reading (.atom a) a []
  | bin {l r : Ast α} {a b : α} {xs ys : List (Op × α)} (op : Op) (hl : Reading l a xs) (hr : Reading r b ys) :
      Reading (.bin op l r) a (xs ++ (op, b) :: ys)

/-- Every operator to the left of a node's operator is tighter, or in the same line unless the line is `^`; every
operator to its right is tighter, or in the same line if that is `^`. -/
inductive Grouped : Ast α → Prop
  | atom (a : α) : Grouped (.atom a)
  | bin {l r : Ast α} {a b : α} {xs ys : List (Op × α)} (op : Op) (hl : Grouped l) (hr : Grouped r)
      (h1 : Reading l a xs) (h2 : Reading r b ys)
      (h3 : ∀ x ∈ xs, Tighter x.1 op ∨ (SameLine x.1 op ∧ op ≠ .pow))
      (h4 : ∀ y ∈ ys, Tighter y.1 op ∨ (SameLine y.1 op ∧ op = .pow)) : Grouped (.bin op l r)

/-! ## The table and the precedences -/

instance (a b : Op) : Decidable (SameLine a b) := by unfold SameLine; infer_instance

def lineOf (a : Op) : Nat := levels.findIdx fun l => decide (a ∈ l)

theorem lineOf_spec : ∀ a : Op, ∃ l, levels[lineOf a]? = some l ∧ a ∈ l := by
  intro a; cases a <;> exact ⟨_, rfl, by decide⟩

theorem tighter_of_lt {a b : Op} (h : b.prec < a.prec) : Tighter a b := by
  refine ⟨lineOf a, lineOf b, ?_, lineOf_spec a, lineOf_spec b⟩
  revert h
  cases a <;> cases b <;> decide

theorem sameLine_of_eq {a b : Op} (h : b.prec = a.prec) : SameLine a b := by
  revert h; cases a <;> cases b <;> decide

theorem nextMin_left {a b : Op} (h : b.prec < a.nextMin) : Tighter a b ∨ (SameLine a b ∧ b ≠ .pow) := by
  by_cases h1 : b.prec < a.prec
  · exact Or.inl (tighter_of_lt h1)
  · right
    have h2 : a.rightAssoc = false ∧ b.prec = a.prec := by
      unfold Op.nextMin at h
      cases hr : a.rightAssoc with
      | true => rw [hr] at h; simp at h; omega
      | false => rw [hr] at h; simp at h; exact ⟨rfl, by omega⟩
    refine ⟨sameLine_of_eq h2.2, ?_⟩
    rintro rfl
    revert h2; cases a <;> decide

theorem nextMin_right {a b : Op} (h : b.nextMin ≤ a.prec) : Tighter a b ∨ (SameLine a b ∧ b = .pow) := by
  by_cases h1 : b.prec < a.prec
  · exact Or.inl (tighter_of_lt h1)
  · right
    have h2 : b.rightAssoc = true ∧ b.prec = a.prec := by
      unfold Op.nextMin at h
      cases hr : b.rightAssoc with
      | true => rw [hr] at h; simp at h; exact ⟨rfl, by omega⟩
      | false => rw [hr] at h; simp at h; omega
    refine ⟨sameLine_of_eq h2.2, ?_⟩
    have := h2.1
    revert this; cases b <;> decide

/-! ## The parser on chains -/

theorem bp_ws (i n : Nat) (d : Bool) (m : Nat) (ts : List (Tok α)) :
    parseBp n d m (List.replicate i .ws ++ ts) = parseBp n d m ts := by
  induction i with
  | zero => rfl
  | succ i ih => rw [List.replicate_succ, List.cons_append, bp_ws1, ih]

theorem loop_wss (i n : Nat) (d : Bool) (m : Nat) (l : Ast α) (ts : List (Tok α)) :
    loop n d m l (List.replicate i .ws ++ ts) = loop n d m l ts := by
  induction i with
  | zero => rfl
  | succ i ih => rw [List.replicate_succ, List.cons_append, loop_ws1, ih]

theorem skipWs_replicate (i : Nat) (ts : List (Tok α)) : skipWs (List.replicate i .ws ++ ts) = skipWs ts := by
  induction i with
  | zero => rfl
  | succ i ih => rw [List.replicate_succ, List.cons_append, skipWs_ws, ih]

/-- The next operator of a chain is weaker than `k`. -/
def Weak (k : Nat) : List (Link α) → Prop
  | [] => True
  | x :: _ => x.op.prec < k

theorem stops_of_weak {k : Nat} {ks : List (Link α)} (h : Weak k ks) : Stops false k (ks.flatMap linkToks) := by
  cases ks with
  | nil => simp [Stops, skipWs]
  | cons x ks =>
    simp only [Weak] at h
    simp only [List.flatMap_cons, linkToks, List.append_assoc, Stops, skipWs_replicate, List.cons_append, skipWs]
    exact Or.inr h

def pairs (ks : List (Link α)) : List (Op × α) := ks.map fun k => (k.op, k.operand)

/-- A tree read from a chain whose rest is `ks'`. -/
structure Got (m : Nat) (e : Ast α) (a : α) (xs : List (Link α)) (ks' : List (Link α)) : Prop where
  reading : Reading e a (pairs xs)
  grouped : Grouped e
  weak : Weak m ks'
  above : ∀ x ∈ xs, m ≤ x.op.prec
  after : ∀ x ∈ xs, Weak x.op.nextMin ks'

theorem weak_mono {k k' : Nat} {ks : List (Link α)} (h : Weak k ks) (hk : k ≤ k') : Weak k' ks := by
  cases ks with
  | nil => trivial
  | cons x ks => simp only [Weak] at *; omega

theorem prec_le_nextMin (op : Op) : op.prec ≤ op.nextMin := by unfold Op.nextMin; split <;> omega

/-- The rest of a chain is unread up to leading spaces. -/
theorem ev_loop_chain : ∀ (k : Nat) (ks : List (Link α)), ks.length ≤ k → ∀ (m : Nat) (l : Ast α) (a : α) (xs : List (Link α)),
    Reading l a (pairs xs) → Grouped l → (∀ x ∈ xs, Weak x.op.nextMin ks) → (∀ x ∈ xs, m ≤ x.op.prec) →
    ∃ e ys ks', ks = ys ++ ks' ∧ Got m e a (xs ++ ys) ks' ∧
      Ev (fun n => loop n false m l (ks.flatMap linkToks)) (some (e, skipWs (ks'.flatMap linkToks))) := by
  intro k
  induction k with
  | zero =>
    intro ks hk m l a xs h1 h2 h3 h4
    have : ks = [] := List.length_eq_zero_iff.1 (by omega)
    subst this
    refine ⟨l, [], [], rfl, ⟨by simpa using h1, h2, trivial, by simpa using h4, fun _ _ => trivial⟩, ?_⟩
    exact ev_stop (stops_of_weak (ks := []) (by trivial)) l
  | succ k ih =>
    intro ks hk m l a xs h1 h2 h3 h4
    cases ks with
    | nil =>
      refine ⟨l, [], [], rfl, ⟨by simpa using h1, h2, trivial, by simpa using h4, fun _ _ => trivial⟩, ?_⟩
      exact ev_stop (stops_of_weak (ks := []) (by trivial)) l
    | cons x ks =>
      by_cases hx : x.op.prec < m
      · refine ⟨l, [], x :: ks, rfl, ⟨by simpa using h1, h2, hx, by simpa using h4, by simpa using h3⟩, ?_⟩
        exact ev_stop (stops_of_weak (ks := x :: ks) hx) l
      · -- the right operand
        obtain ⟨r, ys, ks', hks, hgot, hev⟩ := ih ks (by simpa using hk) x.op.nextMin (.atom x.operand) x.operand []
          (Reading.atom _) (Grouped.atom _) (by simp) (by simp)
        have hr : Ev (fun n => parseBp n false x.op.nextMin (List.replicate x.after .ws ++ .operand x.operand :: ks.flatMap linkToks))
            (some (r, skipWs (ks'.flatMap linkToks))) := by
          simp only [bp_ws]
          refine ev_bp (l := .atom x.operand) (ts' := ks.flatMap linkToks) (Ev.const fun n => ?_) hev
          simp [parsePrefix, skipWs]
        rw [List.nil_append] at hgot
        have hop : ∀ z ∈ xs, x.op.prec < z.op.nextMin := fun z hz => h3 z hz
        have hweak : ∀ z ∈ xs ++ x :: ys, Weak z.op.nextMin ks' := by
          intro z hz
          rcases List.mem_append.1 hz with hz | hz
          · have := hop z hz
            refine weak_mono hgot.weak ?_
            unfold Op.nextMin at this ⊢
            cases hxr : x.op.rightAssoc <;> cases hzr : z.op.rightAssoc <;> rw [hzr] at this <;> simp at this ⊢ <;> omega
          · rcases List.mem_cons.1 hz with rfl | hz
            · exact hgot.weak
            · exact hgot.after z hz
        have hreading : Reading (.bin x.op l r) a (pairs (xs ++ x :: ys)) := by
          have := Reading.bin x.op h1 hgot.reading
          simpa [pairs] using this
        have hgrouped : Grouped (.bin x.op l r) := by
          refine Grouped.bin x.op h2 hgot.grouped h1 hgot.reading ?_ ?_
          · intro p hp
            obtain ⟨z, hz, rfl⟩ := List.mem_map.1 hp
            exact nextMin_left (hop z hz)
          · intro p hp
            obtain ⟨z, hz, rfl⟩ := List.mem_map.1 hp
            exact nextMin_right (hgot.above z hz)
        have hlen : ks'.length ≤ k := by
          have := congrArg List.length hks
          simp at this hk; omega
        have habove : ∀ z ∈ xs ++ x :: ys, m ≤ z.op.prec := by
          intro z hz
          rcases List.mem_append.1 hz with hz | hz
          · exact h4 z hz
          · rcases List.mem_cons.1 hz with rfl | hz
            · omega
            · have := hgot.above z hz
              have := prec_le_nextMin x.op
              omega
        obtain ⟨e, zs, ks'', hks'', hgot'', hev''⟩ := ih ks' hlen m (.bin x.op l r) a (xs ++ x :: ys) hreading hgrouped
          hweak habove
        refine ⟨e, x :: ys ++ zs, ks'', ?_, ?_, ?_⟩
        · rw [hks, hks'']; simp
        · simpa using hgot''
        · refine hr.bind (h := fun n => loop n false m (.bin x.op l r) (ks'.flatMap linkToks)) hev'' fun n hn => ?_
          simp only [List.flatMap_cons, linkToks, List.append_assoc, loop_wss, List.cons_append, List.nil_append]
          rw [loop]
          simp only [skipWs, Bool.false_and, Bool.false_eq_true, if_false, if_neg hx, hn, loop_ws]

/-- With the fuel of `parse`, the result is the one found with enough fuel. -/
theorem parse_of_ev {ts : List (Tok α)} {e : Ast α} (h : Ev (fun n => parseBp n false 0 ts) (some (e, [])))
    (hs : skipWs ts = ts) (hne : ts ≠ []) : parse ts = some (some e) := by
  obtain ⟨N, hN⟩ := h
  simp only at hN
  have hfin : parseBp (fuel ts) false 0 ts = some (some (e, [])) := by
    rcases (total (fuel ts)).bp false 0 ts (by unfold fuel; omega) with h | ⟨x, rest, h, _⟩
    · have : ∀ k, parseBp (fuel ts + k) false 0 ts = some none := by
        intro k
        induction k with
        | zero => exact h
        | succ k ih => exact (mono _).bp _ _ _ _ ih
      have := this N
      rw [hN _ (by omega)] at this
      simp at this
    · have : ∀ k, parseBp (fuel ts + k) false 0 ts = some (some (x, rest)) := by
        intro k
        induction k with
        | zero => exact h
        | succ k ih => exact (mono _).bp _ _ _ _ ih
      have := this N
      rw [hN _ (by omega)] at this
      rw [h, ← this]
  unfold parse
  rw [hs]
  cases ts with
  | nil => exact absurd rfl hne
  | cons t ts => simp only [hfin, skipWs]

/-- **C45** Any chain of operands and infix operators parses, to a tree with the same operands and operators in the same
order, grouped by the table: operators of an earlier line first, operators of the same line from the left, `^` from the
right. -/
theorem chain_grouped (a : α) (ks : List (Link α)) :
    ∃ e, parse (chain a ks) = some (some e) ∧ Reading e a (pairs ks) ∧ Grouped e := by
  obtain ⟨e, ys, ks', hks, hgot, hev⟩ := ev_loop_chain ks.length ks (Nat.le_refl _) 0 (.atom a) a [] (Reading.atom a)
    (Grouped.atom a) (by simp) (by simp)
  have hk' : ks' = [] := by
    cases ks' with
    | nil => rfl
    | cons x xs => have := hgot.weak; simp [Weak] at this
  subst hk'
  have hys : ks = ys := by simpa using hks
  subst hys
  refine ⟨e, ?_, by simpa using hgot.reading, hgot.grouped⟩
  refine parse_of_ev ?_ rfl (by simp [chain])
  refine ev_bp (l := .atom a) (ts' := ks.flatMap linkToks) (Ev.const fun n => ?_) ?_
  · simp [parsePrefix, skipWs, chain]
  · simpa [skipWs] using hev

/-- The grouping is determined: two grouped trees with the same reading are equal. -/
theorem tighter_irrefl (a b : Op) (h1 : Tighter a b) : ¬ Tighter b a ∧ ¬ SameLine a b := by
  have huniq : ∀ (x : Op) (i : Nat) (l : List Op), levels[i]? = some l → x ∈ l → i = lineOf x := by
    intro x i l hi hx
    have hlt : i < 8 := by
      by_contra hc
      rw [List.getElem?_eq_none (by simp [levels]; omega)] at hi; simp at hi
    revert hx
    have : i = 0 ∨ i = 1 ∨ i = 2 ∨ i = 3 ∨ i = 4 ∨ i = 5 ∨ i = 6 ∨ i = 7 := by omega
    rcases this with rfl | rfl | rfl | rfl | rfl | rfl | rfl | rfl <;>
      (simp [levels] at hi; subst hi; cases x <;> decide)
  obtain ⟨i, j, hij, ⟨l, hl, ha⟩, ⟨l', hl', hb⟩⟩ := h1
  have e1 := huniq a i l hl ha
  have e2 := huniq b j l' hl' hb
  constructor
  · rintro ⟨i', j', hij', ⟨m, hm, hb'⟩, ⟨m', hm', ha'⟩⟩
    have e3 := huniq b i' m hm hb'
    have e4 := huniq a j' m' hm' ha'
    omega
  · rintro ⟨m, hm, ha', hb'⟩
    obtain ⟨k, hk, rfl⟩ := List.mem_iff_getElem.1 hm
    have e3 := huniq a k _ (List.getElem?_eq_getElem hk) ha'
    have e4 := huniq b k _ (List.getElem?_eq_getElem hk) hb'
    omega

theorem reading_unique {e : Ast α} {a b : α} {xs ys : List (Op × α)} (h : Reading e a xs) (h' : Reading e b ys) :
    a = b ∧ xs = ys := by
  induction h generalizing b ys with
  | atom a => cases h'; exact ⟨rfl, rfl⟩
  | bin op hl hr ihl ihr =>
    cases h' with
    | bin _ hl' hr' =>
      obtain ⟨rfl, rfl⟩ := ihl hl'
      obtain ⟨rfl, rfl⟩ := ihr hr'
      exact ⟨rfl, rfl⟩

/-- **C45** The table leaves no choice: there is only one grouped tree with a given reading. -/
theorem grouped_unique {e f : Ast α} {a : α} {xs : List (Op × α)} (he : Grouped e) (hf : Grouped f) (h1 : Reading e a xs)
    (h2 : Reading f a xs) : e = f := by
  induction he generalizing f a xs with
  | atom b =>
    cases h1
    generalize hz : ([] : List (Op × α)) = zs at h2
    cases h2 with
    | atom => rfl
    | bin op hl hr => simp at hz
  | @bin l r a0 b0 xs0 ys0 op hl hr hrl hrr h3 h4 ihl ihr =>
    obtain ⟨rfl, rfl⟩ := reading_unique h1 (Reading.bin op hrl hrr)
    cases hf with
    | atom b => generalize hz : xs0 ++ (op, b0) :: ys0 = zs at h2; cases h2; simp at hz
    | @bin l' r' a1 b1 xs1 ys1 op' hl' hr' hrl' hrr' h3' h4' =>
      obtain ⟨rfl, heq⟩ := reading_unique h2 (Reading.bin op' hrl' hrr')
      rcases List.append_eq_append_iff.1 heq with ⟨zs, hz1, hz2⟩ | ⟨zs, hz1, hz2⟩
      · cases zs with
        | nil =>
          simp at hz1 hz2
          obtain ⟨⟨rfl, rfl⟩, rfl⟩ := hz2
          subst hz1
          rw [ihl hl' hrl hrl', ihr hr' hrr hrr']
        | cons z zs =>
          exfalso
          simp at hz2
          obtain ⟨rfl, rfl⟩ := hz2
          -- op stands left of op' in the second tree, op' right of op in the first
          have g1 := h3' (op, b0) (by rw [hz1]; simp)
          have g2 := h4 (op', b1) (by simp)
          simp only at g1 g2
          rcases g1 with g1 | ⟨g1, g1'⟩ <;> rcases g2 with g2 | ⟨g2, g2'⟩
          · exact (tighter_irrefl _ _ g1).1 g2
          · obtain ⟨m, hm, p, q⟩ := g2
            exact (tighter_irrefl _ _ g1).2 ⟨m, hm, q, p⟩
          · obtain ⟨m, hm, p, q⟩ := g1
            exact (tighter_irrefl _ _ g2).2 ⟨m, hm, q, p⟩
          · subst g2'
            apply g1'
            obtain ⟨m, hm, p, q⟩ := g1
            revert p q
            simp only [levels, List.mem_cons, List.not_mem_nil, or_false] at hm
            rcases hm with rfl | rfl | rfl | rfl | rfl | rfl | rfl | rfl <;> cases op' <;> decide
      · cases zs with
        | nil =>
          simp at hz1 hz2
          obtain ⟨⟨rfl, rfl⟩, rfl⟩ := hz2
          subst hz1
          rw [ihl hl' hrl hrl', ihr hr' hrr hrr']
        | cons z zs =>
          exfalso
          simp at hz2
          obtain ⟨rfl, rfl⟩ := hz2
          have g1 := h3 (op', b1) (by rw [hz1]; simp)
          have g2 := h4' (op, b0) (by simp)
          simp only at g1 g2
          rcases g1 with g1 | ⟨g1, g1'⟩ <;> rcases g2 with g2 | ⟨g2, g2'⟩
          · exact (tighter_irrefl _ _ g1).1 g2
          · obtain ⟨m, hm, p, q⟩ := g2
            exact (tighter_irrefl _ _ g1).2 ⟨m, hm, q, p⟩
          · obtain ⟨m, hm, p, q⟩ := g1
            exact (tighter_irrefl _ _ g2).2 ⟨m, hm, q, p⟩
          · subst g2'
            apply g1'
            obtain ⟨m, hm, p, q⟩ := g1
            revert p q
            simp only [levels, List.mem_cons, List.not_mem_nil, or_false] at hm
            rcases hm with rfl | rfl | rfl | rfl | rfl | rfl | rfl | rfl <;> cases op <;> decide

/-- The reference operators. -/
def Op.isRef : Op → Bool
  | .colon | .space | .comma => true
  | _ => false

/-- **C45** A sign binds tighter than arithmetic and looser than the reference operators: `-a^b` is `(-a)^b`, `-a:b` is
`-(a:b)`. -/
theorem sign_groups (p : PreOp) (op : Op) (a b : α) :
    parse [.pre p, .operand a, .infix op, .operand b] =
      some (some (if op.isRef then .pre p (.bin op (.atom a) (.atom b)) else .bin op (.pre p (.atom a)) (.atom b))) := by
  cases op <;> rfl

/-- **C45** A sign in front of the right operand belongs to it. -/
theorem inner_sign_groups (p : PreOp) (op : Op) (a b : α) :
    parse [.operand a, .infix op, .pre p, .operand b] = some (some (.bin op (.atom a) (.pre p (.atom b)))) := by
  cases op <;> rfl

/-- **C45** `%` belongs to the operand before it, but covers a reference expression; `#` always belongs to the operand;
a sign covers both. -/
theorem postfix_groups (q : PostOp) (p : PreOp) (op : Op) (a b : α) :
    parse [.operand a, .infix op, .operand b, .post q] =
      some (some (if op.isRef && decide (q = .pct) then .post q (.bin op (.atom a) (.atom b))
        else .bin op (.atom a) (.post q (.atom b)))) ∧
    parse [.operand a, .post q, .infix op, .operand b] = some (some (.bin op (.post q (.atom a)) (.atom b))) ∧
    parse [.pre p, .operand a, .post q] = some (some (.pre p (.post q (.atom a)))) := by
  cases q <;> cases op <;> exact ⟨rfl, rfl, rfl⟩

/-- A chain with every kind of decision: `1 - 2 - 3 ^ 4 ^ 5 * 6 & 7 = 8`. -/
example :
    parse (chain 1 [⟨1, .sub, 1, 2⟩, ⟨1, .sub, 0, 3⟩, ⟨0, .pow, 0, 4⟩, ⟨0, .pow, 2, 5⟩, ⟨0, .mul, 0, 6⟩, ⟨0, .cat, 0, 7⟩,
      ⟨1, .eq, 1, 8⟩]) =
    some (some (.bin .eq (.bin .cat (.bin .sub (.bin .sub (.atom 1) (.atom 2))
      (.bin .mul (.bin .pow (.atom 3) (.bin .pow (.atom 4) (.atom 5))) (.atom 6))) (.atom 7)) (.atom 8))) := by rfl

end Verif.Pretty
