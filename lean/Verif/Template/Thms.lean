/-
Property C67: every cell of a span computes its own formula.
-/
import Verif.Template.AffineThms
import Verif.Template.Fixed

namespace Verif.Template

variable {F E : Type}

/-! ### The domain -/

theorem ends {l : List Nat} (h : l.Pairwise (· ≤ ·)) {x : Nat} (hx : x ∈ l) : l.head?.getD 0 ≤ x ∧ x ≤ l.getLast?.getD 0 := by
  constructor
  · cases l with
    | nil => cases hx
    | cons a l =>
      rcases List.mem_cons.1 hx with rfl | hx
      · exact Nat.le_refl _
      · exact (List.pairwise_cons.1 h).1 x hx
  · rcases List.eq_nil_or_concat l with rfl | ⟨l', a, rfl⟩
    · cases hx
    · rw [List.concat_eq_append] at h hx ⊢
      simp only [List.getLast?_append, List.getLast?_singleton, Option.some_or, Option.getD_some]
      rcases List.mem_append.1 hx with hx | hx
      · exact (List.pairwise_append.1 h).2.2 x hx a (by simp)
      · rw [List.mem_singleton.1 hx]

theorem mem_putIn {a x : Nat} {l : List Nat} : x ∈ putIn a l ↔ x = a ∨ x ∈ l := by
  induction l with
  | nil => simp [putIn]
  | cons b l ih =>
    unfold putIn
    split
    · simp
    · rw [List.mem_cons, ih, List.mem_cons]
      constructor
      · rintro (h | h | h) <;> simp [h]
      · rintro (h | h | h) <;> simp [h]

theorem putIn_pairwise {a : Nat} {l : List Nat} (h : l.Pairwise (· ≤ ·)) : (putIn a l).Pairwise (· ≤ ·) := by
  induction l with
  | nil => simp [putIn]
  | cons b l ih =>
    obtain ⟨h1, h2⟩ := List.pairwise_cons.1 h
    unfold putIn
    split
    · refine List.pairwise_cons.2 ⟨?_, h⟩
      intro x hx
      rcases List.mem_cons.1 hx with rfl | hx
      · assumption
      · have := h1 x hx; omega
    · refine List.pairwise_cons.2 ⟨?_, ih h2⟩
      intro x hx
      rcases mem_putIn.1 hx with rfl | hx
      · omega
      · exact h1 x hx

theorem sorted_pairwise (l : List Nat) : (sorted l).Pairwise (· ≤ ·) := by
  induction l with
  | nil => exact .nil
  | cons a l ih => exact putIn_pairwise ih

theorem mem_sorted {l : List Nat} {x : Nat} : x ∈ sorted l ↔ x ∈ l := by
  induction l with
  | nil => simp [sorted]
  | cons a l ih =>
    show x ∈ putIn a (sorted l) ↔ _
    rw [mem_putIn, ih, List.mem_cons]

theorem mem_distinct {l : List Nat} {x : Nat} : x ∈ distinct l ↔ x ∈ l := by rw [distinct, mem_sorted, List.mem_eraseDups]

theorem all_iff {l : List (Nat × Nat)} {f : Nat × Nat → Nat} {a : Nat} : (l.all fun c => f c == a) = true ↔ ∀ c ∈ l, f c = a := by simp

/-- Every candidate is in the domain that is found, and no cell twice. -/
theorem detectDomain_covers {cs : List (Nat × Nat)} {d : Domain} (h : detectDomain cs = some d) :
    cs.Nodup ∧ ∀ c ∈ cs, ∃ k, d.ordinalOf c.1 c.2 = some k := by
  unfold detectDomain at h
  split at h
  · cases h
  · split at h
    · cases h
    · rename_i hn
      refine ⟨Classical.not_not.1 hn, ?_⟩
      cases cs with
      | nil => cases h
      | cons f l =>
        dsimp only at h
        split at h
        · rename_i hc
          rw [all_iff] at hc
          split at h
          · have := Option.some.inj h
            subst this
            intro c hm
            have hr := ends (sorted_pairwise ((f :: l).map Prod.fst)) (mem_sorted.2 (List.mem_map_of_mem (f := Prod.fst) hm))
            exact ⟨_, if_pos ⟨hc c hm, hr.1, hr.2⟩⟩
          · cases h
        · split at h
          · rename_i hc
            rw [all_iff] at hc
            split at h
            · have := Option.some.inj h
              subst this
              intro c hm
              have hr := ends (sorted_pairwise ((f :: l).map Prod.snd)) (mem_sorted.2 (List.mem_map_of_mem (f := Prod.snd) hm))
              exact ⟨_, if_pos ⟨hc c hm, hr.1, hr.2⟩⟩
            · cases h
          · split at h
            · cases h
            · split at h
              · cases h
              · have := Option.some.inj h
                subst this
                intro c hm
                have hr := ends (sorted_pairwise ((f :: l).map Prod.fst).eraseDups) (mem_distinct.2 (List.mem_map_of_mem (f := Prod.fst) hm))
                have hc := ends (sorted_pairwise ((f :: l).map Prod.snd).eraseDups) (mem_distinct.2 (List.mem_map_of_mem (f := Prod.snd) hm))
                exact ⟨_, if_pos ⟨hr.1, hr.2, hc.1, hc.2⟩⟩

/-! ### The constants of the cells -/

/-- The cell of a candidate. -/
def Cand.cell (c : Cand F E) : Nat × Nat := (c.row, c.col)

theorem byCell_aux (l : List (Cand F E)) : ∀ (m : By F E) (k : Nat × Nat) (b : List (Const F E)),
    l.foldl (fun m c k => if k = (c.row, c.col) then some c.consts else m k) m k = some b →
    m k = some b ∨ ∃ c ∈ l, c.cell = k ∧ c.consts = b := by
  induction l with
  | nil => intro m k b h; exact Or.inl h
  | cons x l ih =>
    intro m k b h
    rcases ih _ k b h with h | ⟨c, hc, h⟩
    · dsimp only at h
      split at h
      · rename_i hk
        exact Or.inr ⟨x, by simp, hk.symm, Option.some.inj h⟩
      · exact Or.inl h
    · exact Or.inr ⟨c, by simp [hc], h⟩

theorem byCell_some {l : List (Cand F E)} {k : Nat × Nat} {b : List (Const F E)} (h : byCell l k = some b) : ∃ c ∈ l, c.cell = k ∧ c.consts = b := by
  rcases byCell_aux l _ k b h with h | h
  · cases h
  · exact h

theorem byCell_kept (l : List (Cand F E)) (k : Nat × Nat) : ∀ (m : By F E), (∀ c ∈ l, c.cell ≠ k) →
    l.foldl (fun m c k => if k = (c.row, c.col) then some c.consts else m k) m k = m k := by
  induction l with
  | nil => intro m _; rfl
  | cons x l ih =>
    intro m h
    rw [List.foldl_cons, ih _ fun c hc => h c (by simp [hc])]
    exact if_neg fun hk => h x (by simp) hk.symm

theorem byCell_own_aux (l : List (Cand F E)) : ∀ (m : By F E), (l.map Cand.cell).Nodup → ∀ c ∈ l,
    l.foldl (fun m c k => if k = (c.row, c.col) then some c.consts else m k) m c.cell = some c.consts := by
  induction l with
  | nil => intro m _ c hc; cases hc
  | cons x l ih =>
    intro m hn c hc
    rw [List.map_cons, List.nodup_cons] at hn
    rw [List.foldl_cons]
    by_cases hl : c ∈ l
    · exact ih _ hn.2 c hl
    · have hcx : c = x := by
        rcases List.mem_cons.1 hc with h | h
        · exact h
        · exact absurd h hl
      subst hcx
      rw [byCell_kept l _ _ fun y hy he => hn.1 (by rw [← he]; exact List.mem_map_of_mem hy)]
      exact if_pos rfl

theorem byCell_own {l : List (Cand F E)} (hn : (l.map Cand.cell).Nodup) {c : Cand F E} (hc : c ∈ l) : byCell l c.cell = some c.consts :=
  byCell_own_aux l _ hn c hc

/-- The encoding by steps gives each cell its own constants. -/
theorem detectAffine_own {N : Num F E} (L : N.Laws) {d : Domain} {m : By F E} {enc : Encoding F E} (h : detectAffine N d m = some enc)
    {r c k : Nat} (hd : d.ordinalOf r c = some k) {b base : List (Const F E)} (hb : m (r, c) = some b) (ho : m d.origin = some base)
    (hkind : base.map Const.kind = b.map Const.kind) (hbase : ∀ v ∈ base, v.Ok ∧ v.NonNeg N) (hv : ∀ v ∈ b, v.Ok ∧ v.NonNeg N) :
    enc.valuesAt N d r c = some b := by
  simp only [detectAffine, bind, Option.bind_eq_some_iff] at h
  obtain ⟨base', h1, h⟩ := h
  rw [h1] at ho
  have := Option.some.inj ho
  subst this
  split at h
  · cases h
  · have hm := iter_mem hd
    cases d with
    | rowRun r0 r1 c' =>
      simp only [Option.bind_eq_some_iff] at h
      obtain ⟨steps, h2, h⟩ := h
      have := Option.some.inj h
      subst this
      obtain ⟨ss, -, k2, k3⟩ := detectSteps_some (by simp) h2
      obtain ⟨b', k4, k5⟩ := k3 _ hm
      rw [hb] at k4
      have := Option.some.inj k4
      subst this
      have key := affineVals_own L k5 hkind fun v h => (hv v h).1
      rw [← k2] at key
      have hl : base'.length = steps.length := by
        rw [k2, List.length_map]
        exact Stepped.length k5
      simp only [Encoding.valuesAt]
      rw [if_neg (by omega)]
      exact key
    | colRun r' c0 c1 =>
      simp only [Option.bind_eq_some_iff] at h
      obtain ⟨steps, h2, h⟩ := h
      have := Option.some.inj h
      subst this
      obtain ⟨ss, -, k2, k3⟩ := detectSteps_some (by simp) h2
      obtain ⟨b', k4, k5⟩ := k3 _ hm
      rw [hb] at k4
      have := Option.some.inj k4
      subst this
      have key := affineVals_own L k5 hkind fun v h => (hv v h).1
      rw [← k2] at key
      have hl : base'.length = steps.length := by
        rw [k2, List.length_map]
        exact Stepped.length k5
      simp only [Encoding.valuesAt]
      rw [if_neg (by omega)]
      exact key
    | rect r0 r1 c0 c1 =>
      simp only [Option.bind_eq_some_iff] at h
      obtain ⟨right, -, h⟩ := h
      split at h
      · cases h
      · rename_i hlen
        simp only [Option.bind_eq_some_iff] at h
        obtain ⟨rs, h2, cs, h3, _, h4, h⟩ := h
        have := Option.some.inj h
        subst this
        obtain ⟨b', k1, k2, k3⟩ := rectAll_some h4 _ hm
        rw [hb] at k1
        have := Option.some.inj k1
        subst this
        have l1 := rectSteps_length (by omega) h2
        have l2 := rectSteps_length (by omega) h3
        have key := rectVals_own L k2.symm l1 l2 k3 hbase fun v h => (hv v h).2
        simp only [Encoding.valuesAt]
        rw [if_neg (by omega)]
        exact key

/-! ### Spans -/

/-- A candidate as the parser makes it: a formula whose references exist, at most 65536 constants, none of them negative or too large. -/
structure Cand.Ok (N : Num F E) (c : Cand F E) : Prop where
  formula : c.formula.Ok
  consts : ∀ v ∈ c.consts, v.Ok ∧ v.NonNeg N
  count : c.consts.length ≤ 65536

theorem prepare_some {N : Num F E} {cands : List (Cand F E)} {s : Span F E} (h : prepare N cands = some s) :
    ∃ o ∈ cands, (∀ c ∈ cands, c.key = o.key ∧ c.consts.map Const.kind = o.consts.map Const.kind) ∧
      detectDomain (cands.map Cand.cell) = some s.domain ∧ o.cell = s.domain.origin ∧ s.template = o.formula ∧ s.originRow = o.row + 1 ∧
      s.originCol = o.col + 1 ∧ ∃ uniq ids, dictionary N (byCell cands) s.domain.iter [] (fun _ => none) [] = some (uniq, ids) ∧
        s.encoding = (detectAffine N s.domain (byCell cands)).getD (.dictionary uniq ids) ∧ (s.constant = false → minCells ≤ cands.length) ∧
        ∃ first ∈ cands, s.constant = isConstant N first cands := by
  simp only [prepare, bind, Option.bind_eq_some_iff] at h
  obtain ⟨first, h1, h⟩ := h
  split at h
  · cases h
  · rename_i hk
    simp only [Option.bind_eq_some_iff] at h
    obtain ⟨d, h2, o, h3, h⟩ := h
    split at h
    · cases h
    rename_i hmin
    split at h
    · cases h
    · rename_i hkind
      simp only [Option.bind_eq_some_iff] at h
      obtain ⟨⟨uniq, ids⟩, h4, h⟩ := h
      have := Option.some.inj h
      subst this
      have hom := List.mem_of_find?_eq_some h3
      have hoe := List.find?_some h3
      have hk' : ∀ c ∈ cands, c.key = first.key := by simpa using hk
      have hkind' : ∀ c ∈ cands, c.consts.map Const.kind = first.consts.map Const.kind := by simpa using hkind
      exact ⟨o, hom, fun c hc => ⟨(hk' c hc).trans (hk' o hom).symm, (hkind' c hc).trans (hkind' o hom).symm⟩, h2, eq_of_beq hoe, rfl, rfl, rfl,
        uniq, ids, h4, rfl, fun hc => Nat.le_of_not_lt fun hlt => hmin ⟨hc, hlt⟩, first, List.mem_of_mem_head? h1, rfl⟩

/-- The cells of a span are those of its candidates. -/
theorem span_cells {N : Num F E} (L : N.Laws) {cands : List (Cand F E)} {s : Span F E} (h : prepare N cands = some s) (r c : Nat) :
    (∃ k, s.domain.ordinalOf r c = some k) ↔ ∃ x ∈ cands, x.row = r ∧ x.col = c := by
  obtain ⟨o, -, -, hd, -, -, -, -, uniq, ids, hdic, -, -⟩ := prepare_some h
  constructor
  · rintro ⟨k, hk⟩
    obtain ⟨b, -, hb, -⟩ := (dictionary_get L _ hdic (fun _ _ h => by cases h)).2.2 k _ (iter_get hk)
    obtain ⟨x, hx, he, -⟩ := byCell_some hb
    exact ⟨x, hx, congrArg Prod.fst he, congrArg Prod.snd he⟩
  · rintro ⟨x, hx, rfl, rfl⟩
    exact (detectDomain_covers hd).2 _ (List.mem_map_of_mem hx)

/-- Every cell of a span gets its own constants. -/
theorem span_constants {N : Num F E} (L : N.Laws) {cands : List (Cand F E)} (hok : ∀ c ∈ cands, c.Ok N) {s : Span F E}
    (h : prepare N cands = some s) {x : Cand F E} (hx : x ∈ cands) : s.encoding.valuesAt N s.domain x.row x.col = some x.consts := by
  obtain ⟨o, ho, hall, hd, horig, -, -, -, uniq, ids, hdic, henc, -⟩ := prepare_some h
  obtain ⟨hn, hcov⟩ := detectDomain_covers hd
  obtain ⟨k, hk⟩ := hcov _ (List.mem_map_of_mem hx)
  have hk : s.domain.ordinalOf x.row x.col = some k := hk
  have hbx : byCell cands (x.row, x.col) = some x.consts := byCell_own hn hx
  have hbo : byCell cands s.domain.origin = some o.consts := horig ▸ byCell_own hn ho
  rw [henc]
  cases ha : detectAffine N s.domain (byCell cands) with
  | some enc =>
    exact detectAffine_own L ha hk hbx hbo (hall x hx).2.symm (hok o ho).consts (hok x hx).consts
  | none =>
    obtain ⟨b, id, h1, h2, h3⟩ := (dictionary_get L _ hdic (fun _ _ h => by cases h)).2.2 k _ (iter_get hk)
    rw [hbx] at h1
    have := Option.some.inj h1
    subst this
    rw [List.length_nil, Nat.zero_add] at h2
    simp only [Option.getD_none, Encoding.valuesAt, hk, bind, Option.bind_some, h2, h3]

/-- In a span with one value, no reference depends on the cell, and the constants are the same. -/
theorem span_fixed {N : Num F E} (L : N.Laws) {cands : List (Cand F E)} {s : Span F E} (h : prepare N cands = some s) (hc : s.constant = true) :
    (∀ c ∈ cands, (canon (c.row + 1) (c.col + 1) .value c.formula.plain).fixed = true) ∧ ∀ c ∈ cands, ∀ d ∈ cands, c.consts = d.consts := by
  obtain ⟨o, ho, hall, -, -, -, -, -, -, -, -, -, -, first, hfirst, hcon⟩ := prepare_some h
  rw [hc] at hcon
  simp only [isConstant] at hcon
  obtain ⟨hf, hsame⟩ := Bool.and_eq_true_iff.1 hcon.symm
  have hl : ∀ c ∈ cands, c.consts = first.consts := fun c hc => constsSame_eq L (List.all_eq_true.1 hsame c hc)
  refine ⟨fun c hc => ?_, fun c hc d hd => (hl c hc).trans (hl d hd).symm⟩
  rw [← shape_fixed, payload_shape ((hall c hc).1.trans (hall first hfirst).1.symm), shape_fixed, hf]

/-- All cells of a span with one value have the stored formula. -/
theorem span_constant {N : Num F E} (L : N.Laws) {cands : List (Cand F E)} (hok : ∀ c ∈ cands, c.Ok N) {s : Span F E}
    (h : prepare N cands = some s) (hc : s.constant = true) {x : Cand F E} (hx : x ∈ cands) : x.formula.plain = s.template.plain := by
  obtain ⟨hf, hl⟩ := span_fixed L h hc
  obtain ⟨o, ho, hall, -, -, ht, -⟩ := prepare_some h
  rw [ht]
  exact fixed_same _ _ _ _ (payload_shape (hall x hx).1) (hf x hx) (plain_ok _ (hok x hx).formula) (plain_ok _ (hok o ho).formula) (hl x hx o ho)

/-- A cell of a span computes its own formula, if and only if the span has one value or the constants of the cell agree where those of the stored
formula share a node. -/
theorem span_computes_iff {N : Num F E} (L : N.Laws) {cands : List (Cand F E)} (hok : ∀ c ∈ cands, c.Ok N) {s : Span F E}
    (h : prepare N cands = some s) {x : Cand F E} (hx : x ∈ cands) :
    s.formulaAt N x.row x.col = some x.formula.plain ↔ s.constant = true ∨ Together ((lits s.template).map Prod.fst) x.consts := by
  have hv := span_constants L hok h hx
  have hcon := fun hc => span_constant L hok h hc hx
  obtain ⟨o, ho, hall, -, -, ht, hr, hc, -⟩ := prepare_some h
  have key := computes_own_iff (p := o.row + 1) (q := o.col + 1) (p' := x.row + 1) (q' := x.col + 1) (F := o.formula) (G := x.formula.plain)
    (labels := o.labels) (labels' := x.labels) (hall x hx).1.symm (hok o ho).formula (plain_ok _ (hok x hx).formula) (hok x hx).count
  unfold Span.formulaAt
  cases hs : s.constant with
  | true => simp [hcon hs]
  | false =>
    rw [hv, ht, hr, hc]
    simp only [bind, Option.bind_some, Bool.false_eq_true, if_false, false_or]
    rw [show (x.row : Int) + 1 = ((x.row + 1 : Nat) : Int) by omega, show (x.col : Int) + 1 = ((x.col + 1 : Nat) : Int) by omega]
    exact key

/-- If the constants of the stored formula are different nodes, every cell of the span computes its own formula. -/
theorem span_computes_own {N : Num F E} (L : N.Laws) {cands : List (Cand F E)} (hok : ∀ c ∈ cands, c.Ok N) {s : Span F E}
    (h : prepare N cands = some s) (hd : ((lits s.template).map Prod.fst).Nodup) {x : Cand F E} (hx : x ∈ cands) :
    s.formulaAt N x.row x.col = some x.formula.plain := by
  refine (span_computes_iff L hok h hx).2 (.inr fun i j id hi hj => ?_)
  rw [(List.getElem?_inj (List.getElem?_eq_some_iff.1 hi).1 hd).1 (hi.trans hj.symm)]

/-- If all cells have the constants of the stored formula, every cell of the span computes its own formula. -/
theorem span_computes_same {N : Num F E} (L : N.Laws) {cands : List (Cand F E)} (hok : ∀ c ∈ cands, c.Ok N) {s : Span F E}
    (h : prepare N cands = some s) (hone : ∀ a ∈ lits s.template, ∀ b ∈ lits s.template, a.1 = b.1 → a.2 = b.2) {x : Cand F E} (hx : x ∈ cands)
    (hsame : x.consts = (lits s.template).map Prod.snd) : s.formulaAt N x.row x.col = some x.formula.plain := by
  refine (span_computes_iff L hok h hx).2 (.inr fun i j id hi hj => ?_)
  rw [List.getElem?_map, Option.map_eq_some_iff] at hi hj
  obtain ⟨a, ha, rfl⟩ := hi
  obtain ⟨b, hb, he⟩ := hj
  rw [hsame, List.getElem?_map, List.getElem?_map, ha, hb, Option.map_some, Option.map_some,
    hone a (List.mem_of_getElem? ha) b (List.mem_of_getElem? hb) he.symm]

end Verif.Template
