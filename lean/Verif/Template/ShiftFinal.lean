/-
Property C68: spans that are moved, for all sequences of shifts.
-/
import Verif.Template.ShiftThms

namespace Verif.Template

variable {F E : Type}

/-! ### Templates -/

theorem shifted_some {t t' : Templates} {id row col id' : Nat} (h : t.shifted id row col = some (t', id')) :
    ∃ r r', t.records[id]? = some r ∧ t'.records[id']? = some r' ∧ r'.ast = r.ast ∧ r'.row = row ∧ r'.col = col ∧ t.records <+: t'.records := by
  simp only [Templates.shifted, bind, Option.bind_eq_some_iff] at h
  obtain ⟨r, h1, h⟩ := h
  refine ⟨r, ?_⟩
  split at h
  · rename_i e
    cases h
    exact ⟨r, h1, h1, rfl, e.1, e.2, List.prefix_rfl⟩
  · split at h
    · rename_i k hk
      cases h
      rw [List.findIdx?_eq_some_iff_getElem] at hk
      obtain ⟨hl, hk, -⟩ := hk
      have hk := eq_of_beq hk
      refine ⟨_, h1, List.getElem?_eq_getElem hl, ?_, ?_, ?_, List.prefix_rfl⟩ <;> rw [hk]
    · cases h
      refine ⟨{ r with row := row, col := col }, h1, ?_, rfl, rfl, rfl, List.prefix_append ..⟩
      dsimp only
      rw [List.getElem?_append_right (Nat.le_refl _), Nat.sub_self]
      rfl

theorem prefix_get {α : Type} {l l' : List α} (h : l <+: l') {i : Nat} {a : α} (hi : l[i]? = some a) : l'[i]? = some a := by
  obtain ⟨m, rfl⟩ := h
  rw [List.getElem?_append_left (List.getElem?_eq_some_iff.1 hi).1]
  exact hi

theorem shift_some {t t' : Templates} {p p' : Placed F E} {m : Move} (h : shift t p m = some (t', p')) :
    ∃ r r', t.records[p.template]? = some r ∧ t'.records[p'.template]? = some r' ∧ r'.ast = r.ast ∧ (r'.row : Int) = r.row + m.originRow ∧
      (r'.col : Int) = r.col + m.originCol ∧ p'.ast = r'.ast ∧ p'.originRow = r'.row ∧ p'.originCol = r'.col ∧
      p.domain.shift m.row m.col = some p'.domain ∧ p'.slots = p.slots ∧ p'.encoding = p.encoding ∧
      p'.constant = p.constant ∧ t.records <+: t'.records := by
  simp only [shift, bind, Option.bind_eq_some_iff] at h
  obtain ⟨r, h1, row, h2, col, h3, d, h4, ⟨t1, id⟩, h5, r', h6, h⟩ := h
  cases h
  obtain ⟨r1, r2, k1, k2, k3, k4, k5, k6⟩ := shifted_some h5
  rw [h1] at k1
  cases k1
  rw [h6] at k2
  cases k2
  exact ⟨r, r', h1, h6, k3, k4 ▸ shiftU32_some h2, k5 ▸ shiftU32_some h3, rfl, rfl, rfl, h4, rfl, rfl, rfl, k6⟩

/-- The distance of a sequence of shifts. -/
def total (ms : List Move) : Move where
  row := (ms.map Move.row).sum
  col := (ms.map Move.col).sum
  originRow := (ms.map Move.originRow).sum
  originCol := (ms.map Move.originCol).sum

/-- The formula of the constants is that of the template. -/
def Anchored (t : Templates) (p : Placed F E) : Prop :=
  ∃ r, t.records[p.template]? = some r ∧ p.ast = r.ast ∧ p.originRow = r.row ∧ p.originCol = r.col

theorem shifts_some {t t' : Templates} {p p' : Placed F E} {ms : List Move} (h : Shifts t p ms t' p') : ∀ {r : Rec}, t.records[p.template]? = some r →
    ∃ r', t'.records[p'.template]? = some r' ∧ r'.ast = r.ast ∧ (r'.row : Int) = r.row + (total ms).originRow ∧
      (r'.col : Int) = r.col + (total ms).originCol ∧ (ms ≠ [] ∨ Anchored t p → p'.ast = r'.ast ∧ p'.originRow = r'.row ∧ p'.originCol = r'.col) ∧
      p.domain.Moved (total ms).row (total ms).col p'.domain ∧ p'.slots = p.slots ∧ p'.encoding = p.encoding ∧
      p'.constant = p.constant := by
  induction h with
  | refl t p =>
    intro r hr
    refine ⟨r, hr, rfl, by simp [total], by simp [total], ?_, Or.inr ⟨rfl, rfl, rfl⟩, rfl, rfl, rfl⟩
    rintro (h | ⟨r1, h1, h2⟩)
    · exact absurd rfl h
    · rw [hr] at h1
      cases h1
      exact h2
  | @step t p m t' p' ms t'' p'' hs _ ih =>
    intro r hr
    obtain ⟨r0, r1, k0, k1, k2, k3, k4, k5, k6, k7, k8, k9, k10, k11, -⟩ := shift_some hs
    rw [hr] at k0
    cases k0
    obtain ⟨r2, l1, l2, l3, l4, l5, l6, l7, l8, l9⟩ := ih k1
    refine ⟨r2, l1, l2.trans k2, ?_, ?_, fun _ => l5 (Or.inr ⟨r1, k1, k5, k6, k7⟩), ?_, l7.trans k9, l8.trans k10, l9.trans k11⟩
    · rw [l3, k3]
      simp only [total, List.map_cons, List.sum_cons]
      omega
    · rw [l4, k4]
      simp only [total, List.map_cons, List.sum_cons]
      omega
    · exact moved_step k8 l6
  | @other t p t' ms t'' p'' hp _ ih =>
    intro r hr
    obtain ⟨r2, l1, l2, l3, l4, l5, l6⟩ := ih (prefix_get hp hr)
    refine ⟨r2, l1, l2, l3, l4, fun h => l5 (h.imp_right ?_), l6⟩
    rintro ⟨r1, h1, h2⟩
    exact ⟨r1, prefix_get hp h1, h2⟩

/-- Every key leads to a formula that has it. -/
def Templates.Ok (asts : Nat → Fm (Nat × Const F E)) (t : Templates) : Prop :=
  ∀ k id, t.interned k = some id → ∃ r labels, t.records[id]? = some r ∧ payload (canon r.row r.col .value (asts r.ast).plain) labels = k ∧
    (asts r.ast).Ok

theorem commit_some {N : Num F E} {t t' : Templates} {cands : List (Cand F E)} {ast : Nat} {exact : Text} {p : Placed F E}
    (h : commit N t cands ast exact = some (t', p)) : ∃ s first, prepare N cands = some s ∧ cands.head? = some first ∧
      (t', p.template) = t.intern ⟨ast, s.originRow, s.originCol, exact, first.key⟩ ∧ p.domain = s.domain ∧ p.ast = ast ∧
      p.originRow = s.originRow ∧ p.originCol = s.originCol ∧ p.slots = slotsOf s.template ∧ p.encoding = s.encoding ∧
      p.constant = s.constant := by
  simp only [commit, bind, Option.bind_eq_some_iff] at h
  obtain ⟨s, h1, first, h2, h⟩ := h
  cases h
  exact ⟨s, first, h1, h2, rfl, rfl, rfl, rfl, rfl, rfl, rfl, rfl⟩

theorem head_key {N : Num F E} {cands : List (Cand F E)} {s : Span F E} {first : Cand F E} (h : prepare N cands = some s) (hf : cands.head? = some first) :
    ∀ c ∈ cands, c.key = first.key := by
  obtain ⟨o, ho, hall, -⟩ := prepare_some h
  intro c hc
  rw [(hall c hc).1, (hall first (List.mem_of_head? hf)).1]

/-- Keys lead to formulas that have them, also after a span was added. -/
theorem commit_ok {N : Num F E} {asts : Nat → Fm (Nat × Const F E)} {t t' : Templates} {cands : List (Cand F E)} (hok : ∀ c ∈ cands, c.Ok N)
    {ast : Nat} {exact : Text} {p : Placed F E} (ht : t.Ok asts) (ha : ∀ s, prepare N cands = some s → asts ast = s.template)
    (h : commit N t cands ast exact = some (t', p)) : t'.Ok asts := by
  obtain ⟨s, first, h1, h2, h3, -⟩ := commit_some h
  obtain ⟨o, ho, -, -, -, e1, e2, e3, -⟩ := prepare_some h1
  intro k id hk
  unfold Templates.intern at h3
  split at h3
  · have h3 : t' = t := congrArg Prod.fst h3
    rw [h3] at hk ⊢
    exact ht k id hk
  · have h3 := congrArg Prod.fst h3
    dsimp only at h3
    subst h3
    dsimp only at hk ⊢
    split at hk
    · rename_i hk'
      cases hk
      refine ⟨_, o.labels, by rw [List.getElem?_append_right (Nat.le_refl _), Nat.sub_self]; rfl, ?_, ?_⟩
      · rw [hk', ha s h1, e1, e2, e3]
        exact head_key h1 h2 o ho
      · rw [ha s h1, e1]
        exact (hok o ho).formula
    · obtain ⟨r, labels, k1, k2⟩ := ht k id hk
      exact ⟨r, labels, prefix_get (List.prefix_append ..) k1, k2⟩

/-! ### What a moved cell computes -/

/-- The formula of a moved cell, in terms of the template of its span: it is the moved formula exactly when the constants of the template
become those of the cell. -/
theorem moved_cell_iff {N : Num F E} (L : N.Laws) {asts : Nat → Fm (Nat × Const F E)} {t t1 t' : Templates} {cands : List (Cand F E)}
    (hok : ∀ c ∈ cands, c.Ok N) {ast : Nat} {exact : Text} {p p' : Placed F E} (ht : t.Ok asts)
    (ha : ∀ s, prepare N cands = some s → asts ast = s.template) (h : commit N t cands ast exact = some (t1, p)) {ms : List Move} (hms : ms ≠ [])
    (hs : Shifts t1 p ms t' p') {r : Rec} (hr : t1.records[p.template]? = some r) {x : Cand F E} (hx : x ∈ cands) {G : Fm (Const F E)}
    (hG : moveRefs ((total ms).row - (total ms).originRow) ((total ms).col - (total ms).originCol) x.formula.plain = some G) {row col : Nat}
    (hrow : (row : Int) = x.row + (total ms).row) (hcol : (col : Int) = x.col + (total ms).col) :
    p'.formulaAt N asts row col = some G ↔
      if p.constant then (lits (asts r.ast)).map Prod.snd = x.consts
      else ∃ vals, p.encoding.valuesAt N p'.domain row col = some vals ∧ (lits (asts r.ast)).map (pick p.slots vals) = x.consts := by
  have ht1 := commit_ok hok ht ha h
  obtain ⟨s, first, h1, h2, h3, h4, h5, h6, h7, h8, h9, h10⟩ := commit_some h
  obtain ⟨r', k1, k2, k3, k4, k5, k6, k7, k8, k9⟩ := shifts_some hs hr
  obtain ⟨l1, l2, l3⟩ := k5 (Or.inl hms)
  have hid : t1.interned first.key = some p.template := by
    unfold Templates.intern at h3
    split at h3
    · rename_i id hid
      have h3 : t1 = t ∧ p.template = id := Prod.mk.injEq .. ▸ h3
      rw [h3.1, h3.2]
      exact hid
    · have h3 : t1 = _ ∧ p.template = t.records.length := Prod.mk.injEq .. ▸ h3
      rw [h3.1, h3.2]
      simp
  obtain ⟨r0, labels, m1, m2, m3⟩ := ht1 _ _ hid
  rw [hr] at m1
  cases m1
  have hkey := m2.trans (head_key h1 h2 x hx).symm
  have key := fun vals => moved_iff (slots := p.slots) (vals := vals) (asts r.ast) x.formula.plain G _ _ (payload_shape hkey) m3
    (plain_ok _ (hok x hx).formula) hG
  unfold Placed.formulaAt
  rw [k7, k8, k9, l1, l2, l3, k2]
  cases hc : p.constant with
  | true =>
    obtain ⟨hfix, -⟩ := span_fixed L h1 (h10 ▸ hc)
    have hx' : (canon (x.row + 1) (x.col + 1) .value x.formula.plain).fixed = true := hfix x hx
    have hT : (canon r.row r.col .value (asts r.ast).plain).fixed = true := by
      rw [← shape_fixed, payload_shape hkey, shape_fixed, hx']
    have hGx : x.formula.plain = G := Option.some.inj ((moveRefs_fixed _ _ hx').symm.trans hG)
    subst hGx
    simp only [if_true, Option.some.injEq]
    rw [← lits_plain]
    constructor
    · intro e
      rw [e]
      rfl
    · intro e
      exact fixed_same _ _ _ _ (payload_shape hkey) hT (plain_ok _ m3) (plain_ok _ (hok x hx).formula) e
  | false =>
  simp only [Bool.false_eq_true, if_false]
  simp only [bind, Option.bind_eq_some_iff]
  rw [show (row : Int) + 1 - r'.row = ((x.row + 1 : Nat) : Int) - r.row + ((total ms).row - (total ms).originRow) by omega,
    show (col : Int) + 1 - r'.col = ((x.col + 1 : Nat) : Int) - r.col + ((total ms).col - (total ms).originCol) by omega]
  constructor
  · rintro ⟨vals, v1, v2⟩
    exact ⟨vals, v1, (key vals).1 v2⟩
  · rintro ⟨vals, v1, v2⟩
    exact ⟨vals, v1, (key vals).2 v2⟩

theorem nodup_together {V : Type} {ids : List Nat} (h : ids.Nodup) (vals : List V) : Together ids vals := by
  intro i j id hi hj
  rw [(List.getElem?_inj (List.getElem?_eq_some_iff.1 hi).1 h).1 (hi.trans hj.symm)]

/-- A span with its own template, whose constants are different nodes: after any shifts along one axis, a cell computes its moved formula
exactly when the span has one value or the table of constants does not change along that axis. -/
theorem own_template_iff {N : Num F E} (L : N.Laws) {asts : Nat → Fm (Nat × Const F E)} {t t1 t' : Templates} {cands : List (Cand F E)}
    (hok : ∀ c ∈ cands, c.Ok N) {ast : Nat} {exact : Text} {p p' : Placed F E} (ht : t.Ok asts)
    (ha : ∀ s, prepare N cands = some s → asts ast = s.template) (hnew : ∀ c ∈ cands, t.interned c.key = none)
    (hn : ((lits (asts ast)).map Prod.fst).Nodup) (h : commit N t cands ast exact = some (t1, p)) {ms : List Move} (hms : ms ≠ [])
    (hs : Shifts t1 p ms t' p') (hz : (total ms).row = 0 ∨ (total ms).col = 0) {x : Cand F E} (hx : x ∈ cands) {G : Fm (Const F E)}
    (hG : moveRefs ((total ms).row - (total ms).originRow) ((total ms).col - (total ms).originCol) x.formula.plain = some G) {row col : Nat}
    (hrow : (row : Int) = x.row + (total ms).row) (hcol : (col : Int) = x.col + (total ms).col) :
    p'.formulaAt N asts row col = some G ↔ p.constant = true ∨ p.encoding.Still (total ms).row (total ms).col := by
  obtain ⟨s, first, h1, h2, h3, h4, h5, h6, h7, h8, h9, h10⟩ := commit_some h
  unfold Templates.intern at h3
  rw [hnew first (List.mem_of_head? h2)] at h3
  have h3 : t1 = _ ∧ p.template = t.records.length := Prod.mk.injEq .. ▸ h3
  have hr : t1.records[p.template]? = some ⟨ast, s.originRow, s.originCol, exact, first.key⟩ := by
    rw [h3.1, h3.2]
    dsimp only
    rw [List.getElem?_append_right (Nat.le_refl _), Nat.sub_self]
    rfl
  rw [moved_cell_iff L hok ht ha h hms hs hr hx hG hrow hcol]
  obtain ⟨r', -, -, -, -, -, hd, -, -, -⟩ := shifts_some hs hr
  have hv := span_constants L hok h1 hx
  rw [← h9, ← h4] at hv
  obtain ⟨o, ho, hall, -, -, e1, -⟩ := prepare_some h1
  have hlen : (lits (asts ast)).length = x.consts.length := by
    have := (hall x hx).2
    have := congrArg List.length this
    rw [List.length_map, List.length_map] at this
    rw [this, ha s h1, e1, Cand.consts, lits_plain, List.length_map]
  have hpick : ∀ vals, vals.length = x.consts.length → (lits (asts ast)).map (pick p.slots vals) = vals := by
    intro vals hl
    rw [h8, ← ha s h1]
    exact (pick_iff (hlen.trans hl.symm) (hl ▸ (hok x hx).count)).2 (nodup_together hn vals)
  cases hc : p.constant with
  | true =>
    have := span_constant L hok h1 (h10 ▸ hc) hx
    simp only [if_true, true_or, iff_true]
    rw [ha s h1, ← lits_plain, ← this]
    rfl
  | false =>
  simp only [Bool.false_eq_true, if_false, false_or]
  constructor
  · rintro ⟨vals, v1, v2⟩
    by_cases hdic : ∃ uniq ids, p.encoding = .dictionary uniq ids
    · obtain ⟨uniq, ids, hdic⟩ := hdic
      rw [hdic]
      trivial
    · have hl := values_length (fun uniq ids he => hdic ⟨uniq, ids, he⟩) hv v1
      rw [hpick vals hl] at v2
      subst v2
      exact balanced_still (values_balanced hrow hcol hv v1) hz
  · intro hst
    exact ⟨x.consts, (values_still hd hrow hcol hst).trans hv, hpick _ rfl⟩

/-- A span that shares the template of an earlier one, whose constants are other nodes: after any shifts along which the table of constants
does not change, a cell computes its moved formula exactly when its constants are those of the template of the earlier span. -/
theorem shared_template_iff {N : Num F E} (L : N.Laws) {asts : Nat → Fm (Nat × Const F E)} {t t1 t' : Templates} {cands : List (Cand F E)}
    (hok : ∀ c ∈ cands, c.Ok N) {ast : Nat} {exact : Text} {p p' : Placed F E} (ht : t.Ok asts)
    (ha : ∀ s, prepare N cands = some s → asts ast = s.template) {id : Nat} (hold : ∀ c ∈ cands, t.interned c.key = some id) {r : Rec}
    (hr : t.records[id]? = some r) (hdis : ∀ a ∈ lits (asts r.ast), a.1 ∉ (lits (asts ast)).map Prod.fst)
    (h : commit N t cands ast exact = some (t1, p)) {ms : List Move} (hms : ms ≠ []) (hs : Shifts t1 p ms t' p')
    (hst : p.encoding.Still (total ms).row (total ms).col) {x : Cand F E} (hx : x ∈ cands) {G : Fm (Const F E)}
    (hG : moveRefs ((total ms).row - (total ms).originRow) ((total ms).col - (total ms).originCol) x.formula.plain = some G) {row col : Nat}
    (hrow : (row : Int) = x.row + (total ms).row) (hcol : (col : Int) = x.col + (total ms).col) :
    p'.formulaAt N asts row col = some G ↔ x.consts = (lits (asts r.ast)).map Prod.snd := by
  obtain ⟨s, first, h1, h2, h3, h4, h5, h6, h7, h8, h9, h10⟩ := commit_some h
  unfold Templates.intern at h3
  rw [hold first (List.mem_of_head? h2)] at h3
  have h3 : t1 = t ∧ p.template = id := Prod.mk.injEq .. ▸ h3
  have hr1 : t1.records[p.template]? = some r := by rw [h3.1, h3.2]; exact hr
  rw [moved_cell_iff L hok ht ha h hms hs hr1 hx hG hrow hcol]
  obtain ⟨r', -, -, -, -, -, hd, -, -, -⟩ := shifts_some hs hr1
  have hv := span_constants L hok h1 hx
  rw [← h9, ← h4] at hv
  have hpick : ∀ vals, (lits (asts r.ast)).map (pick p.slots vals) = (lits (asts r.ast)).map Prod.snd := by
    intro vals
    apply List.map_congr_left
    intro a hm
    have := slotMap_other (hdis a hm) 0 fun _ => none
    unfold pick
    rw [h8, ← ha s h1, slotsOf, this]
    rfl
  cases hc : p.constant with
  | true =>
    simp only [if_true]
    exact eq_comm
  | false =>
  simp only [Bool.false_eq_true, if_false]
  constructor
  · rintro ⟨vals, -, v2⟩
    rw [← v2, hpick]
  · intro he
    exact ⟨x.consts, (values_still hd hrow hcol hst).trans hv, by rw [hpick, he]⟩

end Verif.Template
