import Verif.Stripes.Model

/-!
# C14: editing a cell inside a range finds exactly the formulas reading it
-/

namespace Verif.Stripes

/-! ## Specification -/

/-- A cell lies in a range. -/
def Range.Mem (r : Range) (row col : Nat) : Prop :=
  (∀ s, r.startRow = some s → s ≤ row) ∧ (∀ e, r.endRow = some e → row ≤ e) ∧
  (∀ s, r.startCol = some s → s ≤ col) ∧ (∀ e, r.endCol = some e → col ≤ e)

/-- A cell lies in a rectangle. -/
def Rect.Mem (q : Rect) (row col : Nat) : Prop :=
  q.startRow ≤ row ∧ row ≤ q.endRow ∧ q.startCol ≤ col ∧ col ≤ q.endCol

/-- A rectangle with at least one cell, within 32 bits. -/
structure Rect.Ok (q : Rect) : Prop where
  rows : q.startRow ≤ q.endRow
  cols : q.startCol ≤ q.endCol
  row32 : q.endRow < 2 ^ 32
  col32 : q.endCol < 2 ^ 32

/-- The bounds that are present are in order (what `from_parts` and the reversed-range check guarantee). -/
structure Range.Ordered (r : Range) : Prop where
  rows : ∀ s e, r.startRow = some s → r.endRow = some e → s ≤ e
  cols : ∀ s e, r.startCol = some s → r.endCol = some e → s ≤ e

/-- The shapes the stripes are right for: at least one end is bounded, and if the end is open in one direction
then the start is not given only in that direction.  `A1:C3`, `A:C`, `1:3`, `A1:C`, `A:C3`, `A1:3`, `1:C3` are
such shapes; `A:3` and `1:C` are not. -/
def Range.Shape (r : Range) : Prop :=
  (r.endRow.isSome ∧ r.endCol.isSome) ∨
  (r.endCol.isSome ∧ (r.startRow = none ∨ r.startCol.isSome)) ∨
  (r.endRow.isSome ∧ (r.startCol = none ∨ r.startRow.isSome))

instance (r : Range) : Decidable r.Shape := by unfold Range.Shape; infer_instance

/-- The shapes a bulk load keeps: all four bounds, both end bounds alone, one whole column or one whole row. -/
def Range.BulkShape (r : Range) : Prop :=
  (r.endRow.isSome ∧ r.endCol.isSome ∧ r.startRow.isSome = r.startCol.isSome) ∨
  (r.startRow = none ∧ r.endRow = none ∧ r.startCol.isSome ∧ r.startCol = r.endCol) ∨
  (r.startCol = none ∧ r.endCol = none ∧ r.startRow.isSome ∧ r.startRow = r.endRow)

instance (r : Range) : Decidable r.BulkShape := by unfold Range.BulkShape; infer_instance

/-- One operation, seen as a map from formulas to the ranges they read. Registering no ranges changes nothing. -/
def specStep (m : Nat → List Range) : Op → Nat → List Range
  | .direct v rs, u => if u = v ∧ rs ≠ [] then rs else m u
  | .bulk v rs, u => if u = v ∧ rs ≠ [] then rs else m u
  | .remove v, u => if u = v then [] else m u

/-- The ranges each formula reads after a history. -/
def registered (ops : List Op) : Nat → List Range := ops.foldl specStep (fun _ => [])

/-- The ranges an operation registers for `v` are ordered and of a supported shape. -/
def Op.Good (v : Nat) : Op → Prop
  | .direct u rs => u = v → ∀ r ∈ rs, r.Ordered ∧ r.Shape
  | .bulk u rs => u = v → ∀ r ∈ rs, r.Ordered ∧ r.BulkShape
  | .remove _ => True

/-! ## Lemmas -/

theorem mem_upto (a b x : Nat) : x ∈ upto a b ↔ a ≤ x ∧ x ≤ b := by
  unfold upto
  rw [List.mem_range'_1]
  omega

/-- The stripes of a cell. -/
def cellKeys (blocks : Bool) (sheet row col : Nat) : List Key :=
  [⟨sheet, .column, col⟩, ⟨sheet, .row, row⟩] ++ (if blocks then [⟨sheet, .block, blockIndex row col⟩] else [])

theorem blockIndex_block (row col : Nat) :
    blockIndex (row / BLOCK_H * BLOCK_H) (col / BLOCK_W * BLOCK_W) = blockIndex row col := by
  unfold blockIndex BLOCK_H BLOCK_W
  rw [Nat.mul_div_cancel _ (by omega), Nat.mul_div_cancel _ (by omega)]

theorem cellKeys_rect (blocks : Bool) (sheet : Nat) (q : Rect) (row col : Nat) (h : q.Mem row col) :
    ∀ k ∈ cellKeys blocks sheet row col, k ∈ rectKeys blocks sheet q := by
  intro k hk
  obtain ⟨h1, h2, h3, h4⟩ := h
  unfold cellKeys at hk
  unfold rectKeys
  simp only [List.mem_append, List.mem_cons, List.not_mem_nil, or_false] at hk ⊢
  rcases hk with (rfl | rfl) | hk
  · left; left
    rw [List.mem_map]
    exact ⟨col, (mem_upto _ _ _).2 ⟨h3, h4⟩, rfl⟩
  · left; right
    rw [List.mem_map]
    exact ⟨row, (mem_upto _ _ _).2 ⟨h1, h2⟩, rfl⟩
  · right
    cases blocks with
    | false => simp at hk
    | true =>
      simp only [if_true, List.mem_singleton] at hk ⊢
      subst hk
      rw [List.mem_flatMap]
      refine ⟨row / BLOCK_H, (mem_upto _ _ _).2 ⟨Nat.div_le_div_right h1, Nat.div_le_div_right h2⟩, ?_⟩
      rw [List.mem_map]
      refine ⟨col / BLOCK_W, (mem_upto _ _ _).2 ⟨Nat.div_le_div_right h3, Nat.div_le_div_right h4⟩, ?_⟩
      rw [blockIndex_block]

/-- The heart of the matter: every cell of a supported range lies on one of the range's stripes. -/
theorem stripes_cover (blocks : Bool) (r : Range) (hs : r.Shape) (row col : Nat) (h : r.Mem row col) :
    ∃ k ∈ stripeKeys blocks r, k ∈ cellKeys blocks r.sheet row col := by
  obtain ⟨sheet, sr, sc, er, ec⟩ := r
  obtain ⟨h1, h2, h3, h4⟩ := h
  have column : ∀ a b, a ≤ col → col ≤ b →
      ∃ k ∈ (upto a b).map (fun c => (⟨sheet, .column, c⟩ : Key)), k ∈ cellKeys blocks sheet row col := by
    intro a b ha hb
    refine ⟨⟨sheet, .column, col⟩, ?_, by simp [cellKeys]⟩
    rw [List.mem_map]; exact ⟨col, (mem_upto _ _ _).2 ⟨ha, hb⟩, rfl⟩
  have rowc : ∀ a b, a ≤ row → row ≤ b →
      ∃ k ∈ (upto a b).map (fun c => (⟨sheet, .row, c⟩ : Key)), k ∈ cellKeys blocks sheet row col := by
    intro a b ha hb
    refine ⟨⟨sheet, .row, row⟩, ?_, by simp [cellKeys]⟩
    rw [List.mem_map]; exact ⟨row, (mem_upto _ _ _).2 ⟨ha, hb⟩, rfl⟩
  have box : ∀ a b c d, a ≤ row → row ≤ b → c ≤ col → col ≤ d →
      ∃ k ∈ (if (blocks && decide (b - a + 1 > 1) && decide (d - c + 1 > 1)) = true then
        (upto (a / BLOCK_H) (b / BLOCK_H)).flatMap fun br =>
          (upto (c / BLOCK_W) (d / BLOCK_W)).map fun bc =>
            (⟨sheet, .block, blockIndex (br * BLOCK_H) (bc * BLOCK_W)⟩ : Key)
        else if b - a + 1 > d - c + 1 then (upto c d).map fun c => ⟨sheet, .column, c⟩
        else (upto a b).map fun i => ⟨sheet, .row, i⟩), k ∈ cellKeys blocks sheet row col := by
    intro a b c d ha hb hc hd
    split
    · rename_i hb'
      have hbl : blocks = true := by
        cases blocks
        · simp at hb'
        · rfl
      refine ⟨⟨sheet, .block, blockIndex row col⟩, ?_, by simp [cellKeys, hbl]⟩
      rw [List.mem_flatMap]
      refine ⟨row / BLOCK_H, (mem_upto _ _ _).2 ⟨Nat.div_le_div_right ha, Nat.div_le_div_right hb⟩, ?_⟩
      rw [List.mem_map]
      refine ⟨col / BLOCK_W, (mem_upto _ _ _).2 ⟨Nat.div_le_div_right hc, Nat.div_le_div_right hd⟩, ?_⟩
      rw [blockIndex_block]
    · split
      · exact column c d hc hd
      · exact rowc a b ha hb
  unfold Range.Shape at hs
  cases sr <;> cases sc <;> cases er <;> cases ec <;> simp at h1 h2 h3 h4 hs <;>
    simp [stripeKeys, -List.mem_map] <;>
    first
    | exact column _ _ (by omega) (by omega)
    | exact rowc _ _ (by omega) (by omega)
    | simpa using box 0 _ 0 _ (Nat.zero_le _) h2 (Nat.zero_le _) h4
    | simpa using box _ _ _ _ h1 h2 h3 h4

theorem fromParts_ordered (r : Range) (h : r.Ordered) :
    fromParts r.sheet r.startRow r.startCol r.endRow r.endCol = some r := by
  obtain ⟨sheet, sr, sc, er, ec⟩ := r
  obtain ⟨h1, h2⟩ := h
  unfold fromParts
  cases sr <;> cases sc <;> cases er <;> cases ec <;> simp_all <;> omega

/-- A bulk load keeps a supported range as it is. -/
theorem bulk_key (r : Range) (ho : r.Ordered) (h : r.BulkShape) : rangeOfKey (rangeKeyFromShared r) = some r := by
  have hf := fromParts_ordered r ho
  obtain ⟨sheet, sr, sc, er, ec⟩ := r
  unfold Range.BulkShape at h
  cases sr <;> cases sc <;> cases er <;> cases ec <;> simp at h <;>
    simp_all [rangeKeyFromShared, rangeOfKey, zipOpt]

theorem bulkShape_shape (r : Range) (h : r.BulkShape) : r.Shape := by
  obtain ⟨sheet, sr, sc, er, ec⟩ := r
  unfold Range.BulkShape at h
  unfold Range.Shape
  cases sr <;> cases sc <;> cases er <;> cases ec <;> simp_all

theorem filterMap_bulk (rs : List Range) (h : ∀ r ∈ rs, r.Ordered ∧ r.BulkShape) :
    (rs.map rangeKeyFromShared).filterMap rangeOfKey = rs := by
  induction rs with
  | nil => rfl
  | cons r rs ih =>
    have hr := h r (by simp)
    simp only [List.map_cons, List.filterMap_cons, bulk_key r hr.1 hr.2]
    rw [ih fun x hx => h x (by simp [hx])]

theorem step_bulk (ix : Index) (v : Nat) (rs : List Range) (h : ∀ r ∈ rs, r.Ordered ∧ r.BulkShape) :
    step ix (.bulk v rs) = addRanges ix v rs := by
  simp only [step, addKeys, filterMap_bulk rs h, List.map_eq_nil_iff]
  split
  · rename_i h; simp [h, addRanges]
  · rfl

theorem mem_foldl_add (keys : Range → List Key) (v : Nat) (rs : List Range) (st : List (Key × Nat)) (p : Key × Nat) :
    p ∈ rs.foldl (fun st r => (keys r).map (fun k => (k, v)) ++ st) st ↔
      p ∈ st ∨ (p.2 = v ∧ ∃ r ∈ rs, p.1 ∈ keys r) := by
  induction rs generalizing st with
  | nil => simp
  | cons r rs ih =>
    simp only [List.foldl_cons, ih, List.mem_append, List.mem_map, List.mem_cons]
    constructor
    · rintro ((⟨k, hk, rfl⟩ | h) | ⟨hv, r', hr', hk⟩)
      · exact Or.inr ⟨rfl, r, Or.inl rfl, hk⟩
      · exact Or.inl h
      · exact Or.inr ⟨hv, r', Or.inr hr', hk⟩
    · rintro (h | ⟨hv, r', (rfl | hr'), hk⟩)
      · exact Or.inl (Or.inr h)
      · exact Or.inl (Or.inl ⟨p.1, hk, by rw [← hv]⟩)
      · exact Or.inr ⟨hv, r', hr', hk⟩

theorem mem_foldl_remove (keys : Range → List Key) (v : Nat) (rs : List Range) (st : List (Key × Nat)) (p : Key × Nat) :
    p ∈ rs.foldl (fun st r => st.filter fun p => !(decide (p.2 = v) && (keys r).contains p.1)) st ↔
      p ∈ st ∧ ¬ (p.2 = v ∧ ∃ r ∈ rs, p.1 ∈ keys r) := by
  induction rs generalizing st with
  | nil => simp
  | cons r rs ih =>
    simp only [List.foldl_cons, ih, List.mem_filter, List.mem_cons]
    by_cases hv : p.2 = v <;> simp [hv]
    constructor
    · rintro ⟨⟨h1, h2⟩, h3⟩
      exact ⟨h1, h2, h3⟩
    · rintro ⟨h1, h2, h3⟩
      exact ⟨⟨h1, h2⟩, h3⟩

/-- The invariant for one formula `v` reading the ranges `rs`: they are what the index has recorded, they are
supported, and all their stripes lead to the formula. -/
structure Inv (blocks : Bool) (v : Nat) (rs : List Range) (ix : Index) : Prop where
  blk : ix.blocks = blocks
  some : rs ≠ [] → ix.deps v = some rs
  none : rs = [] → ix.deps v = none
  good : ∀ r ∈ rs, r.Ordered ∧ r.Shape
  stripes : ∀ r ∈ rs, ∀ k ∈ stripeKeys blocks r, (k, v) ∈ ix.stripes

theorem addRanges_inv {blocks : Bool} {v : Nat} {m : List Range} {ix : Index} (h : Inv blocks v m ix) (u : Nat)
    (rs : List Range) (hg : u = v → ∀ r ∈ rs, r.Ordered ∧ r.Shape) :
    Inv blocks v (if v = u ∧ rs ≠ [] then rs else m) (addRanges ix u rs) := by
  unfold addRanges
  by_cases hrs : rs = []
  · simpa [hrs] using h
  · by_cases huv : v = u
    · subst huv
      simp only [hrs, if_false, ne_eq, not_false_eq_true, and_true, if_true]
      refine ⟨h.blk, by simp, fun h0 => absurd h0 hrs, hg rfl, ?_⟩
      intro r hr k hk
      rw [h.blk]
      simp only [mem_foldl_add]
      exact Or.inr ⟨trivial, r, hr, hk⟩
    · simp only [hrs, huv, if_false, false_and]
      refine ⟨h.blk, by simpa [huv] using h.some, by simpa [huv] using h.none, h.good, ?_⟩
      intro r hr k hk
      simp only [mem_foldl_add]
      exact Or.inl (h.stripes r hr k hk)

theorem remove_inv {blocks : Bool} {v : Nat} {m : List Range} {ix : Index} (h : Inv blocks v m ix) (u : Nat) :
    Inv blocks v (if v = u then [] else m) (remove ix u) := by
  unfold remove
  by_cases huv : v = u
  · subst huv
    simp only [if_true]
    split
    · rename_i h0
      exact ⟨h.blk, by simp, fun _ => h0, by simp, by simp⟩
    · exact ⟨h.blk, by simp, by simp, by simp, by simp⟩
  · simp only [huv, if_false]
    split
    · exact h
    · refine ⟨h.blk, by simpa [huv] using h.some, by simpa [huv] using h.none, h.good, ?_⟩
      intro r hr k hk
      rw [mem_foldl_remove]
      exact ⟨h.stripes r hr k hk, fun hc => huv hc.1⟩

theorem step_other_inv {blocks : Bool} {v : Nat} {m : List Range} {ix : Index} (h : Inv blocks v m ix) (u : Nat)
    (rs : List Range) (huv : u ≠ v) : Inv blocks v m (step ix (.bulk u rs)) := by
  simp only [step, addKeys]
  split
  · exact h
  · have := addRanges_inv h u ((rs.map rangeKeyFromShared).filterMap rangeOfKey) (fun e => absurd e huv)
    simpa [huv.symm] using this

theorem run_inv (blocks : Bool) (v : Nat) (ops : List Op) (hg : ∀ op ∈ ops, op.Good v) :
    Inv blocks v (registered ops v) (run blocks ops) := by
  unfold registered run
  have h0 : Inv blocks v ((fun _ => []) v) { blocks := blocks } := by constructor <;> simp
  generalize (fun _ : Nat => ([] : List Range)) = m at h0
  generalize ({ blocks := blocks } : Index) = ix at h0
  induction ops generalizing m ix with
  | nil => exact h0
  | cons op ops ih =>
    have hop := hg op (by simp)
    simp only [List.foldl_cons]
    apply ih (fun o ho => hg o (by simp [ho]))
    cases op with
    | direct u rs => exact addRanges_inv h0 u rs hop
    | bulk u rs =>
      by_cases huv : u = v
      · subst huv
        rw [step_bulk ix u rs (hop rfl)]
        exact addRanges_inv h0 u rs fun _ r hr => ⟨(hop rfl r hr).1, bulkShape_shape r (hop rfl r hr).2⟩
      · have := step_other_inv h0 u rs huv
        simpa [specStep, Ne.symm huv] using this
    | remove u => exact remove_inv h0 u

/-- The precision check says exactly whether the range and the rectangle share a cell. -/
theorem rangeHit_iff (sheet : Nat) (q : Rect) (r : Range) (hq : q.Ok) (hr : r.Ordered) :
    rangeHit sheet q r = true ↔ r.sheet = sheet ∧ ∃ row col, r.Mem row col ∧ q.Mem row col := by
  obtain ⟨h1, h2, h3, h4⟩ := hq
  obtain ⟨o1, o2⟩ := hr
  unfold rangeHit Range.Mem Rect.Mem
  simp only [Bool.and_eq_true, decide_eq_true_eq, beq_iff_eq]
  constructor
  · rintro ⟨⟨⟨⟨hs, a⟩, b⟩, c⟩, d⟩
    refine ⟨hs, max (r.startRow.getD 0) q.startRow, max (r.startCol.getD 0) q.startCol, ⟨?_, ?_, ?_, ?_⟩, ?_⟩
    · intro s hs; simp only [hs, Option.getD_some]; omega
    · intro e he
      simp only [he, Option.getD_some] at b
      cases hsr : r.startRow with
      | none => simp; omega
      | some s => have := o1 s e hsr he; simp only [Option.getD_some]; omega
    · intro s hs; simp only [hs, Option.getD_some]; omega
    · intro e he
      simp only [he, Option.getD_some] at d
      cases hsc : r.startCol with
      | none => simp; omega
      | some s => have := o2 s e hsc he; simp only [Option.getD_some]; omega
    · omega
  · rintro ⟨hs, row, col, ⟨m1, m2, m3, m4⟩, q1, q2, q3, q4⟩
    refine ⟨⟨⟨⟨hs, ?_⟩, ?_⟩, ?_⟩, ?_⟩
    · cases hx : r.startRow with
      | none => simp
      | some s => have := m1 s hx; simp; omega
    · cases hx : r.endRow with
      | none => simp [U32MAX]; omega
      | some s => have := m2 s hx; simp; omega
    · cases hx : r.startCol with
      | none => simp
      | some s => have := m3 s hx; simp; omega
    · cases hx : r.endCol with
      | none => simp [U32MAX]; omega
      | some s => have := m4 s hx; simp; omega

/-! ## Theorems -/

/-- **C14** (supported shapes) After any history of registrations and removals, an edited rectangle reports a
formula exactly when one of the ranges the formula currently reads shares a cell with it. Missing: the range
shapes excluded by `Op.Good`; see the counterexamples below. -/
theorem collect_exact_partial (blocks : Bool) (ops : List Op) (v : Nat) (hg : ∀ op ∈ ops, op.Good v) (sheet : Nat)
    (q : Rect) (hq : q.Ok) :
    v ∈ collect (run blocks ops) sheet q ↔
      ∃ r ∈ registered ops v, r.sheet = sheet ∧ ∃ row col, r.Mem row col ∧ q.Mem row col := by
  have h := run_inv blocks v ops hg
  unfold collect
  simp only [List.mem_filter, List.mem_eraseDups, List.mem_map]
  constructor
  · rintro ⟨-, hv⟩
    by_cases hm : registered ops v = []
    · rw [h.none hm] at hv; simp at hv
    · rw [h.some hm] at hv
      simp only [List.any_eq_true] at hv
      obtain ⟨r, hr, hh⟩ := hv
      exact ⟨r, hr, (rangeHit_iff sheet q r hq (h.good r hr).1).1 hh⟩
  · rintro ⟨r, hr, hs, row, col, hm, hqm⟩
    have hne : registered ops v ≠ [] := by intro h0; rw [h0] at hr; cases hr
    have hg' := h.good r hr
    obtain ⟨k, hk, hc⟩ := stripes_cover blocks r hg'.2 row col hm
    constructor
    · refine ⟨(k, v), ⟨h.stripes r hr k hk, ?_⟩, rfl⟩
      rw [h.blk]
      simp only [List.contains_iff_mem]
      rw [hs] at hc
      exact cellKeys_rect blocks sheet q row col hqm k hc
    · rw [h.some hne]
      simp only [List.any_eq_true]
      exact ⟨r, hr, (rangeHit_iff sheet q r hq hg'.1).2 ⟨hs, row, col, hm, hqm⟩⟩

/-- **C14** A formula whose dependencies were removed is not reported until it registers ranges again. -/
theorem removed_not_reported (blocks : Bool) (ops later : List Op) (v : Nat) (sheet : Nat) (q : Rect)
    (hl : ∀ op ∈ later, ∀ rs, op ≠ .direct v rs ∧ op ≠ .bulk v rs) :
    v ∉ collect (run blocks (ops ++ .remove v :: later)) sheet q := by
  have key : ∀ (later : List Op) (ix : Index), (∀ op ∈ later, ∀ rs, op ≠ .direct v rs ∧ op ≠ .bulk v rs) →
      ix.deps v = none → (later.foldl step ix).deps v = none := by
    intro later
    induction later with
    | nil => intro ix _ h; exact h
    | cons op later ih =>
      intro ix hl h
      apply ih _ (fun o ho => hl o (by simp [ho]))
      have hop := hl op (by simp)
      cases op with
      | direct u rs =>
        have : v ≠ u := by rintro rfl; exact (hop rs).1 rfl
        simp only [step, addRanges]
        split
        · exact h
        · simp [this, h]
      | bulk u rs =>
        have : v ≠ u := by rintro rfl; exact (hop rs).2 rfl
        simp only [step, addKeys, addRanges]
        repeat' split
        · exact h
        · exact h
        · simp [this, h]
      | remove u =>
        simp only [step, remove]
        split
        · exact h
        · simp [h]
  have h0 : (step (run blocks ops) (.remove v)).deps v = none := by
    simp only [step, remove]
    split
    · assumption
    · simp
  have := key later _ hl h0
  unfold collect run
  simp only [List.foldl_append, List.foldl_cons]
  rw [List.mem_filter]
  rintro ⟨-, hv⟩
  have e : (later.foldl step (step (ops.foldl step { blocks := blocks }) (.remove v))).deps v = none := this
  rw [e] at hv
  simp at hv

/-- **C14** Removing a formula's ranges also takes it out of every stripe it was registered under, if the
formula's earlier ranges were always removed before new ones were registered. -/
theorem no_stale_stripes (blocks : Bool) (ops : List Op) (v : Nat) (hg : ∀ op ∈ ops, op.Good v)
    (hclean : ∀ a rs b, (ops = a ++ .direct v rs :: b ∨ ops = a ++ .bulk v rs :: b) → registered a v = []) :
    ∀ k, (k, v) ∈ (run blocks ops).stripes ↔ ∃ r ∈ registered ops v, k ∈ stripeKeys blocks r := by
  have main : ∀ n, n ≤ ops.length → ∀ k, (k, v) ∈ (run blocks (ops.take n)).stripes ↔
      ∃ r ∈ registered (ops.take n) v, k ∈ stripeKeys blocks r := by
    intro n
    induction n with
    | zero => intro _ k; simp [run, registered]
    | succ n ih =>
      intro hn k
      have ih := ih (by omega)
      have hlt : n < ops.length := by omega
      rw [List.take_succ_eq_append_getElem hlt]
      have hsplit : ops = ops.take n ++ ops[n] :: ops.drop (n + 1) := by
        rw [List.getElem_cons_drop, List.take_append_drop]
      have hgn : ∀ op ∈ ops.take n, op.Good v := fun o ho => hg o (List.mem_of_mem_take ho)
      have inv := run_inv blocks v (ops.take n) hgn
      have hop := hg ops[n] (List.getElem_mem hlt)
      have e1 : run blocks (ops.take n ++ [ops[n]]) = step (run blocks (ops.take n)) ops[n] := by
        unfold run; rw [List.foldl_append]; rfl
      have e2 : registered (ops.take n ++ [ops[n]]) = specStep (registered (ops.take n)) ops[n] := by
        unfold registered; rw [List.foldl_append]; rfl
      rw [e1, e2]
      have add : ∀ u rs, (u = v → registered (ops.take n) v = []) →
          ((k, v) ∈ (addRanges (run blocks (ops.take n)) u rs).stripes ↔
            ∃ r ∈ (if v = u ∧ rs ≠ [] then rs else registered (ops.take n) v), k ∈ stripeKeys blocks r) := by
        intro u rs hu
        unfold addRanges
        by_cases hrs : rs = []
        · simp only [hrs, if_true, ne_eq, not_true_eq_false, and_false, if_false]; exact ih k
        · simp only [hrs, if_false, ne_eq, not_false_eq_true, and_true, mem_foldl_add, ih k, inv.blk]
          by_cases hvu : v = u
          · subst hvu; simp [hu rfl]
          · simp [hvu]
      cases hc : ops[n] with
      | direct u rs =>
        refine add u rs ?_
        rintro rfl
        exact hclean _ rs _ (Or.inl (by rw [hc] at hsplit; exact hsplit))
      | bulk u rs =>
        by_cases huv : u = v
        · subst huv
          rw [hc] at hop
          rw [step_bulk _ u rs (hop rfl)]
          exact add u rs fun _ => hclean _ rs _ (Or.inr (by rw [hc] at hsplit; exact hsplit))
        · have := add u ((rs.map rangeKeyFromShared).filterMap rangeOfKey) (fun e => absurd e huv)
          simp only [Ne.symm huv, false_and, if_false] at this
          simp only [specStep, Ne.symm huv, false_and, if_false, step, addKeys]
          split
          · exact ih k
          · exact this
      | remove u =>
        simp only [step, specStep, remove]
        by_cases hvu : v = u
        · subst hvu
          by_cases hm : registered (ops.take n) v = []
          · rw [inv.none hm]; simp [ih k, hm]
          · rw [inv.some hm]
            simp only [mem_foldl_remove, ih k, inv.blk]
            simp
        · simp only [hvu, if_false]
          split
          · exact ih k
          · simp only [mem_foldl_remove, ih k, hvu, false_and, not_false_eq_true, and_true]
  have := main ops.length (Nat.le_refl _)
  rwa [List.take_length] at this

/-- **C14** The inspection query for one cell visits exactly the formulas with a range containing the cell. -/
theorem visit_exact_partial (blocks : Bool) (ops : List Op) (v : Nat) (hg : ∀ op ∈ ops, op.Good v)
    (sheet row col : Nat) (hrow : row < 2 ^ 32) (hcol : col < 2 ^ 32) :
    v ∈ visitCovering (run blocks ops) sheet row col ↔
      ∃ r ∈ registered ops v, r.sheet = sheet ∧ r.Mem row col := by
  have h := run_inv blocks v ops hg
  have hit : ∀ r : Range, (r.sheet == sheet && decide (r.startRow.getD 0 ≤ row) &&
        decide (row ≤ r.endRow.getD U32MAX) && decide (r.startCol.getD 0 ≤ col) &&
        decide (col ≤ r.endCol.getD U32MAX)) = true ↔ r.sheet = sheet ∧ r.Mem row col := by
    intro r
    obtain ⟨s, sr, sc, er, ec⟩ := r
    simp only [Range.Mem, Bool.and_eq_true, beq_iff_eq, decide_eq_true_eq, and_assoc]
    have e1 : ∀ o : Option Nat, ∀ x, o.getD 0 ≤ x ↔ ∀ s, o = some s → s ≤ x := by
      intro o x; cases o <;> simp
    have e2 : ∀ o : Option Nat, ∀ x, x < 2 ^ 32 → (x ≤ o.getD U32MAX ↔ ∀ s, o = some s → x ≤ s) := by
      intro o x hx; cases o <;> simp [U32MAX]; omega
    rw [e1, e1, e2 _ _ hrow, e2 _ _ hcol]
  unfold visitCovering
  simp only [List.mem_filter, List.mem_eraseDups]
  constructor
  · rintro ⟨-, hv⟩
    by_cases hm : registered ops v = []
    · rw [h.none hm] at hv; simp at hv
    · rw [h.some hm] at hv
      simp only [List.any_eq_true, hit] at hv
      exact hv
  · rintro ⟨r, hr, hs, hm⟩
    have hne : registered ops v ≠ [] := by intro h0; rw [h0] at hr; cases hr
    obtain ⟨k, hk, hc⟩ := stripes_cover blocks r (h.good r hr).2 row col hm
    constructor
    · rw [List.mem_flatMap]
      refine ⟨k, ?_, ?_⟩
      · rw [hs] at hc; rw [h.blk]; exact hc
      · rw [List.mem_map]
        exact ⟨(k, v), by simp [List.mem_filter, h.stripes r hr k hk], rfl⟩
    · rw [h.some hne]
      simp only [List.any_eq_true, hit]
      exact ⟨r, hr, hs, hm⟩

/-! ## Where the property fails -/

/-- The range `A:C` of sheet 0. -/
def colsAC : Range := ⟨0, none, some 0, none, some 2⟩

/-- The full C14 is false for bulk-loaded formulas: `=SUM(A:C)` loaded in bulk is registered under the wrong
stripe, and editing `B6` does not report it, although `B6` lies in `A:C`. The same formula set by a single
edit is reported. -/
theorem bulk_multi_column_missed :
    colsAC.Ordered ∧ colsAC.Mem 5 1 ∧ registered [.bulk 7 [colsAC]] 7 = [colsAC] ∧
    collect (run false [.bulk 7 [colsAC]]) 0 ⟨5, 1, 5, 1⟩ = [] ∧
    collect (run false [.direct 7 [colsAC]]) 0 ⟨5, 1, 5, 1⟩ = [7] := by
  refine ⟨⟨by simp [colsAC], by simp [colsAC]⟩, by simp [colsAC, Range.Mem], rfl, by decide, by decide⟩

/-- On the other hand an edit in row 1 anywhere on the sheet reports it, even far from columns A to C. -/
theorem bulk_multi_column_spurious :
    ¬ colsAC.Mem 0 25 ∧ collect (run false [.bulk 7 [colsAC]]) 0 ⟨0, 25, 0, 25⟩ = [7] := by
  refine ⟨by simp [colsAC, Range.Mem], by decide⟩

/-- Half-open shapes `A:3` (start has a column only, end a row only) miss cells also when set by an edit. -/
theorem mixed_open_missed :
    let r : Range := ⟨0, none, some 0, some 2, none⟩
    r.Ordered ∧ r.Mem 1 4 ∧ collect (run false [.direct 7 [r]]) 0 ⟨1, 4, 1, 4⟩ = [] := by
  refine ⟨⟨by simp, by simp⟩, by simp [Range.Mem], by decide⟩

/-! ## Concrete cases -/

/-- A history with a tall, a block, an open and a whole-row range; the hypotheses are met. -/
example :
    let ops : List Op := [.direct 1 [⟨0, some 0, some 0, some 999, some 1⟩, ⟨0, some 4, some 2, none, some 3⟩],
      .bulk 2 [⟨0, some 3, none, some 3, none⟩, ⟨1, some 0, some 0, some 9, some 9⟩], .direct 3 [colsAC], .remove 3]
    (∀ v, ∀ op ∈ ops, op.Good v) ∧ (⟨3, 1, 4, 2⟩ : Rect).Ok ∧
      (∀ v, v ∈ collect (run true ops) 0 ⟨3, 1, 4, 2⟩ ↔ v = 1 ∨ v = 2) := by
  intro ops
  have hg : ∀ v, ∀ op ∈ ops, op.Good v := by
    intro v op h
    simp only [ops, List.mem_cons, List.not_mem_nil, or_false] at h
    rcases h with rfl | rfl | rfl | rfl
    · intro _ r hr
      simp only [List.mem_cons, List.not_mem_nil, or_false] at hr
      rcases hr with rfl | rfl <;> exact ⟨⟨by simp, by simp⟩, by decide⟩
    · intro _ r hr
      simp only [List.mem_cons, List.not_mem_nil, or_false] at hr
      rcases hr with rfl | rfl <;> exact ⟨⟨by simp, by simp⟩, by decide⟩
    · intro _ r hr
      simp only [List.mem_singleton] at hr
      subst hr; exact ⟨⟨by simp [colsAC], by simp [colsAC]⟩, by decide⟩
    · trivial
  have hq : (⟨3, 1, 4, 2⟩ : Rect).Ok := ⟨by decide, by decide, by decide, by decide⟩
  refine ⟨hg, hq, ?_⟩
  intro v
  rw [collect_exact_partial true ops v (hg v) 0 _ hq]
  have hreg : registered ops v = if v = 1 then [⟨0, some 0, some 0, some 999, some 1⟩, ⟨0, some 4, some 2, none, some 3⟩]
      else if v = 2 then [⟨0, some 3, none, some 3, none⟩, ⟨1, some 0, some 0, some 9, some 9⟩] else [] := by
    simp only [ops, registered, List.foldl, specStep]
    by_cases h1 : v = 1
    · subst h1; simp
    · by_cases h2 : v = 2
      · subst h2; simp
      · by_cases h3 : v = 3
        · subst h3; simp
        · simp [h1, h2, h3]
  rw [hreg]
  constructor
  · rintro ⟨r, hr, -⟩
    by_cases h1 : v = 1
    · exact Or.inl h1
    · by_cases h2 : v = 2
      · exact Or.inr h2
      · simp [h1, h2] at hr
  · rintro (rfl | rfl)
    · exact ⟨⟨0, some 0, some 0, some 999, some 1⟩, by simp, rfl, 3, 1, by simp [Range.Mem], by simp [Rect.Mem]⟩
    · exact ⟨⟨0, some 3, none, some 3, none⟩, by simp, rfl, 3, 1, by simp [Range.Mem], by simp [Rect.Mem]⟩

end Verif.Stripes
