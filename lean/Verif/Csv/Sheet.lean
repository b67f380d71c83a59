import Verif.Csv.Infer

/-!
# The sheet, the file and back

What is written into the cells is what is saved, and what is saved is what is opened.
-/
namespace Verif.Csv

variable {F T : Type}

/-! ## Writing cells -/

/-- The operation concerns the cell. -/
def Op.touches (r c : Nat) : Op F T → Prop
  | .write r' c' _ => r' = r ∧ c' = c
  | .clear r₁ c₁ r₂ c₂ => r₁ ≤ r ∧ r ≤ r₂ ∧ c₁ ≤ c ∧ c ≤ c₂
  | .delete => True

/-- What the operation leaves in a cell it concerns. -/
def Op.leaves : Op F T → Option (Val F T)
  | .write _ _ (some .empty) => none
  | .write _ _ v => v
  | .clear .. => none
  | .delete => none

theorem step_touched (s : Sheet F T) (op : Op F T) (r c : Nat) (h : op.touches r c) : (s.step op).cells r c = op.leaves := by
  cases op with
  | write r' c' v =>
    obtain ⟨rfl, rfl⟩ := h
    cases v with
    | none => simp [Sheet.step, Sheet.write, Sheet.put, Op.leaves]
    | some v => cases v <;> simp [Sheet.step, Sheet.write, Sheet.put, Op.leaves]
  | clear r₁ c₁ r₂ c₂ =>
    exact (if_pos (show r₁ ≤ r ∧ r ≤ r₂ ∧ c₁ ≤ c ∧ c ≤ c₂ from h) : _)
  | delete => rfl

theorem step_untouched (s : Sheet F T) (op : Op F T) (r c : Nat) (h : ¬ op.touches r c) : (s.step op).cells r c = s.cells r c := by
  cases op with
  | write r' c' v =>
    have h' : ¬ (r = r' ∧ c = c') := fun e => h ⟨e.1.symm, e.2.symm⟩
    cases v with
    | none => simp [Sheet.step, Sheet.write, Sheet.put, Sheet.setBounds, h']
    | some v => cases v <;> simp [Sheet.step, Sheet.write, Sheet.put, Sheet.setBounds, h']
  | clear r₁ c₁ r₂ c₂ =>
    exact (if_neg (show ¬ (r₁ ≤ r ∧ r ≤ r₂ ∧ c₁ ≤ c ∧ c ≤ c₂) from h) : _)
  | delete => exact absurd trivial h

/-- **A cell holds what the last operation that concerns it left**, and nothing if there is none. -/
theorem last_write (pre post : List (Op F T)) (op : Op F T) (r c : Nat) (h : op.touches r c) (hpost : ∀ o ∈ post, ¬ o.touches r c) :
    (Sheet.run ({} : Sheet F T) (pre ++ op :: post)).cells r c = op.leaves := by
  have key : ∀ (post : List (Op F T)) (s : Sheet F T), (∀ o ∈ post, ¬ o.touches r c) → (s.run post).cells r c = s.cells r c := by
    intro post
    induction post with
    | nil => intro s _; rfl
    | cons o post ih =>
      intro s hp
      show ((s.step o).run post).cells r c = _
      rw [ih _ (fun o' ho' => hp o' (by simp [ho'])), step_untouched _ _ _ _ (hp o (by simp))]
  rw [Sheet.run, List.foldl_append, List.foldl_cons]
  exact (key post _ hpost).trans (step_touched _ _ _ _ h)

theorem never_written (ops : List (Op F T)) (r c : Nat) (h : ∀ o ∈ ops, ¬ o.touches r c) :
    (Sheet.run ({} : Sheet F T) ops).cells r c = none := by
  have key : ∀ (post : List (Op F T)) (s : Sheet F T), (∀ o ∈ post, ¬ o.touches r c) → (s.run post).cells r c = s.cells r c := by
    intro post
    induction post with
    | nil => intro s _; rfl
    | cons o post ih =>
      intro s hp
      show ((s.step o).run post).cells r c = _
      rw [ih _ (fun o' ho' => hp o' (by simp [ho'])), step_untouched _ _ _ _ (hp o (by simp))]
  rw [key ops _ h]

/-- **Reading a rectangle** gives what the last operation left in its cells and nothing outside. -/
theorem range_read (pre post : List (Op F T)) (op : Op F T) (r c : Nat) (h : op.touches r c) (hpost : ∀ o ∈ post, ¬ o.touches r c) (sr sc er ec : Nat) :
    ((sr ≤ r ∧ r ≤ er ∧ sc ≤ c ∧ c ≤ ec) → (Sheet.run ({} : Sheet F T) (pre ++ op :: post)).readRange sr sc er ec r c = op.leaves) ∧
    (r < sr ∨ er < r ∨ c < sc ∨ ec < c → (Sheet.run ({} : Sheet F T) (pre ++ op :: post)).readRange sr sc er ec r c = none) := by
  constructor
  · intro hin
    exact (if_pos hin).trans (last_write pre post op r c h hpost)
  · intro hout
    exact if_neg (by omega)

/-- Rows and columns count from one. -/
def Op.proper : Op F T → Prop
  | .write r c _ => 1 ≤ r ∧ 1 ≤ c
  | _ => True

/-- Every cell that holds a value is inside the bounds; empty values are not stored. -/
structure Bounded (s : Sheet F T) : Prop where
  inside : ∀ r c v, s.cells r c = some v → 1 ≤ r ∧ r ≤ s.maxRow ∧ 1 ≤ c ∧ c ≤ s.maxCol
  both : s.maxRow = 0 ↔ s.maxCol = 0

theorem bounded_step {s : Sheet F T} (hs : Bounded s) (op : Op F T) (hop : op.proper) : Bounded (s.step op) := by
  cases op with
  | write r c v =>
    have hm : (s.step (.write r c v)).maxRow = max s.maxRow r ∧ (s.step (.write r c v)).maxCol = max s.maxCol c := by
      cases v with
      | none => exact ⟨rfl, rfl⟩
      | some v => cases v <;> exact ⟨rfl, rfl⟩
    obtain ⟨h1, h2⟩ : 1 ≤ r ∧ 1 ≤ c := hop
    refine ⟨?_, by rw [hm.1, hm.2]; omega⟩
    intro r' c' w hw
    rw [hm.1, hm.2]
    by_cases ht : Op.touches r' c' (.write r c v)
    · obtain ⟨rfl, rfl⟩ := ht
      omega
    · rw [step_untouched _ _ _ _ ht] at hw
      have := hs.inside r' c' w hw
      omega
  | clear r₁ c₁ r₂ c₂ =>
    refine ⟨?_, hs.both⟩
    intro r' c' w hw
    by_cases ht : Op.touches (F := F) (T := T) r' c' (.clear r₁ c₁ r₂ c₂)
    · rw [step_touched _ _ _ _ ht] at hw; cases hw
    · rw [step_untouched _ _ _ _ ht] at hw
      exact hs.inside r' c' w hw
  | delete => exact ⟨fun _ _ _ h => (nomatch h), Iff.rfl⟩

/-- **After any operations, every cell that holds a value is inside the bounds of the sheet.** -/
theorem written_inside (ops : List (Op F T)) (h : ∀ o ∈ ops, o.proper) : Bounded (Sheet.run ({} : Sheet F T) ops) := by
  have key : ∀ (ops : List (Op F T)) (s : Sheet F T), Bounded s → (∀ o ∈ ops, o.proper) → Bounded (s.run ops) := by
    intro ops
    induction ops with
    | nil => intro s hs _; exact hs
    | cons o ops ih => intro s hs hp; exact ih _ (bounded_step hs o (hp o (by simp))) (fun o' ho' => hp o' (by simp [ho']))
  exact key ops {} ⟨fun _ _ _ h => (nomatch h), Iff.rfl⟩ h

/-! ## Printing arrays -/

/-- An array in an array in an array, `k` times. -/
def nest : Nat → Val F T → Val F T
  | 0, v => v
  | k + 1, v => .array (nest k v)

/-- Neither an array with a first value nor one without. -/
def Val.plain : Val F T → Prop
  | .array _ => False
  | .hollow => False
  | _ => True

theorem plain_at (lib : Lib F T) (policy : Policy) (v : Val F T) (hv : v.plain) (d : Nat) (hd : d ≤ 4) :
    ∃ f, fieldAt lib policy d v = some f ∧ field lib policy v = some f := by
  unfold field
  rw [fieldAt.eq_def lib policy d v, fieldAt.eq_def lib policy 0 v, if_neg (by omega), if_neg (by omega)]
  cases v with
  | array _ => exact hv.elim
  | hollow => exact hv.elim
  | bool b => cases b <;> exact ⟨_, rfl, rfl⟩
  | _ => exact ⟨_, rfl, rfl⟩

/-- **An array is printed as its top left value** through four nested arrays, under the policy that
asks for it; under the others it is blank or an error. -/
theorem array_printed (lib : Lib F T) (v : Val F T) (hv : v.plain) (k : Nat) :
    field lib .topLeft (nest k v) = (if k ≤ 4 then field lib .topLeft v else none) ∧
    field lib .blank (nest (k + 1) v) = some [] ∧ field lib .error (nest (k + 1) v) = none := by
  refine ⟨?_, by simp [field, nest, fieldAt], by simp [field, nest, fieldAt]⟩
  have key : ∀ k d, fieldAt lib .topLeft d (nest k v) = if d + k ≤ 4 then field lib .topLeft v else none := by
    intro k
    induction k with
    | zero =>
      intro d
      by_cases hd : d ≤ 4
      · obtain ⟨f, h1, h2⟩ := plain_at lib .topLeft v hv d hd
        rw [if_pos (by omega), h2]; exact h1
      · rw [if_neg (by omega)]
        show fieldAt lib .topLeft d v = none
        rw [fieldAt.eq_def, if_pos (by omega)]
    | succ k ih =>
      intro d
      show fieldAt lib .topLeft d (.array (nest k v)) = _
      rw [fieldAt.eq_def]
      by_cases hd : 4 < d
      · rw [if_pos hd, if_neg (by omega)]
      · rw [if_neg hd]
        show fieldAt lib .topLeft (d + 1) (nest k v) = _
        rw [ih, show d + 1 + k = d + (k + 1) by omega]
  have := key k 0
  rwa [Nat.zero_add] at this

example : field quarters .topLeft (nest 4 (.int 7)) = some ['7'] ∧ field quarters .topLeft (nest 5 (.int 7)) = none := by decide +kernel

/-! ## Saving -/

theorem recordOf_spec (lib : Lib F T) (policy : Policy) (get : Nat → Option (Val F T)) (cols : List Nat) :
    (∀ rec : List Str, recordOf lib policy get cols = some rec → rec.length = cols.length ∧
      ∀ (i c : Nat), cols[i]? = some c → rec[i]? = cellField lib policy (get c) ∧ cellField lib policy (get c) ≠ none) ∧
    (recordOf lib policy get cols = none ↔ ∃ c ∈ cols, cellField lib policy (get c) = none) := by
  induction cols with
  | nil => simp [recordOf]
  | cons c cs ih =>
    simp only [recordOf]
    cases hf : cellField lib policy (get c) with
    | none => simp [hf]
    | some f =>
      cases hr : recordOf lib policy get cs with
      | none =>
        obtain ⟨x, hx, hn⟩ := ih.2.mp hr
        simp only [reduceCtorEq, false_imp_iff, implies_true, true_and, true_iff]
        exact ⟨x, by simp [hx], hn⟩
      | some fs =>
        obtain ⟨h1, h2⟩ := ih.1 fs hr
        constructor
        · rintro rec ⟨⟩
          refine ⟨by simp [h1], ?_⟩
          intro i x hx
          cases i with
          | zero =>
            simp only [List.getElem?_cons_zero, Option.some.injEq] at hx
            subst hx
            simp [hf]
          | succ i => simpa using h2 i x (by simpa using hx)
        · simp only [reduceCtorEq, false_iff]
          rintro ⟨x, hx, hn⟩
          rcases List.mem_cons.mp hx with rfl | hx
          · rw [hf] at hn; cases hn
          · have := ih.2.mpr ⟨x, hx, hn⟩
            rw [hr] at this; cases this

theorem writeRows_spec (lib : Lib F T) (policy : Policy) (get : Nat → Nat → Option (Val F T)) (cols rows : List Nat) :
    ((writeRows lib policy get cols rows).2 = true ↔ ∀ r ∈ rows, ∀ c ∈ cols, cellField lib policy (get r c) ≠ none) ∧
    ((writeRows lib policy get cols rows).2 = true → (writeRows lib policy get cols rows).1.length = rows.length) ∧
    ∀ (i : Nat) (rec : List Str), (writeRows lib policy get cols rows).1[i]? = some rec → ∃ r, rows[i]? = some r ∧ recordOf lib policy (get r) cols = some rec := by
  induction rows with
  | nil => simp [writeRows]
  | cons r rs ih =>
    simp only [writeRows]
    cases hr : recordOf lib policy (get r) cols with
    | none =>
      obtain ⟨c, hc, hn⟩ := (recordOf_spec lib policy (get r) cols).2.mp hr
      refine ⟨?_, by simp, by simp⟩
      simp only [Bool.false_eq_true, false_iff]
      intro h
      exact h r (by simp) c hc hn
    | some rec =>
      have hall : ∀ c ∈ cols, cellField lib policy (get r c) ≠ none := by
        intro c hc hn
        have := (recordOf_spec lib policy (get r) cols).2.mpr ⟨c, hc, hn⟩
        rw [hr] at this; cases this
      refine ⟨?_, ?_, ?_⟩
      · rw [show (_ : List (List Str) × Bool).2 = (writeRows lib policy get cols rs).2 from rfl, ih.1]
        constructor
        · intro h x hx
          rcases List.mem_cons.mp hx with rfl | hx
          · exact hall
          · exact h x hx
        · intro h x hx; exact h x (by simp [hx])
      · intro h
        show (writeRows lib policy get cols rs).1.length + 1 = rs.length + 1
        rw [ih.2.1 h]
      · intro i rec' h
        cases i with
        | zero =>
          simp only [List.getElem?_cons_zero, Option.some.injEq] at h
          subst h
          exact ⟨r, rfl, hr⟩
        | succ i => simpa using ih.2.2 i rec' (by simpa using h)

theorem upTo_get (a b i : Nat) : (upTo a b)[i]? = if i < b + 1 - a then some (a + i) else none := by
  unfold upTo
  split
  · next h => rw [List.getElem?_eq_getElem (by simpa using h)]; simp
  · next h => rw [List.getElem?_eq_none]; simp; omega

theorem mem_upTo (a b x : Nat) : x ∈ upTo a b ↔ a ≤ x ∧ x ≤ b := by
  unfold upTo
  rw [List.mem_range'_1]
  omega

/-- **A rectangle can be saved exactly when it begins at row and column one or later, is not turned
around, and holds no value that cannot be printed.** -/
theorem range_saved_iff (lib : Lib F T) (policy : Policy) (s : Sheet F T) (sr sc er ec : Nat) :
    (s.writeRange lib policy sr sc er ec).ok = true ↔
      1 ≤ sr ∧ 1 ≤ sc ∧ sr ≤ er ∧ sc ≤ ec ∧ ∀ r c v, sr ≤ r → r ≤ er → sc ≤ c → c ≤ ec → s.cells r c = some v → field lib policy v ≠ none := by
  unfold Sheet.writeRange
  split
  · simp only [Bool.false_eq_true, false_iff]; rintro ⟨_, _, _, _, _⟩; omega
  · split
    · simp only [Bool.false_eq_true, false_iff]; rintro ⟨_, _, _, _, _⟩; omega
    · rw [show (Saved.ok _) = (writeRows lib policy s.cells (upTo sc ec) (upTo sr er)).2 from rfl, (writeRows_spec _ _ _ _ _).1]
      constructor
      · intro h
        refine ⟨by omega, by omega, by omega, by omega, ?_⟩
        intro r c v h1 h2 h3 h4 hv
        have := h r ((mem_upTo _ _ _).mpr ⟨h1, h2⟩) c ((mem_upTo _ _ _).mpr ⟨h3, h4⟩)
        rwa [hv] at this
      · rintro ⟨-, -, -, -, h⟩ r hr c hc
        rw [mem_upTo] at hr hc
        cases hv : s.cells r c with
        | none => simp [cellField]
        | some v => exact h r c v hr.1 hr.2 hc.1 hc.2 hv

/-- **A saved rectangle holds one record for each row and one field for each column**, and the field
of a cell is the printed value, empty for a cell without one. -/
theorem range_saved (lib : Lib F T) (policy : Policy) (s : Sheet F T) (sr sc er ec : Nat)
    (hok : (s.writeRange lib policy sr sc er ec).ok = true) :
    ∃ recs, (s.writeRange lib policy sr sc er ec).file = some recs ∧ recs.length = er + 1 - sr ∧
      (∀ rec ∈ recs, rec.length = ec + 1 - sc) ∧
      ∀ r c, sr ≤ r → r ≤ er → sc ≤ c → c ≤ ec → (recs[r - sr]?).bind (·[c - sc]?) = cellField lib policy (s.cells r c) := by
  have hpos := (range_saved_iff lib policy s sr sc er ec).mp hok
  unfold Sheet.writeRange at hok ⊢
  rw [if_neg (by omega), if_neg (by omega)] at hok ⊢
  have hok' : (writeRows lib policy s.cells (upTo sc ec) (upTo sr er)).2 = true := hok
  obtain ⟨-, hlen, hget⟩ := writeRows_spec lib policy s.cells (upTo sc ec) (upTo sr er)
  have hl : (writeRows lib policy s.cells (upTo sc ec) (upTo sr er)).1.length = er + 1 - sr := by
    rw [hlen hok']; simp [upTo]
  refine ⟨_, rfl, hl, ?_, ?_⟩
  · intro rec hrec
    obtain ⟨i, hi⟩ := List.getElem?_of_mem hrec
    obtain ⟨r, -, hr⟩ := hget i rec hi
    rw [((recordOf_spec lib policy (s.cells r) (upTo sc ec)).1 rec hr).1]
    simp [upTo]
  · intro r c h1 h2 h3 h4
    cases hi : (writeRows lib policy s.cells (upTo sc ec) (upTo sr er)).1[r - sr]? with
    | none => rw [List.getElem?_eq_none_iff] at hi; omega
    | some rec =>
      obtain ⟨r', hr', hrec⟩ := hget _ _ hi
      rw [upTo_get, if_pos (by omega), Option.some.injEq] at hr'
      obtain rfl : r' = r := by omega
      rw [Option.bind_some]
      exact (((recordOf_spec lib policy (s.cells r') (upTo sc ec)).1 rec hrec).2 (c - sc) c (by rw [upTo_get, if_pos (by omega)]; congr 1; omega)).1

/-! ## Opening -/

theorem putFields_bounds (lib : Lib F T) (mode : Mode) (force : Bool) (row : Nat) (fs : List Str) (col : Nat) (s : Sheet F T) :
    (putFields lib mode force row col fs s).maxRow = s.maxRow ∧ (putFields lib mode force row col fs s).maxCol = s.maxCol := by
  induction fs generalizing col s with
  | nil => exact ⟨rfl, rfl⟩
  | cons f fs ih =>
    simp only [putFields]
    rw [(ih _ _).1, (ih _ _).2]
    cases infer lib mode force f <;> exact ⟨rfl, rfl⟩

theorem putFields_cells (lib : Lib F T) (mode : Mode) (force : Bool) (row : Nat) (fs : List Str) (col : Nat) (s : Sheet F T)
    (hs : ∀ c, s.cells row c = none ∨ c < col) (r c : Nat) :
    (putFields lib mode force row col fs s).cells r c =
      if r = row ∧ col ≤ c then (fs[c - col]?).bind (infer lib mode force) else s.cells r c := by
  induction fs generalizing col s with
  | nil =>
    simp only [putFields]
    split
    · next h =>
      obtain ⟨rfl, h2⟩ := h
      rcases hs c with h | h
      · simp [h]
      · omega
    · rfl
  | cons f fs ih =>
    simp only [putFields]
    have hcells : ∀ r' c', (s.maybePut row col (infer lib mode force f)).cells r' c' =
        if r' = row ∧ c' = col then infer lib mode force f else s.cells r' c' := by
      intro r' c'
      cases hi : infer lib mode force f with
      | none =>
        show s.cells r' c' = _
        by_cases h : r' = row ∧ c' = col
        · rw [if_pos h]
          obtain ⟨rfl, rfl⟩ := h
          rcases hs c' with h | h
          · exact h
          · omega
        · rw [if_neg h]
      | some v => rfl
    rw [ih]
    · by_cases hrow : r = row
      · subst hrow
        by_cases h1 : col + 1 ≤ c
        · rw [if_pos ⟨rfl, h1⟩, if_pos ⟨rfl, by omega⟩]
          rw [show c - col = (c - (col + 1)) + 1 by omega, List.getElem?_cons_succ]
        · rw [if_neg (fun h => h1 h.2), hcells]
          by_cases h2 : c = col
          · subst h2
            rw [if_pos ⟨rfl, rfl⟩, if_pos ⟨rfl, Nat.le_refl _⟩]
            simp
          · rw [if_neg (fun h => h2 h.2), if_neg (fun h => by omega)]
      · rw [if_neg (fun h => hrow h.1), if_neg (fun h => hrow h.1), hcells, if_neg (fun h => hrow h.1)]
    · intro c'
      rw [hcells]
      by_cases h2 : c' = col
      · right; omega
      · rw [if_neg (fun h => h2 h.2)]
        rcases hs c' with h | h
        · exact .inl h
        · exact .inr (by omega)

theorem putRecords_spec (lib : Lib F T) (mode : Mode) (recs : List (List Str)) (row : Nat) (s : Sheet F T)
    (hs : ∀ r c, s.cells r c = none ∨ r < row) :
    (∀ r c, (putRecords lib mode row recs s).cells r c =
      if row ≤ r then (if 1 ≤ c then (recs[r - row]?).bind fun rec => (rec[c - 1]?).bind (infer lib mode false) else none) else s.cells r c) ∧
    (putRecords lib mode row recs s).maxRow = (if recs = [] then s.maxRow else max s.maxRow (row + recs.length - 1)) ∧
    (putRecords lib mode row recs s).maxCol = (recs.map List.length).foldl max s.maxCol := by
  induction recs generalizing row s with
  | nil =>
    refine ⟨?_, rfl, rfl⟩
    intro r c
    simp only [putRecords]
    split
    · next h =>
      rcases hs r c with h' | h'
      · simp [h']
      · omega
    · rfl
  | cons rec recs ih =>
    simp only [putRecords]
    have hrow : ∀ c, (s.setBounds row rec.length).cells row c = none ∨ c < 1 := by
      intro c
      rcases hs row c with h | h
      · exact .inl h
      · omega
    have hc := putFields_cells lib mode false row rec 1 (s.setBounds row rec.length) hrow
    have hb := putFields_bounds lib mode false row rec 1 (s.setBounds row rec.length)
    obtain ⟨h1, h2, h3⟩ := ih (row + 1) (putFields lib mode false row 1 rec (s.setBounds row rec.length)) (by
      intro r c
      by_cases h : r < row + 1
      · exact .inr h
      · left
        rw [hc, if_neg (fun h' => by omega)]
        rcases hs r c with h' | h'
        · exact h'
        · omega)
    refine ⟨?_, ?_, ?_⟩
    · intro r c
      rw [h1]
      by_cases h : row + 1 ≤ r
      · have h' : row ≤ r := by omega
        rw [if_pos h, if_pos h', show r - row = (r - (row + 1)) + 1 by omega, List.getElem?_cons_succ]
      · rw [if_neg h, hc]
        by_cases hr : r = row
        · subst hr
          rw [if_pos (Nat.le_refl _)]
          by_cases hc1 : 1 ≤ c
          · rw [if_pos ⟨rfl, hc1⟩, if_pos hc1]; simp
          · rw [if_neg (fun h => hc1 h.2), if_neg hc1]
            rcases hs r c with h' | h'
            · exact h'
            · omega
        · rw [if_neg (fun h => hr h.1), if_neg (by omega)]
          rfl
    · rw [h2, hb.1]
      show (if recs = [] then max s.maxRow row else max (max s.maxRow row) (row + 1 + recs.length - 1)) = _
      rw [if_neg (List.cons_ne_nil rec recs), List.length_cons]
      by_cases h : recs = []
      · rw [if_pos h, h]; simp
      · rw [if_neg h]; omega
    · rw [h3, hb.2]
      rfl

/-- **Opening a file**: the cell in row `r` and column `c` is what is read from the field there. The
first row of a file with headers is not interpreted. -/
theorem open_cells (lib : Lib F T) (mode : Mode) (headers : Bool) (recs : List (List Str)) (r c : Nat) :
    (openFile lib mode headers recs).cells r c =
      if 1 ≤ r ∧ 1 ≤ c then
        (recs[r - 1]?).bind fun rec => (rec[c - 1]?).bind (if headers = true ∧ r = 1 then infer lib .off true else infer lib mode false)
      else none := by
  cases headers with
  | false =>
    have := (putRecords_spec lib mode recs 1 ({} : Sheet F T) (fun _ _ => .inl rfl)).1 r c
    show (putRecords lib mode 1 recs {}).cells r c = _
    rw [this]
    by_cases h1 : 1 ≤ r <;> by_cases h2 : 1 ≤ c <;> simp [h1, h2]
  | true =>
    have h0 : ∀ c', (Sheet.setBounds ({} : Sheet F T) 1 (recs.headD []).length).cells 1 c' = none ∨ c' < 1 := fun _ => .inl rfl
    have hf := putFields_cells lib .off true 1 (recs.headD []) 1 _ h0
    have := (putRecords_spec lib mode recs.tail 2 (putFields lib .off true 1 1 (recs.headD []) (Sheet.setBounds {} 1 (recs.headD []).length)) (by
      intro r c
      by_cases h : r < 2
      · exact .inr h
      · left; rw [hf, if_neg (fun h' => by omega)]; rfl)).1 r c
    show (putRecords lib mode 2 recs.tail _).cells r c = _
    rw [this]
    by_cases h2 : 2 ≤ r
    · have hr : r ≠ 1 := by omega
      have : recs.tail[r - 2]? = recs[r - 1]? := by
        rw [List.getElem?_tail]; congr 1; omega
      rw [if_pos h2, this]
      by_cases hc : 1 ≤ c
      · rw [if_pos hc, if_pos ⟨by omega, hc⟩]; simp [hr]
      · rw [if_neg hc, if_neg (fun h => hc h.2)]
    · rw [if_neg h2, hf]
      by_cases hr : r = 1
      · subst hr
        by_cases hc : 1 ≤ c
        · rw [if_pos ⟨rfl, hc⟩, if_pos ⟨Nat.le_refl _, hc⟩]
          cases recs <;> simp
        · rw [if_neg (fun h => hc h.2), if_neg (fun h => hc h.2)]; rfl
      · rw [if_neg (fun h => hr h.1), if_neg (fun h => by omega)]; rfl

/-- **The bounds of an opened file**: as many rows as records, as many columns as the longest has fields. -/
theorem open_bounds (lib : Lib F T) (mode : Mode) (headers : Bool) (recs : List (List Str)) (hne : recs ≠ []) :
    (openFile lib mode headers recs).maxRow = recs.length ∧ (openFile lib mode headers recs).maxCol = (recs.map List.length).foldl max 0 := by
  cases headers with
  | false =>
    obtain ⟨-, h2, h3⟩ := putRecords_spec lib mode recs 1 ({} : Sheet F T) (fun _ _ => .inl rfl)
    refine ⟨?_, h3⟩
    show (putRecords lib mode 1 recs {}).maxRow = _
    rw [h2, if_neg hne]
    show max 0 _ = _
    omega
  | true =>
    cases recs with
    | nil => exact absurd rfl hne
    | cons rec recs =>
      have h0 : ∀ c', (Sheet.setBounds ({} : Sheet F T) 1 rec.length).cells 1 c' = none ∨ c' < 1 := fun _ => .inl rfl
      have hf := putFields_cells lib .off true 1 rec 1 _ h0
      have hb := putFields_bounds lib .off true 1 rec 1 (Sheet.setBounds ({} : Sheet F T) 1 rec.length)
      obtain ⟨-, h2, h3⟩ := putRecords_spec lib mode recs 2 (putFields lib .off true 1 1 rec (Sheet.setBounds {} 1 rec.length)) (by
        intro r c
        by_cases h : r < 2
        · exact .inr h
        · left; rw [hf, if_neg (fun h' => by omega)]; rfl)
      constructor
      · show (putRecords lib mode 2 recs (putFields lib .off true 1 1 rec (Sheet.setBounds {} 1 rec.length))).maxRow = _
        rw [h2, hb.1]
        show (if recs = [] then max 0 1 else max (max 0 1) _) = recs.length + 1
        by_cases h : recs = []
        · rw [if_pos h, h]; rfl
        · have := List.length_pos_iff.mpr h
          rw [if_neg h]; omega
      · show (putRecords lib mode 2 recs (putFields lib .off true 1 1 rec (Sheet.setBounds {} 1 rec.length))).maxCol = _
        rw [h3, hb.2]
        rfl

/-! ## Saving, then opening -/

theorem foldl_max_same (l : List Nat) (n a : Nat) (ha : a ≤ n) (h : ∀ x ∈ l, x = n) (hne : l ≠ []) : l.foldl max a = n := by
  induction l generalizing a with
  | nil => exact absurd rfl hne
  | cons x l ih =>
    have hx := h x (by simp)
    subst hx
    rw [List.foldl_cons, Nat.max_eq_right ha]
    by_cases hl : l = []
    · subst hl; rfl
    · exact ih x (Nat.le_refl _) (fun y hy => h y (by simp [hy])) hl

/-- The value comes back when it is written in a row that is read with this interpretation. -/
def Faithful (lib : Lib F T) (policy : Policy) (mode : Mode) (headers : Bool) (r : Nat) (v : Val F T) : Prop :=
  (field lib policy v).bind (if headers = true ∧ r = 1 then infer lib .off true else infer lib mode false) = some v

/-- **A sheet of values that come back one by one comes back as a whole**: it can be saved, and
opening the file gives the same cells and the same bounds. -/
theorem save_then_open (lib : Lib F T) (policy : Policy) (mode : Mode) (headers : Bool) (ops : List (Op F T)) (hops : ∀ o ∈ ops, o.proper)
    (hv : ∀ r c v, (Sheet.run {} ops).cells r c = some v → Faithful lib policy mode headers r v) :
    ∃ recs, (Sheet.run {} ops).save lib policy = ⟨some recs, true⟩ ∧
      (openFile lib mode headers recs).cells = (Sheet.run {} ops).cells ∧
      (openFile lib mode headers recs).bounds = (Sheet.run {} ops).bounds := by
  have hB := written_inside ops hops
  generalize Sheet.run {} ops = s at hB hv
  by_cases h0 : s.maxRow = 0
  · have hb : s.bounds = none := by simp [Sheet.bounds, h0]
    refine ⟨[], by simp [Sheet.save, hb], ?_, ?_⟩
    · funext r c
      rw [open_cells]
      have : s.cells r c = none := by
        cases h : s.cells r c with
        | none => rfl
        | some v => have := hB.inside r c v h; omega
      rw [this]; simp
    · rw [hb]
      cases headers <;> rfl
  · have h0' : s.maxCol ≠ 0 := fun h => h0 (hB.both.mpr h)
    have hb : s.bounds = some (s.maxRow, s.maxCol) := by simp [Sheet.bounds, h0, h0']
    have hok : (s.writeRange lib policy 1 1 s.maxRow s.maxCol).ok = true := by
      rw [range_saved_iff]
      refine ⟨by omega, by omega, by omega, by omega, ?_⟩
      intro r c v _ _ _ _ h hn
      have := hv r c v h
      rw [Faithful, hn] at this
      cases this
    obtain ⟨recs, hf, hl, hw, hg⟩ := range_saved lib policy s 1 1 s.maxRow s.maxCol hok
    have hlen : recs.length = s.maxRow := by omega
    have hne : recs ≠ [] := by rintro rfl; simp at hlen; omega
    have hmax : (recs.map List.length).foldl max 0 = s.maxCol := by
      apply foldl_max_same _ _ _ (Nat.zero_le _)
      · intro x hx
        obtain ⟨rec, hrec, rfl⟩ := List.mem_map.mp hx
        have := hw rec hrec
        omega
      · simpa using hne
    refine ⟨recs, ?_, ?_, ?_⟩
    · simp only [Sheet.save, hb]
      rw [← hf, ← hok]
    · funext r c
      rw [open_cells]
      by_cases hin : 1 ≤ r ∧ r ≤ s.maxRow ∧ 1 ≤ c ∧ c ≤ s.maxCol
      · have := hg r c hin.1 hin.2.1 hin.2.2.1 hin.2.2.2
        rw [if_pos ⟨hin.1, hin.2.2.1⟩]
        cases hi : recs[r - 1]? with
        | none => rw [List.getElem?_eq_none_iff] at hi; omega
        | some rec =>
          rw [hi, Option.bind_some] at this
          rw [Option.bind_some, this]
          cases h : s.cells r c with
          | none =>
            show Option.bind (some []) _ = none
            rw [Option.bind_some]
            split <;> simp [infer]
          | some v => exact hv r c v h
      · have hn : s.cells r c = none := by
          cases h : s.cells r c with
          | none => rfl
          | some v => exact absurd (hB.inside r c v h) hin
        rw [hn]
        split
        · next h =>
          cases hi : recs[r - 1]? with
          | none => rfl
          | some rec =>
            rw [Option.bind_some]
            have hl' := hw rec (List.mem_of_getElem? hi)
            have hr : r - 1 < recs.length := (List.getElem?_eq_some_iff.mp hi).1
            rw [List.getElem?_eq_none (by omega)]
            rfl
        · rfl
    · obtain ⟨h1, h2⟩ := open_bounds lib mode headers recs hne
      rw [Sheet.bounds, h1, h2, hlen, hmax]
      rfl

/-! ## Opening, then saving -/

/-- **With type inference off nothing is lost**: saving what was opened gives every record again,
filled up with empty fields to the length of the longest. -/
theorem open_then_save (lib : Lib F T) (policy : Policy) (headers : Bool) (recs : List (List Str)) (hne : recs ≠ [])
    (hw : 0 < (recs.map List.length).foldl max 0) :
    (openFile lib .off headers recs).save lib policy =
      ⟨some (recs.map fun rec => rec ++ List.replicate ((recs.map List.length).foldl max 0 - rec.length) []), true⟩ := by
  obtain ⟨h1, h2⟩ := open_bounds lib .off headers recs hne
  have hcell := open_cells lib .off headers recs
  generalize openFile lib .off headers recs = s at h1 h2 hcell
  generalize hW : (recs.map List.length).foldl max 0 = W at hw h2
  have hle : ∀ rec ∈ recs, rec.length ≤ W := by
    have key : ∀ (l : List Nat) a, a ≤ l.foldl max a ∧ ∀ x ∈ l, x ≤ l.foldl max a := by
      intro l
      induction l with
      | nil => intro a; simp
      | cons y l ih =>
        intro a
        have := ih (max a y)
        refine ⟨by rw [List.foldl_cons]; have := this.1; omega, ?_⟩
        intro x hx
        rw [List.foldl_cons]
        rcases List.mem_cons.mp hx with rfl | hx
        · have := this.1; omega
        · exact this.2 x hx
    intro rec hrec
    rw [← hW]
    exact (key _ 0).2 _ (List.mem_map_of_mem hrec)
  have hpos := List.length_pos_iff.mpr hne
  have hb : s.bounds = some (s.maxRow, s.maxCol) := by
    rw [Sheet.bounds, if_neg (by omega)]
  have hinf : ∀ r f, (if headers = true ∧ r = 1 then infer lib .off true else infer lib .off false) f = if f = [] then none else some (.text f) := by
    intro r f
    split <;> simp [infer]
  have hfield : ∀ r c, 1 ≤ r → r ≤ recs.length → 1 ≤ c →
      cellField lib policy (s.cells r c) = some (((recs[r - 1]?).bind (·[c - 1]?)).getD []) := by
    intro r c hr hr' hc
    rw [hcell, if_pos ⟨hr, hc⟩]
    cases hi : recs[r - 1]? with
    | none => rfl
    | some rec =>
      rw [Option.bind_some, Option.bind_some]
      cases hj : rec[c - 1]? with
      | none => rfl
      | some f =>
        rw [Option.bind_some, hinf]
        split
        · next h => subst h; rfl
        · simp [cellField, field, fieldAt]
  have hok : (s.writeRange lib policy 1 1 s.maxRow s.maxCol).ok = true := by
    rw [range_saved_iff]
    refine ⟨by omega, by omega, by omega, by omega, ?_⟩
    intro r c v hr hr' hc hc' h hn
    have := hfield r c hr (by omega) hc
    rw [h] at this
    rw [cellField, hn] at this
    cases this
  obtain ⟨out, hf, hl, hlen, hg⟩ := range_saved lib policy s 1 1 s.maxRow s.maxCol hok
  have hout : out = recs.map fun rec => rec ++ List.replicate (W - rec.length) [] := by
    apply List.ext_getElem?
    intro i
    by_cases hi : i < recs.length
    · have hio : i < out.length := by omega
      rw [List.getElem?_map, List.getElem?_eq_getElem hi, List.getElem?_eq_getElem hio, Option.map_some]
      congr 1
      have hwid : out[i].length = W := by have := hlen _ (List.getElem_mem hio); omega
      have hrec := hle _ (List.getElem_mem hi)
      apply List.ext_getElem?
      intro j
      by_cases hj : j < W
      · have := hg (i + 1) (j + 1) (by omega) (by omega) (by omega) (by omega)
        rw [hfield (i + 1) (j + 1) (by omega) (by omega) (by omega)] at this
        simp only [Nat.add_sub_cancel, List.getElem?_eq_getElem hi, List.getElem?_eq_getElem hio, Option.bind_some] at this
        rw [this]
        by_cases hjr : j < recs[i].length
        · rw [List.getElem?_append_left hjr, List.getElem?_eq_getElem hjr]; rfl
        · rw [List.getElem?_append_right (by omega), List.getElem?_eq_none (by omega : recs[i].length ≤ j),
            List.getElem?_replicate, if_pos (by omega)]; rfl
      · rw [List.getElem?_eq_none (by omega), List.getElem?_eq_none (by simp; omega)]
    · rw [List.getElem?_eq_none (by omega), List.getElem?_eq_none (by simp; omega)]
  simp only [Sheet.save, hb]
  rw [← hout, ← hf, ← hok]

/-! ## Cases and what does not hold -/

/-- A sheet of an integer, a text and a truth value, in which a cell was cleared. -/
def sample : List (Op Nat Nat) :=
  [.write 1 1 (some (.int 7)), .write 2 3 (some (.text ['a'])), .write 3 2 (some (.bool true)), .write 1 2 (some (.int 9)), .clear 1 2 1 9]

example : (Sheet.run {} sample).save quarters .error =
    ⟨some [[['7'], [], []], [[], [], ['a']], [[], ['T', 'R', 'U', 'E'], []]], true⟩ := by decide +kernel
example : (Sheet.run {} sample).cells 1 2 = none :=
  last_write [.write 1 1 (some (.int 7)), .write 2 3 (some (.text ['a'])), .write 3 2 (some (.bool true)), .write 1 2 (some (.int 9))] []
    (.clear 1 2 1 9) 1 2 (by simp [Op.touches]) (by simp)
example : ∃ recs, (Sheet.run {} [Op.write 2 2 (some (.int 7))] : Sheet Nat Nat).save quarters .error = ⟨some recs, true⟩ ∧
    (openFile quarters .basic false recs).cells = (Sheet.run {} [Op.write 2 2 (some (.int 7))]).cells ∧
    (openFile quarters .basic false recs).bounds = some (2, 2) :=
  save_then_open quarters .error .basic false [Op.write 2 2 (some (.int 7))] (by simp [Op.proper]) (by
    intro r c v h
    by_cases ht : Op.touches (F := Nat) (T := Nat) r c (.write 2 2 (some (.int 7)))
    · have := step_touched ({} : Sheet Nat Nat) _ r c ht
      rw [show Sheet.run {} [Op.write 2 2 (some (.int 7))] = Sheet.step ({} : Sheet Nat Nat) (.write 2 2 (some (.int 7))) from rfl, this] at h
      cases h
      exact int_comes_back quarters .error .basic (by decide) 7 (by decide)
    · have := step_untouched ({} : Sheet Nat Nat) _ r c ht
      rw [show Sheet.run {} [Op.write 2 2 (some (.int 7))] = Sheet.step ({} : Sheet Nat Nat) (.write 2 2 (some (.int 7))) from rfl, this] at h
      cases h)
example : (openFile quarters .off true [[['x'], ['7']], [['1']]]).save quarters .error = ⟨some [[['x'], ['7']], [['1'], []]], true⟩ :=
  open_then_save quarters .error true _ (by simp) (by decide)

/-- **A save that fails destroys the file**: the file is emptied before the first value that cannot
be printed is met.  With the policy that is the default, one array anywhere in the sheet is enough. -/
theorem failed_save_truncates : ¬ ∀ (s : Sheet Nat Nat), (s.save quarters .error).ok = false → (s.save quarters .error).file = none := by
  intro h
  exact absurd (h (Sheet.run {} [.write 1 1 (some (.int 7)), .write 2 1 (some (.array (.int 1)))]) (by decide +kernel)) (by decide +kernel)

/-- **Clearing does not take back the bounds**: the cleared rows and columns are saved as blanks. -/
theorem clear_keeps_bounds (s : Sheet F T) (r₁ c₁ r₂ c₂ : Nat) : (s.step (.clear r₁ c₁ r₂ c₂)).bounds = s.bounds := rfl

/-- **A value written in row zero is kept but never saved.** -/
theorem row_zero_not_saved : (Sheet.run {} [.write 0 1 (some (.int 7)), .write 1 1 (some (.int 8))] : Sheet Nat Nat).cells 0 1 = some (.int 7) ∧
    (Sheet.run {} [.write 0 1 (some (.int 7)), .write 1 1 (some (.int 8))] : Sheet Nat Nat).save quarters .error = ⟨some [[['8']]], true⟩ := by decide +kernel

end Verif.Csv
