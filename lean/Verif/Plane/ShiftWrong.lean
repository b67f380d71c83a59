/-
Where spans do not follow (property C61), and cases that meet the hypotheses of the theorems that say when they do.
-/
import Verif.Plane.ShiftCompact

namespace Verif.Plane.Edit

open Verif.Plane

/-! ### Formulas that do not follow -/

/-- A reference of the formula refers to a cell that is still there and did not before, or did before and no longer does. -/
def Misreads (op : Op) (env : Env) (f f' : Frame) (p p' : Key) : Prop :=
  ∃ (n : Nat) (r r' : Ref) (k k' : Key), f.refs[n]? = some r ∧ f'.refs[n]? = some r' ∧ op.move k = some k' ∧
    ¬ (r'.Denotes env f'.origin p' k' ↔ r.Denotes env f.origin p k)

theorem forall₂_get {α β : Type} {R : α → β → Prop} {l : List α} {l' : List β} (h : List.Forall₂ R l l') :
    ∀ {n : Nat} {a : α} {b : β}, l[n]? = some a → l'[n]? = some b → R a b := by
  induction h with
  | nil => intro n a b h; simp at h
  | cons h _ ih =>
    intro n a b h1 h2
    cases n with
    | zero =>
      simp only [List.getElem?_cons_zero, Option.some.injEq] at h1 h2
      subst h1 h2
      exact h
    | succ n =>
      simp only [List.getElem?_cons_succ] at h1 h2
      exact ih h1 h2

theorem misreads_keeps {op : Op} {env : Env} {f f' : Frame} {p p' : Key} (h : Misreads op env f f' p p') :
    ¬ f.Keeps op env env f' p p' := by
  obtain ⟨n, r, r', k, k', h1, h2, h3, h4⟩ := h
  exact fun hk => h4 ((forall₂_get hk h1 h2).1 k k' h3)

theorem misreads_tracks {op : Op} {env : Env} {f f' : Frame} {p p' : Key} (h : Misreads op env f f' p p') :
    ¬ f.Tracks op env env f' p p' := by
  obtain ⟨n, r, r', k, k', h1, h2, h3, h4⟩ := h
  exact fun hk => h4 ((forall₂_get hk h1 h2).1.same k k' h3)

/-- Two sheets, the second one called `Data`. -/
def env0 : Env := ⟨fun n => if n = "Data" then some 1 else none, fun _ => none, fun _ _ => true, fun _ _ _ => .value⟩

theorem env0_ok : env0.Ok := by intro n; trivial

theorem env0_moves (op : Op) : EnvMoves op env0 env0 := ⟨rfl, fun n t h => (by cases h), env0_ok⟩

/-- The fifth row of the first sheet is deleted. -/
def delRow5 : Op := ⟨true, true, 0, 4, 1⟩

theorem delRow5_fits : delRow5.Fits := ⟨by decide, by decide⟩

/-- `C3:C10`, the formula at `C3` being `e`. -/
def family (e : Expr) : Plane.Span Unit := ⟨(), ⟨0, 2, 2⟩, ⟨0, .span 2 9, .point 2⟩, e⟩

theorem family_good {e : Expr} {deps : List Dependency} (hw : ∀ r ∈ e.refs, r.Written) (ho : ∀ r ∈ e.refs, RefOrdered r)
    (h : (family e).deps env0 = some deps) : Good env0 (fresh (family e) deps true) ∧ (fresh (family e) deps true).Own :=
  fresh_good true ⟨⟨(by decide : 2 ≤ 9), (by decide : 9 ≤ u32Max)⟩, (by decide : 2 ≤ u32Max)⟩ rfl hw ho h

/-- `C3:C10` with `=B1` at `C3`: each cell reads the cell two rows further up, one column to the left. -/
def upTwo : Span := fresh (family (.ref (.cell none 1 2 false false))) [⟨⟨0, .span 0 7, .point 1⟩, .cell (.rel (-2)) (.rel (-1))⟩] true

/-- **Relative references to other rows.**  `C3:C10` with `=B1` at `C3`, row 5 deleted: the cell that was `C6`, and read
`B4`, is now `C5`, and reads `B3`; `B4` is still there. -/
theorem compact_misreads_offset : Good env0 upTwo ∧ upTwo.Own ∧ ∃ s', apply env0 delRow5 upTwo = .moved s' ∧
    Misreads delRow5 env0 upTwo.evaluated s'.evaluated ⟨0, 5, 2⟩ ⟨0, 4, 2⟩ := by
  have h := family_good (e := .ref (.cell none 1 2 false false)) (by simp [Expr.refs, Ref.Written, u32Max])
    (by simp [Expr.refs, RefOrdered]) (deps := [⟨⟨0, .span 0 7, .point 1⟩, .cell (.rel (-2)) (.rel (-1))⟩]) (by decide)
  refine ⟨h.1, h.2, _, rfl, 0, _, _, ⟨0, 3, 1⟩, ⟨0, 3, 1⟩, rfl, rfl, by decide, ?_⟩
  simp [upTwo, fresh, family, Ref.Denotes, moved, sheetOf]

/-- `C3:C10` with `=A3*SUM($B$1:$B$9)` at `C3`. -/
def shares : Expr := .binary "*" (.ref (.cell none 3 1 false false))
  (.func "SUM" [.ref (.range none (some 1) (some 2) (some 9) (some 2) true true true true)])

/-- **Absolute references that the deletion shortens.**  Row 5 deleted: the sum should be over `$B$1:$B$8` now, but is over
`$B$1:$B$9` still, and so includes what was `B10`. -/
theorem compact_misreads_absolute : ∃ deps, (family shares).deps env0 = some deps ∧
    Good env0 (fresh (family shares) deps true) ∧ (fresh (family shares) deps true).Own ∧
    ∃ s', apply env0 delRow5 (fresh (family shares) deps true) = .moved s' ∧
      Misreads delRow5 env0 (fresh (family shares) deps true).evaluated s'.evaluated ⟨0, 5, 2⟩ ⟨0, 4, 2⟩ := by
  have h0 : (family shares).deps env0 = some [⟨⟨0, .span 2 9, .point 0⟩, .cell (.rel 0) (.rel (-2))⟩,
    ⟨⟨0, .span 0 8, .point 1⟩, .range (.abs 0) (.abs 8) (.abs 1) (.abs 1)⟩] := by decide
  have h := family_good (e := shares) (by simp [shares, Expr.refs, Expr.refsList, Ref.Written, u32Max])
    (by simp [shares, Expr.refs, Expr.refsList, RefOrdered]) h0
  refine ⟨_, h0, h.1, h.2, _, rfl, 1, _, _, ⟨0, 9, 1⟩, ⟨0, 8, 1⟩, rfl, rfl, by decide, ?_⟩
  simp [fresh, family, Ref.Denotes, moved, sheetOf, shares, Expr.refs, Expr.refsList, Covers, Between]

/-- **References to other sheets.**  `C3:C10` with `=Data!A3` at `C3`, row 5 deleted: the cell that was `C6`, and read
`Data!A6`, is now `C5`, and reads `Data!A5`, although no row of `Data` was deleted. -/
theorem compact_misreads_other_sheet : ∃ deps, (family (.ref (.cell (some "Data") 3 1 false false))).deps env0 = some deps ∧
    Good env0 (fresh (family (.ref (.cell (some "Data") 3 1 false false))) deps true) ∧
    (fresh (family (.ref (.cell (some "Data") 3 1 false false))) deps true).Own ∧
    ∃ s', apply env0 delRow5 (fresh (family (.ref (.cell (some "Data") 3 1 false false))) deps true) = .moved s' ∧
      Misreads delRow5 env0 (fresh (family (.ref (.cell (some "Data") 3 1 false false))) deps true).evaluated s'.evaluated
        ⟨0, 5, 2⟩ ⟨0, 4, 2⟩ := by
  have h0 : (family (.ref (.cell (some "Data") 3 1 false false))).deps env0 =
    some [⟨⟨1, .span 2 9, .point 0⟩, .cell (.rel 0) (.rel (-2))⟩] := by decide
  have h := family_good (e := .ref (.cell (some "Data") 3 1 false false)) (by simp [Expr.refs, Ref.Written, u32Max])
    (by simp [Expr.refs, RefOrdered]) h0
  refine ⟨_, h0, h.1, h.2, _, rfl, 0, _, _, ⟨1, 5, 0⟩, ⟨1, 5, 0⟩, rfl, rfl, by decide, ?_⟩
  simp [fresh, family, Ref.Denotes, moved, sheetOf, Expr.refs, env0]

/-- The first two rows of the first sheet are deleted. -/
def delRows12 : Op := ⟨true, true, 0, 0, 2⟩

/-- Row 2 of the first sheet is deleted. -/
def delRow2 : Op := ⟨true, true, 0, 1, 1⟩

/-- `C3:C10` with `=A3` at `C3`, the simplest of formulas, after the deletion of rows 1 and 2: the formula follows, its
origin stays `C3`. -/
def pinnedSpan : Span := ⟨⟨0, .span 0 7, .point 2⟩, ⟨⟨0, 2, 2⟩, [.cell none 3 1 false false]⟩,
  ⟨⟨0, 2, 2⟩, [.cell none 3 1 false false]⟩, ⟨⟨0, 2, 2⟩, [.cell none 3 1 false false]⟩,
  [⟨⟨0, .span 0 7, .point 0⟩, .cell (.rel 0) (.rel (-2))⟩], true⟩

/-- **Two deletions one after the other.**  `C3:C10` with `=A3` at `C3`.  Rows 1 and 2 are deleted, and all is well.  Then
row 2 is deleted: the origin, now after the deletion, is moved up although the formula is not changed.  The cell that was
`C1`, and read `A1`, is still `C1`, and reads `A2`. -/
theorem compact_misreads_origin : (family (.ref (.cell none 3 1 false false))).deps env0 =
      some [⟨⟨0, .span 2 9, .point 0⟩, .cell (.rel 0) (.rel (-2))⟩] ∧
    apply env0 delRows12 (fresh (family (.ref (.cell none 3 1 false false)))
      [⟨⟨0, .span 2 9, .point 0⟩, .cell (.rel 0) (.rel (-2))⟩] true) = .moved pinnedSpan ∧
    ∃ s', apply env0 delRow2 pinnedSpan = .moved s' ∧
      Misreads delRow2 env0 pinnedSpan.evaluated s'.evaluated ⟨0, 0, 2⟩ ⟨0, 0, 2⟩ := by
  refine ⟨by decide, rfl, _, rfl, 0, _, _, ⟨0, 0, 0⟩, ⟨0, 0, 0⟩, rfl, rfl, by decide, ?_⟩
  simp [pinnedSpan, Ref.Denotes, moved, sheetOf, delRow2]

/-- `C21:C30` with `=A21` at `C21`, the template being that of other cells with this formula, the first of them `C1`. -/
def sharedSpan : Span := ⟨⟨0, .span 20 29, .point 2⟩, ⟨⟨0, 0, 2⟩, [.cell none 1 1 false false]⟩,
  ⟨⟨0, 20, 2⟩, [.cell none 21 1 false false]⟩, ⟨⟨0, 20, 2⟩, [.cell none 21 1 false false]⟩,
  [⟨⟨0, .span 20 29, .point 0⟩, .cell (.rel 0) (.rel (-2))⟩], true⟩

/-- A row is inserted before row 26. -/
def insRow26 : Op := ⟨true, false, 0, 25, 1⟩

/-- **Shared templates.**  A row is inserted in the middle of a span whose template is shared: the cell that was `C26`, and
read `A26`, is now `C27`, and reads `A7` instead of `A27`. -/
theorem split_misreads_shared : Good env0 sharedSpan ∧ ∃ u l, apply env0 insRow26 sharedSpan = .halves u l ∧
    l.result.Has ⟨0, 26, 2⟩ ∧ Misreads insRow26 env0 sharedSpan.evaluated l.evaluated ⟨0, 25, 2⟩ ⟨0, 26, 2⟩ := by
  refine ⟨⟨[(0, .cell (.rel 0) (.rel (-2)))], ⟨⟨(by decide : 20 ≤ 29), (by decide : 29 ≤ u32Max)⟩,
      (by decide : 2 ≤ u32Max)⟩, ?_, ?_, ?_, summary_of_readSummary (by decide)⟩,
    _, _, rfl, ⟨rfl, ⟨(by decide : 26 ≤ 26), (by decide : 26 ≤ 30)⟩, rfl⟩, 0, _, _, ⟨0, 25, 0⟩, ⟨0, 26, 0⟩, rfl, rfl, by decide, ?_⟩
  · exact ⟨rfl, by simp [sharedSpan, Ref.Written, u32Max], by simp [sharedSpan, RefOrdered], .cons rfl .nil⟩
  · exact ⟨rfl, by simp [sharedSpan, Ref.Written, u32Max], by simp [sharedSpan, RefOrdered], .cons rfl .nil⟩
  · exact ⟨rfl, by simp [sharedSpan, Ref.Written, u32Max], by simp [sharedSpan, RefOrdered], .cons rfl .nil⟩
  · simp [sharedSpan, Ref.Denotes, moved, sheetOf]

/-- So the properties do not hold of compaction, nor of splitting with shared templates. -/
theorem not_all_follow : ¬ (∀ (env env' : Env) (op : Op) (s s' : Span), op.Fits → env.Ok → EnvMoves op env env' →
      Good env s → s.Own → apply env op s = .moved s' → ∀ p p' : Key, s.result.Has p → op.move p = some p' →
        s.evaluated.Keeps op env env' s'.evaluated p p') ∧
    ¬ (∀ (env env' : Env) (op : Op) (s u l : Span), op.Fits → env.Ok → EnvMoves op env env' →
      Good env s → apply env op s = .halves u l → ∀ p p' : Key, s.result.Has p → op.move p = some p' → l.result.Has p' →
        s.evaluated.Tracks op env env' l.evaluated p p') := by
  constructor
  · intro h
    obtain ⟨h1, h2, s', h3, h4⟩ := compact_misreads_offset
    exact misreads_keeps h4 (h _ _ _ _ _ delRow5_fits env0_ok (env0_moves _) h1 h2 h3 _ _
      ⟨rfl, ⟨(by decide : 2 ≤ 5), (by decide : 5 ≤ 9)⟩, rfl⟩ (by decide))
  · intro h
    obtain ⟨h1, u, l, h2, h3, h4⟩ := split_misreads_shared
    exact misreads_tracks h4 (h _ _ insRow26 _ _ _ ⟨by decide, by decide⟩ env0_ok (env0_moves _) h1 h2 _ _
      ⟨rfl, ⟨(by decide : 20 ≤ 25), (by decide : 25 ≤ 29)⟩, rfl⟩ (by decide) h3)

/-! ### Cases that meet the hypotheses -/

/-- `C3:C10` with `=A3` at `C3`. -/
def plain : Span := fresh (family (.ref (.cell none 3 1 false false))) [⟨⟨0, .span 2 9, .point 0⟩, .cell (.rel 0) (.rel (-2))⟩] true

theorem plain_good : Good env0 plain ∧ plain.Own :=
  family_good (e := .ref (.cell none 3 1 false false)) (by simp [Expr.refs, Ref.Written, u32Max])
    (by simp [Expr.refs, RefOrdered]) (by decide)

theorem grid_plain (op : Op) (h : op.count ≤ 100) : Grid op plain ∧ Grid op pinnedSpan := by
  have hr : ∀ r, r = Ref.cell none 3 1 false false → RefRoom op.count r := by
    rintro r rfl
    exact ⟨by unfold u32Max; omega, by unfold u32Max; omega⟩
  refine ⟨⟨fun d hd => Or.inr ?_, fun r h' => hr r (by simpa [plain, fresh, family, Expr.refs] using h')⟩,
    ⟨fun d hd => Or.inr ?_, fun r h' => hr r (by simpa [pinnedSpan] using h')⟩⟩
  · obtain rfl : d = _ := by simpa [plain, fresh] using hd
    unfold Op.axis u32Max
    split <;> simp only [AxisRange.bounds] <;> omega
  · obtain rfl : d = _ := by simpa [pinnedSpan] using hd
    unfold Op.axis u32Max
    split <;> simp only [AxisRange.bounds] <;> omega

/-- The theorem about spans that stay: a row is inserted after the span. -/
example : Good env0 plain ∧ ∀ p : Key, plain.result.Has p → (⟨true, false, 0, 20, 1⟩ : Op).move p = some p ∧
    FramesTrack ⟨true, false, 0, 20, 1⟩ env0 env0 plain plain p p :=
  unchanged_tracks ⟨by decide, by decide⟩ env0_ok (env0_moves _) plain_good.1 rfl

/-- Two rows are inserted before row 5. -/
def ins2 : Op := ⟨true, false, 0, 4, 2⟩

/-- The two halves of `pinnedSpan`. -/
def upperSpan : Span := ⟨⟨0, .span 0 3, .point 2⟩, pinnedSpan.template, pinnedSpan.shown, pinnedSpan.evaluated,
  [⟨⟨0, .span 0 3, .point 0⟩, .cell (.rel 0) (.rel (-2))⟩], true⟩
def lowerSpan : Span := ⟨⟨0, .span 6 9, .point 2⟩, pinnedSpan.template, pinnedSpan.shown, pinnedSpan.evaluated,
  [⟨⟨0, .span 6 9, .point 0⟩, .cell (.rel 0) (.rel (-2))⟩], true⟩

/-- The theorem about spans that move: rows before the span are deleted. -/
example : Good env0 pinnedSpan ∧ (∀ p : Key, plain.result.Has p → ∃ p', delRows12.move p = some p' ∧
      pinnedSpan.result.Has p' ∧ FramesTrack delRows12 env0 env0 plain pinnedSpan p p') ∧
    ∀ p' : Key, pinnedSpan.result.Has p' → ∃ p, plain.result.Has p ∧ delRows12.move p = some p' :=
  moved_tracks ⟨by decide, by decide⟩ env0_ok (env0_moves _) plain_good.1 (grid_plain _ (by decide)).1 (by decide) rfl

/-- The theorem about several operations, and with it that about spans that are cut in two: rows before the span are deleted,
then rows are inserted in the middle of it. -/
example : ∀ s' ∈ [upperSpan, lowerSpan], (Good env0 s' ∧ s'.Own) ∧ ∀ p' : Key, s'.result.Has p' →
    ∃ s ∈ [plain], ∃ p, s.result.Has p ∧ movePath [delRows12, ins2] p = some p' ∧
      FramesTrackBy (movePath [delRows12, ins2]) env0 env0 s s' p p' := by
  refine run_tracks_partial (.cons (spans1 := [pinnedSpan]) ⟨by decide, by decide⟩ (env0_moves _) ?_ ?_ rfl
    (.cons (spans1 := [upperSpan, lowerSpan]) ⟨by decide, by decide⟩ (env0_moves _) ?_ ?_ rfl (.nil _ _))) env0_ok ?_
  · intro s hs; rw [List.mem_singleton.1 hs]; exact (grid_plain _ (by decide)).1
  · intro s hs h; rw [List.mem_singleton.1 hs] at h; exact absurd h (by decide)
  · intro s hs; rw [List.mem_singleton.1 hs]; exact (grid_plain _ (by decide)).2
  · intro s hs h; rw [List.mem_singleton.1 hs] at h; exact absurd h (by decide)
  · intro s hs; rw [List.mem_singleton.1 hs]; exact plain_good

/-- The theorem about spans that are rewritten: `=A3*$B$1` at `C3`, a row inserted before the first one. -/
def factor : Expr := .binary "*" (.ref (.cell none 3 1 false false)) (.ref (.cell none 1 2 true true))

def factorSpan : Span := fresh (family factor)
  [⟨⟨0, .span 2 9, .point 0⟩, .cell (.rel 0) (.rel (-2))⟩, ⟨⟨0, .point 0, .point 1⟩, .cell (.abs 0) (.abs 1)⟩] true

/-- `=A4*$B$2` at `C4`. -/
def factorFrame : Frame := ⟨⟨0, 3, 2⟩, [.cell none 4 1 false false, .cell none 2 2 true true]⟩

def factorMoved : Span := ⟨⟨0, .span 3 10, .point 2⟩, factorFrame, factorFrame, factorFrame,
  [⟨⟨0, .span 3 10, .point 0⟩, .cell (.rel 0) (.rel (-2))⟩, ⟨⟨0, .point 1, .point 1⟩, .cell (.abs 1) (.abs 1)⟩], true⟩

/-- A row is inserted before the first one. -/
def insRow1 : Op := ⟨true, false, 0, 0, 1⟩

theorem factor_good : Good env0 factorSpan :=
  (family_good (e := factor) (by simp [factor, Expr.refs, Ref.Written, u32Max])
    (by simp [factor, Expr.refs, RefOrdered]) (by decide)).1

theorem factor_grid : Grid insRow1 factorSpan := by
  constructor
  · intro d hd
    simp only [factorSpan, fresh, List.mem_cons, List.not_mem_nil, or_false] at hd
    rcases hd with rfl | rfl <;> exact Or.inr (by decide)
  · intro r hr
    simp only [factorSpan, fresh, family, factor, Expr.refs, List.cons_append, List.nil_append, List.mem_cons,
      List.not_mem_nil, or_false] at hr
    rcases hr with rfl | rfl <;> exact ⟨by decide, by decide⟩

theorem factor_applied : apply env0 insRow1 factorSpan = .moved factorMoved := by rfl

example : Good env0 factorMoved :=
  (moved_tracks (op := insRow1) ⟨by decide, by decide⟩ env0_ok (env0_moves _) factor_good factor_grid (by decide) factor_applied).1

/-- The theorem about spans that are compacted: `=A3` at `C3`, row 5 deleted. -/
example : ∃ s', apply env0 delRow5 plain = .moved s' ∧ s'.result = ⟨0, .span 2 8, .point 2⟩ ∧
    ∀ p p' : Key, plain.result.Has p → delRow5.move p = some p' → plain.evaluated.Keeps delRow5 env0 env0 s'.evaluated p p' := by
  refine ⟨_, rfl, rfl, fun p p' hp hm => ((compact_tracks_partial delRow5_fits env0_ok (env0_moves _) plain_good.1 (by decide)
    (by decide) ?_ rfl).2.2 p p' hp hm).2.2⟩
  intro d hd
  obtain rfl : d = _ := by simpa [plain, fresh] using hd
  unfold CompactSafe
  rw [if_pos (by decide)]
  left
  intro b hb
  simpa [Op.bounds, delRow5] using hb

/-- The theorem about spans that are removed. -/
example (p : Key) (hp : plain.result.Has p) : (⟨true, true, 0, 0, 30⟩ : Op).move p = none :=
  removed_gone (env := env0) ⟨by decide, by decide⟩ rfl p hp

/-- The theorem about spans that are not looked at. -/
example : classifySpan ⟨true, true, 0, 20, 5⟩ plain.result plain.deps = .noOp := by
  refine skipped_noOp ⟨⟨(by decide : 2 ≤ 9), (by decide : 9 ≤ u32Max)⟩, (by decide : 2 ≤ u32Max)⟩ ?_ ?_ ?_
  · intro d hd
    obtain rfl : d = _ := by simpa [plain, fresh] using hd
    exact ⟨⟨(by decide : 2 ≤ 9), (by decide : 9 ≤ u32Max)⟩, (by decide : 0 ≤ u32Max)⟩
  · intro k hk _
    have : 2 ≤ k.row ∧ k.row ≤ 9 := hk.2.1
    show k.row < 20
    omega
  · intro d hd k hk _
    obtain rfl : d = _ := by simpa [plain, fresh] using hd
    have : 2 ≤ k.row ∧ k.row ≤ 9 := hk.2.1
    show k.row < 20
    omega

/-- The reads recorded for it: the rows that are left of `A3:A10`. -/
example : ∃ d', compactDep delRow5 ⟨⟨0, .span 2 9, .point 0⟩, .cell (.rel 0) (.rel (-2))⟩ = some d' ∧
    d'.read = ⟨0, .span 2 8, .point 0⟩ ∧ (d'.read.Has ⟨0, 8, 0⟩ ↔ (⟨0, .span 2 9, .point 0⟩ : Region).Has ⟨0, 9, 0⟩) :=
  ⟨_, rfl, rfl, (compact_reads (d := ⟨⟨0, .span 2 9, .point 0⟩, .cell (.rel 0) (.rel (-2))⟩) delRow5_fits rfl
    ⟨⟨(by decide : 2 ≤ 9), (by decide : 9 ≤ u32Max)⟩, (by decide : 0 ≤ u32Max)⟩ rfl).2 ⟨0, 9, 0⟩ ⟨0, 8, 0⟩ rfl⟩

/-- `C3:C10` with `=$B$8`, row 5 deleted: the span is given up. -/
example : apply env0 delRow5 (fresh (family (.ref (.cell none 8 2 true true))) [⟨⟨0, .point 7, .point 1⟩, .cell (.abs 7) (.abs 1)⟩] true) =
    .demoted := by
  refine compact_gives_up delRow5_fits ?_ (by decide) (d := ⟨⟨0, .point 7, .point 1⟩, .cell (.abs 7) (.abs 1)⟩) (by simp [fresh]) rfl
    rfl ?_ ⟨.abs 7, by simp [Op.bounds, delRow5], 7, rfl⟩
  · intro d hd
    obtain rfl : d = _ := by simpa [fresh] using hd
    exact ⟨(by decide : 7 ≤ u32Max), (by decide : 1 ≤ u32Max)⟩
  · intro k hk
    obtain ⟨-, h1, -⟩ := hk
    have : k.row = 7 := h1
    simp [delRow5, Op.coord, this]

end Verif.Plane.Edit
