import Verif.Delta.Model
import Mathlib.Data.List.Dedup
import Mathlib.Data.List.Nodup
import Mathlib.Tactic.Common

/-!
# C99: the report holds the recorded cells
-/
namespace Verif.Delta

/-- The rectangle holds the cell. -/
def Rect.Has (r : Rect) (c : Cell) : Prop :=
  r.sheet = c.sheet ∧ r.sr ≤ c.row ∧ c.row ≤ r.er ∧ r.sc ≤ c.col ∧ c.col ≤ r.ec

/-- The rectangle is not upside down. -/
def Rect.Valid (r : Rect) : Prop := r.sr ≤ r.er ∧ r.sc ≤ r.ec

/-! ### Sorting -/

theorem lexLe_total : ∀ a b : List Nat, lexLe a b = true ∨ lexLe b a = true
  | [], _ => .inl (by simp [lexLe])
  | _ :: _, [] => .inr (by simp [lexLe])
  | a :: as, b :: bs => by
    simp only [lexLe, Bool.or_eq_true, Bool.and_eq_true, decide_eq_true_eq, beq_iff_eq]
    rcases Nat.lt_trichotomy a b with h | h | h
    · exact .inl (.inl h)
    · rcases lexLe_total as bs with h' | h'
      · exact .inl (.inr ⟨h, h'⟩)
      · exact .inr (.inr ⟨h.symm, h'⟩)
    · exact .inr (.inl h)

theorem lexLe_trans : ∀ a b c : List Nat, lexLe a b = true → lexLe b c = true → lexLe a c = true
  | [], _, _, _, _ => by simp [lexLe]
  | _ :: _, [], _, h, _ => by simp [lexLe] at h
  | _ :: _, _ :: _, [], _, h => by simp [lexLe] at h
  | a :: as, b :: bs, c :: cs, h1, h2 => by
    simp only [lexLe, Bool.or_eq_true, Bool.and_eq_true, decide_eq_true_eq, beq_iff_eq] at h1 h2 ⊢
    rcases h1 with h1 | ⟨h1, h1'⟩ <;> rcases h2 with h2 | ⟨h2, h2'⟩
    · left; omega
    · left; omega
    · left; omega
    · right; exact ⟨by omega, lexLe_trans as bs cs h1' h2'⟩

section
variable {α : Type} (key : α → List Nat)

theorem ins_perm (x : α) : ∀ l : List α, (ins key x l).Perm (x :: l)
  | [] => .refl _
  | y :: ys => by
    unfold ins
    split
    · exact .refl _
    · exact ((ins_perm x ys).cons y).trans (List.Perm.swap x y ys)

theorem sortBy_perm : ∀ l : List α, (sortBy key l).Perm l
  | [] => .refl _
  | x :: l => (ins_perm key x (sortBy key l)).trans ((sortBy_perm l).cons x)

theorem mem_sortBy {l : List α} {x : α} : x ∈ sortBy key l ↔ x ∈ l := (sortBy_perm key l).mem_iff

/-- The list is in the order of the key. -/
def InOrder (l : List α) : Prop := l.Pairwise fun a b => lexLe (key a) (key b) = true

theorem ins_inOrder (x : α) : ∀ l : List α, InOrder key l → InOrder key (ins key x l)
  | [], _ => List.pairwise_singleton _ _
  | y :: ys, h => by
    have hy := List.pairwise_cons.1 h
    unfold ins
    split
    · next hx =>
      refine List.pairwise_cons.2 ⟨fun z hz => ?_, h⟩
      rcases List.mem_cons.1 hz with rfl | hz
      · exact hx
      · exact lexLe_trans _ _ _ hx (hy.1 z hz)
    · next hx =>
      refine List.pairwise_cons.2 ⟨fun z hz => ?_, ins_inOrder x ys hy.2⟩
      rcases List.mem_cons.1 ((ins_perm key x ys).mem_iff.1 hz) with rfl | hz
      · exact (lexLe_total (key z) (key y)).resolve_left hx
      · exact hy.1 z hz

theorem sortBy_inOrder : ∀ l : List α, InOrder key (sortBy key l)
  | [] => .nil
  | x :: l => ins_inOrder key x _ (sortBy_inOrder l)

end

/-! ### Sweeping -/

/-- What a sweep needs: records that may be joined start in order. -/
structure Sweeping (joins : Rect → Rect → Bool) (grow : Rect → Rect → Rect) (le : Rect → Rect → Prop) : Prop where
  has : ∀ p r, p.Valid → r.Valid → le p r → joins p r = true → ∀ c, (grow p r).Has c ↔ p.Has c ∨ r.Has c
  valid : ∀ p r, p.Valid → r.Valid → le p r → joins p r = true → (grow p r).Valid
  keep : ∀ p r x, le p x → le (grow p r) x

def leH (p r : Rect) : Prop := p.sheet = r.sheet → p.sr = r.sr → p.er = r.er → p.sc ≤ r.sc
def leV (p r : Rect) : Prop := p.sheet = r.sheet → p.sc = r.sc → p.ec = r.ec → p.sr ≤ r.sr

theorem sweepingH : Sweeping joinsH growH leH := by
  refine ⟨?_, ?_, fun p r x h => h⟩
  · intro p r hp hr hle hj c
    simp only [joinsH, Bool.and_eq_true, beq_iff_eq, decide_eq_true_eq] at hj
    obtain ⟨⟨⟨h1, h2⟩, h3⟩, h4⟩ := hj
    have := hle h1 h2 h3
    simp only [Rect.Has, growH, Rect.Valid] at *
    omega
  · intro p r hp hr hle hj
    simp only [growH, Rect.Valid] at *
    omega

theorem sweepingV : Sweeping joinsV growV leV := by
  refine ⟨?_, ?_, fun p r x h => h⟩
  · intro p r hp hr hle hj c
    simp only [joinsV, Bool.and_eq_true, beq_iff_eq, decide_eq_true_eq] at hj
    obtain ⟨⟨⟨h1, h2⟩, h3⟩, h4⟩ := hj
    have := hle h1 h2 h3
    simp only [Rect.Has, growV, Rect.Valid] at *
    omega
  · intro p r hp hr hle hj
    simp only [growV, Rect.Valid] at *
    omega

theorem leH_of_lex {p r : Rect} (h : lexLe (keyH p) (keyH r) = true) : leH p r := by
  intro h1 h2 h3
  simp only [keyH, lexLe, Bool.or_eq_true, Bool.and_eq_true, decide_eq_true_eq, beq_iff_eq] at h
  omega

theorem leV_of_lex {p r : Rect} (h : lexLe (keyV p) (keyV r) = true) : leV p r := by
  intro h1 h2 h3
  simp only [keyV, lexLe, Bool.or_eq_true, Bool.and_eq_true, decide_eq_true_eq, beq_iff_eq] at h
  omega

section
variable {joins : Rect → Rect → Bool} {grow : Rect → Rect → Rect} {le : Rect → Rect → Prop}

theorem sweepFrom_spec (S : Sweeping joins grow le) : ∀ (rest : List Rect) (p : Rect), p.Valid →
    (∀ r ∈ rest, r.Valid) → (p :: rest).Pairwise le →
    (∀ r ∈ sweepFrom joins grow p rest, r.Valid) ∧
      ∀ c, (∃ r ∈ sweepFrom joins grow p rest, r.Has c) ↔ ∃ r ∈ p :: rest, r.Has c
  | [], p, hp, _, _ => by simp [sweepFrom, hp]
  | r :: rest, p, hp, hr, hle => by
    have h1 := List.pairwise_cons.1 hle
    have h2 := List.pairwise_cons.1 h1.2
    have hrv := hr r (by simp)
    have hpr := h1.1 r (by simp)
    unfold sweepFrom
    split
    · next hj =>
      have ih := sweepFrom_spec S rest (grow p r) (S.valid p r hp hrv hpr hj)
        (fun x hx => hr x (by simp [hx]))
        (List.pairwise_cons.2 ⟨fun x hx => S.keep p r x (h1.1 x (by simp [hx])), h2.2⟩)
      refine ⟨ih.1, fun c => ?_⟩
      rw [ih.2 c]
      simp only [List.mem_cons, exists_eq_or_imp, S.has p r hp hrv hpr hj c]
      tauto
    · have ih := sweepFrom_spec S rest r hrv (fun x hx => hr x (by simp [hx])) h1.2
      refine ⟨fun x hx => ?_, fun c => ?_⟩
      · rcases List.mem_cons.1 hx with rfl | hx
        · exact hp
        · exact ih.1 x hx
      · simp only [List.mem_cons, exists_eq_or_imp] at ih ⊢
        rw [ih.2 c]

theorem sweep_spec (S : Sweeping joins grow le) (l : List Rect) (hv : ∀ r ∈ l, r.Valid) (hle : l.Pairwise le) :
    (∀ r ∈ sweep joins grow l, r.Valid) ∧ ∀ c, (∃ r ∈ sweep joins grow l, r.Has c) ↔ ∃ r ∈ l, r.Has c := by
  cases l with
  | nil => simp [sweep]
  | cons p rest => exact sweepFrom_spec S rest p (hv p (by simp)) (fun x hx => hv x (by simp [hx])) hle

/-- Records that share no cell are swept into records that share no cell. -/
theorem sweepFrom_disjoint (S : Sweeping joins grow le) : ∀ (rest : List Rect) (p : Rect), p.Valid →
    (∀ r ∈ rest, r.Valid) → (p :: rest).Pairwise le →
    (p :: rest).Pairwise (fun a b => ∀ c, ¬ (a.Has c ∧ b.Has c)) →
    (sweepFrom joins grow p rest).Pairwise fun a b => ∀ c, ¬ (a.Has c ∧ b.Has c)
  | [], p, _, _, _, _ => List.pairwise_singleton _ _
  | r :: rest, p, hp, hr, hle, hd => by
    have h1 := List.pairwise_cons.1 hle
    have h2 := List.pairwise_cons.1 h1.2
    have d1 := List.pairwise_cons.1 hd
    have d2 := List.pairwise_cons.1 d1.2
    have hrv := hr r (by simp)
    have hpr := h1.1 r (by simp)
    unfold sweepFrom
    split
    · next hj =>
      refine sweepFrom_disjoint S rest (grow p r) (S.valid p r hp hrv hpr hj) (fun x hx => hr x (by simp [hx]))
        (List.pairwise_cons.2 ⟨fun x hx => S.keep p r x (h1.1 x (by simp [hx])), h2.2⟩)
        (List.pairwise_cons.2 ⟨fun x hx c hc => ?_, d2.2⟩)
      rcases (S.has p r hp hrv hpr hj c).1 hc.1 with h | h
      · exact d1.1 x (by simp [hx]) c ⟨h, hc.2⟩
      · exact d2.1 x hx c ⟨h, hc.2⟩
    · refine List.pairwise_cons.2 ⟨fun x hx c hc => ?_,
        sweepFrom_disjoint S rest r hrv (fun x hx => hr x (by simp [hx])) h1.2 d1.2⟩
      obtain ⟨y, hy, hyc⟩ := ((sweepFrom_spec S rest r hrv (fun x hx => hr x (by simp [hx])) h1.2).2 c).1 ⟨x, hx, hc.2⟩
      exact d1.1 y hy c ⟨hc.1, hyc⟩

theorem sweep_disjoint (S : Sweeping joins grow le) (l : List Rect) (hv : ∀ r ∈ l, r.Valid) (hle : l.Pairwise le)
    (hd : l.Pairwise fun a b => ∀ c, ¬ (a.Has c ∧ b.Has c)) :
    (sweep joins grow l).Pairwise fun a b => ∀ c, ¬ (a.Has c ∧ b.Has c) := by
  cases l with
  | nil => exact .nil
  | cons p rest => exact sweepFrom_disjoint S rest p (hv p (by simp)) (fun x hx => hv x (by simp [hx])) hle hd

end

/-- The list after the horizontal sweep. -/
theorem horizontal_spec (l : List Rect) (hv : ∀ r ∈ l, r.Valid) :
    (∀ r ∈ sweep joinsH growH (sortBy keyH l), r.Valid) ∧
      ∀ c, (∃ r ∈ sweep joinsH growH (sortBy keyH l), r.Has c) ↔ ∃ r ∈ l, r.Has c := by
  have h := sweep_spec sweepingH (sortBy keyH l) (fun r hr => hv r ((mem_sortBy _).1 hr))
    ((sortBy_inOrder keyH l).imp leH_of_lex)
  refine ⟨h.1, fun c => ?_⟩
  rw [h.2 c]
  simp only [mem_sortBy]

/-- **The report holds the cells recorded**: none is lost, none is added, for every order and overlap of the
records; its records are not upside down and stand in the order of sheet, first row, first column, last row, last
column. -/
theorem report_exact (l : List Rect) (hv : ∀ r ∈ l, r.Valid) :
    (∀ c, (∃ r ∈ finishTarget false l, r.Has c) ↔ ∃ r ∈ l, r.Has c) ∧
      (∀ r ∈ finishTarget false l, r.Valid) ∧
      (finishTarget false l).Pairwise fun a b =>
        a = b ∨ a.sheet < b.sheet ∨ (a.sheet = b.sheet ∧ (a.sr < b.sr ∨ (a.sr = b.sr ∧ (a.sc < b.sc ∨
          (a.sc = b.sc ∧ (a.er < b.er ∨ (a.er = b.er ∧ a.ec < b.ec))))))) := by
  have h1 := horizontal_spec l hv
  have h2 := sweep_spec sweepingV (sortBy keyV (sweep joinsH growH (sortBy keyH l)))
    (fun r hr => h1.1 r ((mem_sortBy _).1 hr)) ((sortBy_inOrder keyV _).imp leV_of_lex)
  unfold finishTarget
  simp only [Bool.false_eq_true, if_false]
  refine ⟨fun c => ?_, fun r hr => h2.1 r ((mem_sortBy _).1 hr), (sortBy_inOrder keyR _).imp fun {a b} h => ?_⟩
  · simp only [mem_sortBy]
    rw [h2.2 c]
    simp only [mem_sortBy]
    exact h1.2 c
  · simp only [keyR, lexLe, Bool.or_eq_true, Bool.and_eq_true, decide_eq_true_eq, beq_iff_eq] at h
    by_cases hab : a = b
    · exact .inl hab
    · right
      have : ¬ (a.sheet = b.sheet ∧ a.sr = b.sr ∧ a.sc = b.sc ∧ a.er = b.er ∧ a.ec = b.ec) := by
        rintro ⟨e1, e2, e3, e4, e5⟩
        cases a; cases b
        simp only at e1 e2 e3 e4 e5
        subst e1 e2 e3 e4 e5
        exact hab rfl
      omega

/-- **What is recorded**: a region that is not upside down, unless the collector is off; nothing else. -/
theorem record_spec (off : Bool) (rs : List Rect) :
    (rs.foldl (recordRegion off) []) = if off then [] else rs.filter fun r => decide (r.sr ≤ r.er ∧ r.sc ≤ r.ec) := by
  have : ∀ (rs l : List Rect), rs.foldl (recordRegion off) l =
      l ++ if off then [] else rs.filter fun r => decide (r.sr ≤ r.er ∧ r.sc ≤ r.ec) := by
    intro rs
    induction rs with
    | nil => intro l; simp
    | cons r rs ih =>
      intro l
      rw [List.foldl_cons, ih]
      unfold recordRegion
      cases off with
      | true => simp
      | false =>
        by_cases h1 : r.sr ≤ r.er <;> by_cases h2 : r.sc ≤ r.ec <;> simp [h1, h2, Nat.not_lt.2, Nat.lt_of_not_le]
  simpa using this rs []

/-- A run lies in one row or one column; what is not a run has at least two of both. -/
theorem run_iff (r : Rect) (h : r.Valid) :
    isRun r = true ↔ ¬ (r.sr < r.er ∧ r.sc < r.ec) := by
  simp only [isRun, Bool.or_eq_true, beq_iff_eq, Rect.Valid] at *
  omega

/-! ### The list of cells -/

theorem mem_cellsOf (r : Rect) (h : r.Valid) (c : Cell) : c ∈ cellsOf r ↔ r.Has c := by
  obtain ⟨h1, h2⟩ := h
  simp only [cellsOf, List.mem_flatMap, List.mem_range'_1, List.mem_map, Rect.Has]
  constructor
  · rintro ⟨row, hrow, col, hcol, rfl⟩
    exact ⟨rfl, by simp only; omega, by simp only; omega, by simp only; omega, by simp only; omega⟩
  · rintro ⟨e, e1, e2, e3, e4⟩
    refine ⟨c.row, by omega, c.col, by omega, ?_⟩
    cases c; simp_all

theorem packAll_some : ∀ (cs : List Cell) (ns : List Nat), packAll cs = some ns →
    ∀ n, n ∈ ns ↔ ∃ c ∈ cs, pack c = some n
  | [], ns, h, n => by simp only [packAll, Option.some.injEq] at h; subst h; simp
  | c :: cs, ns, h, n => by
    unfold packAll at h
    split at h
    · next m ms hm hms =>
      injection h with h
      subst h
      simp only [List.mem_cons, exists_eq_or_imp, packAll_some cs ms hms n, hm, Option.some.injEq]
      rw [eq_comm (a := n)]
    · cases h

theorem packAll_none : ∀ cs : List Cell, packAll cs = none ↔ ∃ c ∈ cs, pack c = none
  | [] => by simp [packAll]
  | c :: cs => by
    have ih := packAll_none cs
    unfold packAll
    cases hp : pack c with
    | none => simp [hp]
    | some n =>
      cases hq : packAll cs with
      | none => simpa [hp, hq] using ih
      | some ns => simpa [hp, hq] using ih

theorem mem_dedup : ∀ (l : List Nat) (n : Nat), n ∈ dedup l ↔ n ∈ l
  | [], n => by simp [dedup]
  | a :: l, n => by
    have ih := mem_dedup l n
    unfold dedup
    cases hd : dedup l with
    | nil => rw [hd] at ih; simp only [List.mem_cons]; rw [← ih]
    | cons b r =>
      rw [hd] at ih
      simp only
      split
      · next h => subst h; rw [List.mem_cons (b := a) (l := l), ← ih]; simp
      · rw [List.mem_cons, ih, List.mem_cons]

theorem dedup_strict : ∀ l : List Nat, l.Pairwise (· ≤ ·) → (dedup l).Pairwise (· < ·)
  | [], _ => .nil
  | a :: l, h => by
    have h' := List.pairwise_cons.1 h
    have ih := dedup_strict l h'.2
    have hm := mem_dedup l
    unfold dedup
    cases hd : dedup l with
    | nil => exact List.pairwise_singleton _ _
    | cons b r =>
      rw [hd] at ih hm
      simp only
      split
      · exact ih
      · next hab =>
        have hb : a ≤ b := h'.1 b ((hm b).1 (by simp))
        refine List.pairwise_cons.2 ⟨fun x hx => ?_, ih⟩
        rcases List.mem_cons.1 hx with rfl | hx
        · omega
        · have := (List.pairwise_cons.1 ih).1 x hx
          omega

/-- **The list of changed cells**, when there is one: strictly ascending (so without repetitions), and exactly the
recorded cells, packed. -/
theorem cells_exact (limit : Option Nat) (l : List Rect) (hv : ∀ r ∈ l, r.Valid) (ns : List Nat)
    (h : expand limit (finishTarget false l) = .cells ns) :
    ns.Pairwise (· < ·) ∧ (∀ n, n ∈ ns ↔ ∃ r ∈ l, ∃ c, r.Has c ∧ pack c = some n) ∧
      ∀ r ∈ l, ∀ c, r.Has c → c.row ≤ 1048575 ∧ c.col ≤ 16383 := by
  obtain ⟨hc, hval, -⟩ := report_exact l hv
  have hmem : ∀ c, c ∈ (finishTarget false l).flatMap cellsOf ↔ ∃ r ∈ l, r.Has c := by
    intro c
    rw [← hc c, List.mem_flatMap]
    exact ⟨fun ⟨r, hr, hx⟩ => ⟨r, hr, (mem_cellsOf r (hval r hr) c).1 hx⟩,
      fun ⟨r, hr, hx⟩ => ⟨r, hr, (mem_cellsOf r (hval r hr) c).2 hx⟩⟩
  unfold expand at h
  split at h
  · cases hp : packAll ((finishTarget false l).flatMap cellsOf) with
    | none => rw [hp] at h; cases h
    | some ms =>
      rw [hp] at h
      simp only [Report.cells.injEq] at h
      subst h
      refine ⟨dedup_strict _ ((sortBy_inOrder _ ms).imp fun {a b} hab => ?_), fun n => ?_, fun r hr c hrc => ?_⟩
      · simp only [lexLe, Bool.or_eq_true, Bool.and_eq_true, decide_eq_true_eq, beq_iff_eq, and_true] at hab
        omega
      · rw [mem_dedup, mem_sortBy, packAll_some _ ms hp n]
        constructor
        · rintro ⟨c, hcm, hcn⟩
          obtain ⟨r, hr, hrc⟩ := (hmem c).1 hcm
          exact ⟨r, hr, c, hrc, hcn⟩
        · rintro ⟨r, hr, c, hrc, hcn⟩
          exact ⟨c, (hmem c).2 ⟨r, hr, hrc⟩, hcn⟩
      · have hno : ¬ ∃ c ∈ (finishTarget false l).flatMap cellsOf, pack c = none := by
          rw [← packAll_none, hp]; simp
        by_cases hb : c.row > 1048575 ∨ c.col > 16383
        · exact absurd ⟨c, (hmem c).2 ⟨r, hr, hrc⟩, by simp [pack, hb]⟩ hno
        · omega
  · cases h

/-- **Two cells are packed alike only if they are the same cell**, so that the list tells which cells changed. -/
theorem pack_inj (a b : Cell) (n : Nat) (ha : pack a = some n) (hb : pack b = some n) : a = b := by
  unfold pack at ha hb
  split at ha
  · cases ha
  split at hb
  · cases hb
  simp only [Option.some.injEq] at ha hb
  cases a; cases b
  simp only [Cell.mk.injEq] at *
  omega

theorem within_none : ∀ (rs : List Rect) (o : Nat), within none o rs = true
  | [], _ => rfl
  | _ :: rs, _ => within_none rs _

/-- **Without a limit** only a cell beyond the grid is refused. -/
theorem unlimited (l : List Rect) (hv : ∀ r ∈ l, r.Valid) :
    (∃ ns, expand none (finishTarget false l) = .cells ns) ↔
      ∀ r ∈ l, ∀ c, r.Has c → c.row ≤ 1048575 ∧ c.col ≤ 16383 := by
  constructor
  · rintro ⟨ns, h⟩
    exact (cells_exact none l hv ns h).2.2
  · intro h
    obtain ⟨hc, hval, -⟩ := report_exact l hv
    unfold expand
    rw [within_none, if_pos rfl]
    cases hp : packAll ((finishTarget false l).flatMap cellsOf) with
    | some ns => exact ⟨_, rfl⟩
    | none =>
      obtain ⟨c, hcm, hcn⟩ := (packAll_none _).1 hp
      obtain ⟨r, hr, hx⟩ := List.mem_flatMap.1 hcm
      obtain ⟨r', hr', hx'⟩ := (hc c).1 ⟨r, hr, (mem_cellsOf r (hval r hr) c).1 hx⟩
      have := h r' hr' c hx'
      have hb : ¬ (c.row > 1048575 ∨ c.col > 16383) := by omega
      simp [pack, hb] at hcn

/-! ### Single cells -/

/-- The record of one cell. -/
def single (c : Cell) : Rect := ⟨c.sheet, c.row, c.col, c.row, c.col⟩

theorem single_has (c d : Cell) : (single c).Has d ↔ d = c := by
  cases c; cases d
  simp only [single, Rect.Has, Cell.mk.injEq]
  omega

theorem single_valid (c : Cell) : (single c).Valid := ⟨Nat.le_refl _, Nat.le_refl _⟩

/-- Records of one row, in the order of their starts. -/
def flat (p r : Rect) : Prop := p.sr = p.er ∧ r.sr = r.er ∧
  (p.sheet < r.sheet ∨ (p.sheet = r.sheet ∧ (p.sr < r.sr ∨ (p.sr = r.sr ∧ p.sc ≤ r.sc))))

theorem flat_trans {a b c : Rect} (h1 : flat a b) (h2 : flat b c) : flat a c := by
  unfold flat at *; omega

theorem sweepFrom_first : ∀ (rest : List Rect) (p : Rect), p.sr = p.er → (∀ r ∈ rest, flat p r) →
    rest.Pairwise flat → ∀ x ∈ sweepFrom joinsH growH p rest, flat p x
  | [], p, hp, _, _, x, hx => by
    simp only [sweepFrom, List.mem_singleton] at hx
    subst hx
    unfold flat; omega
  | r :: rest, p, hp, hr, hpw, x, hx => by
    have h' := List.pairwise_cons.1 hpw
    unfold sweepFrom at hx
    split at hx
    · have := sweepFrom_first rest (growH p r) hp (fun y hy => hr y (by simp [hy])) h'.2 x hx
      exact this
    · rcases List.mem_cons.1 hx with rfl | hx
      · unfold flat; omega
      · have h2 := hr r (by simp)
        exact flat_trans h2 (sweepFrom_first rest r h2.2.1 h'.1 h'.2 x hx)

theorem sweepFrom_apart : ∀ (rest : List Rect) (p : Rect), p.sr = p.er → (∀ r ∈ rest, flat p r) →
    rest.Pairwise flat →
    (sweepFrom joinsH growH p rest).Pairwise fun a b => ∀ c, ¬ (a.Has c ∧ b.Has c)
  | [], p, _, _, _ => List.pairwise_singleton _ _
  | r :: rest, p, hp, hr, hpw => by
    have h' := List.pairwise_cons.1 hpw
    have h2 := hr r (by simp)
    unfold sweepFrom
    split
    · exact sweepFrom_apart rest (growH p r) hp (fun y hy => hr y (by simp [hy])) h'.2
    · next hj =>
      refine List.pairwise_cons.2 ⟨fun x hx c hc => ?_, sweepFrom_apart rest r h2.2.1 h'.1 h'.2⟩
      have hx' := sweepFrom_first rest r h2.2.1 h'.1 h'.2 x hx
      simp only [joinsH, Bool.and_eq_true, beq_iff_eq, decide_eq_true_eq, Bool.not_eq_true] at hj
      simp only [Rect.Has, flat] at *
      omega

/-- **Recorded cell by cell, the records share no cell**, so that together they are exactly as large as the set of
changed cells. -/
theorem singles_apart (cs : List Cell) :
    (finishTarget false (cs.map single)).Pairwise fun a b => ∀ c, ¬ (a.Has c ∧ b.Has c) := by
  have hv : ∀ r ∈ cs.map single, r.Valid := by
    intro r hr
    obtain ⟨c, -, rfl⟩ := List.mem_map.1 hr
    exact single_valid c
  have hflat : (sortBy keyH (cs.map single)).Pairwise flat := by
    refine List.Pairwise.imp_of_mem ?_ (sortBy_inOrder keyH (cs.map single))
    intro a b ha hb hab
    obtain ⟨c, -, rfl⟩ := List.mem_map.1 ((mem_sortBy _).1 ha)
    obtain ⟨d, -, rfl⟩ := List.mem_map.1 ((mem_sortBy _).1 hb)
    simp only [keyH, single, lexLe, Bool.or_eq_true, Bool.and_eq_true, decide_eq_true_eq, beq_iff_eq] at hab
    simp only [flat, single, true_and]
    omega
  have hH : (sweep joinsH growH (sortBy keyH (cs.map single))).Pairwise fun a b => ∀ c, ¬ (a.Has c ∧ b.Has c) := by
    cases hs : sortBy keyH (cs.map single) with
    | nil => exact .nil
    | cons p rest =>
      rw [hs] at hflat
      have hp : p.sr = p.er := by
        have : p ∈ cs.map single := (mem_sortBy keyH).1 (by rw [hs]; simp)
        obtain ⟨c, -, rfl⟩ := List.mem_map.1 this
        rfl
      have h' := List.pairwise_cons.1 hflat
      exact sweepFrom_apart rest p hp h'.1 h'.2
  have h1 := horizontal_spec _ hv
  unfold finishTarget
  simp only [Bool.false_eq_true, if_false]
  have sym : ∀ {a b : Rect}, (∀ c, ¬ (a.Has c ∧ b.Has c)) → ∀ c, ¬ (b.Has c ∧ a.Has c) :=
    fun h c hc => h c ⟨hc.2, hc.1⟩
  refine ((sortBy_perm keyR _).pairwise_iff sym).2 ?_
  refine sweep_disjoint sweepingV _ (fun r hr => h1.1 r ((mem_sortBy _).1 hr))
    ((sortBy_inOrder keyV _).imp leV_of_lex) ?_
  exact ((sortBy_perm keyV _).pairwise_iff sym).2 hH

theorem cellsOf_nodup (r : Rect) : (cellsOf r).Nodup := by
  unfold cellsOf
  refine List.nodup_flatMap.2 ⟨fun row _ => ?_, ?_⟩
  · exact (List.nodup_range' (step := 1)).map fun a b h => by simpa using h
  · refine (List.nodup_range' (s := r.sr) (n := r.er - r.sr + 1) (step := 1)).imp ?_
    intro a b hab
    simp only [Function.onFun, List.disjoint_left, List.mem_map, not_exists, not_and]
    rintro c ⟨x, -, rfl⟩ y -
    simp only [Cell.mk.injEq, not_and]
    omega

theorem cellsOf_length (r : Rect) : (cellsOf r).length = (r.er - r.sr + 1) * (r.ec - r.sc + 1) := by
  simp [cellsOf, List.length_flatMap]

/-- The total is compared with the limit, record by record or at the end. -/
theorem within_iff (k : Nat) (hk : k < maxU) : ∀ (rs : List Rect) (o : Nat), o ≤ k →
    (within (some k) o rs = true ↔ o + (rs.map fun r => (cellsOf r).length).sum ≤ k)
  | [], o, ho => by simp [within, ho]
  | r :: rs, o, ho => by
    simp only [within, List.map_cons, List.sum_cons, area, ← cellsOf_length]
    by_cases h : min maxU (o + min maxU (cellsOf r).length) > k
    · rw [if_pos h]
      simp only [Bool.false_eq_true, false_iff]
      omega
    · rw [if_neg h, within_iff k hk rs _ (by omega)]
      have : min maxU (o + min maxU (cellsOf r).length) = o + (cellsOf r).length := by omega
      rw [this]
      omega

/-- **The limit, cell by cell**: the list is refused for its size exactly if more than `k` different cells changed. -/
theorem singles_limit (cs : List Cell) (k : Nat) (hk : k < maxU) :
    expand (some k) (finishTarget false (cs.map single)) = .tooMany ↔ k < cs.dedup.length := by
  have hv : ∀ r ∈ cs.map single, r.Valid := by
    intro r hr
    obtain ⟨c, -, rfl⟩ := List.mem_map.1 hr
    exact single_valid c
  obtain ⟨hc, hval, -⟩ := report_exact _ hv
  have hnd : ((finishTarget false (cs.map single)).flatMap cellsOf).Nodup := by
    refine List.nodup_flatMap.2 ⟨fun r _ => cellsOf_nodup r, ?_⟩
    refine List.Pairwise.imp_of_mem ?_ (singles_apart cs)
    intro a b ha hb hab
    simp only [Function.onFun, List.disjoint_left]
    intro c h1 h2
    exact hab c ⟨(mem_cellsOf a (hval a ha) c).1 h1, (mem_cellsOf b (hval b hb) c).1 h2⟩
  have hp : ((finishTarget false (cs.map single)).flatMap cellsOf).Perm cs.dedup := by
    refine (List.perm_ext_iff_of_nodup hnd (List.nodup_dedup cs)).2 fun c => ?_
    rw [List.mem_dedup, List.mem_flatMap]
    constructor
    · rintro ⟨r, hr, hx⟩
      obtain ⟨r', hr', hx'⟩ := (hc c).1 ⟨r, hr, (mem_cellsOf r (hval r hr) c).1 hx⟩
      obtain ⟨d, hd, rfl⟩ := List.mem_map.1 hr'
      rw [(single_has d c).1 hx']
      exact hd
    · intro h
      obtain ⟨r, hr, hx⟩ := (hc c).2 ⟨single c, List.mem_map_of_mem h, (single_has c c).2 rfl⟩
      exact ⟨r, hr, (mem_cellsOf r (hval r hr) c).2 hx⟩
  have hlen : ((finishTarget false (cs.map single)).map fun r => (cellsOf r).length).sum = cs.dedup.length := by
    rw [← hp.length_eq, List.length_flatMap]
  have hw := within_iff k hk (finishTarget false (cs.map single)) 0 (Nat.zero_le _)
  rw [hlen, Nat.zero_add] at hw
  unfold expand
  by_cases h : within (some k) 0 (finishTarget false (cs.map single)) = true
  · rw [if_pos h]
    have := hw.1 h
    constructor
    · intro hh
      split at hh <;> cases hh
    · omega
  · rw [if_neg h]
    exact ⟨fun _ => by
      by_contra hcon
      exact h (hw.2 (by omega)), fun _ => rfl⟩

/-- **For regions that overlap the limit is refuted**: two regions of together five cells are refused with room for
six. -/
theorem limit_refuted : ¬ ∀ (l : List Rect) (k : Nat) (cs : List Cell), (∀ r ∈ l, r.Valid) → cs.Nodup →
    (∀ c, c ∈ cs ↔ ∃ r ∈ l, r.Has c) → cs.length ≤ k → expand (some k) (finishTarget false l) ≠ .tooMany := by
  intro h
  refine h [⟨0, 0, 0, 1, 1⟩, ⟨0, 0, 0, 0, 2⟩] 6
    [⟨0, 0, 0⟩, ⟨0, 0, 1⟩, ⟨0, 0, 2⟩, ⟨0, 1, 0⟩, ⟨0, 1, 1⟩] (by simp [Rect.Valid]) (by decide) ?_ (by decide) (by decide +kernel)
  rintro ⟨s, r, c⟩
  simp only [List.mem_cons, List.not_mem_nil, or_false, exists_eq_or_imp, exists_eq_left, Rect.Has, Cell.mk.injEq]
  omega

example : finishTarget false ([⟨0, 1, 1⟩, ⟨0, 0, 0⟩, ⟨0, 1, 0⟩, ⟨0, 0, 1⟩, ⟨1, 5, 5⟩, ⟨0, 0, 0⟩].map single) =
    [⟨0, 0, 0, 1, 1⟩, ⟨1, 5, 5, 5, 5⟩] := by decide +kernel

example : expand (some 5) (finishTarget false ([⟨0, 1, 1⟩, ⟨0, 0, 0⟩, ⟨0, 1, 0⟩, ⟨0, 0, 1⟩, ⟨1, 5, 5⟩, ⟨0, 0, 0⟩].map single)) =
    .cells [0, 1, 1048576, 1048577, 17185112069] := by decide +kernel

example : [Rect.mk 0 2 0 1 0, ⟨0, 0, 0, 1, 1⟩].foldl (recordRegion false) [] = [⟨0, 0, 0, 1, 1⟩] := by decide

end Verif.Delta
