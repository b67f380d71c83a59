import Verif.Interval.Props
import Verif.SheetIndex.Model

/-!
# C36: sheet position index lookups are exact
-/

namespace Verif.SheetIndex

open Verif.Interval

variable {V : Type} [DecidableEq V]

/-! ## Specification -/

/-- Where each vertex is. -/
abbrev Pos (V : Type) := V → Option (Nat × Nat)

def place (p : Pos V) (r c : Nat) (v : V) : Pos V :=
  fun x => if x = v ∧ p v = none then some (r, c) else p x

def forget (p : Pos V) (v : V) : Pos V := fun x => if x = v then none else p x

def placeAll (p : Pos V) (items : List ((Nat × Nat) × V)) : Pos V :=
  items.foldl (fun p it => place p it.1.1 it.1.2 it.2) p

def expect (p : Pos V) : Op V → Pos V
  | .add r c v => place p r c v
  | .batch items => placeAll p items
  | .remove _ _ v => forget p v
  | .update _ _ r' c' v => place (forget p v) r' c' v
  | .clear => fun _ => none

def expected (ops : List (Op V)) : Pos V := ops.foldl expect (fun _ => none)

/-- Callers name the coordinate the vertex is at (or the vertex is not there at all). -/
def OkOp (p : Pos V) : Op V → Prop
  | .remove r c v => p v = none ∨ p v = some (r, c)
  | .update r c _ _ v => p v = none ∨ p v = some (r, c)
  | _ => True

def OkFrom (p : Pos V) : List (Op V) → Prop
  | [] => True
  | op :: ops => OkOp p op ∧ OkFrom (expect p op) ops

def Ok (ops : List (Op V)) : Prop := OkFrom (fun _ => none) ops

/-! ## Invariant -/

def rowRel (p : Pos V) : Nat → Nat → V → Prop := fun l h v => l = h ∧ ∃ c, p v = some (l, c)
def colRel (p : Pos V) : Nat → Nat → V → Prop := fun l h v => l = h ∧ ∃ r, p v = some (r, l)

structure SInv (s : Index V) (p : Pos V) : Prop where
  nodup : s.members.Nodup
  mem : ∀ v, v ∈ s.members ↔ p v ≠ none
  row : Inv s.rowTree (rowRel p)
  col : Inv s.colTree (colRel p)

theorem place_row {p : Pos V} {r c : Nat} {v : V} (hv : p v = none) (l k : Nat) (x : V) :
    rowRel (place p r c v) l k x ↔ (l = r ∧ k = r ∧ x = v) ∨ rowRel p l k x := by
  unfold rowRel place
  by_cases hx : x = v
  · subst hx
    simp only [hv, and_self, if_true, Option.some.injEq, Prod.mk.injEq, reduceCtorEq, exists_false, and_false, or_false,
      and_true]
    constructor
    · rintro ⟨rfl, c', rfl, rfl⟩; exact ⟨rfl, rfl⟩
    · rintro ⟨rfl, rfl⟩; exact ⟨rfl, c, rfl, rfl⟩
  · simp [hx]

theorem place_col {p : Pos V} {r c : Nat} {v : V} (hv : p v = none) (l k : Nat) (x : V) :
    colRel (place p r c v) l k x ↔ (l = c ∧ k = c ∧ x = v) ∨ colRel p l k x := by
  unfold colRel place
  by_cases hx : x = v
  · subst hx
    simp only [hv, and_self, if_true, Option.some.injEq, Prod.mk.injEq, reduceCtorEq, exists_false, and_false, or_false,
      and_true]
    constructor
    · rintro ⟨rfl, c', rfl, rfl⟩; exact ⟨rfl, rfl⟩
    · rintro ⟨rfl, rfl⟩; exact ⟨rfl, r, rfl, rfl⟩
  · simp [hx]

theorem place_of_some {p : Pos V} {r c : Nat} {v : V} (hv : p v ≠ none) : place p r c v = p := by
  funext x; unfold place; simp [hv]

theorem mem_place {s : List V} {p : Pos V} (h : ∀ v, v ∈ s ↔ p v ≠ none) {r c : Nat} {v : V} (hv : p v = none) (x : V) :
    x ∈ s ++ [v] ↔ place p r c v x ≠ none := by
  unfold place
  by_cases hx : x = v
  · subst hx; simp [hv]
  · simp [hx, h x]

theorem nodup_place {s : List V} {p : Pos V} (hn : s.Nodup) (h : ∀ v, v ∈ s ↔ p v ≠ none) {v : V} (hv : p v = none) :
    (s ++ [v]).Nodup := by
  rw [List.nodup_append]
  refine ⟨hn, by simp, ?_⟩
  intro a ha b hb e
  simp only [List.mem_singleton] at hb
  subst hb; subst e
  exact (h a).1 ha hv

theorem sinv_add {s : Index V} {p : Pos V} (h : SInv s p) (r c : Nat) (v : V) :
    SInv (addVertex s r c v) (place p r c v) := by
  unfold addVertex
  split
  · rename_i hv
    rw [place_of_some ((h.mem v).1 hv)]; exact h
  · rename_i hv
    have hn : p v = none := by
      by_cases hc : p v = none
      · exact hc
      · exact absurd ((h.mem v).2 hc) hv
    exact ⟨nodup_place h.nodup h.mem hn, fun x => mem_place h.mem hn x,
      (inv_entryInsert h.row r r v).congr fun l k x => (place_row hn l k x).symm,
      (inv_entryInsert h.col c c v).congr fun l k x => (place_col hn l k x).symm⟩

theorem sinv_adds (items : List ((Nat × Nat) × V)) {s : Index V} {p : Pos V} (h : SInv s p) :
    SInv (items.foldl (fun s it => addVertex s it.1.1 it.1.2 it.2) s) (placeAll p items) := by
  unfold placeAll
  induction items generalizing s p with
  | nil => exact h
  | cons it items ih => exact ih (sinv_add h it.1.1 it.1.2 it.2)

theorem mem_groupAdd (k : Nat) (v : V) (m : List (Nat × List V)) (l : Nat) (x : V) :
    (∃ it ∈ groupAdd k v m, it.1 = l ∧ x ∈ it.2) ↔ (l = k ∧ x = v) ∨ ∃ it ∈ m, it.1 = l ∧ x ∈ it.2 := by
  induction m with
  | nil =>
    simp only [groupAdd, List.mem_singleton, exists_eq_left, List.not_mem_nil, false_and, exists_false, or_false]
    constructor
    · rintro ⟨h, h'⟩; exact ⟨h.symm, h'⟩
    · rintro ⟨h, h'⟩; exact ⟨h.symm, h'⟩
  | cons q m ih =>
    obtain ⟨k', vs⟩ := q
    simp only [groupAdd]
    split
    · rename_i hk
      subst hk
      simp only [List.mem_cons, exists_eq_or_imp, mem_setInsert]
      constructor
      · rintro (⟨h1, h2 | h2⟩ | h)
        · exact Or.inl ⟨h1.symm, h2⟩
        · exact Or.inr (Or.inl ⟨h1, h2⟩)
        · exact Or.inr (Or.inr h)
      · rintro (⟨h1, h2⟩ | ⟨h1, h2⟩ | h)
        · exact Or.inl ⟨h1.symm, Or.inl h2⟩
        · exact Or.inl ⟨h1, Or.inr h2⟩
        · exact Or.inr h
    · simp only [List.mem_cons, exists_eq_or_imp, ih]
      constructor
      · rintro (h | h | h)
        · exact Or.inr (Or.inl h)
        · exact Or.inl h
        · exact Or.inr (Or.inr h)
      · rintro (h | h | h)
        · exact Or.inr (Or.inl h)
        · exact Or.inl h
        · exact Or.inr (Or.inr h)

theorem ok_groupAdd (k : Nat) (v : V) (m : List (Nat × List V)) (h : ∀ it ∈ m, it.2.Nodup ∧ it.2 ≠ []) :
    ∀ it ∈ groupAdd k v m, it.2.Nodup ∧ it.2 ≠ [] := by
  induction m with
  | nil => simp [groupAdd]
  | cons q m ih =>
    obtain ⟨k', vs⟩ := q
    simp only [groupAdd]
    split
    · intro it hit
      rcases List.mem_cons.1 hit with rfl | hit
      · exact ⟨nodup_setInsert v vs (h (k', vs) (by simp)).1, setInsert_ne v vs⟩
      · exact h it (by simp [hit])
    · intro it hit
      rcases List.mem_cons.1 hit with rfl | hit
      · exact h _ (by simp)
      · exact ih (fun i hi => h i (by simp [hi])) it hit

structure AInv (a : Acc V) (p0 p : Pos V) : Prop where
  nodup : a.members.Nodup
  mem : ∀ v, v ∈ a.members ↔ p v ≠ none
  okr : ∀ it ∈ a.rows, it.2.Nodup ∧ it.2 ≠ []
  okc : ∀ it ∈ a.cols, it.2.Nodup ∧ it.2 ≠ []
  row : ∀ l k x, ((l = k ∧ ∃ it ∈ a.rows, it.1 = l ∧ x ∈ it.2) ∨ rowRel p0 l k x) ↔ rowRel p l k x
  col : ∀ l k x, ((l = k ∧ ∃ it ∈ a.cols, it.1 = l ∧ x ∈ it.2) ∨ colRel p0 l k x) ↔ colRel p l k x

theorem ainv_step {a : Acc V} {p0 p : Pos V} (h : AInv a p0 p) (it : (Nat × Nat) × V) :
    AInv (accStep a it) p0 (place p it.1.1 it.1.2 it.2) := by
  unfold accStep
  split
  · rename_i hv
    rw [place_of_some ((h.mem _).1 hv)]; exact h
  · rename_i hv
    have hn : p it.2 = none := by
      by_cases hc : p it.2 = none
      · exact hc
      · exact absurd ((h.mem _).2 hc) hv
    refine ⟨nodup_place h.nodup h.mem hn, fun x => mem_place h.mem hn x, ok_groupAdd _ _ _ h.okr, ok_groupAdd _ _ _ h.okc,
      ?_, ?_⟩
    · intro l k x
      rw [place_row hn, ← h.row, mem_groupAdd]
      constructor
      · rintro (⟨h1, ⟨h2, h3⟩ | h2⟩ | h')
        · exact Or.inl ⟨h2, h1 ▸ h2, h3⟩
        · exact Or.inr (Or.inl ⟨h1, h2⟩)
        · exact Or.inr (Or.inr h')
      · rintro (⟨h1, h2, h3⟩ | ⟨h1, h2⟩ | h')
        · exact Or.inl ⟨h1.trans h2.symm, Or.inl ⟨h1, h3⟩⟩
        · exact Or.inl ⟨h1, Or.inr h2⟩
        · exact Or.inr h'
    · intro l k x
      rw [place_col hn, ← h.col, mem_groupAdd]
      constructor
      · rintro (⟨h1, ⟨h2, h3⟩ | h2⟩ | h')
        · exact Or.inl ⟨h2, h1 ▸ h2, h3⟩
        · exact Or.inr (Or.inl ⟨h1, h2⟩)
        · exact Or.inr (Or.inr h')
      · rintro (⟨h1, h2, h3⟩ | ⟨h1, h2⟩ | h')
        · exact Or.inl ⟨h1.trans h2.symm, Or.inl ⟨h1, h3⟩⟩
        · exact Or.inl ⟨h1, Or.inr h2⟩
        · exact Or.inr h'

theorem ainv_foldl (items : List ((Nat × Nat) × V)) {a : Acc V} {p0 p : Pos V} (h : AInv a p0 p) :
    AInv (items.foldl accStep a) p0 (placeAll p items) := by
  unfold placeAll
  induction items generalizing a p with
  | nil => exact h
  | cons it items ih => exact ih (ainv_step h it)

theorem sinv_batch {s : Index V} {p : Pos V} (h : SInv s p) (items : List ((Nat × Nat) × V)) :
    SInv (addBatch s items) (placeAll p items) := by
  unfold addBatch
  split
  · rename_i he
    subst he; exact h
  · split
    · have h0 : AInv ({ members := s.members } : Acc V) p p :=
        ⟨h.nodup, h.mem, by simp, by simp, by simp, by simp⟩
      have h1 := ainv_foldl items h0
      exact ⟨h1.nodup, h1.mem, (inv_bulk h.row _ h1.okr).congr h1.row, (inv_bulk h.col _ h1.okc).congr h1.col⟩
    · exact sinv_adds items h

theorem sinv_remove {s : Index V} {p : Pos V} (h : SInv s p) (r c : Nat) (v : V) (hok : p v = none ∨ p v = some (r, c)) :
    SInv (removeVertex s r c v) (forget p v) := by
  unfold removeVertex
  split
  · rename_i hv
    have hp : p v = some (r, c) := hok.resolve_left ((h.mem v).1 hv)
    refine ⟨h.nodup.filter _, ?_, (inv_remove h.row r r v).1.congr ?_, (inv_remove h.col c c v).1.congr ?_⟩
    · intro x
      unfold forget setRemove
      by_cases hx : x = v
      · simp [hx]
      · simp [hx, h.mem x]
    · intro l k x
      unfold rowRel forget
      by_cases hx : x = v
      · subst hx
        simp only [hp, Option.some.injEq, Prod.mk.injEq, if_true, reduceCtorEq, exists_false, and_false, and_true,
          iff_false, not_and, Decidable.not_not]
        rintro ⟨rfl, c', rfl, rfl⟩
        exact fun hh => hh rfl rfl
      · simp [hx]
    · intro l k x
      unfold colRel forget
      by_cases hx : x = v
      · subst hx
        simp only [hp, Option.some.injEq, Prod.mk.injEq, if_true, reduceCtorEq, exists_false, and_false, and_true,
          iff_false, not_and, Decidable.not_not]
        rintro ⟨rfl, c', rfl, rfl⟩
        exact fun hh => hh rfl rfl
      · simp [hx]
  · rename_i hv
    have hn : p v = none := by
      by_cases hc : p v = none
      · exact hc
      · exact absurd ((h.mem v).2 hc) hv
    have : forget p v = p := by
      funext x; unfold forget
      split
      · rename_i e; rw [e, hn]
      · rfl
    rw [this]; exact h

theorem sinv_init : SInv ({} : Index V) (fun _ => none) :=
  ⟨by simp, by simp, inv_init.congr (by simp [rowRel]), inv_init.congr (by simp [colRel])⟩

theorem sinv_step {s : Index V} {p : Pos V} (h : SInv s p) (op : Op V) (hok : OkOp p op) :
    SInv (step s op) (expect p op) := by
  cases op with
  | add r c v => exact sinv_add h r c v
  | batch items => exact sinv_batch h items
  | remove r c v => exact sinv_remove h r c v hok
  | update r c r' c' v => exact sinv_add (sinv_remove h r c v hok) r' c' v
  | clear => exact sinv_init

theorem sinv_foldl (ops : List (Op V)) {s : Index V} {p : Pos V} (h : SInv s p) (hok : OkFrom p ops) :
    SInv (ops.foldl step s) (ops.foldl expect p) := by
  induction ops generalizing s p with
  | nil => exact h
  | cons op ops ih => exact ih (sinv_step h op hok.1) hok.2

theorem sinv_run (ops : List (Op V)) (hok : Ok ops) : SInv (run ops) (expected ops) := sinv_foldl ops sinv_init hok

/-! ## Lookups -/

theorem mem_visitPoints {t : Tree V} {E : Nat → Nat → V → Prop} (hi : Inv t E) (ql qh : Nat) (v : V) :
    v ∈ visitPoints t ql qh ↔ ∃ p, E p p v ∧ ql ≤ p ∧ p ≤ qh := by
  unfold visitPoints
  split
  · simp only [List.not_mem_nil, false_iff]
    rintro ⟨p, -, h1, h2⟩; omega
  · simp only [List.mem_flatMap, List.mem_filter, Bool.and_eq_true, decide_eq_true_eq, beq_iff_eq]
    constructor
    · rintro ⟨p, ⟨hp, h1, h2⟩, n, ⟨hn, e⟩, hv⟩
      have hg := (getKey_iff hi.str.sorted p.1 p.2).2 hp
      have hg2 : get t p.1 n.high = some n.values := by
        unfold Interval.get
        rw [hg, Option.bind_some, (findHigh_mem (hi.str.nodes _ _ hg).2 n n.high).2 ⟨hn, rfl⟩]; rfl
      have := (get_some hi hg2 v).1 hv
      rw [e] at this
      exact ⟨p.1, this, h1, h2⟩
    · rintro ⟨q, he, h1, h2⟩
      obtain ⟨vs, hg, hv⟩ := (hi.rel q q v).1 he
      unfold Interval.get at hg
      rw [Option.bind_eq_some_iff] at hg
      obtain ⟨ns, hg, hf⟩ := hg
      rw [Option.map_eq_some_iff] at hf
      obtain ⟨n, hf, rfl⟩ := hf
      have hmm := (findHigh_mem (hi.str.nodes _ _ hg).2 n q).1 hf
      exact ⟨(q, ns), ⟨(getKey_iff hi.str.sorted q ns).1 hg, h1, h2⟩, n, ⟨hmm.1, hmm.2⟩, hv⟩

theorem nodup_flatMap {A B : Type} (f : A → List B) (l : List A) (h1 : ∀ a ∈ l, (f a).Nodup)
    (h2 : l.Pairwise fun a b => ∀ x ∈ f a, x ∉ f b) : (l.flatMap f).Nodup := by
  induction l with
  | nil => simp
  | cons a l ih =>
    have hp := List.pairwise_cons.1 h2
    rw [List.flatMap_cons, List.nodup_append]
    refine ⟨h1 a (by simp), ih (fun b hb => h1 b (by simp [hb])) hp.2, ?_⟩
    intro x hx y hy e
    subst e
    rw [List.mem_flatMap] at hy
    obtain ⟨b, hb, hy⟩ := hy
    exact hp.1 b hb x hx hy

theorem nodup_visitPoints {t : Tree V} {E : Nat → Nat → V → Prop} (hi : Inv t E)
    (hfun : ∀ v p q, E p p v → E q q v → p = q) (ql qh : Nat) : (visitPoints t ql qh).Nodup := by
  have hval : ∀ p ∈ t.map, ∀ n ∈ p.2, get t p.1 n.high = some n.values := by
    intro p hp n hn
    have hg := (getKey_iff hi.str.sorted p.1 p.2).2 hp
    unfold Interval.get
    rw [hg, Option.bind_some, (findHigh_mem (hi.str.nodes _ _ hg).2 n n.high).2 ⟨hn, rfl⟩]; rfl
  unfold visitPoints
  split
  · simp
  · refine nodup_flatMap _ _ ?_ ?_
    · intro p hp
      have hp' := (List.mem_filter.1 hp).1
      refine nodup_flatMap _ _ ?_ ?_
      · intro n hn
        exact (hi.vals _ _ _ (hval p hp' n (List.mem_filter.1 hn).1)).2
      · have hd : p.2.Pairwise (fun a b => a.high ≠ b.high) := List.pairwise_map.1 (nodes_of_mem hi.str p hp')
        refine List.Pairwise.imp_of_mem ?_ (hd.filter _)
        intro a b ha hb hne
        have h1 := (List.mem_filter.1 ha).2
        have h2 := (List.mem_filter.1 hb).2
        simp only [beq_iff_eq] at h1 h2
        omega
    · refine List.Pairwise.imp_of_mem ?_ (hi.str.sorted.filter _)
      intro a b ha hb hlt x hx hx'
      simp only [List.mem_flatMap, List.mem_filter, beq_iff_eq] at hx hx'
      obtain ⟨n, ⟨hn, e⟩, hv⟩ := hx
      obtain ⟨n', ⟨hn', e'⟩, hv'⟩ := hx'
      have h1 := (get_some hi (hval a (List.mem_filter.1 ha).1 n hn) x).1 hv
      have h2 := (get_some hi (hval b (List.mem_filter.1 hb).1 n' hn') x).1 hv'
      rw [e] at h1; rw [e'] at h2
      have := hfun x _ _ h1 h2
      omega

theorem mem_collect {t : Tree V} {E : Nat → Nat → V → Prop} (hi : Inv t E) (a b : Nat) (v : V) :
    v ∈ collect t a b ↔ ∃ p, E p p v ∧ a ≤ p ∧ p ≤ b := by
  unfold collect
  rw [mem_setExtend, mem_visitPoints hi]; simp

theorem rowRel_fun (p : Pos V) (v : V) (a b : Nat) (h1 : rowRel p a a v) (h2 : rowRel p b b v) : a = b := by
  obtain ⟨-, c, h1⟩ := h1
  obtain ⟨-, c', h2⟩ := h2
  rw [h1] at h2
  simp only [Option.some.injEq, Prod.mk.injEq] at h2
  exact h2.1

theorem colRel_fun (p : Pos V) (v : V) (a b : Nat) (h1 : colRel p a a v) (h2 : colRel p b b v) : a = b := by
  obtain ⟨-, c, h1⟩ := h1
  obtain ⟨-, c', h2⟩ := h2
  rw [h1] at h2
  simp only [Option.some.injEq, Prod.mk.injEq] at h2
  exact h2.2

/-- **C36** A row-range lookup returns exactly the vertices placed in those rows, each once. -/
theorem row_range_exact (ops : List (Op V)) (hok : Ok ops) (a b : Nat) :
    (rowRange (run ops) a b).Nodup ∧
    ∀ v, v ∈ rowRange (run ops) a b ↔ ∃ r c, expected ops v = some (r, c) ∧ a ≤ r ∧ r ≤ b := by
  have h := sinv_run ops hok
  refine ⟨nodup_setExtend _ _ (by simp), fun v => ?_⟩
  unfold rowRange
  rw [mem_collect h.row]
  constructor
  · rintro ⟨r, ⟨-, c, hc⟩, h1, h2⟩; exact ⟨r, c, hc, h1, h2⟩
  · rintro ⟨r, c, hc, h1, h2⟩; exact ⟨r, ⟨rfl, c, hc⟩, h1, h2⟩

/-- **C36** The same for columns. -/
theorem col_range_exact (ops : List (Op V)) (hok : Ok ops) (a b : Nat) :
    (colRange (run ops) a b).Nodup ∧
    ∀ v, v ∈ colRange (run ops) a b ↔ ∃ r c, expected ops v = some (r, c) ∧ a ≤ c ∧ c ≤ b := by
  have h := sinv_run ops hok
  refine ⟨nodup_setExtend _ _ (by simp), fun v => ?_⟩
  unfold colRange
  rw [mem_collect h.col]
  constructor
  · rintro ⟨c, ⟨-, r, hc⟩, h1, h2⟩; exact ⟨r, c, hc, h1, h2⟩
  · rintro ⟨r, c, hc, h1, h2⟩; exact ⟨c, ⟨rfl, r, hc⟩, h1, h2⟩

/-- **C36** A rectangle lookup returns exactly the vertices placed inside it, each once, whichever axis is cheaper
and also through the exact-cell path. -/
theorem rect_exact (ops : List (Op V)) (hok : Ok ops) (r1 r2 c1 c2 : Nat) :
    (rect (run ops) r1 r2 c1 c2).Nodup ∧
    ∀ v, v ∈ rect (run ops) r1 r2 c1 c2 ↔
      ∃ r c, expected ops v = some (r, c) ∧ r1 ≤ r ∧ r ≤ r2 ∧ c1 ≤ c ∧ c ≤ c2 := by
  have h := sinv_run ops hok
  have hrow : ∀ v, (∃ q, rowRel (expected ops) q q v ∧ r1 ≤ q ∧ q ≤ r2) ↔
      ∃ r c, expected ops v = some (r, c) ∧ r1 ≤ r ∧ r ≤ r2 := by
    intro v
    constructor
    · rintro ⟨r, ⟨-, c, hc⟩, h1, h2⟩; exact ⟨r, c, hc, h1, h2⟩
    · rintro ⟨r, c, hc, h1, h2⟩; exact ⟨r, ⟨rfl, c, hc⟩, h1, h2⟩
  have hcol : ∀ v, (∃ q, colRel (expected ops) q q v ∧ c1 ≤ q ∧ q ≤ c2) ↔
      ∃ r c, expected ops v = some (r, c) ∧ c1 ≤ c ∧ c ≤ c2 := by
    intro v
    constructor
    · rintro ⟨c, ⟨-, r, hc⟩, h1, h2⟩; exact ⟨r, c, hc, h1, h2⟩
    · rintro ⟨r, c, hc, h1, h2⟩; exact ⟨c, ⟨rfl, r, hc⟩, h1, h2⟩
  have hboth : ∀ v, ((∃ r c, expected ops v = some (r, c) ∧ r1 ≤ r ∧ r ≤ r2) ∧
      ∃ r c, expected ops v = some (r, c) ∧ c1 ≤ c ∧ c ≤ c2) ↔
      ∃ r c, expected ops v = some (r, c) ∧ r1 ≤ r ∧ r ≤ r2 ∧ c1 ≤ c ∧ c ≤ c2 := by
    intro v
    constructor
    · rintro ⟨⟨r, c, h1, h2, h3⟩, r', c', h1', h4, h5⟩
      rw [h1] at h1'
      simp only [Option.some.injEq, Prod.mk.injEq] at h1'
      obtain ⟨rfl, rfl⟩ := h1'
      exact ⟨r, c, h1, h2, h3, h4, h5⟩
    · rintro ⟨r, c, h1, h2, h3, h4, h5⟩
      exact ⟨⟨r, c, h1, h2, h3⟩, r, c, h1, h4, h5⟩
  unfold rect
  split
  · rename_i hc
    refine ⟨by simp, fun v => ?_⟩
    simp only [List.not_mem_nil, false_iff]
    rintro ⟨r, c, -, h1, h2, h3, h4⟩
    omega
  · split
    · rename_i hc
      obtain ⟨rfl, rfl⟩ := hc
      have hpr : ∀ v, (∃ vs, pointValues (run ops).rowTree r1 = some vs ∧ v ∈ vs) ↔ ∃ c, expected ops v = some (r1, c) := by
        intro v
        refine (h.row.rel r1 r1 v).symm.trans ?_
        simp [rowRel]
      have hpc : ∀ v, (∃ vs, pointValues (run ops).colTree c1 = some vs ∧ v ∈ vs) ↔ ∃ r, expected ops v = some (r, c1) := by
        intro v
        refine (h.col.rel c1 c1 v).symm.trans ?_
        simp [colRel]
      have hspec : ∀ v, (∃ r c, expected ops v = some (r, c) ∧ r1 ≤ r ∧ r ≤ r1 ∧ c1 ≤ c ∧ c ≤ c1) ↔
          (∃ c, expected ops v = some (r1, c)) ∧ ∃ r, expected ops v = some (r, c1) := by
        intro v
        constructor
        · rintro ⟨r, c, h1, h2, h3, h4, h5⟩
          obtain rfl : r = r1 := by omega
          obtain rfl : c = c1 := by omega
          exact ⟨⟨c, h1⟩, r, h1⟩
        · rintro ⟨⟨c, h1⟩, r, h2⟩
          rw [h1] at h2
          simp only [Option.some.injEq, Prod.mk.injEq] at h2
          obtain ⟨rfl, rfl⟩ := h2
          exact ⟨r1, c, h1, by omega⟩
      cases hr : pointValues (run ops).rowTree r1 with
      | none =>
        refine ⟨by simp, fun v => ?_⟩
        rw [hspec, ← hpr, hr]; simp
      | some rv =>
        cases hcv : pointValues (run ops).colTree c1 with
        | none =>
          refine ⟨by simp, fun v => ?_⟩
          rw [hspec, ← hpc, hcv]; simp
        | some cv =>
          simp only
          have n1 := (h.row.vals _ _ _ hr).2
          have n2 := (h.col.vals _ _ _ hcv).2
          split
          · refine ⟨n1.filter _, fun v => ?_⟩
            rw [hspec, ← hpr, ← hpc, hr, hcv]; simp
          · refine ⟨n2.filter _, fun v => ?_⟩
            rw [hspec, ← hpr, ← hpc, hr, hcv]; simp [and_comm]
    · split
      · refine ⟨(nodup_visitPoints h.col (fun v a b => colRel_fun _ v a b) c1 c2).filter _, fun v => ?_⟩
        rw [List.mem_filter, decide_eq_true_eq, mem_visitPoints h.col, mem_collect h.row, hrow, hcol, ← hboth, and_comm]
      · refine ⟨(nodup_visitPoints h.row (fun v a b => rowRel_fun _ v a b) r1 r2).filter _, fun v => ?_⟩
        rw [List.mem_filter, decide_eq_true_eq, mem_visitPoints h.row, mem_collect h.col, hrow, hcol, ← hboth]

/-- **C36** The reported length is the number of placed vertices. -/
theorem len_exact (ops : List (Op V)) (hok : Ok ops) (L : List V) (hL : L.Nodup)
    (hm : ∀ v, v ∈ L ↔ expected ops v ≠ none) : len (run ops) = L.length := by
  have h := sinv_run ops hok
  refine ((List.perm_ext_iff_of_nodup h.nodup hL).2 ?_).length_eq
  intro v; rw [h.mem, hm]

/-- The hypothesis on removals is needed: removing with a coordinate the vertex is not at leaves it in the trees
while the length says it is gone. -/
theorem stale_removal_leaves_ghost :
    let s := run [Op.add 5 10 (0 : Nat), .remove 6 10 0]
    len s = 0 ∧ rowRange s 5 5 = [0] := by decide

def exOps : List (Op Nat) :=
  [.batch [((5, 10), 1), ((5, 11), 2), ((7, 10), 3), ((9, 9), 1)], .add 6 11 4, .update 5 11 6 12 2, .remove 7 10 3]

example : Ok exOps := by
  simp [Ok, OkFrom, OkOp, exOps, expect, placeAll, place, forget]

example : rect (run exOps) 5 6 11 12 = [4, 2] ∧ len (run exOps) = 3 := by decide

end Verif.SheetIndex
