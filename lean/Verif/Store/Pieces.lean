import Mathlib.Data.List.Basic
import Mathlib.Data.List.Nodup
import Mathlib.Data.List.Range
import Mathlib.Data.List.TakeWhile
import Mathlib.Tactic.ByContra
import Verif.Store.Fragment

/-!
# What a fragment holds, and what is left of it after a cut

Specification: a fragment stands for a finite partial map from offsets to values.  `keys` lists the
offsets it covers.  Every cut (`minusInterval`, `minusOffsets`, `minusOffset`, `minus`) yields pieces
whose keys, read in order, are exactly the keys outside the cut, and each of them reads as before.

Floats: the run-length encoding merges neighbours the code's `==` calls equal, so a reading is only
determined up to `norm`, any function that does not tell apart floats that compare equal.  With
`norm = id` this says that the encoding is exact as soon as `==` is equality; for IEEE floats take the
`norm` that sends `-0.0` to `0.0`.
-/

namespace Verif.Store

variable {F G : Type}

/-! ## Association lists -/

/-- The value stored under a key: the first entry with it. -/
def assoc {α : Type} : List (Nat × α) → Nat → Option α
  | [], _ => none
  | (k, v) :: r, o => if k = o then some v else assoc r o

theorem assoc_append {α : Type} (a b : List (Nat × α)) (o : Nat) :
    assoc (a ++ b) o = (assoc a o).or (assoc b o) := by
  induction a with
  | nil => rfl
  | cons x a ih =>
    obtain ⟨k, v⟩ := x
    simp only [List.cons_append, assoc]
    split
    · rfl
    · exact ih

theorem assoc_isSome {α : Type} (l : List (Nat × α)) (o : Nat) :
    (assoc l o).isSome = true ↔ o ∈ l.map Prod.fst := by
  induction l with
  | nil => simp [assoc]
  | cons x l ih =>
    obtain ⟨k, v⟩ := x
    simp only [assoc, List.map_cons, List.mem_cons]
    split
    · simp_all
    · rename_i h
      rw [ih]
      constructor
      · exact Or.inr
      · rintro (rfl | h')
        · exact absurd rfl h
        · exact h'

theorem assoc_eq_none {α : Type} (l : List (Nat × α)) (o : Nat) (h : o ∉ l.map Prod.fst) :
    assoc l o = none := by
  rw [← assoc_isSome] at h
  simpa using h

theorem assoc_filter {α : Type} (l : List (Nat × α)) (p : Nat → Bool) (o : Nat) :
    assoc (l.filter fun kv => p kv.1) o = if p o then assoc l o else none := by
  induction l with
  | nil => simp [assoc]
  | cons x l ih =>
    obtain ⟨k, v⟩ := x
    rw [List.filter_cons]
    by_cases hk : k = o
    · subst hk
      cases hp : p k with
      | true => simp [assoc]
      | false => rw [hp] at ih; simpa using ih
    · cases hp : p k with
      | true => simp [assoc, hk, ih]
      | false => simp [assoc, hk, ih]

theorem insertKV_assoc {α : Type} (k : Nat) (v : α) (m : List (Nat × α))
    (hm : (m.map Prod.fst).Pairwise (· < ·)) (o : Nat) :
    assoc (insertKV k v m) o = if k = o then some v else assoc m o := by
  induction m with
  | nil => rfl
  | cons x m ih =>
    obtain ⟨k', v'⟩ := x
    simp only [List.map_cons, List.pairwise_cons] at hm
    simp only [insertKV]
    split
    · rfl
    · split
      · rename_i h1 h2
        subst h2
        simp only [assoc]
        split <;> rfl
      · rename_i h1 h2
        simp only [assoc]
        rw [ih hm.2]
        by_cases h3 : k' = o
        · subst h3; simp [h2]
        · simp [h3]

theorem insertKV_keys {α : Type} (k : Nat) (v : α) (m : List (Nat × α)) (x : Nat) :
    x ∈ (insertKV k v m).map Prod.fst ↔ x = k ∨ x ∈ m.map Prod.fst := by
  induction m with
  | nil => simp [insertKV]
  | cons y m ih =>
    obtain ⟨k', v'⟩ := y
    simp only [insertKV]
    split
    · simp
    · split
      · rename_i h1 h2; subst h2; simp
      · simp only [List.map_cons, List.mem_cons]
        rw [ih]
        constructor
        · rintro (h | h | h) <;> simp [h]
        · rintro (h | h | h) <;> simp [h]

theorem insertKV_sorted {α : Type} (k : Nat) (v : α) (m : List (Nat × α))
    (hm : (m.map Prod.fst).Pairwise (· < ·)) :
    ((insertKV k v m).map Prod.fst).Pairwise (· < ·) := by
  induction m with
  | nil => simp [insertKV]
  | cons y m ih =>
    obtain ⟨k', v'⟩ := y
    have hm' := hm
    simp only [List.map_cons, List.pairwise_cons] at hm
    simp only [insertKV]
    split
    · rename_i h
      simp only [List.map_cons, List.pairwise_cons]
      refine ⟨?_, hm⟩
      intro a ha
      rw [List.mem_cons] at ha
      rcases ha with rfl | ha
      · exact h
      · exact Nat.lt_trans h (hm.1 a ha)
    · split
      · rename_i h1 h2; subst h2; exact hm'
      · rename_i h1 h2
        simp only [List.map_cons, List.pairwise_cons]
        refine ⟨?_, ih hm.2⟩
        intro a ha
        rw [insertKV_keys] at ha
        rcases ha with rfl | ha
        · omega
        · exact hm.1 a ha

theorem foldl_insert {α : Type} (items m : List (Nat × α))
    (hm : (m.map Prod.fst).Pairwise (· < ·)) :
    ((items.foldl (fun m kv => insertKV kv.1 kv.2 m) m).map Prod.fst).Pairwise (· < ·)
      ∧ ∀ o, assoc (items.foldl (fun m kv => insertKV kv.1 kv.2 m) m) o
          = (assoc items.reverse o).or (assoc m o) := by
  induction items generalizing m with
  | nil => exact ⟨hm, fun o => by simp [assoc]⟩
  | cons x items ih =>
    obtain ⟨k, v⟩ := x
    rw [List.foldl_cons]
    obtain ⟨h1, h2⟩ := ih (insertKV k v m) (insertKV_sorted k v m hm)
    refine ⟨h1, fun o => ?_⟩
    rw [h2 o, insertKV_assoc k v m hm, List.reverse_cons, assoc_append]
    simp only [assoc]
    cases assoc items.reverse o with
    | some a => rfl
    | none => simp only [Option.none_or]; split <;> rfl

/-- `sparse_offsets` keeps, for each offset, the last item given for it. -/
theorem byOffset_spec {α : Type} (items : List (Nat × α)) :
    ((byOffset items).map Prod.fst).Pairwise (· < ·)
      ∧ ∀ o, assoc (byOffset items) o = assoc items.reverse o := by
  obtain ⟨h1, h2⟩ := foldl_insert items [] List.Pairwise.nil
  refine ⟨h1, fun o => ?_⟩
  have := h2 o
  simp only [assoc, Option.or_none] at this
  exact this

theorem insertKV_last {α : Type} (k : Nat) (v : α) (m : List (Nat × α))
    (h : ∀ x ∈ m.map Prod.fst, x < k) : insertKV k v m = m ++ [(k, v)] := by
  induction m with
  | nil => rfl
  | cons y m ih =>
    obtain ⟨k', v'⟩ := y
    have h1 : k' < k := h k' (by simp)
    simp only [insertKV, List.cons_append]
    rw [if_neg (by omega), if_neg (by omega), ih (fun x hx => h x (by simp [hx]))]

theorem byOffset_sorted {α : Type} (items : List (Nat × α))
    (h : (items.map Prod.fst).Pairwise (· < ·)) : byOffset items = items := by
  have gen : ∀ (items m : List (Nat × α)), ((m ++ items).map Prod.fst).Pairwise (· < ·) →
      items.foldl (fun m kv => insertKV kv.1 kv.2 m) m = m ++ items := by
    intro items
    induction items with
    | nil => intro m _; simp
    | cons x items ih =>
      intro m hm
      obtain ⟨k, v⟩ := x
      rw [List.foldl_cons]
      have hk : insertKV k v m = m ++ [(k, v)] := by
        apply insertKV_last
        intro y hy
        rw [List.map_append, List.pairwise_append] at hm
        exact hm.2.2 y hy k (by simp)
      simp only [hk]
      rw [ih (m ++ [(k, v)]) (by simpa using hm)]
      simp
  have := gen items [] (by simpa using h)
  simpa [byOffset] using this

theorem assoc_zip {α : Type} (offs : List Nat) (vs : List α) (o : Nat)
    (hl : vs.length = offs.length) :
    (offs.idxOf? o).bind (fun i => vs[i]?) = assoc (offs.zip vs) o := by
  induction offs generalizing vs with
  | nil => simp [assoc]
  | cons k offs ih =>
    match vs, hl with
    | v :: vs, hl =>
      have hl' : vs.length = offs.length := by simpa using hl
      rw [List.idxOf?_cons, List.zip_cons_cons]
      simp only [assoc]
      by_cases hk : k = o
      · simp [hk]
      · simp only [hk, beq_iff_eq, if_false]
        rw [← ih vs hl']
        cases offs.idxOf? o <;> simp

theorem zipIdx_cells {α : Type} (test : Nat → Bool) (offs : List Nat) (vs : List α) (n : Nat)
    (hl : vs.length = n + offs.length) :
    ((offs.zipIdx n).filterMap fun x => if test x.1 then (vs[x.2]?).map (fun v => (x.1, v)) else none)
      = (offs.zip (vs.drop n)).filter fun kv => test kv.1 := by
  induction offs generalizing n with
  | nil => simp
  | cons k offs ih =>
    have hn : n < vs.length := by rw [hl]; simp
    rw [List.zipIdx_cons, List.filterMap_cons, List.drop_eq_getElem_cons hn, List.zip_cons_cons,
      List.filter_cons]
    have := ih (n + 1) (by rw [hl]; simp; omega)
    simp only [List.getElem?_eq_getElem hn, Option.map_some] at this ⊢
    cases hk : test k with
    | true => simp [this]
    | false => simp [this]

/-! ## Runs -/

/-- The value of the run that contains position `rel`: the first whose end lies past it. -/
def runGet {α : Type} : List (Nat × α) → Nat → Option α
  | [], _ => none
  | (e, v) :: r, rel => if e ≤ rel then runGet r rel else some v

/-- Run ends climb strictly from `p` and finish at `q`. -/
def Climb {α : Type} : Nat → List (Nat × α) → Nat → Prop
  | p, [], q => p = q
  | p, (e, _) :: r, q => p < e ∧ Climb e r q

theorem runGet_zip {α : Type} (ends : List Nat) (vs : List α) (rel : Nat)
    (hl : vs.length = ends.length) :
    vs[(ends.takeWhile (· ≤ rel)).length]? = runGet (ends.zip vs) rel := by
  induction ends generalizing vs with
  | nil =>
    match vs, hl with
    | [], _ => rfl
  | cons e ends ih =>
    match vs, hl with
    | v :: vs, hl =>
      have hl' : vs.length = ends.length := by simpa using hl
      rw [List.zip_cons_cons, List.takeWhile_cons]
      simp only [runGet]
      by_cases he : e ≤ rel
      · simp [he, ← ih vs hl']
      · simp [he]

theorem Climb.le {α : Type} {p q : Nat} {rs : List (Nat × α)} (h : Climb p rs q) : p ≤ q := by
  induction rs generalizing p with
  | nil => exact Nat.le_of_eq h
  | cons x rs ih => exact Nat.le_of_lt (Nat.lt_of_lt_of_le h.1 (ih h.2))

theorem Climb.isSome {α : Type} {p q : Nat} {rs : List (Nat × α)} (h : Climb p rs q) (rel : Nat)
    (hp : p ≤ rel) : (runGet rs rel).isSome = true ↔ rel < q := by
  induction rs generalizing p with
  | nil => simp only [runGet, Climb] at *; subst h; simp; omega
  | cons x rs ih =>
    obtain ⟨e, v⟩ := x
    simp only [runGet]
    split
    · rename_i he; exact ih h.2 he
    · simp only [Option.isSome_some, true_iff]
      have := h.2.le; omega

theorem Climb.append {α : Type} {p q r : Nat} {a b : List (Nat × α)} (h1 : Climb p a q)
    (h2 : Climb q b r) : Climb p (a ++ b) r := by
  induction a generalizing p with
  | nil => simp only [Climb] at h1; subst h1; exact h2
  | cons x a ih => exact ⟨h1.1, ih h1.2⟩

theorem Climb.split {α : Type} {p r : Nat} {a b : List (Nat × α)} (h : Climb p (a ++ b) r) :
    ∃ q, Climb p a q ∧ Climb q b r := by
  induction a generalizing p with
  | nil => exact ⟨p, rfl, h⟩
  | cons x a ih =>
    obtain ⟨q, h1, h2⟩ := ih h.2
    exact ⟨q, ⟨h.1, h1⟩, h2⟩

theorem runGet_append_congr {α β : Type} (g : α → β) (a b b' : List (Nat × α)) (rel : Nat)
    (h : (runGet b rel).map g = (runGet b' rel).map g) :
    (runGet (a ++ b) rel).map g = (runGet (a ++ b') rel).map g := by
  induction a with
  | nil => exact h
  | cons x a ih =>
    obtain ⟨e, v⟩ := x
    simp only [List.cons_append, runGet]
    split
    · exact ih
    · rfl

/-- Floats that compare equal have the same `norm`. -/
def Agrees (E : Env F) (norm : F → G) : Prop := ∀ x y, E.same x y = true → norm x = norm y

theorem same_map {E : Env F} {norm : F → G} (hn : Agrees E norm) (v w : Value F)
    (h : Value.same E v w = true) : v.map norm = w.map norm := by
  cases v <;> cases w <;> simp_all [Value.same, Value.map] <;> exact hn _ _ h

theorem mergeLoop_spec {E : Env F} {norm : F → G} (hn : Agrees E norm) (len : Nat)
    (rs acc : List (Nat × Value F)) (prev : Nat) (h1 : Climb 0 acc.reverse prev)
    (h2 : Climb prev rs len) :
    ∃ acc', mergeLoop E len rs acc prev = some (acc', len) ∧ Climb 0 acc'.reverse len
      ∧ ((acc ≠ [] ∨ rs ≠ []) → acc' ≠ [])
      ∧ ∀ rel, (runGet acc'.reverse rel).map (Value.map norm)
          = (runGet (acc.reverse ++ rs) rel).map (Value.map norm) := by
  induction rs generalizing acc prev with
  | nil =>
    simp only [Climb] at h2
    subst h2
    exact ⟨acc, rfl, h1, by simp, by simp⟩
  | cons x rs ih =>
    obtain ⟨e, v⟩ := x
    obtain ⟨hlt, h2⟩ := h2
    have hle := h2.le
    unfold mergeLoop
    rw [if_neg (by omega)]
    match acc, h1 with
    | [], h1 =>
      simp only [List.reverse_nil, Climb] at h1
      obtain ⟨acc', g1, g2, g3, g4⟩ := ih [(e, v)] e (by simp [Climb]; omega) h2
      exact ⟨acc', g1, g2, fun _ => g3 (by simp), by simpa using g4⟩
    | (e', v') :: a, h1 =>
      have h1' := h1
      rw [List.reverse_cons] at h1'
      obtain ⟨q, k1, k2⟩ := h1'.split
      simp only [Climb] at k2
      obtain ⟨k2, k3⟩ := k2
      subst k3
      dsimp only
      split
      · rename_i hs
        obtain ⟨acc', g1, g2, g3, g4⟩ := ih ((e, v') :: a) e (by
          rw [List.reverse_cons]
          exact k1.append ⟨by omega, rfl⟩) h2
        refine ⟨acc', g1, g2, fun _ => g3 (by simp), fun rel => ?_⟩
        rw [g4 rel]
        simp only [List.reverse_cons, List.append_assoc, List.cons_append, List.nil_append]
        apply runGet_append_congr
        simp only [runGet]
        by_cases c1 : e' ≤ rel
        · by_cases c2 : e ≤ rel
          · simp [c1, c2]
          · simp [c1, c2, same_map hn v' v hs]
        · have : ¬ e ≤ rel := by omega
          simp [c1, this]
      · obtain ⟨acc', g1, g2, g3, g4⟩ := ih ((e, v) :: (e', v') :: a) e (by
          rw [List.reverse_cons]
          exact h1.append ⟨hlt, rfl⟩) h2
        refine ⟨acc', g1, g2, fun _ => g3 (by simp), fun rel => ?_⟩
        rw [g4 rel]
        simp

/-! ## Fragments as partial maps -/

/-- A fragment the constructors can build. -/
def Fragment.WF (E : Env F) : Fragment F → Prop
  | .sparse offs p => ∃ vs, p = payload E vs ∧ vs.length = offs.length ∧ offs.Pairwise (· < ·)
      ∧ offs ≠ []
  | .dense _ len p => ∃ vs, p = payload E vs ∧ vs.length = len ∧ 0 < len
  | .runs _ len ends p => ∃ vs, p = payload E vs ∧ vs.length = ends.length
      ∧ Climb 0 (ends.zip vs) len ∧ 0 < len

/-- The offsets a fragment covers, in order. -/
def Fragment.keys : Fragment F → List Nat
  | .sparse offs _ => offs
  | .dense start len _ => List.range' start len
  | .runs start len _ _ => List.range' start len

/-- The reading of an offset, up to `norm`. -/
def Fragment.see (norm : F → G) (f : Fragment F) (o : Nat) : Option (Value G) :=
  (f.get o).map (Value.map norm)

theorem Fragment.get_sparse (E : Env F) (offs : List Nat) (vs : List (Value F)) (o : Nat)
    (hl : vs.length = offs.length) :
    (Fragment.sparse offs (payload E vs)).get o = assoc (offs.zip vs) o := by
  rw [← assoc_zip offs vs o hl]
  simp only [Fragment.get, payload]
  congr 1
  funext i
  exact lanes_roundtrip vs i

theorem Fragment.get_dense (E : Env F) (start : Nat) (vs : List (Value F)) (o : Nat) :
    (Fragment.dense start vs.length (payload E vs)).get o
      = if start ≤ o then vs[o - start]? else none := by
  simp only [Fragment.get, payload, lanes_roundtrip]
  by_cases h : o < start
  · rw [if_pos h, if_neg (by omega)]
  · rw [if_neg h, if_pos (show start ≤ o by omega)]
    split
    · rename_i h2; simp [h2]
    · rfl

theorem Fragment.get_runs (E : Env F) (start len : Nat) (ends : List Nat) (vs : List (Value F))
    (hl : vs.length = ends.length) (o : Nat) :
    (Fragment.runs start len ends (payload E vs)).get o
      = if start ≤ o ∧ o < start + len then runGet (ends.zip vs) (o - start) else none := by
  simp only [Fragment.get, payload, lanes_roundtrip]
  by_cases h : o < start
  · rw [if_pos h, if_neg (by omega)]
  · rw [if_neg h]
    by_cases h2 : len ≤ o - start
    · rw [if_pos h2, if_neg (by omega)]
    · rw [if_neg h2, if_pos (by omega), runGet_zip ends vs _ hl]

/-- A fragment has a value at exactly the offsets it covers. -/
theorem Fragment.isSome_iff {E : Env F} {f : Fragment F} (h : f.WF E) (o : Nat) :
    (f.get o).isSome = true ↔ o ∈ f.keys := by
  match f, h with
  | .sparse offs p, ⟨vs, hp, hl, _, _⟩ =>
    subst hp
    rw [Fragment.get_sparse E offs vs o hl, assoc_isSome, List.map_fst_zip (by omega)]
    rfl
  | .dense start len p, ⟨vs, hp, hl, _⟩ =>
    subst hp hl
    rw [Fragment.get_dense]
    simp only [Fragment.keys, List.mem_range'_1]
    by_cases h1 : start ≤ o
    · rw [if_pos h1]; simp; omega
    · rw [if_neg h1]; simp; omega
  | .runs start len ends p, ⟨vs, hp, hl, hc, _⟩ =>
    subst hp
    rw [Fragment.get_runs E start len ends vs hl]
    simp only [Fragment.keys, List.mem_range'_1]
    by_cases h1 : start ≤ o ∧ o < start + len
    · rw [if_pos h1, hc.isSome _ (by omega)]; omega
    · rw [if_neg h1]; simp; omega

theorem Fragment.keys_sorted {E : Env F} {f : Fragment F} (h : f.WF E) :
    f.keys.Pairwise (· < ·) := by
  match f, h with
  | .sparse offs p, ⟨vs, hp, hl, hs, _⟩ => exact hs
  | .dense start len p, _ => exact List.pairwise_lt_range'
  | .runs start len ends p, _ => exact List.pairwise_lt_range'

theorem Fragment.keys_length {f : Fragment F} : f.keys.length = f.coverageLen := by
  cases f <;> simp [Fragment.keys, Fragment.coverageLen]

/-! ## Constructors -/

theorem zip_map_fst_snd {α : Type} (l : List (Nat × α)) :
    (l.map Prod.fst).zip (l.map Prod.snd) = l := by
  induction l with
  | nil => rfl
  | cons x l ih => simp [ih]

theorem sparseOf_none {E : Env F} {items : List (Nat × Value F)} (h : sparseOf E items = none) :
    items = [] := by
  unfold sparseOf at h
  split at h
  · rename_i he
    have h2 := (byOffset_spec items).2
    rw [List.isEmpty_iff] at he
    rw [he] at h2
    match items, h2 with
    | [], _ => rfl
    | (k, v) :: r, h2 =>
      have := h2 k
      simp only [assoc] at this
      have hs : (assoc ((k, v) :: r).reverse k).isSome = true := by
        rw [assoc_isSome]; simp
      rw [← this] at hs
      cases hs
  · cases h

theorem sparseOf_some {E : Env F} {items : List (Nat × Value F)} {f : Fragment F}
    (h : sparseOf E items = some f) :
    f.WF E ∧ f.keys = (byOffset items).map Prod.fst ∧ ∀ o, f.get o = assoc items.reverse o := by
  unfold sparseOf at h
  split at h
  · cases h
  · rename_i he
    injection h with h
    subst h
    obtain ⟨h1, h2⟩ := byOffset_spec items
    refine ⟨⟨_, rfl, by simp, h1, ?_⟩, rfl, fun o => ?_⟩
    · intro h0
      rw [List.map_eq_nil_iff] at h0
      exact he (by simp [h0])
    · rw [Fragment.get_sparse E _ _ o (by simp), zip_map_fst_snd, h2 o]

theorem denseOf_none {E : Env F} {s : Nat} {vs : List (Value F)} (h : denseOf E s vs = none) :
    vs = [] := by
  unfold denseOf at h
  split at h
  · apply List.eq_nil_of_length_eq_zero; assumption
  · cases h

theorem denseOf_some {E : Env F} {s : Nat} {vs : List (Value F)} {f : Fragment F}
    (h : denseOf E s vs = some f) :
    f.WF E ∧ f.keys = List.range' s vs.length
      ∧ ∀ o, f.get o = if s ≤ o then vs[o - s]? else none := by
  unfold denseOf at h
  split at h
  · cases h
  · injection h with h
    subst h
    exact ⟨⟨vs, rfl, rfl, by omega⟩, rfl, Fragment.get_dense E s vs⟩

theorem Climb.getLast {α : Type} {q : Nat} {acc : List (Nat × α)} (h : Climb 0 acc.reverse q)
    (hne : acc ≠ []) : acc.head?.map Prod.fst = some q := by
  match acc, hne with
  | (e, v) :: a, _ =>
    rw [List.reverse_cons] at h
    obtain ⟨p, _, h2⟩ := h.split
    simp only [Climb] at h2
    simp [h2.2]

theorem runParts_spec {E : Env F} {norm : F → G} (hn : Agrees E norm) (start len : Nat)
    (ends : List Nat) (vs : List (Value F)) (hl : ends.length = vs.length) (h0 : 0 < len)
    (hc : Climb 0 (ends.zip vs) len) :
    ∃ f, runParts E start len ends vs = some f ∧ f.WF E ∧ f.keys = List.range' start len
      ∧ ∀ o, f.see norm o = if start ≤ o ∧ o < start + len
          then (runGet (ends.zip vs) (o - start)).map (Value.map norm) else none := by
  have hne : ends.zip vs ≠ [] := by
    intro h; rw [h] at hc; simp only [Climb] at hc; omega
  have hne' : ends ≠ [] := by rintro rfl; simp at hne
  obtain ⟨acc, g1, g2, g3, g4⟩ := mergeLoop_spec (norm := norm) hn len (ends.zip vs) [] 0
    (by simp [Climb]) hc
  have g3 := g3 (Or.inr hne)
  unfold runParts
  rw [if_neg (by simp [hne', hl]; omega), g1]
  dsimp only
  rw [if_neg (by simp [g2.getLast g3])]
  refine ⟨_, rfl, ⟨_, rfl, by simp, by rw [zip_map_fst_snd]; exact g2, h0⟩, rfl, fun o => ?_⟩
  unfold Fragment.see
  rw [Fragment.get_runs E _ _ _ _ (by simp), zip_map_fst_snd]
  split
  · rw [g4]; rfl
  · rfl

theorem runLoop_climb {E : Env F} (idx : Nat) (cur : Value F) (r : List (Value F)) (p : Nat)
    (hp : p < idx) : Climb p (runLoop E idx cur r) (idx + r.length) := by
  induction r generalizing idx cur p with
  | nil => exact ⟨hp, by simp [Climb]⟩
  | cons v r ih =>
    simp only [runLoop]
    split
    · have := ih (idx + 1) cur p (by omega)
      rw [List.length_cons]
      rwa [show idx + (r.length + 1) = idx + 1 + r.length by omega]
    · refine ⟨hp, ?_⟩
      have := ih (idx + 1) v idx (by omega)
      rw [List.length_cons]
      rwa [show idx + (r.length + 1) = idx + 1 + r.length by omega]

theorem runLoop_get {E : Env F} {norm : F → G} (hn : Agrees E norm) (idx : Nat) (cur : Value F)
    (r : List (Value F)) (rel : Nat) :
    (runGet (runLoop E idx cur r) rel).map (Value.map norm)
      = if rel < idx then some (cur.map norm) else (r[rel - idx]?).map (Value.map norm) := by
  induction r generalizing idx cur with
  | nil =>
    simp only [runLoop, runGet]
    by_cases h : rel < idx
    · rw [if_neg (by omega), if_pos h]; rfl
    · rw [if_pos (by omega), if_neg h]; rfl
  | cons v r ih =>
    simp only [runLoop]
    split
    · rename_i hs
      rw [ih (idx + 1) cur]
      by_cases h : rel < idx
      · rw [if_pos (by omega), if_pos h]
      · rw [if_neg h]
        by_cases h2 : rel = idx
        · subst h2
          rw [if_pos (by omega)]
          simp [same_map hn v cur hs]
        · rw [if_neg (by omega), show rel - idx = (rel - (idx + 1)) + 1 by omega]
          simp
    · simp only [runGet]
      by_cases h : rel < idx
      · rw [if_neg (by omega), if_pos h]; rfl
      · rw [if_pos (by omega), ih (idx + 1) v, if_neg h]
        by_cases h2 : rel = idx
        · subst h2; simp
        · rw [if_neg (by omega), show rel - idx = (rel - (idx + 1)) + 1 by omega]
          simp

/-- **Run-length encoding reads back the values it was given**, up to floats that compare equal. -/
theorem runOf_spec {E : Env F} {norm : F → G} (hn : Agrees E norm) (start : Nat)
    (vs : List (Value F)) (h : vs ≠ []) :
    ∃ f, runOf E start vs = some f ∧ f.WF E ∧ f.keys = List.range' start vs.length
      ∧ ∀ o, f.see norm o = if start ≤ o then (vs[o - start]?).map (Value.map norm) else none := by
  match vs, h with
  | v :: r, _ =>
    unfold runOf
    dsimp only
    obtain ⟨f, g1, g2, g3, g4⟩ := runParts_spec hn start (v :: r).length
      ((runLoop E 1 v r).map Prod.fst) ((runLoop E 1 v r).map Prod.snd) (by simp) (by simp)
      (by rw [zip_map_fst_snd]
          have := runLoop_climb (E := E) 1 v r 0 (by omega)
          rwa [List.length_cons, Nat.add_comm])
    refine ⟨f, g1, g2, g3, fun o => ?_⟩
    rw [g4, zip_map_fst_snd]
    by_cases h1 : start ≤ o
    · by_cases h2 : o < start + (v :: r).length
      · rw [if_pos ⟨h1, h2⟩, if_pos h1, runLoop_get hn]
        by_cases h3 : o - start = 0
        · simp [h3]
        · rw [if_neg (by omega), show o - start = (o - start - 1) + 1 by omega]
          simp
      · rw [if_neg (by omega), if_pos h1, List.getElem?_eq_none (by omega)]
        rfl
    · rw [if_neg (by omega), if_neg h1]

end Verif.Store
