import Mathlib.Data.List.Basic
import Mathlib.Data.List.Nodup
import Mathlib.Data.List.Range
import Mathlib.Data.List.TakeWhile
import Mathlib.Tactic.ByContra
import Verif.Store.Pieces

/-!
# Cutting fragments

The pieces left by each of the code's cuts, described by `Left`: they are well formed, they cover
exactly the offsets that survive, in order, and each surviving offset reads as before.
-/

namespace Verif.Store

variable {F G : Type}

/-! ## Segments of an interval fragment -/

theorem segmentLoop_spec (E : Env F) (relStart relEnd len : Nat) (ws : List (Value F))
    (ends : List Nat) (idx prev : Nat) (hl : ws.length = idx + ends.length)
    (hc : Climb prev (ends.zip (ws.drop idx)) len) (he : relEnd ≤ len) (hp : prev < relEnd)
    (hs : relStart < relEnd) :
    (segmentLoop relStart relEnd (payload E ws) ends idx prev).1.length
        = (segmentLoop relStart relEnd (payload E ws) ends idx prev).2.length
      ∧ Climb (max prev relStart - relStart)
          ((segmentLoop relStart relEnd (payload E ws) ends idx prev).1.zip
            (segmentLoop relStart relEnd (payload E ws) ends idx prev).2) (relEnd - relStart)
      ∧ ∀ rel, runGet ((segmentLoop relStart relEnd (payload E ws) ends idx prev).1.zip
            (segmentLoop relStart relEnd (payload E ws) ends idx prev).2) rel
          = if rel < relEnd - relStart then runGet (ends.zip (ws.drop idx)) (rel + relStart)
            else none := by
  induction ends generalizing idx prev with
  | nil => simp only [List.zip_nil_left, Climb] at hc; omega
  | cons e ends ih =>
    have hi : idx < ws.length := by rw [hl]; simp
    rw [List.drop_eq_getElem_cons hi, List.zip_cons_cons] at hc ⊢
    obtain ⟨h1, h2⟩ := hc
    have hv : (payload E ws).lanes.value idx = some ws[idx] := by
      simp only [payload, lanes_roundtrip]; simp [hi]
    simp only [segmentLoop, hv, Option.toList_some]
    by_cases hbrk : relEnd ≤ e
    · have hm : min e relEnd = relEnd := by omega
      rw [if_pos hbrk, hm, if_pos (by omega)]
      refine ⟨by simp, by simp [Climb]; omega, fun rel => ?_⟩
      simp only [List.zip_cons_cons, List.zip_nil_right, runGet]
      by_cases hr : rel < relEnd - relStart
      · rw [if_neg (by omega), if_pos hr, if_neg (by omega)]
      · rw [if_pos (by omega), if_neg hr]
    · have hm : min e relEnd = e := by omega
      rw [if_neg hbrk, hm]
      obtain ⟨g1, g2, g3⟩ := ih (idx + 1) e (by rw [hl]; simp; omega) h2 (by omega)
      by_cases hin : max prev relStart < e
      · rw [if_pos hin]
        have hrs : max e relStart - relStart = e - relStart := by omega
        rw [hrs] at g2
        refine ⟨by simp [g1], ?_, fun rel => ?_⟩
        · simp only [List.cons_append, List.nil_append, List.zip_cons_cons]
          exact ⟨by omega, g2⟩
        · simp only [List.cons_append, List.nil_append, List.zip_cons_cons, runGet]
          by_cases hr : e - relStart ≤ rel
          · rw [if_pos hr, g3 rel]
            by_cases hr2 : rel < relEnd - relStart
            · rw [if_pos hr2, if_pos hr2, if_pos (by omega)]
            · rw [if_neg hr2, if_neg hr2]
          · rw [if_neg hr, if_pos (by omega), if_neg (by omega)]
      · rw [if_neg hin]
        have hrs : max e relStart - relStart = max prev relStart - relStart := by omega
        rw [hrs] at g2
        refine ⟨by simpa using g1, by simpa using g2, fun rel => ?_⟩
        simp only [List.nil_append, runGet]
        rw [g3 rel, if_pos (show e ≤ rel + relStart by omega)]

/-- Where an interval fragment starts and how long it is. -/
def Fragment.At (f : Fragment F) (start len : Nat) : Prop :=
  (∃ p, f = .dense start len p) ∨ (∃ ends p, f = .runs start len ends p)

theorem Fragment.At.keys {f : Fragment F} {start len : Nat} (h : f.At start len) :
    f.keys = List.range' start len := by
  rcases h with ⟨p, rfl⟩ | ⟨ends, p, rfl⟩ <;> rfl

theorem segment_spec {E : Env F} {norm : F → G} (hn : Agrees E norm) {f : Fragment F}
    (hw : f.WF E) {start len : Nat} (ha : f.At start len) (ns a b : Nat) (h1 : start ≤ a)
    (h2 : a < b) (h3 : b ≤ start + len) :
    ∃ g, f.segment E ns a b = some g ∧ g.WF E ∧ g.keys = List.range' ns (b - a)
      ∧ ∀ o, g.see norm o = if ns ≤ o ∧ o < ns + (b - a) then f.see norm (o - ns + a) else none := by
  rcases ha with ⟨p, rfl⟩ | ⟨ends, p, rfl⟩
  · obtain ⟨vs, rfl, hl, h0⟩ := hw
    simp only [Fragment.segment, denseSegment]
    rw [if_neg (by omega), if_neg (by omega)]
    simp only [payload]
    rw [Lanes.slice_ofValues vs _ _ (by omega)]
    have hlen : ((vs.drop (a - start)).take (b - a)).length = b - a := by simp; omega
    cases hd : denseOf E ns ((vs.drop (a - start)).take (b - a)) with
    | none =>
      have := denseOf_none hd
      rw [this] at hlen; simp at hlen; omega
    | some g =>
      obtain ⟨g1, g2, g3⟩ := denseOf_some hd
      refine ⟨g, rfl, g1, by rw [g2, hlen], fun o => ?_⟩
      unfold Fragment.see
      rw [g3 o]
      subst hl
      have := Fragment.get_dense E start vs (o - ns + a)
      simp only [payload] at this
      rw [this, if_pos (show start ≤ o - ns + a by omega)]
      by_cases c1 : ns ≤ o
      · by_cases c2 : o < ns + (b - a)
        · rw [if_pos c1, if_pos ⟨c1, c2⟩, List.getElem?_take_of_lt (by omega), List.getElem?_drop]
          congr 2; omega
        · rw [if_pos c1, if_neg (by omega), List.getElem?_eq_none (by omega)]; rfl
      · rw [if_neg c1, if_neg (by omega)]; rfl
  · obtain ⟨vs, rfl, hl, hc, h0⟩ := hw
    simp only [Fragment.segment, runSegment]
    rw [if_neg (by omega), if_neg (by omega)]
    obtain ⟨s1, s2, s3⟩ := segmentLoop_spec E (a - start) (b - start) len vs ends 0 0
      (by omega) (by simpa using hc) (by omega) (by omega) (by omega)
    have e1 : b - start - (a - start) = b - a := by omega
    rw [e1] at s2 s3
    have e2 : max 0 (a - start) - (a - start) = 0 := by omega
    rw [e2] at s2
    obtain ⟨g, g1, g2, g3, g4⟩ := runParts_spec hn ns (b - a) _ _ s1 (by omega) s2
    refine ⟨g, g1, g2, g3, fun o => ?_⟩
    rw [g4 o]
    by_cases c : ns ≤ o ∧ o < ns + (b - a)
    · rw [if_pos c, if_pos c, s3, if_pos (by omega)]
      unfold Fragment.see
      rw [Fragment.get_runs E start len ends vs hl, if_pos (by omega), List.drop_zero]
      congr 2; omega
    · rw [if_neg c, if_neg c]

/-! ## Lists of fragments -/

/-- The last fragment with a value at the offset decides (mod.rs 2010, `fragments.iter().rev()`). -/
def frGet (fs : List (Fragment F)) (o : Nat) : Option (Value F) :=
  fs.reverse.findSome? (·.get o)

/-- The same, up to `norm`. -/
def frSee (norm : F → G) (fs : List (Fragment F)) (o : Nat) : Option (Value G) :=
  (frGet fs o).map (Value.map norm)

theorem frGet_append (a b : List (Fragment F)) (o : Nat) :
    frGet (a ++ b) o = (frGet b o).or (frGet a o) := by
  simp [frGet, List.findSome?_append]

theorem frSee_append (norm : F → G) (a b : List (Fragment F)) (o : Nat) :
    frSee norm (a ++ b) o = (frSee norm b o).or (frSee norm a o) := by
  unfold frSee
  rw [frGet_append]
  cases frGet b o <;> rfl

theorem frSee_nil (norm : F → G) (o : Nat) : frSee norm ([] : List (Fragment F)) o = none := rfl

theorem frSee_single (norm : F → G) (f : Fragment F) (o : Nat) : frSee norm [f] o = f.see norm o := by
  simp only [frSee, frGet, Fragment.see, List.reverse_cons, List.reverse_nil, List.nil_append,
    List.findSome?_cons, List.findSome?_nil]
  cases f.get o <;> rfl

theorem frSee_cons (norm : F → G) (f : Fragment F) (fs : List (Fragment F)) (o : Nat) :
    frSee norm (f :: fs) o = (frSee norm fs o).or (f.see norm o) := by
  rw [show f :: fs = [f] ++ fs from rfl, frSee_append, frSee_single]

theorem see_isSome {norm : F → G} {f : Fragment F} (o : Nat) :
    (f.see norm o).isSome = (f.get o).isSome := by
  simp [Fragment.see]

theorem frSee_isSome {E : Env F} {norm : F → G} {fs : List (Fragment F)} (h : ∀ f ∈ fs, f.WF E)
    (o : Nat) : (frSee norm fs o).isSome = true ↔ o ∈ fs.flatMap Fragment.keys := by
  induction fs with
  | nil => simp [frSee_nil]
  | cons f fs ih =>
    rw [frSee_cons, Option.isSome_or, List.flatMap_cons, List.mem_append]
    have h1 := ih (fun g hg => h g (by simp [hg]))
    have h2 := Fragment.isSome_iff (h f (by simp)) o
    rw [Bool.or_eq_true, h1, see_isSome, h2]
    exact Or.comm

/-- What is left of a fragment after a cut that spares the offsets satisfying `K`: well formed
pieces that cover, in order, exactly the surviving offsets of the fragment, each reading as before. -/
structure Left (E : Env F) (norm : F → G) (f : Fragment F) (K : Nat → Bool)
    (ps : List (Fragment F)) : Prop where
  wf : ∀ g ∈ ps, g.WF E
  keys : ps.flatMap Fragment.keys = f.keys.filter K
  sees : ∀ o, frSee norm ps o = if K o then f.see norm o else none

theorem see_none {E : Env F} {norm : F → G} {f : Fragment F} (h : f.WF E) (o : Nat)
    (ho : o ∉ f.keys) : f.see norm o = none := by
  rw [← Fragment.isSome_iff h] at ho
  unfold Fragment.see
  cases hg : f.get o with
  | none => rfl
  | some v => rw [hg] at ho; simp at ho

theorem left_self {E : Env F} {norm : F → G} {f : Fragment F} (h : f.WF E) (K : Nat → Bool)
    (hK : ∀ o ∈ f.keys, K o = true) : Left E norm f K [f] where
  wf := by simpa using h
  keys := by simp [List.filter_eq_self.2 hK]
  sees o := by
    rw [frSee_single]
    by_cases ho : o ∈ f.keys
    · rw [hK o ho]; rfl
    · rw [see_none h o ho]; simp

theorem assoc_reverse {α : Type} (l : List (Nat × α)) (h : (l.map Prod.fst).Nodup) (o : Nat) :
    assoc l.reverse o = assoc l o := by
  induction l with
  | nil => rfl
  | cons x l ih =>
    obtain ⟨k, v⟩ := x
    simp only [List.map_cons, List.nodup_cons] at h
    rw [List.reverse_cons, assoc_append, ih h.2]
    simp only [assoc]
    by_cases hk : k = o
    · subst hk
      rw [assoc_eq_none l k h.1]; simp
    · simp [hk]

theorem nodup_of_sorted {l : List Nat} (h : l.Pairwise (· < ·)) : l.Nodup :=
  h.imp (fun hab => by omega)

theorem cells_of_get {α : Type} (ks : List Nat) (get : Nat → Option α)
    (h : ∀ k ∈ ks, (get k).isSome = true) :
    (ks.filterMap fun k => (get k).map (fun v => (k, v))).map Prod.fst = ks
      ∧ ∀ o, assoc (ks.filterMap fun k => (get k).map (fun v => (k, v))) o
          = if o ∈ ks then get o else none := by
  induction ks with
  | nil => simp [assoc]
  | cons k ks ih =>
    obtain ⟨i1, i2⟩ := ih (fun x hx => h x (by simp [hx]))
    have hk := h k (by simp)
    rw [Option.isSome_iff_exists] at hk
    obtain ⟨v, hv⟩ := hk
    simp only [List.filterMap_cons, hv, Option.map_some, List.map_cons]
    refine ⟨by rw [i1], fun o => ?_⟩
    simp only [assoc, i2 o]
    by_cases ho : k = o
    · subst ho; simp [hv]
    · have : o ≠ k := fun h => ho h.symm
      simp [ho, this]

/-- `cells` lists the covered offsets in order, each with its value. -/
theorem cells_spec {E : Env F} {f : Fragment F} (h : f.WF E) :
    f.cells.map Prod.fst = f.keys ∧ ∀ o, assoc f.cells o = f.get o := by
  have key : f.cells = f.keys.filterMap (fun k => (f.get k).map (fun v => (k, v))) → 
      f.cells.map Prod.fst = f.keys ∧ ∀ o, assoc f.cells o = f.get o := by
    intro he
    obtain ⟨i1, i2⟩ := cells_of_get f.keys f.get (fun k hk => (Fragment.isSome_iff h k).2 hk)
    rw [he]
    refine ⟨i1, fun o => ?_⟩
    rw [i2 o]
    split
    · rfl
    · rename_i ho
      rw [← Fragment.isSome_iff h] at ho
      cases hg : f.get o with
      | none => rfl
      | some v => rw [hg] at ho; simp at ho
  match f, h with
  | .sparse offs p, ⟨vs, hp, hl, hs, _⟩ =>
    subst hp
    have hc : (Fragment.sparse offs (payload E vs)).cells = offs.zip vs := by
      simp only [Fragment.cells, sparseCells, payload, lanes_roundtrip]
      have := zipIdx_cells (fun _ => true) offs vs 0 (by omega)
      simpa using this
    rw [hc]
    refine ⟨List.map_fst_zip (by omega), fun o => (Fragment.get_sparse E offs vs o hl).symm⟩
  | .dense start len p, ⟨vs, hp, hl, _⟩ =>
    apply key
    subst hp hl
    simp only [Fragment.cells, Fragment.keys]
    rw [List.range'_eq_map_range, List.filterMap_map]
    congr 1
    funext i
    simp only [Function.comp, Fragment.get_dense, Nat.le_add_right, if_true,
      Nat.add_sub_cancel_left]
    simp only [payload, lanes_roundtrip]
  | .runs start len ends p, _ =>
    apply key
    simp only [Fragment.cells, Fragment.keys]
    rw [List.range'_eq_map_range, List.filterMap_map]
    rfl

theorem left_sparse {E : Env F} {norm : F → G} {f : Fragment F} (h : f.WF E) (K : Nat → Bool) :
    Left E norm f K (sparseOf E (f.cells.filter fun c => K c.1)).toList := by
  obtain ⟨c1, c2⟩ := cells_spec h
  have hk : (f.cells.filter fun c => K c.1).map Prod.fst = f.keys.filter K := by
    rw [← c1, List.filter_map]; rfl
  have hs : ((f.cells.filter fun c => K c.1).map Prod.fst).Pairwise (· < ·) := by
    rw [hk]; exact (Fragment.keys_sorted h).filter _
  cases hg : sparseOf E (f.cells.filter fun c => K c.1) with
  | none =>
    have h0 := sparseOf_none hg
    rw [h0] at hk
    refine ⟨by simp, by simpa using hk, fun o => ?_⟩
    simp only [Option.toList_none, frSee_nil]
    split
    · rename_i hko
      by_cases ho : o ∈ f.keys
      · have : o ∈ f.keys.filter K := List.mem_filter.2 ⟨ho, hko⟩
        rw [← hk] at this; simp at this
      · rw [see_none h o ho]
    · rfl
  | some g =>
    obtain ⟨g1, g2, g3⟩ := sparseOf_some hg
    refine ⟨by simpa using g1, ?_, fun o => ?_⟩
    · simp only [Option.toList_some, List.flatMap_cons, List.flatMap_nil, List.append_nil]
      rw [g2, byOffset_sorted _ hs, hk]
    · simp only [Option.toList_some, frSee_single]
      unfold Fragment.see
      rw [g3 o, assoc_reverse _ (nodup_of_sorted hs), assoc_filter, c2 o]
      split <;> rfl

theorem sparseCells_eq {E : Env F} (test : Nat → Bool) (offs : List Nat) (vs : List (Value F))
    (hl : vs.length = offs.length) :
    sparseCells test offs (payload E vs)
      = (Fragment.sparse offs (payload E vs)).cells.filter fun c => test c.1 := by
  simp only [Fragment.cells, sparseCells, payload, lanes_roundtrip]
  have h1 := zipIdx_cells test offs vs 0 (by omega)
  have h2 := zipIdx_cells (fun _ => true) offs vs 0 (by omega)
  simp only [if_true] at h2 ⊢
  rw [h1, h2]
  simp

theorem filter_range' (a n : Nat) (K : Nat → Bool) (h : ∀ x, a ≤ x → x < a + n → K x = false) :
    (List.range' a n).filter K = [] := by
  rw [List.filter_eq_nil_iff]
  intro x hx
  rw [List.mem_range'_1] at hx
  rw [h x hx.1 hx.2]; simp

theorem filter_range'_self (a n : Nat) (K : Nat → Bool) (h : ∀ x, a ≤ x → x < a + n → K x = true) :
    (List.range' a n).filter K = List.range' a n := by
  rw [List.filter_eq_self]
  intro x hx
  rw [List.mem_range'_1] at hx
  exact h x hx.1 hx.2

/-- A segment of an interval fragment, in the form the cuts use it. -/
theorem segment_left {E : Env F} {norm : F → G} (hn : Agrees E norm) {f : Fragment F}
    (hw : f.WF E) {start len : Nat} (ha : f.At start len) (a b : Nat) (h1 : start ≤ a)
    (h3 : b ≤ start + len) :
    (∀ g ∈ (if a < b then (f.segment E a a b).toList else []), g.WF E)
      ∧ (if a < b then (f.segment E a a b).toList else []).flatMap Fragment.keys
          = List.range' a (b - a)
      ∧ ∀ o, frSee norm (if a < b then (f.segment E a a b).toList else []) o
          = if a ≤ o ∧ o < b then f.see norm o else none := by
  by_cases hab : a < b
  · obtain ⟨g, g1, g2, g3, g4⟩ := segment_spec hn hw ha a a b h1 hab h3
    rw [if_pos hab, g1]
    refine ⟨by simpa using g2, by simpa using g3, fun o => ?_⟩
    simp only [Option.toList_some, frSee_single]
    rw [g4 o]
    by_cases c : a ≤ o ∧ o < b
    · rw [if_pos (by omega), if_pos c]; congr 1; omega
    · rw [if_neg (by omega), if_neg c]
  · rw [if_neg hab]
    refine ⟨by simp, by simp [show b - a = 0 by omega], fun o => ?_⟩
    rw [frSee_nil, if_neg (by omega)]

theorem cut_left {E : Env F} {norm : F → G} (hn : Agrees E norm) {f : Fragment F}
    (hw : f.WF E) {start len : Nat} (ha : f.At start len) (a b : Nat) (hab : a < b) :
    Left E norm f (fun o => !(decide (a ≤ o) && decide (o < b))) (f.cut E start len a b) := by
  unfold Fragment.cut
  split
  · rename_i h
    apply left_self hw
    intro o ho
    rw [ha.keys, List.mem_range'_1] at ho
    simp; omega
  · rename_i h
    obtain ⟨l1, l2, l3⟩ := segment_left (norm := norm) hn hw ha start (max a start) (Nat.le_refl _)
      (by omega)
    obtain ⟨r1, r2, r3⟩ := segment_left (norm := norm) hn hw ha (min b (start + len)) (start + len)
      (by omega) (Nat.le_refl _)
    refine ⟨?_, ?_, fun o => ?_⟩
    · intro g hg
      rw [List.mem_append] at hg
      rcases hg with hg | hg
      · exact l1 g hg
      · exact r1 g hg
    · rw [List.flatMap_append, l2, r2, ha.keys]
      have e : List.range' start len = List.range' start (max a start - start)
          ++ (List.range' (max a start) (min b (start + len) - max a start)
            ++ List.range' (min b (start + len)) (start + len - min b (start + len))) := by
        have e1 : min b (start + len) = max a start + (min b (start + len) - max a start) := by omega
        have e2 : max a start = start + (max a start - start) := by omega
        conv_rhs => rw [← List.append_assoc]
        rw [show List.range' start (max a start - start)
            ++ List.range' (max a start) (min b (start + len) - max a start)
            = List.range' start (min b (start + len) - start) by
          have := @List.range'_append_1 start (max a start - start) (min b (start + len) - max a start)
          rw [← e2] at this
          rw [this]; congr 1; omega]
        have := @List.range'_append_1 start (min b (start + len) - start)
          (start + len - min b (start + len))
        rw [show start + (min b (start + len) - start) = min b (start + len) by omega] at this
        rw [this]; congr 1; omega
      conv_rhs => rw [e]
      rw [List.filter_append, List.filter_append]
      rw [filter_range'_self start _ _ (by intro x h1 h2; simp; omega)]
      rw [filter_range' (max a start) _ _ (by intro x h1 h2; simp; omega)]
      rw [filter_range'_self (min b (start + len)) _ _ (by intro x h1 h2; simp; omega)]
      simp
    · rw [frSee_append, l3 o, r3 o]
      by_cases c1 : start ≤ o ∧ o < max a start
      · rw [if_pos c1, if_neg (by omega)]
        have : (!(decide (a ≤ o) && decide (o < b))) = true := by simp; omega
        rw [this]; simp
      · rw [if_neg c1]
        by_cases c2 : min b (start + len) ≤ o ∧ o < start + len
        · rw [if_pos c2]
          have : (!(decide (a ≤ o) && decide (o < b))) = true := by simp; omega
          rw [this]; simp
        · rw [if_neg c2]
          by_cases c3 : o ∈ f.keys
          · rw [ha.keys, List.mem_range'_1] at c3
            have : (!(decide (a ≤ o) && decide (o < b))) = false := by simp; omega
            rw [this]; simp
          · rw [see_none hw o c3]; simp

/-- **Cutting an interval out of a fragment** leaves exactly what lies outside it. -/
theorem minusInterval_left {E : Env F} {norm : F → G} (hn : Agrees E norm) {f : Fragment F}
    (hw : f.WF E) (a b : Nat) :
    Left E norm f (fun o => !(decide (a ≤ o) && decide (o < b))) (f.minusInterval E a b) := by
  unfold Fragment.minusInterval
  split
  · apply left_self hw
    intro o _
    simp; omega
  · rename_i h
    match f, hw with
    | .sparse offs p, hw =>
      obtain ⟨vs, hp, hl, _, _⟩ := id hw
      subst hp
      dsimp only
      rw [sparseCells_eq _ offs vs hl]
      exact left_sparse hw _
    | .dense start len p, hw => exact cut_left hn hw (Or.inl ⟨p, rfl⟩) a b (by omega)
    | .runs start len ends p, hw => exact cut_left hn hw (Or.inr ⟨ends, p, rfl⟩) a b (by omega)

theorem holesLoop_sorted (b : Nat) (l : List Nat) (hl : l.Pairwise (· < ·)) (last : Option Nat)
    (h : ∀ x ∈ l, last ≠ some x) : holesLoop b l last = l.filter (· < b) := by
  induction l generalizing last with
  | nil => rfl
  | cons x l ih =>
    rw [List.pairwise_cons] at hl
    simp only [holesLoop]
    split
    · rename_i hb
      symm
      rw [List.filter_eq_nil_iff]
      intro y hy
      rw [List.mem_cons] at hy
      rcases hy with rfl | hy
      · simp; omega
      · have := hl.1 y hy
        simp; omega
    · rename_i hb
      rw [if_pos (h x (by simp)), List.filter_cons_of_pos (by simp; omega)]
      rw [ih hl.2 (some x)]
      intro y hy hxy
      injection hxy with hxy
      have := hl.1 y hy
      omega

theorem dropWhile_sorted (l : List Nat) (hl : l.Pairwise (· < ·)) (a : Nat) :
    l.dropWhile (· < a) = l.filter (a ≤ ·) := by
  induction l with
  | nil => rfl
  | cons x l ih =>
    rw [List.pairwise_cons] at hl
    rw [List.dropWhile_cons, List.filter_cons]
    by_cases h : x < a
    · have : ¬ a ≤ x := by omega
      simp [h, this, ih hl.2]
    · have h2 : a ≤ x := by omega
      simp only [h, decide_false, h2, decide_true, if_true, if_false, Bool.false_eq_true]
      congr 1
      symm
      rw [List.filter_eq_self]
      intro y hy
      have := hl.1 y hy
      simp; omega

theorem holes_spec (offs : List Nat) (hs : offs.Pairwise (· < ·)) (a b : Nat) :
    holes offs a b = offs.filter (fun o => decide (a ≤ o) && decide (o < b)) := by
  unfold holes
  split
  · symm
    rw [List.filter_eq_nil_iff]
    intro x _
    simp; omega
  · rw [dropWhile_sorted offs hs, holesLoop_sorted b _ (hs.filter _) none (by simp),
      List.filter_filter]
    congr 1
    funext o
    exact Bool.and_comm _ _

theorem split_spec {E : Env F} {norm : F → G} (hn : Agrees E norm) {f : Fragment F}
    (hw : f.WF E) {start len : Nat} (ha : f.At start len) (hs : List Nat)
    (hsorted : hs.Pairwise (· < ·)) (seg : Nat) (h1 : start ≤ seg) (h2 : seg ≤ start + len)
    (hin : ∀ h ∈ hs, seg ≤ h ∧ h < start + len) :
    (∀ g ∈ f.split E (start + len) hs seg, g.WF E)
      ∧ (f.split E (start + len) hs seg).flatMap Fragment.keys
          = (List.range' seg (start + len - seg)).filter (fun o => decide (o ∉ hs))
      ∧ ∀ o, frSee norm (f.split E (start + len) hs seg) o
          = if seg ≤ o ∧ o < start + len ∧ o ∉ hs then f.see norm o else none := by
  induction hs generalizing seg with
  | nil =>
    simp only [Fragment.split]
    obtain ⟨l1, l2, l3⟩ := segment_left (norm := norm) hn hw ha seg (start + len) h1 (Nat.le_refl _)
    refine ⟨l1, by rw [l2]; simp, fun o => ?_⟩
    rw [l3 o]; simp
  | cons hole hs ih =>
    rw [List.pairwise_cons] at hsorted
    simp only [Fragment.split]
    have hh := hin hole (by simp)
    obtain ⟨l1, l2, l3⟩ := segment_left (norm := norm) hn hw ha seg hole h1 (by omega)
    obtain ⟨i1, i2, i3⟩ := ih hsorted.2 (hole + 1) (by omega) (by omega) (by
      intro x hx
      exact ⟨hsorted.1 x hx, (hin x (by simp [hx])).2⟩)
    refine ⟨?_, ?_, fun o => ?_⟩
    · intro g hg
      rw [List.mem_append] at hg
      rcases hg with hg | hg
      · exact l1 g hg
      · exact i1 g hg
    · rw [List.flatMap_append, l2, i2]
      have e : List.range' seg (start + len - seg) = List.range' seg (hole - seg)
          ++ (List.range' hole 1 ++ List.range' (hole + 1) (start + len - (hole + 1))) := by
        rw [show List.range' hole 1 ++ List.range' (hole + 1) (start + len - (hole + 1))
            = List.range' hole (start + len - hole) by
          rw [@List.range'_append_1 hole 1]; congr 1; omega]
        have := @List.range'_append_1 seg (hole - seg) (start + len - hole)
        rw [show seg + (hole - seg) = hole by omega] at this
        rw [this]; congr 1; omega
      rw [e, List.filter_append, List.filter_append]
      rw [filter_range'_self seg _ _ (by
        intro x h1 h2
        simp only [List.mem_cons, decide_eq_true_eq, not_or]
        refine ⟨by omega, fun hx => ?_⟩
        have := hsorted.1 x hx; omega)]
      rw [filter_range' hole 1 _ (by
        intro x h1 h2
        have : x = hole := by omega
        simp [this])]
      rw [List.nil_append]
      congr 1
      apply List.filter_congr
      intro x hx
      rw [List.mem_range'_1] at hx
      have : x ≠ hole := by omega
      simp [this]
    · rw [frSee_append, l3 o, i3 o]
      by_cases c1 : seg ≤ o ∧ o < hole
      · have hno : o ∉ hole :: hs := by
          rw [List.mem_cons, not_or]
          refine ⟨by omega, fun hx => ?_⟩
          have := hsorted.1 o hx; omega
        rw [if_pos c1, if_neg (by omega), if_pos ⟨c1.1, by omega, hno⟩]
        rfl
      · rw [if_neg c1, Option.or_none]
        by_cases c2 : hole + 1 ≤ o ∧ o < start + len ∧ o ∉ hs
        · rw [if_pos c2, if_pos ⟨by omega, c2.2.1, by
            rw [List.mem_cons, not_or]; exact ⟨by omega, c2.2.2⟩⟩]
        · rw [if_neg c2, if_neg]
          rintro ⟨d1, d2, d3⟩
          rw [List.mem_cons, not_or] at d3
          exact c2 ⟨by omega, d2, d3.2⟩

theorem punch_left {E : Env F} {norm : F → G} (hn : Agrees E norm) {f : Fragment F}
    (hw : f.WF E) {start len : Nat} (ha : f.At start len) (repl : List Nat)
    (hs : repl.Pairwise (· < ·)) :
    Left E norm f (fun o => decide (o ∉ repl)) (f.punch E start len repl) := by
  have hh := holes_spec repl hs start (start + len)
  have hmem : ∀ o, o ∈ f.keys → (o ∈ holes repl start (start + len) ↔ o ∈ repl) := by
    intro o ho
    rw [ha.keys, List.mem_range'_1] at ho
    rw [hh, List.mem_filter]
    simp; omega
  unfold Fragment.punch
  dsimp only
  split
  · rename_i h0
    apply left_self hw
    intro o ho
    have := hmem o ho
    rw [h0] at this
    simpa using this
  · split
    · have hl := left_sparse (norm := norm) hw (fun o => decide (o ∉ holes repl start (start + len)))
      refine ⟨hl.wf, ?_, fun o => ?_⟩
      · rw [hl.keys]
        apply List.filter_congr
        intro o ho
        simp [hmem o ho]
      · rw [hl.sees o]
        by_cases ho : o ∈ f.keys
        · simp [hmem o ho]
        · rw [see_none hw o ho]; simp
    · obtain ⟨s1, s2, s3⟩ := split_spec (norm := norm) hn hw ha (holes repl start (start + len))
        (by rw [hh]; exact hs.filter _) start (Nat.le_refl _) (by omega) (by
          intro h hx
          rw [hh, List.mem_filter] at hx
          simpa using hx.2)
      refine ⟨s1, ?_, fun o => ?_⟩
      · rw [s2, Nat.add_sub_cancel_left, ← ha.keys]
        apply List.filter_congr
        intro o ho
        simp [hmem o ho]
      · rw [s3 o]
        by_cases ho : o ∈ f.keys
        · have h1 := hmem o ho
          have h2 := ho
          rw [ha.keys, List.mem_range'_1] at h2
          by_cases h3 : o ∈ repl
          · rw [if_neg (by simp [h1, h3])]; simp [h3]
          · rw [if_pos ⟨h2.1, h2.2, by rw [h1]; exact h3⟩]; simp [h3]
        · rw [see_none hw o ho]; simp

/-- **Taking a set of offsets out of a fragment** leaves exactly the others, whether the code splits
the fragment or falls back to storing offsets one by one. -/
theorem minusOffsets_left {E : Env F} {norm : F → G} (hn : Agrees E norm) {f : Fragment F}
    (hw : f.WF E) (repl : List Nat) (hs : repl.Pairwise (· < ·)) :
    Left E norm f (fun o => decide (o ∉ repl)) (f.minusOffsets E repl) := by
  unfold Fragment.minusOffsets
  split
  · rename_i h0
    rw [List.isEmpty_iff] at h0
    apply left_self hw
    simp [h0]
  · match f, hw with
    | .sparse offs p, hw =>
      obtain ⟨vs, hp, hl, _, _⟩ := id hw
      subst hp
      dsimp only
      rw [sparseCells_eq _ offs vs hl]
      exact left_sparse hw _
    | .dense start len p, hw => exact punch_left hn hw (Or.inl ⟨p, rfl⟩) repl hs
    | .runs start len ends p, hw => exact punch_left hn hw (Or.inr ⟨ends, p, rfl⟩) repl hs

theorem Left.congr {E : Env F} {norm : F → G} {f : Fragment F} {K K' : Nat → Bool}
    {ps : List (Fragment F)} (h : Left E norm f K ps) (hK : ∀ o, K o = K' o) :
    Left E norm f K' ps := by
  have : K = K' := funext hK
  rwa [this] at h

theorem minusOffset_left {E : Env F} {norm : F → G} (hn : Agrees E norm) {f : Fragment F}
    (hw : f.WF E) (off : Nat) :
    Left E norm f (fun o => decide (o ≠ off)) (f.minusOffset E off) := by
  unfold Fragment.minusOffset
  match f, hw with
  | .sparse offs p, hw =>
    exact (minusOffsets_left hn hw [off] (by simp)).congr (by intro o; simp)
  | .dense start len p, hw =>
    refine (minusInterval_left hn hw off (off + 1)).congr (fun o => ?_)
    by_cases h : o = off
    · simp [h]
    · have : ¬ (off ≤ o ∧ o < off + 1) := by omega
      simp [h]; omega
  | .runs start len ends p, hw =>
    refine (minusInterval_left hn hw off (off + 1)).congr (fun o => ?_)
    by_cases h : o = off
    · simp [h]
    · have : ¬ (off ≤ o ∧ o < off + 1) := by omega
      simp [h]; omega

/-- Cutting a fragment where another one lies. -/
theorem minus_left {E : Env F} {norm : F → G} (hn : Agrees E norm) {f r : Fragment F}
    (hw : f.WF E) (hr : r.WF E) :
    Left E norm f (fun o => decide (o ∉ r.keys)) (f.minus E r) := by
  unfold Fragment.minus
  have hs := Fragment.keys_sorted hr
  match r, hr with
  | .sparse offs p, _ => exact minusOffsets_left hn hw offs hs
  | .dense start len p, _ =>
    refine (minusInterval_left hn hw start (start + len)).congr (fun o => ?_)
    simp only [Fragment.keys, List.mem_range'_1]
    by_cases h1 : start ≤ o <;> by_cases h2 : o < start + len <;> simp [h1, h2]
  | .runs start len ends p, _ =>
    refine (minusInterval_left hn hw start (start + len)).congr (fun o => ?_)
    simp only [Fragment.keys, List.mem_range'_1]
    by_cases h1 : start ≤ o <;> by_cases h2 : o < start + len <;> simp [h1, h2]

/-! ## Overlap tests -/

theorem firstIn_iff (offs : List Nat) (hs : offs.Pairwise (· < ·)) (a b : Nat) :
    firstIn offs a b = true ↔ ∃ o ∈ offs, a ≤ o ∧ o < b := by
  unfold firstIn
  rw [dropWhile_sorted offs hs]
  have hs' := hs.filter (a ≤ ·)
  constructor
  · intro h
    cases hf : (offs.filter (a ≤ ·)).head? with
    | none => rw [hf] at h; simp at h
    | some o =>
      rw [hf] at h
      have hm := List.mem_of_head? hf
      rw [List.mem_filter] at hm
      exact ⟨o, hm.1, by simpa using hm.2, by simpa using h⟩
  · rintro ⟨o, ho, h1, h2⟩
    have hm : o ∈ offs.filter (a ≤ ·) := List.mem_filter.2 ⟨ho, by simpa using h1⟩
    cases hl : offs.filter (a ≤ ·) with
    | nil => rw [hl] at hm; simp at hm
    | cons x l =>
      rw [hl] at hm hs'
      rw [List.pairwise_cons] at hs'
      simp only [List.head?_cons, decide_eq_true_eq]
      rw [List.mem_cons] at hm
      rcases hm with rfl | hm
      · exact h2
      · have := hs'.1 o hm; omega

theorem sortedMeet_iff (n : Nat) (a b : List Nat) (ha : a.Pairwise (· < ·)) (hb : b.Pairwise (· < ·))
    (hn : a.length + b.length ≤ n) : sortedMeet n a b = true ↔ ∃ o ∈ a, o ∈ b := by
  induction n generalizing a b with
  | zero =>
    have : a = [] := List.eq_nil_of_length_eq_zero (by omega)
    subst this
    simp [sortedMeet]
  | succ n ih =>
    match a, b with
    | [], b => simp [sortedMeet]
    | x :: a, [] => simp [sortedMeet]
    | x :: a, y :: b =>
      have ha' := ha
      have hb' := hb
      rw [List.pairwise_cons] at ha hb
      simp only [List.length_cons] at hn
      simp only [sortedMeet]
      split
      · rename_i h; subst h; simp
      · split
        · rename_i h1 h2
          rw [ih a (y :: b) ha.2 hb' (by simp; omega)]
          constructor
          · rintro ⟨o, h3, h4⟩; exact ⟨o, by simp [h3], h4⟩
          · rintro ⟨o, h3, h4⟩
            rw [List.mem_cons] at h3
            rcases h3 with rfl | h3
            · rw [List.mem_cons] at h4
              rcases h4 with h4 | h4
              · exact absurd h4 h1
              · have := hb.1 o h4; omega
            · exact ⟨o, h3, h4⟩
        · rename_i h1 h2
          rw [ih (x :: a) b ha' hb.2 (by simp; omega)]
          constructor
          · rintro ⟨o, h3, h4⟩; exact ⟨o, h3, by simp [h4]⟩
          · rintro ⟨o, h3, h4⟩
            rw [List.mem_cons] at h4
            rcases h4 with rfl | h4
            · rw [List.mem_cons] at h3
              rcases h3 with h3 | h3
              · exact absurd h3.symm h1
              · have := ha.1 o h3; omega
            · exact ⟨o, h3, h4⟩

/-- **The range test is exact**: it says yes iff some offset in the range has a value. -/
theorem meets_iff {E : Env F} {f : Fragment F} (hw : f.WF E) (a b : Nat) :
    f.meets a b = true ↔ ∃ o ∈ f.keys, a ≤ o ∧ o < b := by
  have hi : ∀ start len : Nat, 0 < len → ¬ b ≤ a →
      ((decide (start < b) && decide (a < start + len)) = true
        ↔ ∃ o ∈ List.range' start len, a ≤ o ∧ o < b) := by
    intro start len h0 hab
    simp only [Bool.and_eq_true, decide_eq_true_eq, List.mem_range'_1]
    constructor
    · rintro ⟨h1, h2⟩
      exact ⟨max a start, by omega, by omega, by omega⟩
    · rintro ⟨o, h1, h2, h3⟩; omega
  unfold Fragment.meets
  split
  · simp only [Bool.false_eq_true, false_iff]
    rintro ⟨o, _, h1, h2⟩; omega
  · rename_i hab
    match f, hw with
    | .sparse offs p, ⟨vs, _, _, hs, _⟩ => exact firstIn_iff offs hs a b
    | .dense start len p, ⟨vs, _, _, h0⟩ => exact hi start len h0 hab
    | .runs start len ends p, ⟨vs, _, _, _, h0⟩ => exact hi start len h0 hab

/-- **The overlap test between two fragments is exact.** -/
theorem meetsFragment_iff {E : Env F} {f r : Fragment F} (hw : f.WF E) (hr : r.WF E) :
    f.meetsFragment r = true ↔ ∃ o ∈ f.keys, o ∈ r.keys := by
  unfold Fragment.meetsFragment
  match r, hr with
  | .sparse repl p, ⟨vs, _, _, hs, hne⟩ =>
    dsimp only [Fragment.keys]
    unfold Fragment.meetsOffsets
    rw [if_neg (by simp [hne])]
    match f, hw with
    | .sparse offs p, ⟨vs, _, _, hs', _⟩ => exact sortedMeet_iff _ offs repl hs' hs (Nat.le_refl _)
    | .dense start len p, _ =>
      dsimp only [Fragment.keys]
      rw [firstIn_iff repl hs]
      simp only [List.mem_range'_1]
      constructor
      · rintro ⟨o, h1, h2⟩; exact ⟨o, h2, h1⟩
      · rintro ⟨o, h1, h2⟩; exact ⟨o, h2, h1⟩
    | .runs start len ends p, _ =>
      dsimp only [Fragment.keys]
      rw [firstIn_iff repl hs]
      simp only [List.mem_range'_1]
      constructor
      · rintro ⟨o, h1, h2⟩; exact ⟨o, h2, h1⟩
      · rintro ⟨o, h1, h2⟩; exact ⟨o, h2, h1⟩
  | .dense start len p, _ =>
    dsimp only
    rw [meets_iff hw]
    simp only [Fragment.keys, List.mem_range'_1]
  | .runs start len ends p, _ =>
    dsimp only
    rw [meets_iff hw]
    simp only [Fragment.keys, List.mem_range'_1]

/-! ## Slices -/

theorem takeWhile_sorted_length (l : List Nat) (hl : l.Pairwise (· < ·)) (a : Nat) :
    (l.takeWhile (· < a)).length = (l.filter (· < a)).length := by
  congr 1
  induction l with
  | nil => rfl
  | cons x l ih =>
    rw [List.pairwise_cons] at hl
    rw [List.takeWhile_cons, List.filter_cons]
    by_cases h : x < a
    · simp [h, ih hl.2]
    · simp only [h, decide_false, Bool.false_eq_true, if_false]
      symm
      rw [List.filter_eq_nil_iff]
      intro y hy
      have := hl.1 y hy
      simp; omega

theorem slice_cells {α : Type} (offs : List Nat) (vs : List α) (hl : vs.length = offs.length)
    (hs : offs.Pairwise (· < ·)) (off stop : Nat) (h : off ≤ stop) :
    (((List.range (offs.takeWhile (· < stop)).length).drop
        (offs.takeWhile (· < off)).length).filterMap fun i =>
      (vs[i]?).map (fun v => (offs.getD i 0 - off, v)))
    = ((offs.zip vs).filter (fun kv => decide (off ≤ kv.1) && decide (kv.1 < stop))).map
        (fun kv => (kv.1 - off, kv.2)) := by
  induction offs generalizing vs with
  | nil => simp
  | cons x offs ih =>
    match vs, hl with
    | v :: vs, hl =>
      have hl' : vs.length = offs.length := by simpa using hl
      rw [List.pairwise_cons] at hs
      have hi := ih vs hl' hs.2
      rw [List.takeWhile_cons, List.takeWhile_cons, List.zip_cons_cons, List.filter_cons]
      by_cases h1 : x < off
      · have h2 : x < stop := by omega
        have h3 : ¬ off ≤ x := by omega
        simp only [h1, h2, h3, decide_true, decide_false, if_true, List.length_cons,
          Bool.false_and, Bool.false_eq_true, if_false]
        rw [← hi, List.range_succ_eq_map, List.drop_succ_cons, ← List.map_drop, List.filterMap_map]
        congr 1
      · by_cases h2 : x < stop
        · have h3 : off ≤ x := by omega
          have h4 : (offs.takeWhile (· < off)).length = 0 := by
            rw [takeWhile_sorted_length offs hs.2, List.length_eq_zero_iff, List.filter_eq_nil_iff]
            intro y hy
            have := hs.1 y hy
            simp; omega
          rw [h4] at hi
          simp only [h1, h2, h3, decide_true, decide_false, if_true, List.length_cons,
            Bool.and_true, Bool.false_eq_true, if_false, List.length_nil, List.drop_zero,
            List.map_cons]
          simp only [List.drop_zero] at hi
          rw [← hi, List.range_succ_eq_map, List.filterMap_cons]
          simp only [List.getElem?_cons_zero, Option.map_some, List.getD_cons_zero]
          congr 1
          rw [List.filterMap_map]
          congr 1
        · have h4 : (offs.takeWhile (· < off)).length = 0 := by
            rw [takeWhile_sorted_length offs hs.2, List.length_eq_zero_iff, List.filter_eq_nil_iff]
            intro y hy
            have := hs.1 y hy
            simp; omega
          have h5 : (offs.takeWhile (· < stop)).length = 0 := by
            rw [takeWhile_sorted_length offs hs.2, List.length_eq_zero_iff, List.filter_eq_nil_iff]
            intro y hy
            have := hs.1 y hy
            simp; omega
          rw [h4, h5] at hi
          simp only [List.range_zero, List.drop_nil, List.filterMap_nil] at hi
          simp only [h1, h2, decide_false, Bool.and_false, Bool.false_eq_true, if_false,
            List.length_nil, List.range_zero, List.drop_zero, List.filterMap_nil]
          exact hi

theorem assoc_shift {α : Type} (l : List (Nat × α)) (off : Nat) (h : ∀ kv ∈ l, off ≤ kv.1) (o : Nat) :
    assoc (l.map fun kv => (kv.1 - off, kv.2)) o = assoc l (o + off) := by
  induction l with
  | nil => rfl
  | cons x l ih =>
    obtain ⟨k, v⟩ := x
    have hk := h (k, v) (by simp)
    simp only at hk
    simp only [List.map_cons, assoc]
    rw [ih (fun kv hkv => h kv (by simp [hkv]))]
    by_cases c : k - off = o
    · rw [if_pos c, if_pos (by omega)]
    · rw [if_neg c, if_neg (by omega)]

/-- **Slicing a fragment** keeps the part inside the window, moved to the start. -/
theorem slice_spec {E : Env F} {norm : F → G} (hn : Agrees E norm) {f : Fragment F}
    (hw : f.WF E) (off len : Nat) :
    (∀ g ∈ (f.slice E off len).toList, g.WF E)
      ∧ ∀ o, frSee norm (f.slice E off len).toList o
          = if o < len then f.see norm (o + off) else none := by
  unfold Fragment.slice
  split
  · rename_i h0
    subst h0
    exact ⟨by simp, fun o => by simp [frSee_nil]⟩
  · rename_i h0
    have interval : ∀ (start flen : Nat), f.At start flen →
        (∀ g ∈ (if min (start + flen) (off + len) ≤ max start off then none
            else f.segment E (max start off - off) (max start off)
              (min (start + flen) (off + len))).toList, g.WF E)
        ∧ ∀ o, frSee norm (if min (start + flen) (off + len) ≤ max start off then none
            else f.segment E (max start off - off) (max start off)
              (min (start + flen) (off + len))).toList o
          = if o < len then f.see norm (o + off) else none := by
      intro start flen ha
      by_cases c : min (start + flen) (off + len) ≤ max start off
      · rw [if_pos c]
        refine ⟨by simp, fun o => ?_⟩
        simp only [Option.toList_none, frSee_nil]
        split
        · rw [see_none hw]
          rw [ha.keys, List.mem_range'_1]; omega
        · rfl
      · rw [if_neg c]
        obtain ⟨g, g1, g2, g3, g4⟩ := segment_spec hn hw ha (max start off - off) (max start off)
          (min (start + flen) (off + len)) (by omega) (by omega) (by omega)
        rw [g1]
        refine ⟨by simpa using g2, fun o => ?_⟩
        simp only [Option.toList_some, frSee_single]
        rw [g4 o]
        by_cases c2 : o < len
        · rw [if_pos c2]
          by_cases c3 : max start off - off ≤ o ∧
              o < max start off - off + (min (start + flen) (off + len) - max start off)
          · rw [if_pos c3]; congr 1; omega
          · rw [if_neg c3, see_none hw]
            rw [ha.keys, List.mem_range'_1]; omega
        · rw [if_neg c2, if_neg (by omega)]
    match f, hw, interval with
    | .dense start flen p, _, interval => exact interval start flen (Or.inl ⟨p, rfl⟩)
    | .runs start flen ends p, _, interval => exact interval start flen (Or.inr ⟨ends, p, rfl⟩)
    | .sparse offs p, ⟨vs, hp, hl, hs, hne⟩, _ =>
      subst hp
      dsimp only
      simp only [payload, lanes_roundtrip]
      rw [slice_cells offs vs hl hs off (off + len) (by omega)]
      have hz : (offs.zip vs).map Prod.fst = offs := List.map_fst_zip (by omega)
      have hge : ∀ kv ∈ (offs.zip vs).filter
          (fun kv => decide (off ≤ kv.1) && decide (kv.1 < off + len)), off ≤ kv.1 := by
        intro kv hkv
        rw [List.mem_filter] at hkv
        have := hkv.2
        simp only [Bool.and_eq_true, decide_eq_true_eq] at this
        exact this.1
      have hsee : ∀ o, assoc (((offs.zip vs).filter
            (fun kv => decide (off ≤ kv.1) && decide (kv.1 < off + len))).map
              (fun kv => (kv.1 - off, kv.2))) o
          = if o < len then (Fragment.sparse offs (payload E vs)).get (o + off) else none := by
        intro o
        rw [assoc_shift _ off hge,
          assoc_filter _ (fun k => decide (off ≤ k) && decide (k < off + len)),
          Fragment.get_sparse E offs vs _ hl]
        by_cases c : o < len
        · rw [if_pos c, if_pos]; simp; omega
        · rw [if_neg c, if_neg]; simp; omega
      have hsorted : ((((offs.zip vs).filter
            (fun kv => decide (off ≤ kv.1) && decide (kv.1 < off + len))).map
              (fun kv => (kv.1 - off, kv.2))).map Prod.fst).Pairwise (· < ·) := by
        rw [List.map_map]
        have h1 : (((offs.zip vs).filter
            (fun kv => decide (off ≤ kv.1) && decide (kv.1 < off + len))).map
              Prod.fst).Pairwise (· < ·) := by
          have : (offs.zip vs).Pairwise (fun a b => a.1 < b.1) := by
            rw [← hz] at hs
            exact List.pairwise_map.1 hs
          exact List.pairwise_map.2 (this.filter _)
        rw [List.pairwise_map] at h1 ⊢
        refine h1.imp_of_mem ?_
        intro a b ha hb hab
        have := hge a ha
        have := hge b hb
        simp only [Function.comp]
        omega
      cases hg : sparseOf E (((offs.zip vs).filter
            (fun kv => decide (off ≤ kv.1) && decide (kv.1 < off + len))).map
              (fun kv => (kv.1 - off, kv.2))) with
      | none =>
        have h1 := sparseOf_none hg
        rw [h1] at hsee
        refine ⟨by simp, fun o => ?_⟩
        have := hsee o
        simp only [assoc] at this
        simp only [Option.toList_none, frSee_nil, Fragment.see]
        split at this
        · rename_i c
          rw [if_pos c]
          simp only [payload] at this
          rw [← this]; rfl
        · rename_i c; rw [if_neg c]
      | some g =>
        obtain ⟨g1, g2, g3⟩ := sparseOf_some hg
        refine ⟨by simpa using g1, fun o => ?_⟩
        simp only [Option.toList_some, frSee_single]
        unfold Fragment.see
        rw [g3 o, assoc_reverse _ (nodup_of_sorted hsorted), hsee o]
        simp only [payload]
        split <;> rfl

end Verif.Store
