import Verif.Scc.Order
import Verif.Sched.Props

/-!
# The analysis of the recorded reads

Model of `/repo/crates/formualizer-eval/src/engine/live_graph.rs` 47-137, `analyze_live_graph`.  It is the same search as the one of the scheduler (scheduler.rs 195-339) with all
members requested: frames, indexes and low links are handled in the same way, so its model `Verif.Sched.tarjan` is used.
-/

namespace Verif.Scc

open Relation Verif.Sched

variable {n : Nat}

/-- live_graph.rs 53-63: the reads of a member, sorted and each once (eval.rs 25000-25006). -/
def adjN (adj : Fin n → List (Fin n)) : Nat → List Nat := fun v => if h : v < n then dedupSorted (sortNat ((adj ⟨v, h⟩).map Fin.val)) else []

/-- Members from their numbers. -/
def toFin (n : Nat) (l : List Nat) : List (Fin n) := l.filterMap fun v => if h : v < n then some ⟨v, h⟩ else none

/-- live_graph.rs 47-137, `analyze_live_graph`: a component has more than one member or its member reads itself (118-124); the members of a component are sorted (116). -/
def analyze (adj : Fin n → List (Fin n)) : Analysis n :=
  let sccs := tarjan (List.range n) (adjN adj)
  { inCycle := fun i => decide (i.val ∈ (cyclesOf { deps := adjN adj, dependents := fun _ => [] } sccs).flatten)
    topo := toFin n (sccs.map sortNat).flatten }

theorem mem_adjN (adj : Fin n → List (Fin n)) (i : Fin n) (t : Nat) : t ∈ adjN adj i.val ↔ ∃ h : t < n, (⟨t, h⟩ : Fin n) ∈ adj i := by
  simp only [adjN, i.isLt, dif_pos, dedupSorted_mem, (sortNat_perm _).mem_iff, List.mem_map]
  constructor
  · rintro ⟨j, hj, rfl⟩
    exact ⟨j.isLt, hj⟩
  · rintro ⟨h, hj⟩
    exact ⟨⟨t, h⟩, hj, rfl⟩

theorem edge_iff (adj : Fin n → List (Fin n)) (x y : Nat) : Edge (List.range n) (adjN adj) x y ↔ ∃ (hx : x < n) (hy : y < n), (⟨y, hy⟩ : Fin n) ∈ adj ⟨x, hx⟩ := by
  simp only [Edge, List.mem_range]
  constructor
  · rintro ⟨hx, hy, h⟩
    obtain ⟨_, h⟩ := (mem_adjN adj ⟨x, hx⟩ y).1 h
    exact ⟨hx, hy, h⟩
  · rintro ⟨hx, hy, h⟩
    exact ⟨hx, hy, (mem_adjN adj ⟨x, hx⟩ y).2 ⟨hy, h⟩⟩

theorem path_trans (adj : Fin n → List (Fin n)) {i j : Fin n} (h : Path adj i j) : TransGen (Edge (List.range n) (adjN adj)) i.val j.val := by
  induction h with
  | one h => exact .single ((edge_iff adj _ _).2 ⟨_, _, h⟩)
  | step h _ ih => exact .head ((edge_iff adj _ _).2 ⟨_, _, h⟩) ih

theorem trans_path (adj : Fin n → List (Fin n)) {x y : Nat} (h : TransGen (Edge (List.range n) (adjN adj)) x y) : ∃ (hx : x < n) (hy : y < n), Path adj ⟨x, hx⟩ ⟨y, hy⟩ := by
  induction h with
  | single h =>
    obtain ⟨hx, hy, h⟩ := (edge_iff adj _ _).1 h
    exact ⟨hx, hy, .one h⟩
  | tail _ h ih =>
    obtain ⟨hx, hy, h⟩ := (edge_iff adj _ _).1 h
    obtain ⟨hx', _, p⟩ := ih
    exact ⟨hx', hy, path_append p (.one h)⟩

theorem toFin_append (n : Nat) (l r : List Nat) : toFin n (l ++ r) = toFin n l ++ toFin n r := by simp [toFin]

theorem toFin_cons (i : Fin n) (l : List Nat) : toFin n (i.val :: l) = i :: toFin n l := by simp [toFin]

theorem mem_toFin (l : List Nat) (i : Fin n) : i ∈ toFin n l ↔ i.val ∈ l := by
  simp only [toFin, List.mem_filterMap]
  constructor
  · rintro ⟨v, hv, h⟩
    split at h
    · cases h
      exact hv
    · cases h
  · intro h
    exact ⟨i.val, h, by simp⟩

theorem toFin_nodup {l : List Nat} (h : l.Nodup) : (toFin n l).Nodup := by
  refine List.Nodup.filterMap ?_ h
  intro a b c hc hb
  simp only [Option.mem_def] at hc hb
  split at hc
  · split at hb
    · cases hc
      have := Option.some.inj hb
      simpa using (Fin.mk.inj_iff.1 this).symm
    · cases hb
  · cases hc

/-- The analysis finds exactly the members of cycles, and an order in which what is read comes before what reads it. -/
theorem analyze_right : Right (analyze (n := n)) := by
  intro adj
  have hs := tarjan_isSccs (List.range n) (adjN adj)
  refine ⟨fun i => ?_, ⟨?_, fun i => ?_⟩, fun i t ht hp => ?_⟩
  · simp only [analyze, decide_eq_true_eq]
    rw [cyclic_iff_base (List.range n) { deps := adjN adj, dependents := fun _ => [] } i.val]
    constructor
    · intro h
      obtain ⟨_, _, h⟩ := trans_path adj h
      exact h
    · exact path_trans adj
  · exact toFin_nodup ((flatten_map_sortNat_perm _).nodup_iff.2 hs.nodup)
  · simp only [analyze, mem_toFin, (flatten_map_sortNat_perm _).mem_iff]
    exact (hs.mem i.val).2 (List.mem_range.2 i.isLt)
  · have he : Edge (List.range n) (adjN adj) i.val t.val := (edge_iff adj _ _).2 ⟨i.isLt, t.isLt, ht⟩
    obtain ⟨c, hc, hic⟩ := List.mem_flatten.1 ((hs.mem i.val).2 (List.mem_range.2 i.isLt))
    obtain ⟨d, hd, htd⟩ := List.mem_flatten.1 ((hs.mem t.val).2 (List.mem_range.2 t.isLt))
    have htc : t.val ∉ c := by
      intro hm
      have hr := ((hs.classes c hc i.val hic t.val).1 hm).2
      rcases Relation.reflTransGen_iff_eq_or_transGen.1 hr with h | h
      · have : i = t := Fin.ext h
        subst this
        exact hp (.one ht)
      · obtain ⟨_, _, h⟩ := trans_path adj h
        exact hp h
    obtain ⟨A, B, hAB⟩ := List.append_of_mem hc
    have hord := hs.order
    rw [hAB] at hd hord
    have hdA : d ∈ A := by
      rcases List.mem_append.1 hd with h | h
      · exact h
      · rcases List.mem_cons.1 h with rfl | h
        · exact absurd htd htc
        · exact absurd he ((List.pairwise_cons.1 (List.pairwise_append.1 hord).2.1).1 d h i.val hic t.val htd)
    obtain ⟨l1, l2, hl⟩ := List.append_of_mem ((sortNat_perm c).mem_iff.2 hic)
    refine ⟨toFin n ((A.map sortNat).flatten ++ l1), toFin n (l2 ++ (B.map sortNat).flatten), ?_, ?_⟩
    · simp only [analyze, hAB, List.map_append, List.map_cons, List.flatten_append, List.flatten_cons, hl, toFin_append, List.append_assoc, List.cons_append, toFin_cons]
    · rw [mem_toFin]
      refine List.mem_append_left _ ?_
      exact List.mem_flatten.2 ⟨sortNat d, List.mem_map.2 ⟨d, hdA, rfl⟩, (sortNat_perm d).mem_iff.2 htd⟩

/-- A cycle of 0 and 1, read by 2; 3 reads itself; 4 reads nothing. -/
example : (analyze (n := 5) fun i => if i = 0 then [1] else if i = 1 then [0] else if i = 2 then [1, 4] else if i = 3 then [3] else []).topo = [0, 1, 4, 2, 3] ∧
    ((List.finRange 5).map (analyze (n := 5) fun i => if i = 0 then [1] else if i = 1 then [0] else if i = 2 then [1, 4] else if i = 3 then [3] else []).inCycle) =
      [true, true, false, true, false] := by decide +kernel

end Verif.Scc
