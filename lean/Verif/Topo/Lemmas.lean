import Verif.Topo.Model
import Verif.Sched.Layers
import Mathlib.Data.List.Basic

/-!
# Dynamic order: lemmas
-/

namespace Verif.Topo

open Verif.Sched Relation

/-! ## Kahn with a cap -/

theorem stepCap {nodes : List Nat} {outs : Nat → List Nat} {P q R : List Nat} {deg : Nat → Option Nat}
    (h : KInv nodes outs P q R deg) (dec : Nat → Option Nat) (hdec : ∀ d, dec (d + 1) = some d) {layer rest : List Nat}
    (hq : (layer ++ rest).Perm q) :
    ∃ t, relaxAll dec (layer.flatMap outs) ⟨deg, rest⟩ = some t ∧
      KInv nodes outs (P ++ layer) t.next (R.filter fun v => v ∉ t.next) t.deg := by
  have hnd := h.nodupAll
  have hmemq : ∀ v, v ∈ q ↔ v ∈ layer ∨ v ∈ rest := fun v => by rw [← hq.mem_iff, List.mem_append]
  have hmem : ∀ v, v ∈ nodes ↔ v ∈ P ∨ v ∈ layer ∨ v ∈ rest ∨ v ∈ R := fun v => by
    rw [← h.perm.mem_iff, List.mem_append, List.mem_append, hmemq]
    constructor
    · rintro ((h | h | h) | h) <;> simp [h]
    · rintro (h | h | h | h) <;> simp [h]
  have hqnd : (layer ++ rest).Nodup := hq.nodup_iff.2 (List.nodup_append.1 (List.nodup_append.1 hnd).1).2.1
  have hval : ∀ v ∈ nodes, deg v = some ((layer.flatMap outs).count v + ((rest ++ R).flatMap outs).count v) := by
    intro v hv
    rw [h.val v hv]
    congr 1
    have hp : (q ++ R).Perm (layer ++ (rest ++ R)) := by
      rw [← List.append_assoc]; exact hq.symm.append_right R
    rw [(hp.flatMap_right outs).count_eq v, List.flatMap_append, List.count_append]
  have hin : ∀ v d, deg v = some d → v ∈ nodes := by
    intro v d hd
    apply Decidable.byContradiction
    intro hn
    rw [(h.none_iff v).2 hn] at hd; simp at hd
  have hle : ∀ v d, deg v = some d → (layer.flatMap outs).count v ≤ d := by
    intro v d hd
    rw [hval v (hin v d hd)] at hd
    simp only [Option.some.injEq] at hd
    omega
  obtain ⟨t, h1, h2, h3, h4⟩ := relaxAll_spec dec hdec (layer.flatMap outs) ⟨deg, rest⟩ hle
  have hzero : ∀ v ∈ q, deg v = some 0 := fun v hv => (h.zero v (h.perm.mem_iff.1 (by simp [hv]))).2 (by simp [hv])
  have hval' : ∀ v ∈ nodes, t.deg v = some (((rest ++ R).flatMap outs).count v) := by
    intro v hv
    rw [h2]
    show Option.map _ (deg v) = _
    rw [hval v hv, Option.map_some]
    congr 1
    omega
  have hnext : ∀ v, v ∈ t.next ↔ v ∈ rest ∨ (v ∈ R ∧ ((rest ++ R).flatMap outs).count v = 0) := by
    intro v
    rw [h3]
    constructor
    · rintro (hv | ⟨hv, hd⟩)
      · exact Or.inl hv
      · have hvn := hin v _ hd
        have hc := hval v hvn
        rw [show deg v = _ from hd] at hc
        simp only [Option.some.injEq] at hc
        have hpos : 0 < (layer.flatMap outs).count v := List.count_pos_iff.2 hv
        have hnz : v ∉ P ++ q := fun hm => by
          have := (h.zero v hvn).2 hm
          rw [show deg v = _ from hd] at this
          simp only [Option.some.injEq] at this
          omega
        right
        refine ⟨?_, by omega⟩
        rw [List.mem_append, hmemq] at hnz
        rcases (hmem v).1 hvn with hh | hh | hh | hh
        · exact absurd (Or.inl hh) hnz
        · exact absurd (Or.inr (Or.inl hh)) hnz
        · exact absurd (Or.inr (Or.inr hh)) hnz
        · exact hh
    · rintro (hv | ⟨hv, hc⟩)
      · exact Or.inl hv
      · right
        have hvn : v ∈ nodes := (hmem v).2 (by simp [hv])
        have hd := hval v hvn
        rw [hc, Nat.add_zero] at hd
        refine ⟨?_, hd⟩
        apply Decidable.byContradiction
        intro hn
        rw [List.count_eq_zero.2 hn] at hd
        have := (h.zero v hvn).1 hd
        rw [List.nodup_append] at hnd
        exact hnd.2.2 v this v hv rfl
  have hnn : t.next.Nodup := h4 (List.nodup_append.1 hqnd).2.1 (fun v hv => hzero v ((hmemq v).2 (Or.inr hv)))
  refine ⟨t, h1, ?_⟩
  have hR : R.Nodup := (List.nodup_append.1 hnd).2.1
  have hrest : rest.Nodup := (List.nodup_append.1 hqnd).2.1
  have hdisj : ∀ v ∈ rest, v ∉ R := fun v hv hr => by
    rw [List.nodup_append] at hnd
    exact hnd.2.2 v (by simp [(hmemq v).2 (Or.inr hv)]) v hr rfl
  have hsplit : (t.next ++ R.filter fun v => v ∉ t.next).Perm (rest ++ R) := by
    refine (List.perm_ext_iff_of_nodup ?_ ?_).2 ?_
    · rw [List.nodup_append]
      refine ⟨hnn, hR.filter _, ?_⟩
      intro a ha b hb e
      subst e
      simp only [List.mem_filter, decide_eq_true_eq] at hb
      exact hb.2 ha
    · rw [List.nodup_append]
      exact ⟨hrest, hR, fun a ha b hb e => by subst e; exact hdisj a ha hb⟩
    · intro v
      simp only [List.mem_append, List.mem_filter, decide_eq_true_eq]
      constructor
      · rintro (hv | hv)
        · rcases (hnext v).1 hv with hh | hh
          · exact Or.inl hh
          · exact Or.inr hh.1
        · exact Or.inr hv.1
      · rintro (hv | hv)
        · exact Or.inl ((hnext v).2 (Or.inl hv))
        · by_cases hn : v ∈ t.next
          · exact Or.inl hn
          · exact Or.inr ⟨hv, hn⟩
  refine ⟨?_, h.nodup, ?_, ?_, ?_⟩
  · refine List.Perm.trans ?_ h.perm
    rw [List.append_assoc (P ++ layer)]
    refine (List.Perm.append_left _ hsplit).trans ?_
    rw [List.append_assoc, ← List.append_assoc layer, List.append_assoc P]
    exact List.Perm.append_left _ (hq.append_right R)
  · intro v
    rw [h2, Option.map_eq_none_iff]; exact h.none_iff v
  · intro v hv
    rw [hval' v hv]
    congr 1
    exact ((hsplit.flatMap_right outs).count_eq v).symm
  · intro v hv
    rw [hval' v hv]
    simp only [Option.some.injEq]
    have hcq : v ∈ P ∨ v ∈ layer ∨ v ∈ rest → ((rest ++ R).flatMap outs).count v = 0 := by
      intro hm
      have := (h.zero v hv).2 (by
        rw [List.mem_append, hmemq]
        rcases hm with hm | hm | hm <;> simp [hm])
      rw [hval v hv] at this
      simp only [Option.some.injEq] at this
      omega
    constructor
    · intro hc
      rcases (hmem v).1 hv with hh | hh | hh | hh
      · simp [hh]
      · simp [hh]
      · exact List.mem_append.2 (Or.inr ((hnext v).2 (Or.inl hh)))
      · exact List.mem_append.2 (Or.inr ((hnext v).2 (Or.inr ⟨hh, hc⟩)))
    · intro hm
      rcases List.mem_append.1 hm with hh | hh
      · rcases List.mem_append.1 hh with hh | hh
        · exact hcq (Or.inl hh)
        · exact hcq (Or.inr (Or.inl hh))
      · rcases (hnext v).1 hh with hh | hh
        · exact hcq (Or.inr (Or.inr hh))
        · exact hh.2

theorem KInv.permQ {nodes : List Nat} {outs : Nat → List Nat} {P q q' R : List Nat} {deg : Nat → Option Nat}
    (h : KInv nodes outs P q R deg) (hq : q'.Perm q) : KInv nodes outs P q' R deg := by
  refine ⟨?_, h.nodup, h.none_iff, ?_, ?_⟩
  · exact ((hq.append_left P).append_right R).trans h.perm
  · intro v hv
    rw [h.val v hv]
    congr 1
    exact (((hq.append_right R).flatMap_right outs).count_eq v).symm
  · intro v hv
    rw [h.zero v hv, List.mem_append, List.mem_append, hq.mem_iff]

theorem cappedWaves_spec {nodes : List Nat} {outs : Nat → List Nat} (dec : Nat → Option Nat)
    (hdec : ∀ d, dec (d + 1) = some d) (sort : List Nat → List Nat) (hsort : ∀ l, (sort l).Perm l) (cap : Nat)
    (hcap : 1 ≤ cap) (fuel : Nat) : ∀ {P q R : List Nat} {deg : Nat → Option Nat}, KInv nodes outs P q R deg →
    (q ++ R).length ≤ fuel → ∃ ws L, cappedWaves dec outs sort cap fuel deg q = some ws ∧
      KRes nodes outs P (q ++ R) ws L ∧ ∀ w ∈ ws, w.length ≤ cap ∧ ∃ l, w = sort l := by
  induction fuel with
  | zero =>
    intro P q R deg h hf
    have : q ++ R = [] := List.length_eq_zero_iff.1 (by omega)
    obtain ⟨rfl, rfl⟩ := List.append_eq_nil_iff.1 this
    exact ⟨[], [], by simp [cappedWaves], ⟨by simp, by simp, by simp, by simp⟩, by simp⟩
  | succ fuel ih =>
    intro P q R deg h hf
    by_cases hq : q = []
    · subst hq
      refine ⟨[], R, by simp [cappedWaves], ⟨by simp, by simp, ?_, by simp⟩, by simp⟩
      intro v hv
      have hvn : v ∈ nodes := h.perm.mem_iff.1 (List.mem_append.2 (Or.inr hv))
      have hnz : deg v ≠ some 0 := by
        intro hz
        have := (h.zero v hvn).1 hz
        have hnd := h.nodupAll
        rw [List.nodup_append] at hnd
        exact hnd.2.2 v this v hv rfl
      rw [h.val v hvn] at hnz
      simp only [ne_eq, Option.some.injEq, List.nil_append, List.count_eq_zero, Decidable.not_not, List.mem_flatMap] at hnz
      exact hnz
    · have hperm : (sort (q.take cap) ++ q.drop cap).Perm q := by
        refine ((hsort _).append_right _).trans ?_
        rw [List.take_append_drop]
      obtain ⟨t, h1, h2⟩ := stepCap h dec hdec hperm
      have h2' := KInv.permQ h2 (hsort t.next)
      have hne : sort (q.take cap) ≠ [] := by
        intro e
        have := (hsort (q.take cap)).length_eq
        rw [e, List.length_take] at this
        simp only [List.length_nil] at this
        have : q.length ≠ 0 := fun e => hq (List.length_eq_zero_iff.1 e)
        omega
      have hlen : (sort t.next ++ R.filter fun v => v ∉ t.next).length ≤ fuel := by
        have e1 := h2'.perm.length_eq
        have e2 := h.perm.length_eq
        have : (sort (q.take cap)).length ≠ 0 := fun e => hne (List.length_eq_zero_iff.1 e)
        simp only [List.length_append] at *
        omega
      obtain ⟨ws, L, hw, hr, hc⟩ := ih h2' hlen
      refine ⟨sort (q.take cap) :: ws, L, by simp [cappedWaves, hq, h1, hw], ⟨?_, ?_, hr.stuck, ?_⟩, ?_⟩
      · rw [List.flatten_cons, List.append_assoc]
        refine (List.Perm.append_left _ hr.perm).trans ?_
        have e := h2'.perm.trans h.perm.symm
        rw [List.append_assoc, List.append_assoc, List.append_assoc P] at e
        exact (List.perm_append_left_iff P).1 e
      · intro i w hi hw' u hu hwu
        cases i with
        | zero =>
          simp only [List.getElem_cons_zero] at hw'
          have hwq : w ∈ q := hperm.mem_iff.1 (List.mem_append.2 (Or.inl hw'))
          have hwn : w ∈ nodes := h.perm.mem_iff.1 (by simp [hwq])
          have hz := (h.zero w hwn).2 (List.mem_append.2 (Or.inr hwq))
          rw [h.val w hwn] at hz
          simp only [Option.some.injEq, List.count_eq_zero, List.mem_flatMap, not_exists, not_and] at hz
          have hu' := h.perm.mem_iff.2 hu
          simp only [List.append_assoc, List.mem_append] at hu'
          rcases hu' with hu' | hu'
          · exact Or.inl hu'
          · exact absurd hwu (hz u (List.mem_append.2 hu'))
        | succ i =>
          simp only [List.getElem_cons_succ] at hw'
          have hi' : i < ws.length := by simpa using hi
          rcases hr.sound i w hi' hw' u hu hwu with hp | ⟨j, hj, hji, hm⟩
          · rcases List.mem_append.1 hp with hp | hp
            · exact Or.inl hp
            · exact Or.inr ⟨0, by simp, by omega, by simpa using hp⟩
          · exact Or.inr ⟨j + 1, by simpa using hj, by omega, by simpa using hm⟩
      · intro w hw'
        rcases List.mem_cons.1 hw' with rfl | hw'
        · exact hne
        · exact hr.nonempty w hw'
      · intro w hw'
        rcases List.mem_cons.1 hw' with rfl | hw'
        · exact ⟨by rw [(hsort _).length_eq, List.length_take]; omega, _, rfl⟩
        · exact hc w hw'

/-! ## Positions -/

/-- `u` occurs before `v`. -/
abbrev Before (l : List Nat) (u v : Nat) : Prop := [u, v].Sublist l

theorem before_iff_idx {l : List Nat} (hn : l.Nodup) {u v : Nat} :
    Before l u v ↔ u ∈ l ∧ v ∈ l ∧ l.idxOf u < l.idxOf v := by
  induction l with
  | nil => simp [Before]
  | cons a l ih =>
    have h := List.nodup_cons.1 hn
    have ih := ih h.2
    unfold Before at *
    by_cases hu : a = u
    · subst hu
      rw [List.cons_sublist_cons, List.singleton_sublist, List.idxOf_cons_self]
      constructor
      · intro hv
        have : a ≠ v := fun e => h.1 (e ▸ hv)
        refine ⟨by simp, by simp [hv], ?_⟩
        rw [List.idxOf_cons_ne _ this]; omega
      · rintro ⟨-, hv, hlt⟩
        rcases List.mem_cons.1 hv with rfl | hv
        · rw [List.idxOf_cons_self] at hlt; omega
        · exact hv
    · have hsub : [u, v].Sublist (a :: l) ↔ [u, v].Sublist l := by
        constructor
        · intro hs
          cases hs with
          | cons _ hs => exact hs
          | cons_cons _ hs => exact absurd rfl hu
        · intro hs; exact hs.cons a
      rw [hsub, ih]
      rw [List.idxOf_cons_ne _ hu]
      by_cases hv : a = v
      · subst hv
        rw [List.idxOf_cons_self]
        constructor
        · rintro ⟨-, hv, -⟩; exact absurd hv h.1
        · rintro ⟨-, -, hlt⟩; omega
      · rw [List.idxOf_cons_ne _ hv]
        simp only [List.mem_cons, Ne.symm hu, Ne.symm hv, false_or, Nat.succ_eq_add_one, Nat.add_lt_add_iff_right]

theorem before_append {a b : List Nat} {u v : Nat} (hu : u ∈ a) (hv : v ∈ b) : Before (a ++ b) u v := by
  have := (List.singleton_sublist.2 hu).append (List.singleton_sublist.2 hv)
  simpa [Before] using this

/-- The order is topological: every edge between listed nodes points forward. -/
def Topological (g : View) (order : List Nat) : Prop := ∀ u v, u ∈ order → v ∈ order → v ∈ g.succ u → Before order u v

/-- Both edge views agree and list each edge once. -/
structure View.WF (g : View) : Prop where
  pred : ∀ v, (g.pred v).Nodup
  succ : ∀ v, (g.succ v).Nodup
  inverse : ∀ u v, u ∈ g.pred v ↔ v ∈ g.succ u

theorem degIn_val {g : View} (h : g.WF) {nodes : List Nat} (hn : nodes.Nodup) (v : Nat) (hv : v ∈ nodes) :
    degIn g nodes v = some ((nodes.flatMap g.succ).count v) := by
  unfold degIn
  rw [if_pos hv, count_flatMap_eq _ _ (fun u _ => h.succ u)]
  have hc : nodes.count v = 1 := by rw [List.Nodup.count hn, if_pos hv]
  rw [hc, Nat.one_mul]
  congr 1
  apply List.Perm.length_eq
  refine (List.perm_ext_iff_of_nodup ((h.pred v).filter _) (hn.filter _)).2 ?_
  intro u
  simp only [List.mem_filter, decide_eq_true_eq, h.inverse]
  exact and_comm

/-- One run over a node set: waves that respect the edges, or a leftover with a cycle in it. -/
theorem runCap {g : View} (hg : g.WF) {nodes : List Nat} (hn : nodes.Nodup) (sort : List Nat → List Nat)
    (hsort : ∀ l, (sort l).Perm l) (cap : Nat) (hcap : 1 ≤ cap) (fuel : Nat) (hf : nodes.length ≤ fuel) (q : List Nat)
    (hq : q.Perm (nodes.filter fun v => degIn g nodes v == some 0)) :
    ∃ ws L, cappedWaves decChecked g.succ sort cap fuel (degIn g nodes) q = some ws ∧
      (ws.flatten ++ L).Perm nodes ∧
      (∀ pre w post, ws = pre ++ w :: post → ∀ v ∈ w, ∀ u ∈ nodes, v ∈ g.succ u → u ∈ pre.flatten) ∧
      (∀ w ∈ ws, w ≠ [] ∧ w.length ≤ cap ∧ ∃ l, w = sort l) ∧
      (L ≠ [] → ∃ v ∈ nodes, TransGen (fun a b => a ∈ nodes ∧ b ∈ nodes ∧ b ∈ g.succ a) v v) := by
  have hk := KInv.start (outs := g.succ) hn (fun v hv => by simp [degIn, hv]) (fun v hv => degIn_val hg hn v hv) q hq
  obtain ⟨ws, L, hw, hr, hc⟩ := cappedWaves_spec decChecked (fun _ => rfl) sort hsort cap hcap fuel hk (by
    have := hk.perm.length_eq; simp only [List.nil_append] at this; omega)
  have hp : (ws.flatten ++ L).Perm nodes := hr.perm.trans (by simpa using hk.perm)
  refine ⟨ws, L, hw, hp, ?_, ?_, ?_⟩
  · intro pre w post e v hv u hu hvu
    exact hr.before e hv hu hvu
  · intro w hw'; exact ⟨hr.nonempty w hw', hc w hw'⟩
  · intro hL
    have hLn : ∀ v ∈ L, v ∈ nodes := fun v hv => hp.mem_iff.1 (by simp [hv])
    obtain ⟨v, hv, hcyc⟩ := exists_cycle L (fun b a => a ∈ nodes ∧ b ∈ nodes ∧ b ∈ g.succ a) hL (by
      intro v hv
      obtain ⟨u, hu, ho⟩ := hr.stuck v hv
      exact ⟨u, hu, hLn u hu, hLn v hv, ho⟩)
    refine ⟨v, hLn v hv, ?_⟩
    have : ∀ a b, TransGen (fun b a => a ∈ nodes ∧ b ∈ nodes ∧ b ∈ g.succ a) a b →
        TransGen (fun a b => a ∈ nodes ∧ b ∈ nodes ∧ b ∈ g.succ a) b a := by
      intro a b hab
      induction hab with
      | single h => exact .single h
      | tail _ h ih => exact TransGen.head h ih
    exact this v v hcyc

/-! ## The limited search -/

/-- A path along successors: start, list of nodes, end. -/
inductive Path (succ : Nat → List Nat) : Nat → List Nat → Nat → Prop
  | one (a : Nat) : Path succ a [a] a
  | step {a b c : Nat} {p : List Nat} : Path succ a p b → c ∈ succ b → Path succ a (p ++ [c]) c

def ChainOK (succ : Nat → List Nat) (parent : List (Nat × Nat)) (y : Nat) : List Nat → Prop
  | [] => True
  | v :: older => (v = y ∨ ∃ u ∈ older, parent.lookup v = some u ∧ v ∈ succ u) ∧ ChainOK succ parent y older

theorem pathTo_mono (parent : List (Nat × Nat)) (y n cur : Nat) (path : List Nat) (h : pathTo parent y n cur = some path) :
    pathTo parent y (n + 1) cur = some path := by
  induction n generalizing cur path with
  | zero =>
    unfold pathTo at h
    split at h
    · rename_i hy
      unfold pathTo; rw [if_pos hy, ← h]
    · simp at h
  | succ n ih =>
    unfold pathTo at h
    split at h
    · rename_i hy
      unfold pathTo; rw [if_pos hy, ← h]
    · rename_i hne
      rw [Option.bind_eq_some_iff] at h
      obtain ⟨prev, h1, h2⟩ := h
      rw [Option.map_eq_some_iff] at h2
      obtain ⟨q, h3, rfl⟩ := h2
      unfold pathTo
      rw [if_neg hne, h1, Option.bind_some, ih prev q h3]; rfl

theorem pathTo_chain {succ : Nat → List Nat} {parent : List (Nat × Nat)} {y : Nat} {vs : List Nat}
    (h : ChainOK succ parent y vs) (v : Nat) (hv : v ∈ vs) :
    ∃ path, pathTo parent y vs.length v = some path ∧ Path succ y path v := by
  induction vs generalizing v with
  | nil => simp at hv
  | cons w older ih =>
    rcases List.mem_cons.1 hv with rfl | hv
    · by_cases hy : v = y
      · subst hy
        exact ⟨[v], by simp [pathTo], .one v⟩
      · rcases h.1 with e | ⟨u, hu, hl, hs⟩
        · exact absurd e hy
        · obtain ⟨path, h1, h2⟩ := ih h.2 u hu
          refine ⟨path ++ [v], ?_, h2.step hs⟩
          simp [pathTo, hy, hl, h1]
    · obtain ⟨path, h1, h2⟩ := ih h.2 v hv
      exact ⟨path, pathTo_mono _ _ _ _ _ h1, h2⟩

theorem lookup_pushed (next : List Nat) (u : Nat) (parent : List (Nat × Nat)) (v : Nat) :
    ((next.map fun w => (w, u)).reverse ++ parent).lookup v = if v ∈ next then some u else parent.lookup v := by
  have hm : ∀ l : List Nat, ((l.map fun w => (w, u)) ++ parent).lookup v = if v ∈ l then some u else parent.lookup v := by
    intro l
    induction l with
    | nil => simp
    | cons a l ih =>
      rw [List.map_cons, List.cons_append, List.lookup_cons, ih]
      by_cases h : v = a
      · simp [h]
      · rw [show (v == a) = false from by simpa using h]
        simp [h]
  rw [← List.map_reverse, hm]
  simp

theorem ChainOK.congr {succ : Nat → List Nat} {parent parent' : List (Nat × Nat)} {y : Nat} {vs : List Nat}
    (h : ChainOK succ parent y vs) (he : ∀ v ∈ vs, parent'.lookup v = parent.lookup v) : ChainOK succ parent' y vs := by
  induction vs with
  | nil => trivial
  | cons w older ih =>
    refine ⟨?_, ih h.2 fun v hv => he v (by simp [hv])⟩
    rw [he w (by simp)]; exact h.1

/-- In range: listed at or before position `px`. -/
def InRange (p : Pk) (px v : Nat) : Prop := v ∈ p.order ∧ p.order.idxOf v ≤ px

theorem pos_eq (p : Pk) (v : Nat) : p.pos v = if v ∈ p.order then some (p.order.idxOf v) else none := by
  unfold Pk.pos
  induction p.order with
  | nil => simp
  | cons a l ih =>
    rw [List.idxOf?_cons, ih, List.idxOf_cons]
    by_cases h : a = v
    · simp [h]
    · have h' : v ≠ a := Ne.symm h
      have hb : (a == v) = false := by simpa using h
      by_cases hv : v ∈ l <;> simp [h, h', hv, hb]

theorem pos_le_iff (p : Pk) (px v : Nat) :
    (match p.pos v with | some pv => decide (pv ≤ px) | none => false) = true ↔ InRange p px v := by
  rw [pos_eq]
  unfold InRange
  by_cases h : v ∈ p.order <;> simp [h]

structure SInv (p : Pk) (g : View) (x y px : Nat) (s : Dfs) : Prop where
  nodup : s.visited.Nodup
  chain : ChainOK g.succ s.parent y s.visited
  stackp : ∀ v ∈ s.stack, v = y ∨ ∃ u ∈ s.visited, s.parent.lookup v = some u ∧ v ∈ g.succ u
  closed : ∀ u ∈ s.visited, ∀ v ∈ g.succ u, InRange p px v → v ∈ s.visited ∨ v ∈ s.stack
  range : ∀ v ∈ s.visited ++ s.stack, InRange p px v
  noX : x ∉ s.visited
  aff : s.affected = s.visited.reverse
  start : y ∈ s.visited ∨ y ∈ s.stack
  reach : ∀ v ∈ s.visited ++ s.stack, ReflTransGen (fun a b => b ∈ g.succ a) y v

/-- Work left: entries on the stack plus what unvisited nodes may still push. -/
def work (p : Pk) (g : View) (s : Dfs) : Nat :=
  s.stack.length + ((p.order.filter fun n => decide (n ∉ s.visited)).map fun n => (g.succ n).length + 1).sum

theorem sum_filter_visit (f : Nat → Nat) (l vis : List Nat) (u : Nat) (hu : u ∈ l) (hv : u ∉ vis) :
    ((l.filter fun n => decide (n ∉ u :: vis)).map f).sum + f u ≤ ((l.filter fun n => decide (n ∉ vis)).map f).sum := by
  have hmono : ∀ l : List Nat, ((l.filter fun n => decide (n ∉ u :: vis)).map f).sum ≤
      ((l.filter fun n => decide (n ∉ vis)).map f).sum := by
    intro l
    induction l with
    | nil => simp
    | cons a l ih =>
      by_cases h1 : a ∈ vis
      · rw [List.filter_cons_of_neg (by simp [h1]), List.filter_cons_of_neg (by simp [h1])]; exact ih
      · by_cases h2 : a = u
        · rw [List.filter_cons_of_neg (by simp [h2]), List.filter_cons_of_pos (by simp [h1])]
          simp only [List.map_cons, List.sum_cons]; omega
        · rw [List.filter_cons_of_pos (by simp [h1, h2]), List.filter_cons_of_pos (by simp [h1])]
          simp only [List.map_cons, List.sum_cons]; omega
  induction l with
  | nil => simp at hu
  | cons a l ih =>
    by_cases h2 : a = u
    · subst h2
      rw [List.filter_cons_of_neg (by simp), List.filter_cons_of_pos (by simp [hv])]
      have := hmono l
      simp only [List.map_cons, List.sum_cons]; omega
    · have hu' : u ∈ l := by
        rcases List.mem_cons.1 hu with h | h
        · exact absurd h.symm h2
        · exact h
      have := ih hu'
      by_cases h1 : a ∈ vis
      · rw [List.filter_cons_of_neg (by simp [h1]), List.filter_cons_of_neg (by simp [h1])]; exact this
      · rw [List.filter_cons_of_pos (by simp [h1, h2]), List.filter_cons_of_pos (by simp [h1])]
        simp only [List.map_cons, List.sum_cons]; omega

/-- The block found by a search that meets neither `x` nor the budget. -/
structure ClearOK (p : Pk) (g : View) (x y px : Nat) (aff : List Nat) : Prop where
  nodup : aff.Nodup
  noX : x ∉ aff
  start : y ∈ aff
  range : ∀ v ∈ aff, InRange p px v
  closed : ∀ u ∈ aff, ∀ v ∈ g.succ u, InRange p px v → v ∈ aff
  reach : ∀ v ∈ aff, ReflTransGen (fun a b => b ∈ g.succ a) y v

theorem search_spec (p : Pk) (g : View) (x y px : Nat) (hxy : x ≠ y) (n : Nat) : ∀ s : Dfs, SInv p g x y px s →
    work p g s < n →
    (∃ path, search p g x y px n s = .cycle path ∧ Path g.succ y path x) ∨
    (∃ aff, search p g x y px n s = .clear aff ∧ ClearOK p g x y px aff) ∨
    (search p g x y px n s = .budget ∧ ∃ l : List Nat, l.Nodup ∧ p.budget < l.length ∧ ∀ v ∈ l, v ∈ p.order) := by
  induction n with
  | zero => intro s _ hf; omega
  | succ n ih =>
    intro s h hf
    obtain ⟨stack, parent, visited, affected⟩ := s
    cases stack with
    | nil =>
      right; left
      refine ⟨affected, rfl, ?_⟩
      have hm : ∀ v, v ∈ affected ↔ v ∈ visited := fun v => by
        have := h.aff; simp only at this; rw [this, List.mem_reverse]
      refine ⟨?_, ?_, ?_, ?_, ?_, ?_⟩
      · have := h.aff; simp only at this; rw [this]; exact (List.reverse_perm visited).nodup_iff.2 h.nodup
      · rw [hm]; exact h.noX
      · rw [hm]; rcases h.start with hh | hh
        · exact hh
        · simp at hh
      · intro v hv; exact h.range v (by simp [(hm v).1 hv])
      · intro u hu v hv hr
        rcases h.closed u ((hm u).1 hu) v hv hr with hh | hh
        · exact (hm v).2 hh
        · simp at hh
      · intro v hv; exact h.reach v (by simp [(hm v).1 hv])
    | cons u stack =>
      unfold search
      simp only
      have hir : InRange p px u := h.range u (by simp)
      by_cases hu : u ∈ visited
      · rw [if_pos hu]
        refine ih _ ?_ ?_
        · refine ⟨h.nodup, h.chain, fun v hv => h.stackp v (by simp at hv ⊢; exact Or.inr hv), ?_, ?_, h.noX, h.aff, ?_, ?_⟩
          · intro a ha v hv hr
            rcases h.closed a ha v hv hr with hh | hh
            · exact Or.inl hh
            · rcases List.mem_cons.1 hh with rfl | hh
              · exact Or.inl hu
              · exact Or.inr hh
          · intro v hv
            refine h.range v ?_
            simp only [List.mem_append, List.mem_cons] at hv ⊢
            rcases hv with hv | hv <;> simp [hv]
          · rcases h.start with hh | hh
            · exact Or.inl hh
            · rcases List.mem_cons.1 hh with rfl | hh
              · exact Or.inl hu
              · exact Or.inr hh
          · intro v hv
            refine h.reach v ?_
            simp only [List.mem_append, List.mem_cons] at hv ⊢
            rcases hv with hv | hv <;> simp [hv]
        · simp only [work, List.length_cons] at hf ⊢; omega
      · rw [if_neg hu]
        by_cases hb : (u :: visited).length > p.budget
        · rw [if_pos hb]
          right; right
          refine ⟨rfl, u :: visited, List.nodup_cons.2 ⟨hu, h.nodup⟩, hb, ?_⟩
          intro v hv
          refine (h.range v ?_).1
          rcases List.mem_cons.1 hv with rfl | hv
          · simp
          · simp [hv]
        · rw [if_neg hb]
          have hch : ChainOK g.succ parent y (u :: visited) := ⟨h.stackp u (by simp), h.chain⟩
          by_cases hx : u = x
          · subst hx
            rw [if_pos rfl]
            obtain ⟨path, h1, h2⟩ := pathTo_chain hch u (by simp)
            left
            rw [h1]
            exact ⟨path, rfl, h2⟩
          · rw [if_neg hx]
            have hnext : ∀ v, v ∈ (g.succ u).filter (fun v =>
                (match p.pos v with | some pv => decide (pv ≤ px) | none => false) && decide (v ∉ u :: visited)) ↔
                v ∈ g.succ u ∧ InRange p px v ∧ v ∉ u :: visited := by
              intro v
              rw [List.mem_filter, Bool.and_eq_true, pos_le_iff, decide_eq_true_eq]
            generalize hN : (g.succ u).filter (fun v =>
                (match p.pos v with | some pv => decide (pv ≤ px) | none => false) && decide (v ∉ u :: visited)) = next at hnext
            have hlen : next.length ≤ (g.succ u).length := by rw [← hN]; exact List.length_filter_le _ _
            refine ih _ ?_ ?_
            · refine ⟨List.nodup_cons.2 ⟨hu, h.nodup⟩, ?_, ?_, ?_, ?_, ?_, ?_, ?_, ?_⟩
              · refine hch.congr ?_
                intro v hv
                simp only [lookup_pushed]
                rw [if_neg fun hm => ((hnext v).1 hm).2.2 hv]
              · intro v hv
                simp only [lookup_pushed]
                simp only [List.mem_append, List.mem_reverse] at hv
                by_cases hm : v ∈ next
                · right
                  exact ⟨u, by simp, by rw [if_pos hm], ((hnext v).1 hm).1⟩
                · rcases hv with hv | hv
                  · exact absurd hv hm
                  · rcases h.stackp v (by simp [hv]) with e | ⟨w, hw, hl, hs⟩
                    · exact Or.inl e
                    · right
                      exact ⟨w, by simp only at hw; simp [hw], by rw [if_neg hm]; exact hl, hs⟩
              · intro a ha v hv hr
                simp only [List.mem_append, List.mem_reverse, List.mem_cons] at ha ⊢
                by_cases hvis : v ∈ u :: visited
                · left; simpa using hvis
                · rcases ha with rfl | ha
                  · exact Or.inr (Or.inl ((hnext v).2 ⟨hv, hr, hvis⟩))
                  · rcases h.closed a ha v hv hr with hh | hh
                    · exact Or.inl (Or.inr hh)
                    · rcases List.mem_cons.1 hh with rfl | hh
                      · exact Or.inl (Or.inl rfl)
                      · exact Or.inr (Or.inr hh)
              · intro v hv
                simp only [List.mem_append, List.mem_reverse, List.mem_cons] at hv
                rcases hv with (rfl | hv) | hv | hv
                · exact hir
                · exact h.range v (by simp [hv])
                · exact ((hnext v).1 hv).2.1
                · exact h.range v (by simp [hv])
              · simp only [List.mem_cons, not_or]
                exact ⟨Ne.symm hx, h.noX⟩
              · have := h.aff
                simp only at this ⊢
                rw [this, List.reverse_cons]
              · simp only [List.mem_append, List.mem_reverse, List.mem_cons]
                rcases h.start with hh | hh
                · exact Or.inl (Or.inr hh)
                · rcases List.mem_cons.1 hh with rfl | hh
                  · exact Or.inl (Or.inl rfl)
                  · exact Or.inr (Or.inr hh)
              · intro v hv
                have hru := h.reach u (by simp)
                simp only [List.mem_append, List.mem_reverse, List.mem_cons] at hv
                rcases hv with (rfl | hv) | hv | hv
                · exact hru
                · exact h.reach v (by simp [hv])
                · exact hru.tail ((hnext v).1 hv).1
                · exact h.reach v (by simp [hv])
            · have := sum_filter_visit (fun n => (g.succ n).length + 1) p.order visited u hir.1 hu
              simp only [work, List.length_cons, List.length_append, List.length_reverse] at hf ⊢
              omega

theorem search_start (p : Pk) (g : View) (x y px : Nat) (hy : InRange p px y) : SInv p g x y px { stack := [y] } :=
  ⟨by simp, trivial, by simp, by simp, by simpa using hy, by simp, by simp, by simp, by
    intro v hv
    have : v = y := by simpa using hv
    subst this; exact .refl⟩

end Verif.Topo
