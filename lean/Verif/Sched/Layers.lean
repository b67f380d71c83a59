import Verif.Sched.Tarjan

/-!
# Layers and condensation units: lemmas
-/

namespace Verif.Sched

open Relation

/-! ## Sorting -/

theorem insertNat_perm (x : Nat) (l : List Nat) : (insertNat x l).Perm (x :: l) := by
  induction l with
  | nil => exact .refl _
  | cons y l ih =>
    unfold insertNat
    split
    · exact .refl _
    · exact (ih.cons y).trans (.swap x y l)

theorem sortNat_perm (l : List Nat) : (sortNat l).Perm l := by
  induction l with
  | nil => exact .refl _
  | cons x l ih => exact (insertNat_perm x (sortNat l)).trans (ih.cons x)

theorem insertNat_sorted (x : Nat) (l : List Nat) (h : l.Pairwise (· ≤ ·)) : (insertNat x l).Pairwise (· ≤ ·) := by
  induction l with
  | nil => simp [insertNat]
  | cons y l ih =>
    have hp := List.pairwise_cons.1 h
    unfold insertNat
    split
    · rename_i hxy
      refine List.pairwise_cons.2 ⟨?_, h⟩
      intro z hz
      rcases List.mem_cons.1 hz with rfl | hz
      · exact hxy
      · exact Nat.le_trans hxy (hp.1 z hz)
    · rename_i hxy
      refine List.pairwise_cons.2 ⟨?_, ih hp.2⟩
      intro z hz
      rcases List.mem_cons.1 ((insertNat_perm x l).mem_iff.1 hz) with rfl | hz
      · omega
      · exact hp.1 z hz

theorem sortNat_sorted (l : List Nat) : (sortNat l).Pairwise (· ≤ ·) := by
  induction l with
  | nil => exact .nil
  | cons x l ih => exact insertNat_sorted x _ ih

/-- A sorted list is determined by its members. -/
theorem sorted_unique {l l' : List Nat} (h : l.Perm l') (hs : l.Pairwise (· ≤ ·)) (hs' : l'.Pairwise (· ≤ ·)) : l = l' :=
  List.Perm.eq_of_pairwise (fun a b _ _ h1 h2 => Nat.le_antisymm h1 h2) hs hs' h

theorem sortNat_congr {l l' : List Nat} (h : l.Perm l') : sortNat l = sortNat l' :=
  sorted_unique ((sortNat_perm l).trans (h.trans (sortNat_perm l').symm)) (sortNat_sorted l) (sortNat_sorted l')

theorem dedupSorted_mem (l : List Nat) (x : Nat) : x ∈ dedupSorted l ↔ x ∈ l := by
  induction l with
  | nil => simp [dedupSorted]
  | cons a l ih =>
    cases l with
    | nil => simp [dedupSorted]
    | cons b l =>
      unfold dedupSorted
      split
      · rename_i h
        subst h
        rw [ih]; simp
      · rw [List.mem_cons, ih, List.mem_cons (a := x) (b := a)]

theorem dedupSorted_nodup (l : List Nat) (h : l.Pairwise (· ≤ ·)) : (dedupSorted l).Nodup := by
  induction l with
  | nil => simp [dedupSorted]
  | cons a l ih =>
    cases l with
    | nil => simp [dedupSorted]
    | cons b l =>
      have hp := List.pairwise_cons.1 h
      have hq := List.pairwise_cons.1 hp.2
      unfold dedupSorted
      split
      · exact ih hp.2
      · rename_i hab
        refine List.nodup_cons.2 ⟨?_, ih hp.2⟩
        rw [dedupSorted_mem]
        intro hm
        have h1 := hp.1 b (by simp)
        rcases List.mem_cons.1 hm with e | hm
        · exact hab e
        · have := hq.1 a hm
          omega

theorem insertKey_perm (key : Nat → Nat) (x : Nat) (l : List Nat) : (insertKey key x l).Perm (x :: l) := by
  induction l with
  | nil => exact .refl _
  | cons y l ih =>
    unfold insertKey
    split
    · exact .refl _
    · exact (ih.cons y).trans (.swap x y l)

theorem sortKey_perm (key : Nat → Nat) (l : List Nat) : (sortKey key l).Perm l := by
  induction l with
  | nil => exact .refl _
  | cons x l ih => exact (insertKey_perm key x (sortKey key l)).trans (ih.cons x)

theorem insertKey_sorted (key : Nat → Nat) (x : Nat) (l : List Nat) (h : l.Pairwise fun a b => key a ≤ key b) :
    (insertKey key x l).Pairwise fun a b => key a ≤ key b := by
  induction l with
  | nil => simp [insertKey]
  | cons y l ih =>
    have hp := List.pairwise_cons.1 h
    unfold insertKey
    split
    · rename_i hxy
      refine List.pairwise_cons.2 ⟨?_, h⟩
      intro z hz
      rcases List.mem_cons.1 hz with rfl | hz
      · exact hxy
      · exact Nat.le_trans hxy (hp.1 z hz)
    · rename_i hxy
      refine List.pairwise_cons.2 ⟨?_, ih hp.2⟩
      intro z hz
      rcases List.mem_cons.1 ((insertKey_perm key x l).mem_iff.1 hz) with rfl | hz
      · omega
      · exact hp.1 z hz

theorem sortKey_sorted (key : Nat → Nat) (l : List Nat) : (sortKey key l).Pairwise fun a b => key a ≤ key b := by
  induction l with
  | nil => exact .nil
  | cons x l ih => exact insertKey_sorted key x _ ih

theorem sortKey_congr {key : Nat → Nat} {l l' : List Nat} (h : l.Perm l')
    (hk : ∀ a ∈ l, ∀ b ∈ l, key a = key b → a = b) : sortKey key l = sortKey key l' := by
  have hm : ∀ x, x ∈ sortKey key l ↔ x ∈ l := fun x => (sortKey_perm key l).mem_iff
  have hm' : ∀ x, x ∈ sortKey key l' ↔ x ∈ l := fun x => ((sortKey_perm key l').trans h.symm).mem_iff
  refine List.Perm.eq_of_pairwise (le := fun a b => key a ≤ key b) ?_ (sortKey_sorted key l)
    (sortKey_sorted key l') ((sortKey_perm key l).trans (h.trans (sortKey_perm key l').symm))
  intro a b ha hb h1 h2
  exact hk a ((hm a).1 ha) b ((hm' b).1 hb) (Nat.le_antisymm h1 h2)

/-! ## A finite set without a way out contains a cycle -/

theorem exists_cycle {α : Type} [DecidableEq α] (L : List α) : ∀ (E : α → α → Prop), L ≠ [] →
    (∀ v ∈ L, ∃ u ∈ L, E v u) → ∃ v ∈ L, TransGen E v v := by
  induction L with
  | nil => intro E h; exact absurd rfl h
  | cons x L ih =>
    intro E _ hE
    by_cases hx : E x x
    · exact ⟨x, by simp, .single hx⟩
    · obtain ⟨w, hw, hxw⟩ := hE x (by simp)
      have hwL : w ∈ L := by
        rcases List.mem_cons.1 hw with rfl | hw
        · exact absurd hxw hx
        · exact hw
      obtain ⟨v, hv, hc⟩ := ih (fun a b => E a b ∨ (E a x ∧ E x b)) (List.ne_nil_of_mem hwL) (by
        intro v hv
        obtain ⟨u, hu, hvu⟩ := hE v (by simp [hv])
        rcases List.mem_cons.1 hu with rfl | hu
        · exact ⟨w, hwL, Or.inr ⟨hvu, hxw⟩⟩
        · exact ⟨u, hu, Or.inl hvu⟩)
      refine ⟨v, by simp [hv], ?_⟩
      have : ∀ a b, TransGen (fun a b => E a b ∨ (E a x ∧ E x b)) a b → TransGen E a b := by
        intro a b hab
        induction hab with
        | single h =>
          rcases h with h | ⟨h1, h2⟩
          · exact .single h
          · exact .tail (.single h1) h2
        | tail _ h ih =>
          rcases h with h | ⟨h1, h2⟩
          · exact .tail ih h
          · exact .tail (.tail ih h1) h2
      exact this v v hc

/-! ## From the in-degree table to the loop invariant -/

section
variable {N : Type} [DecidableEq N]

theorem KInv.start {nodes : List N} {outs : N → List N} {deg : N → Option Nat} (hn : nodes.Nodup)
    (hnone : ∀ v, v ∉ nodes → deg v = none) (hval : ∀ v ∈ nodes, deg v = some ((nodes.flatMap outs).count v))
    (q : List N) (hq : q.Perm (nodes.filter fun v => deg v == some 0)) :
    KInv nodes outs [] q (nodes.filter fun v => deg v != some 0) deg := by
  have hp : (q ++ nodes.filter fun v => deg v != some 0).Perm nodes := by
    refine (List.Perm.append_right _ hq).trans ?_
    exact List.filter_append_perm (fun v => deg v == some 0) nodes
  refine ⟨by simpa using hp, hn, ?_, ?_, ?_⟩
  · intro v
    constructor
    · intro hv hm
      rw [hval v hm] at hv; simp at hv
    · exact hnone v
  · intro v hv
    rw [hval v hv, (hp.flatMap_right outs).count_eq v]
  · intro v hv
    simp only [List.nil_append]
    rw [hq.mem_iff, List.mem_filter]
    simp [hv]

/-- Index-free reading of `KRes.sound`. -/
theorem KRes.before {nodes : List N} {outs : N → List N} {R : List N} {ws : List (List N)} {L : List N}
    (h : KRes nodes outs [] R ws L) {pre post : List (List N)} {w : List N} (e : ws = pre ++ w :: post) {n u : N}
    (hn : n ∈ w) (hu : u ∈ nodes) (ho : n ∈ outs u) : u ∈ pre.flatten := by
  have hi : pre.length < ws.length := by rw [e]; simp
  have hget : ws[pre.length] = w := by simp [e]
  rcases h.sound pre.length n hi (by rw [hget]; exact hn) u hu ho with hp | ⟨j, hj, hji, hm⟩
  · simp at hp
  · refine List.mem_flatten.2 ⟨ws[j], ?_, hm⟩
    have : ws[j] = pre[j] := by simp [e, List.getElem_append_left hji]
    rw [this]; exact List.getElem_mem _

theorem count_flatMap_eq (l : List N) (outs : N → List N) (hn : ∀ u ∈ l, (outs u).Nodup) (v : N) :
    (l.flatMap outs).count v = (l.filter fun u => decide (v ∈ outs u)).length := by
  induction l with
  | nil => rfl
  | cons a l ih =>
    have ih := ih fun u hu => hn u (by simp [hu])
    rw [List.flatMap_cons, List.count_append, ih]
    by_cases h : v ∈ outs a
    · rw [List.filter_cons_of_pos (by simp [h]), List.length_cons]
      have := (List.nodup_iff_count.1 (hn a (by simp))) v
      have : 0 < (outs a).count v := List.count_pos_iff.2 h
      omega
    · rw [List.filter_cons_of_neg (by simp [h]), List.count_eq_zero.2 h]
      omega
end

/-! ## Layers -/

/-- A layering: each vertex once, and everything a vertex depends on inside the set comes in an earlier layer. -/
structure Layered (vertices : List Nat) (deps : Nat → List Nat) (layers : List (List Nat)) : Prop where
  perm : layers.flatten.Perm vertices
  before : ∀ pre l post, layers = pre ++ l :: post → ∀ v ∈ l, ∀ d ∈ deps v, d ∈ vertices → d ∈ pre.flatten
  sorted : ∀ l ∈ layers, l ≠ [] ∧ l.Pairwise (· ≤ ·)

theorem flatten_map_sortNat_perm (ws : List (List Nat)) : (ws.map sortNat).flatten.Perm ws.flatten := by
  induction ws with
  | nil => exact .refl _
  | cons w ws ih => exact (sortNat_perm w).append ih

/-- A layering excludes cycles. -/
theorem Layered.acyclic {vertices : List Nat} {deps : Nat → List Nat} {layers : List (List Nat)}
    (h : Layered vertices deps layers) (hn : vertices.Nodup) (v : Nat) : ¬ TransGen (Edge vertices deps) v v := by
  have key : ∀ a b, TransGen (Edge vertices deps) a b →
      ∀ pre l post, layers = pre ++ l :: post → a ∈ l → b ∈ pre.flatten := by
    intro a b hab
    induction hab with
    | single he => intro pre l post e ha; exact h.before pre l post e a ha _ he.2.2 he.2.1
    | tail _ he ih =>
      intro pre l post e ha
      obtain ⟨l', hl', hb⟩ := List.mem_flatten.1 (ih pre l post e ha)
      obtain ⟨p1, p2, rfl⟩ := List.append_of_mem hl'
      have := h.before p1 l' (p2 ++ l :: post) (by rw [e]; simp) _ hb _ he.2.2 he.2.1
      simp [List.flatten_append, this]
  intro hv
  have hmem : v ∈ vertices := by
    cases hv with
    | single he => exact he.1
    | tail _ he => exact he.2.1
  obtain ⟨l, hl, hvl⟩ := List.mem_flatten.1 (h.perm.mem_iff.2 hmem)
  obtain ⟨pre, post, e⟩ := List.append_of_mem hl
  have hin := key v v hv pre l post e hvl
  have hnd := h.perm.nodup_iff.2 hn
  rw [e, List.flatten_append, List.nodup_append] at hnd
  exact hnd.2.2 v hin v (by simp [hvl]) rfl

/-- The common tail of both layer builders. -/
theorem layersFrom_spec (dec : Nat → Option Nat) (hdec : ∀ d, dec (d + 1) = some d) (order : List Nat → List Nat)
    (hord : ∀ l, (order l).Perm l) (vertices : List Nat) (hn : vertices.Nodup) (deg : Nat → Option Nat)
    (outs deps : Nat → List Nat) (hnone : ∀ v, v ∉ vertices → deg v = none)
    (hval : ∀ v ∈ vertices, deg v = some ((vertices.flatMap outs).count v))
    (hinv : ∀ u ∈ vertices, ∀ v ∈ vertices, v ∈ outs u ↔ u ∈ deps v) :
    (∃ layers, layersFrom dec order vertices deg outs = .ok layers ∧ Layered vertices deps layers) ∨
    (layersFrom dec order vertices deg outs = .circ ∧ ∃ v ∈ vertices, TransGen (Edge vertices deps) v v) := by
  have hk := KInv.start (outs := outs) hn hnone hval _ (hord _)
  obtain ⟨ws, L, hw, hr⟩ := waves_spec dec hdec vertices.length hk (by
    have := hk.perm.length_eq; simp only [List.nil_append] at this; omega)
  have hp : (ws.flatten ++ L).Perm vertices := hr.perm.trans (by simpa using hk.perm)
  unfold layersFrom
  rw [hw]
  simp only
  have hlen := hp.length_eq
  rw [List.length_append] at hlen
  by_cases hL : L = []
  · left
    subst hL
    refine ⟨ws.map sortNat, by rw [if_neg (by simp only [List.length_nil] at hlen; omega)], ?_, ?_, ?_⟩
    · exact (flatten_map_sortNat_perm ws).trans (by simpa using hp)
    · intro pre l post e v hv d hd hdv
      rw [List.map_eq_append_iff] at e
      obtain ⟨pre', rest, rfl, rfl, e2⟩ := e
      rw [List.map_eq_cons_iff] at e2
      obtain ⟨w, post', rfl, rfl, rfl⟩ := e2
      have hvw : v ∈ w := (sortNat_perm w).mem_iff.1 hv
      have hvv : v ∈ vertices := hp.mem_iff.1 (by simp [hvw])
      have := hr.before rfl hvw hdv ((hinv d hdv v hvv).2 hd)
      exact (flatten_map_sortNat_perm pre').mem_iff.2 this
    · intro l hl
      obtain ⟨w, hw', rfl⟩ := List.mem_map.1 hl
      refine ⟨fun e => hr.nonempty w hw' ?_, sortNat_sorted w⟩
      have := (sortNat_perm w).length_eq
      rw [e] at this
      exact List.length_eq_zero_iff.1 this.symm
  · right
    have : L.length ≠ 0 := fun e => hL (List.length_eq_zero_iff.1 e)
    refine ⟨by rw [if_pos (by omega)], ?_⟩
    have hLv : ∀ v ∈ L, v ∈ vertices := fun v hv => hp.mem_iff.1 (by simp [hv])
    obtain ⟨v, hv, hc⟩ := exists_cycle L (Edge vertices deps) hL (by
      intro v hv
      obtain ⟨u, hu, ho⟩ := hr.stuck v hv
      exact ⟨u, hu, hLv v hv, hLv u hu, (hinv u (hLv u hu) v (hLv v hv)).1 ho⟩)
    exact ⟨v, hLv v hv, hc⟩

/-- Layers do not depend on the hash order, nor on the order of the dependents lists. -/
theorem layersFrom_congr (dec : Nat → Option Nat) (hdec : ∀ d, dec (d + 1) = some d) (order order' : List Nat → List Nat)
    (hord : ∀ l, (order l).Perm l) (hord' : ∀ l, (order' l).Perm l) (vertices : List Nat) (hn : vertices.Nodup)
    (deg : Nat → Option Nat) (outs outs' : Nat → List Nat) (ho : ∀ u ∈ vertices, (outs u).Perm (outs' u))
    (hnone : ∀ v, v ∉ vertices → deg v = none) (hval : ∀ v ∈ vertices, deg v = some ((vertices.flatMap outs).count v)) :
    layersFrom dec order vertices deg outs = layersFrom dec order' vertices deg outs' := by
  have hfp := flatMap_perm_left ho vertices (fun _ h => h)
  have hk := KInv.start (outs := outs) hn hnone hval _ (hord _)
  have hk' := KInv.start (outs := outs') hn hnone (fun v hv => by rw [hval v hv, hfp.count_eq v]) _ (hord' _)
  have hlen : ∀ (q R : List Nat), (q ++ R).Perm vertices → (q ++ R).length ≤ vertices.length :=
    fun q R h => Nat.le_of_eq h.length_eq
  obtain ⟨ws, L, hw, hr⟩ := waves_spec dec hdec vertices.length hk (hlen _ _ (by simpa using hk.perm))
  obtain ⟨ws', L', hw', hr'⟩ := waves_spec dec hdec vertices.length hk' (hlen _ _ (by simpa using hk'.perm))
  obtain ⟨hl, hp⟩ := waves_perm dec hdec ho vertices.length hk hk' ((hord _).trans (hord' _).symm) ws ws' hw hw'
  have hmap : ws.map sortNat = ws'.map sortNat := by
    apply List.ext_getElem
    · simp [hl]
    · intro i h1 h2
      simp only [List.getElem_map]
      exact sortNat_congr (hp i (by simpa using h1) (by simpa using h2))
  have hflat : ws.flatten.length = ws'.flatten.length := by
    rw [← (flatten_map_sortNat_perm ws).length_eq, hmap, (flatten_map_sortNat_perm ws').length_eq]
  unfold layersFrom
  rw [hw, hw']
  simp only [hflat, hmap]

/-! ## The two in-degree tables -/

/-- The two edge views of a graph agree and list each edge once. -/
structure Graph.WF (g : Graph) : Prop where
  deps : ∀ v, (g.deps v).Nodup
  dependents : ∀ v, (g.dependents v).Nodup
  inverse : ∀ u v, u ∈ g.deps v ↔ v ∈ g.dependents u

theorem inDeg_val {g : Graph} (h : g.WF) {vertices : List Nat} (hn : vertices.Nodup) (v : Nat) (hv : v ∈ vertices) :
    inDeg g vertices v = some ((vertices.flatMap g.dependents).count v) := by
  unfold inDeg
  rw [if_pos hv, count_flatMap_eq _ _ (fun u _ => h.dependents u)]
  have hc : vertices.count v = 1 := by rw [List.Nodup.count hn, if_pos hv]
  rw [hc, Nat.one_mul]
  congr 1
  apply List.Perm.length_eq
  refine (List.perm_ext_iff_of_nodup ((h.deps v).filter _) (hn.filter _)).2 ?_
  intro u
  simp only [List.mem_filter, decide_eq_true_eq, ← h.inverse]
  exact and_comm

theorem combinedDeps_mem (g : Graph) (vd : VDeps) (vertices : List Nat) (v d : Nat) :
    d ∈ combinedDeps g vd vertices v ↔ d ∈ g.adj vd v ∧ d ∈ vertices := by
  unfold combinedDeps Graph.adj
  rw [dedupSorted_mem, (sortNat_perm _).mem_iff]
  simp only [List.mem_append, List.mem_filter, decide_eq_true_eq]
  constructor
  · rintro (⟨a, b⟩ | ⟨a, b⟩)
    · exact ⟨Or.inl a, b⟩
    · exact ⟨Or.inr a, b⟩
  · rintro ⟨a | a, b⟩
    · exact Or.inl ⟨a, b⟩
    · exact Or.inr ⟨a, b⟩

theorem combinedDeps_nodup (g : Graph) (vd : VDeps) (vertices : List Nat) (v : Nat) :
    (combinedDeps g vd vertices v).Nodup := dedupSorted_nodup _ (sortNat_sorted _)

theorem filter_beq_map {l : List Nat} (hn : l.Nodup) (d v : Nat) :
    ((l.filter fun x => x == d).map fun _ => v) = if d ∈ l then [v] else [] := by
  induction l with
  | nil => rfl
  | cons a l ih =>
    have h := List.nodup_cons.1 hn
    by_cases e : a = d
    · subst e
      rw [List.filter_cons_of_pos (by simp), List.map_cons, ih h.2, if_neg h.1]
      simp
    · rw [List.filter_cons_of_neg (by simpa using e), ih h.2]
      simp only [List.mem_cons]
      have : ¬ d = a := fun h => e h.symm
      simp [this]

theorem combinedOut_eq (order : List Nat → List Nat) (g : Graph) (vd : VDeps) (vertices : List Nat) (d : Nat) :
    combinedOut order g vd vertices d = (order vertices).filter fun v => decide (d ∈ combinedDeps g vd vertices v) := by
  unfold combinedOut
  generalize order vertices = l
  induction l with
  | nil => rfl
  | cons a l ih =>
    rw [List.flatMap_cons, ih, filter_beq_map (combinedDeps_nodup g vd vertices a)]
    by_cases h : d ∈ combinedDeps g vd vertices a
    · rw [if_pos h, List.filter_cons_of_pos (by simp [h])]; rfl
    · rw [if_neg h, List.filter_cons_of_neg (by simp [h])]; rfl

theorem combined_val (order : List Nat → List Nat) (hord : ∀ l, (order l).Perm l) (g : Graph) (vd : VDeps)
    {vertices : List Nat} (hn : vertices.Nodup) (v : Nat) (hv : v ∈ vertices) :
    some (combinedDeps g vd vertices v).length =
      some ((vertices.flatMap (combinedOut order g vd vertices)).count v) := by
  rw [count_flatMap_eq _ _ (fun u _ => by
    rw [combinedOut_eq]; exact ((hord vertices).nodup_iff.2 hn).filter _)]
  congr 1
  apply List.Perm.length_eq
  refine (List.perm_ext_iff_of_nodup (combinedDeps_nodup g vd vertices v) (hn.filter _)).2 ?_
  intro u
  rw [List.mem_filter, decide_eq_true_eq, combinedOut_eq, List.mem_filter, decide_eq_true_eq, (hord vertices).mem_iff]
  constructor
  · intro h; exact ⟨((combinedDeps_mem _ _ _ _ _).1 h).2, hv, h⟩
  · intro h; exact h.2.2

end Verif.Sched
