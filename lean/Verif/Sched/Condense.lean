import Verif.Sched.Layers

/-!
# Condensation units: lemmas
-/

namespace Verif.Sched

open Relation

/-- What the evaluator does with a schedule, in order: for each unit whether it is a cycle, and its vertices
(`ScheduleUnit` indexes into `layers` and `cycles`). -/
def resolve (cycles layers : List (List Nat)) : Unit → Bool × List Nat
  | .layer i => (false, layers.getD i [])
  | .cycle i => (true, cycles.getD i [])

def Schedule.steps (s : Schedule) : List (Bool × List Nat) := s.units.map (resolve s.cycles s.layers)

/-- The steps of one wave. -/
def waveSteps (cycles : List (List Nat)) (singles : List Nat) (wave : List Nat) : List (Bool × List Nat) :=
  let cs := sortKey (fun n => minOf (cycles.getD n [])) (wave.filter fun n => decide (n < cycles.length))
  let vs := (wave.filter fun n => decide (n ≥ cycles.length)).map fun n => singles.getD (n - cycles.length) 0
  cs.map (fun n => (true, cycles.getD n [])) ++ if vs = [] then [] else [(false, sortNat vs)]

theorem emit_spec (cycles : List (List Nat)) (singles : List Nat) (ws : List (List Nat)) (U : List Unit)
    (Ls : List (List Nat)) : ∃ newU newL, ws.foldl (emitWave cycles singles) (U, Ls) = (U ++ newU, Ls ++ newL) ∧
      ∀ more, newU.map (resolve cycles (Ls ++ newL ++ more)) = ws.flatMap (waveSteps cycles singles) := by
  induction ws generalizing U Ls with
  | nil => exact ⟨[], [], by simp, by simp⟩
  | cons w ws ih =>
    rw [List.foldl_cons]
    by_cases h : ((w.filter fun n => decide (n ≥ cycles.length)).map fun n => singles.getD (n - cycles.length) 0) = []
    · have he : emitWave cycles singles (U, Ls) w = (U ++ (sortKey (fun n => minOf (cycles.getD n []))
        (w.filter fun n => decide (n < cycles.length))).map .cycle, Ls) := by
        unfold emitWave; simp only; rw [if_pos h]
      rw [he]
      obtain ⟨newU, newL, h1, h2⟩ := ih (U ++ (sortKey (fun n => minOf (cycles.getD n []))
        (w.filter fun n => decide (n < cycles.length))).map .cycle) Ls
      refine ⟨_, newL, by rw [h1, List.append_assoc], ?_⟩
      intro more
      rw [List.map_append, h2, List.flatMap_cons]
      congr 1
      simp only [waveSteps, h, if_true, List.append_nil, List.map_map]
      rfl
    · have he : emitWave cycles singles (U, Ls) w = (U ++ (sortKey (fun n => minOf (cycles.getD n []))
        (w.filter fun n => decide (n < cycles.length))).map .cycle ++ [.layer Ls.length], Ls ++
          [sortNat ((w.filter fun n => decide (n ≥ cycles.length)).map fun n => singles.getD (n - cycles.length) 0)]) := by
        unfold emitWave; simp only; rw [if_neg h]
      rw [he]
      obtain ⟨newU, newL, h1, h2⟩ := ih (U ++ (sortKey (fun n => minOf (cycles.getD n []))
        (w.filter fun n => decide (n < cycles.length))).map .cycle ++ [.layer Ls.length])
        (Ls ++ [sortNat ((w.filter fun n => decide (n ≥ cycles.length)).map fun n => singles.getD (n - cycles.length) 0)])
      refine ⟨(sortKey (fun n => minOf (cycles.getD n [])) (w.filter fun n => decide (n < cycles.length))).map .cycle ++
        [.layer Ls.length] ++ newU,
        sortNat ((w.filter fun n => decide (n ≥ cycles.length)).map fun n => singles.getD (n - cycles.length) 0) :: newL,
        by rw [h1]; simp only [List.append_assoc, List.singleton_append], ?_⟩
      intro more
      have h2 := h2 more
      rw [List.append_assoc Ls, List.singleton_append] at h2
      rw [List.map_append, h2, List.flatMap_cons]
      congr 1
      simp only [waveSteps, h, if_false, List.map_append, List.map_map]
      congr 1
      simp [resolve]

/-- A split of a concatenation of pieces falls inside one piece. -/
theorem flatMap_split {α β : Type} (f : α → List β) (ws : List α) (A B : List β) (b : β)
    (h : ws.flatMap f = A ++ b :: B) : ∃ pre w post a c, ws = pre ++ w :: post ∧ f w = a ++ b :: c ∧
      A = pre.flatMap f ++ a := by
  induction ws generalizing A with
  | nil => simp at h
  | cons w ws ih =>
    rw [List.flatMap_cons, List.append_eq_append_iff] at h
    rcases h with ⟨a', h1, h2⟩ | ⟨c', h1, h2⟩
    · obtain ⟨pre, w', post, a, c, e1, e2, e3⟩ := ih a' h2
      exact ⟨w :: pre, w', post, a, c, by simp [e1], e2, by simp [h1, e3]⟩
    · cases c' with
      | nil =>
        simp only [List.nil_append] at h2
        obtain ⟨pre, w', post, a, c, e1, e2, e3⟩ := ih [] (by simp [h2])
        refine ⟨w :: pre, w', post, a, c, by simp [e1], e2, ?_⟩
        simp only [List.append_nil] at h1
        rw [List.flatMap_cons, List.append_assoc, ← e3, ← h1]; simp
      | cons x c' =>
        simp only [List.cons_append, List.cons.injEq] at h2
        obtain ⟨rfl, h2⟩ := h2
        exact ⟨[], w, ws, A, c', rfl, h1, by simp⟩

/-! ## Condensation nodes -/

/-- The vertices of node `n`. -/
def nodeVs (cycles : List (List Nat)) (singles : List Nat) (n : Nat) : List Nat :=
  if n < cycles.length then cycles.getD n [] else (singles[n - cycles.length]?).toList

theorem mem_nodeEntries (cycles : List (List Nat)) (singles : List Nat) (v n : Nat) :
    (v, n) ∈ nodeEntries cycles singles ↔ v ∈ nodeVs cycles singles n := by
  unfold nodeEntries nodeVs
  simp only [List.mem_append, List.mem_flatMap, List.mem_map, Prod.exists, List.mem_zipIdx_iff_getElem?]
  constructor
  · rintro (⟨c, i, hc, w, hw, e⟩ | ⟨w, i, hw, e⟩)
    · simp only [Prod.mk.injEq] at e
      obtain ⟨rfl, rfl⟩ := e
      have hi : i < cycles.length := by
        apply Decidable.byContradiction
        intro hn
        rw [List.getElem?_eq_none (by omega)] at hc; simp at hc
      rw [if_pos hi, List.getD_eq_getElem?_getD, hc]; exact hw
    · simp only [Prod.mk.injEq] at e
      obtain ⟨rfl, rfl⟩ := e
      rw [if_neg (by omega), show cycles.length + i - cycles.length = i from by omega, hw]
      simp
  · split
    · rename_i h
      intro hv
      rw [List.getD_eq_getElem?_getD, List.getElem?_eq_getElem h] at hv
      exact Or.inl ⟨cycles[n], n, List.getElem?_eq_getElem h, v, hv, rfl⟩
    · rename_i h
      intro hv
      refine Or.inr ⟨v, n - cycles.length, by simpa using hv, ?_⟩
      simp only [Prod.mk.injEq, true_and]; omega

theorem nodeVs_lt {cycles : List (List Nat)} {singles : List Nat} {n v : Nat} (h : v ∈ nodeVs cycles singles n) :
    n < cycles.length + singles.length := by
  unfold nodeVs at h
  split at h
  · omega
  · apply Decidable.byContradiction
    intro hn
    rw [List.getElem?_eq_none (by omega)] at h; simp at h

theorem flatMap_range_nodeVs (cycles : List (List Nat)) (singles : List Nat) :
    (List.range (cycles.length + singles.length)).flatMap (nodeVs cycles singles) = cycles.flatten ++ singles := by
  rw [List.range_add, List.flatMap_append]
  congr 1
  · rw [List.flatMap_def]
    congr 1
    apply List.ext_getElem
    · simp
    · intro i h1 h2
      simp only [List.length_map, List.length_range] at h1
      simp only [List.getElem_map, List.getElem_range, nodeVs, h1, if_true]
      simp [h1]
  · rw [List.flatMap_map]
    have : ∀ l : List Nat, (List.range l.length).flatMap (fun i => l[i]?.toList) = l := by
      intro l
      induction l with
      | nil => rfl
      | cons a l ih =>
        rw [List.length_cons, List.range_succ_eq_map, List.flatMap_cons, List.flatMap_map]
        simp [ih]
    refine Eq.trans ?_ (this singles)
    congr 1
    funext i
    unfold nodeVs
    rw [if_neg (by omega), show cycles.length + i - cycles.length = i from by omega]

/-- A vertex has at most one node. -/
theorem nodeVs_unique {cycles : List (List Nat)} {singles : List Nat} (hn : (cycles.flatten ++ singles).Nodup) {v n m : Nat}
    (h1 : v ∈ nodeVs cycles singles n) (h2 : v ∈ nodeVs cycles singles m) : n = m := by
  rw [← flatMap_range_nodeVs] at hn
  have a1 := nodeVs_lt h1
  have a2 := nodeVs_lt h2
  generalize cycles.length + singles.length = k at hn a1 a2
  induction k with
  | zero => omega
  | succ k ih =>
    rw [List.range_succ, List.flatMap_append, List.nodup_append] at hn
    have key : ∀ n m, v ∈ nodeVs cycles singles n → v ∈ nodeVs cycles singles m → n < k → m = k → False := by
      intro n m h1 h2 hn' hm
      subst hm
      exact hn.2.2 v (List.mem_flatMap.2 ⟨n, List.mem_range.2 hn', h1⟩) v (by simp [h2]) rfl
    rcases Nat.lt_or_ge n k with h | h
    · rcases Nat.lt_or_ge m k with h' | h'
      · exact ih hn.1 h h'
      · exact (key n m h1 h2 h (by omega)).elim
    · rcases Nat.lt_or_ge m k with h' | h'
      · exact (key m n h2 h1 h' (by omega)).elim
      · omega

theorem lookup_nodeEntries {cycles : List (List Nat)} {singles : List Nat} (hn : (cycles.flatten ++ singles).Nodup)
    (v n : Nat) : (nodeEntries cycles singles).lookup v = some n ↔ v ∈ nodeVs cycles singles n := by
  rw [← mem_nodeEntries]
  have huniq : ∀ a b c, (a, b) ∈ nodeEntries cycles singles → (a, c) ∈ nodeEntries cycles singles → b = c :=
    fun a b c h1 h2 => nodeVs_unique hn ((mem_nodeEntries _ _ _ _).1 h1) ((mem_nodeEntries _ _ _ _).1 h2)
  generalize nodeEntries cycles singles = l at huniq
  induction l with
  | nil => simp
  | cons p l ih =>
    obtain ⟨a, b⟩ := p
    have ih := ih fun x y z h1 h2 => huniq x y z (by simp [h1]) (by simp [h2])
    by_cases h : v = a
    · subst h
      simp only [List.lookup_cons_self, Option.some.injEq, List.mem_cons, Prod.mk.injEq, true_and]
      constructor
      · intro e; exact Or.inl e.symm
      · rintro (e | e)
        · exact e.symm
        · exact huniq v b n (by simp) (by simp [e])
    · rw [List.lookup_cons, show (v == a) = false from by simpa using h]
      simp only [List.mem_cons, Prod.mk.injEq, h, false_and, false_or]
      exact ih

theorem mem_nodeEdges (order : List (Nat × Nat) → List (Nat × Nat)) (hord : ∀ l, (order l).Perm l) (adj : Nat → List Nat)
    {cycles : List (List Nat)} {singles : List Nat} (hn : (cycles.flatten ++ singles).Nodup) (n m : Nat) :
    (n, m) ∈ nodeEdges order adj (nodeEntries cycles singles) ↔
      n ≠ m ∧ ∃ v ∈ nodeVs cycles singles n, ∃ d ∈ nodeVs cycles singles m, d ∈ adj v := by
  unfold nodeEdges
  simp only [List.mem_flatMap, (hord _).mem_iff, List.mem_filterMap, Prod.exists]
  constructor
  · rintro ⟨v, k, hv, d, hd, h⟩
    cases hl : (nodeEntries cycles singles).lookup d with
    | none => rw [hl] at h; simp at h
    | some j =>
      rw [hl] at h
      simp only at h
      split at h
      · rename_i hne
        simp only [Option.some.injEq, Prod.mk.injEq] at h
        obtain ⟨rfl, rfl⟩ := h
        exact ⟨fun e => hne e.symm, v, (mem_nodeEntries _ _ _ _).1 hv, d, (lookup_nodeEntries hn d j).1 hl, hd⟩
      · simp at h
  · rintro ⟨hne, v, hv, d, hd, hda⟩
    refine ⟨v, n, (mem_nodeEntries _ _ _ _).2 hv, d, hda, ?_⟩
    rw [(lookup_nodeEntries hn d m).2 hd]
    simp only
    rw [if_pos (fun e => hne e.symm)]

theorem countAux (edges : List (Nat × Nat)) (n : Nat) (hlt : ∀ e ∈ edges, e.2 < n) (m : Nat) :
    ((List.range n).flatMap fun k => (edges.filter fun e => e.2 == k).map Prod.fst).count m =
      (edges.filter fun e => e.1 == m).length := by
  induction edges with
  | nil =>
    simp only [List.filter_nil, List.map_nil, List.length_nil, List.count_eq_zero, List.mem_flatMap]
    simp
  | cons e edges ih =>
    have ih := ih fun x hx => hlt x (by simp [hx])
    have he := hlt e (by simp)
    have hone : ∀ (k : Nat), ((List.range k).flatMap fun k => ((e :: edges).filter fun e => e.2 == k).map Prod.fst).count m =
        ((List.range k).flatMap fun k => (edges.filter fun e => e.2 == k).map Prod.fst).count m +
          (if e.2 < k ∧ e.1 = m then 1 else 0) := by
      intro k
      induction k with
      | zero => simp
      | succ k ihk =>
        simp only [List.range_succ, List.flatMap_append, List.count_append, List.flatMap_cons, List.flatMap_nil,
          List.append_nil]
        rw [ihk]
        by_cases hk : e.2 = k
        · rw [List.filter_cons_of_pos (by simp [hk]), List.map_cons, List.count_cons]
          by_cases hm : e.1 = m
          · simp [hm, hk]; omega
          · simp [hm]
        · rw [List.filter_cons_of_neg (by simp [hk])]
          by_cases hm : e.1 = m
          · by_cases h1 : e.2 < k
            · simp [hm, h1, show e.2 < k + 1 from by omega]; omega
            · simp [hm, h1, show ¬ e.2 < k + 1 from by omega]
          · simp [hm]
    rw [hone n, ih]
    by_cases hm : e.1 = m
    · rw [List.filter_cons_of_pos (by simp [hm])]; simp [he, hm]
    · rw [List.filter_cons_of_neg (by simp [hm])]; simp [hm]

end Verif.Sched
