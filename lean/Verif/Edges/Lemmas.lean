import Verif.Edges.Model

/-! Lemmas about the compressed rows and the merged views. -/

namespace Verif.Edges

/-! ## Laying rows out -/

/-- End offsets of rows laid out from position `n`. -/
def ends : Nat → List (List Nat) → List Nat
  | _, [] => []
  | n, r :: rs => (n + r.length) :: ends (n + r.length) rs

theorem layOut_aux (sort : List Nat → List Nat) (rows : List (List Nat)) (off es : List Nat) :
    rows.foldl (fun acc row => (acc.1 ++ [(acc.2 ++ sort row).length], acc.2 ++ sort row)) (off, es) =
      (off ++ ends es.length (rows.map sort), es ++ (rows.map sort).flatten) := by
  induction rows generalizing off es with
  | nil => simp [ends]
  | cons r rs ih => rw [List.foldl_cons, ih]; simp [ends]

theorem layOut_eq (sort : List Nat → List Nat) (rows : List (List Nat)) :
    layOut sort rows = (0 :: ends 0 (rows.map sort), (rows.map sort).flatten) := by
  unfold layOut; rw [layOut_aux]; simp

theorem ends_length (n : Nat) (rows : List (List Nat)) : (ends n rows).length = rows.length := by
  induction rows generalizing n with
  | nil => rfl
  | cons r rs ih => simp [ends, ih]

theorem ends_slice (n : Nat) (rows : List (List Nat)) (i : Nat) (h : i < rows.length) (pre : List Nat)
    (hp : pre.length = n) :
    ((pre ++ rows.flatten).drop ((n :: ends n rows).getD i 0)).take
      ((n :: ends n rows).getD (i + 1) 0 - (n :: ends n rows).getD i 0) = rows.getD i [] := by
  induction rows generalizing n i pre with
  | nil => simp at h
  | cons r rs ih =>
    cases i with
    | zero =>
      simp only [ends, List.getD_cons_zero, List.getD_cons_succ, List.flatten_cons]
      rw [← hp, List.drop_left]
      have : pre.length + r.length - pre.length = r.length := by omega
      rw [this, List.take_left]
    | succ j =>
      have hj : j < rs.length := by simpa using h
      have := ih (n + r.length) j hj (pre ++ r) (by simp [hp])
      simp only [ends, List.getD_cons_succ, List.flatten_cons]
      rw [← List.append_assoc]
      exact this

theorem slice_layOut (sort : List Nat → List Nat) (rows : List (List Nat)) (minId v : Nat) :
    slice (layOut sort rows).1 (layOut sort rows).2 minId v =
      if v < minId ∨ v - minId ≥ rows.length then [] else sort (rows.getD (v - minId) []) := by
  rw [layOut_eq]
  unfold slice
  simp only [List.length_cons, ends_length, List.length_map]
  by_cases h0 : rows.length = 0
  · have : rows.length + 1 ≤ 1 := by omega
    simp only [this, if_true]
    rw [if_pos (by omega)]
  · rw [if_neg (by omega)]
    by_cases h1 : v < minId
    · simp [h1]
    · by_cases h2 : v - minId ≥ rows.length
      · simp [h1, h2]
      · rw [if_neg h1, if_neg (by omega), if_neg (by omega)]
        have := ends_slice 0 (rows.map sort) (v - minId) (by simp; omega) [] rfl
        simp only [List.nil_append] at this
        rw [this]
        have hlt : v - minId < rows.length := by omega
        simp [List.getD_eq_getElem?_getD, hlt]

/-! ## Id bounds -/

theorem bounds_row (l : List Nat) (b : Nat × Nat) :
    ((l.foldl (fun b t => (min b.1 t, max b.2 t)) b).1 ≤ b.1 ∧ b.2 ≤ (l.foldl (fun b t => (min b.1 t, max b.2 t)) b).2) ∧
    ∀ t ∈ l, (l.foldl (fun b t => (min b.1 t, max b.2 t)) b).1 ≤ t ∧ t ≤ (l.foldl (fun b t => (min b.1 t, max b.2 t)) b).2 := by
  induction l generalizing b with
  | nil => simp
  | cons x xs ih =>
    obtain ⟨⟨h1, h2⟩, h3⟩ := ih (min b.1 x, max b.2 x)
    simp only [List.foldl_cons] at *
    refine ⟨⟨by omega, by omega⟩, ?_⟩
    intro t ht
    rcases List.mem_cons.1 ht with rfl | ht
    · constructor <;> omega
    · exact h3 t ht

theorem bounds_adj (adj : List (Nat × List Nat)) (b : Nat × Nat) :
    let f := fun (b : Nat × Nat) (p : Nat × List Nat) =>
      p.2.foldl (fun b t => (min b.1 t, max b.2 t)) (min b.1 p.1, max b.2 p.1)
    ((adj.foldl f b).1 ≤ b.1 ∧ b.2 ≤ (adj.foldl f b).2) ∧
    ∀ p ∈ adj, ((adj.foldl f b).1 ≤ p.1 ∧ p.1 ≤ (adj.foldl f b).2) ∧
      ∀ t ∈ p.2, (adj.foldl f b).1 ≤ t ∧ t ≤ (adj.foldl f b).2 := by
  intro f
  induction adj generalizing b with
  | nil => simp
  | cons x xs ih =>
    obtain ⟨⟨h1, h2⟩, h3⟩ := ih (f b x)
    obtain ⟨⟨g1, g2⟩, g3⟩ := bounds_row x.2 (min b.1 x.1, max b.2 x.1)
    have e1 : (f b x) = x.2.foldl (fun b t => (min b.1 t, max b.2 t)) (min b.1 x.1, max b.2 x.1) := rfl
    rw [← e1] at g1 g2 g3
    simp only [List.foldl_cons] at *
    refine ⟨⟨by omega, by omega⟩, ?_⟩
    intro p hp
    rcases List.mem_cons.1 hp with rfl | hp
    · refine ⟨⟨by omega, by omega⟩, fun t ht => ?_⟩
      have := g3 t ht
      omega
    · exact h3 p hp

theorem idBounds_spec (adj : List (Nat × List Nat)) (p : Nat × List Nat) (hp : p ∈ adj) :
    ((idBounds adj).1 ≤ p.1 ∧ p.1 ≤ (idBounds adj).2) ∧
      ∀ t ∈ p.2, (idBounds adj).1 ≤ t ∧ t ≤ (idBounds adj).2 :=
  (bounds_adj adj (U32MAX, 0)).2 p hp

/-! ## Rows -/

/-- The last entry for `v` in an adjacency list. -/
def lastRow (adj : List (Nat × List Nat)) (v : Nat) : Option (List Nat) :=
  (adj.reverse.find? (fun p => p.1 == v)).map Prod.snd

theorem lastRow_snoc (adj : List (Nat × List Nat)) (p : Nat × List Nat) (v : Nat) :
    lastRow (adj ++ [p]) v = if p.1 = v then some p.2 else lastRow adj v := by
  unfold lastRow
  by_cases h : p.1 = v <;> simp [h]

theorem foldl_set_length (m : Nat) (adj : List (Nat × List Nat)) (rows : List (List Nat)) :
    (adj.foldl (fun rows p => rows.set (p.1 - m) p.2) rows).length = rows.length := by
  induction adj generalizing rows with
  | nil => rfl
  | cons p ps ih => simp [ih]

theorem rowsByOffset_length (m n : Nat) (adj : List (Nat × List Nat)) : (rowsByOffset m n adj).length = n := by
  unfold rowsByOffset; rw [foldl_set_length]; simp

theorem snocInd {α : Type} {P : List α → Prop} (l : List α) (h0 : P [])
    (h1 : ∀ l a, P l → P (l ++ [a])) : P l := by
  have : ∀ r : List α, P r.reverse := by
    intro r
    induction r with
    | nil => exact h0
    | cons a r ih => rw [List.reverse_cons]; exact h1 _ _ ih
  simpa using this l.reverse

theorem rowsByOffset_getD (m n : Nat) (adj : List (Nat × List Nat)) (v : Nat)
    (hb : ∀ p ∈ adj, m ≤ p.1 ∧ p.1 - m < n) (hv : m ≤ v) :
    (rowsByOffset m n adj).getD (v - m) [] = (lastRow adj v).getD [] := by
  induction adj using snocInd with
  | h0 => simp only [rowsByOffset, lastRow, List.foldl_nil, List.getD_eq_getElem?_getD, List.getElem?_replicate]; split <;> simp
  | h1 l p ih =>
    have hl := ih (fun q hq => hb q (by simp [hq]))
    have hp := hb p (by simp)
    have e : rowsByOffset m n (l ++ [p]) = (rowsByOffset m n l).set (p.1 - m) p.2 := by
      simp [rowsByOffset]
    rw [e, lastRow_snoc]
    by_cases h : p.1 = v
    · subst h
      simp [List.getD_eq_getElem?_getD, List.getElem?_set, rowsByOffset_length, hp.2]
    · have h2 : p.1 - m ≠ v - m := by omega
      simp only [h, if_false]
      rw [← hl]
      simp [List.getD_eq_getElem?_getD, List.getElem?_set, h2]

/-! ## Reverse rows -/

theorem rev_inner (m n src : Nat) (row : List Nat) (acc : List (List Nat)) (hl : acc.length = n) (j : Nat) (hj : j < n) :
    (row.foldl (fun acc t => if t - m < n then acc.modify (t - m) (· ++ [src]) else acc) acc).length = n ∧
    (row.foldl (fun acc t => if t - m < n then acc.modify (t - m) (· ++ [src]) else acc) acc).getD j [] =
      acc.getD j [] ++ (row.filter (fun t => t - m == j)).map (fun _ => src) := by
  induction row generalizing acc with
  | nil => simp [hl]
  | cons t ts ih =>
    simp only [List.foldl_cons]
    split
    · rename_i ht
      have hl2 : (acc.modify (t - m) (· ++ [src])).length = n := by simp [hl]
      refine ⟨(ih _ hl2).1, ?_⟩
      rw [(ih _ hl2).2]
      by_cases h : t - m = j
      · subst h
        simp [List.getD_eq_getElem?_getD, List.getElem?_modify, hl, hj]
      · simp [List.getD_eq_getElem?_getD, List.getElem?_modify, hl, hj, h]
    · rename_i ht
      refine ⟨(ih _ hl).1, ?_⟩
      rw [(ih _ hl).2]
      have h : t - m ≠ j := by omega
      simp [h]

theorem rev_outer (m n : Nat) (ps : List (List Nat × Nat)) (acc : List (List Nat)) (hl : acc.length = n)
    (j : Nat) (hj : j < n) :
    let f := fun (acc : List (List Nat)) (p : List Nat × Nat) =>
      p.1.foldl (fun acc t => if t - m < n then acc.modify (t - m) (· ++ [m + p.2]) else acc) acc
    (ps.foldl f acc).length = n ∧
    (ps.foldl f acc).getD j [] =
      acc.getD j [] ++ ps.flatMap (fun p => (p.1.filter (fun t => t - m == j)).map (fun _ => m + p.2)) := by
  intro f
  induction ps generalizing acc with
  | nil => simp [hl]
  | cons p ps ih =>
    have hi := rev_inner m n (m + p.2) p.1 acc hl j hj
    have h2 := ih (f acc p) hi.1
    simp only [List.foldl_cons, List.flatMap_cons]
    refine ⟨h2.1, ?_⟩
    rw [h2.2]
    have : (f acc p).getD j [] = _ := hi.2
    rw [this]; simp

theorem reverseRows_length (m n : Nat) (rows : List (List Nat)) (hn : 0 < n) : (reverseRows m n rows).length = n :=
  (rev_outer m n rows.zipIdx (List.replicate n []) (by simp) 0 hn).1

theorem reverseRows_getD (m n : Nat) (rows : List (List Nat)) (j : Nat) (hj : j < n) :
    (reverseRows m n rows).getD j [] =
      rows.zipIdx.flatMap (fun p => (p.1.filter (fun t => t - m == j)).map (fun _ => m + p.2)) := by
  unfold reverseRows
  rw [(rev_outer m n rows.zipIdx (List.replicate n []) (by simp) j hj).2]
  simp [List.getD_eq_getElem?_getD, hj]

theorem mem_revRow (m : Nat) (rows : List (List Nat)) (j s : Nat) :
    s ∈ rows.zipIdx.flatMap (fun p => (p.1.filter (fun t => t - m == j)).map (fun _ => m + p.2)) ↔
      ∃ i, s = m + i ∧ ∃ t ∈ rows.getD i [], t - m = j := by
  simp only [List.mem_flatMap, List.mem_map, List.mem_filter, beq_iff_eq]
  constructor
  · rintro ⟨p, hp, t, ⟨ht, hj⟩, rfl⟩
    obtain ⟨i, hi, rfl⟩ := List.getElem_of_mem hp
    simp only [List.getElem_zipIdx] at *
    simp only [List.length_zipIdx] at hi
    refine ⟨i, by simp, t, ?_, hj⟩
    simpa [List.getD_eq_getElem?_getD, hi] using ht
  · rintro ⟨i, rfl, t, ht, hj⟩
    by_cases hi : i < rows.length
    · refine ⟨(rows[i], i), ?_, t, ⟨?_, hj⟩, rfl⟩
      · rw [List.mem_zipIdx_iff_getElem?]; simp [hi]
      · simpa [List.getD_eq_getElem?_getD, hi] using ht
    · simp [List.getD_eq_getElem?_getD, hi] at ht

/-! ## `from_adjacency` -/

theorem insertBy_perm (le : Nat → Nat → Bool) (x : Nat) (l : List Nat) : (insertBy le x l).Perm (x :: l) := by
  induction l with
  | nil => exact List.Perm.refl _
  | cons y ys ih =>
    simp only [insertBy]
    split
    · exact List.Perm.refl _
    · exact (ih.cons y).trans (List.Perm.swap x y ys)

theorem sortBy_perm (le : Nat → Nat → Bool) (l : List Nat) : (sortBy le l).Perm l := by
  induction l with
  | nil => exact List.Perm.refl _
  | cons x xs ih => exact (insertBy_perm le x _).trans (ih.cons x)

theorem mem_sortBy (le : Nat → Nat → Bool) (l : List Nat) (x : Nat) : x ∈ sortBy le l ↔ x ∈ l :=
  (sortBy_perm le l).mem_iff

theorem mem_sortRow (coords : List Key) (m : Nat) (row : List Nat) (t : Nat) : t ∈ sortRow coords m row ↔ t ∈ row :=
  mem_sortBy _ _ _

theorem lastRow_mem {adj : List (Nat × List Nat)} {v : Nat} {row : List Nat} (h : lastRow adj v = some row) :
    (v, row) ∈ adj := by
  unfold lastRow at h
  rw [Option.map_eq_some_iff] at h
  obtain ⟨p, hp, rfl⟩ := h
  have h1 := List.mem_of_find?_eq_some hp
  have h2 := List.find?_some hp
  simp only [beq_iff_eq] at h2
  rw [← h2]; simpa using h1

/-- What `from_adjacency` stores for a vertex, before sorting. -/
theorem out_fromAdjacency (adj : List (Nat × List Nat)) (coords : List Key) (v : Nat)
    (hb : ∀ p ∈ adj, ∀ t ∈ p.2, t < U32MAX) :
    ∃ m, (fromAdjacency adj coords).outEdges v = sortRow coords m ((lastRow adj v).getD []) := by
  unfold fromAdjacency
  split
  · rename_i h
    subst h
    exact ⟨0, by simp [Csr.empty, Csr.outEdges, slice, lastRow, sortRow, sortBy]⟩
  · simp only
    split
    · rename_i hne hm
      refine ⟨0, ?_⟩
      have : (lastRow adj v).getD [] = [] := by
        cases hl : lastRow adj v with
        | none => rfl
        | some row =>
          have hmem := lastRow_mem hl
          cases row with
          | nil => rfl
          | cons t ts =>
            have h1 := (idBounds_spec adj _ hmem).2 t (by simp)
            have h2 := hb _ hmem t (by simp)
            omega
      rw [this]
      simp [Csr.empty, Csr.outEdges, slice, sortRow, sortBy]
    · rename_i hne hm
      refine ⟨(idBounds adj).1, ?_⟩
      unfold Csr.outEdges
      simp only
      rw [slice_layOut]
      have hbound : ∀ p ∈ adj, (idBounds adj).1 ≤ p.1 ∧ p.1 - (idBounds adj).1 < (idBounds adj).2 - (idBounds adj).1 + 1 := by
        intro p hp
        have := (idBounds_spec adj p hp).1
        omega
      rw [rowsByOffset_length]
      by_cases hv : v < (idBounds adj).1 ∨ v - (idBounds adj).1 ≥ (idBounds adj).2 - (idBounds adj).1 + 1
      · rw [if_pos hv]
        have : lastRow adj v = none := by
          cases hl : lastRow adj v with
          | none => rfl
          | some row =>
            have := hbound _ (lastRow_mem hl)
            simp only at this
            omega
        simp [this, sortRow, sortBy]
      · rw [if_neg hv, rowsByOffset_getD _ _ _ _ hbound (by omega)]

theorem mem_out_fromAdjacency (adj : List (Nat × List Nat)) (coords : List Key) (v t : Nat)
    (hb : ∀ p ∈ adj, ∀ t ∈ p.2, t < U32MAX) :
    t ∈ (fromAdjacency adj coords).outEdges v ↔ ∃ row, lastRow adj v = some row ∧ t ∈ row := by
  obtain ⟨m, hm⟩ := out_fromAdjacency adj coords v hb
  rw [hm, mem_sortRow]
  cases lastRow adj v <;> simp

theorem nodup_out_fromAdjacency (adj : List (Nat × List Nat)) (coords : List Key) (v : Nat)
    (hb : ∀ p ∈ adj, ∀ t ∈ p.2, t < U32MAX) (hn : ∀ p ∈ adj, p.2.Nodup) :
    ((fromAdjacency adj coords).outEdges v).Nodup := by
  obtain ⟨m, hm⟩ := out_fromAdjacency adj coords v hb
  rw [hm]
  refine ((sortBy_perm _ _).nodup_iff).2 ?_
  cases hl : lastRow adj v with
  | none => simp
  | some row => exact hn _ (lastRow_mem hl)

/-- The stored incoming edges are the transpose of the stored outgoing edges. -/
theorem in_iff_out_fromAdjacency (adj : List (Nat × List Nat)) (coords : List Key) (s t : Nat) :
    s ∈ (fromAdjacency adj coords).inEdges t ↔ t ∈ (fromAdjacency adj coords).outEdges s := by
  unfold fromAdjacency
  split
  · simp [Csr.empty, Csr.outEdges, Csr.inEdges, slice]
  · simp only
    split
    · simp [Csr.empty, Csr.outEdges, Csr.inEdges, slice]
    · rename_i hne hm
      unfold Csr.outEdges Csr.inEdges
      simp only
      rw [slice_layOut, slice_layOut, rowsByOffset_length, reverseRows_length _ _ _ (by omega)]
      generalize hM : (idBounds adj).1 = M at *
      generalize hX : (idBounds adj).2 = X at *
      have hbound : ∀ p ∈ adj, M ≤ p.1 ∧ p.1 - M < X - M + 1 := by
        intro p hp
        have := (idBounds_spec adj p hp).1
        omega
      have htgt : ∀ v, M ≤ v → ∀ t ∈ (rowsByOffset M (X - M + 1) adj).getD (v - M) [], M ≤ t ∧ t ≤ X := by
        intro v hv t ht
        rw [rowsByOffset_getD _ _ _ _ hbound hv] at ht
        cases hl : lastRow adj v with
        | none => simp [hl] at ht
        | some row =>
          rw [hl] at ht
          have := (idBounds_spec adj _ (lastRow_mem hl)).2 t ht
          omega
      by_cases ht : t < M ∨ t - M ≥ X - M + 1
      · rw [if_pos ht]
        simp only [List.not_mem_nil, false_iff]
        split
        · simp
        · rename_i hs
          rw [mem_sortRow]
          intro h
          have := htgt s (by omega) t h
          omega
      · rw [if_neg ht, mem_sortRow, reverseRows_getD _ _ _ _ (by omega), mem_revRow]
        constructor
        · rintro ⟨i, rfl, t', h1, h2⟩
          have h3 : (rowsByOffset M (X - M + 1) adj).getD (M + i - M) [] = (rowsByOffset M (X - M + 1) adj).getD i [] := by
            congr 1; omega
          have hi : i < X - M + 1 := by
            by_cases hi : i < X - M + 1
            · exact hi
            · have : ¬ i < (rowsByOffset M (X - M + 1) adj).length := by rw [rowsByOffset_length]; exact hi
              simp [List.getD_eq_getElem?_getD, this] at h1
          have h4 := htgt (M + i) (by omega) t' (by rw [h3]; exact h1)
          have : t' = t := by omega
          subst this
          rw [if_neg (by omega), mem_sortRow, h3]
          exact h1
        · intro h
          by_cases hs : s < M ∨ s - M ≥ X - M + 1
          · rw [if_pos hs] at h; simp at h
          · rw [if_neg hs, mem_sortRow] at h
            exact ⟨s - M, by omega, t, h, rfl⟩

theorem nodup_revRow (m : Nat) (ps : List (List Nat × Nat)) (j : Nat)
    (hd : (ps.map Prod.snd).Nodup) (hn : ∀ p ∈ ps, p.1.Nodup) (hm : ∀ p ∈ ps, ∀ t ∈ p.1, m ≤ t) :
    (ps.flatMap (fun p => (p.1.filter (fun t => t - m == j)).map (fun _ => m + p.2))).Nodup := by
  induction ps with
  | nil => simp
  | cons p ps ih =>
    simp only [List.map_cons, List.nodup_cons] at hd
    rw [List.flatMap_cons, List.nodup_append]
    refine ⟨?_, ih hd.2 (fun q hq => hn q (by simp [hq])) (fun q hq => hm q (by simp [hq])), ?_⟩
    · have h1 : (p.1.filter (fun t => t - m == j)).Nodup := (hn p (by simp)).filter _
      have h2 : ∀ a ∈ p.1.filter (fun t => t - m == j), a = m + j := by
        intro a ha
        have h3 := List.mem_filter.1 ha
        have := hm p (by simp) a h3.1
        have h4 : a - m = j := by simpa using h3.2
        omega
      generalize p.1.filter (fun t => t - m == j) = l at *
      match l, h1, h2 with
      | [], _, _ => simp
      | [a], _, _ => simp
      | a :: b :: rest, h1, h2 =>
        have := h2 a (by simp)
        have := h2 b (by simp)
        simp only [List.nodup_cons, List.mem_cons] at h1
        exact absurd (Or.inl (by omega)) h1.1
    · intro a ha b hb heq
      subst heq
      simp only [List.mem_map] at ha
      obtain ⟨_, _, rfl⟩ := ha
      simp only [List.mem_flatMap, List.mem_map] at hb
      obtain ⟨q, hq, _, _, he⟩ := hb
      have : q.2 = p.2 := by omega
      exact hd.1 (this ▸ List.mem_map_of_mem (f := Prod.snd) hq)

theorem nodup_in_fromAdjacency (adj : List (Nat × List Nat)) (coords : List Key) (t : Nat)
    (hn : ∀ p ∈ adj, p.2.Nodup) : ((fromAdjacency adj coords).inEdges t).Nodup := by
  unfold fromAdjacency
  split
  · simp [Csr.empty, Csr.inEdges, slice]
  · simp only
    split
    · simp [Csr.empty, Csr.inEdges, slice]
    · rename_i hne hm
      unfold Csr.inEdges
      simp only
      rw [slice_layOut, reverseRows_length _ _ _ (by omega)]
      generalize hM : (idBounds adj).1 = M at *
      generalize hX : (idBounds adj).2 = X at *
      have hbound : ∀ p ∈ adj, M ≤ p.1 ∧ p.1 - M < X - M + 1 := by
        intro p hp
        have := (idBounds_spec adj p hp).1
        omega
      split
      · simp
      · rename_i ht
        refine ((sortBy_perm _ _).nodup_iff).2 ?_
        rw [reverseRows_getD _ _ _ _ (by omega)]
        have hrow : ∀ p ∈ (rowsByOffset M (X - M + 1) adj).zipIdx,
            p.1.Nodup ∧ ∀ t ∈ p.1, M ≤ t := by
          intro p hp
          rw [List.mem_zipIdx_iff_getElem?] at hp
          have h1 : p.1 = (rowsByOffset M (X - M + 1) adj).getD (M + p.2 - M) [] := by
            rw [show M + p.2 - M = p.2 by omega, List.getD_eq_getElem?_getD, hp]; rfl
          rw [rowsByOffset_getD _ _ _ _ hbound (by omega)] at h1
          cases hl : lastRow adj (M + p.2) with
          | none => rw [hl] at h1; simp at h1; rw [h1]; simp
          | some row =>
            rw [hl] at h1
            simp only [Option.getD_some] at h1
            have hmem := lastRow_mem hl
            rw [h1]
            refine ⟨hn _ hmem, fun t ht => ?_⟩
            have := (idBounds_spec adj _ hmem).2 t ht
            omega
        apply nodup_revRow
        · rw [List.zipIdx_map_snd]; exact List.nodup_range'
        · exact fun p hp => (hrow p hp).1
        · exact fun p hp => (hrow p hp).2

/-! ## Merged rows -/

theorem mem_dedup (seen l : List Nat) (x : Nat) : x ∈ dedup seen l ↔ x ∈ l ∧ x ∉ seen := by
  induction l generalizing seen with
  | nil => simp [dedup]
  | cons a l ih =>
    simp only [dedup]
    split
    · rename_i h
      rw [ih]
      constructor
      · rintro ⟨h1, h2⟩; exact ⟨by simp [h1], h2⟩
      · rintro ⟨h1, h2⟩
        rcases List.mem_cons.1 h1 with rfl | h1
        · exact absurd h h2
        · exact ⟨h1, h2⟩
    · rename_i h
      rw [List.mem_cons, ih]
      constructor
      · rintro (rfl | ⟨h1, h2⟩)
        · exact ⟨by simp, h⟩
        · exact ⟨by simp [h1], fun hx => h2 (by simp [hx])⟩
      · rintro ⟨h1, h2⟩
        rcases List.mem_cons.1 h1 with rfl | h1
        · exact Or.inl rfl
        · by_cases hx : x = a
          · exact Or.inl hx
          · exact Or.inr ⟨h1, by simp [hx, h2]⟩

theorem nodup_dedup (seen l : List Nat) : (dedup seen l).Nodup := by
  induction l generalizing seen with
  | nil => simp [dedup]
  | cons a l ih =>
    simp only [dedup]
    split
    · exact ih seen
    · rw [List.nodup_cons]
      exact ⟨fun h => ((mem_dedup _ _ _).1 h).2 (by simp), ih _⟩

theorem mem_mergeRow (base removes adds : List Nat) (x : Nat) :
    x ∈ mergeRow base removes adds ↔ x ∈ adds ∨ (x ∈ base ∧ x ∉ removes) := by
  unfold mergeRow
  rw [mem_sortBy, mem_dedup]
  simp only [List.mem_append, List.mem_filter, decide_eq_true_eq, List.not_mem_nil, not_false_iff, and_true]
  exact Or.comm

theorem nodup_mergeRow (base removes adds : List Nat) : (mergeRow base removes adds).Nodup :=
  ((sortBy_perm _ _).nodup_iff).2 (nodup_dedup _ _)

theorem mem_setOf (l : List (Nat × Nat)) (k x : Nat) : x ∈ setOf l k ↔ (k, x) ∈ l := by
  unfold setOf
  simp only [List.mem_map, List.mem_filter, beq_iff_eq]
  constructor
  · rintro ⟨p, ⟨h1, rfl⟩, rfl⟩; exact h1
  · intro h; exact ⟨(k, x), ⟨h, rfl⟩, rfl⟩

theorem mem_insertPair (p q : Nat × Nat) (l : List (Nat × Nat)) : q ∈ insertPair p l ↔ q = p ∨ q ∈ l := by
  unfold insertPair
  split
  · rename_i h
    constructor
    · exact Or.inr
    · rintro (rfl | h') <;> assumption
  · simp

theorem mem_removePair (p q : Nat × Nat) (l : List (Nat × Nat)) : q ∈ removePair p l ↔ q ∈ l ∧ q ≠ p := by
  simp [removePair]

end Verif.Edges
