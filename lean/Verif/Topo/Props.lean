import Verif.Topo.Lemmas
import Mathlib.Data.List.Perm.Subperm

/-!
# C11: the dynamic topological order

Specification: `Before l u v` (`[u, v]` is a sublist of `l`), `Topological g order` (every edge between listed nodes
points forward), `Path g.succ y path x` (a list of nodes from `y` to `x`, each a successor of the one before).
-/

namespace Verif.Topo

open Verif.Sched Relation

/-! ## The list of nodes -/

theorem ensure_nodup (p : Pk) (n : Nat) (h : p.order.Nodup) : (p.ensure n).order.Nodup := by
  unfold Pk.ensure
  split
  · exact h
  · rename_i hn
    rw [List.nodup_append]
    exact ⟨h, by simp, fun a ha b hb e => by simp at hb; subst hb; subst e; exact hn ha⟩

/-- Registering a node adds it and nothing else. -/
theorem ensure_mem (p : Pk) (n v : Nat) : v ∈ (p.ensure n).order ↔ v = n ∨ v ∈ p.order := by
  unfold Pk.ensure
  split
  · rename_i h
    constructor
    · exact Or.inr
    · rintro (rfl | hv)
      · exact h
      · exact hv
  · simp [or_comm]

/-- Registering a node keeps the order of the others. -/
theorem ensure_before (p : Pk) (n u v : Nat) (h : Before p.order u v) : Before (p.ensure n).order u v := by
  unfold Pk.ensure
  split
  · exact h
  · exact h.trans (List.sublist_append_left _ _)

theorem idx_pairwise {l : List Nat} (hn : l.Nodup) : l.Pairwise fun a b => l.idxOf a ≤ l.idxOf b := by
  rw [List.pairwise_iff_forall_sublist]
  intro a b hab
  exact Nat.le_of_lt ((before_iff_idx hn).1 hab).2.2

/-- Compacting the ranks changes nothing. -/
theorem compact_id (p : Pk) (h : p.order.Nodup) : p.compact = p := by
  have hk : (fun n => (p.pos n).getD 0) = fun n => if n ∈ p.order then p.order.idxOf n else 0 := by
    funext n; rw [pos_eq]; split <;> rfl
  have : sortKey (fun n => (p.pos n).getD 0) p.order = p.order := by
    rw [hk]
    refine List.Perm.eq_of_pairwise (le := fun a b => p.order.idxOf a ≤ p.order.idxOf b) ?_ ?_ (idx_pairwise h)
      (sortKey_perm _ _)
    · intro a b ha hb h1 h2
      exact (List.idxOf_inj ((sortKey_perm _ _).mem_iff.1 ha)).1 (Nat.le_antisymm h1 h2)
    · refine (sortKey_sorted _ _).imp_of_mem ?_
      intro a b ha hb hab
      have ha' := (sortKey_perm _ _).mem_iff.1 ha
      have hb' := (sortKey_perm _ _).mem_iff.1 hb
      simpa [ha', hb'] using hab
  unfold Pk.compact
  rw [this]

theorem tick_order (p : Pk) (h : p.order.Nodup) : p.tick.order = p.order := by
  unfold Pk.tick
  simp only
  split
  · rw [compact_id { p with ops := p.ops + 1 } h]
  · rfl

/-- Removing an edge never changes the order. -/
theorem removeEdge_order (p : Pk) (h : p.order.Nodup) : p.removeEdge.order = p.order := tick_order p h

theorem splice_perm (order : List Nat) (after : Nat) (aff : List Nat) : (spliceAfter order after aff).Perm order := by
  unfold spliceAfter
  simp only
  split
  · exact .refl _
  · refine List.Perm.trans ?_ (List.filter_append_perm (fun n => decide (n ∈ aff)) order)
    have hl : (order.filter fun n => decide (n ∉ aff)) = order.filter fun n => !decide (n ∈ aff) := by
      congr 1; funext n; simp
    rw [hl]
    generalize (order.filter fun n => decide (n ∈ aff)) = block
    generalize (order.filter fun n => !decide (n ∈ aff)) = left
    refine (List.perm_append_comm.append_right _).trans ?_
    rw [List.append_assoc, List.take_append_drop]

/-! ## Rebuilding -/

theorem flatten_topological {succ : Nat → List Nat} {nodes : List Nat} {ws : List (List Nat)}
    (hb : ∀ pre w post, ws = pre ++ w :: post → ∀ v ∈ w, ∀ u ∈ nodes, v ∈ succ u → u ∈ pre.flatten)
    {u v : Nat} (hu : u ∈ nodes) (hv : v ∈ ws.flatten) (he : v ∈ succ u) : Before ws.flatten u v := by
  obtain ⟨w, hw, hvw⟩ := List.mem_flatten.1 hv
  obtain ⟨pre, post, rfl⟩ := List.append_of_mem hw
  rw [List.flatten_append]
  exact before_append (hb pre w post rfl v hvw u hu he) (by simp [hvw])

/-- C11: a rebuild succeeds. It drops the nodes that do not exist, and yields a topological order, unless the edges
among them contain a cycle, when it sorts them by identifier. -/
theorem rebuild_spec (horder : List Nat → List Nat) (hh : ∀ l, (horder l).Perm l) (p : Pk) (g : View) (hg : g.WF)
    (hn : p.order.Nodup) :
    ∃ p', p.rebuild horder g = some p' ∧ p'.order.Perm (p.order.filter g.exist) ∧ p'.ops = p.ops ∧
      p'.budget = p.budget ∧ p'.interval = p.interval ∧
      (Topological g p'.order ∨
        (p'.order.Pairwise (· ≤ ·) ∧
          ∃ v, TransGen (fun a b => a ∈ p'.order ∧ b ∈ p'.order ∧ b ∈ g.succ a) v v)) := by
  unfold Pk.rebuild
  simp only
  have hs : (sortNat (p.order.filter g.exist)).Perm (p.order.filter g.exist) := sortNat_perm _
  have hnn : (sortNat (p.order.filter g.exist)).Nodup := hs.nodup_iff.2 (hn.filter _)
  have hsorted : (sortNat (p.order.filter g.exist)).Pairwise (· ≤ ·) := sortNat_sorted _
  generalize sortNat (p.order.filter g.exist) = nodes at hs hnn hsorted ⊢
  obtain ⟨ws, L, hw, hp, hb, -, hc⟩ := runCap hg hnn sortNat sortNat_perm 1 (Nat.le_refl 1) nodes.length (Nat.le_refl _)
    (sortNat (horder (nodes.filter fun v => degIn g nodes v == some 0))) ((sortNat_perm _).trans (hh _))
  rw [hw]
  refine ⟨_, rfl, ?_, rfl, rfl, rfl, ?_⟩
  · simp only
    split
    · exact hs
    · rename_i hl
      have hl := Decidable.not_not.1 hl
      have : L = [] := by
        have := hp.length_eq
        rw [List.length_append] at this
        exact List.length_eq_zero_iff.1 (by omega)
      subst this
      rw [List.append_nil] at hp
      exact hp.trans hs
  · simp only
    by_cases hL : L = []
    · subst hL
      rw [List.append_nil] at hp
      rw [if_neg (by simp [hp.length_eq])]
      left
      intro u v hu hv he
      exact flatten_topological hb (hp.mem_iff.1 hu) hv he
    · right
      have : ws.flatten.length ≠ nodes.length := by
        have h1 := hp.length_eq
        have h2 : L.length ≠ 0 := fun e => hL (List.length_eq_zero_iff.1 e)
        rw [List.length_append] at h1
        omega
      rw [if_pos this]
      obtain ⟨v, -, hcyc⟩ := hc hL
      exact ⟨hsorted, v, hcyc⟩

theorem topological_acyclic {g : View} {order : List Nat} (hn : order.Nodup) (h : Topological g order) (a b : Nat)
    (hab : TransGen (fun a b => a ∈ order ∧ b ∈ order ∧ b ∈ g.succ a) a b) : order.idxOf a < order.idxOf b := by
  induction hab with
  | single h1 => exact ((before_iff_idx hn).1 (h _ _ h1.1 h1.2.1 h1.2.2)).2.2
  | tail _ h1 ih => exact Nat.lt_trans ih ((before_iff_idx hn).1 (h _ _ h1.1 h1.2.1 h1.2.2)).2.2

/-- C11: after a rebuild of a graph without cycles, the order is topological. -/
theorem rebuild_topological (horder : List Nat → List Nat) (hh : ∀ l, (horder l).Perm l) (p p' : Pk) (g : View)
    (hg : g.WF) (hn : p.order.Nodup) (hr : p.rebuild horder g = some p')
    (hac : ∀ v, ¬ TransGen (fun a b => a ∈ p.order ∧ b ∈ p.order ∧ b ∈ g.succ a) v v) : Topological g p'.order := by
  obtain ⟨q, h1, h2, -, -, -, h3⟩ := rebuild_spec horder hh p g hg hn
  rw [h1] at hr
  simp only [Option.some.injEq] at hr
  subst hr
  rcases h3 with h3 | ⟨-, v, hv⟩
  · exact h3
  · exact absurd (TransGen.mono (fun a b hab => ⟨(List.mem_filter.1 (h2.mem_iff.1 hab.1)).1,
      (List.mem_filter.1 (h2.mem_iff.1 hab.2.1)).1, hab.2.2⟩) v v hv) (hac v)

/-! ## Adding an edge -/

/-- What one call does, when the search stays within its budget. -/
theorem tryAdd_cases (horder : List Nat → List Nat) (g : View) (x y : Nat) (p : Pk) (n : Nat) (hn : p.order.Nodup)
    (hxy : x ≠ y) (hb : ((p.ensure x).ensure y).order.length ≤ p.budget) :
    let q := (p.ensure x).ensure y
    (q.order.idxOf x < q.order.idxOf y ∧ p.tryAdd horder g x y (n + 1) = .ok q) ∨
    (q.order.idxOf y ≤ q.order.idxOf x ∧
      ((∃ path, p.tryAdd horder g x y (n + 1) = .cycle q path ∧ Path g.succ y path x) ∨
       (∃ aff, ClearOK q g x y (q.order.idxOf x) aff ∧ p.tryAdd horder g x y (n + 1) =
          .ok ({ q with order := spliceAfter q.order (q.order.idxOf x) aff }.tick)))) := by
  simp only
  have hqb : ((p.ensure x).ensure y).budget = p.budget := by
    unfold Pk.ensure; split <;> (try split) <;> rfl
  have hym : y ∈ ((p.ensure x).ensure y).order := (ensure_mem _ _ _).2 (Or.inl rfl)
  have he : p.tryAdd horder g x y (n + 1) = (
      let q := (p.ensure x).ensure y
      if q.order.idxOf x < q.order.idxOf y then Add.ok q
      else
        match search q g x y (q.order.idxOf x) (searchFuel q g) { stack := [y] } with
        | .cycle path => .cycle q path
        | .budget =>
          match q.rebuild horder g with
          | none => .broken
          | some q => Pk.tryAdd horder g x y n { q with ops := q.ops + 1 }
        | .clear affected => .ok ({ q with order := spliceAfter q.order (q.order.idxOf x) affected }.tick)
        | .stuck => .broken) := by
    rw [Pk.tryAdd.eq_def]
    simp only
    rw [if_neg hxy]
    rfl
  rw [he]
  have hnq : ((p.ensure x).ensure y).order.Nodup := ensure_nodup _ _ (ensure_nodup _ _ hn)
  generalize (p.ensure x).ensure y = q at *
  simp only
  by_cases hlt : q.order.idxOf x < q.order.idxOf y
  · left; exact ⟨hlt, by rw [if_pos hlt]⟩
  · right
    refine ⟨by omega, ?_⟩
    rw [if_neg hlt]
    have hir : InRange q (q.order.idxOf x) y := ⟨hym, by omega⟩
    rcases search_spec q g x y (q.order.idxOf x) hxy (searchFuel q g) { stack := [y] } (search_start q g x y _ hir) (by
      have hall : (q.order.filter fun n => decide (n ∉ ([] : List Nat))) = q.order := List.filter_eq_self.2 (by simp)
      simp only [work, searchFuel, hall, List.length_singleton]
      omega) with ⟨path, h1, h2⟩ | ⟨aff, h1, h2⟩ | ⟨h1, l, hl, hlb, hlm⟩
    · left; exact ⟨path, by rw [h1], h2⟩
    · right; exact ⟨aff, h2, by rw [h1]⟩
    · exfalso
      have := List.subperm_of_subset hl (fun v hv => hlm v hv)
      have := this.length_le
      omega

/-- C11 (soundness): an edge is refused only with a real path from its target back to its source. Nothing is assumed
about the order, and the path is returned. -/
theorem refused_sound (horder : List Nat → List Nat) (hh : ∀ l, (horder l).Perm l) (g : View) (hg : g.WF) (x y : Nat)
    (fuel : Nat) : ∀ (p : Pk), p.order.Nodup → ∀ p' path, p.tryAdd horder g x y fuel = .cycle p' path →
      (x = y ∧ path = [x, y]) ∨ (x ≠ y ∧ Path g.succ y path x) := by
  induction fuel with
  | zero => intro p _ p' path h; simp [Pk.tryAdd] at h
  | succ n ih =>
    intro p hn p' path h
    rw [Pk.tryAdd.eq_def] at h
    simp only at h
    by_cases hxy : x = y
    · rw [if_pos hxy] at h
      simp only [Add.cycle.injEq] at h
      exact Or.inl ⟨hxy, h.2.symm⟩
    · rw [if_neg hxy] at h
      have hym : y ∈ ((p.ensure x).ensure y).order := (ensure_mem _ _ _).2 (Or.inl rfl)
      have hnq : ((p.ensure x).ensure y).order.Nodup := ensure_nodup _ _ (ensure_nodup _ _ hn)
      generalize (p.ensure x).ensure y = q at *
      split at h
      · simp at h
      · rename_i hlt
        have hir : InRange q (q.order.idxOf x) y := ⟨hym, by omega⟩
        rcases search_spec q g x y (q.order.idxOf x) hxy (searchFuel q g) { stack := [y] } (search_start q g x y _ hir) (by
          have hall : (q.order.filter fun n => decide (n ∉ ([] : List Nat))) = q.order := List.filter_eq_self.2 (by simp)
          simp only [work, searchFuel, hall, List.length_singleton]
          omega) with ⟨path', h1, h2⟩ | ⟨aff, h1, h2⟩ | ⟨h1, -⟩
        · rw [h1] at h
          simp only [Add.cycle.injEq] at h
          rw [← h.2]
          exact Or.inr ⟨hxy, h2⟩
        · rw [h1] at h; simp at h
        · rw [h1] at h
          obtain ⟨r, hr, hrp, -⟩ := rebuild_spec horder hh q g hg hnq
          simp only [hr] at h
          exact ih _ (by simp only; exact hrp.nodup_iff.2 (hnq.filter _)) p' path h

/-- C11 (completeness, partial): when the order is topological and the search stays within its budget, an edge is
refused exactly when its target already reaches its source. Missing: the order is not always topological, see
`splice_breaks_order`, and the budget may be exceeded, see `budget_diverges`. -/
theorem refused_iff_cycle_partial (horder : List Nat → List Nat) (g : View) (x y : Nat) (p : Pk) (n : Nat)
    (hn : p.order.Nodup) (hx : x ∈ p.order) (hy : y ∈ p.order) (hb : p.order.length ≤ p.budget)
    (htop : Topological g p.order) (hcl : ∀ u ∈ p.order, ∀ v ∈ g.succ u, v ∈ p.order) :
    (∃ p' path, p.tryAdd horder g x y (n + 1) = .cycle p' path) ↔ ReflTransGen (fun a b => b ∈ g.succ a) y x := by
  by_cases hxy : x = y
  · subst hxy
    constructor
    · intro _; exact .refl
    · intro _; exact ⟨p, [x, x], by simp [Pk.tryAdd]⟩
  have hq : (p.ensure x).ensure y = p := by simp [Pk.ensure, hx, hy]
  have hup : ∀ a b, a ∈ p.order → ReflTransGen (fun a b => b ∈ g.succ a) a b →
      b ∈ p.order ∧ p.order.idxOf a ≤ p.order.idxOf b := by
    intro a b ha hab
    induction hab with
    | refl => exact ⟨ha, Nat.le_refl _⟩
    | tail _ h1 ih =>
      have hc := hcl _ ih.1 _ h1
      exact ⟨hc, Nat.le_trans ih.2 (Nat.le_of_lt ((before_iff_idx hn).1 (htop _ _ ih.1 hc h1)).2.2)⟩
  have hcases := tryAdd_cases horder g x y p n hn hxy (by rw [hq]; exact hb)
  simp only [hq] at hcases
  have hpath : ∀ path, Path g.succ y path x → ReflTransGen (fun a b => b ∈ g.succ a) y x := by
    intro path hp
    clear * - hp
    induction hp with
    | one => exact .refl
    | step _ h ih => exact ih.tail h
  constructor
  · rintro ⟨p', path, h⟩
    rcases hcases with ⟨-, h1⟩ | ⟨-, ⟨path', -, h2⟩ | ⟨aff, -, h1⟩⟩
    · rw [h1] at h; simp at h
    · exact hpath path' h2
    · rw [h1] at h; simp at h
  · intro hr
    rcases hcases with ⟨hlt, -⟩ | ⟨-, ⟨path', h1, -⟩ | ⟨aff, hc, -⟩⟩
    · have := (hup y x hy hr).2; omega
    · exact ⟨p, path', h1⟩
    · exfalso
      have : ∀ w, ReflTransGen (fun a b => b ∈ g.succ a) y w → ReflTransGen (fun a b => b ∈ g.succ a) w x → w ∈ aff := by
        intro w hyw
        induction hyw with
        | refl => intro _; exact hc.start
        | @tail b c hyb hbc ih =>
          intro hcx
          have hb := ih (ReflTransGen.head hbc hcx)
          have hcm := (hup y c hy (hyb.tail hbc)).1
          exact hc.closed b hb c hbc ⟨hcm, (hup c x hcm hcx).2⟩
      exact hc.noX (this x hr .refl)

theorem mem_take_idx {l : List Nat} (n v : Nat) : v ∈ l.take n ↔ v ∈ l ∧ l.idxOf v < n := by
  induction l generalizing n with
  | nil => simp
  | cons a l ih =>
    cases n with
    | zero => simp
    | succ n =>
      rw [List.take_succ_cons, List.mem_cons, ih, List.mem_cons]
      by_cases h : a = v
      · subst h; simp
      · rw [List.idxOf_cons_ne _ h]
        simp [Ne.symm h]

theorem mem_drop_idx {l : List Nat} (hn : l.Nodup) (n v : Nat) : v ∈ l.drop n ↔ v ∈ l ∧ n ≤ l.idxOf v := by
  have hd := hn
  rw [← List.take_append_drop n l, List.nodup_append] at hd
  constructor
  · intro hv
    refine ⟨List.mem_of_mem_drop hv, ?_⟩
    apply Decidable.byContradiction
    intro hlt
    exact hd.2.2 v ((mem_take_idx n v).2 ⟨List.mem_of_mem_drop hv, by omega⟩) v hv rfl
  · rintro ⟨hv, hle⟩
    rw [← List.take_append_drop n l, List.mem_append] at hv
    rcases hv with hv | hv
    · have := ((mem_take_idx n v).1 hv).2; omega
    · exact hv

/-- Where the block goes: behind `x` and behind the next `affected.length` nodes. -/
theorem splice_eq {order : List Nat} (hn : order.Nodup) {px : Nat} (hpx : px < order.length) {aff : List Nat}
    (ha : aff.Nodup) (hne : aff ≠ []) (hs : ∀ v ∈ aff, v ∈ order.take (px + 1)) :
    spliceAfter order px aff =
      (order.take (px + 1)).filter (fun n => decide (n ∉ aff)) ++ (order.drop (px + 1)).take aff.length ++
      (order.take (px + 1)).filter (fun n => decide (n ∈ aff)) ++ (order.drop (px + 1)).drop aff.length := by
  have hlen : (order.take (px + 1)).length = px + 1 := by rw [List.length_take]; omega
  have hsplit : order = order.take (px + 1) ++ order.drop (px + 1) := (List.take_append_drop _ _).symm
  have hd := hn
  rw [hsplit, List.nodup_append] at hd
  have hD1 : (order.drop (px + 1)).filter (fun n => decide (n ∉ aff)) = order.drop (px + 1) := by
    rw [List.filter_eq_self]
    intro v hv
    simp only [decide_eq_true_eq]
    exact fun hm => hd.2.2 v (hs v hm) v hv rfl
  have hD2 : (order.drop (px + 1)).filter (fun n => decide (n ∈ aff)) = [] := by
    rw [List.filter_eq_nil_iff]
    intro v hv
    simp only [decide_eq_true_eq]
    exact fun hm => hd.2.2 v (hs v hm) v hv rfl
  have hF : ((order.take (px + 1)).filter fun n => decide (n ∉ aff)).length + aff.length = px + 1 := by
    have h1 : ((order.take (px + 1)).filter fun n => decide (n ∈ aff)).Perm aff := by
      refine (List.perm_ext_iff_of_nodup (hd.1.filter _) ha).2 ?_
      intro v
      simp only [List.mem_filter, decide_eq_true_eq]
      exact ⟨fun h => h.2, fun h => ⟨hs v h, h⟩⟩
    have h2 := (List.filter_append_perm (fun n => decide (n ∈ aff)) (order.take (px + 1))).length_eq
    have hl : ((order.take (px + 1)).filter fun n => decide (n ∉ aff)) =
        (order.take (px + 1)).filter fun n => !decide (n ∈ aff) := by
      congr 1; funext n; simp
    rw [List.length_append, h1.length_eq, hlen] at h2
    rw [hl]; omega
  unfold spliceAfter
  simp only
  rw [if_neg hne]
  have e1 : order.filter (fun n => decide (n ∉ aff)) =
      (order.take (px + 1)).filter (fun n => decide (n ∉ aff)) ++ order.drop (px + 1) := by
    conv => lhs; rw [hsplit]
    rw [List.filter_append, hD1]
  have e2 : order.filter (fun n => decide (n ∈ aff)) = (order.take (px + 1)).filter (fun n => decide (n ∈ aff)) := by
    conv => lhs; rw [hsplit]
    rw [List.filter_append, hD2, List.append_nil]
  rw [e1, e2]
  generalize (order.take (px + 1)).filter (fun n => decide (n ∉ aff)) = F at hF ⊢
  have e3 : px + 1 - F.length = aff.length := by omega
  have e4 : F.drop (px + 1) = [] := List.drop_eq_nil_of_le (by omega)
  have e5 : F.take (px + 1) = F := List.take_of_length_le (by omega)
  rw [List.take_append, List.drop_append, e3, e4, e5, List.nil_append]

theorem clear_take {p : Pk} {g : View} {x y px : Nat} {aff : List Nat} (hc : ClearOK p g x y px aff) :
    ∀ v ∈ aff, v ∈ p.order.take (px + 1) := fun v hv =>
  (mem_take_idx _ _).2 ⟨(hc.range v hv).1, Nat.lt_succ_of_le (hc.range v hv).2⟩

/-- The new edge points forward afterwards. -/
theorem splice_new_edge {p : Pk} {g : View} {x y : Nat} {aff : List Nat} (hn : p.order.Nodup) (hx : x ∈ p.order)
    (hc : ClearOK p g x y (p.order.idxOf x) aff) : Before (spliceAfter p.order (p.order.idxOf x) aff) x y := by
  rw [splice_eq hn (List.idxOf_lt_length_of_mem hx) hc.nodup (List.ne_nil_of_mem hc.start) (clear_take hc)]
  have h1 : x ∈ (p.order.take (p.order.idxOf x + 1)).filter fun n => decide (n ∉ aff) := by
    rw [List.mem_filter, mem_take_idx]
    exact ⟨⟨hx, by omega⟩, by simpa using hc.noX⟩
  have h2 : y ∈ (p.order.take (p.order.idxOf x + 1)).filter fun n => decide (n ∈ aff) := by
    rw [List.mem_filter]
    exact ⟨clear_take hc y hc.start, by simpa using hc.start⟩
  rw [List.append_assoc (_ ++ _)]
  exact before_append (List.mem_append.2 (Or.inl h1)) (List.mem_append.2 (Or.inl h2))

/-- The old edges point forward afterwards, provided no edge leads from a moved node into the nodes it jumps over. -/
theorem splice_old_edges {p : Pk} {g : View} {x y : Nat} {aff : List Nat} (hn : p.order.Nodup) (hx : x ∈ p.order)
    (hc : ClearOK p g x y (p.order.idxOf x) aff) (htop : Topological g p.order)
    (hfar : ∀ u ∈ aff, ∀ v ∈ g.succ u, v ∈ p.order → v ∉ aff → p.order.idxOf x + aff.length < p.order.idxOf v) :
    Topological g (spliceAfter p.order (p.order.idxOf x) aff) := by
  intro u v hu hv he
  have hu := (splice_perm _ _ _).mem_iff.1 hu
  have hv := (splice_perm _ _ _).mem_iff.1 hv
  have hb := htop u v hu hv he
  have hne := List.ne_nil_of_mem hc.start
  by_cases hua : u ∈ aff <;> by_cases hva : v ∈ aff
  · have h1 : Before (p.order.filter fun n => decide (n ∈ aff)) u v := by
      have := hb.filter fun n => decide (n ∈ aff)
      simpa [Before, hua, hva] using this
    unfold spliceAfter
    simp only
    rw [if_neg hne, List.append_assoc]
    exact h1.trans ((List.sublist_append_left _ _).trans (List.sublist_append_right _ _))
  · rw [splice_eq hn (List.idxOf_lt_length_of_mem hx) hc.nodup hne (clear_take hc)]
    refine before_append (List.mem_append.2 (Or.inr (List.mem_filter.2 ⟨clear_take hc u hua, by simpa using hua⟩))) ?_
    rw [List.drop_drop, mem_drop_idx hn]
    have := hfar u hua v he hv hva
    exact ⟨hv, by omega⟩
  · rw [splice_eq hn (List.idxOf_lt_length_of_mem hx) hc.nodup hne (clear_take hc)]
    rw [List.append_assoc (_ ++ _)]
    refine before_append (List.mem_append.2 (Or.inl ?_)) (List.mem_append.2 (Or.inl
      (List.mem_filter.2 ⟨clear_take hc v hva, by simpa using hva⟩)))
    refine List.mem_filter.2 ⟨(mem_take_idx _ _).2 ⟨hu, ?_⟩, by simpa using hua⟩
    have h1 := ((before_iff_idx hn).1 hb).2.2
    have h2 := (hc.range v hva).2
    omega
  · have h1 : Before (p.order.filter fun n => decide (n ∉ aff)) u v := by
      have := hb.filter fun n => decide (n ∉ aff)
      simpa [Before, hua, hva] using this
    unfold spliceAfter
    simp only
    rw [if_neg hne]
    generalize (p.order.filter fun n => decide (n ∉ aff)) = left at h1 ⊢
    refine h1.trans ?_
    conv => lhs; rw [← List.take_append_drop (p.order.idxOf x + 1) left]
    exact (List.sublist_append_left _ _).append_right _

/-- C11: every accepted edge points forward in the resulting order, which lists the same nodes plus the two ends, each
once. The budget is assumed large enough. -/
theorem accepted_forward (horder : List Nat → List Nat) (g : View) (x y : Nat) (p p' : Pk) (n : Nat) (hn : p.order.Nodup)
    (hb : ((p.ensure x).ensure y).order.length ≤ p.budget) (h : p.tryAdd horder g x y (n + 1) = .ok p') :
    Before p'.order x y ∧ p'.order.Nodup ∧ ∀ v, v ∈ p'.order ↔ v = x ∨ v = y ∨ v ∈ p.order := by
  by_cases hxy : x = y
  · simp [Pk.tryAdd, hxy] at h
  have hnq : ((p.ensure x).ensure y).order.Nodup := ensure_nodup _ _ (ensure_nodup _ _ hn)
  have hm : ∀ v, v ∈ ((p.ensure x).ensure y).order ↔ v = x ∨ v = y ∨ v ∈ p.order := fun v => by
    rw [ensure_mem, ensure_mem]
    constructor
    · rintro (h | h | h) <;> simp [h]
    · rintro (h | h | h) <;> simp [h]
  have hcases := tryAdd_cases horder g x y p n hn hxy hb
  simp only at hcases
  generalize (p.ensure x).ensure y = q at *
  have hx : x ∈ q.order := (hm x).2 (by simp)
  rcases hcases with ⟨hlt, h1⟩ | ⟨-, ⟨path, h1, -⟩ | ⟨aff, hc, h1⟩⟩
  · rw [h1] at h
    simp only [Add.ok.injEq] at h
    subst h
    exact ⟨(before_iff_idx hnq).2 ⟨hx, (hm y).2 (by simp), hlt⟩, hnq, hm⟩
  · rw [h1] at h; simp at h
  · rw [h1] at h
    simp only [Add.ok.injEq] at h
    subst h
    have hsn : (spliceAfter q.order (q.order.idxOf x) aff).Nodup := (splice_perm _ _ _).nodup_iff.2 hnq
    rw [tick_order { q with order := spliceAfter q.order (q.order.idxOf x) aff } hsn]
    refine ⟨splice_new_edge hnq hx hc, hsn, ?_⟩
    intro v
    rw [(splice_perm _ _ _).mem_iff]; exact hm v

/-- `g` with one more edge. -/
def View.add (g : View) (x y : Nat) : View :=
  { g with succ := fun u => if u = x then g.succ u ++ [y] else g.succ u
           pred := fun v => if v = y then g.pred v ++ [x] else g.pred v }

/-- C11 (partial): after an accepted edge the order is topological for the graph with that edge, when it was so before
and either nothing had to move (`x` already before `y`) or `x` was last, so that nothing is jumped over. Missing: other
positions of `x`, where it may fail, see `splice_breaks_order`. -/
theorem accepted_topological_partial (horder : List Nat → List Nat) (g : View) (x y : Nat) (p p' : Pk) (n : Nat)
    (hn : p.order.Nodup) (hx : x ∈ p.order) (hy : y ∈ p.order) (hb : p.order.length ≤ p.budget)
    (htop : Topological g p.order) (h : p.tryAdd horder g x y (n + 1) = .ok p')
    (hpos : p.order.idxOf x < p.order.idxOf y ∨ p.order.idxOf x + 1 = p.order.length) :
    Topological (g.add x y) p'.order := by
  by_cases hxy : x = y
  · simp [Pk.tryAdd, hxy] at h
  have hq : (p.ensure x).ensure y = p := by simp [Pk.ensure, hx, hy]
  have hfwd := (accepted_forward horder g x y p p' n hn (by rw [hq]; exact hb) h).1
  have key : Topological g p'.order := by
    have hcases := tryAdd_cases horder g x y p n hn hxy (by rw [hq]; exact hb)
    simp only [hq] at hcases
    rcases hcases with ⟨-, h1⟩ | ⟨hle, ⟨path, h1, -⟩ | ⟨aff, hc, h1⟩⟩
    · rw [h1] at h
      simp only [Add.ok.injEq] at h
      subst h
      exact htop
    · rw [h1] at h; simp at h
    · rw [h1] at h
      simp only [Add.ok.injEq] at h
      subst h
      have hsn : (spliceAfter p.order (p.order.idxOf x) aff).Nodup := (splice_perm _ _ _).nodup_iff.2 hn
      rw [tick_order { p with order := spliceAfter p.order (p.order.idxOf x) aff } hsn]
      refine splice_old_edges hn hx hc htop ?_
      intro u hu v he hv hva
      exfalso
      refine hva (hc.closed u hu v he ⟨hv, ?_⟩)
      have := List.idxOf_lt_length_of_mem hv
      rcases hpos with hpos | hpos <;> omega
  intro u v hu hv he
  simp only [View.add] at he
  split at he
  · rename_i hux
    rcases List.mem_append.1 he with he | he
    · exact key u v hu hv he
    · simp only [List.mem_singleton] at he
      subst he; subst hux
      exact hfwd
  · exact key u v hu hv he

/-! ## Where the code fails -/

/-- The engine's use: an accepted edge is then stored in the graph, a refused one is not. -/
def runAdds (p : Pk) (g : View) : List (Nat × Nat) → Option (Pk × View)
  | [] => some (p, g)
  | (x, y) :: rest =>
    match p.tryAdd id g x y 10 with
    | .ok p' => runAdds p' (g.add x y) rest
    | .cycle p' _ => runAdds p' g rest
    | .broken => none

def noEdges : View := { succ := fun _ => [], pred := fun _ => [] }

/-- C11 fails: nodes 1, 2, 3; the edges 1 → 3 and 2 → 1 leave the order 2, 3, 1, in which 3 comes before 1. The block
is placed behind as many surviving nodes as preceded `x` in the old order, some of which it should precede. -/
theorem splice_breaks_order : ∃ p g, runAdds (Pk.new [1, 2, 3] 50000 100000) noEdges [(1, 3), (2, 1)] = some (p, g) ∧
    p.order = [2, 3, 1] ∧ 3 ∈ g.succ 1 ∧ ¬ Topological g p.order := by
  refine ⟨_, _, rfl, by decide, by decide, ?_⟩
  intro h
  exact absurd (h 1 3 (by decide) (by decide) (by decide)) (by decide)

/-- C11 fails: the next edge 3 → 1 closes a cycle and is accepted. -/
theorem cycle_accepted : ∃ p g, runAdds (Pk.new [1, 2, 3] 50000 100000) noEdges [(1, 3), (2, 1), (3, 1)] = some (p, g) ∧
    3 ∈ g.succ 1 ∧ 1 ∈ g.succ 3 :=
  ⟨_, _, rfl, by decide, by decide⟩

/-- The chain 0 → 1 → … → `b + 1`. -/
def chain (b : Nat) : View :=
  { succ := fun n => if n ≤ b then [n + 1] else []
    pred := fun n => if 1 ≤ n ∧ n ≤ b + 1 then [n - 1] else [] }

theorem chain_wf (b : Nat) : (chain b).WF := by
  refine ⟨fun v => ?_, fun v => ?_, fun u v => ?_⟩
  · simp only [chain]; split <;> simp
  · simp only [chain]; split <;> simp
  · simp only [chain]
    split <;> split <;> simp <;> omega

theorem idxOf_range {n i : Nat} (h : i < n) : (List.range n).idxOf i = i := by
  have hm : (List.range n).idxOf i < (List.range n).length := List.idxOf_lt_length_of_mem (List.mem_range.2 h)
  have := List.getElem_idxOf hm
  rw [List.getElem_range] at this
  exact this

theorem chain_search (b : Nat) (p : Pk) (ho : p.order = List.range (b + 2)) (hb : p.budget = b) (d : Nat) :
    ∀ (k : Nat) (par : List (Nat × Nat)) (vis aff : List Nat) (fuel : Nat), k + d = b → d < fuel → vis.length = k →
      (∀ v ∈ vis, v < k) → search p (chain b) (b + 1) 0 (b + 1) fuel ⟨[k], par, vis, aff⟩ = .budget := by
  induction d with
  | zero =>
    intro k par vis aff fuel hk hf hl hv
    obtain ⟨f, rfl⟩ := Nat.exists_eq_succ_of_ne_zero (by omega : fuel ≠ 0)
    have hkv : k ∉ vis := fun h => by have := hv k h; omega
    unfold search
    simp only
    rw [if_neg hkv, if_pos (by simp only [List.length_cons]; omega)]
  | succ d ih =>
    intro k par vis aff fuel hk hf hl hv
    obtain ⟨f, rfl⟩ := Nat.exists_eq_succ_of_ne_zero (by omega : fuel ≠ 0)
    have hkv : k ∉ vis := fun h => by have := hv k h; omega
    have hk1 : k + 1 ∉ k :: vis := by
      intro h
      rcases List.mem_cons.1 h with h | h
      · omega
      · have := hv _ h; omega
    unfold search
    simp only
    rw [if_neg hkv, if_neg (by simp only [List.length_cons]; omega), if_neg (by omega)]
    have hpos : p.pos (k + 1) = some (k + 1) := by
      rw [pos_eq, ho, if_pos (List.mem_range.2 (by omega)), idxOf_range (by omega)]
    have hs : (chain b).succ k = [k + 1] := by simp only [chain]; rw [if_pos (by omega)]
    rw [hs, List.filter_cons_of_pos (by rw [hpos]; simp only [Bool.and_eq_true, decide_eq_true_eq]; exact ⟨by omega, hk1⟩)]
    refine ih (k + 1) _ (k :: vis) _ f (by omega) (by omega) (by simp [hl]) ?_
    intro v hv'
    rcases List.mem_cons.1 hv' with rfl | hv'
    · omega
    · have := hv v hv'; omega

theorem chain_order (b : Nat) (order : List Nat) (hp : order.Perm (List.range (b + 2)))
    (h : Topological (chain b) order ∨ order.Pairwise (· ≤ ·)) : order = List.range (b + 2) := by
  have hn : order.Nodup := hp.nodup_iff.2 List.nodup_range
  have hsorted : order.Pairwise (· ≤ ·) := by
    rcases h with h | h
    · have hstep : ∀ i, i ≤ b → order.idxOf i < order.idxOf (i + 1) := fun i hi =>
        ((before_iff_idx hn).1 (h i (i + 1) (hp.mem_iff.2 (List.mem_range.2 (by omega)))
          (hp.mem_iff.2 (List.mem_range.2 (by omega))) (by simp [chain, hi]))).2.2
      have hmono : ∀ d i, i + d ≤ b → order.idxOf i < order.idxOf (i + d + 1) := by
        intro d
        induction d with
        | zero => intro i hi; exact hstep i hi
        | succ d ih => intro i hi; exact Nat.lt_trans (ih i (by omega)) (hstep (i + d + 1) (by omega))
      rw [List.pairwise_iff_forall_sublist]
      intro a c hac
      have hlt := ((before_iff_idx hn).1 hac).2.2
      have ha : a < b + 2 := List.mem_range.1 (hp.mem_iff.1 (hac.subset (by simp)))
      apply Decidable.byContradiction
      intro hca
      have := hmono (a - c - 1) c (by omega)
      rw [show c + (a - c - 1) + 1 = a by omega] at this
      omega
    · exact h
  exact List.Perm.eq_of_pairwise (fun a b _ _ h1 h2 => Nat.le_antisymm h1 h2) hsorted
    (List.pairwise_le_range) hp

/-- C11 fails: for every budget there is a graph, the chain 0 → 1 → … → `b + 1` in its natural order, on which adding
the edge that closes the cycle neither accepts nor refuses: each attempt exceeds the budget, rebuilds the same order and
starts again, for ever. -/
theorem budget_diverges (horder : List Nat → List Nat) (hh : ∀ l, (horder l).Perm l) (b fuel : Nat) : ∀ p : Pk,
    p.order = List.range (b + 2) → p.budget = b → p.tryAdd horder (chain b) (b + 1) 0 fuel = .broken := by
  induction fuel with
  | zero => intro p _ _; rfl
  | succ fuel ih =>
    intro p ho hb
    have hm : ∀ i, i < b + 2 → i ∈ p.order := fun i hi => by rw [ho]; exact List.mem_range.2 hi
    have hq : (p.ensure (b + 1)).ensure 0 = p := by
      simp [Pk.ensure, hm (b + 1) (by omega), hm 0 (by omega)]
    rw [Pk.tryAdd.eq_def]
    simp only
    rw [if_neg (by omega), hq]
    have hx : p.order.idxOf (b + 1) = b + 1 := by rw [ho, idxOf_range (by omega)]
    have hx0 : p.order.idxOf 0 = 0 := by rw [ho, idxOf_range (by omega)]
    rw [hx, hx0, if_neg (by omega)]
    have hfuel : b < searchFuel p (chain b) := by
      have : ∀ l : List Nat, l.length ≤ (l.map fun n => ((chain b).succ n).length + 1).sum := by
        intro l
        induction l with
        | nil => simp
        | cons a l ih => simp only [List.length_cons, List.map_cons, List.sum_cons]; omega
      have := this p.order
      unfold searchFuel
      rw [ho, List.length_range] at this
      rw [ho]; omega
    rw [chain_search b p ho hb b 0 [] [] [] _ (by omega) hfuel rfl (by simp)]
    obtain ⟨r, hr, hrp, -, hrb, -, hrt⟩ := rebuild_spec horder hh p (chain b) (chain_wf b) (by rw [ho]; exact List.nodup_range)
    simp only [hr]
    refine ih _ ?_ (by simp only; rw [hrb, hb])
    simp only
    refine chain_order b _ (hrp.trans ?_) ?_
    · rw [ho, List.filter_eq_self.2]
      intro v _; rfl
    · rcases hrt with h | h
      · exact Or.inl h
      · exact Or.inr h.1

/-- The refused edge of `budget_diverges` does close a cycle. -/
theorem chain_cycle (b : Nat) : ReflTransGen (fun a c => c ∈ (chain b).succ a) 0 (b + 1) := by
  have : ∀ k, k ≤ b + 1 → ReflTransGen (fun a c => c ∈ (chain b).succ a) 0 k := by
    intro k
    induction k with
    | zero => intro _; exact .refl
    | succ k ih => intro hk; exact (ih (by omega)).tail (by simp only [chain]; rw [if_pos (by omega)]; simp)
  exact this _ (Nat.le_refl _)

/-! ## Layers -/

/-- C11: layers of a set of listed nodes respect the edges inside it: a node comes in a later layer than all its
predecessors in the set. They list members only, each at most once, at most `cap` per layer, sorted by position, and
all of them unless the set contains a cycle. -/
theorem layersFor_valid (horder : List Nat → List Nat) (hh : ∀ l, (horder l).Perm l) (p : Pk) (g : View) (hg : g.WF)
    (subset : List Nat) (hs : subset.Nodup) (hsub : ∀ v ∈ subset, v ∈ p.order) (cap : Option Nat)
    (hcap : ∀ c, cap = some c → 1 ≤ c) (fuel : Nat) (hf : subset.length ≤ fuel) :
    ∃ ws, p.layersFor horder g subset cap fuel = some ws ∧
      (∀ pre w post, ws = pre ++ w :: post → ∀ v ∈ w, ∀ u ∈ subset, v ∈ g.succ u → u ∈ pre.flatten) ∧
      ws.flatten.Nodup ∧ (∀ v ∈ ws.flatten, v ∈ subset) ∧
      (∀ w ∈ ws, w ≠ [] ∧ (∀ c, cap = some c → w.length ≤ c) ∧ w.Pairwise fun a b => p.order.idxOf a ≤ p.order.idxOf b) ∧
      (ws.flatten.Perm subset ∨ ∃ v, TransGen (fun a b => a ∈ subset ∧ b ∈ subset ∧ b ∈ g.succ a) v v) := by
  by_cases he : subset = []
  · subst he
    exact ⟨[], by simp [Pk.layersFor], by simp, by simp, by simp, by simp, Or.inl (by simp)⟩
  · obtain ⟨ws, L, hw, hp, hb, hl, hc⟩ := runCap hg hs (sortKey fun n => p.order.idxOf n) (sortKey_perm _)
      (cap.getD (2 ^ 64 - 1)) (by
        cases cap with
        | none => simp
        | some c => exact hcap c rfl) fuel hf
      (sortKey (fun n => p.order.idxOf n) (horder (subset.filter fun v => degIn g subset v == some 0)))
      ((sortKey_perm _ _).trans (hh _))
    have hnd := hp.nodup_iff.2 hs
    refine ⟨ws, ?_, hb, (List.nodup_append.1 hnd).1, fun v hv => hp.mem_iff.1 (by simp only [List.mem_append]; exact Or.inl hv),
      fun w hw' => ⟨(hl w hw').1, ?_, ?_⟩, ?_⟩
    · unfold Pk.layersFor
      rw [if_neg he, if_pos (by simpa using hsub)]
      exact hw
    · intro c e
      subst e
      exact (hl w hw').2.1
    · obtain ⟨l, rfl⟩ := (hl w hw').2.2
      exact sortKey_sorted _ _
    · by_cases hL : L = []
      · left; subst hL; simpa using hp
      · obtain ⟨v, -, h⟩ := hc hL
        exact Or.inr ⟨v, h⟩

theorem capped_zero (dec : Nat → Option Nat) (outs : Nat → List Nat) (sort : List Nat → List Nat)
    (hsort : ∀ l, (sort l).Perm l) (fuel : Nat) : ∀ (deg : Nat → Option Nat) (q : List Nat), q ≠ [] →
    cappedWaves dec outs sort 0 fuel deg q = none := by
  have h0 : sort [] = [] := (hsort []).eq_nil
  induction fuel with
  | zero => intro deg q hq; simp [cappedWaves, hq]
  | succ fuel ih =>
    intro deg q hq
    have : sort q ≠ [] := fun e => hq (by have := hsort q; rw [e] at this; exact this.symm.eq_nil)
    simp [cappedWaves, hq, h0, relaxAll, ih deg (sort q) this]

/-- C11 fails: with a layer width limit of zero, the layering of any set that has a node without predecessors in it
never finishes. -/
theorem layers_cap_zero_diverges (horder : List Nat → List Nat) (hh : ∀ l, (horder l).Perm l) (p : Pk) (g : View)
    (subset : List Nat) (v : Nat) (hv : v ∈ subset) (hz : ∀ u ∈ g.pred v, u ∉ subset) (fuel : Nat) :
    p.layersFor horder g subset (some 0) fuel = none := by
  unfold Pk.layersFor
  rw [if_neg (List.ne_nil_of_mem hv)]
  split
  · simp only [Option.getD_some]
    refine capped_zero _ _ _ (sortKey_perm _) fuel _ _ ?_
    intro e
    have h1 : degIn g subset v = some 0 := by
      unfold degIn
      rw [if_pos hv, List.filter_eq_nil_iff.2 (by simpa using hz)]; simp
    have h2 := (((sortKey_perm (fun n => p.order.idxOf n) _).trans (hh (subset.filter fun n => degIn g subset n == some 0))).mem_iff
      (a := v)).2 (List.mem_filter.2 ⟨hv, by simp [h1]⟩)
    rw [e] at h2
    simp at h2
  · rfl

/-! ## Examples -/

private def gx : View :=
  { succ := fun u => if u = 3 then [1] else if u = 1 then [4] else []
    pred := fun v => if v = 1 then [3] else if v = 4 then [1] else [] }

private def px : Pk := { order := [3, 1, 4, 2] }

/-- 2 → 3 moves 3, 1 and 4 behind 2. -/
example : px.order.Nodup ∧ Topological gx px.order ∧ px.order.idxOf 2 + 1 = px.order.length ∧
    (∃ p', px.tryAdd id gx 2 3 1 = .ok p' ∧ p'.order = [2, 3, 1, 4]) := by
  refine ⟨by decide, ?_, by decide, _, rfl, by decide⟩
  intro u v hu hv he
  simp only [px, List.mem_cons, List.not_mem_nil, or_false] at hu hv
  rcases hu with rfl | rfl | rfl | rfl <;> rcases hv with rfl | rfl | rfl | rfl <;> revert he <;> decide

/-- 4 → 3 is refused with the path 3, 1, 4. -/
example : ∃ p', px.tryAdd id gx 4 3 1 = .cycle p' [3, 1, 4] := ⟨_, rfl⟩

/-- Layers of {1, 2, 3}, two per layer. -/
example : px.layersFor id gx [1, 2, 3] (some 2) 3 = some [[3, 2], [1]] := by decide

end Verif.Topo
