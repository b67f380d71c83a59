import Mathlib.Logic.Relation
import Verif.Sched.Model

/-!
# The component search is correct
-/

namespace Verif.Sched

open Relation

/-- `y` is a dependency of `x`, both requested. -/
def Edge (S : List Nat) (adj : Nat → List Nat) (x y : Nat) : Prop := x ∈ S ∧ y ∈ S ∧ y ∈ adj x

/-- Reachability through requested vertices. -/
abbrev Reach (S : List Nat) (adj : Nat → List Nat) : Nat → Nat → Prop := ReflTransGen (Edge S adj)

def ix (s : TState) (v : Nat) : Nat := (s.index v).getD 0

def visited (s : TState) (v : Nat) : Prop := v ∈ s.stack ∨ v ∈ s.sccs.flatten

/-- The lowlinks of the open frames. `hi` is the index of the frame above. -/
def LowInv (S : List Nat) (adj : Nat → List Nat) (s : TState) : Nat → List Frame → Prop
  | _, [] => True
  | hi, f :: fs =>
    (∃ z ∈ s.stack, ix s z = s.low f.v ∧ Reach S adj f.v z) ∧
    s.low f.v ≤ ix s f.v ∧
    (∀ y ∈ s.stack, ix s f.v < ix s y → ix s y < hi → ∀ z ∈ s.stack, Edge S adj y z → s.low f.v ≤ ix s z) ∧
    (∀ z ∈ s.stack, Edge S adj f.v z → z ∉ f.rest → s.low f.v ≤ ix s z) ∧
    LowInv S adj s (ix s f.v) fs

structure TInv (S : List Nat) (adj : Nat → List Nat) (s : TState) : Prop where
  vis : ∀ v, s.index v ≠ none ↔ visited s v
  disj : ∀ v ∈ s.stack, v ∉ s.sccs.flatten
  on : ∀ v, s.onStack v = true ↔ v ∈ s.stack
  sorted : s.stack.Pairwise fun a b => ix s b < ix s a
  lt : ∀ v ∈ s.stack, ix s v < s.counter
  sub : ∀ v, visited s v → v ∈ S
  doneNodup : s.sccs.flatten.Nodup
  classes : ∀ c ∈ s.sccs, c ≠ [] ∧ ∀ x ∈ c, ∀ y, y ∈ c ↔ Reach S adj x y ∧ Reach S adj y x
  closed : ∀ b ∈ s.sccs.flatten, ∀ z, Edge S adj b z → z ∈ s.sccs.flatten
  emitted : s.sccs.Pairwise fun c c' => ∀ x ∈ c, ∀ z ∈ c', ¬ Edge S adj x z
  gray : ∀ f ∈ s.frames, f.v ∈ s.stack
  gsorted : s.frames.Pairwise fun f g => ix s g.v < ix s f.v
  grest : ∀ f ∈ s.frames, ∀ d ∈ f.rest, d ∈ adj f.v
  black : ∀ y ∈ s.stack, (∀ f ∈ s.frames, f.v ≠ y) → ∀ z, Edge S adj y z → visited s z
  grayp : ∀ f ∈ s.frames, ∀ z, Edge S adj f.v z → z ∈ f.rest ∨ visited s z
  up : ∀ x ∈ s.stack, ∀ y ∈ s.stack, ix s x ≤ ix s y → Reach S adj x y
  down : ∀ y ∈ s.stack, ∃ f ∈ s.frames, ix s f.v ≤ ix s y ∧ Reach S adj y f.v
  lows : LowInv S adj s s.counter s.frames

/-- Indices of stacked vertices identify them. -/
theorem TInv.inj {S : List Nat} {adj : Nat → List Nat} {s : TState} (h : TInv S adj s) {a b : Nat}
    (ha : a ∈ s.stack) (hb : b ∈ s.stack) (e : ix s a = ix s b) : a = b := by
  have := h.sorted
  revert ha hb
  generalize s.stack = l at this ⊢
  intro ha hb
  induction l with
  | nil => simp at ha
  | cons x l ih =>
    have hp := List.pairwise_cons.1 this
    rcases List.mem_cons.1 ha with rfl | ha <;> rcases List.mem_cons.1 hb with rfl | hb
    · rfl
    · have := hp.1 _ hb; omega
    · rename_i ha'; have := hp.1 _ ha'; omega
    · exact ih hp.2 (by assumption) (by assumption)

/-- `LowInv` only depends on the stack, the indices and the lowlinks of the frames. -/
theorem LowInv.mono {S : List Nat} {adj : Nat → List Nat} {s t : TState} :
    ∀ {hi : Nat} {fs : List Frame}, LowInv S adj s hi fs →
    (∀ f ∈ fs, f.v ∈ s.stack ∧ f.v ∈ t.stack ∧ t.low f.v = s.low f.v) →
    (∀ y ∈ t.stack, y ∈ s.stack → ix t y = ix s y) →
    (∀ f ∈ fs, ∀ z ∈ s.stack, ix s z ≤ ix s f.v → z ∈ t.stack) →
    (∀ f ∈ fs, ∀ z ∈ t.stack, z ∉ s.stack → s.low f.v ≤ ix t z) →
    (∀ y ∈ t.stack, y ∉ s.stack → hi ≤ ix t y) →
    (∀ f ∈ fs, ix s f.v < hi) → fs.Pairwise (fun f g => ix s g.v < ix s f.v) →
    LowInv S adj t hi fs := by
  intro hi fs
  induction fs generalizing hi with
  | nil => intros; trivial
  | cons f fs ih =>
    intro h hv hix hkeep hnew hhi hlt hps
    obtain ⟨⟨z0, hz0, hz1, hz2⟩, h2, h3, h4, h5⟩ := h
    have hp := List.pairwise_cons.1 hps
    obtain ⟨hfs, hft, hfl⟩ := hv f (by simp)
    have hfx : ix t f.v = ix s f.v := hix _ hft hfs
    refine ⟨?_, ?_, ?_, ?_, ?_⟩
    · have hz0t : z0 ∈ t.stack := hkeep f (by simp) z0 hz0 (by omega)
      exact ⟨z0, hz0t, by rw [hix _ hz0t hz0, hfl]; exact hz1, hz2⟩
    · rw [hfl, hfx]; exact h2
    · intro y hy h1 h1' z hz he
      rw [hfl]
      by_cases hys : y ∈ s.stack
      · by_cases hzs : z ∈ s.stack
        · rw [hix z hz hzs]
          rw [hfx, hix y hy hys] at h1
          rw [hix y hy hys] at h1'
          exact h3 y hys h1 h1' z hzs he
        · exact hnew f (by simp) z hz hzs
      · have := hhi y hy hys
        omega
    · intro z hz he hr
      rw [hfl]
      by_cases hzs : z ∈ s.stack
      · rw [hix z hz hzs]; exact h4 z hzs he hr
      · exact hnew f (by simp) z hz hzs
    · rw [hfx]
      refine ih h5 (fun g hg => hv g (by simp [hg])) hix (fun g hg => hkeep g (by simp [hg]))
        (fun g hg => hnew g (by simp [hg])) ?_ (fun g hg => hp.1 g hg) hp.2
      intro y hy hys
      have := hhi y hy hys
      have := hlt f (by simp)
      omega

theorem LowInv.le {S : List Nat} {adj : Nat → List Nat} {s : TState} :
    ∀ {hi : Nat} {fs : List Frame}, LowInv S adj s hi fs → ∀ f ∈ fs, s.low f.v ≤ ix s f.v := by
  intro hi fs
  induction fs generalizing hi with
  | nil => intro _ f hf; simp at hf
  | cons g fs ih =>
    intro hl f hf
    rcases List.mem_cons.1 hf with rfl | hf
    · exact hl.2.1
    · exact ih hl.2.2.2.2 f hf

theorem ix_upd_self (s : TState) (v n : Nat) (t : TState) (h : t.index = upd s.index v (some n)) : ix t v = n := by
  simp [ix, h, upd]

theorem ix_upd_ne (s : TState) {v x : Nat} (n : Nat) (t : TState) (h : t.index = upd s.index v (some n)) (hx : x ≠ v) :
    ix t x = ix s x := by
  simp [ix, h, upd, hx]

/-- Opening a frame for an unvisited vertex `d`, from a state whose top frame (if any) has `d` as dependency. -/
theorem TInv.visit {S : List Nat} {adj : Nat → List Nat} {s : TState} (h : TInv S adj s) (d : Nat) (hd : d ∈ S)
    (hn : s.index d = none) (htop : ∀ f, s.frames.head? = some f → Edge S adj f.v d) : TInv S adj (visit adj s d) := by
  let t := Sched.visit adj s d
  have hnv : ¬ visited s d := fun hv => (h.vis d).2 hv hn
  have hns : d ∉ s.stack := fun hm => hnv (Or.inl hm)
  have hixd : ix t d = s.counter := ix_upd_self s d s.counter t rfl
  have hixo : ∀ x, x ≠ d → ix t x = ix s x := fun x hx => ix_upd_ne s s.counter t rfl hx
  have hixs : ∀ x ∈ s.stack, ix t x = ix s x := fun x hx => hixo x (fun e => hns (e ▸ hx))
  have hvis : ∀ v, visited t v ↔ v = d ∨ visited s v := by
    intro v
    simp only [visited, t, Sched.visit, List.mem_cons]
    exact or_assoc
  have hgd : ∀ f ∈ s.frames, f.v ≠ d := fun f hf e => hns (e ▸ h.gray f hf)
  -- everything on the stack reaches `d`
  have hreach : ∀ x ∈ s.stack, Reach S adj x d := by
    intro x hx
    obtain ⟨f, hf, h1, h2⟩ := h.down x hx
    cases hfr : s.frames with
    | nil => rw [hfr] at hf; simp at hf
    | cons f0 fs =>
      have he := htop f0 (by rw [hfr]; rfl)
      have hff0 : ix s f.v ≤ ix s f0.v := by
        rw [hfr] at hf
        rcases List.mem_cons.1 hf with rfl | hf
        · exact Nat.le_refl _
        · have := h.gsorted
          rw [hfr] at this
          exact Nat.le_of_lt ((List.pairwise_cons.1 this).1 f hf)
      have h3 := h.up f.v (h.gray f hf) f0.v (h.gray f0 (by rw [hfr]; simp)) hff0
      exact (h2.trans h3).tail he
  show TInv S adj t
  refine ⟨?_, ?_, ?_, ?_, ?_, ?_, h.doneNodup, h.classes, h.closed, h.emitted, ?_, ?_, ?_, ?_, ?_, ?_, ?_, ?_⟩
  · intro v
    rw [hvis, ← h.vis]
    simp only [t, Sched.visit, upd]
    split
    · rename_i e; simp [e]
    · rename_i e; simp [e]
  · intro v hv
    rcases List.mem_cons.1 hv with rfl | hv
    · exact fun hm => hnv (Or.inr hm)
    · exact h.disj v hv
  · intro v
    simp only [t, Sched.visit, upd, List.mem_cons]
    split
    · rename_i e; simp [e]
    · rename_i e; rw [h.on]; simp [e]
  · refine List.pairwise_cons.2 ⟨?_, ?_⟩
    · intro b hb
      rw [hixd, hixs b hb]; exact h.lt b hb
    · refine List.Pairwise.imp_of_mem ?_ h.sorted
      intro a b ha hb hab
      rw [hixs a ha, hixs b hb]; exact hab
  · intro v hv
    show ix t v < s.counter + 1
    rcases List.mem_cons.1 hv with rfl | hv
    · rw [hixd]; omega
    · rw [hixs v hv]; have := h.lt v hv; omega
  · intro v hv
    rcases (hvis v).1 hv with rfl | hv
    · exact hd
    · exact h.sub v hv
  · intro f hf
    rcases List.mem_cons.1 hf with rfl | hf
    · simp [t, Sched.visit]
    · exact List.mem_cons.2 (Or.inr (h.gray f hf))
  · refine List.pairwise_cons.2 ⟨?_, ?_⟩
    · intro f hf
      show ix t f.v < ix t d
      rw [hixd, hixs f.v (h.gray f hf)]; exact h.lt _ (h.gray f hf)
    · refine List.Pairwise.imp_of_mem ?_ h.gsorted
      intro a b ha hb hab
      rw [hixs _ (h.gray a ha), hixs _ (h.gray b hb)]; exact hab
  · intro f hf
    rcases List.mem_cons.1 hf with rfl | hf
    · exact fun _ hx => hx
    · exact h.grest f hf
  · intro y hy hg z he
    rw [hvis]
    rcases List.mem_cons.1 hy with rfl | hy
    · exact absurd rfl (hg ⟨y, adj y⟩ (by simp [t, Sched.visit]))
    · exact Or.inr (h.black y hy (fun f hf => hg f (List.mem_cons.2 (Or.inr hf))) z he)
  · intro f hf z he
    rw [hvis]
    rcases List.mem_cons.1 hf with rfl | hf
    · exact Or.inl he.2.2
    · rcases h.grayp f hf z he with hr | hr
      · exact Or.inl hr
      · exact Or.inr (Or.inr hr)
  · intro x hx y hy hxy
    rcases List.mem_cons.1 hx with rfl | hx <;> rcases List.mem_cons.1 hy with rfl | hy
    · exact .refl
    · rw [hixd, hixs y hy] at hxy
      have := h.lt y hy; omega
    · rename_i hx'; exact hreach x hx'
    · rename_i hx; rw [hixs x hx, hixs y hy] at hxy
      exact h.up x hx y hy hxy
  · intro y hy
    rcases List.mem_cons.1 hy with rfl | hy
    · exact ⟨⟨y, adj y⟩, by simp [t, Sched.visit], Nat.le_refl _, .refl⟩
    · obtain ⟨f, hf, h1, h2⟩ := h.down y hy
      exact ⟨f, List.mem_cons.2 (Or.inr hf), by rw [hixs _ (h.gray f hf), hixs y hy]; exact h1, h2⟩
  · show LowInv S adj t (s.counter + 1) (⟨d, adj d⟩ :: s.frames)
    refine ⟨⟨d, by simp [t, Sched.visit], by rw [hixd]; simp [t, Sched.visit, upd], .refl⟩, ?_, ?_, ?_, ?_⟩
    · rw [hixd]; simp [t, Sched.visit, upd]
    · intro y _ h1 h2
      simp only [hixd] at h1
      omega
    · intro z _ he hr
      exact absurd he.2.2 hr
    · show LowInv S adj t (ix t d) s.frames
      rw [hixd]
      have hstk : ∀ z ∈ t.stack, z ∉ s.stack → z = d := fun z hz hzs => (List.mem_cons.1 hz).resolve_right hzs
      refine h.lows.mono ?_ ?_ ?_ ?_ ?_ ?_ h.gsorted
      · intro f hf
        refine ⟨h.gray f hf, List.mem_cons.2 (Or.inr (h.gray f hf)), ?_⟩
        simp [t, Sched.visit, upd, hgd f hf]
      · intro y _ hys; exact hixs y hys
      · intro f _ z hz _; exact List.mem_cons.2 (Or.inr hz)
      · intro f hf z hz hzs
        rw [hstk z hz hzs, hixd]
        have h1 := h.lt _ (h.gray f hf)
        have h2 := h.lows.le f hf
        omega
      · intro y hy hys
        rw [hstk y hy hys, hixd]; exact Nat.le_refl _
      · intro f hf; exact h.lt _ (h.gray f hf)

theorem popTo_spec (s : TState) (v : Nat) (l : List Nat) (hs : l.Pairwise fun a b => ix s b < ix s a) (hv : v ∈ l) :
    (∀ x, x ∈ (popTo v l).1 ↔ x ∈ l ∧ ix s v ≤ ix s x) ∧ (∀ x, x ∈ (popTo v l).2 ↔ x ∈ l ∧ ix s x < ix s v) ∧
    (popTo v l).1 ++ (popTo v l).2 = l := by
  induction l with
  | nil => simp at hv
  | cons w l ih =>
    have hp := List.pairwise_cons.1 hs
    unfold popTo
    by_cases hw : w = v
    · subst hw
      simp only [if_true, List.mem_cons, List.not_mem_nil, or_false, List.singleton_append, and_true]
      constructor
      · intro x
        constructor
        · rintro rfl; exact ⟨Or.inl rfl, Nat.le_refl _⟩
        · rintro ⟨rfl | hx, h⟩
          · rfl
          · have := hp.1 x hx; omega
      · intro x
        constructor
        · intro hx; exact ⟨Or.inr hx, hp.1 x hx⟩
        · rintro ⟨rfl | hx, h⟩
          · omega
          · exact hx
    · have hvl : v ∈ l := (List.mem_cons.1 hv).resolve_left fun e => hw e.symm
      obtain ⟨h1, h2, h3⟩ := ih hp.2 hvl
      have hlt := hp.1 v hvl
      simp only [hw, if_false, List.mem_cons, h1, h2, List.cons_append, h3, and_true]
      constructor
      · intro x
        constructor
        · rintro (rfl | ⟨hx, h⟩)
          · exact ⟨Or.inl rfl, Nat.le_of_lt hlt⟩
          · exact ⟨Or.inr hx, h⟩
        · rintro ⟨rfl | hx, h⟩
          · exact Or.inl rfl
          · exact Or.inr ⟨hx, h⟩
      · intro x
        constructor
        · rintro ⟨hx, h⟩; exact ⟨Or.inr hx, h⟩
        · rintro ⟨rfl | hx, h⟩
          · omega
          · exact ⟨hx, h⟩

/-- Looking at a dependency outside the request or already visited, without lowlink change. -/
theorem TInv.skip {S : List Nat} {adj : Nat → List Nat} {s : TState} (h : TInv S adj s) (f : Frame) (fs : List Frame)
    (hf : s.frames = f :: fs) (d : Nat) (rest : List Nat) (hr : f.rest = d :: rest)
    (hvis : d ∈ S → visited s d) (hlow : d ∈ s.stack → s.low f.v ≤ ix s d) :
    TInv S adj { s with frames := ⟨f.v, rest⟩ :: fs } := by
  have hg := h.gray; have hgs := h.gsorted; have hgr := h.grest; have hb := h.black; have hgp := h.grayp
  have hdn := h.down; have hl := h.lows
  rw [hf] at hg hgs hgr hb hgp hdn hl
  have hfv : f.v ∈ s.stack := hg f (by simp)
  have hmono : ∀ {hi gs}, LowInv S adj s hi gs → LowInv S adj { s with frames := ⟨f.v, rest⟩ :: fs } hi gs := by
    intro hi gs hh
    induction gs generalizing hi with
    | nil => trivial
    | cons g gs ih => exact ⟨hh.1, hh.2.1, hh.2.2.1, hh.2.2.2.1, ih hh.2.2.2.2⟩
  refine ⟨h.vis, h.disj, h.on, h.sorted, h.lt, h.sub, h.doneNodup, h.classes, h.closed, h.emitted, ?_, ?_, ?_, ?_, ?_, h.up,
    ?_, ?_⟩
  · intro g hg'
    rcases List.mem_cons.1 hg' with rfl | hg'
    · exact hfv
    · exact hg g (by simp [hg'])
  · exact List.pairwise_cons.2 ⟨(List.pairwise_cons.1 hgs).1, (List.pairwise_cons.1 hgs).2⟩
  · intro g hg' x hx
    rcases List.mem_cons.1 hg' with rfl | hg'
    · exact hgr f (by simp) x (by rw [hr]; simp only at hx; simp [hx])
    · exact hgr g (by simp [hg']) x hx
  · intro y hy hng z he
    refine hb y hy (fun g hg' => ?_) z he
    rcases List.mem_cons.1 hg' with rfl | hg'
    · exact hng ⟨g.v, rest⟩ (by simp)
    · exact hng g (by simp [hg'])
  · intro g hg' z he
    rcases List.mem_cons.1 hg' with rfl | hg'
    · rcases hgp f (by simp) z he with hz | hz
      · rw [hr] at hz
        rcases List.mem_cons.1 hz with rfl | hz
        · exact Or.inr (hvis he.2.1)
        · exact Or.inl hz
      · exact Or.inr hz
    · exact hgp g (by simp [hg']) z he
  · intro y hy
    obtain ⟨g, hg', h1, h2⟩ := hdn y hy
    rcases List.mem_cons.1 hg' with rfl | hg'
    · exact ⟨⟨g.v, rest⟩, by simp, h1, h2⟩
    · exact ⟨g, by simp [hg'], h1, h2⟩
  · refine ⟨hl.1, hl.2.1, hl.2.2.1, ?_, hmono hl.2.2.2.2⟩
    intro z hz he hzr
    by_cases hzd : z = d
    · subst hzd; exact hlow hz
    · exact hl.2.2.2.1 z hz he (by rw [hr]; simp only at hzr; simp [hzd, hzr])

/-- Lowering the top lowlink to the index of a stacked vertex it reaches. -/
theorem TInv.lower {S : List Nat} {adj : Nat → List Nat} {s : TState} (h : TInv S adj s) (f : Frame) (fs : List Frame)
    (hf : s.frames = f :: fs) (i : Nat) (hi : i < s.low f.v)
    (hz : ∃ z ∈ s.stack, ix s z = i ∧ Reach S adj f.v z) : TInv S adj { s with low := upd s.low f.v i } := by
  have hgs := h.gsorted
  rw [hf] at hgs
  refine ⟨h.vis, h.disj, h.on, h.sorted, h.lt, h.sub, h.doneNodup, h.classes, h.closed, h.emitted, h.gray, h.gsorted,
    h.grest, h.black, h.grayp, h.up, h.down, ?_⟩
  have hl := h.lows
  show LowInv S adj _ s.counter s.frames
  rw [hf] at hl ⊢
  have hlow : upd s.low f.v i f.v = i := by simp [upd]
  obtain ⟨-, h2, h3, h4, h5⟩ := hl
  refine ⟨?_, ?_, ?_, ?_, ?_⟩
  · obtain ⟨z, hz1, hz2, hz3⟩ := hz
    exact ⟨z, hz1, by show ix s z = upd s.low f.v i f.v; rw [hlow]; exact hz2, hz3⟩
  · show upd s.low f.v i f.v ≤ ix s f.v
    rw [hlow]; omega
  · intro y hy h1 h1' z hz' he
    show upd s.low f.v i f.v ≤ ix s z
    rw [hlow]
    have := h3 y hy h1 h1' z hz' he
    omega
  · intro z hz' he hr
    show upd s.low f.v i f.v ≤ ix s z
    rw [hlow]
    have := h4 z hz' he hr
    omega
  · refine h5.mono ?_ (fun _ _ _ => rfl) (fun _ _ z hz' _ => hz') (fun _ _ z hz' hz'' => absurd hz' hz'')
      (fun y hy hy' => absurd hy hy') (fun g hg => (List.pairwise_cons.1 hgs).1 g hg) (List.pairwise_cons.1 hgs).2
    intro g hg
    have hm : g.v ∈ s.stack := h.gray g (by rw [hf]; simp [hg])
    refine ⟨hm, hm, ?_⟩
    have := (List.pairwise_cons.1 hgs).1 g hg
    have hne : g.v ≠ f.v := fun e => by rw [e] at this; omega
    simp [upd, hne]

/-- Closing a frame that is not the root of its component, before folding its lowlink into the parent; stated for
the parent frame `p`. -/
theorem TInv.leave {S : List Nat} {adj : Nat → List Nat} {s : TState} (h : TInv S adj s) (f : Frame) (fs : List Frame)
    (hf : s.frames = f :: fs) (hr : f.rest = []) (hlt : s.low f.v < ix s f.v) :
    ∃ p ps, fs = p :: ps ∧
      TInv S adj (if s.low f.v < s.low p.v then { s with frames := fs, low := upd s.low p.v (s.low f.v) }
        else { s with frames := fs }) := by
  have hg := h.gray; have hgs := h.gsorted; have hgr := h.grest; have hb := h.black; have hgp := h.grayp
  have hdn := h.down; have hl := h.lows
  rw [hf] at hg hgs hgr hb hgp hdn hl
  obtain ⟨⟨z0, hz0, hz1, hz2⟩, h2, h3, h4, h5⟩ := hl
  have hps := List.pairwise_cons.1 hgs
  -- a gray vertex below `f`
  obtain ⟨g0, hg0, hg1, hg2⟩ := hdn z0 hz0
  have hg0fs : g0 ∈ fs := by
    rcases List.mem_cons.1 hg0 with rfl | hh
    · omega
    · exact hh
  obtain ⟨p, ps, rfl⟩ : ∃ p ps, fs = p :: ps := by
    cases fs with
    | nil => simp at hg0fs
    | cons p ps => exact ⟨p, ps, rfl⟩
  refine ⟨p, ps, rfl, ?_⟩
  have hpf : ix s p.v < ix s f.v := hps.1 p (by simp)
  have hpst : p.v ∈ s.stack := hg p (by simp)
  have hfst : f.v ∈ s.stack := hg f (by simp)
  obtain ⟨⟨w0, hw0, hw1, hw2⟩, k2, k3, k4, k5⟩ := h5
  let m := min (s.low p.v) (s.low f.v)
  have heq : (if s.low f.v < s.low p.v then { s with frames := p :: ps, low := upd s.low p.v (s.low f.v) }
        else { s with frames := p :: ps }) = { s with frames := p :: ps, low := upd s.low p.v m } := by
    split
    · have : m = s.low f.v := by simp only [m]; omega
      rw [this]
    · have : m = s.low p.v := by simp only [m]; omega
      have hu : upd s.low p.v m = s.low := by
        funext x; simp only [upd]; split
        · rename_i e; rw [e, this]
        · rfl
      rw [hu]
  rw [heq]
  have hlow : upd s.low p.v m p.v = m := by simp [upd]
  refine ⟨h.vis, h.disj, h.on, h.sorted, h.lt, h.sub, h.doneNodup, h.classes, h.closed, h.emitted,
    fun g hg' => hg g (List.mem_cons.2 (Or.inr hg')), hps.2, fun g hg' => hgr g (List.mem_cons.2 (Or.inr hg')), ?_,
    fun g hg' => hgp g (List.mem_cons.2 (Or.inr hg')), h.up, ?_, ?_⟩
  · intro y hy hng z he
    by_cases hyf : y = f.v
    · subst hyf
      rcases hgp f (by simp) z he with hz | hz
      · rw [hr] at hz; simp at hz
      · exact hz
    · refine hb y hy (fun g hg' => ?_) z he
      rcases List.mem_cons.1 hg' with rfl | hg'
      · exact fun e => hyf e.symm
      · exact hng g hg'
  · intro y hy
    obtain ⟨g, hg', e1, e2⟩ := hdn y hy
    rcases List.mem_cons.1 hg' with rfl | hg'
    · exact ⟨g0, hg0fs, by show ix s g0.v ≤ ix s y; omega, (e2.trans hz2).trans hg2⟩
    · exact ⟨g, hg', e1, e2⟩
  · show LowInv S adj _ s.counter (p :: ps)
    refine ⟨?_, ?_, ?_, ?_, ?_⟩
    · by_cases hc : s.low f.v < s.low p.v
      · refine ⟨z0, hz0, ?_, (h.up p.v hpst f.v hfst (Nat.le_of_lt hpf)).trans hz2⟩
        show ix s z0 = upd s.low p.v m p.v
        rw [hlow, hz1]; simp only [m]; omega
      · refine ⟨w0, hw0, ?_, hw2⟩
        show ix s w0 = upd s.low p.v m p.v
        rw [hlow, hw1]; simp only [m]; omega
    · show upd s.low p.v m p.v ≤ ix s p.v
      rw [hlow]; simp only [m]; omega
    · intro y hy e1 e2 z hz he
      show upd s.low p.v m p.v ≤ ix s z
      rw [hlow]
      rcases Nat.lt_trichotomy (ix s y) (ix s f.v) with hc | hc | hc
      · have := k3 y hy e1 hc z hz he
        simp only [m]; omega
      · have : y = f.v := h.inj hy hfst hc
        subst this
        have := h4 z hz he (by rw [hr]; simp)
        simp only [m]; omega
      · have := h3 y hy hc e2 z hz he
        simp only [m]; omega
    · intro z hz he hzr
      show upd s.low p.v m p.v ≤ ix s z
      rw [hlow]
      have := k4 z hz he hzr
      simp only [m]; omega
    · have hpp := List.pairwise_cons.1 hps.2
      refine k5.mono ?_ (fun _ _ _ => rfl) (fun _ _ z hz' _ => hz') (fun _ _ z hz' hz'' => absurd hz' hz'')
        (fun y hy hy' => absurd hy hy') (fun g hg' => hpp.1 g hg') hpp.2
      intro g hg'
      have hm : g.v ∈ s.stack := hg g (by simp [hg'])
      refine ⟨hm, hm, ?_⟩
      have := hpp.1 g hg'
      have hne : g.v ≠ p.v := fun e => by rw [e] at this; omega
      simp [upd, hne]

/-- Closing the frame of a component root. -/
theorem TInv.emit {S : List Nat} {adj : Nat → List Nat} {s : TState} (h : TInv S adj s) (f : Frame) (fs : List Frame)
    (hf : s.frames = f :: fs) (hr : f.rest = []) (hlt : s.low f.v = ix s f.v) :
    TInv S adj { s with
      stack := (popTo f.v s.stack).2
      onStack := fun x => if x ∈ (popTo f.v s.stack).1 then false else s.onStack x
      sccs := s.sccs ++ [(popTo f.v s.stack).1]
      frames := fs } ∧ ∀ p ∈ fs, s.low p.v < s.low f.v := by
  have hg := h.gray; have hgs := h.gsorted; have hgr := h.grest; have hb := h.black; have hgp := h.grayp
  have hdn := h.down; have hl := h.lows
  rw [hf] at hg hgs hgr hb hgp hdn hl
  obtain ⟨-, h2, h3, h4, h5⟩ := hl
  have hps := List.pairwise_cons.1 hgs
  have hfst : f.v ∈ s.stack := hg f (by simp)
  obtain ⟨hp1, hp2, hp3⟩ := popTo_spec s f.v s.stack h.sorted hfst
  generalize hseg : (popTo f.v s.stack).1 = seg at hp1 hp3 ⊢
  generalize hrem : (popTo f.v s.stack).2 = rem at hp2 hp3 ⊢
  have hlows : ∀ p ∈ fs, s.low p.v ≤ ix s p.v := h5.le
  -- dependencies of the segment stay inside it or are finished
  have hsegclosed : ∀ y ∈ seg, ∀ z, Edge S adj y z → z ∈ seg ∨ z ∈ s.sccs.flatten := by
    intro y hy z he
    obtain ⟨hys, hyi⟩ := (hp1 y).1 hy
    have hv : visited s z := by
      by_cases hyf : y = f.v
      · subst hyf
        rcases hgp f (by simp) z he with hz | hz
        · rw [hr] at hz; simp at hz
        · exact hz
      · refine hb y hys (fun g hg' => ?_) z he
        rcases List.mem_cons.1 hg' with rfl | hg'
        · exact fun e => hyf e.symm
        · intro e
          have := hps.1 g hg'
          rw [e] at this; omega
    rcases hv with hz | hz
    · left
      refine (hp1 z).2 ⟨hz, ?_⟩
      rcases Nat.lt_or_ge (ix s f.v) (ix s y) with hc | hc
      · have := h3 y hys hc (h.lt y hys) z hz he
        omega
      · have : y = f.v := h.inj hys hfst (by omega)
        subst this
        have := h4 z hz he (by rw [hr]; simp)
        omega
    · exact Or.inr hz
  have hreach_f : ∀ y ∈ seg, Reach S adj y f.v := by
    intro y hy
    obtain ⟨hys, hyi⟩ := (hp1 y).1 hy
    obtain ⟨g, hg', e1, e2⟩ := hdn y hys
    rcases List.mem_cons.1 hg' with rfl | hg'
    · exact e2
    · exact e2.trans (h.up g.v (hg g (by simp [hg'])) f.v hfst (Nat.le_of_lt (hps.1 g hg')))
  have hf_reach : ∀ y ∈ seg, Reach S adj f.v y := by
    intro y hy
    obtain ⟨hys, hyi⟩ := (hp1 y).1 hy
    exact h.up f.v hfst y hys hyi
  have hdoneclosed : ∀ x y, Reach S adj x y → x ∈ s.sccs.flatten → y ∈ s.sccs.flatten := by
    intro x y hxy
    induction hxy with
    | refl => exact id
    | tail _ he ih => exact fun hx => h.closed _ (ih hx) _ he
  have hclosure : ∀ x y, Reach S adj x y → x ∈ seg → y ∈ seg ∨ y ∈ s.sccs.flatten := by
    intro x y hxy
    induction hxy with
    | refl => exact Or.inl
    | tail _ he ih =>
      intro hx
      rcases ih hx with hb' | hb'
      · exact hsegclosed _ hb' _ he
      · exact Or.inr (h.closed _ hb' _ he)
  have hfseg : f.v ∈ seg := (hp1 f.v).2 ⟨hfst, Nat.le_refl _⟩
  have hclass : ∀ x ∈ seg, ∀ y, y ∈ seg ↔ Reach S adj x y ∧ Reach S adj y x := by
    intro x hx y
    constructor
    · intro hy
      exact ⟨(hreach_f x hx).trans (hf_reach y hy), (hreach_f y hy).trans (hf_reach x hx)⟩
    · rintro ⟨hxy, hyx⟩
      rcases hclosure x y hxy hx with hy | hy
      · exact hy
      · exact absurd (hdoneclosed y x hyx hy) (h.disj x ((hp1 x).1 hx).1)
  have hsplit : ∀ x, x ∈ s.stack ↔ x ∈ seg ∨ x ∈ rem := by
    intro x; rw [← hp3, List.mem_append]
  have hremsub : ∀ x ∈ rem, x ∈ s.stack := fun x hx => ((hp2 x).1 hx).1
  have hflat : (s.sccs ++ [seg]).flatten = s.sccs.flatten ++ seg := by simp
  have hvis : ∀ v, (v ∈ rem ∨ v ∈ (s.sccs ++ [seg]).flatten) ↔ visited s v := by
    intro v
    rw [hflat, List.mem_append, visited, hsplit]
    constructor
    · rintro (h' | h' | h')
      · exact Or.inl (Or.inr h')
      · exact Or.inr h'
      · exact Or.inl (Or.inl h')
    · rintro ((h' | h') | h')
      · exact Or.inr (Or.inr h')
      · exact Or.inl h'
      · exact Or.inr (Or.inl h')
  have hgrem : ∀ g ∈ fs, g.v ∈ rem := fun g hg' => (hp2 g.v).2 ⟨hg g (by simp [hg']), hps.1 g hg'⟩
  refine ⟨?_, fun p hp => by have := hlows p hp; have := hps.1 p hp; omega⟩
  have hndstack : s.stack.Nodup := h.sorted.imp fun hab e => by subst e; omega
  rw [← hp3] at hndstack
  have hnd := List.nodup_append.1 hndstack
  refine ⟨?_, ?_, ?_, ?_, ?_, ?_, ?_, ?_, ?_, ?_, ?_, hps.2, ?_, ?_, ?_, ?_, ?_, ?_⟩
  · intro v
    rw [h.vis]; exact (hvis v).symm
  · intro v hv
    show v ∉ (s.sccs ++ [seg]).flatten
    rw [hflat, List.mem_append, not_or]
    refine ⟨h.disj v (hremsub v hv), fun hs => ?_⟩
    exact hnd.2.2 v hs v hv rfl
  · intro v
    show (if v ∈ seg then false else s.onStack v) = true ↔ v ∈ rem
    split
    · rename_i hs
      simp only [Bool.false_eq_true, false_iff]
      exact fun hv => hnd.2.2 v hs v hv rfl
    · rename_i hs
      rw [h.on, hsplit]; simp [hs]
  · show rem.Pairwise fun a b => ix s b < ix s a
    have := h.sorted
    rw [← hp3] at this
    exact (List.pairwise_append.1 this).2.1
  · intro v hv; exact h.lt v (hremsub v hv)
  · intro v hv; exact h.sub v ((hvis v).1 hv)
  · show ((s.sccs ++ [seg]).flatten).Nodup
    rw [hflat, List.nodup_append]
    refine ⟨h.doneNodup, hnd.1, ?_⟩
    intro a ha b hb' e
    subst e
    exact h.disj a ((hp1 a).1 hb').1 ha
  · intro c hc
    rcases List.mem_append.1 hc with hc | hc
    · exact h.classes c hc
    · simp only [List.mem_singleton] at hc
      subst hc
      exact ⟨List.ne_nil_of_mem hfseg, hclass⟩
  · intro b hb' z he
    show z ∈ (s.sccs ++ [seg]).flatten
    have hb'' : b ∈ (s.sccs ++ [seg]).flatten := hb'
    rw [hflat, List.mem_append] at hb'' ⊢
    rcases hb'' with hb'' | hb''
    · exact Or.inl (h.closed b hb'' z he)
    · exact (hsegclosed b hb'' z he).symm
  · show (s.sccs ++ [seg]).Pairwise fun c c' => ∀ x ∈ c, ∀ z ∈ c', ¬ Edge S adj x z
    rw [List.pairwise_append]
    refine ⟨h.emitted, by simp, ?_⟩
    intro c hc c' hc' x hx z hz he
    simp only [List.mem_singleton] at hc'
    subst hc'
    have hx' : x ∈ s.sccs.flatten := List.mem_flatten.2 ⟨c, hc, hx⟩
    exact h.disj z ((hp1 z).1 hz).1 (h.closed x hx' z he)
  · intro g hg'; exact hgrem g hg'
  · intro g hg'; exact hgr g (by simp [hg'])
  · intro y hy hng z he
    refine (hvis z).2 (hb y (hremsub y hy) (fun g hg' => ?_) z he)
    rcases List.mem_cons.1 hg' with rfl | hg'
    · intro e
      have := ((hp2 y).1 hy).2
      rw [e] at this; omega
    · exact hng g hg'
  · intro g hg' z he
    rcases hgp g (by simp [hg']) z he with hz | hz
    · exact Or.inl hz
    · exact Or.inr ((hvis z).2 hz)
  · intro x hx y hy hxy
    exact h.up x (hremsub x hx) y (hremsub y hy) hxy
  · intro y hy
    obtain ⟨g, hg', e1, e2⟩ := hdn y (hremsub y hy)
    rcases List.mem_cons.1 hg' with rfl | hg'
    · have h1 := ((hp2 y).1 hy).2
      omega
    · exact ⟨g, hg', e1, e2⟩
  · show LowInv S adj _ s.counter fs
    have hmono := h5.mono (t := { s with
      stack := rem
      onStack := fun x => if x ∈ seg then false else s.onStack x
      sccs := s.sccs ++ [seg]
      frames := fs })
      (fun g hg' => ⟨hg g (by simp [hg']), hgrem g hg', rfl⟩) (fun _ _ _ => rfl)
      (fun g hg' z hz hle => (hp2 z).2 ⟨hz, by have := hps.1 g hg'; omega⟩)
      (fun _ _ z hz hz' => absurd (hremsub z hz) hz') (fun z hz hz' => absurd (hremsub z hz) hz')
      (fun g hg' => hps.1 g hg') hps.2
    cases fs with
    | nil => trivial
    | cons g gs =>
      refine ⟨hmono.1, hmono.2.1, ?_, hmono.2.2.2.1, hmono.2.2.2.2⟩
      intro y hy e1 _ z hz he
      exact hmono.2.2.1 y hy e1 ((hp2 y).1 hy).2 z hz he

/-- One iteration preserves the invariant. -/
theorem TInv.step {S : List Nat} {adj : Nat → List Nat} {s : TState} (h : TInv S adj s) : TInv S adj (tstep S adj s) := by
  unfold tstep
  cases hf : s.frames with
  | nil => exact h
  | cons f fs =>
    simp only
    have hfst : f.v ∈ s.stack := h.gray f (by rw [hf]; simp)
    cases hr : f.rest with
    | cons d rest =>
      simp only
      have hedge : d ∈ S → Edge S adj f.v d := fun hd =>
        ⟨h.sub _ (Or.inl hfst), hd, h.grest f (by rw [hf]; simp) d (by rw [hr]; simp)⟩
      split
      · rename_i hd
        exact h.skip f fs hf d rest hr (fun hh => absurd hh hd)
          (fun hs => absurd (h.sub d (Or.inl hs)) hd)
      · rename_i hd
        have hd : d ∈ S := Decidable.not_not.1 hd
        cases hi : s.index d with
        | none =>
          simp only
          -- visit after shortening the frame: the shortened state satisfies everything except `grayp` for `d`
          have hnv : ¬ visited s d := fun hv => (h.vis d).2 hv hi
          have key := h.visit d hd hi (fun g hg => by
            rw [hf] at hg; simp only [List.head?_cons, Option.some.injEq] at hg; subst hg; exact hedge hd)
          have hfr : (Sched.visit adj s d).frames = ⟨d, adj d⟩ :: f :: fs := by simp [Sched.visit, hf]
          have hvd : visited (Sched.visit adj s d) d := Or.inl (by simp [Sched.visit])
          exact shorten key d f fs rest hfr hr hvd
        | some i =>
          simp only
          have hv : visited s d := (h.vis d).1 (by rw [hi]; simp)
          have hix : ix s d = i := by simp [ix, hi]
          split
          · rename_i hc
            obtain ⟨hon, hlt⟩ := hc
            have hds : d ∈ s.stack := (h.on d).1 hon
            have h1 := h.lower f fs hf i hlt ⟨d, hds, hix, .single (hedge hd)⟩
            refine h1.skip f fs hf d rest hr (fun _ => hv) (fun _ => ?_)
            show upd s.low f.v i f.v ≤ ix s d
            rw [hix]; simp [upd]
          · rename_i hc
            refine h.skip f fs hf d rest hr (fun _ => hv) (fun hs => ?_)
            rw [hix]
            have := (h.on d).2 hs
            apply Decidable.byContradiction
            intro hn
            exact hc ⟨this, by show i < s.low f.v; omega⟩
    | nil =>
      simp only
      have hidx : s.index f.v = some (ix s f.v) := by
        have := (h.vis f.v).2 (Or.inl hfst)
        cases hc : s.index f.v with
        | none => exact absurd hc this
        | some i => simp [ix, hc]
      by_cases hroot : s.index f.v = some (s.low f.v)
      · have hlow : s.low f.v = ix s f.v := by
          rw [hidx] at hroot
          simpa using hroot.symm
        obtain ⟨he, hps⟩ := h.emit f fs hf hr hlow
        simp only [hroot, if_true]
        cases fs with
        | nil => exact he
        | cons p ps =>
          have := hps p (by simp)
          simp only
          rw [if_neg (by omega)]
          exact he
      · have hlt : s.low f.v < ix s f.v := by
          have hl := h.lows
          rw [hf] at hl
          have := hl.2.1
          have hne : s.low f.v ≠ ix s f.v := fun e => hroot (by rw [e]; exact hidx)
          omega
        obtain ⟨p, ps, rfl, he⟩ := h.leave f fs hf hr hlt
        simp only [hroot, if_false]
        exact he
where
  /-- Dropping the just-visited dependency from the parent frame. -/
  shorten {S : List Nat} {adj : Nat → List Nat} {t : TState} (h : TInv S adj t) (d : Nat) (f : Frame) (fs : List Frame)
      (rest : List Nat) (hf : t.frames = ⟨d, adj d⟩ :: f :: fs) (hr : f.rest = d :: rest) (hv : visited t d) :
      TInv S adj { t with frames := ⟨d, adj d⟩ :: ⟨f.v, rest⟩ :: fs } := by
    have hg := h.gray; have hgs := h.gsorted; have hgr := h.grest; have hb := h.black; have hgp := h.grayp
    have hdn := h.down; have hl := h.lows
    rw [hf] at hg hgs hgr hb hgp hdn hl
    have hmono : ∀ {hi gs}, LowInv S adj t hi gs → LowInv S adj { t with frames := ⟨d, adj d⟩ :: ⟨f.v, rest⟩ :: fs } hi gs := by
      intro hi gs hh
      induction gs generalizing hi with
      | nil => trivial
      | cons g gs ih => exact ⟨hh.1, hh.2.1, hh.2.2.1, hh.2.2.2.1, ih hh.2.2.2.2⟩
    have hcase : ∀ (P : Frame → Prop), (∀ g ∈ (⟨d, adj d⟩ :: f :: fs : List Frame), P g) → P ⟨f.v, rest⟩ →
        ∀ g ∈ (⟨d, adj d⟩ :: ⟨f.v, rest⟩ :: fs : List Frame), P g := by
      intro P hP hf' g hg'
      rcases List.mem_cons.1 hg' with rfl | hg'
      · exact hP _ (by simp)
      · rcases List.mem_cons.1 hg' with rfl | hg'
        · exact hf'
        · exact hP g (by simp [hg'])
    refine ⟨h.vis, h.disj, h.on, h.sorted, h.lt, h.sub, h.doneNodup, h.classes, h.closed, h.emitted, ?_, ?_, ?_, ?_, ?_,
      h.up, ?_, ?_⟩
    · exact hcase (fun g => g.v ∈ t.stack) hg (hg f (by simp))
    · have h1 := List.pairwise_cons.1 hgs
      have h2 := List.pairwise_cons.1 h1.2
      exact List.pairwise_cons.2 ⟨hcase' h1.1, List.pairwise_cons.2 ⟨h2.1, h2.2⟩⟩
    · exact hcase (fun g => ∀ x ∈ g.rest, x ∈ adj g.v) hgr (fun x hx => hgr f (by simp) x (by rw [hr]; simp only at hx; simp [hx]))
    · intro y hy hng z he
      refine hb y hy (fun g hg' => ?_) z he
      rcases List.mem_cons.1 hg' with rfl | hg'
      · exact hng _ (by simp)
      · rcases List.mem_cons.1 hg' with rfl | hg'
        · exact hng ⟨g.v, rest⟩ (by simp)
        · exact hng g (by simp [hg'])
    · refine hcase (fun g => ∀ z, Edge S adj g.v z → z ∈ g.rest ∨ visited t z) hgp ?_
      intro z he
      rcases hgp f (by simp) z he with hz | hz
      · rw [hr] at hz
        rcases List.mem_cons.1 hz with rfl | hz
        · exact Or.inr hv
        · exact Or.inl hz
      · exact Or.inr hz
    · intro y hy
      obtain ⟨g, hg', e1, e2⟩ := hdn y hy
      rcases List.mem_cons.1 hg' with rfl | hg'
      · exact ⟨_, by simp, e1, e2⟩
      · rcases List.mem_cons.1 hg' with rfl | hg'
        · exact ⟨⟨g.v, rest⟩, by simp, e1, e2⟩
        · exact ⟨g, by simp [hg'], e1, e2⟩
    · obtain ⟨a1, a2, a3, a4, b1, b2, b3, b4, b5⟩ := hl
      refine ⟨a1, a2, a3, a4, b1, b2, b3, ?_, hmono b5⟩
      intro z hz he hzr
      by_cases hzd : z = d
      · subst hzd
        have : ix t f.v < ix t z := (List.pairwise_cons.1 hgs).1 f (by simp)
        show t.low f.v ≤ ix t z
        omega
      · exact b4 z hz he (by rw [hr]; simp only at hzr; simp [hzd, hzr])
  hcase' {t : TState} {d : Nat} {f : Frame} {fs : List Frame} {rest : List Nat}
      (h : ∀ g ∈ f :: fs, ix t g.v < ix t d) : ∀ g ∈ (⟨f.v, rest⟩ :: fs : List Frame), ix t g.v < ix t d := by
    intro g hg
    rcases List.mem_cons.1 hg with rfl | hg
    · exact h f (by simp)
    · exact h g (by simp [hg])

/-! ## Termination -/

/-- Work left for the vertices not visited yet. -/
def unseen (adj : Nat → List Nat) (idx : Nat → Option Nat) (S : List Nat) : Nat :=
  (S.map fun v => if idx v = none then (adj v).length + 2 else 0).sum

/-- Work left in total. -/
def work (S : List Nat) (adj : Nat → List Nat) (s : TState) : Nat :=
  unseen adj s.index S + (s.frames.map fun f => f.rest.length + 1).sum

theorem unseen_le (adj : Nat → List Nat) (idx : Nat → Option Nat) (d n : Nat) (S : List Nat) :
    unseen adj (upd idx d (some n)) S ≤ unseen adj idx S := by
  induction S with
  | nil => exact Nat.le_refl _
  | cons v S ih =>
    simp only [unseen, List.map_cons, List.sum_cons] at ih ⊢
    have : (if upd idx d (some n) v = none then (adj v).length + 2 else 0) ≤ if idx v = none then (adj v).length + 2 else 0 := by
      unfold upd
      by_cases e : v = d <;> simp [e]
    omega

theorem unseen_lt (adj : Nat → List Nat) (idx : Nat → Option Nat) (d n : Nat) (S : List Nat) (hd : d ∈ S)
    (hn : idx d = none) : unseen adj (upd idx d (some n)) S + ((adj d).length + 2) ≤ unseen adj idx S := by
  induction S with
  | nil => simp at hd
  | cons v S ih =>
    by_cases e : v = d
    · subst e
      have := unseen_le adj idx v n S
      simp only [unseen, List.map_cons, List.sum_cons, hn, if_true] at this ⊢
      simp only [upd, if_true]
      simp only [upd] at this
      simp
      omega
    · have := ih ((List.mem_cons.1 hd).resolve_left fun h => e h.symm)
      simp only [unseen, List.map_cons, List.sum_cons] at this ⊢
      have h1 : upd idx d (some n) v = idx v := by simp [upd, e]
      rw [h1]
      omega

theorem unseen_fuel (adj : Nat → List Nat) (idx : Nat → Option Nat) (S : List Nat) : unseen adj idx S ≤ fuel S adj := by
  induction S with
  | nil => exact Nat.le_refl _
  | cons v S ih =>
    simp only [unseen, fuel, List.map_cons, List.sum_cons] at ih ⊢
    split <;> omega

/-- Every iteration does some of the work. -/
theorem tstep_work (S : List Nat) (adj : Nat → List Nat) (s : TState) (h : s.frames ≠ []) :
    work S adj (tstep S adj s) < work S adj s := by
  unfold tstep
  cases hf : s.frames with
  | nil => exact absurd hf h
  | cons f fs =>
    simp only
    cases hr : f.rest with
    | cons d rest =>
      simp only
      split
      · simp only [work, hf, hr, List.map_cons, List.sum_cons, List.length_cons]; omega
      · rename_i hd
        cases hi : s.index d with
        | none =>
          simp only [work, visit, hf, hr, List.map_cons, List.sum_cons, List.length_cons]
          have := unseen_lt adj s.index d s.counter S (Decidable.not_not.1 hd) hi
          omega
        | some i =>
          simp only
          split <;> simp only [work, hf, hr, List.map_cons, List.sum_cons, List.length_cons] <;> omega
    | nil =>
      simp only
      cases fs with
      | nil =>
        have : ∀ t : TState, t.index = s.index → work S adj { t with frames := [] } < work S adj s := by
          intro t ht
          simp only [work, hf, hr, ht, List.map_cons, List.sum_cons, List.length_nil, List.map_nil, List.sum_nil]
          omega
        apply this
        split <;> rfl
      | cons p ps =>
        have : ∀ t : TState, t.index = s.index → t.frames = p :: ps → work S adj t < work S adj s := by
          intro t ht htf
          simp only [work, hf, hr, ht, htf, List.map_cons, List.sum_cons, List.length_nil]
          omega
        simp only
        split <;> split <;> exact this _ rfl rfl

theorem tloop_done (S : List Nat) (adj : Nat → List Nat) (n : Nat) (s : TState) (h : work S adj s ≤ n) :
    (tloop S adj n s).frames = [] := by
  induction n generalizing s with
  | zero =>
    cases hf : s.frames with
    | nil => exact hf
    | cons f fs =>
      simp only [work, hf, List.map_cons, List.sum_cons] at h
      omega
  | succ n ih =>
    unfold tloop
    split
    · assumption
    · rename_i hf
      have := tstep_work S adj s hf
      exact ih _ (by omega)

theorem TInv.loop {S : List Nat} {adj : Nat → List Nat} (n : Nat) {s : TState} (h : TInv S adj s) :
    TInv S adj (tloop S adj n s) := by
  induction n generalizing s with
  | zero => exact h
  | succ n ih =>
    unfold tloop
    split
    · exact h
    · exact ih h.step

theorem tstep_keeps (S : List Nat) (adj : Nat → List Nat) (s : TState) (x : Nat) (h : s.index x ≠ none) :
    (tstep S adj s).index x ≠ none := by
  unfold tstep
  cases hf : s.frames with
  | nil => exact h
  | cons f fs =>
    simp only
    cases hr : f.rest with
    | cons d rest =>
      simp only
      split
      · exact h
      · cases hi : s.index d with
        | none =>
          simp only [visit, upd]
          split
          · simp
          · exact h
        | some i => simp only; split <;> exact h
    | nil =>
      simp only
      cases fs with
      | nil => simp only; split <;> exact h
      | cons p ps => simp only; split <;> split <;> exact h

theorem tloop_keeps (S : List Nat) (adj : Nat → List Nat) (n : Nat) (s : TState) (x : Nat) (h : s.index x ≠ none) :
    (tloop S adj n s).index x ≠ none := by
  induction n generalizing s with
  | zero => exact h
  | succ n ih =>
    unfold tloop
    split
    · exact h
    · exact ih _ (tstep_keeps S adj s x h)

theorem TInv.root {S : List Nat} {adj : Nat → List Nat} {s : TState} (h : TInv S adj s) (hf : s.frames = []) (r : Nat)
    (hr : r ∈ S) : TInv S adj (troot S adj s r) ∧ (troot S adj s r).frames = [] ∧ (troot S adj s r).index r ≠ none ∧
      ∀ x, s.index x ≠ none → (troot S adj s r).index x ≠ none := by
  unfold troot
  split
  · rename_i hi
    exact ⟨h, hf, hi, fun _ hx => hx⟩
  · rename_i hi
    have hi : s.index r = none := Decidable.not_not.1 hi
    refine ⟨TInv.loop _ (h.visit r hr hi (fun f hh => by rw [hf] at hh; simp at hh)), ?_, ?_, ?_⟩
    · apply tloop_done
      have h1 := unseen_lt adj s.index r s.counter S hr hi
      have h2 := unseen_fuel adj s.index S
      simp only [work, Sched.visit, hf, List.map_cons, List.map_nil, List.sum_cons, List.sum_nil]
      omega
    · apply tloop_keeps
      simp [Sched.visit, upd]
    · intro x hx
      apply tloop_keeps
      simp only [Sched.visit, upd]
      split
      · simp
      · exact hx

theorem TInv.init (S : List Nat) (adj : Nat → List Nat) : TInv S adj {} := by
  constructor <;> simp [visited, LowInv]

theorem TInv.foldRoots {S : List Nat} {adj : Nat → List Nat} (l : List Nat) (hl : ∀ r ∈ l, r ∈ S) {s : TState}
    (h : TInv S adj s) (hf : s.frames = []) :
    TInv S adj (l.foldl (troot S adj) s) ∧ (l.foldl (troot S adj) s).frames = [] ∧
      ∀ x, x ∈ l ∨ s.index x ≠ none → (l.foldl (troot S adj) s).index x ≠ none := by
  induction l generalizing s with
  | nil => exact ⟨h, hf, fun x hx => by simpa using hx⟩
  | cons r l ih =>
    obtain ⟨h1, h2, h3, h4⟩ := h.root hf r (hl r (by simp))
    obtain ⟨i1, i2, i3⟩ := ih (fun x hx => hl x (by simp [hx])) h1 h2
    refine ⟨i1, i2, ?_⟩
    intro x hx
    simp only [List.foldl_cons]
    apply i3
    rcases hx with hx | hx
    · rcases List.mem_cons.1 hx with rfl | hx
      · exact Or.inr h3
      · exact Or.inl hx
    · exact Or.inr (h4 x hx)

/-- What the component search returns. -/
structure IsSccs (S : List Nat) (adj : Nat → List Nat) (cs : List (List Nat)) : Prop where
  /-- every requested vertex is in a component, and nothing else is -/
  mem : ∀ v, v ∈ cs.flatten ↔ v ∈ S
  /-- no vertex is listed twice -/
  nodup : cs.flatten.Nodup
  nonempty : ∀ c ∈ cs, c ≠ []
  /-- components are exactly the classes of mutual reachability -/
  classes : ∀ c ∈ cs, ∀ x ∈ c, ∀ y, y ∈ c ↔ Reach S adj x y ∧ Reach S adj y x
  /-- a component never depends on one listed after it -/
  order : cs.Pairwise fun c c' => ∀ x ∈ c, ∀ z ∈ c', ¬ Edge S adj x z

theorem tarjan_isSccs (S : List Nat) (adj : Nat → List Nat) : IsSccs S adj (tarjan S adj) := by
  obtain ⟨h, hf, hv⟩ := (TInv.init S adj).foldRoots S (fun _ h => h) rfl
  unfold tarjan
  generalize S.foldl (troot S adj) {} = s at h hf hv
  have hstack : s.stack = [] := by
    cases hs : s.stack with
    | nil => rfl
    | cons a l =>
      obtain ⟨f, hf', -⟩ := h.down a (by rw [hs]; simp)
      rw [hf] at hf'; simp at hf'
  refine ⟨?_, h.doneNodup, fun c hc => (h.classes c hc).1, fun c hc => (h.classes c hc).2, h.emitted⟩
  intro v
  constructor
  · intro hm; exact h.sub v (Or.inr hm)
  · intro hm
    rcases (h.vis v).1 (hv v (Or.inl hm)) with h' | h'
    · rw [hstack] at h'; simp at h'
    · exact h'

end Verif.Sched
