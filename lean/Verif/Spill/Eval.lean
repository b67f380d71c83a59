import Verif.Spill.Rollback

/-!
# Evaluating formulas that return arrays: histories, invariants, reservations (C43, C44)
-/

namespace Verif.Spill

/-! ## Histories of an engine -/

/-- What a user and the evaluation loop do to an engine. -/
inductive EOp
  | eval (allow : Nat → Bool) (id : Nat) (r : Result)
  | value (c : Cell) (v : Val)
  | formula (c : Cell) (f : Nat)
  | insertRows (sheet before count : Nat)

def eStep (maxCells : Nat) (e : Engine) : EOp → Engine
  | .eval allow id r => (evalVertex maxCells allow e id r).1
  | .value c v => userValue e c v
  | .formula c f => userFormula e c f
  | .insertRows s b n => Spill.insertRows e s b n

def eRun (maxCells : Nat) (e : Engine) (ops : List EOp) : Engine := ops.foldl (eStep maxCells) e

/-! ## What the graph operations keep -/

/-- The store stays well formed, existing vertices stay where they are, the cache switch stays, with the cache off no
vertex carries a value, and the ownership maps stay consistent. -/
structure Keeps (g g' : Graph) : Prop where
  placed : Placed g → Placed g'
  pos : Placed g → ∀ id c, g.pos id = some c → g'.pos id = some c
  cache : g'.cache = g.cache
  quiet : g.cache = false → (∀ id, g.val id = none) → ∀ id, g'.val id = none
  reg : Reg g → Reg g'

theorem Keeps.rfl' (g : Graph) : Keeps g g := ⟨id, fun _ _ _ h => h, rfl, fun _ h => h, id⟩

theorem Keeps.trans {a b c : Graph} (h : Keeps a b) (h' : Keeps b c) : Keeps a c :=
  ⟨fun p => h'.placed (h.placed p), fun p i d hd => h'.pos (h.placed p) i d (h.pos p i d hd), h'.cache.trans h.cache,
    fun hc hv => h'.quiet (h.cache.trans hc) (h.quiet hc hv), fun p => h'.reg (h.reg p)⟩

theorem keeps_setCellValue (g : Graph) (c : Cell) (v : Val) : Keeps g (setCellValue g c v) := by
  refine ⟨fun p => placed_setCellValue p c v, fun p i d hd => pos_keep p c v i d hd, ?_, ?_,
    fun r => reg_step r (.value c v)⟩
  · unfold setCellValue; split <;> rfl
  · intro hc hv i
    unfold setCellValue; split
    · simp only [hc, put]; split
      · simp
      · exact hv i
    · simp only [hc, Bool.false_eq_true, if_false]; exact hv i

theorem keeps_setCellFormula (g : Graph) (c : Cell) (f : Nat) : Keeps g (setCellFormula g c f) := by
  refine ⟨fun p => placed_setCellFormula p c f, ?_, ?_, ?_, fun r => reg_step r (.formula c f)⟩
  · intro p i d hd
    unfold setCellFormula; split
    · exact hd
    · have := p.below _ _ hd
      simp only; rw [put_ne _ _ (by omega)]; exact hd
  · unfold setCellFormula; split <;> rfl
  · intro hc hv i
    unfold setCellFormula; split <;>
    · simp only [put]; split
      · rfl
      · exact hv i

theorem keeps_update (g : Graph) (id : Nat) (v : Val) (hp : g.pos id ≠ none) : Keeps g (updateVertexValue g id v) := by
  refine ⟨fun p => placed_update p id v, ?_, ?_, ?_, fun r => reg_step r (.result id v)⟩
  · intro _ i d hd; unfold updateVertexValue; split <;> exact hd
  · unfold updateVertexValue; split <;> rfl
  · intro hc hv i
    unfold updateVertexValue
    rw [if_pos (by simp [hc, Option.isSome_iff_ne_none, hp])]
    simp only [put]; split
    · rfl
    · exact hv i

theorem keeps_writeOps (a : Nat) (home : Cell) (ops : List (Cell × Val)) (g : Graph) (hp : Placed g)
    (ha : g.pos a = some home) : Keeps g (ops.foldl (writeOp a home) g) := by
  induction ops generalizing g with
  | nil => exact Keeps.rfl' g
  | cons op ops ih =>
    have h1 : Keeps g (writeOp a home g op) := by
      unfold writeOp; split
      · exact keeps_update _ _ _ (by rw [ha]; simp)
      · exact keeps_setCellValue _ _ _
    exact h1.trans (ih _ (h1.placed hp) (h1.pos hp _ _ ha))

/-- Two graphs that differ in the ownership maps only. -/
def SameStore (g g' : Graph) : Prop :=
  g'.cache = g.cache ∧ g'.at' = g.at' ∧ g'.pos = g.pos ∧ g'.kind = g.kind ∧ g'.fml = g.fml ∧ g'.val = g.val ∧
  g'.next = g.next

theorem SameStore.trans {a b c : Graph} (h : SameStore a b) (h' : SameStore b c) : SameStore a c := by
  unfold SameStore at *; simp_all

theorem store_disown (cs : List Cell) (g : Graph) : SameStore g (disown g cs) := by
  unfold disown
  induction cs generalizing g with
  | nil => exact ⟨rfl, rfl, rfl, rfl, rfl, rfl, rfl⟩
  | cons c cs ih => exact SameStore.trans ⟨rfl, rfl, rfl, rfl, rfl, rfl, rfl⟩ (ih _)

theorem store_own (a : Nat) (cs : List Cell) (g : Graph) : SameStore g (own g a cs) := by
  unfold own
  induction cs generalizing g with
  | nil => exact ⟨rfl, rfl, rfl, rfl, rfl, rfl, rfl⟩
  | cons c cs ih => exact SameStore.trans ⟨rfl, rfl, rfl, rfl, rfl, rfl, rfl⟩ (ih _)

theorem store_commit (g : Graph) (a : Nat) (home : Cell) (ts : List Cell) (vs : List (List Val)) :
    SameStore ((commitOps ((g.cells a).getD []) ts vs).foldl (writeOp a home) g) (commit g a home ts vs none).1 := by
  rw [commit_none]
  exact SameStore.trans (store_disown _ _)
    (SameStore.trans (store_own a ts _) ⟨rfl, rfl, rfl, rfl, rfl, rfl, rfl⟩)

theorem keeps_of_store {g g' : Graph} (h : SameStore g g') (hr : Reg g → Reg g') : Keeps g g' := by
  obtain ⟨h1, h2, h3, h4, h5, h6, h7⟩ := h
  refine ⟨fun p => ⟨?_, ?_⟩, ?_, h1, ?_, hr⟩
  · rw [h2, h3]; exact p.at_iff
  · rw [h3, h7]; exact p.below
  · intro _; rw [h3]; exact fun _ _ h => h
  · intro _ hv; rw [h6]; exact hv

/-- The same, without the ownership maps. -/
theorem keeps_commit (g : Graph) (a : Nat) (home : Cell) (ts : List Cell) (vs : List (List Val)) (allow : Nat → Bool)
    (hp : Placed g) (ha : g.pos a = some home) (hpl : plan g a ts allow = none) :
    Keeps g (commit g a home ts vs none).1 := by
  have h1 := keeps_writeOps a home (commitOps ((g.cells a).getD []) ts vs) g hp ha
  obtain ⟨s1, s2, s3, s4, s5, s6, s7⟩ := store_commit g a home ts vs
  refine ⟨fun p => ⟨?_, ?_⟩, ?_, s1.trans h1.cache, ?_, ?_⟩
  · rw [s2, s3]; exact (h1.placed p).at_iff
  · rw [s3, s7]; exact (h1.placed p).below
  · intro p; rw [s3]; exact h1.pos p
  · intro hc hv; rw [s6]; exact h1.quiet hc hv
  · intro hr
    have := reg_step hr (.spill a home ts vs allow none)
    simpa [gStep, hpl] using this

theorem clearChild_store (home : Option Cell) (g : Graph) (c : Cell) :
    (clearChild home g c).cache = g.cache ∧ (clearChild home g c).at' = g.at' ∧ (clearChild home g c).pos = g.pos ∧
    (clearChild home g c).next = g.next ∧
    (g.cache = false → (∀ id, g.val id = none) → ∀ id, (clearChild home g c).val id = none) ∧
    (∀ id, g.kind id ≠ .formula → (clearChild home g c).kind id ≠ .formula) := by
  unfold clearChild
  split
  · exact ⟨rfl, rfl, rfl, rfl, fun _ h => h, fun _ h => h⟩
  · split
    · exact ⟨rfl, rfl, rfl, rfl, fun _ h => h, fun _ h => h⟩
    · refine ⟨rfl, rfl, rfl, rfl, ?_, ?_⟩
      · intro hc hv id; simp only [put, hc]; split
        · simp
        · exact hv id
      · intro id hk; simp only [put]; split
        · simp
        · exact hk

theorem clear_store (g : Graph) (a : Nat) :
    (clear g a).cache = g.cache ∧ (clear g a).at' = g.at' ∧ (clear g a).pos = g.pos ∧ (clear g a).next = g.next ∧
    (g.cache = false → (∀ id, g.val id = none) → ∀ id, (clear g a).val id = none) ∧
    (∀ id, g.kind id ≠ .formula → (clear g a).kind id ≠ .formula) := by
  have key : ∀ (home : Option Cell) (cs : List Cell) (g : Graph),
      (cs.foldl (clearChild home) g).cache = g.cache ∧ (cs.foldl (clearChild home) g).at' = g.at' ∧
      (cs.foldl (clearChild home) g).pos = g.pos ∧ (cs.foldl (clearChild home) g).next = g.next ∧
      (g.cache = false → (∀ id, g.val id = none) → ∀ id, (cs.foldl (clearChild home) g).val id = none) ∧
      (∀ id, g.kind id ≠ .formula → (cs.foldl (clearChild home) g).kind id ≠ .formula) := by
    intro home cs
    induction cs with
    | nil => intro g; exact ⟨rfl, rfl, rfl, rfl, fun _ h => h, fun _ h => h⟩
    | cons c cs ih =>
      intro g
      obtain ⟨a1, a2, a3, a4, a5, a6⟩ := clearChild_store home g c
      obtain ⟨b1, b2, b3, b4, b5, b6⟩ := ih (clearChild home g c)
      exact ⟨b1.trans a1, b2.trans a2, b3.trans a3, b4.trans a4, fun hc hv => b5 (a1.trans hc) (a5 hc hv),
        fun id hk => b6 id (a6 id hk)⟩
  unfold clear
  cases hc : g.cells a with
  | none => exact ⟨rfl, rfl, rfl, rfl, fun _ h => h, fun _ h => h⟩
  | some cs =>
    simp only
    obtain ⟨s1, s2, s3, s4, -, s6, s7⟩ := store_disown cs { g with cells := put g.cells a none }
    obtain ⟨b1, b2, b3, b4, b5, b6⟩ := key (g.pos a) cs (disown { g with cells := put g.cells a none } cs)
    refine ⟨b1.trans s1, b2.trans s2, b3.trans s3, b4.trans s7, ?_, ?_⟩
    · intro hc hv; exact b5 (s1.trans hc) (by rw [s6]; exact hv)
    · intro id hk; exact b6 id (by rw [s4]; exact hk)

theorem keeps_clear (g : Graph) (a : Nat) : Keeps g (clear g a) := by
  obtain ⟨h1, h2, h3, h4, h5, -⟩ := clear_store g a
  refine ⟨fun p => ⟨?_, ?_⟩, ?_, h1, h5, fun r => reg_clear r a⟩
  · rw [h2, h3]; exact p.at_iff
  · rw [h3, h4]; exact p.below
  · intro _; rw [h3]; exact fun _ _ h => h

/-! ## One evaluation -/

theorem keeps_effect (e : Engine) (x : Effect) (hp : Placed e.g) (hw : ∀ id v, x = .writeCell id v → e.g.pos id ≠ none) :
    Keeps e.g (applyEffect e x).1.g := by
  cases x with
  | writeCell id v => exact keeps_update _ _ _ (hw id v rfl)
  | spillClear id =>
    simp only [applyEffect]; split
    · exact keeps_clear _ _
    · exact Keeps.rfl' _
  | spillCommit id ts rows =>
    simp only [applyEffect]; split
    · rename_i home hh
      simp only [commitAndMirror]; split
      · exact Keeps.rfl' _
      · rename_i hpl
        split
        · exact Keeps.rfl' _
        · refine keeps_commit _ _ _ _ _ (fun _ => false) hp hh ?_
          cases hq : plan e.g id ts fun _ => false <;> simp_all
    · exact Keeps.rfl' _

theorem keeps_effects (xs : List Effect) (e : Engine) (hp : Placed e.g)
    (hw : ∀ id v, Effect.writeCell id v ∈ xs → e.g.pos id ≠ none) : Keeps e.g (applyEffects e xs).1.g := by
  induction xs generalizing e with
  | nil => exact Keeps.rfl' _
  | cons x xs ih =>
    have h1 := keeps_effect e x hp (by rintro id v rfl; exact hw id v (by simp))
    simp only [applyEffects]
    cases hx : applyEffect e x with
    | mk e' b =>
      rw [hx] at h1
      cases b with
      | true =>
        refine h1.trans (ih e' (h1.placed hp) ?_)
        intro id v hm
        have := hw id v (List.mem_cons_of_mem _ hm)
        cases hpos : e.g.pos id with
        | none => exact absurd hpos this
        | some c => rw [h1.pos hp id c hpos]; simp
      | false => exact h1

theorem planArray_g (maxCells : Nat) (e : Engine) (id : Nat) (home : Cell) (rows : List (List Val))
    (allow : Nat → Bool) :
    (planArray maxCells e id home rows allow).1.g = { e.g with kind := put e.g.kind id .formula } ∧
    (planArray maxCells e id home rows allow).1.comp = e.comp ∧
    (∀ i v, Effect.writeCell i v ∈ (planArray maxCells e id home rows allow).2 → i = id) := by
  have herr : ∀ i v, Effect.writeCell i v ∈ errorEffects id → i = id := by
    intro i v h; simp [errorEffects] at h; exact h.1
  simp only [planArray]
  split
  · exact ⟨rfl, rfl, herr⟩
  · split
    · exact ⟨rfl, rfl, herr⟩
    · split
      · exact ⟨rfl, rfl, herr⟩
      · split
        · exact ⟨rfl, rfl, herr⟩
        · split
          · exact ⟨rfl, rfl, herr⟩
          · refine ⟨rfl, rfl, ?_⟩
            intro i v h
            split at h <;> simp at h <;> exact h.1

theorem keeps_eval (maxCells : Nat) (allow : Nat → Bool) (e : Engine) (id : Nat) (r : Result) (hp : Placed e.g) :
    Keeps e.g (evalVertex maxCells allow e id r).1.g := by
  unfold evalVertex
  cases hh : e.g.pos id with
  | none => exact Keeps.rfl' _
  | some home =>
    simp only
    have hw1 : ∀ (v : Val) (i : Nat) (w : Val), Effect.writeCell i w ∈ [Effect.writeCell id v] → e.g.pos i ≠ none := by
      intro v i w h; simp at h; rw [h.1, hh]; simp
    split
    · cases r with
      | scalar v =>
        refine keeps_effects _ _ hp ?_
        intro i w h
        simp only [planScalar] at h
        split at h <;> simp at h <;> (rw [h.1, hh]; simp)
      | array rows =>
        simp only
        obtain ⟨hg, -, hw⟩ := planArray_g maxCells e id home rows allow
        have hk : Keeps e.g (planArray maxCells e id home rows allow).1.g := by
          rw [hg]
          exact ⟨fun p => ⟨p.at_iff, p.below⟩, fun _ _ _ h => h, rfl, fun _ h => h, fun r => ⟨r.own, r.idx⟩⟩
        refine hk.trans (keeps_effects _ _ (hk.placed hp) ?_)
        intro i v h
        rw [hw i v h, hg, hh]; simp
    · split
      · split
        · exact keeps_effects _ _ hp (hw1 _)
        · exact Keeps.rfl' _
      · exact keeps_effects _ _ hp (hw1 _)

/-! ## Reservations along a history -/

theorem reserve_cases {m : Mgr} (h : LockInv m) (r : Region) (o : Nat) (hn : m.nextId + 1 < 2 ^ 64) :
    (¬ r.NonEmpty ∧ reserve m r o = (m, some 0)) ∨
    (r.NonEmpty ∧ (∃ l ∈ m.locks, Overlap l.region r) ∧ reserve m r o = (m, none)) ∨
    (r.NonEmpty ∧ (¬ ∃ l ∈ m.locks, Overlap l.region r) ∧
      ∃ m', reserve m r o = (m', some (m.nextId + 1)) ∧ LockInv m' ∧ m'.nextId = m.nextId + 1 ∧
        m'.locks = ⟨m.nextId + 1, o, r⟩ :: m.locks) := by
  obtain ⟨h1, -⟩ := lockInv_reserve h r o hn
  by_cases hr : r.NonEmpty
  · rw [← conflicts_iff h r hr]
    have hv : ¬ (r.rowEnd < r.rowStart || r.colEnd < r.colStart) = true := by
      unfold Region.NonEmpty at hr; simp; omega
    unfold reserve at h1 ⊢
    rw [if_neg hv] at h1 ⊢
    by_cases hc : conflicts m r = true
    · exact Or.inr (Or.inl ⟨hr, hc, by rw [if_pos hc]⟩)
    · rw [if_neg hc] at h1 ⊢
      refine Or.inr (Or.inr ⟨hr, hc, _, ?_, h1, ?_, ?_⟩)
      · simp only [bump_eq hn]
      · simp only [bump_eq hn]
      · simp only [bump_eq hn, filter_fresh h]
  · refine Or.inl ⟨hr, ?_⟩
    unfold Region.NonEmpty at hr
    unfold reserve
    rw [if_pos]
    simp; omega

/-- The reservations are consistent, the counter is at most `n`, and the reservation recorded for an owner is theirs. -/
structure ShimInv (n : Nat) (s : Shim) : Prop where
  lock : LockInv s.mgr
  next : s.mgr.nextId ≤ n
  seen : ∀ o id, s.active o = some id → id ≤ s.mgr.nextId
  mine : ∀ o id, s.active o = some id → ∀ l ∈ s.mgr.locks, l.id = id → l.owner = o

theorem ShimInv.mono {n k : Nat} {s : Shim} (h : ShimInv n s) (hk : n ≤ k) : ShimInv k s :=
  ⟨h.lock, by have := h.next; omega, h.seen, h.mine⟩

/-- The three outcomes of a reservation by an owner. -/
theorem shim_cases {n : Nat} {s : Shim} (h : ShimInv n s) (o sh r c hh w : Nat) (hn : n + 1 < 2 ^ 64) :
    (¬ (regionOf sh r c hh w).NonEmpty ∧ shimReserve s o sh r c hh w = (s, true)) ∨
    ((regionOf sh r c hh w).NonEmpty ∧ (∃ l ∈ s.mgr.locks, Overlap l.region (regionOf sh r c hh w)) ∧
      shimReserve s o sh r c hh w = (s, false)) ∨
    ((regionOf sh r c hh w).NonEmpty ∧ (¬ ∃ l ∈ s.mgr.locks, Overlap l.region (regionOf sh r c hh w)) ∧
      ∃ s', shimReserve s o sh r c hh w = (s', true) ∧ ShimInv (n + 1) s' ∧
        s'.mgr.locks = ⟨s.mgr.nextId + 1, o, regionOf sh r c hh w⟩ :: s.mgr.locks ∧
        s'.active = put s.active o (some (s.mgr.nextId + 1))) := by
  have hlt : s.mgr.nextId + 1 < 2 ^ 64 := by have := h.next; omega
  rcases reserve_cases h.lock (regionOf sh r c hh w) o hlt with ⟨h1, h2⟩ | ⟨h1, h2, h3⟩ | ⟨h1, h2, m', h3, h4, h5, h6⟩
  · refine Or.inl ⟨h1, ?_⟩
    unfold shimReserve; rw [h2]; simp
  · refine Or.inr (Or.inl ⟨h1, h2, ?_⟩)
    unfold shimReserve; rw [h3]
  · refine Or.inr (Or.inr ⟨h1, h2, ⟨m', put s.active o (some (s.mgr.nextId + 1))⟩, ?_, ?_, h6, rfl⟩)
    · unfold shimReserve; rw [h3]; simp
    · refine ⟨h4, by have := h.next; simp only; omega, ?_, ?_⟩
      · intro o' id ha
        simp only at ha ⊢
        by_cases ho : o' = o
        · subst ho; rw [put_self] at ha; have := Option.some.inj ha; omega
        · rw [put_ne _ _ ho] at ha; have := h.seen o' id ha; omega
      · intro o' id ha l hl hid
        simp only at ha hl
        rw [h6] at hl
        by_cases ho : o' = o
        · subst ho
          rw [put_self] at ha
          have := Option.some.inj ha
          rcases List.mem_cons.1 hl with rfl | hl
          · rfl
          · have := h.lock.range l hl; omega
        · rw [put_ne _ _ ho] at ha
          have := h.seen o' id ha
          rcases List.mem_cons.1 hl with rfl | hl
          · simp only at hid; omega
          · exact h.mine o' id ha l hl hid

/-- Giving back ends only the owner's own reservation. -/
theorem shimInv_release {n : Nat} {s : Shim} (h : ShimInv n s) (o : Nat) :
    ShimInv n (releaseOwner s o) ∧ (∀ l ∈ s.mgr.locks, l.owner ≠ o → l ∈ (releaseOwner s o).mgr.locks) ∧
    (∀ l ∈ (releaseOwner s o).mgr.locks, l ∈ s.mgr.locks ∧ s.active o ≠ some l.id) := by
  unfold releaseOwner
  cases ha : s.active o with
  | none => exact ⟨h, fun l hl _ => hl, fun l hl => ⟨hl, by simp⟩⟩
  | some id =>
    obtain ⟨h1, h2, h3⟩ := lockInv_release h.lock id
    refine ⟨⟨h1, by simp only; rw [h2]; exact h.next, ?_, ?_⟩, ?_, ?_⟩
    · intro o' id' ha'
      simp only at ha' ⊢
      rw [h2]
      by_cases ho : o' = o
      · subst ho; rw [put_self] at ha'; simp at ha'
      · rw [put_ne _ _ ho] at ha'; exact h.seen o' id' ha'
    · intro o' id' ha' l hl
      simp only at ha' hl
      rw [h3] at hl
      by_cases ho : o' = o
      · subst ho; rw [put_self] at ha'; simp at ha'
      · rw [put_ne _ _ ho] at ha'; exact h.mine o' id' ha' l (List.mem_filter.1 hl).1
    · intro l hl ho
      simp only
      rw [h3, List.mem_filter]
      refine ⟨hl, ?_⟩
      have : l.id ≠ id := fun hi => ho (h.mine o id ha l hl hi)
      simpa using this
    · intro l hl
      simp only at hl
      rw [h3, List.mem_filter] at hl
      have := hl.2
      refine ⟨hl.1, ?_⟩
      simp at this ⊢
      exact fun hh => this hh.symm

theorem effect_shim (e : Engine) (x : Effect) :
    (applyEffect e x).1.shim = e.shim ∨
    ∃ id ts rows, x = .spillCommit id ts rows ∧ (applyEffect e x).1.shim = releaseOwner e.shim id := by
  cases x with
  | writeCell id v => exact Or.inl rfl
  | spillClear id => simp only [applyEffect]; split <;> exact Or.inl rfl
  | spillCommit id ts rows =>
    simp only [applyEffect]; split
    · refine Or.inr ⟨id, ts, rows, rfl, ?_⟩
      simp only [commitAndMirror]; split
      · rfl
      · split <;> rfl
    · exact Or.inl rfl

theorem effects_shim_quiet (xs : List Effect) (e : Engine) (h : ∀ id ts rows, Effect.spillCommit id ts rows ∉ xs) :
    (applyEffects e xs).1.shim = e.shim := by
  induction xs generalizing e with
  | nil => rfl
  | cons x xs ih =>
    simp only [applyEffects]
    have h1 : (applyEffect e x).1.shim = e.shim := by
      rcases effect_shim e x with h1 | ⟨id, ts, rows, rfl, -⟩
      · exact h1
      · exact absurd (List.mem_cons_self) (h id ts rows)
    cases hx : applyEffect e x with
    | mk e' b =>
      rw [hx] at h1
      cases b with
      | true => exact (ih e' (fun a b c hm => h a b c (List.mem_cons_of_mem _ hm))).trans h1
      | false => exact h1

/-- The parts of the sheet an array result may cover. -/
def InSheet (home : Cell) (h w : Nat) : Prop := home.row + h ≤ 1048576 ∧ home.col + w ≤ 16384

/-- What one evaluation can do to the reservations: nothing, or reserve the rectangle of the result (which lies inside
the sheet), or reserve it and give back what the vertex holds. -/
theorem eval_shim (maxCells : Nat) (allow : Nat → Bool) (e : Engine) (id : Nat) (r : Result) :
    (evalVertex maxCells allow e id r).1.shim = e.shim ∨
    ∃ home rows, e.g.pos id = some home ∧ r = .array rows ∧ InSheet home rows.length (rows.headD []).length ∧
      let R := shimReserve e.shim id home.sheet home.row home.col rows.length (rows.headD []).length
      ((evalVertex maxCells allow e id r).1.shim = R.1 ∨
       (R.2 = true ∧ (evalVertex maxCells allow e id r).1.shim = releaseOwner R.1 id)) := by
  have herr : ∀ i ts rows, Effect.spillCommit i ts rows ∉ errorEffects id := by
    intro i ts rows h; simp [errorEffects] at h
  unfold evalVertex
  cases hh : e.g.pos id with
  | none => exact Or.inl rfl
  | some home =>
    simp only
    split
    · cases r with
      | scalar v =>
        refine Or.inl (effects_shim_quiet _ _ ?_)
        intro i ts rows h
        simp only [planScalar] at h
        split at h <;> simp at h
      | array rows =>
        simp only [planArray]
        split
        · exact Or.inl (effects_shim_quiet _ _ herr)
        · split
          · exact Or.inl (effects_shim_quiet _ _ herr)
          · rename_i hb
            right
            refine ⟨home, rows, rfl, rfl, ?_, ?_⟩
            · rw [Bool.or_eq_true, not_or] at hb
              have h1 : ¬ _ := fun h => hb.1 (decide_eq_true h)
              have h2 : ¬ _ := fun h => hb.2 (decide_eq_true h)
              unfold satAdd at h1 h2
              unfold InSheet; omega
            · split
              · rename_i s hs
                rw [hs]
                exact Or.inl (effects_shim_quiet _ _ herr)
              · rename_i s hs
                rw [hs]
                split
                · exact Or.inl (effects_shim_quiet _ _ herr)
                · split
                  · exact Or.inl (effects_shim_quiet _ _ herr)
                  · simp only [true_and]
                    have key : ∀ (e1 : Engine) (ts : List Cell) (v : Val), e1.shim = s →
                        (applyEffects e1 [.spillCommit id ts rows, .writeCell id v]).1.shim = s ∨
                        (applyEffects e1 [.spillCommit id ts rows, .writeCell id v]).1.shim = releaseOwner s id := by
                      intro e1 ts v he
                      simp only [applyEffects]
                      have h1 := effect_shim e1 (.spillCommit id ts rows)
                      cases hx : applyEffect e1 (.spillCommit id ts rows) with
                      | mk e' b =>
                        rw [hx, he] at h1
                        have h2 : e'.shim = s ∨ e'.shim = releaseOwner s id := by
                          rcases h1 with h1 | ⟨a, b, c, hab, h1⟩
                          · exact Or.inl h1
                          · simp at hab; obtain ⟨rfl, -, -⟩ := hab; exact Or.inr h1
                        cases b with
                        | true => simpa [applyEffect] using h2
                        | false => exact h2
                    split
                    · rw [List.singleton_append]
                      simp only [applyEffects]
                      generalize hE : Engine.mk _ s e.base e.comp e.user = E
                      have h1 := effect_shim E (.spillClear id)
                      cases hx : applyEffect E (.spillClear id) with
                      | mk e' b =>
                        rw [hx] at h1
                        have h2 : e'.shim = s := by
                          rcases h1 with h1 | ⟨a, b, c, hab, -⟩
                          · rw [← hE] at h1; exact h1
                          · simp at hab
                        cases b with
                        | true => exact key e' _ _ h2
                        | false => exact Or.inl h2
                    · rw [List.nil_append]
                      exact key _ _ _ rfl
    · have hq : ∀ v, (applyEffects e [.writeCell id v]).1.shim = e.shim :=
        fun v => effects_shim_quiet _ _ (by intro i ts rows h; simp at h)
      split
      · split
        · exact Or.inl (hq _)
        · exact Or.inl rfl
      · exact Or.inl (hq _)

/-! ## Invariants of histories -/

structure EInv (n : Nat) (e : Engine) : Prop where
  placed : Placed e.g
  reg : Reg e.g
  quiet : e.g.cache = false ∧ ∀ id, e.g.val id = none
  shim : ShimInv n e.shim

theorem eInv_init : EInv 0 {} :=
  ⟨placed_init _, ⟨by simp, by simp⟩, ⟨rfl, fun _ => rfl⟩, lockInv_init, Nat.le_refl _, by simp, by simp⟩

theorem shimInv_eval {n : Nat} (maxCells : Nat) (allow : Nat → Bool) (e : Engine) (id : Nat) (r : Result)
    (h : ShimInv n e.shim) (hn : n + 1 < 2 ^ 64) : ShimInv (n + 1) (evalVertex maxCells allow e id r).1.shim := by
  rcases eval_shim maxCells allow e id r with h1 | ⟨home, rows, -, -, -, h1⟩
  · rw [h1]; exact h.mono (by omega)
  · have hR : ShimInv (n + 1)
        (shimReserve e.shim id home.sheet home.row home.col rows.length (rows.headD []).length).1 := by
      rcases shim_cases h id home.sheet home.row home.col rows.length (rows.headD []).length hn with
        ⟨-, h2⟩ | ⟨-, -, h2⟩ | ⟨-, -, s', h2, h3, -⟩
      · rw [h2]; exact h.mono (by omega)
      · rw [h2]; exact h.mono (by omega)
      · rw [h2]; exact h3
    rcases h1 with h1 | ⟨-, h1⟩
    · rw [h1]; exact hR
    · rw [h1]; exact (shimInv_release hR id).1

theorem placed_insert {g : Graph} (hp : Placed g) (e : Engine) (he : e.g = g) (s b k : Nat) :
    Placed (insertRows e s b k).g := by
  subst he
  refine ⟨?_, ?_⟩
  · intro c id
    simp only [insertRows]
    constructor
    · intro h
      split at h
      · rename_i h1
        split at h
        · simp at h
        · rename_i h2
          have := (hp.at_iff _ _).1 h
          rw [this]
          simp only [Option.map_some, Option.some.injEq]
          rw [if_pos ⟨h1.1, by omega⟩]
          cases c; simp only [Cell.mk.injEq, true_and, and_true]; simp only at h1 h2; omega
      · rename_i h1
        rw [(hp.at_iff _ _).1 h]
        simp [h1]
    · intro h
      rw [Option.map_eq_some_iff] at h
      obtain ⟨d, hd, hc⟩ := h
      split at hc
      · rename_i h1
        subst hc
        simp only
        rw [if_pos ⟨h1.1, by omega⟩, if_neg (by omega)]
        rw [hp.at_iff, hd]
        cases d; simp
      · rename_i h1
        subst hc
        rw [if_neg h1, hp.at_iff]; exact hd
  · intro id c h
    simp only [insertRows] at h ⊢
    rw [Option.map_eq_some_iff] at h
    obtain ⟨d, hd, -⟩ := h
    exact hp.below _ _ hd

theorem eInv_step {n : Nat} (maxCells : Nat) {e : Engine} (h : EInv n e) (op : EOp) (hn : n + 1 < 2 ^ 64) :
    EInv (n + 1) (eStep maxCells e op) := by
  cases op with
  | eval allow id r =>
    have hk := keeps_eval maxCells allow e id r h.placed
    exact ⟨hk.placed h.placed, hk.reg h.reg, ⟨hk.cache.trans h.quiet.1, hk.quiet h.quiet.1 h.quiet.2⟩,
      shimInv_eval maxCells allow e id r h.shim hn⟩
  | value c v =>
    have hk := keeps_setCellValue e.g c v
    exact ⟨hk.placed h.placed, hk.reg h.reg, ⟨hk.cache.trans h.quiet.1, hk.quiet h.quiet.1 h.quiet.2⟩,
      h.shim.mono (by omega)⟩
  | formula c f =>
    have hk := keeps_setCellFormula e.g c f
    exact ⟨hk.placed h.placed, hk.reg h.reg, ⟨hk.cache.trans h.quiet.1, hk.quiet h.quiet.1 h.quiet.2⟩,
      h.shim.mono (by omega)⟩
  | insertRows s b k =>
    exact ⟨placed_insert h.placed e rfl s b k, ⟨h.reg.own, h.reg.idx⟩, h.quiet, h.shim.mono (by omega)⟩

theorem eInv_run (maxCells : Nat) (ops : List EOp) {n : Nat} {e : Engine} (h : EInv n e)
    (hn : n + ops.length < 2 ^ 64) : EInv (n + ops.length) (eRun maxCells e ops) := by
  unfold eRun
  induction ops generalizing n e with
  | nil => exact h
  | cons op ops ih =>
    rw [List.length_cons] at hn ⊢
    have := ih (eInv_step maxCells h op (by omega)) (by omega)
    rw [List.foldl_cons]
    have he : n + 1 + ops.length = n + (ops.length + 1) := by omega
    rw [← he]; exact this

/-- **C27** for engines: after any history of edits, evaluations and row insertions, a cell is owned by an anchor
exactly when it is in the anchor's recorded region. -/
theorem engine_owner_iff_region (maxCells : Nat) (ops : List EOp) (hn : ops.length < 2 ^ 64) (c : Cell) (a : Nat) :
    (eRun maxCells {} ops).g.owner c = some a ↔ ∃ cs, (eRun maxCells {} ops).g.cells a = some cs ∧ c ∈ cs :=
  ((eInv_run maxCells ops eInv_init (by omega)).reg).own c a

/-- **C43** for engines: after any history no two reservations in force share a cell. -/
theorem engine_locks_disjoint (maxCells : Nat) (ops : List EOp) (hn : ops.length < 2 ^ 64) (a b : Lock)
    (ha : a ∈ (eRun maxCells {} ops).shim.mgr.locks) (hb : b ∈ (eRun maxCells {} ops).shim.mgr.locks)
    (hab : a.id ≠ b.id) : ¬ Overlap a.region b.region :=
  (eInv_run maxCells ops eInv_init (by omega)).shim.lock.disj a ha b hb hab

end Verif.Spill
