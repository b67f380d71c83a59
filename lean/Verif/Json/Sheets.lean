import Verif.Json.Model
import Mathlib.Tactic.ByContra

/-!
# C101 — the cells, sheets and names of a workbook kept as JSON

Specification: a sheet is a partial function from places to data; a write changes one place, a clear empties a rectangle.
-/
namespace Verif.Json

variable {D S A V : Type}

/-! ### Cells -/

/-- No place is listed twice. -/
def Distinct (cells : List (Entry D)) : Prop := (cells.map (·.pos)).Nodup

theorem read_none : ∀ (cells : List (Entry D)) (p : Nat × Nat), (∀ e ∈ cells, e.pos ≠ p) → read cells p = none
  | [], _, _ => rfl
  | e :: es, p, h => by
    rw [read, read_none es p (fun x hx => h x (List.mem_cons_of_mem _ hx))]
    simp only
    rw [if_neg (h e (List.mem_cons_self ..))]

theorem write_mem : ∀ (cells : List (Entry D)) (p : Nat × Nat) (d : D) (e : Entry D), e ∈ write cells p d →
    e ∈ cells ∨ e.pos = p
  | [], p, d, e, h => by
    simp only [write, List.mem_singleton] at h
    exact Or.inr (by rw [h])
  | x :: xs, p, d, e, h => by
    rw [write] at h
    split at h
    · rcases List.mem_cons.1 h with rfl | h
      · exact Or.inr rfl
      · exact Or.inl (List.mem_cons_of_mem _ h)
    · rcases List.mem_cons.1 h with rfl | h
      · exact Or.inl (List.mem_cons_self ..)
      · rcases write_mem xs p d e h with h | h
        · exact Or.inl (List.mem_cons_of_mem _ h)
        · exact Or.inr h

theorem write_distinct : ∀ (cells : List (Entry D)) (p : Nat × Nat) (d : D), Distinct cells → Distinct (write cells p d)
  | [], p, d, _ => by simp [Distinct, write]
  | x :: xs, p, d, h => by
    have h' : (∀ y ∈ xs, y.pos ≠ x.pos) ∧ Distinct xs := by
      unfold Distinct at h ⊢
      simpa [List.nodup_cons] using h
    rw [write]
    split
    · next e =>
      unfold Distinct at h ⊢
      rw [← e]
      exact h
    · next e =>
      have ih := write_distinct xs p d h'.2
      unfold Distinct at ih ⊢
      rw [List.map_cons, List.nodup_cons]
      refine ⟨?_, ih⟩
      intro hm
      obtain ⟨y, hy, hye⟩ := List.mem_map.1 hm
      rcases write_mem xs p d y hy with hy | hy
      · exact h'.1 y hy hye
      · exact e (hye ▸ hy)

theorem clear_distinct (cells : List (Entry D)) (a b : Nat × Nat) (h : Distinct cells) : Distinct (clear cells a b) :=
  List.Nodup.sublist (List.Sublist.map _ List.filter_sublist) h

theorem read_write : ∀ (cells : List (Entry D)) (p q : Nat × Nat) (d : D), Distinct cells →
    read (write cells p d) q = if q = p then some d else read cells q
  | [], p, q, d, _ => by
    simp only [write, read]
    by_cases h : q = p
    · simp [h]
    · simp [h, Ne.symm h]
  | x :: xs, p, q, d, h => by
    have h' : (∀ y ∈ xs, y.pos ≠ x.pos) ∧ Distinct xs := by
      unfold Distinct at h ⊢
      simpa [List.nodup_cons] using h
    rw [write]
    split
    · next e =>
      rw [read, read]
      by_cases hq : q = p
      · subst hq
        rw [read_none xs q (fun y hy => e ▸ h'.1 y hy)]
        simp
      · simp only [if_neg hq]
        rw [if_neg (fun h => hq h.symm), if_neg (fun h => hq (h.symm.trans e))]
    · next e =>
      rw [read, read_write xs p q d h'.2, read]
      by_cases hq : q = p
      · subst hq
        simp
      · simp only [if_neg hq]

theorem read_clear : ∀ (cells : List (Entry D)) (a b q : Nat × Nat),
    read (clear cells a b) q = if inside a b q then none else read cells q
  | [], a, b, q => by simp [clear, read]
  | x :: xs, a, b, q => by
    have ih := read_clear xs a b q
    unfold clear at ih ⊢
    rw [List.filter_cons]
    by_cases hx : inside a b x.pos
    · rw [if_neg (by simp [hx]), ih]
      by_cases hq : inside a b q
      · simp [hq]
      · rw [if_neg hq, if_neg hq, read]
        have : x.pos ≠ q := fun h => hq (h ▸ hx)
        rw [if_neg this]
        cases read xs q <;> rfl
    · rw [if_pos (by simp [hx]), read, ih, read]
      by_cases hq : inside a b q
      · have : x.pos ≠ q := fun h => hx (h ▸ hq)
        simp [hq, this]
      · simp [hq]

/-- What may be done to the cells of a sheet. -/
inductive Op (D : Type)
  | write (p : Nat × Nat) (d : D)
  | clear (a b : Nat × Nat)

def Op.run (cells : List (Entry D)) : Op D → List (Entry D)
  | .write p d => Verif.Json.write cells p d
  | .clear a b => Verif.Json.clear cells a b

/-- Specification: the same on a partial function. -/
def Op.spec (f : Nat × Nat → Option D) : Op D → Nat × Nat → Option D
  | .write p d => fun q => if q = p then some d else f q
  | .clear a b => fun q => if a.1 ≤ q.1 ∧ q.1 ≤ b.1 ∧ a.2 ≤ q.2 ∧ q.2 ≤ b.2 then none else f q

/-- **Writes and clears do what they say**: in a sheet that lists no place twice — as every sheet written from scratch —
any sequence of them gives the sheet that a partial function would be, and lists no place twice either. -/
theorem ops_spec (ops : List (Op D)) : ∀ cells : List (Entry D), Distinct cells →
    Distinct (ops.foldl Op.run cells) ∧
    ∀ q, read (ops.foldl Op.run cells) q = ops.foldl Op.spec (read cells) q := by
  induction ops with
  | nil => intro cells h; exact ⟨h, fun q => rfl⟩
  | cons o os ih =>
    intro cells h
    have hd : Distinct (Op.run cells o) := by
      cases o with
      | write p d => exact write_distinct cells p d h
      | clear a b => exact clear_distinct cells a b h
    have hr : read (Op.run cells o) = Op.spec (read cells) o := by
      funext q
      cases o with
      | write p d => exact read_write cells p q d h
      | clear a b =>
        simp only [Op.run, Op.spec, read_clear, inside, decide_eq_true_eq]
    obtain ⟨h1, h2⟩ := ih _ hd
    refine ⟨h1, fun q => ?_⟩
    rw [List.foldl_cons, List.foldl_cons, h2, hr]

example : Distinct (D := Nat) [] ∧
    read ([Op.write (1, 1) 5, .write (2, 1) 6, .write (1, 1) 7, .clear (2, 1) (9, 9)].foldl Op.run ([] : List (Entry Nat))) (1, 1)
      = some 7 := by
  refine ⟨List.nodup_nil, by decide⟩

/-- Writing a range writes its cells one after the other. -/
theorem write_range (ws : List ((Nat × Nat) × D)) : ∀ cells : List (Entry D),
    writeAll cells ws = (ws.map fun w => Op.write w.1 w.2).foldl Op.run cells := by
  induction ws with
  | nil => intro cells; rfl
  | cons w ws ih => intro cells; rw [writeAll, ih]; rfl

/-- **Reading a range is reading the sheet there**, and gives nothing elsewhere. -/
theorem range_read : ∀ (cells : List (Entry D)) (a b q : Nat × Nat),
    readRange cells a b q = if a.1 ≤ q.1 ∧ q.1 ≤ b.1 ∧ a.2 ≤ q.2 ∧ q.2 ≤ b.2 then read cells q else none
  | [], a, b, q => by simp [readRange, read]
  | x :: xs, a, b, q => by
    have ih := range_read xs a b q
    unfold readRange at ih ⊢
    rw [List.filter_cons]
    by_cases hq : a.1 ≤ q.1 ∧ q.1 ≤ b.1 ∧ a.2 ≤ q.2 ∧ q.2 ≤ b.2
    · rw [if_pos hq] at ih ⊢
      by_cases hx : inside a b x.pos
      · rw [if_pos hx, read, ih, read]
      · have : x.pos ≠ q := fun h => hx (by rw [h]; exact decide_eq_true hq)
        rw [if_neg hx, ih, read, if_neg this]
        cases read xs q <;> rfl
    · rw [if_neg hq] at ih ⊢
      by_cases hx : inside a b x.pos
      · have : x.pos ≠ q := fun h => hq (by rw [h] at hx; exact of_decide_eq_true hx)
        rw [if_pos hx, read, ih, if_neg this]
      · rw [if_neg hx, ih]

/-- **Refuted: what is written is read.** If the file lists a place twice, a write goes to the first entry and a read to
the last. -/
theorem duplicate_refuted : ∃ (cells : List (Entry Nat)) (p : Nat × Nat),
    read (write cells p 3) p = some 2 :=
  ⟨[⟨(1, 1), 1⟩, ⟨(1, 1), 2⟩], (1, 1), by decide⟩

/-- With two entries of a place or more, a write to it is never seen. -/
theorem duplicate_write : ∀ (cells : List (Entry D)) (p : Nat × Nat) (d : D),
    2 ≤ (cells.filter fun e => e.pos = p).length → read (write cells p d) p = read cells p
  | [], p, d, h => by simp at h
  | x :: xs, p, d, h => by
    rw [write]
    split
    · next e =>
      rw [List.filter_cons, if_pos (by simp [e]), List.length_cons] at h
      have : ∃ v, read xs p = some v := by
        have hp : 0 < (xs.filter fun e => e.pos = p).length := by omega
        obtain ⟨y, hy⟩ := List.exists_mem_of_length_pos hp
        clear h
        induction xs with
        | nil => simp at hy
        | cons z zs ih =>
          rw [read]
          cases hz : read zs p with
          | some v => exact ⟨v, rfl⟩
          | none =>
            by_cases ez : z.pos = p
            · exact ⟨z.data, by simp [ez]⟩
            · rw [List.filter_cons, if_neg (by simp [ez])] at hy hp
              obtain ⟨v, hv⟩ := ih hp hy
              rw [hz] at hv; cases hv
      obtain ⟨v, hv⟩ := this
      rw [read, read, hv]
    · next e =>
      rw [List.filter_cons, if_neg (by simp [e])] at h
      rw [read, duplicate_write xs p d h, read]

/-! ### Sheets -/

/-- **A renamed sheet keeps its cells under the new name**, the old name is free, other sheets stay. -/
theorem rename_spec (b : Book S) (old new : List Char) (s : S) (h : b old = some s) (hne : old ≠ new) :
    rename b old new new = some s ∧ rename b old new old = none ∧
    ∀ m, m ≠ old → m ≠ new → rename b old new m = b m := by
  unfold rename delete
  rw [h]
  refine ⟨by simp, by simp [hne], fun m h1 h2 => by simp [h1, h2]⟩

/-- Renaming a sheet that is not there, or to its own name, changes nothing. -/
theorem rename_same (b : Book S) (old new : List Char) (h : b old = none ∨ old = new) : rename b old new = b := by
  unfold rename delete
  rcases h with h | h
  · rw [h]
  · subst h
    cases hb : b old with
    | none => rfl
    | some s =>
      funext m
      by_cases hm : m = old
      · simp [hm, hb]
      · simp [hm]

/-- Creating a sheet keeps all sheets there are; deleting one keeps all others. -/
theorem create_delete (b : Book S) (n : List Char) (dflt : S) :
    (∀ m s, b m = some s → create b n dflt m = some s) ∧ (create b n dflt n).isSome = true ∧
    (∀ m, m ≠ n → create b n dflt m = b m ∧ delete b n m = b m) ∧ delete b n n = none := by
  refine ⟨?_, ?_, ?_, ?_⟩
  · intro m s h
    unfold create
    by_cases hm : m = n
    · subst hm; simp [h]
    · simp [hm, h]
  · unfold create
    cases b n <;> simp
  · intro m hm; simp [create, delete, hm]
  · simp [delete]

/-- **Refuted: renaming loses nothing.** Renamed to the name of another sheet, a sheet takes its place without notice. -/
theorem rename_refuted : ∃ (b : Book Nat) (old new : List Char), (b new).isSome = true ∧
    (∃ m, b m = some 2) ∧ ∀ m, rename b old new m ≠ some 2 :=
  ⟨fun m => if m = ['A'] then some 1 else if m = ['B'] then some 2 else none, ['A'], ['B'], by decide,
    ⟨['B'], by decide⟩, by
      intro m
      simp only [rename, delete, if_true]
      by_cases h1 : m = ['B']
      · simp [h1]
      · by_cases h2 : m = ['A'] <;> simp [h1, h2]⟩

/-! ### Names -/

/-- **Names once defined are the names read**, and so are none if the sheets have no names of their own. -/
theorem names_kept (defined legacy : List (Named A)) (h : defined ≠ [] ∨ legacy = []) :
    migrate defined legacy = defined := by
  unfold migrate
  rcases h with h | h
  · rw [if_pos h]
  · subst h
    by_cases hd : defined = []
    · simp [hd, migrateFrom]
    · rw [if_pos hd]

theorem migrateFrom_spec : ∀ (ns : List (Named A)) (seen : List (List Char × Option (List Char))),
    (∀ n ∈ migrateFrom ns seen, n ∈ ns ∧ (n.name, n.scope) ∉ seen) ∧
    ((migrateFrom ns seen).map fun n => (n.name, n.scope)).Nodup ∧
    (∀ n ∈ ns, (n.name, n.scope) ∉ seen → ∃ m ∈ migrateFrom ns seen, m.name = n.name ∧ m.scope = n.scope)
  | [], seen => by simp [migrateFrom]
  | x :: xs, seen => by
    rw [migrateFrom]
    split
    · next h =>
      obtain ⟨h1, h2, h3⟩ := migrateFrom_spec xs seen
      refine ⟨fun n hn => ⟨List.mem_cons_of_mem _ (h1 n hn).1, (h1 n hn).2⟩, h2, ?_⟩
      intro n hn hs
      rcases List.mem_cons.1 hn with rfl | hn
      · exact absurd h hs
      · exact h3 n hn hs
    · next h =>
      obtain ⟨h1, h2, h3⟩ := migrateFrom_spec xs ((x.name, x.scope) :: seen)
      refine ⟨?_, ?_, ?_⟩
      · intro n hn
        rcases List.mem_cons.1 hn with rfl | hn
        · exact ⟨List.mem_cons_self .., h⟩
        · exact ⟨List.mem_cons_of_mem _ (h1 n hn).1, fun hs => (h1 n hn).2 (List.mem_cons_of_mem _ hs)⟩
      · rw [List.map_cons, List.nodup_cons]
        refine ⟨?_, h2⟩
        intro hm
        obtain ⟨y, hy, hye⟩ := List.mem_map.1 hm
        exact (h1 y hy).2 (by rw [hye]; exact List.mem_cons_self ..)
      · intro n hn hs
        by_cases hx : (n.name, n.scope) = (x.name, x.scope)
        · exact ⟨x, List.mem_cons_self .., by injection hx with a b; exact a.symm, by injection hx with a b; exact b.symm⟩
        · rcases List.mem_cons.1 hn with rfl | hn
          · exact absurd rfl hx
          · obtain ⟨m, hm, e⟩ := h3 n hn (fun hs' => by
              rcases List.mem_cons.1 hs' with h' | h'
              · exact hx h'
              · exact hs h')
            exact ⟨m, List.mem_cons_of_mem _ hm, e⟩

/-- **Old files**: without names of the workbook, the names of the sheets are taken, each name of a scope once, none left
out, and with an address some sheet gives it. -/
theorem names_migrated (legacy : List (Named A)) :
    (∀ n ∈ migrate [] legacy, n ∈ legacy) ∧
    ((migrate [] legacy).map fun n => (n.name, n.scope)).Nodup ∧
    (∀ n ∈ legacy, ∃ m ∈ migrate [] legacy, m.name = n.name ∧ m.scope = n.scope) := by
  obtain ⟨h1, h2, h3⟩ := migrateFrom_spec legacy []
  unfold migrate
  rw [if_neg (by simp)]
  exact ⟨fun n hn => (h1 n hn).1, h2, fun n hn => h3 n hn (by simp)⟩

example : (migrate [] [⟨['x'], none, 1⟩, ⟨['x'], none, 2⟩, ⟨['x'], some ['A'], 3⟩] : List (Named Nat))
    = [⟨['x'], none, 1⟩, ⟨['x'], some ['A'], 3⟩] := by decide

/-- **Refuted: names deleted stay deleted.** A workbook whose last name is deleted has the names of its sheets back. -/
theorem names_refuted : ∃ legacy : List (Named Nat), migrate [] legacy ≠ [] :=
  ⟨[⟨['x'], none, 1⟩], by decide⟩

/-! ### Loading -/

theorem lastAt_unique : ∀ (cells : List (Cell V)) (c : Cell V), c ∈ cells →
    (cells.map fun c => (c.row, c.col)).Nodup → lastAt cells c.row c.col = some c
  | [], _, h, _ => by cases h
  | x :: xs, c, h, hn => by
    rw [List.map_cons, List.nodup_cons] at hn
    rw [lastAt]
    rcases List.mem_cons.1 h with rfl | h
    · have : lastAt xs c.row c.col = none := by
        have : ∀ ys : List (Cell V), (c.row, c.col) ∉ ys.map (fun c => (c.row, c.col)) → lastAt ys c.row c.col = none := by
          intro ys
          induction ys with
          | nil => intro _; rfl
          | cons y ys ih =>
            intro hy
            rw [List.map_cons, List.mem_cons, not_or] at hy
            rw [lastAt, ih hy.2]
            simp only
            rw [if_neg (fun h => hy.1 (by rw [h.1, h.2]))]
        exact this xs hn.1
      rw [this]
      simp
    · rw [lastAt_unique xs c h hn.2]

theorem lastAt_mem : ∀ (cells : List (Cell V)) (r k : Nat) (c : Cell V), lastAt cells r k = some c →
    c ∈ cells ∧ c.row = r ∧ c.col = k
  | [], _, _, _, h => by cases h
  | x :: xs, r, k, c, h => by
    rw [lastAt] at h
    cases hl : lastAt xs r k with
    | some d =>
      rw [hl] at h
      simp only [Option.some.injEq] at h
      subst h
      obtain ⟨h1, h2⟩ := lastAt_mem xs r k _ hl
      exact ⟨List.mem_cons_of_mem _ h1, h2⟩
    | none =>
      rw [hl] at h
      simp only at h
      split at h
      · next e =>
        injection h with h
        subst h
        exact ⟨List.mem_cons_self .., e⟩
      · cases h

/-- Cells that stand in the grid, each place once. -/
def Regular (cells : List (Cell V)) : Prop :=
  (cells.map fun c => (c.row, c.col)).Nodup ∧ ∀ c ∈ cells, 1 ≤ c.row ∧ 1 ≤ c.col

/-- **The dense path loads every cell within the rectangle**, and nothing else. -/
theorem dense_spec (d : Nat × Nat) (cells : List (Cell V)) (h : Regular cells) :
    (∀ c ∈ cells, c.row ≤ d.1 → c.col ≤ d.2 → dense d cells c.row c.col = c.value) ∧
    (∀ r k v, dense d cells r k = some v → ∃ c ∈ cells, c.row = r ∧ c.col = k ∧ c.value = some v) := by
  constructor
  · intro c hc h1 h2
    unfold dense
    rw [if_pos ⟨(h.2 c hc).1, h1, (h.2 c hc).2, h2⟩, lastAt_unique cells c hc h.1]
  · intro r k v hv
    unfold dense at hv
    split at hv
    · cases hl : lastAt cells r k with
      | none => rw [hl] at hv; cases hv
      | some c =>
        rw [hl] at hv
        obtain ⟨h1, h2, h3⟩ := lastAt_mem cells r k c hl
        exact ⟨c, h1, h2, h3, hv⟩
    · cases hv

theorem sparse_absent : ∀ (cells : List (Cell V)) (r k : Nat),
    (∀ c ∈ cells, 1 ≤ c.row ∧ 1 ≤ c.col) → (∀ c ∈ cells, ¬ (c.row = r ∧ c.col = k)) → sparse cells r k = none
  | [], _, _, _, _ => rfl
  | x :: xs, r, k, hp, h => by
    rw [sparse, sparse_absent xs r k (fun c hc => hp c (List.mem_cons_of_mem _ hc))
      (fun c hc => h c (List.mem_cons_of_mem _ hc))]
    have := hp x (List.mem_cons_self ..)
    have h2 := h x (List.mem_cons_self ..)
    simp only
    rw [if_neg (fun e => h2 ⟨by omega, by omega⟩)]

/-- **The sparse path loads every cell that has no formula**, and nothing else. -/
theorem sparse_spec : ∀ (cells : List (Cell V)), Regular cells → ∀ c ∈ cells,
    sparse cells c.row c.col = if c.formula = none then c.value else none
  | [], _, _, hc => by cases hc
  | x :: xs, h, c, hc => by
    have hn := h.1
    rw [List.map_cons, List.nodup_cons] at hn
    have hp := h.2 x (List.mem_cons_self ..)
    have hR : Regular xs := ⟨hn.2, fun y hy => h.2 y (List.mem_cons_of_mem _ hy)⟩
    rw [sparse]
    rcases List.mem_cons.1 hc with rfl | hc
    · rw [sparse_absent xs c.row c.col hR.2 (fun y hy e => hn.1 (List.mem_map.2 ⟨y, hy, by rw [e.1, e.2]⟩))]
      have e1 : c.row - 1 + 1 = c.row := by omega
      have e2 : c.col - 1 + 1 = c.col := by omega
      simp only [e1, e2, and_true]
    · have hne : ¬ (x.row = c.row ∧ x.col = c.col) := fun e => hn.1 (List.mem_map.2 ⟨c, hc, by rw [e.1, e.2]⟩)
      rw [sparse_spec xs hR c hc]
      have h3 : ¬ (x.formula = none ∧ x.row - 1 + 1 = c.row ∧ x.col - 1 + 1 = c.col) := fun e => hne ⟨by omega, by omega⟩
      rw [if_neg h3]
      cases (if c.formula = none then c.value else none) <;> rfl

theorem le_larger (a b : Nat) : a ≤ (if b > a then b else a) ∧ b ≤ (if b > a then b else a) := by
  split <;> omega

theorem dims_bound_aux : ∀ (cells : List (Cell V)) (m : Nat × Nat),
    let f := cells.foldl (fun m c => (if c.row > m.1 then c.row else m.1, if c.col > m.2 then c.col else m.2)) m
    m.1 ≤ f.1 ∧ m.2 ≤ f.2 ∧ ∀ c ∈ cells, c.row ≤ f.1 ∧ c.col ≤ f.2
  | [], m => by simp
  | x :: xs, m => by
    have ih := dims_bound_aux xs (if x.row > m.1 then x.row else m.1, if x.col > m.2 then x.col else m.2)
    simp only [List.foldl_cons] at ih ⊢
    obtain ⟨h1, h2, h3⟩ := ih
    refine ⟨?_, ?_, ?_⟩
    · exact Nat.le_trans (le_larger _ _).1 h1
    · exact Nat.le_trans (le_larger _ _).1 h2
    · intro c hc
      rcases List.mem_cons.1 hc with rfl | hc
      · exact ⟨Nat.le_trans (le_larger _ _).2 h1, Nat.le_trans (le_larger _ _).2 h2⟩
      · exact h3 c hc

/-- The rectangle found without a declared one holds all cells. -/
theorem dims_hold (cells : List (Cell V)) (c : Cell V) (hc : c ∈ cells) :
    c.row ≤ (dims none cells).1 ∧ c.col ≤ (dims none cells).2 :=
  (dims_bound_aux cells (0, 0)).2.2 c hc

/-- **Every value is loaded**: if no rectangle is declared, places are not listed twice and stand in the grid, each cell
without a formula has its value in the engine, whichever path is taken. -/
theorem load_complete (cells : List (Cell V)) (l : Limits) (h : Regular cells) (f : Nat → Nat → Option V)
    (hf : load none cells l = some f) (c : Cell V) (hc : c ∈ cells) (hn : c.formula = none) : f c.row c.col = c.value := by
  unfold load at hf
  simp only at hf
  split at hf
  · injection hf with hf
    subst hf
    split
    · rw [sparse_spec cells h c hc, if_pos hn]
    · exact (dense_spec _ cells h).1 c hc (dims_hold cells c hc).1 (dims_hold cells c hc).2
  · cases hf

example : (load none [⟨1, 1, some 5, none⟩, ⟨2, 3, some 6, none⟩] ⟨10, 10, 100, 50, 2⟩ : Option (Nat → Nat → Option Nat)).map (fun f => f 2 3)
    = some (some 6) := by decide

/-- **Nothing is loaded that is not in the file.** -/
theorem load_sound (declared : Option (Nat × Nat)) (cells : List (Cell V)) (l : Limits) (h : Regular cells)
    (f : Nat → Nat → Option V) (hf : load declared cells l = some f) (r k : Nat) (v : V) (hv : f r k = some v) :
    ∃ c ∈ cells, c.row = r ∧ c.col = k ∧ c.value = some v := by
  unfold load at hf
  simp only at hf
  split at hf
  · injection hf with hf
    subst hf
    split at hv
    · by_contra hc
      have : ∃ c ∈ cells, c.row = r ∧ c.col = k := by
        by_contra hno
        rw [sparse_absent cells r k h.2 (fun c hc e => hno ⟨c, hc, e⟩)] at hv
        cases hv
      obtain ⟨c, hcm, rfl, rfl⟩ := this
      rw [sparse_spec cells h c hcm] at hv
      split at hv
      · exact hc ⟨c, hcm, rfl, rfl, hv⟩
      · cases hv
    · exact (dense_spec _ cells h).2 r k v hv
  · cases hf

/-- **The budget**: a loaded sheet keeps the limits of rows and columns, and one loaded densely that of cells. -/
theorem load_budget (rows cols populated : Nat) (l : Limits) (h : loadOk rows cols populated l = true) :
    (rows = 0 ∨ cols = 0 ∨ (rows ≤ l.maxRows ∧ cols ≤ l.maxCols)) ∧
    (useSparse rows cols populated l = false → rows * cols ≤ l.maxLogical) ∧
    (useSparse rows cols populated l = true → max populated 1 * l.maxRatio < rows * cols) := by
  unfold loadOk at h
  rw [Bool.and_eq_true] at h
  obtain ⟨h1, h2⟩ := h
  refine ⟨?_, ?_, ?_⟩
  · unfold dimsOk at h1
    split at h1
    · next e => rcases e with e | e <;> simp [e]
    · split at h1
      · cases h1
      · split at h1
        · cases h1
        · right; right; omega
  · intro hs
    rw [hs] at h2
    by_contra hc
    simp only [Nat.not_le] at hc
    simp [hc] at h2
  · intro hs
    unfold useSparse at hs
    split at hs
    · cases hs
    · simp only [Bool.and_eq_true, decide_eq_true_eq] at hs
      exact hs.1

/-- A sheet within all limits is loaded, and one too large for its cells is not refused if it is sparse. -/
theorem load_accepted (rows cols populated : Nat) (l : Limits) (h1 : rows ≤ l.maxRows) (h2 : cols ≤ l.maxCols)
    (h3 : rows * cols ≤ l.maxLogical ∨ max populated 1 * l.maxRatio < rows * cols) :
    loadOk rows cols populated l = true := by
  unfold loadOk
  have hd : dimsOk rows cols l = true := by
    unfold dimsOk
    split
    · rfl
    · rw [if_neg (by omega), if_neg (by omega)]
  rw [hd, Bool.true_and]
  by_cases hb : rows * cols > l.maxLogical
  · have h3 : max populated 1 * l.maxRatio < rows * cols := by omega
    have hz : ¬ (rows = 0 ∨ cols = 0) := by
      rintro (e | e) <;> simp [e] at hb
    have : useSparse rows cols populated l = true := by
      unfold useSparse
      rw [if_neg hz]
      simp [h3, hb]
    rw [this]; rfl
  · simp [hb]

/-- **Refuted: a cell written is a cell loaded.** Beyond the declared rectangle, which writes do not extend, it is dropped
without notice — but not on the sparse path. -/
theorem declared_refuted : ∃ (cells : List (Cell Nat)) (d : Nat × Nat), Regular cells ∧
    (load (some d) cells ⟨10, 10, 100, 50, 2⟩).map (fun f => f 2 1) = some none ∧
    (load (some d) cells ⟨10, 10, 100, 1, 0⟩).map (fun f => f 2 1) = some (some 6) ∧
    (⟨2, 1, some 6, none⟩ : Cell Nat) ∈ cells :=
  ⟨[⟨1, 1, some 5, none⟩, ⟨2, 1, some 6, none⟩], (1, 1), by unfold Regular; decide, by decide, by decide, by decide⟩

/-- **Refuted: the path makes no difference.** The value kept with a formula is loaded on the dense path only; a cell of
row 0 is dropped there and taken for one of row 1 on the sparse path, over the cell that stands there. -/
theorem paths_refuted :
    (∃ (cells : List (Cell Nat)), Regular cells ∧
      dense (dims none cells) cells 1 1 = some 5 ∧ sparse cells 1 1 = none) ∧
    (∃ (cells : List (Cell Nat)),
      dense (dims none cells) cells 1 1 = some 5 ∧ sparse cells 1 1 = some 6) :=
  ⟨⟨[⟨1, 1, some 5, some ['A', '2']⟩], by unfold Regular; decide, by decide, by decide⟩,
   ⟨[⟨1, 1, some 5, none⟩, ⟨0, 1, some 6, none⟩], by decide, by decide⟩⟩

end Verif.Json
