/-
Property C69: evaluation in groups, for all spans, all orders of the groups, and what is read afterwards.
-/
import Verif.Template.MemoThms

namespace Verif.Template

variable {V W L K : Type}

/-! ### Keys -/

/-- The constant of a part. -/
def Atom.const? : Atom V L → Option V
  | .const v => some v
  | _ => none

/-- The value of a part. -/
def Atom.value? : Atom V L → Option L
  | .value l => some l
  | _ => none

/-- The distance in rows of a part. -/
def Atom.row? : Atom V L → Option Int
  | .row d => some d
  | _ => none

/-- The distance in columns of a part. -/
def Atom.col? : Atom V L → Option Int
  | .col d => some d
  | _ => none

theorem filterMap_map_some {A B : Type} {g : A → B} {f : B → Option A} (h : ∀ a, f (g a) = some a) (l : List A) : (l.map g).filterMap f = l := by
  induction l with
  | nil => rfl
  | cons a l ih => rw [List.map_cons, List.filterMap_cons_some (h a), ih]

theorem filterMap_map_none {A B C : Type} {g : A → B} {f : B → Option C} (h : ∀ a, f (g a) = none) (l : List A) : (l.map g).filterMap f = [] := by
  induction l with
  | nil => rfl
  | cons a l ih => rw [List.map_cons, List.filterMap_cons_none (h a), ih]

/-- Equal keys have equal parts. -/
theorem key_parts {a a' : List V} {b b' : List L} {x x' y y' : Int} {r c : Bool}
    (h : a.map Atom.const ++ b.map Atom.value ++ (if r then [Atom.row x] else []) ++ (if c then [Atom.col y] else []) =
      a'.map Atom.const ++ b'.map Atom.value ++ (if r then [Atom.row x'] else []) ++ (if c then [Atom.col y'] else [])) :
    a = a' ∧ b = b' ∧ (r = true → x = x') ∧ (c = true → y = y') := by
  have h1 := congrArg (List.filterMap Atom.const?) h
  have h2 := congrArg (List.filterMap Atom.value?) h
  have h3 := congrArg (List.filterMap Atom.row?) h
  have h4 := congrArg (List.filterMap Atom.col?) h
  simp only [List.filterMap_append, filterMap_map_some (g := Atom.const (V := V) (L := L)) (f := Atom.const?) (fun _ => rfl),
    filterMap_map_none (g := Atom.value (V := V) (L := L)) (f := Atom.const?) (fun _ => rfl)] at h1
  simp only [List.filterMap_append, filterMap_map_none (g := Atom.const (V := V) (L := L)) (f := Atom.value?) (fun _ => rfl),
    filterMap_map_some (g := Atom.value (V := V) (L := L)) (f := Atom.value?) (fun _ => rfl)] at h2
  simp only [List.filterMap_append, filterMap_map_none (g := Atom.const (V := V) (L := L)) (f := Atom.row?) (fun _ => rfl),
    filterMap_map_none (g := Atom.value (V := V) (L := L)) (f := Atom.row?) (fun _ => rfl)] at h3
  simp only [List.filterMap_append, filterMap_map_none (g := Atom.const (V := V) (L := L)) (f := Atom.col?) (fun _ => rfl),
    filterMap_map_none (g := Atom.value (V := V) (L := L)) (f := Atom.col?) (fun _ => rfl)] at h4
  cases r <;> cases c <;> simp [List.filterMap_cons, Atom.const?, Atom.value?, Atom.row?, Atom.col?] at h1 h2 h3 h4 <;> simp [*]

/-- Cells of a new span with one key have results with one literal. -/
theorem same_key {w : World V W} {literal : W → L} {byValue : Fn → Nat → Bool} (hw : w.Honest literal byValue) {T : Fm (Nat × V)} {o q : Nat}
    {consts : Nat → Nat → Option (List V)} {row col row' col' : Nat} {k : List (Atom V L)} {v v' : W}
    (h : (Task.fresh byValue T o q consts).key w literal row col = some k) (h' : (Task.fresh byValue T o q consts).key w literal row' col' = some k)
    (hv : (Task.fresh byValue T o q consts).result w row col = some v) (hv' : (Task.fresh byValue T o q consts).result w row' col' = some v') :
    literal v = literal v' := by
  simp only [Task.key, Task.fresh, bind, Option.bind_eq_some_iff] at h h'
  simp only [Task.result, Task.fresh, bind, Option.bind_eq_some_iff] at hv hv'
  obtain ⟨c1, e1, s1, f1, h⟩ := h
  obtain ⟨c2, e2, s2, f2, h'⟩ := h'
  obtain ⟨c3, e3, G, g1, hv⟩ := hv
  obtain ⟨c4, e4, G', g2, hv'⟩ := hv'
  rw [e1] at e3
  rw [e2] at e4
  cases e3
  cases e4
  cases hv
  cases hv'
  have hk := Option.some.inj (h.trans h'.symm)
  rw [show s1.map (fun v => Atom.value (V := V) (literal v)) = (s1.map literal).map Atom.value by rw [List.map_map]; rfl,
    show s2.map (fun v => Atom.value (V := V) (literal v)) = (s2.map literal).map Atom.value by rw [List.map_map]; rfl] at hk
  obtain ⟨k1, k2, k3, k4⟩ := key_parts hk
  subst k1
  exact (eval_same hw T .value G G' g1 g2 ⟨s1, s2, f1, f2, k2⟩ (fun k => by have := k3 k; omega) (fun k => by have := k4 k; omega)).1

/-- Cells of a moved span, whose key holds both distances, have one key only if they are the same. -/
theorem forced_key {w : World V W} {literal : W → L} {t : Task V} (hr : t.restRow = true) (hc : t.restCol = true) {row col row' col' : Nat}
    {k : List (Atom V L)} (h : t.key w literal row col = some k) (h' : t.key w literal row' col' = some k) : row = row' ∧ col = col' := by
  simp only [Task.key, bind, Option.bind_eq_some_iff] at h h'
  obtain ⟨c1, e1, s1, f1, h⟩ := h
  obtain ⟨c2, e2, s2, f2, h'⟩ := h'
  have hk := Option.some.inj (h.trans h'.symm)
  rw [show s1.map (fun v => Atom.value (V := V) (literal v)) = (s1.map literal).map Atom.value by rw [List.map_map]; rfl,
    show s2.map (fun v => Atom.value (V := V) (literal v)) = (s2.map literal).map Atom.value by rw [List.map_map]; rfl] at hk
  obtain ⟨-, -, k3, k4⟩ := key_parts hk
  have := k3 hr
  have := k4 hc
  omega

/-! ### Groups -/

/-- Groups of cells with their keys. -/
def Group.Ok (key : Place → Option K) (g : Group K) : Prop := g.first ∈ g.places ∧ ∀ p ∈ g.places, key p = some g.key

theorem insertGroup_ok [DecidableEq K] {key : Place → Option K} {k : K} {p : Place} (hp : key p = some k) {gs : List (Group K)}
    (h : ∀ g ∈ gs, g.Ok key) : (∀ g ∈ insertGroup k p gs, g.Ok key) ∧ ((insertGroup k p gs).flatMap Group.places).Perm (p :: gs.flatMap Group.places) := by
  induction gs with
  | nil =>
    refine ⟨fun g hg => ?_, .refl _⟩
    rw [insertGroup, List.mem_singleton] at hg
    subst hg
    exact ⟨List.mem_singleton.2 rfl, fun p' hp' => by rw [List.mem_singleton.1 hp', hp]⟩
  | cons g gs ih =>
    rw [insertGroup]
    split
    · rename_i hk
      constructor
      · intro g' hg'
        rcases List.mem_cons.1 hg' with rfl | hg'
        · have := h g (List.mem_cons_self ..)
          refine ⟨List.mem_append_left _ this.1, fun p' hp' => ?_⟩
          rcases List.mem_append.1 hp' with hp' | hp'
          · exact this.2 p' hp'
          · rw [List.mem_singleton.1 hp', hp, hk]
        · exact h g' (List.mem_cons_of_mem _ hg')
      · simp only [List.flatMap_cons, List.append_assoc]
        exact List.perm_middle
    · obtain ⟨h1, h2⟩ := ih fun g' hg' => h g' (List.mem_cons_of_mem _ hg')
      constructor
      · intro g' hg'
        rcases List.mem_cons.1 hg' with rfl | hg'
        · exact h _ (List.mem_cons_self ..)
        · exact h1 g' hg'
      · simp only [List.flatMap_cons]
        exact (List.Perm.append_left _ h2).trans List.perm_middle

theorem groups_ok [DecidableEq K] {key : Place → Option K} {ps : List Place} {gs gs' : List (Group K)} (h : ∀ g ∈ gs, g.Ok key)
    (hg : groups key ps gs = some gs') : (∀ g ∈ gs', g.Ok key) ∧ (gs'.flatMap Group.places).Perm (ps ++ gs.flatMap Group.places) := by
  induction ps generalizing gs with
  | nil =>
    cases hg
    exact ⟨h, .refl _⟩
  | cons p ps ih =>
    simp only [groups, bind, Option.bind_eq_some_iff] at hg
    obtain ⟨k, hk, hg⟩ := hg
    obtain ⟨h1, h2⟩ := insertGroup_ok hk h
    obtain ⟨h3, h4⟩ := ih h1 hg
    exact ⟨h3, h4.trans ((List.Perm.append_left _ h2).trans List.perm_middle)⟩

/-! ### Values -/

theorem writeEach_values {result : Place → Option W} {literal : W → L} {format : W → Option Nat} {ps : List Place} {y : Writes L}
    (h : writeEach result literal format ps = some y) :
    y.values.map some = ps.map (fun p => (result p).map fun v => (p, literal v)) ∧ y.formats.map some = ps.map (fun p => (result p).map fun v => (p, format v)) := by
  induction ps generalizing y with
  | nil =>
    cases h
    exact ⟨rfl, rfl⟩
  | cons p ps ih =>
    simp only [writeEach, bind, Option.bind_eq_some_iff] at h
    obtain ⟨v, h1, rest, h2, h⟩ := h
    cases h
    obtain ⟨k1, k2⟩ := ih h2
    exact ⟨by simp [h1, k1], by simp [h1, k2]⟩

theorem writeGroups_values {result : Place → Option W} {literal : W → L} {format : W → Option Nat} {gs : List (Group K)} {x : Writes L}
    (h : writeGroups result literal format gs = some x)
    (hsame : ∀ g ∈ gs, ∀ p ∈ g.places, (result p).map literal = (result g.first).map literal) :
    x.values.map some = (gs.flatMap Group.places).map (fun p => (result p).map fun v => (p, literal v)) ∧
      x.formats.map some = gs.map (fun g => (result g.first).map fun v => (g.first, format v)) := by
  induction gs generalizing x with
  | nil =>
    cases h
    exact ⟨rfl, rfl⟩
  | cons g gs ih =>
    simp only [writeGroups, bind, Option.bind_eq_some_iff] at h
    obtain ⟨v, h1, rest, h2, h⟩ := h
    cases h
    obtain ⟨k1, k2⟩ := ih h2 fun g' hg' => hsame g' (List.mem_cons_of_mem _ hg')
    refine ⟨?_, by simp [h1, k2]⟩
    simp only [List.map_append, List.map_map, List.flatMap_cons, k1]
    congr 1
    apply List.map_congr_left
    intro p hp
    have := hsame g (List.mem_cons_self ..) p hp
    rw [h1] at this
    cases hr : result p with
    | none => rw [hr] at this; cases this
    | some u =>
      rw [hr] at this
      have : literal u = literal v := Option.some.inj this
      simp [this]

theorem perm_of_map_some {A : Type} {l l' : List A} (h : (l.map some).Perm (l'.map some)) : l.Perm l' := by
  have := h.filterMap id
  rwa [filterMap_map_some (g := some) (f := id) (fun _ => rfl), filterMap_map_some (g := some) (f := id) (fun _ => rfl)] at this

/-- Evaluation in groups writes the values that each cell has on its own, in another order, whatever the order of the groups. -/
theorem memo_perm [DecidableEq K] {key : Place → Option K} {result : Place → Option W} {literal : W → L} {format : W → Option Nat}
    (hkey : ∀ p p' k v v', key p = some k → key p' = some k → result p = some v → result p' = some v' → literal v = literal v')
    {ps : List Place} {gs gs' : List (Group K)} {x y : Writes L} (hg : groups key ps [] = some gs) (hp : gs'.Perm gs)
    (hx : writeGroups result literal format gs' = some x) (hy : writeEach result literal format ps = some y) : x.values.Perm y.values := by
  obtain ⟨h1, h2⟩ := groups_ok (fun g hg => (by cases hg)) hg
  rw [List.flatMap_nil, List.append_nil] at h2
  have hper : (gs'.flatMap Group.places).Perm ps := (hp.flatMap_right _).trans h2
  obtain ⟨k1, -⟩ := writeEach_values hy
  have hres : ∀ p ∈ ps, (result p).isSome = true := by
    intro p hp
    have : (result p).map (fun v => (p, literal v)) ∈ y.values.map some := k1 ▸ List.mem_map_of_mem hp
    obtain ⟨z, -, hz⟩ := List.mem_map.1 this
    cases hr : result p with
    | none => rw [hr] at hz; cases hz
    | some v => rfl
  have hsame : ∀ g ∈ gs', ∀ p ∈ g.places, (result p).map literal = (result g.first).map literal := by
    intro g hg p hpg
    have hok := h1 g (hp.mem_iff.1 hg)
    have m1 : p ∈ ps := hper.mem_iff.1 (List.mem_flatMap.2 ⟨g, hg, hpg⟩)
    have m2 : g.first ∈ ps := hper.mem_iff.1 (List.mem_flatMap.2 ⟨g, hg, hok.1⟩)
    obtain ⟨v, hv⟩ := Option.isSome_iff_exists.1 (hres p m1)
    obtain ⟨v', hv'⟩ := Option.isSome_iff_exists.1 (hres _ m2)
    rw [hv, hv', Option.map_some, Option.map_some, hkey p g.first g.key v v' (hok.2 p hpg) (hok.2 _ hok.1) hv hv']
  obtain ⟨l1, -⟩ := writeGroups_values hx hsame
  apply perm_of_map_some
  rw [l1, k1]
  exact hper.map _

theorem lastFor_mem {B : Type} {l : List (Place × B)} (hn : (l.map Prod.fst).Nodup) {p : Place} {b : B} : lastFor p l = some b ↔ (p, b) ∈ l := by
  unfold lastFor
  rw [Option.map_eq_some_iff]
  constructor
  · rintro ⟨⟨p', b'⟩, h, rfl⟩
    have h1 := List.mem_of_find?_eq_some h
    have h2 := List.find?_some h
    have h2 : p' = p := of_decide_eq_true h2
    subst h2
    exact List.mem_reverse.1 h1
  · intro h
    cases hf : l.reverse.find? (fun x => decide (x.1 = p)) with
    | none =>
      have := List.find?_eq_none.1 hf (p, b) (List.mem_reverse.2 h)
      simp at this
    | some z =>
      have h1 := List.mem_reverse.1 (List.mem_of_find?_eq_some hf)
      have h2 := List.find?_some hf
      have h2 : z.1 = p := of_decide_eq_true h2
      refine ⟨z, rfl, ?_⟩
      obtain ⟨i, hi, e1⟩ := List.getElem_of_mem h1
      obtain ⟨j, hj, e2⟩ := List.getElem_of_mem h
      have : i = j := by
        refine (List.getElem?_inj (by simpa using hi) hn).1 ?_
        rw [List.getElem?_map, List.getElem?_map, List.getElem?_eq_getElem hi, List.getElem?_eq_getElem hj, e1, e2]
        simp [h2]
      subst this
      rw [← e1, e2]

theorem lastFor_none {B : Type} {l : List (Place × B)} {p : Place} : lastFor p l = none ↔ p ∉ l.map Prod.fst := by
  unfold lastFor
  rw [Option.map_eq_none_iff, List.find?_eq_none]
  simp only [List.mem_reverse, decide_eq_true_eq, List.mem_map, not_exists, not_and]

theorem lastFor_perm {B : Type} {l l' : List (Place × B)} (h : l.Perm l') (hn : (l'.map Prod.fst).Nodup) (p : Place) : lastFor p l = lastFor p l' := by
  have hn' : (l.map Prod.fst).Nodup := (h.map _).nodup_iff.2 hn
  apply Option.ext
  intro b
  rw [lastFor_mem hn', lastFor_mem hn, h.mem_iff]

theorem writeEach_places {result : Place → Option W} {literal : W → L} {format : W → Option Nat} {ps : List Place} {y : Writes L}
    (h : writeEach result literal format ps = some y) : y.values.map Prod.fst = ps ∧ y.formats.map Prod.fst = ps := by
  induction ps generalizing y with
  | nil =>
    cases h
    exact ⟨rfl, rfl⟩
  | cons p ps ih =>
    simp only [writeEach, bind, Option.bind_eq_some_iff] at h
    obtain ⟨v, h1, rest, h2, h⟩ := h
    cases h
    obtain ⟨k1, k2⟩ := ih h2
    exact ⟨by simp [k1], by simp [k2]⟩

/-- A new span that is evaluated in groups: every cell of the sheet has the value that it has when each cell is evaluated on its own. -/
theorem memo_values [DecidableEq V] [DecidableEq L] {w : World V W} {literal : W → L} {byValue : Fn → Nat → Bool} (hw : w.Honest literal byValue)
    {format : W → Option Nat} {T : Fm (Nat × V)} {o q : Nat} {consts : Nat → Nat → Option (List V)} {ps : List Place} (hn : ps.Nodup)
    {gs gs' : List (Group (List (Atom V L)))} {x y : Writes L}
    (hg : groups (fun p => (Task.fresh byValue T o q consts).key w literal p.1 p.2) ps [] = some gs) (hp : gs'.Perm gs)
    (hx : writeGroups (fun p => (Task.fresh byValue T o q consts).result w p.1 p.2) literal format gs' = some x)
    (hy : writeEach (fun p => (Task.fresh byValue T o q consts).result w p.1 p.2) literal format ps = some y) (s : Sheet L) :
    (s.apply x).value = (s.apply y).value := by
  have := memo_perm (fun p p' k v v' h h' hv hv' => same_key hw h h' hv hv') hg hp hx hy
  funext p
  simp only [Sheet.apply]
  rw [lastFor_perm this (by rw [(writeEach_places hy).1]; exact hn)]

/-- A moved span that is evaluated in groups, whatever its functions. -/
theorem memo_values_moved [DecidableEq V] [DecidableEq L] {w : World V W} {literal : W → L} {format : W → Option Nat} {t : Task V}
    (hr : t.restRow = true) (hc : t.restCol = true) {ps : List Place} (hn : ps.Nodup) {gs gs' : List (Group (List (Atom V L)))} {x y : Writes L}
    (hg : groups (fun p => t.key w literal p.1 p.2) ps [] = some gs) (hp : gs'.Perm gs)
    (hx : writeGroups (fun p => t.result w p.1 p.2) literal format gs' = some x) (hy : writeEach (fun p => t.result w p.1 p.2) literal format ps = some y)
    (s : Sheet L) : (s.apply x).value = (s.apply y).value := by
  have := memo_perm (fun p p' k v v' h h' hv hv' => by
    obtain ⟨e1, e2⟩ := forced_key hr hc h h'
    rw [e1, e2, hv'] at hv
    cases hv
    rfl) hg hp hx hy
  funext p
  simp only [Sheet.apply]
  rw [lastFor_perm this (by rw [(writeEach_places hy).1]; exact hn)]

/-! ### Formats -/

theorem writeGroups_firsts {result : Place → Option W} {literal : W → L} {format : W → Option Nat} {gs : List (Group K)} {x : Writes L}
    (h : writeGroups result literal format gs = some x) : x.formats.map Prod.fst = gs.map Group.first := by
  induction gs generalizing x with
  | nil =>
    cases h
    rfl
  | cons g gs ih =>
    simp only [writeGroups, bind, Option.bind_eq_some_iff] at h
    obtain ⟨v, h1, rest, h2, h⟩ := h
    cases h
    simp [ih h2]

/-- A cell that is not the first of its group keeps the format it had before. -/
theorem memo_format_kept {result : Place → Option W} {literal : W → L} {format : W → Option Nat} {gs : List (Group K)} {x : Writes L}
    (hx : writeGroups result literal format gs = some x) {p : Place} (hp : p ∉ gs.map Group.first) (s : Sheet L) :
    (s.apply x).derived p = s.derived p := by
  simp only [Sheet.apply]
  rw [lastFor_none.2 (by rw [writeGroups_firsts hx]; exact hp)]

/-- What is read in a cell that is not the first of its group: its value, with the format it had before instead of that of its result.  Evaluated on
its own, it would have the format of its result. -/
theorem memo_reads [DecidableEq V] [DecidableEq L] {w : World V W} {literal : W → L} {byValue : Fn → Nat → Bool} (hw : w.Honest literal byValue)
    {format : W → Option Nat} {T : Fm (Nat × V)} {o q : Nat} {consts : Nat → Nat → Option (List V)} {ps : List Place} (hn : ps.Nodup)
    {gs gs' : List (Group (List (Atom V L)))} {x y : Writes L}
    (hg : groups (fun p => (Task.fresh byValue T o q consts).key w literal p.1 p.2) ps [] = some gs) (hp : gs'.Perm gs)
    (hx : writeGroups (fun p => (Task.fresh byValue T o q consts).result w p.1 p.2) literal format gs' = some x)
    (hy : writeEach (fun p => (Task.fresh byValue T o q consts).result w p.1 p.2) literal format ps = some y) (s : Sheet L)
    (egress : L → Option Nat → L) {p : Place} (hmem : p ∈ ps) (hfirst : p ∉ gs.map Group.first) :
    ∃ v, (Task.fresh byValue T o q consts).result w p.1 p.2 = some v ∧ (s.apply x).read egress p = some (egress (literal v) (s.derived p)) ∧
      (s.apply y).read egress p = some (egress (literal v) ((format v).filter fun n => n ≠ 0)) := by
  obtain ⟨k1, k2⟩ := writeEach_values hy
  obtain ⟨l1, l2⟩ := writeEach_places hy
  have hv := memo_values hw hn hg hp hx hy s
  have hf := memo_format_kept hx (p := p) (fun h => hfirst ((hp.map _).mem_iff.1 h)) s
  have m1 : ((Task.fresh byValue T o q consts).result w p.1 p.2).map (fun v => (p, literal v)) ∈ y.values.map some :=
    k1 ▸ List.mem_map_of_mem (f := fun p : Place => ((Task.fresh byValue T o q consts).result w p.1 p.2).map fun v => (p, literal v)) hmem
  have m2 : ((Task.fresh byValue T o q consts).result w p.1 p.2).map (fun v => (p, format v)) ∈ y.formats.map some :=
    k2 ▸ List.mem_map_of_mem (f := fun p : Place => ((Task.fresh byValue T o q consts).result w p.1 p.2).map fun v => (p, format v)) hmem
  cases hr : (Task.fresh byValue T o q consts).result w p.1 p.2 with
  | none =>
    rw [hr] at m1
    obtain ⟨z, -, hz⟩ := List.mem_map.1 m1
    cases hz
  | some v =>
    rw [hr] at m1 m2
    simp only [Option.map_some, List.mem_map, Option.some.injEq, exists_eq_right] at m1 m2
    have n1 := (lastFor_mem (l1 ▸ hn)).2 m1
    have n2 := (lastFor_mem (l2 ▸ hn)).2 m2
    refine ⟨v, rfl, ?_, ?_⟩
    · unfold Sheet.read
      rw [hv, hf]
      simp [Sheet.apply, n1]
    · unfold Sheet.read
      simp [Sheet.apply, n1, n2]

/-! ### One value -/

/-- A span whose cells have one value: every cell gets the value of the stored formula, but only the first gets its format. -/
theorem one_reads {v : W} {literal : W → L} {format : W → Option Nat} {p : Place} {ps : List Place} (hn : (p :: ps).Nodup) (s : Sheet L)
    (egress : L → Option Nat → L) : (s.apply (writeOne v literal format (p :: ps))).read egress p = some (egress (literal v) ((format v).filter fun n => n ≠ 0)) ∧
      ∀ p' ∈ ps, (s.apply (writeOne v literal format (p :: ps))).read egress p' = some (egress (literal v) (s.derived p')) := by
  have hm : (((p :: ps).map fun p => (p, literal v)).map Prod.fst).Nodup := by
    rw [List.map_map]
    simpa [Function.comp_def] using hn
  have hv : ∀ p' ∈ p :: ps, lastFor p' ((p :: ps).map fun p => (p, literal v)) = some (literal v) := fun p' hp' =>
    (lastFor_mem hm).2 (List.mem_map.2 ⟨p', hp', rfl⟩)
  constructor
  · have h1 := hv p (List.mem_cons_self ..)
    have h2 : lastFor p [(p, format v)] = some (format v) := by simp [lastFor]
    simp only [Sheet.read, Sheet.apply, writeOne, h1, h2]
    simp
  · intro p' hp'
    have h1 := hv p' (List.mem_cons_of_mem _ hp')
    have h2 : lastFor p' [(p, format v)] = none := by
      rw [lastFor_none]
      simp only [List.map_cons, List.map_nil, List.mem_singleton]
      rintro rfl
      exact (List.nodup_cons.1 hn).1 hp'
    simp only [Sheet.read, Sheet.apply, writeOne, h1, h2]
    simp

end Verif.Template
