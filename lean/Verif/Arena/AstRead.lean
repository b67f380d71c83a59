/-
What is read back of a stored formula (property C63).
-/
import Verif.Arena.Ast

namespace Verif.Arena

variable {F : Type} {C : Chrono F} {E : Ext3}

/-- Reading the formula gives `e` (given fuel enough: the code has none). -/
def ReadsAst (N : Names) (a : Asts F E) (id : Nat) (e : Ast C E) : Prop := ∃ n, ∀ m, n ≤ m → rebuild C N m a id = some (some e)

/-- The sheet of a reference, written with the registry `N` and read with `N'`. -/
def imageSheet (N N' : Names) (s : Option String) : Option String :=
  s.map fun s => match N.getId s with | some i => N'.name i | none => s

/-- What a reference becomes. -/
def imageRef (N N' : Names) : RefT E → RefT E
  | .cell sheet row col ra ca => .cell (imageSheet N N' sheet) row col ra ca
  | .range sheet sr sc er ec abs =>
    .range (imageSheet N N' sheet) (readStart (sr.getD 0)) (readStart (sc.getD 0)) (readEnd (er.getD (2 ^ 32 - 1)))
      (readEnd (ec.getD (2 ^ 32 - 1))) abs
  | .external raw book sheet kind => .external raw book sheet kind
  | .named name => .named name
  | .table name spec => .table name spec
  | .cell3D first last row col ra ca => .cell3D first last row col ra ca
  | .range3D first last sr sc er ec abs =>
    .range3D first last (readStart (sr.getD 0)) (readStart (sc.getD 0)) (readEnd (er.getD (2 ^ 32 - 1)))
      (readEnd (ec.getD (2 ^ 32 - 1))) abs

/-- The rows that are read from the elements of an array. -/
def arrange {α : Type} (l : List α) (rows cols : Nat) : List (List α) :=
  (List.range rows).map fun r => (List.range cols).filterMap fun c => l[(r * cols + c) % 2 ^ 16]?

mutual

/-- What a formula becomes. -/
def imageAst (N N' : Names) : Ast C E → Ast C E
  | .lit v => .lit (image v)
  | .omitted => .omitted
  | .ref o r => .ref o (imageRef N N' r)
  | .unary op e => .unary op (imageAst N N' e)
  | .binary op l r => .binary op (imageAst N N' l) (imageAst N N' r)
  | .func name args => .func name ((imageList N N' args).take (args.length % 2 ^ 16))
  | .array rows => .array (arrange (imageAstRows N N' rows) (rows.length % 2 ^ 16) ((rows.headD []).length % 2 ^ 16))
  | .call _ _ => .lit (image callError)

/-- The arguments. -/
def imageList (N N' : Names) : List (Ast C E) → List (Ast C E)
  | [] => []
  | e :: es => imageAst N N' e :: imageList N N' es

/-- The elements of the rows, one row after the other. -/
def imageAstRows (N N' : Names) : List (List (Ast C E)) → List (Ast C E)
  | [] => []
  | row :: rows => imageList N N' row ++ imageAstRows N N' rows

end

/-- A later state. -/
structure AExt (a a' : Asts F E) : Prop where
  values : Ext a.values a'.values
  nodes : a.nodes <+: a'.nodes
  args : a.args <+: a'.args
  elems : a.elems <+: a'.elems
  strings : a.strings <+: a'.strings
  specs : a.specs <+: a'.specs

/-- Lengths fit into 32 bits. -/
structure Asts.Fits (a : Asts F E) : Prop where
  values : a.values.Fits
  nodes : a.nodes.length < 2 ^ 32
  args : a.args.length < 2 ^ 32
  elems : a.elems.length < 2 ^ 32
  specs : a.specs.length < 2 ^ 32

/-- The invariant: the table of hashes leads to nodes that exist. -/
structure Asts.Ok (a : Asts F E) : Prop where
  values : a.values.Ok
  dedup : ∀ h id, a.dedup h = some id → id < a.nodes.length

theorem AExt.refl (a : Asts F E) : AExt a a :=
  ⟨Ext.refl _, List.prefix_refl _, List.prefix_refl _, List.prefix_refl _, List.prefix_refl _, List.prefix_refl _⟩

theorem AExt.trans {a b c : Asts F E} (h : AExt a b) (k : AExt b c) : AExt a c :=
  ⟨h.1.trans k.1, h.2.trans k.2, h.3.trans k.3, h.4.trans k.4, h.5.trans k.5, h.6.trans k.6⟩

theorem AExt.fits {a b : Asts F E} (h : AExt a b) (k : b.Fits) : a.Fits :=
  ⟨h.values.fits k.1, Nat.lt_of_le_of_lt h.nodes.length_le k.2, Nat.lt_of_le_of_lt h.args.length_le k.3,
    Nat.lt_of_le_of_lt h.elems.length_le k.4, Nat.lt_of_le_of_lt h.specs.length_le k.5⟩

theorem Asts.new_ok (F : Type) (E : Ext3) : (Asts.new F E).Ok := ⟨Arena.new_ok F, fun _ _ h => by cases h⟩

/-! ### Parts -/

theorem insertNode_ext {H : Hashes E} {a a' : Asts F E} {n : Node E} {id : Nat} (h : insertNode H a n = some (a', id)) : AExt a a' := by
  unfold insertNode at h
  have key : AExt a { a with
      nodes := a.nodes ++ [n]
      dedup := fun h => if h = H.node n then some (a.nodes.length % 2 ^ 32) else a.dedup h } :=
    { AExt.refl a with nodes := List.prefix_append _ _ }
  dsimp only at h
  split at h
  · cases h; exact key
  · split at h
    · cases h
    · split at h
      · cases h; exact AExt.refl _
      · cases h; exact key

theorem insertNode_spec {H : Hashes E} {a a' : Asts F E} {n : Node E} {id : Nat} (hok : a.Ok) (h : insertNode H a n = some (a', id))
    (hf : a'.Fits) : a'.Ok ∧ a'.nodes[id]? = some n := by
  unfold insertNode at h
  have key : ∀ b : Asts F E, b = { a with
      nodes := a.nodes ++ [n]
      dedup := fun h => if h = H.node n then some (a.nodes.length % 2 ^ 32) else a.dedup h } → b.Fits →
      b.Ok ∧ b.nodes[a.nodes.length % 2 ^ 32]? = some n := by
    rintro b rfl hb
    have hl : a.nodes.length % 2 ^ 32 = a.nodes.length := Nat.mod_eq_of_lt (Nat.lt_of_le_of_lt (by simp) hb.nodes)
    refine ⟨⟨hok.values, ?_⟩, by rw [hl]; exact last_get _ _⟩
    intro h' id' hd
    dsimp only at hd
    rw [List.length_append]
    split at hd
    · cases hd; rw [hl]; simp
    · have := hok.dedup _ _ hd; omega
  dsimp only at h
  split at h
  · cases h; exact key _ rfl hf
  · next i hd =>
    split at h
    · cases h
    · next n' hn =>
      split at h
      · next e => cases h; subst e; exact ⟨hok, hn⟩
      · cases h; exact key _ rfl hf

/-- Inserting a node never fails. -/
theorem insertNode_some {H : Hashes E} {a : Asts F E} (hok : a.Ok) (n : Node E) : ∃ a' id, insertNode H a n = some (a', id) := by
  unfold insertNode
  dsimp only
  split
  · exact ⟨_, _, rfl⟩
  · next i hd =>
    have := hok.dedup _ _ hd
    rw [List.getElem?_eq_getElem this]
    dsimp only
    split <;> exact ⟨_, _, rfl⟩

theorem internStr_spec (a : Asts F E) (s : String) : AExt a (internStr a s).1 ∧ (internStr a s).1.strings[(internStr a s).2]? = some s ∧
    (a.Ok → (internStr a s).1.Ok) :=
  ⟨{ AExt.refl a with strings := (intern_spec _ _).1 }, (intern_spec _ _).2, fun h => ⟨h.values, h.dedup⟩⟩

theorem internSpec_ext (H : Hashes E) (a : Asts F E) (s : E.Spec) : AExt a (internSpec H a s).1 ∧ (a.Ok → (internSpec H a s).1.Ok) := by
  have key : AExt a { a with
      specs := a.specs ++ [s]
      specDedup := fun h => if h = H.spec s then some (a.specs.length % 2 ^ 32) else a.specDedup h } :=
    { AExt.refl a with specs := List.prefix_append _ _ }
  unfold internSpec
  dsimp only
  split
  · exact ⟨key, fun h => ⟨h.values, h.dedup⟩⟩
  · split
    · exact ⟨AExt.refl _, id⟩
    · exact ⟨key, fun h => ⟨h.values, h.dedup⟩⟩

theorem internSpec_get (H : Hashes E) (a : Asts F E) (s : E.Spec) (hf : (internSpec H a s).1.Fits) :
    (internSpec H a s).1.specs[(internSpec H a s).2]? = some s := by
  have key : ∀ b : Asts F E, b = { a with
      specs := a.specs ++ [s]
      specDedup := fun h => if h = H.spec s then some (a.specs.length % 2 ^ 32) else a.specDedup h } → b.Fits →
      b.specs[a.specs.length % 2 ^ 32]? = some s := by
    rintro b rfl hb
    have hl : a.specs.length % 2 ^ 32 = a.specs.length := Nat.mod_eq_of_lt (Nat.lt_of_le_of_lt (by simp) hb.specs)
    rw [hl]
    exact last_get _ _
  cases hd : a.specDedup (H.spec s) with
  | none =>
    have e : internSpec H a s = ({ a with
      specs := a.specs ++ [s]
      specDedup := fun h => if h = H.spec s then some (a.specs.length % 2 ^ 32) else a.specDedup h }, a.specs.length % 2 ^ 32) := by
      unfold internSpec; rw [hd]
    rw [e] at hf ⊢
    exact key _ rfl hf
  | some i =>
    by_cases hs : a.specs[i]? = some s
    · have e : internSpec H a s = (a, i) := by unfold internSpec; rw [hd]; dsimp only; rw [if_pos hs]
      rw [e]
      exact hs
    · have e : internSpec H a s = ({ a with
        specs := a.specs ++ [s]
        specDedup := fun h => if h = H.spec s then some (a.specs.length % 2 ^ 32) else a.specDedup h }, a.specs.length % 2 ^ 32) := by
        unfold internSpec; rw [hd]; dsimp only; rw [if_neg hs]
      rw [e] at hf ⊢
      exact key _ rfl hf

theorem internSheet_spec (N : Names) (a : Asts F E) (s : Option String) : AExt a (internSheet N a s).1 ∧ (a.Ok → (internSheet N a s).1.Ok) ∧
    ∀ N' a'', AExt (internSheet N a s).1 a'' → readSheet N' a'' (internSheet N a s).2 = some (imageSheet N N' s) := by
  unfold internSheet imageSheet
  cases s with
  | none => exact ⟨AExt.refl _, id, fun _ _ _ => rfl⟩
  | some s =>
    dsimp only
    cases hg : N.getId s with
    | some i => exact ⟨AExt.refl _, id, fun N' a'' _ => by simp [readSheet, hg]⟩
    | none =>
      obtain ⟨h1, h2, h3⟩ := internStr_spec a s
      refine ⟨h1, h3, fun N' a'' hx => ?_⟩
      dsimp only [readSheet]
      rw [prefix_get hx.strings h2]
      simp [hg]

theorem convertRef_spec (H : Hashes E) (N : Names) (a : Asts F E) (r : RefT E) :
    AExt a (convertRef H N a r).1 ∧ (a.Ok → (convertRef H N a r).1.Ok) ∧
      ∀ N' a'', (convertRef H N a r).1.Fits → AExt (convertRef H N a r).1 a'' →
        readRef N' a'' (convertRef H N a r).2 = some (imageRef N N' r) := by
  cases r with
  | cell sheet row col ra ca =>
    obtain ⟨h1, h2, h3⟩ := internSheet_spec N a sheet
    refine ⟨h1, h2, fun N' a'' _ hx => ?_⟩
    have := h3 N' a'' hx
    simp only [convertRef, readRef, this, imageRef, Option.map_some]
  | range sheet sr sc er ec abs =>
    obtain ⟨h1, h2, h3⟩ := internSheet_spec N a sheet
    refine ⟨h1, h2, fun N' a'' _ hx => ?_⟩
    have := h3 N' a'' hx
    simp only [convertRef, readRef, this, imageRef, Option.map_some]
  | external raw book sheet kind =>
    obtain ⟨h1, g1, k1⟩ := internStr_spec a raw
    obtain ⟨h2, g2, k2⟩ := internStr_spec (internStr a raw).1 book
    obtain ⟨h3, g3, k3⟩ := internStr_spec (internStr (internStr a raw).1 book).1 sheet
    refine ⟨h1.trans (h2.trans h3), fun h => k3 (k2 (k1 h)), fun N' a'' _ hx => ?_⟩
    simp only [convertRef] at hx
    simp only [convertRef, readRef, imageRef, prefix_get ((h2.trans h3).trans hx).strings g1, prefix_get (h3.trans hx).strings g2,
      prefix_get hx.strings g3]
  | named name =>
    obtain ⟨h1, g1, k1⟩ := internStr_spec a name
    refine ⟨h1, k1, fun N' a'' _ hx => ?_⟩
    simp only [convertRef] at hx
    simp only [convertRef, readRef, imageRef, prefix_get hx.strings g1, Option.map_some]
  | table name spec =>
    obtain ⟨h1, g1, k1⟩ := internStr_spec a name
    cases spec with
    | none =>
      refine ⟨h1, k1, fun N' a'' _ hx => ?_⟩
      simp only [convertRef] at hx
      simp only [convertRef, readRef, imageRef, prefix_get hx.strings g1, Option.map_some, Option.bind_none]
    | some s =>
      obtain ⟨h2, k2⟩ := internSpec_ext H (internStr a name).1 s
      refine ⟨h1.trans h2, fun h => k2 (k1 h), fun N' a'' hf hx => ?_⟩
      simp only [convertRef] at hx hf
      have g2 := internSpec_get H (internStr a name).1 s hf
      simp only [convertRef, readRef, imageRef, prefix_get (h2.trans hx).strings g1, Option.map_some, Option.bind_some,
        prefix_get hx.specs g2]
  | cell3D first last row col ra ca =>
    obtain ⟨h1, g1, k1⟩ := internStr_spec a first
    obtain ⟨h2, g2, k2⟩ := internStr_spec (internStr a first).1 last
    refine ⟨h1.trans h2, fun h => k2 (k1 h), fun N' a'' _ hx => ?_⟩
    simp only [convertRef] at hx
    simp only [convertRef, readRef, imageRef, prefix_get (h2.trans hx).strings g1, prefix_get hx.strings g2]
  | range3D first last sr sc er ec abs =>
    obtain ⟨h1, g1, k1⟩ := internStr_spec a first
    obtain ⟨h2, g2, k2⟩ := internStr_spec (internStr a first).1 last
    refine ⟨h1.trans h2, fun h => k2 (k1 h), fun N' a'' _ hx => ?_⟩
    simp only [convertRef] at hx
    simp only [convertRef, readRef, imageRef, prefix_get (h2.trans hx).strings g1, prefix_get hx.strings g2]

theorem AExt.ofValues {a b : Asts F E} {s : Store F} (hs : Ext a.values s) (h : AExt { a with values := s } b) : AExt a b :=
  ⟨hs.trans h.values, h.nodes, h.args, h.elems, h.strings, h.specs⟩

theorem AExt.ofArgs {a b : Asts F E} {ids : List Nat} (h : AExt { a with args := a.args ++ ids } b) : AExt a b :=
  ⟨h.values, h.nodes, (List.prefix_append _ _).trans h.args, h.elems, h.strings, h.specs⟩

theorem AExt.ofElems {a b : Asts F E} {ids : List Nat} (h : AExt { a with elems := a.elems ++ ids } b) : AExt a b :=
  ⟨h.values, h.nodes, h.args, (List.prefix_append _ _).trans h.elems, h.strings, h.specs⟩

theorem convertLit_ext {H : Hashes E} {a a' : Asts F E} {v : Lit C} {id : Nat} (h : convertLit H a v = some (a', id)) : AExt a a' := by
  unfold convertLit at h
  split at h
  · cases h
  · next s r hs => exact AExt.ofValues (store_ext v hs) (insertNode_ext h)

mutual

theorem convert_ext {H : Hashes E} {N : Names} : ∀ (e : Ast C E) {a a' : Asts F E} {id : Nat}, convert H N a e = some (a', id) → AExt a a'
  | .lit v, a, a', id, h => by unfold convert at h; exact convertLit_ext h
  | .omitted, a, a', id, h => by unfold convert at h; exact insertNode_ext h
  | .call _ _, a, a', id, h => by unfold convert at h; exact convertLit_ext h
  | .ref o r, a, a', id, h => by
    unfold convert at h
    exact (convertRef_spec H N a r).1.trans ((internStr_spec _ o).1.trans (insertNode_ext h))
  | .unary op e, a, a', id, h => by
    unfold convert at h
    split at h
    · cases h
    · next a1 i1 h1 => exact (convert_ext e h1).trans ((internStr_spec _ op).1.trans (insertNode_ext h))
  | .binary op l r, a, a', id, h => by
    unfold convert at h
    split at h
    · cases h
    · next a1 i1 h1 =>
      split at h
      · cases h
      · next a2 i2 h2 =>
        exact (convert_ext l h1).trans ((convert_ext r h2).trans ((internStr_spec _ op).1.trans (insertNode_ext h)))
  | .func name args, a, a', id, h => by
    unfold convert at h
    split at h
    · cases h
    · next a1 ids h1 =>
      exact (convertList_ext args h1).trans ((internStr_spec _ name).1.trans (AExt.ofArgs (insertNode_ext h)))
  | .array rows, a, a', id, h => by
    unfold convert at h
    split at h
    · cases h
    · next a1 ids h1 =>
      dsimp only at h
      split at h
      · exact (convertRows_ext rows h1).trans (AExt.ofElems (insertNode_ext h))
      · cases h

theorem convertList_ext {H : Hashes E} {N : Names} : ∀ (es : List (Ast C E)) {a a' : Asts F E} {ids : List Nat},
    convertList H N a es = some (a', ids) → AExt a a'
  | [], a, a', ids, h => by unfold convertList at h; cases h; exact AExt.refl _
  | e :: es, a, a', ids, h => by
    unfold convertList at h
    split at h
    · cases h
    · next a1 i1 h1 =>
      split at h
      · cases h
      · next a2 i2 h2 => cases h; exact (convert_ext e h1).trans (convertList_ext es h2)

theorem convertRows_ext {H : Hashes E} {N : Names} : ∀ (rows : List (List (Ast C E))) {a a' : Asts F E} {ids : List Nat},
    convertRows H N a rows = some (a', ids) → AExt a a'
  | [], a, a', ids, h => by unfold convertRows at h; cases h; exact AExt.refl _
  | row :: rows, a, a', ids, h => by
    unfold convertRows at h
    split at h
    · cases h
    · next a1 i1 h1 =>
      split at h
      · cases h
      · next a2 i2 h2 => cases h; exact (convertList_ext row h1).trans (convertRows_ext rows h2)

end

end Verif.Arena
