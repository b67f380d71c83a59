/-
Storing a formula succeeds when there is room (property C63).
-/
import Verif.Arena.AstThms

namespace Verif.Arena

variable {F : Type} {C : Chrono F} {E : Ext3}

mutual

/-- The number of parts of a formula. -/
def sizeAst : Ast C E → Nat
  | .lit v => size v
  | .omitted => 1
  | .ref _ _ => 1
  | .unary _ e => 1 + sizeAst e
  | .binary _ l r => 1 + (sizeAst l + sizeAst r)
  | .func _ args => 1 + sizeList args
  | .array rows => 1 + sizeAstRows rows
  | .call _ _ => 1

/-- The number of parts of the arguments. -/
def sizeList : List (Ast C E) → Nat
  | [] => 0
  | e :: es => sizeAst e + sizeList es

/-- The number of parts of the elements. -/
def sizeAstRows : List (List (Ast C E)) → Nat
  | [] => 0
  | row :: rows => sizeList row + sizeAstRows rows

end

/-- No list has become longer by more than `n`; those of arguments and elements not by more than `n - k`. -/
structure AGrows (a a' : Asts F E) (n k : Nat) : Prop where
  values : Grows a.values a'.values n
  nodes : a'.nodes.length ≤ a.nodes.length + n
  args : a'.args.length + k ≤ a.args.length + n
  elems : a'.elems.length + k ≤ a.elems.length + n
  specs : a'.specs.length ≤ a.specs.length + n

/-- There is room for `n` more parts. -/
structure Asts.Room (a : Asts F E) (n : Nat) : Prop where
  values : a.values.Room n
  nodes : a.nodes.length + n < 2 ^ 32
  args : a.args.length + n < 2 ^ 32
  elems : a.elems.length + n < 2 ^ 32
  specs : a.specs.length + n < 2 ^ 32

theorem AGrows.trans {a b c : Asts F E} {m n k l : Nat} (h : AGrows a b m k) (h' : AGrows b c n l) : AGrows a c (m + n) (k + l) := by
  obtain ⟨g, _, _, _, _⟩ := h
  obtain ⟨g', _, _, _, _⟩ := h'
  exact ⟨g.trans g', by omega, by omega, by omega, by omega⟩

theorem AGrows.room {a b : Asts F E} {m n k : Nat} (h : AGrows a b m k) (h' : a.Room (m + n)) : b.Room n := by
  obtain ⟨g, _, _, _, _⟩ := h
  obtain ⟨g', _, _, _, _⟩ := h'
  exact ⟨g.room g', by omega, by omega, by omega, by omega⟩

theorem Asts.Room.fits {a : Asts F E} {n : Nat} (h : a.Room n) : a.Fits := by
  obtain ⟨g, _, _, _, _⟩ := h
  exact ⟨g.fits, by omega, by omega, by omega, by omega⟩

theorem Asts.Room.mono {a : Asts F E} {m n : Nat} (h : a.Room n) (hm : m ≤ n) : a.Room m := by
  obtain ⟨g, _, _, _, _⟩ := h
  exact ⟨g.mono hm, by omega, by omega, by omega, by omega⟩

theorem Grows.mono {s s' : Store F} {m n : Nat} (h : Grows s s' m) (hm : m ≤ n) : Grows s s' n := by
  obtain ⟨_, _, _, _, _, _⟩ := h
  constructor <;> omega

theorem insertNode_grows {H : Hashes E} {a a' : Asts F E} {n : Node E} {id : Nat} (h : insertNode H a n = some (a', id)) :
    a'.values = a.values ∧ a'.nodes.length ≤ a.nodes.length + 1 ∧ a'.args = a.args ∧ a'.elems = a.elems ∧ a'.specs = a.specs := by
  unfold insertNode at h
  dsimp only at h
  split at h
  · cases h; exact ⟨rfl, by simp, rfl, rfl, rfl⟩
  · split at h
    · cases h
    · split at h
      · cases h; exact ⟨rfl, by simp, rfl, rfl, rfl⟩
      · cases h; exact ⟨rfl, by simp, rfl, rfl, rfl⟩

theorem convertRef_grows (H : Hashes E) (N : Names) (a : Asts F E) (r : RefT E) :
    (convertRef H N a r).1.values = a.values ∧ (convertRef H N a r).1.nodes = a.nodes ∧ (convertRef H N a r).1.args = a.args ∧
      (convertRef H N a r).1.elems = a.elems ∧ (convertRef H N a r).1.specs.length ≤ a.specs.length + 1 := by
  have hs : ∀ s, (internSheet N a s).1.values = a.values ∧ (internSheet N a s).1.nodes = a.nodes ∧ (internSheet N a s).1.args = a.args ∧
      (internSheet N a s).1.elems = a.elems ∧ (internSheet N a s).1.specs.length ≤ a.specs.length + 1 := by
    intro s
    cases s with
    | none => exact ⟨rfl, rfl, rfl, rfl, by simp [internSheet]⟩
    | some s =>
      unfold internSheet
      dsimp only
      split <;> exact ⟨rfl, rfl, rfl, rfl, by simp [internStr]⟩
  cases r with
  | cell sheet row col ra ca => exact hs sheet
  | range sheet sr sc er ec abs => exact hs sheet
  | external raw book sheet kind => exact ⟨rfl, rfl, rfl, rfl, by simp [convertRef, internStr]⟩
  | named name => exact ⟨rfl, rfl, rfl, rfl, by simp [convertRef, internStr]⟩
  | table name spec =>
    cases spec with
    | none => exact ⟨rfl, rfl, rfl, rfl, by simp [convertRef, internStr]⟩
    | some s =>
      simp only [convertRef, internSpec]
      split
      · exact ⟨rfl, rfl, rfl, rfl, by simp [internStr]⟩
      · split
        · exact ⟨rfl, rfl, rfl, rfl, by simp [internStr]⟩
        · exact ⟨rfl, rfl, rfl, rfl, by simp [internStr]⟩
  | cell3D first last row col ra ca => exact ⟨rfl, rfl, rfl, rfl, by simp [convertRef, internStr]⟩
  | range3D first last sr sc er ec abs => exact ⟨rfl, rfl, rfl, rfl, by simp [convertRef, internStr]⟩

theorem convertLit_grows {H : Hashes E} {a a' : Asts F E} {v : Lit C} {id : Nat} (h : convertLit H a v = some (a', id)) :
    AGrows a a' (size v) 1 := by
  unfold convertLit at h
  split at h
  · cases h
  · next s r hs =>
    obtain ⟨h1, h2, h3, h4, h5⟩ := insertNode_grows h
    have := size_pos v
    refine ⟨by rw [h1]; exact (store_grows v hs).grows, ?_, by rw [h3]; dsimp only; omega, by rw [h4]; dsimp only; omega,
      by rw [h5]; dsimp only; omega⟩
    exact Nat.le_trans h2 (by dsimp only; omega)

mutual

theorem convert_grows {H : Hashes E} {N : Names} : ∀ (e : Ast C E) {a a' : Asts F E} {id : Nat}, convert H N a e = some (a', id) →
    AGrows a a' (sizeAst e) 1
  | .lit v, a, a', id, h => by unfold convert at h; unfold sizeAst; exact convertLit_grows h
  | .call _ _, a, a', id, h => by unfold convert at h; unfold sizeAst; exact convertLit_grows h
  | .omitted, a, a', id, h => by
    unfold convert at h
    obtain ⟨h1, h2, h3, h4, h5⟩ := insertNode_grows h
    unfold sizeAst
    exact ⟨by rw [h1]; exact Grows.refl _ _, h2, by rw [h3]; exact Nat.le_refl _, by rw [h4]; exact Nat.le_refl _, by rw [h5]; omega⟩
  | .ref o r, a, a', id, h => by
    unfold convert at h
    dsimp only at h
    obtain ⟨h1, h2, h3, h4, h5⟩ := insertNode_grows h
    obtain ⟨k1, k2, k3, k4, k5⟩ := convertRef_grows H N a r
    unfold sizeAst
    dsimp only [internStr] at h1 h2 h3 h4 h5
    exact ⟨by rw [h1, k1]; exact Grows.refl _ _, by rw [← k2]; exact h2, by rw [h3, k3]; exact Nat.le_refl _, by rw [h4, k4]; exact Nat.le_refl _, by rw [h5]; exact k5⟩
  | .unary op e, a, a', id, h => by
    unfold convert at h
    split at h
    · cases h
    · next a1 i1 h1 =>
      dsimp only at h
      obtain ⟨k1, k2, k3, k4, k5⟩ := insertNode_grows h
      obtain ⟨g, g1, g2, g3, g4⟩ := convert_grows e h1
      unfold sizeAst
      dsimp only [internStr] at k1 k2 k3 k4 k5
      refine ⟨by rw [k1]; exact g.mono (by omega), by omega, by rw [k3]; omega, by rw [k4]; omega, by rw [k5]; omega⟩
  | .binary op l r, a, a', id, h => by
    unfold convert at h
    split at h
    · cases h
    · next a1 i1 h1 =>
      split at h
      · cases h
      · next a2 i2 h2 =>
        dsimp only at h
        obtain ⟨k1, k2, k3, k4, k5⟩ := insertNode_grows h
        obtain ⟨g, g1, g2, g3, g4⟩ := (convert_grows l h1).trans (convert_grows r h2)
        unfold sizeAst
        dsimp only [internStr] at k1 k2 k3 k4 k5
        refine ⟨by rw [k1]; exact g.mono (by omega), by omega, by rw [k3]; omega, by rw [k4]; omega, by rw [k5]; omega⟩
  | .func name args, a, a', id, h => by
    unfold convert at h
    split at h
    · cases h
    · next a1 ids h1 =>
      dsimp only at h
      obtain ⟨k1, k2, k3, k4, k5⟩ := insertNode_grows h
      obtain ⟨g, g1, g2, g3, g4⟩ := convertList_grows args h1
      unfold sizeAst
      dsimp only [internStr] at k1 k2 k3 k4 k5
      refine ⟨by rw [k1]; exact g.mono (by omega), by omega, by rw [k3, List.length_append]; omega, by rw [k4]; omega, by rw [k5]; omega⟩
  | .array rows, a, a', id, h => by
    unfold convert at h
    split at h
    · cases h
    · next a1 ids h1 =>
      dsimp only at h
      split at h
      · obtain ⟨k1, k2, k3, k4, k5⟩ := insertNode_grows h
        obtain ⟨g, g1, g2, g3, g4⟩ := convertRows_grows rows h1
        unfold sizeAst
        dsimp only at k1 k2 k3 k4 k5
        refine ⟨by rw [k1]; exact g.mono (by omega), by omega, by rw [k3]; omega, by rw [k4, List.length_append]; omega, by rw [k5]; omega⟩
      · cases h

theorem convertList_grows {H : Hashes E} {N : Names} : ∀ (es : List (Ast C E)) {a a' : Asts F E} {ids : List Nat},
    convertList H N a es = some (a', ids) → AGrows a a' (sizeList es) ids.length
  | [], a, a', ids, h => by
    unfold convertList at h; cases h; exact ⟨Grows.refl _ _, by omega, by simp, by simp, by omega⟩
  | e :: es, a, a', ids, h => by
    unfold convertList at h
    split at h
    · cases h
    · next a1 i1 h1 =>
      split at h
      · cases h
      · next a2 i2 h2 =>
        cases h
        have := (convert_grows e h1).trans (convertList_grows es h2)
        unfold sizeList
        rw [List.length_cons, Nat.add_comm i2.length 1]
        exact this

theorem convertRows_grows {H : Hashes E} {N : Names} : ∀ (rows : List (List (Ast C E))) {a a' : Asts F E} {ids : List Nat},
    convertRows H N a rows = some (a', ids) → AGrows a a' (sizeAstRows rows) ids.length
  | [], a, a', ids, h => by
    unfold convertRows at h; cases h; exact ⟨Grows.refl _ _, by omega, by simp, by simp, by omega⟩
  | row :: rows, a, a', ids, h => by
    unfold convertRows at h
    split at h
    · cases h
    · next a1 i1 h1 =>
      split at h
      · cases h
      · next a2 i2 h2 =>
        cases h
        have := (convertList_grows row h1).trans (convertRows_grows rows h2)
        unfold sizeAstRows
        rw [List.length_append]
        exact this

end

/-! ### Storing succeeds -/

theorem convertLit_succeeds {H : Hashes E} {a : Asts F E} {v : Lit C} (hv : Storable v) (hok : a.Ok) (hr : a.Room (size v)) :
    ∃ a' id, convertLit H a v = some (a', id) ∧ a'.Ok := by
  obtain ⟨s, r, hs⟩ := store_succeeds v hv hr.values
  have hroom : s.Room 0 := (store_grows v hs).grows.room hr.values
  obtain ⟨ok1, -⟩ := store_reads v hs hok.values hroom.fits
  obtain ⟨a', id, h⟩ := insertNode_some (H := H) (a := { a with values := s }) ⟨ok1, hok.dedup⟩ (.lit r)
  have hc : convertLit H a v = some (a', id) := by unfold convertLit; rw [hs]; exact h
  have hr' : a.Room (size v + 0) := hr
  exact ⟨a', id, hc, (insertNode_spec (a := { a with values := s }) ⟨ok1, hok.dedup⟩ h ((convertLit_grows hc).room hr').fits).1⟩

mutual

theorem convert_succeeds {H : Hashes E} {N : Names} : ∀ (e : Ast C E) {a : Asts F E}, Kept e → a.Ok → a.Room (sizeAst e) →
    ∃ a' id, convert H N a e = some (a', id)
  | .lit v, a, hk, hok, hr => by
    unfold Kept at hk; unfold sizeAst at hr; unfold convert
    obtain ⟨a', id, h, -⟩ := convertLit_succeeds (H := H) hk hok hr
    exact ⟨a', id, h⟩
  | .call _ _, a, hk, _, _ => by unfold Kept at hk; exact hk.elim
  | .omitted, a, _, hok, _ => by unfold convert; exact insertNode_some hok _
  | .ref o r, a, _, hok, _ => by
    unfold convert
    exact insertNode_some ((internStr_spec _ o).2.2 ((convertRef_spec H N a r).2.1 hok)) _
  | .unary op e, a, hk, hok, hr => by
    unfold Kept at hk
    unfold sizeAst at hr
    obtain ⟨a1, i1, h1⟩ := convert_succeeds (H := H) (N := N) e hk hok (hr.mono (by omega))
    have hf : a1.Fits := ((convert_grows e h1).room (n := 0) (hr.mono (by omega))).fits
    unfold convert
    rw [h1]
    exact insertNode_some ((internStr_spec _ op).2.2 (convert_reads (N' := N) e h1 hok hf).1) _
  | .binary op l r, a, hk, hok, hr => by
    unfold Kept at hk
    unfold sizeAst at hr
    obtain ⟨a1, i1, h1⟩ := convert_succeeds (H := H) (N := N) l hk.1 hok (hr.mono (by omega))
    have hr1 : a1.Room (sizeAst r) := (convert_grows l h1).room (hr.mono (by omega))
    have ok1 := (convert_reads (N' := N) l h1 hok hr1.fits).1
    obtain ⟨a2, i2, h2⟩ := convert_succeeds (H := H) (N := N) r hk.2 ok1 hr1
    have hf : a2.Fits := ((convert_grows r h2).room (n := 0) hr1).fits
    unfold convert
    rw [h1]
    dsimp only
    rw [h2]
    exact insertNode_some ((internStr_spec _ op).2.2 (convert_reads (N' := N) r h2 ok1 hf).1) _
  | .func name args, a, hk, hok, hr => by
    unfold Kept at hk
    unfold sizeAst at hr
    obtain ⟨a1, i1, h1, -⟩ := convertList_succeeds (H := H) (N := N) args hk.2 hok (hr.mono (by omega))
    have hf : a1.Fits := ((convertList_grows args h1).room (n := 0) (hr.mono (by omega))).fits
    have ok1 := (internStr_spec _ name).2.2 (convertList_reads (N' := N) args h1 hok hf).1
    unfold convert
    rw [h1]
    exact insertNode_some (a := { (internStr a1 name).1 with args := (internStr a1 name).1.args ++ i1 }) ⟨ok1.values, ok1.dedup⟩ _
  | .array rows, a, hk, hok, hr => by
    unfold Kept at hk
    obtain ⟨⟨n, hrect, hl1, hl2⟩, hrows⟩ := hk
    unfold sizeAst at hr
    obtain ⟨a1, i1, h1, hlen⟩ := convertRows_succeeds (H := H) (N := N) rows hrows hok (hr.mono (by omega))
    have hf : a1.Fits := ((convertRows_grows rows h1).room (n := 0) (hr.mono (by omega))).fits
    have ok1 := (convertRows_reads (N' := N) rows h1 hok hf).1
    unfold convert
    rw [h1]
    dsimp only
    rw [if_pos]
    · exact insertNode_some (a := { a1 with elems := a1.elems ++ i1 }) ⟨ok1.values, ok1.dedup⟩ _
    · rw [hlen, flatten_rect hrect]
      cases rows with
      | nil => simp
      | cons row rows =>
        have hn : n < 2 ^ 16 := Nat.lt_of_le_of_lt (Nat.le_mul_of_pos_left n (by simp)) hl2
        rw [List.headD_cons, hrect row (by simp), Nat.mod_eq_of_lt hl1, Nat.mod_eq_of_lt hn, Nat.mod_eq_of_lt hl2]

theorem convertList_succeeds {H : Hashes E} {N : Names} : ∀ (es : List (Ast C E)) {a : Asts F E}, KeptList es → a.Ok →
    a.Room (sizeList es) → ∃ a' ids, convertList H N a es = some (a', ids) ∧ ids.length = es.length
  | [], a, _, _, _ => by unfold convertList; exact ⟨_, _, rfl, rfl⟩
  | e :: es, a, hk, hok, hr => by
    unfold KeptList at hk
    unfold sizeList at hr
    obtain ⟨a1, i1, h1⟩ := convert_succeeds (H := H) (N := N) e hk.1 hok (hr.mono (by omega))
    have hr1 : a1.Room (sizeList es) := (convert_grows e h1).room hr
    obtain ⟨a2, i2, h2, l2⟩ := convertList_succeeds (H := H) (N := N) es hk.2 (convert_reads (N' := N) e h1 hok hr1.fits).1 hr1
    unfold convertList
    rw [h1]
    dsimp only
    rw [h2]
    exact ⟨_, _, rfl, by simp [l2]⟩

theorem convertRows_succeeds {H : Hashes E} {N : Names} : ∀ (rows : List (List (Ast C E))) {a : Asts F E}, KeptRows rows → a.Ok →
    a.Room (sizeAstRows rows) → ∃ a' ids, convertRows H N a rows = some (a', ids) ∧ ids.length = rows.flatten.length
  | [], a, _, _, _ => by unfold convertRows; exact ⟨_, _, rfl, rfl⟩
  | row :: rows, a, hk, hok, hr => by
    unfold KeptRows at hk
    unfold sizeAstRows at hr
    obtain ⟨a1, i1, h1, l1⟩ := convertList_succeeds (H := H) (N := N) row hk.1 hok (hr.mono (by omega))
    have hr1 : a1.Room (sizeAstRows rows) := (convertList_grows row h1).room hr
    obtain ⟨a2, i2, h2, l2⟩ := convertRows_succeeds (H := H) (N := N) rows hk.2 (convertList_reads (N' := N) row h1 hok hr1.fits).1 hr1
    unfold convertRows
    rw [h1]
    dsimp only
    rw [h2]
    exact ⟨_, _, rfl, by rw [List.length_append, List.flatten_cons, List.length_append, l1, l2]⟩

end

end Verif.Arena
