/-
Property C63: a stored formula is read back as it was, whatever is stored besides, and follows the names of its sheets.
-/
import Verif.Arena.AstStore

namespace Verif.Arena

variable {F : Type} {C : Chrono F} {E : Ext3}

/-! ### The specification -/

/-- The references that are kept: an open end of a range is not written as the first or the last number there is. -/
def KeptRef : RefT E → Prop
  | .range _ sr sc er ec _ => sr ≠ some 0 ∧ sc ≠ some 0 ∧ er ≠ some (2 ^ 32 - 1) ∧ ec ≠ some (2 ^ 32 - 1)
  | .range3D _ _ sr sc er ec _ => sr ≠ some 0 ∧ sc ≠ some 0 ∧ er ≠ some (2 ^ 32 - 1) ∧ ec ≠ some (2 ^ 32 - 1)
  | _ => True

mutual

/-- The formulas that are kept: storable literals, no more than 65535 arguments, arrays with rows of the same length and no more
than 65535 elements, no calls of anything but names. -/
def Kept : Ast C E → Prop
  | .lit v => Storable v
  | .omitted => True
  | .ref _ r => KeptRef r
  | .unary _ e => Kept e
  | .binary _ l r => Kept l ∧ Kept r
  | .func _ args => args.length < 2 ^ 16 ∧ KeptList args
  | .array rows => (∃ n, (∀ row ∈ rows, row.length = n) ∧ rows.length < 2 ^ 16 ∧ rows.length * n < 2 ^ 16) ∧ KeptRows rows
  | .call _ _ => False

/-- The same of every argument. -/
def KeptList : List (Ast C E) → Prop
  | [] => True
  | e :: es => Kept e ∧ KeptList es

/-- The same of every element. -/
def KeptRows : List (List (Ast C E)) → Prop
  | [] => True
  | row :: rows => KeptList row ∧ KeptRows rows

end

/-- A reference with another name for its sheet. -/
def renameRef (f : String → String) : RefT E → RefT E
  | .cell sheet row col ra ca => .cell (sheet.map f) row col ra ca
  | .range sheet sr sc er ec abs => .range (sheet.map f) sr sc er ec abs
  | r => r

mutual

/-- A formula with other names for the sheets of its references. -/
def rename (f : String → String) : Ast C E → Ast C E
  | .ref o r => .ref o (renameRef f r)
  | .unary op e => .unary op (rename f e)
  | .binary op l r => .binary op (rename f l) (rename f r)
  | .func name args => .func name (renameList f args)
  | .array rows => .array (renameRows f rows)
  | .call e args => .call (rename f e) (renameList f args)
  | .lit v => .lit v
  | .omitted => .omitted

/-- The same for the arguments. -/
def renameList (f : String → String) : List (Ast C E) → List (Ast C E)
  | [] => []
  | e :: es => rename f e :: renameList f es

/-- The same for the elements. -/
def renameRows (f : String → String) : List (List (Ast C E)) → List (List (Ast C E))
  | [] => []
  | row :: rows => renameList f row :: renameRows f rows

end

/-- The name under which a sheet that was written as `s` when the formula was stored is shown later. -/
def later (N N' : Names) (s : String) : String := match N.getId s with | some i => N'.name i | none => s

/-! ### The image of a kept formula -/

theorem readStart_eq {o : Option Nat} (h : o ≠ some 0) : readStart (o.getD 0) = o := by
  cases o with
  | none => rfl
  | some n =>
    unfold readStart
    rw [if_neg (by intro e; apply h; rw [show n = 0 from e])]
    rfl

theorem readEnd_eq {o : Option Nat} (h : o ≠ some (2 ^ 32 - 1)) : readEnd (o.getD (2 ^ 32 - 1)) = o := by
  cases o with
  | none => rfl
  | some n =>
    unfold readEnd
    rw [if_neg (by intro e; apply h; rw [show n = 2 ^ 32 - 1 from e])]
    rfl

theorem imageRef_eq (N N' : Names) (r : RefT E) (h : KeptRef r) : imageRef N N' r = renameRef (later N N') r := by
  cases r with
  | range sheet sr sc er ec abs =>
    obtain ⟨h1, h2, h3, h4⟩ := h
    simp only [imageRef, renameRef, readStart_eq h1, readStart_eq h2, readEnd_eq h3, readEnd_eq h4]
    rfl
  | range3D first last sr sc er ec abs =>
    obtain ⟨h1, h2, h3, h4⟩ := h
    simp only [imageRef, renameRef, readStart_eq h1, readStart_eq h2, readEnd_eq h3, readEnd_eq h4]
  | _ => rfl

theorem pick_all {α : Type} (l : List α) (a n : Nat) (h : a + n ≤ l.length) :
    ((List.range n).filterMap fun c => l[a + c]?) = (l.drop a).take n := by
  induction n with
  | zero => simp
  | succ n ih =>
    rw [List.range_succ, List.filterMap_append, ih (by omega)]
    have hl : a + n < l.length := by omega
    simp only [List.filterMap_cons, List.filterMap_nil, List.getElem?_eq_getElem hl]
    rw [List.take_add_one, List.getElem?_drop, List.getElem?_eq_getElem hl]
    rfl

theorem flatten_row {α : Type} {n : Nat} : ∀ {rows : List (List α)}, (∀ row ∈ rows, row.length = n) → ∀ r, (h : r < rows.length) →
    (rows.flatten.drop (r * n)).take n = rows[r]
  | row :: rows, hr, 0, _ => by
    rw [List.flatten_cons, Nat.zero_mul, List.drop_zero, List.take_append_of_le_length (Nat.le_of_eq (hr row (by simp)).symm)]
    rw [List.getElem_cons_zero, ← hr row (by simp), List.take_length]
  | row :: rows, hr, r + 1, h => by
    rw [List.flatten_cons, show (r + 1) * n = row.length + r * n by rw [hr row (by simp), Nat.succ_mul]; omega, ← List.drop_drop,
      List.drop_left, List.getElem_cons_succ]
    exact flatten_row (fun x hx => hr x (by simp [hx])) r (by simpa using h)

theorem arrange_flatten {α : Type} {n : Nat} {rows : List (List α)} (hr : ∀ row ∈ rows, row.length = n) (h1 : rows.length < 2 ^ 16)
    (h2 : rows.length * n < 2 ^ 16) : arrange rows.flatten (rows.length % 2 ^ 16) ((rows.headD []).length % 2 ^ 16) = rows := by
  cases hrows : rows with
  | nil => rfl
  | cons row0 rest =>
    rw [← hrows]
    have hn : (rows.headD []).length = n := by rw [hrows, List.headD_cons, hr row0 (by simp [hrows])]
    have hpos : 0 < rows.length := by rw [hrows]; simp
    have hn' : n < 2 ^ 16 := Nat.lt_of_le_of_lt (Nat.le_mul_of_pos_left n hpos) h2
    rw [hn, Nat.mod_eq_of_lt h1, Nat.mod_eq_of_lt hn']
    unfold arrange
    apply List.ext_getElem
    · simp
    · intro r hr1 hr2
      rw [List.getElem_map, List.getElem_range]
      have hlen := flatten_rect hr
      have hrn : (r + 1) * n ≤ rows.length * n := Nat.mul_le_mul_right n hr2
      have e : ((List.range n).filterMap fun c => rows.flatten[(r * n + c) % 2 ^ 16]?) =
          (List.range n).filterMap fun c => rows.flatten[r * n + c]? := by
        apply List.filterMap_congr
        intro c hc
        have : c < n := by simpa using hc
        rw [Nat.mod_eq_of_lt (by rw [Nat.succ_mul] at hrn; omega)]
      rw [e, pick_all _ _ _ (by rw [hlen]; rw [Nat.succ_mul] at hrn; omega), flatten_row hr r hr2]

theorem renameList_length (f : String → String) : ∀ es : List (Ast C E), (renameList f es).length = es.length
  | [] => by rw [renameList]
  | e :: es => by rw [renameList, List.length_cons, List.length_cons, renameList_length f es]

theorem renameRows_length (f : String → String) : ∀ rows : List (List (Ast C E)), (renameRows f rows).length = rows.length
  | [] => by rw [renameRows]
  | e :: es => by rw [renameRows, List.length_cons, List.length_cons, renameRows_length f es]

theorem renameRows_rect (f : String → String) {n : Nat} : ∀ {rows : List (List (Ast C E))}, (∀ row ∈ rows, row.length = n) →
    ∀ row ∈ renameRows f rows, row.length = n
  | [], _ => by rw [renameRows]; intro row h; cases h
  | r :: rows, h => by
    rw [renameRows]
    intro row hm
    rcases List.mem_cons.1 hm with rfl | hm
    · rw [renameList_length]; exact h r (by simp)
    · exact renameRows_rect f (fun x hx => h x (by simp [hx])) row hm

theorem renameRows_head (f : String → String) (rows : List (List (Ast C E))) : ((renameRows f rows).headD []).length = (rows.headD []).length := by
  cases rows with
  | nil => rw [renameRows]
  | cons r rows => rw [renameRows, List.headD_cons, List.headD_cons, renameList_length]

mutual

theorem imageAst_eq (N N' : Names) : ∀ e : Ast C E, Kept e → imageAst N N' e = rename (later N N') e
  | .lit v, h => by unfold Kept at h; rw [imageAst, rename, image_eq v h]
  | .omitted, _ => by rw [imageAst, rename]
  | .ref o r, h => by unfold Kept at h; rw [imageAst, rename, imageRef_eq N N' r h]
  | .unary op e, h => by unfold Kept at h; rw [imageAst, rename, imageAst_eq N N' e h]
  | .binary op l r, h => by unfold Kept at h; rw [imageAst, rename, imageAst_eq N N' l h.1, imageAst_eq N N' r h.2]
  | .func name args, h => by
    unfold Kept at h
    rw [imageAst, rename, imageList_eq N N' args h.2, Nat.mod_eq_of_lt h.1, List.take_of_length_le (Nat.le_of_eq (renameList_length _ _))]
  | .array rows, h => by
    unfold Kept at h
    obtain ⟨⟨n, h1, h2, h3⟩, h4⟩ := h
    rw [imageAst, rename, imageRows_eq' N N' rows h4]
    have := arrange_flatten (renameRows_rect (later N N') h1) (by rw [renameRows_length]; exact h2) (by rw [renameRows_length]; exact h3)
    rw [renameRows_length, renameRows_head] at this
    rw [this]
  | .call _ _, h => by unfold Kept at h; exact h.elim

theorem imageList_eq (N N' : Names) : ∀ es : List (Ast C E), KeptList es → imageList N N' es = renameList (later N N') es
  | [], _ => by rw [imageList, renameList]
  | e :: es, h => by unfold KeptList at h; rw [imageList, renameList, imageAst_eq N N' e h.1, imageList_eq N N' es h.2]

theorem imageRows_eq' (N N' : Names) : ∀ rows : List (List (Ast C E)), KeptRows rows →
    imageAstRows N N' rows = (renameRows (later N N') rows).flatten
  | [], _ => by rw [imageAstRows, renameRows]; rfl
  | row :: rows, h => by
    unfold KeptRows at h
    rw [imageAstRows, renameRows, imageList_eq N N' row h.1, imageRows_eq' N N' rows h.2, List.flatten_cons]

end

end Verif.Arena
