/-
What is read back from the store for values, after anything else has been stored (property C62).
-/
import Verif.Arena.ValueProps

namespace Verif.Arena

variable {F : Type} {C : Chrono F}

/-! ### The specification -/

/-- Reading the reference gives the value (given fuel enough: the code has none). -/
def Reads (st : Store F) (r : VRef) (v : Lit C) : Prop := ∃ n, ∀ m, n ≤ m → retrieve C m st r = some v

mutual

/-- The values that are kept as they are: integers of 28 bits, errors without context and payload, date-times and durations
that the conversions keep, and arrays of such, with rows of the same length. -/
def Storable : Lit C → Prop
  | .int i => -(2 : Int) ^ 27 ≤ i ∧ i < 2 ^ 27
  | .date _ => False
  | .time _ => False
  | .dateTime d => C.ofSerial (C.serial d) = d
  | .duration d => C.ofSeconds (C.seconds d) = d
  | .error e => e.rest = none
  | .array rows => (∃ n, 0 < n ∧ ∀ row ∈ rows, row.length = n) ∧ StorableRows rows
  | .number _ => True
  | .text _ => True
  | .bool _ => True
  | .empty => True
  | .pending => True

/-- The same of every element. -/
def StorableRows : List (List (Lit C)) → Prop
  | [] => True
  | row :: rows => StorableRow row ∧ StorableRows rows

/-- The same of every element. -/
def StorableRow : List (Lit C) → Prop
  | [] => True
  | v :: vs => Storable v ∧ StorableRow vs

end

mutual

/-- What a value becomes. -/
def image : Lit C → Lit C
  | .int i => .int (BitVec.ofInt 32 i).toInt
  | .date d => .dateTime (C.ofSerial (C.serial (C.midnight d)))
  | .time t => .dateTime (C.ofSerial (C.fraction t))
  | .dateTime d => .dateTime (C.ofSerial (C.serial d))
  | .duration d => .duration (C.ofSeconds (C.seconds d))
  | .error e => .error ⟨e.kind, e.message, none⟩
  | .array rows => .array (cut (imageRows rows) rows.length (rows.headD []).length)
  | .number f => .number f
  | .text s => .text s
  | .bool b => .bool b
  | .empty => .empty
  | .pending => .pending

/-- The elements of the rows, one row after the other. -/
def imageRows : List (List (Lit C)) → List (Lit C)
  | [] => []
  | row :: rows => imageRow row ++ imageRows rows

/-- The elements of a row. -/
def imageRow : List (Lit C) → List (Lit C)
  | [] => []
  | v :: vs => image v :: imageRow vs

end

/-- A later state of a store: nothing is lost. -/
structure Ext (s s' : Store F) : Prop where
  floats : s.floats <+: s'.floats
  ints : s.ints <+: s'.ints
  strings : s.strings <+: s'.strings
  errs : s.errs <+: s'.errs
  messages : s.messages <+: s'.messages
  dims : s.dims <+: s'.dims
  elems : s.elems <+: s'.elems
  offsets : s.offsets <+: s'.offsets

/-- The lists are not so long that lengths do not fit into 32 bits (scalar indices have 31). -/
structure Store.Fits (s : Store F) : Prop where
  floats : s.floats.length < 2 ^ 32
  ints : s.ints.length < 2 ^ 31
  strings : s.strings.length < 2 ^ 32
  errs : s.errs.length < 2 ^ 32
  dims : s.dims.length < 2 ^ 32
  elems : s.elems.length < 2 ^ 32

/-- The offsets of the arrays. -/
structure Store.Ok (s : Store F) : Prop where
  len : s.offsets.length = s.dims.length + 1
  last : s.offsets[s.dims.length]? = some s.elems.length

theorem Ext.refl (s : Store F) : Ext s s :=
  ⟨List.prefix_refl _, List.prefix_refl _, List.prefix_refl _, List.prefix_refl _, List.prefix_refl _, List.prefix_refl _,
    List.prefix_refl _, List.prefix_refl _⟩

theorem Ext.trans {a b c : Store F} (h : Ext a b) (k : Ext b c) : Ext a c :=
  ⟨h.1.trans k.1, h.2.trans k.2, h.3.trans k.3, h.4.trans k.4, h.5.trans k.5, h.6.trans k.6, h.7.trans k.7, h.8.trans k.8⟩

theorem Ext.fits {a b : Store F} (h : Ext a b) (k : b.Fits) : a.Fits :=
  ⟨Nat.lt_of_le_of_lt h.floats.length_le k.1, Nat.lt_of_le_of_lt h.ints.length_le k.2,
    Nat.lt_of_le_of_lt h.strings.length_le k.3, Nat.lt_of_le_of_lt h.errs.length_le k.4,
    Nat.lt_of_le_of_lt h.dims.length_le k.5, Nat.lt_of_le_of_lt h.elems.length_le k.6⟩

theorem new_ok (F : Type) : (Store.new F).Ok := ⟨rfl, rfl⟩

theorem prefix_get {α : Type} {l l' : List α} (h : l <+: l') {i : Nat} {x : α} (hx : l[i]? = some x) : l'[i]? = some x := by
  obtain ⟨t, rfl⟩ := h
  obtain ⟨hlt, -⟩ := List.getElem?_eq_some_iff.1 hx
  rw [List.getElem?_append_left hlt]
  exact hx

theorem last_get {α : Type} (l : List α) (x : α) : (l ++ [x])[l.length]? = some x := by simp

/-! ### Interning -/

theorem findIdx_get {α : Type} {p : α → Bool} : ∀ {l : List α} {i : Nat}, l.findIdx? p = some i →
    ∃ x, l[i]? = some x ∧ p x = true := by
  intro l i h
  obtain ⟨hlt, hp, -⟩ := List.findIdx?_eq_some_iff_getElem.1 h
  exact ⟨l[i], by simp [hlt], hp⟩

theorem intern_spec (l : List String) (s : String) : l <+: (intern l s).1 ∧ (intern l s).1[(intern l s).2]? = some s := by
  unfold intern
  split
  · next i h =>
    obtain ⟨x, hx, hp⟩ := findIdx_get h
    refine ⟨List.prefix_refl _, ?_⟩
    rw [show x = s by simpa using hp] at hx
    exact hx
  · exact ⟨List.prefix_append _ _, last_get _ _⟩

theorem get_lt {α : Type} {l : List α} {i : Nat} {x : α} (h : l[i]? = some x) : i < l.length :=
  (List.getElem?_eq_some_iff.1 h).1

theorem insertErr_spec (st : Store F) (e : Err) :
    Ext st (insertErr st e).1 ∧ ∃ m, (insertErr st e).1.errs[(insertErr st e).2]? = some (e.kind, m) ∧
      match e.message, m with
      | none, none => True
      | some t, some i => (insertErr st e).1.messages[i]? = some t
      | _, _ => False := by
  have key : ∀ (l : List String) (m : Option Nat), st.messages <+: l →
      (match e.message, m with | none, none => True | some t, some i => l[i]? = some t | _, _ => False) →
      ∀ q : Store F × Nat, q = (match st.errs.findIdx? (· = (e.kind, m)) with
        | some i => ({ st with messages := l }, i)
        | none => ({ st with messages := l, errs := st.errs ++ [(e.kind, m)] }, st.errs.length)) →
      Ext st q.1 ∧ ∃ m, q.1.errs[q.2]? = some (e.kind, m) ∧
        match e.message, m with
        | none, none => True
        | some t, some i => q.1.messages[i]? = some t
        | _, _ => False := by
    intro l m hl hm q hq
    split at hq
    · next i h =>
      subst hq
      obtain ⟨x, hx, hp⟩ := findIdx_get h
      rw [show x = (e.kind, m) by simpa using hp] at hx
      exact ⟨{ Ext.refl st with messages := hl }, m, hx, hm⟩
    · subst hq
      exact ⟨{ Ext.refl st with messages := hl, errs := List.prefix_append _ _ }, m, last_get _ _, hm⟩
  unfold insertErr
  cases he : e.message with
  | none =>
    have := key st.messages none (List.prefix_refl _) (by rw [he]; trivial) _ rfl
    rw [he] at this
    exact this
  | some t =>
    obtain ⟨h1, h2⟩ := intern_spec st.messages t
    have := key (intern st.messages t).1 (some (intern st.messages t).2) h1 (by rw [he]; exact h2) _ rfl
    rw [he] at this
    exact this

theorem insertArray_spec {st st' : Store F} {rows cols k : Nat} {es : List VRef} (h : insertArray st rows cols es = some (st', k)) :
    es.length = rows * cols ∧ k = st.dims.length ∧ st'.dims = st.dims ++ [(rows, cols)] ∧ st'.elems = st.elems ++ es ∧
      st'.offsets = st.offsets ++ [(st.elems ++ es).length % 2 ^ 32] ∧ Ext st st' := by
  unfold insertArray at h
  split at h
  · next hc =>
    cases h
    exact ⟨hc.2, rfl, rfl, rfl, rfl, { Ext.refl st with
      dims := List.prefix_append _ _
      elems := List.prefix_append _ _
      offsets := List.prefix_append _ _ }⟩
  · cases h

/-! ### Nothing is lost -/

theorem withRef_some {st s : Store F} {o : Option VRef} {r : VRef} (h : withRef st o = some (s, r)) : s = st ∧ o = some r := by
  unfold withRef at h
  cases o with
  | none => cases h
  | some x => cases h; exact ⟨rfl, rfl⟩

mutual

theorem store_ext : ∀ (v : Lit C) {s s' : Store F} {r : VRef}, store s v = some (s', r) → Ext s s'
  | .empty, s, s', r, h => by unfold store at h; cases h; exact Ext.refl _
  | .pending, s, s', r, h => by unfold store at h; cases h; exact Ext.refl _
  | .bool b, s, s', r, h => by unfold store at h; cases h; exact Ext.refl _
  | .number f, s, s', r, h => by
    unfold store at h; obtain ⟨rfl, -⟩ := withRef_some h; exact { Ext.refl s with floats := List.prefix_append _ _ }
  | .dateTime f, s, s', r, h => by
    unfold store at h; obtain ⟨rfl, -⟩ := withRef_some h; exact { Ext.refl s with floats := List.prefix_append _ _ }
  | .date f, s, s', r, h => by
    unfold store at h; obtain ⟨rfl, -⟩ := withRef_some h; exact { Ext.refl s with floats := List.prefix_append _ _ }
  | .time f, s, s', r, h => by
    unfold store at h; obtain ⟨rfl, -⟩ := withRef_some h; exact { Ext.refl s with floats := List.prefix_append _ _ }
  | .duration f, s, s', r, h => by
    unfold store at h; obtain ⟨rfl, -⟩ := withRef_some h; exact { Ext.refl s with ints := List.prefix_append _ _ }
  | .text t, s, s', r, h => by
    unfold store at h; obtain ⟨rfl, -⟩ := withRef_some h; exact { Ext.refl s with strings := (intern_spec _ _).1 }
  | .error e, s, s', r, h => by
    unfold store at h; obtain ⟨rfl, -⟩ := withRef_some h; exact (insertErr_spec s e).1
  | .int i, s, s', r, h => by
    unfold store at h
    split at h
    · cases h; exact Ext.refl _
    · obtain ⟨rfl, -⟩ := withRef_some h; exact { Ext.refl s with ints := List.prefix_append _ _ }
  | .array rows, s, s', r, h => by
    unfold store at h
    split at h
    · cases h
    · next s1 es h1 =>
      split at h
      · cases h
      · next s2 k h2 =>
        obtain ⟨rfl, -⟩ := withRef_some h
        exact (storeRows_ext rows h1).trans (insertArray_spec h2).2.2.2.2.2

theorem storeRows_ext : ∀ (rows : List (List (Lit C))) {s s' : Store F} {rs : List VRef}, storeRows s rows = some (s', rs) → Ext s s'
  | [], s, s', rs, h => by unfold storeRows at h; cases h; exact Ext.refl _
  | row :: rows, s, s', rs, h => by
    unfold storeRows at h
    split at h
    · cases h
    · next s1 r1 h1 =>
      split at h
      · cases h
      · next s2 r2 h2 => cases h; exact (storeRow_ext row h1).trans (storeRows_ext rows h2)

theorem storeRow_ext : ∀ (vs : List (Lit C)) {s s' : Store F} {rs : List VRef}, storeRow s vs = some (s', rs) → Ext s s'
  | [], s, s', rs, h => by unfold storeRow at h; cases h; exact Ext.refl _
  | v :: vs, s, s', rs, h => by
    unfold storeRow at h
    split at h
    · cases h
    · next s1 r1 h1 =>
      split at h
      · cases h
      · next s2 r2 h2 => cases h; exact (store_ext v h1).trans (storeRow_ext vs h2)

end

end Verif.Arena
