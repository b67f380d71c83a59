/-
Storing succeeds when there is room, and the store grows by no more than the size of the value (property C62).
-/
import Verif.Arena.ValueRead

namespace Verif.Arena

variable {F : Type} {C : Chrono F}

mutual

/-- The number of values in a value, itself included. -/
def size : Lit C → Nat
  | .array rows => 1 + sizeRows rows
  | _ => 1

/-- The number of values in the rows. -/
def sizeRows : List (List (Lit C)) → Nat
  | [] => 0
  | row :: rows => sizeRow row + sizeRows rows

/-- The number of values in a row. -/
def sizeRow : List (Lit C) → Nat
  | [] => 0
  | v :: vs => size v + sizeRow vs

end

/-- No list has become longer by more than `n`. -/
structure Grows (s s' : Store F) (n : Nat) : Prop where
  floats : s'.floats.length ≤ s.floats.length + n
  ints : s'.ints.length ≤ s.ints.length + n
  strings : s'.strings.length ≤ s.strings.length + n
  errs : s'.errs.length ≤ s.errs.length + n
  dims : s'.dims.length ≤ s.dims.length + n
  elems : s'.elems.length ≤ s.elems.length + n

/-- There is room for `n` more values: the indices fit into 28 bits. -/
structure Store.Room (s : Store F) (n : Nat) : Prop where
  floats : s.floats.length + n ≤ 2 ^ 28
  ints : s.ints.length + n ≤ 2 ^ 28
  strings : s.strings.length + n ≤ 2 ^ 28
  errs : s.errs.length + n ≤ 2 ^ 28
  dims : s.dims.length + n ≤ 2 ^ 28
  elems : s.elems.length + n ≤ 2 ^ 28

theorem Grows.refl (s : Store F) (n : Nat) : Grows s s n := ⟨by omega, by omega, by omega, by omega, by omega, by omega⟩

theorem Grows.trans {a b c : Store F} {m n : Nat} (h : Grows a b m) (k : Grows b c n) : Grows a c (m + n) := by
  obtain ⟨_, _, _, _, _, _⟩ := h
  obtain ⟨_, _, _, _, _, _⟩ := k
  constructor <;> omega

theorem Grows.room {a b : Store F} {m n : Nat} (h : Grows a b m) (k : a.Room (m + n)) : b.Room n := by
  obtain ⟨_, _, _, _, _, _⟩ := h
  obtain ⟨_, _, _, _, _, _⟩ := k
  constructor <;> omega

theorem Store.Room.fits {s : Store F} {n : Nat} (h : s.Room n) : s.Fits := by
  obtain ⟨_, _, _, _, _, _⟩ := h
  constructor <;> omega

theorem Store.Room.mono {s : Store F} {m n : Nat} (h : s.Room n) (hm : m ≤ n) : s.Room m := by
  obtain ⟨_, _, _, _, _, _⟩ := h
  constructor <;> omega

theorem intern_grows (l : List String) (s : String) : (intern l s).1.length ≤ l.length + 1 := by
  unfold intern
  split <;> simp

theorem insertErr_grows (st : Store F) (e : Err) : Grows st (insertErr st e).1 1 := by
  unfold insertErr
  cases e.message <;> dsimp only <;> split <;> constructor <;> simp

theorem size_pos : ∀ v : Lit C, 1 ≤ size v
  | .array _ => by unfold size; omega
  | .int _ => by unfold size; omega
  | .number _ => by unfold size; omega
  | .text _ => by unfold size; omega
  | .bool _ => by unfold size; omega
  | .date _ => by unfold size; omega
  | .dateTime _ => by unfold size; omega
  | .time _ => by unfold size; omega
  | .duration _ => by unfold size; omega
  | .empty => by unfold size; omega
  | .pending => by unfold size; omega
  | .error _ => by unfold size; omega

/-- The elements of a list with room left: their number, besides what the stores of the elements themselves add. -/
structure Grew (s s' : Store F) (n k : Nat) : Prop where
  grows : Grows s s' n
  elems : s'.elems.length + k ≤ s.elems.length + n

mutual

theorem store_grows : ∀ (v : Lit C) {s s' : Store F} {r : VRef}, store s v = some (s', r) → Grew s s' (size v) 1
  | .empty, s, s', r, h => by unfold store at h; cases h; exact ⟨Grows.refl _ _, by simp [size]⟩
  | .pending, s, s', r, h => by unfold store at h; cases h; exact ⟨Grows.refl _ _, by simp [size]⟩
  | .bool b, s, s', r, h => by unfold store at h; cases h; exact ⟨Grows.refl _ _, by simp [size]⟩
  | .number f, s, s', r, h => by
    unfold store at h; obtain ⟨rfl, -⟩ := withRef_some h; refine ⟨?_, by simp [size]⟩; constructor <;> simp [size]
  | .dateTime f, s, s', r, h => by
    unfold store at h; obtain ⟨rfl, -⟩ := withRef_some h; refine ⟨?_, by simp [size]⟩; constructor <;> simp [size]
  | .date f, s, s', r, h => by
    unfold store at h; obtain ⟨rfl, -⟩ := withRef_some h; refine ⟨?_, by simp [size]⟩; constructor <;> simp [size]
  | .time f, s, s', r, h => by
    unfold store at h; obtain ⟨rfl, -⟩ := withRef_some h; refine ⟨?_, by simp [size]⟩; constructor <;> simp [size]
  | .duration f, s, s', r, h => by
    unfold store at h; obtain ⟨rfl, -⟩ := withRef_some h; refine ⟨?_, by simp [size]⟩; constructor <;> simp [size]
  | .text t, s, s', r, h => by
    unfold store at h; obtain ⟨rfl, -⟩ := withRef_some h
    refine ⟨?_, by simp [size]⟩
    have := intern_grows s.strings t
    constructor <;> simp [size]
    exact this
  | .error e, s, s', r, h => by
    unfold store at h; obtain ⟨rfl, -⟩ := withRef_some h
    refine ⟨insertErr_grows s e, ?_⟩
    have : (insertErr s e).1.elems = s.elems := by
      unfold insertErr
      cases e.message <;> dsimp only <;> split <;> rfl
    rw [this]
    simp [size]
  | .int i, s, s', r, h => by
    unfold store at h
    split at h
    · cases h; exact ⟨Grows.refl _ _, by simp [size]⟩
    · obtain ⟨rfl, -⟩ := withRef_some h; refine ⟨?_, by simp [size]⟩; constructor <;> simp [size]
  | .array rows, s, s', r, h => by
    unfold store at h
    split at h
    · cases h
    · next s1 es h1 =>
      split at h
      · cases h
      · next s2 k h2 =>
        obtain ⟨rfl, -⟩ := withRef_some h
        obtain ⟨⟨_, _, _, _, _, _⟩, he⟩ := storeRows_grows rows h1
        unfold insertArray at h2
        split at h2
        · cases h2
          unfold size
          refine ⟨?_, by simp; omega⟩
          constructor <;> simp <;> omega
        · cases h2

theorem storeRows_grows : ∀ (rows : List (List (Lit C))) {s s' : Store F} {rs : List VRef}, storeRows s rows = some (s', rs) →
    Grew s s' (sizeRows rows) rs.length
  | [], s, s', rs, h => by unfold storeRows at h; cases h; exact ⟨Grows.refl _ _, by simp [sizeRows]⟩
  | row :: rows, s, s', rs, h => by
    unfold storeRows at h
    split at h
    · cases h
    · next s1 r1 h1 =>
      split at h
      · cases h
      · next s2 r2 h2 =>
        cases h
        obtain ⟨g1, e1⟩ := storeRow_grows row h1
        obtain ⟨g2, e2⟩ := storeRows_grows rows h2
        unfold sizeRows
        exact ⟨g1.trans g2, by rw [List.length_append]; omega⟩

theorem storeRow_grows : ∀ (vs : List (Lit C)) {s s' : Store F} {rs : List VRef}, storeRow s vs = some (s', rs) →
    Grew s s' (sizeRow vs) rs.length
  | [], s, s', rs, h => by unfold storeRow at h; cases h; exact ⟨Grows.refl _ _, by simp [sizeRow]⟩
  | v :: vs, s, s', rs, h => by
    unfold storeRow at h
    split at h
    · cases h
    · next s1 r1 h1 =>
      split at h
      · cases h
      · next s2 r2 h2 =>
        cases h
        obtain ⟨g1, e1⟩ := store_grows v h1
        obtain ⟨g2, e2⟩ := storeRow_grows vs h2
        unfold sizeRow
        exact ⟨g1.trans g2, by rw [List.length_cons]; omega⟩

end

/-! ### Storing succeeds -/

theorem mkRef_succeeds (type : Nat) {n : Nat} (hn : n < 2 ^ 28) : ∃ r, mkRef type (BitVec.ofNat 32 n) = some r := by
  unfold mkRef
  rw [if_pos]
  · exact ⟨_, rfl⟩
  · rw [BitVec.le_def, BitVec.toNat_ofNat, show payloadMask.toNat = 2 ^ 28 - 1 from rfl]
    have : n % 2 ^ 32 = n := Nat.mod_eq_of_lt (by omega)
    omega

theorem withRef_succeeds {st : Store F} {o : Option VRef} (h : ∃ r, o = some r) : ∃ s r, withRef st o = some (s, r) := by
  obtain ⟨r, rfl⟩ := h
  exact ⟨_, _, rfl⟩

theorem duration_succeeds {n : Nat} (hn : n < 2 ^ 28) : integerRef n &&& 0x7FFFFFFF#32 = BitVec.ofNat 32 n := by
  apply BitVec.eq_of_toNat_eq
  rw [BitVec.toNat_and, show (0x7FFFFFFF#32).toNat = 2 ^ 31 - 1 from rfl, Nat.and_two_pow_sub_one_eq_mod]
  unfold integerRef
  rw [BitVec.toNat_or, BitVec.toNat_ofNat, show (1#32 <<< 31).toNat = 2 ^ 31 by decide,
    Nat.mod_eq_of_lt (show n < 2 ^ 32 by omega), Nat.or_mod_two_pow]
  simp
  omega

theorem smallInt_succeeds {i : Int} (h1 : -(2 : Int) ^ 27 ≤ i) (h2 : i < 2 ^ 27) :
    (BitVec.ofInt 32 i).toInt = i ∧ ∃ r, smallInt (BitVec.ofInt 32 i) = some r := by
  have e : (BitVec.ofInt 32 i).toInt = i := by
    rw [BitVec.toInt_ofInt]
    apply Int.bmod_eq_of_le <;> omega
  refine ⟨e, ?_⟩
  unfold smallInt
  rw [if_pos (by rw [e]; omega)]
  exact ⟨_, rfl⟩

theorem flatten_rect {α : Type} {n : Nat} : ∀ {rows : List (List α)}, (∀ row ∈ rows, row.length = n) → rows.flatten.length = rows.length * n
  | [], _ => by simp
  | row :: rows, h => by
    rw [List.flatten_cons, List.length_append, flatten_rect fun x hx => h x (by simp [hx]), h row (by simp), List.length_cons,
      Nat.add_mul]
    omega

mutual

theorem store_succeeds : ∀ (v : Lit C) {s : Store F}, Storable v → s.Room (size v) → ∃ s' r, store s v = some (s', r)
  | .empty, s, _, _ => by unfold store; exact ⟨_, _, rfl⟩
  | .pending, s, _, _ => by unfold store; exact ⟨_, _, rfl⟩
  | .bool b, s, _, _ => by unfold store; exact ⟨_, _, rfl⟩
  | .number f, s, _, hr => by
    unfold store; have := hr.floats; unfold size at this; exact withRef_succeeds (mkRef_succeeds _ (by omega))
  | .dateTime f, s, _, hr => by
    unfold store; have := hr.floats; unfold size at this; exact withRef_succeeds (mkRef_succeeds _ (by omega))
  | .date f, s, h, _ => by unfold Storable at h; exact h.elim
  | .time f, s, h, _ => by unfold Storable at h; exact h.elim
  | .duration f, s, _, hr => by
    unfold store
    have := hr.ints
    unfold size at this
    rw [duration_succeeds (by omega)]
    exact withRef_succeeds (mkRef_succeeds _ (by omega))
  | .text t, s, _, hr => by
    unfold store
    have := hr.strings
    unfold size at this
    have h1 := get_lt (intern_spec s.strings t).2
    have h2 := intern_grows s.strings t
    exact withRef_succeeds (mkRef_succeeds _ (by omega))
  | .error e, s, _, hr => by
    unfold store
    have := hr.errs
    unfold size at this
    obtain ⟨-, m, h1, -⟩ := insertErr_spec s e
    have h1 := get_lt h1
    have h2 := (insertErr_grows s e).errs
    exact withRef_succeeds (mkRef_succeeds _ (by omega))
  | .int i, s, h, _ => by
    unfold Storable at h
    obtain ⟨-, r, hr⟩ := smallInt_succeeds h.1 h.2
    unfold store
    rw [hr]
    exact ⟨_, _, rfl⟩
  | .array rows, s, h, hr => by
    unfold Storable at h
    obtain ⟨⟨n, hn, hrect⟩, hrows⟩ := h
    unfold size at hr
    obtain ⟨s1, es, h1, hlen⟩ := storeRows_succeeds rows hrows (hr.mono (by omega))
    unfold store
    rw [h1]
    dsimp only
    obtain ⟨g, ge⟩ := storeRows_grows rows h1
    have hes : es.length = rows.length * (rows.headD []).length := by
      rw [hlen, flatten_rect hrect]
      cases rows with
      | nil => simp
      | cons row rows => rw [List.headD_cons, hrect row (by simp)]
    have hlt : rows.length * (rows.headD []).length < 2 ^ 32 := by
      rw [← hes]
      have := hr.elems
      omega
    have hd : s1.dims.length < 2 ^ 28 := by
      have := hr.dims
      have := g.dims
      omega
    unfold insertArray
    rw [if_pos ⟨hlt, hes⟩]
    exact withRef_succeeds (mkRef_succeeds _ hd)

theorem storeRows_succeeds : ∀ (rows : List (List (Lit C))) {s : Store F}, StorableRows rows → s.Room (sizeRows rows) →
    ∃ s' rs, storeRows s rows = some (s', rs) ∧ rs.length = rows.flatten.length
  | [], s, _, _ => by unfold storeRows; exact ⟨_, _, rfl, rfl⟩
  | row :: rows, s, h, hr => by
    unfold StorableRows at h
    unfold sizeRows at hr
    obtain ⟨s1, r1, h1, l1⟩ := storeRow_succeeds row h.1 (hr.mono (by omega))
    obtain ⟨s2, r2, h2, l2⟩ := storeRows_succeeds rows h.2 ((storeRow_grows row h1).grows.room hr)
    unfold storeRows
    rw [h1]
    dsimp only
    rw [h2]
    exact ⟨_, _, rfl, by rw [List.length_append, List.flatten_cons, List.length_append, l1, l2]⟩

theorem storeRow_succeeds : ∀ (vs : List (Lit C)) {s : Store F}, StorableRow vs → s.Room (sizeRow vs) →
    ∃ s' rs, storeRow s vs = some (s', rs) ∧ rs.length = vs.length
  | [], s, _, _ => by unfold storeRow; exact ⟨_, _, rfl, rfl⟩
  | v :: vs, s, h, hr => by
    unfold StorableRow at h
    unfold sizeRow at hr
    obtain ⟨s1, r1, h1⟩ := store_succeeds v h.1 (hr.mono (by omega))
    obtain ⟨s2, r2, h2, l2⟩ := storeRow_succeeds vs h.2 ((store_grows v h1).grows.room hr)
    unfold storeRow
    rw [h1]
    dsimp only
    rw [h2]
    exact ⟨_, _, rfl, by simp [l2]⟩

end

/-! ### The image of a storable value is the value -/

theorem cut_flatten {α : Type} {n : Nat} (hn : 0 < n) : ∀ {rows : List (List α)}, (∀ row ∈ rows, row.length = n) →
    cut rows.flatten rows.length (rows.headD []).length = rows := by
  intro rows hrect
  cases rows with
  | nil => rfl
  | cons row rows =>
    have hh : ((row :: rows).headD []).length = n := by rw [List.headD_cons, hrect row (by simp)]
    rw [hh]
    unfold cut
    rw [if_neg (by simp; omega)]
    clear hh
    generalize row :: rows = rs at hrect
    clear row rows
    induction rs with
    | nil => rfl
    | cons row rows ih =>
      have h1 : row.length = n := hrect row (by simp)
      rw [List.length_cons, List.range_succ_eq_map, List.map_cons, List.map_map]
      congr 1
      · rw [List.flatten_cons, Nat.zero_mul, List.drop_zero, ← h1, List.take_left]
      · refine Eq.trans ?_ (ih fun x hx => hrect x (by simp [hx]))
        apply List.map_congr_left
        intro r _
        simp only [Function.comp]
        rw [List.flatten_cons, show r.succ * n = row.length + r * n by rw [h1, Nat.succ_mul]; omega, ← List.drop_drop,
          List.drop_left]

mutual

theorem image_eq : ∀ v : Lit C, Storable v → image v = v
  | .int i, h => by unfold Storable at h; rw [image, (smallInt_succeeds h.1 h.2).1]
  | .date _, h => by unfold Storable at h; exact h.elim
  | .time _, h => by unfold Storable at h; exact h.elim
  | .dateTime d, h => by unfold Storable at h; rw [image, h]
  | .duration d, h => by unfold Storable at h; rw [image, h]
  | .error e, h => by unfold Storable at h; obtain ⟨a, b, c⟩ := e; cases h; rw [image]
  | .array rows, h => by
    unfold Storable at h
    obtain ⟨⟨n, hn, hrect⟩, hrows⟩ := h
    rw [image, imageRows_eq rows hrows, cut_flatten hn hrect]
  | .number _, _ => by rw [image]
  | .text _, _ => by rw [image]
  | .bool _, _ => by rw [image]
  | .empty, _ => by rw [image]
  | .pending, _ => by rw [image]

theorem imageRows_eq : ∀ rows : List (List (Lit C)), StorableRows rows → imageRows rows = rows.flatten
  | [], _ => by rw [imageRows]; rfl
  | row :: rows, h => by
    unfold StorableRows at h
    rw [imageRows, imageRow_eq row h.1, imageRows_eq rows h.2, List.flatten_cons]

theorem imageRow_eq : ∀ vs : List (Lit C), StorableRow vs → imageRow vs = vs
  | [], _ => by rw [imageRow]
  | v :: vs, h => by unfold StorableRow at h; rw [imageRow, image_eq v h.1, imageRow_eq vs h.2]

end

end Verif.Arena
