/-
Property C62: what is stored is what is read back.
-/
import Verif.Arena.ValueRoom

namespace Verif.Arena

variable {F : Type} {C : Chrono F}

theorem new_room (F : Type) {n : Nat} (h : n ≤ 2 ^ 28) : (Store.new F).Room n := by
  constructor <;> simp [Store.new] <;> omega

/-- Any list of storable values of no more than 2^28 parts can be stored, and afterwards every reference gives its value. -/
theorem stored_is_read (vs : List (Lit C)) (hs : ∀ v ∈ vs, Storable v) (hn : (vs.map size).sum ≤ 2 ^ 28) :
    ∃ st rs, storeBatch (Store.new F) vs = some (st, rs) ∧ List.Forall₂ (Reads st) rs vs := by
  have h1 : StorableRow vs := by
    clear hn
    induction vs with
    | nil => unfold StorableRow; trivial
    | cons v vs ih => unfold StorableRow; exact ⟨hs v (by simp), ih fun x hx => hs x (by simp [hx])⟩
  have h2 : sizeRow vs = (vs.map size).sum := by
    clear hn hs h1
    induction vs with
    | nil => rw [sizeRow]; rfl
    | cons v vs ih => rw [sizeRow, ih]; rfl
  have hroom : (Store.new F).Room (sizeRow vs + 0) := new_room F (by omega)
  obtain ⟨st, rs, h, -⟩ := storeRow_succeeds vs h1 hroom
  refine ⟨st, rs, h, ?_⟩
  have hf := ((storeRow_grows vs h).grows.room hroom).fits
  have := (storeRow_reads vs h (new_ok F) hf).2 st (Ext.refl st)
  rwa [imageRow_eq vs h1] at this

/-- One value more, after any history: it is read back, and so is everything that was stored before. -/
theorem store_keeps {vs : List (Lit C)} {v : Lit C} {s s' : Store F} {rs : List VRef} {r : VRef}
    (h : storeBatch (Store.new F) vs = some (s, rs)) (hv : store s v = some (s', r)) (hf : s'.Fits) :
    Reads s' r (image v) ∧ List.Forall₂ (Reads s') rs (imageRow vs) := by
  have hx := store_ext v hv
  obtain ⟨hok, hr⟩ := storeRow_reads vs h (new_ok F) (hx.fits hf)
  exact ⟨(store_reads v hv hok hf).2 s' (Ext.refl _), hr s' hx⟩

theorem reads_det {st : Store F} {r : VRef} {v w : Lit C} (h : Reads st r v) (k : Reads st r w) : v = w := by
  obtain ⟨a, ha⟩ := h
  obtain ⟨b, hb⟩ := k
  have h1 := ha (max a b) (by omega)
  rw [hb (max a b) (by omega)] at h1
  exact (Option.some.inj h1).symm

/-- Different storable values have different references. -/
theorem refs_apart {vs : List (Lit C)} {st : Store F} {rs : List VRef} (h : List.Forall₂ (Reads st) rs vs) {i j : Nat} {r : VRef}
    {v w : Lit C} (hi : rs[i]? = some r) (hj : rs[j]? = some r) (hv : vs[i]? = some v) (hw : vs[j]? = some w) : v = w := by
  have key : ∀ {rs : List VRef} {vs : List (Lit C)}, List.Forall₂ (Reads st) rs vs → ∀ {i : Nat} {r : VRef} {v : Lit C},
      rs[i]? = some r → vs[i]? = some v → Reads st r v := by
    intro rs vs h
    induction h with
    | nil => intro i r v hr; simp at hr
    | cons h1 _ ih =>
      intro i r v hr hv
      cases i with
      | zero => simp at hr hv; subst hr; subst hv; exact h1
      | succ i => simp at hr hv; exact ih hr hv
  exact reads_det (key h hi hv) (key h hj hw)

/-- The number of a value that is already there is found again: storing a text a second time changes nothing. -/
theorem text_again {s s' : Store F} {t : String} {r : VRef} (h : store (C := C) s (.text t) = some (s', r)) :
    store (C := C) s' (.text t) = some (s', r) := by
  unfold store at h
  obtain ⟨rfl, hr⟩ := withRef_some h
  have e : intern (intern s.strings t).1 t = ((intern s.strings t).1, (intern s.strings t).2) := by
    unfold intern
    cases hf : s.strings.findIdx? (· = t) with
    | some i => simp only [hf]
    | none =>
      have : (s.strings ++ [t]).findIdx? (· = t) = some s.strings.length := by
        rw [List.findIdx?_append, hf]
        simp
      simp only [this]
  unfold store
  dsimp only
  rw [e]
  dsimp only
  rw [hr]
  rfl

/-! ### What is not kept -/

/-- An integer whose low 32 bits are not those of an integer of 28 bits cannot be stored: the constructor panics. -/
theorem large_int_panics (s : Store F) (i : Int) (h : (BitVec.ofInt 32 i).toInt < -(2 : Int) ^ 27 ∨ (2 : Int) ^ 27 ≤ (BitVec.ofInt 32 i).toInt) :
    store (C := C) s (.int i) = none := by
  unfold store
  have : smallInt (BitVec.ofInt 32 i) = none := by
    unfold smallInt
    rw [if_neg (by omega)]
  rw [this]
  dsimp only
  rw [integer_never]
  rfl

/-- In particular every integer of 32 bits that is too large for 28. -/
theorem large_int_panics_32 (s : Store F) (i : Int) (h1 : (2 : Int) ^ 27 ≤ i) (h2 : i < 2 ^ 31) : store (C := C) s (.int i) = none := by
  apply large_int_panics
  rw [BitVec.toInt_ofInt, Int.bmod_eq_of_le (by omega) (by omega)]
  exact Or.inr h1

/-- An integer that does not fit into 32 bits is read back as another, or panics. -/
theorem wide_int_wrong {s s' : Store F} {i : Int} {r : VRef} (hw : i < -(2 : Int) ^ 31 ∨ (2 : Int) ^ 31 ≤ i) (hok : s.Ok) (hf : s'.Fits)
    (h : store (C := C) s (.int i) = some (s', r)) : ∃ j, j ≠ i ∧ Reads s' r (.int j : Lit C) := by
  have := (store_reads (C := C) (.int i) h hok hf).2 s' (Ext.refl _)
  rw [image] at this
  refine ⟨_, ?_, this⟩
  have h1 := BitVec.toInt_lt (x := BitVec.ofInt 32 i)
  have h2 := BitVec.le_toInt (x := BitVec.ofInt 32 i)
  intro e
  rw [e] at h1 h2
  simp at h1 h2
  omega

/-- A day is read back as a date-time, never as a day. -/
theorem date_becomes_dateTime {s s' : Store F} {d : C.Date} {r : VRef} (hok : s.Ok) (hf : s'.Fits) (h : store (C := C) s (.date d) = some (s', r)) :
    Reads s' r (.dateTime (C.ofSerial (C.serial (C.midnight d))) : Lit C) ∧ ∀ d', ¬ Reads s' r (.date d' : Lit C) := by
  have := (store_reads (C := C) (.date d) h hok hf).2 s' (Ext.refl _)
  rw [image] at this
  exact ⟨this, fun d' h' => by have := reads_det this h'; cases this⟩

/-- So is a time of day. -/
theorem time_becomes_dateTime {s s' : Store F} {t : C.Time} {r : VRef} (hok : s.Ok) (hf : s'.Fits) (h : store (C := C) s (.time t) = some (s', r)) :
    Reads s' r (.dateTime (C.ofSerial (C.fraction t)) : Lit C) ∧ ∀ t', ¬ Reads s' r (.time t' : Lit C) := by
  have := (store_reads (C := C) (.time t) h hok hf).2 s' (Ext.refl _)
  rw [image] at this
  exact ⟨this, fun d' h' => by have := reads_det this h'; cases this⟩

/-- The context and the payload of an error are lost. -/
theorem error_payload_lost {s s' : Store F} {e : Err} {r : VRef} (he : e.rest ≠ none) (hok : s.Ok) (hf : s'.Fits)
    (h : store (C := C) s (.error e) = some (s', r)) : ¬ Reads s' r (.error e : Lit C) := by
  have := (store_reads (C := C) (.error e) h hok hf).2 s' (Ext.refl _)
  rw [image] at this
  intro h'
  have := reads_det this h'
  injection this with this
  rw [← this] at he
  exact he rfl

/-- An array whose rows have other lengths than the first is refused only if the number of elements is wrong as well:
rows of two, three and one elements come back as three rows of two. -/
theorem ragged_reshaped (a b c d e f : Bool) : ∃ s r,
    store (C := C) (Store.new F) (.array [[.bool a, .bool b], [.bool c, .bool d, .bool e], [.bool f]]) = some (s, r) ∧
      Reads s r (.array [[.bool a, .bool b], [.bool c, .bool d], [.bool e, .bool f]] : Lit C) := by
  refine ⟨_, _, rfl, ?_⟩
  have h := (store_reads (C := C) (s := Store.new F) (.array [[.bool a, .bool b], [.bool c, .bool d, .bool e], [.bool f]]) rfl (new_ok F)
    (by constructor <;> simp [Store.new])).2 _ (Ext.refl _)
  simpa [image, imageRows, imageRow, cut, List.range_succ] using h

/-- A row without cells is lost. -/
theorem empty_row_lost : ∃ s r, store (C := C) (Store.new F) (.array [[]]) = some (s, r) ∧ Reads s r (.array [] : Lit C) := by
  refine ⟨_, _, rfl, ?_⟩
  have h := (store_reads (C := C) (s := Store.new F) (.array [[]]) rfl (new_ok F) (by constructor <;> simp [Store.new])).2 _ (Ext.refl _)
  simpa [image, imageRows, imageRow, cut, List.range_succ] using h

/-! ### Examples -/

/-- A calendar for the examples: whole numbers of seconds. -/
def toy : Chrono Int where
  DateTime := Int
  Date := Int
  Time := Nat
  Duration := Int
  midnight := fun d => d * 86400
  serial := id
  fraction := fun t => t
  ofSerial := id
  seconds := id
  ofSeconds := id

/-- A list of values of many kinds, an array of arrays among them. -/
def sample : List (Lit toy) :=
  [.number 7, .text "a", .int (-3), .array [[.number 7, .text "a"], [.bool true, .array [[.error ⟨3, some "no", none⟩]]]], .text "b",
    .dateTime (5 : Int), .duration (9 : Int), .empty, .pending, .error ⟨3, some "no", none⟩, .array [], .int (2 ^ 27 - 1)]

example : ∃ st rs, storeBatch (Store.new Int) sample = some (st, rs) ∧ List.Forall₂ (Reads st) rs sample :=
  stored_is_read sample (by
    intro v hv
    simp only [sample, List.mem_cons, List.not_mem_nil, or_false] at hv
    rcases hv with rfl | rfl | rfl | rfl | rfl | rfl | rfl | rfl | rfl | rfl | rfl | rfl
    case inr.inr.inr.inl =>
      simp only [Storable, StorableRows, StorableRow, and_true, true_and]
      refine ⟨⟨2, by decide, by simp⟩, ⟨1, by decide, by simp⟩⟩
    all_goals simp [Storable, StorableRows, toy]
    exact ⟨1, by decide, fun row h => (List.not_mem_nil h).elim⟩) (by simp [sample, size, sizeRows, sizeRow])

example (s : Store Int) : store (C := toy) s (.int 200000000) = none := large_int_panics_32 s _ (by decide) (by decide)

example : ∃ s r, store (C := toy) (Store.new Int) (.int (2 ^ 32 + 5)) = some (s, r) ∧ Reads s r (.int 5 : Lit toy) :=
  ⟨_, _, rfl, reads_flat fun _ => rfl⟩

end Verif.Arena
