import Mathlib.Data.List.Basic
import Mathlib.Data.List.GetD

/-!
# Typed lanes: one cell spread over five arrays

Models `/repo/crates/formualizer-eval/src/arrow_store/mod.rs`: `TypeTag` (17-62), `OverlayValue`
(939-950), `OverlayFragmentPayload::from_values` / `overlay_value` / `number_at` / `boolean_at` /
`text_at` / `error_at` / `values_slice` (1149-1288) and `append_overlay_value_to_lane_builders`
(3426-3500).

* A 64 bit float is a value of an arbitrary type `F`; nothing about it is assumed here.
* A byte is a `Nat`; error codes are opaque bytes.
* An Arrow array with a validity mask is a list of options; a lane that is absent is `none`.
* `estimated_bytes` of a payload is the memory size Arrow reports.  It is a parameter: a function of
  the values the payload was built from.
-/

namespace Verif.Store

/-- `OverlayValue` (mod.rs 939-950). -/
inductive Value (F : Type) where
  | empty
  | number (x : F)
  | dateTime (x : F)
  | duration (x : F)
  | boolean (b : Bool)
  | text (s : String)
  | error (code : Nat)
  | pending
  deriving DecidableEq, Repr

/-- `TypeTag` (mod.rs 17-27). -/
inductive Tag where
  | empty | number | boolean | text | error | dateTime | duration | pending
  deriving DecidableEq, Repr

/-- `TypeTag as u8` (mod.rs 19-26). -/
def Tag.code : Tag → Nat
  | .empty => 0
  | .number => 1
  | .boolean => 2
  | .text => 3
  | .error => 4
  | .dateTime => 5
  | .duration => 6
  | .pending => 7

/-- `TypeTag::from_u8` (mod.rs 49-61): the first tag with this byte, and `Empty` for a byte that is
no tag. -/
def Tag.ofCode (b : Nat) : Tag :=
  if b = Tag.empty.code then .empty
  else if b = Tag.number.code then .number
  else if b = Tag.boolean.code then .boolean
  else if b = Tag.text.code then .text
  else if b = Tag.error.code then .error
  else if b = Tag.dateTime.code then .dateTime
  else if b = Tag.duration.code then .duration
  else if b = Tag.pending.code then .pending
  else .empty

theorem Tag.ofCode_code (t : Tag) : Tag.ofCode t.code = t := by cases t <;> rfl

/-- What one cell appends to the five builders: its tag byte and one entry (a value or a null) for
each of the four typed lanes. -/
structure Row (F : Type) where
  tag : Nat
  num : Option F
  bool : Option Bool
  text : Option String
  err : Option Nat

/-- `append_overlay_value_to_lane_builders` (mod.rs 3426-3500). -/
def Row.ofValue {F : Type} : Value F → Row F
  | .empty => ⟨Tag.empty.code, none, none, none, none⟩
  | .number x => ⟨Tag.number.code, some x, none, none, none⟩
  | .dateTime x => ⟨Tag.dateTime.code, some x, none, none, none⟩
  | .duration x => ⟨Tag.duration.code, some x, none, none, none⟩
  | .boolean b => ⟨Tag.boolean.code, none, some b, none, none⟩
  | .text s => ⟨Tag.text.code, none, none, some s, none⟩
  | .error c => ⟨Tag.error.code, none, none, none, some c⟩
  | .pending => ⟨Tag.pending.code, none, none, none, none⟩

/-- The arrays of a payload (mod.rs 1139-1147) and of a column chunk's base (mod.rs 126-150). -/
structure Lanes (F : Type) where
  tags : List Nat
  numbers : Option (List (Option F))
  booleans : Option (List (Option Bool))
  text : Option (List (Option String))
  errors : Option (List (Option Nat))

/-- A finished builder is kept only if something in it is not null
(`(non_num > 0).then(|| ..)`, mod.rs 1182-1199). -/
def keep {α : Type} (lane : List (Option α)) : Option (List (Option α)) :=
  if (lane.filter Option.isSome).length > 0 then some lane else none

/-- The finished arrays after appending the rows in order (mod.rs 1163-1199). -/
def Lanes.ofRows {F : Type} (rows : List (Row F)) : Lanes F where
  tags := rows.map (·.tag)
  numbers := keep (rows.map (·.num))
  booleans := keep (rows.map (·.bool))
  text := keep (rows.map (·.text))
  errors := keep (rows.map (·.err))

/-- `number_at`, `boolean_at`, `text_at`, `error_at` (mod.rs 1254-1276): `None` if the lane is absent
or null there.  (The index is within the lane whenever it is within the tags.) -/
def laneAt {α : Type} (lane : Option (List (Option α))) (i : Nat) : Option α :=
  lane.bind (·.getD i none)

/-- `overlay_value` (mod.rs 1231-1246). -/
def Lanes.value {F : Type} (l : Lanes F) (i : Nat) : Option (Value F) :=
  match l.tags[i]? with
  | none => none
  | some b =>
    match Tag.ofCode b with
    | .empty => some .empty
    | .number => (laneAt l.numbers i).map .number
    | .dateTime => (laneAt l.numbers i).map .dateTime
    | .duration => (laneAt l.numbers i).map .duration
    | .boolean => (laneAt l.booleans i).map .boolean
    | .text => (laneAt l.text i).map .text
    | .error => (laneAt l.errors i).map .error
    | .pending => some .pending

/-- `from_values` (mod.rs 1149-1229), lanes only. -/
def Lanes.ofValues {F : Type} (vs : List (Value F)) : Lanes F := .ofRows (vs.map Row.ofValue)

/-- `values_slice` (mod.rs 1278-1283). -/
def Lanes.slice {F : Type} (l : Lanes F) (start len : Nat) : List (Value F) :=
  ((List.range len).map (start + ·)).filterMap l.value

/-! ## What comes back out -/

theorem laneAt_keep {α : Type} (lane : List (Option α)) (i : Nat) :
    laneAt (keep lane) i = lane.getD i none := by
  unfold keep
  split
  · rfl
  · rename_i h
    have h0 : lane.filter Option.isSome = [] := by
      apply List.eq_nil_of_length_eq_zero; omega
    rw [List.filter_eq_nil_iff] at h0
    simp only [laneAt, Option.bind_none]
    rcases Nat.lt_or_ge i lane.length with hi | hi
    · have := h0 lane[i] (List.getElem_mem hi)
      rw [List.getD_eq_getElem _ _ hi]
      cases hl : lane[i] with
      | none => rfl
      | some a => rw [hl] at this; simp at this
    · rw [List.getD_eq_default _ _ hi]

theorem getD_map_row {F α : Type} (rows : List (Row F)) (f : Row F → Option α) (i : Nat) :
    (rows.map f).getD i none = (rows[i]?).bind f := by
  rw [List.getD_eq_getElem?_getD, List.getElem?_map]
  cases rows[i]? <;> rfl

/-- Each lane entry of the finished arrays is the one its row appended. -/
theorem Lanes.ofRows_at {F : Type} (rows : List (Row F)) (i : Nat) :
    (Lanes.ofRows rows).tags[i]? = (rows[i]?).map (·.tag)
      ∧ laneAt (Lanes.ofRows rows).numbers i = (rows[i]?).bind (·.num)
      ∧ laneAt (Lanes.ofRows rows).booleans i = (rows[i]?).bind (·.bool)
      ∧ laneAt (Lanes.ofRows rows).text i = (rows[i]?).bind (·.text)
      ∧ laneAt (Lanes.ofRows rows).errors i = (rows[i]?).bind (·.err) := by
  refine ⟨by simp [Lanes.ofRows], ?_, ?_, ?_, ?_⟩ <;>
  · simp only [Lanes.ofRows]
    rw [laneAt_keep, getD_map_row]

/-- **Spreading values over lanes loses nothing.**  Whatever the values, reading position `i` of the
payload built from them gives the `i`-th value (including `Empty` and `Pending`), and nothing past
the end. -/
theorem lanes_roundtrip {F : Type} (vs : List (Value F)) (i : Nat) :
    (Lanes.ofValues vs).value i = vs[i]? := by
  obtain ⟨ht, hn, hb, hx, he⟩ := Lanes.ofRows_at (vs.map Row.ofValue) i
  unfold Lanes.value Lanes.ofValues
  rw [ht, hn, hb, hx, he, List.getElem?_map]
  cases hv : vs[i]? with
  | none => rfl
  | some v => cases v <;> rfl

example : (Lanes.ofValues [Value.number 3, .text "a", .empty, .boolean true]).value 1
    = some (.text "a") ∧
    (Lanes.ofValues [Value.number 3, .text "a"]).booleans = none := by decide

theorem Lanes.slice_ofValues {F : Type} (vs : List (Value F)) (start len : Nat)
    (h : start + len ≤ vs.length) :
    (Lanes.ofValues vs).slice start len = (vs.drop start).take len := by
  unfold Lanes.slice
  rw [List.filterMap_map]
  have hc : ((Lanes.ofValues vs).value ∘ fun x => start + x) = fun i => vs[start + i]? := by
    funext i; exact lanes_roundtrip vs (start + i)
  rw [hc]
  induction len generalizing start with
  | zero => simp
  | succ n ih =>
    have hs : start < vs.length := by omega
    have hd : vs.drop start = vs[start] :: vs.drop (start + 1) := List.drop_eq_getElem_cons hs
    rw [List.range_succ_eq_map, List.filterMap_cons]
    simp only [Nat.add_zero, List.getElem?_eq_getElem hs]
    rw [List.filterMap_map, hd, List.take_succ_cons]
    congr 1
    have := ih (start + 1) (by omega)
      (by funext i; exact lanes_roundtrip vs (start + 1 + i))
    rw [← this]
    congr 1
    funext i
    simp only [Function.comp, Nat.succ_eq_add_one]
    congr 1; omega

end Verif.Store
