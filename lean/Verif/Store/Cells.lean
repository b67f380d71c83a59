import Mathlib.Data.List.Basic
import Mathlib.Data.List.GetD
import Mathlib.Data.List.Forall2
import Mathlib.Tactic.Tauto
import Verif.Store.Sheet

/-!
# The cells of a chunk

What growing, slicing and compacting a chunk do to each of its cells, a cell being what the two overlays
and the base hold for it.
-/

namespace Verif.Store

variable {F G : Type}

/-- One cell: the user's entry, the computed entry, the base. -/
@[ext] structure Cell (G : Type) where
  user : Option (Value G)
  comp : Option (Value G)
  base : Value G

def Cell.blank : Cell G := ⟨none, none, .empty⟩

/-- What a cell shows. -/
def Cell.shown (x : Cell G) : Value G := (x.user.or x.comp).getD x.base

/-- No cell has entries in both overlays. -/
def Cell.Single (x : Cell G) : Prop := x.user = none ∨ x.comp = none

/-- A cell of a chunk, up to `norm`. -/
def Chunk.cell (norm : F → G) (ch : Chunk F) (o : Nat) : Cell G :=
  ⟨ch.user.see norm o, ch.comp.see norm o, ((ch.base.value o).getD .empty).map norm⟩

/-- A missing chunk has blank cells. -/
def cellOf (norm : F → G) (oc : Option (Chunk F)) (o : Nat) : Cell G :=
  match oc with
  | some ch => ch.cell norm o
  | none => Cell.blank

theorem see_new (norm : F → G) (o : Nat) : (Overlay.new : Overlay F).see norm o = none := rfl

theorem see_clear (norm : F → G) (v : Overlay F) (o : Nat) : v.clear.1.see norm o = none := rfl

theorem value_congr {l l' : Lanes F} {i i' : Nat} (ht : l.tags[i]? = l'.tags[i']?)
    (hn : laneAt l.numbers i = laneAt l'.numbers i') (hb : laneAt l.booleans i = laneAt l'.booleans i')
    (hx : laneAt l.text i = laneAt l'.text i') (he : laneAt l.errors i = laneAt l'.errors i') :
    l.value i = l'.value i' := by
  unfold Lanes.value
  rw [ht, hn, hb, hx, he]

theorem value_past {l : Lanes F} {i : Nat} (h : l.tags.length ≤ i) : l.value i = none := by
  unfold Lanes.value
  rw [List.getElem?_eq_none h]

/-! ## Slices -/

theorem laneAt_slice {α : Type} (lane : Option (List (Option α))) (off len i : Nat) (h : i < len) :
    laneAt (lane.bind (sliceLane off len)) i = laneAt lane (i + off) := by
  cases lane with
  | none => rfl
  | some l =>
    simp only [Option.bind_some, sliceLane]
    rw [laneAt_keep]
    simp only [laneAt, Option.bind_some]
    rw [List.getD_eq_getElem?_getD, List.getD_eq_getElem?_getD, List.getElem?_take_of_lt h,
      List.getElem?_drop, Nat.add_comm]

theorem slice_base (E : Env F) (ch : Chunk F) (off len i : Nat) :
    (ch.slice E off len).base.value i = if i < len then ch.base.value (i + off) else none := by
  by_cases h : i < len
  · rw [if_pos h]
    apply value_congr
    · simp only [Chunk.slice]
      rw [List.getElem?_take_of_lt h, List.getElem?_drop, Nat.add_comm]
    all_goals exact laneAt_slice _ off len i h
  · rw [if_neg h]
    apply value_past
    simp only [Chunk.slice, List.length_take]
    omega

theorem slice_len (E : Env F) (ch : Chunk F) (off len : Nat) (h : off + len ≤ ch.len) :
    (ch.slice E off len).len = len := by
  unfold Chunk.len at *
  simp only [Chunk.slice, List.length_take, List.length_drop]
  omega

theorem slice_cell {E : Env F} {norm : F → G} (hn : Agrees E norm) {ch : Chunk F}
    (hu : ch.user.Inv E) (hc : ch.comp.Inv E) (off len : Nat) :
    (ch.slice E off len).user.Inv E ∧ (ch.slice E off len).comp.Inv E
      ∧ ∀ o, (ch.slice E off len).cell norm o
          = if o < len then ch.cell norm (o + off) else Cell.blank := by
  obtain ⟨u1, u2⟩ := Overlay.slice_spec hn hu off len
  obtain ⟨c1, c2⟩ := Overlay.slice_spec hn hc off len
  refine ⟨u1, c1, fun o => ?_⟩
  have hu' : (ch.slice E off len).user = ch.user.slice E off len := rfl
  have hc' : (ch.slice E off len).comp = ch.comp.slice E off len := rfl
  unfold Chunk.cell
  rw [hu', hc', u2 o, c2 o, slice_base]
  by_cases h : o < len
  · simp [h]
  · simp [h, Cell.blank, Value.map]

/-! ## Growing -/

theorem laneAt_grow {α : Type} (lane : Option (List (Option α))) (old new i : Nat) (h : i < old) :
    laneAt (lane.map (growLane old new)) i = laneAt lane i := by
  cases lane with
  | none => rfl
  | some l =>
    simp only [Option.map_some, laneAt, Option.bind_some, growLane]
    rw [List.getD_eq_getElem?_getD, List.getD_eq_getElem?_getD]
    by_cases hl : i < l.length
    · rw [List.getElem?_append_left (by rw [List.length_take]; omega), List.getElem?_take_of_lt h]
    · rw [List.getElem?_append_right (by rw [List.length_take]; omega), List.getElem?_replicate,
        List.getElem?_eq_none (l := l) (by omega)]
      split <;> rfl

theorem grow_len (ch : Chunk F) (n : Nat) : (ch.grow n).len = max ch.len n := by
  unfold Chunk.grow
  split
  · omega
  · simp only [Chunk.len, List.length_append, List.length_replicate] at *
    omega

theorem grow_cell (norm : F → G) (ch : Chunk F) (n o : Nat) :
    (ch.grow n).cell norm o = ch.cell norm o := by
  unfold Chunk.grow
  split
  · rfl
  · rename_i hlt
    unfold Chunk.cell
    congr 1
    by_cases h : o < ch.len
    · congr 2
      apply value_congr
      · simp only
        rw [List.getElem?_append_left h]
      all_goals exact laneAt_grow _ _ _ _ h
    · rw [value_past (l := ch.base) (i := o) (by unfold Chunk.len at h; omega)]
      congr 1
      unfold Lanes.value
      rw [List.getElem?_append_right (by unfold Chunk.len at h; omega), List.getElem?_replicate]
      split
      · rfl
      · rename_i b hb
        split at hb
        · have hb := Option.some.inj hb
          subst hb
          rfl
        · simp at hb

theorem grow_overlays (ch : Chunk F) (n : Nat) :
    (ch.grow n).user = ch.user ∧ (ch.grow n).comp = ch.comp := by
  unfold Chunk.grow
  split <;> exact ⟨rfl, rfl⟩

/-! ## Compacting -/

theorem foldInto_len (o : Overlay F) (l : Lanes F) : (foldInto o l).tags.length = l.tags.length := by
  simp [foldInto, Lanes.ofRows]

theorem foldInto_value (o : Overlay F) (l : Lanes F) (i : Nat) (h : i < l.tags.length) :
    (foldInto o l).value i = match o.get i with
      | some v => some v
      | none => l.value i := by
  obtain ⟨ht, hn, hb, hx, he⟩ :=
    Lanes.ofRows_at ((List.range l.tags.length).map (foldRow o l)) i
  have hr : ((List.range l.tags.length).map (foldRow o l))[i]? = some (foldRow o l i) := by
    rw [List.getElem?_map, List.getElem?_range h]; rfl
  rw [hr] at ht hn hb hx he
  simp only [Option.map_some, Option.bind_some] at ht hn hb hx he
  unfold foldInto
  unfold Lanes.value
  rw [ht, hn, hb, hx, he]
  unfold foldRow
  cases o.get i with
  | some v => cases v <;> rfl
  | none =>
    have hti : l.tags[i]? = some (l.tags.getD i 0) := by
      rw [List.getD_eq_getElem _ _ h, List.getElem?_eq_getElem h]
    rw [hti]
    unfold baseRow
    simp only
    cases hc : Tag.ofCode (l.tags.getD i 0) <;> simp only [Tag.ofCode_code]

theorem fold_base (norm : F → G) (o : Overlay F) (l : Lanes F) (i : Nat) (h : i < l.tags.length) :
    (((foldInto o l).value i).getD .empty).map norm
      = (o.see norm i).getD (((l.value i).getD .empty).map norm) := by
  rw [foldInto_value o l i h]
  unfold Overlay.see
  cases o.get i <;> rfl

theorem clear_inv (E : Env F) (o : Overlay F) : o.clear.1.Inv E :=
  show (Overlay.clear o).1.Inv E from ⟨by simp [Overlay.clear], by simp [Overlay.clear, Overlay.keys]⟩

/-- The user's entry folded into the base. -/
def Cell.foldUser (x : Cell G) : Cell G := ⟨none, x.comp, x.user.getD x.base⟩

/-- The computed entry folded into the base. -/
def Cell.foldComp (x : Cell G) : Cell G := ⟨x.user, none, x.comp.getD x.base⟩

theorem compactUser_cell (norm : F → G) (a d : Nat) (ch : Chunk F) (o : Nat)
    (hb : ch.len ≤ o → ch.cell norm o = Cell.blank) :
    (ch.compactUser a d).cell norm o = ch.cell norm o
      ∨ (ch.compactUser a d).cell norm o = (ch.cell norm o).foldUser := by
  unfold Chunk.compactUser
  split
  · exact Or.inl rfl
  · split
    · right
      by_cases h : o < ch.base.tags.length
      · unfold Chunk.cell Cell.foldUser
        simp only [see_clear]
        rw [fold_base norm _ _ _ h]
      · have h0 := hb (by unfold Chunk.len; omega)
        rw [h0]
        have hcomp : ch.comp.see norm o = none := congrArg Cell.comp h0
        unfold Chunk.cell
        simp only [see_clear, hcomp]
        rw [value_past (by rw [foldInto_len]; omega)]
        rfl
    · exact Or.inl rfl

theorem compactComputed_cell (norm : F → G) (ch : Chunk F) (o : Nat)
    (hb : ch.len ≤ o → ch.cell norm o = Cell.blank) :
    ch.compactComputed.cell norm o = ch.cell norm o
      ∨ ch.compactComputed.cell norm o = (ch.cell norm o).foldComp := by
  unfold Chunk.compactComputed
  split
  · exact Or.inl rfl
  · right
    by_cases h : o < ch.base.tags.length
    · unfold Chunk.cell Cell.foldComp
      simp only [see_clear]
      rw [fold_base norm _ _ _ h]
    · have h0 := hb (by unfold Chunk.len; omega)
      rw [h0]
      have huser : ch.user.see norm o = none := congrArg Cell.user h0
      unfold Chunk.cell
      simp only [see_clear, huser]
      rw [value_past (by rw [foldInto_len]; omega)]
      rfl

theorem compactUser_rest (E : Env F) (a d : Nat) (ch : Chunk F) (hu : ch.user.Inv E)
    (hc : ch.comp.Inv E) :
    (ch.compactUser a d).len = ch.len ∧ (ch.compactUser a d).user.Inv E
      ∧ (ch.compactUser a d).comp.Inv E := by
  unfold Chunk.compactUser
  split
  · exact ⟨rfl, hu, hc⟩
  · split
    · exact ⟨foldInto_len _ _, clear_inv E ch.user, hc⟩
    · exact ⟨rfl, hu, hc⟩

theorem compactComputed_rest (E : Env F) (ch : Chunk F) (hu : ch.user.Inv E) (hc : ch.comp.Inv E) :
    ch.compactComputed.len = ch.len ∧ ch.compactComputed.user.Inv E
      ∧ ch.compactComputed.comp.Inv E := by
  unfold Chunk.compactComputed
  split
  · exact ⟨rfl, hu, hc⟩
  · exact ⟨foldInto_len _ _, hu, clear_inv E ch.comp⟩

theorem empty_cell (norm : F → G) (n o : Nat) : (Chunk.empty n : Chunk F).cell norm o = Cell.blank := by
  unfold Chunk.cell Cell.blank Chunk.empty
  simp only [see_new]
  congr 1
  unfold Lanes.value
  simp only [List.getElem?_replicate]
  split
  · rfl
  · rename_i b hb
    split at hb
    · have hb := Option.some.inj hb
      subst hb
      rfl
    · simp at hb

theorem empty_len (n : Nat) : (Chunk.empty n : Chunk F).len = n := by
  simp [Chunk.len, Chunk.empty]

theorem empty_inv (E : Env F) (n : Nat) :
    (Chunk.empty n : Chunk F).user.Inv E ∧ (Chunk.empty n : Chunk F).comp.Inv E :=
  ⟨Overlay.new_inv, Overlay.new_inv⟩

/-! ## Reading -/

def Lit.map (g : F → G) : Lit F → Lit G
  | .empty => .empty
  | .number x => .number (g x)
  | .boolean b => .boolean b
  | .text s => .text s
  | .error c => .error c
  | .pending => .pending

theorem lit_map (g : F → G) (v : Value F) : v.lit.map g = (v.map g).lit := by cases v <;> rfl

theorem read_cell (norm : F → G) (ch : Chunk F) (o : Nat) (h : o < ch.len) :
    (ch.read o).map (Lit.map norm) = some (ch.cell norm o).shown.lit := by
  unfold Chunk.read Chunk.cell Cell.shown Overlay.see
  cases ch.user.get o with
  | some v => simp [lit_map]
  | none =>
    cases ch.comp.get o with
    | some v => simp [lit_map]
    | none => simp [h, lit_map]

end Verif.Store
