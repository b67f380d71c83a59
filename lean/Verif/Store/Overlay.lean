import Mathlib.Data.List.Basic
import Mathlib.Data.List.Nodup
import Mathlib.Data.List.Range
import Mathlib.Algebra.BigOperators.Group.List.Basic
import Mathlib.Tactic.ByContra
import Verif.Store.Cuts

/-!
# Overlays

Models `Overlay` (`/repo/crates/formualizer-eval/src/arrow_store/mod.rs` 1964-2284): single cells in a
hash map, batches of cells in a vector of fragments.

* A hash map is the list of its entries, in any order, with distinct keys.  The order stands for the
  order in which the map would be iterated, so what is proved for all such lists holds for every
  iteration order.
* `usize` and `isize` do not overflow; subtraction saturates, as in the code.
* Formats (`format_points`) are left out: no function below reads them to find a value.
-/

namespace Verif.Store

variable {F G : Type}

/-- `Overlay` (mod.rs 1964-1972). -/
structure Overlay (F : Type) where
  points : List (Nat × Value F)
  fragments : List (Fragment F)
  est : Nat

/-- `Overlay::new` (mod.rs 1979-1986). -/
def Overlay.new : Overlay F := ⟨[], [], 0⟩

/-- `estimated_payload_bytes` (mod.rs 981-992). -/
def Value.bytes : Value F → Nat
  | .empty => 0
  | .pending => 0
  | .number _ => 8
  | .dateTime _ => 8
  | .duration _ => 8
  | .boolean _ => 1
  | .error _ => 1
  | .text s => s.utf8ByteSize

/-- `point_estimate` (mod.rs 1989-1991). -/
def pointEst (v : Value F) : Nat := 32 + v.bytes

/-- `adjust_estimated_bytes` (mod.rs 1994-2000). -/
def adjust (est : Nat) (delta : Int) : Nat :=
  if 0 ≤ delta then est + delta.toNat else est - (-delta).toNat

/-- `get_scalar` (mod.rs 2003-2008): single cells first, then the fragments from the last. -/
def Overlay.get (o : Overlay F) (off : Nat) : Option (Value F) :=
  (assoc o.points off).or (frGet o.fragments off)

/-- The bytes of the pieces a fragment is replaced by, less its own (mod.rs 2103-2110, 2135-2142,
2181-2188). -/
def gain (f : Fragment F) (ps : List (Fragment F)) : Int :=
  ((ps.map Fragment.est).sum : Int) - (f.est : Int)

/-- The pieces of `f` when offset `off` is removed (mod.rs 2129-2142). -/
def removeFrom (E : Env F) (off : Nat) (f : Fragment F) : List (Fragment F) :=
  if (f.get off).isNone then [f] else f.minusOffset E off

/-- The change in bytes for it. -/
def removeGain (E : Env F) (off : Nat) (f : Fragment F) : Int :=
  if (f.get off).isNone then 0 else gain f (f.minusOffset E off)

/-- `remove_scalar` (mod.rs 2119-2149).  Note the order: the bytes of a removed point are taken off
`estimated_bytes` at once, and `delta`, which still contains them, is applied as well when there are
fragments. -/
def Overlay.remove (E : Env F) (o : Overlay F) (off : Nat) : Overlay F × Int :=
  let old := assoc o.points off
  let points := o.points.filter fun kv => decide (kv.1 ≠ off)
  let est := match old with
    | some v => o.est - pointEst v
    | none => o.est
  let delta : Int := match old with
    | some v => -(pointEst v : Int)
    | none => 0
  if o.fragments = [] then (⟨points, [], est⟩, delta)
  else
    let delta := delta + (o.fragments.map (removeGain E off)).sum
    (⟨points, o.fragments.flatMap (removeFrom E off), adjust est delta⟩, delta)

/-- `set_scalar` (mod.rs 2038-2044). -/
def Overlay.set (E : Env F) (o : Overlay F) (off : Nat) (v : Value F) : Overlay F × Int :=
  let r := o.remove E off
  (⟨(off, v) :: r.1.points, r.1.fragments, adjust r.1.est (pointEst v : Int)⟩,
    r.2 + (pointEst v : Int))

/-- The pieces of `f` when the fragment `r` is written over it (mod.rs 2098-2111). -/
def replaceFrom (E : Env F) (r f : Fragment F) : List (Fragment F) :=
  if f.meetsFragment r = false then [f] else f.minus E r

/-- The change in bytes for it. -/
def replaceGain (E : Env F) (r f : Fragment F) : Int :=
  if f.meetsFragment r = false then 0 else gain f (f.minus E r)

/-- `Fragment::covers` in `remove_points_covered_by_fragment` (mod.rs 2061-2088): the stored offsets of
a sparse fragment, the interval of the others. -/
def Fragment.covers (f : Fragment F) (off : Nat) : Bool :=
  match f with
  | .sparse offs _ => decide (off ∈ offs)
  | .dense start len _ => decide (start ≤ off) && decide (off < start + len)
  | .runs start len _ _ => decide (start ≤ off) && decide (off < start + len)

/-- `apply_fragment` (mod.rs 2051-2059) with its two helpers (2061-2116). -/
def Overlay.apply (E : Env F) (o : Overlay F) (r : Fragment F) : Overlay F × Int :=
  let gone := ((o.points.filter fun kv => r.covers kv.1).map fun kv => pointEst kv.2).sum
  let est1 := o.est - gone
  let points := o.points.filter fun kv => !r.covers kv.1
  let delta2 : Int := (o.fragments.map (replaceGain E r)).sum
  let est2 := if o.fragments = [] then est1 else adjust est1 delta2
  let fragments := if o.fragments = [] then [] else o.fragments.flatMap (replaceFrom E r)
  (⟨points, fragments ++ [r], adjust est2 (r.est : Int)⟩,
    -(gone : Int) + (if o.fragments = [] then 0 else delta2) + (r.est : Int))

/-- `remove_range` (mod.rs 2156-2195). -/
def Overlay.removeRange (E : Env F) (o : Overlay F) (a b : Nat) : Overlay F × Int :=
  if b ≤ a then (o, 0)
  else
    let gone := ((o.points.filter fun kv => decide (a ≤ kv.1) && decide (kv.1 < b)).map
      fun kv => pointEst kv.2).sum
    let points := o.points.filter fun kv => !(decide (a ≤ kv.1) && decide (kv.1 < b))
    let est1 := o.est - gone
    if o.fragments = [] then (⟨points, [], est1⟩, -(gone : Int))
    else
      let delta2 : Int := (o.fragments.map fun f => gain f (f.minusInterval E a b)).sum
      (⟨points, o.fragments.flatMap (fun f => f.minusInterval E a b), adjust est1 delta2⟩,
        -(gone : Int) + delta2)

/-- `clear_all` (mod.rs 2198-2204): the bytes reported as freed are `estimated_bytes`. -/
def Overlay.clear (o : Overlay F) : Overlay F × Nat := (⟨[], [], 0⟩, o.est)

/-- `len` (mod.rs 2212-2219). -/
def Overlay.len (o : Overlay F) : Nat :=
  o.points.length + (o.fragments.map Fragment.coverageLen).sum

/-- `has_any_in_range` (mod.rs 2232-2238). -/
def Overlay.anyIn (o : Overlay F) (a b : Nat) : Bool :=
  (o.points.any fun kv => decide (a ≤ kv.1) && decide (kv.1 < b))
    || o.fragments.any fun f => f.meets a b

/-- `slice` (mod.rs 2245-2264): the sliced fragments are applied in order, then the points are set. -/
def Overlay.slice (E : Env F) (o : Overlay F) (off len : Nat) : Overlay F :=
  let o1 := o.fragments.foldl (fun out f =>
    match f.slice E off len with
    | some s => (out.apply E s).1
    | none => out) Overlay.new
  o.points.foldl (fun out kv =>
    if off ≤ kv.1 ∧ kv.1 < off + len then (out.set E (kv.1 - off) kv.2).1 else out) o1

/-- `iter` (mod.rs 2267-2278). -/
def Overlay.iter (o : Overlay F) : List (Nat × Value F) :=
  byOffset (o.fragments.flatMap Fragment.cells ++ o.points)

/-! ## Specification -/

/-- What can be done to an overlay: write one cell; write a batch in one of the three encodings;
erase a cell, a range, or everything. -/
inductive Write (F : Type) where
  | cell (off : Nat) (v : Value F)
  | sparse (items : List (Nat × Value F))
  | dense (start : Nat) (vs : List (Value F))
  | runs (start : Nat) (vs : List (Value F))
  | erase (off : Nat)
  | eraseRange (a b : Nat)
  | clear

/-- What a write does to one offset: nothing (`none`), erase it (`some none`), or give it a value. -/
def Write.effect : Write F → Nat → Option (Option (Value F))
  | .cell off v, o => if o = off then some (some v) else none
  | .sparse items, o => (assoc items.reverse o).map some
  | .dense start vs, o => if start ≤ o then (vs[o - start]?).map some else none
  | .runs start vs, o => if start ≤ o then (vs[o - start]?).map some else none
  | .erase off, o => if o = off then some none else none
  | .eraseRange a b, o => if a ≤ o ∧ o < b then some none else none
  | .clear, _ => some none

/-- The value the last write left at an offset. -/
def lastWrite (ws : List (Write F)) (o : Nat) : Option (Value F) :=
  ws.foldl (fun acc w => (w.effect o).getD acc) none

/-- The overlay operation for each write.  A batch without cells yields no fragment and is not
applied (`if let Some(fragment) = ..`, eval.rs 16436-16510). -/
def Overlay.write (E : Env F) (o : Overlay F) : Write F → Overlay F
  | .cell off v => (o.set E off v).1
  | .sparse items =>
    match sparseOf E items with
    | some f => (o.apply E f).1
    | none => o
  | .dense start vs =>
    match denseOf E start vs with
    | some f => (o.apply E f).1
    | none => o
  | .runs start vs =>
    match runOf E start vs with
    | some f => (o.apply E f).1
    | none => o
  | .erase off => (o.remove E off).1
  | .eraseRange a b => (o.removeRange E a b).1
  | .clear => o.clear.1

/-- The overlay after a history of writes. -/
def history (E : Env F) (ws : List (Write F)) : Overlay F := ws.foldl (Overlay.write E) Overlay.new

/-! ## Invariant -/

/-- The offsets an overlay stores something for. -/
def Overlay.keys (o : Overlay F) : List Nat :=
  o.points.map Prod.fst ++ o.fragments.flatMap Fragment.keys

/-- Well formed fragments, and no offset stored twice. -/
structure Overlay.Inv (E : Env F) (o : Overlay F) : Prop where
  wf : ∀ f ∈ o.fragments, f.WF E
  nodup : o.keys.Nodup

/-- The reading up to `norm`. -/
def Overlay.see (norm : F → G) (o : Overlay F) (off : Nat) : Option (Value G) :=
  (o.get off).map (Value.map norm)

theorem Overlay.see_eq (norm : F → G) (o : Overlay F) (off : Nat) :
    o.see norm off = ((assoc o.points off).map (Value.map norm)).or (frSee norm o.fragments off) := by
  unfold Overlay.see Overlay.get frSee
  cases assoc o.points off <;> rfl

theorem Overlay.isSome_iff {E : Env F} {o : Overlay F} (h : o.Inv E) (off : Nat) :
    (o.get off).isSome = true ↔ off ∈ o.keys := by
  unfold Overlay.get Overlay.keys
  rw [Option.isSome_or, Bool.or_eq_true, assoc_isSome, List.mem_append]
  have := frSee_isSome (norm := id) h.wf off
  simp only [frSee, Option.isSome_map] at this
  rw [this]

/-- A map over fragments that leaves, of each, the offsets satisfying `K`. -/
theorem flatMap_left {E : Env F} {norm : F → G} {K : Nat → Bool} {g : Fragment F → List (Fragment F)}
    (fs : List (Fragment F)) (h : ∀ f ∈ fs, Left E norm f K (g f)) :
    (∀ f ∈ fs.flatMap g, f.WF E)
      ∧ (fs.flatMap g).flatMap Fragment.keys = (fs.flatMap Fragment.keys).filter K
      ∧ ∀ o, frSee norm (fs.flatMap g) o = if K o then frSee norm fs o else none := by
  induction fs with
  | nil => exact ⟨by simp, by simp, fun o => by simp [frSee_nil]⟩
  | cons f fs ih =>
    obtain ⟨i1, i2, i3⟩ := ih (fun x hx => h x (by simp [hx]))
    have hf := h f (by simp)
    refine ⟨?_, ?_, fun o => ?_⟩
    · intro x hx
      rw [List.flatMap_cons, List.mem_append] at hx
      rcases hx with hx | hx
      · exact hf.wf x hx
      · exact i1 x hx
    · rw [List.flatMap_cons, List.flatMap_append, i2, hf.keys, List.flatMap_cons, List.filter_append]
    · rw [List.flatMap_cons, frSee_append, i3 o, hf.sees o, frSee_cons]
      cases K o <;> simp

theorem removeFrom_left {E : Env F} {norm : F → G} (hn : Agrees E norm) {f : Fragment F}
    (hw : f.WF E) (off : Nat) :
    Left E norm f (fun o => decide (o ≠ off)) (removeFrom E off f) := by
  unfold removeFrom
  split
  · rename_i h
    apply left_self hw
    intro o ho
    rw [← Fragment.isSome_iff hw] at ho
    simp only [decide_eq_true_eq]
    rintro rfl
    rw [Option.isNone_iff_eq_none] at h
    rw [h] at ho; simp at ho
  · exact minusOffset_left hn hw off

theorem replaceFrom_left {E : Env F} {norm : F → G} (hn : Agrees E norm) {f r : Fragment F}
    (hw : f.WF E) (hr : r.WF E) :
    Left E norm f (fun o => decide (o ∉ r.keys)) (replaceFrom E r f) := by
  unfold replaceFrom
  split
  · rename_i h
    apply left_self hw
    intro o ho
    simp only [decide_eq_true_eq]
    intro ho'
    have := (meetsFragment_iff hw hr).2 ⟨o, ho, ho'⟩
    rw [h] at this; simp at this
  · exact minus_left hn hw hr

theorem covers_iff (f : Fragment F) (off : Nat) : f.covers off = true ↔ off ∈ f.keys := by
  cases f <;> simp [Fragment.covers, Fragment.keys, List.mem_range'_1]

theorem Overlay.remove_spec {E : Env F} {norm : F → G} (hn : Agrees E norm) {o : Overlay F}
    (h : o.Inv E) (off : Nat) :
    (o.remove E off).1.Inv E
      ∧ (o.remove E off).1.keys = o.keys.filter (fun x => decide (x ≠ off))
      ∧ ∀ x, (o.remove E off).1.see norm x = if x = off then none else o.see norm x := by
  obtain ⟨f1, f2, f3⟩ := flatMap_left (norm := norm) o.fragments
    (fun f hf => removeFrom_left hn (h.wf f hf) off)
  have hp : (o.remove E off).1.points = o.points.filter fun kv => decide (kv.1 ≠ off) := by
    unfold Overlay.remove; dsimp only; split <;> rfl
  have hfr : (o.remove E off).1.fragments = o.fragments.flatMap (removeFrom E off) := by
    unfold Overlay.remove; dsimp only
    split
    · rename_i h0; simp [h0]
    · rfl
  have hk : (o.remove E off).1.keys = o.keys.filter (fun x => decide (x ≠ off)) := by
    unfold Overlay.keys
    rw [hp, hfr, f2, List.filter_append, List.filter_map]
    rfl
  refine ⟨⟨by rw [hfr]; exact f1, by rw [hk]; exact h.nodup.filter _⟩, hk, fun x => ?_⟩
  rw [Overlay.see_eq, Overlay.see_eq, hp, hfr, f3 x, assoc_filter _ (fun k => decide (k ≠ off))]
  by_cases hx : x = off
  · simp [hx]
  · simp [hx]

theorem Overlay.set_spec {E : Env F} {norm : F → G} (hn : Agrees E norm) {o : Overlay F}
    (h : o.Inv E) (off : Nat) (v : Value F) :
    (o.set E off v).1.Inv E
      ∧ ∀ x, (o.set E off v).1.see norm x = if x = off then some (v.map norm) else o.see norm x := by
  obtain ⟨r1, r2, r3⟩ := Overlay.remove_spec hn h off
  have hk : (o.set E off v).1.keys = off :: (o.remove E off).1.keys := by
    simp [Overlay.set, Overlay.keys]
  refine ⟨⟨by simpa [Overlay.set] using r1.wf, ?_⟩, fun x => ?_⟩
  · rw [hk, List.nodup_cons]
    refine ⟨?_, r1.nodup⟩
    rw [r2, List.mem_filter]; simp
  · have h3 := r3 x
    rw [Overlay.see_eq] at h3
    rw [Overlay.see_eq]
    simp only [Overlay.set, assoc]
    by_cases hx : x = off
    · subst hx; simp
    · rw [if_neg (fun e => hx e.symm), h3, if_neg hx, if_neg hx]

theorem Overlay.apply_spec {E : Env F} {norm : F → G} (hn : Agrees E norm) {o : Overlay F}
    (h : o.Inv E) {r : Fragment F} (hr : r.WF E) :
    (o.apply E r).1.Inv E
      ∧ ∀ x, (o.apply E r).1.see norm x = (r.see norm x).or (o.see norm x) := by
  obtain ⟨f1, f2, f3⟩ := flatMap_left (norm := norm) o.fragments
    (fun f hf => replaceFrom_left hn (h.wf f hf) hr)
  have hp : (o.apply E r).1.points = o.points.filter fun kv => !r.covers kv.1 := rfl
  have hfr : (o.apply E r).1.fragments = o.fragments.flatMap (replaceFrom E r) ++ [r] := by
    unfold Overlay.apply; dsimp only
    split
    · rename_i h0; simp [h0]
    · rfl
  have hcov : ∀ x, (!r.covers x) = decide (x ∉ r.keys) := by
    intro x
    have := covers_iff r x
    by_cases hx : x ∈ r.keys
    · simp [hx, this.2 hx]
    · have : r.covers x = false := by
        cases hc : r.covers x with
        | false => rfl
        | true => exact absurd (this.1 hc) hx
      simp [hx, this]
  have hk : (o.apply E r).1.keys = o.keys.filter (fun x => decide (x ∉ r.keys)) ++ r.keys := by
    unfold Overlay.keys
    rw [hp, hfr, List.flatMap_append, f2, List.filter_append, List.filter_map]
    simp only [List.flatMap_cons, List.flatMap_nil, List.append_nil, List.append_assoc]
    congr 2
    apply List.filter_congr
    intro x _
    exact hcov x.1
  refine ⟨⟨?_, ?_⟩, fun x => ?_⟩
  · rw [hfr]
    intro f hf
    rw [List.mem_append] at hf
    rcases hf with hf | hf
    · exact f1 f hf
    · rw [List.mem_singleton] at hf; subst hf; exact hr
  · rw [hk]
    apply List.Nodup.append (h.nodup.filter _) (nodup_of_sorted (Fragment.keys_sorted hr))
    intro x hx hx'
    rw [List.mem_filter] at hx
    simp [hx'] at hx
  · rw [Overlay.see_eq, Overlay.see_eq, hp, hfr, frSee_append, frSee_single, f3 x,
      assoc_filter _ (fun k => !r.covers k)]
    by_cases hx : x ∈ r.keys
    · have hs := (Fragment.isSome_iff hr x).2 hx
      rw [← see_isSome (norm := norm), Option.isSome_iff_exists] at hs
      obtain ⟨w, hw⟩ := hs
      rw [hcov x, hw]; simp [hx]
    · rw [hcov x, see_none hr x hx]; simp [hx]

theorem Overlay.removeRange_spec {E : Env F} {norm : F → G} (hn : Agrees E norm) {o : Overlay F}
    (h : o.Inv E) (a b : Nat) :
    (o.removeRange E a b).1.Inv E
      ∧ ∀ x, (o.removeRange E a b).1.see norm x
          = if a ≤ x ∧ x < b then none else o.see norm x := by
  by_cases hab : b ≤ a
  · unfold Overlay.removeRange
    rw [if_pos hab]
    exact ⟨h, fun x => by rw [if_neg (by omega)]⟩
  · obtain ⟨f1, f2, f3⟩ := flatMap_left (norm := norm) o.fragments
      (fun f hf => minusInterval_left hn (h.wf f hf) a b)
    have hp : (o.removeRange E a b).1.points
        = o.points.filter fun kv => !(decide (a ≤ kv.1) && decide (kv.1 < b)) := by
      unfold Overlay.removeRange; rw [if_neg hab]; dsimp only; split <;> rfl
    have hfr : (o.removeRange E a b).1.fragments
        = o.fragments.flatMap (fun f => f.minusInterval E a b) := by
      unfold Overlay.removeRange; rw [if_neg hab]; dsimp only
      split
      · rename_i h0; simp [h0]
      · rfl
    have hk : (o.removeRange E a b).1.keys
        = o.keys.filter (fun x => !(decide (a ≤ x) && decide (x < b))) := by
      unfold Overlay.keys
      rw [hp, hfr, f2, List.filter_append, List.filter_map]
      rfl
    refine ⟨⟨by rw [hfr]; exact f1, by rw [hk]; exact h.nodup.filter _⟩, fun x => ?_⟩
    rw [Overlay.see_eq, Overlay.see_eq, hp, hfr, f3 x,
      assoc_filter _ (fun k => !(decide (a ≤ k) && decide (k < b)))]
    by_cases hx : a ≤ x ∧ x < b
    · simp [hx.1, hx.2]
    · have : (!(decide (a ≤ x) && decide (x < b))) = true := by simp; omega
      rw [this, if_neg hx]; rfl

theorem Overlay.new_inv {E : Env F} : (Overlay.new : Overlay F).Inv E :=
  ⟨by simp [Overlay.new], by simp [Overlay.new, Overlay.keys]⟩

theorem Overlay.write_spec {E : Env F} {norm : F → G} (hn : Agrees E norm) {o : Overlay F}
    (h : o.Inv E) (w : Write F) :
    (o.write E w).Inv E
      ∧ ∀ x, (o.write E w).see norm x
          = match w.effect x with
            | none => o.see norm x
            | some r => r.map (Value.map norm) := by
  cases w with
  | cell off v =>
    obtain ⟨h1, h2⟩ := Overlay.set_spec hn h off v
    refine ⟨h1, fun x => ?_⟩
    simp only [Overlay.write, Write.effect, h2 x]
    by_cases hx : x = off <;> simp [hx]
  | sparse items =>
    simp only [Overlay.write, Write.effect]
    cases hs : sparseOf E items with
    | none =>
      have := sparseOf_none hs
      subst this
      exact ⟨h, fun x => by simp [assoc]⟩
    | some f =>
      obtain ⟨g1, g2, g3⟩ := sparseOf_some hs
      obtain ⟨h1, h2⟩ := Overlay.apply_spec hn h g1
      refine ⟨h1, fun x => ?_⟩
      dsimp only
      rw [h2 x]
      unfold Fragment.see
      rw [g3 x]
      cases assoc items.reverse x <;> simp
  | dense start vs =>
    simp only [Overlay.write, Write.effect]
    cases hs : denseOf E start vs with
    | none =>
      have := denseOf_none hs
      subst this
      exact ⟨h, fun x => by simp⟩
    | some f =>
      obtain ⟨g1, g2, g3⟩ := denseOf_some hs
      obtain ⟨h1, h2⟩ := Overlay.apply_spec hn h g1
      refine ⟨h1, fun x => ?_⟩
      dsimp only
      rw [h2 x]
      unfold Fragment.see
      rw [g3 x]
      by_cases hx : start ≤ x
      · rw [if_pos hx, if_pos hx]
        cases vs[x - start]? <;> simp
      · rw [if_neg hx, if_neg hx]; simp
  | runs start vs =>
    simp only [Overlay.write, Write.effect]
    by_cases hv : vs = []
    · subst hv
      exact ⟨h, fun x => by simp [runOf]⟩
    · obtain ⟨f, g0, g1, g2, g3⟩ := runOf_spec hn start vs hv
      rw [g0]
      obtain ⟨h1, h2⟩ := Overlay.apply_spec hn h g1
      refine ⟨h1, fun x => ?_⟩
      dsimp only
      rw [h2 x, g3 x]
      by_cases hx : start ≤ x
      · rw [if_pos hx, if_pos hx]
        cases vs[x - start]? <;> simp
      · rw [if_neg hx, if_neg hx]; simp
  | erase off =>
    obtain ⟨h1, _, h2⟩ := Overlay.remove_spec hn h off
    refine ⟨h1, fun x => ?_⟩
    simp only [Overlay.write, Write.effect, h2 x]
    by_cases hx : x = off <;> simp [hx]
  | eraseRange a b =>
    obtain ⟨h1, h2⟩ := Overlay.removeRange_spec hn h a b
    refine ⟨h1, fun x => ?_⟩
    simp only [Overlay.write, Write.effect, h2 x]
    by_cases hx : a ≤ x ∧ x < b <;> simp [hx]
  | clear =>
    exact ⟨Overlay.new_inv, fun x => rfl⟩

theorem history_spec {E : Env F} {norm : F → G} (hn : Agrees E norm) (ws : List (Write F))
    (o : Overlay F) (acc : Nat → Option (Value F)) (h : o.Inv E)
    (hs : ∀ x, o.see norm x = (acc x).map (Value.map norm)) :
    (ws.foldl (Overlay.write E) o).Inv E
      ∧ ∀ x, (ws.foldl (Overlay.write E) o).see norm x
          = (ws.foldl (fun a w => (w.effect x).getD a) (acc x)).map (Value.map norm) := by
  induction ws generalizing o acc with
  | nil => exact ⟨h, hs⟩
  | cons w ws ih =>
    obtain ⟨h1, h2⟩ := Overlay.write_spec hn h w
    have := ih (o.write E w) (fun x => (w.effect x).getD (acc x)) h1 (by
      intro x
      rw [h2 x]
      cases w.effect x with
      | none => exact hs x
      | some r => rfl)
    exact this

/-! ## Results -/

/-- **An overlay shows the last write at every offset**, after any history of single writes, batches in
any of the three encodings, and erasures; up to floats that compare equal. -/
theorem overlay_last_write {E : Env F} {norm : F → G} (hn : Agrees E norm) (ws : List (Write F))
    (x : Nat) :
    ((history E ws).get x).map (Value.map norm) = (lastWrite ws x).map (Value.map norm) :=
  (history_spec hn ws Overlay.new (fun _ => none) Overlay.new_inv (fun x => rfl)).2 x

theorem Value.map_id (v : Value F) : v.map id = v := by cases v <;> rfl

/-- The same without `norm`, when floats that compare equal are equal. -/
theorem overlay_last_write_exact {E : Env F} (hs : ∀ x y, E.same x y = true → x = y)
    (ws : List (Write F)) (x : Nat) : (history E ws).get x = lastWrite ws x := by
  have := overlay_last_write (E := E) (norm := id) hs ws x
  have hid : (Value.map (id : F → F)) = id := funext Value.map_id
  simpa [hid] using this

/-- A sample environment: whole numbers as floats. -/
def sampleE : Env Int := ⟨fun x y => x == y, fun vs => vs.length⟩

example : (history sampleE [.runs 2 [.number 7, .number 7, .empty, .text "a"], .cell 3 (.number 1),
      .dense 4 [.boolean true], .erase 2]).get 3 = some (.number 1)
    ∧ (history sampleE [.runs 2 [.number 7, .number 7, .empty, .text "a"], .cell 3 (.number 1),
      .dense 4 [.boolean true], .erase 2]).get 5 = some (.text "a")
    ∧ lastWrite [.runs 2 [.number 7, .number 7, .empty, .text "a"], .cell 3 (.number 1),
      .dense 4 [.boolean true], .erase 2] 2 = (none : Option (Value Int)) := by decide

/-- **Which offsets have a value does not depend on the floats at all.** -/
theorem overlay_covered (E : Env F) (ws : List (Write F)) (x : Nat) :
    ((history E ws).get x).isSome = (lastWrite ws x).isSome := by
  have := overlay_last_write (E := E) (norm := fun _ => ()) (fun _ _ _ => rfl) ws x
  have h := congrArg Option.isSome this
  simpa using h

theorem history_inv (E : Env F) (ws : List (Write F)) : (history E ws).Inv E :=
  (history_spec (E := E) (norm := fun _ => ()) (fun _ _ _ => rfl) ws Overlay.new (fun _ => none)
    Overlay.new_inv (fun _ => rfl)).1

theorem len_keys (o : Overlay F) : o.len = o.keys.length := by
  unfold Overlay.len Overlay.keys
  rw [List.length_append, List.length_map, List.length_flatMap]
  congr 2
  apply List.map_congr_left
  intro f _
  exact Fragment.keys_length.symm

/-- **`len` counts the offsets that have a value**: every one once, and no other. -/
theorem overlay_len (E : Env F) (ws : List (Write F)) :
    ∃ ks : List Nat, ks.Nodup ∧ (∀ x, x ∈ ks ↔ (lastWrite ws x).isSome = true)
      ∧ (history E ws).len = ks.length := by
  have h := history_inv E ws
  refine ⟨(history E ws).keys, h.nodup, fun x => ?_, len_keys _⟩
  rw [← Overlay.isSome_iff h, overlay_covered]

example : (history sampleE [.dense 0 [.number 1, .number 2, .number 3], .sparse [(1, .empty), (9, .empty)],
    .cell 2 .pending]).len = 4 := by decide

/-- **The range test is exact**: it says yes iff some offset of the range has a value. -/
theorem overlay_any (E : Env F) (ws : List (Write F)) (a b : Nat) :
    (history E ws).anyIn a b = true ↔ ∃ x, a ≤ x ∧ x < b ∧ (lastWrite ws x).isSome = true := by
  have h := history_inv E ws
  have hk : ∀ x, (lastWrite ws x).isSome = true ↔ x ∈ (history E ws).keys := by
    intro x; rw [← Overlay.isSome_iff h, overlay_covered]
  simp only [hk]
  unfold Overlay.anyIn Overlay.keys
  rw [Bool.or_eq_true, List.any_eq_true, List.any_eq_true]
  constructor
  · rintro (⟨kv, h1, h2⟩ | ⟨f, h1, h2⟩)
    · simp only [Bool.and_eq_true, decide_eq_true_eq] at h2
      exact ⟨kv.1, h2.1, h2.2, List.mem_append.2 (Or.inl (List.mem_map.2 ⟨kv, h1, rfl⟩))⟩
    · rw [meets_iff (h.wf f h1)] at h2
      obtain ⟨o, h3, h4, h5⟩ := h2
      exact ⟨o, h4, h5, List.mem_append.2 (Or.inr (List.mem_flatMap.2 ⟨f, h1, h3⟩))⟩
  · rintro ⟨x, h1, h2, h3⟩
    rw [List.mem_append] at h3
    rcases h3 with h3 | h3
    · obtain ⟨kv, h4, rfl⟩ := List.mem_map.1 h3
      exact Or.inl ⟨kv, h4, by simp [h1, h2]⟩
    · obtain ⟨f, h4, h5⟩ := List.mem_flatMap.1 h3
      exact Or.inr ⟨f, h4, (meets_iff (h.wf f h4) a b).2 ⟨x, h5, h1, h2⟩⟩

/-! ## Listing and slicing -/

theorem assoc_cells {E : Env F} (fs : List (Fragment F)) (h : ∀ f ∈ fs, f.WF E) (x : Nat) :
    assoc (fs.flatMap Fragment.cells).reverse x = frGet fs x := by
  induction fs with
  | nil => rfl
  | cons f fs ih =>
    have hf := h f (by simp)
    obtain ⟨c1, c2⟩ := cells_spec hf
    rw [List.flatMap_cons, List.reverse_append, assoc_append, ih (fun g hg => h g (by simp [hg])),
      show f :: fs = [f] ++ fs from rfl, frGet_append, assoc_reverse, c2 x]
    · congr 1
      simp only [frGet, List.reverse_cons, List.reverse_nil, List.nil_append, List.findSome?_cons,
        List.findSome?_nil]
      cases f.get x <;> rfl
    · rw [c1]; exact nodup_of_sorted (Fragment.keys_sorted hf)

/-- **`iter` lists every stored cell once, in order of offset, with the value `get` shows.** -/
theorem overlay_iter (E : Env F) (ws : List (Write F)) :
    ((history E ws).iter.map Prod.fst).Pairwise (· < ·)
      ∧ ∀ x, assoc (history E ws).iter x = (history E ws).get x := by
  have h := history_inv E ws
  obtain ⟨h1, h2⟩ := byOffset_spec ((history E ws).fragments.flatMap Fragment.cells
    ++ (history E ws).points)
  refine ⟨h1, fun x => ?_⟩
  unfold Overlay.iter Overlay.get
  rw [h2 x, List.reverse_append, assoc_append, assoc_cells _ h.wf, assoc_reverse]
  have := h.nodup
  unfold Overlay.keys at this
  exact (List.nodup_append.1 this).1

example : (history sampleE [.dense 4 [.number 1, .number 2], .cell 1 (.text "z"), .cell 5 .empty]).iter
    = [(1, .text "z"), (4, .number 1), (5, .empty)] := by decide

theorem sliceFragments_spec {E : Env F} {norm : F → G} (hn : Agrees E norm) (off len : Nat)
    (fs : List (Fragment F)) (h : ∀ f ∈ fs, f.WF E) (out : Overlay F) (ho : out.Inv E) :
    (fs.foldl (fun out f => match f.slice E off len with
        | some s => (out.apply E s).1
        | none => out) out).Inv E
      ∧ ∀ x, (fs.foldl (fun out f => match f.slice E off len with
          | some s => (out.apply E s).1
          | none => out) out).see norm x
        = (if x < len then frSee norm fs (x + off) else none).or (out.see norm x) := by
  induction fs generalizing out with
  | nil => exact ⟨ho, fun x => by simp [frSee_nil]⟩
  | cons f fs ih =>
    rw [List.foldl_cons]
    obtain ⟨s1, s2⟩ := slice_spec hn (h f (by simp)) off len
    have hstep : (match f.slice E off len with
          | some s => (out.apply E s).1
          | none => out).Inv E
        ∧ ∀ x, (match f.slice E off len with
          | some s => (out.apply E s).1
          | none => out).see norm x
          = (if x < len then f.see norm (x + off) else none).or (out.see norm x) := by
      cases hs : f.slice E off len with
      | none =>
        rw [hs] at s2
        refine ⟨ho, fun x => ?_⟩
        rw [← s2 x]; rfl
      | some s =>
        rw [hs] at s1 s2
        obtain ⟨a1, a2⟩ := Overlay.apply_spec hn ho (s1 s (by simp))
        refine ⟨a1, fun x => ?_⟩
        rw [a2 x, ← s2 x]
        simp only [Option.toList_some, frSee_single]
    obtain ⟨i1, i2⟩ := ih (fun g hg => h g (by simp [hg])) _ hstep.1
    refine ⟨i1, fun x => ?_⟩
    rw [i2 x, hstep.2 x, frSee_cons]
    by_cases hx : x < len
    · simp [hx, Option.or_assoc]
    · simp [hx]

theorem slicePoints_spec {E : Env F} {norm : F → G} (hn : Agrees E norm) (off len : Nat)
    (ps : List (Nat × Value F)) (hd : (ps.map Prod.fst).Nodup) (out : Overlay F) (ho : out.Inv E) :
    (ps.foldl (fun out kv => if off ≤ kv.1 ∧ kv.1 < off + len
        then (out.set E (kv.1 - off) kv.2).1 else out) out).Inv E
      ∧ ∀ x, (ps.foldl (fun out kv => if off ≤ kv.1 ∧ kv.1 < off + len
          then (out.set E (kv.1 - off) kv.2).1 else out) out).see norm x
        = (if x < len then (assoc ps (x + off)).map (Value.map norm) else none).or
            (out.see norm x) := by
  induction ps generalizing out with
  | nil => exact ⟨ho, fun x => by simp [assoc]⟩
  | cons kv ps ih =>
    obtain ⟨k, v⟩ := kv
    simp only [List.map_cons, List.nodup_cons] at hd
    rw [List.foldl_cons]
    dsimp only
    by_cases hk : off ≤ k ∧ k < off + len
    · rw [if_pos hk]
      obtain ⟨a1, a2⟩ := Overlay.set_spec hn ho (k - off) v
      obtain ⟨i1, i2⟩ := ih hd.2 _ a1
      refine ⟨i1, fun x => ?_⟩
      rw [i2 x, a2 x]
      simp only [assoc]
      by_cases hx : x < len
      · rw [if_pos hx, if_pos hx]
        by_cases hxk : x = k - off
        · rw [if_pos hxk, if_pos (by omega), assoc_eq_none ps (x + off)]
          · simp
          · rw [show x + off = k by omega]; exact hd.1
        · rw [if_neg hxk, if_neg (by omega)]
      · rw [if_neg hx, if_neg hx, if_neg (by omega)]
    · rw [if_neg hk]
      obtain ⟨i1, i2⟩ := ih hd.2 _ ho
      refine ⟨i1, fun x => ?_⟩
      rw [i2 x]
      simp only [assoc]
      by_cases hx : x < len
      · rw [if_pos hx, if_pos hx, if_neg (by omega)]
      · rw [if_neg hx, if_neg hx]

theorem Overlay.slice_spec {E : Env F} {norm : F → G} (hn : Agrees E norm) {o : Overlay F}
    (h : o.Inv E) (off len : Nat) :
    (o.slice E off len).Inv E
      ∧ ∀ x, (o.slice E off len).see norm x = if x < len then o.see norm (x + off) else none := by
  obtain ⟨a1, a2⟩ := sliceFragments_spec hn off len o.fragments h.wf Overlay.new Overlay.new_inv
  have hd : (o.points.map Prod.fst).Nodup := by
    have := h.nodup
    unfold Overlay.keys at this
    exact (List.nodup_append.1 this).1
  obtain ⟨b1, b2⟩ := slicePoints_spec hn off len o.points hd _ a1
  refine ⟨b1, fun x => ?_⟩
  have e0 : (Overlay.new : Overlay F).see norm x = none := rfl
  have := b2 x
  unfold Overlay.slice
  rw [this, a2 x, e0, Option.or_none]
  by_cases hx : x < len
  · simp only [hx, if_true]
    rw [Overlay.see_eq]
  · simp [hx]

/-- **A slice shows the window, moved to the start, and nothing else.** -/
theorem overlay_slice {E : Env F} {norm : F → G} (hn : Agrees E norm) (ws : List (Write F))
    (off len x : Nat) :
    (((history E ws).slice E off len).get x).map (Value.map norm)
      = if x < len then (lastWrite ws (x + off)).map (Value.map norm) else none := by
  have := (Overlay.slice_spec hn (history_inv E ws) off len).2 x
  unfold Overlay.see at this
  rw [this, overlay_last_write hn]

example : (((history sampleE [.runs 2 [.number 7, .number 7, .empty, .text "a"], .cell 3 (.number 1)]).slice
      sampleE 3 2).iter) = [(0, .number 1), (1, .empty)] := by decide

/-! ## Bytes -/

/-- The bytes of everything stored. -/
def Overlay.recount (o : Overlay F) : Nat :=
  (o.points.map fun kv => pointEst kv.2).sum + (o.fragments.map Fragment.est).sum

theorem sum_filter_split (l : List (Nat × Value F)) (p : Nat → Bool) :
    (l.map fun kv => pointEst kv.2).sum
      = ((l.filter fun kv => p kv.1).map fun kv => pointEst kv.2).sum
        + ((l.filter fun kv => !p kv.1).map fun kv => pointEst kv.2).sum := by
  induction l with
  | nil => rfl
  | cons x l ih =>
    rw [List.filter_cons, List.filter_cons]
    cases p x.1 <;> simp [ih] <;> omega

theorem sum_gain (fs : List (Fragment F)) (g : Fragment F → List (Fragment F)) (d : Fragment F → Int)
    (h : ∀ f ∈ fs, d f = gain f (g f)) :
    (fs.map d).sum = (((fs.flatMap g).map Fragment.est).sum : Int) - ((fs.map Fragment.est).sum : Int) := by
  induction fs with
  | nil => rfl
  | cons f fs ih =>
    have hi := ih (fun x hx => h x (by simp [hx]))
    have hf := h f (by simp)
    simp only [List.map_cons, List.sum_cons, List.flatMap_cons, List.map_append, List.sum_append]
    rw [hi, hf]
    unfold gain
    push_cast
    omega

theorem gain_self (f : Fragment F) : gain f [f] = 0 := by simp [gain]

theorem removeGain_eq (E : Env F) (off : Nat) (f : Fragment F) :
    removeGain E off f = gain f (removeFrom E off f) := by
  unfold removeGain removeFrom
  split
  · exact (gain_self f).symm
  · rfl

theorem replaceGain_eq (E : Env F) (r f : Fragment F) :
    replaceGain E r f = gain f (replaceFrom E r f) := by
  unfold replaceGain replaceFrom
  split
  · exact (gain_self f).symm
  · rfl

theorem sum_assoc (l : List (Nat × Value F)) (hd : (l.map Prod.fst).Nodup) (off : Nat) :
    ((l.filter fun kv => !decide (kv.1 ≠ off)).map fun kv => pointEst kv.2).sum
      = match assoc l off with
        | some v => pointEst v
        | none => 0 := by
  induction l with
  | nil => rfl
  | cons x l ih =>
    obtain ⟨k, v⟩ := x
    simp only [List.map_cons, List.nodup_cons] at hd
    rw [List.filter_cons]
    simp only [assoc]
    by_cases hk : k = off
    · subst hk
      have : l.filter (fun kv => !decide (kv.1 ≠ k)) = [] := by
        rw [List.filter_eq_nil_iff]
        intro kv hkv
        have : kv.1 ≠ k := by
          rintro rfl
          exact hd.1 (List.mem_map.2 ⟨kv, hkv, rfl⟩)
        simp [this]
      rw [this]
      simp
    · have hi := ih hd.2
      simp only [hk, if_false]
      rw [← hi]
      simp [hk]

/-- **The change in bytes that `set`, `remove`, `remove_range` and `apply_fragment` report is the change
in what is stored.** -/
theorem bytes_reported {E : Env F} {o : Overlay F} (h : o.Inv E) :
    (∀ off, (o.remove E off).2 = ((o.remove E off).1.recount : Int) - (o.recount : Int))
    ∧ (∀ off v, (o.set E off v).2 = ((o.set E off v).1.recount : Int) - (o.recount : Int))
    ∧ (∀ a b, (o.removeRange E a b).2 = ((o.removeRange E a b).1.recount : Int) - (o.recount : Int))
    ∧ (∀ r, (o.apply E r).2 = ((o.apply E r).1.recount : Int) - (o.recount : Int)) := by
  have hd : (o.points.map Prod.fst).Nodup := by
    have := h.nodup
    unfold Overlay.keys at this
    exact (List.nodup_append.1 this).1
  have hrem : ∀ off, (o.remove E off).2
      = ((o.remove E off).1.recount : Int) - (o.recount : Int) := by
    intro off
    have h1 := sum_filter_split o.points (fun k => decide (k ≠ off))
    have h2 := sum_assoc o.points hd off
    have h3 := sum_gain o.fragments (removeFrom E off) (removeGain E off)
      (fun f _ => removeGain_eq E off f)
    unfold Overlay.remove Overlay.recount
    dsimp only
    split
    · rename_i h0
      simp only [h0, List.map_nil, List.sum_nil, Nat.add_zero]
      cases ha : assoc o.points off with
      | none => rw [ha] at h2; simp only at h2 ⊢; omega
      | some v => rw [ha] at h2; simp only at h2 ⊢; omega
    · cases ha : assoc o.points off with
      | none => rw [ha] at h2; simp only at h2 ⊢; push_cast; omega
      | some v => rw [ha] at h2; simp only at h2 ⊢; push_cast; omega
  refine ⟨hrem, ?_, ?_, ?_⟩
  · intro off v
    have := hrem off
    unfold Overlay.set
    dsimp only
    rw [this]
    unfold Overlay.recount
    simp only [List.map_cons, List.sum_cons]
    push_cast
    omega
  · intro a b
    have h1 := sum_filter_split o.points (fun k => decide (a ≤ k) && decide (k < b))
    have h3 := sum_gain o.fragments (fun f => f.minusInterval E a b)
      (fun f => gain f (f.minusInterval E a b)) (fun f _ => rfl)
    unfold Overlay.removeRange
    split
    · simp
    · dsimp only
      split
      · rename_i h0
        simp only [Overlay.recount, h0, List.map_nil, List.sum_nil, Nat.add_zero]
        omega
      · simp only [Overlay.recount]
        push_cast
        omega
  · intro r
    have h1 := sum_filter_split o.points r.covers
    have h3 := sum_gain o.fragments (replaceFrom E r) (replaceGain E r)
      (fun f _ => replaceGain_eq E r f)
    unfold Overlay.apply
    dsimp only
    split
    · rename_i h0
      simp only [Overlay.recount, h0, List.map_nil, List.sum_nil, Nat.add_zero, List.nil_append,
        List.map_cons, List.sum_cons]
      push_cast
      omega
    · simp only [Overlay.recount, List.map_append, List.sum_append, List.map_cons, List.map_nil,
        List.sum_cons, List.sum_nil]
      push_cast
      omega

/-- **`estimated_bytes` stays exact** under batches, range erasures and clearing, and under a single
write or erasure as long as the overlay has no fragments or has no single cell at that offset.

Partial: a single write on top of a single cell, in an overlay with fragments, breaks it
(`bytes_drift_wrong`). -/
theorem bytes_exact_partial {E : Env F} {o : Overlay F} (h : o.Inv E) (he : o.est = o.recount) :
    (∀ off, o.fragments = [] ∨ assoc o.points off = none →
        (o.remove E off).1.est = (o.remove E off).1.recount)
    ∧ (∀ off v, o.fragments = [] ∨ assoc o.points off = none →
        (o.set E off v).1.est = (o.set E off v).1.recount)
    ∧ (∀ a b, (o.removeRange E a b).1.est = (o.removeRange E a b).1.recount)
    ∧ (∀ r, (o.apply E r).1.est = (o.apply E r).1.recount)
    ∧ o.clear.1.est = o.clear.1.recount ∧ o.clear.2 = o.recount := by
  have hd : (o.points.map Prod.fst).Nodup := by
    have := h.nodup
    unfold Overlay.keys at this
    exact (List.nodup_append.1 this).1
  have adj : ∀ (e : Nat) (d : Int) (t : Nat), (e : Int) + d = t → adjust e d = t := by
    intro e d t hh
    unfold adjust
    split <;> omega
  have hrem : ∀ off, o.fragments = [] ∨ assoc o.points off = none →
      (o.remove E off).1.est = (o.remove E off).1.recount := by
    intro off hc
    have h1 := sum_filter_split o.points (fun k => decide (k ≠ off))
    have h2 := sum_assoc o.points hd off
    have h3 := sum_gain o.fragments (removeFrom E off) (removeGain E off)
      (fun f _ => removeGain_eq E off f)
    unfold Overlay.recount at he
    unfold Overlay.remove
    dsimp only
    split
    · rename_i h0
      simp only [h0, List.map_nil, List.sum_nil, Nat.add_zero] at he
      simp only [Overlay.recount, List.map_nil, List.sum_nil, Nat.add_zero]
      cases ha : assoc o.points off with
      | none => rw [ha] at h2; simp only at h2 ⊢; omega
      | some v => rw [ha] at h2; simp only at h2 ⊢; omega
    · rename_i h0
      have ha := hc.resolve_left h0
      rw [ha] at h2 ⊢
      simp only at h2 ⊢
      apply adj
      unfold Overlay.recount
      push_cast
      omega
  refine ⟨hrem, ?_, ?_, ?_, ?_, he⟩
  · intro off v hc
    have := hrem off hc
    unfold Overlay.set
    dsimp only
    apply adj
    rw [this]
    unfold Overlay.recount
    simp only [List.map_cons, List.sum_cons]
    push_cast
    omega
  · intro a b
    have h1 := sum_filter_split o.points (fun k => decide (a ≤ k) && decide (k < b))
    have h3 := sum_gain o.fragments (fun f => f.minusInterval E a b)
      (fun f => gain f (f.minusInterval E a b)) (fun f _ => rfl)
    unfold Overlay.removeRange
    split
    · exact he
    · unfold Overlay.recount at he
      dsimp only
      split
      · rename_i h0
        simp only [h0, List.map_nil, List.sum_nil, Nat.add_zero] at he
        simp only [Overlay.recount, List.map_nil, List.sum_nil, Nat.add_zero]
        omega
      · apply adj
        simp only [Overlay.recount]
        push_cast
        omega
  · intro r
    have h1 := sum_filter_split o.points r.covers
    have h3 := sum_gain o.fragments (replaceFrom E r) (replaceGain E r)
      (fun f _ => replaceGain_eq E r f)
    unfold Overlay.recount at he
    unfold Overlay.apply
    dsimp only
    split
    · rename_i h0
      simp only [h0, List.map_nil, List.sum_nil, Nat.add_zero] at he
      apply adj
      simp only [Overlay.recount, List.map_nil, List.sum_nil, List.nil_append,
        List.map_cons, List.sum_cons]
      push_cast
      omega
    · have h4 : adjust (o.est - (List.map (fun kv => pointEst kv.2)
          (List.filter (fun kv => r.covers kv.1) o.points)).sum)
            ((o.fragments.map (replaceGain E r)).sum)
          = ((o.points.filter fun kv => !r.covers kv.1).map fun kv => pointEst kv.2).sum
            + ((o.fragments.flatMap (replaceFrom E r)).map Fragment.est).sum := by
        apply adj
        push_cast
        omega
      rw [h4]
      apply adj
      simp only [Overlay.recount, List.map_append, List.sum_append, List.map_cons, List.map_nil,
        List.sum_cons, List.sum_nil]
      push_cast
      omega
  · rfl

/-- **Overwriting a cell loses bytes.**  With a fragment stored, writing the same cell twice takes the
first value's bytes off twice; `estimated_bytes` is then 40 too small, and so is the number of bytes
`clear` reports as freed, although the reported changes add up to the true size. -/
theorem bytes_drift_wrong :
    let o0 : Overlay Int := history sampleE [.dense 0 [.number 1, .number 2]]
    let o1 := (o0.set sampleE 5 (.number 1)).1
    let o2 := (o1.set sampleE 5 (.number 2)).1
    o1.est = o1.recount ∧ o2.recount = 90 ∧ o2.est = 50 ∧ o2.clear.2 = 50 := by decide

/-- **A run keeps the sign of its first zero.**  Two floats that compare equal but differ (the two
zeros, here `false` and `true`): the second reads as the first. -/
theorem run_zero_wrong :
    (history (⟨fun _ _ => true, fun vs => vs.length⟩ : Env Bool)
      [.runs 0 [.number false, .number true]]).get 1 = some (.number false) := by decide

end Verif.Store
