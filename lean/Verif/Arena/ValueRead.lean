/-
The theorems about the store for values (property C62).
-/
import Verif.Arena.ValueSpec

namespace Verif.Arena

variable {F : Type} {C : Chrono F}

/-! ### Values without parts -/

theorem reads_flat {st : Store F} {r : VRef} {v : Lit C} (h : ∀ m, retrieve C (m + 1) st r = some v) : Reads st r v :=
  ⟨1, fun m hm => by obtain ⟨k, rfl⟩ : ∃ k, m = k + 1 := ⟨m - 1, by omega⟩; exact h k⟩

/-! ### Arrays -/

theorem forall₂_take_drop {α β : Type} {R : α → β → Prop} {l : List α} {l' : List β} (h : List.Forall₂ R l l') (a b : Nat) :
    List.Forall₂ R ((l.drop a).take b) ((l'.drop a).take b) := by
  have hd : ∀ a, List.Forall₂ R (l.drop a) (l'.drop a) := fun a => List.forall₂_drop a h
  exact List.forall₂_take b (hd a)

theorem mapM_of_forall₂ {α β : Type} {f : α → Option β} {l : List α} {l' : List β} (h : List.Forall₂ (fun a b => f a = some b) l l') :
    l.mapM f = some l' := by
  induction h with
  | nil => rfl
  | cons h1 _ ih => rw [List.mapM_cons, h1, ih]; rfl

theorem forall₂_map_range {α β : Type} {R : α → β → Prop} (f : Nat → α) (g : Nat → β) : ∀ l : List Nat, (∀ i ∈ l, R (f i) (g i)) →
    List.Forall₂ R (l.map f) (l.map g)
  | [], _ => .nil
  | i :: l, h => .cons (h i (by simp)) (forall₂_map_range f g l fun j hj => h j (by simp [hj]))

theorem cut_mapM {α β : Type} {f : α → Option β} {l : List α} {l' : List β} (h : List.Forall₂ (fun a b => f a = some b) l l')
    (rows cols : Nat) : ((cut l rows cols).mapM fun row : List α => row.mapM f) = some (cut l' rows cols) := by
  unfold cut
  split
  · rfl
  · exact mapM_of_forall₂ (forall₂_map_range _ _ _ fun i _ => mapM_of_forall₂ (forall₂_take_drop h _ _))

theorem reads_all {st : Store F} : ∀ {rs : List VRef} {vs : List (Lit C)}, List.Forall₂ (Reads st) rs vs →
    ∃ n, ∀ m, n ≤ m → List.Forall₂ (fun r v => retrieve C m st r = some v) rs vs
  | _, _, .nil => ⟨0, fun _ _ => .nil⟩
  | _, _, .cons ⟨a, ha⟩ h => by
    obtain ⟨b, hb⟩ := reads_all h
    exact ⟨max a b, fun m hm => .cons (ha m (by omega)) (hb m (by omega))⟩

theorem get2d_ext {st st'' : Store F} {rows cols : Nat} {es : List VRef} {st' : Store F} {k : Nat} (hok : st.Ok)
    (hf : st'.Fits) (h : insertArray st rows cols es = some (st', k)) (hx : Ext st' st'') :
    get2d st'' k = some (some (cut es rows cols)) := by
  obtain ⟨-, rfl, h1, h2, h3, -⟩ := insertArray_spec h
  have e1 : st''.dims[st.dims.length]? = some (rows, cols) := prefix_get hx.dims (by rw [h1]; exact last_get _ _)
  have hlen : (st.elems ++ es).length % 2 ^ 32 = (st.elems ++ es).length := by
    have := hf.elems
    rw [h2] at this
    exact Nat.mod_eq_of_lt this
  have e2 : st''.offsets[st.dims.length]? = some st.elems.length :=
    prefix_get hx.offsets (by rw [h3]; exact prefix_get (List.prefix_append _ _) hok.last)
  have e3 : st''.offsets[st.dims.length + 1]? = some (st.elems ++ es).length :=
    prefix_get hx.offsets (by rw [h3, hlen, ← hok.len]; exact last_get _ _)
  unfold get2d
  rw [e1]
  dsimp only
  rw [e2, e3]
  dsimp only
  obtain ⟨t, ht⟩ := hx.elems
  rw [h2] at ht
  rw [if_pos ⟨by simp, by rw [← ht]; simp⟩, ← ht]
  rw [List.take_left]
  simp

theorem insertArray_ok {st st' : Store F} {rows cols k : Nat} {es : List VRef} (hok : st.Ok) (hf : st'.Fits)
    (h : insertArray st rows cols es = some (st', k)) : st'.Ok := by
  obtain ⟨-, -, h1, h2, h3, -⟩ := insertArray_spec h
  refine ⟨by rw [h3, h1]; simp [hok.len], ?_⟩
  have hlen : (st.elems ++ es).length % 2 ^ 32 = (st.elems ++ es).length := by
    have := hf.elems
    rw [h2] at this
    exact Nat.mod_eq_of_lt this
  have hl : (st.dims ++ [(rows, cols)]).length = st.offsets.length := by simp [hok.len]
  rw [h3, h1, h2, hlen, hl]
  exact last_get _ _

/-! ### What is read back -/

theorem ok_of {s s' : Store F} (hok : s.Ok) (h1 : s'.dims = s.dims) (h2 : s'.elems = s.elems) (h3 : s'.offsets = s.offsets) : s'.Ok :=
  ⟨by rw [h1, h3]; exact hok.len, by rw [h1, h2, h3]; exact hok.last⟩

theorem insertErr_ok {st : Store F} (e : Err) (hok : st.Ok) : (insertErr st e).1.Ok := by
  unfold insertErr
  cases e.message <;> dsimp only <;> split <;> exact ok_of hok rfl rfl rfl

theorem reads_float {s s'' : Store F} {type : Nat} (ht : type < 16) {x : F} {r : VRef} (hf : s.floats.length < 2 ^ 32)
    (h : mkRef type (BitVec.ofNat 32 s.floats.length) = some r) (hx : s.floats ++ [x] <+: s''.floats) :
    typeBits r = type ∧ s''.floats[(payload r).toNat]? = some x := by
  obtain ⟨h1, h2⟩ := mkRef_index ht hf h
  exact ⟨h1, by rw [h2]; exact prefix_get hx (last_get _ _)⟩

theorem bool_bits (b : Bool) : typeBits ((5#32 <<< 28) ||| (if b then 1#32 else 0#32)) = 5 ∧
    decide (payload ((5#32 <<< 28) ||| (if b then 1#32 else 0#32)) &&& 1#32 ≠ 0#32) = b := by
  cases b <;> decide

theorem duration_index {n : Nat} (hn : n < 2 ^ 32) {r : VRef} (h : mkRef 9 (integerRef n &&& 0x7FFFFFFF#32) = some r) :
    typeBits r = 9 ∧ (n < 2 ^ 31 → (payload r).toNat = n) := by
  obtain ⟨h1, h2, -⟩ := mkRef_spec (by decide) h
  refine ⟨h1, fun hlt => ?_⟩
  rw [h2, BitVec.toNat_and]
  have : (0x7FFFFFFF#32).toNat = 2 ^ 31 - 1 := rfl
  rw [this, Nat.and_two_pow_sub_one_eq_mod]
  unfold integerRef
  rw [BitVec.toNat_or, BitVec.toNat_ofNat]
  have e : (1#32 <<< 31).toNat = 2 ^ 31 := by decide
  rw [e, Nat.mod_eq_of_lt hn, Nat.or_mod_two_pow]
  simp
  omega

mutual

/-- Whatever is stored afterwards, the reference gives the image of the value. -/
theorem store_reads : ∀ (v : Lit C) {s s' : Store F} {r : VRef}, store s v = some (s', r) → s.Ok → s'.Fits →
    s'.Ok ∧ ∀ s'', Ext s' s'' → Reads s'' r (image v)
  | .empty, s, s', r, h, hok, _ => by
    unfold store at h; cases h
    exact ⟨hok, fun _ _ => reads_flat fun _ => rfl⟩
  | .pending, s, s', r, h, hok, _ => by
    unfold store at h; cases h
    exact ⟨hok, fun _ _ => reads_flat fun _ => rfl⟩
  | .bool b, s, s', r, h, hok, _ => by
    unfold store at h; cases h
    exact ⟨hok, fun _ _ => reads_flat fun _ => by
      obtain ⟨h1, h2⟩ := bool_bits b
      unfold retrieve
      rw [h1]
      dsimp only
      rw [h2, image]
      rfl⟩
  | .number f, s, s', r, h, hok, hf => by
    unfold store at h; obtain ⟨rfl, hr⟩ := withRef_some h
    refine ⟨ok_of hok rfl rfl rfl, fun s'' hx => reads_flat fun _ => ?_⟩
    obtain ⟨h1, h2⟩ := reads_float (by decide) (Nat.lt_of_le_of_lt (by simp) hf.floats) hr hx.floats
    unfold retrieve
    rw [h1]
    dsimp only
    rw [h2, image]
    rfl
  | .dateTime d, s, s', r, h, hok, hf => by
    unfold store at h; obtain ⟨rfl, hr⟩ := withRef_some h
    refine ⟨ok_of hok rfl rfl rfl, fun s'' hx => reads_flat fun _ => ?_⟩
    obtain ⟨h1, h2⟩ := reads_float (by decide) (Nat.lt_of_le_of_lt (by simp) hf.floats) hr hx.floats
    unfold retrieve
    rw [h1]
    dsimp only
    rw [h2, image]
    rfl
  | .date d, s, s', r, h, hok, hf => by
    unfold store at h; obtain ⟨rfl, hr⟩ := withRef_some h
    refine ⟨ok_of hok rfl rfl rfl, fun s'' hx => reads_flat fun _ => ?_⟩
    obtain ⟨h1, h2⟩ := reads_float (by decide) (Nat.lt_of_le_of_lt (by simp) hf.floats) hr hx.floats
    unfold retrieve
    rw [h1]
    dsimp only
    rw [h2, image]
    rfl
  | .time d, s, s', r, h, hok, hf => by
    unfold store at h; obtain ⟨rfl, hr⟩ := withRef_some h
    refine ⟨ok_of hok rfl rfl rfl, fun s'' hx => reads_flat fun _ => ?_⟩
    obtain ⟨h1, h2⟩ := reads_float (by decide) (Nat.lt_of_le_of_lt (by simp) hf.floats) hr hx.floats
    unfold retrieve
    rw [h1]
    dsimp only
    rw [h2, image]
    rfl
  | .duration d, s, s', r, h, hok, hf => by
    unfold store at h; obtain ⟨rfl, hr⟩ := withRef_some h
    refine ⟨ok_of hok rfl rfl rfl, fun s'' hx => reads_flat fun _ => ?_⟩
    have hlt : s.ints.length < 2 ^ 31 := Nat.lt_of_le_of_lt (by simp) hf.ints
    obtain ⟨h1, h2⟩ := duration_index (by omega) hr
    unfold retrieve
    rw [h1, h2 hlt]
    dsimp only
    rw [prefix_get hx.ints (last_get _ _), image]
    rfl
  | .text t, s, s', r, h, hok, hf => by
    unfold store at h; obtain ⟨rfl, hr⟩ := withRef_some h
    refine ⟨ok_of hok rfl rfl rfl, fun s'' hx => reads_flat fun _ => ?_⟩
    have hg := (intern_spec s.strings t).2
    obtain ⟨h1, h2⟩ := mkRef_index (by decide) (Nat.lt_trans (get_lt hg) hf.strings) hr
    unfold retrieve
    rw [h1, h2]
    dsimp only
    rw [prefix_get hx.strings hg, image]
    rfl
  | .error e, s, s', r, h, hok, hf => by
    unfold store at h; obtain ⟨rfl, hr⟩ := withRef_some h
    refine ⟨insertErr_ok e hok, fun s'' hx => reads_flat fun _ => ?_⟩
    obtain ⟨-, m, hg, hm⟩ := insertErr_spec s e
    obtain ⟨h1, h2⟩ := mkRef_index (by decide) (Nat.lt_trans (get_lt hg) hf.errs) hr
    have hge : getErr s'' (insertErr s e).2 = some (some ⟨e.kind, e.message, none⟩) := by
      unfold getErr
      rw [prefix_get hx.errs hg]
      cases he : e.message <;> rw [he] at hm <;> cases m
      · rfl
      · cases hm
      · cases hm
      · dsimp only
        rw [prefix_get hx.messages hm]
        rfl
    unfold retrieve
    rw [h1, h2]
    dsimp only
    rw [hge, image]
    rfl
  | .int i, s, s', r, h, hok, _ => by
    unfold store at h
    split at h
    · next r' hr =>
      cases h
      refine ⟨hok, fun s'' hx => reads_flat fun _ => ?_⟩
      obtain ⟨h1, h2⟩ := small_roundtrip hr
      unfold retrieve
      rw [h1]
      dsimp only
      rw [h2, image]
      rfl
    · obtain ⟨-, hr⟩ := withRef_some h
      rw [integer_never] at hr
      cases hr
  | .array rows, s, s', r, h, hok, hf => by
    unfold store at h
    split at h
    · cases h
    · next s1 es h1 =>
      split at h
      · cases h
      · next s2 k h2 =>
        obtain ⟨rfl, hr⟩ := withRef_some h
        have hx2 : Ext s1 s' := (insertArray_spec h2).2.2.2.2.2
        obtain ⟨hok1, hrs⟩ := storeRows_reads rows h1 hok (hx2.fits hf)
        refine ⟨insertArray_ok hok1 hf h2, fun s'' hx => ?_⟩
        have hk : k < 2 ^ 32 := by
          obtain ⟨-, rfl, hd, -⟩ := insertArray_spec h2
          have := hf.dims
          rw [hd] at this
          exact Nat.lt_of_le_of_lt (by simp) this
        obtain ⟨t1, t2⟩ := mkRef_index (by decide) hk hr
        obtain ⟨n, hn⟩ := reads_all (hrs s'' (hx2.trans hx))
        refine ⟨n + 1, fun m hm => ?_⟩
        obtain ⟨m, rfl⟩ : ∃ k, m = k + 1 := ⟨m - 1, by omega⟩
        unfold retrieve
        rw [t1, t2]
        dsimp only
        rw [get2d_ext hok1 hf h2 hx]
        dsimp only
        rw [cut_mapM (hn m (by omega)), image]
        rfl

theorem storeRows_reads : ∀ (rows : List (List (Lit C))) {s s' : Store F} {rs : List VRef}, storeRows s rows = some (s', rs) →
    s.Ok → s'.Fits → s'.Ok ∧ ∀ s'', Ext s' s'' → List.Forall₂ (Reads s'') rs (imageRows rows)
  | [], s, s', rs, h, hok, _ => by unfold storeRows at h; cases h; exact ⟨hok, fun _ _ => .nil⟩
  | row :: rows, s, s', rs, h, hok, hf => by
    unfold storeRows at h
    split at h
    · cases h
    · next s1 r1 h1 =>
      split at h
      · cases h
      · next s2 r2 h2 =>
        cases h
        have hx := storeRows_ext rows h2
        obtain ⟨ok1, f1⟩ := storeRow_reads row h1 hok (hx.fits hf)
        obtain ⟨ok2, f2⟩ := storeRows_reads rows h2 ok1 hf
        exact ⟨ok2, fun s'' hx' => by rw [imageRows]; exact List.rel_append (f1 s'' (hx.trans hx')) (f2 s'' hx')⟩

/-- The same for the values stored one after the other (`store_values_batch`). -/
theorem storeRow_reads : ∀ (vs : List (Lit C)) {s s' : Store F} {rs : List VRef}, storeRow s vs = some (s', rs) →
    s.Ok → s'.Fits → s'.Ok ∧ ∀ s'', Ext s' s'' → List.Forall₂ (Reads s'') rs (imageRow vs)
  | [], s, s', rs, h, hok, _ => by unfold storeRow at h; cases h; exact ⟨hok, fun _ _ => .nil⟩
  | v :: vs, s, s', rs, h, hok, hf => by
    unfold storeRow at h
    split at h
    · cases h
    · next s1 r1 h1 =>
      split at h
      · cases h
      · next s2 r2 h2 =>
        cases h
        have hx := storeRow_ext vs h2
        obtain ⟨ok1, f1⟩ := store_reads v h1 hok (hx.fits hf)
        obtain ⟨ok2, f2⟩ := storeRow_reads vs h2 ok1 hf
        exact ⟨ok2, fun s'' hx' => by rw [imageRow]; exact .cons (f1 s'' (hx.trans hx')) (f2 s'' hx')⟩

end

end Verif.Arena
