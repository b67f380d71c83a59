/-
Storing a formula and reading it back (property C63).
-/
import Verif.Arena.AstRead

namespace Verif.Arena

variable {F : Type} {C : Chrono F} {E : Ext3}

theorem reduceOption_some {α : Type} (l : List α) : (l.map some).reduceOption = l := by
  induction l with
  | nil => rfl
  | cons x l ih => rw [List.map_cons, List.reduceOption_cons_of_some, ih]

theorem reads_list {N : Names} {a : Asts F E} : ∀ {ids : List Nat} {es : List (Ast C E)}, List.Forall₂ (ReadsAst N a) ids es →
    ∃ n, ∀ m, n ≤ m → List.Forall₂ (fun id e => rebuild C N m a id = some (some e)) ids es
  | _, _, .nil => ⟨0, fun _ _ => .nil⟩
  | _, _, .cons ⟨x, hx⟩ h => by
    obtain ⟨y, hy⟩ := reads_list h
    exact ⟨max x y, fun m hm => .cons (hx m (by omega)) (hy m (by omega))⟩

theorem mapM_some {α β : Type} {f : α → Option (Option β)} {l : List α} {l' : List β} (h : List.Forall₂ (fun a b => f a = some (some b)) l l') :
    l.mapM f = some (l'.map some) := by
  induction h with
  | nil => rfl
  | cons h1 _ ih => rw [List.mapM_cons, h1, ih]; rfl

theorem forall₂_get {α β : Type} {R : α → β → Prop} {l : List α} {l' : List β} (h : List.Forall₂ R l l') :
    ∀ i : Nat, (l[i]? = none ∧ l'[i]? = none) ∨ ∃ x y, l[i]? = some x ∧ l'[i]? = some y ∧ R x y := by
  induction h with
  | nil => intro i; exact Or.inl ⟨by simp, by simp⟩
  | cons h1 _ ih =>
    intro i
    cases i with
    | zero => exact Or.inr ⟨_, _, rfl, rfl, h1⟩
    | succ i => simpa using ih i

theorem forall₂_pick {α β : Type} {R : α → β → Prop} {l : List α} {l' : List β} (h : List.Forall₂ R l l') (f : Nat → Nat) :
    ∀ is : List Nat, List.Forall₂ R (is.filterMap fun c => l[f c]?) (is.filterMap fun c => l'[f c]?)
  | [] => .nil
  | i :: is => by
    have ih := forall₂_pick h f is
    rcases forall₂_get h (f i) with ⟨h1, h2⟩ | ⟨x, y, h1, h2, h3⟩
    · simp only [List.filterMap_cons, h1, h2]; exact ih
    · simp only [List.filterMap_cons, h1, h2]; exact .cons h3 ih

theorem readsAst_flat {N : Names} {a : Asts F E} {id : Nat} {e : Ast C E} (h : ∀ m, rebuild C N (m + 1) a id = some (some e)) :
    ReadsAst N a id e :=
  ⟨1, fun m hm => by obtain ⟨k, rfl⟩ : ∃ k, m = k + 1 := ⟨m - 1, by omega⟩; exact h k⟩

theorem slice_ext {l ids l'' : List Nat} (h : l ++ ids <+: l'') {k : Nat} (hk : k ≤ ids.length) : slice l'' l.length k = some (ids.take k) := by
  obtain ⟨t, rfl⟩ := h
  unfold slice
  rw [if_pos (by simp; omega), List.append_assoc, List.drop_left, List.take_append_of_le_length hk]

theorem imageList_length (N N' : Names) : ∀ es : List (Ast C E), (imageList N N' es).length = es.length
  | [] => by rw [imageList]
  | e :: es => by rw [imageList, List.length_cons, List.length_cons, imageList_length N N' es]

theorem convertLit_reads {H : Hashes E} {N' : Names} {v : Lit C} {a a' : Asts F E} {id : Nat} (h : convertLit H a v = some (a', id))
    (hok : a.Ok) (hf : a'.Fits) : a'.Ok ∧ ∀ a'', AExt a' a'' → ReadsAst N' a'' id (.lit (image v) : Ast C E) := by
  unfold convertLit at h
  split at h
  · cases h
  · next s r hs =>
    have hx := insertNode_ext h
    obtain ⟨ok1, hr⟩ := store_reads v hs hok.values (hx.values.fits hf.values)
    obtain ⟨ok2, hn⟩ := insertNode_spec (a := { a with values := s }) ⟨ok1, hok.dedup⟩ h hf
    refine ⟨ok2, fun a'' hx' => ?_⟩
    obtain ⟨n, hn'⟩ := hr a''.values (hx.values.trans hx'.values)
    refine ⟨n + 1, fun m hm => ?_⟩
    obtain ⟨m, rfl⟩ : ∃ k, m = k + 1 := ⟨m - 1, by omega⟩
    unfold rebuild
    rw [prefix_get hx'.nodes hn]
    dsimp only
    rw [hn' m (by omega)]
    rfl

mutual

/-- Whatever is stored afterwards, and whatever the hash functions: the number of the formula gives its image. -/
theorem convert_reads {H : Hashes E} {N N' : Names} : ∀ (e : Ast C E) {a a' : Asts F E} {id : Nat}, convert H N a e = some (a', id) →
    a.Ok → a'.Fits → a'.Ok ∧ ∀ a'', AExt a' a'' → ReadsAst N' a'' id (imageAst N N' e)
  | .lit v, a, a', id, h, hok, hf => by unfold convert at h; unfold imageAst; exact convertLit_reads h hok hf
  | .call _ _, a, a', id, h, hok, hf => by unfold convert at h; unfold imageAst; exact convertLit_reads h hok hf
  | .omitted, a, a', id, h, hok, hf => by
    unfold convert at h
    obtain ⟨ok, hn⟩ := insertNode_spec hok h hf
    refine ⟨ok, fun a'' hx => readsAst_flat fun m => ?_⟩
    unfold rebuild imageAst
    rw [prefix_get hx.nodes hn]
  | .ref o r, a, a', id, h, hok, hf => by
    unfold convert at h
    dsimp only at h
    obtain ⟨x1, k1, r1⟩ := convertRef_spec H N a r
    obtain ⟨x2, g2, k2⟩ := internStr_spec (convertRef H N a r).1 o
    obtain ⟨ok, hn⟩ := insertNode_spec (k2 (k1 hok)) h hf
    have x3 := insertNode_ext h
    refine ⟨ok, fun a'' hx => readsAst_flat fun m => ?_⟩
    unfold rebuild imageAst
    rw [prefix_get hx.nodes hn]
    dsimp only
    rw [prefix_get (x3.trans hx).strings g2, r1 N' a'' ((x2.trans x3).fits hf) (x2.trans (x3.trans hx))]
  | .unary op e, a, a', id, h, hok, hf => by
    unfold convert at h
    split at h
    · cases h
    · next a1 i1 h1 =>
      dsimp only at h
      obtain ⟨x2, g2, k2⟩ := internStr_spec a1 op
      have x3 := insertNode_ext h
      obtain ⟨ok1, r1⟩ := convert_reads (N' := N') e h1 hok ((x2.trans x3).fits hf)
      obtain ⟨ok, hn⟩ := insertNode_spec (k2 ok1) h hf
      refine ⟨ok, fun a'' hx => ?_⟩
      obtain ⟨n, hn'⟩ := r1 a'' (x2.trans (x3.trans hx))
      refine ⟨n + 1, fun m hm => ?_⟩
      obtain ⟨m, rfl⟩ : ∃ k, m = k + 1 := ⟨m - 1, by omega⟩
      unfold rebuild imageAst
      rw [prefix_get hx.nodes hn]
      dsimp only
      rw [prefix_get (x3.trans hx).strings g2, hn' m (by omega)]
      rfl
  | .binary op l r, a, a', id, h, hok, hf => by
    unfold convert at h
    split at h
    · cases h
    · next a1 i1 h1 =>
      split at h
      · cases h
      · next a2 i2 h2 =>
        dsimp only at h
        obtain ⟨x2, g2, k2⟩ := internStr_spec a2 op
        have x3 := insertNode_ext h
        have xr := convert_ext r h2
        obtain ⟨ok1, r1⟩ := convert_reads (N' := N') l h1 hok ((xr.trans (x2.trans x3)).fits hf)
        obtain ⟨ok2, r2⟩ := convert_reads (N' := N') r h2 ok1 ((x2.trans x3).fits hf)
        obtain ⟨ok, hn⟩ := insertNode_spec (k2 ok2) h hf
        refine ⟨ok, fun a'' hx => ?_⟩
        obtain ⟨n, hn'⟩ := r1 a'' (xr.trans (x2.trans (x3.trans hx)))
        obtain ⟨k, hk⟩ := r2 a'' (x2.trans (x3.trans hx))
        refine ⟨max n k + 1, fun m hm => ?_⟩
        obtain ⟨m, rfl⟩ : ∃ k, m = k + 1 := ⟨m - 1, by omega⟩
        unfold rebuild imageAst
        rw [prefix_get hx.nodes hn]
        dsimp only
        rw [prefix_get (x3.trans hx).strings g2, hn' m (by omega)]
        dsimp only
        rw [hk m (by omega)]
        rfl
  | .func name args, a, a', id, h, hok, hf => by
    unfold convert at h
    split at h
    · cases h
    · next a1 ids h1 =>
      dsimp only at h
      obtain ⟨x2, g2, k2⟩ := internStr_spec a1 name
      have x3 := insertNode_ext h
      have x3' : AExt (internStr a1 name).1 a' := AExt.ofArgs x3
      obtain ⟨ok1, r1⟩ := convertList_reads (N' := N') args h1 hok ((x2.trans x3').fits hf)
      have ok2 := k2 ok1
      obtain ⟨ok, hn⟩ := insertNode_spec (a := { (internStr a1 name).1 with args := (internStr a1 name).1.args ++ ids })
        ⟨ok2.values, ok2.dedup⟩ h hf
      refine ⟨ok, fun a'' hx => ?_⟩
      have hr := r1 a'' (x2.trans (x3'.trans hx))
      have hlen : ids.length = args.length := by
        rw [hr.length_eq, imageList_length]
      obtain ⟨n, hn'⟩ := reads_list (List.forall₂_take (ids.length % 2 ^ 16) hr)
      refine ⟨n + 1, fun m hm => ?_⟩
      obtain ⟨m, rfl⟩ : ∃ k, m = k + 1 := ⟨m - 1, by omega⟩
      have hl : (internStr a1 name).1.args.length % 2 ^ 32 = (internStr a1 name).1.args.length :=
        Nat.mod_eq_of_lt (Nat.lt_of_le_of_lt x3'.args.length_le hf.args)
      unfold rebuild imageAst
      rw [prefix_get hx.nodes hn]
      dsimp only
      rw [prefix_get (x3'.trans hx).strings g2, hl, slice_ext (x3.args.trans hx.args) (Nat.mod_le _ _)]
      dsimp only
      rw [mapM_some (hn' m (by omega)), Option.map_some, reduceOption_some, hlen]
  | .array rows, a, a', id, h, hok, hf => by
    unfold convert at h
    split at h
    · cases h
    · next a1 ids h1 =>
      dsimp only at h
      split at h
      · next hc =>
        have x3 := insertNode_ext h
        have x3' : AExt a1 a' := AExt.ofElems x3
        obtain ⟨ok1, r1⟩ := convertRows_reads (N' := N') rows h1 hok (x3'.fits hf)
        obtain ⟨ok, hn⟩ := insertNode_spec (a := { a1 with elems := a1.elems ++ ids }) ⟨ok1.values, ok1.dedup⟩ h hf
        refine ⟨ok, fun a'' hx => ?_⟩
        have hr := r1 a'' (x3'.trans hx)
        obtain ⟨n, hn'⟩ := reads_list hr
        refine ⟨n + 1, fun m hm => ?_⟩
        obtain ⟨m, rfl⟩ : ∃ k, m = k + 1 := ⟨m - 1, by omega⟩
        have hl : a1.elems.length % 2 ^ 32 = a1.elems.length := Nat.mod_eq_of_lt (Nat.lt_of_le_of_lt x3'.elems.length_le hf.elems)
        unfold rebuild imageAst
        rw [prefix_get hx.nodes hn]
        dsimp only
        rw [hl, ← hc, slice_ext (x3.elems.trans hx.elems) (Nat.le_refl _), List.take_length]
        dsimp only
        have : (List.range (rows.length % 2 ^ 16)).mapM (fun r =>
            (((List.range ((rows.headD []).length % 2 ^ 16)).filterMap fun c => ids[(r * ((rows.headD []).length % 2 ^ 16) + c) % 2 ^ 16]?).mapM
              (rebuild C N' m a'')).map List.reduceOption) =
            some (arrange (imageAstRows N N' rows) (rows.length % 2 ^ 16) ((rows.headD []).length % 2 ^ 16)) := by
          unfold arrange
          generalize List.range (rows.length % 2 ^ 16) = rs
          induction rs with
          | nil => rfl
          | cons i is ih =>
            rw [List.mapM_cons, mapM_some (forall₂_pick (hn' m (by omega)) _ _), ih, Option.map_some, reduceOption_some]
            rfl
        rw [this]
        rfl
      · cases h

theorem convertList_reads {H : Hashes E} {N N' : Names} : ∀ (es : List (Ast C E)) {a a' : Asts F E} {ids : List Nat},
    convertList H N a es = some (a', ids) → a.Ok → a'.Fits →
    a'.Ok ∧ ∀ a'', AExt a' a'' → List.Forall₂ (ReadsAst N' a'') ids (imageList N N' es)
  | [], a, a', ids, h, hok, _ => by unfold convertList at h; cases h; exact ⟨hok, fun _ _ => by rw [imageList]; exact .nil⟩
  | e :: es, a, a', ids, h, hok, hf => by
    unfold convertList at h
    split at h
    · cases h
    · next a1 i1 h1 =>
      split at h
      · cases h
      · next a2 i2 h2 =>
        cases h
        have hx := convertList_ext es h2
        obtain ⟨ok1, f1⟩ := convert_reads (N' := N') e h1 hok (hx.fits hf)
        obtain ⟨ok2, f2⟩ := convertList_reads (N' := N') es h2 ok1 hf
        exact ⟨ok2, fun a'' hx' => by rw [imageList]; exact .cons (f1 a'' (hx.trans hx')) (f2 a'' hx')⟩

theorem convertRows_reads {H : Hashes E} {N N' : Names} : ∀ (rows : List (List (Ast C E))) {a a' : Asts F E} {ids : List Nat},
    convertRows H N a rows = some (a', ids) → a.Ok → a'.Fits →
    a'.Ok ∧ ∀ a'', AExt a' a'' → List.Forall₂ (ReadsAst N' a'') ids (imageAstRows N N' rows)
  | [], a, a', ids, h, hok, _ => by unfold convertRows at h; cases h; exact ⟨hok, fun _ _ => by rw [imageAstRows]; exact .nil⟩
  | row :: rows, a, a', ids, h, hok, hf => by
    unfold convertRows at h
    split at h
    · cases h
    · next a1 i1 h1 =>
      split at h
      · cases h
      · next a2 i2 h2 =>
        cases h
        have hx := convertRows_ext rows h2
        obtain ⟨ok1, f1⟩ := convertList_reads (N' := N') row h1 hok (hx.fits hf)
        obtain ⟨ok2, f2⟩ := convertRows_reads (N' := N') rows h2 ok1 hf
        exact ⟨ok2, fun a'' hx' => by rw [imageAstRows]; exact List.rel_append (f1 a'' (hx.trans hx')) (f2 a'' hx')⟩

end

end Verif.Arena
