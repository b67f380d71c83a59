import Verif.Contract.Basic

/-!
# Defaults, and reading again
-/

namespace Verif.Contract

variable {E : Env}

theorem lookup_map {m : List (Nat × Lit)} {H : Nat → Lit → Lit} {k : Nat} :
    (m.map fun p => (p.1, H p.1 p.2)).lookup k = (m.lookup k).map (H k) := by
  induction m with
  | nil => rfl
  | cons p m ih =>
    rw [List.map_cons, List.lookup_cons, List.lookup_cons]
    by_cases h : k = p.1
    · simp [h]
    · rw [show (k == p.1) = false by simpa using h]; exact ih

theorem lookup_append_one {m : List (Nat × Lit)} {d : Nat × Lit} {k : Nat} :
    (m ++ [d]).lookup k = match m.lookup k with | some v => some v | none => if k = d.1 then some d.2 else none := by
  induction m with
  | nil =>
    obtain ⟨d1, d2⟩ := d
    rw [List.nil_append, List.lookup_cons]
    by_cases h : k = d1
    · simp [h]
    · rw [show (k == d1) = false by simpa using h]; simp [h]
  | cons p m ih =>
    rw [List.cons_append, List.lookup_cons, List.lookup_cons]
    by_cases h : k = p.1
    · simp [h]
    · rw [show (k == p.1) = false by simpa using h]; exact ih

theorem lookup_replace {m : List (Nat × Lit)} {d : Nat × Lit} {k : Nat} :
    (m.map fun p => if p.1 = d.1 then d else p).lookup k =
      if k = d.1 then (m.lookup k).map fun _ => d.2 else m.lookup k := by
  induction m with
  | nil => simp
  | cons p m ih =>
    rw [List.map_cons, List.lookup_cons, List.lookup_cons, ih]
    by_cases h : p.1 = d.1
    · rw [if_pos h]
      by_cases hk : k = d.1
      · simp [hk, h]
      · have h2 : k ≠ p.1 := fun e => hk (e.trans h)
        rw [show (k == d.1) = false by simpa using hk, show (k == p.1) = false by simpa using h2]
    · rw [if_neg h]
      by_cases hk : k = p.1
      · simp [hk, h]
      · rw [show (k == p.1) = false by simpa using hk]

theorem lookup_fill {m : List (Nat × Lit)} {d : Nat × Lit} {k : Nat} :
    (fill m d).lookup k = if k = d.1 ∧ (m.lookup k = none ∨ m.lookup k = some .empty) then some d.2 else m.lookup k := by
  unfold fill
  cases h : m.lookup d.1 with
  | none =>
    simp only
    rw [lookup_append_one]
    by_cases hk : k = d.1
    · subst hk; simp [h]
    · cases m.lookup k <;> simp [hk]
  | some v =>
    simp only
    by_cases hv : v = .empty
    · rw [if_pos hv, lookup_replace]
      by_cases hk : k = d.1
      · subst hk; simp [h, hv]
      · simp [hk]
    · rw [if_neg hv]
      by_cases hk : k = d.1
      · subst hk; simp [h, hv]
      · simp [hk]

/-- **C112** (5): defaults fill the fields that are missing or empty, and no others. -/
theorem record_default {m ds : List (Nat × Lit)} (hd : (ds.map Prod.fst).Nodup) (k : Nat) :
    (ds.foldl fill m).lookup k =
      if m.lookup k = none ∨ m.lookup k = some .empty then (ds.lookup k).or (m.lookup k) else m.lookup k := by
  induction ds generalizing m with
  | nil => simp
  | cons d ds ih =>
    rw [List.map_cons, List.nodup_cons] at hd
    rw [List.foldl_cons, ih hd.2, lookup_fill, List.lookup_cons]
    by_cases hk : k = d.1
    · have hnone : ds.lookup k = none := by
        rw [List.lookup_eq_none_iff]
        intro p hp
        have : d.1 ≠ p.1 := fun e => hd.1 (e ▸ List.mem_map.2 ⟨p, hp, rfl⟩)
        simpa [hk] using this
      rw [show (k == d.1) = true by simpa using hk, hnone]
      by_cases he : m.lookup k = none ∨ m.lookup k = some .empty
      · have hf : (if k = d.1 ∧ (m.lookup k = none ∨ m.lookup k = some .empty) then some d.2 else m.lookup k) = some d.2 :=
          if_pos ⟨hk, he⟩
        rw [hf, if_pos he]
        simp
      · have hf : (if k = d.1 ∧ (m.lookup k = none ∨ m.lookup k = some .empty) then some d.2 else m.lookup k) = m.lookup k :=
          if_neg fun c => he c.2
        rw [hf, if_neg he, if_neg he]
    · have hf : (if k = d.1 ∧ (m.lookup k = none ∨ m.lookup k = some .empty) then some d.2 else m.lookup k) = m.lookup k :=
        if_neg fun c => hk c.1
      rw [hf, show (k == d.1) = false by simpa using hk]

/-- **C112** (5): a single value, a range and a table are replaced by the default as a whole,
and only if there is nothing in them. -/
theorem default_whole {x d : Value} (hne : ∀ m, x ≠ .record m) :
    merge x d = x ∨ (merge x d = d ∧ x.isEmpty = true) := by
  cases x with
  | scalar v =>
    cases d with
    | scalar w =>
      simp only [merge]
      by_cases h : v = .empty
      · rw [if_pos h]; exact Or.inr ⟨rfl, by simp [Value.isEmpty, h]⟩
      · rw [if_neg h]; exact Or.inl rfl
    | _ => exact Or.inl rfl
  | record m => exact absurd rfl (hne m)
  | range g =>
    cases d with
    | range w =>
      simp only [merge]
      by_cases h : (Value.range g).isEmpty = true
      · rw [if_pos h]; exact Or.inr ⟨rfl, h⟩
      · rw [if_neg h]; exact Or.inl rfl
    | _ => exact Or.inl rfl
  | table t =>
    cases d with
    | table w =>
      simp only [merge]
      by_cases h : (Value.table t).isEmpty = true
      · rw [if_pos h]; exact Or.inr ⟨rfl, h⟩
      · rw [if_neg h]; exact Or.inl rfl
    | _ => exact Or.inl rfl

/-- A change of literals that may be repeated and keeps the empty ones. -/
def Good (h : Lit → Lit) : Prop := (∀ v, h (h v) = h v) ∧ ∀ v, h v = .empty ↔ v = .empty

theorem good_norm : Good (norm E) := by
  constructor <;> intro v <;> cases v <;> simp [norm]

theorem good_coerce (ty : Ty) : Good fun v => coerce E ty (norm E v) := by
  constructor
  · intro v
    cases ty <;> cases v <;> simp only [norm, coerce]
    all_goals
      first
        | rfl
        | (rename_i q; cases h : E.toDate q <;> simp [norm, coerce, h])
        | (rename_i q; cases h : E.toDatetime q <;> simp [norm, coerce, h])
        | (rename_i i; cases h : E.toDate (E.float i) <;> simp [norm, coerce, h])
        | (rename_i i; cases h : E.toDatetime (E.float i) <;> simp [norm, coerce, h])
  · intro v
    cases ty <;> cases v <;> simp only [norm, coerce]
    all_goals
      first
        | (simp; done)
        | (split <;> simp)

/-- Normalisation and coercion. -/
def final (E : Env) (k : Kind) (x : Value) : Value := coerceTo E k (x.map (norm E))

theorem final_scalar (k : Kind) : ∃ h, Good h ∧ ∀ v, final E k (.scalar v) = .scalar (h v) := by
  cases k with
  | scalar ty => exact ⟨_, good_coerce ty, fun _ => rfl⟩
  | record _ => exact ⟨_, good_norm, fun _ => rfl⟩
  | range _ => exact ⟨_, good_norm, fun _ => rfl⟩
  | table _ => exact ⟨_, good_norm, fun _ => rfl⟩

theorem final_range (k : Kind) : ∃ h, Good h ∧ ∀ g, final E k (.range g) = .range (g.map fun row => row.map h) := by
  cases k with
  | range ty =>
    refine ⟨_, good_coerce (E := E) ty, fun g => ?_⟩
    simp only [final, Value.map, coerceTo, List.map_map]
    congr 1
    refine List.map_congr_left fun row _ => ?_
    simp only [Function.comp, List.map_map]
    rfl
  | record _ => exact ⟨_, good_norm, fun _ => rfl⟩
  | scalar _ => exact ⟨_, good_norm, fun _ => rfl⟩
  | table _ => exact ⟨_, good_norm, fun _ => rfl⟩

theorem coerceMap_norm (fields : List Field) : ∃ H : Nat → Lit → Lit, (∀ n, Good (H n)) ∧
    ∀ m : List (Nat × Lit), coerceMap E fields (m.map fun p => (p.1, norm E p.2)) = m.map fun p => (p.1, H p.1 p.2) := by
  refine ⟨fun n v => match fields.find? fun f => f.name == n with | some f => coerce E f.ty (norm E v) | none => norm E v, ?_, ?_⟩
  · intro n
    cases h : fields.find? fun f => f.name == n with
    | none => simp only [h]; exact good_norm
    | some f => simp only [h]; exact good_coerce f.ty
  · intro m
    unfold coerceMap
    rw [List.map_map]
    refine List.map_congr_left fun p _ => ?_
    simp only [Function.comp]
    cases h : fields.find? fun f => f.name == p.1 <;> rfl

theorem final_record (k : Kind) : ∃ H : Nat → Lit → Lit, (∀ n, Good (H n)) ∧
    ∀ m, final E k (.record m) = .record (m.map fun p => (p.1, H p.1 p.2)) := by
  cases k with
  | record fields =>
    obtain ⟨H, h1, h2⟩ := coerceMap_norm (E := E) fields
    exact ⟨H, h1, fun m => by rw [← h2]; rfl⟩
  | range _ => exact ⟨fun _ => norm E, fun _ => good_norm, fun _ => rfl⟩
  | scalar _ => exact ⟨fun _ => norm E, fun _ => good_norm, fun _ => rfl⟩
  | table _ => exact ⟨fun _ => norm E, fun _ => good_norm, fun _ => rfl⟩

theorem final_table (k : Kind) : ∃ H : Nat → Lit → Lit, (∀ n, Good (H n)) ∧
    ∀ t, final E k (.table t) = .table (t.map fun row => row.map fun p => (p.1, H p.1 p.2)) := by
  cases k with
  | table columns =>
    obtain ⟨H, h1, h2⟩ := coerceMap_norm (E := E) columns
    refine ⟨H, h1, fun t => ?_⟩
    simp only [final, Value.map, coerceTo, List.map_map]
    congr 1
    refine List.map_congr_left fun row _ => ?_
    rw [← h2]; rfl
  | range _ => exact ⟨fun _ => norm E, fun _ => good_norm, fun _ => rfl⟩
  | scalar _ => exact ⟨fun _ => norm E, fun _ => good_norm, fun _ => rfl⟩
  | record _ => exact ⟨fun _ => norm E, fun _ => good_norm, fun _ => rfl⟩

theorem final_again (k : Kind) (x : Value) : final E k (final E k x) = final E k x := by
  cases x with
  | scalar v =>
    obtain ⟨h, h1, h2⟩ := final_scalar (E := E) k
    rw [h2, h2, h1.1]
  | record m =>
    obtain ⟨H, h1, h2⟩ := final_record (E := E) k
    rw [h2, h2, List.map_map]
    congr 1
    exact List.map_congr_left fun p _ => by simp [(h1 _).1]
  | range g =>
    obtain ⟨h, h1, h2⟩ := final_range (E := E) k
    rw [h2, h2, List.map_map]
    congr 1
    refine List.map_congr_left fun row _ => ?_
    simp only [Function.comp, List.map_map]
    exact List.map_congr_left fun v _ => h1.1 v
  | table t =>
    obtain ⟨H, h1, h2⟩ := final_table (E := E) k
    rw [h2, h2, List.map_map]
    congr 1
    refine List.map_congr_left fun row _ => ?_
    simp only [Function.comp, List.map_map]
    exact List.map_congr_left fun p _ => by simp [(h1 _).1]

theorem final_empty (k : Kind) (x : Value) : (final E k x).isEmpty = x.isEmpty := by
  cases x with
  | scalar v =>
    obtain ⟨h, h1, h2⟩ := final_scalar (E := E) k
    rw [h2]; simp [Value.isEmpty, h1.2]
  | record m =>
    obtain ⟨H, h1, h2⟩ := final_record (E := E) k
    rw [h2]; simp [Value.isEmpty, List.all_map, Function.comp_def, (h1 _).2]
  | range g =>
    obtain ⟨h, h1, h2⟩ := final_range (E := E) k
    rw [h2]; simp [Value.isEmpty, List.all_map, Function.comp_def, h1.2]
  | table t =>
    obtain ⟨H, h1, h2⟩ := final_table (E := E) k
    rw [h2]; simp [Value.isEmpty, List.all_map, Function.comp_def, (h1 _).2]

theorem fill_keys {m : List (Nat × Lit)} {d : Nat × Lit} (hn : (m.map Prod.fst).Nodup) : ((fill m d).map Prod.fst).Nodup := by
  unfold fill
  cases h : m.lookup d.1 with
  | none =>
    simp only [List.map_append, List.map_cons, List.map_nil]
    rw [List.nodup_append]
    refine ⟨hn, by simp, ?_⟩
    rintro a ha b hb rfl
    rw [List.mem_singleton] at hb
    obtain ⟨p, hp, e⟩ := List.mem_map.1 ha
    have := List.lookup_eq_none_iff.1 h p hp
    simp [e, hb] at this
  | some v =>
    simp only
    split
    · rw [List.map_map]
      have : (Prod.fst ∘ fun p : Nat × Lit => if p.1 = d.1 then d else p) = Prod.fst := by
        funext p
        simp only [Function.comp]
        split
        · rename_i e; exact e.symm
        · rfl
      rw [this]; exact hn
    · exact hn

theorem foldl_keys {ds m : List (Nat × Lit)} (hn : (m.map Prod.fst).Nodup) : ((ds.foldl fill m).map Prod.fst).Nodup := by
  induction ds generalizing m with
  | nil => exact hn
  | cons d ds ih => exact ih (fill_keys hn)

theorem foldl_id {ds m : List (Nat × Lit)} (hn : (m.map Prod.fst).Nodup)
    (h : ∀ d ∈ ds, ∃ v, m.lookup d.1 = some v ∧ (v = .empty → d.2 = .empty)) : ds.foldl fill m = m := by
  induction ds with
  | nil => rfl
  | cons d ds ih =>
    obtain ⟨v, hv, he⟩ := h d List.mem_cons_self
    have : fill m d = m := by
      unfold fill
      rw [hv]
      simp only
      split
      · rename_i e
        conv_rhs => rw [← List.map_id m]
        refine List.map_congr_left fun p hp => ?_
        split
        · rename_i e'
          have := lookup_mem (k := p.1) (v := p.2) hn hp
          rw [e', hv] at this
          obtain ⟨p1, p2⟩ := p
          obtain ⟨d1, d2⟩ := d
          simp only [Option.some.injEq] at this e' he
          simp [e', ← this, e, he e]
        · rfl
      · rfl
    rw [List.foldl_cons, this]
    exact ih fun d hd => h d (List.mem_cons_of_mem _ hd)

/-- The keys of the records are distinct, as in a map. -/
def Keyed : Value → Prop
  | .record m => (m.map Prod.fst).Nodup
  | _ => True

/-- **C112** (6): if the value handed out is written and read again, it is the same value. -/
theorem present_again {B : Binding} {d : Option Value} {raw : Value} (hr : Keyed raw) (hd : ∀ x, d = some x → Keyed x) :
    present E B d (present E B d raw) = present E B d raw := by
  cases d with
  | none => exact final_again B.kind raw
  | some d =>
    show final E B.kind (merge (final E B.kind (merge raw d)) d) = final E B.kind (merge raw d)
    have hd := hd d rfl
    suffices hs : merge (final E B.kind (merge raw d)) d = final E B.kind (merge raw d) ∨
        final E B.kind (merge (final E B.kind (merge raw d)) d) = final E B.kind (merge raw d) by
      rcases hs with h | h
      · rw [h]; exact final_again _ _
      · exact h
    by_cases hrec : ∃ m, raw = .record m
    · obtain ⟨m, rfl⟩ := hrec
      cases d with
      | record ds =>
        left
        obtain ⟨H, h1, h2⟩ := final_record (E := E) B.kind
        simp only [merge, h2]
        congr 1
        have hk : (((ds.foldl fill m).map fun p => (p.1, H p.1 p.2)).map Prod.fst).Nodup := by
          rw [List.map_map]
          exact foldl_keys hr
        apply foldl_id hk
        rintro ⟨k, v⟩ hkv
        rw [lookup_map, record_default hd, lookup_mem hd hkv]
        split
        · refine ⟨_, rfl, fun e => ((h1 k).2 v).1 e⟩
        · rename_i hne
          cases hm : m.lookup k with
          | none => exact absurd (Or.inl hm) hne
          | some w =>
            refine ⟨_, rfl, fun e => ?_⟩
            rw [(h1 k).2] at e
            exact absurd (Or.inr (hm.trans (by rw [e]))) hne
      | scalar _ =>
        left
        obtain ⟨H, h1, h2⟩ := final_record (E := E) B.kind
        simp only [merge, h2]
      | range _ =>
        left
        obtain ⟨H, h1, h2⟩ := final_record (E := E) B.kind
        simp only [merge, h2]
      | table _ =>
        left
        obtain ⟨H, h1, h2⟩ := final_record (E := E) B.kind
        simp only [merge, h2]
    · have hne : ∀ m, raw ≠ .record m := fun m e => hrec ⟨m, e⟩
      have hne' : ∀ m, final E B.kind (merge raw d) ≠ .record m := by
        intro m
        obtain ⟨h, -, e1⟩ := final_scalar (E := E) B.kind
        obtain ⟨h', -, e2⟩ := final_range (E := E) B.kind
        obtain ⟨H, -, e3⟩ := final_table (E := E) B.kind
        cases raw with
        | record m => exact absurd rfl (hne m)
        | scalar v =>
          cases d <;> simp only [merge]
          · split <;> simp [e1]
          all_goals simp [e1]
        | range v =>
          cases d <;> simp only [merge]
          · simp [e2]
          · simp [e2]
          · split <;> simp [e2]
          · simp [e2]
        | table v =>
          cases d <;> simp only [merge]
          · simp [e3]
          · simp [e3]
          · simp [e3]
          · split <;> simp [e3]
      rcases default_whole (x := final E B.kind (merge raw d)) (d := d) hne' with h | ⟨h, hemp⟩
      · exact Or.inl h
      · right
        rw [h]
        rcases default_whole (x := raw) (d := d) hne with h' | ⟨h', -⟩
        · rw [final_empty, h'] at hemp
          have : merge raw d = d := by
            cases raw with
            | record m => exact absurd rfl (hne m)
            | scalar v =>
              cases d with
              | scalar w =>
                have : v = .empty := by simpa [Value.isEmpty] using hemp
                simp [merge, this]
              | _ => 
                obtain ⟨hh, -, e1⟩ := final_scalar (E := E) B.kind
                simp [merge, e1] at h
            | range v =>
              cases d with
              | range w => simp only [merge]; rw [if_pos hemp]
              | _ =>
                obtain ⟨hh, -, e1⟩ := final_range (E := E) B.kind
                simp [merge, e1] at h
            | table v =>
              cases d with
              | table w => simp only [merge]; rw [if_pos hemp]
              | _ =>
                obtain ⟨hh, -, e1⟩ := final_table (E := E) B.kind
                simp [merge, e1] at h
          rw [this]
        · rw [h']

/-- **C112** (6) for `read_port_value`. -/
theorem read_again {B : Binding} {d : Option Value} {raw x : Value} (hr : Keyed raw) (hd : ∀ x, d = some x → Keyed x)
    (h : read E B d raw = some x) : read E B d x = some x := by
  unfold read at h ⊢
  split at h
  · cases h
    rw [present_again hr hd, if_pos (by assumption)]
  · cases h

end Verif.Contract
