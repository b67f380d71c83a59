import Verif.Contract.Model
import Mathlib.Tactic.Linarith
import Mathlib.Tactic.NormNum

/-!
# What a port hands out meets its manifest
-/

namespace Verif.Contract

variable {E : Env}

/-- What the manifest says about one value. -/
def Meets (E : Env) (ty : Ty) (L : Option Limits) (v : Lit) : Prop :=
  (v = .empty ∧ ∃ l, L = some l ∧ l.nullable = some true) ∨
  (v ≠ .empty ∧ hasType ty v = true ∧ ∀ l, L = some l →
    (∀ a, l.min = some a → ∃ q, toNum E v = some q ∧ a ≤ q) ∧
    (∀ b, l.max = some b → ∃ q, toNum E v = some q ∧ q ≤ b) ∧
    (∀ p, l.pattern = some p → ∃ s, toText E ty v = some s ∧ p s = true) ∧
    (∀ js, l.enum = some js → ∃ j, toJson E v = some j ∧ j ∈ js))

theorem inLimits_iff {ty : Ty} {l : Limits} {v : Lit} : inLimits E ty l v = true ↔
    (∀ a, l.min = some a → ∃ q, toNum E v = some q ∧ a ≤ q) ∧
    (∀ b, l.max = some b → ∃ q, toNum E v = some q ∧ q ≤ b) ∧
    (∀ p, l.pattern = some p → ∃ s, toText E ty v = some s ∧ p s = true) ∧
    (∀ js, l.enum = some js → ∃ j, toJson E v = some j ∧ j ∈ js) := by
  unfold inLimits
  simp only [Bool.and_eq_true, and_assoc]
  refine and_congr ?_ (and_congr ?_ (and_congr ?_ ?_))
  · cases l.min <;> cases toNum E v <;> simp
  · cases l.max <;> cases toNum E v <;> simp
  · cases l.pattern <;> cases toText E ty v <;> simp
  · cases l.enum <;> cases toJson E v <;> simp

/-- **C112** (1): a literal passes the validation if and only if it meets the manifest. -/
theorem check_lit_spec {ty : Ty} {L : Option Limits} {v : Lit} : checkLit E ty L v = true ↔ Meets E ty L v := by
  unfold checkLit Meets
  by_cases hv : v = .empty
  · rw [if_pos hv]
    cases L with
    | none => simp [hv]
    | some l => cases h : l.nullable <;> simp [hv, h]
  · rw [if_neg hv]
    by_cases ht : hasType ty v = false
    · rw [if_pos ht]; simp [hv, ht]
    · rw [if_neg ht]
      cases L with
      | none => simpa [hv] using ht
      | some l => simp only [inLimits_iff]; simp [hv, ht]

/-- What the manifest says about a value of a port. -/
def Holds (E : Env) (B : Binding) : Value → Prop
  | .scalar v => ∃ ty, B.kind = .scalar ty ∧ Meets E ty B.limits v
  | .record m => ∃ fields, B.kind = .record fields ∧
      ∀ f ∈ fields, ∃ v, m.lookup f.name = some v ∧ Meets E f.ty f.limits v
  | .range g => ∃ ty, B.kind = .range ty ∧ ∀ row ∈ g, ∀ v ∈ row, Meets E ty B.limits v
  | .table rows => ∃ columns, B.kind = .table columns ∧ ∀ row ∈ rows,
      (∀ p ∈ row, ∃ c ∈ columns, c.name = p.1) ∧
      ∀ c ∈ columns, ∃ v, row.lookup c.name = some v ∧ Meets E c.ty B.limits v

theorem checkFull_iff {fields : List Field} {m : List (Nat × Lit)} :
    checkFull E fields m = true ↔ ∀ f ∈ fields, ∃ v, m.lookup f.name = some v ∧ Meets E f.ty f.limits v := by
  unfold checkFull
  rw [List.all_eq_true]
  refine forall₂_congr fun f _ => ?_
  cases m.lookup f.name with
  | none => simp
  | some v => simp [check_lit_spec]

theorem checkRow_iff {L : Option Limits} {columns : List Field} {row : List (Nat × Lit)} :
    checkRow E L columns row = true ↔ (∀ p ∈ row, ∃ c ∈ columns, c.name = p.1) ∧
      ∀ c ∈ columns, ∃ v, row.lookup c.name = some v ∧ Meets E c.ty L v := by
  unfold checkRow
  rw [Bool.and_eq_true, List.all_eq_true, List.all_eq_true]
  refine and_congr ?_ ?_
  · refine forall₂_congr fun p _ => ?_
    simp
  · refine forall₂_congr fun f _ => ?_
    cases row.lookup f.name with
    | none => simp
    | some v => simp [check_lit_spec]

/-- **C112** (2): the validation of all of a value accepts exactly the values that meet the
manifest, and values without content where the port is not required. -/
theorem validate_spec {B : Binding} {x : Value} :
    validate E B true x = true ↔ (B.required = false ∧ x.isEmpty = true) ∨ Holds E B x := by
  unfold validate
  by_cases h : B.required = false ∧ x.isEmpty = true
  · rw [if_pos h]; simp [h]
  · rw [if_neg h, or_iff_right h]
    unfold Holds
    rcases B with ⟨req, lim, kind⟩
    cases kind <;> cases x <;> simp [check_lit_spec, checkFull_iff, checkRow_iff]

/-- **C112** (3): what is read from a port meets its manifest. -/
theorem read_holds {B : Binding} {d : Option Value} {raw x : Value} (h : read E B d raw = some x) :
    (B.required = false ∧ x.isEmpty = true) ∨ Holds E B x := by
  unfold read at h
  split at h
  · cases h; exact validate_spec.1 ‹_›
  · cases h

theorem lookup_mem {m : List (Nat × Lit)} (hn : (m.map Prod.fst).Nodup) {k : Nat} {v : Lit} (h : (k, v) ∈ m) :
    m.lookup k = some v := by
  induction m with
  | nil => cases h
  | cons p m ih =>
    obtain ⟨k', v'⟩ := p
    rw [List.map_cons, List.nodup_cons] at hn
    rw [List.lookup_cons]
    rcases List.mem_cons.1 h with e | h
    · cases e; simp
    · have : k ≠ k' := fun e => hn.1 (e ▸ List.mem_map.2 ⟨_, h, rfl⟩)
      rw [show (k == k') = false by simpa using this]
      exact ih hn.2 h

/-- **C112** (4): what is read from a port may be written to it. For records: if they have
no other fields than those declared. -/
theorem read_accepted {B : Binding} {d : Option Value} {raw x : Value} (h : read E B d raw = some x)
    (hrec : ∀ fields m, B.kind = .record fields → x = .record m →
      (m.map Prod.fst).Nodup ∧ ∀ p ∈ m, ∃ f ∈ fields, f.name = p.1) : accepts E B x = true := by
  have hv : validate E B true x = true := by
    unfold read at h
    split at h
    · cases h; assumption
    · cases h
  unfold accepts
  rcases B with ⟨req, lim, kind⟩
  cases kind with
  | record fields =>
    cases x with
    | record m =>
      obtain ⟨hn, hk⟩ := hrec fields m rfl rfl
      unfold validate at hv ⊢
      split at hv
      · rw [if_pos (by assumption)]
      · rw [if_neg (by assumption)]
        simp only [if_true] at hv
        rw [checkFull_iff] at hv
        simp only [Bool.false_eq_true, if_false]
        unfold checkPartial
        rw [List.all_eq_true]
        rintro ⟨k, v⟩ hp
        obtain ⟨f, hf, hname⟩ := hk _ hp
        cases hfind : fields.find? fun f => f.name == k with
        | none =>
          have := List.find?_eq_none.1 hfind f hf
          simp [hname] at this
        | some g =>
          have hg : g.name = k := by simpa using List.find?_some hfind
          obtain ⟨w, hw, hm⟩ := hv g (List.mem_of_find?_eq_some hfind)
          rw [hg, lookup_mem hn hp] at hw
          cases hw
          exact check_lit_spec.2 hm
    | scalar _ => simpa [validate] using hv
    | range _ => simpa [validate] using hv
    | table _ => simpa [validate] using hv
  | scalar _ => exact hv
  | range _ => exact hv
  | table _ => exact hv

end Verif.Contract
