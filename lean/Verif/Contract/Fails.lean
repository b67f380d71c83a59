import Verif.Contract.Again

/-!
# Numbers at ports, and what goes wrong
-/

namespace Verif.Contract

variable {E : Env}

theorem coerce_norm_int (ty : Ty) (v : Lit) (i : Int) : coerce E ty (norm E v) ≠ .int i := by
  cases ty <;> cases v <;> simp only [norm, coerce]
  all_goals
    first
      | (simp; done)
      | (split <;> simp)

/-- What is presented at a port for one value. -/
theorem present_scalar {B : Binding} {ty : Ty} (hk : B.kind = .scalar ty) (d : Option Value) (raw : Lit) :
    ∃ w, present E B d (.scalar raw) = .scalar (coerce E ty (norm E w)) ∧
      (w = raw ∨ (raw = .empty ∧ d = some (.scalar w))) := by
  unfold present applyDefault
  rw [hk]
  cases d with
  | none => exact ⟨raw, rfl, Or.inl rfl⟩
  | some d =>
    cases d with
    | scalar w =>
      simp only [merge]
      by_cases h : raw = .empty
      · rw [if_pos h]; exact ⟨w, rfl, Or.inr ⟨h, rfl⟩⟩
      · rw [if_neg h]; exact ⟨raw, rfl, Or.inl rfl⟩
    | _ => exact ⟨raw, rfl, Or.inl rfl⟩

/-- **C112** (7): a port of numbers hands out floating point numbers, whatever the cell holds. -/
theorem number_port {B : Binding} {ty : Ty} (hk : B.kind = .scalar ty) (hty : ty = .number ∨ ty = .integer)
    {d : Option Value} {raw : Lit} {x : Value} (h : read E B d (.scalar raw) = some x) :
    x = .scalar .empty ∨ ∃ q, x = .scalar (.num q) := by
  obtain ⟨w, hw, -⟩ := present_scalar (E := E) hk d raw
  have hx : x = .scalar (coerce E ty (norm E w)) := by
    unfold read at h
    split at h
    · cases h; exact hw
    · cases h
  have hv := read_holds h
  have hni := coerce_norm_int (E := E) ty w
  rw [hx] at hv ⊢
  generalize coerce E ty (norm E w) = v at *
  rcases hv with ⟨-, hv⟩ | ⟨ty', hk', hv⟩
  · left
    have : v = .empty := by simpa [Value.isEmpty] using hv
    rw [this]
  · rw [hk] at hk'
    cases hk'
    rcases hv with ⟨e, -⟩ | ⟨-, ht, -⟩
    · left; rw [e]
    · right
      rcases hty with rfl | rfl
      · cases v <;> simp_all [hasType]
      · cases v <;> simp_all [hasType]

/-- **C112** (8): a whole number passes as an integer, and a number on the grid of `2^-52`
only if it is whole. Floating point numbers of at least 1 lie on this grid. -/
theorem whole_spec {q : Rat} {k : Int} (hq : q = k / 2 ^ 52) : whole q = true ↔ ∃ i : Int, q = i := by
  unfold whole
  rw [decide_eq_true_iff]
  constructor
  · intro h
    refine ⟨trunc q, ?_⟩
    generalize trunc q = t at h ⊢
    have h1 := abs_lt.1 h
    have a : ((k - t * 2 ^ 52 : Int) : Rat) < 1 := by
      push_cast
      have := h1.2
      rw [hq] at this
      have h2 : (0 : Rat) < 2 ^ 52 := by positivity
      have h3 : (k : Rat) / 2 ^ 52 * 2 ^ 52 = k := div_mul_cancel₀ _ h2.ne'
      have h4 : (1 : Rat) / 2 ^ 52 * 2 ^ 52 = 1 := div_mul_cancel₀ _ h2.ne'
      nlinarith
    have b : (-1 : Rat) < ((k - t * 2 ^ 52 : Int) : Rat) := by
      push_cast
      have := h1.1
      rw [hq] at this
      have h2 : (0 : Rat) < 2 ^ 52 := by positivity
      have h3 : (k : Rat) / 2 ^ 52 * 2 ^ 52 = k := div_mul_cancel₀ _ h2.ne'
      have h4 : (1 : Rat) / 2 ^ 52 * 2 ^ 52 = 1 := div_mul_cancel₀ _ h2.ne'
      nlinarith
    have a' : k - t * 2 ^ 52 < 1 := by exact_mod_cast a
    have b' : -1 < k - t * 2 ^ 52 := by exact_mod_cast b
    have : k = t * 2 ^ 52 := by omega
    rw [hq, this]
    push_cast
    norm_num
  · rintro ⟨i, rfl⟩
    have : trunc (i : Rat) = i := by
      unfold trunc
      split <;> simp
    rw [this]
    simp

/-- Numbers next to zero pass as integers. -/
theorem tiny_fails : hasType .integer (.num (1 / 2 ^ 60)) = true := by
  have : trunc (1 / 2 ^ 60) = 0 := by
    unfold trunc
    rw [if_neg (by norm_num)]
    decide +kernel
  simp only [hasType, whole]
  rw [this, decide_eq_true_iff]
  norm_num [abs_lt]

/-- Where an enumeration lists whole numbers without a point, nothing but an empty cell is
ever read from a port of numbers, not even the default; yet these numbers may be written. -/
theorem whole_enum_fails {B : Binding} {ty : Ty} (hk : B.kind = .scalar ty) (hty : ty = .number ∨ ty = .integer)
    {l : Limits} (hl : B.limits = some l) {is : List Int} (he : l.enum = some (is.map Json.int)) (d : Option Value) (raw : Lit) :
    (∀ x, read E B d (.scalar raw) = some x → x = .scalar .empty) ∧
      (l.min = none → l.max = none → l.pattern = none → ∀ i ∈ is, accepts E B (.scalar (.int i)) = true) := by
  constructor
  · intro x h
    rcases number_port hk hty h with e | ⟨q, e⟩
    · exact e
    · exfalso
      rw [e] at h
      rcases read_holds h with ⟨-, hv⟩ | ⟨ty', hk', hv⟩
      · simp [Value.isEmpty] at hv
      · rcases hv with ⟨e, -⟩ | ⟨-, -, hv⟩
        · cases e
        · obtain ⟨j, hj, hm⟩ := (hv l hl).2.2.2 _ he
          simp only [toJson, Option.some.injEq] at hj
          rw [← hj] at hm
          obtain ⟨i, -, e⟩ := List.mem_map.1 hm
          cases e
  · intro h1 h2 h3 i hi
    unfold accepts
    rw [hk]
    simp only
    rw [validate_spec]
    right
    refine ⟨ty, hk, Or.inr ⟨by simp, ?_, ?_⟩⟩
    · rcases hty with rfl | rfl <;> rfl
    · intro l' hl'
      rw [hl] at hl'
      cases hl'
      refine ⟨by simp [h1], by simp [h2], by simp [h3], ?_⟩
      intro js hjs
      rw [he] at hjs
      cases hjs
      exact ⟨.int i, rfl, List.mem_map.2 ⟨i, hi, rfl⟩⟩

/-- An environment in which nothing is a date. -/
def plain : Env where
  float i := i
  dateSerial d := d
  datetimeSerial d := d
  timeSerial _ := 0
  durSerial _ := 0
  toDate _ := none
  toDatetime _ := none
  numText _ := []
  intText _ := []
  boolText _ := []
  dateText _ := []
  datetimeText _ := []
  dayOf d := d

/-- An integer port that allows 5. -/
def five : Binding := ⟨true, some { enum := some [.int 5] }, .scalar .integer⟩

/-- The default of the manifest is in the enumeration of the manifest, and is not read. -/
theorem default_enum_fails : defaultNum plain .integer (.int 5) = some (.int 5) ∧
    read plain five (some (.scalar (.int 5))) (.scalar .empty) = none := by
  refine ⟨rfl, ?_⟩
  cases h : read plain five (some (.scalar (.int 5))) (.scalar .empty) with
  | none => rfl
  | some x =>
    have := (whole_enum_fails (E := plain) (B := five) (ty := .integer) (l := { enum := some [.int 5] }) (is := [5])
      rfl (Or.inr rfl) rfl rfl _ _).1 x h
    subst this
    rcases read_holds h with ⟨h, -⟩ | ⟨ty, -, hv⟩
    · cases h
    · rcases hv with ⟨-, l, e, hn⟩ | ⟨hv, -⟩
      · cases e; cases hn
      · exact absurd rfl hv

/-- A table that is required may be without rows. -/
theorem required_table_fails (L : Option Limits) (columns : List Field) :
    read E ⟨true, L, .table columns⟩ none (.table []) = some (.table []) := rfl

/-- A record of a price between 0 and 10 and a note that may be missing. -/
def item : Binding :=
  ⟨true, none, .record [⟨0, .number, some { min := some 0, max := some 10 }⟩, ⟨1, .string, some { nullable := some true }⟩]⟩

example : read plain item (some (.record [(0, .num 7)])) (.record [(0, .empty), (1, .empty)]) =
      some (.record [(0, .num 7), (1, .empty)]) ∧
    read plain item none (.record [(0, .int 3), (1, .text ['a'])]) = some (.record [(0, .num 3), (1, .text ['a'])]) ∧
    read plain item none (.record [(0, .int 11), (1, .empty)]) = none ∧
    Keyed (.record [(0, .num 7)]) ∧ Keyed (.record [(0, .empty), (1, .empty)]) := by
  refine ⟨?_, ?_, ?_, ?_, ?_⟩
  · have : validate plain item true (.record [(0, .num 7), (1, .empty)]) = true := by
      rw [validate_spec]
      right
      refine ⟨_, rfl, ?_⟩
      intro f hf
      simp only [List.mem_cons, List.not_mem_nil, or_false] at hf
      rcases hf with rfl | rfl
      · refine ⟨.num 7, rfl, Or.inr ⟨by simp, rfl, ?_⟩⟩
        intro l hl
        cases hl
        refine ⟨?_, ?_, by simp, by simp⟩
        · intro a ha; cases ha; exact ⟨7, rfl, by norm_num⟩
        · intro a ha; cases ha; exact ⟨7, rfl, by norm_num⟩
      · exact ⟨.empty, rfl, Or.inl ⟨rfl, _, rfl, rfl⟩⟩
    unfold read
    exact if_pos this
  · have : validate plain item true (.record [(0, .num 3), (1, .text ['a'])]) = true := by
      rw [validate_spec]
      right
      refine ⟨_, rfl, ?_⟩
      intro f hf
      simp only [List.mem_cons, List.not_mem_nil, or_false] at hf
      rcases hf with rfl | rfl
      · refine ⟨.num 3, rfl, Or.inr ⟨by simp, rfl, ?_⟩⟩
        intro l hl
        cases hl
        refine ⟨?_, ?_, by simp, by simp⟩
        · intro a ha; cases ha; exact ⟨3, rfl, by norm_num⟩
        · intro a ha; cases ha; exact ⟨3, rfl, by norm_num⟩
      · exact ⟨.text ['a'], rfl, Or.inr ⟨by simp, rfl, fun l hl => by cases hl; simp⟩⟩
    unfold read
    exact if_pos this
  · have : validate plain item true (.record [(0, .num 11), (1, .empty)]) ≠ true := by
      rw [Ne, validate_spec]
      rintro (⟨h, -⟩ | ⟨fs, hk, h⟩)
      · cases h
      · cases hk
        obtain ⟨v, hv, hm⟩ := h _ List.mem_cons_self
        cases hv
        rcases hm with ⟨e, -⟩ | ⟨-, -, hm⟩
        · cases e
        · obtain ⟨q, hq, hle⟩ := (hm _ rfl).2.1 _ rfl
          cases hq
          norm_num at hle
    unfold read
    exact if_neg this
  · simp [Keyed]
  · simp [Keyed]

/-- **C112**: which literals are of which type. -/
theorem type_spec (ty : Ty) (v : Lit) : hasType ty v = true ↔
    (ty = .string ∧ ∃ s, v = .text s) ∨
    (ty = .number ∧ ((∃ q, v = .num q) ∨ ∃ i, v = .int i)) ∨
    (ty = .integer ∧ ((∃ i, v = .int i) ∨ ∃ q, v = .num q ∧ whole q = true)) ∨
    (ty = .boolean ∧ ∃ b, v = .bool b) ∨
    (ty = .date ∧ ((∃ d, v = .date d) ∨ ∃ d, v = .datetime d)) ∨
    (ty = .datetime ∧ ∃ d, v = .datetime d) := by
  cases ty <;> cases v <;> simp [hasType]

example : hasType .datetime (.date 5) = false := rfl

/-- **C112**: bounds are met by numbers only. -/
theorem bounds_need_numbers (E : Env) (ty : Ty) (l : Limits) (v : Lit)
    (hb : l.min ≠ none ∨ l.max ≠ none) (h : inLimits E ty l v = true) :
    (∃ q, v = .num q) ∨ ∃ i, v = .int i := by
  obtain ⟨h1, h2, _⟩ := inLimits_iff.mp h
  have hn : ∃ q, toNum E v = some q := by
    rcases hb with hb | hb
    · obtain ⟨a, ha⟩ := Option.ne_none_iff_exists'.mp hb
      obtain ⟨q, hq, _⟩ := h1 a ha
      exact ⟨q, hq⟩
    · obtain ⟨a, ha⟩ := Option.ne_none_iff_exists'.mp hb
      obtain ⟨q, hq, _⟩ := h2 a ha
      exact ⟨q, hq⟩
  obtain ⟨q, hq⟩ := hn
  cases v <;> simp_all [toNum]

/-- **C112**: a value is empty if all its cells are. -/
theorem empty_spec (x : Value) : x.isEmpty = true ↔
    (∀ v, x = .scalar v → v = .empty) ∧ (∀ m, x = .record m → ∀ p ∈ m, p.2 = .empty) ∧
    (∀ g, x = .range g → ∀ row ∈ g, ∀ v ∈ row, v = .empty) ∧
    (∀ t, x = .table t → ∀ row ∈ t, ∀ p ∈ row, p.2 = .empty) := by
  cases x <;> simp [Value.isEmpty]

/-- **C112**: some fields of a record pass if and only if each is a field of the manifest and meets
what the first field of its name says, or nothing is required and all are empty. -/
theorem partial_spec (E : Env) (B : Binding) (m : List (Nat × Lit)) :
    validate E B false (.record m) = true ↔
      (B.required = false ∧ ∀ p ∈ m, p.2 = .empty) ∨
      ∃ fields, B.kind = .record fields ∧ ∀ p ∈ m, ∃ f pre post,
        fields = pre ++ f :: post ∧ (∀ g ∈ pre, g.name ≠ p.1) ∧ f.name = p.1 ∧
        Meets E f.ty f.limits p.2 := by
  have he : (Value.record m).isEmpty = true ↔ ∀ p ∈ m, p.2 = .empty := by simp [Value.isEmpty]
  unfold validate
  by_cases h : B.required = false ∧ (Value.record m).isEmpty = true
  · rw [if_pos h]
    simp only [true_iff]
    exact Or.inl ⟨h.1, he.mp h.2⟩
  · rw [if_neg h]
    rw [he] at h
    constructor
    · intro hv
      right
      cases hk : B.kind with
      | record fields =>
        rw [hk] at hv
        refine ⟨fields, rfl, ?_⟩
        intro p hp
        have hc := List.all_eq_true.mp (show checkPartial E fields m = true from hv) p hp
        cases hf : fields.find? fun f => f.name == p.1 with
        | none => rw [hf] at hc; cases hc
        | some f =>
          rw [hf] at hc
          obtain ⟨h1, pre, post, h2, h3⟩ := List.find?_eq_some_iff_append.mp hf
          exact ⟨f, pre, post, h2, fun g hg => by simpa using h3 g hg, by simpa using h1,
            check_lit_spec.mp hc⟩
      | _ => rw [hk] at hv; cases hv
    · rintro (hl | ⟨fields, hk, hall⟩)
      · exact absurd hl h
      · rw [hk]
        change checkPartial E fields m = true
        refine List.all_eq_true.mpr ?_
        intro p hp
        obtain ⟨f, pre, post, h1, h2, h3, h4⟩ := hall p hp
        have hf : (fields.find? fun f => f.name == p.1) = some f :=
          List.find?_eq_some_iff_append.mpr ⟨by simpa using h3, pre, post, h1,
            fun g hg => by simpa using h2 g hg⟩
        rw [hf]
        exact check_lit_spec.mpr h4

/-- **C112**: a number port without limits hands out dates and times as their serials. -/
theorem read_serials (E : Env) (r : Bool) :
    (∀ d, read E ⟨r, none, .scalar .number⟩ none (.scalar (.date d)) =
        some (.scalar (.num (E.dateSerial d)))) ∧
      (∀ d, read E ⟨r, none, .scalar .number⟩ none (.scalar (.datetime d)) =
        some (.scalar (.num (E.datetimeSerial d)))) ∧
      (∀ t, read E ⟨r, none, .scalar .number⟩ none (.scalar (.time t)) =
        some (.scalar (.num (E.timeSerial t)))) ∧
      (∀ t, read E ⟨r, none, .scalar .number⟩ none (.scalar (.dur t)) =
        some (.scalar (.num (E.durSerial t)))) := by
  refine ⟨?_, ?_, ?_, ?_⟩ <;> intro d <;>
    simp [read, present, applyDefault, coerceTo, coerce, validate, checkLit, hasType, Value.map,
      norm, Value.isEmpty]

/-- **C112**: date ports hand out numbers as the dates they are serials of, and refuse the others. -/
theorem read_dates (E : Env) (r : Bool) (q : Rat) :
    (read E ⟨r, none, .scalar .date⟩ none (.scalar (.num q)) =
        (E.toDate q).map fun d => .scalar (.date d)) ∧
      (read E ⟨r, none, .scalar .datetime⟩ none (.scalar (.num q)) =
        (E.toDatetime q).map fun d => .scalar (.datetime d)) := by
  constructor
  · cases h : E.toDate q <;>
      simp [read, present, applyDefault, coerceTo, coerce, validate, checkLit, hasType, Value.map,
        norm, Value.isEmpty, h]
  · cases h : E.toDatetime q <;>
      simp [read, present, applyDefault, coerceTo, coerce, validate, checkLit, hasType, Value.map,
        norm, Value.isEmpty, h]

end Verif.Contract
