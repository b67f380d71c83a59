/-
The current row of a table, and the names of tables.
-/
import Verif.Tables.Area

namespace Verif.Tables

open Verif.Struct (Str Spec Special RowSpec)

/-! ### The table around a cell -/

/-- `t` is the table meant in the cell `c`: it has the cell, none with the cell is
smaller, and of those of its size it has the first name. -/
def Meant (ts : List Table) (c : Cell) (t : Table) : Prop :=
  t ∈ ts ∧ t.holds c = true ∧ ∀ u ∈ ts, u.holds c = true → t.size < u.size ∨ (t.size = u.size ∧ t.name ≤ u.name)

theorem containing_go (c : Cell) (ts : List Table) : ∀ (done : List Table) (best : Option Table),
    (match best with | none => ∀ u ∈ done, u.holds c = false | some b => Meant done c b) →
    (match ts.foldl (fun best t => if t.holds c then better best t else best) best with
      | none => ∀ u ∈ done ++ ts, u.holds c = false | some b => Meant (done ++ ts) c b) := by
  induction ts with
  | nil => intro done best h; simpa using h
  | cons t ts ih =>
    intro done best h
    have e : done ++ t :: ts = (done ++ [t]) ++ ts := by simp
    rw [List.foldl_cons, e]
    apply ih
    cases ht : t.holds c with
    | false =>
      simp only [Bool.false_eq_true, if_false]
      cases best with
      | none =>
        intro u hu
        rcases List.mem_append.1 hu with hu | hu
        · exact h u hu
        · rw [List.mem_singleton.1 hu]; exact ht
      | some b =>
        obtain ⟨h1, h2, h3⟩ := h
        refine ⟨by simp [h1], h2, fun u hu hc => ?_⟩
        rcases List.mem_append.1 hu with hu | hu
        · exact h3 u hu hc
        · rw [List.mem_singleton.1 hu, ht] at hc; cases hc
    | true =>
      simp only [if_true]
      cases best with
      | none =>
        refine ⟨by simp, ht, fun u hu hc => ?_⟩
        rcases List.mem_append.1 hu with hu | hu
        · rw [h u hu] at hc; cases hc
        · rw [List.mem_singleton.1 hu]; exact .inr ⟨rfl, le_refl _⟩
      | some b =>
        obtain ⟨h1, h2, h3⟩ := h
        simp only [better]
        by_cases hb : t.size < b.size ∨ (t.size = b.size ∧ t.name < b.name)
        · rw [if_pos hb]
          refine ⟨by simp, ht, fun u hu hc => ?_⟩
          rcases List.mem_append.1 hu with hu | hu
          · rcases hb with hb | ⟨hb, hn⟩ <;> rcases h3 u hu hc with k | ⟨k, k'⟩
            · exact .inl (by omega)
            · exact .inl (by omega)
            · exact .inl (by omega)
            · exact .inr ⟨by omega, le_trans (le_of_lt hn) k'⟩
          · rw [List.mem_singleton.1 hu]; exact .inr ⟨rfl, le_refl _⟩
        · rw [if_neg hb]
          refine ⟨by simp [h1], h2, fun u hu hc => ?_⟩
          rcases List.mem_append.1 hu with hu | hu
          · exact h3 u hu hc
          · rw [List.mem_singleton.1 hu]
            by_cases hs : b.size < t.size
            · exact .inl hs
            · have hs' : t.size = b.size := by
                by_contra hne
                exact hb (.inl (by omega))
              exact .inr ⟨hs'.symm, not_lt.1 fun hn => hb (.inr ⟨hs', hn⟩)⟩

theorem containing_none {ts : List Table} {c : Cell} : containing ts c = none ↔ ∀ u ∈ ts, u.holds c = false := by
  have := containing_go c ts [] none (by simp)
  unfold containing
  constructor
  · intro h
    rw [h] at this
    simpa using this
  · intro h
    cases hc : ts.foldl (fun best t => if t.holds c then better best t else best) none with
    | none => rfl
    | some b =>
      rw [hc] at this
      obtain ⟨h1, h2, _⟩ := this
      rw [h b (by simpa using h1)] at h2
      cases h2

theorem containing_meant {ts : List Table} {c : Cell} {t : Table} (h : containing ts c = some t) : Meant ts c t := by
  have := containing_go c ts [] none (by simp)
  unfold containing at h
  rw [h] at this
  simpa using this

/-- Names of tables differ, so the table meant is one. -/
theorem Meant.unique {ts : List Table} {c : Cell} {t u : Table} (names : ∀ a ∈ ts, ∀ b ∈ ts, a.name = b.name → a = b)
    (ht : Meant ts c t) (hu : Meant ts c u) : t = u := by
  obtain ⟨t1, t2, t3⟩ := ht
  obtain ⟨u1, u2, u3⟩ := hu
  rcases t3 u u1 u2 with h | ⟨h, hn⟩ <;> rcases u3 t t1 t2 with k | ⟨k, kn⟩
  · omega
  · omega
  · omega
  · exact names t t1 u u1 (le_antisymm hn kn)

/-- C93.  The table meant in a cell does not depend on the order in which the tables
are met. -/
theorem containing_order {ts us : List Table} (hp : ∀ t, t ∈ ts ↔ t ∈ us) (names : ∀ a ∈ ts, ∀ b ∈ ts, a.name = b.name → a = b) (c : Cell) :
    containing ts c = containing us c := by
  cases h : containing ts c with
  | none =>
    rw [containing_none] at h
    rw [eq_comm, containing_none]
    exact fun u hu => h u ((hp u).2 hu)
  | some t =>
    cases k : containing us c with
    | none =>
      rw [containing_none] at k
      obtain ⟨h1, h2, _⟩ := containing_meant h
      rw [k t ((hp t).1 h1)] at h2
      cases h2
    | some u =>
      have ku := containing_meant k
      have : Meant ts c u := ⟨(hp u).2 ku.1, ku.2.1, fun x hx => ku.2.2 x ((hp x).1 hx)⟩
      rw [Meant.unique names (containing_meant h) this]

/-! ### The current row -/

/-- The column of the current row, `[@Column]` or `[[#This Row],[Column]]` or the
same in the other order. -/
inductive RowOf : Spec → Str → Prop
  | first {n : Str} : RowOf (.combo [.item .thisRow, .column n]) n
  | second {n : Str} : RowOf (.combo [.column n, .item .thisRow]) n

/-- C93.  A reference to a column of the current row becomes the cell in the row of
the formula and that column of the table meant, just when the formula stands below
the header of a table that has the column. -/
theorem this_row {fold : Str → Str} {ts : List Table} {at_ : Cell} {x : Spec} {n : Str} (hx : RowOf x n) (target : Cell) :
    rewriteRow fold ts at_ (some x) = .ok target ↔
      ∃ t i, containing ts at_ = some t ∧ ¬t.IsHeader at_.row ∧ t.Named (SameFold fold) n i ∧
        target = ⟨at_.sheet, at_.row, t.c0 + i⟩ := by
  have hc : rowColumn (some x) = .ok n := by cases hx <;> rfl
  unfold rewriteRow
  simp only [hc]
  cases h : containing ts at_ with
  | none => simp
  | some t =>
    simp only
    by_cases hh : t.header = true ∧ at_.row = t.r0
    · rw [if_pos hh]
      constructor
      · intro h; cases h
      · rintro ⟨u, i, hu, hn, _⟩
        cases hu
        exact absurd hh hn
    · rw [if_neg hh]
      cases hi : t.index fold n with
      | none =>
        constructor
        · intro h; cases h
        · rintro ⟨u, i, hu, _, hn, _⟩
          cases hu
          rw [index_spec.2 hn] at hi; cases hi
      | some i =>
        constructor
        · intro h
          cases h
          exact ⟨t, i, rfl, hh, index_spec.1 hi, rfl⟩
        · rintro ⟨u, j, hu, _, hn, e⟩
          cases hu
          rw [index_spec.2 hn] at hi
          cases hi
          rw [e]

theorem rowParts_ok {ps : List Spec} : ∀ {saw saw' : Bool} {col col' : Option Str}, rowParts ps saw col = .ok (saw', col') →
    (saw' = true → saw = true ∨ .item .thisRow ∈ ps) ∧
    (∀ n, col' = some n → (col = some n ∧ ∀ p ∈ ps, p = .item .thisRow) ∨
      (col = none ∧ ∃ a b, ps = a ++ .column n :: b ∧ ∀ p ∈ a ++ b, p = .item .thisRow)) := by
  induction ps with
  | nil =>
    intro saw saw' col col' h
    rw [rowParts] at h
    cases h
    exact ⟨fun h => .inl h, fun n h => .inl ⟨h, by simp⟩⟩
  | cons p ps ih =>
    intro saw saw' col col' h
    unfold rowParts at h
    split at h
    · rename_i e; cases e
    · rename_i ps' _ _ e
      cases e
      obtain ⟨h1, h2⟩ := ih h
      refine ⟨fun _ => .inr (by simp), fun n hn => ?_⟩
      rcases h2 n hn with ⟨k1, k2⟩ | ⟨k1, a, b, e, k2⟩
      · exact .inl ⟨k1, by simpa using k2⟩
      · exact .inr ⟨k1, .item .thisRow :: a, b, by rw [e]; rfl, by simpa using k2⟩
    · rename_i n _ _ e
      cases e
      obtain ⟨h1, h2⟩ := ih h
      refine ⟨fun hs => (h1 hs).imp_right fun k => by simp [k], fun m hm => ?_⟩
      rcases h2 m hm with ⟨k1, k2⟩ | ⟨k1, _⟩
      · cases k1
        exact .inr ⟨rfl, [], ps, rfl, by simpa using k2⟩
      · cases k1
    · cases h

/-- C93.  Nothing else stands for a cell: the current row must be asked for, with one
column and nothing besides. -/
theorem this_row_only {fold : Str → Str} {ts : List Table} {at_ : Cell} {x : Option Spec} {target : Cell}
    (h : rewriteRow fold ts at_ x = .ok target) :
    ∃ a b n, x = some (.combo (a ++ .column n :: b)) ∧ (a ++ b ≠ [] ∧ ∀ p ∈ a ++ b, p = .item .thisRow) := by
  unfold rewriteRow at h
  split at h
  · cases h
  · rename_i n hc
    unfold rowColumn at hc
    split at hc
    · rename_i ps
      split at hc
      · rename_i m hp
        cases hc
        obtain ⟨h1, h2⟩ := rowParts_ok hp
        rcases h2 n rfl with ⟨k, _⟩ | ⟨_, a, b, e, k⟩
        · cases k
        · refine ⟨a, b, n, by rw [e], ?_, k⟩
          intro hn
          obtain ⟨rfl, rfl⟩ := List.append_eq_nil_iff.1 hn
          rcases h1 rfl with h1 | h1
          · cases h1
          · rw [e] at h1; simp at h1
      · cases hc
      · cases hc
    · cases hc

/-- C93.  A table holds the cells of its rectangle on its own sheet only. -/
theorem holds_iff (t : Table) (c : Cell) :
    t.holds c = true ↔ t.sheet = c.sheet ∧ t.r0 ≤ c.row ∧ c.row ≤ t.r1 ∧ t.c0 ≤ c.col ∧ c.col ≤ t.c1 := by
  unfold Table.holds
  simp only [Bool.and_eq_true, decide_eq_true_eq]
  tauto

/-- C93.  The cell is in the formula's row, on its sheet, and in the table if every
header has its column. -/
theorem this_row_inside {fold : Str → Str} {ts : List Table} {at_ : Cell} {x : Spec} {n : Str} (hx : RowOf x n) {target : Cell}
    (h : rewriteRow fold ts at_ (some x) = .ok target) (hw : ∀ t ∈ ts, t.c0 + t.headers.length ≤ t.c1 + 1) :
    target.sheet = at_.sheet ∧ target.row = at_.row ∧ ∃ t ∈ ts, t.holds at_ = true ∧ t.holds target = true := by
  obtain ⟨t, i, h1, _, ⟨⟨hd, h3, _⟩, _⟩, rfl⟩ := (this_row hx target).1 h
  obtain ⟨m1, m2, _⟩ := containing_meant h1
  refine ⟨rfl, rfl, t, m1, m2, ?_⟩
  have hl : i < t.headers.length := (List.getElem?_eq_some_iff.1 h3).1
  have := hw t m1
  unfold Table.holds at m2 ⊢
  simp only [Bool.and_eq_true, decide_eq_true_eq] at m2 ⊢
  omega

/-- C93 refuted: in the row of totals the inspection reports nothing, though the
formula reads the cell of the totals. -/
theorem totals_row_differs :
    rewriteRow asciiLower [⟨['T'], 0, 0, 0, 3, 1, true, [['a'], ['b']], true⟩] ⟨0, 3, 1⟩ (some (.combo [.item .thisRow, .column ['a']])) = .ok ⟨0, 3, 0⟩ ∧
    inspectArea ⟨['T'], 0, 0, 0, 3, 1, true, [['a'], ['b']], true⟩ 4 (some (.combo [.item .thisRow, .column ['a']])) = none := by
  decide +kernel

/-- C93 refuted: a column of the current row cannot be read by the name of the
table, although the reference is in the table. -/
theorem named_row_unread (fold : Str → Str) (t : Table) (n : Str) :
    evalArea fold t (some (.combo [.item .thisRow, .column n])) = .error .nimpl := rfl

/-! ### Names -/

/-- Every name in use leads to its table, and to no other. -/
structure Book.Good (fold : Str → Str) (b : Book) : Prop where
  named : ∀ k t, b.tables k = some t → t.name = k ∧ k ≠ []
  found : ∀ k t, b.tables k = some t → b.lookup (b.key fold k) = some k
  used : ∀ k n, b.lookup k = some n → b.key fold n = k ∧ b.tables n ≠ none

theorem Good.empty (fold : Str → Str) (s : Bool) : (Book.empty s).Good fold :=
  ⟨by simp [Book.empty], by simp [Book.empty], by simp [Book.empty]⟩

theorem key_of (fold : Str → Str) (b : Book) (f : Str → Option Table) (g : Str → Option Str) (n : Str) :
    ({ b with tables := f, lookup := g } : Book).key fold n = b.key fold n := rfl

theorem define_good {fold : Str → Str} {b b' : Book} (h : b.Good fold) {t : Table} (e : b.define fold t = .ok b') :
    b'.Good fold ∧ b'.sensitive = b.sensitive := by
  unfold Book.define at e
  split at e
  · cases e
  · rename_i hne
    split at e
    · cases e
    · rename_i hl
      cases e
      refine ⟨⟨?_, ?_, ?_⟩, rfl⟩
      · intro k u hk
        simp only [put] at hk
        split at hk
        · rename_i ek; cases hk; exact ⟨ek.symm, by rw [ek]; exact hne⟩
        · exact h.named k u hk
      · intro k u hk
        simp only [put, key_of] at hk ⊢
        split at hk
        · rename_i ek; rw [ek]; simp
        · have := h.found k u hk
          have ek : b.key fold k ≠ b.key fold t.name := fun ek => by rw [ek, hl] at this; cases this
          exact (if_neg ek).trans this
      · intro k n hk
        simp only [put, key_of] at hk ⊢
        split at hk
        · rename_i ek; cases hk; exact ⟨ek.symm, by simp⟩
        · obtain ⟨h1, h2⟩ := h.used k n hk
          refine ⟨h1, ?_⟩
          split
          · simp
          · exact h2

theorem update_good {fold : Str → Str} {b b' : Book} (h : b.Good fold) {t : Table} (e : b.update fold t = .ok b') :
    b'.Good fold ∧ b'.sensitive = b.sensitive := by
  unfold Book.update at e
  split at e
  · cases e
  · rename_i canon hl
    split at e
    · cases e
    · rename_i old ho
      cases e
      obtain ⟨hn, hne⟩ := h.named canon old ho
      refine ⟨⟨?_, ?_, ?_⟩, rfl⟩
      · intro k u hk
        simp only [put] at hk
        split at hk
        · rename_i ek; cases hk; rw [ek]; exact ⟨hn, hne⟩
        · exact h.named k u hk
      · intro k u hk
        simp only [put] at hk
        split at hk
        · rename_i ek; rw [ek]; exact h.found canon old ho
        · exact h.found k u hk
      · intro k n hk
        obtain ⟨h1, h2⟩ := h.used k n hk
        refine ⟨h1, ?_⟩
        simp only [put]
        split
        · simp
        · exact h2

theorem delete_good {fold : Str → Str} {b b' : Book} (h : b.Good fold) {n : Str} (e : b.delete fold n = .ok b') :
    b'.Good fold ∧ b'.sensitive = b.sensitive := by
  unfold Book.delete at e
  split at e
  · cases e
  · rename_i canon hl
    split at e
    · cases e
    · rename_i old ho
      cases e
      refine ⟨⟨?_, ?_, ?_⟩, rfl⟩
      · intro k u hk
        simp only [put] at hk
        split at hk
        · cases hk
        · exact h.named k u hk
      · intro k u hk
        simp only [put, key_of] at hk ⊢
        split at hk
        · cases hk
        · rename_i hne
          have hf := h.found k u hk
          have hc := h.found canon old ho
          have ek : b.key fold k ≠ b.key fold canon := fun ek => by
            rw [ek, hc] at hf; exact absurd (Option.some.inj hf).symm hne
          exact (if_neg ek).trans hf
      · intro k m hk
        simp only [put, key_of] at hk ⊢
        split at hk
        · cases hk
        · rename_i hne
          obtain ⟨h1, h2⟩ := h.used k m hk
          refine ⟨h1, ?_⟩
          split
          · rename_i em
            subst em
            exact absurd h1.symm hne
          · exact h2

theorem step_good {fold : Str → Str} {b : Book} (h : b.Good fold) (o : Op) : (b.step fold o).Good fold ∧ (b.step fold o).sensitive = b.sensitive := by
  unfold Book.step
  split
  · rename_i b' e
    cases o with
    | define t => exact define_good h e
    | update t => exact update_good h e
    | delete n => exact delete_good h e
  · exact ⟨h, rfl⟩

/-- The tables after some calls. -/
def Book.run (fold : Str → Str) (b : Book) (os : List Op) : Book := os.foldl (Book.step fold) b

theorem run_good {fold : Str → Str} (os : List Op) : ∀ {b : Book}, b.Good fold → (b.run fold os).Good fold ∧ (b.run fold os).sensitive = b.sensitive := by
  induction os with
  | nil => exact fun h => ⟨h, rfl⟩
  | cons o os ih =>
    intro b h
    obtain ⟨h1, h2⟩ := step_good h o
    obtain ⟨h3, h4⟩ := ih h1
    exact ⟨h3, h4.trans h2⟩

/-- Two names are the same for the workbook. -/
def SameName (fold : Str → Str) (sensitive : Bool) (m n : Str) : Prop := if sensitive then m = n else fold m = fold n

/-- C93.  After any calls a name leads to a table just when it is the same as the
table's own name; there is never more than one such table. -/
theorem resolves {fold : Str → Str} (s : Bool) (os : List Op) (n : Str) (t : Table) :
    ((Book.empty s).run fold os).resolve fold n = some t ↔
      ((Book.empty s).run fold os).tables t.name = some t ∧ SameName fold s n t.name := by
  obtain ⟨h, hs⟩ := run_good os (Good.empty fold s)
  generalize (Book.empty s).run fold os = b at h hs
  have hs : b.sensitive = s := hs
  unfold Book.resolve SameName
  cases hb : b.sensitive with
  | true =>
    rw [← hs, hb]
    simp only [if_true]
    constructor
    · intro ht
      have := (h.named n t ht).1
      exact ⟨by rw [this]; exact ht, this.symm⟩
    · rintro ⟨h1, h2⟩
      rw [h2]; exact h1
  | false =>
    rw [← hs, hb]
    simp only [Bool.false_eq_true, if_false, Book.key, hb]
    constructor
    · intro ht
      obtain ⟨c, hc, ht⟩ := Option.bind_eq_some_iff.1 ht
      have e := (h.named c t ht).1
      have := (h.used _ _ hc).1
      simp only [Book.key, hb, Bool.false_eq_true, if_false] at this
      rw [e]
      exact ⟨ht, this.symm⟩
    · rintro ⟨h1, h2⟩
      have := h.found _ _ h1
      simp only [Book.key, hb, Bool.false_eq_true, if_false] at this
      rw [h2, this]
      exact h1

/-- C93.  No two tables have the same name. -/
theorem names_differ {fold : Str → Str} (s : Bool) (os : List Op) {t u : Table}
    (ht : ((Book.empty s).run fold os).tables t.name = some t) (hu : ((Book.empty s).run fold os).tables u.name = some u)
    (h : SameName fold s t.name u.name) : t = u := by
  have h1 := (resolves s os t.name u).2 ⟨hu, h⟩
  have h2 := (resolves (fold := fold) s os t.name t).2 ⟨ht, by unfold SameName; cases s <;> simp⟩
  rw [h1] at h2
  exact (Option.some.inj h2).symm

/-- C93.  A table that was defined is found by its name; a table of the same name is
refused while it is there, and it is not found when it is deleted. -/
theorem define_found {fold : Str → Str} (s : Bool) (os : List Op) (t : Table) (n : Str) (hn : SameName fold s n t.name) :
    let b := (Book.empty s).run fold os
    (t.name ≠ [] → b.resolve fold n = none → ∃ b', b.define fold t = .ok b' ∧ b'.resolve fold n = some t) ∧
    (b.resolve fold n ≠ none → b.define fold t = .error .name ∧ ∃ b', b.delete fold n = .ok b' ∧ b'.resolve fold n = none) := by
  obtain ⟨h, hs⟩ := run_good os (Good.empty fold s)
  intro b
  have hg : b.Good fold := h
  have hs : b.sensitive = s := hs
  generalize b = b at hg hs
  have key : b.key fold n = b.key fold t.name := by
    unfold Book.key
    unfold SameName at hn
    rw [hs]
    cases s <;> simpa using hn
  have res : ∀ b : Book, b.Good fold → b.resolve fold n = (b.lookup (b.key fold n)).bind b.tables := by
    intro b hg
    unfold Book.resolve
    cases hb : b.sensitive with
    | false => simp
    | true =>
      simp only [if_true, Book.key, hb]
      cases hl : b.lookup n with
      | none =>
        cases ht : b.tables n with
        | none => rfl
        | some u =>
          have := hg.found n u ht
          simp only [Book.key, hb, if_true, hl] at this
          cases this
      | some m =>
        have := (hg.used n m hl).1
        simp only [Book.key, hb, if_true] at this
        rw [this]; rfl
  constructor
  · intro hne hr
    rw [res b hg] at hr
    have hl : b.lookup (b.key fold t.name) = none := by
      rw [← key]
      cases hl : b.lookup (b.key fold n) with
      | none => rfl
      | some m =>
        rw [hl] at hr
        exact absurd hr (hg.used _ _ hl).2
    have hd : b.define fold t = .ok { b with tables := put b.tables t.name (some t), lookup := put b.lookup (b.key fold t.name) (some t.name) } := by
      unfold Book.define
      rw [if_neg hne, hl]
    refine ⟨_, hd, ?_⟩
    rw [res _ (define_good hg hd).1]
    have k' : ({ b with tables := put b.tables t.name (some t), lookup := put b.lookup (b.key fold t.name) (some t.name) } : Book).key fold n = b.key fold t.name := key
    rw [k']
    simp [put]
  · intro hr
    rw [res b hg] at hr
    cases hl : b.lookup (b.key fold n) with
    | none => rw [hl] at hr; exact absurd rfl hr
    | some m =>
      cases hm : b.tables m with
      | none => exact absurd hm (hg.used _ _ hl).2
      | some u =>
        constructor
        · unfold Book.define
          split
          · rfl
          · rw [← key, hl]
        · have hd : b.delete fold n = .ok { b with tables := put b.tables m none, lookup := put b.lookup (b.key fold m) none } := by
            unfold Book.delete
            simp only [hl, hm]
          refine ⟨_, hd, ?_⟩
          rw [res _ (delete_good hg hd).1]
          have k' : ({ b with tables := put b.tables m none, lookup := put b.lookup (b.key fold m) none } : Book).key fold n = b.key fold m := ((hg.used _ _ hl).1).symm
          rw [k']
          simp [put]

/-- C93.  An update changes the range and the headers of the table of that name and
no other table. -/
theorem update_found {fold : Str → Str} (s : Bool) (os : List Op) (t u : Table)
    (h : ((Book.empty s).run fold os).resolve fold t.name = some u) :
    ∃ b', ((Book.empty s).run fold os).update fold t = .ok b' ∧ b'.resolve fold t.name = some { t with name := u.name } ∧
      ∀ k, k ≠ u.name → b'.tables k = ((Book.empty s).run fold os).tables k := by
  obtain ⟨hu, hn⟩ := (resolves s os t.name u).1 h
  obtain ⟨hg, hs⟩ := run_good os (Good.empty fold s)
  generalize (Book.empty s).run fold os = b at h hu hg hs
  have hs : b.sensitive = s := hs
  have key : b.key fold t.name = b.key fold u.name := by
    unfold Book.key
    unfold SameName at hn
    rw [hs]
    cases s <;> simpa using hn
  have hl := hg.found _ _ hu
  rw [← key] at hl
  have hd : b.update fold t = .ok { b with tables := put b.tables u.name (some { t with name := u.name }) } := by
    unfold Book.update
    simp only [hl, hu]
  refine ⟨_, hd, ?_, ?_⟩
  · unfold Book.resolve
    cases hb : b.sensitive with
    | true =>
      have : t.name = u.name := by
        unfold SameName at hn
        rw [← hs, hb] at hn
        simpa using hn
      simp [put, this]
    | false =>
      simp only [Bool.false_eq_true, if_false]
      have k' : ({ b with tables := put b.tables u.name (some { t with name := u.name }) } : Book).key fold t.name = b.key fold t.name := rfl
      rw [hb] at k'
      rw [k', hl]
      simp [put]
  · intro k hk
    simp [put, hk]

/-! ### Examples -/

example : Meant [⟨['B'], 0, 0, 0, 9, 9, true, [], false⟩, ⟨['A'], 0, 2, 2, 4, 3, true, [], false⟩] ⟨0, 3, 3⟩ ⟨['A'], 0, 2, 2, 4, 3, true, [], false⟩ :=
  containing_meant (by decide +kernel)

example : rewriteRow asciiLower [⟨['T'], 0, 2, 1, 5, 3, true, [['A'], ['B'], ['C']], false⟩] ⟨0, 4, 3⟩ (some (.combo [.item .thisRow, .column ['b']])) = .ok ⟨0, 4, 2⟩ := by
  decide +kernel

example : ((Book.empty false).run asciiLower [.define ⟨['T'], 0, 2, 1, 5, 3, true, [], false⟩, .define ⟨['t'], 0, 9, 9, 9, 9, true, [], false⟩]).resolve asciiLower ['t'] =
    some ⟨['T'], 0, 2, 1, 5, 3, true, [], false⟩ := by decide +kernel

end Verif.Tables
