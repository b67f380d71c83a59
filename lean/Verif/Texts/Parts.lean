import Verif.Texts.Places

/-!
# Functions that cut a text at a delimiter
-/

namespace Verif.Texts

/-! ### The parts of a text -/

/-- The parts of `s` between the places of `d`, from left to right without overlaps; characters are compared after `f`. -/
inductive Splits (f : Char → Char) (d : Str) : Str → List Str → Prop where
  | last {s : Str} : (∀ i, ¬ At (d.map f) (s.map f) i) → Splits f d s [s]
  | cut {a e b : Str} {ps : List Str} : e.map f = d.map f → (∀ i < a.length, ¬ At (d.map f) ((a ++ e ++ b).map f) i) → Splits f d b ps → Splits f d (a ++ e ++ b) (a :: ps)

theorem at_succ (d : Str) (c : Char) (s : Str) (i : Nat) : At d (c :: s) (i + 1) ↔ At d s i := Iff.rfl

theorem cutAt_some {d s a b : Str} (h : cutAt d s = some (a, b)) : s = a ++ d ++ b ∧ ∀ i < a.length, ¬ At d s i := by
  induction s generalizing a b with
  | nil =>
    rw [cutAt] at h
    split at h
    · rename_i hd
      cases h
      exact ⟨by simp [hd], fun i hi => by simp at hi⟩
    · cases h
  | cons c s ih =>
    rw [cutAt] at h
    split at h
    · rename_i hd
      cases h
      refine ⟨?_, fun i hi => by simp at hi⟩
      conv => lhs; rw [← List.take_append_drop d.length (c :: s), hd]
      rfl
    · rename_i hd
      cases hc : cutAt d s with
      | none =>
        rw [hc] at h
        cases h
      | some x =>
        obtain ⟨a', b'⟩ := x
        rw [hc] at h
        cases h
        obtain ⟨h1, h2⟩ := ih hc
        refine ⟨by simp [h1], fun i hi => ?_⟩
        cases i with
        | zero => exact fun h0 => hd ((at_iff ..).2 h0)
        | succ i => exact h2 i (by simpa using hi)

theorem cutAt_none {d s : Str} (h : cutAt d s = none) : ∀ i, ¬ At d s i := by
  induction s with
  | nil =>
    rw [cutAt] at h
    split at h
    · cases h
    · rename_i hd
      intro i hi
      unfold At at hi
      rw [List.drop_nil] at hi
      exact hd (List.prefix_nil.1 hi)
  | cons c s ih =>
    rw [cutAt] at h
    split at h
    · cases h
    · rename_i hd
      intro i
      cases i with
      | zero => exact fun h0 => hd ((at_iff ..).2 h0)
      | succ i => exact ih (by simpa using h) i

theorem at_append (a d b : Str) : At d (a ++ d ++ b) a.length := by
  unfold At
  rw [List.append_assoc, List.drop_left]
  exact List.prefix_append ..

/-- The first place of `d`. -/
theorem cutAt_eq {d a b : Str} (h : ∀ i < a.length, ¬ At d (a ++ d ++ b) i) : cutAt d (a ++ d ++ b) = some (a, b) := by
  cases hc : cutAt d (a ++ d ++ b) with
  | none => exact absurd (at_append a d b) (cutAt_none hc _)
  | some x =>
    obtain ⟨a', b'⟩ := x
    obtain ⟨h1, h2⟩ := cutAt_some hc
    have hl : a.length = a'.length := by
      rcases Nat.lt_trichotomy a.length a'.length with hl | hl | hl
      · exact absurd (at_append a d b) (h2 _ hl)
      · exact hl
      · refine absurd ?_ (h _ hl)
        rw [h1]
        exact at_append a' d b'
    rw [List.append_assoc, List.append_assoc] at h1
    obtain ⟨rfl, h3⟩ := List.append_inj h1 hl
    rw [List.append_cancel_left h3]

theorem cutAt_eq_none {d s : Str} (h : ∀ i, ¬ At d s i) : cutAt d s = none := by
  cases hc : cutAt d s with
  | none => rfl
  | some x =>
    obtain ⟨h1, h2⟩ := cutAt_some (a := x.1) (b := x.2) hc
    refine absurd ?_ (h x.1.length)
    rw [h1]
    exact at_append ..

/-- A place found after `f` is a place of the text. -/
theorem map_cut {f : Char → Char} {s a b d : Str} (h : s.map f = a ++ d ++ b) : ∃ a' e b', s = a' ++ e ++ b' ∧ a'.map f = a ∧ e.map f = d ∧ b'.map f = b := by
  obtain ⟨x, b', rfl, hx, hb⟩ := List.map_eq_append_iff.1 h
  obtain ⟨a', e, rfl, ha, he⟩ := List.map_eq_append_iff.1 hx
  exact ⟨a', e, b', rfl, ha, he, hb⟩

/-- Every text has parts. -/
theorem splits_exists (f : Char → Char) {d : Str} (hd : d ≠ []) (s : Str) : ∃ ps, Splits f d s ps := by
  induction hn : s.length using Nat.strongRecOn generalizing s with
  | _ n ih =>
    subst hn
    cases hc : cutAt (d.map f) (s.map f) with
    | none => exact ⟨[s], .last (cutAt_none hc)⟩
    | some x =>
      obtain ⟨a, b⟩ := x
      obtain ⟨h1, h2⟩ := cutAt_some hc
      obtain ⟨a', e, b', rfl, rfl, he, rfl⟩ := map_cut h1
      have hl : e.length = d.length := by
        have := congrArg List.length he
        simpa using this
      have hp := List.length_pos_iff.2 hd
      obtain ⟨ps, hps⟩ := ih b'.length (by simp; omega) b' rfl
      exact ⟨a' :: ps, .cut he (fun i hi => h2 i (by simpa using hi)) hps⟩

/-- The parts are determined by the text and the delimiter. -/
theorem splits_unique {f : Char → Char} {d s : Str} {ps qs : List Str} (h : Splits f d s ps) (h' : Splits f d s qs) : ps = qs := by
  induction h generalizing qs with
  | last hno =>
    cases h' with
    | last => rfl
    | @cut a e b ps he _ _ =>
      refine absurd ?_ (hno a.length)
      rw [← he]
      have := at_append (a.map f) (e.map f) (b.map f)
      simpa using this
  | @cut a e b ps he hfst hrest ih =>
    generalize hs : a ++ e ++ b = s at h'
    cases h' with
    | last hno =>
      refine absurd ?_ (hno a.length)
      rw [← hs, ← he]
      have := at_append (a.map f) (e.map f) (b.map f)
      simpa using this
    | @cut a' e' b' ps' he' hfst' hrest' =>
      have hl : a.length = a'.length := by
        rcases Nat.lt_trichotomy a.length a'.length with hl | hl | hl
        · refine absurd ?_ (hfst' _ hl)
          rw [← hs, ← he]
          have := at_append (a.map f) (e.map f) (b.map f)
          simpa using this
        · exact hl
        · refine absurd ?_ (hfst _ hl)
          rw [hs, ← he']
          have := at_append (a'.map f) (e'.map f) (b'.map f)
          simpa using this
      have hle : e.length = e'.length := by
        have := congrArg List.length (he.trans he'.symm)
        simpa using this
      rw [List.append_assoc, List.append_assoc] at hs
      obtain ⟨rfl, h3⟩ := List.append_inj hs hl
      obtain ⟨rfl, rfl⟩ := List.append_inj h3 hle
      rw [ih hrest']

theorem splits_ne_nil {f : Char → Char} {d s : Str} {ps : List Str} (h : Splits f d s ps) : ps ≠ [] := by
  cases h <;> simp

theorem inter_one (d a : Str) : d.intercalate [a] = a := by simp [List.intercalate]

theorem inter_cons (d a : Str) {ps : List Str} (h : ps ≠ []) : d.intercalate (a :: ps) = a ++ d ++ d.intercalate ps := by
  cases ps with
  | nil => exact absurd rfl h
  | cons x ps => simp [List.intercalate, List.intersperse]

/-- The parts with the delimiter between them are the text. -/
theorem splits_join {d s : Str} {ps : List Str} (h : Splits id d s ps) : d.intercalate ps = s := by
  induction h with
  | last => exact inter_one ..
  | cut he _ hr ih =>
    simp only [List.map_id] at he
    rw [inter_cons _ _ (splits_ne_nil hr), ih, he]

theorem inter_take_drop (d : Str) {ps : List Str} {k : Nat} (h0 : 0 < k) (hk : k < ps.length) :
    d.intercalate ps = d.intercalate (ps.take k) ++ d ++ d.intercalate (ps.drop k) := by
  induction ps generalizing k with
  | nil => simp at hk
  | cons p ps ih =>
    have hps : ps ≠ [] := by
      rintro rfl
      simp at hk
      omega
    cases k with
    | zero => omega
    | succ k =>
      rw [inter_cons _ _ hps, List.take_succ_cons, List.drop_succ_cons]
      cases k with
      | zero => rw [List.take_zero, inter_one, List.drop_zero]
      | succ k =>
        have : ps.take (k + 1) ≠ [] := by simp [hps]
        rw [inter_cons _ _ this, ih (k := k + 1) (by omega) (by simpa using hk)]
        simp

/-! ### SUBSTITUTE -/

theorem replaceAll_eq {d s : Str} {ps : List Str} (hd : d ≠ []) (new : Str) (h : Splits id d s ps) {n : Nat} (hn : s.length < n) :
    replaceAll d new n s = new.intercalate ps := by
  induction h generalizing n with
  | last hno =>
    cases n with
    | zero => omega
    | succ n =>
      simp only [List.map_id] at hno
      rw [replaceAll, cutAt_eq_none hno, inter_one]
  | @cut a e b ps he hfst hr ih =>
    simp only [List.map_id] at he hfst
    subst he
    cases n with
    | zero => omega
    | succ n =>
      rw [replaceAll, cutAt_eq hfst]
      simp only
      have := List.length_pos_iff.2 hd
      rw [ih (by simp at hn; omega), inter_cons _ _ (splits_ne_nil hr)]

/-- `SUBSTITUTE` puts the new text between the parts. -/
theorem substitute_spec {d s : Str} {ps : List Str} (hd : d ≠ []) (h : Splits id d s ps) (new : Str) : substitute s d new none = .text (new.intercalate ps) := by
  unfold substitute
  rw [if_neg hd]
  exact congrArg _ (replaceAll_eq hd new h (Nat.lt_succ_self _))

/-- `SUBSTITUTE` of a text by itself. -/
theorem substitute_self (s : Str) (d : Str) : substitute s d d none = .text s := by
  by_cases hd : d = []
  · unfold substitute
    rw [if_pos hd]
  · obtain ⟨ps, hps⟩ := splits_exists id hd s
    rw [substitute_spec hd hps, splits_join hps]

theorem inter_length (d : Str) {ps : List Str} (h : ps ≠ []) : (d.intercalate ps).length = (ps.map List.length).sum + (ps.length - 1) * d.length := by
  induction ps with
  | nil => exact absurd rfl h
  | cons p ps ih =>
    cases ps with
    | nil => simp
    | cons x ps =>
      rw [inter_cons _ _ (by simp), List.length_append, List.length_append, ih (by simp)]
      simp only [List.map_cons, List.sum_cons, List.length_cons, Nat.add_sub_cancel, Nat.succ_mul]
      omega

/-- The usual way to count: `LEN(s) - LEN(SUBSTITUTE(s, d, ""))` is the number of places times the length of `d`. -/
theorem substitute_count {d s : Str} {ps : List Str} (hd : d ≠ []) (h : Splits id d s ps) :
    ∃ t, substitute s d [] none = .text t ∧ len s = len t + (ps.length - 1 : Nat) * len d := by
  refine ⟨_, substitute_spec hd h [], ?_⟩
  have hne := splits_ne_nil h
  have h1 := inter_length d hne
  have h2 := inter_length [] hne
  rw [splits_join h] at h1
  unfold len
  rw [h1, h2]
  simp

theorem replaceNth_eq {d s : Str} {ps : List Str} (hd : d ≠ []) (new text : Str) (h : Splits id d s ps) {n : Nat} (hn : s.length < n) {k : Nat} (hk : 1 ≤ k) (out : Str) :
    replaceNth d new text n k out s = if k < ps.length then out ++ d.intercalate (ps.take k) ++ new ++ d.intercalate (ps.drop k) else text := by
  induction h generalizing n k out with
  | last hno =>
    cases n with
    | zero => omega
    | succ n =>
      simp only [List.map_id] at hno
      rw [replaceNth, cutAt_eq_none hno, if_neg (by simp; omega)]
  | @cut a e b ps he hfst hr ih =>
    simp only [List.map_id] at he hfst
    subst he
    cases n with
    | zero => omega
    | succ n =>
      have hpos := List.length_pos_iff.2 hd
      have hpp := List.length_pos_iff.2 (splits_ne_nil hr)
      rw [replaceNth, cutAt_eq hfst]
      simp only
      by_cases h1 : k = 1
      · subst h1
        rw [if_pos rfl, if_pos (by simp; omega)]
        simp only [List.take_succ_cons, List.take_zero, inter_one, List.drop_succ_cons, List.drop_zero]
        have := splits_join hr
        rw [this]
      · rw [if_neg h1, ih (by simp at hn; omega) (by omega)]
        obtain ⟨j, rfl⟩ : ∃ j, k = j + 2 := ⟨k - 2, by omega⟩
        simp only [List.length_cons, List.take_succ_cons, List.drop_succ_cons, show j + 2 - 1 = j + 1 by omega]
        by_cases hlt : j + 1 < ps.length
        · rw [if_pos hlt, if_pos (by omega)]
          have e1 : e.intercalate (a :: ps.take (j + 1)) = a ++ e ++ e.intercalate (ps.take (j + 1)) := inter_cons _ _ (by simp [splits_ne_nil hr])
          rw [e1]
          simp
        · rw [if_neg hlt, if_neg (by omega)]

/-- `SUBSTITUTE` with a number replaces that place only, and nothing if there are fewer. -/
theorem substitute_nth {d s : Str} {ps : List Str} (hd : d ≠ []) (h : Splits id d s ps) (new : Str) {k : Nat} (hk : 1 ≤ k) :
    substitute s d new (some k) = .text (if k < ps.length then d.intercalate (ps.take k) ++ new ++ d.intercalate (ps.drop k) else s) := by
  unfold substitute
  rw [if_neg hd]
  simp only
  rw [if_neg (by omega), replaceNth_eq hd new s h (Nat.lt_succ_self _) (by omega)]
  simp

/-! ### TEXTBEFORE and TEXTAFTER -/

theorem matches_eq {d s : Str} {ps : List Str} (hd : d ≠ []) (h : Splits id d s ps) {n : Nat} (hn : s.length < n) (i : Nat) :
    (matches_ d n i s).length = ps.length - 1 ∧ ∀ k, k + 1 < ps.length → (matches_ d n i s)[k]? = some (i + (d.intercalate (ps.take (k + 1))).length) := by
  induction h generalizing n i with
  | last hno =>
    cases n with
    | zero => omega
    | succ n =>
      simp only [List.map_id] at hno
      rw [matches_, cutAt_eq_none hno]
      exact ⟨rfl, fun k hk => by simp at hk⟩
  | @cut a e b ps he hfst hr ih =>
    simp only [List.map_id] at he hfst
    subst he
    cases n with
    | zero => omega
    | succ n =>
      have hpos := List.length_pos_iff.2 hd
      have hpp := List.length_pos_iff.2 (splits_ne_nil hr)
      rw [matches_, cutAt_eq hfst]
      simp only
      obtain ⟨h1, h2⟩ := ih (n := n) (by simp at hn; omega) (i + a.length + e.length)
      refine ⟨by simp [h1]; omega, ?_⟩
      intro k hk
      cases k with
      | zero => simp
      | succ k =>
        rw [List.getElem?_cons_succ, h2 k (by simpa using hk), List.take_succ_cons, inter_cons _ _ (by simp [splits_ne_nil hr])]
        simp
        omega

theorem cut_place {d s : Str} {ps : List Str} (h : Splits id d s ps) {k : Nat} (h0 : 0 < k) (hk : k < ps.length) :
    s.take (d.intercalate (ps.take k)).length = d.intercalate (ps.take k) ∧ s.drop ((d.intercalate (ps.take k)).length + d.length) = d.intercalate (ps.drop k) := by
  have e := inter_take_drop d h0 hk
  rw [splits_join h] at e
  constructor
  · conv => lhs; rw [e, List.append_assoc, List.take_left]
  · rw [← List.length_append]
    conv => lhs; rw [e, List.drop_left]

/-- The number of delimiters before the place that a number stands for. -/
def place (count : Nat) (k : Int) : Option Nat :=
  if 1 ≤ k ∧ k ≤ count then some k.toNat else if k ≤ -1 ∧ -(count : Int) ≤ k then some (count + 1 + k).toNat else none

theorem pick_eq {d s : Str} {ps : List Str} (hd : d ≠ []) (h : Splits id d s ps) {k : Int} (hk : k ≠ 0) :
    pick (matches_ d (s.length + 1) 0 s) k = (place (ps.length - 1) k).map fun j => (d.intercalate (ps.take j)).length := by
  obtain ⟨h1, h2⟩ := matches_eq hd h (Nat.lt_succ_self s.length) 0
  have hp := List.length_pos_iff.2 (splits_ne_nil h)
  generalize hm : matches_ d (s.length + 1) 0 s = ms at *
  unfold pick place
  by_cases hpos : k > 0
  · rw [if_pos hpos]
    by_cases hin : k ≤ (ps.length - 1 : Nat)
    · rw [if_pos ⟨by omega, hin⟩, h2 _ (by omega), show k.toNat - 1 + 1 = k.toNat by omega]
      simp
    · rw [if_neg (by omega), if_neg (by omega), List.getElem?_eq_none (by omega)]
      rfl
  · rw [if_neg hpos]
    by_cases hin : -((ps.length - 1 : Nat) : Int) ≤ k
    · rw [if_neg (by omega), if_neg (by omega), if_pos ⟨by omega, hin⟩, h2 _ (by omega), show ((ms.length : Int) + k).toNat + 1 = (((ps.length - 1 : Nat) : Int) + 1 + k).toNat by omega]
      simp
    · rw [if_pos (by omega), if_neg (by omega), if_neg (by omega)]
      rfl

theorem place_range {n : Nat} {k : Int} {j : Nat} (h : place n k = some j) : 0 < j ∧ j ≤ n := by
  unfold place at h
  split at h
  · cases h
    omega
  · split at h
    · cases h
      omega
    · cases h

/-- `TEXTBEFORE` with the number `k`: the parts before the `k`-th delimiter, from the right if `k` is negative. -/
theorem textbefore_spec {d s : Str} {ps : List Str} (hd : d ≠ []) (h : Splits id d s ps) {k : Int} (hk : k ≠ 0) :
    textbefore s d k = match place (ps.length - 1) k with
      | none => .na
      | some j => .text (d.intercalate (ps.take j)) := by
  unfold textbefore
  rw [if_neg hd, if_neg hk, pick_eq hd h hk]
  cases hp : place (ps.length - 1) k with
  | none => rfl
  | some j =>
    obtain ⟨h1, h2⟩ := place_range hp
    simp only [Option.map_some]
    rw [(cut_place h h1 (by omega)).1]

/-- `TEXTAFTER` with the number `k`: the parts behind the `k`-th delimiter, from the right if `k` is negative. -/
theorem textafter_spec {d s : Str} {ps : List Str} (hd : d ≠ []) (h : Splits id d s ps) {k : Int} (hk : k ≠ 0) :
    textafter s d k = match place (ps.length - 1) k with
      | none => .na
      | some j => .text (d.intercalate (ps.drop j)) := by
  unfold textafter
  rw [if_neg hd, if_neg hk, pick_eq hd h hk]
  cases hp : place (ps.length - 1) k with
  | none => rfl
  | some j =>
    obtain ⟨h1, h2⟩ := place_range hp
    simp only [Option.map_some]
    rw [(cut_place h h1 (by omega)).2]

/-- `TEXTBEFORE`, the delimiter and `TEXTAFTER` are the text; both are `#N/A` together. -/
theorem before_after (s d : Str) (k : Int) :
    (∃ a b, textbefore s d k = .text a ∧ textafter s d k = .text b ∧ s = a ++ d ++ b) ∨
      textbefore s d k = .na ∧ textafter s d k = .na ∨ (d = [] ∨ k = 0) ∧ textbefore s d k = .badValue ∧ textafter s d k = .badValue := by
  by_cases hd : d = []
  · unfold textbefore textafter
    rw [if_pos hd, if_pos hd]
    exact .inr (.inr ⟨.inl hd, rfl, rfl⟩)
  · by_cases hk : k = 0
    · unfold textbefore textafter
      rw [if_neg hd, if_pos hk, if_neg hd, if_pos hk]
      exact .inr (.inr ⟨.inr hk, rfl, rfl⟩)
    · obtain ⟨ps, h⟩ := splits_exists id hd s
      rw [textbefore_spec hd h hk, textafter_spec hd h hk]
      cases hp : place (ps.length - 1) k with
      | none => exact .inr (.inl ⟨rfl, rfl⟩)
      | some j =>
        obtain ⟨h1, h2⟩ := place_range hp
        refine .inl ⟨_, _, rfl, rfl, ?_⟩
        rw [← inter_take_drop d h1 (by omega), splits_join h]

example : textbefore "a-b-c".toList "-".toList (-1) = .text "a-b".toList ∧ textafter "a-b-c".toList "-".toList 1 = .text "b-c".toList ∧ textafter "a-b-c".toList "-".toList 3 = .na := by
  decide +kernel

example : Splits id "aa".toList "aaab".toList [[], "ab".toList] :=
  .cut (a := []) (e := "aa".toList) (b := "ab".toList) rfl (fun i hi => by simp at hi) (.last (cutAt_none (by decide +kernel)))

end Verif.Texts
