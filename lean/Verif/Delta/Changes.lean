import Verif.Delta.Props

/-!
# C99: every change is reported

Between recording and reporting stand the comparisons with the value that was read before.  No change is missed; but
cells are reported that did not change.
-/
namespace Verif.Delta

variable (flt : Int → Rat)

/-- Values as they are read: numbers are floats, errors have no message. -/
def Readable (s : Sheet) : Prop := ∀ c, stored flt (s c) = s c

theorem stored_stored (v : V) : stored flt (stored flt v) = stored flt v := by cases v <;> rfl

theorem lastOf_cons (w : Cell × V) (ws : List (Cell × V)) (c : Cell) :
    lastOf (w :: ws) c = match lastOf ws c with
      | some v => some v
      | none => if w.1 = c then some w.2 else none := by
  unfold lastOf
  rw [List.reverse_cons, List.find?_append]
  cases List.find? (fun w => decide (w.1 = c)) ws.reverse with
  | some x => simp
  | none => by_cases h : w.1 = c <;> simp [h]

theorem lastOf_mem {ws : List (Cell × V)} {c : Cell} {v : V} (h : lastOf ws c = some v) : (c, v) ∈ ws := by
  unfold lastOf at h
  cases hf : ws.reverse.find? fun w => w.1 = c with
  | none => rw [hf] at h; cases h
  | some x =>
    rw [hf] at h
    simp only [Option.map_some, Option.some.injEq] at h
    have h1 := List.mem_of_find?_eq_some hf
    have h2 := List.find?_some hf
    simp only [decide_eq_true_eq] at h2
    subst h h2
    exact List.mem_reverse.1 h1

theorem lastOf_none {ws : List (Cell × V)} {c : Cell} (h : lastOf ws c = none) : c ∉ ws.map (·.1) := by
  unfold lastOf at h
  simp only [Option.map_eq_none_iff, List.find?_eq_none, List.mem_reverse, decide_eq_true_eq] at h
  intro hc
  obtain ⟨w, hw, e⟩ := List.mem_map.1 hc
  exact h w hw e

/-- Of many writes the last to a cell stays; the other cells stay as they are. -/
theorem putAll_spec : ∀ (ws : List (Cell × V)) (s : Sheet) (c : Cell),
    putAll flt s ws c = match lastOf ws c with
      | some v => stored flt v
      | none => s c
  | [], _, _ => rfl
  | w :: ws, s, c => by
    have ih := putAll_spec ws (put flt s w.1 w.2) c
    have : putAll flt s (w :: ws) = putAll flt (put flt s w.1 w.2) ws := rfl
    rw [this, ih, lastOf_cons]
    cases lastOf ws c with
    | some v => rfl
    | none =>
      by_cases h : w.1 = c
      · simp [put, h]
      · simp [put, h, Ne.symm h]

theorem putAll_readable (ws : List (Cell × V)) (s : Sheet) (h : Readable flt s) : Readable flt (putAll flt s ws) := by
  intro c
  rw [putAll_spec]
  cases lastOf ws c with
  | some v => exact stored_stored flt v
  | none => exact h c

theorem put_eq_putAll (s : Sheet) (c : Cell) (v : V) : put flt s c v = putAll flt s [(c, v)] := rfl

theorem act_readable (a : Act) (s : Sheet) (h : Readable flt s) : Readable flt (act flt s a) := by
  cases a with
  | write c v => exact putAll_readable flt [(c, v)] s h
  | clear cells => exact putAll_readable flt _ s h
  | commit prev targets => exact putAll_readable flt _ _ (putAll_readable flt _ s h)
  | flush ws => exact putAll_readable flt _ s h

theorem act_reported (a : Act) (s : Sheet) (h : Readable flt s) (c : Cell) (hc : act flt s a c ≠ s c) :
    c ∈ recorded flt s a := by
  cases a with
  | write d v =>
    simp only [act, put, ne_eq] at hc
    by_cases hcd : c = d
    · subst hcd
      rw [if_pos rfl] at hc
      have : s c ≠ v := fun e => hc (by rw [← e]; exact h c)
      simp [recorded, this]
    · rw [if_neg hcd] at hc
      exact absurd rfl hc
  | clear cells =>
    simp only [act, putAll_spec] at hc
    cases hl : lastOf (cells.map fun c => (c, V.empty)) c with
    | none => rw [hl] at hc; exact absurd rfl hc
    | some v =>
      obtain ⟨d, hd, e⟩ := List.mem_map.1 (lastOf_mem hl)
      injection e with e1 e2
      subst e1 e2
      rw [hl] at hc
      simp only [recorded, List.mem_filter, decide_eq_true_eq]
      exact ⟨hd, fun e => hc e.symm⟩
  | commit prev targets =>
    simp only [act, putAll_spec] at hc
    simp only [recorded, List.mem_append]
    cases hl : lastOf targets c with
    | some v =>
      rw [hl] at hc
      right
      have : s c ≠ v := fun e => hc (by simp only; rw [← e]; exact h c)
      exact List.mem_map.2 ⟨(c, v), List.mem_filter.2 ⟨lastOf_mem hl, by simpa using this⟩, rfl⟩
    | none =>
      rw [hl] at hc
      left
      generalize hq : (prev.filter fun c => !(targets.map (·.1)).contains c).map (fun c => (c, V.empty)) = q at hc
      cases hl2 : lastOf q c with
      | none => rw [hl2] at hc; exact absurd rfl hc
      | some v =>
        rw [hl2] at hc
        have hm := lastOf_mem hl2
        rw [← hq] at hm
        obtain ⟨d, hd, e⟩ := List.mem_map.1 hm
        injection e with e1 e2
        subst e1 e2
        have hd' := List.mem_filter.1 hd
        exact List.mem_filter.2 ⟨hd'.1, by simp only [hd'.2, Bool.true_and, decide_eq_true_eq]; exact fun e => hc e.symm⟩
  | flush ws =>
    simp only [act, putAll_spec] at hc
    cases hl : lastOf ws c with
    | none => rw [hl] at hc; exact absurd rfl hc
    | some v =>
      rw [hl] at hc
      refine List.mem_filter.2 ⟨List.mem_map.2 ⟨_, lastOf_mem hl, rfl⟩, ?_⟩
      rw [hl]
      simp only [decide_eq_true_eq]
      exact fun e => hc e.symm

/-- **No change is missed**: over any run of results, spills and flushed writes, a cell that reads differently at the
end is among those recorded. -/
theorem changes_reported : ∀ (as : List Act) (s : Sheet), Readable flt s → ∀ c,
    (run flt s as).1 c ≠ s c → c ∈ (run flt s as).2
  | [], _, _, _, hc => absurd rfl hc
  | a :: as, s, h, c, hc => by
    simp only [run] at hc ⊢
    rw [List.mem_append]
    by_cases h1 : act flt s a c = s c
    · right
      exact changes_reported as _ (act_readable flt a s h) c (by rw [h1]; exact hc)
    · exact .inl (act_reported flt a s h c h1)

/-- **And it is in the list that is given out**: a cell that changed is in the report, packed. -/
theorem changes_listed (as : List Act) (s : Sheet) (h : Readable flt s) (limit : Option Nat) (ns : List Nat)
    (hx : expand limit (finishTarget false ((run flt s as).2.foldl (recordCell false) [])) = .cells ns)
    (c : Cell) (hc : (run flt s as).1 c ≠ s c) : ∃ n ∈ ns, pack c = some n := by
  have hm := changes_reported flt as s h c hc
  have hfold : ∀ (cs : List Cell) (l : List Rect), cs.foldl (recordCell false) l = l ++ cs.map single := by
    intro cs
    induction cs with
    | nil => simp
    | cons d cs ih => intro l; rw [List.foldl_cons, ih]; simp [recordCell, recordRegion, single]
  rw [hfold, List.nil_append] at hx
  have hv : ∀ r ∈ ((run flt s as).2.map single), r.Valid := by
    intro r hr
    obtain ⟨d, -, rfl⟩ := List.mem_map.1 hr
    exact single_valid d
  obtain ⟨-, h2, h3⟩ := cells_exact limit _ hv ns hx
  have hin : single c ∈ (run flt s as).2.map single := List.mem_map_of_mem hm
  have hb := h3 _ hin c ((single_has c c).2 rfl)
  have hp : pack c = some (c.row + c.col * 2 ^ 20 + c.sheet * 2 ^ 34) := by
    unfold pack
    rw [if_neg (by omega)]
  exact ⟨_, (h2 _).2 ⟨_, hin, c, (single_has c c).2 rfl, hp⟩, hp⟩

/-- The cells an act writes. -/
def Act.touches : Act → Cell → Prop
  | .write c _, d => d = c
  | .clear cells, d => d ∈ cells
  | .commit prev targets, d => d ∈ prev ∨ ∃ v, (d, v) ∈ targets
  | .flush ws, d => ∃ v, (d, v) ∈ ws

/-- **Only cells that were written are reported.** -/
theorem reported_touched : ∀ (as : List Act) (s : Sheet) (c : Cell), c ∈ (run flt s as).2 → ∃ a ∈ as, a.touches c
  | [], _, _, h => by simp [run] at h
  | a :: as, s, c, h => by
    simp only [run, List.mem_append] at h
    rcases h with h | h
    · refine ⟨a, by simp, ?_⟩
      cases a with
      | write d v =>
        simp only [recorded] at h
        split at h
        · simpa [Act.touches] using h
        · simp at h
      | clear cells => exact (List.mem_filter.1 h).1
      | commit prev targets =>
        simp only [recorded, List.mem_append] at h
        rcases h with h | h
        · exact .inl (List.mem_filter.1 h).1
        · obtain ⟨w, hw, e⟩ := List.mem_map.1 h
          subst e
          exact .inr ⟨w.2, (List.mem_filter.1 hw).1⟩
      | flush ws =>
        obtain ⟨w, hw, e⟩ := List.mem_map.1 (List.mem_filter.1 h).1
        subst e
        exact ⟨w.2, hw⟩
    · obtain ⟨b, hb, hc⟩ := reported_touched as _ c h
      exact ⟨b, by simp [hb], hc⟩

/-- **A flushed buffer is reported exactly**: a cell is recorded if and only if it reads differently after it, however
often it is written. -/
theorem flush_exact (s : Sheet) (ws : List (Cell × V)) (c : Cell) :
    c ∈ recorded flt s (.flush ws) ↔ act flt s (.flush ws) c ≠ s c := by
  simp only [act, putAll_spec, recorded, List.mem_filter]
  cases hl : lastOf ws c with
  | none => simp
  | some v =>
    simp only [decide_eq_true_eq]
    exact ⟨fun h e => h.2 e.symm, fun h => ⟨List.mem_map.2 ⟨_, lastOf_mem hl, rfl⟩, fun e => h e.symm⟩⟩

/-- **A result that is read back as it is given** (no integer, no error with a message) is reported exactly. -/
theorem write_exact (s : Sheet) (d : Cell) (v : V) (hv : stored flt v = v) (c : Cell) :
    c ∈ recorded flt s (.write d v) ↔ act flt s (.write d v) c ≠ s c := by
  simp only [recorded, act, put, hv]
  by_cases hcd : c = d
  · subst hcd
    by_cases h : s c = v
    · simp [h]
    · simp [h, Ne.symm h]
  · by_cases h : s d = v <;> simp [hcd, h]

/-- **A cleared spill is reported exactly.** -/
theorem clear_exact (s : Sheet) (cells : List Cell) (c : Cell) :
    c ∈ recorded flt s (.clear cells) ↔ act flt s (.clear cells) c ≠ s c := by
  simp only [recorded, act, putAll_spec, List.mem_filter, decide_eq_true_eq]
  cases hl : lastOf (cells.map fun c => (c, V.empty)) c with
  | none =>
    have := lastOf_none hl
    simp only [List.map_map, List.mem_map, Function.comp_apply, exists_eq_right] at this
    simp [this]
  | some v =>
    obtain ⟨d, hd, e⟩ := List.mem_map.1 (lastOf_mem hl)
    injection e with e1 e2
    subst e1 e2
    exact ⟨fun h e => h.2 e.symm, fun h => ⟨hd, fun e => h e.symm⟩⟩

/-- **Refuted: only cells that changed are reported.**  A result 1 given as an integer is reported again and again,
though the cell reads 1 before and after; so is an error with a message. -/
theorem unchanged_refuted :
    (∀ c (i : Int), let s := act flt (fun _ => .empty) (.write c (.int i))
      act flt s (.write c (.int i)) = s ∧ recorded flt s (.write c (.int i)) = [c]) ∧
    ∀ c (k : Nat) (m : List Char), m ≠ [] → let s := act flt (fun _ => .empty) (.write c (.err k m))
      act flt s (.write c (.err k m)) = s ∧ recorded flt s (.write c (.err k m)) = [c] := by
  refine ⟨fun c i => ⟨?_, ?_⟩, fun c k m hm => ⟨?_, ?_⟩⟩
  · funext d
    by_cases h : d = c <;> simp [act, put, h]
  · simp [recorded, act, put, stored]
  · funext d
    by_cases h : d = c <;> simp [act, put, h]
  · simp [recorded, act, put, stored, Ne.symm hm]

theorem putAll_same (s : Sheet) (ws : List (Cell × V)) (h : ∀ w ∈ ws, stored flt w.2 = s w.1) : putAll flt s ws = s := by
  funext c
  rw [putAll_spec]
  cases hl : lastOf ws c with
  | none => rfl
  | some v => exact h _ (lastOf_mem hl)

/-- **An array evaluated again is reported whole**: a formula whose array comes out as it was changes nothing, and yet
each of its cells that is not empty is recorded, for the spill is cleared before it is written again. -/
theorem array_again (s : Sheet) (hs : Readable flt s) (targets : List (Cell × V)) (anchor : Cell)
    (ha : (anchor, s anchor) ∈ targets) (hsame : ∀ w ∈ targets, w.2 = s w.1) :
    (run flt s (arrayActs (targets.map (·.1)) anchor (s anchor) targets)).1 = s ∧
      ∀ c, c ∈ targets.map (·.1) → s c ≠ .empty →
        c ∈ (run flt s (arrayActs (targets.map (·.1)) anchor (s anchor) targets)).2 := by
  have hne : targets.map (·.1) ≠ [] := by
    intro e
    rw [List.map_eq_nil_iff.1 e] at ha
    cases ha
  have hacts : arrayActs (targets.map (·.1)) anchor (s anchor) targets =
      [.clear (targets.map (·.1)), .commit [] targets, .write anchor (s anchor)] := by
    unfold arrayActs
    rw [if_neg hne]
    rfl
  rw [hacts]
  refine ⟨?_, fun c hc hx => ?_⟩
  · have h1 : act flt (act flt s (.clear (targets.map (·.1)))) (.commit [] targets) = s := by
      funext c
      simp only [act, List.filter_nil, List.map_nil]
      rw [putAll_spec]
      cases hl : lastOf targets c with
      | some v =>
        have := hsame _ (lastOf_mem hl)
        simp only at this
        rw [this]
        exact hs c
      | none =>
        have hnone := lastOf_none hl
        change putAll flt s ((targets.map (·.1)).map fun c => (c, V.empty)) c = s c
        rw [putAll_spec]
        cases hl2 : lastOf ((targets.map (·.1)).map fun c => (c, V.empty)) c with
        | none => rfl
        | some v =>
          obtain ⟨d, hd, e⟩ := List.mem_map.1 (lastOf_mem hl2)
          injection e with e1 e2
          subst e1
          exact absurd hd hnone
    simp only [run, h1]
    exact putAll_same flt s [(anchor, s anchor)] (by simpa using hs anchor)
  · simp only [run, List.mem_append]
    left
    exact List.mem_filter.2 ⟨hc, by simpa using hx⟩

example : Readable (fun i => (i : Rat)) (fun c => if c.row = 0 then .num 3 else .text ['x']) := by
  intro c; by_cases h : c.row = 0 <;> simp [h, stored]

example : (run (fun i => (i : Rat)) (fun _ => .empty)
    [.write ⟨0, 0, 0⟩ (.int 4), .commit [⟨0, 1, 0⟩] [(⟨0, 2, 0⟩, .num 1), (⟨0, 3, 0⟩, .empty)], .flush [(⟨0, 0, 0⟩, .num 5), (⟨0, 0, 0⟩, .num 4)]]).2 =
    [⟨0, 0, 0⟩, ⟨0, 2, 0⟩] := by decide +kernel

example : (run (fun i => (i : Rat)) (fun c => if c.row < 2 then .num 7 else .empty)
    (arrayActs [⟨0, 0, 0⟩, ⟨0, 1, 0⟩] ⟨0, 0, 0⟩ (.num 7) [(⟨0, 0, 0⟩, .num 7), (⟨0, 1, 0⟩, .num 7)])).2 =
    [⟨0, 0, 0⟩, ⟨0, 1, 0⟩, ⟨0, 0, 0⟩, ⟨0, 1, 0⟩] := by decide +kernel

end Verif.Delta
