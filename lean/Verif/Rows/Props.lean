import Verif.Rows.Bits

/-!
# Hidden rows over histories
-/

namespace Verif.Rows

/-! ### Specification -/

/-- Which rows of which sheet are hidden by which source. -/
abbrev Hid := Nat → Source → Nat → Bool

/-- What can happen to the hidden rows. -/
inductive Op
  | setRow (sheet r : Nat) (h : Bool) (src : Source)
  | setRows (sheet a b : Nat) (h : Bool) (src : Source)
  | insert (sheet before count : Nat)
  | delete (sheet start count : Nat)
  | removeSheet (sheet : Nat)
  | mask (limit sheet start last rows : Nat) (mode : Mode)

/-- The meaning of an operation. -/
def Hid.after (H : Hid) : Op → Hid
  | .setRow sheet r h src => fun s k q => if s = sheet ∧ k = src ∧ q = r then h else H s k q
  | .setRows sheet a b h src => fun s k q => if s = sheet ∧ k = src ∧ a ≤ q ∧ q ≤ b then h else H s k q
  | .insert sheet before count => fun s k q => if s = sheet then (if q < before then H s k q else if q < before + count then false else H s k (q - count)) else H s k q
  | .delete sheet start count => fun s k q => if s = sheet then (if q < start then H s k q else H s k (q + count)) else H s k q
  | .removeSheet sheet => fun s k q => if s = sheet then false else H s k q
  | .mask .. => H

/-- Rows are `u32` and stay so. -/
def Hid.fits (H : Hid) : Op → Prop
  | .setRow _ r _ _ => r ≤ maxU
  | .setRows _ _ b _ _ => b ≤ maxU
  | .insert sheet _ count => ∀ k q, H sheet k q = true → q + count ≤ maxU
  | _ => True

/-- All operations of a history. -/
def Hid.run (H : Hid) : List Op → Hid
  | [] => H
  | o :: os => (H.after o).run os

def Hid.fitsAll (H : Hid) : List Op → Prop
  | [] => True
  | o :: os => H.fits o ∧ (H.after o).fitsAll os

/-- The mask of some rows: true where the row is not hidden in the sense of the mode. -/
def Hid.mask (H : Hid) (sheet start last : Nat) (mode : Mode) : List Bool :=
  (rowsFromTo start last).map fun r => match mode with
    | .all => true
    | .noManual => !H sheet .manual r
    | .noFilter => !H sheet .filter r
    | .neither => !H sheet .manual r && !H sheet .filter r

/-! ### The engine -/

def Engine.apply (e : Engine) : Op → Engine
  | .setRow sheet r h src => e.setRow sheet r h src
  | .setRows sheet a b h src => e.setRows sheet a b h src
  | .insert sheet before count => e.insert sheet before count
  | .delete sheet start count => e.delete sheet start count
  | .removeSheet sheet => e.removeSheet sheet
  | .mask limit sheet start last rows mode => (e.mask limit sheet start last rows mode).1

def Engine.run (e : Engine) : List Op → Engine
  | [] => e
  | o :: os => (e.apply o).run os

theorem state_isEmpty (s : State) : s.isEmpty = true ↔ ∀ k r, s.hidden r k = false := by
  unfold State.isEmpty
  rw [Bool.and_eq_true, isEmpty_iff, isEmpty_iff]
  constructor
  · rintro ⟨h1, h2⟩ k r
    cases k
    · exact h1 r
    · exact h2 r
  · intro h
    exact ⟨fun r => h .manual r, fun r => h .filter r⟩

theorem default_hidden (k : Source) (r : Nat) : ({} : State).hidden r k = false := by cases k <;> exact get_nil r

theorem hidden_getD (e : Engine) (sheet : Nat) (k : Source) (r : Nat) : e.hidden sheet k r = ((e.states sheet).getD {}).hidden r k := by
  unfold Engine.hidden
  cases e.states sheet with
  | none => exact (default_hidden k r).symm
  | some s => rfl

/-- The entry of one sheet, with empty ones taken away. -/
theorem hidden_put (e : Engine) (c : List (Key × List Bool)) (sheet : Nat) (t : State) (s : Nat) (k : Source) (r : Nat) :
    Engine.hidden { states := e.put sheet (if t.isEmpty = true then none else some t), cache := c } s k r = if s = sheet then t.hidden r k else e.hidden s k r := by
  unfold Engine.hidden Engine.put
  simp only
  by_cases hs : s = sheet
  · rw [if_pos hs, if_pos hs]
    by_cases he : t.isEmpty = true
    · rw [if_pos he]
      exact ((state_isEmpty t).1 he k r).symm
    · rw [if_neg he]
  · rw [if_neg hs, if_neg hs]

theorem update_hidden (e : Engine) (sheet : Nat) (f : State → State × Bool) (s : Nat) (k : Source) (r : Nat) :
    (e.update sheet f).hidden s k r = if s = sheet then (f ((e.states sheet).getD {})).1.hidden r k else e.hidden s k r := hidden_put e _ sheet _ s k r

theorem setRow_hidden (e : Engine) (sheet r : Nat) (h : Bool) (src : Source) (s : Nat) (k : Source) (q : Nat) :
    (e.setRow sheet r h src).hidden s k q = if s = sheet ∧ k = src ∧ q = r then h else e.hidden s k q := by
  unfold Engine.setRow
  rw [update_hidden]
  by_cases hs : s = sheet
  · subst hs
    rw [if_pos rfl, hidden_getD]
    cases src <;> cases k <;> simp [State.setRow, State.hidden, (set_spec _ _ _).1]
  · rw [if_neg hs, if_neg (fun h => hs h.1)]

theorem setRows_hidden (e : Engine) (sheet a b : Nat) (h : Bool) (src : Source) (s : Nat) (k : Source) (q : Nat) :
    (e.setRows sheet a b h src).hidden s k q = if s = sheet ∧ k = src ∧ a ≤ q ∧ q ≤ b then h else e.hidden s k q := by
  unfold Engine.setRows
  rw [update_hidden]
  by_cases hs : s = sheet
  · subst hs
    rw [if_pos rfl, hidden_getD]
    cases src <;> cases k <;> simp [State.setRows, State.hidden, (setRange_spec _ _ _ _).1]
  · rw [if_neg hs, if_neg (fun h => hs h.1)]

theorem shift_hidden (e : Engine) (sheet count : Nat) (f : State → State × Bool) (hc : count ≠ 0) (hf : ∀ k r, (f {}).1.hidden r k = false) (s : Nat) (k : Source) (r : Nat) :
    (e.shift sheet count f).hidden s k r = if s = sheet then (f ((e.states sheet).getD {})).1.hidden r k else e.hidden s k r := by
  unfold Engine.shift
  rw [if_neg hc]
  cases he : e.states sheet with
  | none =>
    simp only [Option.getD_none]
    by_cases hs : s = sheet
    · subst hs
      rw [if_pos rfl, hf, hidden_getD, he]
      exact default_hidden k r
    · rw [if_neg hs]
  | some t =>
    simp only [Option.getD_some]
    exact hidden_put e _ sheet _ s k r

/-- What holds at all times: the rows are those of the specification, every kept mask is the one that would be made now, and no entry is empty. -/
structure Inv (e : Engine) (H : Hid) : Prop where
  rows : ∀ s k r, e.hidden s k r = H s k r
  bound : ∀ s k r, H s k r = true → r ≤ maxU
  cache : ∀ p ∈ e.cache, p.2 = e.fresh p.1
  full : ∀ s t, e.states s = some t → ∃ k r, H s k r = true

theorem fresh_congr {e e' : Engine} (h : ∀ s k r, e.hidden s k r = e'.hidden s k r) (k : Key) : e.fresh k = e'.fresh k := by
  unfold Engine.fresh
  simp only [h]

theorem full_put {e : Engine} {c : List (Key × List Bool)} {H H' : Hid} {sheet : Nat} {t : State} (hfull : ∀ s t, e.states s = some t → ∃ k r, H s k r = true) (hother : ∀ s, s ≠ sheet → ∀ k r, H' s k r = H s k r)
    (hrows : ∀ s k r, Engine.hidden { states := e.put sheet (if t.isEmpty = true then none else some t), cache := c } s k r = H' s k r) :
    ∀ s u, e.put sheet (if t.isEmpty = true then none else some t) s = some u → ∃ k r, H' s k r = true := by
  intro s u hu
  by_cases hs : s = sheet
  · subst hs
    unfold Engine.put at hu
    rw [if_pos rfl] at hu
    by_cases he : t.isEmpty = true
    · rw [if_pos he] at hu; cases hu
    · by_contra hno
      apply he
      rw [state_isEmpty]
      intro k r
      have h1 := hrows s k r
      rw [hidden_put, if_pos rfl] at h1
      rw [h1]
      by_contra h2
      exact hno ⟨k, r, by simpa using h2⟩
  · unfold Engine.put at hu
    rw [if_neg hs] at hu
    obtain ⟨k, r, h⟩ := hfull s u hu
    exact ⟨k, r, by rw [hother s hs]; exact h⟩

/-- Operations that change an entry keep the invariant if a change is always reported. -/
theorem inv_put {e : Engine} {H H' : Hid} (hi : Inv e H) {sheet : Nat} {t : State} {changed : Bool} (hrows : ∀ s k r, Engine.hidden { states := e.put sheet (if t.isEmpty = true then none else some t), cache := (if changed = true then [] else e.cache) } s k r = H' s k r)
    (hother : ∀ s, s ≠ sheet → ∀ k r, H' s k r = H s k r) (hbound : ∀ s k r, H' s k r = true → r ≤ maxU) (hch : changed = false → ∀ s k r, H' s k r = H s k r) :
    Inv { states := e.put sheet (if t.isEmpty = true then none else some t), cache := (if changed = true then [] else e.cache) } H' := by
  refine ⟨hrows, hbound, ?_, full_put hi.full hother hrows⟩
  intro p hp
  cases hc : changed with
  | true => subst hc; simp at hp
  | false =>
    subst hc
    simp only [Bool.false_eq_true, if_false] at hp
    rw [hi.cache p hp]
    apply fresh_congr
    intro s k r
    rw [hi.rows, hrows, hch rfl]

theorem changed_row {s : State} {r : Nat} {h : Bool} {src : Source} (hc : (s.setRow r h src).2 = false) (k : Source) (q : Nat) : (s.setRow r h src).1.hidden q k = s.hidden q k := by
  have key : ∀ ws : Words, (set ws r h).2 = false → ∀ q, get (set ws r h).1 q = get ws q := by
    intro ws hw q
    obtain ⟨h1, h2⟩ := set_spec ws r h
    rw [h1]
    split
    · rename_i hq
      rw [h2] at hw
      have : get ws r = h := by simpa using hw
      rw [hq, this]
    · rfl
  cases src <;> cases k <;> first | exact key _ hc q | rfl

theorem changed_rows {s : State} {a b : Nat} {h : Bool} {src : Source} (hc : (s.setRows a b h src).2 = false) (k : Source) (q : Nat) : (s.setRows a b h src).1.hidden q k = s.hidden q k := by
  cases src <;> cases k <;> first | exact (setRange_spec _ a b h).2 hc q | rfl

theorem inv_apply {e : Engine} {H : Hid} (hi : Inv e H) (o : Op) (hf : H.fits o) : Inv (e.apply o) (H.after o) := by
  have heq : ∀ sheet k r, ((e.states sheet).getD {}).hidden r k = H sheet k r := fun sheet k r => by rw [← hidden_getD, hi.rows]
  cases o with
  | setRow sheet r h src =>
    refine inv_put hi (t := (((e.states sheet).getD {}).setRow r h src).1) (changed := (((e.states sheet).getD {}).setRow r h src).2) ?_ ?_ ?_ ?_
    · intro s k q
      have := setRow_hidden e sheet r h src s k q
      rw [hi.rows] at this
      exact this
    · intro s hs k q
      exact if_neg fun h => hs h.1
    · intro s k q hq
      simp only [Hid.after] at hq
      split at hq
      · rename_i hx; have : r ≤ maxU := hf; omega
      · exact hi.bound s k q hq
    · intro hc s k q
      by_cases hs : s = sheet
      · subst hs
        have h1 := changed_row hc k q
        have h2 := setRow_hidden e s r h src s k q
        unfold Engine.setRow at h2
        rw [update_hidden, if_pos rfl, h1, heq, hi.rows] at h2
        exact h2.symm
      · exact if_neg fun h => hs h.1
  | setRows sheet a b h src =>
    refine inv_put hi (t := (((e.states sheet).getD {}).setRows a b h src).1) (changed := (((e.states sheet).getD {}).setRows a b h src).2) ?_ ?_ ?_ ?_
    · intro s k q
      have := setRows_hidden e sheet a b h src s k q
      rw [hi.rows] at this
      exact this
    · intro s hs k q
      exact if_neg fun h => hs h.1
    · intro s k q hq
      simp only [Hid.after] at hq
      split at hq
      · rename_i hx; have : b ≤ maxU := hf; omega
      · exact hi.bound s k q hq
    · intro hc s k q
      by_cases hs : s = sheet
      · subst hs
        have h1 := changed_rows hc k q
        have h2 := setRows_hidden e s a b h src s k q
        unfold Engine.setRows at h2
        rw [update_hidden, if_pos rfl, h1, heq, hi.rows] at h2
        exact h2.symm
      · exact if_neg fun h => hs h.1
  | insert sheet before count =>
    have hid : (count = 0 ∨ e.states sheet = none) → ∀ s k q, H.after (.insert sheet before count) s k q = H s k q := by
      intro hc s k q
      simp only [Hid.after]
      by_cases hs : s = sheet
      · rw [if_pos hs]
        rcases hc with hc | hc
        · subst hc
          split
          · rfl
          · rw [if_neg (by omega)]; rfl
        · have hn : ∀ r, H s k r = false := by
            intro r
            rw [← hi.rows, hs, hidden_getD, hc]
            exact default_hidden k r
          simp [hn]
      · rw [if_neg hs]
    have hsame : (count = 0 ∨ e.states sheet = none) → Inv e (H.after (.insert sheet before count)) := by
      intro hc
      have := hid hc
      have hH : H.after (.insert sheet before count) = H := by funext s k q; exact this s k q
      rw [hH]
      exact hi
    show Inv (e.shift sheet count _) _
    unfold Engine.shift
    by_cases hc : count = 0
    · rw [if_pos hc]; exact hsame (.inl hc)
    · rw [if_neg hc]
      cases hst : e.states sheet with
      | none => exact hsame (.inr hst)
      | some t =>
        have ht : ∀ k r, t.hidden r k = H sheet k r := fun k r => by have := heq sheet k r; rwa [hst] at this
        have hs1 := insertRows_spec t.manual before count (fun r hr => hf .manual r (by rw [← ht]; exact hr))
        have hs2 := insertRows_spec t.filter before count (fun r hr => hf .filter r (by rw [← ht]; exact hr))
        have hins : ∀ k q, (t.insert before count).1.hidden q k = if q < before then H sheet k q else if q < before + count then false else H sheet k (q - count) := by
          intro k q
          cases k with
          | manual => rw [← ht, ← ht]; exact hs1.1 q
          | filter => rw [← ht, ← ht]; exact hs2.1 q
        refine inv_put hi (t := (t.insert before count).1) (changed := (t.insert before count).2) ?_ ?_ ?_ ?_
        · intro s k q
          rw [hidden_put, hins]
          simp only [Hid.after]
          split
          · rename_i hs; rw [hs]
          · exact hi.rows s k q
        · intro s hs k q
          exact if_neg hs
        · intro s k q hq
          simp only [Hid.after] at hq
          split at hq
          · rename_i hs
            split at hq
            · exact hi.bound s k q hq
            · split at hq
              · cases hq
              · subst hs
                have := hf k _ hq
                omega
          · exact hi.bound s k q hq
        · intro hch s k q
          simp only [Hid.after]
          split
          · rename_i hs
            rw [hs, ← hins, ← ht]
            have hch' : ((insertRows t.manual before count).2 || (insertRows t.filter before count).2) = false := hch
            rw [Bool.or_eq_false_iff] at hch'
            cases k with
            | manual => exact hs1.2 hch'.1 q
            | filter => exact hs2.2 hch'.2 q
          · rfl
  | delete sheet start count =>
    have hsame : (count = 0 ∨ e.states sheet = none) → Inv e (H.after (.delete sheet start count)) := by
      intro hc
      have hH : H.after (.delete sheet start count) = H := by
        funext s k q
        simp only [Hid.after]
        by_cases hs : s = sheet
        · rw [if_pos hs]
          rcases hc with hc | hc
          · subst hc
            split <;> rfl
          · have hn : ∀ r, H s k r = false := by
              intro r
              rw [← hi.rows, hs, hidden_getD, hc]
              exact default_hidden k r
            simp [hn]
        · rw [if_neg hs]
      rw [hH]
      exact hi
    show Inv (e.shift sheet count _) _
    unfold Engine.shift
    by_cases hc : count = 0
    · rw [if_pos hc]; exact hsame (.inl hc)
    · rw [if_neg hc]
      cases hst : e.states sheet with
      | none => exact hsame (.inr hst)
      | some t =>
        have ht : ∀ k r, t.hidden r k = H sheet k r := fun k r => by have := heq sheet k r; rwa [hst] at this
        have hs1 := deleteRows_spec t.manual start count (fun r hr => hi.bound sheet .manual r (by rw [← ht]; exact hr))
        have hs2 := deleteRows_spec t.filter start count (fun r hr => hi.bound sheet .filter r (by rw [← ht]; exact hr))
        have hdel : ∀ k q, (t.delete start count).1.hidden q k = if q < start then H sheet k q else H sheet k (q + count) := by
          intro k q
          cases k with
          | manual => rw [← ht, ← ht]; exact hs1.1 q
          | filter => rw [← ht, ← ht]; exact hs2.1 q
        refine inv_put hi (t := (t.delete start count).1) (changed := (t.delete start count).2) ?_ ?_ ?_ ?_
        · intro s k q
          rw [hidden_put, hdel]
          simp only [Hid.after]
          split
          · rename_i hs; rw [hs]
          · exact hi.rows s k q
        · intro s hs k q
          exact if_neg hs
        · intro s k q hq
          simp only [Hid.after] at hq
          split at hq
          · split at hq
            · exact hi.bound s k q hq
            · have := hi.bound s k _ hq
              omega
          · exact hi.bound s k q hq
        · intro hch s k q
          simp only [Hid.after]
          split
          · rename_i hs
            rw [hs, ← hdel, ← ht]
            have hch' : ((deleteRows t.manual start count).2 || (deleteRows t.filter start count).2) = false := hch
            rw [Bool.or_eq_false_iff] at hch'
            cases k with
            | manual => exact hs1.2 hch'.1 q
            | filter => exact hs2.2 hch'.2 q
          · rfl
  | removeSheet sheet =>
    show Inv (e.removeSheet sheet) _
    unfold Engine.removeSheet
    cases hst : e.states sheet with
    | none =>
      have hH : H.after (.removeSheet sheet) = H := by
        funext s k q
        simp only [Hid.after]
        split
        · rename_i hs
          rw [← hi.rows, hs, hidden_getD, hst]
          exact (default_hidden k q).symm
        · rfl
      rw [hH]
      exact hi
    | some t =>
      simp only
      have hrows : ∀ s k r, Engine.hidden { states := e.put sheet none, cache := [] } s k r = H.after (.removeSheet sheet) s k r := by
        intro s k r
        simp only [Engine.hidden, Engine.put, Hid.after]
        by_cases hs : s = sheet
        · rw [if_pos hs, if_pos hs]
        · rw [if_neg hs, if_neg hs, ← hi.rows]; rfl
      refine ⟨hrows, ?_, fun p hp => (by cases hp), ?_⟩
      · intro s k r hr
        simp only [Hid.after] at hr
        split at hr
        · cases hr
        · exact hi.bound s k r hr
      · intro s u hu
        simp only [Engine.put] at hu
        split at hu
        · cases hu
        · rename_i hs
          obtain ⟨k, r, h⟩ := hi.full s u hu
          exact ⟨k, r, by simp only [Hid.after]; rw [if_neg hs]; exact h⟩
  | mask limit sheet start last rows mode =>
    show Inv (e.mask limit sheet start last rows mode).1 H
    unfold Engine.mask
    by_cases hz : rows = 0 ∨ start ≥ rows
    · rw [if_pos hz]; exact hi
    · rw [if_neg hz]
      simp only
      split
      · exact hi
      · refine ⟨hi.rows, hi.bound, ?_, hi.full⟩
        intro p hp
        rcases List.mem_cons.1 hp with rfl | hp
        · rfl
        · split at hp
          · cases hp
          · exact hi.cache p hp

theorem inv_run {e : Engine} {H : Hid} (hi : Inv e H) (os : List Op) (hf : H.fitsAll os) : Inv (e.run os) (H.run os) := by
  induction os generalizing e H with
  | nil => exact hi
  | cons o os ih => exact ih (inv_apply hi o hf.1) hf.2

theorem inv_empty : Inv {} (fun _ _ _ => false) := ⟨fun _ _ _ => rfl, fun _ _ _ h => (by cases h), fun _ h => (by cases h), fun _ _ h => (by cases h)⟩

/-- After any history exactly those rows are hidden that were hidden last and moved with their sheets. -/
theorem hidden_history (os : List Op) (hf : Hid.fitsAll (fun _ _ _ => false) os) (s : Nat) (k : Source) (r : Nat) :
    (Engine.run {} os).hidden s k r = Hid.run (fun _ _ _ => false) os s k r := (inv_run inv_empty os hf).rows s k r

theorem lookup_mem {k : Key} {m : List Bool} {c : List (Key × List Bool)} (h : c.lookup k = some m) : (k, m) ∈ c := by
  induction c with
  | nil => cases h
  | cons p c ih =>
    obtain ⟨k', m'⟩ := p
    rw [List.lookup_cons] at h
    by_cases hk : k = k'
    · subst hk
      simp at h
      subst h
      exact .head _
    · have : (k == k') = false := by simpa using hk
      rw [this] at h
      exact .tail _ (ih h)

theorem fresh_mask {e : Engine} {H : Hid} (hi : Inv e H) (k : Key) : e.fresh k = H.mask k.sheet k.start k.last k.mode := by
  unfold Engine.fresh Hid.mask
  apply List.map_congr_left
  intro r _
  rw [hi.rows, hi.rows]
  cases k.mode <;> simp [includes]

/-- A mask is never out of date: after any history, with masks asked for and kept in between, it tells of each row of the view whether it is hidden now. -/
theorem mask_history (os : List Op) (hf : Hid.fitsAll (fun _ _ _ => false) os) (limit sheet start last rows : Nat) (mode : Mode) (hs : start < rows) :
    ((Engine.run {} os).mask limit sheet start last rows mode).2 = (Hid.run (fun _ _ _ => false) os).mask sheet start (min last (rows - 1)) mode := by
  have hi := inv_run inv_empty os hf
  generalize Engine.run {} os = e at hi ⊢
  unfold Engine.mask
  rw [if_neg (by omega)]
  simp only
  split
  · rename_i m hm
    rw [hi.cache _ (lookup_mem hm), fresh_mask hi]
  · rw [fresh_mask hi]

/-- Through the mask a row of the view counts as visible exactly if it is not hidden, or lies after the rows of the sheet. -/
theorem visible_history (os : List Op) (hf : Hid.fitsAll (fun _ _ _ => false) os) (limit sheet start last rows : Nat) (hs : start < rows) (i : Nat) (hi : start + i ≤ last) :
    visible ((Engine.run {} os).mask limit sheet start last rows .neither).2 i =
      (decide (rows ≤ start + i) || !(Hid.run (fun _ _ _ => false) os sheet .manual (start + i) || Hid.run (fun _ _ _ => false) os sheet .filter (start + i))) := by
  rw [mask_history os hf _ _ _ _ _ _ hs]
  unfold visible Hid.mask rowsFromTo
  simp only [List.map_map, List.getElem?_map]
  by_cases h : i < min last (rows - 1) + 1 - start
  · rw [List.getElem?_range h, decide_eq_false (by omega)]
    simp
  · rw [List.getElem?_eq_none (by simp; omega), decide_eq_true (by omega)]
    simp

/-- The engine keeps something for a sheet exactly if one of its rows is hidden. -/
theorem stored_iff (os : List Op) (hf : Hid.fitsAll (fun _ _ _ => false) os) (s : Nat) : ((Engine.run {} os).states s).isSome = true ↔ ∃ k r, Hid.run (fun _ _ _ => false) os s k r = true := by
  have hi := inv_run inv_empty os hf
  constructor
  · intro h
    obtain ⟨t, ht⟩ := Option.isSome_iff_exists.1 h
    exact hi.full s t ht
  · rintro ⟨k, r, h⟩
    rw [← hi.rows] at h
    unfold Engine.hidden at h
    cases hst : (Engine.run {} os).states s with
    | none => rw [hst] at h; cases h
    | some t => rfl

/-- Deleting rows that were just inserted leaves the hidden rows as they were. -/
theorem insert_delete (os : List Op) (sheet before count : Nat) (hf : Hid.fitsAll (fun _ _ _ => false) (os ++ [.insert sheet before count, .delete sheet before count])) (s : Nat) (k : Source) (r : Nat) :
    (Engine.run {} (os ++ [.insert sheet before count, .delete sheet before count])).hidden s k r = (Engine.run {} os).hidden s k r := by
  have hrun : ∀ (H : Hid) (a b : List Op), H.run (a ++ b) = (H.run a).run b := by
    intro H a b
    induction a generalizing H with
    | nil => rfl
    | cons o a ih => exact ih _
  have hfit : ∀ (H : Hid) (a b : List Op), H.fitsAll (a ++ b) → H.fitsAll a := by
    intro H a b
    induction a generalizing H with
    | nil => intro _; trivial
    | cons o a ih => intro h; exact ⟨h.1, ih _ h.2⟩
  rw [hidden_history _ hf, hidden_history _ (hfit _ _ _ hf), hrun]
  simp only [Hid.run, Hid.after]
  by_cases hs : s = sheet
  · rw [if_pos hs, if_pos hs, if_pos hs]
    by_cases hr : r < before
    · rw [if_pos hr, if_pos hr]
    · rw [if_neg hr, if_neg (by omega), if_neg (by omega), Nat.add_sub_cancel]
  · rw [if_neg hs, if_neg hs]

/-! ### Undo -/

theorem undo_append (a b : List Event) (e : Engine) : undo (a ++ b) e = undo a (undo b e) := by
  unfold undo
  rw [List.reverse_append, List.foldl_append]

theorem redo_append (a b : List Event) (e : Engine) : redo (a ++ b) e = redo b (redo a e) := by
  unfold redo
  rw [List.foldl_append]

/-- Two states with the same hidden rows. -/
def Same (e e' : Engine) : Prop := ∀ s k r, e.hidden s k r = e'.hidden s k r

theorem undo_same {a : List Event} {e e' : Engine} (h : Same e e') : Same (undo a e) (undo a e') := by
  unfold undo
  generalize a.reverse = l
  induction l generalizing e e' with
  | nil => exact h
  | cons v l ih =>
    refine ih ?_
    intro s k r
    rw [setRow_hidden, setRow_hidden, h]

theorem redo_same {a : List Event} {e e' : Engine} (h : Same e e') : Same (redo a e) (redo a e') := by
  unfold redo
  induction a generalizing e e' with
  | nil => exact h
  | cons v l ih =>
    refine ih ?_
    intro s k r
    rw [setRow_hidden, setRow_hidden, h]

theorem logRow_undo (e : Engine) (sheet r : Nat) (h : Bool) (src : Source) : Same (undo (logRow e sheet r h src).2 (logRow e sheet r h src).1) e ∧ Same (redo (logRow e sheet r h src).2 e) (logRow e sheet r h src).1 := by
  unfold logRow
  split
  · exact ⟨fun _ _ _ => rfl, fun _ _ _ => rfl⟩
  · refine ⟨fun s k q => ?_, fun s k q => rfl⟩
    show ((e.setRow sheet r h src).setRow sheet r (e.hidden sheet src r) src).hidden s k q = _
    rw [setRow_hidden, setRow_hidden]
    split
    · rename_i hx; rw [hx.1, hx.2.1, hx.2.2]
    · rfl

theorem logRows_undo (sheet : Nat) (h : Bool) (src : Source) (rs : List Nat) (e : Engine) :
    Same (undo (logRows sheet h src rs e).2 (logRows sheet h src rs e).1) e ∧ Same (redo (logRows sheet h src rs e).2 e) (logRows sheet h src rs e).1 := by
  induction rs generalizing e with
  | nil => exact ⟨fun _ _ _ => rfl, fun _ _ _ => rfl⟩
  | cons r rs ih =>
    obtain ⟨h1, h2⟩ := logRow_undo e sheet r h src
    obtain ⟨h3, h4⟩ := ih (logRow e sheet r h src).1
    unfold logRows
    simp only
    refine ⟨fun s k q => ?_, fun s k q => ?_⟩
    · rw [undo_append, undo_same h3, h1]
    · rw [redo_append, redo_same h2, h4]

/-- Without insertions of rows. -/
def onlyHides : Step → Bool
  | .insert .. => false
  | _ => true

theorem step_undo (e : Engine) (s : Step) (hs : onlyHides s = true) : Same (undo (step e s).2 (step e s).1) e ∧ Same (redo (step e s).2 e) (step e s).1 := by
  cases s with
  | setRow sheet r h src => exact logRow_undo e sheet r h src
  | setRows sheet a b h src => exact logRows_undo sheet h src _ e
  | insert _ _ _ => cases hs

/-- Undoing (or rolling back) an action that hides and shows rows gives the rows back as they were, and redoing it hides them again.  Missing: actions that also insert rows. -/
theorem undo_restores_partial (ss : List Step) (hss : ∀ s ∈ ss, onlyHides s = true) (e : Engine) :
    (∀ s k r, (undo (steps ss e).2 (steps ss e).1).hidden s k r = e.hidden s k r) ∧ ∀ s k r, (redo (steps ss e).2 e).hidden s k r = (steps ss e).1.hidden s k r := by
  induction ss generalizing e with
  | nil => exact ⟨fun _ _ _ => rfl, fun _ _ _ => rfl⟩
  | cons a ss ih =>
    obtain ⟨h1, h2⟩ := step_undo e a (hss a (.head _))
    obtain ⟨h3, h4⟩ := ih (fun s hs => hss s (.tail _ hs)) (step e a).1
    unfold steps
    simp only
    refine ⟨fun s k q => ?_, fun s k q => ?_⟩
    · rw [undo_append, undo_same h3, h1]
    · rw [redo_append, redo_same h2, h4]

/-- What the steps do is what the operations mean. -/
theorem logRow_hidden (e : Engine) (sheet r : Nat) (h : Bool) (src : Source) (s : Nat) (k : Source) (q : Nat) :
    (logRow e sheet r h src).1.hidden s k q = if s = sheet ∧ k = src ∧ q = r then h else e.hidden s k q := by
  unfold logRow
  split
  · rename_i hh
    split
    · rename_i hx; rw [hx.1, hx.2.1, hx.2.2, hh]
    · rfl
  · exact setRow_hidden ..

theorem logRows_hidden (sheet : Nat) (h : Bool) (src : Source) (rs : List Nat) (e : Engine) (s : Nat) (k : Source) (q : Nat) :
    (logRows sheet h src rs e).1.hidden s k q = if s = sheet ∧ k = src ∧ q ∈ rs then h else e.hidden s k q := by
  induction rs generalizing e with
  | nil => simp [logRows]
  | cons r rs ih =>
    unfold logRows
    simp only
    rw [ih, logRow_hidden]
    by_cases h1 : s = sheet ∧ k = src
    · simp only [h1, true_and, List.mem_cons]
      by_cases h2 : q ∈ rs
      · simp [h2]
      · simp [h2]
    · have h2 : ∀ p : Prop, ¬ (s = sheet ∧ k = src ∧ p) := fun p hp => h1 ⟨hp.1, hp.2.1⟩
      rw [if_neg (h2 _), if_neg (h2 _), if_neg (h2 _)]

/-- Inside an action rows are hidden like outside of it. -/
theorem step_hidden (e : Engine) (st : Step) (s : Nat) (k : Source) (r : Nat) : (step e st).1.hidden s k r = (match st with
    | .setRow sheet q h src => e.setRow sheet q h src
    | .setRows sheet a b h src => e.setRows sheet a b h src
    | .insert sheet before count => e.insert sheet before count).hidden s k r := by
  cases st with
  | setRow sheet q h src => simp only [step]; rw [logRow_hidden, setRow_hidden]
  | setRows sheet a b h src => simp only [step]; rw [logRows_hidden, setRows_hidden]; simp only [mem_rowsFromTo]
  | insert _ _ _ => rfl

/-! ### Where it fails -/

/-- A workbook with row 6 hidden (number 5 from 0). -/
def oneHidden : Engine := Engine.setRow {} 0 5 true .manual

/-- Undoing an inserted row, or rolling back the action it was in, leaves the hidden row where the insertion put it: another row is hidden afterwards, and the hidden one is shown. -/
theorem undo_insert_wrong : let r := steps [.insert 0 0 1] oneHidden
    oneHidden.hidden 0 .manual 5 = true ∧ (undo r.2 r.1).hidden 0 .manual 5 = false ∧ (undo r.2 r.1).hidden 0 .manual 6 = true := by decide +kernel

/-- Nor is a row shown again that was hidden before the insertion in the same action. -/
theorem undo_hide_insert_wrong : let r := steps [.setRow 0 5 true .manual, .insert 0 0 1] {}
    (undo r.2 r.1).hidden 0 .manual 6 = true := by decide +kernel

/-- The version of the hidden rows of a sheet can be the same for different rows: it starts again once nothing is hidden. -/
theorem version_repeats : ∃ os os' : List Op, (Engine.run {} os).version 0 = (Engine.run {} (os ++ os')).version 0 ∧ (Engine.run {} os).hidden 0 .manual 1 = true ∧ (Engine.run {} (os ++ os')).hidden 0 .manual 1 = false :=
  ⟨[.setRow 0 1 true .manual], [.setRow 0 1 false .manual, .setRow 0 2 true .manual], by decide +kernel⟩

/-! ### Cases -/

example : let e := Engine.run {} [.setRows 0 3 70 true .filter, .mask 4 0 0 9 100 .neither, .insert 0 5 2, .delete 0 0 1]
    (e.mask 4 0 0 9 100 .neither).2 = [true, true, false, false, true, true, false, false, false, false] ∧ e.hidden 0 .filter 71 = true ∧ e.hidden 0 .filter 72 = false := by decide +kernel

example : Hid.fitsAll (fun _ _ _ => false) [.setRow 0 3 true .filter, .insert 0 5 2, .delete 0 0 1] := by
  refine ⟨(by show 3 ≤ maxU; decide), fun k q h => ?_, trivial, trivial⟩
  simp only [Hid.after] at h
  split at h
  · rename_i hx; rw [hx.2.2]; decide
  · cases h

example : onlyHides (.setRows 0 1 3 true .manual) = true ∧ (steps [.setRows 0 1 3 true .manual, .setRow 0 2 false .manual] {}).2.length = 4 := by decide +kernel

end Verif.Rows
