import Verif.Undo.Model
import Verif.Undo.LogProps

/-!
# C20: undo and redo

An action is a single edit, or a compound: begin, edits and nested compounds, end. Specification: after an action, undo
gives back the sheet from before it, and redo then the sheet from after it; undoing a whole history step by step gives
back every earlier sheet down to the first.
-/

namespace Verif.Undo

variable {V F M : Type}

/-! ## Replaying events -/

/-- Undoing right after `e` gives back `s`. -/
def Honest (s : Sheet V F) (e : Ev (Edit V F)) : Prop := inverse e (forward e s) = s

/-- Applying the events in order. -/
def replay (s : Sheet V F) (es : List (Ev (Edit V F))) : Sheet V F := es.foldl (fun s e => forward e s) s

def Chain : Sheet V F → List (Ev (Edit V F)) → Prop
  | _, [] => True
  | s, e :: es => Honest s e ∧ Chain (forward e s) es

theorem chain_append (s : Sheet V F) (a b : List (Ev (Edit V F))) : Chain s (a ++ b) ↔ Chain s a ∧ Chain (replay s a) b := by
  induction a generalizing s with
  | nil => simp [Chain, replay]
  | cons e a ih =>
    simp only [List.cons_append, Chain, ih, replay, List.foldl_cons, and_assoc]

theorem replay_append (s : Sheet V F) (a b : List (Ev (Edit V F))) : replay s (a ++ b) = replay (replay s a) b := by
  simp [replay, List.foldl_append]

/-- Inverses in reverse order take a replayed sheet back. -/
theorem chain_undo (es : List (Ev (Edit V F))) : ∀ s : Sheet V F, Chain s es →
    es.foldr (fun e s => inverse e s) (replay s es) = s := by
  induction es with
  | nil => intro s _; rfl
  | cons e es ih =>
    intro s h
    simp only [List.foldr_cons, replay, List.foldl_cons]
    have := ih (forward e s) h.2
    unfold replay at this
    rw [this]; exact h.1

theorem put_back (s : Sheet V F) (c : Nat) (x y : Content V F) (h : y = s.cell c) : (s.put c x).put c y = s := by
  cases s with
  | mk cell side =>
    simp only [Sheet.put, Sheet.mk.injEq, and_true] at *
    funext a
    by_cases ha : a = c
    · subst ha; simp [h]
    · simp [ha]

/-- The old value is captured, or there is none to lose. -/
def Req.Sees (s : Sheet V F) : Req V F → Prop
  | .value c _ seen _ => seen = true ∨ ∀ v, s.cell c ≠ .value v
  | .formula c _ seen _ => seen = true ∨ ∀ v, s.cell c ≠ .value v
  | _ => True

theorem restored_old (seen : Bool) (cached : Option V) (x : Content V F) (h : seen = true ∨ ∀ v, x ≠ .value v) :
    restored (oldValue seen cached x) (oldFormula x) = x := by
  cases x with
  | empty => rfl
  | value v =>
    rcases h with h | h
    · simp [restored, oldValue, oldFormula, h]
    · exact absurd rfl (h v)
  | formula f => rfl

theorem event_honest (s : Sheet V F) (r : Req V F) (h : r.Sees s) (e : Ev (Edit V F)) (he : r.event s = some e) :
    Honest s e := by
  cases r with
  | value c v seen cached =>
    simp only [Req.event, Option.some.injEq] at he; subst he
    exact put_back _ _ _ _ (restored_old _ _ _ h)
  | formula c f seen cached =>
    simp only [Req.event, Option.some.injEq] at he; subst he
    exact put_back _ _ _ _ (restored_old _ _ _ h)
  | side k new =>
    simp only [Req.event, Option.some.injEq] at he; subst he
    simp only [Honest, inverse, forward, Sheet.putSide]
    cases s with
    | mk cell side =>
      simp only [Sheet.mk.injEq, true_and]
      funext a
      by_cases ha : a = k
      · simp [ha]
      · simp [ha]
  | begin d => simp [Req.event] at he
  | stop => simp [Req.event] at he

/-! ## The log during an action, without a cap -/

/-- Logging on, no cap. -/
structure Plain (l : Log (Edit V F) M) : Prop where
  inv : LInv l
  enabled : l.enabled = true
  cap : l.cap = none

/-- Events with their tags. -/
def Log.tagged (l : Log (Edit V F) M) : List (Ev (Edit V F) × Option Nat) := l.events.zip l.groups

theorem Plain.record {l : Log (Edit V F) M} (h : Plain l) (e : Ev (Edit V F)) (m : M) :
    Plain (l.recordMeta e m) ∧ (l.recordMeta e m).tagged = l.tagged ++ [(e, l.stack.head?)] ∧
      (l.recordMeta e m).events = l.events ++ [e] ∧ (l.recordMeta e m).metas = l.metas ++ [m] ∧
      (l.recordMeta e m).depth = l.depth ∧ (l.recordMeta e m).stack = l.stack := by
  have hr : l.recordMeta e m = l.push e m := by
    unfold Log.recordMeta Log.enforce
    rw [if_pos h.enabled]
    simp only [Log.push, h.cap]
  have hi := recordMeta_inv l h.inv e m
  rw [hr] at *
  refine ⟨⟨hi, h.enabled, h.cap⟩, ?_, rfl, rfl, rfl, rfl⟩
  simp only [Log.tagged, Log.push]
  exact zip_snoc _ _ _ _ h.inv.aligned.groups.symm

/-- Tag during a compound opened now. -/
def tagNow (l : Log (Edit V F) M) : Nat := match l.stack.head? with | some g => g | none => l.nextGid

theorem Plain.begin {l : Log (Edit V F) M} (h : Plain l) (d : String) :
    Plain (l.begin d) ∧ (l.begin d).tagged = l.tagged ++ [(.start d (l.depth + 1), some (tagNow l))] ∧
      (l.begin d).depth = l.depth + 1 ∧ (l.begin d).stack = tagNow l :: l.stack ∧
      (l.begin d).metas = l.metas ++ [l.cur] := by
  have hi := begin_inv l h.inv d
  have hform : ∃ l₁ : Log (Edit V F) M, l.begin d = l₁.recordMeta (.start d (l.depth + 1)) l.cur ∧ l₁.events = l.events ∧
      l₁.groups = l.groups ∧ l₁.metas = l.metas ∧ l₁.enabled = true ∧ l₁.cap = none ∧ l₁.depth = l.depth + 1 ∧
      l₁.stack = tagNow l :: l.stack := by
    unfold Log.begin
    simp only
    split
    · rename_i h1
      have hd : l.depth = 0 := by simpa using h1
      have hst : l.stack = [] := List.length_eq_zero_iff.1 (by rw [h.inv.depth, hd])
      simp only [h.enabled, if_true]
      refine ⟨_, rfl, rfl, rfl, rfl, rfl, h.cap, rfl, ?_⟩
      simp [tagNow, hst]
    · rename_i h1
      have hd : l.depth ≠ 0 := by simpa using h1
      have hne : l.stack ≠ [] := fun e => hd (by rw [← h.inv.depth, e]; rfl)
      obtain ⟨g, st, hs⟩ := List.exists_cons_of_ne_nil hne
      simp only [hs, List.head?_cons, h.enabled, if_true]
      refine ⟨_, rfl, rfl, rfl, rfl, rfl, h.cap, rfl, ?_⟩
      simp [tagNow, hs]
  obtain ⟨l₁, he, e1, e2, e3, e4, e5, e6, e7⟩ := hform
  have hr : l₁.recordMeta (.start d (l.depth + 1)) l.cur = l₁.push (.start d (l.depth + 1)) l.cur := by
    unfold Log.recordMeta Log.enforce
    rw [if_pos e4]
    simp only [Log.push, e5]
  rw [he, hr] at hi ⊢
  refine ⟨⟨hi, e4, e5⟩, ?_, e6, e7, by simp [Log.push, e3]⟩
  simp only [Log.tagged, Log.push, e1, e2, e7, List.head?_cons]
  exact zip_snoc _ _ _ _ h.inv.aligned.groups.symm

theorem Plain.stop {l : Log (Edit V F) M} (h : Plain l) (hd : 0 < l.depth) :
    ∃ l', l.stop = some l' ∧ Plain l' ∧ l'.tagged = l.tagged ++ [(.stop l.depth, l.stack.head?)] ∧
      l'.depth = l.depth - 1 ∧ l'.stack = l.stack.tail ∧ l'.metas = l.metas ++ [l.cur] := by
  obtain ⟨h1, h2, h3, h4, h5, h6⟩ := h.record (.stop l.depth) l.cur
  have hs : l.stop = some { l.recordMeta (.stop l.depth) l.cur with
      depth := (l.recordMeta (.stop l.depth) l.cur).depth - 1
      stack := (l.recordMeta (.stop l.depth) l.cur).stack.tail } := by
    unfold Log.stop
    rw [if_pos hd]
    simp only [h.enabled, if_true]
    have : (l.record (.stop l.depth)).depth ≠ 0 := by
      show (l.recordMeta (.stop l.depth) l.cur).depth ≠ 0
      rw [h5]; omega
    rw [if_neg this]
    rfl
  refine ⟨_, hs, ⟨stop_inv l _ h.inv hs, h1.enabled, h1.cap⟩, h2, by simp [h5], by simp [h6], h4⟩

/-! ## Histories -/

/-- A log whose events, cut into actions, explain the current sheet: `ss` lists the sheets before each action, newest
first. An ungrouped event is only allowed while there are no groups. -/
inductive Hist : List (Ev (Edit V F) × Option Nat) → Sheet V F → List (Sheet V F) → Prop
  | nil (s : Sheet V F) : Hist [] s []
  | single {pre : List (Ev (Edit V F) × Option Nat)} {s : Sheet V F} {ss : List (Sheet V F)} {e : Ev (Edit V F)} :
      Hist pre s ss → (∀ p ∈ pre, p.2 = none) → Honest s e → Hist (pre ++ [(e, none)]) (forward e s) (s :: ss)
  | group {pre : List (Ev (Edit V F) × Option Nat)} {s : Sheet V F} {ss : List (Sheet V F)} {es : List (Ev (Edit V F))}
      {g : Nat} :
      Hist pre s ss → (∀ p ∈ pre, p.2 ≠ some g) → es ≠ [] → Chain s es →
      Hist (pre ++ es.map fun e => (e, some g)) (replay s es) (s :: ss)

theorem zip_unzip {α β : Type} (a : List α) (b : List β) (h : a.length = b.length) (l : List (α × β)) (hl : a.zip b = l) :
    a = l.map Prod.fst ∧ b = l.map Prod.snd := by
  subst hl
  exact ⟨(List.map_fst_zip (by omega)).symm, (List.map_snd_zip (by omega)).symm⟩

theorem head_filterMap_rev (pre : List (Option Nat)) (n g : Nat) (hn : n ≠ 0) :
    ((pre ++ List.replicate n (some g)).reverse.filterMap id).head? = some g := by
  rw [List.reverse_append, List.reverse_replicate]
  cases n with
  | zero => exact absurd rfl hn
  | succ n => simp [List.reverse_append, List.reverse_replicate, List.replicate_succ]

theorem filter_range_tail (pre : List (Option Nat)) (n g : Nat) (hp : some g ∉ pre) :
    ((List.range (pre ++ List.replicate n (some g)).length).filter fun i =>
      (pre ++ List.replicate n (some g))[i]? == some (some g)) = List.range' pre.length n := by
  rw [List.length_append, List.length_replicate, List.range_eq_range', ← List.range'_append_1, List.filter_append]
  have h1 : (List.range' 0 pre.length).filter (fun i => (pre ++ List.replicate n (some g))[i]? == some (some g)) = [] := by
    rw [List.filter_eq_nil_iff]
    intro i hi
    rw [List.mem_range'_1] at hi
    rw [List.getElem?_append_left (by omega)]
    intro he
    exact hp (List.mem_of_getElem? (by simpa using he))
  have h2 : (List.range' (0 + pre.length) n).filter (fun i => (pre ++ List.replicate n (some g))[i]? == some (some g)) =
      List.range' (0 + pre.length) n := by
    rw [List.filter_eq_self]
    intro i hi
    rw [List.mem_range'_1] at hi
    rw [List.getElem?_append_right (by omega), List.getElem?_replicate, if_pos (by omega)]
    simp
  rw [h1, h2, Nat.zero_add, List.nil_append]

theorem range'_max (a n : Nat) (hn : n ≠ 0) : (List.range' a n).max? = some (a + n - 1) := by
  rw [List.max?_eq_some_iff]
  refine ⟨List.mem_range'_1.2 (by omega), fun b hb => ?_⟩
  have := List.mem_range'_1.1 hb; omega

theorem range'_min (a n : Nat) (hn : n ≠ 0) : (List.range' a n).min? = some a := by
  rw [List.min?_eq_some_iff]
  refine ⟨List.mem_range'_1.2 (by omega), fun b hb => ?_⟩
  have := List.mem_range'_1.1 hb; omega

theorem filterMap_range' {α β : Type} (ev : List α) (me : List β) (h : ev.length = me.length) (k : Nat) : ∀ a,
    a + k = ev.length →
    (List.range' a k).filterMap (fun i => ev[i]?.bind fun e => me[i]?.map fun m => (e, m)) =
      (ev.drop a).zip (me.drop a) := by
  induction k with
  | zero => intro a ha; rw [List.drop_eq_nil_of_le (by omega)]; rfl
  | succ k ih =>
    intro a ha
    have h1 : a < ev.length := by omega
    have h2 : a < me.length := by omega
    rw [List.range'_succ, List.filterMap_cons, List.drop_eq_getElem_cons h1, List.drop_eq_getElem_cons h2]
    rw [List.getElem?_eq_getElem h1, List.getElem?_eq_getElem h2]
    simp only [Option.bind_some, Option.map_some, List.zip_cons_cons]
    rw [ih (a + 1) (by omega)]

theorem foldr_zip {α β γ : Type} (f : α → γ → γ) (a : List α) (b : List β) (h : a.length = b.length) (z : γ) :
    (a.zip b).foldr (fun x s => f x.1 s) z = a.foldr f z := by
  have : (a.zip b).foldr (fun x s => f x.1 s) z = ((a.zip b).map Prod.fst).foldr f z := by rw [List.foldr_map]
  rw [this, List.map_fst_zip (by omega)]

/-- Undo of a document whose log ends in the block `blk`, which `lastGroup` finds. -/
theorem undo_block (d : Doc V F M) (hl : Plain d.log) (pre blk : List (Ev (Edit V F) × Option Nat))
    (ht : d.log.tagged = pre ++ blk) (hne : blk ≠ []) (hg : d.log.lastGroup = List.range' pre.length blk.length)
    (s : Sheet V F) (hc : Chain s (blk.map Prod.fst)) (hs : d.sheet = replay s (blk.map Prod.fst)) :
    ∃ d', d.undo = some d' ∧ d'.sheet = s ∧ d'.log.tagged = pre ∧ Plain d'.log ∧ d'.log.depth = d.log.depth ∧
      ∃ ms, d'.undone = (blk.map Prod.fst).zip ms :: d.undone ∧ ms.length = blk.length := by
  have ha := hl.inv.aligned
  obtain ⟨h1, h2⟩ := zip_unzip _ _ ha.groups.symm _ ht
  have hlen : d.log.events.length = pre.length + blk.length := by rw [h1]; simp
  have hbl : blk.length ≠ 0 := fun e => hne (List.length_eq_zero_iff.1 e)
  have hb := filterMap_range' d.log.events d.log.metas ha.metas.symm blk.length pre.length (by omega)
  have hdrop : d.log.events.drop pre.length = blk.map Prod.fst := by
    rw [h1, List.map_append, List.drop_left' (by simp)]
  unfold Doc.undo
  simp only
  rw [hg, if_neg (by intro e; have := congrArg List.length e; simp at this; exact hne this),
    range'_max _ _ hbl, if_pos (by simp; omega), hb, hdrop, range'_min _ _ hbl]
  have hml : (d.log.metas.drop pre.length).length = blk.length := by rw [List.length_drop, ha.metas]; omega
  refine ⟨_, rfl, ?_, ?_, ⟨truncate_inv _ hl.inv _, hl.enabled, hl.cap⟩, rfl, d.log.metas.drop pre.length, rfl, hml⟩
  · show ((blk.map Prod.fst).zip (d.log.metas.drop pre.length)).foldr (fun x s => inverse x.1 s) d.sheet = s
    rw [foldr_zip (fun e s => inverse e s) _ _ (by rw [hml, List.length_map]), hs]
    exact chain_undo _ _ hc
  · simp only [Option.getD_some, Log.tagged, Log.truncate]
    rw [← zip_take]
    show d.log.tagged.take pre.length = pre
    rw [ht, List.take_left' rfl]

theorem hist_untagged_groups {pre : List (Ev (Edit V F) × Option Nat)} (h : ∀ p ∈ pre, p.2 = none) :
    ((pre.map Prod.snd).reverse.filterMap id).head? = none := by
  rw [List.head?_eq_none_iff, List.filterMap_eq_nil_iff]
  intro x hx
  rw [List.mem_reverse, List.mem_map] at hx
  obtain ⟨p, hp, rfl⟩ := hx
  exact h p hp

/-- C20 (one step): undo gives back the sheet before the last action, and the log from before it. -/
theorem hist_undo (d : Doc V F M) (hl : Plain d.log) (s : Sheet V F) (ss : List (Sheet V F))
    (h : Hist d.log.tagged d.sheet (s :: ss)) :
    ∃ d', d.undo = some d' ∧ d'.sheet = s ∧ Hist d'.log.tagged d'.sheet ss ∧ Plain d'.log ∧
      d'.log.depth = d.log.depth := by
  have ha := hl.inv.aligned
  generalize ht : d.log.tagged = t at h
  generalize hsh : d.sheet = sh at h
  cases h with
  | @single pre _ _ e hp hnone hh =>
    obtain ⟨h1, h2⟩ := zip_unzip _ _ ha.groups.symm _ ht
    have hg : d.log.lastGroup = List.range' pre.length 1 := by
      unfold Log.lastGroup
      rw [h2, hist_untagged_groups (by
        intro p hp'
        rcases List.mem_append.1 hp' with hp' | hp'
        · exact hnone p hp'
        · simp only [List.mem_singleton] at hp'; rw [hp'])]
      simp only
      rw [h1]
      simp
    obtain ⟨d', hu, e1, e2, e3, e4, -⟩ := undo_block d hl pre [(e, none)] ht (by simp) hg s ⟨hh, trivial⟩ hsh
    exact ⟨d', hu, e1, by rw [e2, e1]; exact hp, e3, e4⟩
  | @group pre _ _ es g hp hfresh hne hc =>
    obtain ⟨h1, h2⟩ := zip_unzip _ _ ha.groups.symm _ ht
    have hgs : d.log.groups = pre.map Prod.snd ++ List.replicate es.length (some g) := by
      rw [h2, List.map_append, List.map_map]
      congr 1
      exact List.map_const (l := es) (b := some g)
    have hel : es.length ≠ 0 := fun e => hne (List.length_eq_zero_iff.1 e)
    have hmp : (es.map fun e => (e, some g)).map Prod.fst = es := by
      rw [List.map_map]; exact List.map_id es
    have hg : d.log.lastGroup = List.range' pre.length (es.map fun e => (e, some g)).length := by
      unfold Log.lastGroup
      rw [hgs, head_filterMap_rev _ _ _ hel]
      simp only
      rw [filter_range_tail]
      · simp
      · intro hm
        obtain ⟨p, hp', he⟩ := List.mem_map.1 hm
        exact hfresh p hp' he
    obtain ⟨d', hu, e1, e2, e3, e4, -⟩ := undo_block d hl pre (es.map fun e => (e, some g)) ht
      (by intro e; exact hne (List.map_eq_nil_iff.1 e)) hg s (by rw [hmp]; exact hc) (by rw [hmp]; exact hsh)
    exact ⟨d', hu, e1, by rw [e2, e1]; exact hp, e3, e4⟩

/-! ## Actions -/

/-- A request that edits, rather than opens or closes a compound. -/
def Req.IsEdit : Req V F → Prop
  | .begin _ => False
  | .stop => False
  | _ => True

theorem step_edit (d : Doc V F M) (hl : Plain d.log) (r : Req V F) (hr : r.IsEdit) (hs : r.Sees d.sheet) :
    ∃ e d', d.step r = some d' ∧ r.event d.sheet = some e ∧ Honest d.sheet e ∧ d'.sheet = forward e d.sheet ∧
      d'.undone = d.undone ∧ Plain d'.log ∧ d'.log.tagged = d.log.tagged ++ [(e, d.log.stack.head?)] ∧
      d'.log.depth = d.log.depth ∧ d'.log.stack = d.log.stack := by
  have key : ∀ e, r.event d.sheet = some e → d.step r = some { d with sheet := forward e d.sheet, log := d.log.record e } := by
    intro e he
    cases r with
    | value c v seen cached => simp only [Doc.step, he]
    | formula c f seen cached => simp only [Doc.step, he]
    | side k n => simp only [Doc.step, he]
    | begin _ => exact absurd hr id
    | stop => exact absurd hr id
  have hex : ∃ e, r.event d.sheet = some e := by
    cases r with
    | value c v seen cached => exact ⟨_, rfl⟩
    | formula c f seen cached => exact ⟨_, rfl⟩
    | side k n => exact ⟨_, rfl⟩
    | begin _ => exact absurd hr id
    | stop => exact absurd hr id
  obtain ⟨e, he⟩ := hex
  obtain ⟨h1, h2, -, -, h5, h6⟩ := hl.record e d.log.cur
  exact ⟨e, _, key e he, he, event_honest _ _ hs e he, rfl, rfl, h1, h2, h5, h6⟩

/-- The body of a compound: balanced, never closing the outermost level. -/
def Body : Nat → List (Req V F) → Prop
  | n, [] => n = 1
  | n, .begin _ :: rs => Body (n + 1) rs
  | n, .stop :: rs => 1 < n ∧ Body (n - 1) rs
  | n, _ :: rs => Body n rs

/-- Every edit of the list captures what it overwrites. -/
def AllSee : Sheet V F → List (Req V F) → Prop
  | _, [] => True
  | s, r :: rs => r.Sees s ∧ AllSee (match r.event s with | some e => forward e s | none => s) rs

theorem body_steps (g : Nat) (rs : List (Req V F)) : ∀ (n : Nat) (d : Doc V F M), Plain d.log → d.log.depth = n →
    1 ≤ n → d.log.stack.head? = some g → Body n rs → AllSee d.sheet rs →
    ∃ es d', d.steps rs = some d' ∧ Chain d.sheet es ∧ d'.sheet = replay d.sheet es ∧ d'.undone = d.undone ∧
      Plain d'.log ∧ d'.log.tagged = d.log.tagged ++ es.map (fun e => (e, some g)) ∧ d'.log.depth = 1 ∧
      d'.log.stack.head? = some g := by
  induction rs with
  | nil =>
    intro n d hl hd hn hg hb _
    simp only [Body] at hb
    exact ⟨[], d, rfl, trivial, rfl, rfl, hl, by simp, by omega, hg⟩
  | cons r rs ih =>
    intro n d hl hd hn hg hb hsee
    by_cases hr : r.IsEdit
    · obtain ⟨e, d₁, h1, h2, h3, h4, h5, h6, h7, h8, h9⟩ := step_edit d hl r hr hsee.1
      have hb' : Body n rs := by
        cases r with
        | value c v seen cached => exact hb
        | formula c f seen cached => exact hb
        | side k n => exact hb
        | begin _ => exact absurd hr id
        | stop => exact absurd hr id
      have hsee' : AllSee d₁.sheet rs := by have := hsee.2; rw [h2] at this; rw [h4]; exact this
      obtain ⟨es, d', q1, q2, q3, q4, q5, q6, q7, q8⟩ := ih n d₁ h6 (by rw [h8, hd]) hn (by rw [h9, hg]) hb' hsee'
      refine ⟨e :: es, d', ?_, ⟨h3, by rw [← h4]; exact q2⟩, ?_, by rw [q4, h5], q5, ?_, q7, q8⟩
      · simp only [Doc.steps, h1, Option.bind_some, q1]
      · rw [q3, h4]; rfl
      · rw [q6, h7, hg]; simp
    · cases r with
      | value c v seen cached => exact absurd trivial hr
      | formula c f seen cached => exact absurd trivial hr
      | side k n => exact absurd trivial hr
      | begin desc =>
        obtain ⟨h1, h2, h3, h4, h5⟩ := hl.begin desc
        have ht : tagNow d.log = g := by simp [tagNow, hg]
        obtain ⟨es, d', q1, q2, q3, q4, q5, q6, q7, q8⟩ := ih (n + 1) { d with log := d.log.begin desc } h1
          (by simp only; rw [h3, hd]) (by omega) (by simp only; rw [h4, ht]; rfl) hb hsee.2
        refine ⟨.start desc (d.log.depth + 1) :: es, d', ?_, ⟨rfl, q2⟩, q3, q4, q5, ?_, q7, q8⟩
        · simp only [Doc.steps, Doc.step, Option.bind_some, q1]
        · rw [q6]; simp only; rw [h2, ht]; simp
      | stop =>
        obtain ⟨l', h0, h1, h2, h3, h4, h5⟩ := hl.stop (by omega)
        have hb' := hb
        simp only [Body] at hb'
        have hst : d.log.stack.tail.head? = some g := by
          have hlen := hl.inv.depth
          have hsame := hl.inv.same
          cases hs : d.log.stack with
          | nil => rw [hs] at hg; simp at hg
          | cons a st =>
            rw [hs] at hg hsame hlen
            cases st with
            | nil => simp only [List.length_singleton] at hlen; omega
            | cons b st =>
              have := hsame b (by simp)
              simp only [List.tail_cons, List.head?_cons] at *
              rw [← hg, this]
        obtain ⟨es, d', q1, q2, q3, q4, q5, q6, q7, q8⟩ := ih (n - 1) { d with log := l' } h1
          (by simp only; rw [h3, hd]) (by omega) (by simp only; rw [h4, hst]) hb'.2 hsee.2
        refine ⟨.stop d.log.depth :: es, d', ?_, ⟨rfl, q2⟩, q3, q4, q5, ?_, q7, q8⟩
        · simp only [Doc.steps, Doc.step, h0, Option.map_some, Option.bind_some, q1]
        · rw [q6]; simp only; rw [h2, hg]; simp

/-- An action. -/
inductive Act (V F : Type)
  | single (r : Req V F)
  | group (desc : String) (body : List (Req V F))

/-- The calls it makes. -/
def Act.reqs : Act V F → List (Req V F)
  | .single r => [r]
  | .group desc body => .begin desc :: (body ++ [.stop])

/-- Well formed, and capturing what it overwrites. -/
def Act.Ok (s : Sheet V F) : Act V F → Prop
  | .single r => r.IsEdit ∧ r.Sees s
  | .group _ body => Body 1 body ∧ AllSee s body

theorem steps_append (a b : List (Req V F)) : ∀ d : Doc V F M, d.steps (a ++ b) = (d.steps a).bind fun d => d.steps b := by
  induction a with
  | nil => intro d; rfl
  | cons r a ih =>
    intro d
    simp only [List.cons_append, Doc.steps]
    cases d.step r with
    | none => rfl
    | some d₁ => simp only [Option.bind_some, ih]

theorem tagNow_fresh {l : Log (Edit V F) M} (hl : Plain l) (hd : l.depth = 0) :
    tagNow l = l.nextGid ∧ ∀ p ∈ l.tagged, p.2 ≠ some l.nextGid := by
  have hst : l.stack = [] := List.length_eq_zero_iff.1 (by rw [hl.inv.depth, hd])
  refine ⟨by simp [tagNow, hst], fun p hp he => ?_⟩
  have : p.2 ∈ l.groups := (List.of_mem_zip hp).2
  rw [he] at this
  exact Nat.lt_irrefl _ (hl.inv.fresh.2 _ this)

/-- Performing an action extends the history by one. A single edit needs a log without groups. -/
theorem hist_act (d : Doc V F M) (hl : Plain d.log) (hd : d.log.depth = 0) (ss : List (Sheet V F))
    (h : Hist d.log.tagged d.sheet ss) (a : Act V F) (ha : a.Ok d.sheet)
    (hs : ∀ r, a = .single r → ∀ p ∈ d.log.tagged, p.2 = none) :
    ∃ d', d.steps a.reqs = some d' ∧ Plain d'.log ∧ d'.log.depth = 0 ∧ Hist d'.log.tagged d'.sheet (d.sheet :: ss) ∧
      d'.undone = d.undone ∧ ∀ r, a = .single r → ∀ p ∈ d'.log.tagged, p.2 = none := by
  cases a with
  | single r =>
    obtain ⟨e, d', h1, h2, h3, h4, h5, h6, h7, h8, h9⟩ := step_edit d hl r ha.1 ha.2
    have hst : d.log.stack = [] := List.length_eq_zero_iff.1 (by rw [hl.inv.depth, hd])
    rw [hst] at h7
    refine ⟨d', by simp only [Act.reqs, Doc.steps, h1, Option.bind_some], h6, by rw [h8, hd], ?_, h5, ?_⟩
    · rw [h7, h4]; exact Hist.single h (hs r rfl) h3
    · intro _ _ p hp
      rw [h7] at hp
      rcases List.mem_append.1 hp with hp | hp
      · exact hs r rfl p hp
      · simp only [List.mem_singleton] at hp; rw [hp]; rfl
  | group desc body =>
    obtain ⟨h1, h2, h3, h4, -⟩ := hl.begin desc
    obtain ⟨ht, hf⟩ := tagNow_fresh hl hd
    obtain ⟨es, d₁, q1, q2, q3, q4, q5, q6, q7, q8⟩ := body_steps d.log.nextGid body 1 { d with log := d.log.begin desc } h1
      (by simp only; rw [h3, hd]) (Nat.le_refl 1) (by simp only; rw [h4, ht]; rfl) ha.1 ha.2
    obtain ⟨l', r0, r1, r2, r3, -, -⟩ := q5.stop (by omega)
    refine ⟨{ d₁ with log := l' }, ?_, r1, by simp only; rw [r3, q7], ?_, q4, by intro r hr; simp at hr⟩
    · simp only [Act.reqs, Doc.steps, Doc.step, Option.bind_some, steps_append, q1, r0, Option.map_some]
    · simp only
      rw [r2, q6, q8]
      simp only
      rw [h2, ht]
      have : d.log.tagged ++ [(Ev.start desc (d.log.depth + 1), some d.log.nextGid)] ++
          es.map (fun e => (e, some d.log.nextGid)) ++ [(Ev.stop d₁.log.depth, some d.log.nextGid)] =
          d.log.tagged ++ (Ev.start desc (d.log.depth + 1) :: (es ++ [Ev.stop d₁.log.depth])).map
            (fun e => (e, some d.log.nextGid)) := by simp
      rw [this, q3]
      have hrep : replay d.sheet es = replay d.sheet (Ev.start desc (d.log.depth + 1) :: (es ++ [Ev.stop d₁.log.depth])) := by
        simp [replay, List.foldl_append, forward]
      simp only
      rw [hrep]
      refine Hist.group h hf (by simp) ⟨rfl, ?_⟩
      show Chain d.sheet (es ++ [Ev.stop d₁.log.depth])
      rw [chain_append]
      exact ⟨q2, rfl, trivial⟩

/-! ## The claims -/

/-- A new document. -/
def Doc.new (s : Sheet V F) (m : M) : Doc V F M := { sheet := s, log := Log.new m, undone := [] }

theorem new_plain (s : Sheet V F) (m : M) : Plain (Doc.new s m).log := ⟨new_inv m, rfl, rfl⟩

/-- Performing actions one after another; each is fine in its turn, and no ungrouped edit follows a compound. The
result lists the documents after each, newest first, the first one last. -/
inductive Performed (d₀ : Doc V F M) : List (Act V F) → List (Doc V F M) → Prop
  | nil : Performed d₀ [] [d₀]
  | cons {as : List (Act V F)} {d d' : Doc V F M} {ds : List (Doc V F M)} {a : Act V F} :
      Performed d₀ as (d :: ds) → a.Ok d.sheet → (∀ r, a = .single r → ∀ b ∈ as, ∃ r', b = .single r') →
      d.steps a.reqs = some d' → Performed d₀ (a :: as) (d' :: d :: ds)

theorem performed_hist (s₀ : Sheet V F) (m : M) (as : List (Act V F)) (ds : List (Doc V F M))
    (h : Performed (Doc.new s₀ m) as ds) :
    ∃ d ss, ds = d :: ss ∧ Plain d.log ∧ d.log.depth = 0 ∧ Hist d.log.tagged d.sheet (ss.map (·.sheet)) ∧
      ((∀ b ∈ as, ∃ r', b = .single r') → ∀ p ∈ d.log.tagged, p.2 = none) := by
  induction h with
  | nil => exact ⟨_, [], rfl, new_plain _ _, rfl, Hist.nil _, by intro _ p hp; simp [Doc.new, Log.new, Log.tagged] at hp⟩
  | @cons as d d' ds a _ hok hsing hst ih =>
    obtain ⟨d₁, ss, e, h1, h2, h3, h4⟩ := ih
    simp only [List.cons.injEq] at e
    obtain ⟨rfl, rfl⟩ := e
    obtain ⟨d₂, q1, q2, q3, q4, -, q6⟩ := hist_act d h1 h2 _ h3 a hok (fun r hr => h4 (hsing r hr))
    rw [hst] at q1
    simp only [Option.some.injEq] at q1
    subst q1
    refine ⟨d', d :: ds, rfl, q2, q3, q4, ?_⟩
    intro hall
    obtain ⟨r', hr'⟩ := hall a (by simp)
    exact q6 r' hr'

/-- Undoing `n` times. -/
def Doc.undos (d : Doc V F M) : Nat → Option (Doc V F M)
  | 0 => some d
  | n + 1 => d.undo.bind fun d => d.undos n

theorem hist_undos (n : Nat) : ∀ (d : Doc V F M) (ss : List (Sheet V F)), Plain d.log → Hist d.log.tagged d.sheet ss →
    n ≤ ss.length → ∃ d', d.undos n = some d' ∧ some d'.sheet = (d.sheet :: ss)[n]? := by
  induction n with
  | zero => intro d ss _ _ _; exact ⟨d, rfl, rfl⟩
  | succ n ih =>
    intro d ss hl h hn
    cases ss with
    | nil => simp at hn
    | cons s ss =>
      obtain ⟨d₁, h1, h2, h3, h4, -⟩ := hist_undo d hl s ss h
      obtain ⟨d', q1, q2⟩ := ih d₁ ss h4 h3 (by simpa using hn)
      refine ⟨d', by simp only [Doc.undos, h1, Option.bind_some, q1], ?_⟩
      rw [q2, h2, List.getElem?_cons_succ]

/-- C20 (partial): after any history of actions, undoing `n` times gives back the sheet as it was `n` actions ago, and
undoing all of them the initial sheet. Missing: histories in which an ungrouped edit follows a compound, where undo
fails, see `undo_after_group_fails`; edits that do not capture the overwritten value, see `formula_over_value_lost`; logs
with a cap, see `cap_splits_action`. -/
theorem undo_restores_partial (s₀ : Sheet V F) (m : M) (as : List (Act V F)) (ds : List (Doc V F M))
    (h : Performed (Doc.new s₀ m) as ds) (n : Nat) (hn : n ≤ as.length) :
    ∃ d d' past, ds[0]? = some d ∧ d.undos n = some d' ∧ ds[n]? = some past ∧ d'.sheet = past.sheet := by
  have hlen : ds.length = as.length + 1 := by
    clear hn
    induction h with
    | nil => rfl
    | cons _ _ _ _ ih => simp only [List.length_cons] at *; omega
  obtain ⟨d, ss, rfl, h1, h2, h3, -⟩ := performed_hist s₀ m as ds h
  simp only [List.length_cons] at hlen
  obtain ⟨d', q1, q2⟩ := hist_undos n d (ss.map (·.sheet)) h1 h3 (by simp; omega)
  have : n < (d :: ss).length := by simp only [List.length_cons]; omega
  refine ⟨d, d', (d :: ss)[n], rfl, q1, List.getElem?_eq_getElem this, ?_⟩
  have e : (d.sheet :: ss.map (·.sheet)) = (d :: ss).map (·.sheet) := rfl
  rw [e, List.getElem?_map, List.getElem?_eq_getElem this] at q2
  simpa using q2

/-- The initial sheet comes back. -/
theorem undo_all_partial (s₀ : Sheet V F) (m : M) (as : List (Act V F)) (ds : List (Doc V F M))
    (h : Performed (Doc.new s₀ m) as ds) : ∃ d d', ds[0]? = some d ∧ d.undos as.length = some d' ∧ d'.sheet = s₀ := by
  obtain ⟨d, d', past, h1, h2, h3, h4⟩ := undo_restores_partial s₀ m as ds h as.length (Nat.le_refl _)
  refine ⟨d, d', h1, h2, ?_⟩
  have hlast : ds[as.length]? = some (Doc.new s₀ m) := by
    clear h1 h2 h3 h4
    induction h with
    | nil => rfl
    | cons _ _ _ _ ih => simp only [List.length_cons, List.getElem?_cons_succ]; exact ih
  rw [hlast] at h3
  simp only [Option.some.injEq] at h3
  rw [h4, ← h3]; rfl

/-- C20: redo right after undo gives back the sheet from before the undo, whenever the undo was possible. -/
theorem redo_undo (s₀ : Sheet V F) (m : M) (as : List (Act V F)) (d : Doc V F M) (ds : List (Doc V F M))
    (h : Performed (Doc.new s₀ m) as (d :: ds)) (has : as ≠ []) :
    ∃ d' d'', d.undo = some d' ∧ d'.redo = some d'' ∧ d''.sheet = d.sheet := by
  obtain ⟨d₁, ss, e, h1, h2, h3, -⟩ := performed_hist s₀ m as _ h
  simp only [List.cons.injEq] at e
  obtain ⟨rfl, rfl⟩ := e
  have hne : ds ≠ [] := by
    cases h with
    | nil => exact absurd rfl has
    | cons => simp
  obtain ⟨p, ds', rfl⟩ := List.exists_cons_of_ne_nil hne
  -- the undone batch replays to the sheet
  have key : ∃ d', d.undo = some d' ∧ Plain d'.log ∧ ∃ (es : List (Ev (Edit V F))) (ms : List M),
      d'.undone = es.zip ms :: d.undone ∧ ms.length = es.length ∧ replay d'.sheet es = d.sheet := by
    have ha := h1.inv.aligned
    generalize ht : d.log.tagged = t at h3
    generalize hsh : d.sheet = sh at h3
    simp only [List.map_cons] at h3
    cases h3 with
    | @single pre _ _ e hp hnone hh =>
      obtain ⟨g1, g2⟩ := zip_unzip _ _ ha.groups.symm _ ht
      have hg : d.log.lastGroup = List.range' pre.length 1 := by
        unfold Log.lastGroup
        rw [g2, hist_untagged_groups (by
          intro p hp'
          rcases List.mem_append.1 hp' with hp' | hp'
          · exact hnone p hp'
          · simp only [List.mem_singleton] at hp'; rw [hp'])]
        simp only
        rw [g1]
        simp
      obtain ⟨d', hu, e1, e2, e3, e4, ms, e5, e6⟩ := undo_block d h1 pre [(e, none)] ht (by simp) hg p.sheet ⟨hh, trivial⟩ hsh
      exact ⟨d', hu, e3, [e], ms, e5, e6, by rw [e1]; rfl⟩
    | @group pre _ _ es g hp hfresh hne hc =>
      obtain ⟨g1, g2⟩ := zip_unzip _ _ ha.groups.symm _ ht
      have hgs : d.log.groups = pre.map Prod.snd ++ List.replicate es.length (some g) := by
        rw [g2, List.map_append, List.map_map]
        congr 1
        exact List.map_const (l := es) (b := some g)
      have hel : es.length ≠ 0 := fun e => hne (List.length_eq_zero_iff.1 e)
      have hmp : (es.map fun e => (e, some g)).map Prod.fst = es := by
        rw [List.map_map]; exact List.map_id es
      have hg : d.log.lastGroup = List.range' pre.length (es.map fun e => (e, some g)).length := by
        unfold Log.lastGroup
        rw [hgs, head_filterMap_rev _ _ _ hel]
        simp only
        rw [filter_range_tail]
        · simp
        · intro hm
          obtain ⟨p, hp', he⟩ := List.mem_map.1 hm
          exact hfresh p hp' he
      obtain ⟨d', hu, e1, e2, e3, e4, ms, e5, e6⟩ := undo_block d h1 pre (es.map fun e => (e, some g)) ht
        (by intro e; exact hne (List.map_eq_nil_iff.1 e)) hg p.sheet (by rw [hmp]; exact hc) (by rw [hmp]; exact hsh)
      rw [hmp] at e5
      exact ⟨d', hu, e3, es, ms, e5, by rw [e6]; simp, by rw [e1]⟩
  obtain ⟨d', hu, hpl, es, ms, hun, hml, hrep⟩ := key
  refine ⟨d', ?_⟩
  have hred : ∀ (bs : List (Ev (Edit V F) × M)) (q : Doc V F M), Plain q.log → 0 < q.log.depth →
      ∃ q', bs.foldl (fun d x => redoOne x d) q = q' ∧ Plain q'.log ∧ 0 < q'.log.depth ∧
        q'.sheet = replay q.sheet (bs.map Prod.fst) := by
    intro bs
    induction bs with
    | nil => intro q hq hd; exact ⟨q, rfl, hq, hd, rfl⟩
    | cons b bs ih =>
      intro q hq hd
      obtain ⟨r1, r2, r3, r4, r5, r6⟩ := hq.record b.1 b.2
      obtain ⟨q', a1, a2, a3, a4⟩ := ih (redoOne b q) r1 (by show 0 < (q.log.recordMeta b.1 b.2).depth; rw [r5]; exact hd)
      exact ⟨q', a1, a2, a3, a4⟩
  obtain ⟨b1, b2, b3, -⟩ := hpl.begin "redo"
  obtain ⟨q', a1, a2, a3, a4⟩ := hred (es.zip ms) { d' with log := d'.log.begin "redo", undone := d.undone } b1
    (by simp only; rw [b3]; omega)
  obtain ⟨l', c1, -⟩ := a2.stop a3
  refine ⟨{ q' with log := l' }, hu, ?_, ?_⟩
  · simp only [Doc.redo, hun, a1, c1, Option.map_some]
  · show q'.sheet = d.sheet
    rw [a4, List.map_fst_zip (by omega)]
    exact hrep

/-! ## Where the code fails -/

/-- C20 fails: once the log holds a group, an ungrouped edit cannot be undone: undo reports an error. -/
theorem undo_after_group_fails (d : Doc V F M) (hl : Plain d.log) (hd : d.log.depth = 0) (r : Req V F) (hr : r.IsEdit)
    (hs : r.Sees d.sheet) (g : Nat) (hg : some g ∈ d.log.groups) : ∃ d', d.step r = some d' ∧ d'.undo = none := by
  obtain ⟨e, d', h1, -, -, -, -, h6, h7, h8, h9⟩ := step_edit d hl r hr hs
  refine ⟨d', h1, ?_⟩
  have hst : d.log.stack = [] := List.length_eq_zero_iff.1 (by rw [hl.inv.depth, hd])
  rw [hst] at h7
  obtain ⟨a1, a2⟩ := zip_unzip _ _ h6.inv.aligned.groups.symm _ h7
  obtain ⟨-, b2⟩ := zip_unzip _ _ hl.inv.aligned.groups.symm d.log.tagged rfl
  have hgr : d'.log.groups = d.log.groups ++ [none] := by
    rw [a2, List.map_append, ← b2]; rfl
  have hlen : d'.log.events.length = d.log.groups.length + 1 := by
    rw [← h6.inv.aligned.groups, hgr]; simp
  have hhead : ∃ g', (d'.log.groups.reverse.filterMap id).head? = some g' ∧ some g' ∈ d.log.groups := by
    rw [hgr]
    simp only [List.reverse_append, List.reverse_cons, List.reverse_nil, List.nil_append, List.cons_append]
    rw [List.filterMap_cons_none rfl]
    cases hf : (d.log.groups.reverse.filterMap id) with
    | nil =>
      rw [List.filterMap_eq_nil_iff] at hf
      have := hf (some g) (by simpa using hg)
      simp at this
    | cons a t =>
      refine ⟨a, rfl, ?_⟩
      have : a ∈ d.log.groups.reverse.filterMap id := by rw [hf]; simp
      rw [List.mem_filterMap] at this
      obtain ⟨x, hx, hxa⟩ := this
      simp only [id] at hxa
      rw [hxa] at hx
      simpa using hx
  obtain ⟨g', hh, hg'⟩ := hhead
  have hlg : d'.log.lastGroup = (List.range d'.log.groups.length).filter fun i => d'.log.groups[i]? == some (some g') := by
    unfold Log.lastGroup; rw [hh]
  unfold Doc.undo
  simp only
  have hne : d'.log.lastGroup ≠ [] := by
    rw [hlg]
    obtain ⟨i, hi⟩ := List.getElem?_of_mem hg'
    have hi' := (List.getElem?_eq_some_iff.1 hi).1
    refine List.ne_nil_of_mem (a := i) (List.mem_filter.2 ⟨List.mem_range.2 (by rw [hgr]; simp; omega), ?_⟩)
    rw [hgr, List.getElem?_append_left hi', hi]; simp
  rw [if_neg hne, if_neg]
  intro hmax
  cases hm : d'.log.lastGroup.max? with
  | none => rw [hm] at hmax; simp at hmax
  | some k =>
    rw [hm] at hmax
    simp only [Option.map_some, Option.some.injEq] at hmax
    have hk := (List.max?_eq_some_iff.1 hm).1
    rw [hlg, List.mem_filter] at hk
    have := hk.2
    rw [hgr, show k = d.log.groups.length by omega] at this
    simp at this

private def blank : Sheet Nat Nat := { cell := fun _ => .empty, side := fun _ => none }

private def fresh : Doc Nat Nat Unit := Doc.new blank ()

/-- C20 fails: undo, redo, edit, undo. The redo logs its events as a group, so the next edit cannot be undone. -/
theorem redo_blocks_undo : ((fresh.step (.value 1 5 true none)).bind Doc.undo).bind Doc.redo ≠ none ∧
    ((((fresh.step (.value 1 5 true none)).bind Doc.undo).bind Doc.redo).bind fun d =>
      (d.step (.value 2 6 true none)).bind Doc.undo).isNone = true := by
  constructor
  · simp [fresh, Doc.step, Req.event, Doc.undo, Doc.redo]; decide
  · decide

/-- C20 fails: writing a formula over a value without capturing it; undo leaves the cell empty. -/
theorem formula_over_value_lost :
    (((fresh.step (.value 1 5 true none)).bind fun d => d.step (.formula 1 9 false none)).bind Doc.undo).map
      (fun d => d.sheet.cell 1) = some .empty := by decide

/-- C20 fails: a new edit does not discard the redo stack: redo after it overwrites the new content. -/
theorem stale_redo :
    ((((fresh.step (.value 1 5 true none)).bind Doc.undo).bind fun d => d.step (.value 1 7 true none)).bind Doc.redo).map
      (fun d => d.sheet.cell 1) = some (.value 5) := by decide

/-- C20 fails: a cap that evicts the beginning of an action leaves it half undone. -/
theorem cap_splits_action :
    (((Doc.steps { fresh with log := fresh.log.setCap (some 2) }
      [.begin "two cells", .value 1 5 true none, .value 2 6 true none, .stop]).bind Doc.undo).map
      fun d => (d.sheet.cell 1, d.sheet.cell 2)) = some (.value 5, .empty) := by decide

/-! ## Examples -/

/-- Two single edits, then a compound with a nested one: undone step by step. -/
example : (fresh.steps [.value 1 5 true none, .formula 2 8 true none, .begin "a", .value 1 6 true none, .begin "b",
    .formula 1 7 true none, .stop, .stop]).map (fun d => (d.sheet.cell 1, d.sheet.cell 2)) = some (.formula 7, .formula 8) ∧
    (((fresh.steps [.value 1 5 true none, .formula 2 8 true none, .begin "a", .value 1 6 true none, .begin "b",
      .formula 1 7 true none, .stop, .stop]).bind Doc.undo).map fun d => (d.sheet.cell 1, d.sheet.cell 2)) =
      some (.value 5, .formula 8) := by decide

example : Body 1 ([.value 1 6 true none, .begin "b", .formula 1 7 true none, .stop] : List (Req Nat Nat)) := by
  simp [Body]

end Verif.Undo
