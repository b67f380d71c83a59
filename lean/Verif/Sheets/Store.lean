/-
Lemmas on the list of storage sheets.
-/
import Verif.Sheets.Model

namespace Verif.Sheets

open Verif.Arena

variable {D : Type}

/-- The names of the storage sheets. -/
abbrev keys (l : List (String × D)) : List String := l.map (·.1)

theorem find_none {l : List (String × D)} {s : String} : find l s = none ↔ s ∉ keys l := by
  induction l with
  | nil => simp [find]
  | cons p l ih =>
    obtain ⟨n, d⟩ := p
    unfold find
    split
    · next h => simp [h]
    · next h => simp only [ih, keys, List.map_cons, List.mem_cons, not_or]; exact ⟨fun x => ⟨fun e => h e.symm, x⟩, fun x => x.2⟩

theorem renameFirst_missing {l : List (String × D)} {a b : String} (h : a ∉ keys l) : renameFirst l a b = l := by
  induction l with
  | nil => rfl
  | cons p l ih =>
    obtain ⟨n, d⟩ := p
    simp only [keys, List.map_cons, List.mem_cons, not_or] at h
    unfold renameFirst
    rw [if_neg (fun e => h.1 e.symm), ih h.2]

theorem renameFirst_self (l : List (String × D)) (a : String) : renameFirst l a a = l := by
  induction l with
  | nil => rfl
  | cons p l ih =>
    obtain ⟨n, d⟩ := p
    unfold renameFirst
    split
    · next h => rw [h]
    · rw [ih]

/-- Renaming to a free name and back. -/
theorem renameFirst_back {l : List (String × D)} {a b : String} (h : b ∉ keys l) : renameFirst (renameFirst l a b) b a = l := by
  induction l with
  | nil => rfl
  | cons p l ih =>
    obtain ⟨n, d⟩ := p
    simp only [keys, List.map_cons, List.mem_cons, not_or] at h
    by_cases hn : n = a
    · subst hn
      rw [renameFirst, if_pos rfl, renameFirst, if_pos rfl]
    · rw [renameFirst, if_neg hn, renameFirst, if_neg (fun e => h.1 e.symm), ih h.2]

theorem find_renameFirst_other {l : List (String × D)} {a b s : String} (ha : s ≠ a) (hb : s ≠ b) : find (renameFirst l a b) s = find l s := by
  induction l with
  | nil => rfl
  | cons p l ih =>
    obtain ⟨n, d⟩ := p
    unfold renameFirst
    split
    · next h => rw [find, if_neg (fun e => hb e.symm), find, if_neg (fun e => ha (h ▸ e.symm))]
    · rw [find, find, ih]

theorem find_renameFirst_new {l : List (String × D)} {a b : String} (hb : b ∉ keys l) : find (renameFirst l a b) b = find l a := by
  induction l with
  | nil => rfl
  | cons p l ih =>
    obtain ⟨n, d⟩ := p
    simp only [keys, List.map_cons, List.mem_cons, not_or] at hb
    unfold renameFirst
    split
    · next h => rw [find, if_pos rfl, find, if_pos h]
    · next h => rw [find, if_neg (fun e => hb.1 e.symm), find, if_neg h, ih hb.2]

theorem find_renameFirst_old {l : List (String × D)} {a b : String} (hn : (keys l).Nodup) (hab : a ≠ b) : find (renameFirst l a b) a = none := by
  induction l with
  | nil => rfl
  | cons p l ih =>
    obtain ⟨n, d⟩ := p
    simp only [keys, List.map_cons, List.nodup_cons] at hn
    unfold renameFirst
    split
    · next h => rw [find, if_neg (fun e => hab e.symm)]; exact find_none.2 (h ▸ hn.1)
    · next h => rw [find, if_neg h, ih hn.2]

theorem mem_keys_renameFirst {l : List (String × D)} {a b s : String} (hn : (keys l).Nodup) (hs : s ∈ keys (renameFirst l a b)) :
    s = b ∨ (s ∈ keys l ∧ s ≠ a) := by
  by_cases hb : s = b
  · exact Or.inl hb
  · refine Or.inr ⟨?_, ?_⟩
    · by_contra hc
      by_cases ha : s = a
      · subst ha; rw [renameFirst_missing hc] at hs; exact hc hs
      · exact find_none.1 ((find_renameFirst_other ha hb).trans (find_none.2 hc)) hs
    · intro ha
      subst ha
      exact find_none.1 (find_renameFirst_old hn hb) hs

theorem nodup_renameFirst {l : List (String × D)} {a b : String} (hn : (keys l).Nodup) (hb : b ∉ keys l) : (keys (renameFirst l a b)).Nodup := by
  induction l with
  | nil => exact hn
  | cons p l ih =>
    obtain ⟨n, d⟩ := p
    simp only [keys, List.map_cons, List.mem_cons, not_or, List.nodup_cons] at hn hb
    unfold renameFirst
    split
    · simp only [keys, List.map_cons, List.nodup_cons]; exact ⟨hb.2, hn.2⟩
    · next h =>
      simp only [keys, List.map_cons, List.nodup_cons]
      refine ⟨fun hm => ?_, ih hn.2 hb.2⟩
      rcases mem_keys_renameFirst hn.2 hm with e | ⟨e, -⟩
      · exact hb.1 e.symm
      · exact hn.1 e

theorem find_append {l m : List (String × D)} {s : String} : find (l ++ m) s = (find l s).or (find m s) := by
  induction l with
  | nil => rfl
  | cons p l ih =>
    obtain ⟨n, d⟩ := p
    rw [List.cons_append, find, find]
    split
    · rfl
    · exact ih

theorem find_filter {l : List (String × D)} {a s : String} : find (l.filter (·.1 ≠ a)) s = if s = a then none else find l s := by
  induction l with
  | nil => simp [find]
  | cons p l ih =>
    obtain ⟨n, d⟩ := p
    by_cases h : n = a
    · rw [List.filter_cons_of_neg (by simpa using h), ih]
      split
      · rfl
      · next hs => rw [find, if_neg (show ¬ n = s from fun e => hs (e.symm.trans h))]
    · rw [List.filter_cons_of_pos (by simpa using h), find, ih]
      split
      · next e => subst e; rw [if_neg h, find, if_pos rfl]
      · next e => rw [find, if_neg e]

theorem keys_modifyFirst {l : List (String × D)} {a : String} {f : D → D} : keys (modifyFirst l a f) = keys l := by
  induction l with
  | nil => rfl
  | cons p l ih =>
    obtain ⟨n, d⟩ := p
    unfold modifyFirst
    split
    · rfl
    · simp only [keys, List.map_cons] at ih ⊢; rw [ih]

theorem find_modifyFirst {l : List (String × D)} {a s : String} {f : D → D} :
    find (modifyFirst l a f) s = if s = a then (find l s).map f else find l s := by
  induction l with
  | nil => simp [modifyFirst, find]
  | cons p l ih =>
    obtain ⟨n, d⟩ := p
    unfold modifyFirst
    by_cases h : n = a
    · rw [if_pos h, find, find]
      by_cases hs : n = s
      · rw [if_pos hs, if_pos hs, if_pos (hs.symm.trans h)]; rfl
      · rw [if_neg hs, if_neg hs, if_neg (fun e => hs (h.trans e.symm))]
    · rw [if_neg h, find, find, ih]
      by_cases hs : n = s
      · rw [if_pos hs, if_pos hs, if_neg (fun e => h (hs.trans e))]
      · rw [if_neg hs, if_neg hs]

/-- The first of two names in the list. -/
def firstOf : List (String × D) → String → String → Option String
  | [], _, _ => none
  | (n, _) :: l, a, b => if n = a then some a else if n = b then some b else firstOf l a b

/-- A renaming to a name that is taken, and back: if the other sheet comes first, the two change places. -/
theorem renameFirst_swap {l : List (String × D)} {a b : String} (hn : (keys l).Nodup) (hab : a ≠ b) (hf : firstOf l a b = some b) :
    find (renameFirst (renameFirst l a b) b a) a = find l b ∧ find (renameFirst (renameFirst l a b) b a) b = find l a := by
  induction l with
  | nil => cases hf
  | cons p l ih =>
    obtain ⟨n, d⟩ := p
    simp only [keys, List.map_cons, List.nodup_cons] at hn
    unfold firstOf at hf
    split at hf
    · cases hf; exact absurd rfl hab
    · next h =>
      split at hf
      · next hb =>
        subst hb
        rw [renameFirst, if_neg h, renameFirst, if_pos rfl, find, if_pos rfl, find, if_pos rfl, find, if_neg hab, find, if_neg h]
        exact ⟨rfl, find_renameFirst_new hn.1⟩
      · next hb =>
        rw [renameFirst, if_neg h, renameFirst, if_neg hb, find, if_neg h, find, if_neg hb, find, if_neg hb, find, if_neg h]
        exact ih hn.2 hf

/-- If the sheet itself comes first, or the other is not stored, nothing changes. -/
theorem renameFirst_noswap {l : List (String × D)} {a b : String} (hab : a ≠ b) (hf : firstOf l a b ≠ some b) :
    renameFirst (renameFirst l a b) b a = l := by
  induction l with
  | nil => rfl
  | cons p l ih =>
    obtain ⟨n, d⟩ := p
    unfold firstOf at hf
    by_cases h : n = a
    · subst h; rw [renameFirst, if_pos rfl, renameFirst, if_pos rfl]
    · rw [if_neg h] at hf
      by_cases hb : n = b
      · rw [if_pos hb] at hf; exact absurd rfl hf
      · rw [if_neg hb] at hf
        rw [renameFirst, if_neg h, renameFirst, if_neg hb, ih hf]

end Verif.Sheets
