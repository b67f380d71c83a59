/-
Property C65: as long as names are spelled as they are registered and no renaming is refused, the engine does what the
specification says.
-/
import Verif.Sheets.Store
import Mathlib.Tactic.Tauto

namespace Verif.Sheets

open Verif.Arena

variable {K V : Type} [DecidableEq K] {lower : String → String}

/-- Registry and storage fit together: every storage sheet belongs to a sheet of the registry, none twice.  (A sheet without
storage is an empty sheet.) -/
structure Aligned (lower : String → String) (w : Engine K V) : Prop where
  ok : w.reg.Ok lower
  nodup : (keys w.store).Nodup
  known : ∀ s ∈ keys w.store, s ≠ "" ∧ s ∈ w.reg.names

/-- The name is new, or spelled as it is registered. -/
def Spelled (lower : String → String) (g : Reg) (s : String) : Prop := s ≠ "" ∧ ∀ i, g.getId lower s = some i → g.name i = s

/-- The operations that are carried out as specified: names are spelled as registered, and sheets are renamed to free names (or
not at all). -/
def Careful (lower : String → String) (g : Reg) : Op K V → Prop
  | .add s => Spelled lower g s
  | .remove _ => True
  | .rename id new => g.name id = new ∨ g.getId lower new = none
  | .duplicate source _ => Spelled lower g source
  | .write s _ _ => Spelled lower g s

theorem name_getElem {g : Reg} {i : Nat} {s : String} (h : g.name i = s) (hs : s ≠ "") : g.names[i]? = some s := by
  unfold Reg.name at h
  cases hn : g.names[i]? with
  | none => rw [hn] at h; exact absurd h.symm hs
  | some n => rw [hn] at h; exact congrArg some h

theorem getId_of_name {g : Reg} (ok : g.Ok lower) {i : Nat} (h : g.name i ≠ "") : g.getId lower (g.name i) = some i :=
  ok.finds i _ (name_getElem rfl h) h

theorem getId_mem {g : Reg} (ok : g.Ok lower) {s : String} (h : s ∈ g.names) (hs : s ≠ "") : ∃ i, g.getId lower s = some i ∧ g.names[i]? = some s := by
  obtain ⟨i, hi⟩ := List.mem_iff_getElem?.1 h
  exact ⟨i, ok.finds i s hi hs, hi⟩

theorem book_getElem (w : Engine K V) (i : Nat) :
    w.book[i]? = (w.reg.names[i]?).map fun n => if n = "" then none else some (n, fun k => w.read n k) := by
  unfold Engine.book
  rw [List.getElem?_map]

theorem book_sheet (w : Engine K V) (i : Nat) :
    (w.book[i]?).join = if w.reg.name i = "" then none else some (w.reg.name i, fun k => w.formulaRead i k) := by
  rw [book_getElem]
  unfold Engine.formulaRead Reg.name
  cases w.reg.names[i]? with
  | none => rfl
  | some n => rfl

theorem lookup_eq (hl : Lower lower) {w : Engine K V} (ok : w.reg.Ok lower) {s : String} (hs : s ≠ "") :
    w.book.lookup lower s = w.reg.getId lower s := by
  have hls : lower s ≠ "" := fun e => hs ((hl s).1 e)
  have key : ∀ i, w.reg.getId lower s = some i ↔ ∃ n, w.reg.names[i]? = some n ∧ n ≠ "" ∧ lower n = lower s := by
    intro i
    constructor
    · intro h
      obtain ⟨n, h1, h2⟩ := ok.found _ _ h
      exact ⟨n, h1, fun e => hls (h2.symm.trans ((hl n).2 e)), h2⟩
    · rintro ⟨n, h1, h2, h3⟩
      have := ok.finds i n h1 h2
      rw [h3] at this
      exact this
  have pred : ∀ i (hi : i < w.book.length), (w.book[i].any fun p => decide (lower p.1 = lower s)) = true ↔ w.reg.getId lower s = some i := by
    intro i hi
    rw [key]
    have hi' : i < w.reg.names.length := by simpa [Engine.book] using hi
    have : w.book[i] = if w.reg.names[i] = "" then none else some (w.reg.names[i], fun k => w.read w.reg.names[i] k) := by
      simp [Engine.book]
    rw [this, List.getElem?_eq_getElem hi']
    split
    · next h => simp [h]
    · next h => simp [h]
  unfold Book.lookup
  cases hg : w.reg.getId lower s with
  | none =>
    rw [List.findIdx?_eq_none_iff]
    intro e he
    obtain ⟨i, hi, rfl⟩ := List.mem_iff_getElem.1 he
    cases hp : w.book[i].any fun p => decide (lower p.1 = lower s) with
    | false => rfl
    | true => rw [pred i hi, hg] at hp; cases hp
  | some i =>
    obtain ⟨n, hn, -⟩ := (key i).1 hg
    have hi : i < w.book.length := by simpa [Engine.book] using (List.getElem?_eq_some_iff.1 hn).1
    rw [List.findIdx?_eq_some_iff_getElem]
    refine ⟨hi, (pred i hi).2 hg, fun j hj hp => ?_⟩
    rw [pred j (by omega), hg] at hp
    cases hp
    omega

theorem read_eq {w : Engine K V} {s : String} {w' : Engine K V} {t : String} (h : find w'.store t = find w.store s) :
    (fun k => w'.read t k) = fun k => w.read s k := by
  funext k
  unfold Engine.read
  rw [h]

/-- Two engines give the same workbook if their registries have the same names and each name finds the same values. -/
theorem book_congr {w w' : Engine K V} (hr : w'.reg.names = w.reg.names) (hs : ∀ n ∈ w.reg.names, n ≠ "" → (fun k => w'.read n k) = fun k => w.read n k) :
    w'.book = w.book := by
  unfold Engine.book
  rw [hr]
  refine List.map_congr_left fun n hn => ?_
  split
  · rfl
  · next h => rw [hs n hn h]

theorem ensure_find (store : List (String × Cells K V)) (s t : String) :
    find (ensure store s) t = (find store t).or (if s = t then some noCells else none) := by
  unfold ensure
  split
  · next h =>
    by_cases e : s = t
    · subst e
      cases hf : find store s with
      | none => rw [hf] at h; cases h
      | some d => rfl
    · rw [if_neg e, Option.or_none]
  · rw [find_append]; rfl

theorem ensure_read (store : List (String × Cells K V)) (g g' : Reg) (s t : String) :
    (fun k => (⟨g, ensure store s⟩ : Engine K V).read t k) = fun k => (⟨g', store⟩ : Engine K V).read t k := by
  funext k
  unfold Engine.read
  dsimp only
  rw [ensure_find]
  cases find store t with
  | some d => rfl
  | none =>
    by_cases e : s = t
    · rw [if_pos e]; rfl
    · rw [if_neg e]; rfl

theorem ensure_keys (store : List (String × Cells K V)) (s t : String) : t ∈ keys (ensure store s) ↔ t ∈ keys store ∨ t = s := by
  unfold ensure
  split
  · next h =>
    refine ⟨Or.inl, fun h' => ?_⟩
    rcases h' with h' | rfl
    · exact h'
    · by_contra hc
      rw [find_none.2 hc] at h
      cases h
  · simp

theorem ensure_nodup {store : List (String × Cells K V)} {s : String} (h : (keys store).Nodup) : (keys (ensure store s)).Nodup := by
  unfold ensure
  split
  · exact h
  · next hs =>
    have : s ∉ keys store := find_none.1 (by simpa using hs)
    simp only [keys, List.map_append, List.map_cons, List.map_nil]
    rw [List.nodup_append]
    refine ⟨h, by simp, ?_⟩
    intro a ha b hb e
    simp only [List.mem_cons, List.not_mem_nil, or_false] at hb
    exact this (hb ▸ e ▸ ha)

theorem idFor_old {g : Reg} {s : String} {i : Nat} (h : g.getId lower s = some i) : (g.idFor lower s).1 = g := by
  unfold Reg.getId at h
  unfold Reg.idFor
  rw [h]

theorem idFor_new {g : Reg} {s : String} (h : g.getId lower s = none) : (g.idFor lower s).1.names = g.names ++ [s] := by
  unfold Reg.getId at h
  unfold Reg.idFor
  rw [h]

/-- A new name that the registry does not have is not in the storage. -/
theorem Aligned.free {w : Engine K V} (h : Aligned lower w) {s : String} (hs : w.reg.getId lower s = none) : s ∉ keys w.store := by
  intro hm
  obtain ⟨h1, h2⟩ := h.known s hm
  obtain ⟨i, h3, -⟩ := getId_mem h.ok h2 h1
  rw [hs] at h3
  cases h3

/-- Another sheet of the registry has another name. -/
theorem names_ne {g : Reg} (ok : g.Ok lower) {i j : Nat} {n : String} (hi : g.names[i]? = some n) (hj : g.names[j]? = some n) (hn : n ≠ "") : i = j := by
  have h1 := ok.finds i n hi hn
  rw [ok.finds j n hj hn] at h1
  exact (Option.some.inj h1).symm

/-! ### The operations -/

/-- Making sure that a sheet is there, as `add` and `write` do. -/
theorem added (hl : Lower lower) {w : Engine K V} (h : Aligned lower w) {s : String} (hs : Spelled lower w.reg s) (hn : w.reg.names.length < 2 ^ 16) :
    Aligned lower ⟨(w.reg.idFor lower s).1, ensure w.store s⟩ ∧
      (⟨(w.reg.idFor lower s).1, ensure w.store s⟩ : Engine K V).book =
        if (w.book.lookup lower s).isSome then w.book else w.book ++ [some (s, noCells)] := by
  have hok := Reg.idFor_ok h.ok s hn
  rw [lookup_eq hl h.ok hs.1]
  cases hg : w.reg.getId lower s with
  | some i =>
    have hi := hs.2 i hg
    have hmem : s ∈ w.reg.names := List.mem_of_getElem? (name_getElem hi hs.1)
    refine ⟨⟨hok, ensure_nodup h.nodup, fun t ht => ?_⟩, ?_⟩
    · dsimp only at ht ⊢
      rw [idFor_old hg]
      rcases (ensure_keys _ _ _).1 ht with ht | rfl
      · exact h.known t ht
      · exact ⟨hs.1, hmem⟩
    · rw [if_pos (show (some i).isSome = true from rfl)]
      exact book_congr (by rw [idFor_old hg]) fun n _ _ => ensure_read w.store _ _ s n
  | none =>
    refine ⟨⟨hok, ensure_nodup h.nodup, fun t ht => ?_⟩, ?_⟩
    · dsimp only at ht ⊢
      rw [idFor_new hg]
      rcases (ensure_keys _ _ _).1 ht with ht | rfl
      · exact ⟨(h.known t ht).1, List.mem_append_left _ (h.known t ht).2⟩
      · exact ⟨hs.1, by simp⟩
    · rw [if_neg (by simp)]
      unfold Engine.book
      dsimp only
      rw [idFor_new hg, List.map_append, List.map_cons, List.map_nil, if_neg hs.1]
      congr 1
      · refine List.map_congr_left fun n _ => ?_
        rw [ensure_read w.store _ w.reg s n]
      · rw [ensure_read w.store _ w.reg s s]
        have : (fun k => (⟨w.reg, w.store⟩ : Engine K V).read s k) = noCells := by
          funext k
          unfold Engine.read
          dsimp only
          rw [find_none.2 (h.free hg)]
          rfl
        rw [this]

theorem step_add (hl : Lower lower) {w : Engine K V} (h : Aligned lower w) {s : String} (hs : Spelled lower w.reg s)
    (hn : w.reg.names.length < 2 ^ 16) :
    Aligned lower (w.step lower (.add s)).1 ∧ ((w.step lower (.add s)).1.book, (w.step lower (.add s)).2) = w.book.step lower (.add s) := by
  obtain ⟨h1, h2⟩ := added hl h hs hn
  refine ⟨h1, ?_⟩
  simp only [Engine.step, Book.step]
  rw [h2]
  split <;> rfl

theorem step_remove {w : Engine K V} (h : Aligned lower w) (id : Nat) :
    Aligned lower (w.step lower (.remove id)).1 ∧
      ((w.step lower (.remove id)).1.book, (w.step lower (.remove id)).2) = w.book.step lower (.remove id) := by
  have hcount : (w.book.filter (·.isSome)).length = (w.reg.names.filter (· ≠ "")).length := by
    unfold Engine.book
    rw [List.filter_map, List.length_map]
    congr 1
    refine List.filter_congr fun n _ => ?_
    simp only [Function.comp]
    split <;> simp_all
  simp only [Engine.step, Book.step, graphRemove]
  rw [book_sheet, hcount]
  by_cases h1 : w.reg.name id = ""
  · rw [if_pos h1, if_pos h1, if_pos (Or.inl rfl)]
    exact ⟨h, rfl⟩
  · rw [if_neg h1, if_neg h1]
    by_cases h2 : (w.reg.names.filter (· ≠ "")).length ≤ 1
    · rw [if_pos h2, if_pos (Or.inr h2)]
      exact ⟨h, rfl⟩
    · rw [if_neg h2, if_neg (by rintro (e | e); cases e; exact h2 e)]
      have hg := name_getElem (g := w.reg) (i := id) rfl h1
      have hr : w.reg.remove lower id = some ⟨fun k => if k = lower (w.reg.name id) then none else w.reg.ids k, w.reg.names.set id ""⟩ := by
        unfold Reg.remove
        rw [hg]
        dsimp only
        rw [if_neg h1]
      have hok := Reg.remove_ok h.ok hr
      rw [hr]
      dsimp only
      have hlt : id < w.reg.names.length := (List.getElem?_eq_some_iff.1 hg).1
      refine ⟨⟨hok, ?_, fun t ht => ?_⟩, ?_⟩
      · exact h.nodup.sublist (List.Sublist.map _ List.filter_sublist)
      · dsimp only at ht ⊢
        have hf : find (w.store.filter (·.1 ≠ w.reg.name id)) t ≠ none := fun e => find_none.1 e ht
        rw [find_filter] at hf
        split at hf
        · exact absurd rfl hf
        · next hne =>
          have hm : t ∈ keys w.store := by
            by_contra hc
            exact hf (find_none.2 hc)
          obtain ⟨k1, k2⟩ := h.known t hm
          refine ⟨k1, ?_⟩
          obtain ⟨j, hj⟩ := List.mem_iff_getElem?.1 k2
          refine List.mem_of_getElem? (i := j) ?_
          rw [List.getElem?_set_ne, hj]
          rintro rfl
          rw [hg] at hj
          exact hne (Option.some.inj hj).symm
      · congr 1
        apply List.ext_getElem?
        intro j
        rw [book_getElem]
        dsimp only
        by_cases hj : j = id
        · subst hj
          rw [List.getElem?_set_self hlt, List.getElem?_set_self (by simpa [Engine.book] using hlt)]
          rfl
        · rw [List.getElem?_set_ne (fun e => hj e.symm), List.getElem?_set_ne (fun e => hj e.symm), book_getElem]
          cases hn : w.reg.names[j]? with
          | none => rfl
          | some n =>
            simp only [Option.map_some]
            split
            · rfl
            · next hne =>
              rw [read_eq (w := w) (s := n)]
              dsimp only
              rw [find_filter, if_neg]
              rintro rfl
              exact hj (names_ne h.ok hn hg h1)

theorem step_rename (hl : Lower lower) {w : Engine K V} (h : Aligned lower w) {id : Nat} {new : String}
    (hc : w.reg.name id = new ∨ w.reg.getId lower new = none) :
    Aligned lower (w.step lower (.rename id new)).1 ∧
      ((w.step lower (.rename id new)).1.book, (w.step lower (.rename id new)).2) = w.book.step lower (.rename id new) := by
  simp only [Engine.step, Book.step]
  rw [book_sheet]
  by_cases h1 : w.reg.name id = ""
  · -- no such sheet
    have hgr : graphRename lower w.reg id new = none := by simp [graphRename, h1]
    rw [hgr, if_pos h1]
    dsimp only
    have hback : renameFirst (renameFirst w.store (w.reg.name id) new) new (w.reg.name id) = w.store := by
      rcases hc with hc | hc
      · rw [hc, renameFirst_self, renameFirst_self]
      · exact renameFirst_back (h.free hc)
    rw [hback]
    exact ⟨h, rfl⟩
  · rw [if_neg h1]
    by_cases h2 : new = "" ∨ 255 < new.utf8ByteSize
    · have hback : renameFirst (renameFirst w.store (w.reg.name id) new) new (w.reg.name id) = w.store := by
        rcases hc with hc | hc
        · rw [hc, renameFirst_self, renameFirst_self]
        · exact renameFirst_back (h.free hc)
      have hgr : graphRename lower w.reg id new = none := by unfold graphRename; rw [if_pos h2]
      rw [hgr]
      dsimp only
      rw [if_pos (by tauto)]
      rw [hback]
      exact ⟨h, rfl⟩
    · have hne : new ≠ "" := fun e => h2 (Or.inl e)
      have hg := name_getElem (g := w.reg) (i := id) rfl h1
      have hlt : id < w.reg.names.length := (List.getElem?_eq_some_iff.1 hg).1
      rw [lookup_eq hl h.ok hne]
      rcases hc with hc | hc
      · -- its own name
        have hid : w.reg.getId lower new = some id := by rw [← hc]; exact getId_of_name h.ok h1
        have hgr : graphRename lower w.reg id new = some w.reg := by
          unfold graphRename
          rw [if_neg h2, if_neg h1, hid]
          dsimp only
          rw [if_neg (by simp)]
        rw [hgr, hid]
        dsimp only
        rw [if_neg (by simpa [not_or] using h2), hc, renameFirst_self]
        refine ⟨h, ?_⟩
        congr 1
        apply List.ext_getElem?
        intro j
        by_cases hj : j = id
        · subst hj
          rw [List.getElem?_set_self (by simpa [Engine.book] using hlt), book_getElem, hg, Option.map_some, if_neg h1, hc]
          unfold Engine.formulaRead
          rw [hc]
        · rw [List.getElem?_set_ne (fun e => hj e.symm)]
      · -- a free name
        have hr : w.reg.rename lower id new = some ⟨fun k => if k = lower new then some id else if k = lower (w.reg.name id) then none else w.reg.ids k,
            w.reg.names.set id new⟩ := by
          unfold Reg.rename
          rw [hg]
          dsimp only
          unfold Reg.getId at hc
          rw [hc]
          rfl
        have hok := Reg.rename_ok hl h.ok hr
        have hgr : graphRename lower w.reg id new = w.reg.rename lower id new := by
          unfold graphRename
          rw [if_neg h2, if_neg h1, hc]
        rw [hgr, hc, hr]
        dsimp only
        have hold : w.reg.name id ≠ new := fun e => by
          have := getId_of_name h.ok h1
          rw [e, hc] at this
          cases this
        rw [if_neg (by simpa [not_or] using h2)]
        refine ⟨⟨hok, nodup_renameFirst h.nodup (h.free hc), fun t ht => ?_⟩, ?_⟩
        · dsimp only at ht ⊢
          rcases mem_keys_renameFirst h.nodup ht with rfl | ⟨hm, hto⟩
          · exact ⟨hne, List.mem_of_getElem? (List.getElem?_set_self hlt)⟩
          · obtain ⟨k1, k2⟩ := h.known t hm
            refine ⟨k1, ?_⟩
            obtain ⟨j, hj⟩ := List.mem_iff_getElem?.1 k2
            refine List.mem_of_getElem? (i := j) ?_
            rw [List.getElem?_set_ne, hj]
            rintro rfl
            rw [hg] at hj
            exact hto (Option.some.inj hj).symm
        · congr 1
          apply List.ext_getElem?
          intro j
          rw [book_getElem]
          dsimp only
          by_cases hj : j = id
          · subst hj
            rw [List.getElem?_set_self hlt, List.getElem?_set_self (by simpa [Engine.book] using hlt), Option.map_some, if_neg hne]
            rw [read_eq (w := w) (s := w.reg.name j) (find_renameFirst_new (h.free hc))]
            rfl
          · rw [List.getElem?_set_ne (fun e => hj e.symm), List.getElem?_set_ne (fun e => hj e.symm), book_getElem]
            cases hn : w.reg.names[j]? with
            | none => rfl
            | some n =>
              simp only [Option.map_some]
              split
              · rfl
              · next hnn =>
                rw [read_eq (w := w) (s := n)]
                dsimp only
                refine find_renameFirst_other ?_ ?_
                · rintro rfl; exact hj (names_ne h.ok hn hg h1)
                · rintro rfl
                  have := h.ok.finds j n hn hnn
                  unfold Reg.getId at hc
                  rw [this] at hc
                  cases hc


theorem step_duplicate (hl : Lower lower) {w : Engine K V} (h : Aligned lower w) {source new : String} (hs : Spelled lower w.reg source)
    (hn : w.reg.names.length < 2 ^ 16) :
    Aligned lower (w.step lower (.duplicate source new)).1 ∧
      ((w.step lower (.duplicate source new)).1.book, (w.step lower (.duplicate source new)).2) = w.book.step lower (.duplicate source new) := by
  simp only [Engine.step, Book.step]
  rw [lookup_eq hl h.ok hs.1]
  cases hsrc : w.reg.getId lower source with
  | none =>
    rw [if_pos (Or.inl rfl)]
    exact ⟨h, rfl⟩
  | some i =>
    have hi := hs.2 i hsrc
    rw [Option.bind_some, book_sheet, if_neg (show ¬ w.reg.name i = "" by rw [hi]; exact hs.1)]
    dsimp only
    by_cases h2 : new = "" ∨ 255 < new.utf8ByteSize
    · rw [if_pos (by tauto), if_pos (by tauto)]
      exact ⟨h, rfl⟩
    · have hne : new ≠ "" := fun e => h2 (Or.inl e)
      rw [lookup_eq hl h.ok hne]
      cases hg : w.reg.getId lower new with
      | some j =>
        rw [if_pos (by simp), if_pos (by simp)]
        exact ⟨h, rfl⟩
      | none =>
        rw [if_neg (by simpa [not_or] using h2), if_neg (by simpa [not_or] using h2)]
        have hsp : Spelled lower w.reg new := ⟨hne, fun j hj => by rw [hg] at hj; cases hj⟩
        have hok := Reg.idFor_ok h.ok new hn
        have hfree := h.free hg
        have hread : (fun k => w.formulaRead i k) = fun k => w.read source k := by
          unfold Engine.formulaRead
          rw [hi]
        cases hf : find w.store source with
        | none =>
          obtain ⟨a1, a2⟩ := added hl h hsp hn
          refine ⟨a1, ?_⟩
          dsimp only
          rw [a2, lookup_eq hl h.ok hne, hg, if_neg (by simp), hread]
          have : (fun k => w.read source k) = noCells := by
            funext k
            unfold Engine.read
            rw [hf]
            rfl
          rw [this]
        | some d =>
          dsimp only
          refine ⟨⟨hok, ?_, fun t ht => ?_⟩, ?_⟩
          · simp only [keys, List.map_append, List.map_cons, List.map_nil]
            rw [List.nodup_append]
            refine ⟨h.nodup, by simp, ?_⟩
            intro a ha b hb e
            simp only [List.mem_cons, List.not_mem_nil, or_false] at hb
            exact hfree (hb ▸ e ▸ ha)
          · dsimp only at ht ⊢
            rw [idFor_new hg]
            simp only [keys, List.map_append, List.map_cons, List.map_nil, List.mem_append, List.mem_cons, List.not_mem_nil, or_false] at ht
            rcases ht with ht | rfl
            · exact ⟨(h.known t ht).1, List.mem_append_left _ (h.known t ht).2⟩
            · exact ⟨hne, by simp⟩
          · unfold Engine.book
            dsimp only
            rw [idFor_new hg, List.map_append, List.map_cons, List.map_nil, if_neg hne]
            have hother : ∀ n, n ≠ new → find (w.store ++ [(new, d)]) n = find w.store n := by
              intro n hnn
              rw [find_append, find, if_neg (fun e => hnn e.symm), find, Option.or_none]
            have hnew : find (w.store ++ [(new, d)]) new = find w.store source := by
              rw [find_append, find_none.2 hfree, hf, find, if_pos rfl]
              rfl
            congr 2
            · refine List.map_congr_left fun n hm => ?_
              split
              · rfl
              · next hnn =>
                rw [read_eq (w := w) (s := n)]
                refine hother n ?_
                rintro rfl
                obtain ⟨j, hj, -⟩ := getId_mem h.ok hm hnn
                rw [hg] at hj
                cases hj
            · rw [read_eq (w := w) (s := source) hnew, hread]

theorem step_write (hl : Lower lower) {w : Engine K V} (h : Aligned lower w) {s : String} {cell : K} {v : Option V} (hs : Spelled lower w.reg s)
    (hn : w.reg.names.length < 2 ^ 16) :
    Aligned lower (w.step lower (.write s cell v)).1 ∧
      ((w.step lower (.write s cell v)).1.book, (w.step lower (.write s cell v)).2) = w.book.step lower (.write s cell v) := by
  obtain ⟨h1, h2⟩ := added hl h hs hn
  simp only [Engine.step, Book.step]
  rw [← h2, lookup_eq hl h1.ok hs.1]
  have hid : ∃ i, (w.reg.idFor lower s).1.getId lower s = some i ∧ (w.reg.idFor lower s).1.name i = s := by
    cases hg : w.reg.getId lower s with
    | some i => exact ⟨i, by rw [idFor_old hg]; exact hg, by rw [idFor_old hg]; exact hs.2 i hg⟩
    | none =>
      obtain ⟨i, a, b⟩ := getId_mem (g := (w.reg.idFor lower s).1) h1.ok (by rw [idFor_new hg]; simp) hs.1
      exact ⟨i, a, by unfold Reg.name; rw [b]; rfl⟩
  obtain ⟨i, hi, hname⟩ := hid
  dsimp only
  rw [hi]
  dsimp only
  refine ⟨⟨h1.ok, by dsimp only; rw [keys_modifyFirst]; exact h1.nodup, fun t ht => ?_⟩, ?_⟩
  · dsimp only at ht
    rw [keys_modifyFirst] at ht
    exact h1.known t ht
  · congr 1
    apply List.ext_getElem?
    intro j
    rw [book_getElem, List.getElem?_modify, book_getElem]
    dsimp only
    cases hj : (w.reg.idFor lower s).1.names[j]? with
    | none => simp
    | some n =>
      simp only [Option.map_some, Option.map_eq_map]
      by_cases e : i = j
      · subst e
        have hns : n = s := by
          unfold Reg.name at hname
          rw [hj] at hname
          exact hname
        subst hns
        rw [if_pos rfl, if_neg hs.1, if_neg hs.1, Option.map_some]
        refine congrArg (fun x => some (some (n, x))) ?_
        funext k
        unfold Engine.read
        dsimp only
        rw [find_modifyFirst, if_pos rfl]
        have hf : ∃ d, find (ensure w.store n) n = some d := by
          rw [ensure_find, if_pos rfl]
          cases find w.store n with
          | none => exact ⟨_, rfl⟩
          | some d => exact ⟨d, rfl⟩
        obtain ⟨d, hd⟩ := hf
        rw [hd]
        rfl
      · rw [if_neg e]
        split
        · rfl
        · next hne =>
          refine congrArg (fun x => some (some (n, x))) ?_
          funext k
          unfold Engine.read
          dsimp only
          rw [find_modifyFirst, if_neg]
          rintro rfl
          exact e (names_ne h1.ok (name_getElem hname hs.1) hj hs.1)

/-! ### Histories -/

/-- A history of operations. -/
def Engine.run (lower : String → String) (w : Engine K V) (ops : List (Op K V)) : Engine K V := ops.foldl (fun w op => (w.step lower op).1) w

/-- A history of operations, as specified. -/
def Book.run (lower : String → String) (b : Book K V) (ops : List (Op K V)) : Book K V := ops.foldl (fun b op => (b.step lower op).1) b

/-- Every operation of the history is careful when its turn comes. -/
def AllCareful (lower : String → String) : Engine K V → List (Op K V) → Prop
  | _, [] => True
  | w, op :: ops => Careful lower w.reg op ∧ AllCareful lower (w.step lower op).1 ops

/-- An engine without sheets. -/
def Engine.new : Engine K V := ⟨Reg.new, []⟩

theorem step_names (w : Engine K V) (op : Op K V) : (w.step lower op).1.reg.names.length ≤ w.reg.names.length + 1 := by
  have hid : ∀ s, (w.reg.idFor lower s).1.names.length ≤ w.reg.names.length + 1 := by
    intro s
    cases hg : w.reg.getId lower s with
    | some i => rw [idFor_old hg]; omega
    | none => rw [idFor_new hg]; simp
  cases op with
  | add s => exact hid s
  | write s _ _ => exact hid s
  | remove id =>
    simp only [Engine.step]
    cases hr : graphRemove lower w.reg id with
    | none => simp
    | some g =>
      unfold graphRemove at hr
      split at hr
      · cases hr
      · split at hr
        · cases hr
        · have := Reg.step_names (lower := lower) w.reg (.remove id)
          rw [Reg.step, hr] at this
          exact this
  | rename id new =>
    simp only [Engine.step]
    cases hr : graphRename lower w.reg id new with
    | none => simp
    | some g =>
      unfold graphRename at hr
      split at hr
      · cases hr
      · split at hr
        · cases hr
        · split at hr
          · split at hr
            · cases hr
            · cases hr; simp
          · have := Reg.step_names (lower := lower) w.reg (.rename id new)
            rw [Reg.step, hr] at this
            exact this
  | duplicate source new =>
    simp only [Engine.step]
    split
    · simp
    · split <;> exact hid new

theorem step_refines (hl : Lower lower) {w : Engine K V} (h : Aligned lower w) {op : Op K V} (hc : Careful lower w.reg op)
    (hn : w.reg.names.length < 2 ^ 16) :
    Aligned lower (w.step lower op).1 ∧ ((w.step lower op).1.book, (w.step lower op).2) = w.book.step lower op := by
  cases op with
  | add s => exact step_add hl h hc hn
  | remove id => exact step_remove h id
  | rename id new => exact step_rename hl h hc
  | duplicate source new => exact step_duplicate hl h hc hn
  | write s cell v => exact step_write hl h hc hn

theorem run_refines (hl : Lower lower) : ∀ (ops : List (Op K V)) {w : Engine K V}, Aligned lower w → AllCareful lower w ops →
    w.reg.names.length + ops.length ≤ 2 ^ 16 → Aligned lower (w.run lower ops) ∧ (w.run lower ops).book = w.book.run lower ops
  | [], w, h, _, _ => ⟨h, rfl⟩
  | op :: ops, w, h, hc, hn => by
    simp only [List.length_cons] at hn
    have h0 := step_names (lower := lower) w op
    obtain ⟨h1, h2⟩ := step_refines hl h hc.1 (by omega)
    obtain ⟨h3, h4⟩ := run_refines hl ops h1 hc.2 (by omega)
    refine ⟨h3, h4.trans ?_⟩
    rw [show (w.step lower op).1.book = (w.book.step lower op).1 from congrArg Prod.fst h2]
    rfl

theorem new_aligned : Aligned lower (Engine.new : Engine K V) :=
  ⟨Reg.new_ok lower, List.nodup_nil, fun _ h => (by cases h)⟩

end Verif.Sheets
