/-
Property C63, the theorems: formulas are kept, and what is not.
-/
import Verif.Arena.Registry

namespace Verif.Arena

variable {F : Type} {C : Chrono F} {E : Ext3}

/-- Formulas stored one after the other (data_store.rs 60-75, `store_asts_batch`), each with the registry of its time. -/
def storeAll (H : Hashes E) (a : Asts F E) : List (Names × Ast C E) → Option (Asts F E × List Nat)
  | [] => some (a, [])
  | (N, e) :: es =>
    match convert H N a e with
    | none => none
    | some (a, id) =>
      match storeAll H a es with
      | none => none
      | some (a, ids) => some (a, id :: ids)

theorem storeAll_ext {H : Hashes E} : ∀ (es : List (Names × Ast C E)) {a a' : Asts F E} {ids : List Nat},
    storeAll H a es = some (a', ids) → AExt a a'
  | [], a, a', ids, h => by cases h; exact AExt.refl _
  | (N, e) :: es, a, a', ids, h => by
    unfold storeAll at h
    split at h
    · cases h
    · next a1 i1 h1 =>
      split at h
      · cases h
      · next a2 i2 h2 => cases h; exact (convert_ext e h1).trans (storeAll_ext es h2)

theorem storeAll_reads {H : Hashes E} (N' : Names) : ∀ (es : List (Names × Ast C E)) {a : Asts F E}, (∀ p ∈ es, Kept p.2) → a.Ok →
    a.Room (es.map fun p => sizeAst p.2).sum →
    ∃ a' ids, storeAll H a es = some (a', ids) ∧ a'.Ok ∧ a'.Fits ∧
      ∀ a'', AExt a' a'' → List.Forall₂ (fun id p => ReadsAst N' a'' id (rename (later p.1 N') p.2)) ids es
  | [], a, _, hok, hr => ⟨a, [], rfl, hok, hr.fits, fun _ _ => .nil⟩
  | (N, e) :: es, a, hk, hok, hr => by
    simp only [List.map_cons, List.sum_cons] at hr
    obtain ⟨a1, i1, h1⟩ := convert_succeeds (H := H) (N := N) e (hk (N, e) (by simp)) hok (hr.mono (by omega))
    have hr1 := (convert_grows e h1).room hr
    obtain ⟨ok1, r1⟩ := convert_reads (N' := N') e h1 hok hr1.fits
    obtain ⟨a2, ids, h2, ok2, f2, r2⟩ := storeAll_reads N' es (fun p hp => hk p (by simp [hp])) ok1 hr1
    refine ⟨a2, i1 :: ids, ?_, ok2, f2, fun a'' hx => ?_⟩
    · unfold storeAll
      rw [h1]
      dsimp only
      rw [h2]
    · refine .cons ?_ (r2 a'' hx)
      have := r1 a'' ((storeAll_ext es h2).trans hx)
      rwa [imageAst_eq N N' e (hk (N, e) (by simp))] at this

/-- Any list of formulas that can be kept, of no more than 2^28 parts, can be stored; afterwards each is read back as it was,
with the names that its sheets have then.  The hash functions do not matter. -/
theorem formulas_kept (H : Hashes E) (es : List (Names × Ast C E)) (hk : ∀ p ∈ es, Kept p.2)
    (hn : (es.map fun p => sizeAst p.2).sum ≤ 2 ^ 28) (N' : Names) :
    ∃ a ids, storeAll H (Asts.new F E) es = some (a, ids) ∧
      List.Forall₂ (fun id p => ReadsAst N' a id (rename (later p.1 N') p.2)) ids es := by
  obtain ⟨a, ids, h, -, -, hr⟩ := storeAll_reads (H := H) N' es hk (Asts.new_ok F E)
    ⟨new_room F hn, by simp [Asts.new]; omega, by simp [Asts.new]; omega, by simp [Asts.new]; omega, by simp [Asts.new]; omega⟩
  exact ⟨a, ids, h, hr a (AExt.refl a)⟩

/-! ### The names of the sheets -/

/-- The sheet that a reference names. -/
def sheetOfRef : RefT E → List String
  | .cell (some s) _ _ _ _ => [s]
  | .range (some s) _ _ _ _ _ => [s]
  | _ => []

mutual

/-- The sheets that a formula names. -/
def sheetsOf : Ast C E → List String
  | .ref _ r => sheetOfRef r
  | .unary _ e => sheetsOf e
  | .binary _ l r => sheetsOf l ++ sheetsOf r
  | .func _ args => sheetsOfList args
  | .array rows => sheetsOfRows rows
  | .call e args => sheetsOf e ++ sheetsOfList args
  | .lit _ => []
  | .omitted => []

/-- The sheets that the arguments name. -/
def sheetsOfList : List (Ast C E) → List String
  | [] => []
  | e :: es => sheetsOf e ++ sheetsOfList es

/-- The sheets that the elements name. -/
def sheetsOfRows : List (List (Ast C E)) → List String
  | [] => []
  | row :: rows => sheetsOfList row ++ sheetsOfRows rows

end

mutual

theorem rename_same {f : String → String} : ∀ e : Ast C E, (∀ s ∈ sheetsOf e, f s = s) → rename f e = e
  | .ref o r, h => by
    rw [rename]
    unfold sheetsOf at h
    cases r with
    | cell s _ _ _ _ => cases s with | none => rfl | some s => simp only [renameRef, Option.map_some, h s (by simp [sheetOfRef])]
    | range s _ _ _ _ _ => cases s with | none => rfl | some s => simp only [renameRef, Option.map_some, h s (by simp [sheetOfRef])]
    | _ => rfl
  | .unary op e, h => by unfold sheetsOf at h; rw [rename, rename_same e h]
  | .binary op l r, h => by
    unfold sheetsOf at h
    rw [rename, rename_same l fun s hs => h s (by simp [hs]), rename_same r fun s hs => h s (by simp [hs])]
  | .func name args, h => by unfold sheetsOf at h; rw [rename, renameList_same args h]
  | .array rows, h => by unfold sheetsOf at h; rw [rename, renameRows_same rows h]
  | .call e args, h => by
    unfold sheetsOf at h
    rw [rename, rename_same e fun s hs => h s (by simp [hs]), renameList_same args fun s hs => h s (by simp [hs])]
  | .lit v, _ => by rw [rename]
  | .omitted, _ => by rw [rename]

theorem renameList_same {f : String → String} : ∀ es : List (Ast C E), (∀ s ∈ sheetsOfList es, f s = s) → renameList f es = es
  | [], _ => by rw [renameList]
  | e :: es, h => by
    unfold sheetsOfList at h
    rw [renameList, rename_same e fun s hs => h s (by simp [hs]), renameList_same es fun s hs => h s (by simp [hs])]

theorem renameRows_same {f : String → String} : ∀ rows : List (List (Ast C E)), (∀ s ∈ sheetsOfRows rows, f s = s) → renameRows f rows = rows
  | [], _ => by rw [renameRows]
  | row :: rows, h => by
    unfold sheetsOfRows at h
    rw [renameRows, renameList_same row fun s hs => h s (by simp [hs]), renameRows_same rows fun s hs => h s (by simp [hs])]

end

/-- A formula whose sheets are unknown, or named as in the registry, and have kept their names, is read back as it was. -/
theorem formula_same (H : Hashes E) (N N' : Names) (e : Ast C E) (hk : Kept e) (hn : sizeAst e ≤ 2 ^ 28)
    (hs : ∀ s ∈ sheetsOf e, ∀ i, N.getId s = some i → N'.name i = s) :
    ∃ a id, convert H N (Asts.new F E) e = some (a, id) ∧ ReadsAst N' a id e := by
  have hroom : (Asts.new F E).Room (sizeAst e + 0) :=
    ⟨new_room F hn, by simp [Asts.new]; omega, by simp [Asts.new]; omega, by simp [Asts.new]; omega, by simp [Asts.new]; omega⟩
  obtain ⟨a, id, h⟩ := convert_succeeds (H := H) (N := N) e hk (Asts.new_ok F E) hroom
  refine ⟨a, id, h, ?_⟩
  have := (convert_reads (N' := N') e h (Asts.new_ok F E) ((convert_grows e h).room hroom).fits).2 a (AExt.refl a)
  rw [imageAst_eq N N' e hk, rename_same e] at this
  · exact this
  · intro s hm
    unfold later
    split
    · next i hi => exact hs s hm i hi
    · rfl

/-- The registry as the store sees it. -/
def Reg.view (lower : String → String) (g : Reg) : Names := ⟨g.getId lower, g.name⟩

/-- A formula follows its sheet: the name under which the sheet is read later leads to the sheet that was meant, whatever
additions, removals and renamings there were, as long as this sheet has not been removed. -/
theorem follows_sheet {lower : String → String} (hl : Lower lower) {g g' : Reg} (h' : Reached lower g') {s : String} {i : Nat}
    (hs : g.getId lower s = some i) (ha : g'.name i ≠ "") : g'.getId lower (later (g.view lower) (g'.view lower) s) = some i := by
  have : later (g.view lower) (g'.view lower) s = g'.name i := by
    unfold later Reg.view
    dsimp only
    rw [hs]
  rw [this]
  exact (getId_iff hl h' ha i).2 ⟨ha, rfl⟩

/-- In the registry with which it was stored, the name is the one that was written, up to case. -/
theorem same_name {lower : String → String} (hl : Lower lower) {g : Reg} (h : Reached lower g) {s : String} (hs : s ≠ "") :
    lower (later (g.view lower) (g.view lower) s) = lower s := by
  unfold later Reg.view
  dsimp only
  split
  · next i hi => exact ((getId_iff hl h hs i).1 hi).2
  · rfl

/-- A name that was unknown when the formula was stored stays as it is, even if a sheet of this name comes and is renamed. -/
theorem unknown_stays {lower : String → String} {g g' : Reg} {s : String} (hs : g.getId lower s = none) :
    later (g.view lower) (g'.view lower) s = s := by
  unfold later Reg.view
  dsimp only
  rw [hs]

/-! ### What is not kept -/

theorem readsAst_det {N : Names} {a : Asts F E} {id : Nat} {e f : Ast C E} (h : ReadsAst N a id e) (k : ReadsAst N a id f) : e = f := by
  obtain ⟨x, hx⟩ := h
  obtain ⟨y, hy⟩ := k
  have h1 := hx (max x y) (by omega)
  rw [hy (max x y) (by omega)] at h1
  exact (Option.some.inj (Option.some.inj h1)).symm

/-- Of more than 65535 arguments some are dropped without a word. -/
theorem long_call_cut {H : Hashes E} {N N' : Names} {name : String} {args : List (Ast C E)} {a a' : Asts F E} {id : Nat}
    (hl : 2 ^ 16 ≤ args.length) (hok : a.Ok) (hf : a'.Fits) (h : convert H N a (.func name args) = some (a', id)) :
    ∃ args', ReadsAst N' a' id (.func name args' : Ast C E) ∧ args'.length = args.length % 2 ^ 16 ∧ args'.length < args.length := by
  have := (convert_reads (N' := N') _ h hok hf).2 a' (AExt.refl _)
  rw [imageAst] at this
  refine ⟨_, this, ?_, ?_⟩ <;> rw [List.length_take, imageList_length] <;> have := Nat.mod_lt args.length (show 0 < 2 ^ 16 by decide) <;> omega

/-- The call of the value of a formula is stored as an error. -/
theorem call_lost {H : Hashes E} {N N' : Names} {e : Ast C E} {args : List (Ast C E)} {a a' : Asts F E} {id : Nat} (hok : a.Ok)
    (hf : a'.Fits) (h : convert H N a (.call e args) = some (a', id)) : ReadsAst N' a' id (.lit callError : Ast C E) := by
  have := (convert_reads (N' := N') _ h hok hf).2 a' (AExt.refl _)
  rw [imageAst, show image (callError (C := C)) = callError by unfold callError; rw [image]] at this
  exact this

theorem convertRows_length {H : Hashes E} {N : Names} : ∀ (rows : List (List (Ast C E))) {a a' : Asts F E} {ids : List Nat},
    convertRows H N a rows = some (a', ids) → ids.length = rows.flatten.length := by
  have hlist : ∀ (es : List (Ast C E)) {a a' : Asts F E} {ids : List Nat}, convertList H N a es = some (a', ids) → ids.length = es.length := by
    intro es
    induction es with
    | nil => intro a a' ids h; unfold convertList at h; cases h; rfl
    | cons e es ih =>
      intro a a' ids h
      unfold convertList at h
      split at h
      · cases h
      · split at h
        · cases h
        · next h2 => cases h; simp [ih h2]
  intro rows
  induction rows with
  | nil => intro a a' ids h; unfold convertRows at h; cases h; rfl
  | cons row rows ih =>
    intro a a' ids h
    unfold convertRows at h
    split at h
    · cases h
    · next h1 =>
      split at h
      · cases h
      · next h2 => cases h; simp [ih h2, hlist row h1]

/-- An array of 65536 elements or more cannot be stored: the code panics. -/
theorem big_array_panics {H : Hashes E} {N : Names} {a : Asts F E} {rows : List (List (Ast C E))} (hl : 2 ^ 16 ≤ rows.flatten.length) :
    convert H N a (.array rows) = none := by
  unfold convert
  split
  · rfl
  · next h1 =>
    dsimp only
    rw [if_neg]
    rw [convertRows_length rows h1]
    have := Nat.mod_lt (rows.length % 2 ^ 16 * ((rows.headD []).length % 2 ^ 16)) (show 0 < 2 ^ 16 by decide)
    omega

/-- A reference that spells its sheet otherwise than the registry is read back in the spelling of the registry. -/
theorem spelling_lost {H : Hashes E} {N : Names} {o s : String} {row col i : Nat} {ra ca : Bool} {a a' : Asts F E} {id : Nat} (hok : a.Ok)
    (hf : a'.Fits) (hs : N.getId s = some i) (h : convert H N a (.ref o (.cell (some s) row col ra ca) : Ast C E) = some (a', id)) :
    ReadsAst N a' id (.ref o (.cell (some (N.name i)) row col ra ca) : Ast C E) := by
  have := (convert_reads (N' := N) _ h hok hf).2 a' (AExt.refl _)
  rw [imageAst] at this
  simpa only [imageRef, imageSheet, Option.map_some, hs] using this

/-- A range up to the last number there is becomes open. -/
theorem last_row_opens {H : Hashes E} {N : Names} {o : String} {sr sc ec : Nat} {abs : Flags} {a a' : Asts F E} {id : Nat} (hok : a.Ok)
    (hf : a'.Fits) (h : convert H N a (.ref o (.range none (some sr) (some sc) (some (2 ^ 32 - 1)) (some ec) abs) : Ast C E) = some (a', id)) :
    ∃ sr sc ec, ReadsAst N a' id (.ref o (.range none sr sc none ec abs) : Ast C E) := by
  have := (convert_reads (N' := N) _ h hok hf).2 a' (AExt.refl _)
  rw [imageAst] at this
  exact ⟨_, _, _, this⟩

/-! ### Examples -/

/-- Table specifiers and external references for the examples. -/
def toyExt : Ext3 where
  Spec := Nat
  Kind := Bool

/-- A hash under which all nodes and all specifiers collide. -/
def collide : Hashes toyExt := ⟨fun _ => 0, fun _ => 0⟩

/-- A way to write without capitals, for the names of the examples. -/
def toyLower (s : String) : String := if s = "DATA" then "data" else if s = "Data" then "data" else s

theorem toyLower_ok : Lower toyLower := by
  intro s
  unfold toyLower
  split
  · next h => subst h; decide
  · split
    · next h => subst h; decide
    · exact Iff.rfl

/-- `=IF(DATA!$A1:B>=7, {1,"x";TRUE,2}, -T[...])` -/
def sampleAst : Ast toy toyExt :=
  .func "IF" [.binary ">=" (.ref "DATA!$A1:B" (.range (some "DATA") (some 1) (some 1) none (some 2) ⟨false, true, false, false⟩)) (.lit (.number 7)),
    .array [[.lit (.number 1), .lit (.text "x")], [.lit (.bool true), .lit (.number 2)]],
    .unary "-" (.ref "T[...]" (.table "T" (some (4 : Nat)))), .omitted]

theorem sample_kept : Kept sampleAst := by
  simp only [sampleAst, Kept, KeptList, KeptRows, KeptRef, Storable, and_true, true_and]
  refine ⟨by decide, by decide, ⟨2, by simp, by decide, by decide⟩⟩

/-- A registry with the sheet `Data`, later renamed to `Sums` when other sheets have come and gone. -/
def before : Reg := Reg.new.run toyLower [.add "Main", .add "Data"]

/-- The registry afterwards. -/
def afterwards : Reg := Reg.new.run toyLower [.add "Main", .add "Data", .rename 1 "Sums", .add "DATA", .remove 0]

example : before.getId toyLower "DATA" = some 1 ∧ afterwards.name 1 = "Sums" ∧ afterwards.getId toyLower "Data" = some 2 := by
  refine ⟨by decide, by decide, by decide⟩

example : ∃ a ids, storeAll collide (Asts.new Int toyExt) [(before.view toyLower, sampleAst), (afterwards.view toyLower, sampleAst)] = some (a, ids) ∧
    List.Forall₂ (fun id p => ReadsAst (afterwards.view toyLower) a id (rename (later p.1 (afterwards.view toyLower)) p.2)) ids
      [(before.view toyLower, sampleAst), (afterwards.view toyLower, sampleAst)] :=
  formulas_kept collide _ (by
    intro p hp
    simp only [List.mem_cons, List.not_mem_nil, or_false] at hp
    rcases hp with rfl | rfl <;> exact sample_kept) (by simp [sampleAst, sizeAst, sizeList, sizeAstRows, size]) _

/-- The two copies are read back as formulas on different sheets, as they were meant. -/
example : sheetsOf (rename (later (before.view toyLower) (afterwards.view toyLower)) sampleAst) = ["Sums"] ∧
    sheetsOf (rename (later (afterwards.view toyLower) (afterwards.view toyLower)) sampleAst) = ["DATA"] := by
  have h1 : later (before.view toyLower) (afterwards.view toyLower) "DATA" = "Sums" := by decide
  have h2 : later (afterwards.view toyLower) (afterwards.view toyLower) "DATA" = "DATA" := by decide
  constructor
  · simp [sampleAst, rename, renameList, renameRows, renameRef, sheetsOf, sheetsOfList, sheetsOfRows, sheetOfRef, h1]
  · simp [sampleAst, rename, renameList, renameRows, renameRef, sheetsOf, sheetsOfList, sheetsOfRows, sheetOfRef, h2]

example : afterwards.getId toyLower (later (before.view toyLower) (afterwards.view toyLower) "DATA") = some 1 :=
  follows_sheet toyLower_ok ⟨_, by decide, rfl⟩ (by decide) (by decide)

example (N : Names) (a : Asts Int toyExt) : convert collide N a (.array [List.replicate 70000 (.omitted : Ast toy toyExt)]) = none :=
  big_array_panics (by rw [List.flatten_cons, List.flatten_nil, List.append_nil, List.length_replicate]; omega)

example : Reached toyLower afterwards := ⟨_, by decide, rfl⟩

/-- `getId_iff`, `names_differ`: after the history, `Data` leads to the sheet called `DATA`. -/
example : afterwards.getId toyLower "Data" = some 2 ↔ afterwards.name 2 ≠ "" ∧ toyLower (afterwards.name 2) = toyLower "Data" :=
  getId_iff toyLower_ok ⟨_, by decide, rfl⟩ (by decide) 2

/-- `new_sheet_fresh`: a sheet added after the first was removed gets a number of its own. -/
example : (afterwards.idFor toyLower "Main").2 = 3 := (new_sheet_fresh (g := afterwards) (by decide) (by decide)).1

/-- `rename_refused`: the name of another sheet, in other case, is refused. -/
example : afterwards.rename toyLower 1 "Data" = none :=
  (rename_refused toyLower_ok ⟨_, by decide, rfl⟩ (by decide)).2 (Or.inr ⟨2, by decide, by decide, by decide⟩)

/-- `rename_only`, `remove_only`: their hypotheses hold for renaming and removing a sheet that is there. -/
example : (afterwards.rename toyLower 1 "Old").isSome ∧ (afterwards.remove toyLower 1).isSome := ⟨by decide, by decide⟩

end Verif.Arena
