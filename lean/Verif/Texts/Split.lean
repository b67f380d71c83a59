import Verif.Texts.Parts

/-!
# TEXTSPLIT and TEXTJOIN
-/

namespace Verif.Texts

/-! ### Bytes -/

theorem bytes_append (a b : Str) : bytes (a ++ b) = bytes a + bytes b := by simp [bytes]

theorem bytes_cons (c : Char) (s : Str) : bytes (c :: s) = c.utf8Size + bytes s := by simp [bytes]

theorem bytes_pos {s : Str} (h : s ≠ []) : 0 < bytes s := by
  cases s with
  | nil => exact absurd rfl h
  | cons c s =>
    rw [bytes_cons]
    have := Char.utf8Size_pos c
    omega

theorem bytes_map {f : Char → Char} {s : Str} (h : ∀ c ∈ s, (f c).utf8Size = c.utf8Size) : bytes (s.map f) = bytes s := by
  induction s with
  | nil => rfl
  | cons c s ih => rw [List.map_cons, bytes_cons, bytes_cons, h c (List.mem_cons_self ..), ih fun x hx => h x (List.mem_cons_of_mem _ hx)]

/-- A cut between characters. -/
theorem cutBytes_append (a b : Str) : cutBytes (bytes a) (a ++ b) = some (a, b) := by
  induction a with
  | nil =>
    have : bytes [] = 0 := rfl
    rw [this, List.nil_append]
    cases b <;> rfl
  | cons c a ih =>
    have hc := Char.utf8Size_pos c
    rw [bytes_cons, List.cons_append]
    obtain ⟨n, hn⟩ : ∃ n, c.utf8Size + bytes a = n + 1 := ⟨c.utf8Size + bytes a - 1, by omega⟩
    rw [hn, cutBytes, if_pos (by omega), show n + 1 - c.utf8Size = bytes a by omega, ih]
    rfl

theorem sliceFrom_append (a b : Str) : sliceFrom (a ++ b) (bytes a) = some b := by
  rw [sliceFrom, cutBytes_append]
  rfl

theorem slice_append (a b c : Str) : slice (a ++ (b ++ c)) (bytes a) (bytes a + bytes b) = some b := by
  unfold slice
  rw [if_neg (by omega), sliceFrom_append]
  simp only [Option.bind_some]
  rw [Nat.add_sub_cancel_left, cutBytes_append]
  rfl

/-! ### One delimiter -/

theorem splitLoop_eq {f : Char → Char} {d text : Str} (hd : d ≠ []) (hf : ∀ c ∈ text, (f c).utf8Size = c.utf8Size) {rest : Str} {ps : List Str} (h : Splits f d rest ps)
    {before : Str} (ht : text = before ++ rest) {n : Nat} (hn : rest.length < n) :
    ∃ stop, splitLoop [d.map f] (text.map f) text n (bytes before) = some (if ps.getLast? = some [] then ps.dropLast else ps, stop) ∧
      (stop = bytes text ↔ ps.getLast? = some []) := by
  have hd' : d.map f ≠ [] := by simpa using hd
  induction h generalizing before n with
  | @last rest hno =>
    cases n with
    | zero => omega
    | succ n =>
      by_cases hr : rest = []
      · subst hr
        refine ⟨bytes before, ?_, ?_⟩
        · rw [splitLoop, if_pos (by rw [ht, List.append_nil])]
          rfl
        · simp [ht]
      · have hlt : bytes before < bytes text := by
          rw [ht, bytes_append]
          have := bytes_pos hr
          omega
        refine ⟨bytes before, ?_, ?_⟩
        · rw [splitLoop, if_neg (by omega)]
          have e1 : sliceFrom (text.map f) (bytes before) = some (rest.map f) := by
            have : bytes before = bytes (before.map f) := (bytes_map fun c hc => hf c (by rw [ht]; exact List.mem_append_left _ hc)).symm
            rw [this, ht, List.map_append, sliceFrom_append]
          have e2 : sliceFrom text (bytes before) = some rest := by rw [ht, sliceFrom_append]
          rw [e1]
          simp only [Option.bind_eq_bind, Option.bind_some]
          rw [earliest, if_neg hd', cutAt_eq_none hno]
          simp only [earliest]
          rw [e2]
          simp [hr]
        · constructor
          · intro he
            omega
          · intro he
            simp [hr] at he
  | @cut a e b ps he hfst hr ih =>
    cases n with
    | zero => omega
    | succ n =>
      have hel : e.length = d.length := by
        have := congrArg List.length he
        simpa using this
      have hdp := List.length_pos_iff.2 hd
      have hene : e ≠ [] := by
        rintro rfl
        simp at hel
        omega
      have hlt : bytes before < bytes text := by
        rw [ht, bytes_append, bytes_append, bytes_append]
        have := bytes_pos hene
        omega
      have ht' : text = before ++ (a ++ (e ++ b)) := by rw [ht, List.append_assoc]
      have e1 : sliceFrom (text.map f) (bytes before) = some ((a ++ e ++ b).map f) := by
        have : bytes before = bytes (before.map f) := (bytes_map fun c hc => hf c (by rw [ht]; exact List.mem_append_left _ hc)).symm
        rw [this, ht, List.map_append, sliceFrom_append]
      have e2 : cutAt (d.map f) ((a ++ e ++ b).map f) = some (a.map f, b.map f) := by
        have e3 : (a ++ e ++ b).map f = a.map f ++ d.map f ++ b.map f := by rw [List.map_append, List.map_append, he]
        rw [e3]
        refine cutAt_eq fun i hi => ?_
        rw [← e3]
        exact hfst i (by simpa using hi)
      have ha : bytes (a.map f) = bytes a := bytes_map fun c hc => hf c (by rw [ht']; simp [hc])
      have hdb : bytes (d.map f) = bytes e := by
        rw [← he]
        exact bytes_map fun c hc => hf c (by rw [ht']; simp [hc])
      have e4 : slice text (bytes before) (bytes before + bytes a) = some a := by rw [ht', slice_append]
      have hstart : bytes before + bytes a + bytes e = bytes (before ++ a ++ e) := by rw [bytes_append, bytes_append]
      obtain ⟨stop, h1, h2⟩ := ih (before := before ++ a ++ e) (n := n) (by rw [ht']; simp) (by simp at hn; omega)
      refine ⟨stop, ?_, ?_⟩
      · rw [splitLoop, if_neg (by omega), e1]
        simp only [Option.bind_eq_bind, Option.bind_some]
        rw [earliest, if_neg hd', e2]
        simp only [earliest]
        rw [ha, hdb, e4, hstart]
        simp only [Option.bind_some]
        rw [h1]
        have hne := splits_ne_nil hr
        have hlast : (a :: ps).getLast? = ps.getLast? := by
          cases ps with
          | nil => exact absurd rfl hne
          | cons x xs => rw [List.getLast?_cons_cons]
        rw [hlast]
        by_cases hg : ps.getLast? = some []
        · rw [if_pos hg, if_pos hg]
          simp [List.dropLast_cons_of_ne_nil hne]
        · rw [if_neg hg, if_neg hg]
          rfl
      · rw [h2]
        have hne := splits_ne_nil hr
        cases ps with
        | nil => exact absurd rfl hne
        | cons x xs => rw [List.getLast?_cons_cons]

theorem splits_ends {f : Char → Char} {d s : Str} {ps : List Str} (h : Splits f d s ps) (hl : ps.getLast? = some []) (hs : s ≠ []) : ∃ t, s.map f = t ++ d.map f := by
  induction h with
  | last => simp at hl; exact absurd hl hs
  | @cut a e b ps he _ hr ih =>
    have hne := splits_ne_nil hr
    have hlast : ps.getLast? = some [] := by
      cases ps with
      | nil => exact absurd rfl hne
      | cons x xs => rwa [List.getLast?_cons_cons] at hl
    by_cases hb : b = []
    · exact ⟨a.map f, by rw [hb, List.append_nil, List.map_append, he]⟩
    · obtain ⟨t, ht⟩ := ih hlast hb
      exact ⟨(a ++ e).map f ++ t, by rw [List.map_append, ht, List.append_assoc]⟩

theorem endsWith_append (t d : Str) : endsWith (t ++ d) d = true := by
  unfold endsWith
  rw [List.length_append, Nat.add_sub_cancel, List.drop_left]
  simp

/-- The parts between the delimiters, if making letters small changes no character's size. -/
theorem split_one {f : Char → Char} {lower : Str → Str} {d text : Str} {ps : List Str} (hd : d ≠ []) (ht : text ≠ []) (hl : lower text = text.map f) (hl' : lower d = d.map f)
    (hf : ∀ c ∈ text, (f c).utf8Size = c.utf8Size) (h : Splits f d text ps) : split lower text [d] = some ps := by
  have hlen : text.length ≤ bytes text := by
    clear * -
    induction text with
    | nil => exact Nat.zero_le _
    | cons c s ih =>
      rw [bytes_cons, List.length_cons]
      have := Char.utf8Size_pos c
      omega
  obtain ⟨stop, h1, h2⟩ := splitLoop_eq hd hf h (before := []) (by simp) (n := bytes text + 1) (by omega)
  unfold split
  rw [if_neg (by simp)]
  simp only [List.map_cons, List.map_nil, hl, hl']
  rw [show (0 : Nat) = bytes [] from rfl, h1]
  simp only [Option.bind_eq_bind, Option.bind_some, Option.some.injEq, List.any_cons, List.any_nil, Bool.or_false]
  by_cases hg : ps.getLast? = some []
  · obtain ⟨t, he⟩ := splits_ends h hg ht
    rw [if_pos, if_pos hg]
    · obtain ⟨qs, rfl⟩ : ∃ qs, ps = qs ++ [[]] := List.getLast?_eq_some_iff.1 hg
      simp
    · refine ⟨h2.2 hg, ht, ?_⟩
      rw [he, endsWith_append]
      simpa using hd
  · rw [if_neg, if_neg hg]
    exact fun hh => hg (h2.1 hh.1)

/-- `TEXTSPLIT` with one delimiter of columns: one row with the parts. -/
theorem textsplit_one {f : Char → Char} {lower : Str → Str} {d text : Str} {ps : List Str} (hd : d ≠ []) (hl : lower text = text.map f) (hl' : lower d = d.map f)
    (hf : ∀ c ∈ text, (f c).utf8Size = c.utf8Size) (h : Splits f d text ps) : textsplit lower text [d] [] false = some [ps.map Part.text] := by
  by_cases ht : text = []
  · subst ht
    have hp : ps = [[]] := by
      refine splits_unique h (.last fun i hi => ?_)
      unfold At at hi
      rw [List.map_nil, List.drop_nil] at hi
      exact hd (by simpa using List.prefix_nil.1 hi)
    subst hp
    have e : split lower [] [d] = some [] := by
      unfold split
      rw [if_neg (by simp)]
      simp only [bytes, List.map_nil, List.sum_nil]
      rw [splitLoop, if_pos (by simp [bytes])]
      simp
    unfold textsplit
    simp [splitRows, e]
  · have hne := splits_ne_nil h
    unfold textsplit
    simp [splitRows, split_one hd ht hl hl' hf h, hne]

/-- With `ignore_empty` the empty parts are left out. -/
theorem textsplit_ignore {f : Char → Char} {lower : Str → Str} {d text : Str} {ps : List Str} (hd : d ≠ []) (hl : lower text = text.map f) (hl' : lower d = d.map f)
    (hf : ∀ c ∈ text, (f c).utf8Size = c.utf8Size) (h : Splits f d text ps) (hsome : ∃ p ∈ ps, p ≠ []) :
    textsplit lower text [d] [] true = some [(ps.filter fun p => decide (p ≠ [])).map Part.text] := by
  have ht : text ≠ [] := by
    rintro rfl
    have hp : ps = [[]] := by
      refine splits_unique h (.last fun i hi => ?_)
      unfold At at hi
      rw [List.map_nil, List.drop_nil] at hi
      exact hd (by simpa using List.prefix_nil.1 hi)
    subst hp
    obtain ⟨p, hp, hne⟩ := hsome
    exact hne (List.mem_singleton.1 hp)
  have hrow : (ps.filter fun p => decide (p ≠ [])) ≠ [] := by
    obtain ⟨p, hp, hne⟩ := hsome
    intro e
    have : p ∈ ps.filter fun p => decide (p ≠ []) := List.mem_filter.2 ⟨hp, by simpa using hne⟩
    rw [e] at this
    cases this
  unfold textsplit
  simp only [splitRows, split_one hd ht hl hl' hf h, ht, and_false, if_false, if_true, Option.bind_eq_bind, Option.bind_some]
  rw [if_neg hrow]
  simp

theorem foldl_max (l : List Nat) (m : Nat) : m ≤ l.foldl max m ∧ (∀ x ∈ l, x ≤ l.foldl max m) ∧ (l.foldl max m = m ∨ l.foldl max m ∈ l) := by
  induction l generalizing m with
  | nil => exact ⟨Nat.le_refl _, fun x hx => (by cases hx), .inl rfl⟩
  | cons a l ih =>
    obtain ⟨h1, h2, h3⟩ := ih (max m a)
    rw [List.foldl_cons]
    refine ⟨by omega, ?_, ?_⟩
    · intro x hx
      rcases List.mem_cons.1 hx with rfl | hx
      · omega
      · exact h2 x hx
    · rcases h3 with h3 | h3
      · rw [h3]
        rcases Nat.le_total m a with h | h
        · rw [Nat.max_eq_right h]
          exact .inr (List.mem_cons_self ..)
        · rw [Nat.max_eq_left h]
          exact .inl rfl
      · exact .inr (List.mem_cons_of_mem _ h3)

theorem splitRows_eq {c : Str} (hc : c ≠ []) {rs : List Str} {pss : List (List Str)} (h : List.Forall₂ (Splits id c) (rs.filter fun r => decide (r ≠ [])) pss) :
    splitRows id [c] false rs = some pss := by
  induction rs generalizing pss with
  | nil =>
    cases h
    rfl
  | cons r rs ih =>
    by_cases hr : r = []
    · subst hr
      have e : split id [] [c] = some [] := by
        unfold split
        rw [if_neg (by simp)]
        simp only [bytes, List.map_nil, List.sum_nil]
        rw [splitLoop, if_pos (by simp [bytes])]
        simp
      simp only [List.filter_cons, ne_eq, not_true, decide_false, Bool.false_eq_true, if_false] at h
      simp [splitRows, e, ih h]
    · rw [List.filter_cons, if_pos (by simpa using hr)] at h
      cases h with
      | cons h1 h2 =>
        have hne := splits_ne_nil h1
        have hs := split_one (lower := id) hc hr (by simp) (by simp) (fun _ _ => rfl) h1
        simp only [splitRows, hs, ih h2]
        simp [hne]

/-- `TEXTSPLIT` with a delimiter of columns and one of rows: the rows that are not empty, each split, filled to the width of the longest. -/
theorem textsplit_rows_partial {c r text : Str} {rs : List Str} {pss : List (List Str)} (hc : c ≠ []) (hr : r ≠ []) (ht : text ≠ []) (hrs : Splits id r text rs)
    (h : List.Forall₂ (Splits id c) (rs.filter fun r => decide (r ≠ [])) pss) (hne : pss ≠ []) :
    ∃ width, (∀ ps ∈ pss, ps.length ≤ width) ∧ (∃ ps ∈ pss, ps.length = width) ∧
      textsplit id text [c] [r] false = some (pss.map fun ps => ps.map Part.text ++ List.replicate (width - ps.length) .pad) := by
  obtain ⟨_, h2, h3⟩ := foldl_max (pss.map List.length) 0
  refine ⟨(pss.map List.length).foldl max 0, fun ps hps => h2 _ (List.mem_map_of_mem hps), ?_, ?_⟩
  · rcases h3 with h3 | h3
    · obtain ⟨ps, hps⟩ := List.exists_mem_of_ne_nil _ hne
      have := h2 _ (List.mem_map_of_mem hps)
      exact ⟨ps, hps, by omega⟩
    · obtain ⟨ps, hps, he⟩ := List.mem_map.1 h3
      exact ⟨ps, hps, he⟩
  · unfold textsplit
    rw [if_neg (by simp), split_one (lower := id) hr ht (by simp) (by simp) (fun _ _ => rfl) hrs]
    simp only [Option.bind_eq_bind, Option.bind_some]
    rw [splitRows_eq hc h]
    simp [hne]

/-- An empty row is lost: `TEXTSPLIT("a;;b", ",", ";")` has two rows.  Excel gives three. -/
theorem textsplit_empty_row : textsplit id "a;;b".toList [[',']] [[';']] false = some [[.text ['a']], [.text ['b']]] := by decide +kernel

/-- The Kelvin sign is three bytes long and the small letter k only one: without regard to case `TEXTSPLIT` of the Kelvin sign, a comma and `b` panics. -/
theorem textsplit_panics {lower : Str → Str} (h : lower [Char.ofNat 0x212A, ',', 'b'] = ['k', ',', 'b']) (h' : lower [','] = [',']) :
    textsplit lower [Char.ofNat 0x212A, ',', 'b'] [[',']] [] false = none := by
  have e : split lower [Char.ofNat 0x212A, ',', 'b'] [[',']] = none := by
    unfold split
    rw [if_neg (by simp)]
    simp only [List.map_cons, List.map_nil, h, h']
    have : splitLoop [[',']] ['k', ',', 'b'] [Char.ofNat 0x212A, ',', 'b'] (bytes [Char.ofNat 0x212A, ',', 'b'] + 1) 0 = none := by decide +kernel
    rw [this]
    rfl
  unfold textsplit
  simp [splitRows, e]

example : textsplit id "a,b;c;,".toList [[',']] [[';']] false =
    some [[.text ['a'], .text ['b']], [.text ['c'], .pad], [.text [], .text []]] := by decide +kernel

/-! ### TEXTJOIN -/

/-- The text of a joined cell. -/
def Item.str : Item → Str
  | .text s => s
  | .empty => []

/-- The texts that are joined. -/
def joined (ignoreEmpty : Bool) (items : List Item) : List Str :=
  if ignoreEmpty then (items.map Item.str).filter fun s => decide (s ≠ []) else items.map Item.str

theorem joinLoop_eq (d : Str) (ig : Bool) (items : List Item) (hasItem : Bool) (out : Str) (ho : out.length ≤ maxChars) :
    joinLoop d ig items hasItem out =
      let t := if joined ig items = [] then out else out ++ (if hasItem then d else []) ++ d.intercalate (joined ig items)
      if t.length ≤ maxChars then some t else none := by
  have step : ∀ (s : Str) (items : List Item) (hasItem : Bool) (out : Str), out.length ≤ maxChars →
      (∀ (out : Str), out.length ≤ maxChars → joinLoop d ig items true out =
        let t := if joined ig items = [] then out else out ++ d ++ d.intercalate (joined ig items)
        if t.length ≤ maxChars then some t else none) →
      ((if hasItem then append out d else some out).bind fun out => (append out s).bind fun out => joinLoop d ig items true out) =
        let t := out ++ (if hasItem then d else []) ++ d.intercalate (s :: joined ig items)
        if t.length ≤ maxChars then some t else none := by
    intro s items hasItem out ho ih
    have hlen : (d.intercalate (s :: joined ig items)).length = s.length + (if joined ig items = [] then 0 else d.length + (d.intercalate (joined ig items)).length) := by
      split
      · rename_i he
        rw [he, inter_one]
        rfl
      · rename_i he
        rw [inter_cons _ _ he]
        simp only [List.length_append]
        omega
    have e1 : (if hasItem then append out d else some out) = if (out ++ if hasItem then d else []).length ≤ maxChars then some (out ++ if hasItem then d else []) else none := by
      cases hasItem
      · simp [ho]
      · simp only [if_true, append, List.length_append]
        split <;> split <;> first | rfl | omega
    rw [e1]
    generalize (out ++ if hasItem then d else []) = o
    simp only
    by_cases h1 : o.length ≤ maxChars
    · rw [if_pos h1]
      simp only [Option.bind_some, append]
      by_cases h2 : o.length + s.length ≤ maxChars
      · rw [if_neg (by omega)]
        simp only [Option.bind_some]
        rw [ih _ (by rw [List.length_append]; exact h2)]
        simp only
        by_cases h3 : joined ig items = []
        · rw [if_pos h3, h3, inter_one]
        · rw [if_neg h3, inter_cons _ _ h3]
          simp only [List.append_assoc]
      · rw [if_pos (by omega), if_neg (by rw [List.length_append, hlen]; omega)]
        rfl
    · rw [if_neg h1, if_neg (by rw [List.length_append]; omega)]
      rfl
  induction items generalizing hasItem out with
  | nil =>
    have : joined ig [] = [] := by cases ig <;> rfl
    simp [joinLoop, this, ho]
  | cons x items ih =>
    have ih' : ∀ (out : Str), out.length ≤ maxChars → joinLoop d ig items true out =
        let t := if joined ig items = [] then out else out ++ d ++ d.intercalate (joined ig items)
        if t.length ≤ maxChars then some t else none := by
      intro out ho
      rw [ih true out ho]
      rfl
    cases ig with
    | false =>
      have ej : joined false (x :: items) = x.str :: joined false items := rfl
      have := step x.str items hasItem out ho ih'
      rw [ej]
      simp only [List.cons_ne_nil, if_false]
      simp only at this
      rw [← this]
      cases x with
      | text s => cases hasItem <;> simp [joinLoop, Item.str]
      | empty =>
        simp only [joinLoop, Bool.false_eq_true, if_false, Item.str, Option.bind_eq_bind]
        have ea : ∀ o : Str, o.length ≤ maxChars → append o [] = some o := by
          intro o h
          unfold append
          rw [if_neg (by simp; omega), List.append_nil]
        cases hasItem
        · simp [ea out ho]
        · simp only [if_true]
          cases ha : append out d with
          | none => rfl
          | some o =>
            have : o.length ≤ maxChars := by
              unfold append at ha
              split at ha
              · cases ha
              · cases ha
                simp
                omega
            simp [ea o this]
    | true =>
      by_cases hx : x.str = []
      · have ej : joined true (x :: items) = joined true items := by simp [joined, hx]
        rw [ej, ← ih hasItem out ho]
        cases x with
        | text s =>
          have : s = [] := hx
          subst this
          simp [joinLoop]
        | empty => simp [joinLoop]
      · have ej : joined true (x :: items) = x.str :: joined true items := by simp [joined, hx]
        have := step x.str items hasItem out ho ih'
        rw [ej]
        simp only [List.cons_ne_nil, if_false]
        simp only at this
        rw [← this]
        cases x with
        | text s =>
          have hne : s ≠ [] := hx
          cases hasItem <;> simp [joinLoop, Item.str, hne]
        | empty => exact absurd rfl hx

/-- `TEXTJOIN`: the texts with the delimiter between them; with `ignore_empty` only those that are not empty.  A text longer than 32767 characters is `#VALUE!`. -/
theorem textjoin_spec (d : Str) (ig : Bool) (items : List Item) :
    textjoin d ig items = if (d.intercalate (joined ig items)).length ≤ 32767 then .text (d.intercalate (joined ig items)) else .badValue := by
  unfold textjoin
  rw [joinLoop_eq d ig items false [] (Nat.zero_le _)]
  have e : (if joined ig items = [] then [] else [] ++ (if (false : Bool) = true then d else []) ++ d.intercalate (joined ig items)) = d.intercalate (joined ig items) := by
    split
    · rename_i h
      rw [h]
      rfl
    · simp
  simp only [e]
  by_cases h : (d.intercalate (joined ig items)).length ≤ 32767
  · rw [if_pos h, if_pos (show _ ≤ maxChars from h)]
  · rw [if_neg h, if_neg (show ¬ _ ≤ maxChars from h)]

/-- What `TEXTSPLIT` takes apart `TEXTJOIN` puts together. -/
theorem join_split {d text : Str} (hd : d ≠ []) (hlen : text.length ≤ 32767) :
    ∃ ps : List Str, textsplit id text [d] [] false = some [ps.map Part.text] ∧ textjoin d false (ps.map Item.text) = .text text := by
  obtain ⟨ps, h⟩ := splits_exists id hd text
  refine ⟨ps, textsplit_one (f := id) hd (by simp) (by simp) (fun _ _ => rfl) h, ?_⟩
  have e : joined false (ps.map Item.text) = ps := by
    simp only [joined, Bool.false_eq_true, if_false, List.map_map]
    exact List.map_id ps
  rw [textjoin_spec, e, splits_join h, if_pos hlen]

theorem splits_char {c : Char} {ps : List Str} (hne : ps ≠ []) (h : ∀ p ∈ ps, c ∉ p) : Splits id [c] ([c].intercalate ps) ps := by
  have hat : ∀ (s : Str) (i : Nat), At [c] s i ↔ s[i]? = some c := by
    intro s i
    unfold At
    rw [List.singleton_prefix_iff_head?_eq_some, List.head?_drop]
  induction ps with
  | nil => exact absurd rfl hne
  | cons p ps ih =>
    have hp := h p (List.mem_cons_self ..)
    by_cases hps : ps = []
    · subst hps
      rw [inter_one]
      refine .last fun i hi => ?_
      rw [List.map_id, List.map_id, hat] at hi
      exact hp (List.mem_of_getElem? hi)
    · rw [inter_cons _ _ hps]
      refine .cut rfl (fun i hi hA => ?_) (ih hps fun q hq => h q (List.mem_cons_of_mem _ hq))
      rw [List.map_id, List.map_id, hat, List.append_assoc, List.getElem?_append_left hi] at hA
      exact hp (List.mem_of_getElem? hA)

/-- What `TEXTJOIN` puts together with a character that no text contains `TEXTSPLIT` takes apart. -/
theorem split_join {c : Char} {ps : List Str} (hne : ps ≠ []) (h : ∀ p ∈ ps, c ∉ p) (hlen : ([c].intercalate ps).length ≤ 32767) :
    ∃ text, textjoin [c] false (ps.map Item.text) = .text text ∧ textsplit id text [[c]] [] false = some [ps.map Part.text] := by
  have e : joined false (ps.map Item.text) = ps := by
    simp only [joined, Bool.false_eq_true, if_false, List.map_map]
    exact List.map_id ps
  refine ⟨[c].intercalate ps, ?_, textsplit_one (f := id) (by simp) (by simp) (by simp) (fun _ _ => rfl) (splits_char hne h)⟩
  rw [textjoin_spec, e, if_pos hlen]

example : textjoin ", ".toList true [.text "a".toList, .empty, .text [], .text "b".toList] = .text "a, b".toList ∧
    textjoin ",".toList false [.empty, .text "a".toList, .empty] = .text ",a,".toList := by decide +kernel

end Verif.Texts
