/-
Structured references printed and read again; and which columns can be named.
-/
import Verif.Struct.Read

namespace Verif.Struct

/-! ### The specification -/

/-- The specifier with one of the two ways of saying the same thing chosen: the
reader has its own constructor for `#All`, `#Data`, `#Headers`, `#Totals` and for
the current row standing alone. -/
def plainly : Spec → Spec
  | .all => .item .all
  | .data => .item .data
  | .headers => .item .headers
  | .totals => .item .totals
  | .item .thisRow => .row .current
  | x => x

/-- A name that needs no apostrophe between brackets. -/
structure Clear (stops : List Char) (n : Str) : Prop where
  tight : Tight n
  clear : ∀ c ∈ n, c ∉ stops
  notHash : n.head? ≠ some '#'
  notAt : n.head? ≠ some '@'

/-- A part of a combination that is printed so that it can be read again. -/
inductive ClearPart : Spec → Prop
  | column {n : Str} : Clear inBrackets n → ClearPart (.column n)
  | columns {m n : Str} : Clear inBrackets m → Clear inBrackets n → ClearPart (.columns m n)
  | item (s : Special) : ClearPart (.item s)

/-- A specifier that is printed so that it can be read again. -/
inductive ClearSpec : Spec → Prop
  | all : ClearSpec .all
  | data : ClearSpec .data
  | headers : ClearSpec .headers
  | totals : ClearSpec .totals
  | row : ClearSpec (.row .current)
  | item (s : Special) : ClearSpec (.item s)
  | column {n : Str} : Clear bareStops n → ClearSpec (.column n)
  | columns {m n : Str} : Clear bareStops m → Clear bareStops n → ClearSpec (.columns m n)
  | combo {ps : List Spec} : 2 ≤ ps.length → (∀ p ∈ ps, ClearPart p) → ClearSpec (.combo ps)

/-! ### Proofs -/

theorem esc_clear {stops : List Char} {n : Str} (h : ∀ c ∈ n, c ∉ stops) : Esc stops n n := by
  induction n with
  | nil => exact .nil
  | cons c n ih => exact .plain c (h c (by simp)) (ih fun x hx => h x (by simp [hx]))

theorem Clear.text {stops : List Char} {n : Str} (h : Clear stops n) : NameText stops n n :=
  ⟨esc_clear h.clear, h.tight, h.notHash, h.notAt⟩

theorem gap_nil : Gap [] := by simp [Gap]

theorem item_shown {p : Spec} (h : ClearPart p) : ItemText p (showPart p (showSpec p)) := by
  have wa : ItemText (.item .all) ('[' :: ['#', 'A', 'l', 'l'] ++ [']']) :=
    .special (u := []) (v := []) (t := ['#', 'A', 'l', 'l']) (.all (by decide)) gap_nil gap_nil
  have wd : ItemText (.item .data) ('[' :: ['#', 'D', 'a', 't', 'a'] ++ [']']) :=
    .special (u := []) (v := []) (t := ['#', 'D', 'a', 't', 'a']) (.data (by decide)) gap_nil gap_nil
  have wh : ItemText (.item .headers) ('[' :: ['#', 'H', 'e', 'a', 'd', 'e', 'r', 's'] ++ [']']) :=
    .special (u := []) (v := []) (t := ['#', 'H', 'e', 'a', 'd', 'e', 'r', 's']) (.headers (by decide)) gap_nil gap_nil
  have wt : ItemText (.item .totals) ('[' :: ['#', 'T', 'o', 't', 'a', 'l', 's'] ++ [']']) :=
    .special (u := []) (v := []) (t := ['#', 'T', 'o', 't', 'a', 'l', 's']) (.totals (by decide)) gap_nil gap_nil
  have wr : ItemText (.item .thisRow) ('[' :: ['@'] ++ [']']) :=
    .thisRow (u := []) (v := []) gap_nil gap_nil
  cases h with
  | column h =>
    have := ItemText.column h.text gap_nil gap_nil
    simp only [showPart, showSpec]
    simpa using this
  | columns hm hn =>
    have := ItemText.columns hm.text hn.text gap_nil gap_nil gap_nil gap_nil gap_nil gap_nil
    simp only [showPart]
    simpa using this
  | item s =>
    cases s <;> simp only [showPart, showSpec, showSpecial] <;> assumption

theorem items_shown : ∀ {ps : List Spec}, ps ≠ [] → (∀ p ∈ ps, ClearPart p) →
    ∃ t, ItemsText ps t ∧ ∀ sep, showParts sep ps = sep ++ t
  | [], h, _ => absurd rfl h
  | [p], _, h => ⟨_, .one (item_shown (h p (by simp))), fun sep => by simp only [showParts, List.append_nil]⟩
  | p :: q :: ps, _, h => by
    obtain ⟨t, ht, e⟩ := items_shown (ps := q :: ps) (by simp) fun x hx => h x (by simp at hx ⊢; tauto)
    refine ⟨_, ItemsText.more (item_shown (h p (by simp))) ht gap_nil gap_nil, fun sep => ?_⟩
    rw [showParts, e]
    simp

theorem content_shown {x : Spec} (h : ClearSpec x) : ContentText (plainly x) (showSpec x) := by
  have wa : ContentText (.item .all) ['#', 'A', 'l', 'l'] := .special (.all (by decide))
  have wd : ContentText (.item .data) ['#', 'D', 'a', 't', 'a'] := .special (.data (by decide))
  have wh : ContentText (.item .headers) ['#', 'H', 'e', 'a', 'd', 'e', 'r', 's'] := .special (.headers (by decide))
  have wt : ContentText (.item .totals) ['#', 'T', 'o', 't', 'a', 'l', 's'] := .special (.totals (by decide))
  have wr : ContentText (.row .current) ['@'] := .row
  cases h with
  | all => simp only [plainly, showSpec]; exact wa
  | data => simp only [plainly, showSpec]; exact wd
  | headers => simp only [plainly, showSpec]; exact wh
  | totals => simp only [plainly, showSpec]; exact wt
  | row => simp only [plainly, showSpec, showRow]; exact wr
  | item s =>
    cases s <;> simp only [plainly, showSpec, showSpecial] <;> assumption
  | column h => simp only [plainly, showSpec]; exact .column h.text
  | columns hm hn =>
    have := ContentText.columns hm.text hn.text gap_nil gap_nil
    simp only [plainly, showSpec]
    simpa using this
  | combo hl h =>
    simp only [plainly, showSpec]
    obtain ⟨t, ht, e⟩ := items_shown (by rintro rfl; simp at hl) h
    rw [e]
    exact .several ht hl

/-- A specifier whose names need no apostrophes is read back from what is printed
of it. -/
theorem printed_reads {x : Spec} (h : ClearSpec x) : parseFull ('[' :: showSpec x ++ [']']) = some (plainly x) := by
  apply reads
  refine ⟨[], showSpec x, [], gap_nil, gap_nil, content_shown h, by simp⟩

theorem showRef_clear {n : Str} {x : Spec} (h : ClearSpec x) :
    showRef ⟨n, some x⟩ = n ++ '[' :: showSpec x ++ [']'] := by
  cases h with
  | column h => simp only [showRef, showSpec, trim_tight h.tight]
  | columns hm hn => simp [showRef, showSpec, trim_tight hm.tight, trim_tight hn.tight]
  | _ => simp only [showRef]

theorem takeWhile_before {n r : Str} (h : '[' ∉ n) : (n ++ '[' :: r).takeWhile (· ≠ '[') = n ∧
    (n ++ '[' :: r).dropWhile (· ≠ '[') = '[' :: r := by
  induction n with
  | nil => simp
  | cons c n ih =>
    have hc : c ≠ '[' := fun h' => h (by simp [h'])
    obtain ⟨h1, h2⟩ := ih fun h' => h (by simp [h'])
    rw [List.cons_append, List.takeWhile_cons, List.dropWhile_cons]
    simp only [hc, ne_eq, not_false_eq_true, decide_true, if_true]
    exact ⟨by rw [h1], h2⟩

/-- A reference to a part of a named table is read back from what is printed of
it, if the names of its columns need no apostrophes. -/
theorem table_printed_reads {n : Str} {x : Spec} (hn : Tight n) (hb : '[' ∉ n) (h : ClearSpec x) :
    parseTable (showRef ⟨n, some x⟩) = some ⟨n, some (plainly x)⟩ := by
  rw [showRef_clear h]
  have e : n ++ '[' :: showSpec x ++ [']'] = n ++ '[' :: (showSpec x ++ [']']) := by simp
  obtain ⟨h1, h2⟩ := takeWhile_before (r := showSpec x ++ [']']) hb
  simp only [parseTable]
  rw [e, h1, h2, trim_tight hn, if_neg (by simp [hn.1])]
  have := printed_reads h
  simp only [List.cons_append] at this
  rw [this]; rfl

/-- A reference without a table's name, as `[@Column]`, is read back too, unless it
is a lone column (which the reader takes for a table's name). -/
theorem bare_printed_reads {x : Spec} (h : ClearSpec x) (hx : ∀ n, x ≠ .column n) :
    parseBare (showRef ⟨[], some x⟩) = some ⟨[], some (plainly x)⟩ := by
  rw [showRef_clear h, parseBare, List.nil_append, printed_reads h]
  cases h with
  | column h => exact absurd rfl (hx _)
  | item s => cases s <;> rfl
  | _ => rfl

/-- A lone name in brackets without a table's name is read as the data of the table
of that name. -/
theorem bare_column {n : Str} (h : Clear bareStops n) :
    parseBare ('[' :: n ++ [']']) = some ⟨n, some (.item .data)⟩ := by
  have := printed_reads (.column h)
  simp only [showSpec, plainly] at this
  rw [parseBare, this]; rfl

/-- Names without brackets of their own cannot be listed with a comma. -/
theorem comma_refused {m n : Str} (hm : Clear bareStops m) (hn : Clear bareStops n) :
    parseFull ('[' :: (m ++ ',' :: n) ++ [']']) = none := by
  have bm := Bal.ofEsc (esc_clear hm.clear).bare
  have bn := Bal.ofEsc (esc_clear hn.clear).bare
  have bal : Bal (m ++ ',' :: n) := bm.append (.plain ',' (by decide) bn)
  have hc := close_here bal []
  have ht : Tight (m ++ ',' :: n) := by
    refine ⟨by simp, ?_, ?_⟩
    · intro c hc
      obtain ⟨h0, h1, _⟩ := hm.tight
      cases m with
      | nil => exact absurd rfl h0
      | cons a m => exact h1 c (by simpa using hc)
    · intro c hc
      obtain ⟨h0, _, h2⟩ := hn.tight
      cases n with
      | nil => exact absurd rfl h0
      | cons a n => exact h2 c (by simpa [List.getLast?_append, List.getLast?_cons_cons] using hc)
  have hs : scan 0 [] (m ++ ',' :: n) ⟨false, false, none⟩ = some ⟨false, true, none⟩ := by
    rw [scan_bare (esc_clear hm.clear), scan_cons _ _ _ _ _ (by decide), if_pos (by decide)]
    have := scan_bare (esc_clear hn.clear) (',' :: (m.reverse ++ [])) [] ⟨false, true, none⟩
    rw [List.append_nil n] at this
    refine this.trans ?_
    rw [scan.eq_def]; simp
  have hp : parseFull ('[' :: (m ++ ',' :: n) ++ [']']) = content (m ++ ',' :: n) := by
    show (match close 1 ((m ++ ',' :: n) ++ [']']) with | some (c, []) => content c | _ => none) = _
    rw [hc]
  rw [hp]
  simp only [content]
  rw [trim_tight ht]
  cases m with
  | nil => exact absurd rfl hm.tight.1
  | cons a m =>
    have ha : a ≠ '@' := fun h => hm.notAt (by simp [h])
    simp only [List.cons_append] at hs ⊢
    rw [if_neg ha, hs]
    simp

/-- Every column can be named: whatever characters its name has, the name with an
apostrophe before each character is read as that column. -/
def quoteAll : Str → Str
  | [] => []
  | c :: n => '\'' :: c :: quoteAll n

theorem quoteAll_esc (stops : List Char) (n : Str) : Esc stops n (quoteAll n) := by
  induction n with
  | nil => exact .nil
  | cons c n ih => exact .quoted c ih

theorem quoteAll_name (stops : List Char) {n : Str} (h : Tight n) : NameText stops n (quoteAll n) := by
  refine ⟨quoteAll_esc stops n, h, ?_, ?_⟩ <;>
  · cases n with
    | nil => simp [quoteAll]
    | cons c n => simp [quoteAll]

theorem addressable {n : Str} (h : Tight n) :
    parseFull ('[' :: quoteAll n ++ [']']) = some (.column n) ∧
    parseFull ('[' :: '@' :: quoteAll n ++ [']']) = some (.combo [.item .thisRow, .column n]) := by
  constructor
  · apply reads
    exact ⟨[], quoteAll n, [], gap_nil, gap_nil, .column (quoteAll_name _ h), by simp⟩
  · apply reads
    exact ⟨[], '@' :: quoteAll n, [], gap_nil, gap_nil,
      .atColumn (g := []) (quoteAll_esc _ n) h gap_nil, by simp⟩

/-- Two names are never read from the same text. -/
theorem esc_unique {m n t : Str} (hm : Esc inBrackets m t) (hn : Esc inBrackets n t) : m = n := by
  have h1 := unquote_esc hm []
  have h2 := unquote_esc hn []
  rw [h1] at h2
  simpa [unquote] using h2

/-- No text writes two specifiers. -/
theorem writes_unique {x y : Spec} {t : Str} (hx : Writes x t) (hy : Writes y t) : x = y := by
  have := (reads hx).symm.trans (reads hy)
  exact Option.some.inj this

/-! ### Nothing is read past the closing bracket -/

/-- Texts in which `d - 1` brackets are closed that were opened before. -/
def Deep : Nat → Str → Prop
  | 0, _ => False
  | 1, a => Bal a
  | d + 2, a => ∃ b c, Bal b ∧ Deep (d + 1) c ∧ a = b ++ ']' :: c

theorem Deep.before {p a : Str} (hp : Bal p) : ∀ {d : Nat}, Deep d a → Deep d (p ++ a)
  | 0, h => h.elim
  | 1, h => Bal.append hp h
  | d + 2, ⟨b, c, hb, hc, e⟩ => ⟨p ++ b, c, hp.append hb, hc, by rw [e]; simp⟩

theorem close_sound : ∀ (n : Nat) (s : Str), s.length ≤ n → ∀ (d : Nat) (a r : Str), 1 ≤ d →
    close d s = some (a, r) → s = a ++ ']' :: r ∧ Deep d a := by
  intro n
  induction n with
  | zero =>
    intro s hs d a r _ h
    have : s = [] := by cases s with | nil => rfl | cons c s => simp at hs
    subst this
    rw [close.eq_def] at h; simp at h
  | succ n ih =>
    intro s hs d a r hd h
    cases s with
    | nil => rw [close.eq_def] at h; simp at h
    | cons c s =>
      rw [close.eq_def] at h
      simp only at h
      by_cases h1 : c = '\''
      · rw [if_pos h1] at h
        cases s with
        | nil => simp at h
        | cons e s =>
          simp only at h
          cases hc : close d s with
          | none => rw [hc] at h; cases h
          | some q =>
            rw [hc] at h
            obtain ⟨a', r'⟩ := q
            cases h
            obtain ⟨e1, e2⟩ := ih s (by simp at hs; omega) d a' r' hd hc
            exact ⟨by rw [e1, h1]; simp, Deep.before (.quoted e .nil) e2⟩
      · rw [if_neg h1] at h
        by_cases h2 : c = '['
        · rw [if_pos h2] at h
          cases hc : close (d + 1) s with
          | none => rw [hc] at h; cases h
          | some q =>
            rw [hc] at h
            obtain ⟨a', r'⟩ := q
            cases h
            obtain ⟨e1, e2⟩ := ih s (by simp at hs; omega) (d + 1) a' r' (by omega) hc
            refine ⟨by rw [e1, h2]; simp, ?_⟩
            cases d with
            | zero => omega
            | succ d =>
              obtain ⟨b, c', hb, hc', e3⟩ := e2
              have := Deep.before (.wrap hb) hc'
              rw [e3]
              simpa using this
        · rw [if_neg h2] at h
          by_cases h3 : c = ']'
          · rw [if_pos h3] at h
            by_cases h4 : d = 1
            · rw [if_pos h4] at h
              cases h
              subst h4
              exact ⟨by rw [h3]; simp, .nil⟩
            · rw [if_neg h4] at h
              cases hc : close (d - 1) s with
              | none => rw [hc] at h; cases h
              | some q =>
                rw [hc] at h
                obtain ⟨a', r'⟩ := q
                cases h
                obtain ⟨e1, e2⟩ := ih s (by simp at hs; omega) (d - 1) a' r' (by omega) hc
                refine ⟨by rw [e1, h3]; simp, ?_⟩
                obtain ⟨k, rfl⟩ : ∃ k, d = k + 2 := ⟨d - 2, by omega⟩
                exact ⟨[], a', .nil, e2, by simp⟩
          · rw [if_neg h3] at h
            cases hc : close d s with
            | none => rw [hc] at h; cases h
            | some q =>
              rw [hc] at h
              obtain ⟨a', r'⟩ := q
              cases h
              obtain ⟨e1, e2⟩ := ih s (by simp at hs; omega) d a' r' hd hc
              refine ⟨by rw [e1]; simp, Deep.before (.plain c ?_ .nil) e2⟩
              simp [inBrackets, h1, h2, h3]

/-- What is accepted is one bracketed text with paired brackets: nothing stands
before it, nothing behind it, and no bracket is left open. -/
theorem accepted_shape {t : Str} {x : Spec} (h : parseFull t = some x) :
    ∃ c, t = '[' :: c ++ [']'] ∧ Bal c := by
  unfold parseFull at h
  split at h
  · rename_i r
    split at h
    · rename_i c hc
      obtain ⟨e1, e2⟩ := close_sound r.length r (Nat.le_refl _) 1 c [] (by omega) hc
      exact ⟨c, by rw [e1]; simp, e2⟩
    · cases h
  · cases h

/-! ### What is not read back -/

mutual
/-- Whether two specifiers are the same, computed. -/
def same : Spec → Spec → Bool
  | .all, .all => true
  | .data, .data => true
  | .headers, .headers => true
  | .totals, .totals => true
  | .row a, .row b => decide (a = b)
  | .column a, .column b => decide (a = b)
  | .columns a b, .columns c d => decide (a = c) && decide (b = d)
  | .item a, .item b => decide (a = b)
  | .combo a, .combo b => sameAll a b
  | _, _ => false
/-- Whether two lists of specifiers are the same, computed. -/
def sameAll : List Spec → List Spec → Bool
  | [], [] => true
  | a :: as, b :: bs => same a b && sameAll as bs
  | _, _ => false
end

mutual
theorem same_eq : ∀ x y : Spec, same x y = true → x = y
  | .all, y, h => by cases y <;> first | rfl | simp [same] at h
  | .data, y, h => by cases y <;> first | rfl | simp [same] at h
  | .headers, y, h => by cases y <;> first | rfl | simp [same] at h
  | .totals, y, h => by cases y <;> first | rfl | simp [same] at h
  | .row a, y, h => by cases y <;> simp_all [same]
  | .column a, y, h => by cases y <;> simp_all [same]
  | .columns a b, y, h => by cases y <;> simp_all [same]
  | .item a, y, h => by cases y <;> simp_all [same]
  | .combo a, y, h => by
    cases y with
    | combo b => rw [same] at h; rw [sameAll_eq a b h]
    | _ => simp [same] at h
theorem sameAll_eq : ∀ x y : List Spec, sameAll x y = true → x = y
  | [], [], _ => rfl
  | [], _ :: _, h => by simp [sameAll] at h
  | _ :: _, [], h => by simp [sameAll] at h
  | a :: as, b :: bs, h => by
    rw [sameAll, Bool.and_eq_true] at h
    rw [same_eq a b h.1, sameAll_eq as bs h.2]
end

/-- Whether a text is read as the table `n` with the specifier `x`, computed. -/
def readAs (t n : Str) (x : Spec) : Bool :=
  match parseTable t with
  | some ⟨m, some y⟩ => decide (m = n) && same y x
  | _ => false

theorem readAs_eq {t n : Str} {x : Spec} (h : readAs t n x = true) : parseTable t = some ⟨n, some x⟩ := by
  unfold readAs at h
  split at h
  · rename_i m y e
    rw [Bool.and_eq_true, decide_eq_true_eq] at h
    rw [e, h.1, same_eq y x h.2]
  · cases h

/-- `T[[a:b]]` names one column, is printed `T[a:b]`, and that names the columns
from `a` to `b`: the printed formula reads other cells. -/
theorem colon_misread :
    parseTable "T[[a:b]]".toList = some ⟨"T".toList, some (.column "a:b".toList)⟩ ∧
    showRef ⟨"T".toList, some (.column "a:b".toList)⟩ = "T[a:b]".toList ∧
    parseTable "T[a:b]".toList = some ⟨"T".toList, some (.columns "a".toList "b".toList)⟩ :=
  ⟨readAs_eq (by decide +kernel), by decide +kernel, readAs_eq (by decide +kernel)⟩

/-- `T['#Data]` names a column called `#Data`, and is printed as the whole data
body. -/
theorem hash_misread :
    parseTable "T['#Data]".toList = some ⟨"T".toList, some (.column "#Data".toList)⟩ ∧
    showRef ⟨"T".toList, some (.column "#Data".toList)⟩ = "T[#Data]".toList ∧
    parseTable "T[#Data]".toList = some ⟨"T".toList, some (.item .data)⟩ :=
  ⟨readAs_eq (by decide +kernel), by decide +kernel, readAs_eq (by decide +kernel)⟩

/-- `T[a'[b]` is printed `T[a[b]`, which is no reference. -/
theorem bracket_unreadable :
    parseTable "T[a'[b]".toList = some ⟨"T".toList, some (.column "a[b".toList)⟩ ∧
    showRef ⟨"T".toList, some (.column "a[b".toList)⟩ = "T[a[b]".toList ∧
    parseTable "T[a[b]".toList = none :=
  ⟨readAs_eq (by decide +kernel), by decide +kernel, Option.isNone_iff_eq_none.1 (by decide +kernel)⟩

/-- `T[it''s]` is printed `T[it's]`, which names the column `its`. -/
theorem apostrophe_misread :
    parseTable "T[it''s]".toList = some ⟨"T".toList, some (.column "it's".toList)⟩ ∧
    showRef ⟨"T".toList, some (.column "it's".toList)⟩ = "T[it's]".toList ∧
    parseTable "T[it's]".toList = some ⟨"T".toList, some (.column "its".toList)⟩ :=
  ⟨readAs_eq (by decide +kernel), by decide +kernel, readAs_eq (by decide +kernel)⟩

/-- A combination in a combination is printed as a column with a strange name. -/
theorem nested_misread :
    parseTable "T[[#Data],[@a]]".toList =
      some ⟨"T".toList, some (.combo [.item .data, .combo [.item .thisRow, .column "a".toList]])⟩ ∧
    showRef ⟨"T".toList, some (.combo [.item .data, .combo [.item .thisRow, .column "a".toList]])⟩ =
      "T[[#Data],[[@],[a]]]".toList ∧
    parseTable "T[[#Data],[[@],[a]]]".toList =
      some ⟨"T".toList, some (.combo [.item .data, .column "[@],[a]".toList])⟩ :=
  ⟨readAs_eq (by decide +kernel), by decide +kernel, readAs_eq (by decide +kernel)⟩

/-- The columns from `a` to `b` of the current row are read as one column whose
name is `[a]:[b]`. -/
theorem at_range_misread :
    parseTable "T[@[a]:[b]]".toList =
      some ⟨"T".toList, some (.combo [.item .thisRow, .column "[a]:[b]".toList])⟩ :=
  readAs_eq (by decide +kernel)

/-! ### Examples -/

example : parseFull "[ [#this  ROW] , [Unit Price] : [it''s] ]".toList =
    some (.combo [.item .thisRow, .columns "Unit Price".toList "it's".toList]) := by
  apply reads
  refine ⟨[' '], "[#this  ROW] , [Unit Price] : [it''s]".toList, [' '], by simp [Gap], by simp [Gap], ?_, rfl⟩
  refine .several (.more (t := "[#this  ROW]".toList) (g := [' ']) (h := [' '])
    (.special (u := []) (v := []) (.thisRow (a := "#this".toList) (g := "  ".toList) (b := "ROW".toList) rfl (by decide)
      (by decide) rfl) gap_nil gap_nil)
    (.one (.columns (s := "Unit Price".toList) (t := "it''s".toList) (u := []) (v := []) (u' := []) (v' := [])
      (g := [' ']) (h := [' ']) ?_ ?_ gap_nil gap_nil gap_nil gap_nil (by simp [Gap]) (by simp [Gap])))
    (by simp [Gap]) (by simp [Gap])) (by decide)
  · exact ⟨esc_clear (by decide), ⟨by decide, by decide, by decide⟩, by decide, by decide⟩
  · refine ⟨?_, ⟨by decide, by decide, by decide⟩, by decide, by decide⟩
    exact .plain _ (by decide) (.plain _ (by decide) (.quoted _ (.plain _ (by decide) .nil)))

example : ClearSpec (.combo [.item .headers, .columns "a,b".toList "c:d".toList]) := by
  refine .combo (by decide) ?_
  intro p hp
  simp only [List.mem_cons, List.not_mem_nil, or_false] at hp
  rcases hp with rfl | rfl
  · exact .item _
  · exact .columns ⟨⟨by decide, by decide, by decide⟩, by decide, by decide, by decide⟩
      ⟨⟨by decide, by decide, by decide⟩, by decide, by decide, by decide⟩

example : Tight "a[1]:'x' #".toList := ⟨by decide, by decide, by decide⟩

end Verif.Struct
