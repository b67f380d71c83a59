/-
What the reader of structured references makes of the forms the language has:
a small grammar of the forms, and the proof that each is read as what it denotes.
-/
import Verif.Struct.Model
import Mathlib.Tactic.Tauto

namespace Verif.Struct

/-! ### The specification: how a specifier is written -/

/-- Blanks, tabs and newlines. -/
def Gap (w : Str) : Prop := ∀ c ∈ w, c = ' ' ∨ c = '\t' ∨ c = '\n'

/-- `t` writes the name `n`: a character outside `stops` stands for itself, and
an apostrophe makes the next character stand for itself. -/
inductive Esc (stops : List Char) : Str → Str → Prop
  | nil : Esc stops [] []
  | plain {n t : Str} (c : Char) : c ∉ stops → Esc stops n t → Esc stops (c :: n) (c :: t)
  | quoted {n t : Str} (c : Char) : Esc stops n t → Esc stops (c :: n) ('\'' :: c :: t)

/-- A name that is not empty and has no white space at its ends. -/
def Tight (n : Str) : Prop :=
  n ≠ [] ∧ (∀ c, n.head? = some c → white c = false) ∧ (∀ c, n.getLast? = some c → white c = false)

/-- Inside brackets. -/
def inBrackets : List Char := ['\'', '[', ']']

/-- Without brackets. -/
def bareStops : List Char := ['\'', '[', ']', ',', ':']

/-- `t` is a column's name, written with the given stops; it must not look like a
special item. -/
structure NameText (stops : List Char) (n t : Str) : Prop where
  esc : Esc stops n t
  tight : Tight n
  notHash : t.head? ≠ some '#'
  notAt : t.head? ≠ some '@'

/-- `t` spells a special item, in any case. -/
inductive SpecialText : Special → Str → Prop
  | all {t : Str} : t.map Char.toLower = "#all".toList → SpecialText .all t
  | headers {t : Str} : t.map Char.toLower = "#headers".toList → SpecialText .headers t
  | data {t : Str} : t.map Char.toLower = "#data".toList → SpecialText .data t
  | totals {t : Str} : t.map Char.toLower = "#totals".toList → SpecialText .totals t
  | thisRow {a g b : Str} : a.map Char.toLower = "#this".toList →
      (∀ c ∈ g, c = ' ' ∨ c = '\t') → g ≠ [] → b.map Char.toLower = "row".toList →
      SpecialText .thisRow (a ++ g ++ b)

/-- One bracketed item of a combination. -/
inductive ItemText : Spec → Str → Prop
  | column {n t u v : Str} : NameText inBrackets n t → Gap u → Gap v →
      ItemText (.column n) ('[' :: (u ++ t ++ v) ++ [']'])
  | special {s : Special} {t u v : Str} : SpecialText s t → Gap u → Gap v →
      ItemText (.item s) ('[' :: (u ++ t ++ v) ++ [']'])
  | thisRow {u v : Str} : Gap u → Gap v → ItemText (.item .thisRow) ('[' :: (u ++ ['@'] ++ v) ++ [']'])
  | columns {m n s t u v u' v' g h : Str} : NameText inBrackets m s → NameText inBrackets n t →
      Gap u → Gap v → Gap u' → Gap v' → Gap g → Gap h →
      ItemText (.columns m n)
        ('[' :: (u ++ s ++ v) ++ [']'] ++ g ++ [':'] ++ h ++ '[' :: (u' ++ t ++ v') ++ [']'])

/-- Items with commas between them. -/
inductive ItemsText : List Spec → Str → Prop
  | one {x : Spec} {t : Str} : ItemText x t → ItemsText [x] t
  | more {x : Spec} {xs : List Spec} {t r g h : Str} : ItemText x t → ItemsText xs r → Gap g → Gap h →
      ItemsText (x :: xs) (t ++ g ++ [','] ++ h ++ r)

/-- What stands between the outer brackets, without the gaps at its ends. -/
inductive ContentText : Spec → Str → Prop
  | whole : ContentText .all []
  | one {x : Spec} {t : Str} : ItemText x t → ContentText x t
  | several {xs : List Spec} {t : Str} : ItemsText xs t → 2 ≤ xs.length → ContentText (.combo xs) t
  | column {n t : Str} : NameText bareStops n t → ContentText (.column n) t
  | columns {m n s t g h : Str} : NameText bareStops m s → NameText bareStops n t → Gap g → Gap h →
      ContentText (.columns m n) (s ++ g ++ [':'] ++ h ++ t)
  | special {s : Special} {t : Str} : SpecialText s t → ContentText (.item s) t
  | row : ContentText (.row .current) ['@']
  | atColumn {n t g : Str} : Esc inBrackets n t → Tight n → Gap g →
      ContentText (.combo [.item .thisRow, .column n]) ('@' :: g ++ t)
  | atBracket {n t g u v : Str} : Esc inBrackets n t → Tight n → Gap g → Gap u → Gap v →
      ContentText (.combo [.item .thisRow, .column n]) ('@' :: g ++ '[' :: (u ++ t ++ v) ++ [']'])

/-- `t` writes the specifier `x`, brackets included. -/
def Writes (x : Spec) (t : Str) : Prop :=
  ∃ u c v : Str, Gap u ∧ Gap v ∧ ContentText x c ∧ t = '[' :: (u ++ c ++ v) ++ [']']

/-! ### Gaps, trimming -/

theorem white_gap {w : Str} (h : Gap w) : ∀ c ∈ w, white c = true := by
  intro c hc
  rcases h c hc with rfl | rfl | rfl <;> decide

theorem dropWhile_all {p : Char → Bool} {w : Str} (h : ∀ c ∈ w, p c = true) (r : Str) :
    (w ++ r).dropWhile p = r.dropWhile p := by
  induction w with
  | nil => rfl
  | cons c w ih =>
    rw [List.cons_append, List.dropWhile_cons, h c (by simp)]
    exact ih fun x hx => h x (by simp [hx])

theorem dropWhile_head {p : Char → Bool} {t : Str} (h : ∀ c, t.head? = some c → p c = false) :
    t.dropWhile p = t := by
  cases t with
  | nil => rfl
  | cons c t => rw [List.dropWhile_cons, h c rfl]; rfl

theorem trim_pad {u t v : Str} (hu : ∀ c ∈ u, white c = true) (hv : ∀ c ∈ v, white c = true)
    (h : Tight t) : trim (u ++ t ++ v) = t := by
  obtain ⟨hne, hh, hl⟩ := h
  unfold trim
  rw [List.append_assoc, dropWhile_all hu, dropWhile_head (t := t ++ v), List.reverse_append,
    dropWhile_all (by simpa using hv), dropWhile_head, List.reverse_reverse]
  · intro c hc
    exact hl c (by simpa using hc)
  · intro c hc
    apply hh c
    cases t with
    | nil => exact absurd rfl hne
    | cons x t => simpa using hc

theorem trim_tight {t : Str} (h : Tight t) : trim t = t := by
  have := trim_pad (u := []) (v := []) (t := t) (by simp) (by simp) h
  simpa using this

theorem trim_white {w : Str} (h : ∀ c ∈ w, white c = true) : trim w = [] := by
  have h2 : w.dropWhile white = [] := by
    have := dropWhile_all h []
    simpa using this
  unfold trim
  rw [h2]; rfl

theorem trim_gap {u t v : Str} (hu : Gap u) (hv : Gap v) (h : Tight t) : trim (u ++ t ++ v) = t :=
  trim_pad (white_gap hu) (white_gap hv) h

theorem skipWs_gap {g r : Str} (h : Gap g) (hr : ∀ c, r.head? = some c → c ≠ ' ' ∧ c ≠ '\t' ∧ c ≠ '\n') :
    skipWs (g ++ r) = r := by
  unfold skipWs
  rw [dropWhile_all, dropWhile_head]
  · intro c hc
    obtain ⟨a, b, d⟩ := hr c hc
    simp [a, b, d]
  · intro c hc
    rcases h c hc with rfl | rfl | rfl <;> decide

theorem skipWs_gap_nil {g : Str} (h : Gap g) : skipWs g = [] := by
  have := skipWs_gap (r := []) h (by simp)
  simpa using this

/-! ### Names -/

theorem Esc.head {stops : List Char} {n t : Str} (h : Esc stops n t) (c : Char) (hc : t.head? = some c) :
    c = '\'' ∨ n.head? = some c := by
  cases h with
  | nil => cases hc
  | plain d _ _ => right; simpa using hc
  | quoted d _ => left; simpa using hc.symm

theorem Esc.last {stops : List Char} {n t : Str} (h : Esc stops n t) : t.getLast? = n.getLast? := by
  induction h with
  | nil => rfl
  | @plain n t c _ h ih =>
    rw [List.getLast?_cons, List.getLast?_cons, ih]
  | @quoted n t c h ih =>
    rw [List.getLast?_cons_cons, List.getLast?_cons, List.getLast?_cons, ih]

theorem Esc.nonempty {stops : List Char} {n t : Str} (h : Esc stops n t) (hn : n ≠ []) : t ≠ [] := by
  cases h with
  | nil => exact absurd rfl hn
  | plain d _ _ => simp
  | quoted d _ => simp

theorem Esc.tight {stops : List Char} {n t : Str} (h : Esc stops n t) (hn : Tight n) : Tight t := by
  refine ⟨h.nonempty hn.1, fun c hc => ?_, fun c hc => ?_⟩
  · rcases h.head c hc with rfl | h'
    · decide
    · exact hn.2.1 c h'
  · rw [h.last] at hc
    exact hn.2.2 c hc

theorem Esc.mono {s s' : List Char} (hs : ∀ c, c ∈ s' → c ∈ s) {n t : Str} (h : Esc s n t) : Esc s' n t := by
  induction h with
  | nil => exact .nil
  | plain c hc _ ih => exact .plain c (fun h => hc (hs c h)) ih
  | quoted c _ ih => exact .quoted c ih

theorem Esc.bare {n t : Str} (h : Esc bareStops n t) : Esc inBrackets n t :=
  h.mono (by intro c hc; simp only [inBrackets, bareStops, List.mem_cons] at *; tauto)

theorem unquote_pad {u : Str} (h : Gap u) (r : Str) : unquote (u ++ r) = u ++ unquote r := by
  induction u with
  | nil => rfl
  | cons c u ih =>
    have hc : c ≠ '\'' := by
      rcases h c (by simp) with rfl | rfl | rfl <;> decide
    rw [List.cons_append, unquote.eq_def]
    simp only [hc, if_false]
    rw [ih fun x hx => h x (by simp [hx])]
    rfl

theorem unquote_esc {n t : Str} (h : Esc inBrackets n t) (r : Str) : unquote (t ++ r) = n ++ unquote r := by
  induction h with
  | nil => rfl
  | plain c hc _ ih =>
    have h1 : c ≠ '\'' := by simp [inBrackets] at hc; exact hc.1
    rw [List.cons_append, unquote.eq_def]
    simp only [h1, if_false]
    rw [ih]; rfl
  | quoted c _ ih =>
    rw [List.cons_append, List.cons_append, unquote.eq_def]
    simp only [if_true]
    rw [ih]; rfl

theorem unescape_pad {n t u v : Str} (h : Esc inBrackets n t) (hn : Tight n) (hu : Gap u) (hv : Gap v) :
    unescape (u ++ t ++ v) = n := by
  have hv' : unquote v = v := by
    have := unquote_pad hv []
    simpa [unquote] using this
  rw [unescape, List.append_assoc, unquote_pad hu, unquote_esc h, hv', ← List.append_assoc, trim_gap hu hv hn]

theorem unescape_name {n t : Str} (h : Esc inBrackets n t) (hn : Tight n) : unescape t = n := by
  have := unescape_pad (u := []) (v := []) h hn (by simp [Gap]) (by simp [Gap])
  simpa using this

/-! ### Walking to the closing bracket -/

/-- Texts in which brackets are paired. -/
inductive Bal : Str → Prop
  | nil : Bal []
  | plain {t : Str} (c : Char) : c ∉ inBrackets → Bal t → Bal (c :: t)
  | quoted {t : Str} (c : Char) : Bal t → Bal ('\'' :: c :: t)
  | nest {s t : Str} : Bal s → Bal t → Bal ('[' :: s ++ ']' :: t)

theorem Bal.append {s t : Str} (hs : Bal s) (ht : Bal t) : Bal (s ++ t) := by
  induction hs with
  | nil => exact ht
  | plain c hc _ ih => exact .plain c hc ih
  | quoted c _ ih => exact .quoted c ih
  | @nest a b ha _ _ ih =>
    have := Bal.nest ha ih
    simpa using this

theorem Bal.ofEsc {n t : Str} (h : Esc inBrackets n t) : Bal t := by
  induction h with
  | nil => exact .nil
  | plain c hc _ ih => exact .plain c hc ih
  | quoted c _ ih => exact .quoted c ih

theorem Bal.ofPlain {t : Str} (h : ∀ c ∈ t, c ∉ inBrackets) : Bal t := by
  induction t with
  | nil => exact .nil
  | cons c t ih => exact .plain c (h c (by simp)) (ih fun x hx => h x (by simp [hx]))

theorem Bal.gap {g : Str} (h : Gap g) : Bal g :=
  .ofPlain fun c hc => by rcases h c hc with rfl | rfl | rfl <;> decide

theorem Bal.wrap {s : Str} (h : Bal s) : Bal ('[' :: s ++ [']']) := .nest h .nil

theorem before_before (p q : Str) (x : Option (Str × Str)) : before p (before q x) = before (p ++ q) x := by
  cases x <;> simp [before]

theorem close_bal {t : Str} (h : Bal t) : ∀ (d : Nat) (r : Str), 1 ≤ d → close d (t ++ r) = before t (close d r) := by
  induction h with
  | nil =>
    intro d r _
    cases hc : close d r <;> simp [before, hc]
  | plain c hc _ ih =>
    intro d r hd
    simp only [inBrackets, List.mem_cons, List.not_mem_nil, or_false, not_or] at hc
    rw [List.cons_append, close.eq_def]
    simp only [hc.1, hc.2.1, hc.2.2, if_false]
    rw [ih d r hd, before_before]; rfl
  | quoted c _ ih =>
    intro d r hd
    rw [List.cons_append, List.cons_append, close.eq_def]
    simp only [if_true]
    rw [ih d r hd, before_before]; rfl
  | @nest a b _ _ iha ihb =>
    intro d r hd
    have e : '[' :: a ++ ']' :: b ++ r = '[' :: (a ++ (']' :: (b ++ r))) := by simp
    have h1 : ('[' : Char) ≠ '\'' := by decide
    have h2 : (']' : Char) ≠ '\'' := by decide
    have h3 : (']' : Char) ≠ '[' := by decide
    rw [e, close.eq_def]
    simp only [h1, if_false, if_true]
    rw [iha (d + 1) _ (by omega), close.eq_def]
    simp only [h2, h3, if_false, if_true]
    rw [if_neg (by omega), Nat.add_sub_cancel, ihb d r hd, before_before, before_before, before_before]
    simp

theorem close_here {t : Str} (h : Bal t) (r : Str) : close 1 (t ++ ']' :: r) = some (t, r) := by
  rw [close_bal h 1 _ (by omega), close.eq_def]
  simp [before]

theorem token_here {t : Str} (h : Bal t) (r : Str) : token ('[' :: t ++ ']' :: r) = some (t, r) :=
  close_here h r

/-! ### The scan at the top level -/

theorem scan_cons (d : Nat) (p : Str) (c : Char) (r : Str) (k : Scan) (h : c ∉ inBrackets) :
    scan d p (c :: r) k =
      (if c = ',' ∧ d = 0 then scan d (c :: p) r { k with comma := true }
      else if c = ':' ∧ d = 0 ∧ k.colon = none then
        scan d (c :: p) r { k with colon := some (p.reverse, r) }
      else scan d (c :: p) r k) := by
  simp only [inBrackets, List.mem_cons, List.not_mem_nil, or_false, not_or] at h
  rw [scan.eq_def]
  simp only [h.1, h.2.1, h.2.2, if_false]

theorem scan_quote (d : Nat) (p : Str) (c : Char) (r : Str) (k : Scan) :
    scan d p ('\'' :: c :: r) k = scan d (c :: '\'' :: p) r k := by
  rw [scan.eq_def]; simp

theorem scan_open (d : Nat) (p : Str) (r : Str) (k : Scan) :
    scan d p ('[' :: r) k = scan (d + 1) ('[' :: p) r (if d = 0 then { k with bracket := true } else k) := by
  have h1 : ('[' : Char) ≠ '\'' := by decide
  rw [scan.eq_def]; simp only [h1, if_false, if_true]

theorem scan_close (d : Nat) (p : Str) (r : Str) (k : Scan) :
    scan (d + 1) p (']' :: r) k = scan d (']' :: p) r k := by
  have h1 : (']' : Char) ≠ '\'' := by decide
  have h2 : (']' : Char) ≠ '[' := by decide
  rw [scan.eq_def]
  simp only [h1, h2, if_false, if_true]
  rw [if_neg (by omega), Nat.add_sub_cancel]

/-- Over a text with paired brackets the scan goes on at the same depth, and no
bracket seen is forgotten. -/
theorem scan_bal {t : Str} (h : Bal t) : ∀ (d : Nat) (p r : Str) (k : Scan),
    ∃ k', scan d p (t ++ r) k = scan d (t.reverse ++ p) r k' ∧ (k.bracket = true → k'.bracket = true) := by
  induction h with
  | nil => intro d p r k; exact ⟨k, rfl, id⟩
  | plain c hc _ ih =>
    intro d p r k
    rw [List.cons_append, scan_cons d p c _ k hc]
    split
    · obtain ⟨k', h1, h2⟩ := ih d (c :: p) r { k with comma := true }
      exact ⟨k', by rw [h1]; simp, h2⟩
    · split
      · obtain ⟨k', h1, h2⟩ := ih d (c :: p) r { k with colon := some (p.reverse, _ ++ r) }
        exact ⟨k', by rw [h1]; simp, h2⟩
      · obtain ⟨k', h1, h2⟩ := ih d (c :: p) r k
        exact ⟨k', by rw [h1]; simp, h2⟩
  | quoted c _ ih =>
    intro d p r k
    rw [List.cons_append, List.cons_append, scan_quote]
    obtain ⟨k', h1, h2⟩ := ih d (c :: '\'' :: p) r k
    exact ⟨k', by rw [h1]; simp, h2⟩
  | @nest a b _ _ iha ihb =>
    intro d p r k
    have e : '[' :: a ++ ']' :: b ++ r = '[' :: (a ++ (']' :: (b ++ r))) := by simp
    rw [e, scan_open]
    obtain ⟨k1, h1, h2⟩ := iha (d + 1) ('[' :: p) (']' :: (b ++ r)) (if d = 0 then { k with bracket := true } else k)
    rw [h1, scan_close]
    obtain ⟨k2, h3, h4⟩ := ihb d (']' :: (a.reverse ++ '[' :: p)) r k1
    refine ⟨k2, by rw [h3]; simp, fun hk => h4 (h2 ?_)⟩
    split <;> simp [hk]

/-- A text that begins with a bracketed part is scanned as one with a bracket. -/
theorem scan_bracket {a b : Str} (ha : Bal a) (hb : Bal b) (k : Scan) :
    ∃ k', scan 0 [] ('[' :: a ++ ']' :: b) k = some k' ∧ k'.bracket = true := by
  have e : '[' :: a ++ ']' :: b = '[' :: (a ++ (']' :: b)) := by simp
  rw [e, scan_open]
  obtain ⟨k1, h1, h2⟩ := scan_bal ha 1 ['['] (']' :: b) { k with bracket := true }
  simp only [if_true]
  rw [h1, scan_close]
  obtain ⟨k2, h3, h4⟩ := scan_bal hb 0 (']' :: (a.reverse ++ ['['])) [] k1
  rw [List.append_nil] at h3
  rw [h3, scan.eq_def]
  exact ⟨k2, by simp, h4 (h2 rfl)⟩

/-- Over a bare name the scan sees nothing. -/
theorem scan_bare {n t : Str} (h : Esc bareStops n t) (p r : Str) (k : Scan) :
    scan 0 p (t ++ r) k = scan 0 (t.reverse ++ p) r k := by
  induction h generalizing p with
  | nil => rfl
  | plain c hc _ ih =>
    have hc' : c ∉ inBrackets := fun h => hc (by simp only [inBrackets, bareStops, List.mem_cons] at *; tauto)
    have h1 : c ≠ ',' := fun h => hc (by simp [h, bareStops])
    have h2 : c ≠ ':' := fun h => hc (by simp [h, bareStops])
    rw [List.cons_append, scan_cons 0 p c _ k hc', if_neg (by simp [h1]), if_neg (by simp [h2]), ih]
    simp
  | quoted c _ ih =>
    rw [List.cons_append, List.cons_append, scan_quote, ih]
    simp

theorem Esc.ofGap {g : Str} (h : Gap g) : Esc bareStops g g := by
  induction g with
  | nil => exact .nil
  | cons c g ih =>
    refine .plain c ?_ (ih fun x hx => h x (by simp [hx]))
    rcases h c (by simp) with rfl | rfl | rfl <;> decide

/-! ### Special items -/

theorem squeeze_id {t : Str} (h : ∀ c ∈ t, c ≠ ' ' ∧ c ≠ '\t') (was : Bool) : squeeze was t = t := by
  induction t generalizing was with
  | nil => rfl
  | cons c t ih =>
    obtain ⟨h1, h2⟩ := h c (by simp)
    rw [squeeze, if_neg (by tauto), ih fun x hx => h x (by simp [hx])]

theorem squeeze_append {a : Str} (h : ∀ c ∈ a, c ≠ ' ' ∧ c ≠ '\t') (ha : a ≠ []) (was : Bool) (r : Str) :
    squeeze was (a ++ r) = a ++ squeeze false r := by
  induction a generalizing was with
  | nil => exact absurd rfl ha
  | cons c t ih =>
    obtain ⟨h1, h2⟩ := h c (by simp)
    rw [List.cons_append, squeeze, if_neg (by tauto)]
    by_cases ht : t = []
    · subst ht; rfl
    · rw [ih (fun x hx => h x (by simp [hx])) ht]; rfl

theorem squeeze_run {g : Str} (h : ∀ c ∈ g, c = ' ' ∨ c = '\t') (r : Str) :
    squeeze true (g ++ r) = squeeze true r := by
  induction g with
  | nil => rfl
  | cons c t ih =>
    rw [List.cons_append, squeeze, if_pos (h c (by simp)), if_pos rfl, ih fun x hx => h x (by simp [hx])]

theorem lower_word {t w : Str} (h : t.map Char.toLower = w) (hw : ∀ c ∈ w, c ≠ ' ' ∧ c ≠ '\t') :
    ∀ c ∈ t, c ≠ ' ' ∧ c ≠ '\t' := by
  intro c hc
  have : c.toLower ∈ w := by rw [← h]; exact List.mem_map_of_mem hc
  refine ⟨?_, ?_⟩
  · rintro rfl; exact (hw _ this).1 rfl
  · rintro rfl; exact (hw _ this).2 rfl

theorem special_text {s : Special} {t : Str} (h : SpecialText s t) : special t = some s := by
  cases h with
  | all h =>
    have := squeeze_id (lower_word h (by decide)) false
    simp only [special, this, h]; rfl
  | headers h =>
    have := squeeze_id (lower_word h (by decide)) false
    simp only [special, this, h]; rfl
  | data h =>
    have := squeeze_id (lower_word h (by decide)) false
    simp only [special, this, h]; rfl
  | totals h =>
    have := squeeze_id (lower_word h (by decide)) false
    simp only [special, this, h]; rfl
  | @thisRow a g b ha hg hne hb =>
    have wa := lower_word ha (by decide)
    have wb := lower_word hb (by decide)
    have hane : a ≠ [] := by rintro rfl; simp at ha
    have e : squeeze false (a ++ g ++ b) = a ++ ' ' :: b := by
      rw [List.append_assoc, squeeze_append wa hane]
      cases g with
      | nil => exact absurd rfl hne
      | cons c g =>
        rw [List.cons_append, squeeze, if_pos (hg c (by simp)), squeeze_run fun x hx => hg x (by simp [hx]),
          squeeze_id wb]
        rfl
    simp only [special, e, List.map_append, List.map_cons, ha, hb]; rfl

theorem white_lower {c : Char} (h : white c = true) : c.toLower = c := by
  unfold Char.toLower
  split
  · rename_i h2
    exfalso
    obtain ⟨h3, h4⟩ := h2
    have h3' : 65 ≤ c.toNat := by have := UInt32.le_iff_toNat_le.1 h3; exact this
    have h4' : c.toNat ≤ 90 := by have := UInt32.le_iff_toNat_le.1 h4; exact this
    simp only [white, Bool.or_eq_true, Bool.and_eq_true, decide_eq_true_eq] at h
    omega
  · rfl

theorem lower_last {t w : Str} (h : t.map Char.toLower = w) (hw : ∀ c, w.getLast? = some c → white c = false)
    (c : Char) (hc : t.getLast? = some c) : white c = false := by
  by_cases hh : white c = true
  · have : w.getLast? = some c.toLower := by rw [← h, List.getLast?_map, hc]; rfl
    have h2 := hw _ this
    rw [white_lower hh] at h2
    exact h2
  · simpa using hh

theorem lower_hash {t w : Str} (h : t.map Char.toLower = '#' :: w) : t.head? = some '#' := by
  cases t with
  | nil => simp at h
  | cons c t =>
    have h1 : c.toLower = '#' := by simpa using (List.cons.inj h).1
    unfold Char.toLower at h1
    split at h1
    · rename_i h2
      exfalso
      obtain ⟨h3, h4⟩ := h2
      have h3' : 65 ≤ c.toNat := UInt32.le_iff_toNat_le.1 h3
      have h4' : c.toNat ≤ 90 := UInt32.le_iff_toNat_le.1 h4
      have h5 := congrArg (fun c : Char => c.val.toNat) h1
      simp only [UInt32.toNat_add] at h5
      have h6 : c.val.toNat = c.toNat := rfl
      have h7 : ('#' : Char).val.toNat = 35 := rfl
      rw [h6, h7] at h5
      simp at h5
      omega
    · rw [h1]; rfl

theorem SpecialText.hash {s : Special} {t : Str} (h : SpecialText s t) : t.head? = some '#' := by
  cases h with
  | all h => exact lower_hash h
  | headers h => exact lower_hash h
  | data h => exact lower_hash h
  | totals h => exact lower_hash h
  | @thisRow a g b ha hg hne hb =>
    have := lower_hash ha
    cases a with
    | nil => simp at this
    | cons c a => simpa using this

theorem SpecialText.tight {s : Special} {t : Str} (h : SpecialText s t) : Tight t := by
  have hh := h.hash
  refine ⟨by rintro rfl; simp at hh, fun c hc => ?_, ?_⟩
  · rw [hh] at hc; cases hc; decide
  · cases h with
    | all h => exact lower_last h (by decide)
    | headers h => exact lower_last h (by decide)
    | data h => exact lower_last h (by decide)
    | totals h => exact lower_last h (by decide)
    | @thisRow a g b ha hg hne hb =>
      intro c hc
      have hbne : b ≠ [] := by rintro rfl; simp at hb
      rw [List.getLast?_append, List.getLast?_eq_some_getLast hbne] at hc
      rw [Option.some_or, ← List.getLast?_eq_some_getLast hbne] at hc
      exact lower_last hb (by decide) c hc

theorem lower_bal {t w : Str} (h : t.map Char.toLower = w) (hw : ∀ c ∈ w, c ∉ bareStops) :
    Esc bareStops t t := by
  subst h
  induction t with
  | nil => exact .nil
  | cons c t ih =>
    refine .plain c (fun hc => ?_) (ih fun x hx => hw x (by simp at hx ⊢; right; exact hx))
    have hm : c.toLower ∉ bareStops := hw _ (by simp)
    simp only [bareStops, List.mem_cons, List.not_mem_nil, or_false] at hc
    rcases hc with rfl | rfl | rfl | rfl | rfl <;> exact hm (by decide)

theorem Esc.append {st : List Char} {m n s t : Str} (h : Esc st m s) (h' : Esc st n t) : Esc st (m ++ n) (s ++ t) := by
  induction h with
  | nil => exact h'
  | plain c hc _ ih => exact .plain c hc ih
  | quoted c _ ih => exact .quoted c ih

theorem SpecialText.bare {s : Special} {t : Str} (h : SpecialText s t) : Esc bareStops t t := by
  cases h with
  | all h => exact lower_bal h (by decide)
  | headers h => exact lower_bal h (by decide)
  | data h => exact lower_bal h (by decide)
  | totals h => exact lower_bal h (by decide)
  | @thisRow a g b ha hg hne hb =>
    refine .append (.append (lower_bal ha (by decide)) (.ofGap ?_)) (lower_bal hb (by decide))
    intro c hc
    rcases hg c hc with h | h
    · exact .inl h
    · exact .inr (.inl h)

/-! ### Items -/

theorem NameText.wide {stops : List Char} {n t : Str} (h : NameText stops n t) : Tight t := h.esc.tight h.tight

theorem unmarked {t : Str} (h1 : t.head? ≠ some '#') (h2 : t.head? ≠ some '@') : marked t = false := by
  simp [marked, h1, h2]

theorem ofToken_column {n t u v : Str} (h : NameText inBrackets n t) (hu : Gap u) (hv : Gap v) :
    ofToken (u ++ t ++ v) = some (.column n) := by
  simp only [ofToken]
  rw [trim_gap hu hv h.wide]
  have h1 := h.notHash
  have h2 := h.notAt
  have h3 := unescape_name h.esc h.tight
  cases t with
  | nil => exact absurd rfl h.wide.1
  | cons c t =>
    simp only [List.head?_cons, ne_eq, Option.some.injEq] at h1 h2
    simp only [h1, h2, if_false, h3]

theorem ofToken_special {s : Special} {t u v : Str} (h : SpecialText s t) (hu : Gap u) (hv : Gap v) :
    ofToken (u ++ t ++ v) = some (.item s) := by
  simp only [ofToken]
  rw [trim_gap hu hv h.tight]
  have h1 := h.hash
  have h2 := special_text h
  cases t with
  | nil => cases h1
  | cons c t =>
    simp only [List.head?_cons, Option.some.injEq] at h1
    subst h1
    simp only [if_true, h2]; rfl

theorem ofToken_at {u v : Str} (hu : Gap u) (hv : Gap v) : ofToken (u ++ ['@'] ++ v) = some (.item .thisRow) := by
  simp only [ofToken]
  rw [trim_gap hu hv ⟨by simp, by simp; decide, by simp; decide⟩]
  rfl

theorem rangeOfTokens_names {m n s t u v u' v' : Str} (hm : NameText inBrackets m s) (hn : NameText inBrackets n t)
    (hu : Gap u) (hv : Gap v) (hu' : Gap u') (hv' : Gap v') :
    rangeOfTokens (u ++ s ++ v) (u' ++ t ++ v') = some (.columns m n) := by
  simp only [rangeOfTokens]
  rw [trim_gap hu hv hm.wide, trim_gap hu' hv' hn.wide, if_neg (by simp [hm.wide.1, hn.wide.1]),
    if_neg (by simp [unmarked hm.notHash hm.notAt, unmarked hn.notHash hn.notAt]),
    unescape_name hm.esc hm.tight, unescape_name hn.esc hn.tight]

theorem bal_pad {t u v : Str} (h : Bal t) (hu : Gap u) (hv : Gap v) : Bal (u ++ t ++ v) :=
  ((Bal.gap hu).append h).append (.gap hv)

theorem skipWs_open (r : Str) : skipWs ('[' :: r) = '[' :: r := by
  have := skipWs_gap (g := []) (r := '[' :: r) (by simp [Gap]) (by
    intro c hc; cases hc; decide)
  simpa using this

/-- What may stand behind an item: nothing that the look for a colon would take. -/
def After (r : Str) : Prop := ∀ c, (skipWs r).head? = some c → c ≠ ':'

theorem item_token {a r : Str} (ha : Bal a) (hr : After r) :
    item ('[' :: a ++ ']' :: r) = (ofToken a).map fun x => (x, r) := by
  have e : skipWs ('[' :: a ++ ']' :: r) = '[' :: a ++ ']' :: r := skipWs_open _
  unfold item
  rw [e, token_here ha r]
  simp only
  split
  · rename_i r' hs
    exact absurd rfl (hr ':' (by rw [hs]; rfl))
  · rfl

theorem item_text {x : Spec} {t : Str} (h : ItemText x t) (r : Str) (hr : After r) : item (t ++ r) = some (x, r) := by
  cases h with
  | @column n t u v hn hu hv =>
    have e : '[' :: (u ++ t ++ v) ++ [']'] ++ r = '[' :: (u ++ t ++ v) ++ ']' :: r := by simp
    rw [e, item_token (bal_pad (.ofEsc hn.esc) hu hv) hr, ofToken_column hn hu hv]; rfl
  | @special s t u v hs hu hv =>
    have e : '[' :: (u ++ t ++ v) ++ [']'] ++ r = '[' :: (u ++ t ++ v) ++ ']' :: r := by simp
    rw [e, item_token (bal_pad (.ofEsc hs.bare.bare) hu hv) hr, ofToken_special hs hu hv]; rfl
  | @thisRow u v hu hv =>
    have e : '[' :: (u ++ ['@'] ++ v) ++ [']'] ++ r = '[' :: (u ++ ['@'] ++ v) ++ ']' :: r := by simp
    rw [e, item_token (bal_pad (.plain _ (by decide) .nil) hu hv) hr, ofToken_at hu hv]; rfl
  | @columns m n s t u v u' v' g h hm hn hu hv hu' hv' hg hh =>
    have e : '[' :: (u ++ s ++ v) ++ [']'] ++ g ++ [':'] ++ h ++ '[' :: (u' ++ t ++ v') ++ [']'] ++ r =
        '[' :: (u ++ s ++ v) ++ ']' :: (g ++ ':' :: (h ++ ('[' :: (u' ++ t ++ v') ++ ']' :: r))) := by simp
    rw [e]
    unfold item
    have e1 : skipWs ('[' :: (u ++ s ++ v) ++ ']' :: (g ++ ':' :: (h ++ ('[' :: (u' ++ t ++ v') ++ ']' :: r)))) =
        '[' :: (u ++ s ++ v) ++ ']' :: (g ++ ':' :: (h ++ ('[' :: (u' ++ t ++ v') ++ ']' :: r))) := skipWs_open _
    rw [e1, token_here (bal_pad (.ofEsc hm.esc) hu hv)]
    simp only
    rw [skipWs_gap hg (r := ':' :: _) (by intro c hc; cases hc; decide)]
    simp only
    rw [skipWs_gap hh (r := '[' :: (u' ++ t ++ v') ++ ']' :: r) (by intro c hc; cases hc; decide),
      token_here (bal_pad (.ofEsc hn.esc) hu' hv')]
    simp only
    rw [rangeOfTokens_names hm hn hu hv hu' hv']; rfl

theorem ItemText.shape {x : Spec} {t : Str} (h : ItemText x t) :
    ∃ a b, Bal a ∧ Bal b ∧ t = '[' :: a ++ ']' :: b ∧ t.getLast? = some ']' := by
  cases h with
  | @column n t u v hn hu hv => exact ⟨_, [], bal_pad (.ofEsc hn.esc) hu hv, .nil, by simp, by rw [List.getLast?_append]; rfl⟩
  | @special s t u v hs hu hv => exact ⟨_, [], bal_pad (.ofEsc hs.bare.bare) hu hv, .nil, by simp, by rw [List.getLast?_append]; rfl⟩
  | @thisRow u v hu hv =>
    exact ⟨u ++ ['@'] ++ v, [], bal_pad (.plain _ (by decide) .nil) hu hv, .nil, by simp, by
      rw [List.getLast?_append]; rfl⟩
  | @columns m n s t u v u' v' g h hm hn hu hv hu' hv' hg hh =>
    refine ⟨_, g ++ [':'] ++ h ++ ('[' :: (u' ++ t ++ v') ++ [']']), bal_pad (.ofEsc hm.esc) hu hv, ?_, by simp, ?_⟩
    · exact (((Bal.gap hg).append (.plain _ (by decide) .nil)).append (.gap hh)).append
        (.wrap (bal_pad (.ofEsc hn.esc) hu' hv'))
    · rw [List.getLast?_append]; simp

theorem ItemsText.shape {xs : List Spec} {t : Str} (h : ItemsText xs t) :
    ∃ a b, Bal a ∧ Bal b ∧ t = '[' :: a ++ ']' :: b ∧ t.getLast? = some ']' := by
  induction h with
  | one h => exact h.shape
  | @more x xs t r g h hx hxs hg hh ih =>
    obtain ⟨a, b, ha, hb, e, _⟩ := hx.shape
    obtain ⟨a', b', ha', hb', e', hl⟩ := ih
    refine ⟨a, b ++ (g ++ [','] ++ h ++ r), ha, ?_, by rw [e]; simp, ?_⟩
    · refine hb.append (((Bal.gap hg).append (.plain _ (by decide) .nil)).append (.gap hh) |>.append ?_)
      rw [e']; exact .nest ha' hb'
    · rw [List.getLast?_append, hl]; rfl

theorem items_text {xs : List Spec} {t : Str} (h : ItemsText xs t) : ∀ n, t.length < n → items n t = some xs := by
  induction h with
  | @one x t h =>
    intro n hn
    cases n with
    | zero => omega
    | succ n =>
      have := item_text h [] (by simp [After, skipWs])
      rw [List.append_nil] at this
      rw [items, this]; rfl
  | @more x xs t r g h hx hxs hg hh ih =>
    intro n hn
    cases n with
    | zero => omega
    | succ n =>
      have hsk : skipWs (g ++ (',' :: (h ++ r))) = ',' :: (h ++ r) :=
        skipWs_gap hg (by intro c hc; cases hc; decide)
      have := item_text hx (g ++ (',' :: (h ++ r))) (by
        intro c hc; rw [hsk] at hc; cases hc; decide)
      have e : t ++ g ++ [','] ++ h ++ r = t ++ (g ++ (',' :: (h ++ r))) := by simp
      obtain ⟨a, b, _, _, er, _⟩ := hxs.shape
      have hr : skipWs (h ++ r) = r := skipWs_gap hh (by intro c hc; rw [er] at hc; cases hc; decide)
      rw [e, items, this]
      simp only
      rw [hsk]
      simp only [if_true]
      rw [hr, ih n (by simp at hn; omega)]; rfl

theorem combination_text {xs : List Spec} {t : Str} (h : ItemsText xs t) :
    combination t = match xs with | [x] => some x | xs => some (.combo xs) := by
  obtain ⟨a, b, _, _, e, _⟩ := h.shape
  have h1 : skipWs t = t := by rw [e]; exact skipWs_open _
  have h2 : t ≠ [] := by rw [e]; simp
  unfold combination
  rw [h1, if_neg h2, items_text h _ (by omega)]
  split
  · contradiction
  · rename_i x hx
    cases hx; rfl
  · rename_i ys hne hy
    cases hy
    rcases xs with _ | ⟨x, _ | ⟨y, ys⟩⟩
    · rfl
    · exact absurd rfl (hne x)
    · rfl

/-! ### Contents -/

theorem content_items {xs : List Spec} {t u v : Str} (h : ItemsText xs t) (hu : Gap u) (hv : Gap v) :
    content (u ++ t ++ v) = match xs with | [x] => some x | xs => some (.combo xs) := by
  obtain ⟨a, b, ha, hb, e, hl⟩ := h.shape
  have ht : Tight t := by
    refine ⟨by rw [e]; simp, fun c hc => ?_, fun c hc => ?_⟩
    · rw [e] at hc; cases hc; decide
    · rw [hl] at hc; cases hc; decide
  obtain ⟨k, h1, h2⟩ := scan_bracket ha hb ⟨false, false, none⟩
  have h3 := combination_text h
  simp only [content]
  rw [trim_gap hu hv ht]
  subst e
  have h4 : ('[' : Char) ≠ '@' := by decide
  simp only [List.cons_append, h4, if_false] at h1 h3 ⊢
  rw [h1]
  simp only [h2, if_true]
  exact h3

theorem stripOuter_esc {n t u v : Str} (h : Esc inBrackets n t) (hu : Gap u) (hv : Gap v) :
    stripOuter ('[' :: (u ++ t ++ v) ++ [']']) = some (u ++ t ++ v) := by
  have key : ∀ {n t : Str}, Esc inBrackets n t → inner 1 t = some 1 := by
    intro n t h
    induction h with
    | nil => rfl
    | plain c hc _ ih =>
      simp only [inBrackets, List.mem_cons, List.not_mem_nil, or_false, not_or] at hc
      rw [inner.eq_def]
      simp only [hc.1, hc.2.1, hc.2.2, if_false]
      exact ih
    | quoted c _ ih =>
      rw [inner.eq_def]
      simp only [if_true]
      exact ih
  have h1 : Esc inBrackets (u ++ n ++ v) (u ++ t ++ v) := ((Esc.ofGap hu).bare.append h).append (Esc.ofGap hv).bare
  simp only [stripOuter, List.cons_append, List.getLast?_append, List.dropLast_concat, key h1]
  simp

theorem stripOuter_none {s : Str} (h : s.head? ≠ some '[') : stripOuter s = none := by
  unfold stripOuter
  split
  · simp at h
  · rfl

theorem atShorthand_column {n t g : Str} (h : Esc inBrackets n t) (hn : Tight n) (hg : Gap g) :
    atShorthand (trim (g ++ t)) = some (.combo [.item .thisRow, .column n]) := by
  have ht := h.tight hn
  have e : trim (g ++ t) = t := by
    have := trim_gap (v := []) hg (by simp [Gap]) ht
    simpa using this
  have hs : stripOuter t = none := by
    apply stripOuter_none
    intro hh
    cases h with
    | nil => cases hh
    | plain c hc _ =>
      cases hh
      exact hc (by decide)
    | quoted c _ => cases hh
  unfold atShorthand
  rw [e, if_neg ht.1]
  simp only [trim_tight ht, hs, Option.getD_none]
  rw [if_neg ht.1, unescape_name h hn]

theorem atShorthand_bracket {n t g u v : Str} (h : Esc inBrackets n t) (hn : Tight n) (hg : Gap g) (hu : Gap u)
    (hv : Gap v) :
    atShorthand (trim (g ++ '[' :: (u ++ t ++ v) ++ [']'])) = some (.combo [.item .thisRow, .column n]) := by
  have ht : Tight ('[' :: (u ++ t ++ v) ++ [']']) := by
    refine ⟨by simp, fun c hc => ?_, fun c hc => ?_⟩
    · cases hc; decide
    · rw [List.getLast?_append] at hc; cases hc; decide
  have e : trim (g ++ '[' :: (u ++ t ++ v) ++ [']']) = '[' :: (u ++ t ++ v) ++ [']'] := by
    have := trim_gap (v := []) hg (by simp [Gap]) ht
    simpa using this
  have h0 : u ++ t ++ v ≠ [] := by simp [h.nonempty hn.1]
  unfold atShorthand
  rw [e, if_neg ht.1]
  simp only [trim_tight ht, stripOuter_esc h hu hv, Option.getD_some]
  rw [if_neg h0, unescape_pad h hn hu hv]

theorem content_at {r u v : Str} (hu : Gap u) (hv : Gap v) (hr : ∀ c, ('@' :: r).getLast? = some c → white c = false) :
    content (u ++ '@' :: r ++ v) = atShorthand (trim r) := by
  simp only [content]
  rw [trim_gap hu hv ⟨by simp, by intro c hc; cases hc; decide, hr⟩]
  simp only [if_true]

/-- Every form of the grammar is read as what it denotes. -/
theorem content_text {x : Spec} {t u v : Str} (h : ContentText x t) (hu : Gap u) (hv : Gap v) :
    content (u ++ t ++ v) = some x := by
  cases h with
  | whole =>
    have : trim (u ++ [] ++ v) = [] := by
      apply trim_white
      intro c hc
      simp only [List.append_nil, List.mem_append] at hc
      exact hc.elim (white_gap hu c) (white_gap hv c)
    simp only [content]
    rw [this]
  | one h => exact content_items (.one h) hu hv
  | @several xs t h hl =>
    rw [content_items h hu hv]
    rcases xs with _ | ⟨x, _ | ⟨y, ys⟩⟩
    · rfl
    · simp at hl
    · rfl
  | @column n t h =>
    have hs := scan_bare h.esc [] [] ⟨false, false, none⟩
    rw [List.append_nil, scan.eq_def 0 _ []] at hs
    simp only [if_true] at hs
    simp only [content]
    rw [trim_gap hu hv h.wide]
    have h1 := h.notHash
    have h2 := h.notAt
    have h3 := unescape_name h.esc.bare h.tight
    cases t with
    | nil => exact absurd rfl h.wide.1
    | cons c t =>
      simp only [List.head?_cons, ne_eq, Option.some.injEq] at h1 h2
      simp only [h1, h2, if_false, hs, h3]
      simp
  | @columns m n s t g h hm hn hg hh =>
    have e : s ++ g ++ [':'] ++ h ++ t = (s ++ g) ++ (':' :: (h ++ t)) := by simp
    have ht : Tight (s ++ g ++ [':'] ++ h ++ t) := by
      refine ⟨by simp, fun c hc => ?_, fun c hc => ?_⟩
      · have := hm.wide
        cases s with
        | nil => exact absurd rfl this.1
        | cons d s => exact this.2.1 c (by simpa using hc)
      · rw [List.getLast?_append, List.getLast?_eq_some_getLast hn.wide.1, Option.some_or,
          ← List.getLast?_eq_some_getLast hn.wide.1] at hc
        exact hn.wide.2.2 c hc
    have hs : scan 0 [] (s ++ g ++ [':'] ++ h ++ t) ⟨false, false, none⟩ =
        some ⟨false, false, some (s ++ g, h ++ t)⟩ := by
      have h1 : Esc bareStops (m ++ g) (s ++ g) := hm.esc.append (.ofGap hg)
      have h2 : Esc bareStops (h ++ n) (h ++ t) := (Esc.ofGap hh).append hn.esc
      rw [e, scan_bare h1, scan_cons _ _ _ _ _ (by decide), if_neg (by decide), if_pos (by decide)]
      have := scan_bare h2 (':' :: ((s ++ g).reverse ++ [])) []
        ⟨false, false, some (((s ++ g).reverse ++ []).reverse, h ++ t)⟩
      rw [List.append_nil (h ++ t), scan.eq_def 0 _ []] at this
      refine this.trans ?_
      simp
    have h4 : trim (s ++ g) = s := by
      have := trim_gap (u := []) (by simp [Gap]) hg hm.wide
      simpa using this
    have h5 : trim (h ++ t) = t := by
      have := trim_gap (v := []) hh (by simp [Gap]) hn.wide
      simpa using this
    have h6 : rangeOf s t = some (.columns m n) := by
      unfold rangeOf
      rw [if_neg (by simp [hm.wide.1, hn.wide.1]), unescape_name hm.esc.bare hm.tight,
        unescape_name hn.esc.bare hn.tight]
    simp only [content]
    rw [trim_gap hu hv ht]
    have h2 := hm.notAt
    cases s with
    | nil => exact absurd rfl hm.wide.1
    | cons c s =>
      simp only [List.head?_cons, ne_eq, Option.some.injEq] at h2
      simp only [List.cons_append, h2, if_false] at hs h4 ⊢
      rw [hs]
      simp only [h4, h5, h6]
      simp
  | @special s t h =>
    have hs := scan_bare h.bare [] [] ⟨false, false, none⟩
    rw [List.append_nil, scan.eq_def 0 _ []] at hs
    simp only [if_true] at hs
    simp only [content]
    rw [trim_gap hu hv h.tight]
    have h1 := h.hash
    have h2 := special_text h
    cases t with
    | nil => cases h1
    | cons c t =>
      simp only [List.head?_cons, Option.some.injEq] at h1
      subst h1
      have h4 : ('#' : Char) ≠ '@' := by decide
      simp only [h4, if_false, if_true, hs, h2]
      simp
  | row =>
    rw [content_at hu hv (by intro c hc; cases hc; decide)]
    rfl
  | @atColumn n t g h hn hg =>
    have := content_at (r := g ++ t) hu hv (by
      intro c hc
      have ht := h.tight hn
      rw [List.getLast?_cons, List.getLast?_append, List.getLast?_eq_some_getLast ht.1, Option.some_or,
          ← List.getLast?_eq_some_getLast ht.1] at hc
      rw [List.getLast?_eq_some_getLast ht.1] at hc
      exact ht.2.2 c (by rw [List.getLast?_eq_some_getLast ht.1]; simpa using hc))
    rw [List.cons_append, this, atShorthand_column h hn hg]
  | @atBracket n t g u' v' h hn hg hu' hv' =>
    have e : '@' :: g ++ '[' :: (u' ++ t ++ v') ++ [']'] = '@' :: (g ++ '[' :: (u' ++ t ++ v') ++ [']']) := by simp
    have := content_at (r := g ++ '[' :: (u' ++ t ++ v') ++ [']']) hu hv (by
      intro c hc
      rw [List.getLast?_cons, List.getLast?_append] at hc
      have hc' : ']' = c := Option.some.inj hc
      subst hc'; decide)
    rw [e, this, atShorthand_bracket h hn hg hu' hv']

theorem ContentText.bal {x : Spec} {t : Str} (h : ContentText x t) : Bal t := by
  cases h with
  | whole => exact .nil
  | one h => obtain ⟨a, b, ha, hb, e, _⟩ := h.shape; rw [e]; exact .nest ha hb
  | several h _ => obtain ⟨a, b, ha, hb, e, _⟩ := h.shape; rw [e]; exact .nest ha hb
  | column h => exact .ofEsc h.esc.bare
  | columns hm hn hg hh =>
    exact ((((Bal.ofEsc hm.esc.bare).append (.gap hg)).append (.plain _ (by decide) .nil)).append (.gap hh)).append
      (.ofEsc hn.esc.bare)
  | special h => exact .ofEsc h.bare.bare
  | row => exact .plain _ (by decide) .nil
  | atColumn h hn hg => exact .plain _ (by decide) ((Bal.gap hg).append (.ofEsc h))
  | @atBracket n t g u v h hn hg hu hv =>
    have := Bal.plain '@' (by decide) ((Bal.gap hg).append (.wrap (bal_pad (.ofEsc h) hu hv)))
    simpa using this

/-- A specifier written in any of the forms of the language, with gaps, escapes
and any spelling of the special items, is read as what it denotes. -/
theorem reads {x : Spec} {t : Str} (h : Writes x t) : parseFull t = some x := by
  obtain ⟨u, c, v, hu, hv, hc, rfl⟩ := h
  have := close_here (bal_pad hc.bal hu hv) []
  simp only [parseFull, List.cons_append]
  rw [this]
  exact content_text hc hu hv

end Verif.Struct
