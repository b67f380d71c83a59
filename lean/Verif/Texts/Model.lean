/-!
# Functions on texts

Model of `/repo/crates/formualizer-eval/src/builtins/text`:
* `len_left_right.rs` 72-277 (`LEN`, `LEFT`, `RIGHT`), `mid_sub_replace.rs` 73-300 (`MID`, `SUBSTITUTE`, `REPLACE`),
* `find_search_exact.rs` 97-298 (`FIND`, `SEARCH`), `trim_case_concat.rs` 83-97, 179-205, 473-486, 621-700 (`TRIM`, `CONCAT`, `TEXTJOIN`),
* `extended.rs` 379-470, 510-580 (`TEXTBEFORE`, `TEXTAFTER`), `array_text.rs` 163-230, 290-390 (`TEXTSPLIT`).

A text is the list of its characters.  The arguments are already texts and integers (`to_text`, `number_like`); integers have no bounds.  Where the code
slices at a place that `str::find` or `str::match_indices` gave for the same text, the place is counted in characters; `TEXTSPLIT` slices a text at places of
another, so its places are counted in bytes and a slice may panic.
-/

namespace Verif.Texts

/-- A text. -/
abbrev Str := List Char

/-- A text, a number, or one of the errors `#VALUE!` and `#N/A`. -/
inductive Out where
  | text (s : Str)
  | int (n : Nat)
  | badValue
  | na
deriving DecidableEq, Repr

/-! ### Places -/

/-- len_left_right.rs 77-86, `LEN`. -/
def len (s : Str) : Nat := s.length

/-- len_left_right.rs 147-182, `LEFT`. -/
def left (s : Str) (n : Int) : Out := if n < 0 then .badValue else .text (s.take (min n.toNat s.length))

/-- len_left_right.rs 241-277, `RIGHT`. -/
def right (s : Str) (n : Int) : Out := if n < 0 then .badValue else .text (s.drop (s.length - n.toNat))

/-- mid_sub_replace.rs 73-102, `MID`. -/
def mid (s : Str) (start count : Int) : Out :=
  if start < 1 ∨ count < 0 then .badValue else
  if start.toNat > s.length then .text [] else
  .text ((s.take (min (start - 1 + count).toNat s.length)).drop (start.toNat - 1))

/-- mid_sub_replace.rs 269-299, `REPLACE`. -/
def replace (s : Str) (start num : Int) (new : Str) : Out :=
  if start < 1 ∨ num < 0 then .badValue else
  if start.toNat - 1 > s.length then .text s else
  .text (s.take (start.toNat - 1) ++ new ++ s.drop (min (start.toNat - 1 + num.toNat) s.length))

/-- find_search_exact.rs 262-269: the loop of `char_find`; the fuel is the number of places left. -/
def findFrom (needle hay : Str) : Nat → Nat → Option Nat
  | 0, _ => none
  | n + 1, i => if (hay.drop i).take needle.length = needle then some i else findFrom needle hay n (i + 1)

/-- find_search_exact.rs 252-271, `char_find`. -/
def charFind (hay needle : Str) (start : Nat) : Option Nat :=
  if needle = [] then some (min start hay.length) else
  if needle.length > hay.length ∨ start > hay.length then none else findFrom needle hay (hay.length - needle.length + 1 - start) start

/-- find_search_exact.rs 97-137, `FIND`; without a third argument `start` is 1. -/
def find (needle hay : Str) (start : Int) : Out :=
  if start < 1 then .badValue else
  if needle = [] then .int 1 else
  match charFind hay needle (start - 1).toNat with
  | some i => .int (i + 1)
  | none => .badValue

/-- find_search_exact.rs 284-294, `wildcard_match_chars`. -/
def wild : Str → Str → Bool
  | [], _ => true
  | '*' :: p, t => (List.range (t.length + 1)).any fun i => wild p (t.drop i)
  | '?' :: _, [] => false
  | '?' :: p, _ :: t => wild p t
  | _ :: _, [] => false
  | c :: p, d :: t => decide (d = c) && wild p t

/-- find_search_exact.rs 273-282: the loop of `char_wildcard_search`. -/
def wildFrom (p hay : Str) : Nat → Nat → Option Nat
  | 0, _ => none
  | n + 1, i => if wild p (hay.drop i) then some i else wildFrom p hay n (i + 1)

/-- `char::to_ascii_lowercase`. -/
def asciiLower (c : Char) : Char := if 'A' ≤ c ∧ c ≤ 'Z' then Char.ofNat (c.toNat + 32) else c

/-- find_search_exact.rs 196-250, `SEARCH`. -/
def search (needle hay : Str) (start : Int) : Out :=
  let needle := needle.map asciiLower
  let hay := hay.map asciiLower
  if start < 1 then .badValue else
  if needle = [] then .int 1 else
  if (start - 1).toNat > hay.length then .badValue else
  match (if '*' ∈ needle ∨ '?' ∈ needle then wildFrom needle hay (hay.length + 1 - (start - 1).toNat) (start - 1).toNat else charFind hay needle (start - 1).toNat) with
  | some i => .int (i + 1)
  | none => .badValue

/-! ### Parts -/

/-- `str::find` with the slices before and after: the texts around the first place where `d` occurs. -/
def cutAt (d : Str) : Str → Option (Str × Str)
  | [] => if d = [] then some ([], []) else none
  | c :: s => if (c :: s).take d.length = d then some ([], (c :: s).drop d.length) else (cutAt d s).map fun x => (c :: x.1, x.2)

/-- `str::replace`: every place from left to right that does not overlap with the one before; the fuel is the length of the text. -/
def replaceAll (old new : Str) : Nat → Str → Str
  | 0, s => s
  | n + 1, s =>
    match cutAt old s with
    | none => s
    | some (a, b) => a ++ new ++ replaceAll old new n b

/-- mid_sub_replace.rs 195-211: the loop with a number of the place; `out` is what is already written, `k` the number of places to pass. -/
def replaceNth (old new text : Str) : Nat → Nat → Str → Str → Str
  | 0, _, _, _ => text
  | n + 1, k, out, s =>
    match cutAt old s with
    | none => text
    | some (a, b) => if k = 1 then out ++ a ++ new ++ b else replaceNth old new text n (k - 1) (out ++ a ++ old) b

/-- mid_sub_replace.rs 165-218, `SUBSTITUTE`. -/
def substitute (text old new : Str) (instance_ : Option Int) : Out :=
  if old = [] then .text text else
  match instance_ with
  | some k => if k ≤ 0 then .badValue else .text (replaceNth old new text (text.length + 1) k.toNat [] text)
  | none => .text (replaceAll old new (text.length + 1) text)

/-- `str::match_indices`: the places of `d` from left to right, counted from `i`. -/
def matches_ (d : Str) : Nat → Nat → Str → List Nat
  | 0, _, _ => []
  | n + 1, i, s =>
    match cutAt d s with
    | none => []
    | some (a, b) => (i + a.length) :: matches_ d n (i + a.length + d.length) b

/-- extended.rs 420-455, 551-585: the place that the number stands for, from the left or from the right; `none` is `#N/A`. -/
def pick (ms : List Nat) (k : Int) : Option Nat :=
  if k > 0 then ms[k.toNat - 1]? else if (ms.length : Int) + k < 0 then none else ms[((ms.length : Int) + k).toNat]?

/-- extended.rs 379-460, `TEXTBEFORE`. -/
def textbefore (s d : Str) (k : Int) : Out :=
  if d = [] then .badValue else if k = 0 then .badValue else
  match pick (matches_ d (s.length + 1) 0 s) k with
  | none => .na
  | some p => .text (s.take p)

/-- extended.rs 510-590, `TEXTAFTER`. -/
def textafter (s d : Str) (k : Int) : Out :=
  if d = [] then .badValue else if k = 0 then .badValue else
  match pick (matches_ d (s.length + 1) 0 s) k with
  | none => .na
  | some p => .text (s.drop (p + d.length))

/-! ### TEXTSPLIT -/

/-- The number of bytes of a text. -/
def bytes (s : Str) : Nat := (s.map Char.utf8Size).sum

/-- `s[..n]` and `s[n..]`: `none` is a panic, beyond the end or inside a character. -/
def cutBytes : Nat → Str → Option (Str × Str)
  | 0, s => some ([], s)
  | _ + 1, [] => none
  | n + 1, c :: s => if c.utf8Size ≤ n + 1 then (cutBytes (n + 1 - c.utf8Size) s).map fun x => (c :: x.1, x.2) else none

/-- `s[a..]`. -/
def sliceFrom (s : Str) (a : Nat) : Option Str := (cutBytes a s).map Prod.snd

/-- `s[a..b]`. -/
def slice (s : Str) (a b : Nat) : Option Str :=
  if b < a then none else (sliceFrom s a).bind fun t => (cutBytes (b - a) t).map Prod.fst

/-- array_text.rs 184-200: the first place of a delimiter after `start`, and its length; of delimiters at the same place the first. -/
def earliest (start : Nat) (rest : Str) : List Str → Option (Nat × Nat) → Option (Nat × Nat)
  | [], best => best
  | d :: ds, best =>
    if d = [] then earliest start rest ds best else
    match cutAt d rest with
    | none => earliest start rest ds best
    | some (a, _) =>
      let pos := start + bytes a
      match best with
      | none => earliest start rest ds (some (pos, bytes d))
      | some (p, l) => earliest start rest ds (if pos < p then some (pos, bytes d) else some (p, l))

/-- array_text.rs 180-212: the loop; the result are the parts and the place where it stops. -/
def splitLoop (ds : List Str) (work text : Str) : Nat → Nat → Option (List Str × Nat)
  | 0, _ => none
  | n + 1, start =>
    if start ≥ bytes text then some ([], start) else do
      let rest ← sliceFrom work start
      match earliest start rest ds none with
      | some (pos, l) => do
        let part ← slice text start pos
        let more ← splitLoop ds work text n (pos + l)
        some (part :: more.1, more.2)
      | none => do
        let part ← sliceFrom text start
        some ([part], start)

/-- `str::ends_with`. -/
def endsWith (s d : Str) : Bool := decide (s.drop (s.length - d.length) = d)

/-- array_text.rs 163-229, `split_by_delimiters`; `lower` is `str::to_lowercase`, or nothing if the case matters. -/
def split (lower : Str → Str) (text : Str) (ds : List Str) : Option (List Str) :=
  if ds = [] then some [text] else do
    let r ← splitLoop (ds.map lower) (lower text) text (bytes text + 1) 0
    some (if r.2 = bytes text ∧ text ≠ [] ∧ (ds.map lower).any (fun d => decide (d ≠ []) && endsWith (lower text) d) then r.1 ++ [[]] else r.1)

/-- A cell of the result of `TEXTSPLIT`: a text, or the value that fills short rows. -/
inductive Part where
  | text (s : Str)
  | pad
deriving DecidableEq, Repr

/-- array_text.rs 356-381: the rows that are kept. -/
def splitRows (lower : Str → Str) (colDs : List Str) (ignoreEmpty : Bool) : List Str → Option (List (List Str))
  | [] => some []
  | r :: rs =>
    if ignoreEmpty ∧ r = [] then splitRows lower colDs ignoreEmpty rs else do
      let parts ← split lower r colDs
      let row := if ignoreEmpty then parts.filter fun s => decide (s ≠ []) else parts
      let more ← splitRows lower colDs ignoreEmpty rs
      some (if row = [] then more else row :: more)

/-- array_text.rs 290-395, `TEXTSPLIT`: the rows, filled to the same width; `none` is a panic. -/
def textsplit (lower : Str → Str) (text : Str) (colDs rowDs : List Str) (ignoreEmpty : Bool) : Option (List (List Part)) := do
  let rowParts ← if rowDs = [] then some [text] else split lower text rowDs
  let rows ← splitRows lower colDs ignoreEmpty rowParts
  let width := (rows.map List.length).foldl max 0
  some (if rows = [] then [[.text []]] else rows.map fun row => row.map Part.text ++ List.replicate (width - row.length) .pad)

/-! ### Joining -/

/-- trim_case_concat.rs 25, `MAX_CONCAT_RESULT_CHARS`. -/
def maxChars : Nat := 32767

/-- trim_case_concat.rs 83-97, `append_with_limit`. -/
def append (out s : Str) : Option Str := if out.length + s.length > maxChars then none else some (out ++ s)

/-- A cell that is joined: a text, the text of a number or a truth value, or an empty cell. -/
inductive Item where
  | text (s : Str)
  | empty

/-- trim_case_concat.rs 651-697: the loop of `TEXTJOIN` without errors; `none` is `#VALUE!`. -/
def joinLoop (d : Str) (ignoreEmpty : Bool) : List Item → Bool → Str → Option Str
  | [], _, out => some out
  | .empty :: items, hasItem, out =>
    if ignoreEmpty then joinLoop d ignoreEmpty items hasItem out else do
      let out ← if hasItem then append out d else some out
      joinLoop d ignoreEmpty items true out
  | .text s :: items, hasItem, out =>
    if !ignoreEmpty ∨ s ≠ [] then do
      let out ← if hasItem then append out d else some out
      let out ← append out s
      joinLoop d ignoreEmpty items true out
    else joinLoop d ignoreEmpty items hasItem out

/-- trim_case_concat.rs 621-705, `TEXTJOIN`. -/
def textjoin (d : Str) (ignoreEmpty : Bool) (items : List Item) : Out :=
  match joinLoop d ignoreEmpty items false [] with
  | none => .badValue
  | some s => .text s

/-! ### TRIM -/

/-- trim_case_concat.rs 185-201: the loop of `TRIM`; `space` is `char::is_whitespace`. -/
def trimLoop (space : Char → Bool) : Str → Bool → Str → Str
  | [], _, out => out
  | c :: s, prev, out =>
    if space c then trimLoop space s true out else trimLoop space s false ((if prev ∧ out ≠ [] then out ++ [' '] else out) ++ [c])

/-- `str::trim`. -/
def trimEnds (space : Char → Bool) (s : Str) : Str := ((s.dropWhile space).reverse.dropWhile space).reverse

/-- trim_case_concat.rs 179-205, `TRIM`. -/
def trim (space : Char → Bool) (s : Str) : Str := trimEnds space (trimLoop space s false [])

end Verif.Texts
