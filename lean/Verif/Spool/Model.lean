import Mathlib.Data.Nat.Notation
import Mathlib.Data.List.Sort

/-!
# The spool of formulas of a workbook being loaded

Model of `/repo/crates/formualizer-workbook/src/backends/calamine/formula_replay.rs`: formulas are written to a spool, in memory or in a file, as records of bytes, read back, and formulas shared by several cells are expanded.

Bytes are numbers below 256, and a text is its list of bytes; `utf8` (`String::from_utf8`) and `expand` (`calamine::expand_shared_formula_into`) are parameters.  `usize` has 64 bits.  A cursor into the bytes is the rest of the bytes, so that
where adding to the cursor would overflow, the model reports truncated bytes.  Failures of the file system and failures injected by tests are left out.
-/

namespace Verif.Spool

/-! ## Records -/

/-- `SourceCoord`, 0-based; both numbers are `u32`. -/
structure Coord where
  row : ℕ
  col : ℕ
deriving DecidableEq

/-- `SpoolFormulaRecord` (formula_replay.rs 77-100) and `OwnedSpoolFormulaRecord` (102-125). -/
inductive Rec where
  | ordinary (seq : ℕ) (at_ : Coord) (text : List ℕ)
  | anchor (seq : ℕ) (at_ : Coord) (idx : ℕ) (range : Option (Coord × Coord)) (text : List ℕ)
  | descendant (seq : ℕ) (at_ : Coord) (idx : ℕ)
  | unsupported (seq : ℕ) (at_ : Coord)
deriving DecidableEq

/-! ## Writing -/

/-- `varint_len` (formula_replay.rs 735-742). -/
def varintLen (v : ℕ) : ℕ := if 128 ≤ v then 1 + varintLen (v >>> 7) else 1
termination_by v
decreasing_by rw [Nat.shiftRight_eq_div_pow]; omega

/-- `StackEncoder::varint` (formula_replay.rs 777-783), without the limit. -/
def varint (v : ℕ) : List ℕ := if 128 ≤ v then (v % 256 ||| 128) :: varint (v >>> 7) else [v % 256]
termination_by v
decreasing_by rw [Nat.shiftRight_eq_div_pow]; omega

/-- `StackEncoder::coord` (formula_replay.rs 784-787). -/
def coordBytes (c : Coord) : List ℕ := varint c.row ++ varint c.col

/-- `encoded_frame_len` (formula_replay.rs 683-733), the payload without its length; no sum overflows for texts of at most 2^63 bytes. -/
def payloadLen : Rec → ℕ
  | .ordinary seq c text => varintLen seq + varintLen c.row + varintLen c.col + (1 + varintLen text.length) + text.length
  | .anchor seq c idx range text =>
    let n := varintLen seq + varintLen c.row + varintLen c.col + (2 + varintLen idx)
    let n := match range with
      | some (a, b) => n + (varintLen a.row + varintLen a.col + varintLen b.row + varintLen b.col)
      | none => n
    n + varintLen text.length + text.length
  | .descendant seq c idx => varintLen seq + varintLen c.row + varintLen c.col + (1 + varintLen idx)
  | .unsupported seq c => varintLen seq + varintLen c.row + varintLen c.col + 1

/-- `encoded_frame_len` (formula_replay.rs 683-733). -/
def frameLen (r : Rec) : ℕ := payloadLen r + varintLen (payloadLen r)

/-- The loop that finds the length of the payload from that of the frame (formula_replay.rs 798-807); `none` stands for an error or for going round more than `fuel` times. -/
def payloadLoop (frame : ℕ) : ℕ → ℕ → Option ℕ
  | 0, _ => none
  | fuel + 1, p =>
    if frame < varintLen p then none
    else if frame - varintLen p = p then some p
    else payloadLoop frame fuel (frame - varintLen p)

/-- The text a record ends with (formula_replay.rs 809-826). -/
def textOf : Rec → List ℕ
  | .ordinary _ _ text => text
  | .anchor _ _ _ _ text => text
  | .descendant .. => []
  | .unsupported .. => []

/-- What is written between the length and the text (formula_replay.rs 809-850). -/
def head : Rec → List ℕ
  | .ordinary seq c text => 0 :: varint seq ++ coordBytes c ++ varint text.length
  | .anchor seq c idx range text =>
    1 :: varint seq ++ coordBytes c ++ varint idx ++ (match range with | some (a, b) => 1 :: coordBytes a ++ coordBytes b | none => [0]) ++ varint text.length
  | .descendant seq c idx => 2 :: varint seq ++ coordBytes c ++ varint idx
  | .unsupported seq c => 3 :: varint seq ++ coordBytes c

/-- `encode_frame_prefix` (formula_replay.rs 793-852) into the 64 bytes of `StackEncoder` (754-791); `none` is `OffsetOverflow`, or a loop that does not end within four rounds. -/
def prefixBytes (r : Rec) : Option (List ℕ) :=
  match payloadLoop (frameLen r) 4 (frameLen r) with
  | none => none
  | some p =>
    let out := varint p ++ head r
    if out.length ≤ 64 then some out else none

/-- `append_frame_to_vec` (formula_replay.rs 854-864) and `write_frame` (745-752): what is appended. -/
def frame (r : Rec) : Option (List ℕ) := (prefixBytes r).map (· ++ textOf r)

/-! ## Reading -/

/-- `SpoolError`, as far as reading goes (formula_replay.rs 127-155). -/
inductive Err where
  | truncated
  | malformed
deriving DecidableEq

/-- `get_varint` (formula_replay.rs 1078-1091) and `read_varint` (661-681): `rounds` more bytes may follow, from `shift` on. -/
def getVarintLoop : ℕ → ℕ → ℕ → List ℕ → Except Err (ℕ × List ℕ)
  | 0, _, _, _ => .error .malformed
  | _ + 1, _, _, [] => .error .truncated
  | rounds + 1, shift, value, b :: bs =>
    if shift = 63 ∧ 1 < b then .error .malformed
    else
      let value := value ||| (b &&& 127) <<< shift
      if b &&& 128 = 0 then .ok (value, bs) else getVarintLoop rounds (shift + 7) value bs

def getVarint (bs : List ℕ) : Except Err (ℕ × List ℕ) := getVarintLoop 10 0 0 bs

/-- `take_byte` (formula_replay.rs 1093-1097). -/
def takeByte : List ℕ → Except Err (ℕ × List ℕ)
  | [] => .error .truncated
  | b :: bs => .ok (b, bs)

/-- `u32::try_from`. -/
def getU32 (bs : List ℕ) : Except Err (ℕ × List ℕ) := do
  let (v, bs) ← getVarint bs
  if v < 2 ^ 32 then .ok (v, bs) else .error .malformed

/-- `get_coord` (formula_replay.rs 1060-1067). -/
def getCoord (bs : List ℕ) : Except Err (Coord × List ℕ) := do
  let (row, bs) ← getU32 bs
  let (col, bs) ← getU32 bs
  .ok (⟨row, col⟩, bs)

/-- `get_text` (formula_replay.rs 1069-1076). -/
def getText (utf8 : List ℕ → Bool) (bs : List ℕ) : Except Err (List ℕ × List ℕ) := do
  let (len, bs) ← getVarint bs
  if bs.length < len then .error .truncated
  else if utf8 (bs.take len) then .ok (bs.take len, bs.drop len) else .error .malformed

/-- `decode_record` (formula_replay.rs 1015-1058). -/
def decodeRecord (utf8 : List ℕ → Bool) (payload : List ℕ) : Except Err Rec := do
  let (tag, bs) ← takeByte payload
  let (seq, bs) ← getVarint bs
  let (c, bs) ← getCoord bs
  let (r, bs) ← (match tag with
    | 0 => do
      let (text, bs) ← getText utf8 bs
      .ok (Rec.ordinary seq c text, bs)
    | 1 => do
      let (idx, bs) ← getVarint bs
      let (has, bs) ← takeByte bs
      let (range, bs) ← (match has with
        | 0 => .ok (none, bs)
        | 1 => do
          let (a, bs) ← getCoord bs
          let (b, bs) ← getCoord bs
          .ok (some (a, b), bs)
        | _ => .error .malformed : Except Err (Option (Coord × Coord) × List ℕ))
      let (text, bs) ← getText utf8 bs
      .ok (Rec.anchor seq c idx range text, bs)
    | 2 => do
      let (idx, bs) ← getVarint bs
      .ok (Rec.descendant seq c idx, bs)
    | 3 => .ok (Rec.unsupported seq c, bs)
    | _ => .error .malformed : Except Err (Rec × List ℕ))
  if bs = [] then .ok r else .error .malformed

/-- `decode_frame` (formula_replay.rs 1000-1013). -/
def decodeFrame (utf8 : List ℕ → Bool) (bs : List ℕ) : Except Err (Rec × List ℕ) := do
  let (len, bs) ← getVarint bs
  if bs.length < len then .error .truncated
  else
    let r ← decodeRecord utf8 (bs.take len)
    .ok (r, bs.drop len)

/-- `decode_frame_from_reader` (formula_replay.rs 635-658): `remaining` bytes belong to the spool. -/
def decodeReader (utf8 : List ℕ → Bool) (bs : List ℕ) (remaining : ℕ) : Except Err (Rec × List ℕ × ℕ) := do
  let (len, rest) ← getVarint bs
  let used := bs.length - rest.length
  if used + len > remaining then .error .truncated
  else if rest.length < len then .error .truncated
  else
    let r ← decodeRecord utf8 (rest.take len)
    .ok (r, rest.drop len, remaining - (used + len))

/-- All of `FormulaReplayIter` in memory (formula_replay.rs 888-908): the records up to the first error. -/
def iterMemory (utf8 : List ℕ → Bool) : ℕ → List ℕ → List (Except Err Rec)
  | 0, _ => []
  | fuel + 1, bs =>
    if bs = [] then []
    else match decodeFrame utf8 bs with
      | .error e => [.error e]
      | .ok (r, rest) => .ok r :: iterMemory utf8 fuel rest

/-- ... and from a file (formula_replay.rs 909-923). -/
def iterFile (utf8 : List ℕ → Bool) : ℕ → List ℕ → ℕ → List (Except Err Rec)
  | 0, _, _ => []
  | fuel + 1, bs, remaining =>
    if remaining = 0 then []
    else match decodeReader utf8 bs remaining with
      | .error e => [.error e]
      | .ok (r, rest, remaining) => .ok r :: iterFile utf8 fuel rest remaining

/-! ## The spool -/

/-- `FormulaSpoolLimits` (formula_replay.rs 304-315). -/
structure Limits where
  sheet : ℕ
  workbook : ℕ
  memPrefix : ℕ
  memOnly : ℕ
  disk : Bool
  files : ℕ

/-- `HybridFormulaReplaySpool` (formula_replay.rs 317-330). -/
structure Spool where
  memory : List ℕ
  file : Option (List ℕ)
  encoded : ℕ
  limits : Limits

/-- The header: FZFR and version 1 (formula_replay.rs 63-65). -/
def header : List ℕ := [70, 90, 70, 82, 1]

/-- `HybridFormulaReplaySpool::new` (formula_replay.rs 333-348). -/
def Spool.new (l : Limits) : Spool := ⟨header, none, 5, l⟩

/-- `append` (formula_replay.rs 507-575), on targets with files; `none` is an error.  The spool after an error is given as well: an error of the encoder comes after the file is made. -/
def Spool.append (s : Spool) (r : Rec) : Spool × Option ℕ :=
  let attempted := s.encoded + frameLen r
  if attempted ≥ 2 ^ 64 then (s, none)
  else if attempted > s.limits.sheet then (s, none)
  else if attempted > s.limits.workbook then (s, none)
  else if s.limits.disk = false ∧ attempted > s.limits.memOnly then (s, none)
  else
    let spill := s.file = none ∧ s.limits.disk = true ∧ attempted > s.limits.memPrefix
    if spill ∧ s.limits.files = 0 then (s, none)
    else
      let s := if spill then { s with memory := [], file := some s.memory } else s
      match frame r with
      | none => (s, none)
      | some bytes =>
        match s.file with
        | some f => ({ s with file := some (f ++ bytes), encoded := attempted }, some s.encoded)
        | none => ({ s with memory := s.memory ++ bytes, encoded := attempted }, some s.encoded)

/-- `validate_header` (formula_replay.rs 624-632). -/
def validHeader (bs : List ℕ) : Bool := bs.take 5 = header

/-- `replay` (formula_replay.rs 577-609), and reading on to the end; `none` is an error of the header. -/
def Spool.replay (utf8 : List ℕ → Bool) (s : Spool) : Option (List (Except Err Rec)) :=
  match s.file with
  | some f => if validHeader f then some (iterFile utf8 (f.length + 1) (f.drop 5) (s.encoded - 5)) else none
  | none => if validHeader s.memory then some (iterMemory utf8 (s.memory.length + 1) (s.memory.drop 5)) else none

/-- Any number of records appended, the errors passed over. -/
def Spool.appendAll (s : Spool) : List Rec → Spool
  | [] => s
  | r :: rs => (s.append r).1.appendAll rs

/-! ## Shared formulas -/

/-- A formula that is handed on (`DeferredReplayFormula`). -/
structure Out where
  seq : ℕ
  at_ : Coord
  text : List ℕ
  family : Option ℕ
deriving DecidableEq

/-- The state of `replay_spool_with_family`.  `pending` is a map from indices to lists; the model keeps one list of pairs. -/
structure RState where
  shared : ℕ → Option (Coord × List ℕ)
  pending : List (ℕ × ℕ × Coord)

/-- Formulas waiting for their anchor (formula_replay.rs 1188-1202). -/
def emitWaiting (expand : List ℕ → Coord → Coord → Option (List ℕ)) (keep : ℕ → Coord → Bool) (idx : ℕ) (c : Coord) (text : List ℕ) : List (ℕ × ℕ × Coord) → Option (List Out)
  | [] => some []
  | (_, seq, target) :: ws =>
    if keep idx target then do
      let t ← expand text c target
      let rest ← emitWaiting expand keep idx c text ws
      some (⟨seq, target, t, some idx⟩ :: rest)
    else emitWaiting expand keep idx c text ws

/-- `replay_spool_with_family` (formula_replay.rs 1149-1233), what is emitted in order; `none` is an error. -/
def replayLoop (expand : List ℕ → Coord → Coord → Option (List ℕ)) (keep : ℕ → Coord → Bool) : List Rec → RState → Option (List Out)
  | [], _ => some []
  | .ordinary seq c text :: rs, s => do
    let rest ← replayLoop expand keep rs s
    some (⟨seq, c, text, none⟩ :: rest)
  | .anchor seq c idx _ text :: rs, s => do
    let own := if keep idx c then [⟨seq, c, text, some idx⟩] else []
    let waiting ← emitWaiting expand keep idx c text (s.pending.filter fun p => p.1 = idx)
    let rest ← replayLoop expand keep rs ⟨fun k => if k = idx then some (c, text) else s.shared k, s.pending.filter fun p => !(p.1 = idx)⟩
    some (own ++ waiting ++ rest)
  | .descendant seq c idx :: rs, s =>
    match s.shared idx with
    | some (a, template) =>
      if keep idx c then do
        let t ← expand template a c
        let rest ← replayLoop expand keep rs s
        some (⟨seq, c, t, some idx⟩ :: rest)
      else replayLoop expand keep rs s
    | none => replayLoop expand keep rs ⟨s.shared, s.pending ++ [(idx, seq, c)]⟩
  | .unsupported _ _ :: _, _ => none

/-- `replay_routed` (formula_replay.rs 395-449): the formulas whose route keeps them, sorted by their place in the source.  `keep` says that the route of a shared formula is the old one, `keepOrdinary` the same of others. -/
def replayRouted (expand : List ℕ → Coord → Coord → Option (List ℕ)) (keep : ℕ → Coord → Bool) (keepOrdinary : Coord → Bool) (rs : List Rec) : Option (List Out) :=
  (replayLoop expand keep rs ⟨fun _ => none, []⟩).map fun outs =>
    (outs.filter fun o => match o.family with | some idx => keep idx o.at_ | none => keepOrdinary o.at_).mergeSort fun a b => decide (a.seq ≤ b.seq)

/-- `formula_at_exact` (formula_replay.rs 451-483): the last formula emitted at the cell. -/
def formulaAt (expand : List ℕ → Coord → Coord → Option (List ℕ)) (rs : List Rec) (c : Coord) : Option (Option Out) :=
  (replayLoop expand (fun _ _ => true) rs ⟨fun _ => none, []⟩).map fun outs => (outs.filter fun o => o.at_ = c).getLast?

/-! ## Specification -/

/-- The place of a record in the source. -/
def Rec.seq : Rec → ℕ
  | .ordinary s _ _ => s
  | .anchor s _ _ _ _ => s
  | .descendant s _ _ => s
  | .unsupported s _ => s

/-- The cell of a record. -/
def Rec.cell : Rec → Coord
  | .ordinary _ c _ => c
  | .anchor _ c _ _ _ => c
  | .descendant _ c _ => c
  | .unsupported _ c => c

/-- The numbers of a record are those of the types, and its text is one. -/
def Rec.Ok (utf8 : List ℕ → Bool) : Rec → Prop
  | .ordinary s c t => s < 2 ^ 64 ∧ c.row < 2 ^ 32 ∧ c.col < 2 ^ 32 ∧ utf8 t = true ∧ t.length < 2 ^ 42
  | .anchor s c i range t => s < 2 ^ 64 ∧ c.row < 2 ^ 32 ∧ c.col < 2 ^ 32 ∧ i < 2 ^ 64 ∧
      (∀ a b, range = some (a, b) → a.row < 2 ^ 32 ∧ a.col < 2 ^ 32 ∧ b.row < 2 ^ 32 ∧ b.col < 2 ^ 32) ∧ utf8 t = true ∧ t.length < 2 ^ 42 - 64
  | .descendant s c i => s < 2 ^ 64 ∧ c.row < 2 ^ 32 ∧ c.col < 2 ^ 32 ∧ i < 2 ^ 64
  | .unsupported s c => s < 2 ^ 64 ∧ c.row < 2 ^ 32 ∧ c.col < 2 ^ 32

/-- The anchor a record is, if it is one of this index. -/
def anchorOf (idx : ℕ) : Rec → Option (Coord × List ℕ)
  | .anchor _ c i _ t => if i = idx then some (c, t) else none
  | _ => none

/-- The anchor of a descendant that stands after `before` and before `after`: the last one before, or else the first one after. -/
def anchorFor (before after : List Rec) (idx : ℕ) : Option (Coord × List ℕ) :=
  match (before.filterMap (anchorOf idx)).getLast? with
  | some a => some a
  | none => (after.filterMap (anchorOf idx)).head?

end Verif.Spool
