import Verif.Spool.Codec

/-!
# The spool gives back the records appended
-/

namespace Verif.Spool

/-- The bytes of records. -/
def frames (rs : List Rec) : List ℕ := rs.flatMap fun r => (frame r).getD []

theorem frames_cons (r : Rec) (rs : List Rec) : frames (r :: rs) = (frame r).getD [] ++ frames rs := rfl

theorem frames_snoc (rs : List Rec) (r : Rec) : frames (rs ++ [r]) = frames rs ++ (frame r).getD [] := by
  simp [frames]

theorem frameLen_pos (r : Rec) : 1 ≤ frameLen r := by
  unfold frameLen
  have := varintLen_pos (payloadLen r)
  omega

theorem frames_length {utf8 : List ℕ → Bool} (rs : List Rec) (h : ∀ r ∈ rs, r.Ok utf8) : rs.length ≤ (frames rs).length := by
  induction rs with
  | nil => simp
  | cons r rs ih =>
    obtain ⟨b, hb, hl⟩ := frame_fits (h r (by simp))
    have := ih fun x hx => h x (by simp [hx])
    have := frameLen_pos r
    rw [frames_cons, hb, Option.getD_some, List.length_append, List.length_cons]
    omega

theorem iterMemory_frames {utf8 : List ℕ → Bool} (rs : List Rec) (h : ∀ r ∈ rs, r.Ok utf8) (fuel : ℕ) (hf : rs.length < fuel) : iterMemory utf8 fuel (frames rs) = rs.map .ok := by
  induction rs generalizing fuel with
  | nil =>
    cases fuel with
    | zero => rfl
    | succ n => simp [iterMemory, frames]
  | cons r rs ih =>
    obtain ⟨b, hb, hl⟩ := frame_fits (h r (by simp))
    cases fuel with
    | zero => omega
    | succ n =>
      have hne : b ++ frames rs ≠ [] := by
        intro h0
        have := frameLen_pos r
        have := congrArg List.length h0
        rw [List.length_append, List.length_nil] at this
        omega
      rw [frames_cons, hb, Option.getD_some, iterMemory, if_neg hne, frame_reads (h r (by simp)) b _ hb]
      simp only
      rw [ih (fun x hx => h x (by simp [hx])) n (by simpa using hf), List.map_cons]

/-- C90.  Records followed by part of another: they are all read, and the cut is reported. -/
theorem cut_reported {utf8 : List ℕ → Bool} (rs : List Rec) (h : ∀ r ∈ rs, r.Ok utf8) {r : Rec} (hr : r.Ok utf8) (b : List ℕ) (hb : frame r = some b) (n : ℕ) (h0 : 0 < n) (hn : n < b.length)
    (fuel : ℕ) (hf : rs.length < fuel) : iterMemory utf8 fuel (frames rs ++ b.take n) = rs.map .ok ++ [.error .truncated] := by
  have hne : ∀ l : List ℕ, l ++ b.take n ≠ [] := by
    intro l e
    have := congrArg List.length e
    rw [List.length_append, List.length_take, List.length_nil] at this
    omega
  induction rs generalizing fuel with
  | nil =>
    cases fuel with
    | zero => cases hf
    | succ k =>
      rw [iterMemory, if_neg (hne _)]
      simp only [frames, List.flatMap_nil, List.nil_append, frame_cut hr b hb n hn, List.map_nil]
  | cons x rs ih =>
    obtain ⟨c, hc, -⟩ := frame_fits (h x (by simp))
    cases fuel with
    | zero => cases hf
    | succ k =>
      rw [iterMemory, if_neg (hne _), frames_cons, hc, Option.getD_some, List.append_assoc, frame_reads (h x (by simp)) c _ hc]
      simp only
      rw [ih (fun y hy => h y (by simp [hy])) k (by simpa using hf), List.map_cons, List.cons_append]

theorem decodeReader_frame {utf8 : List ℕ → Bool} {r : Rec} (h : r.Ok utf8) (b rest : List ℕ) (hb : frame r = some b) (remaining : ℕ) (hr : b.length ≤ remaining) :
    decodeReader utf8 (b ++ rest) remaining = .ok (r, rest, remaining - b.length) := by
  have hl := payload_length r
  rw [frame_eq h] at hb
  obtain rfl := Option.some.inj hb
  unfold decodeReader
  rw [List.append_assoc, getVarint_varint (by have := (head_le h).2.1; omega), ok_bind]
  simp only
  have e : (varint (payloadLen r) ++ (head r ++ textOf r ++ rest)).length - (head r ++ textOf r ++ rest).length + payloadLen r = (varint (payloadLen r) ++ (head r ++ textOf r)).length := by
    simp only [List.length_append] at hl ⊢
    omega
  rw [e, if_neg (by omega), if_neg (by rw [List.length_append]; omega), List.take_left' hl, List.drop_left' hl, decodeRecord_payload h]
  rfl

theorem iterFile_frames {utf8 : List ℕ → Bool} (rs : List Rec) (h : ∀ r ∈ rs, r.Ok utf8) (fuel : ℕ) (hf : rs.length < fuel) : iterFile utf8 fuel (frames rs) (frames rs).length = rs.map .ok := by
  induction rs generalizing fuel with
  | nil =>
    cases fuel with
    | zero => rfl
    | succ n => simp [iterFile, frames]
  | cons r rs ih =>
    obtain ⟨b, hb, hl⟩ := frame_fits (h r (by simp))
    have := frameLen_pos r
    cases fuel with
    | zero => omega
    | succ n =>
      rw [frames_cons, hb, Option.getD_some, List.length_append, iterFile, if_neg (by omega), decodeReader_frame (h r (by simp)) b _ hb _ (by omega)]
      simp only
      rw [Nat.add_sub_cancel_left, ih (fun x hx => h x (by simp [hx])) n (by simpa using hf), List.map_cons]

/-! ## The spool -/

/-- The bytes of a spool, in memory or in its file. -/
def Spool.content (s : Spool) : List ℕ := s.file.getD s.memory

/-- The spool holds these records. -/
structure Rep (utf8 : List ℕ → Bool) (s : Spool) (rs : List Rec) : Prop where
  content : s.content = header ++ frames rs
  encoded : s.encoded = s.content.length
  ok : ∀ r ∈ rs, r.Ok utf8
  memory : s.file ≠ none → s.memory = []

theorem rep_new (utf8 : List ℕ → Bool) (l : Limits) : Rep utf8 (Spool.new l) [] := ⟨rfl, rfl, by simp, fun h => absurd rfl h⟩

/-- The reasons to refuse `n` bytes. -/
def Refused (s : Spool) (n : ℕ) : Prop :=
  2 ^ 64 ≤ n ∨ s.limits.sheet < n ∨ s.limits.workbook < n ∨ (s.limits.disk = false ∧ s.limits.memOnly < n) ∨ (s.file = none ∧ s.limits.disk = true ∧ s.limits.memPrefix < n ∧ s.limits.files = 0)

/-- The spool with more bytes, `n` in all. -/
def next (s : Spool) (b : List ℕ) (n : ℕ) : Spool :=
  match s.file with
  | some f => ⟨s.memory, some (f ++ b), n, s.limits⟩
  | none => if s.limits.disk = true ∧ s.limits.memPrefix < n then ⟨[], some (s.memory ++ b), n, s.limits⟩ else ⟨s.memory ++ b, none, n, s.limits⟩

theorem append_refused {s : Spool} {r : Rec} (h : Refused s (s.encoded + frameLen r)) : s.append r = (s, none) := by
  unfold Spool.append
  simp only
  split
  · rfl
  split
  · rfl
  split
  · rfl
  split
  · rfl
  rename_i h1 h2 h3 h4
  rw [if_pos]
  rcases h with h | h | h | h | ⟨a, b, c, d⟩
  · exact absurd h h1
  · exact absurd h h2
  · exact absurd h h3
  · exact absurd h h4
  · exact ⟨⟨a, b, c⟩, d⟩

theorem append_next {s : Spool} {r : Rec} {b : List ℕ} (hb : frame r = some b) (h : ¬Refused s (s.encoded + frameLen r)) : s.append r = (next s b (s.encoded + frameLen r), some s.encoded) := by
  unfold Refused at h
  simp only [not_or] at h
  obtain ⟨h1, h2, h3, h4, h5⟩ := h
  unfold Spool.append
  simp only
  rw [if_neg h1, if_neg h2, if_neg h3, if_neg h4, if_neg (fun hc => h5 ⟨hc.1.1, hc.1.2.1, hc.1.2.2, hc.2⟩)]
  obtain ⟨mem, file, enc, lim⟩ := s
  cases file with
  | some f => simp [hb, next]
  | none =>
    by_cases hc : lim.disk = true ∧ lim.memPrefix < enc + frameLen r
    · simp [hb, next, hc]
    · simp only [hb, next, true_and, gt_iff_lt, if_neg hc]

theorem rep_append {utf8 : List ℕ → Bool} {s : Spool} {rs : List Rec} (hs : Rep utf8 s rs) {r : Rec} (h : r.Ok utf8) :
    (Refused s (s.encoded + frameLen r) ∧ s.append r = (s, none)) ∨ (¬Refused s (s.encoded + frameLen r) ∧ (s.append r).2 = some s.encoded ∧ Rep utf8 (s.append r).1 (rs ++ [r]) ∧ (s.append r).1.limits = s.limits ∧ (s.append r).1.encoded = s.encoded + frameLen r ∧
      (s.append r).1.memory.length ≤ max s.memory.length (if s.limits.disk then s.limits.memPrefix else s.limits.memOnly)) := by
  by_cases hr : Refused s (s.encoded + frameLen r)
  · exact .inl ⟨hr, append_refused hr⟩
  refine .inr ⟨hr, ?_⟩
  obtain ⟨b, hb, hl⟩ := frame_fits h
  rw [append_next hb hr]
  obtain ⟨hc, he, hok, hm⟩ := hs
  have hall : ∀ x ∈ rs ++ [r], x.Ok utf8 := by
    intro x hx
    rcases List.mem_append.mp hx with hx | hx
    · exact hok x hx
    · obtain rfl := List.mem_singleton.mp hx
      exact h
  have hfr : frames (rs ++ [r]) = frames rs ++ b := by rw [frames_snoc, hb, Option.getD_some]
  unfold Refused at hr
  simp only [not_or] at hr
  obtain ⟨mem, file, enc, lim⟩ := s
  simp only [Spool.content] at hc he
  cases file with
  | some f =>
    simp only [Option.getD_some] at hc he
    simp only [next]
    refine ⟨trivial, ⟨?_, ?_, hall, fun _ => hm (by simp)⟩, trivial, trivial, le_max_left _ _⟩
    · simp only [Spool.content, Option.getD_some, hc, hfr, List.append_assoc]
    · simp only [Spool.content, Option.getD_some, List.length_append]
      omega
  | none =>
    simp only [Option.getD_none] at hc he
    simp only [next]
    split
    · refine ⟨trivial, ⟨?_, ?_, hall, fun _ => rfl⟩, rfl, rfl, by simp⟩
      · simp only [Spool.content, Option.getD_some, hc, hfr, List.append_assoc]
      · simp only [Spool.content, Option.getD_some, List.length_append]
        omega
    · rename_i hsp
      refine ⟨trivial, ⟨?_, ?_, hall, fun hf => absurd rfl hf⟩, rfl, rfl, ?_⟩
      · simp only [Spool.content, Option.getD_none, hc, hfr, List.append_assoc]
      · simp only [Spool.content, Option.getD_none, List.length_append]
        omega
      · refine le_trans ?_ (le_max_right _ _)
        have h4 := hr.2.2.2.1
        simp only [List.length_append]
        cases hd : lim.disk with
        | true =>
          simp only [hd, true_and, not_lt, if_true] at hsp ⊢
          omega
        | false =>
          simp only [hd, true_and, not_lt, if_false, Bool.false_eq_true] at h4 ⊢
          omega

theorem rep_replay {utf8 : List ℕ → Bool} {s : Spool} {rs : List Rec} (hs : Rep utf8 s rs) : s.replay utf8 = some (rs.map .ok) := by
  obtain ⟨hc, he, hok, hm⟩ := hs
  have hlen := frames_length rs hok
  obtain ⟨mem, file, enc, lim⟩ := s
  simp only [Spool.content] at hc he
  unfold Spool.replay
  have hh : header.length = 5 := rfl
  cases file with
  | some f =>
    simp only [Option.getD_some] at hc he
    subst hc
    have hv : validHeader (header ++ frames rs) = true := by
      unfold validHeader
      rw [List.take_left' hh]
      simp
    simp only [hv, if_true]
    rw [List.drop_left' hh, he, List.length_append, hh, Nat.add_sub_cancel_left, iterFile_frames rs hok _ (by omega)]
  | none =>
    simp only [Option.getD_none] at hc he
    subst hc
    have hv : validHeader (header ++ frames rs) = true := by
      unfold validHeader
      rw [List.take_left' hh]
      simp
    simp only [hv, if_true]
    rw [List.drop_left' hh, List.length_append, iterMemory_frames rs hok _ (by omega)]

/-- The records whose appending did not fail. -/
def accepted (s : Spool) : List Rec → List Rec
  | [] => []
  | r :: rs => if (s.append r).2.isSome then r :: accepted (s.append r).1 rs else accepted (s.append r).1 rs

theorem rep_all {utf8 : List ℕ → Bool} (rs : List Rec) (h : ∀ r ∈ rs, r.Ok utf8) (s : Spool) (done : List Rec) (hs : Rep utf8 s done) : Rep utf8 (s.appendAll rs) (done ++ accepted s rs) := by
  induction rs generalizing s done with
  | nil => simpa [Spool.appendAll, accepted] using hs
  | cons r rs ih =>
    have hr : ∀ x ∈ rs, x.Ok utf8 := fun x hx => h x (by simp [hx])
    rw [Spool.appendAll, accepted]
    rcases rep_append hs (h r (by simp)) with ⟨-, he⟩ | ⟨-, ho, hrep, -⟩
    · rw [he, if_neg (by simp)]
      exact ih hr _ _ hs
    · rw [ho, if_pos (by simp)]
      have := ih hr _ _ hrep
      rwa [List.append_assoc] at this

/-- C90.  Reading a spool back gives the records whose appending was accepted, all of them in their order, whatever the limits, and whether or not a file had to be used. -/
theorem spool_replays {utf8 : List ℕ → Bool} (l : Limits) (rs : List Rec) (h : ∀ r ∈ rs, r.Ok utf8) : ((Spool.new l).appendAll rs).replay utf8 = some ((accepted (Spool.new l) rs).map .ok) := by
  have := rep_replay (rep_all rs h _ [] (rep_new utf8 l))
  simpa using this

/-- C90.  The number of bytes reported is that of the bytes held, never above the limits of the sheet and the workbook; the memory used stays within its limits. -/
theorem spool_limits {utf8 : List ℕ → Bool} (l : Limits) (rs : List Rec) (h : ∀ r ∈ rs, r.Ok utf8) (h1 : 5 ≤ l.sheet) (h2 : 5 ≤ l.workbook) (h3 : 5 ≤ l.memPrefix) (h4 : 5 ≤ l.memOnly) :
    let s := (Spool.new l).appendAll rs
    s.encoded = s.content.length ∧ s.encoded ≤ l.sheet ∧ s.encoded ≤ l.workbook ∧ s.memory.length ≤ (if l.disk then l.memPrefix else l.memOnly) := by
  have gen : ∀ (rs : List Rec), (∀ r ∈ rs, r.Ok utf8) → ∀ (s : Spool) (done : List Rec), Rep utf8 s done → s.limits = l → s.encoded ≤ l.sheet → s.encoded ≤ l.workbook → s.memory.length ≤ (if l.disk then l.memPrefix else l.memOnly) →
      (s.appendAll rs).encoded = (s.appendAll rs).content.length ∧ (s.appendAll rs).encoded ≤ l.sheet ∧ (s.appendAll rs).encoded ≤ l.workbook ∧ (s.appendAll rs).memory.length ≤ (if l.disk then l.memPrefix else l.memOnly) := by
    intro rs
    induction rs with
    | nil => exact fun _ s done hs _ e1 e2 e3 => ⟨hs.encoded, e1, e2, e3⟩
    | cons r rs ih =>
      intro hr s done hs hl e1 e2 e3
      have hr' : ∀ x ∈ rs, x.Ok utf8 := fun x hx => hr x (by simp [hx])
      rw [Spool.appendAll]
      rcases rep_append hs (hr r (by simp)) with ⟨-, he⟩ | ⟨hn, -, hrep, hlim, henc, hmem⟩
      · rw [he]
        exact ih hr' _ done hs hl e1 e2 e3
      · unfold Refused at hn
        simp only [not_or, hl, not_lt] at hn
        rw [hl] at hmem hlim
        exact ih hr' _ _ hrep hlim (by rw [henc]; exact hn.2.1) (by rw [henc]; exact hn.2.2.1) (hmem.trans (max_le e3 le_rfl))
  exact gen rs h _ [] (rep_new utf8 l) rfl (by simpa [Spool.new] using h1) (by simpa [Spool.new] using h2) (by
    simp only [Spool.new]
    split
    · exact h3
    · exact h4)

/-- C90.  Records are accepted as long as all of them fit the limits, and there is a file or no need of one. -/
theorem spool_accepts {utf8 : List ℕ → Bool} (l : Limits) (rs : List Rec) (h : ∀ r ∈ rs, r.Ok utf8) (n : ℕ) (hn : n = 5 + (rs.map frameLen).sum) (h64 : n < 2 ^ 64) (h1 : n ≤ l.sheet) (h2 : n ≤ l.workbook)
    (h3 : l.disk = false → n ≤ l.memOnly) (h4 : l.disk = true → n ≤ l.memPrefix ∨ 0 < l.files) : accepted (Spool.new l) rs = rs := by
  have gen : ∀ (rs : List Rec), (∀ r ∈ rs, r.Ok utf8) → ∀ (s : Spool) (done : List Rec), Rep utf8 s done → s.limits = l → s.encoded + (rs.map frameLen).sum ≤ n → accepted s rs = rs := by
    intro rs
    induction rs with
    | nil => exact fun _ s done _ _ _ => rfl
    | cons r rs ih =>
      intro hr s done hs hl hsum
      rw [List.map_cons, List.sum_cons] at hsum
      have hr' : ∀ x ∈ rs, x.Ok utf8 := fun x hx => hr x (by simp [hx])
      rcases rep_append hs (hr r (by simp)) with ⟨hn', -⟩ | ⟨-, ho, hrep, hlim, henc, -⟩
      · exfalso
        unfold Refused at hn'
        rw [hl] at hn'
        rcases hn' with a | a | a | ⟨a, b⟩ | ⟨-, a, b, c⟩
        · omega
        · omega
        · omega
        · have := h3 a
          omega
        · rcases h4 a with h5 | h5 <;> omega
      · rw [accepted, ho, if_pos (by simp)]
        congr 1
        exact ih hr' _ _ hrep (hlim.trans hl) (by omega)
  exact gen rs h _ [] (rep_new utf8 l) rfl (by rw [hn]; exact Nat.le_refl _)

example : accepted (Spool.new ⟨100, 100, 10, 0, true, 1⟩) [.ordinary 0 ⟨0, 0⟩ [65, 49], .descendant 1 ⟨0, 1⟩ 0] = [.ordinary 0 ⟨0, 0⟩ [65, 49], .descendant 1 ⟨0, 1⟩ 0] := by
  decide +kernel

end Verif.Spool
