import Verif.Props.Unknown
import Verif.Ref.Lawful
/-!
Cases of the theorems of `Extensions.lean` and `Unknown.lean`, and where C36 and C37 are false.
-/

namespace Gif.Props

open Spec (File Blk SubsOk renderSubs)

variable {C : Codec}

/-- Feeding as `feed` does is one way of `Reading`. -/
theorem feed_reading : ∀ (fuel : Nat) (s : SD C) (l : List UInt8),
    (feed .none fuel s l).1.all (fun c => c.event.isSome) = true →
    Reading s l (feed .none fuel s l).1 (feed .none fuel s l).2 (l.drop ((feed .none fuel s l).1.map UpdateCall.consumed).sum) := by
  intro fuel
  induction fuel with
  | zero => intro s l _; exact .nil s l
  | succ fuel ih =>
    intro s l h
    rw [feed] at h ⊢
    by_cases hl : l.isEmpty
    · rw [if_pos hl]; exact .nil s l
    · rw [if_neg hl] at h ⊢
      simp only [List.all_cons, Bool.and_eq_true] at h ⊢
      have := ih _ _ h.2
      generalize hu : s.update l .none = u at *
      obtain ⟨s1, r⟩ := u
      cases r with
      | ok p =>
        obtain ⟨n, ev⟩ := p
        have hc := Reading.cons (rest := []) (by simpa using hl) hu (by rw [List.append_nil]; exact this)
        simp only [List.append_nil, UpdateCall.consumed, List.map_cons, List.sum_cons, List.drop_drop] at hc ⊢
        exact hc
      | err e => simp [UpdateCall.event] at h
      | panic => simp [UpdateCall.event] at h
      | diverge => simp [UpdateCall.event] at h

/-- Header, and a comment. -/
def upToBlock : List UInt8 := [0x47, 0x49, 0x46, 0x38, 0x39, 0x61, 1, 0, 1, 0, 0, 0, 0, 0x21, 0xFE, 1, 0x41, 0]

/-- A decoder that has read them. -/
def atBlock (o : DecodeOptions) : SD Ref.lzw := (feed .none 9 (SD.withOptions Ref.lzw o) upToBlock).2

/-- The calls. -/
def toBlock (o : DecodeOptions) : List UpdateCall := (feed .none 9 (SD.withOptions Ref.lzw o) upToBlock).1

theorem atBlock_history (o : DecodeOptions) (h : (toBlock o).all (fun c => c.result.returns) = true) :
    History o (toBlock o) (atBlock o) := feed_calls _ _ _ _ h

/-- An encoder for which the header has been written elsewhere. -/
def writing : Encoder := { w := some { written := [], plan := [] }, globalPalette := false, width := 1, height := 1, buffer := [] }

theorem reading_of {s s' : SD Ref.lzw} {l l' : List UInt8} (fuel : Nat) (hs : (feed .none fuel s l).2 = s')
    (h : (feed .none fuel s l).1.all (fun c => c.event.isSome) = true)
    (hl : l.drop ((feed .none fuel s l).1.map UpdateCall.consumed).sum = l') : Reading s l (feed .none fuel s l).1 s' l' := by
  subst hs hl
  exact feed_reading fuel s l h

set_option maxRecDepth 100000 in
/-- C36 fails: `last_ext` has not the same payload. -/
theorem raw_extension_fails : ¬ ∀ (o : DecodeOptions) (calls : List UpdateCall) (s : SD Ref.lzw), History o calls s →
    s.state = .blockEnd → ∀ (e e' : Encoder) (k k' : Sink) (block : List UInt8) (label : UInt8) (data : List (List UInt8)),
    e.w = some k → k.Working → (Extension.fromU8 label).isSome → data.flatten ≠ [] →
    e.writeRawExtension label data = (e', .ok ()) → e'.w = some k' → k'.written = k.written ++ block →
    ∀ cs s', Reading s block cs s' [] → cs.getLast?.bind UpdateCall.event = some (.blockFinished label) →
    s'.lastExt.2.1 = data.flatten := fun h =>
  absurd (h .new (toBlock .new) (atBlock .new) (atBlock_history _ (by decide +kernel)) (by decide +kernel) writing
    { writing with w := some { written := [0x21, 0xFE, 1, 7, 0], plan := [] } } _ _ [0x21, 0xFE, 1, 7, 0] 0xFE [[7]] rfl
    (by simp [writing, Sink.Working]) rfl (by decide) (by decide +kernel) rfl rfl _ _
    (reading_of 4 rfl (by decide +kernel) (by decide +kernel)) (by decide +kernel)) (by decide +kernel)

set_option maxRecDepth 100000 in
/-- C36 fails for extensions without data: the block that follows is taken for their data. -/
theorem empty_extension_fails : ¬ ∀ (o : DecodeOptions) (calls : List UpdateCall) (s : SD Ref.lzw), History o calls s →
    s.state = .blockEnd → ∀ (e e' : Encoder) (k k' : Sink) (block : List UInt8) (label : UInt8) (data : List (List UInt8)),
    e.w = some k → k.Working → (Extension.fromU8 label).isSome → data.flatten = [] →
    e.writeRawExtension label data = (e', .ok ()) → e'.w = some k' → k'.written = k.written ++ block →
    ∀ rest cs s' l', Reading s (block ++ rest) cs s' l' →
    told cs <+: [.blockStart .extension, .blockFinished label] ∨ [.blockStart .extension, .blockFinished label] <+: told cs := fun h =>
  absurd (h .new (toBlock .new) (atBlock .new) (atBlock_history _ (by decide +kernel)) (by decide +kernel) writing
    { writing with w := some { written := [0x21, 0xFE, 0], plan := [] } } _ _ [0x21, 0xFE, 0] 0xFE [] rfl
    (by simp [writing, Sink.Working]) rfl (by decide) (by decide +kernel) rfl rfl [0x21, 0xFE, 1, 7, 0] _ _ _
    (reading_of 2 rfl (by decide +kernel) rfl)) (by decide +kernel)

/-- `allow_unknown_blocks(true)` -/
def lenient : DecodeOptions := { DecodeOptions.new with allowUnknownBlocks := true }

set_option maxRecDepth 100000 in
/-- C37 fails: the sub-blocks of an unknown block are not reported with label 0. -/
theorem unknown_label_fails : ¬ ∀ (o : DecodeOptions) (calls : List UpdateCall) (s : SD Ref.lzw), History o calls s →
    o.allowUnknownBlocks = true → s.state = .blockEnd → ∀ (t : UInt8) (subs : List (List UInt8)), t ≠ 0x21 ∧ t ≠ 0x2C ∧ t ≠ 0x3B →
    subs ≠ [] → SubsOk subs → ∀ cs s' l', Reading s (t :: renderSubs subs) cs s' l' →
    ∀ label, Decoded.subBlockFinished label ∈ told cs → label = 0 := fun h =>
  absurd (h lenient (toBlock lenient) (atBlock lenient) (atBlock_history _ (by decide +kernel)) rfl (by decide +kernel)
    0x42 [[1], [2, 3]] (by decide) (by decide) (by decide) _ _ _ (reading_of 9 rfl (by decide +kernel) rfl) 0xFE
    (by decide +kernel)) (by decide)

set_option maxRecDepth 100000 in
/-- C37 fails after a graphic control extension: the unknown block is taken for more of it. -/
theorem unknown_after_control_fails : ¬ ∀ (o : DecodeOptions) (g : File) (a b : List Blk) (t : UInt8) (subs : List (List UInt8)),
    o.allowUnknownBlocks = true → File.Ok { g with blocks := a ++ .unknown t subs :: b } →
    File.Readable o { g with blocks := a ++ b } → ∀ r r' : Reader, r.Reliable → r'.Reliable →
    r.bytes = File.render { g with blocks := a ++ .unknown t subs :: b } → r'.bytes = File.render { g with blocks := a ++ b } →
    ∀ k, Decoder.rawFilm Ref.lzw o r k = Decoder.rawFilm Ref.lzw o r' k := fun h =>
  absurd (h lenient sample [.control ⟨9, 10, 1⟩, .image dot] [.image dot] 0x42 [[1, 2], [3]] rfl (by decide +kernel)
    ⟨by decide +kernel, by decide +kernel, by decide +kernel, by decide +kernel⟩ _ _ (readerOf_reliable _) (readerOf_reliable _)
    (readerOf_bytes _) (readerOf_bytes _) 2) (by decide +kernel)

set_option maxRecDepth 100000 in
/-- C37 fails for unknown blocks without data: the block that follows is taken for their data. -/
theorem empty_unknown_fails : ¬ ∀ (o : DecodeOptions) (g : File) (a b : List Blk) (t : UInt8),
    o.allowUnknownBlocks = true → t ≠ 0x21 ∧ t ≠ 0x2C ∧ t ≠ 0x3B → File.Readable o { g with blocks := a ++ b } →
    (∀ x ∈ a, ∃ i, x = .image i) → ∀ r r' : Reader, r.Reliable → r'.Reliable →
    r.bytes = File.render { g with blocks := a ++ .unknown t [] :: b } → r'.bytes = File.render { g with blocks := a ++ b } →
    ∀ k, Decoder.rawFilm Ref.lzw o r k = Decoder.rawFilm Ref.lzw o r' k := fun h =>
  absurd (h lenient sample [.image dot] [.image dot] 0x42 rfl (by decide)
    ⟨by decide +kernel, by decide +kernel, by decide +kernel, by decide +kernel⟩
    (by intro x hx; rw [List.mem_singleton] at hx; exact ⟨_, hx⟩) _ _ (readerOf_reliable _) (readerOf_reliable _)
    (readerOf_bytes _) (readerOf_bytes _) 2) (by decide +kernel)

/-- `NETSCAPE2.0`, 7 repetitions. -/
def sevenTimes : Blk := .ext 0xFF [[0x4E, 0x45, 0x54, 0x53, 0x43, 0x41, 0x50, 0x45, 0x32, 0x2E, 0x30], [1, 7, 0]]

set_option maxRecDepth 100000 in
/-- An unknown block hides a loop count that follows: without it `repeat()` is 7, with it `repeat()` is 0. -/
theorem unknown_hides_loops :
    (Decoder.readInfo Ref.lzw lenient (readerOf (withBlocks [sevenTimes, .image dot]))).1.repetition = .finite 7 ∧
    (Decoder.readInfo Ref.lzw lenient (readerOf (withBlocks [.unknown 0x42 [[1]], sevenTimes, .image dot]))).1.repetition =
      .finite 0 := by decide +kernel

set_option maxRecDepth 100000 in
/-- A case of `unknown_block_raw_partial`. -/
example : Decoder.rawFilm Ref.lzw lenient (readerOf (withBlocks [.unknown 0x42 [[1], [2, 3]], .image dot, .ext 0xFE [[1]],
      .unknown 0x43 [[9, 9]], .image dot])) 4 =
    Decoder.rawFilm Ref.lzw lenient (readerOf (withBlocks [.unknown 0x42 [[1], [2, 3]], .image dot, .ext 0xFE [[1]], .image dot])) 4 :=
  Decoder.unknown_block_raw_partial Ref.lzwContract.safe (g := sample)
    (a := [.unknown 0x42 [[1], [2, 3]], .image dot, .ext 0xFE [[1]]])
    (b := [.image dot]) (t := 0x43) (subs := [[9, 9]])
    ⟨by decide +kernel, by decide +kernel, by decide +kernel, by decide +kernel⟩ (by decide +kernel) (.inl (by decide +kernel))
    (junk := []) (junk' := []) (readerOf_reliable _) (readerOf_reliable _) (by rw [readerOf_bytes, List.append_nil]; rfl)
    (by rw [readerOf_bytes, List.append_nil]; rfl) 4

set_option maxRecDepth 100000 in
/-- A case of `unknown_block_partial`. -/
example : Decoder.sessionFrom Ref.lzw lenient (readerOf (withBlocks (.unknown 0x42 [[1], [2, 3]] :: sample.blocks.drop 2)))
      (List.replicate 4 .read) =
    Decoder.sessionFrom Ref.lzw lenient (readerOf (withBlocks (sample.blocks.drop 2))) (List.replicate 4 .read) :=
  Decoder.unknown_block_partial Ref.lzwContract (o := lenient) rfl rfl (g := sample) (a := []) (b := sample.blocks.drop 2) (t := 0x42)
    (subs := [[1], [2, 3]]) ⟨by decide +kernel, by decide +kernel, by decide +kernel, by decide +kernel⟩ (by decide +kernel)
    (.inr (by intro x hx; simp [sample] at hx)) (pxs := [[0, 1, 1, 0, 1, 0], [1, 1]])
    (Spec.showAll_blocks _ _ sample sample.blocks _ _ _ sample_shows)
    (junk := []) (junk' := []) (readerOf_reliable _) (readerOf_reliable _) (by rw [readerOf_bytes, List.append_nil]; rfl)
    (by rw [readerOf_bytes, List.append_nil]; rfl) 2

set_option maxRecDepth 100000 in
/-- A case of `raw_extension_partial`: 300 bytes in two slices. What is read after them does not matter. -/
example (rest : List UInt8) (cs : List UpdateCall) (s' : SD Ref.lzw)
    (h : Reading (atBlock .new) (((writing.writeRawExtension 0xFE [List.replicate 299 5, [6]]).1.w.map (·.written)).getD [] ++ rest)
      cs s' rest) (hl : cs.getLast?.bind UpdateCall.event = some (.blockFinished 0xFE))
    (ht : told cs = [.blockStart .extension, .subBlockFinished 0xFE, .subBlockFinished 0xFE, .blockFinished 0xFE]) :
    s'.lastExt.2.1.tail = List.replicate 299 5 ++ [6] := by
  obtain ⟨k', block, n, h1, h2, h3⟩ := raw_extension_partial Ref.lzwContract.safe (atBlock_history .new (by decide +kernel))
    (by decide +kernel) writing { written := [], plan := [] } rfl (by simp [Sink.Working]) 0xFE [List.replicate 299 5, [6]]
    (by decide) (by decide) (by decide) (by decide +kernel)
  have hb : ((writing.writeRawExtension 0xFE [List.replicate 299 5, [6]]).1.w.map (·.written)).getD [] = block := by
    rw [h1]; simp [h2]
  rw [hb] at h
  obtain ⟨g1, g2, g3⟩ := h3 rest cs s' rest h
  have hn : n = 2 := by
    rcases g1 with g1 | g1
    · have := g1.length_le
      rw [ht] at g1
      match n, g1 with
      | 0, g1 => simp at g1
      | 1, g1 => simp [List.replicate] at g1
      | 2, _ => rfl
      | n + 3, g1 => simp [List.replicate_succ] at g1
    · rw [ht] at g1
      match n, g1 with
      | 0, g1 => simp at g1
      | 1, g1 => simp [List.replicate] at g1
      | 2, _ => rfl
      | n + 3, g1 => simp [List.replicate_succ] at g1
  subst hn
  exact (g3 ht hl).2.1

set_option maxRecDepth 100000 in
/-- A case of `unknown_events_partial` and of its hypotheses. -/
example (rest : List UInt8) (cs : List UpdateCall) (s' : SD Ref.lzw) (l' : List UInt8)
    (h : Reading (atBlock lenient) (0x42 :: renderSubs [[1], [2, 3]] ++ rest) cs s' l') :
    ∃ pre, (pre = [] ∨ pre = [Decoded.headerEnd]) ∧ (told cs <+: pre ++ [.subBlockFinished 0xFE, .blockFinished 0xFE] ∨
      pre ++ [.subBlockFinished 0xFE, .blockFinished 0xFE] <+: told cs) := by
  have hid : (atBlock lenient).lastExt.1 = 0xFE := by decide +kernel
  obtain ⟨pre, h1, h2⟩ := unknown_events_partial Ref.lzwContract.safe (atBlock_history lenient (by decide +kernel))
    (by decide +kernel) rfl 0x42 (by decide) [[1], [2, 3]] (by decide) (by decide) (by decide +kernel) (by decide +kernel)
  have := (h2 rest cs s' l' h).1
  rw [hid] at this
  exact ⟨pre, h1, by simpa using this⟩

end Gif.Props
