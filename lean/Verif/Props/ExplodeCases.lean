import Verif.Props.Explode
import Verif.Props.CostCases
import Verif.Props.RoundTripCases
/-!
# C69 on concrete files
-/

namespace Gif.Examples

/-- Files that can be created and written. -/
def disk : Nat → Except Nat Sink := fun _ => .ok { written := [], plan := [] }

theorem disk_ok : Disk disk := fun _ => ⟨_, rfl, rfl, fun p hp => by simp at hp⟩

set_option maxRecDepth 100000 in
theorem animation_opens : (Decoder.readInfo Ref.lzw explodeOptions Decoder.animation).2 = .ok () := by decide +kernel

/-- The decoder of the animation. -/
def opened : Decoder Ref.lzw := (Decoder.readInfo Ref.lzw explodeOptions Decoder.animation).1

/-- The frames of the animation. -/
def first : Frame := { Frame.default with width := 2, height := 1, buffer := [1, 1], ownedCap := some 2 }
def second : Frame := { first with delay := 5, palette := some [1, 2, 3, 4, 5, 6] }

set_option maxRecDepth 100000 in
theorem animation_loop : Decoder.Looped opened [first, second] (.ok ()) := by
  refine .frame (pair_snd (b := Outcome.ok (some first)) ?_) (.frame (pair_snd (b := Outcome.ok (some second)) ?_) (.done (pair_snd (b := Outcome.ok none) ?_)))
  all_goals decide +kernel

set_option maxRecDepth 100000 in
theorem animation_screen : opened.width = 2 ∧ opened.height = 1 ∧ opened.globalPalette.getD [] = [10, 20, 30, 40, 50, 60] := by
  decide +kernel

set_option maxRecDepth 100000 in
/-- An animation of two frames is exploded into two files. -/
theorem explode_animation : ∃ ss, explode Ref.lzw true disk Decoder.animation = (ss, .success) ∧ ss.map (·.written) =
    [[71, 73, 70, 56, 57, 97, 2, 0, 1, 0, 128, 0, 0, 10, 20, 30, 40, 50, 60, 33, 249, 4, 4, 0, 0, 0, 0, 44, 0, 0, 0, 0, 2,
        0, 1, 0, 0, 2, 2, 76, 10, 0, 59],
      [71, 73, 70, 56, 57, 97, 2, 0, 1, 0, 128, 0, 0, 10, 20, 30, 40, 50, 60, 33, 249, 4, 4, 5, 0, 0, 0, 44, 0, 0, 0, 0, 2,
        0, 1, 0, 128, 1, 2, 3, 4, 5, 6, 2, 2, 76, 10, 0, 59]] := by
  obtain ⟨ss, h1, h2⟩ := explodeLoop_files true disk_ok (w := 2) (h := 1) (pal := [10, 20, 30, 40, 50, 60]) (by decide) animation_loop
    (by decide +kernel) (Decoder.animation.bytes.length + 1) 1 (by decide +kernel)
  refine ⟨ss, ?_, h2.trans (by decide +kernel)⟩
  obtain ⟨e1, e2, e3⟩ := animation_screen
  unfold explode
  rw [pair_snd animation_opens]
  change explodeLoop _ _ _ opened.width opened.height (opened.globalPalette.getD []) _ _ opened = _
  rw [e1, e2, e3]
  exact h1

set_option maxRecDepth 100000 in
/-- The same file without its end: the error of the decoder is reported. -/
example : (explode Ref.lzw true disk Decoder.animationCut).2 = .decoding (.io .unexpectedEof) := by
  decide +kernel

/-- A case of `explode_files_partial`: reading the second of the two files gives the second frame. -/
example : ∃ ss s v, explode Ref.lzw true disk Decoder.animation = (ss, .success) ∧ ss[1]? = some s ∧
    ∀ (junk : List UInt8) (r' : Reader) (k : Nat), r'.Reliable → r'.bytes = s.written ++ junk →
      Decoder.sessionFrom Ref.lzw .new r' (List.replicate (k + 1) .read) =
        .opened v :: .frame (some second) { v with currentFrame := second } ::
          List.replicate k (.frame none { v with currentFrame := second }) := by
  obtain ⟨ss, h1, h2, h3⟩ := explode_files_partial Ref.lzwContract true disk_ok (pair_snd animation_opens) animation_loop
  obtain ⟨s, hs⟩ : ∃ s, ss[1]? = some s := ⟨_, List.getElem?_eq_getElem (by rw [h2]; decide)⟩
  obtain ⟨v, -, -, -, -, h⟩ := h3 1 s second hs rfl (by decide) .new rfl rfl rfl rfl (by decide) (by decide)
  exact ⟨ss, s, v, h1, hs, h⟩

/-- A file with an interlaced frame without rows. -/
def noRows : List UInt8 :=
  [0x47, 0x49, 0x46, 0x38, 0x39, 0x61, 1, 0, 1, 0, 0x80, 0, 0, 0, 0, 0, 255, 255, 255, 0x2C, 0, 0, 0, 0, 1, 0, 0, 0, 0x40, 2, 1, 0x2C, 0, 0x3B]

/-- The decoder of this file. -/
def openedNoRows : Decoder Ref.lzw := (Decoder.readInfo Ref.lzw explodeOptions (readerOn noRows)).1

/-- Its frame. -/
def rowless : Frame := { Frame.default with width := 1, height := 0, buffer := [], ownedCap := some 0 }

set_option maxRecDepth 100000 in
theorem noRows_reads : (Decoder.readInfo Ref.lzw explodeOptions (readerOn noRows)).2 = .ok () ∧
    openedNoRows.readNextFrame.2 = .ok (some rowless) ∧ openedNoRows.readNextFrame.1.readNextFrame.2 = .ok none ∧
    openedNoRows.width = 1 ∧ openedNoRows.height = 1 ∧ openedNoRows.globalPalette.getD [] = [0, 0, 0, 255, 255, 255] := by
  decide +kernel

set_option maxRecDepth 100000 in
theorem explode_noRows (create : Nat → Except Nat Sink) (s s' : Sink) (hc : create 1 = .ok s)
    (h : explodeFrame Ref.lzw true s 1 1 [0, 0, 0, 255, 255, 255] rowless = (s', .ok ())) :
    explode Ref.lzw true create (readerOn noRows) = ([s'], .success) := by
  obtain ⟨h1, h2, h3, e1, e2, e3⟩ := noRows_reads
  unfold explode
  rw [pair_snd h1]
  change explodeLoop _ _ _ openedNoRows.width openedNoRows.height (openedNoRows.globalPalette.getD []) (33 + 1 + 1) 1 openedNoRows = _
  rw [e1, e2, e3, explodeLoop, pair_snd h2]
  simp only [hc, h]
  rw [explodeLoop, pair_snd h3]
  rfl

set_option maxRecDepth 100000 in
/-- C69 does not hold for frames without pixels: of such a frame, if it is interlaced, `explode` makes a file, and that file
cannot be decoded. -/
theorem explode_no_pixels : ∃ r : Reader, r.Reliable ∧ ∃ s, explode Ref.lzw true disk r = ([s], .success) ∧
    (Decoder.sessionFrom Ref.lzw .new (readerOn s.written) [.read]).getLast? = some (.failed (.format .imageTruncated)) := by
  refine ⟨readerOn noRows, readerOn_reliable (by decide), ⟨[71, 73, 70, 56, 57, 97, 1, 0, 1, 0, 128, 0, 0, 0, 0, 0, 255, 255, 255, 33, 249,
    4, 4, 0, 0, 0, 0, 44, 0, 0, 0, 0, 1, 0, 0, 0, 0, 2, 1, 44, 0, 59], []⟩, explode_noRows _ _ _ rfl ?_, ?_⟩
  · decide +kernel
  · decide +kernel

set_option maxRecDepth 100000 in
/-- `explode` reports success although the last byte of the file could not be written: the encoder is dropped, and with the
default feature `raii_no_panic` the error is lost. The plan of the file is one that fails on the trailer. -/
theorem explode_loses_error : ∃ (create : Nat → Except Nat Sink) (r : Reader) (s : Sink), r.Reliable ∧
    explode Ref.lzw true create r = ([s], .success) ∧ s.written.getLast? ≠ some 0x3B := by
  refine ⟨fun _ => .ok { written := [], plan := List.replicate 10 none ++ [some (0, 28)] }, readerOn noRows, ⟨[71, 73, 70, 56, 57, 97, 1, 0,
    1, 0, 128, 0, 0, 0, 0, 0, 255, 255, 255, 33, 249, 4, 4, 0, 0, 0, 0, 44, 0, 0, 0, 0, 1, 0, 0, 0, 0, 2, 1, 44, 0], []⟩,
    readerOn_reliable (by decide), explode_noRows _ _ _ rfl ?_, ?_⟩
  · decide +kernel
  · decide +kernel

/-- A case of `explode_ends` with a full disk. -/
example := explode_ends Ref.lzwContract (fun n => if n < 2 then .ok { written := [], plan := [] } else .error 28) Decoder.animation

end Gif.Examples
