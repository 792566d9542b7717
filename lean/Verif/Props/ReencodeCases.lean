import Verif.Props.ReencodeFrames
import Verif.Props.ExplodeCases
/-!
# C70 on concrete files
-/

namespace Gif.Examples

open Spec

/-- A file that can be written. -/
def paper : Sink := { written := [], plan := [] }

theorem paper_works : paper.Working := fun p hp => by simp [paper] at hp

/-- The decoder of a file, for raw frames. -/
def openedRaw (r : Reader) : Decoder Ref.lzw := (Decoder.readInfo Ref.lzw rawOptions r).1

set_option maxRecDepth 100000 in
theorem animation_opens_raw : (Decoder.readInfo Ref.lzw rawOptions Decoder.animation).2 = .ok () := by decide +kernel

/-- The raw frames of the animation. -/
def firstRaw : Frame := { first with buffer := [2, 0x4C, 0x0A], ownedCap := some 3 }
def secondRaw : Frame := { second with buffer := [2, 0x4C, 0x0A], ownedCap := some 3 }

set_option maxRecDepth 100000 in
theorem animation_loop_raw : Decoder.Looped (openedRaw Decoder.animation) [firstRaw, secondRaw] (.ok ()) := by
  refine .frame (pair_snd (b := Outcome.ok (some firstRaw)) ?_) (.frame (pair_snd (b := Outcome.ok (some secondRaw)) ?_) (.done (pair_snd (b := Outcome.ok none) ?_)))
  all_goals decide +kernel

set_option maxRecDepth 100000 in
theorem animation_expands : Expanded Ref.lzw [firstRaw, secondRaw] [first, second] := by
  refine ⟨?_, ?_, trivial⟩ <;> decide +kernel

set_option maxRecDepth 100000 in
theorem animation_screen_raw : (openedRaw Decoder.animation).width = 2 ∧ (openedRaw Decoder.animation).height = 1 ∧
    (openedRaw Decoder.animation).globalPalette.getD [] = [10, 20, 30, 40, 50, 60] ∧ (openedRaw Decoder.animation).repetition = .finite 0 := by
  decide +kernel

set_option maxRecDepth 100000 in
/-- The animation is written again, whatever the threads do. -/
theorem reencode_animation : (∃ s, Reencode Ref.lzw true paper Decoder.animation s .success) ∧
    ∀ s x, Reencode Ref.lzw true paper Decoder.animation s x → x = .success ∧ s.written =
      [71, 73, 70, 56, 57, 97, 2, 0, 1, 0, 128, 0, 0, 10, 20, 30, 40, 50, 60, 33, 249, 4, 4, 0, 0, 0, 0, 44, 0, 0, 0, 0, 2,
        0, 1, 0, 0, 2, 2, 76, 10, 0, 33, 249, 4, 4, 5, 0, 0, 0, 44, 0, 0, 0, 0, 2,
        0, 1, 0, 128, 1, 2, 3, 4, 5, 6, 2, 2, 76, 10, 0, 59] := by
  have key : ∀ s x, Reencode Ref.lzw true paper Decoder.animation s x → x = .success := fun s x h =>
    reencode_succeeds Ref.lzwContract paper_works (pair_snd animation_opens_raw) animation_loop_raw animation_expands h
  refine ⟨?_, fun s x h => ⟨key s x h, ?_⟩⟩
  · obtain ⟨s, x, h⟩ := reencode_exists Ref.lzwContract true paper Decoder.animation
    rw [key s x h] at h
    exact ⟨s, h⟩
  · have hx := key s x h
    subst hx
    obtain ⟨d, fs, gs, h1, -, h3, h4, -, h6⟩ := reencode_file Ref.lzwContract h
    rw [pair_snd animation_opens_raw] at h1
    cases h1
    obtain ⟨rfl, -⟩ := Decoder.looped_det animation_loop_raw h3
    cases expanded_det _ _ _ animation_expands h4
    obtain ⟨e1, e2, e3, e4⟩ := animation_screen_raw
    unfold openedRaw at e1 e2 e3 e4
    rw [h6, e1, e2, e3, e4]
    decide +kernel

/-- A case of `reencode_frames_partial`. -/
example : ∃ s v, Reencode Ref.lzw true paper Decoder.animation s .success ∧ v.width = 2 ∧
    Decoder.sessionFrom Ref.lzw .new (readerOn s.written) (List.replicate 3 .read) = allOf v [first, second] := by
  obtain ⟨⟨s, h⟩, hw⟩ := reencode_animation
  obtain ⟨d, fs, gs, h1, h2, h3, h4, h5, h6⟩ := reencode_file Ref.lzwContract h
  refine ⟨s, ⟨2, 1, some [10, 20, 30, 40, 50, 60], some 0, .finite 0, Frame.default⟩, h, rfl, ?_⟩
  rw [(hw s _ h).2]
  set_option maxRecDepth 100000 in decide +kernel

/-- A frame of two pixels whose data has only one. -/
def shortData : List UInt8 :=
  [0x47, 0x49, 0x46, 0x38, 0x39, 0x61, 2, 0, 1, 0, 0x80, 0, 0, 0, 0, 0, 255, 255, 255, 0x2C, 0, 0, 0, 0, 2, 0, 1, 0, 0, 2, 2, 0x4C, 1, 0, 0x3B]

/-- Its raw frame. -/
def shortRaw : Frame := { first with buffer := [2, 0x4C, 1], ownedCap := some 3 }

set_option maxRecDepth 100000 in
/-- C70: on a file with a frame that has too few pixels, which the decoder reports as an error, `parallel` always panics. -/
theorem reencode_panics_on_short_data : ∃ r : Reader, r.Reliable ∧
    (Decoder.sessionFrom Ref.lzw .new r [.read]).getLast? = some (.failed (.format .imageTruncated)) ∧
    (∃ s, Reencode Ref.lzw true paper r s .panic) ∧ ∀ s x, Reencode Ref.lzw true paper r s x → x = .panic := by
  refine ⟨readerOn shortData, readerOn_reliable (by decide), by decide +kernel, ?_⟩
  have h1 : (Decoder.readInfo Ref.lzw rawOptions (readerOn shortData)).2 = .ok () := by decide +kernel
  have h2 : Decoder.Looped (openedRaw (readerOn shortData)) [shortRaw] (.ok ()) := by
    refine .frame (pair_snd (b := Outcome.ok (some shortRaw)) ?_) (.done (pair_snd (b := Outcome.ok none) ?_))
    all_goals decide +kernel
  have h3 : ((FrameDecoder.new Ref.lzw DecodeOptions.new).decodeFrame shortRaw).2 = (shortRaw, .err (.format .imageTruncated)) := by
    decide +kernel
  obtain ⟨k1, k2⟩ := reencode_panics (np := true) Ref.lzwContract paper_works (pair_snd h1) h2 (f := shortRaw) (by simp) h3
  exact ⟨k1, k2 rfl⟩

/-- A file with a comment, but no frames. -/
def onlyComment : List UInt8 :=
  [0x47, 0x49, 0x46, 0x38, 0x39, 0x61, 2, 0, 1, 0, 0x80, 0, 0, 0, 0, 0, 255, 255, 255, 0x21, 0xFE, 2, 7, 8, 0, 0x3B]

set_option maxRecDepth 100000 in
/-- C70 does not hold for files without frames: the input can be read, the output cannot. -/
theorem reencode_no_frames : ∃ r : Reader, r.Reliable ∧
    (Decoder.sessionFrom Ref.lzw .new r [.read]).getLast?.map (fun x => match x with | .frame none _ => true | _ => false) = some true ∧
    (∃ s, Reencode Ref.lzw true paper r s .success) ∧ ∀ s, Reencode Ref.lzw true paper r s .success →
      ∃ e, Decoder.sessionFrom Ref.lzw .new (readerOn s.written) [.read] = [.failed e] := by
  refine ⟨readerOn onlyComment, readerOn_reliable (by decide), by decide +kernel, ?_⟩
  have h1 : (Decoder.readInfo Ref.lzw rawOptions (readerOn onlyComment)).2 = .ok () := by decide +kernel
  have h2 : Decoder.Looped (openedRaw (readerOn onlyComment)) [] (.ok ()) := by
    refine .done (pair_snd (b := Outcome.ok none) ?_)
    decide +kernel
  have h3 : (openedRaw (readerOn onlyComment)).width = 2 ∧ (openedRaw (readerOn onlyComment)).height = 1 ∧
      (openedRaw (readerOn onlyComment)).globalPalette.getD [] = [0, 0, 0, 255, 255, 255] ∧
      (openedRaw (readerOn onlyComment)).repetition = .finite 0 := by decide +kernel
  refine ⟨?_, ?_⟩
  · obtain ⟨s, x, h⟩ := reencode_exists Ref.lzwContract true paper (readerOn onlyComment)
    have := reencode_succeeds Ref.lzwContract paper_works (pair_snd h1) h2 (gs := []) trivial h
    subst this
    exact ⟨s, h⟩
  · intro s h
    obtain ⟨d, fs, gs, k1, -, k3, k4, -, k6⟩ := reencode_file Ref.lzwContract h
    rw [pair_snd h1] at k1
    cases k1
    obtain ⟨rfl, -⟩ := Decoder.looped_det h2 k3
    cases expanded_det [] [] _ trivial k4
    obtain ⟨e1, e2, e3, e4⟩ := h3
    unfold openedRaw at e1 e2 e3 e4
    have hw : s.written = [71, 73, 70, 56, 57, 97, 2, 0, 1, 0, 128, 0, 0, 0, 0, 0, 255, 255, 255, 59] := by
      rw [k6, e1, e2, e3, e4]
      decide +kernel
    rw [hw]
    exact ⟨.io .unexpectedEof, by decide +kernel⟩

/-- The raw frame of a file with an interlaced frame without rows. -/
def rowlessRaw : Frame := { rowless with interlaced := true, buffer := [2, 44], ownedCap := some 2 }

set_option maxRecDepth 100000 in
/-- C70 does not hold for frames without pixels: the frame of the input is returned, the one of the output is not. -/
theorem reencode_no_pixels : ∃ r : Reader, r.Reliable ∧
    (Decoder.sessionFrom Ref.lzw .new r [.read]).getLast?.map (fun x => match x with | .frame o _ => o | _ => none) = some (some rowless) ∧
    (∃ s, Reencode Ref.lzw true paper r s .success) ∧ ∀ s, Reencode Ref.lzw true paper r s .success →
      (Decoder.sessionFrom Ref.lzw .new (readerOn s.written) [.read]).getLast? = some (.failed (.format .imageTruncated)) := by
  refine ⟨readerOn noRows, readerOn_reliable (by decide), by decide +kernel, ?_⟩
  have h1 : (Decoder.readInfo Ref.lzw rawOptions (readerOn noRows)).2 = .ok () := by decide +kernel
  have h2 : Decoder.Looped (openedRaw (readerOn noRows)) [rowlessRaw] (.ok ()) := by
    refine .frame (pair_snd (b := Outcome.ok (some rowlessRaw)) ?_) (.done (pair_snd (b := Outcome.ok none) ?_))
    all_goals decide +kernel
  have hx : Expanded Ref.lzw [rowlessRaw] [rowless] := by
    refine ⟨?_, trivial⟩
    decide +kernel
  have h3 : (openedRaw (readerOn noRows)).width = 1 ∧ (openedRaw (readerOn noRows)).height = 1 ∧
      (openedRaw (readerOn noRows)).globalPalette.getD [] = [0, 0, 0, 255, 255, 255] ∧
      (openedRaw (readerOn noRows)).repetition = .finite 0 := by decide +kernel
  refine ⟨?_, ?_⟩
  · obtain ⟨s, x, h⟩ := reencode_exists Ref.lzwContract true paper (readerOn noRows)
    have := reencode_succeeds Ref.lzwContract paper_works (pair_snd h1) h2 hx h
    subst this
    exact ⟨s, h⟩
  · intro s h
    obtain ⟨d, fs, gs, k1, -, k3, k4, -, k6⟩ := reencode_file Ref.lzwContract h
    rw [pair_snd h1] at k1
    cases k1
    obtain ⟨rfl, -⟩ := Decoder.looped_det h2 k3
    cases expanded_det _ _ _ hx k4
    obtain ⟨e1, e2, e3, e4⟩ := h3
    unfold openedRaw at e1 e2 e3 e4
    have hw : s.written = [71, 73, 70, 56, 57, 97, 1, 0, 1, 0, 128, 0, 0, 0, 0, 0, 255, 255, 255, 33, 249,
        4, 4, 0, 0, 0, 0, 44, 0, 0, 0, 0, 1, 0, 0, 0, 0, 2, 1, 44, 0, 59] := by
      rw [k6, e1, e2, e3, e4]
      decide +kernel
    rw [hw]
    decide +kernel

/-- A case of `reencode_same`: a file with one good and one bad frame. -/
example := fun s1 s2 x1 x2 => reencode_same (s1 := s1) (s2 := s2) (x1 := x1) (x2 := x2) Ref.lzwContract (np := true) (s := paper) (r := Decoder.animationCut)

/-- A case of `reencode_ends`: a full disk. -/
example := fun s' x => reencode_ends (s' := s') (x := x) Ref.lzwContract (s := { written := [], plan := [some (0, 28)] }) (r := Decoder.animation)

end Gif.Examples
