import Verif.Props.Final
/-!
Cases for C84: the final errors occur and are reported again; after every other error that the format of a file can cause the next call
can succeed, for some file.
-/

namespace Gif.FinalCases

open Gif.Spec Gif Gif.ErrorCases

/-- What the calls report: nothing, or an error. -/
def reports (o : DecodeOptions) (r : Reader) (ops : List Decoder.Op) : List (Option DecodingError) :=
  match Decoder.readInfo Ref.lzw o r with
  | (d, .ok ()) => go d ops
  | _ => []
where
  go : Decoder Ref.lzw → List Decoder.Op → List (Option DecodingError)
    | _, [] => []
    | d, op :: ops =>
      match d.perform op with
      | (d, .err e) => some e :: go d ops
      | (d, _) => none :: go d ops

/-- `image`, with a palette of its own. -/
def coloured : List UInt8 := [0x2C, 0, 0, 0, 0, 1, 0, 1, 0, 0x80, 1, 2, 3, 4, 5, 6, 2, 2, 0x4C, 1, 0]

/-- A header outside the screen, of which the reader gives the first part first. -/
def splitHeader : Reader :=
  { after [0x2C, 2, 0] with src := (after [0x2C, 2, 0]).src ++ [.data [0, 0, 0, 0, 1, 0, 0, 0, 0, 2, 0]] }

theorem final_occur :
    reports options (after ([0x99, 0] ++ image)) [.nextFrameInfo, .fillBuffer [0], .readNextFrame, .nextFrameInfo] =
      List.replicate 4 (some (.format .unknownBlock)) ∧
    reports options (after (image ++ [0x21, 0] ++ image)) [.readNextFrame, .nextFrameInfo, .readIntoBuffer [0], .readNextFrame] =
      none :: List.replicate 3 (some (.format .unknownBlock)) ∧
    reports options (after ([0x2C, 0, 0, 0, 0, 1, 0, 1, 0, 0, 12, 0] ++ image)) [.nextFrameInfo, .readNextFrame, .nextFrameInfo] =
      List.replicate 3 (some (.format .invalidMinCodeSize)) ∧
    reports limited (after (image ++ [0x21, 0xFE, 4, 0, 0, 0, 0, 0] ++ image)) [.readNextFrame, .readNextFrame, .nextFrameInfo] =
      none :: List.replicate 2 (some (.format .memoryLimit)) ∧
    reports options (after image) [.readNextFrame, .readNextFrame, .nextFrameInfo] =
      none :: List.replicate 2 (some (.io .unexpectedEof)) := by
  decide +kernel

/-- C84, the other half: the remaining errors are not final. A control extension of length 2 and a frame header outside the screen are
even accepted at the second attempt, because the bytes before them are read twice. -/
theorem others_recover :
    reports options (after (image ++ [0x21, 0xF9, 2, 0, 0, 0] ++ image)) [.nextFrameInfo, .nextFrameInfo, .nextFrameInfo] =
      [none, some (.format .controlWrongLength), none] ∧
    reports severe splitHeader [.nextFrameInfo, .nextFrameInfo] = [some (.format .frameOutOfBounds), none] ∧
    reports limitedUndecoded (after ([0x2C, 0, 0, 0, 0, 1, 0, 1, 0, 0, 2, 4, 0x4C, 1, 0, 0, 0] ++ image)) [.readNextFrame, .nextFrameInfo] =
      [some (.format .memoryLimit), none] ∧
    reports options (after (short ++ image)) [.readNextFrame, .readNextFrame] = [some (.format .imageTruncated), none] ∧
    reports rgba (after (flat ++ image)) [.readNextFrame, .readNextFrame] = [some (.format .oddSizedBuffer), none] ∧
    reports options (bare (image ++ coloured)) [.readNextFrame, .readNextFrame] = [some (.format .noColorTable), none] ∧
    reports options (after (image ++ image)) [.fillBuffer [0], .readNextFrame] = [some (.format .unexpectedData), none] ∧
    reports options (after image) [.nextFrameInfo, .readIntoBuffer [], .readIntoBuffer [0]] =
      [none, some (.format .bufferTooSmall), none] ∧
    reports { limited with colorOutput := .rgba } (after (image ++ flat)) [.readNextFrame, .nextFrameInfo] =
      [some (.io .outOfMemory), none] ∧
    reports options { after [0x2C, 0] with src := (after [0x2C, 0]).src ++ [.err 7, .data (image.drop 2)] } [.readNextFrame, .readNextFrame] =
      [some (.io (.reader 7)), none] ∧
    reports options { after [0x2C, 0] with src := (after [0x2C, 0]).src ++ [.data [], .data (image.drop 2)] } [.readNextFrame, .readNextFrame] =
      [some (.io .unexpectedEof), none] := by
  decide +kernel

/-- The theorem in the first case. -/
example : ∃ d : Decoder Ref.lzw, Decoder.Reach options (after ([0x99, 0] ++ image)) d ∧
    (d.perform .nextFrameInfo).2 = .fmtErr .unknownBlock ∧
    ∀ ops : List Decoder.Op, (ops.foldl (fun d op => (d.perform op).1) (d.perform .nextFrameInfo).1).readNextFrame.2 =
      .fmtErr .unknownBlock := by
  have h1 : (match (Decoder.readInfo Ref.lzw options (after ([0x99, 0] ++ image))).2 with
    | .ok () => true
    | _ => false) = true := by decide +kernel
  have h2 : (match ((Decoder.readInfo Ref.lzw options (after ([0x99, 0] ++ image))).1.perform .nextFrameInfo).2 with
    | .err (.format .unknownBlock) => true
    | _ => false) = true := by decide +kernel
  have hr : Decoder.Reach options (after ([0x99, 0] ++ image)) (Decoder.readInfo Ref.lzw options (after ([0x99, 0] ++ image))).1 := by
    refine .opened ?_
    split at h1
    · assumption
    · cases h1
  have hf : ((Decoder.readInfo Ref.lzw options (after ([0x99, 0] ++ image))).1.perform .nextFrameInfo).2 = .fmtErr .unknownBlock := by
    split at h2
    · assumption
    · cases h2
  exact ⟨_, hr, hf, fun ops => (Decoder.final_errors Ref.lzw_safe hr .nextFrameInfo _ hf (.inl rfl) ops).2.1⟩

end Gif.FinalCases
