import Verif.Props.Client
import Verif.Props.RoundTripCases
/-!
# C81: a program that changes the first frame of a file while decoding it
-/

namespace Gif

namespace SD

/-- The calls of `update` up to an offset of the file, each with all that is left of it. -/
def demoUpdates (offsets : List Nat) : List Use := offsets.map fun n => .update (demoFile.drop n) (.slice 3)

def demoFresh : SD Ref.lzw := SD.withOptions Ref.lzw DecodeOptions.new

/-- Makes the frame huge, takes its palette away and gives it pixels. -/
def demoChange : Use := .change (fun f => { f with width := 65535, height := 65535, palette := some [1, 2, 3], buffer := [7] }) 3

def demoBefore : List Use := demoUpdates [0, 13, 26, 27, 40, 43, 44, 46, 52, 53]

/-- After `FrameMetadata` of the first frame: a change, the pixels, another change. -/
def demoDuring : List Use := demoChange :: demoUpdates [64, 68] ++ [demoChange]

/-- The extensions after it and the second frame. -/
def demoAfter : List Use := demoUpdates [69, 71, 75, 77, 83, 84]

/-- The results of the calls around the changes (hypotheses of `change_is_kept` and `change_is_forgotten`). -/
theorem demo_metadata : ((uses demoFresh demoBefore).1.update (demoFile.drop 53) (.slice 3)).2 =
    .ok (11, .frameMetadata .pixels) := by decide +kernel

theorem demo_during : (uses ((uses demoFresh demoBefore).1.update (demoFile.drop 53) (.slice 3)).1 demoDuring).2 =
    [.ok (4, .bytesDecoded [0, 1, 2]), .ok (0, .bytesDecoded [0, 7])] := by decide +kernel

theorem demo_data_end :
    ((uses demoFresh (demoBefore ++ .update (demoFile.drop 53) (.slice 3) :: demoDuring)).1.update (demoFile.drop 68)
      (.slice 3)).2 = .ok (1, .dataEnd) := by decide +kernel

/-- The changed frame is there until `DataEnd`. -/
example : ((uses (uses demoFresh demoBefore).1 (.update (demoFile.drop 53) (.slice 3) :: demoDuring)).1.current.map
      fun f => (f.left, f.width, f.palette, f.buffer)) = some (0, 65535, some [1, 2, 3], [7]) := by
  rw [change_is_kept _ _ _ _ _ demo_metadata demoDuring (by
    rw [demo_during]
    intro r hr
    simp only [List.mem_cons, List.not_mem_nil, or_false] at hr
    rcases hr with rfl | rfl
    · exact ⟨4, _, rfl, by simp⟩
    · exact ⟨0, _, rfl, by simp⟩)]
  decide +kernel

/-- The second frame is as it was: the decoder has forgotten the palette of the program. -/
example : ((uses demoFresh ((demoBefore ++ .update (demoFile.drop 53) (.slice 3) :: demoDuring) ++
      .update (demoFile.drop 68) (.slice 3) :: Use.only (demoAfter ++ [demoChange]))).1.current.map
      fun f => (f.left, f.width, f.palette, f.buffer)) = some (0, 2, some [9, 9, 9, 0, 0, 0], []) := by
  rw [change_is_forgotten demoFresh _ _ _ _ 1 demo_data_end]
  decide +kernel

/-- The events, the same as without changes (`change_keeps_results`). -/
example : (uses demoFresh ((demoBefore ++ .update (demoFile.drop 53) (.slice 3) :: demoDuring) ++
      .update (demoFile.drop 68) (.slice 3) :: demoAfter)).2.drop 10 =
    [.ok (11, .frameMetadata .pixels), .ok (4, .bytesDecoded [0, 1, 2]), .ok (0, .bytesDecoded [0, 7]), .ok (1, .dataEnd),
     .ok (2, .blockStart .extension), .ok (4, .blockFinished 254), .ok (2, .blockStart .extension),
     .ok (6, .blockFinished 249), .ok (1, .blockStart .image), .ok (17, .frameMetadata .pixels)] := by
  rw [(change_keeps_results _ _).1]
  decide +kernel

end SD

end Gif
