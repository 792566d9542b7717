import Verif.Props.Ahead
import Verif.Props.DamageCases
/-!
Cases of the theorems of `Ahead.lean`.
-/

namespace Gif

open Spec

/-- The images of `sample` in one piece. -/
def arrived : Reader := { buf := [], src := [.data (sample.renderHead ++ renderBlks sample.blocks)] }

theorem arrived_reliable : arrived.Reliable := by
  intro ev h
  simp only [arrived, List.mem_singleton] at h
  exact ⟨_, h, by decide +kernel⟩

/-- A connection that fails, then comes back. -/
def laterReads : List ReadEv := [.err 5, .data [0x21], .data [], .data [0x3B]]

set_option maxRecDepth 100000 in
/-- A case of `prompt_raw` and `prompt_frames`: both images are returned before the error is met; it is met by the next call. -/
example : Decoder.rawFilm Ref.lzw .new { arrived with src := arrived.src ++ laterReads } 2 =
      sample.screenplay (sample.frames.map Spec.rawFrame) 0 ∧
    Decoder.sessionFrom Ref.lzw .new { arrived with src := arrived.src ++ laterReads } (List.replicate 2 .read) =
      sample.screenplay (sample.pictures .indexed [[0, 1, 1, 0, 1, 0], [1, 1]]) 0 ∧
    (Decoder.sessionFrom Ref.lzw .new { arrived with src := arrived.src ++ laterReads } (List.replicate 3 .read)).getLast? =
      some (.failed (.io (.reader 5))) :=
  ⟨(Decoder.prompt_raw Ref.lzwContract.safe sample_readable (by decide +kernel) (by decide +kernel) arrived_reliable
      (rest := []) (by decide +kernel) laterReads).1,
    (Decoder.prompt_frames Ref.lzwContract rfl rfl sample_readable (by decide +kernel) sample_shows arrived_reliable
      (rest := []) (by decide +kernel) laterReads).1,
    by decide +kernel⟩

set_option maxRecDepth 100000 in
/-- A case of `causal` and `causal_reads`: buffers of odd sizes, calls after errors, and the reads are left. -/
example : (∀ x ∈ Decoder.transcriptFrom Ref.lzw .new arrived [.info, .fill [7, 7, 7, 7], .into [9], .read, .take, .fill [1]],
      x.1.eof = false) ∧
    (Decoder.transcriptFrom Ref.lzw .new arrived [.info, .fill [7, 7, 7, 7], .into [9], .read, .take, .fill [1]]).map (fun x =>
      match x.1 with
      | .filled (.ok (b, m)) => (b, m)
      | .image (.err _) => ([], true)
      | _ => ([], false)) =
      [([], false), ([], false), ([0, 1, 1, 0], true), ([], true), ([], false), ([], false), ([1], false)] ∧
    (Decoder.readInfo Ref.lzw .new arrived).2 = .ok () := by
  refine ⟨?_, ?_, ?_⟩ <;> decide +kernel

set_option maxRecDepth 100000 in
/-- The second case of `causal` and of `session_causal` occurs, and the end of the input is not reported for nothing: with more
input the call gives something else. -/
example : Decoder.sessionFrom Ref.lzw .new arrived (List.replicate 3 .read) =
      (Decoder.sessionFrom Ref.lzw .new { arrived with src := arrived.src ++ [.data [0x3B]] } (List.replicate 3 .read)).take 3 ++
        [.failed (.io .unexpectedEof)] ∧
    (Decoder.transcriptFrom Ref.lzw .new arrived (List.replicate 3 .read))[3]?.map (fun x => x.1.eof) = some true ∧
    (Decoder.transcriptFrom Ref.lzw .new { arrived with src := arrived.src ++ [.data [0x3B]] } (List.replicate 3 .read))[3]?.map
      (fun x => x.1) = some (.frame (.ok none)) := by
  refine ⟨?_, ?_, ?_⟩ <;> decide +kernel

end Gif
