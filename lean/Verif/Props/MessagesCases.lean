import Verif.Props.Messages
import Verif.Props.ErrorCases
/-!
Cases for C107.
-/

namespace Gif.Messages.Cases

open Spec Decoder Gif.ErrorCases

/-- A reader whose errors are of kinds of their own. -/
def codes (n : Nat) : IoValue := ⟨.other n, "connection reset"⟩

theorem codes_distinct : Distinct "invalid code" codes where
  codes := by decide
  own c := by simp [codes]
  inj c c' h := by simpa [codes] using h

/-- Three errors in the chain of a format error, two in that of an I/O error, all with one text. -/
example : Chain "invalid code" codes (.decoding (.format .imageTruncated)) (.text "image truncated") ∧
    Chain "invalid code" codes (.decoding (.io (.reader 7))) (.io ⟨.other 7, "connection reset"⟩) :=
  ⟨.next rfl (.next rfl (.here _)), .next rfl (.here _)⟩

/-- Errors of two readers with the same text are told apart by their kind; those of one kind by their text. -/
example : told "invalid code" codes (.io (.reader 7)) ≠ told "invalid code" codes (.io (.reader 8)) ∧
    told "invalid code" codes (.io .invalidCode) ≠ told "invalid code" codes (.io .noEndCode) :=
  ⟨fun h => absurd (told_apart codes_distinct h) (by decide), fun h => absurd (told_apart codes_distinct h) (by decide)⟩

/-- Without the assumption on the reader they are not: a reader may say that the file ended. -/
example : told "invalid code" (fun _ => ⟨.unexpectedEof, "unexpected end of file"⟩) (.io (.reader 7)) =
    told "invalid code" (fun _ => ⟨.unexpectedEof, "unexpected end of file"⟩) (.io .unexpectedEof) := rfl

/-- The assumptions of `writing_told_apart` are met. -/
example : toldWriting codes (.io (.writer 1)) ≠ toldWriting codes (.io .writeZero) := fun h =>
  absurd (writing_told_apart (fun c e he => by
    simp only [List.mem_cons, List.not_mem_nil, or_false] at he
    rcases he with rfl | rfl | rfl | rfl <;> simp [codes, EncodingIoErr.value]) (fun c c' h => by simpa [codes] using h) h) (by decide)

/-- A PNG file is called what it is; an empty file and a cut one are not. -/
example : (∃ e, (readInfo Ref.lzw .new (atOnce [0x89, 0x50, 0x4E, 0x47, 0x0D, 0x0A, 0x1A, 0x0A])).2 = .err e ∧
      (ErrValue.decoding e).display "invalid code" codes = "malformed GIF header") ∧
    ¬ (∃ e, (readInfo Ref.lzw .new (atOnce [0x47, 0x49, 0x46, 0x38, 0x39, 0x61, 1, 0])).2 = .err e ∧
      (ErrValue.decoding e).display "invalid code" codes = "malformed GIF header") ∧
    ¬ (∃ e, (readInfo Ref.lzw .new (atOnce [])).2 = .err e ∧
      (ErrValue.decoding e).display "invalid code" codes = "malformed GIF header") := by
  refine ⟨(not_a_gif Ref.lzwContract .new (atOnce_reliable _)).mpr ⟨by decide, by unfold isSignature; decide⟩,
    fun h => ?_, fun h => ?_⟩
  · exact ((not_a_gif Ref.lzwContract .new (atOnce_reliable _)).mp h).2 (by unfold isSignature; decide)
  · exact absurd ((not_a_gif Ref.lzwContract .new (atOnce_reliable _)).mp h).1 (by decide)

/-- A reader that fails: its error is found in the chain. -/
example : ∃ c, ReadEv.err c ∈ [ReadEv.err 7] ∧ (⟨.other 7, "connection reset"⟩ : IoValue) = codes c :=
  (foreign_is_readers (lzw := "invalid code") (rd := codes) (o := .new) (r := ⟨[], [.err 7]⟩) Ref.lzw_safe (by decide)
    (e := .io (.reader 7)) (.next rfl (.here _))).1 (by decide +kernel)

end Gif.Messages.Cases
