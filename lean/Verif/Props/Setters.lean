import Verif.Model.Setters
import Verif.Props.Strict
/-!
# C79: options are independent, and the last call decides
-/

namespace Gif

namespace OptCall

/-- The colour output a call asks for. -/
def color? : OptCall → Option ColorOutput
  | .colorOutput c => some c
  | _ => none

/-- The memory limit a call asks for. -/
def limit? : OptCall → Option MemoryLimit
  | .memoryLimit m => some m
  | _ => none

/-- The argument of a call of `check_frame_consistency`. -/
def consistency? : OptCall → Option Bool
  | .frameConsistency b => some b
  | _ => none

/-- The argument of a call of `skip_frame_decoding`. -/
def skip? : OptCall → Option Bool
  | .skipFrames b => some b
  | _ => none

/-- The argument of a call of `check_lzw_end_code`. -/
def endCode? : OptCall → Option Bool
  | .endCode b => some b
  | _ => none

/-- The argument of a call of `allow_unknown_blocks`. -/
def unknown? : OptCall → Option Bool
  | .unknownBlocks b => some b
  | _ => none

/-- For each of the options, the last call that sets it is the same in both programs (or there is none in both). -/
def Agree (l m : List OptCall) : Prop :=
  (l.filterMap color?).getLast? = (m.filterMap color?).getLast? ∧
  (l.filterMap limit?).getLast? = (m.filterMap limit?).getLast? ∧
  (l.filterMap consistency?).getLast? = (m.filterMap consistency?).getLast? ∧
  (l.filterMap skip?).getLast? = (m.filterMap skip?).getLast? ∧
  (l.filterMap endCode?).getLast? = (m.filterMap endCode?).getLast? ∧
  (l.filterMap unknown?).getLast? = (m.filterMap unknown?).getLast?

end OptCall

namespace DecodeOptions

open OptCall

theorem configured_snoc (l : List OptCall) (c : OptCall) : configured (l ++ [c]) = (configured l).call c := by
  simp [configured, List.foldl_append]

/-- A list is empty or has a last element: induction from the end. -/
theorem snoc_induction {α : Type} {P : List α → Prop} (h0 : P []) (h1 : ∀ l a, P l → P (l ++ [a])) : ∀ l, P l := by
  intro l
  have : ∀ n, ∀ l : List α, l.length = n → P l := by
    intro n
    induction n with
    | zero => intro l hl; rw [List.length_eq_zero_iff.mp hl]; exact h0
    | succ n ih =>
      intro l hl
      have hne : l ≠ [] := by rintro rfl; simp at hl
      rw [← List.dropLast_concat_getLast hne]
      exact h1 _ _ (ih _ (by simp [hl]))
  exact this _ l rfl

/-- **C79** After any calls in any order, each option has the value of the last call that sets it, and without such a call its
documented default: indexed output, 50 MB, no checks of frames and end codes, frames are decoded, unknown blocks are errors. -/
theorem configured_last (l : List OptCall) :
    (configured l).colorOutput = (l.filterMap color?).getLast?.getD .indexed ∧
    (configured l).memoryLimit = (l.filterMap limit?).getLast?.getD (.bytes 50000000 (by decide)) ∧
    (configured l).checkFrameConsistency = (l.filterMap consistency?).getLast?.getD false ∧
    (configured l).skipFrameDecoding = (l.filterMap skip?).getLast?.getD false ∧
    (configured l).checkForEndCode = (l.filterMap endCode?).getLast?.getD false ∧
    (configured l).allowUnknownBlocks = (l.filterMap unknown?).getLast?.getD false := by
  induction l using snoc_induction with
  | h0 => exact ⟨rfl, rfl, rfl, rfl, rfl, rfl⟩
  | h1 l c ih =>
    obtain ⟨h1, h2, h3, h4, h5, h6⟩ := ih
    rw [configured_snoc]
    cases c <;>
      simp [call, setColorOutput, setMemoryLimit, setCheckFrameConsistency, setSkipFrameDecoding, setCheckLzwEndCode,
        setAllowUnknownBlocks, color?, limit?, consistency?, skip?, endCode?, unknown?, List.filterMap_append, h1, h2, h3, h4,
        h5, h6]

/-- Calls that agree in the last value of each option configure the same. -/
theorem configured_agree {l m : List OptCall} (h : Agree l m) : configured l = configured m := by
  obtain ⟨h1, h2, h3, h4, h5, h6⟩ := h
  obtain ⟨a1, a2, a3, a4, a5, a6⟩ := configured_last l
  obtain ⟨b1, b2, b3, b4, b5, b6⟩ := configured_last m
  generalize configured l = x at *
  generalize configured m = y at *
  obtain ⟨x1, x2, x3, x4, x5, x6⟩ := x
  obtain ⟨y1, y2, y3, y4, y5, y6⟩ := y
  simp only at a1 a2 a3 a4 a5 a6 b1 b2 b3 b4 b5 b6
  simp only [a1, a2, a3, a4, a5, a6, b1, b2, b3, b4, b5, b6, h1, h2, h3, h4, h5, h6]

end DecodeOptions

open DecodeOptions OptCall

namespace Decoder

/-- **C79** The order of the calls and the calls that are overridden do not matter: every session of a decoder is the same. -/
theorem session_last_calls (C : Codec) {l m : List OptCall} (h : Agree l m) (r : Reader) (acts : List Act) :
    filmFrom C (configured l) r acts = filmFrom C (configured m) r acts := by
  rw [configured_agree h]

/-- **C79** `Decoder::new` is a decoder for which no option was set, and one for which each option was set to its default. -/
theorem new_is_default (C : Codec) (r : Reader) :
    Decoder.new C r = readInfo C (configured []) r ∧
    Decoder.new C r = readInfo C (configured [.unknownBlocks false, .endCode false, .skipFrames false, .frameConsistency false,
      .memoryLimit (.bytes 50000000 (by decide)), .colorOutput .indexed]) r :=
  ⟨rfl, rfl⟩

/-- **C79** Asking for the check of frames in addition changes nothing but that a session may end early with that error. -/
theorem then_check_frames (C : Codec) (l : List OptCall) (r : Reader) (acts : List Act) :
    filmFrom C (configured (l ++ [.frameConsistency true])) r acts = filmFrom C (configured l) r acts ∨
    ∃ k, k < (filmFrom C (configured l) r acts).length ∧
      filmFrom C (configured (l ++ [.frameConsistency true])) r acts =
        (filmFrom C (configured l) r acts).take k ++ [.seen (.failed (.format .frameOutOfBounds))] := by
  rcases strict_options_only_reject C (configured (l ++ [.frameConsistency true])) (configured l)
    (by rw [configured_snoc]; rfl) (by rw [configured_snoc]; rfl) (by rw [configured_snoc]; exact fun _ h => h)
    (by rw [configured_snoc]; exact id) (by rw [configured_snoc]; exact fun _ => rfl) (by rw [configured_snoc]; exact id) r acts
    with h | ⟨k, e, h1, h2, h3⟩
  · exact .inl h
  · refine .inr ⟨k, h2, ?_⟩
    rw [h3]
    rw [configured_snoc] at h1
    rcases h1 with h1 | h1 | h1 | h1
    · exact absurd rfl h1.1
    · exact absurd (h1.1.symm.trans h1.2.1) (by simp)
    · rw [h1.2.2]
    · exact absurd (h1.1.symm.trans h1.2.1) (by simp)

/-- **C79** Asking for the check of end codes in addition changes nothing but that a session may end early with that error. -/
theorem then_check_end_code (C : Codec) (l : List OptCall) (r : Reader) (acts : List Act) :
    filmFrom C (configured (l ++ [.endCode true])) r acts = filmFrom C (configured l) r acts ∨
    ∃ k, k < (filmFrom C (configured l) r acts).length ∧
      filmFrom C (configured (l ++ [.endCode true])) r acts =
        (filmFrom C (configured l) r acts).take k ++ [.seen (.failed (.io .noEndCode))] := by
  rcases strict_options_only_reject C (configured (l ++ [.endCode true])) (configured l)
    (by rw [configured_snoc]; rfl) (by rw [configured_snoc]; rfl) (by rw [configured_snoc]; exact fun _ h => h)
    (by rw [configured_snoc]; exact fun _ => rfl) (by rw [configured_snoc]; exact id) (by rw [configured_snoc]; exact id) r acts
    with h | ⟨k, e, h1, h2, h3⟩
  · exact .inl h
  · refine .inr ⟨k, h2, ?_⟩
    rw [h3]
    rw [configured_snoc] at h1
    rcases h1 with h1 | h1 | h1 | h1
    · exact absurd rfl h1.1
    · rw [h1.2.2]
    · exact absurd (h1.1.symm.trans h1.2.1) (by simp)
    · exact absurd (h1.1.symm.trans h1.2.1) (by simp)

/-- **C79** Allowing unknown blocks in addition changes nothing but that a session may go on where it ended with that error. -/
theorem then_allow_unknown_blocks (C : Codec) (l : List OptCall) (r : Reader) (acts : List Act) :
    filmFrom C (configured l) r acts = filmFrom C (configured (l ++ [.unknownBlocks true])) r acts ∨
    ∃ k, k < (filmFrom C (configured (l ++ [.unknownBlocks true])) r acts).length ∧
      filmFrom C (configured l) r acts =
        (filmFrom C (configured (l ++ [.unknownBlocks true])) r acts).take k ++ [.seen (.failed (.format .unknownBlock))] := by
  rcases strict_options_only_reject C (configured l) (configured (l ++ [.unknownBlocks true]))
    (by rw [configured_snoc]; rfl) (by rw [configured_snoc]; rfl) (by rw [configured_snoc]; exact fun _ h => h)
    (by rw [configured_snoc]; exact id) (by rw [configured_snoc]; exact id) (by rw [configured_snoc]; exact fun _ => rfl) r acts
    with h | ⟨k, e, h1, h2, h3⟩
  · exact .inl h
  · refine .inr ⟨k, h2, ?_⟩
    rw [h3]
    rw [configured_snoc] at h1
    rcases h1 with h1 | h1 | h1 | h1
    · exact absurd rfl h1.1
    · exact absurd (h1.1.symm.trans h1.2.1) (by simp)
    · exact absurd (h1.1.symm.trans h1.2.1) (by simp)
    · rw [h1.2.2]

/-- The calls of a program that changes its mind, and of one that does not. -/
def hesitant : List OptCall :=
  [.endCode true, .memoryLimit .unlimited, .unknownBlocks true, .colorOutput .rgba, .endCode false, .colorOutput .indexed]

/-- The hypothesis of `session_last_calls` holds for different lists of calls. -/
example : Agree hesitant [.colorOutput .indexed, .endCode false, .unknownBlocks true, .memoryLimit .unlimited] := by
  refine ⟨rfl, rfl, rfl, rfl, rfl, rfl⟩

set_option maxRecDepth 100000 in
/-- Both cases of the theorems on additional calls occur. -/
example : filmFrom Ref.lzw (configured (hesitant ++ [.frameConsistency true])) oddities [.read] =
      filmFrom Ref.lzw (configured hesitant) oddities [.read] ∧
    filmFrom Ref.lzw (configured (hesitant ++ [.frameConsistency true])) oddities [.read, .read] ≠
      filmFrom Ref.lzw (configured hesitant) oddities [.read, .read] ∧
    filmFrom Ref.lzw (configured (hesitant ++ [.endCode true])) oddities [.read, .info] ≠
      filmFrom Ref.lzw (configured hesitant) oddities [.read, .info] ∧
    filmFrom Ref.lzw (configured [.memoryLimit .unlimited]) oddities [.read, .read, .read] ≠
      filmFrom Ref.lzw (configured ([.memoryLimit .unlimited] ++ [.unknownBlocks true])) oddities [.read, .read, .read] := by
  decide +kernel

end Decoder

/-- **C79** A `FrameDecoder` heeds the colour output, the memory limit and the check of end codes, and no other option. -/
theorem FrameDecoder.new_last_calls (C : Codec) {l m : List OptCall}
    (h1 : (l.filterMap color?).getLast? = (m.filterMap color?).getLast?)
    (h2 : (l.filterMap limit?).getLast? = (m.filterMap limit?).getLast?)
    (h3 : (l.filterMap endCode?).getLast? = (m.filterMap endCode?).getLast?) :
    FrameDecoder.new C (configured l) = FrameDecoder.new C (configured m) := by
  obtain ⟨a1, a2, _, _, a5, _⟩ := configured_last l
  obtain ⟨b1, b2, _, _, b5, _⟩ := configured_last m
  unfold FrameDecoder.new
  rw [a1, a2, a5, b1, b2, b5, h1, h2, h3]

/-- The hypotheses hold for lists of calls that differ in the options which are not heeded. -/
example : FrameDecoder.new Ref.lzw (configured [.skipFrames true, .colorOutput .rgba, .frameConsistency true]) =
    FrameDecoder.new Ref.lzw (configured [.unknownBlocks true, .colorOutput .rgba]) :=
  FrameDecoder.new_last_calls Ref.lzw rfl rfl rfl

end Gif
