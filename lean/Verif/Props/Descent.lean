import Verif.Lemmas.DescentRun
import Verif.Props.Film
import Verif.Props.Chunks
import Verif.Ref.Lawful
/-!
# C59, C60: what any string of bytes is read as

`Spec.Descent.gif` says for every string of bytes, well-formed or not, what the calls return.
-/

namespace Gif

variable {C : Codec}

namespace Spec.Descent

theorem stranger_skip (o : DecodeOptions) (b : Bool) (n : Notes) (l : List UInt8) :
    stranger { o with skipFrameDecoding := b } n l = stranger o n l := by
  cases l <;> rfl

theorem lead_skip (o : DecodeOptions) (b : Bool) : ∀ (fuel : Nat) (first : Bool) (loops : Loops) (n : Notes) (l : List UInt8),
    lead { o with skipFrameDecoding := b } fuel first loops n l = lead o fuel first loops n l := by
  intro fuel
  induction fuel with
  | zero => intros; rfl
  | succ fuel ih =>
    intro first loops n l
    cases l with
    | nil => rfl
    | cons t l => simp only [lead, ih]

theorem seek_skip (o : DecodeOptions) (b : Bool) : ∀ (fuel : Nat) (n : Notes) (l : List UInt8),
    seek { o with skipFrameDecoding := b } fuel n l = seek o fuel n l := by
  intro fuel
  induction fuel with
  | zero => intros; rfl
  | succ fuel ih =>
    intro n l
    cases l with
    | nil => rfl
    | cons t l => simp only [seek, ih, stranger_skip]

theorem next_skip (o : DecodeOptions) (b : Bool) (g : File) (n : Notes) (l : List UInt8) :
    next { o with skipFrameDecoding := b } g n l = next o g n l := by
  unfold next
  rw [seek_skip]
  rfl

theorem advance_skip (o : DecodeOptions) (b : Bool) (g : File) (p : Pos) :
    advance { o with skipFrameDecoding := b } g p = advance o g p := by
  cases p <;> simp only [advance, next_skip]

theorem reading_skip (o : DecodeOptions) (b : Bool) (g : File) (loops : Loops) : ∀ (cs : List Call) (cur : Frame) (p : Pos),
    reading { o with skipFrameDecoding := b } g loops cs cur p = reading o g loops cs cur p := by
  intro cs
  induction cs with
  | nil => intros; rfl
  | cons c cs ih => intro cur p; simp only [reading, ih, advance_skip]

/-- The specification does not look at the option `skip_frame_decoding`. -/
theorem gif_skip (o : DecodeOptions) (b : Bool) (bytes : List UInt8) (cs : List Call) :
    gif { o with skipFrameDecoding := b } bytes cs = gif o bytes cs := by
  simp only [gif, lead_skip, reading_skip]

end Spec.Descent

namespace Decoder

open Spec (ExpandAll rawFrames)
open Spec.Descent (gif)

/-- C59: what `read_info`, `next_frame_info` and `read_next_frame` return without decoding of pixels, and what the accessors
show, for every string of bytes, in pieces of any size, and all calls. -/
theorem raw_reading (hS : C.Safe) (o : DecodeOptions) (hsk : o.skipFrameDecoding = true) {r : Reader} (hr : r.Reliable)
    (cs : List Call) : sessionFrom C o r cs = gif o r.bytes cs :=
  gif_run hS o hsk hr cs

theorem rawFilm_gif (hS : C.Safe) (o : DecodeOptions) {r : Reader} (hr : r.Reliable) (k : Nat) :
    rawFilm C o r k = gif o r.bytes (List.replicate k .read) := by
  unfold rawFilm
  rw [raw_reading hS _ rfl hr, Spec.Descent.gif_skip]

/-- C04 for all files: what all calls give is what the specification says of the file, with the compressed data of the frames
expanded. What is missing: files that end within a frame or have a frame of invalid data, a raw size above the memory limit,
and an empty frame; `frame_right` and `fill_buffer_right` say what is given of these. -/
theorem pixel_reading_partial (K : C.Contract) (o : DecodeOptions) (hs : o.skipFrameDecoding = false)
    (hce : o.checkForEndCode = false) {r : Reader} (hr : r.Reliable) (acts : List Act)
    (hfine : ∀ e, .failed e ∈ gif o r.bytes (List.replicate (Spec.seeks acts) .read) →
      e ≠ .io .unexpectedEof ∧ e ≠ .format .memoryLimit)
    (hreg : ∀ f ∈ rawFrames (gif o r.bytes (List.replicate (Spec.seeks acts) .read)), Spec.Regular K f)
    (hok : Spec.Gentle K acts (rawFrames (gif o r.bytes (List.replicate (Spec.seeks acts) .read)))) :
    ∃ outs, ExpandAll K (rawFrames (gif o r.bytes (List.replicate (Spec.seeks acts) .read))) outs ∧
      filmFrom C o r acts = screening o acts (gif o r.bytes (List.replicate (Spec.seeks acts) .read)) outs := by
  have h := rawFilm_gif (C := C) K.safe o hr (Spec.seeks acts)
  rw [← h] at hfine hreg hok ⊢
  obtain ⟨outs, hex, hf⟩ := filmFrom_screening K o hs hce hr acts _ (Nat.le_refl _)
    ⟨fun hm => (hfine _ hm).1 rfl, fun hm => (hfine _ hm).2 rfl, hreg⟩ hok
  exact ⟨outs, hex, follows_nil (hf hr (by simp))⟩

/-- `read_info` returns the same with and without decoding of pixels. -/
theorem readInfo_modes (K : C.Contract) (o : DecodeOptions) {r : Reader} (hr : r.Reliable) :
    (readInfo C o r).2 = (readInfo C { o with skipFrameDecoding := true } r).2 ∧
    ((readInfo C o r).2 = .ok () → (readInfo C o r).1.view = (readInfo C { o with skipFrameDecoding := true } r).1.view) := by
  by_cases hs : o.skipFrameDecoding = true
  · have : { o with skipFrameDecoding := true } = o := by cases o; simp_all
    rw [this]
    exact ⟨rfl, fun _ => rfl⟩
  · have hs : o.skipFrameDecoding = false := by simpa using hs
    have key := both_readInfo (C := C) K ⟨o.checkForEndCode, False⟩ o hs rfl o.checkForEndCode (more := []) hr hr (by simp) True
    rcases key with ⟨h, _⟩ | ⟨h1, h2⟩
    · exact absurd rfl h
    · refine ⟨h1, fun h => ?_⟩
      obtain ⟨k1, _, k3, _⟩ := h2 h
      rw [pair_view k1 k3]
      rfl

/-- C60: `read_info`, with any options. -/
theorem open_reading (K : C.Contract) (o : DecodeOptions) {r : Reader} (hr : r.Reliable) :
    sessionFrom C o r [] = gif o r.bytes [] := by
  obtain ⟨h1, h2⟩ := readInfo_modes K o hr
  rw [← Spec.Descent.gif_skip o true, ← raw_reading K.safe { o with skipFrameDecoding := true } rfl hr []]
  unfold sessionFrom
  have hret := (inv_readInfo (C := C) K.safe o r).2
  generalize readInfo C o r = x at *
  generalize readInfo C { o with skipFrameDecoding := true } r = y at *
  obtain ⟨d, a⟩ := x
  obtain ⟨d', b⟩ := y
  simp only at *
  subst h1
  cases a with
  | ok u => simp only [h2 rfl, session]
  | _ => rfl

/-- The signatures of the two versions of the format. -/
def isSignature (l : List UInt8) : Prop :=
  l = [0x47, 0x49, 0x46, 0x38, 0x37, 0x61] ∨ l = [0x47, 0x49, 0x46, 0x38, 0x39, 0x61]

theorem readInfo_session (K : C.Contract) (o : DecodeOptions) {r : Reader} (hr : r.Reliable) :
    ((readInfo C o r).2 = .ok () ∧ gif o r.bytes [] = [.opened (readInfo C o r).1.view]) ∨
    ∃ e, (readInfo C o r).2 = .err e ∧ gif o r.bytes [] = [.failed e] := by
  rw [← open_reading K o hr]
  have hret := (inv_readInfo (C := C) K.safe o r).2
  unfold sessionFrom
  generalize readInfo C o r = x at *
  obtain ⟨d, a⟩ := x
  cases a with
  | ok u => exact .inl ⟨rfl, rfl⟩
  | err e => exact .inr ⟨e, rfl, rfl⟩
  | panic => cases hret
  | diverge => cases hret

/-- C60: only files that begin with a signature and a logical screen descriptor are opened, and the size is the one that is
written there. -/
theorem only_gifs_open (K : C.Contract) (o : DecodeOptions) {r : Reader} (hr : r.Reliable) (h : (readInfo C o r).2 = .ok ()) :
    ∃ sig w0 w1 h0 h1 packed background aspect rest, isSignature sig ∧
      r.bytes = sig ++ w0 :: w1 :: h0 :: h1 :: packed :: background :: aspect :: rest ∧
      (readInfo C o r).1.width.toNat = w0.toNat + 256 * w1.toNat ∧
      (readInfo C o r).1.height.toNat = h0.toNat + 256 * h1.toNat ∧
      (readInfo C o r).1.globalPalette =
        (if packed.toNat / 128 = 1 then some (rest.take (3 * 2 ^ (packed.toNat % 8 + 1))) else none) ∧
      (packed.toNat / 128 = 1 → 3 * 2 ^ (packed.toNat % 8 + 1) ≤ rest.length) := by
  have hs := readInfo_session K o hr
  rw [h] at hs
  rcases hs with ⟨_, hg⟩ | ⟨e, he, _⟩
  rotate_left
  · cases he
  have e1 : (readInfo C o r).1.width = (readInfo C o r).1.view.width := rfl
  have e2 : (readInfo C o r).1.height = (readInfo C o r).1.view.height := rfl
  have e3 : (readInfo C o r).1.globalPalette = (readInfo C o r).1.view.globalPalette := rfl
  rw [e1, e2, e3]
  generalize (readInfo C o r).1.view = v at *
  generalize r.bytes = l at *
  unfold gif at hg
  split at hg
  · cases hg
  · rename_i g l1 hsc
    split at hg
    · cases hg
    · simp only [List.cons.injEq, Seen.opened.injEq] at hg
      obtain ⟨hv, _⟩ := hg
      unfold Spec.Descent.screen at hsc
      split at hsc
      · cases hsc
      · rename_i sig l2 hi
        split at hsc
        rotate_left
        · cases hsc
        · rename_i hsig
          unfold Spec.Descent.item at hi
          split at hi
          rotate_left
          · cases hi
          · simp only [Except.ok.injEq, Prod.mk.injEq] at hi
            obtain ⟨hi1, hi2⟩ := hi
            split at hsc
            rotate_left
            · cases hsc
            · rename_i w0 w1 h0 h1 packed background aspect l3
              refine ⟨sig, w0, w1, h0, h1, packed, background, aspect, l3, hsig, ?_, ?_⟩
              · rw [← hi1, ← hi2, List.take_append_drop]
              · have num : ∀ a b : UInt8, (Spec.Descent.number a b).toNat = a.toNat + 256 * b.toNat := by
                  intro a b
                  have := a.toNat_lt
                  have := b.toNat_lt
                  simp only [Spec.Descent.number, UInt16.toNat_ofNat']
                  omega
                unfold Spec.Descent.table at hsc
                by_cases hp : packed.toNat / 128 = 1
                · rw [if_pos hp] at hsc
                  unfold Spec.Descent.item at hsc
                  by_cases hlen : 3 * 2 ^ (packed.toNat % 8 + 1) ≤ l3.length
                  · rw [if_pos hlen] at hsc
                    simp only [Except.ok.injEq, Prod.mk.injEq] at hsc
                    obtain ⟨hsc, _⟩ := hsc
                    subst hsc
                    subst hv
                    simp only [if_pos hp]
                    exact ⟨num _ _, num _ _, rfl, fun _ => hlen⟩
                  · rw [if_neg hlen] at hsc
                    cases hsc
                · rw [if_neg hp] at hsc
                  simp only [Except.ok.injEq, Prod.mk.injEq] at hsc
                  obtain ⟨hsc, _⟩ := hsc
                  subst hsc
                  subst hv
                  simp only [if_neg hp]
                  exact ⟨num _ _, num _ _, rfl, fun h => absurd h hp⟩

/-- C60: anything else that is long enough is rejected as what it is. -/
theorem other_files_rejected (K : C.Contract) (o : DecodeOptions) {r : Reader} (hr : r.Reliable) (hlen : 6 ≤ r.bytes.length)
    (hsig : ¬ isSignature (r.bytes.take 6)) : (readInfo C o r).2 = .err (.format .malformedHeader) := by
  have hg : gif o r.bytes [] = [.failed (.format .malformedHeader)] := by
    unfold gif Spec.Descent.screen Spec.Descent.item
    rw [if_pos hlen]
    simp only
    unfold isSignature at hsig
    rw [if_neg hsig]
  rcases readInfo_session K o hr with ⟨_, h⟩ | ⟨e, he, h⟩
  · rw [hg] at h; cases h
  · rw [hg] at h
    simp only [List.cons.injEq, Seen.failed.injEq, and_true] at h
    rw [he, h]

/-- C60: a file that is too short for signature and screen descriptor is rejected, too. -/
theorem short_files_rejected (K : C.Contract) (o : DecodeOptions) {r : Reader} (hr : r.Reliable) (hlen : r.bytes.length < 13)
    (hsig : r.bytes.length < 6 ∨ isSignature (r.bytes.take 6)) : (readInfo C o r).2 = .err (.io .unexpectedEof) := by
  have hg : gif o r.bytes [] = [.failed (.io .unexpectedEof)] := by
    generalize r.bytes = l at *
    unfold gif Spec.Descent.screen Spec.Descent.item
    by_cases h6 : 6 ≤ l.length
    · rw [if_pos h6]
      simp only
      have hsig := hsig.resolve_left (by omega)
      unfold isSignature at hsig
      rw [if_pos hsig]
      have : (l.drop 6).length < 7 := by rw [List.length_drop]; omega
      generalize l.drop 6 = m at *
      split
      · rename_i e he
        split at he
        · simp only [List.length_cons] at this; omega
        · cases he; rfl
      · rename_i he
        split at he
        · simp only [List.length_cons] at this; omega
        · cases he
    · rw [if_neg h6]
      rfl
  rcases readInfo_session K o hr with ⟨_, h⟩ | ⟨e, he, h⟩
  · rw [hg] at h; cases h
  · rw [hg] at h
    simp only [List.cons.injEq, Seen.failed.injEq, and_true] at h
    rw [he, h]

/-- A reader that gives all bytes at once. -/
def atOnce (bytes : List UInt8) : Reader := { buf := bytes, src := [] }

theorem atOnce_reliable (bytes : List UInt8) : (atOnce bytes).Reliable := by
  intro ev h
  cases h

set_option maxRecDepth 100000 in
/-- The animation as the specification reads it, byte by byte: two frames, with the delay and the palette of the second. -/
example : animationBytewise.Reliable ∧
    (gif rawOptions animationBytewise.bytes [.info, .read, .read]).map
      (fun | .info b v => (b, v.currentFrame.width.toNat, none) | .frame (some f) _ => (true, f.delay.toNat, f.palette) | _ => (false, 0, none)) =
      [(false, 0, none), (true, 2, none), (true, 5, some [1, 2, 3, 4, 5, 6]), (false, 0, none)] :=
  ⟨animationBytewise_reliable, by decide +kernel⟩

set_option maxRecDepth 100000 in
/-- Damaged files: an extension of an unknown kind; a graphic control extension of the wrong length, after the first frame; an
unknown block; a code size of twelve; a file that ends in the second frame. -/
example :
    sessionFrom Ref.lzw rawOptions (atOnce (animation.bytes.set 20 2)) [.read] = [.failed (.format .unknownBlock)] ∧
    (gif rawOptions (animation.bytes.set 42 3) [.read, .read]).getLast? = some (.failed (.format .controlWrongLength)) ∧
    (gif rawOptions (animation.bytes.set 48 3) [.read, .read]).getLast? = some (.failed (.format .unknownBlock)) ∧
    (gif rawOptions (animation.bytes.set 64 12) [.read, .read]).getLast? = some (.failed (.format .invalidMinCodeSize)) ∧
    (gif rawOptions (animation.bytes.take 67) [.read, .read]).getLast? = some (.failed (.io .unexpectedEof)) :=
  ⟨by rw [raw_reading Ref.lzwContract.safe _ rfl (atOnce_reliable _)]; decide +kernel,
    by decide +kernel, by decide +kernel, by decide +kernel, by decide +kernel⟩

set_option maxRecDepth 100000 in
/-- The assumptions of `pixel_reading_partial` are met by the animation. -/
example : ∃ outs, ExpandAll Ref.lzwContract (rawFrames (gif .new animation.bytes (List.replicate 2 .read))) outs ∧
    filmFrom Ref.lzw .new animation [.read, .info, .fill 0] =
      screening .new [.read, .info, .fill 0] (gif .new animation.bytes (List.replicate 2 .read)) outs :=
  have h : (rawFrames (gif .new animation.bytes (List.replicate 2 .read))).all Ref.tame = true := by decide +kernel
  pixel_reading_partial Ref.lzwContract .new rfl rfl animation_reliable [.read, .info, .fill 0]
    (fun e he => by
      have : (gif .new animation.bytes (List.replicate 2 .read)).all (fun | .failed _ => false | _ => true) = true := by decide +kernel
      exact absurd (List.all_eq_true.mp this _ he) (by simp))
    (fun f hf => Ref.tame_regular (List.all_eq_true.mp h f hf))
    (.inl fun f hf => Ref.tame_valid (List.all_eq_true.mp h f hf))

set_option maxRecDepth 100000 in
/-- The assumptions of the theorems on signatures are met: an animation is opened, a PNG file and `GIF80a` are not, and neither
is a file that consists of a signature. -/
example : (readInfo Ref.lzw .new animation).2 = .ok () ∧
    (readInfo Ref.lzw .new (atOnce [0x89, 0x50, 0x4E, 0x47, 0x0D, 0x0A, 0x1A, 0x0A])).2 = .err (.format .malformedHeader) ∧
    (readInfo Ref.lzw .new (atOnce (animation.bytes.set 4 0x30))).2 = .err (.format .malformedHeader) ∧
    (readInfo Ref.lzw .new (atOnce (animation.bytes.take 6))).2 = .err (.io .unexpectedEof) :=
  ⟨by decide +kernel,
    other_files_rejected Ref.lzwContract .new (atOnce_reliable _) (by decide) (by unfold isSignature; decide),
    other_files_rejected Ref.lzwContract .new (atOnce_reliable _) (by decide) (by unfold isSignature; decide),
    short_files_rejected Ref.lzwContract .new (atOnce_reliable _) (by decide) (by unfold isSignature; decide)⟩

end Decoder

end Gif
