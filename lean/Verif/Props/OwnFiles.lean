import Verif.Props.RoundTripApi
import Verif.Props.RoundTripCases
import Verif.Props.EndCode
import Verif.Props.Grammar
import Verif.Props.Strict
/-!
# C45 and C05: files that the encoder wrote, read with `check_lzw_end_code`

The encoder closes all image data with an end code. Nevertheless the option may reject such a file, depending on how its bytes
arrive (`own_file_rejected`). It does not if each frame is fetched until `fill_buffer` returns `false` (`own_files_accepted`),
and otherwise it does nothing worse (`own_files_checked`).
-/

namespace Gif

open Spec Encoder Decoder

variable {C : Codec}

/-- A file written by the encoder, read with the option: what is read is what was written, or the session ends early, with the
error of a missing end code. -/
theorem own_files_checked (K : C.Contract) {o : DecodeOptions} (hs : o.skipFrameDecoding = false)
    (hcol : o.colorOutput = .indexed) (np : Bool) {w h : UInt16} {pal : List UInt8}
    (hpal : pal.length / 3 ≤ 256) {fs : List Frame} (hne : fs ≠ []) (hf : ∀ f ∈ fs, Drawable pal f)
    (hi : ∀ f ∈ fs, f.interlaced = false) (h5 : o.memoryLimit.sizeOk 5 = true) (hal : ∀ f ∈ fs, Allowed C o w h f) :
    ∃ file, encodeFile C np w h pal (fs.map .frame) = (some file, fs.map fun _ => .ok ()) ∧
      ∀ (junk : List UInt8) (r : Reader) (k : Nat), r.Reliable → r.bytes = file ++ junk →
        sessionFrom C { o with checkForEndCode := true } r (List.replicate (fs.length + k) .read) =
            projection w h pal (.finite 0) (fs.map trimmed) k ∨
          ∃ n, n < fs.length + k + 1 ∧ sessionFrom C { o with checkForEndCode := true } r (List.replicate (fs.length + k) .read) =
            (projection w h pal (.finite 0) (fs.map trimmed) k).take n ++ [.failed (.io .noEndCode)] := by
  obtain ⟨file, henc, hdec⟩ := encode_decode_partial K (o := { o with checkForEndCode := false }) hs rfl hcol np (w := w) (h := h) hpal hne hf
    hi h5 hal
  refine ⟨file, henc, ?_⟩
  intro junk r k hr hb
  have hd := hdec junk r k hr hb
  have hinj : ∀ {a b : List Seen}, a.map Got.seen = b.map Got.seen → a = b := by
    intro a
    induction a with
    | nil => intro b h; cases b with
      | nil => rfl
      | cons _ _ => cases h
    | cons x a ih =>
      intro b h
      cases b with
      | nil => cases h
      | cons y b =>
        rw [List.map_cons, List.map_cons] at h
        injection h with h1 h2
        injection h1 with h1
        rw [h1, ih h2]
  rcases check_end_code_only_rejects C o r (List.replicate (fs.length + k) .read) with h1 | ⟨n, hn, h1⟩
  · left
    rw [filmFrom_reads, filmFrom_reads, hd] at h1
    exact hinj h1
  · right
    rw [filmFrom_reads, hd, List.length_map] at hn
    rw [filmFrom_reads, filmFrom_reads, hd, ← List.map_take] at h1
    refine ⟨n, ?_, hinj (by rw [h1, List.map_append]; rfl)⟩
    have : (projection w h pal (.finite 0) (fs.map trimmed) k).length = fs.length + k + 1 := by
      simp [projection]
    omega

/-- A file written by the encoder, read with the option by fetching each frame until `fill_buffer` has said that there is
nothing left: the option makes no difference, whatever the pieces the bytes come in. -/
theorem own_files_accepted (K : C.Contract) {o : DecodeOptions} (hs : o.skipFrameDecoding = false) (hce : o.checkForEndCode = false)
    (np : Bool) {w h : UInt16} {pal : List UInt8}
    (hpal : pal.length / 3 ≤ 256) {fs : List Frame} (hne : fs ≠ []) (hf : ∀ f ∈ fs, Drawable pal f)
    (h5 : o.memoryLimit.sizeOk 5 = true) (hal : ∀ f ∈ fs, Allowed C o w h f)
    (hld : ∀ f ∈ fs, o.memoryLimit.sizeOk (f.makeLzwPreEncoded C).buffer.length = true) (nss : List (List Nat)) (k : Nat)
    (hlen : nss.length = fs.length + k)
    (hsum : ∀ (j : Nat) (f : Frame) (ns : List Nat), fs[j]? = some f → nss[j]? = some ns → f.buffer.length < (ns.map (· + 1)).sum) :
    ∃ file, encodeFile C np w h pal (fs.map .frame) = (some file, fs.map fun _ => .ok ()) ∧
      ∀ (junk : List UInt8) (r1 r2 : Reader), r1.Reliable → r2.Reliable → r1.bytes = file ++ junk → r2.bytes = file ++ junk →
        filmFrom C { o with checkForEndCode := true } r1 (fetching nss) = filmFrom C o r2 (fetching nss) := by
  obtain ⟨file, henc⟩ := encode_drawable C np w h hpal hf
  refine ⟨file, henc, ?_⟩
  intro junk r1 r2 hr1 hr2 hb1 hb2
  have hsane : ∀ op ∈ fs.map EncOp.frame, op.Sane := by
    intro op hop
    obtain ⟨f, hfm, rfl⟩ := List.mem_map.mp hop
    exact (drawable_ok (hf f hfm)).2
  have hpl : ∀ op ∈ fs.map EncOp.frame, Plain o op := by
    intro op hop
    obtain ⟨f, hfm, rfl⟩ := List.mem_map.mp hop
    exact h5
  have hw := written_frames fs
  have had : ∀ op ∈ written (fs.map .frame) (fs.map fun _ => .ok ()), Admissible C o w h op := by
    rw [hw]
    intro op hop
    obtain ⟨f, hfm, rfl⟩ := List.mem_map.mp hop
    exact ⟨(hal f hfm).1, fun g hg => by cases hg⟩
  have hhd : ∀ op ∈ written (fs.map .frame) (fs.map fun _ => .ok ()), Held C o op := by
    rw [hw]
    intro op hop
    obtain ⟨f, hfm, rfl⟩ := List.mem_map.mp hop
    exact hld f hfm
  have hch := made_changed (C := C) np hpal hsane henc (by rw [hw]; simpa using hne)
  have hraw := roundtrip_raw K np hpal hsane hpl henc had hhd hch hr2 hb2 k
  rw [hw, repetitions_frames, List.length_map, ← hlen, List.map_map] at hraw
  have hframes : rawFrames (rawFilm C o r2 nss.length) = fs.map ((fun op => readRaw (compressed C op)) ∘ EncOp.frame) := by
    rw [hraw]
    have h1 : ∀ (v : Frame → View) (l : List Frame) (m : List Seen),
        rawFrames (l.map (fun f => .frame (some f) (v f)) ++ m) = l ++ rawFrames m := by
      intro v l m
      induction l with
      | nil => rfl
      | cons f l ih => simp only [List.map_cons, List.cons_append, rawFrames, ih]
    have h2 : ∀ (v : View) (n : Nat), rawFrames (List.replicate n (.frame none v)) = [] := by
      intro v n
      induction n with
      | zero => rfl
      | succ n ih => simp only [List.replicate_succ, rawFrames, ih]
    unfold projection
    simp only [List.cons_append, rawFrames]
    rw [h1, h2, List.append_nil]
  have hfails : ∀ e, Seen.failed e ∉ rawFilm C o r2 nss.length := by
    intro e he
    rw [hraw] at he
    simp [projection] at he
  refine end_codes_accepted_partial K o hs hce hr1 hr2 (hb1.trans hb2.symm) nss ⟨hfails _, hfails _, ?_⟩ ?_
  · rw [hframes]
    intro g hg
    obtain ⟨f, hfm, rfl⟩ := List.mem_map.mp hg
    refine ⟨(hf f hfm).1, ?_⟩
    intro m data px hb hy
    obtain ⟨m', data', hb', _, _, _, hy'⟩ := encode_ne K f
    have : m :: data = m' :: data' := hb.symm.trans hb'
    injection this with e1 e2
    subst e1 e2
    cases (K.det hy hy').2
  · intro j g hg ns hns
    rw [hframes, List.getElem?_map] at hg
    cases hj : fs[j]? with
    | none => rw [hj] at hg; cases hg
    | some f =>
      rw [hj] at hg
      cases hg
      obtain ⟨m', data', hb', _, _, _, hy'⟩ := encode_ne K f
      exact ⟨f.buffer.length, ⟨m', data', f.buffer, hb', rfl, hy'⟩, hsum j f ns hj hns⟩

/-- A frame of one pixel. -/
def speck : Frame := { Frame.default with width := 1, height := 1, buffer := [0] }

/-- The file that the encoder makes of it. -/
def speckFile : List UInt8 :=
  [71, 73, 70, 56, 57, 97, 8, 0, 1, 0, 128, 0, 0, 1, 2, 3, 4, 5, 6, 33, 249, 4, 4, 0, 0, 0, 0, 44, 0, 0, 0, 0, 1, 0, 1, 0, 0, 2, 2,
   68, 1, 0, 59]

set_option maxRecDepth 100000 in
/-- The option rejects a file that the encoder wrote, whose data have an end code, if its bytes arrive one by one. -/
theorem own_file_rejected :
    encodeFile Ref.lzw true 8 1 [1, 2, 3, 4, 5, 6] [.frame speck] = (some speckFile, [.ok ()]) ∧
    Decoder.sessionFrom Ref.lzw { DecodeOptions.new with checkForEndCode := true } (readerOn speckFile) [.read, .read] =
      projection 8 1 [1, 2, 3, 4, 5, 6] (.finite 0) [trimmed speck] 1 ∧
    Decoder.sessionFrom Ref.lzw { DecodeOptions.new with checkForEndCode := true } { buf := [], src := speckFile.map fun b => .data [b] }
        [.read, .read] =
      (projection 8 1 [1, 2, 3, 4, 5, 6] (.finite 0) [trimmed speck] 1).take 2 ++ [.failed (.io .noEndCode)] := by
  decide +kernel

/-! The hypotheses can be met: two frames, the second one with its own palette. -/

theorem demoFrames_drawable : ∀ f ∈ [demoFrame, demoFrame2], Drawable demoPalette f := by
  intro f hf
  simp only [List.mem_cons, List.not_mem_nil, or_false] at hf
  rcases hf with rfl | rfl
  · exact ⟨by decide, by decide, by simp [demoFrame2, demoFrame, demoPalette, Frame.default]⟩
  · exact ⟨by decide, by decide, by simp [demoFrame2, demoFrame, demoPalette, Frame.default]⟩

theorem demoFrames_allowed : ∀ f ∈ [demoFrame, demoFrame2], Allowed Ref.lzw .new 4 4 f := by
  intro f hf
  simp only [List.mem_cons, List.not_mem_nil, or_false] at hf
  rcases hf with rfl | rfl
  · exact ⟨by decide, _, rfl⟩
  · exact ⟨by decide, _, rfl⟩

example := own_files_checked Ref.lzwContract (o := .new) rfl rfl true (w := 4) (h := 4) (pal := demoPalette) (by decide)
  (fs := [demoFrame, demoFrame2]) (by decide) demoFrames_drawable (by decide) (by decide) demoFrames_allowed

/-- Each frame is fetched in pieces of three, one and two pixels; the second time until there is nothing left. -/
example := own_files_accepted Ref.lzwContract (o := .new) rfl rfl true (w := 4) (h := 4) (pal := demoPalette) (by decide)
  (fs := [demoFrame, demoFrame2]) (by decide) demoFrames_drawable (by decide) demoFrames_allowed (by decide +kernel) [[2, 0, 1], [2, 0, 1], []] 1 rfl
  (by
    intro j f ns h1 h2
    match j with
    | 0 => cases h1; cases h2; decide
    | 1 => cases h1; cases h2; decide
    | j + 2 => simp at h1)

end Gif
