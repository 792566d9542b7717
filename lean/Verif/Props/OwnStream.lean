import Verif.Props.Stream
import Verif.Props.RoundTripApi
import Verif.Spec.Jobs
/-!
# C67: files of the encoder in one stream
-/

namespace Gif

open Spec Encoder

variable {C : Codec}

/-- What is required of a file, as in C05. -/
structure Spec.Job.Fine (C : Codec) (o : DecodeOptions) (j : Job) : Prop where
  palette : j.palette.length / 3 ≤ 256
  frames : j.frames ≠ []
  drawable : ∀ f ∈ j.frames, Drawable j.palette f
  plain : ∀ f ∈ j.frames, f.interlaced = false
  allowed : ∀ f ∈ j.frames, Allowed C o j.width j.height f

/-- The file. -/
def Spec.Job.made (C : Codec) (j : Job) : File := madeFile C j.width j.height j.palette (j.frames.map .frame)

theorem drawable_results {pal : List UInt8} {fs : List Frame} (hf : ∀ f ∈ fs, Drawable pal f) :
    (fs.map EncOp.frame).map (opResult (3 ≤ pal.length)) = fs.map fun _ => .ok () := by
  rw [List.map_map]
  exact List.map_congr_left fun f hfm => (drawable_ok (hf f hfm)).1

theorem drawable_sane {pal : List UInt8} {fs : List Frame} (hf : ∀ f ∈ fs, Drawable pal f) : ∀ op ∈ fs.map EncOp.frame, op.Sane := by
  intro op hop
  obtain ⟨f, hfm, rfl⟩ := List.mem_map.mp hop
  exact (drawable_ok (hf f hfm)).2

theorem writeJob_made (np : Bool) {s : Sink} (hw : s.Working) {j : Job} (hp : j.palette.length / 3 ≤ 256)
    (hd : ∀ f ∈ j.frames, Drawable j.palette f) :
    ∃ s', writeJob C np s j = some s' ∧ s'.written = s.written ++ (j.made C).render ∧ s'.Working := by
  obtain ⟨w, h, pal, fs⟩ := j
  simp only at hp hd
  have d := does_writeGlobalPalette s w h pal hp
  obtain ⟨s1, a1, a2, a3, a4⟩ := d.working (s := s) rfl hw
  have hpal := d.palette
  unfold writeJob
  have hnew : Encoder.new np s w h pal = (((fresh s w h false).writeGlobalPalette pal).1, .ok ()) := by
    have hx : (fresh s w h false).writeGlobalPalette pal = (((fresh s w h false).writeGlobalPalette pal).1, .ok ()) := by
      rw [← a4]
    unfold fresh at hx ⊢
    unfold Encoder.new
    rw [hx]
  simp only [hnew]
  generalize ((fresh s w h false).writeGlobalPalette pal).1 = e at *
  obtain ⟨s2, b1, b2, b3, b4⟩ := runOps_working C (fs.map .frame) e s1 a1 a3 (drawable_sane hd)
  have hg : e.globalPalette = decide (3 ≤ pal.length) := hpal
  rw [hg, drawable_results hd] at b4
  rw [hg] at b3
  generalize runOps C e (fs.map .frame) = x at *
  obtain ⟨e2, rs⟩ := x
  simp only at *
  subst b4
  rw [if_pos (by simp)]
  obtain ⟨s3, c1, c2, c3, c4⟩ := (Encoder.does_writeTrailer e2).working b1 b2
  rcases hx : e2.writeTrailer with ⟨e3, out⟩
  rw [hx] at c1 c4
  simp only at c1 c4
  subst c4
  refine ⟨s3, by simp [Encoder.intoInner, hx, c1, Encoder.drop], ?_, c3⟩
  rw [c2, b3, a2, headerChunks_flatten w h pal hp ((fs.map EncOp.frame).flatMap (opBlks C (3 ≤ pal.length)))]
  simp only [Job.made, madeFile, File.render, List.append_assoc]
  rfl

theorem writeJobs_made (np : Bool) : ∀ (js : List Job) {s : Sink}, s.Working →
    (∀ j ∈ js, j.palette.length / 3 ≤ 256 ∧ ∀ f ∈ j.frames, Drawable j.palette f) →
    ∃ s', writeJobs C np s js = some s' ∧ s'.written = s.written ++ js.flatMap (fun j => (j.made C).render) ∧ s'.Working := by
  intro js
  induction js with
  | nil => intro s hw _; exact ⟨s, rfl, by simp, hw⟩
  | cons j js ih =>
    intro s hw hj
    obtain ⟨h1, h2⟩ := hj j List.mem_cons_self
    obtain ⟨s1, a1, a2, a3⟩ := writeJob_made (C := C) np hw h1 h2
    obtain ⟨s2, b1, b2, b3⟩ := ih a3 (fun x hx => hj x (List.mem_cons_of_mem _ hx))
    refine ⟨s2, by rw [writeJobs, a1]; exact b1, ?_, b3⟩
    rw [b2, a2, List.flatMap_cons, List.append_assoc]

theorem Spec.Job.Fine.shows (K : C.Contract) {o : DecodeOptions} (h5 : o.memoryLimit.sizeOk 5 = true) {j : Job} (hj : j.Fine C o) :
    (j.made C).Readable o ∧ (j.made C).ShowAll K o (j.made C).frames (j.frames.map (·.buffer)) := by
  obtain ⟨w, h, pal, fs⟩ := j
  obtain ⟨hpal, hne, hf, hi, hal⟩ := hj
  simp only at *
  have hw : written (fs.map EncOp.frame) ((fs.map EncOp.frame).map (opResult (3 ≤ pal.length))) = fs.map .frame := by
    rw [drawable_results hf, written_frames]
  have had : ∀ op ∈ fs.map EncOp.frame, Admissible C o w h op := by
    intro op hop
    obtain ⟨f, hfm, rfl⟩ := List.mem_map.mp hop
    exact ⟨(hal f hfm).1, fun g hg => by cases hg⟩
  have hfr := made_frames (C := C) w h pal (fs.map .frame)
  rw [hw] at hfr
  have hc : ∀ l : List Frame, (∀ f ∈ l, f ∈ fs) → Contents K o (l.map .frame) (l.map (·.buffer)) := by
    intro l
    induction l with
    | nil => intro _; exact trivial
    | cons f l ih =>
      intro hl
      have hm := hl f List.mem_cons_self
      exact ⟨⟨(hf f hm).1, (hal f hm).2, rfl⟩, ih (fun g hg => hl g (List.mem_cons_of_mem _ hg))⟩
  constructor
  · refine made_readable K hpal (fun op hop => ?_) (by rw [hw]; exact had) ?_
    · obtain ⟨f, hfm, rfl⟩ := List.mem_map.mp hop
      exact h5
    · intro hn
      have : (madeFile C w h pal (fs.map .frame)).frames = [] := by
        unfold File.frames
        rw [hn]
        rfl
      rw [hfr] at this
      simp at this
      exact hne this
  · show (madeFile C w h pal (fs.map .frame)).ShowAll K o (madeFile C w h pal (fs.map .frame)).frames _
    rw [hfr]
    refine contents_show K (g := decide (3 ≤ pal.length)) _ _ (fun op hop => ?_) (hc fs fun _ h => h)
    refine ⟨?_, ?_, had op hop⟩
    · obtain ⟨f, hfm, rfl⟩ := List.mem_map.mp hop
      rfl
    · obtain ⟨f, hfm, rfl⟩ := List.mem_map.mp hop
      exact (drawable_ok (hf f hfm)).1

theorem Spec.Job.Fine.pictures (K : C.Contract) {o : DecodeOptions} {j : Job} (hj : j.Fine C o) :
    (j.made C).pictures .indexed (j.frames.map (·.buffer)) = j.frames.map trimmed := by
  obtain ⟨w, h, pal, fs⟩ := j
  obtain ⟨hpal, -, hf, hi, hal⟩ := hj
  simp only at *
  have hw : written (fs.map EncOp.frame) ((fs.map EncOp.frame).map (opResult (3 ≤ pal.length))) = fs.map .frame := by
    rw [drawable_results hf, written_frames]
  have hfr := made_frames (C := C) w h pal (fs.map .frame)
  rw [hw] at hfr
  have htab : (madeFile C w h pal (fs.map .frame)).table = some (padded pal) := by
    show some (padTable pal) = _
    rw [padTable_eq pal hpal]
  show (madeFile C w h pal (fs.map .frame)).pictures .indexed _ = _
  unfold File.pictures
  rw [hfr, htab]
  clear hfr hw htab
  induction fs with
  | nil => rfl
  | cons f fs ih =>
    obtain ⟨m2, m3⟩ := drawable_ok (hf f List.mem_cons_self)
    have m4 : Admissible C o w h (.frame f) := by
      exact ⟨(hal f List.mem_cons_self).1, fun g hg => by cases hg⟩
    simp only [List.map_cons, List.zipWith_cons_cons]
    rw [ih (fun g hg => hf g (List.mem_cons_of_mem _ hg)) (fun g hg => hi g (List.mem_cons_of_mem _ hg))
      (fun g hg => hal g (List.mem_cons_of_mem _ hg)),
      rawFrame_frameOf (paletteError_of_ok (op := .frame f) rfl m2) (buffer_ne K rfl m4)]
    congr 1
    exact readBack_indexed C pal f (hi f List.mem_cons_self) (hf f List.mem_cons_self).2.1

/-- **C67** for files of the encoder, in part (as C05, from which the conditions on the frames come): animations written one after
the other with one writer, behind what the writer holds already, are read back one after the other from one stream, with what
follows them left to the reader. -/
theorem own_stream_partial (K : C.Contract) {o : DecodeOptions} (hs : o.skipFrameDecoding = false) (hce : o.checkForEndCode = false)
    (hcol : o.colorOutput = .indexed) (h5 : o.memoryLimit.sizeOk 5 = true) (np : Bool) {js : List Job} (hj : ∀ j ∈ js, j.Fine C o)
    {s : Sink} (hw : s.Working) :
    ∃ s' bytes, writeJobs C np s js = some s' ∧ s'.written = s.written ++ bytes ∧
      ∀ (junk : List UInt8) (r : Reader), r.Reliable → r.bytes = bytes ++ junk →
        ∃ r', Decoder.Stream C o r (js.map fun j => (screen j.width j.height j.palette (.finite 0) Frame.default, j.frames.map trimmed)) r' ∧
          r'.bytes = junk := by
  obtain ⟨s', h1, h2, -⟩ := writeJobs_made (C := C) np js hw (fun j h => ⟨(hj j h).palette, (hj j h).drawable⟩)
  refine ⟨s', _, h1, h2, fun junk r hr hb => ?_⟩
  obtain ⟨r', i1, i2, -⟩ := Decoder.stream_frames_partial K hs hce (js.map fun j => (j.made C, j.frames.map (·.buffer)))
    (by
      intro x hx
      obtain ⟨j, hjm, rfl⟩ := List.mem_map.mp hx
      exact (hj j hjm).shows K h5)
    hr (junk := junk) (by rw [hb, List.flatMap_map])
  refine ⟨r', ?_, i2⟩
  rw [List.map_map, hcol] at i1
  have : js.map (fun j => (screen j.width j.height j.palette (.finite 0) Frame.default, j.frames.map trimmed)) =
      js.map ((fun x : File × List (List UInt8) => (x.1.view Frame.default, x.1.pictures .indexed x.2)) ∘
        fun j => (j.made C, j.frames.map (·.buffer))) := by
    refine List.map_congr_left fun j h => ?_
    simp only [Function.comp_apply]
    rw [(hj j h).pictures K]
    congr 1
    have := made_view (C := C) j.width j.height j.palette (hj j h).palette (j.frames.map .frame) Frame.default
    rw [drawable_results (hj j h).drawable, repetitions_frames] at this
    exact this.symm
  rw [this]
  exact i1

end Gif
