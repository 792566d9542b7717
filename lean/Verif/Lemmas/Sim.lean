import Verif.Lemmas.Like
import Verif.Lemmas.FillSrc
import Verif.Spec.Film
import Verif.Props.Chunks
/-!
A decoder that expands frames follows one that copies their compressed data.
-/

namespace Gif

open Spec (blocks bare Pixels)

theorem reset_yields {C : Codec} (K : C.Contract) {r : LzwReader C} (hf : K.Fit r) {m : UInt8} (hm : LzwReader.codeSizeOk m = true) :
    K.Fit (r.reset m).1 ∧ (r.reset m).1.checkForEndCode = r.checkForEndCode ∧ SD.Sound K (r.reset m).1 ∧
    ∃ st, (r.reset m).1.decoder = some st ∧ ∀ data px e, K.Yields (C.new m) data px e → K.Yields st data px e := by
  have hnew : ∀ st, some (C.new m) = some st → ∃ out e, K.Yields st [] out e ∧ e ≠ .invalid := by
    intro st h; cases h; exact ⟨[], .starved, K.nil m, by simp⟩
  unfold LzwReader.reset
  rw [if_pos hm]
  split
  · rename_i d hd
    split
    · exact ⟨fun st h => by cases h; exact K.size_new m, rfl, hnew, _, rfl, fun _ _ _ h => h⟩
    · rename_i hmm
      have hmm' : r.minCodeSize = m := by simpa using hmm
      have hsz := (hf d hd).trans hmm'
      have hy : ∀ data px e, K.Yields (C.new m) data px e → K.Yields (C.reset d) data px e := by
        intro data px e h
        exact K.reset (by rw [hsz]; exact h)
      refine ⟨fun st h => ?_, rfl, fun st h => ?_, _, rfl, hy⟩
      · cases h; rw [K.size_reset]; exact hf d hd
      · cases h; exact ⟨[], .starved, hy _ _ _ (K.nil m), by simp⟩
  · exact ⟨fun st h => by cases h; exact K.size_new m, rfl, hnew, _, rfl, fun _ _ _ h => h⟩

/-- `check_lzw_end_code`, and whether it is certain that it does not make a difference. -/
structure Check where
  ck : Bool
  sure : Prop

/-- It may be found that the end code is missing. -/
def Check.May (M : Check) : Prop := M.ck = true ∧ ¬ M.sure

/-- Without the option. -/
def Check.off : Check := ⟨false, False⟩

theorem Check.off_may : ¬ Check.off.May := fun h => by cases h.1

namespace RD

variable {C : Codec}

/-- The decoders are at the same place, `l` is to be read by the first and `more` is only to be read by the second. -/
structure Ready (K : C.Contract) (M : Check) (more : List UInt8) (s : SD C) (l : List UInt8) (d0 : RD C) : Prop where
  wf : s.WF
  out : SD.outside s.state = true
  skip : s.skipFrameDecoding = false
  check : s.lzw.checkForEndCode = M.ck
  fit : K.Fit s.lzw
  sd : d0.sd = SD.raw d0.sd.lzw s
  bytes : d0.reader.bytes = l ++ more

/-- The first decoder will be at the place of the second, after the rest of its image data. With `check_lzw_end_code` it will
be there only if `fin`. -/
def Ahead (K : C.Contract) (M : Check) (fin : Prop) (more : List UInt8) (d d0 : RD C) : Prop :=
  (more ≠ [] ∧ ∃ s1, SD.Eval false d.sd [] d.reader.bytes (.more s1 [])) ∨
  (M.May ∧ SD.Eval false d.sd [] d.reader.bytes (.err (.io .noEndCode))) ∨
  ((M.ck = true → fin) ∧ ∃ s l, Ready K M more s l d0 ∧ ((s = d.sd ∧ l = d.reader.bytes) ∨
    SD.Eval false d.sd [] d.reader.bytes (.event s [] .dataEnd l)))

/-- The first decoder is in the image data, `px` are the pixels to come, the second is behind the data. -/
structure Live (K : C.Contract) (M : Check) (e : LzwEnd) (more : List UInt8) (d0 : RD C) (d : RD C) (px : List UInt8) : Prop where
  inv : d.Inv
  rel : d.reader.Reliable
  eof : d.atEof = false
  check : d.sd.lzw.checkForEndCode = M.ck
  fit : K.Fit d.sd.lzw
  skip : d.sd.skipFrameDecoding = false
  feed : ∃ q tail, SD.Feed K q d.sd d.reader.bytes px e tail ∧
    (∀ l, tail = some l → d0.reader.bytes = l ++ more) ∧ (tail = none → more ≠ [])
  sd : d0.sd = SD.raw d0.sd.lzw { d.sd with state := .blockEnd, current := none }

theorem kept_skip {K : C.Contract} {s s' : SD C} (h : SD.Kept K s s') : s'.skipFrameDecoding = s.skipFrameDecoding := by
  rw [h.eq]

theorem kept_raw {K : C.Contract} {z : LzwReader C} {s s' : SD C} (h : SD.Kept K s s') :
    SD.raw z { s' with state := .blockEnd, current := none } = SD.raw z { s with state := .blockEnd, current := none } := by
  rw [h.eq]; rfl

/-- After the end of the image data. -/
theorem ready_of_kept {K : C.Contract} {M : Check} {more l : List UInt8} {s s1 : SD C} {d0 : RD C} (h : SD.Kept K s s1)
    (hw : SD.WF ({ s1 with state := .blockEnd, current := none } : SD C))
    (hskip : s.skipFrameDecoding = false) (hcheck : s.lzw.checkForEndCode = M.ck) (hfit : K.Fit s.lzw)
    (hsd : d0.sd = SD.raw d0.sd.lzw { s with state := .blockEnd, current := none })
    (hb : d0.reader.bytes = l ++ more) : Ready K M more { s1 with state := .blockEnd, current := none } l d0 :=
  ⟨hw, rfl, (kept_skip h).trans hskip, h.check.trans hcheck, h.fit hfit, by rw [kept_raw h]; exact hsd, hb⟩

theorem live_ahead {K : C.Contract} {M : Check} {e : LzwEnd} {more px : List UInt8} {d d0 : RD C} (h : Live K M e more d0 d px)
    (hk : SD.Sound K d.sd.lzw ∨ e ≠ .invalid) (hs : M.ck = true → ¬ M.sure) : Ahead K M (e = .ended) more d d0 := by
  obtain ⟨q, tail, hf, h1, h2⟩ := h.feed
  have := SD.feed_skip K hf h.inv.wf hk
  cases tail with
  | none => exact .inl ⟨h2 rfl, this⟩
  | some l =>
    unfold SD.SkipRes at this
    rw [h.check] at this
    rcases this with ⟨g0, s1, g1, g2⟩ | ⟨g1, g2⟩
    · exact .inr (.inr ⟨g0, _, l,
        ready_of_kept g1 (SD.eval_wf K.safe g2 rfl h.inv.wf) h.skip h.check h.fit h.sd (h1 _ rfl), .inr g2⟩)
    · exact .inr (.inl ⟨⟨g1, hs g1⟩, g2⟩)

/-- The first decoder at the place of the second, no longer in image data. -/
def Behind (K : C.Contract) (M : Check) (more : List UInt8) (d0 d : RD C) : Prop :=
  d.Inv ∧ d.reader.Reliable ∧ d.atEof = false ∧ Ready K M more d.sd d.reader.bytes d0

theorem live_src (K : C.Contract) (M : Check) (e : LzwEnd) (more : List UInt8) (d0 : RD C) :
    Converter.Src (decodeNextBytes (C := C)) (Live K M e more d0)
      (fun d => Behind K M more d0 d ∧ e ≠ .invalid ∧ (M.ck = true → e = .ended))
      (fun x => (x = .io .invalidCode ∧ e = .invalid) ∨ (x = .io .unexpectedEof ∧ more ≠ []) ∨
        (x = .io .noEndCode ∧ M.ck = true ∧ e = .starved)) := by
  intro d px cap h hcap
  obtain ⟨q, tail, hf, h1, h2⟩ := h.feed
  have hp := decodeNext_pull K.safe (.slice cap) d h.inv
  have hfe := feed_pull K hp h.inv (Reader.reliable_clean h.rel) h.eof hcap hf
  have hinv := pull_inv K.safe hp h.inv
  have hrel := pull_reliable hp h.rel
  have hno := pull_no_error hp h.rel
  unfold decodeNextBytes
  generalize hx : d.decodeNext (.slice cap) = x at *
  obtain ⟨d', r⟩ := x
  simp only at *
  cases r with
  | ok o =>
    cases o with
    | none => exact hfe.elim
    | some ev =>
      cases ev with
      | bytesDecoded p =>
        obtain ⟨g0, g1, g2, g3, out', g4, g5⟩ := hfe
        refine .inl ⟨d', p, out', rfl, g2, g3, g4, ?_⟩
        exact ⟨hinv, hrel, g0, g1.check.trans h.check, g1.fit h.fit, (kept_skip g1).trans h.skip,
          ⟨q, tail, g5, h1, h2⟩, by rw [kept_raw g1]; exact h.sd⟩
      | dataEnd =>
        obtain ⟨g0, g1, g2, g3, g4, s1, g5, g6⟩ := hfe
        refine .inr (.inl ⟨d', rfl, g1, ⟨hinv, hrel, g0, ?_⟩, g2, by rw [← h.check]; exact g3⟩)
        rw [g6]
        exact ready_of_kept g5 (by rw [← g6]; exact hinv.wf) h.skip h.check h.fit h.sd (h1 _ g4)
      | _ => exact hfe.elim
  | err x =>
    refine .inr (.inr ⟨d', x, rfl, ?_⟩)
    rcases hfe with g | ⟨g0, g, g', _⟩ | ⟨g1, g2⟩ | ⟨c, g⟩
    · exact .inl g
    · rw [h.check] at g; exact .inr (.inr ⟨g0, g, g'⟩)
    · exact .inr (.inl ⟨g1, h2 g2⟩)
    · exact absurd (by rw [g]) (hno c)
  | panic => exact hfe.elim
  | diverge => exact hfe.elim

end RD

namespace Decoder

variable {C : Codec}

/-- What the two decoders share. -/
structure Pair (d d0 : Decoder C) : Prop where
  conv : d.conv = d0.conv
  bg : d.bgColor = d0.bgColor
  rep : d.repetition = d0.repetition
  width : d.rd.sd.width = d0.rd.sd.width
  height : d.rd.sd.height = d0.rd.sd.height
  rel : d.rd.reader.Reliable
  rel0 : d0.rd.reader.Reliable
  inv : d.Inv
  inv0 : d0.Inv
  skip0 : d0.rd.sd.skipFrameDecoding = true

theorem pair_view {d d0 : Decoder C} (h : Pair d d0) {f : Frame} (hf : d.currentFrame = f) :
    d.view = { d0.view with currentFrame := f } := by
  simp only [view, Decoder.width, Decoder.height, globalPalette, h.conv, h.bg, h.rep, h.width, h.height, hf]

/-- Image data that were begun end in these bytes, whatever comes before them. -/
def Complete (more : List UInt8) : Prop := ∀ left l, left ≤ 255 → (blocks left (l ++ more)).2 ≠ none

/-- `next_frame_info` on the first decoder and a search for a raw frame on the second, which may fail for lack of memory if
`lim`. -/
def InfoResL (lim : Prop) (K : C.Contract) (M : Check) (fin : Prop) (more : List UInt8) (d d' d0' : Decoder C) (out : Outcome Bool)
    (out0 : Outcome (Option Frame)) : Prop :=
  (more ≠ [] ∧ out = .ioErr .unexpectedEof) ∨ (M.May ∧ out = .ioErr .noEndCode) ∨
  (M.ck = true → fin) ∧
  match out0 with
  | .ok (some f) => out = .ok true ∧ d'.dataType = .pixels ∧ Pair d' d0' ∧ d'.currentFrame = bare f ∧
      d'.rd.atEof = false ∧ d0'.rd.atEof = false ∧
      ∀ m data px e, f.buffer = m :: data → K.Yields (C.new m) data px e →
        RD.Live K M e more d0'.rd d'.rd px ∧ SD.Sound K d'.rd.sd.lzw
  | .ok none => out = .ok false ∧ Pair d' d0' ∧ d'.currentFrame = d.currentFrame ∧ d'.rd.atEof = true ∧ d0'.rd.atEof = true ∧
      d0'.rd.reader.bytes = d'.rd.reader.bytes ++ more
  | .err e => (e = .io .unexpectedEof ∧ ¬ Complete more) ∨ (e = .format .memoryLimit ∧ lim) ∨
      out = .err e
  | _ => False

/-- `next_frame_info` on the first decoder and `read_next_frame` on the second. -/
def InfoRes (K : C.Contract) (M : Check) (fin : Prop) (more : List UInt8) (d d' d0' : Decoder C) (out : Outcome Bool)
    (out0 : Outcome (Option Frame)) : Prop :=
  InfoResL (d0'.rd.sd.memoryLimit ≠ .unlimited) K M fin more d d' d0' out out0

/-- `read_next_frame` in raw mode, when `next_frame_info` did not find a frame. -/
theorem readNextFrame_other {d d' : Decoder C} {out : Outcome Bool} (h : d.nextFrameInfo = (d', out)) :
    (out = .ok false → d.readNextFrame = (d', .ok none)) ∧ (∀ e, out = .err e → d.readNextFrame = (d', .err e)) := by
  unfold readNextFrame
  rw [h]
  constructor
  · rintro rfl; rfl
  · rintro e rfl; rfl

/-- `read_next_frame` in raw mode, when `next_frame_info` found a frame. -/
theorem readNextFrame_raw {d d' : Decoder C} {m : UInt8} (h : d.nextFrameInfo = (d', .ok true)) (ht : d'.dataType = .lzw m)
    (hc : d'.currentFrame.ownedCap = none) :
    d.readNextFrame = match copyLzw m d'.rd with
      | (rd, vec, .ok ()) => ({ d' with rd := rd, currentFrame := { d'.currentFrame with buffer := vec, ownedCap := some vec.length } },
          .ok (some { d'.currentFrame with buffer := vec, ownedCap := some vec.length }))
      | (rd, _, .err e) => ({ d' with rd := rd }, .err e)
      | (rd, _, .panic) => ({ d' with rd := rd }, .panic)
      | (rd, _, .diverge) => ({ d' with rd := rd }, .diverge) := by
  unfold readNextFrame
  rw [h]
  simp only [ht, hc]
  rfl

/-- A run of the first decoder, as a run from the place of the second. -/
theorem ahead_upto {K : C.Contract} {M : Check} {fin : Prop} {more : List UInt8} {d d0 : RD C}
    (h : RD.Ahead K M fin more d d0) {evs : List Decoded} {r : SD.Res C}
    (hu : SD.Upto isMetadata d.sd d.reader.bytes evs r) :
    ((M.ck = true → fin) ∧ ∃ s l evs', RD.Ready K M more s l d0 ∧ SD.Upto isMetadata s l evs' r) ∨
    (more ≠ [] ∧ ∃ s a, r = .more s a) ∨ (M.May ∧ r = .err (.io .noEndCode)) := by
  rcases h with ⟨h1, s1, h2⟩ | ⟨h1, h2⟩ | ⟨h0, s, l, h1, ⟨rfl, rfl⟩ | h2⟩
  · refine .inr (.inl ⟨h1, ?_⟩)
    cases hu with
    | step h => cases SD.eval_det h h2
    | stop h => exact ⟨_, _, SD.eval_det h h2⟩
  · refine .inr (.inr ⟨h1, ?_⟩)
    cases hu with
    | step h => cases SD.eval_det h h2
    | stop h => exact SD.eval_det h h2
  · exact .inl ⟨h0, _, _, _, h1, hu⟩
  · cases hu with
    | step h _ _ hr => cases SD.eval_det h h2; exact .inl ⟨h0, _, _, _, h1, hr⟩
    | stop h hr =>
      cases SD.eval_det h h2
      rcases hr _ _ _ _ rfl with h | h
      · cases h
      · cases h

/-- What the second decoder runs to. -/
def ReadyRes (K : C.Contract) (M : Check) (more : List UInt8) (d0 : RD C) (r : SD.Res C) : Prop :=
  match r with
  | .more _ _ => more ≠ [] ∨ ∃ evs s0 a, SD.Upto isMetadata d0.sd d0.reader.bytes evs (.more s0 a)
  | .err e => ∃ evs, SD.Upto isMetadata d0.sd d0.reader.bytes evs (.err e)
  | .event s' a ev rest => ∃ evs,
      (ev = .blockStart .trailer ∧
        SD.Upto isMetadata d0.sd d0.reader.bytes evs (.event (SD.raw d0.sd.lzw s') a ev (rest ++ more))) ∨
      (ev = .frameMetadata .pixels ∧ ∃ lz m left, K.Fit lz ∧ lz.checkForEndCode = M.ck ∧
        LzwReader.codeSizeOk m = true ∧ left ≤ 255 ∧ s'.state = .decodeSubBlock left ∧
        s'.lzw = (lz.reset m).1 ∧ s'.skipFrameDecoding = false ∧
        SD.Upto isMetadata d0.sd d0.reader.bytes evs
          (.event { SD.raw d0.sd.lzw s' with state := .copySubBlock left } a (.frameMetadata (.lzw m)) (rest ++ more)))

theorem raw_wf {z : LzwReader C} {s : SD C} (h : s.WF) (ho : SD.outside s.state = true) : (SD.raw z s).WF := by
  refine ⟨h.ibuf, h.ext, h.buf, ?_⟩
  have := h.st
  have e : (SD.raw z s).state = s.state := rfl
  unfold SD.stOk at this ⊢
  rw [e]
  cases hs : s.state <;> rw [hs] at this ho <;> first | exact this | cases ho

theorem ready_res (K : C.Contract) {M : Check} {more l : List UInt8} {s : SD C} {d0 : RD C} (h : RD.Ready K M more s l d0)
    {evs : List Decoded} {r : SD.Res C} (hu : SD.Upto isMetadata s l evs r) : ReadyRes K M more d0 r := by
  have hl := SD.upto_like K.safe d0.sd.lzw hu h.wf h.out h.skip
  have key : ∀ r0, SD.Upto isMetadata (SD.raw d0.sd.lzw s) l evs r0 → ((∀ s acc, r0 ≠ .more s acc) ∨ more = []) →
      SD.Upto isMetadata d0.sd d0.reader.bytes evs (r0.app more) := by
    intro r0 h0 hr
    rw [h.bytes, h.sd]
    rcases hr with hr | rfl
    · exact SD.upto_append K.safe h0 (raw_wf h.wf h.out) more hr
    · rw [List.append_nil, SD.app_nil]; exact h0
  cases r with
  | more s1 a =>
    by_cases hm : more = []
    · obtain ⟨s0, h0⟩ := hl
      exact .inr ⟨evs, _, _, key _ h0 (.inr hm)⟩
    · exact .inl hm
  | err e => exact ⟨evs, key _ hl (.inl (by simp))⟩
  | event s' a ev rest =>
    refine ⟨evs, ?_⟩
    rcases hl with ⟨h1, _, _, _, h5⟩ | ⟨h1, s0, t0, ⟨m, left, k1, k2, k3, k4, k5, k6, k7⟩, h3⟩
    · exact .inl ⟨h1, key _ h5 (.inl (by simp))⟩
    · subst k2
      subst k6
      exact .inr ⟨h1, s.lzw, m, left, h.fit, h.check, k1, k7, k3, k4, k5, key _ h3 (.inl (by simp))⟩

/-- Both decoders found the same frame. -/
structure Found (K : C.Contract) (M : Check) (more : List UInt8) (d' d0' : Decoder C) : Prop where
  pair : Pair d' d0'
  eof : d'.rd.atEof = false
  eof0 : d0'.rd.atEof = false
  typ : d'.dataType = .pixels
  cur : d'.currentFrame = d0'.currentFrame
  buf : d'.currentFrame.buffer = [] ∧ d'.currentFrame.ownedCap = none
  bytes : d0'.rd.reader.bytes = d'.rd.reader.bytes ++ more
  skip : d'.rd.sd.skipFrameDecoding = false
  enter : ∃ lz m left, K.Fit lz ∧ lz.checkForEndCode = M.ck ∧ LzwReader.codeSizeOk m = true ∧
    d0'.dataType = .lzw m ∧ d'.rd.sd.state = .decodeSubBlock left ∧ d'.rd.sd.lzw = (lz.reset m).1 ∧
    d0'.rd.sd = { SD.raw d0'.rd.sd.lzw d'.rd.sd with state := .copySubBlock left } ∧ left ≤ 255

/-- A loop ends as the run over the bytes does. -/
def LoopRes (d' : RD C) (o : Outcome (Option Decoded)) (r : SD.Res C) : Prop :=
  match r with
  | .more _ _ => o = .ioErr .unexpectedEof
  | .err e => o = .err e
  | .event s _ ev rest => d'.sd = s ∧ d'.reader.bytes = rest ∧
      ((ev = .blockStart .trailer ∧ o = .ok none ∧ d'.atEof = true) ∨
        (ev ≠ .blockStart .trailer ∧ o = .ok (some ev) ∧ d'.atEof = false))

theorem uptoRes_det {P : Decoded → Bool} (hP : P (.blockStart .trailer) = false) {d d' : RD C} {evs evs' : List Decoded}
    {o : Outcome (Option Decoded)} {r : SD.Res C} (h : RD.UptoRes P d d' evs o) (hn : ∀ c, o ≠ .err (.io (.reader c)))
    (hu : SD.Upto P d.sd d.reader.bytes evs' r) : evs = evs' ∧ LoopRes d' o r := by
  cases o with
  | ok x =>
    cases x with
    | some ev =>
      obtain ⟨p1, p2, p3⟩ := h
      obtain ⟨rfl, rfl⟩ := SD.upto_det p3 hu
      exact ⟨rfl, rfl, rfl, .inr ⟨(by rintro rfl; rw [hP] at p1; cases p1), rfl, p2⟩⟩
    | none =>
      obtain ⟨p1, p2⟩ := h
      obtain ⟨rfl, rfl⟩ := SD.upto_det p2 hu
      exact ⟨rfl, rfl, rfl, .inl ⟨rfl, rfl, p1⟩⟩
  | err e =>
    rcases h.2 with ⟨c, hc, _⟩ | ⟨q1, q2, q3⟩ | p
    · exact absurd (by rw [hc]) (hn c)
    · obtain ⟨rfl, rfl⟩ := SD.upto_det q3 hu
      exact ⟨rfl, by rw [q1]; rfl⟩
    · obtain ⟨rfl, rfl⟩ := SD.upto_det p hu
      exact ⟨rfl, rfl⟩
  | panic => exact h.elim
  | diverge => exact h.elim

/-- `next_frame_info` on both decoders. -/
def BothRes (K : C.Contract) (M : Check) (fin : Prop) (more : List UInt8) (d d' d0' : Decoder C) (out out0 : Outcome Bool) : Prop :=
  (more ≠ [] ∧ out = .ioErr .unexpectedEof) ∨ (M.May ∧ out = .ioErr .noEndCode) ∨
  (M.ck = true → fin) ∧
  match out with
  | .ok true => out0 = .ok true ∧ Found K M more d' d0'
  | .ok false => out0 = .ok false ∧ Pair d' d0' ∧ d'.currentFrame = d.currentFrame ∧ d'.rd.atEof = true ∧ d0'.rd.atEof = true ∧
      d0'.rd.reader.bytes = d'.rd.reader.bytes ++ more
  | .err e => out0 = .err e
  | _ => False

theorem ahead_both (K : C.Contract) {M : Check} {fin : Prop} {more : List UInt8} {d d0 : Decoder C} (hp : Pair d d0)
    (ha : RD.Ahead K M fin more d.rd d0.rd) (he : d.rd.atEof = false) (he0 : d0.rd.atEof = false) :
    BothRes K M fin more d d.nextFrameInfo.1 d0.nextFrameInfo.1 d.nextFrameInfo.2 d0.nextFrameInfo.2 := by
  have hS := K.safe
  have r1 := nextFrameInfo_run hS d hp.inv.rd
  have r2 := nextFrameInfo_run hS d0 hp.inv0.rd
  obtain ⟨l1, n1⟩ := frameRun_reliable r1 hp.rel
  obtain ⟨l2, n2⟩ := frameRun_reliable r2 hp.rel0
  have i1 := (inv_nextFrameInfo hS d hp.inv).1
  have i2 := (inv_nextFrameInfo hS d0 hp.inv0).1
  obtain ⟨_, _, ho1, hc1, hb1, hr1, _⟩ := frameRun_spec hS r1 hp.inv.rd
  obtain ⟨_, _, ho2, hc2, hb2, hr2, _⟩ := frameRun_spec hS r2 hp.inv0.rd
  obtain ⟨evs1, o1, rd1, u1, c1, e1⟩ := frameRun_upto hS r1 hp.inv.rd (Reader.reliable_clean hp.rel) he
  obtain ⟨evs2, o2, rd2, u2, c2, e2⟩ := frameRun_upto hS r2 hp.inv0.rd (Reader.reliable_clean hp.rel0) he0
  have m1 : ∀ c, o1 ≠ .err (.io (.reader c)) := by
    intro c ho
    subst ho
    exact n1 c (congrArg Prod.snd e1)
  have m2 : ∀ c, o2 ≠ .err (.io (.reader c)) := by
    intro c ho
    subst ho
    exact n2 c (congrArg Prod.snd e2)
  have hg : d.globalPalette = d0.globalPalette := by unfold globalPalette; rw [hp.conv]
  have hk0 : d0.nextFrameInfo.1.rd.sd.skipFrameDecoding = true := by
    simp only [SD.opts, Prod.mk.injEq] at ho2
    rw [ho2.1]; exact hp.skip0
  have hu : ∃ r, SD.Upto isMetadata d.rd.sd d.rd.reader.bytes evs1 r := by
    cases o1 with
    | ok x => cases x with
      | some ev => exact ⟨_, u1.2.2⟩
      | none => exact ⟨_, u1.2⟩
    | err e =>
      rcases u1.2 with ⟨c, hc, _⟩ | ⟨_, _, q3⟩ | p
      · exact absurd (by rw [hc]) (m1 c)
      · exact ⟨_, q3⟩
      · exact ⟨_, p⟩
    | panic => exact u1.elim
    | diverge => exact u1.elim
  obtain ⟨r, hu⟩ := hu
  have k1 := (uptoRes_det rfl u1 m1 hu).2
  have hready : ((M.ck = true → fin) ∧ ReadyRes K M more d0.rd r) ∨
      (more ≠ [] ∧ ∃ s a, r = .more s a) ∨ (M.May ∧ r = .err (.io .noEndCode)) := by
    rcases ahead_upto ha hu with ⟨h0, s, l, evs', h1, h2⟩ | h
    · exact .inl ⟨h0, ready_res K h1 h2⟩
    · exact .inr h
  have hpair : (d.nextFrameInfo.1.rd.sd.width = d0.nextFrameInfo.1.rd.sd.width) →
      (d.nextFrameInfo.1.rd.sd.height = d0.nextFrameInfo.1.rd.sd.height) → Pair d.nextFrameInfo.1 d0.nextFrameInfo.1 :=
    fun hw hh => ⟨hc1.trans (hp.conv.trans hc2.symm), hb1.trans (hp.bg.trans hb2.symm), hr1.trans (hp.rep.trans hr2.symm),
      hw, hh, l1, l2, i1, i2, hk0⟩
  have hbuf := (frameRun_spec hS r1 hp.inv.rd).2.2.2.2.2.2.1
  generalize d.nextFrameInfo = x1 at *
  generalize d0.nextFrameInfo = x2 at *
  obtain ⟨d', out⟩ := x1
  obtain ⟨d0', out0⟩ := x2
  simp only at *
  cases r with
  | more s a =>
    replace k1 : o1 = .ioErr .unexpectedEof := k1
    subst k1
    simp only [infoOf, Prod.mk.injEq] at e1
    rcases hready with ⟨hfin, hm | ⟨evs, s0, a0, h0⟩⟩ | ⟨hm, _⟩ | ⟨_, h⟩
    · exact .inl ⟨hm, e1.2⟩
    · have k2 : o2 = .ioErr .unexpectedEof := (uptoRes_det rfl u2 m2 h0).2
      subst k2
      simp only [infoOf, Prod.mk.injEq] at e2
      refine .inr (.inr ⟨hfin, ?_⟩)
      rw [e1.2, e2.2]
    · exact .inl ⟨hm, e1.2⟩
    · cases h
  | err e =>
    replace k1 : o1 = .err e := k1
    subst k1
    simp only [infoOf, Prod.mk.injEq] at e1
    rcases hready with ⟨hfin, evs, h0⟩ | ⟨_, _, _, h⟩ | ⟨hmay, h⟩
    · have k2 : o2 = .err e := (uptoRes_det rfl u2 m2 h0).2
      subst k2
      simp only [infoOf, Prod.mk.injEq] at e2
      refine .inr (.inr ⟨hfin, ?_⟩)
      rw [e1.2, e2.2]
    · cases h
    · cases h
      exact .inr (.inl ⟨hmay, e1.2⟩)
  | event s' a ev rest =>
    obtain ⟨ks, kb, kc⟩ := k1
    rcases hready with ⟨hfin, evs, ⟨hev, h0⟩ | ⟨hev, lz, m, left, g1, g2, g3, gl, g4, g5, g6, h0⟩⟩ | ⟨_, _, _, h⟩ | ⟨_, h⟩
    · obtain ⟨js, jb, jc⟩ := (uptoRes_det rfl u2 m2 h0).2
      rcases kc with ⟨_, rfl, q1⟩ | ⟨h, _⟩
      · rcases jc with ⟨_, rfl, q2⟩ | ⟨h, _⟩
        · simp only [infoOf, Prod.mk.injEq] at e1 e2
          obtain ⟨rfl, rfl⟩ := e1
          obtain ⟨rfl, rfl⟩ := e2
          refine .inr (.inr ⟨hfin, ?_⟩)
          exact ⟨rfl, hpair (by simp only; rw [ks, js]; rfl) (by simp only; rw [ks, js]; rfl), rfl, q1, q2, by simp only; rw [kb, jb]⟩
        · exact absurd hev h
      · exact absurd hev h
    · subst hev
      obtain ⟨js, jb, jc⟩ := (uptoRes_det rfl u2 m2 h0).2
      rcases kc with ⟨h, _⟩ | ⟨_, rfl, q1⟩
      · cases h
      rcases jc with ⟨h, _⟩ | ⟨_, rfl, q2⟩
      · cases h
      have hcur : rd2.sd.current = rd1.sd.current := by rw [ks, js]; rfl
      simp only [infoOf] at e1 e2
      rw [hcur] at e2
      cases hc : rd1.sd.current with
      | none =>
        simp only [hc, Prod.mk.injEq] at e1
        have := (frameRun_spec hS r1 hp.inv.rd).2.1
        rw [e1.2] at this; cases this
      | some f =>
        simp only [hc, Prod.mk.injEq] at e1 e2
        obtain ⟨rfl, rfl⟩ := e1
        obtain ⟨rfl, rfl⟩ := e2
        refine .inr (.inr ⟨hfin, ?_⟩)
        rw [hg] at hbuf ⊢
        by_cases hn : f.palette.isNone = true ∧ d0.globalPalette.isNone = true
        · rw [if_pos hn]
        · rw [if_neg hn] at hbuf ⊢
          obtain ⟨b1, b2, _⟩ := hbuf rfl
          refine ⟨rfl, hpair (by simp only [withFrame]; rw [ks, js]; rfl) (by simp only [withFrame]; rw [ks, js]; rfl),
            q1, q2, rfl, rfl, ⟨b1, b2⟩, ?_, ?_, lz, m, left, g1, g2, g3, rfl, ?_, ?_, ?_⟩
          · simp only [withFrame]; rw [kb, jb]
          · simp only [withFrame]; rw [ks]; exact g6
          · simp only [withFrame]; rw [ks]; exact g4
          · simp only [withFrame]; rw [ks]; exact g5
          · exact ⟨by simp only [withFrame]; rw [ks, js]; rfl, gl⟩
    · cases h
    · cases h

/-- With another memory limit. -/
def _root_.Gif.RD.capTo (lim : MemoryLimit) (rd : RD C) : RD C := { rd with sd := { rd.sd with memoryLimit := lim } }

/-- The raw data of a frame both have found, copied with the memory limit `lim`. -/
def CopyBoth (K : C.Contract) (M : Check) (more : List UInt8) (m : UInt8) (lim : MemoryLimit) (d' d0' : Decoder C) (rd : RD C)
    (vec : List UInt8) (out : Outcome Unit) : Prop :=
  match out with
  | .ok () => rd.atEof = false ∧ (rd.capTo d0'.rd.sd.memoryLimit).sd = { d0'.rd.sd with state := .blockEnd, current := none } ∧
      ∃ data, vec = m :: data ∧ ∀ px e, K.Yields (C.new m) data px e →
      RD.Live K M e more (rd.capTo d0'.rd.sd.memoryLimit) d'.rd px ∧ SD.Sound K d'.rd.sd.lzw
  | .err e => (e = .io .unexpectedEof ∧ ¬ Complete more) ∨ (e = .format .memoryLimit ∧ lim ≠ .unlimited)
  | _ => False

theorem found_copy (K : C.Contract) {M : Check} {more : List UInt8} {d' d0' : Decoder C} (h : Found K M more d' d0') {m : UInt8}
    (hm : d0'.dataType = .lzw m) {lim : MemoryLimit} (hi0 : (d0'.rd.capTo lim).Inv) {rd : RD C} {vec : List UInt8} {out : Outcome Unit}
    (hc : CopyRun (d0'.rd.capTo lim) [m] rd vec out) : CopyBoth K M more m lim d' d0' rd vec out := by
  obtain ⟨lz, m', left, g1, g2, g3, g4, g5, g6, g7, gl⟩ := h.enter
  rw [hm] at g4
  cases g4
  obtain ⟨_, p1⟩ := copyRun_eval K.safe hc hi0 (Reader.reliable_clean h.pair.rel0) h.eof0
  obtain ⟨_, n1⟩ := copyRun_reliable hc h.pair.rel0
  have hst : d0'.rd.sd.state = .copySubBlock left := by rw [g7]
  obtain ⟨r, hr, hce⟩ := SD.copy_eval d0'.rd.reader.bytes (d0'.rd.capTo lim).sd left [m] hst h.pair.skip0
  cases out with
  | ok u =>
    obtain ⟨e1, e2⟩ := p1
    have hd := SD.eval_det hr e2
    subst hd
    rcases hce with ⟨_, hce⟩ | hce
    · cases hce
    have hblk : ∃ rest, (blocks left d0'.rd.reader.bytes).2 = some rest := by
      cases hb : (blocks left d0'.rd.reader.bytes).2 with
      | some rest => exact ⟨rest, rfl⟩
      | none => rw [hb] at hce; obtain ⟨_, _, h⟩ := hce; cases h
    obtain ⟨rest, hrest⟩ := hblk
    rw [hrest] at hce
    simp only [SD.Res.event.injEq] at hce
    obtain ⟨a1, a2, _, a4⟩ := hce
    have a1' : (rd.capTo d0'.rd.sd.memoryLimit).sd = { d0'.rd.sd with state := .blockEnd, current := none } := by
      unfold RD.capTo
      rw [a1]
      rfl
    refine ⟨e1, a1', (blocks left d0'.rd.reader.bytes).1, by rw [a2]; rfl, ?_⟩
    intro px e hy
    obtain ⟨y1, y2, y3, st, y4, y5⟩ := reset_yields K g1 g3
    rw [← g6] at y1 y2 y3 y4
    refine ⟨⟨h.pair.inv.rd, h.pair.rel, h.eof, y2.trans g2, y1, h.skip, ?_, ?_⟩, y3⟩
    · rw [h.bytes] at hy hrest
      cases hb : (blocks left d'.rd.reader.bytes).2 with
      | some rest1 =>
        have hb' := Spec.blocks_more_some d'.rd.reader.bytes left (d := (blocks left d'.rd.reader.bytes).1)
          (rest := rest1) more (by rw [← hb])
        rw [hb'] at hy hrest
        refine ⟨[], some rest1, ?_, ?_, by simp⟩
        · rw [← hb]
          exact .sub g5 y4 (by rw [List.append_nil]; exact y5 _ _ _ hy) (.inl rfl)
        · intro l hl
          cases hl
          show rd.reader.bytes = _
          rw [a4]
          simpa using hrest.symm
      | none =>
        obtain ⟨x, hx⟩ := Spec.blocks_more_none d'.rd.reader.bytes left more hb
        refine ⟨x, none, ?_, by simp, ?_⟩
        · rw [← hb]
          exact .sub g5 y4 (by rw [← hx]; exact y5 _ _ _ hy) (.inr hb)
        · rintro - rfl
          rw [List.append_nil, hb] at hrest
          cases hrest
    · rw [a1', g7]; rfl
  | err e =>
    rcases p1 with ⟨c, hc⟩ | ⟨h1, _, s, hs⟩ | ⟨h1, s, acc, ev, rest, hev, hs⟩ | h1
    · exact absurd (by rw [hc]) (n1 c)
    · refine .inl ⟨h1, fun hcm => ?_⟩
      have hd := SD.eval_det hr hs
      subst hd
      rcases hce with ⟨_, hce⟩ | hce
      · cases hce
      · have := hcm left d'.rd.reader.bytes gl
        rw [← h.bytes] at this
        cases hb : (blocks left d0'.rd.reader.bytes).2 with
        | some rest => rw [hb] at hce; cases hce
        | none => exact this hb
    · have hd := SD.eval_det hr hs
      subst hd
      rcases hce with ⟨_, hce⟩ | hce
      · cases hce
      · cases hb : (blocks left d0'.rd.reader.bytes).2 with
        | some rest => rw [hb] at hce; simp only [SD.Res.event.injEq] at hce; exact absurd hce.2.2.1 hev
        | none => rw [hb] at hce; obtain ⟨_, _, h⟩ := hce; cases h
    · have hd := SD.eval_det hr h1
      subst hd
      rcases hce with ⟨hlim, hce⟩ | hce
      · cases hce; exact .inr ⟨rfl, hlim⟩
      · cases hb : (blocks left d0'.rd.reader.bytes).2 with
        | some rest => rw [hb] at hce; cases hce
        | none => rw [hb] at hce; obtain ⟨_, _, h⟩ := hce; cases h
  | panic => exact p1.elim
  | diverge => exact p1.elim

theorem bare_self {f : Frame} (h1 : f.buffer = []) (h2 : f.ownedCap = none) : f = { f with buffer := [], ownedCap := none } := by
  obtain ⟨⟩ := f
  simp only at h1 h2
  subst h1
  subst h2
  rfl

/-- `next_frame_info` on the first decoder and `read_next_frame` on the second. -/
theorem ahead_info (K : C.Contract) {M : Check} {fin : Prop} {more : List UInt8} {d d0 : Decoder C} (hp : Pair d d0)
    (ha : RD.Ahead K M fin more d.rd d0.rd) (he : d.rd.atEof = false) (he0 : d0.rd.atEof = false) :
    InfoRes K M fin more d d.nextFrameInfo.1 d0.readNextFrame.1 d.nextFrameInfo.2 d0.readNextFrame.2 := by
  have hb := ahead_both K hp ha he he0
  have j0 := (readNextFrame_spec K.safe d0 hp.inv0).1
  have jo := readNextFrame_opts K.safe d0 hp.inv0
  have j1 := (frameRun_spec K.safe (nextFrameInfo_run K.safe d0 hp.inv0.rd) hp.inv0.rd).2.2.1
  obtain ⟨h0a, h0b⟩ := readNextFrame_other (d := d0) (d' := d0.nextFrameInfo.1) (out := d0.nextFrameInfo.2) rfl
  have h0c := fun m => readNextFrame_raw (m := m) (d := d0) (d' := d0.nextFrameInfo.1)
  generalize d.nextFrameInfo = x1 at *
  generalize d0.nextFrameInfo = x2 at *
  obtain ⟨d', out⟩ := x1
  obtain ⟨d0', out0⟩ := x2
  simp only at *
  rcases hb with hb | hb | ⟨hfin, hb⟩
  · exact .inl hb
  · exact .inr (.inl hb)
  · refine .inr (.inr ⟨hfin, ?_⟩)
    cases out with
    | ok b =>
      cases b with
      | false =>
        obtain ⟨rfl, hb⟩ := hb
        rw [h0a rfl]
        exact ⟨rfl, hb⟩
      | true =>
        obtain ⟨rfl, hb⟩ := hb
        obtain ⟨lz, m, left, g1, g2, g3, g4, g5, g6, g7, gl⟩ := hb.enter
        have hr := copyLoop_run K.safe _ d0'.rd [m] hb.pair.inv0.rd (meas_lt_fuel _)
        have hrel := (copyRun_reliable hr hb.pair.rel0).1
        have hcb := found_copy K hb g4 (lim := d0'.rd.sd.memoryLimit) hb.pair.inv0.rd hr
        have c2 : copyLzw m d0'.rd = copyLoop d0'.rd.eventFuel d0'.rd [m] := rfl
        have hpx : (copyLoop d0'.rd.eventFuel d0'.rd [m]).2.2 = .ok () →
            (copyLoop d0'.rd.eventFuel d0'.rd [m]).1.sd = { d0'.rd.sd with state := .blockEnd, current := none } := by
          intro hok
          obtain ⟨_, p1⟩ := copyRun_eval K.safe hr hb.pair.inv0.rd (Reader.reliable_clean hb.pair.rel0) hb.eof0
          rw [hok] at p1
          obtain ⟨r, hr', hce⟩ := SD.copy_eval d0'.rd.reader.bytes d0'.rd.sd left [m] (by rw [g7]) hb.pair.skip0
          have hd := SD.eval_det hr' p1.2
          subst hd
          rcases hce with ⟨_, hce⟩ | hce
          · cases hce
          · cases hbl : (blocks left d0'.rd.reader.bytes).2 with
            | some rest => rw [hbl] at hce; simp only [SD.Res.event.injEq] at hce; exact hce.1
            | none => rw [hbl] at hce; obtain ⟨_, _, h⟩ := hce; cases h
        replace h0c := h0c m rfl g4 (by rw [← hb.cur]; exact hb.buf.2)
        rw [c2] at h0c
        rw [h0c] at j0 jo ⊢
        generalize copyLoop d0'.rd.eventFuel d0'.rd [m] = y at *
        obtain ⟨rd, vec, o⟩ := y
        simp only at *
        cases o with
        | ok u =>
          obtain ⟨q1, _, data, q2, q3⟩ := hcb
          subst q2
          simp only at j0 jo ⊢
          have hsd := hpx rfl
          refine ⟨trivial, hb.typ, ⟨hb.pair.conv, hb.pair.bg, hb.pair.rep, ?_, ?_, hb.pair.rel, hrel, hb.pair.inv, j0, ?_⟩, ?_, hb.eof, q1, ?_⟩
          · simp only [hsd]; exact hb.pair.width
          · simp only [hsd]; exact hb.pair.height
          · simp only [hsd]; exact hb.pair.skip0
          · simp only [bare]
            rw [← hb.cur]
            obtain ⟨b1, b2⟩ := hb.buf
            exact bare_self b1 b2
          · intro m' data' px e hbuf hy
            simp only [List.cons.injEq] at hbuf
            obtain ⟨rfl, rfl⟩ := hbuf
            have hcap : rd.capTo d0'.rd.sd.memoryLimit = rd := by
              have e : rd.sd.memoryLimit = d0'.rd.sd.memoryLimit := by rw [hsd]
              unfold RD.capTo
              rw [← e]
            rw [hcap] at q3
            exact q3 _ _ hy
        | err e =>
          rcases hcb with h | ⟨h, h'⟩
          · exact .inl h
          · refine .inr (.inl ⟨h, ?_⟩)
            have e := jo.trans j1.symm
            simp only [SD.opts, Prod.mk.injEq] at e
            simp only
            rw [e.2.2.2.1]
            exact h'
        | panic => exact hcb.elim
        | diverge => exact hcb.elim
    | err e =>
      replace hb : out0 = .err e := hb
      subst hb
      rw [h0b e rfl]
      exact .inr (.inr rfl)
    | panic => exact hb.elim
    | diverge => exact hb.elim

theorem capTo_inv {rd : RD C} (lim : MemoryLimit) (h : rd.Inv) (hl : lim.sizeOk rd.sd.extData.length = true) : (rd.capTo lim).Inv :=
  ⟨⟨h.wf.ibuf, hl, h.wf.buf, h.wf.st⟩, h.look, h.live⟩

/-- The search for a raw frame, except that no memory limit holds for the image data. -/
def freeRead (d : Decoder C) : Decoder C × Outcome (Option Frame) :=
  match d.nextFrameInfo with
  | (d', .ok true) =>
    match d'.dataType with
    | .pixels => (d', .ok none)
    | .lzw m =>
      match copyLzw m (d'.rd.capTo .unlimited) with
      | (rd, vec, .ok ()) => ({ d' with
          rd := rd.capTo d'.rd.sd.memoryLimit
          currentFrame := { d'.currentFrame with buffer := vec, ownedCap := some vec.length } },
          .ok (some { d'.currentFrame with buffer := vec, ownedCap := some vec.length }))
      | (_, _, .err e) => (d', .err e)
      | (_, _, .panic) => (d', .panic)
      | (_, _, .diverge) => (d', .diverge)
  | (d', .ok false) => (d', .ok none)
  | (d', .err e) => (d', .err e)
  | (d', .panic) => (d', .panic)
  | (d', .diverge) => (d', .diverge)

theorem freeRead_other {d d' : Decoder C} {out : Outcome Bool} (h : d.nextFrameInfo = (d', out)) :
    (out = .ok false → d.freeRead = (d', .ok none)) ∧ ∀ e, out = .err e → d.freeRead = (d', .err e) := by
  constructor
  · rintro rfl
    unfold freeRead
    rw [h]
  · rintro e rfl
    unfold freeRead
    rw [h]

theorem freeRead_raw {d d' : Decoder C} {m : UInt8} (h : d.nextFrameInfo = (d', .ok true)) (ht : d'.dataType = .lzw m) :
    d.freeRead = match copyLzw m (d'.rd.capTo .unlimited) with
      | (rd, vec, .ok ()) => ({ d' with
          rd := rd.capTo d'.rd.sd.memoryLimit
          currentFrame := { d'.currentFrame with buffer := vec, ownedCap := some vec.length } },
          .ok (some { d'.currentFrame with buffer := vec, ownedCap := some vec.length }))
      | (_, _, .err e) => (d', .err e)
      | (_, _, .panic) => (d', .panic)
      | (_, _, .diverge) => (d', .diverge) := by
  unfold freeRead
  rw [h]
  simp only [ht]

/-- `next_frame_info` on the first decoder and `freeRead` on the second. -/
theorem ahead_free (K : C.Contract) {M : Check} {fin : Prop} {more : List UInt8} {d d0 : Decoder C} (hp : Pair d d0)
    (ha : RD.Ahead K M fin more d.rd d0.rd) (he : d.rd.atEof = false) (he0 : d0.rd.atEof = false) :
    InfoResL False K M fin more d d.nextFrameInfo.1 d0.freeRead.1 d.nextFrameInfo.2 d0.freeRead.2 := by
  have hb := ahead_both K hp ha he he0
  obtain ⟨h0a, h0b⟩ := freeRead_other (d := d0) (d' := d0.nextFrameInfo.1) (out := d0.nextFrameInfo.2) rfl
  have h0c := fun m => freeRead_raw (m := m) (d := d0) (d' := d0.nextFrameInfo.1)
  generalize d.nextFrameInfo = x1 at *
  generalize d0.nextFrameInfo = x2 at *
  obtain ⟨d', out⟩ := x1
  obtain ⟨d0', out0⟩ := x2
  simp only at *
  rcases hb with hb | hb | ⟨hfin, hb⟩
  · exact .inl hb
  · exact .inr (.inl hb)
  · refine .inr (.inr ⟨hfin, ?_⟩)
    cases out with
    | ok b =>
      cases b with
      | false =>
        obtain ⟨rfl, hb⟩ := hb
        rw [h0a rfl]
        exact ⟨rfl, hb⟩
      | true =>
        obtain ⟨rfl, hb⟩ := hb
        obtain ⟨lz, m, left, g1, g2, g3, g4, g5, g6, g7, gl⟩ := hb.enter
        have hi := capTo_inv .unlimited hb.pair.inv0.rd rfl
        have hr := copyLoop_run K.safe _ (d0'.rd.capTo .unlimited) [m] hi (meas_lt_fuel _)
        have hrel := (copyRun_reliable hr hb.pair.rel0).1
        have hinv := (copyRun_spec K.safe hr hi rfl).1
        have hcb := found_copy K hb g4 hi hr
        have c2 : copyLzw m (d0'.rd.capTo .unlimited) = copyLoop (d0'.rd.capTo .unlimited).eventFuel (d0'.rd.capTo .unlimited) [m] := rfl
        replace h0c := h0c m rfl g4
        rw [c2] at h0c
        rw [h0c]
        generalize copyLoop (d0'.rd.capTo .unlimited).eventFuel (d0'.rd.capTo .unlimited) [m] = y at *
        obtain ⟨rd, vec, o⟩ := y
        simp only at *
        cases o with
        | ok u =>
          obtain ⟨q1, hsd, data, q2, q3⟩ := hcb
          subst q2
          simp only
          have hext : d0'.rd.sd.memoryLimit.sizeOk rd.sd.extData.length = true := by
            have e : rd.sd.extData = d0'.rd.sd.extData := by
              have := congrArg SD.extData hsd
              exact this
            rw [e]
            exact hb.pair.inv0.rd.wf.ext
          refine ⟨trivial, hb.typ, ⟨hb.pair.conv, hb.pair.bg, hb.pair.rep, ?_, ?_, hb.pair.rel, hrel, hb.pair.inv,
            ⟨capTo_inv _ hinv hext, hb.pair.inv0.limit⟩, ?_⟩, ?_, hb.eof, q1, ?_⟩
          · simp only [hsd]; exact hb.pair.width
          · simp only [hsd]; exact hb.pair.height
          · simp only [hsd]; exact hb.pair.skip0
          · simp only [bare]
            rw [← hb.cur]
            obtain ⟨b1, b2⟩ := hb.buf
            exact bare_self b1 b2
          · intro m' data' px e hbuf hy
            simp only [List.cons.injEq] at hbuf
            obtain ⟨rfl, rfl⟩ := hbuf
            exact q3 _ _ hy
        | err e =>
          rcases hcb with h | ⟨h, h'⟩
          · exact .inl h
          · exact absurd rfl h'
        | panic => exact hcb.elim
        | diverge => exact hcb.elim
    | err e =>
      replace hb : out0 = .err e := hb
      subst hb
      rw [h0b e rfl]
      exact .inr (.inr rfl)
    | panic => exact hb.elim
    | diverge => exact hb.elim

theorem infoRes_lim {lim lim' : Prop} {K : C.Contract} {M : Check} {fin : Prop} {more : List UInt8} {d d' d0' : Decoder C} {out : Outcome Bool}
    {out0 : Outcome (Option Frame)} (h : InfoResL lim K M fin more d d' d0' out out0) (hl : lim → lim') :
    InfoResL lim' K M fin more d d' d0' out out0 := by
  rcases h with h | h | ⟨h1, h⟩
  · exact .inl h
  · exact .inr (.inl h)
  · refine .inr (.inr ⟨h1, ?_⟩)
    revert h
    cases out0 with
    | ok x => cases x <;> exact id
    | err e => exact fun h => h.imp id fun h => h.imp (fun h => ⟨h.1, hl h.2⟩) id
    | panic => exact id
    | diverge => exact id

/-- A search for a raw frame that a decoder of pixels can follow. It may fail for lack of memory if `lim`. -/
structure Ghost (K : C.Contract) (lim : Prop) (g : Decoder C → Decoder C × Outcome (Option Frame)) : Prop where
  info : ∀ {M : Check} {fin : Prop} {more : List UInt8} {d d0 : Decoder C}, Pair d d0 → RD.Ahead K M fin more d.rd d0.rd →
    d.rd.atEof = false → d0.rd.atEof = false → InfoResL lim K M fin more d d.nextFrameInfo.1 (g d0).1 d.nextFrameInfo.2 (g d0).2
  eof : ∀ {d0 : Decoder C}, d0.rd.atEof = true → g d0 = (d0, .ok none)
  ret : ∀ {d0 : Decoder C}, d0.Inv → (g d0).2.returns = true

theorem ghost_read (K : C.Contract) : Ghost K True (readNextFrame (C := C)) :=
  ⟨fun hp ha he he0 => infoRes_lim (ahead_info K hp ha he he0) fun _ => trivial,
    fun h => (readNextFrame_other (atEof_info h)).1 rfl, fun h => (readNextFrame_spec K.safe _ h).2.1⟩

theorem freeRead_returns (hS : C.Safe) {d : Decoder C} (h : d.Inv) : d.freeRead.2.returns = true := by
  have hs := frameRun_spec hS (nextFrameInfo_run hS d h.rd) h.rd
  unfold freeRead
  generalize d.nextFrameInfo = x at *
  obtain ⟨d', out⟩ := x
  simp only at hs
  cases out with
  | ok b =>
    cases b with
    | false => rfl
    | true =>
      simp only
      cases ht : d'.dataType with
      | pixels => rfl
      | lzw m =>
        have hi := capTo_inv .unlimited hs.1 rfl
        have hr := copyLoop_run hS _ (d'.rd.capTo .unlimited) [m] hi (meas_lt_fuel _)
        have hret := (copyRun_spec hS hr hi rfl).2.1
        simp only
        unfold copyLzw
        generalize copyLoop (d'.rd.capTo .unlimited).eventFuel (d'.rd.capTo .unlimited) [m] = y at *
        obtain ⟨rd, vec, o⟩ := y
        cases o with
        | ok u => rfl
        | err e => rfl
        | panic => cases hret
        | diverge => cases hret
  | err e => rfl
  | panic => exact hs.2.1
  | diverge => exact hs.2.1

theorem ghost_free (K : C.Contract) : Ghost K False (freeRead (C := C)) :=
  ⟨fun hp ha he he0 => ahead_free K hp ha he he0, fun h => (freeRead_other (atEof_info h)).1 rfl, fun h => freeRead_returns K.safe h⟩

/-- Raw frames, searched for `k` times. -/
def reads (g : Decoder C → Decoder C × Outcome (Option Frame)) : Nat → Decoder C → List Seen
  | 0, _ => []
  | k + 1, d => match g d with
    | (d', .ok f) => .frame f d'.view :: reads g k d'
    | (_, .err e) => [.failed e]
    | _ => [.crashed]

theorem reads_session : ∀ (k : Nat) (d : Decoder C), reads readNextFrame k d = session (List.replicate k .read) d := by
  intro k
  induction k with
  | zero => intro d; rfl
  | succ k ih =>
    intro d
    rw [List.replicate_succ, session, reads]
    simp only [see]
    generalize d.readNextFrame = x
    obtain ⟨d', o⟩ := x
    cases o with
    | ok f => simp only; rw [ih]
    | err e => rfl
    | panic => rfl
    | diverge => rfl

/-- Where the two decoders are: at the end, before the next block, or at a frame whose pixels `live` are still to be fetched. -/
inductive Phase (K : C.Contract) (M : Check) (fin : Prop) (more : List UInt8) (ok : Prop) (d d0 : Decoder C) :
    Option (List UInt8) → Prop
  | eof (h : d.rd.atEof = true) (h0 : d0.rd.atEof = true) (hb : d0.rd.reader.bytes = d.rd.reader.bytes ++ more) (hf : fin) :
      Phase K M fin more ok d d0 none
  | ahead (h : d.rd.atEof = false) (h0 : d0.rd.atEof = false) (ha : RD.Ahead K M fin more d.rd d0.rd) :
      Phase K M fin more ok d d0 none
  | live {px : List UInt8} {e : LzwEnd} (h0 : d0.rd.atEof = false) (hl : RD.Live K M e more d0.rd d.rd px)
      (hk : SD.Sound K d.rd.sd.lzw ∨ e ≠ .invalid) (ho : ok → e ≠ .invalid) (hf : e = .ended → fin) (hs : M.sure → e = .ended)
      (hw : 0 < d.currentFrame.width.toNat) (hh : 0 < d.currentFrame.height.toNat) : Phase K M fin more ok d d0 (some px)

theorem ahead_mono {K : C.Contract} {M : Check} {fin fin' : Prop} {more : List UInt8} {d d0 : RD C} (h : RD.Ahead K M fin more d d0)
    (hf : fin → fin') : RD.Ahead K M fin' more d d0 := by
  rcases h with h | h | ⟨h0, h⟩
  · exact .inl h
  · exact .inr (.inl h)
  · exact .inr (.inr ⟨fun x => hf (h0 x), h⟩)

theorem phase_ghost {K : C.Contract} {lim : Prop} {g : Decoder C → Decoder C × Outcome (Option Frame)} (hg : Ghost K lim g)
    {M : Check} {fin : Prop} {more : List UInt8} {ok : Prop} {d d0 : Decoder C}
    {live : Option (List UInt8)} (hp : Pair d d0) (h : Phase K M fin more ok d d0 live) (hs : M.sure → live = none) :
    InfoResL lim K M fin more d d.nextFrameInfo.1 (g d0).1 d.nextFrameInfo.2 (g d0).2 := by
  cases h with
  | eof h h0 hb hf =>
    rw [hg.eof h0, atEof_info h]
    exact .inr (.inr ⟨fun _ => hf, rfl, hp, rfl, h, h0, hb⟩)
  | ahead h h0 ha => exact hg.info hp ha h h0
  | live h0 hl hk ho hf =>
    exact hg.info hp (ahead_mono (RD.live_ahead hl hk fun _ h => by have := hs h; cases this) hf) hl.eof h0

theorem phase_info (K : C.Contract) {M : Check} {fin : Prop} {more : List UInt8} {ok : Prop} {d d0 : Decoder C}
    {live : Option (List UInt8)} (hp : Pair d d0) (h : Phase K M fin more ok d d0 live) (hs : M.sure → live = none) :
    InfoRes K M fin more d d.nextFrameInfo.1 d0.readNextFrame.1 d.nextFrameInfo.2 d0.readNextFrame.2 := by
  cases h with
  | eof h h0 hb hf =>
    obtain ⟨g, _⟩ := readNextFrame_other (atEof_info h0)
    rw [g rfl, atEof_info h]
    exact .inr (.inr ⟨fun _ => hf, rfl, hp, rfl, h, h0, hb⟩)
  | ahead h h0 ha => exact ahead_info K hp ha h h0
  | live h0 hl hk ho hf =>
    exact ahead_info K hp (ahead_mono (RD.live_ahead hl hk fun _ h => by have := hs h; cases this) hf) hl.eof h0

/-- `read_next_frame` on a frame that `next_frame_info` has found. -/
def ReadRes (K : C.Contract) (M : Check) (more : List UInt8) (f : Frame) (px : Pixels) (d d0 : Decoder C) (rd : RD C) (g : Frame)
    (out : Outcome Unit) : Prop :=
  (more ≠ [] ∧ out = .ioErr .unexpectedEof) ∨ ((M.ck = true ∧ px.2 = .starved) ∧ out = .ioErr .noEndCode) ∨
  match Spec.deliver d.conv.colorOutput d.conv.memoryLimit d.globalPalette f px with
  | .ok g' => out = .ok () ∧ g = g' ∧ ((M.ck = true → ¬ M.sure) → RD.Ahead K M (px.2 = .ended) more rd d0.rd) ∧
      rd.atEof = false ∧ rd.Inv ∧ rd.reader.Reliable ∧ rd.sd.width = d.rd.sd.width ∧ rd.sd.height = d.rd.sd.height
  | .error e => out = .err e

theorem picture_bare (c : ColorOutput) (g : Option (List UInt8)) (f : Frame) (px : List UInt8) :
    Spec.picture c g (bare f) px = Spec.picture c g f px := rfl

theorem frameBuffer_bare (f : Frame) (n : Nat) : Converter.frameBuffer (bare f) n = List.replicate n 0 := by
  simp [Converter.frameBuffer, bare]

theorem read_frame (K : C.Contract) {M : Check} {more : List UInt8} {f : Frame} {px : Pixels} {d d0 : Decoder C}
    (hl : RD.Live K M px.2 more d0.rd d.rd px.1) (hf : d.currentFrame = bare f)
    (hw : 0 < f.width.toNat) (hh : 0 < f.height.toNat)
    (hx : px.2 = .invalid → px.1.length < f.width.toNat * f.height.toNat) :
    ReadRes K M more f px d d0 (d.conv.readFrame d.currentFrame RD.decodeNextBytes d.rd).1
      (d.conv.readFrame d.currentFrame RD.decodeNextBytes d.rd).2.1
      (d.conv.readFrame d.currentFrame RD.decodeNextBytes d.rd).2.2 := by
  have hcb : d.conv.checkBufferSize (bare f) = d.conv.checkBufferSize f := rfl
  have hbs : d.conv.bufferSize (bare f) = d.conv.bufferSize f := rfl
  have hsrc := d.conv.readIntoBuffer_src (bare f) (RD.live_src K M px.2 more d0.rd) d.rd px.1 hl hw hh
  rw [hf]
  unfold Converter.readFrame ReadRes Spec.deliver
  rcases d.conv.checkBufferSize_cases (bare f) with ⟨h1, h2⟩ | ⟨h1, h2⟩
  · rw [h1]
    have hlim : d.conv.memoryLimit.bufferSize d.conv.colorOutput f.width f.height = some (d.conv.bufferSize f) := by
      unfold Converter.checkBufferSize at h1
      have e1 : (bare f).width = f.width := rfl
      have e2 : (bare f).height = f.height := rfl
      rw [e1, e2] at h1
      cases hb : d.conv.memoryLimit.bufferSize d.conv.colorOutput f.width f.height with
      | none => rw [hb] at h1; cases h1
      | some n => rw [hb] at h1; simp only at h1; split at h1 <;> cases h1; rfl
    rw [hlim]
    simp only
    have hbb : ({ bare f with buffer := [], ownedCap := none } : Frame) = bare f := rfl
    rw [frameBuffer_bare, hbb]
    rcases hsrc with ⟨g1, t', g2, g3⟩ | ⟨g1, t', b, g2, _, g3, _⟩ | ⟨t', b, e, g2, g3⟩
    · refine .inr (.inr ?_)
      rw [g2]
      have e1 : (bare f).width = f.width := rfl
      have e2 : (bare f).height = f.height := rfl
      rw [e1, e2] at g1
      have hni : px.2 ≠ .invalid := fun h => by have := hx h; omega
      rw [if_neg hni, if_neg (by omega)]
      simp only
      refine ⟨trivial, rfl, fun hs => RD.live_ahead g3 (.inr hni) hs, g3.eof, g3.inv, g3.rel, ?_, ?_⟩
      · have a1 := hl.sd
        have a2 := g3.sd
        have := congrArg SD.width (a2.symm.trans a1)
        exact this
      · have a1 := hl.sd
        have a2 := g3.sd
        have := congrArg SD.height (a2.symm.trans a1)
        exact this
    · refine .inr (.inr ?_)
      rw [g2, if_neg g3]
      have e1 : (bare f).width = f.width := rfl
      have e2 : (bare f).height = f.height := rfl
      rw [e1, e2] at g1
      rw [if_pos g1]
    · rw [g2]
      rcases g3 with ⟨rfl, g3⟩ | ⟨rfl, g3⟩ | ⟨rfl, g3⟩
      · refine .inr (.inr ?_)
        rw [if_pos g3]
      · exact .inl ⟨g3, rfl⟩
      · exact .inr (.inl ⟨g3, rfl⟩)
  · refine .inr (.inr ?_)
    rw [h1]
    have hlim : d.conv.memoryLimit.bufferSize d.conv.colorOutput f.width f.height = none := by
      unfold Converter.checkBufferSize at h1
      have e1 : (bare f).width = f.width := rfl
      have e2 : (bare f).height = f.height := rfl
      rw [e1, e2] at h1
      cases hb : d.conv.memoryLimit.bufferSize d.conv.colorOutput f.width f.height with
      | none => rfl
      | some n => rw [hb] at h1; simp only at h1; split at h1 <;> cases h1
    rw [hlim]

theorem follows_cons {more : List UInt8} {a b : List Got} (x : Got) (h : Spec.Follows more a b) :
    Spec.Follows more (x :: a) (x :: b) := by
  rcases h with rfl | ⟨h, k, hk, rfl⟩
  · exact .inl rfl
  · exact .inr ⟨h, k + 1, by simpa using hk, rfl⟩

theorem follows_stop {more : List UInt8} {b : List Got} (h : more ≠ []) (hb : b ≠ []) :
    Spec.Follows more [.seen (.failed (.io .unexpectedEof))] b :=
  .inr ⟨h, 0, List.length_pos_iff.2 hb, rfl⟩

/-- What is shown about a session: it follows what it has to give; with `check_lzw_end_code`, frames behind one without an end
code are not found. -/
structure FilmRes (M : Check) (fin : Prop) (more : List UInt8) (outs : List Pixels) (a b : List Got) : Prop where
  follows : Spec.Checked M.May more a b
  unsought : M.ck = true → ¬ fin → Spec.sought a = 0
  bound : M.ck = true → ∀ j px, outs[j]? = some px → px.2 ≠ .ended → Spec.sought a ≤ j + 1
  fills : M.ck = true → ∀ n buf, a[n]? = some (.filled buf false) → (Spec.sought (a.take n) = 0 → fin) ∧
    ∀ i px, Spec.sought (a.take n) = i + 1 → outs[i]? = some px → px.2 = .ended

theorem checked_cons {may : Prop} {more : List UInt8} {a b : List Got} (x : Got) (h : Spec.Checked may more a b) :
    Spec.Checked may more (x :: a) (x :: b) := by
  rcases h with h | ⟨h, k, hk, rfl⟩
  · exact .inl (follows_cons x h)
  · exact .inr ⟨h, k + 1, by simpa using hk, rfl⟩

variable {M : Check} {fin : Prop} {more : List UInt8} {outs : List Pixels} {a b : List Got}

theorem single_fills (e : DecodingError) (n : Nat) (buf : List UInt8) :
    ([.seen (.failed e)] : List Got)[n]? ≠ some (.filled buf false) := by
  cases n <;> simp

theorem filmRes_nil : FilmRes M fin more outs [] [] :=
  ⟨.inl (.inl rfl), fun _ _ => rfl, fun _ _ _ _ _ => by simp [Spec.sought], fun _ n buf hn => by simp at hn⟩

theorem filmRes_same (e : DecodingError) : FilmRes M fin more outs [.seen (.failed e)] [.seen (.failed e)] :=
  ⟨.inl (.inl rfl), fun _ _ => rfl, fun _ _ _ _ _ => by simp [Spec.sought],
    fun _ n buf hn => absurd hn (single_fills e n buf)⟩

theorem filmRes_stop (h : more ≠ []) (hb : b ≠ []) : FilmRes M fin more outs [.seen (.failed (.io .unexpectedEof))] b :=
  ⟨.inl (follows_stop h hb), fun _ _ => rfl, fun _ _ _ _ _ => by simp [Spec.sought],
    fun _ n buf hn => absurd hn (single_fills _ n buf)⟩

theorem filmRes_may (h : M.May) (hb : b ≠ []) : FilmRes M fin more outs [.seen (.failed (.io .noEndCode))] b :=
  ⟨.inr ⟨h, 0, List.length_pos_iff.2 hb, rfl⟩, fun _ _ => rfl, fun _ _ _ _ _ => by simp [Spec.sought],
    fun _ n buf hn => absurd hn (single_fills _ n buf)⟩

theorem filmRes_keep {x : Got} (hx : ∀ a, Spec.sought (x :: a) = Spec.sought a)
    (hy : ∀ buf, x = .filled buf false → M.ck = true → fin) (h : FilmRes M fin more outs a b) :
    FilmRes M fin more outs (x :: a) (x :: b) := by
  refine ⟨checked_cons x h.follows, fun h1 h2 => by rw [hx]; exact h.unsought h1 h2, fun h1 j px h2 h3 => by
    rw [hx]; exact h.bound h1 j px h2 h3, fun h1 n buf hn => ?_⟩
  cases n with
  | zero =>
    simp only [List.getElem?_cons_zero, Option.some.injEq] at hn
    exact ⟨fun _ => hy _ hn h1, fun i px h2 => by simp [Spec.sought] at h2⟩
  | succ n =>
    rw [List.take_succ_cons, hx]
    exact h.fills h1 n buf (by simpa using hn)

theorem filmRes_frame {x : Got} {px : Pixels} (hx : ∀ a, Spec.sought (x :: a) = Spec.sought a + 1) (hf : M.ck = true → fin)
    (h : FilmRes M (px.2 = .ended) more outs a b) : FilmRes M fin more (px :: outs) (x :: a) (x :: b) := by
  refine ⟨checked_cons x h.follows, fun h1 h2 => absurd (hf h1) h2, fun h1 j px h2 h3 => ?_, fun h1 n buf hn => ?_⟩
  · rw [hx]
    cases j with
    | zero =>
      simp only [List.getElem?_cons_zero, Option.some.injEq] at h2
      subst h2
      rw [h.unsought h1 h3]
      omega
    | succ j =>
      have := h.bound h1 j px (by simpa using h2) h3
      omega
  · cases n with
    | zero =>
      simp only [List.getElem?_cons_zero, Option.some.injEq] at hn
      subst hn
      have := hx []
      simp [Spec.sought] at this
    | succ n =>
      obtain ⟨g1, g2⟩ := h.fills h1 n buf (by simpa using hn)
      rw [List.take_succ_cons, hx]
      refine ⟨fun h => by omega, fun i px' hi hp => ?_⟩
      cases i with
      | zero =>
        simp only [List.getElem?_cons_zero, Option.some.injEq] at hp
        subst hp
        exact g1 (by omega)
      | succ i => exact g2 i px' (by omega) (by simpa using hp)

theorem filmRes_none {x : Got} (hf : M.ck = true → fin)
    (h : FilmRes M True more [] a b) : FilmRes M fin more [] (x :: a) (x :: b) := by
  refine ⟨checked_cons x h.follows, fun h1 h2 => absurd (hf h1) h2, fun _ j px h2 => by simp at h2, fun h1 n buf hn => ?_⟩
  refine ⟨fun _ => hf h1, fun i px _ hp => by simp at hp⟩

theorem film_idle {c : ColorOutput} {limit : MemoryLimit} : ∀ (acts : List Act), Spec.seeks acts = 0 →
    (∀ d : Decoder C, film acts d false = []) ∧ ∀ v raw outs, Spec.watch c limit acts v none raw outs = [] := by
  intro acts
  induction acts with
  | nil => intro _; exact ⟨fun _ => rfl, fun _ _ _ => rfl⟩
  | cons a acts ih =>
    intro h
    cases a with
    | info => simp [Spec.seeks] at h
    | read => simp [Spec.seeks] at h
    | fill n =>
      obtain ⟨h1, h2⟩ := ih h
      exact ⟨fun d => by rw [film]; simp [act, h1], fun v raw outs => by rw [Spec.watch]; exact h2 _ _ _⟩
    | into =>
      obtain ⟨h1, h2⟩ := ih h
      exact ⟨fun d => by rw [film]; simp [act, h1], fun v raw outs => by rw [Spec.watch]; exact h2 _ _ _⟩

theorem drained_idle : ∀ (acts : List Act) (live : Option (List UInt8)) (outs : List Pixels), Spec.seeks acts = 0 →
    Spec.Drained acts live outs := by
  intro acts
  induction acts with
  | nil => intro _ _ _; trivial
  | cons a acts ih =>
    intro live outs h
    cases a with
    | info => simp [Spec.seeks] at h
    | read => simp [Spec.seeks] at h
    | fill n =>
      unfold Spec.Drained
      split
      · split <;> exact ih _ _ h
      · exact ih _ _ h
    | into =>
      unfold Spec.Drained
      split
      · exact h
      · exact ih _ _ h

theorem atEof_reads {g : Decoder C → Decoder C × Outcome (Option Frame)} {d : Decoder C} (hr : g d = (d, .ok none)) :
    ∀ k, Spec.rawFrames (reads g k d) = [] := by
  intro k
  induction k with
  | zero => rfl
  | succ k ih =>
    rw [reads, hr]
    exact ih

theorem expandAll_nil {K : C.Contract} {outs : List Pixels} (h : Spec.ExpandAll K [] outs) : outs = [] := by
  cases outs with
  | nil => rfl
  | cons _ _ => exact h.elim

theorem readNextFrame_pixels {d d' : Decoder C} (h : d.nextFrameInfo = (d', .ok true)) (ht : d'.dataType = .pixels) :
    d.readNextFrame = match d'.conv.readFrame d'.currentFrame RD.decodeNextBytes d'.rd with
      | (rd, f, .ok ()) => ({ d' with rd := rd, currentFrame := f }, .ok (some f))
      | (rd, f, .err e) => ({ d' with rd := rd, currentFrame := f }, .err e)
      | (rd, f, .panic) => ({ d' with rd := rd, currentFrame := f }, .panic)
      | (rd, f, .diverge) => ({ d' with rd := rd, currentFrame := f }, .diverge) := by
  unfold readNextFrame
  rw [h]
  simp only [ht]
  rfl

/-- A decoder follows the raw frames of another one. -/
theorem film_ghost (K : C.Contract) {lim : Prop} {g : Decoder C → Decoder C × Outcome (Option Frame)} (hg : Ghost K lim g) {M : Check} {more : List UInt8} {ok : Prop} {c : ColorOutput} {limit : MemoryLimit} :
    ∀ (acts : List Act) (k : Nat) (d d0 : Decoder C) (live : Option (List UInt8)) (outs : List Pixels) (fin : Prop),
      Pair d d0 → Phase K M fin more ok d d0 live → d.conv.colorOutput = c → d.conv.memoryLimit = limit →
      Spec.seeks acts ≤ k →
      (∀ e, .failed e ∈ reads g k d0 → e ≠ .io .unexpectedEof ∧ (lim → e ≠ .format .memoryLimit)) →
      Spec.ExpandAll K (Spec.rawFrames (reads g k d0)) outs →
      (∀ px ∈ outs, ok → px.2 ≠ .invalid) → (ok ∨ ∀ a ∈ acts, a = .info ∨ a = .read) →
      (M.sure → (∀ px ∈ outs, px.2 = .ended) ∧ Spec.Drained acts live outs) →
      FilmRes M fin more outs (film acts d live.isSome)
        (Spec.watch c limit acts d.view live (reads g k d0) outs) := by
  intro acts
  induction acts with
  | nil => intro k d d0 live outs fin _ _ _ _ _ _ _ _ _ _; exact filmRes_nil
  | cons a acts ih =>
    intro k d d0 live outs fin hp hph hcol hlim hk hbad hex hok hacts hsure
    have hacts' : ok ∨ ∀ a ∈ acts, a = .info ∨ a = .read :=
      hacts.imp id fun h x hx => h x (List.mem_cons_of_mem _ hx)
    cases a with
    | info =>
      obtain ⟨k, rfl⟩ : ∃ k', k = k' + 1 := ⟨k - 1, by simp only [Spec.seeks] at hk; omega⟩
      have hk' : Spec.seeks acts ≤ k := by simp only [Spec.seeks] at hk; omega
      have hinfo := phase_ghost hg hp hph fun h => (hsure h).2.1
      have h0r := hg.ret hp.inv0
      have hspec := frameRun_spec K.safe (nextFrameInfo_run K.safe d hp.inv.rd) hp.inv.rd
      rw [reads] at hbad hex ⊢
      rw [film]
      simp only [act]
      generalize d.nextFrameInfo = x1 at *
      generalize hx2 : g d0 = x2 at *
      obtain ⟨d', out⟩ := x1
      obtain ⟨d0', out0⟩ := x2
      simp only at *
      have hcol' : d'.conv.colorOutput = c := by rw [hspec.2.2.2.1]; exact hcol
      have hlim' : d'.conv.memoryLimit = limit := by rw [hspec.2.2.2.1]; exact hlim
      cases out0 with
      | ok o =>
        simp only at hbad hex ⊢
        cases o with
        | some f =>
          simp only [Spec.rawFrames] at hex
          obtain ⟨px, outs', rfl⟩ : ∃ px outs', outs = px :: outs' := by
            cases outs with
            | nil => exact hex.elim
            | cons px outs => exact ⟨_, _, rfl⟩
          obtain ⟨⟨⟨m, data, hb, hy⟩, hwh, hx⟩, hex⟩ := hex
          simp only [Spec.watch]
          rcases hinfo with ⟨hm, rfl⟩ | ⟨hm, rfl⟩ | ⟨hfin, rfl, ht, hp', hf, he, he0, hl⟩
          · exact filmRes_stop hm (by simp)
          · exact filmRes_may hm (by simp)
          · simp only
            rw [← pair_view hp' hf]
            refine filmRes_frame (fun _ => rfl) hfin ?_
            obtain ⟨hl, hs⟩ := hl m data px.1 px.2 hb hy
            exact ih k d' d0' (some px.1) outs' _ hp' (.live he0 hl (.inl hs) (hok px List.mem_cons_self) id
                (fun h => (hsure h).1 px List.mem_cons_self)
                (by rw [hf]; exact Nat.pos_of_mul_pos_right hwh) (by rw [hf]; exact Nat.pos_of_mul_pos_left hwh))
              hcol' hlim' hk' (fun e h => hbad e (List.mem_cons_of_mem _ h)) hex
              (fun px hpx => hok px (List.mem_cons_of_mem _ hpx)) hacts'
              (fun h => ⟨fun px hpx => (hsure h).1 px (List.mem_cons_of_mem _ hpx), (hsure h).2.2⟩)
        | none =>
          simp only [Spec.rawFrames] at hex
          simp only [Spec.watch]
          rcases hinfo with ⟨hm, rfl⟩ | ⟨hm, rfl⟩ | ⟨hfin, rfl, hp', hf, he, he0, hrest⟩
          · exact filmRes_stop hm (by simp)
          · exact filmRes_may hm (by simp)
          · simp only
            have hv : d.view.currentFrame = d.currentFrame := rfl
            rw [hv, ← pair_view hp' hf]
            have ho := hex
            rw [atEof_reads (hg.eof he0)] at ho
            obtain rfl := expandAll_nil ho
            refine filmRes_none hfin ?_
            exact ih k d' d0' none [] True hp' (.eof he he0 hrest trivial)
              hcol' hlim' hk' (fun e h => hbad e (List.mem_cons_of_mem _ h)) hex hok hacts'
              (fun h => ⟨(hsure h).1, (hsure h).2.2⟩)
      | err e =>
        simp only at hbad ⊢
        obtain ⟨b1, b2⟩ := hbad e (by simp)
        simp only [Spec.watch]
        rcases hinfo with ⟨hm, rfl⟩ | ⟨hm, rfl⟩ | ⟨_, h | h | rfl⟩
        · exact filmRes_stop hm (by simp)
        · exact filmRes_may hm (by simp)
        · exact absurd h.1 b1
        · exact absurd h.1 (b2 h.2)
        · exact filmRes_same _
      | panic => cases h0r
      | diverge => cases h0r
    | read =>
      obtain ⟨k, rfl⟩ : ∃ k', k = k' + 1 := ⟨k - 1, by simp only [Spec.seeks] at hk; omega⟩
      have hk' : Spec.seeks acts ≤ k := by simp only [Spec.seeks] at hk; omega
      have hinfo := phase_ghost hg hp hph fun h => (hsure h).2.1
      have h0r := hg.ret hp.inv0
      have hspec := frameRun_spec K.safe (nextFrameInfo_run K.safe d hp.inv.rd) hp.inv.rd
      rw [reads] at hbad hex ⊢
      rw [film]
      simp only [act]
      have hri := (readNextFrame_spec K.safe d hp.inv).1
      obtain ⟨ho1, ho2⟩ := readNextFrame_other (d := d) (d' := d.nextFrameInfo.1) (out := d.nextFrameInfo.2) rfl
      have ho3 := readNextFrame_pixels (d := d) (d' := d.nextFrameInfo.1)
      generalize d.nextFrameInfo = x1 at *
      generalize hx2 : g d0 = x2 at *
      obtain ⟨d', out⟩ := x1
      obtain ⟨d0', out0⟩ := x2
      simp only at *
      have hcol' : d'.conv.colorOutput = c := by rw [hspec.2.2.2.1]; exact hcol
      have hlim' : d'.conv.memoryLimit = limit := by rw [hspec.2.2.2.1]; exact hlim
      cases out0 with
      | ok o =>
        simp only at hbad hex ⊢
        cases o with
        | some f =>
          simp only [Spec.rawFrames] at hex
          obtain ⟨px, outs', rfl⟩ : ∃ px outs', outs = px :: outs' := by
            cases outs with
            | nil => exact hex.elim
            | cons px outs => exact ⟨_, _, rfl⟩
          obtain ⟨⟨⟨m, data, hb, hy⟩, hwh, hx⟩, hex⟩ := hex
          simp only [Spec.watch]
          have hne : (match Spec.deliver c limit d0'.view.globalPalette f px with
              | .ok y => Got.seen (.frame (some y) { d0'.view with currentFrame := y }) ::
                  Spec.watch c limit acts { d0'.view with currentFrame := y } none (reads g k d0') outs'
              | .error e => [.seen (.failed e)]) ≠ [] := by split <;> simp
          rcases hinfo with ⟨hm, rfl⟩ | ⟨hm, rfl⟩ | ⟨hfin, rfl, ht, hp', hf, he, he0, hl⟩
          · rw [ho2 _ rfl]
            exact filmRes_stop hm hne
          · rw [ho2 _ rfl]
            exact filmRes_may hm hne
          · obtain ⟨hl, hs⟩ := hl m data px.1 px.2 hb hy
            replace ho3 := ho3 rfl ht
            have hrd := read_frame K (d := d') (d0 := d0') (f := f) hl hf (Nat.pos_of_mul_pos_right hwh) (Nat.pos_of_mul_pos_left hwh) hx
            generalize d'.conv.readFrame d'.currentFrame RD.decodeNextBytes d'.rd = y at *
            obtain ⟨rd, g, o⟩ := y
            simp only at ho3 hrd
            have hgp : d0'.view.globalPalette = d'.globalPalette := by
              show d0'.globalPalette = d'.globalPalette
              unfold globalPalette; rw [hp'.conv]
            rcases hrd with ⟨hm, rfl⟩ | ⟨hm, rfl⟩ | hrd
            · simp only at ho3
              rw [ho3]
              exact filmRes_stop hm hne
            · simp only at ho3
              rw [ho3]
              refine filmRes_may ⟨hm.1, fun h => ?_⟩ hne
              have := (hsure h).1 px List.mem_cons_self
              rw [hm.2] at this
              cases this
            · rw [hgp, ← hcol', ← hlim']
              cases hdel : Spec.deliver d'.conv.colorOutput d'.conv.memoryLimit d'.globalPalette f px with
              | error e =>
                rw [hdel] at hrd
                simp only at hrd
                subst hrd
                simp only at ho3
                rw [ho3]
                exact filmRes_same _
              | ok g' =>
                rw [hdel] at hrd
                obtain ⟨rfl, rfl, r1, r2, r3, r4, r5, r6⟩ := hrd
                simp only at ho3
                rw [ho3] at hri ⊢
                simp only at hri ⊢
                have hp'' : Pair ({ d' with rd := rd, currentFrame := g } : Decoder C) d0' :=
                  ⟨hp'.conv, hp'.bg, hp'.rep, r5.trans hp'.width, r6.trans hp'.height, r4, hp'.rel0, hri, hp'.inv0, hp'.skip0⟩
                have hv := pair_view hp'' (f := g) rfl
                simp only at hv
                rw [← hgp, ← hv, hcol', hlim']
                refine filmRes_frame (fun _ => rfl) hfin ?_
                by_cases hsu : M.ck = true → ¬ M.sure
                · exact ih k _ d0' none outs' _ hp'' (.ahead r2 he0 (r1 hsu))
                    hcol' hlim' hk' (fun e h => hbad e (List.mem_cons_of_mem _ h)) hex
                    (fun px hpx => hok px (List.mem_cons_of_mem _ hpx)) hacts'
                    (fun h => ⟨fun px hpx => (hsure h).1 px (List.mem_cons_of_mem _ hpx),
                      drained_idle _ _ _ (hsure h).2.2⟩)
                · have hsu' : M.sure := by
                    rcases Classical.em M.sure with h | h
                    · exact h
                    · exact absurd (fun _ => h) hsu
                  obtain ⟨i1, i2⟩ := film_idle (C := C) (c := c) (limit := limit) acts (hsure hsu').2.2
                  rw [i1, i2]
                  exact filmRes_nil
        | none =>
          simp only [Spec.rawFrames] at hex
          simp only [Spec.watch]
          rcases hinfo with ⟨hm, rfl⟩ | ⟨hm, rfl⟩ | ⟨hfin, rfl, hp', hf, he, he0, hrest⟩
          · rw [ho2 _ rfl]
            exact filmRes_stop hm (by simp)
          · rw [ho2 _ rfl]
            exact filmRes_may hm (by simp)
          · rw [ho1 rfl]
            simp only
            have hv : d.view.currentFrame = d.currentFrame := rfl
            rw [hv, ← pair_view hp' hf]
            have ho := hex
            rw [atEof_reads (hg.eof he0)] at ho
            obtain rfl := expandAll_nil ho
            refine filmRes_none hfin ?_
            exact ih k d' d0' none [] True hp' (.eof he he0 hrest trivial)
              hcol' hlim' hk' (fun e h => hbad e (List.mem_cons_of_mem _ h)) hex hok hacts'
              (fun h => ⟨(hsure h).1, (hsure h).2.2⟩)
      | err e =>
        simp only at hbad ⊢
        obtain ⟨b1, b2⟩ := hbad e (by simp)
        simp only [Spec.watch]
        rcases hinfo with ⟨hm, rfl⟩ | ⟨hm, rfl⟩ | ⟨_, h | h | rfl⟩
        · rw [ho2 _ rfl]
          exact filmRes_stop hm (by simp)
        · rw [ho2 _ rfl]
          exact filmRes_may hm (by simp)
        · exact absurd h.1 b1
        · exact absurd h.1 (b2 h.2)
        · rw [ho2 _ rfl]
          exact filmRes_same _
      | panic => cases h0r
      | diverge => cases h0r
    | fill n =>
      have hk' : Spec.seeks acts ≤ k := hk
      have hok' : ok := by
        rcases hacts with h | h
        · exact h
        · have := h (.fill n) List.mem_cons_self; simp at this
      rw [film]
      simp only [act]
      cases live with
      | none =>
        simp only [Option.isSome_none, Bool.false_eq_true, if_false, List.nil_append, Spec.watch]
        exact ih k d d0 none outs _ hp hph hcol hlim hk' hbad hex hok hacts' hsure
      | some px =>
        cases hph with
        | @live px e h0 hl hk ho hfe hse hw hh =>
        simp only [Option.isSome_some, if_true, Spec.watch]
        have hinv := inv_fillBuffer K.safe d (List.replicate ((n + 1) * Spec.channels d.conv.colorOutput) 0) hp.inv
        have hch : Spec.channels d.conv.colorOutput = d.conv.chan := by
          unfold Spec.channels Converter.chan; cases d.conv.colorOutput <;> rfl
        have hsrc := d.conv.fillBuffer_src d.currentFrame (RD.live_src K M e more d0.rd) d.rd px
          (List.replicate ((n + 1) * Spec.channels d.conv.colorOutput) 0) (n + 1) hl
          (by rw [List.length_replicate, hch, Nat.mul_comm]) (by omega)
        rcases hsrc with ⟨g1, t', g2, g3⟩ | ⟨g1, t', g2, ⟨g3, g4, g5, g6⟩, g7, g8⟩ | ⟨t', b, e', g2, g3, _⟩
        · have hf : d.fillBuffer (List.replicate ((n + 1) * Spec.channels d.conv.colorOutput) 0) =
              ({ d with rd := t' }, Spec.colours d.conv.colorOutput (Spec.paletteOf d.conv.globalPalette d.currentFrame)
                d.currentFrame.transparent (px.take (n + 1)), .ok true) := by
            unfold fillBuffer
            rw [g2, ← Converter.convert_eq, List.length_take, Nat.min_eq_left g1, hch, Nat.mul_comm]
          rw [hf] at hinv ⊢
          rw [if_pos g1, ← hcol]
          refine filmRes_keep (fun _ => rfl) (fun _ h => by cases h) ?_
          rw [hcol]
          have hp' : Pair ({ d with rd := t' } : Decoder C) d0 := by
            have a1 := (congrArg SD.width (g3.sd.symm.trans hl.sd))
            have a2 := (congrArg SD.height (g3.sd.symm.trans hl.sd))
            exact ⟨hp.conv, hp.bg, hp.rep, (show t'.sd.width = d.rd.sd.width from a1).trans hp.width,
              (show t'.sd.height = d.rd.sd.height from a2).trans hp.height, g3.rel, hp.rel0, hinv.1, hp.inv0, hp.skip0⟩
          have hv : ({ d with rd := t' } : Decoder C).view = d.view := by
            rw [pair_view hp' rfl, pair_view hp rfl]
          rw [← hv]
          exact ih k _ d0 (some (px.drop (n + 1))) outs _ hp' (.live h0 g3 (.inr (ho hok')) ho hfe hse hw hh) hcol hlim hk' hbad hex
            hok hacts' (fun h => ⟨(hsure h).1, by have := (hsure h).2; simp only [Spec.Drained] at this; rwa [if_pos g1] at this⟩)
        · have hf : d.fillBuffer (List.replicate ((n + 1) * Spec.channels d.conv.colorOutput) 0) =
              ({ d with rd := t' }, Spec.colours d.conv.colorOutput (Spec.paletteOf d.conv.globalPalette d.currentFrame)
                d.currentFrame.transparent px ++ List.replicate ((n + 1 - px.length) * Spec.channels d.conv.colorOutput) 0, .ok false) := by
            unfold fillBuffer
            have hle : d.conv.chan * px.length ≤ (n + 1) * d.conv.chan := by
              rw [Nat.mul_comm]; exact Nat.mul_le_mul_right _ (by omega)
            rw [g2, ← Converter.convert_eq, hch, Converter.replicate_take _ hle, List.drop_replicate, Nat.sub_mul,
              Nat.mul_comm px.length]
          rw [hf] at hinv ⊢
          rw [if_neg (by omega), ← hcol]
          refine filmRes_keep (fun _ => rfl) (fun _ _ h => hfe (g8 h)) ?_
          rw [hcol]
          have hp' : Pair ({ d with rd := t' } : Decoder C) d0 := by
            have a1 := (congrArg SD.width (g6.sd.symm.trans hl.sd))
            have a2 := (congrArg SD.height (g6.sd.symm.trans hl.sd))
            exact ⟨hp.conv, hp.bg, hp.rep, (show t'.sd.width = d.rd.sd.width from a1).trans hp.width,
              (show t'.sd.height = d.rd.sd.height from a2).trans hp.height, g4, hp.rel0, hinv.1, hp.inv0, hp.skip0⟩
          have hv : ({ d with rd := t' } : Decoder C).view = d.view := by
            rw [pair_view hp' rfl, pair_view hp rfl]
          rw [← hv]
          exact ih k _ d0 none outs _ hp' (.ahead g5 h0 (.inr (.inr ⟨fun h => hfe (g8 h), _, _, g6, .inl ⟨rfl, rfl⟩⟩))) hcol hlim hk'
            hbad hex hok hacts'
            (fun h => ⟨(hsure h).1, by have := (hsure h).2; simp only [Spec.Drained] at this; rwa [if_neg (by omega)] at this⟩)
        · have hf : d.fillBuffer (List.replicate ((n + 1) * Spec.channels d.conv.colorOutput) 0) =
              ({ d with rd := t' }, b, .err e') := by
            unfold fillBuffer
            rw [g2]
          rw [hf]
          rcases g3 with ⟨_, g3⟩ | ⟨rfl, g3⟩ | ⟨rfl, g3, g4⟩
          · exact absurd g3 (ho hok')
          · refine filmRes_stop g3 ?_
            split <;> simp
          · refine filmRes_may ⟨g3, fun h => ?_⟩ ?_
            · rw [hse h] at g4; cases g4
            · split <;> simp
    | into =>
      have hk' : Spec.seeks acts ≤ k := hk
      have hok' : ok := by
        rcases hacts with h | h
        · exact h
        · have := h .into List.mem_cons_self; simp at this
      rw [film]
      simp only [act]
      cases live with
      | none =>
        simp only [Option.isSome_none, Bool.false_eq_true, if_false, List.nil_append, Spec.watch]
        exact ih k d d0 none outs _ hp hph hcol hlim hk' hbad hex hok hacts' hsure
      | some px =>
        cases hph with
        | @live px e h0 hl hk ho hfe hse hw hh =>
        simp only [Option.isSome_some, if_true, Spec.watch]
        have hinv := inv_readIntoBuffer K.safe d (List.replicate d.bufferSize 0) hp.inv
        have hsrc := d.conv.readIntoBuffer_src d.currentFrame (RD.live_src K M e more d0.rd) d.rd px hl hw hh
        have hcf : d.view.currentFrame = d.currentFrame := rfl
        rw [hcf]
        rcases hsrc with ⟨g1, t', g2, g3⟩ | ⟨g1, t', b, g2, _, g7, _⟩ | ⟨t', b, e', g2, g3⟩
        · have hf : d.readIntoBuffer (List.replicate d.bufferSize 0) =
              ({ d with rd := t' }, Spec.picture d.conv.colorOutput d.conv.globalPalette d.currentFrame px, .ok ()) := by
            unfold readIntoBuffer bufferSize
            rw [g2]
          rw [hf] at hinv ⊢
          rw [if_pos g1, ← hcol]
          refine filmRes_keep (fun _ => rfl) (fun _ h => by cases h) ?_
          rw [hcol]
          have hp' : Pair ({ d with rd := t' } : Decoder C) d0 := by
            have a1 := (congrArg SD.width (g3.sd.symm.trans hl.sd))
            have a2 := (congrArg SD.height (g3.sd.symm.trans hl.sd))
            exact ⟨hp.conv, hp.bg, hp.rep, (show t'.sd.width = d.rd.sd.width from a1).trans hp.width,
              (show t'.sd.height = d.rd.sd.height from a2).trans hp.height, g3.rel, hp.rel0, hinv.1, hp.inv0, hp.skip0⟩
          have hv : ({ d with rd := t' } : Decoder C).view = d.view := by
            rw [pair_view hp' rfl, pair_view hp rfl]
          rw [← hv]
          exact ih k _ d0 (some _) outs _ hp' (.live h0 g3 (.inr (ho hok')) ho hfe hse hw hh) hcol hlim hk' hbad hex hok hacts'
            (fun h => ⟨(hsure h).1, drained_idle _ _ _ (hsure h).2⟩)
        · have hf : d.readIntoBuffer (List.replicate d.bufferSize 0) = ({ d with rd := t' }, b, .fmtErr .imageTruncated) := by
            unfold readIntoBuffer bufferSize
            rw [g2]
          rw [hf, if_neg (by omega)]
          exact filmRes_same _
        · have hf : d.readIntoBuffer (List.replicate d.bufferSize 0) = ({ d with rd := t' }, b, .err e') := by
            unfold readIntoBuffer bufferSize
            rw [g2]
          rw [hf]
          rcases g3 with ⟨_, g3⟩ | ⟨rfl, g3⟩ | ⟨rfl, g3, g4⟩
          · exact absurd g3 (ho hok')
          · refine filmRes_stop g3 ?_
            split <;> simp
          · refine filmRes_may ⟨g3, fun h => ?_⟩ ?_
            · rw [hse h] at g4; cases g4
            · split <;> simp

/-- Raw frames of a file, the header read under the options. -/
def ghostFilm (g : Decoder C → Decoder C × Outcome (Option Frame)) (o : DecodeOptions) (r : Reader) (k : Nat) : List Seen :=
  match readInfo C { o with skipFrameDecoding := true } r with
  | (d, .ok ()) => .opened d.view :: reads g k d
  | (_, .err e) => [.failed e]
  | _ => [.crashed]

theorem ghostFilm_raw (o : DecodeOptions) (r : Reader) (k : Nat) : ghostFilm (C := C) readNextFrame o r k = rawFilm C o r k := by
  unfold ghostFilm rawFilm sessionFrom
  generalize readInfo C { o with skipFrameDecoding := true } r = x
  obtain ⟨d, out⟩ := x
  cases out with
  | ok u => simp only; rw [reads_session]
  | err e => rfl
  | panic => rfl
  | diverge => rfl

theorem foldl_keeps_rd (evs : List Decoded) (d : Decoder C) : (evs.foldl onEvent d).rd = d.rd := by
  induction evs generalizing d with
  | nil => rfl
  | cons ev evs ih => rw [List.foldl_cons, ih]; cases ev <;> rfl

theorem checkBg_rd (a : Decoder C) (rd : RD C) : ({ a with rd := rd } : Decoder C).checkBg = { a.checkBg with rd := rd } := by
  obtain ⟨rd0, conv, bg, rep, cur, typ⟩ := a
  simp only [checkBg]
  cases conv.globalPalette with
  | none => rfl
  | some p => simp only; split <;> rfl

theorem checkBg_keeps_rd (a : Decoder C) : a.checkBg.rd = a.rd := by
  unfold checkBg; split <;> (try split) <;> rfl

theorem checkBg_keeps_conv (a : Decoder C) : a.checkBg.conv = a.conv := by
  unfold checkBg; split <;> (try split) <;> rfl

theorem foldl_keeps_conv (evs : List Decoded) (d : Decoder C) :
    (evs.foldl onEvent d).conv.colorOutput = d.conv.colorOutput ∧ (evs.foldl onEvent d).conv.memoryLimit = d.conv.memoryLimit := by
  induction evs generalizing d with
  | nil => exact ⟨rfl, rfl⟩
  | cons ev evs ih =>
    rw [List.foldl_cons]
    obtain ⟨h1, h2⟩ := ih (d.onEvent ev)
    rw [h1, h2]
    cases ev <;> exact ⟨rfl, rfl⟩

/-- `read_info` on both decoders. The raw one may or may not have `check_lzw_end_code`. -/
theorem both_readInfo (K : C.Contract) (M : Check) (o : DecodeOptions) (hs : o.skipFrameDecoding = false)
    (hce : o.checkForEndCode = M.ck) (c0 : Bool) {more : List UInt8} {r r0 : Reader} (h : r.Reliable) (h0 : r0.Reliable) (hb : r0.bytes = r.bytes ++ more) (ok : Prop) :
    (more ≠ [] ∧ (readInfo C o r).2 = .ioErr .unexpectedEof) ∨
    ((readInfo C o r).2 = (readInfo C { o with skipFrameDecoding := true, checkForEndCode := c0 } r0).2 ∧
      ((readInfo C o r).2 = .ok () →
        Pair (readInfo C o r).1 (readInfo C { o with skipFrameDecoding := true, checkForEndCode := c0 } r0).1 ∧
        Phase K M True more ok (readInfo C o r).1 (readInfo C { o with skipFrameDecoding := true, checkForEndCode := c0 } r0).1 none ∧
        (readInfo C o r).1.currentFrame = (readInfo C { o with skipFrameDecoding := true, checkForEndCode := c0 } r0).1.currentFrame ∧
        (readInfo C o r).1.conv.colorOutput = o.colorOutput ∧ (readInfo C o r).1.conv.memoryLimit = o.memoryLimit)) := by
  have hS := K.safe
  have iv1 := inv_readInfo (C := C) hS o r
  have iv2 := inv_readInfo (C := C) hS { o with skipFrameDecoding := true, checkForEndCode := c0 } r0
  have i1 := inv_withNoInit (C := C) o r
  have i2 := inv_withNoInit (C := C) { o with skipFrameDecoding := true, checkForEndCode := c0 } r0
  have hsk2 : (readInfo C { o with skipFrameDecoding := true, checkForEndCode := c0 } r0).1.rd.sd.skipFrameDecoding = true :=
    readInfo_skip (C := C) hS { o with skipFrameDecoding := true, checkForEndCode := c0 } r0
  unfold readInfo init at *
  have w1 := initLoop_run hS _ (withNoInit C o r) i1.rd (meas_lt_fuel _)
  have w2 := initLoop_run hS _ (withNoInit C { o with skipFrameDecoding := true, checkForEndCode := c0 } r0) i2.rd (meas_lt_fuel _)
  obtain ⟨l1, n1⟩ := initRun_reliable w1 h
  obtain ⟨l2, n2⟩ := initRun_reliable w2 h0
  obtain ⟨evs1, o1, u1, e1, _, f1⟩ := initRun_upto hS w1 i1.rd (Reader.reliable_clean h) rfl
  obtain ⟨evs2, o2, u2, e2, _, f2⟩ := initRun_upto hS w2 i2.rd (Reader.reliable_clean h0) rfl
  generalize initLoop (withNoInit C o r).rd.eventFuel (withNoInit C o r) = x1 at *
  generalize initLoop (withNoInit C { o with skipFrameDecoding := true, checkForEndCode := c0 } r0).rd.eventFuel
    (withNoInit C { o with skipFrameDecoding := true, checkForEndCode := c0 } r0) = x2 at *
  obtain ⟨d, out⟩ := x1
  obtain ⟨d0, out0⟩ := x2
  simp only at *
  have m1 : ∀ c, o1 ≠ .err (.io (.reader c)) := by
    intro c ho; subst ho; exact n1 c f1
  have m2 : ∀ c, o2 ≠ .err (.io (.reader c)) := by
    intro c ho; subst ho; exact n2 c f2
  have hsd : (withNoInit C { o with skipFrameDecoding := true, checkForEndCode := c0 } r0).rd.sd =
      SD.raw (withNoInit C { o with skipFrameDecoding := true, checkForEndCode := c0 } r0).rd.sd.lzw (withNoInit C o r).rd.sd := rfl
  have hu : ∃ rr, SD.Upto isHeaderEnd (withNoInit C o r).rd.sd (withNoInit C o r).rd.reader.bytes evs1 rr := by
    cases o1 with
    | ok x => cases x with
      | some ev => exact ⟨_, u1.2.2⟩
      | none => exact ⟨_, u1.2⟩
    | err e =>
      rcases u1.2 with ⟨c, hc, _⟩ | ⟨_, _, q3⟩ | p
      · exact absurd (by rw [hc]) (m1 c)
      · exact ⟨_, q3⟩
      · exact ⟨_, p⟩
    | panic => exact u1.elim
    | diverge => exact u1.elim
  obtain ⟨rr, hu⟩ := hu
  have k1 := (uptoRes_det rfl u1 m1 hu).2
  have hl := SD.upto_init hS (withNoInit C { o with skipFrameDecoding := true, checkForEndCode := c0 } r0).rd.sd.lzw hu i1.rd.wf rfl hs rfl
  have key : ∀ q, SD.Upto isHeaderEnd (SD.raw (withNoInit C { o with skipFrameDecoding := true, checkForEndCode := c0 } r0).rd.sd.lzw (withNoInit C o r).rd.sd)
      (withNoInit C o r).rd.reader.bytes evs1 q → ((∀ s acc, q ≠ .more s acc) ∨ more = []) →
      SD.Upto isHeaderEnd (withNoInit C { o with skipFrameDecoding := true, checkForEndCode := c0 } r0).rd.sd
        (withNoInit C { o with skipFrameDecoding := true, checkForEndCode := c0 } r0).rd.reader.bytes evs1 (q.app more) := by
    intro q hq hr
    rw [hsd]
    rw [show (withNoInit C { o with skipFrameDecoding := true, checkForEndCode := c0 } r0).rd.reader.bytes =
      (withNoInit C o r).rd.reader.bytes ++ more from hb]
    rcases hr with hr | rfl
    · exact SD.upto_append hS hq (raw_wf i1.rd.wf rfl) more hr
    · rw [List.append_nil, SD.app_nil]; exact hq
  cases rr with
  | more s a =>
    replace k1 : o1 = .ioErr .unexpectedEof := k1
    subst k1
    by_cases hm : more = []
    · obtain ⟨s0, hl⟩ := hl
      have k2 : o2 = .ioErr .unexpectedEof := (uptoRes_det rfl u2 m2 (key _ hl (.inr hm))).2
      subst k2
      subst f1
      subst f2
      exact .inr ⟨rfl, by simp⟩
    · subst f1
      exact .inl ⟨hm, rfl⟩
  | err e =>
    replace k1 : o1 = .err e := k1
    have k2 : o2 = .err e := (uptoRes_det rfl u2 m2 (key _ hl (.inl (by simp)))).2
    subst k1
    subst k2
    subst f1
    subst f2
    exact .inr ⟨rfl, by simp⟩
  | event s a ev rest =>
    obtain ⟨g1, g2, g3, g4⟩ := hl
    obtain ⟨ks, kb, kc⟩ := k1
    obtain ⟨hev, js, jb, jc⟩ := uptoRes_det rfl u2 m2 (key _ g4 (.inl (by simp)))
    subst hev
    right
    rcases kc with ⟨q1, rfl, q3⟩ | ⟨q1, rfl, q3⟩
    · rcases jc with ⟨_, rfl, _⟩ | ⟨h, _⟩
      · subst f1
        subst f2
        exact ⟨rfl, by simp⟩
      · exact absurd q1 h
    · rcases jc with ⟨h, _⟩ | ⟨_, rfl, q4⟩
      · exact absurd h q1
      · subst f1
        subst f2
        refine ⟨rfl, fun _ => ?_⟩
        simp only at *
        have hfold : evs2.foldl onEvent (withNoInit C { o with skipFrameDecoding := true, checkForEndCode := c0 } r0) =
            { evs2.foldl onEvent (withNoInit C o r) with
              rd := (withNoInit C { o with skipFrameDecoding := true, checkForEndCode := c0 } r0).rd } :=
          foldl_rd evs2 (withNoInit C o r) (withNoInit C { o with skipFrameDecoding := true, checkForEndCode := c0 } r0).rd
        rw [hfold] at e2
        have hd : d0 = { d with rd := d0.rd } := by rw [e2, e1]
        have hd2 : d0.checkBg = { d.checkBg with rd := d0.rd } := by rw [hd, checkBg_rd]
        have hb0 : d0.rd.sd.lzw = (withNoInit C { o with skipFrameDecoding := true, checkForEndCode := c0 } r0).rd.sd.lzw := by rw [js]; rfl
        have hready : RD.Ready K M more d.checkBg.rd.sd d.checkBg.rd.reader.bytes d0.checkBg.rd := by
          refine ⟨iv1.1.rd.wf, ?_, ?_, ?_, ?_, ?_, ?_⟩
          · rw [checkBg_keeps_rd, ks]; exact g1
          · rw [checkBg_keeps_rd, ks]; exact g3
          · rw [checkBg_keeps_rd, ks, g2]; exact hce
          · rw [checkBg_keeps_rd, ks, g2]
            intro st hst
            cases hst
          · rw [checkBg_keeps_rd, checkBg_keeps_rd, hb0, js, ks]
          · rw [checkBg_keeps_rd, checkBg_keeps_rd, jb, kb]
        have hconv : d.checkBg.conv.colorOutput = o.colorOutput ∧ d.checkBg.conv.memoryLimit = o.memoryLimit := by
          rw [checkBg_keeps_conv, e1]
          exact foldl_keeps_conv evs2 (withNoInit C o r)
        refine ⟨⟨?_, ?_, ?_, ?_, ?_, ?_, ?_, iv1.1, iv2.1, hsk2⟩, .ahead ?_ ?_ (.inr (.inr ⟨fun _ => trivial, _, _, hready, .inl ⟨rfl, rfl⟩⟩)), ?_, hconv⟩
        · show d.checkBg.conv = d0.checkBg.conv
          rw [hd2]
        · show d.checkBg.bgColor = d0.checkBg.bgColor
          rw [hd2]
        · show d.checkBg.repetition = d0.checkBg.repetition
          rw [hd2]
        · rw [checkBg_keeps_rd, checkBg_keeps_rd, js, ks]; rfl
        · rw [checkBg_keeps_rd, checkBg_keeps_rd, js, ks]; rfl
        · rw [checkBg_keeps_rd]; exact l1
        · rw [checkBg_keeps_rd]; exact l2
        · rw [checkBg_keeps_rd]; exact q3
        · rw [checkBg_keeps_rd]; exact q4
        · show d.checkBg.currentFrame = d0.checkBg.currentFrame
          rw [hd2]

/-- What a decoder shows of a file or of the beginning of a file, in terms of the raw frames of the file, whether or not it
looks for the end codes. -/
theorem filmFrom_ghost (K : C.Contract) {lim : Prop} {g : Decoder C → Decoder C × Outcome (Option Frame)} (hg : Ghost K lim g) (M : Check) (o : DecodeOptions) (hs : o.skipFrameDecoding = false)
    (hce : o.checkForEndCode = M.ck) (c0 : Bool)
    {more : List UInt8} {r r0 : Reader} (h : r.Reliable) (h0 : r0.Reliable) (hb : r0.bytes = r.bytes ++ more)
    (acts : List Act) (k : Nat) (hk : Spec.seeks acts ≤ k) (outs : List Pixels)
    (hbad : ∀ e, .failed e ∈ ghostFilm g { o with checkForEndCode := c0 } r0 k → e ≠ .io .unexpectedEof ∧ (lim → e ≠ .format .memoryLimit))
    (hex : Spec.ExpandAll K (Spec.rawFrames (ghostFilm g { o with checkForEndCode := c0 } r0 k)) outs)
    (hok : (∀ px ∈ outs, px.2 ≠ .invalid) ∨ ∀ a ∈ acts, a = .info ∨ a = .read)
    (hsure : M.sure → (∀ px ∈ outs, px.2 = .ended) ∧ Spec.Drained acts none outs) :
    FilmRes M True more outs (filmFrom C o r acts)
      (match ghostFilm g { o with checkForEndCode := c0 } r0 k with
        | .opened v :: raw => .seen (.opened v) :: Spec.watch o.colorOutput o.memoryLimit acts v none raw outs
        | x => x.map .seen) := by
  have key := both_readInfo (C := C) K M o hs hce c0 h h0 hb (∀ px ∈ outs, px.2 ≠ .invalid)
  have hret := (inv_readInfo (C := C) K.safe o r).2
  have hret0 := (inv_readInfo (C := C) K.safe { o with skipFrameDecoding := true, checkForEndCode := c0 } r0).2
  unfold filmFrom ghostFilm at *
  generalize readInfo C o r = x1 at *
  generalize readInfo C { o with skipFrameDecoding := true, checkForEndCode := c0 } r0 = x2 at *
  obtain ⟨d, out⟩ := x1
  obtain ⟨d0, out0⟩ := x2
  simp only at *
  rcases key with ⟨hm, rfl⟩ | ⟨rfl, key⟩
  · refine filmRes_stop hm ?_
    cases out0 with
    | ok u => simp
    | err e => simp
    | panic => simp
    | diverge => simp
  · cases out with
    | ok u =>
      obtain ⟨k1, k2, k3, k4, k5⟩ := key rfl
      simp only at *
      have hv : d.view = d0.view := by rw [pair_view k1 k3]; rfl
      rw [← hv]
      refine filmRes_keep (fun _ => rfl) (fun _ h => by cases h) ?_
      refine film_ghost K hg acts k d d0 none outs True k1 k2 k4 k5 hk (fun e he => hbad e (List.mem_cons_of_mem _ he)) hex ?_ hok hsure
      intro px hpx hh
      exact hh px hpx
    | err e => exact filmRes_same _
    | panic => cases hret
    | diverge => cases hret

/-- What a decoder shows of a file or of the beginning of a file, in terms of the raw frames of the file, whether or not it
looks for the end codes. -/
theorem filmFrom_checked (K : C.Contract) (M : Check) (o : DecodeOptions) (hs : o.skipFrameDecoding = false)
    (hce : o.checkForEndCode = M.ck) (c0 : Bool)
    {more : List UInt8} {r r0 : Reader} (h : r.Reliable) (h0 : r0.Reliable) (hb : r0.bytes = r.bytes ++ more)
    (acts : List Act) (k : Nat) (hk : Spec.seeks acts ≤ k) (outs : List Pixels)
    (hbad : ∀ e, .failed e ∈ rawFilm C { o with checkForEndCode := c0 } r0 k → e ≠ .io .unexpectedEof ∧ e ≠ .format .memoryLimit)
    (hex : Spec.ExpandAll K (Spec.rawFrames (rawFilm C { o with checkForEndCode := c0 } r0 k)) outs)
    (hok : (∀ px ∈ outs, px.2 ≠ .invalid) ∨ ∀ a ∈ acts, a = .info ∨ a = .read)
    (hsure : M.sure → (∀ px ∈ outs, px.2 = .ended) ∧ Spec.Drained acts none outs) :
    FilmRes M True more outs (filmFrom C o r acts)
      (match rawFilm C { o with checkForEndCode := c0 } r0 k with
        | .opened v :: raw => .seen (.opened v) :: Spec.watch o.colorOutput o.memoryLimit acts v none raw outs
        | x => x.map .seen) := by
  rw [← ghostFilm_raw] at hbad hex ⊢
  exact filmFrom_ghost K (ghost_read K) M o hs hce c0 h h0 hb acts k hk outs (fun e he => ⟨(hbad e he).1, fun _ => (hbad e he).2⟩) hex hok hsure

/-- What a decoder shows of a file or of the beginning of a file, in terms of the raw frames of the file. -/
theorem filmFrom_watch (K : C.Contract) (o : DecodeOptions) (hs : o.skipFrameDecoding = false) (hce : o.checkForEndCode = false)
    {more : List UInt8} {r r0 : Reader} (h : r.Reliable) (h0 : r0.Reliable) (hb : r0.bytes = r.bytes ++ more)
    (acts : List Act) (k : Nat) (hk : Spec.seeks acts ≤ k) (outs : List Pixels)
    (hbad : ∀ e, .failed e ∈ rawFilm C o r0 k → e ≠ .io .unexpectedEof ∧ e ≠ .format .memoryLimit)
    (hex : Spec.ExpandAll K (Spec.rawFrames (rawFilm C o r0 k)) outs)
    (hok : (∀ px ∈ outs, px.2 ≠ .invalid) ∨ ∀ a ∈ acts, a = .info ∨ a = .read) :
    Spec.Follows more (filmFrom C o r acts)
      (match rawFilm C o r0 k with
        | .opened v :: raw => .seen (.opened v) :: Spec.watch o.colorOutput o.memoryLimit acts v none raw outs
        | x => x.map .seen) := by
  rcases (filmFrom_checked K .off o hs hce o.checkForEndCode h h0 hb acts k hk outs hbad hex hok fun h => h.elim).follows with h | ⟨h, _⟩
  · exact h
  · exact absurd h Check.off_may

/-- The same with raw frames whose data may be of any length. -/
theorem filmFrom_free (K : C.Contract) (o : DecodeOptions) (hs : o.skipFrameDecoding = false) (hce : o.checkForEndCode = false)
    {more : List UInt8} {r r0 : Reader} (h : r.Reliable) (h0 : r0.Reliable) (hb : r0.bytes = r.bytes ++ more)
    (acts : List Act) (k : Nat) (hk : Spec.seeks acts ≤ k) (outs : List Pixels)
    (hbad : ∀ e, .failed e ∈ ghostFilm (C := C) freeRead o r0 k → e ≠ .io .unexpectedEof)
    (hex : Spec.ExpandAll K (Spec.rawFrames (ghostFilm (C := C) freeRead o r0 k)) outs)
    (hok : (∀ px ∈ outs, px.2 ≠ .invalid) ∨ ∀ a ∈ acts, a = .info ∨ a = .read) :
    Spec.Follows more (filmFrom C o r acts)
      (match ghostFilm (C := C) freeRead o r0 k with
        | .opened v :: raw => .seen (.opened v) :: Spec.watch o.colorOutput o.memoryLimit acts v none raw outs
        | x => x.map .seen) := by
  rcases (filmFrom_ghost K (ghost_free K) .off o hs hce o.checkForEndCode h h0 hb acts k hk outs
    (fun e he => ⟨hbad e he, fun h => h.elim⟩) hex hok fun h => h.elim).follows with h | ⟨h, _⟩
  · exact h
  · exact absurd h Check.off_may

end Decoder

end Gif
