import Verif.Lemmas.FrameDec
import Verif.Spec.History
import Verif.Lemmas.Bytes
import Verif.Lemmas.Enc
/-!
# `FrameDecoder`: C22, C23
-/

namespace Gif

open Spec (Pixels deliver shown picture rawFrames Sane ExpandAll)

variable {C : Codec}

namespace FrameDecoder

theorem Reach.inv (K : C.Contract) {o : DecodeOptions} {d : FrameDecoder C} (h : Reach o d) :
    K.Fit d.lzw ∧ d.lzw.checkForEndCode = o.checkForEndCode ∧ d.conv.colorOutput = o.colorOutput ∧
      d.conv.memoryLimit = o.memoryLimit := by
  induction h with
  | new => exact ⟨(fun st h => by cases h), rfl, rfl, rfl⟩
  | setGlobalPalette h p ih => exact ih
  | decodeFrame h f _ ih =>
    obtain ⟨h1, h2, h3⟩ := decodeFrame_keeps K ih.1 f
    exact ⟨h1, h2.trans ih.2.1, by rw [h3]; exact ih.2.2.1, by rw [h3]; exact ih.2.2.2⟩
  | decodeIntoBuffer h f buf _ ih =>
    obtain ⟨h1, h2, h3⟩ := decodeIntoBuffer_keeps K ih.1 f buf
    exact ⟨h1, h2.trans ih.2.1, by rw [h3]; exact ih.2.2.1, by rw [h3]; exact ih.2.2.2⟩

/-- The code sizes of the encoder are accepted. -/
theorem codeSize_ok {m : UInt8} (h2 : 2 ≤ m.toNat) (h8 : m.toNat ≤ 8) : LzwReader.codeSizeOk m = true := by
  unfold LzwReader.codeSizeOk
  have h1 : ¬ m > 11 := by rw [gt_iff_lt, UInt8.lt_iff_toNat_lt, show (11 : UInt8).toNat = 11 from rfl]; omega
  have h3 : ¬ m < 1 := by rw [UInt8.lt_iff_toNat_lt, show (1 : UInt8).toNat = 1 from rfl]; omega
  simp [h1, h3]

/-- C22 in any colour mode: `decode_lzw_encoded_frame` makes of a frame that was compressed by `make_lzw_pre_encoded` the picture
that its palette indices describe, row by row from top to bottom. It makes no difference how the `FrameDecoder` was used before.
Missing: compressed data of at most `n` bytes, if the codec may hold back that much on its first call. -/
theorem restores_picture_partial (K : C.Contract) {n : Nat} (hp : K.Prompt n) {o : DecodeOptions} {d : FrameDecoder C} (hd : Reach o d)
    (f : Frame) (hlen : f.width.toNat * f.height.toNat ≤ f.buffer.length) (hpos : 0 < f.width.toNat * f.height.toNat)
    (hlim : o.memoryLimit.bufferSize o.colorOutput f.width f.height ≠ none)
    (hn : n = 0 ∨ n + 1 < (f.makeLzwPreEncoded C).buffer.length) :
    (d.decodeFrame (f.makeLzwPreEncoded C)).2 =
      (shown o.colorOutput d.conv.globalPalette f f.buffer, .ok ()) := by
  obtain ⟨h1, h2, h3, h4⟩ := hd.inv K
  obtain ⟨m1, m2, m3, -⟩ := minCodeSizeFor_spec f.buffer
  have hbuf : (f.makeLzwPreEncoded C).buffer = minCodeSizeFor f.buffer :: C.encode (minCodeSizeFor f.buffer) f.buffer :=
    Encoder.lzwEncode_nil C f.buffer
  have hy := K.roundtrip (m := minCodeSizeFor f.buffer) (data := f.buffer)
    (by rw [UInt8.le_iff_toNat_le]; exact m1) (by rw [UInt8.le_iff_toNat_le]; exact m2) m3
  have hn' : n < (C.encode (minCodeSizeFor f.buffer) f.buffer).length ∨ C.encode (minCodeSizeFor f.buffer) f.buffer = [] := by
    rcases hn with rfl | hn
    · cases C.encode (minCodeSizeFor f.buffer) f.buffer <;> simp
    · rw [hbuf, List.length_cons] at hn
      exact .inl (by omega)
  rw [decodeFrame_deliver K hp h1 (f.makeLzwPreEncoded C) _ _ hbuf (codeSize_ok m1 m2) f.buffer .ended hy hn' (.inr rfl) hpos
    (fun h => by cases h)]
  unfold deliver
  rw [h3, h4]
  cases hsz : o.memoryLimit.bufferSize o.colorOutput (f.makeLzwPreEncoded C).width (f.makeLzwPreEncoded C).height with
  | none => exact absurd hsz hlim
  | some sz =>
    simp only
    rw [if_neg (by simp), if_neg (by show ¬ f.buffer.length < f.width.toNat * f.height.toNat; omega)]
    rfl

/-- C22: in the mode `Indexed`, `decode_lzw_encoded_frame` gives back the pixels that were compressed by `make_lzw_pre_encoded`.
Missing: as in `restores_picture_partial`. -/
theorem restores_partial (K : C.Contract) {n : Nat} (hp : K.Prompt n) {o : DecodeOptions} {d : FrameDecoder C} (hd : Reach o d)
    (ho : o.colorOutput = .indexed)
    (f : Frame) (hi : f.interlaced = false) (hlen : f.buffer.length = f.width.toNat * f.height.toNat)
    (hpos : 0 < f.width.toNat * f.height.toNat)
    (hlim : o.memoryLimit.sizeOk (f.width.toNat * f.height.toNat) = true)
    (hn : n = 0 ∨ n + 1 < (f.makeLzwPreEncoded C).buffer.length) :
    (d.decodeFrame (f.makeLzwPreEncoded C)).2 = ({ f with ownedCap := some f.buffer.length }, .ok ()) := by
  have hsz : o.memoryLimit.bufferSize o.colorOutput f.width f.height ≠ none := by
    intro h
    rcases (Converter.mk o.memoryLimit o.colorOutput none).checkBufferSize_cases f with ⟨h1, -⟩ | ⟨-, h1⟩
    · simp only [Converter.checkBufferSize, h] at h1
      cases h1
    · rw [Converter.bufferSize_eq] at h1
      simp only [Converter.chan, ho, Nat.one_mul, hlim] at h1
      cases h1
  rw [restores_picture_partial K hp hd f (by omega) hpos hsz hn]
  have hpic : picture o.colorOutput d.conv.globalPalette f f.buffer = f.buffer := by
    rw [ho]
    simp only [picture, Spec.colours, Spec.pixelOrder, hi]
    rw [← hlen]
    simp
  simp only [shown, hpic, hi]

/-- Expands the raw frames that a decoder with `skip_frame_decoding` has read, one after the other with the same `FrameDecoder`, which is
told the global palette at the start. `prev` is the last frame. -/
def develop (d : FrameDecoder C) (prev : Frame) : List Seen → List Seen
  | [] => []
  | .opened v :: l => .opened v :: develop (d.setGlobalPalette (v.globalPalette.getD [])) v.currentFrame l
  | .frame (some f) v :: l =>
    match d.decodeFrame f with
    | (d', g, .ok ()) => .frame (some g) { v with currentFrame := g } :: develop d' g l
    | (_, _, .err e) => [.failed e]
    | _ => [.crashed]
  | .frame none v :: l => .frame none { v with currentFrame := prev } :: develop d prev l
  | x :: l => x :: develop d prev l

end FrameDecoder

namespace Decoder

theorem film_session (C : Codec) : ∀ (k : Nat) (d : Decoder C) (live : Bool),
    film (List.replicate k .read) d live = (session (List.replicate k .read) d).map .seen := by
  intro k
  induction k with
  | zero => intro d live; rfl
  | succ k ih =>
    intro d live
    simp only [List.replicate_succ, film, session, act, see]
    generalize d.readNextFrame = x
    obtain ⟨d', out⟩ := x
    cases out with
    | ok f => simp only [List.map_cons, List.singleton_append, ih]
    | err e => rfl
    | panic => rfl
    | diverge => rfl

theorem filmFrom_session (C : Codec) (o : DecodeOptions) (r : Reader) (k : Nat) :
    filmFrom C o r (List.replicate k .read) = (sessionFrom C o r (List.replicate k .read)).map .seen := by
  unfold filmFrom sessionFrom
  generalize readInfo C o r = x
  obtain ⟨d, out⟩ := x
  cases out with
  | ok u => simp only [List.map_cons, film_session]
  | err e => rfl
  | panic => rfl
  | diverge => rfl

/-- In raw mode, the code size of a frame that was found is one that the decoder supports. -/
theorem skip_codeSize (hS : C.Safe) {d : Decoder C} (hi : d.Inv) (h : d.nextFrameInfo.2 = .ok true) {m : UInt8}
    (hm : d.nextFrameInfo.1.dataType = .lzw m) : LzwReader.codeSizeOk m = true := by
  have hr := nextFrameInfo_run hS d hi.rd
  generalize hx : d.nextFrameInfo = x at *
  obtain ⟨d', out⟩ := x
  simp only at *
  clear hx
  have hi' := hi.rd
  clear hi
  induction hr with
  | step hp hev hr ih => exact ih h hm (RD.pull_inv hS hp hi')
  | found hp hc =>
    obtain ⟨s1, b, bs, n, hw, _, _, htr, ho, _⟩ := RD.pull_last hS hp hi' rfl
    obtain ⟨_, ⟨left, g1, g2⟩ | ⟨left, m', g1, g2, g3⟩⟩ := SD.tr_metadata htr hw
    · rw [g2] at hm; cases hm
    · rw [g2] at hm; cases hm; exact g3
  | eof => cases h
  | err => cases h

theorem readNextFrame_some {d : Decoder C} {f : Frame} (h : d.readNextFrame.2 = .ok (some f)) :
    d.nextFrameInfo.2 = .ok true := by
  unfold readNextFrame at h
  generalize d.nextFrameInfo = x at *
  obtain ⟨d', out⟩ := x
  cases out with
  | ok b => cases b with
    | true => rfl
    | false => cases h
  | err e => cases h
  | panic => cases h
  | diverge => cases h

/-- What there is in a raw session. The global palette is the same all the time, and the code sizes are supported. -/
theorem raw_session (hS : C.Safe) : ∀ (k : Nat) (d : Decoder C), d.Inv → d.rd.sd.skipFrameDecoding = true →
    (∀ x ∈ session (List.replicate k .read) d, (∃ f v, x = .frame f v ∧ v.globalPalette = d.globalPalette) ∨ ∃ e, x = .failed e) ∧
    (∀ x l e, session (List.replicate k .read) d = x ++ .failed e :: l → l = []) ∧
    (session (List.replicate k .read) d).length ≤ k ∧
    ∀ f ∈ rawFrames (session (List.replicate k .read) d), ∃ m data, f.buffer = m :: data ∧ LzwReader.codeSizeOk m = true := by
  intro k
  induction k with
  | zero =>
    intro d _ _
    refine ⟨(fun x h => by cases h), (fun x l e h => ?_), Nat.le_refl _, (fun f hf => by cases hf)⟩
    simp [session] at h
  | succ k ih =>
    intro d hi hk
    rw [List.replicate_succ, session]
    simp only [see]
    obtain ⟨hinv, hret, hconv, -, -, hframe, -⟩ := readNextFrame_spec hS d hi
    have hopt := readNextFrame_opts hS d hi
    simp only [SD.opts, Prod.mk.injEq] at hopt
    have hty := skip_dataType hS hi hk
    have hcs := fun m h h' => skip_codeSize hS hi (m := m) h h'
    have hfound := fun f => readNextFrame_some (d := d) (f := f)
    generalize d.readNextFrame = x at *
    obtain ⟨d', out⟩ := x
    simp only at *
    cases out with
    | ok f =>
      obtain ⟨i1, i2, i3, i4⟩ := ih d' hinv (hopt.1.trans hk)
      have hg : d'.globalPalette = d.globalPalette := by unfold globalPalette; rw [hconv]
      simp only
      refine ⟨fun x h => ?_, fun x l e h => ?_, by simp only [List.length_cons]; omega, fun f' hf => ?_⟩
      · rcases List.mem_cons.mp h with rfl | h
        · exact .inl ⟨_, _, rfl, hg⟩
        · rw [← hg]; exact i1 x h
      · cases x with
        | nil => simp at h
        | cons y x =>
          simp only [List.cons_append, List.cons.injEq] at h
          exact i2 x l e h.2
      · cases f with
        | none => exact i4 f' hf
        | some g =>
          simp only [rawFrames, List.mem_cons] at hf
          rcases hf with rfl | hf
          · obtain ⟨-, -, -, -, -, h6⟩ := hframe f' rfl
            replace hfound := hfound f' rfl
            obtain ⟨m, hm⟩ := hty hfound
            obtain ⟨data, hb⟩ := h6 m hm
            exact ⟨m, data, hb, hcs m hfound hm⟩
          · exact i4 f' hf
    | err e =>
      refine ⟨fun x h => ?_, fun x l e' h => ?_, by simp, (fun f hf => by cases hf)⟩
      · simp only [List.mem_singleton] at h
        exact .inr ⟨e, h⟩
      · cases x with
        | nil => simp only [List.nil_append, List.cons.injEq] at h; exact h.2.symm
        | cons y x => simp at h
    | panic => cases hret
    | diverge => cases hret

theorem initLoop_palette : ∀ (fuel : Nat) (d : Decoder C), d.globalPalette ≠ some [] → (initLoop fuel d).1.globalPalette ≠ some [] := by
  intro fuel
  induction fuel with
  | zero => intro d h; exact h
  | succ fuel ih =>
    intro d h
    rw [initLoop]
    split
    · exact ih _ h
    · rename_i rd p _
      refine ih _ ?_
      simp only [globalPalette, Converter.setGlobalPalette]
      cases p with
      | nil => simp
      | cons a p => simp
    · exact ih _ h
    · exact h
    · exact ih _ h
    all_goals exact h

theorem readInfo_palette (C : Codec) (o : DecodeOptions) (r : Reader) : (readInfo C o r).1.globalPalette ≠ some [] := by
  unfold readInfo init
  have h := initLoop_palette (withNoInit C o r).rd.eventFuel (withNoInit C o r) (by simp [globalPalette, withNoInit, Converter.new])
  split
  · rename_i he
    rw [he] at h
    rw [globalPalette, checkBg_keeps_conv]
    exact h
  all_goals (rename_i he; rw [he] at h; exact h)

end Decoder

namespace FrameDecoder

open Decoder

theorem develop_watch (K : C.Contract) {n : Nat} (hp : K.Prompt n) (g : Option (List UInt8)) : ∀ (raw : List Seen)
    (d : FrameDecoder C) (v : View) (outs : List Pixels) (k : Nat), K.Fit d.lzw → d.lzw.checkForEndCode = false →
    d.conv.globalPalette = g → ExpandAll K (rawFrames raw) outs → raw.length ≤ k →
    (∀ x ∈ raw, (∃ f v, x = .frame f v ∧ v.globalPalette = g) ∨ ∃ e, x = .failed e) →
    (∀ x l e, raw = x ++ .failed e :: l → l = []) →
    (∀ f ∈ rawFrames raw, ∃ m data, f.buffer = m :: data ∧ LzwReader.codeSizeOk m = true ∧ (n < data.length ∨ data = [])) →
    Spec.watch d.conv.colorOutput d.conv.memoryLimit (List.replicate k .read) v none raw outs =
      (develop d v.currentFrame raw).map .seen := by
  intro raw
  induction raw with
  | nil =>
    intro d v outs k _ _ _ _ _ _ _ _
    cases k <;> simp [List.replicate_succ, Spec.watch, develop]
  | cons x raw ih =>
    intro d v outs k hfit hck hg hex hk hraw hlast hbuf
    obtain ⟨k, rfl⟩ : ∃ k', k = k' + 1 := ⟨k - 1, by simp only [List.length_cons] at hk; omega⟩
    have hraw' := fun y hy => hraw y (List.mem_cons_of_mem _ hy)
    have hlast' : ∀ y l e, raw = y ++ .failed e :: l → l = [] := fun y l e h => hlast (x :: y) l e (by rw [h]; rfl)
    simp only [List.length_cons, Nat.add_le_add_iff_right] at hk
    rw [List.replicate_succ]
    rcases hraw x (List.mem_cons_self ..) with ⟨f, v0, rfl, hv0⟩ | ⟨e, rfl⟩
    · cases f with
      | none =>
        simp only [Spec.watch, develop, List.map_cons]
        congr 1
        exact ih d _ outs k hfit hck hg hex hk hraw' hlast' hbuf
      | some f =>
        cases outs with
        | nil => exact absurd hex (by simp [rawFrames, ExpandAll])
        | cons px outs =>
          simp only [rawFrames, ExpandAll] at hex hbuf
          obtain ⟨⟨⟨m', data', hb', hy⟩, hpos, hinv⟩, hex⟩ := hex
          obtain ⟨m, data, hb, hm, hn⟩ := hbuf f (List.mem_cons_self ..)
          have hb2 := hb.symm.trans hb'
          rw [List.cons.injEq] at hb2
          obtain ⟨rfl, rfl⟩ := hb2
          have hdel := decodeFrame_deliver K hp hfit f m data hb hm px.1 px.2 hy hn (.inl hck) hpos hinv
          obtain ⟨k1, k2, k3⟩ := decodeFrame_keeps K hfit f
          simp only [Spec.watch, develop, hv0]
          rw [hg] at hdel
          have hpx : (px.1, px.2) = px := rfl
          rw [hpx] at hdel
          generalize d.decodeFrame f = y at *
          obtain ⟨d', f', out⟩ := y
          simp only at hdel k1 k2 k3
          cases hdl : deliver d.conv.colorOutput d.conv.memoryLimit g f px with
          | error e =>
            rw [hdl] at hdel
            cases hdel
            rfl
          | ok f1 =>
            rw [hdl] at hdel
            cases hdel
            simp only [List.map_cons]
            congr 1
            have := ih d' { v0 with currentFrame := f' } outs k k1 (k2.trans hck) (by rw [k3]; exact hg) hex hk hraw' hlast'
              (fun f hf => hbuf f (List.mem_cons_of_mem _ hf))
            rw [k3, hv0] at this
            exact this
    · have := hlast [] raw e rfl
      subst this
      simp only [Spec.watch, develop]
      rfl

/-- C23: a session with `skip_frame_decoding` whose raw frames are expanded with a `FrameDecoder` gives the same frames, the same
answers of the accessors and the same errors as a session that reads the pixels directly. The readers may hand over the
bytes in different pieces. Missing: files that end within the compressed data of a frame, frames whose data exceed the memory limit
or have an invalid code behind the last pixel, the option `check_lzw_end_code`; and compressed data of at most `n` bytes, if the
codec may hold back that much on its first call. -/
theorem skip_then_expand_partial (K : C.Contract) {n : Nat} (hp : K.Prompt n) (o : DecodeOptions) (hs : o.skipFrameDecoding = false)
    (hce : o.checkForEndCode = false) {r1 r2 : Reader} (h1 : r1.Reliable) (h2 : r2.Reliable) (hb : r1.bytes = r2.bytes)
    (k : Nat) (hsane : Sane K o r1 k)
    (hn : n = 0 ∨ ∀ f ∈ rawFrames (rawFilm C o r1 k), n + 1 < f.buffer.length) :
    sessionFrom C o r2 (List.replicate k .read) = develop (new C o) Frame.default (rawFilm C o r1 k) := by
  have hseeks : ∀ k, Spec.seeks (List.replicate k .read) = k := by
    intro k
    induction k with
    | zero => rfl
    | succ k ih => rw [List.replicate_succ, Spec.seeks, ih]
  obtain ⟨outs, hex, hf⟩ := filmFrom_screening K o hs hce h1 (List.replicate k .read) k (by rw [hseeks]; omega) hsane
    (.inr fun a ha => .inr (List.eq_of_mem_replicate ha))
  have hf2 := follows_nil (hf h2 (by rw [hb, List.append_nil]))
  rw [filmFrom_session] at hf2
  have hinj : ∀ l l' : List Seen, l.map Got.seen = l'.map Got.seen → l = l' := by
    intro l l' h
    induction l generalizing l' with
    | nil => cases l' with
      | nil => rfl
      | cons => cases h
    | cons a l ih => cases l' with
      | nil => cases h
      | cons b l' =>
        simp only [List.map_cons, List.cons.injEq, Got.seen.injEq] at h
        rw [h.1, ih _ h.2]
  apply hinj
  rw [hf2]
  clear hf2 hf
  have hi := inv_readInfo K.safe { o with skipFrameDecoding := true } r1
  have ho := readInfo_skip K.safe { o with skipFrameDecoding := true } r1
  have hpal := readInfo_palette C { o with skipFrameDecoding := true } r1
  unfold screening
  unfold rawFilm sessionFrom at hex hn ⊢
  generalize readInfo C { o with skipFrameDecoding := true } r1 = x at *
  obtain ⟨d, out⟩ := x
  cases out with
  | ok u =>
    simp only [develop, List.map_cons]
    congr 1
    obtain ⟨i1, i2, i3, i4⟩ := raw_session K.safe k d hi.1 ho
    have hg : ((new C o).setGlobalPalette (d.view.globalPalette.getD [])).conv.globalPalette = d.globalPalette := by
      show (if (d.globalPalette.getD []).isEmpty then none else some (d.globalPalette.getD [])) = d.globalPalette
      have hpal' : d.globalPalette ≠ some [] := hpal
      cases hd : d.globalPalette with
      | none => rfl
      | some p => cases p with
        | nil => exact absurd hd hpal'
        | cons a p => rfl
    refine develop_watch K hp d.globalPalette _ _ d.view outs k (fun st h => by cases h) hce hg hex i3 i1 i2 ?_
    intro f hf
    obtain ⟨m, data, h1, h2⟩ := i4 f hf
    refine ⟨m, data, h1, h2, ?_⟩
    rcases hn with rfl | hn
    · cases data <;> simp
    · have := hn f hf
      rw [h1, List.length_cons] at this
      exact .inl (by omega)
  | err e => rfl
  | panic => cases hi.2
  | diverge => cases hi.2

end FrameDecoder

end Gif
