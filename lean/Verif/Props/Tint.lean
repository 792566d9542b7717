import Verif.Lemmas.Twin
import Verif.Props.Chunks
/-!
# C17, C18 for `read_next_frame` and for sessions, without conditions on the file

The theorems hold for every LZW decompressor that does not write beyond its buffer, in every state a program can reach, for
damaged files and failing readers as well.
-/

namespace Gif.Converter

open Spec

/-- `read_frame` for a frame without a buffer. -/
theorem readFrame_fresh {τ : Type} (c : Converter) (f : Frame) (cb : Callback τ) (t : τ) (h1 : f.buffer = [])
    (h2 : f.ownedCap = none) :
    c.readFrame f cb t =
      if c.memoryLimit.bufferSize c.colorOutput f.width f.height = none then (t, f, .ioErr .outOfMemory)
      else match c.readIntoBuffer f cb t (List.replicate (c.bufferSize f) 0) with
        | (t, vec, .ok ()) => (t, { f with buffer := vec, ownedCap := some vec.length, interlaced := false }, .ok ())
        | (t, _, .err e) => (t, f, .err e)
        | (t, _, .panic) => (t, f, .panic)
        | (t, _, .diverge) => (t, f, .diverge) := by
  have hf : ({ f with buffer := [], ownedCap := none } : Frame) = f := by cases f; simp only at h1 h2; subst h1 h2; rfl
  unfold readFrame
  rcases checkBufferSize_cases c f with ⟨k1, _⟩ | ⟨k1, _⟩
  · rw [k1]
    unfold checkBufferSize at k1
    have hn : c.memoryLimit.bufferSize c.colorOutput f.width f.height ≠ none := by
      intro h; rw [h] at k1; cases k1
    rw [if_neg hn]
    simp only [hf]
    have : frameBuffer f (c.bufferSize f) = List.replicate (c.bufferSize f) 0 := by simp [frameBuffer, h2]
    rw [this]
    generalize c.readIntoBuffer f cb t (List.replicate (c.bufferSize f) 0) = x
    obtain ⟨t', v, r⟩ := x
    cases r <;> rfl
  · rw [k1]
    unfold checkBufferSize at k1
    have hn : c.memoryLimit.bufferSize c.colorOutput f.width f.height = none := by
      cases hb : c.memoryLimit.bufferSize c.colorOutput f.width f.height with
      | none => rfl
      | some n => rw [hb] at k1; simp only at k1; split at k1 <;> cases k1
    rw [if_pos hn]

end Gif.Converter

namespace Gif.Decoder

open Spec

variable {C : Codec}

/-- C17: what `read_next_frame` returns, on every file and after any calls: `next_frame_info` finds the frame; then exactly
`width * height` palette indices are fetched from the stream; and the frame is the picture that they describe, see
`picture_rows` and `picture_rgba`. -/
theorem read_next_frame_picture (hS : C.Safe) {o : DecodeOptions} {r : Reader} {d d' : Decoder C} (h : Reach o r d)
    (hs : o.skipFrameDecoding = false) {f : Frame} (hr : d.readNextFrame = (d', .ok (some f))) :
    ∃ d1 px, d.nextFrameInfo = (d1, .ok true) ∧ Fetched RD.decodeNextBytes d1.rd px d'.rd ∧
      px.length = d1.currentFrame.width.toNat * d1.currentFrame.height.toNat ∧
      f = shown o.colorOutput d.globalPalette d1.currentFrame px := by
  obtain ⟨hi, hc, _⟩ := reach_inv hS h
  have hk := (reach_skip hS h).trans hs
  have hrun := nextFrameInfo_run hS d hi.rd
  obtain ⟨p1, p2, p3, p4, p5, p6, p7, p8⟩ := frameRun_spec hS hrun hi.rd
  have ht := frameRun_type hS hrun hi.rd hk
  match hx : d.nextFrameInfo with
  | (d1, .ok true) =>
    rw [hx] at ht p7 p4
    obtain ⟨b1, b2, _⟩ := p7 rfl
    simp only at b1 b2 p4
    rw [readNextFrame_pixels hx (ht rfl), Converter.readFrame_fresh _ _ _ _ b1 b2] at hr
    split at hr
    · rename_i heq
      split at heq
      · cases heq
      · split at heq
        · rename_i vec hv
          cases heq
          cases hr
          obtain ⟨px, g1, g2, g3⟩ := Converter.readIntoBuffer_fetch _ _ _ hv
          refine ⟨d1, px, rfl, g1, g2, ?_⟩
          have hco : d1.conv.colorOutput = o.colorOutput := by rw [p4, hc]; exact (readInfo_conv hS o r).2
          unfold shown globalPalette
          rw [← hco, ← p4, ← g3]
        all_goals cases heq
    all_goals cases hr
  | (d1, .ok false) => unfold readNextFrame at hr; rw [hx] at hr; cases hr
  | (d1, .err e) => unfold readNextFrame at hr; rw [hx] at hr; cases hr
  | (d1, .panic) => unfold readNextFrame at hr; rw [hx] at hr; cases hr
  | (d1, .diverge) => unfold readNextFrame at hr; rw [hx] at hr; cases hr

theorem colours_rgba_length (p : List UInt8) (t : Option UInt8) (px : List UInt8) :
    (colours .rgba p t px).length = 4 * px.length := by
  rw [colours_length, channels, Nat.mul_comm]

theorem tint_shown (g : Option (List UInt8)) (f : Frame) (px : List UInt8) :
    tint g { f with buffer := px, ownedCap := some px.length, interlaced := false } =
      { f with buffer := colours .rgba (paletteOf g f) f.transparent px
               ownedCap := some (colours .rgba (paletteOf g f) f.transparent px).length, interlaced := false } := by
  rw [colours_rgba_length]
  rfl

theorem twins_read (hS : C.Safe) {a b : Decoder C} (h : Twins a b) :
    (∃ a' b' f, a.readNextFrame = (a', .ok f) ∧ b.readNextFrame = (b', .ok (f.map (tint a'.globalPalette))) ∧ Twins a' b') ∨
    (∃ a' b' e, a.readNextFrame = (a', .err e) ∧ b.readNextFrame = (b', .err e)) ∨
    (∃ a' b' e, a.readNextFrame = (a', .err e) ∧ b.readNextFrame = (b', .fmtErr .oddSizedBuffer)) ∨
    (∃ a' b' f, a.readNextFrame = (a', .ok (some f)) ∧ b.readNextFrame = (b', .ioErr .outOfMemory) ∧
      a.conv.memoryLimit.bufferSize .rgba f.width f.height = none) ∨
    (∃ a' b' e, a.readNextFrame = (a', .err e) ∧ b.readNextFrame = (b', .ioErr .outOfMemory) ∧
      a.conv.memoryLimit ≠ .unlimited) := by
  obtain ⟨i1, i2, i3, _⟩ := readNextFrame_spec hS a h.inv
  have iop := readNextFrame_opts hS a h.inv
  have hcv := (frameRun_spec hS (nextFrameInfo_run hS a h.inv.rd) h.inv.rd).2.2.2.1
  rcases twins_info hS h with ⟨a1, b1, found, ha, hb, ht, hfound⟩ | ⟨a1, b1, e, ha, hb⟩
  · rw [ha] at hcv
    simp only at hcv
    cases found with
    | false =>
      left
      have ea : a.readNextFrame = (a1, .ok none) := by unfold readNextFrame; rw [ha]
      have eb : b.readNextFrame = (b1, .ok none) := by unfold readNextFrame; rw [hb]
      exact ⟨a1, b1, none, ea, eb, ht⟩
    | true =>
      obtain ⟨c1, c2, c3, c4, c5⟩ := hfound rfl
      have hga : a1.globalPalette = b1.globalPalette := ht.global
      have ea := readNextFrame_pixels ha c4
      have eb := readNextFrame_pixels hb c5
      rw [Converter.readFrame_fresh _ _ _ _ c2 c3, ht.indexed] at ea
      rw [← c1, Converter.readFrame_fresh _ _ _ _ c2 c3, ht.rgba, ← ht.rd, ← ht.limit] at eb
      have hlim : a1.conv.memoryLimit = a.conv.memoryLimit := by rw [hcv]
      rcases bufferSize_rgba a1.conv.memoryLimit a1.currentFrame.width a1.currentFrame.height with hm | ⟨hm, hu⟩
      · rw [bufferSize_indexed hm, if_neg (by simp)] at ea
        rw [hm, if_neg (by simp)] at eb
        rcases twins_into a1.conv b1.conv a1.currentFrame RD.decodeNextBytes a1.rd ht.indexed ht.rgba ht.global with
          ⟨t', px, rr, k1, px', k2, k3⟩ | ⟨k1, k2⟩
        · rw [k1] at ea
          rw [k2] at eb
          cases rr with
          | ok u =>
            cases u
            left
            simp only at ea eb
            rw [k3 rfl] at eb
            have hts := tint_shown a1.conv.globalPalette a1.currentFrame px
            let g : Frame := { a1.currentFrame with buffer := px, ownedCap := some px.length, interlaced := false }
            refine ⟨_, { b1 with rd := t', currentFrame := tint a1.conv.globalPalette g }, _, ea, ?_,
              ⟨⟨rfl, ht.global, ht.limit, ht.bg, ht.rep⟩, ht.indexed, ht.rgba, rfl, ?_, ?_⟩⟩
            · rw [eb]
              have hg : ∀ (x : RD C) (y : Frame), globalPalette { a1 with rd := x, currentFrame := y } = a1.conv.globalPalette :=
                fun _ _ => rfl
              simp only [Option.map_some, g, hg, hts]
            · rw [ea] at i1; exact i1
            · rw [ea] at iop; exact Twins.opts iop h.skip
          | err e => right; left; exact ⟨_, _, e, ea, eb⟩
          | panic => simp only at ea; rw [ea] at i2; cases i2
          | diverge => simp only at ea; rw [ea] at i2; cases i2
        · right; right; left
          generalize a1.conv.readIntoBuffer a1.currentFrame RD.decodeNextBytes a1.rd
            (List.replicate (a1.conv.bufferSize a1.currentFrame) 0) = x at *
          generalize b1.conv.readIntoBuffer a1.currentFrame RD.decodeNextBytes a1.rd
            (List.replicate (b1.conv.bufferSize a1.currentFrame) 0) = y at *
          obtain ⟨t1, px, ra⟩ := x
          obtain ⟨t2, py, rb⟩ := y
          simp only at k1 k2
          subst k2
          cases ra with
          | ok u => cases u; exact absurd rfl k1
          | err e => exact ⟨_, _, e, ea, eb⟩
          | panic => simp only at ea; rw [ea] at i2; cases i2
          | diverge => simp only at ea; rw [ea] at i2; cases i2
      · rw [hm, if_pos rfl] at eb
        simp only at eb
        right; right; right
        match hx : a.readNextFrame with
        | (a', .ok (some f)) =>
          left
          refine ⟨a', _, f, rfl, eb, ?_⟩
          rw [hx] at ea
          have hwh : f.width = a1.currentFrame.width ∧ f.height = a1.currentFrame.height := by
            split at ea
            · rename_i heq
              split at heq
              · cases heq
              · split at heq
                · cases heq; cases ea; exact ⟨rfl, rfl⟩
                all_goals cases heq
            all_goals cases ea
          rw [hwh.1, hwh.2, ← hlim]; exact hm
        | (a', .ok none) =>
          rw [hx] at ea
          exfalso
          split at ea <;> cases ea
        | (a', .err e) => right; exact ⟨a', _, e, rfl, eb, by rw [← hlim]; exact hu⟩
        | (a', .panic) => rw [hx] at i2; cases i2
        | (a', .diverge) => rw [hx] at i2; cases i2
  · right; left
    exact ⟨a1, b1, e, by unfold readNextFrame; rw [ha], by unfold readNextFrame; rw [hb]⟩

theorem channels_chan (c : Converter) : c.chan = channels c.colorOutput := by
  unfold Converter.chan channels; cases c.colorOutput <;> rfl

theorem twins_fill (hS : C.Safe) {a b : Decoder C} (h : Twins a b) (n : Nat) :
    (∃ a' b' px, a.fillBuffer (List.replicate (n + 1) 0) = (a', px, .ok true) ∧
      b.fillBuffer (List.replicate ((n + 1) * 4) 0) = (b', tintBuf a.view px, .ok true) ∧ Twins a' b' ∧ a'.globalPalette = a.globalPalette ∧ a'.currentFrame = a.currentFrame) ∨
    (∃ a' b' px k, a.fillBuffer (List.replicate (n + 1) 0) = (a', px ++ List.replicate k 0, .ok false) ∧
      b.fillBuffer (List.replicate ((n + 1) * 4) 0) = (b', tintBuf a.view px ++ List.replicate (4 * k) 0, .ok false) ∧
      Twins a' b' ∧ a'.globalPalette = a.globalPalette ∧ a'.currentFrame = a.currentFrame) ∨
    (∃ a' b' x y e, a.fillBuffer (List.replicate (n + 1) 0) = (a', x, .err e) ∧
      b.fillBuffer (List.replicate ((n + 1) * 4) 0) = (b', y, .err e)) := by
  obtain ⟨i1, i2, _⟩ := inv_fillBuffer hS a (List.replicate (n + 1) 0) h.inv
  have iop := (Converter.fillBuffer_good a.conv a.currentFrame (decodeNextBytes_opts hS a.rd.sd.opts) a.rd
    (List.replicate (n + 1) 0) ⟨h.inv.rd, rfl⟩).1.2
  have hca : a.conv.chan = 1 := by rw [channels_chan, h.indexed]; rfl
  have hcb : b.conv.chan = 4 := by rw [channels_chan, h.rgba]; rfl
  have ga := Converter.fillBuffer_gather a.conv a.currentFrame RD.decodeNextBytes (n + 1) a.rd (List.replicate (n + 1) 0)
    (by rw [hca]; simp) (by omega)
  have gb := Converter.fillBuffer_gather b.conv b.currentFrame RD.decodeNextBytes (n + 1) b.rd (List.replicate ((n + 1) * 4) 0)
    (by rw [hcb]; simp; omega) (by omega)
  obtain ⟨gl, gt⟩ := Converter.gather_spec RD.decodeNextBytes (n + 1 + 1) (n + 1) a.rd
  rw [← h.rd] at gb
  generalize Converter.gather RD.decodeNextBytes (n + 1 + 1) (n + 1) a.rd = g at ga gb gl gt
  obtain ⟨t, px, rr⟩ := g
  simp only at ga gb gl gt
  have pa : a.conv.convert a.currentFrame px (List.take (a.conv.chan * px.length) (List.replicate (n + 1) 0)) = px := by
    unfold Converter.convert; rw [h.indexed]
  have pb : b.conv.convert b.currentFrame px (List.take (b.conv.chan * px.length) (List.replicate ((n + 1) * 4) 0)) =
      tintBuf a.view px := by
    have := Converter.convert_eq b.conv b.currentFrame px
    rw [hcb] at this ⊢
    rw [List.take_replicate, Nat.min_eq_left (by omega), this, h.rgba, h.current, ← h.global]
    rfl
  rw [pa, hca, List.drop_replicate, Nat.one_mul] at ga
  rw [pb, hcb, List.drop_replicate, show (n + 1) * 4 - 4 * px.length = 4 * (n + 1 - px.length) by omega] at gb
  have fa : a.fillBuffer (List.replicate (n + 1) 0) = ({ a with rd := t }, px ++ List.replicate (n + 1 - px.length) 0, rr) := by
    unfold fillBuffer; rw [ga]
  have fb : b.fillBuffer (List.replicate ((n + 1) * 4) 0) =
      ({ b with rd := t }, tintBuf a.view px ++ List.replicate (4 * (n + 1 - px.length)) 0, rr) := by
    unfold fillBuffer; rw [← h.rd, gb]
  rw [ga] at iop
  rw [fa] at i1 i2
  have hts : Twins { a with rd := t } { b with rd := t } :=
    ⟨⟨rfl, h.global, h.limit, h.bg, h.rep⟩, h.indexed, h.rgba, h.current, i1, Twins.opts iop h.skip⟩
  have hv : Decoder.globalPalette { a with rd := t } = a.globalPalette ∧
    Decoder.currentFrame { a with rd := t } = a.currentFrame := ⟨rfl, rfl⟩
  cases rr with
  | ok more =>
    cases more with
    | true =>
      left
      have hl := (gt rfl).1
      rw [hl, Nat.sub_self, List.replicate_zero, List.append_nil] at fa
      rw [hl, Nat.sub_self, Nat.mul_zero, List.replicate_zero, List.append_nil] at fb
      exact ⟨_, _, px, fa, fb, hts, hv⟩
    | false => right; left; exact ⟨_, _, px, _, fa, fb, hts, hv⟩
  | err e => right; right; exact ⟨_, _, _, _, e, fa, fb⟩
  | panic => cases i2
  | diverge => cases i2

theorem twins_image (hS : C.Safe) {a b : Decoder C} (h : Twins a b)
    (he : a.currentFrame.buffer = [] ∧ a.currentFrame.ownedCap = none) :
    (∃ a' b' px, a.readIntoBuffer (List.replicate a.bufferSize 0) = (a', px, .ok ()) ∧
      b.readIntoBuffer (List.replicate b.bufferSize 0) = (b', tintBuf a.view px, .ok ()) ∧ Twins a' b' ∧
      a'.globalPalette = a.globalPalette ∧ a'.currentFrame = a.currentFrame) ∨
    (∃ a' b' x y e, a.readIntoBuffer (List.replicate a.bufferSize 0) = (a', x, .err e) ∧
      b.readIntoBuffer (List.replicate b.bufferSize 0) = (b', y, .err e)) ∨
    (∃ a' b' x y e, a.readIntoBuffer (List.replicate a.bufferSize 0) = (a', x, .err e) ∧
      b.readIntoBuffer (List.replicate b.bufferSize 0) = (b', y, .fmtErr .oddSizedBuffer)) := by
  obtain ⟨i1, i2, _⟩ := inv_readIntoBuffer hS a (List.replicate a.bufferSize 0) h.inv
  have iop := (Converter.readIntoBuffer_good a.conv a.currentFrame (decodeNextBytes_opts hS a.rd.sd.opts) a.rd
    (List.replicate a.bufferSize 0) ⟨h.inv.rd, rfl⟩).1.2
  have hcur : b.currentFrame = a.currentFrame := by rw [h.current, tint_empty _ he.1 he.2]
  unfold readIntoBuffer bufferSize at *
  rw [hcur, ← h.rd]
  rcases twins_into a.conv b.conv a.currentFrame RD.decodeNextBytes a.rd h.indexed h.rgba h.global with
    ⟨t', px, rr, k1, px', k2, k3⟩ | ⟨k1, k2⟩
  · rw [k1] at i1 i2 iop ⊢
    rw [k2]
    simp only at i1 i2 iop ⊢
    cases rr with
    | ok u =>
      cases u
      left
      rw [k3 rfl]
      exact ⟨_, _, px, rfl, rfl, ⟨⟨rfl, h.global, h.limit, h.bg, h.rep⟩, h.indexed, h.rgba, (tint_empty _ he.1 he.2).symm, i1,
        Twins.opts iop h.skip⟩, rfl, rfl⟩
    | err e => right; left; exact ⟨_, _, _, _, e, rfl, rfl⟩
    | panic => cases i2
    | diverge => cases i2
  · right; right
    generalize a.conv.readIntoBuffer a.currentFrame RD.decodeNextBytes a.rd
      (List.replicate (a.conv.bufferSize a.currentFrame) 0) = x at *
    generalize b.conv.readIntoBuffer a.currentFrame RD.decodeNextBytes a.rd
      (List.replicate (b.conv.bufferSize a.currentFrame) 0) = y at *
    obtain ⟨t1, px, ra⟩ := x
    obtain ⟨t2, py, rb⟩ := y
    simp only at *
    subst k2
    cases ra with
    | ok u => cases u; exact absurd rfl k1
    | err e => exact ⟨_, _, _, _, e, rfl, rfl⟩
    | panic => cases i2
    | diverge => cases i2

/-- The two sessions from some point on. -/
theorem twins_film (hS : C.Safe) : ∀ (as : List Act) (a b : Decoder C) (live : Bool) (v : View), Twins a b →
    v.globalPalette = a.globalPalette → v.currentFrame = a.currentFrame →
    (live = true → a.currentFrame.buffer = [] ∧ a.currentFrame.ownedCap = none) →
    TintedFilm a.conv.memoryLimit v (film as a live) (film as b live) := by
  intro as
  induction as with
  | nil => intro a b live v _ _ _ _; exact .nil v
  | cons x as ih =>
    intro a b live v h hg hf hl
    have htb : ∀ px, tintBuf a.view px = tintBuf v px := by
      intro px; unfold tintBuf; rw [hg, hf]; rfl
    have hgo : ∀ {a' b' : Decoder C} {live' : Bool} {v' : View}, Twins a' b' → a'.conv = a.conv →
        v'.globalPalette = a'.globalPalette → v'.currentFrame = a'.currentFrame →
        (live' = true → a'.currentFrame.buffer = [] ∧ a'.currentFrame.ownedCap = none) →
        TintedFilm a.conv.memoryLimit v' (film as a' live') (film as b' live') := by
      intro a' b' live' v' h1 h2 h3 h4 h5
      have := ih a' b' live' v' h1 h3 h4 h5
      rwa [h2] at this
    cases x with
    | info =>
      have hcv := (frameRun_spec hS (nextFrameInfo_run hS a h.inv.rd) h.inv.rd).2.2.2.1
      rcases twins_info hS h with ⟨a', b', found, ha, hb, ht, hlive⟩ | ⟨a', b', e, ha, hb⟩
      · rw [ha] at hcv
        simp only [film, act, ha, hb, List.singleton_append]
        rw [ht.view]
        exact .info found (hgo ht hcv rfl rfl fun h => ⟨(hlive h).2.1, (hlive h).2.2.1⟩)
      · simp only [film, act, ha, hb]
        exact .failed v e
    | read =>
      have hcv := (readNextFrame_spec hS a h.inv).2.2.1
      rcases twins_read hS h with ⟨a', b', f, ha, hb, ht⟩ | ⟨a', b', e, ha, hb⟩ | ⟨a', b', e, ha, hb⟩ | ⟨a', b', f, ha, hb, hm⟩ |
        ⟨a', b', e, ha, hb, hm⟩
      · rw [ha] at hcv
        simp only [film, act, ha, hb, List.singleton_append]
        rw [ht.view]
        exact .frame f (hgo ht hcv rfl rfl nofun)
      · simp only [film, act, ha, hb]
        exact .failed v e
      · simp only [film, act, ha, hb]
        exact .noPixels v e
      · simp only [film, act, ha, hb, List.singleton_append]
        exact .large f hm
      · simp only [film, act, ha, hb]
        exact .largeFailed v e hm
    | fill n =>
      cases live with
      | false => simp only [film, act]; exact hgo h rfl hg hf hl
      | true =>
        simp only [film, act, if_true, h.indexed, h.rgba, channels, Nat.mul_one]
        rcases twins_fill hS h n with ⟨a', b', px, ha, hb, ht, k1, k2⟩ | ⟨a', b', px, k, ha, hb, ht, k1, k2⟩ | ⟨a', b', y, z, e, ha, hb⟩
        · have hcv : a'.conv = a.conv := by
            have : (a.fillBuffer (List.replicate (n + 1) 0)).1.conv = a.conv := rfl
            rwa [ha] at this
          rw [ha, hb, htb]
          exact .full px (hgo ht hcv (hg.trans k1.symm) (hf.trans k2.symm) fun _ => by rw [k2]; exact hl rfl)
        · have hcv : a'.conv = a.conv := by
            have : (a.fillBuffer (List.replicate (n + 1) 0)).1.conv = a.conv := rfl
            rwa [ha] at this
          rw [ha, hb, htb]
          exact .rest px k (hgo ht hcv (hg.trans k1.symm) (hf.trans k2.symm) fun _ => by rw [k2]; exact hl rfl)
        · rw [ha, hb]
          exact .failed v e
    | into =>
      cases live with
      | false => simp only [film, act]; exact hgo h rfl hg hf hl
      | true =>
        simp only [film, act, if_true]
        rcases twins_image hS h (hl rfl) with ⟨a', b', px, ha, hb, ht, k1, k2⟩ | ⟨a', b', y, z, e, ha, hb⟩ | ⟨a', b', y, z, e, ha, hb⟩
        · have hcv : a'.conv = a.conv := by
            have : (a.readIntoBuffer (List.replicate a.bufferSize 0)).1.conv = a.conv := rfl
            rwa [ha] at this
          rw [ha, hb, htb]
          exact .image px (hgo ht hcv (hg.trans k1.symm) (hf.trans k2.symm) fun _ => by rw [k2]; exact hl rfl)
        · rw [ha, hb]
          exact .failed v e
        · rw [ha, hb]
          exact .noPixels v e

/-- C18: RGBA output is the palette lookup of indexed output. For every file, damaged or not, every reader, failing or not, and
any calls of `next_frame_info`, `read_next_frame`, `fill_buffer` and `read_into_buffer`, the session with `ColorOutput::RGBA`
shows what the session with `ColorOutput::Indexed` shows, with colours instead of palette indices, see `TintedFilm`. -/
theorem rgba_session (hS : C.Safe) (o : DecodeOptions) (hs : o.skipFrameDecoding = false) (r : Reader) (as : List Act) (v : View) :
    TintedFilm o.memoryLimit v (filmFrom C { o with colorOutput := .indexed } r as)
      (filmFrom C { o with colorOutput := .rgba } r as) := by
  obtain ⟨h1, h2⟩ := readInfo_mates C { o with colorOutput := .indexed } .rgba r
  have hc1 := readInfo_conv hS { o with colorOutput := .indexed } r
  have hc2 := readInfo_conv hS { o with colorOutput := .rgba } r
  obtain ⟨hi, hret⟩ := inv_readInfo (C := C) hS { o with colorOutput := .indexed } r
  have hop := readInfo_opts (C := C) hS { o with colorOutput := .indexed } r
  have hf1 := readInfo_frame (C := C) hS { o with colorOutput := .indexed } r
  have hf2 := readInfo_frame (C := C) hS { o with colorOutput := .rgba } r
  unfold filmFrom
  simp only at h1 h2
  generalize readInfo C { o with colorOutput := .indexed } r = x at *
  generalize readInfo C { o with colorOutput := .rgba } r = y at *
  obtain ⟨a, ra⟩ := x
  obtain ⟨b, rb⟩ := y
  simp only at h1 h2 hc1 hc2 hi hret hop hf1 hf2
  subst h1
  cases ra with
  | ok u =>
    cases u
    simp only
    have ht : Twins a b := by
      refine ⟨h2, hc1.2, hc2.2, ?_, hi, ?_⟩
      · rw [hf2, hf1]
        exact (tint_empty _ rfl rfl).symm
      · simp only [SD.opts, Prod.mk.injEq] at hop
        exact hop.1.trans hs
    rw [ht.view]
    have := twins_film hS as a b false a.view ht rfl rfl nofun
    rw [hc1.1] at this
    exact .opened this
  | err e => exact .failed v e
  | panic => cases hret
  | diverge => cases hret

set_option maxRecDepth 100000 in
/-- An instance of `read_next_frame_picture`: an interlaced frame of one column and five rows with the indices 0, 1, 2, 3, 0,
read after `read_info`. -/
example : ∃ d d' f, Reach .new (single 1 5 0x40 [3, 0x44, 0x34, 0x50, 0, 0x3B] []) (d : Decoder Ref.lzw) ∧
    d.readNextFrame = (d', .ok (some f)) ∧ f.height = 5 ∧ f.interlaced = false ∧ f.buffer = [0, 3, 2, 0, 1] := by
  refine ⟨(readInfo Ref.lzw .new (single 1 5 0x40 [3, 0x44, 0x34, 0x50, 0, 0x3B] [])).1, _,
    { Frame.default with width := 1, height := 5, buffer := [0, 3, 2, 0, 1], ownedCap := some 5 }, .opened ?_,
    Prod.ext rfl ?_, rfl, rfl, rfl⟩ <;> decide +kernel

set_option maxRecDepth 100000 in
/-- An instance of `rgba_session`: both sessions succeed, with frames read at once and in pieces. -/
example : (filmFrom Ref.lzw { DecodeOptions.new with colorOutput := .indexed } animation [.read, .info, .fill 0, .into]).map
      (fun | .seen (.frame f _) => f.map (·.buffer) | .filled b _ => some b | .image b => some b | _ => none) =
      [none, some [1, 1], none, some [1], none] ∧
    (filmFrom Ref.lzw { DecodeOptions.new with colorOutput := .rgba } animation [.read, .info, .fill 0, .into]).map
      (fun | .seen (.frame f _) => f.map (·.buffer) | .filled b _ => some b | .image b => some b | _ => none) =
      [none, some [40, 50, 60, 255, 40, 50, 60, 255], none, some [4, 5, 6, 255], none] := by decide +kernel

set_option maxRecDepth 100000 in
/-- The case `large` occurs: with a limit of seven bytes, two pixels can be read as indices but not in colour. -/
example : (filmFrom Ref.lzw { DecodeOptions.new with colorOutput := .indexed, memoryLimit := .bytes 7 (by decide) } animation [.read]).map
      (fun | .seen (.frame f _) => f.map (·.buffer) | _ => none) = [none, some [1, 1]] ∧
    (filmFrom Ref.lzw { DecodeOptions.new with colorOutput := .rgba, memoryLimit := .bytes 7 (by decide) } animation [.read]).drop 1 =
      [.seen (.failed (.io .outOfMemory))] := by decide +kernel

end Gif.Decoder
