import Verif.Spec.Ways
import Verif.Props.Salvage
import Verif.Lemmas.Twin
/-!
# C88: how a program takes the frames does not show
-/

namespace Gif

namespace Decoder

variable {C : Codec}

open Converter Spec

/-- `read_into_buffer` on an interlaced image is `fill_buffer` on each of its lines, if the lines to come are zero. -/
theorem readRows_fillRows (d : Decoder C) (h : Nat) : ∀ (fuel next pass : Nat) (t : RD C) (buf : List UInt8),
    next < h → pass ≤ 4 → (InterlaceIter.remaining h next pass).Nodup → (∀ r ∈ InterlaceIter.remaining h next pass, r < h) →
    (InterlaceIter.remaining h next pass).length < fuel → buf.length = h * d.lineLength →
    (∀ r ∈ InterlaceIter.remaining h next pass, rowOf d.lineLength buf r = List.replicate d.lineLength 0) →
    let x := d.conv.readRows d.currentFrame RD.decodeNextBytes fuel ⟨h, next, pass⟩ t buf
    let y := fillRows d.lineLength (InterlaceIter.remaining h next pass) { d with rd := t } buf
    y.1 = { d with rd := x.1 } ∧ y.2.1 = x.2.1 ∧ x.2.2 = whole y.2.2 := by
  intro fuel
  induction fuel with
  | zero => intro next pass t buf _ _ _ _ h; omega
  | succ fuel ih =>
    intro next pass t buf hn hp hnd hlt hf hb hz
    dsimp only
    by_cases hp4 : pass = 4
    · subst hp4
      rw [readRows, InterlaceIter.nextRow_end]
      simp [InterlaceIter.remaining, fillRows, whole]
    · obtain ⟨next', pass', he, hrem, hn', hp'⟩ := InterlaceIter.nextRow_spec h next pass hn (by omega)
      rw [hrem] at hlt hf hnd hz ⊢
      simp only [List.length_cons] at hf
      have hnd' := List.nodup_cons.1 hnd
      rw [readRows, he]
      simp only [fillRows]
      have hll : d.conv.lineLength d.currentFrame = d.lineLength := rfl
      rw [hll]
      have hrow : next * d.lineLength + d.lineLength ≤ buf.length := by
        rw [hb, ← Nat.succ_mul]; exact Nat.mul_le_mul_right _ hn
      rw [if_pos (by rw [List.length_drop]; omega)]
      have hz0 : (buf.drop (next * d.lineLength)).take d.lineLength = List.replicate d.lineLength 0 := hz next List.mem_cons_self
      rw [hz0]
      have hfl := fillBuffer_length d.conv d.currentFrame RD.decodeNextBytes t (List.replicate d.lineLength 0)
      unfold Decoder.fillBuffer
      dsimp only
      generalize d.conv.fillBuffer d.currentFrame RD.decodeNextBytes t (List.replicate d.lineLength 0) = z at *
      obtain ⟨t', line, r⟩ := z
      simp only [List.length_replicate] at hfl
      match r with
      | .ok true =>
        refine ih next' pass' t' (setRow d.lineLength buf next line) hn' hp' hnd'.2 (fun r hr => hlt r (List.mem_cons_of_mem _ hr))
          (by omega) ((setRow_length hrow hfl).trans hb) (fun r hr => ?_)
        rw [rowOf_setRow_other hrow hfl (fun h => hnd'.1 (h ▸ hr))]
        exact hz r (List.mem_cons_of_mem _ hr)
      | .ok false => exact ⟨rfl, rfl, rfl⟩
      | .err e => exact ⟨rfl, rfl, rfl⟩
      | .panic => exact ⟨rfl, rfl, rfl⟩
      | .diverge => exact ⟨rfl, rfl, rfl⟩

theorem rowOf_zeros (w h r : Nat) (hr : r < h) : rowOf w (List.replicate (h * w) 0) r = List.replicate w 0 := by
  unfold rowOf
  have : r * w + w ≤ h * w := by rw [← Nat.succ_mul]; exact Nat.mul_le_mul_right w hr
  rw [List.drop_replicate, List.take_replicate, Nat.min_eq_left (by omega)]

/-- All ways to draw a frame are one. -/
theorem draw_into (d : Decoder C) (way : Way) : d.draw way = d.readIntoBuffer (List.replicate d.bufferSize 0) := by
  cases way with
  | read => rfl
  | into => rfl
  | lines =>
    unfold draw Decoder.readIntoBuffer Converter.readIntoBuffer
    by_cases hi : d.currentFrame.interlaced = true
    · rw [if_pos hi, if_pos hi]
      rcases Nat.eq_zero_or_pos d.currentFrame.height.toNat with h0 | h0
      · rw [h0]
        simp [readRows, InterlaceIter.nextRow, fillRows, interlaceOrder]
      · have hrem := InterlaceIter.remaining_zero d.currentFrame.height.toNat
        have hbs : d.bufferSize = d.currentFrame.height.toNat * d.lineLength := bufferSize_rows _ _
        have key := readRows_fillRows d d.currentFrame.height.toNat (d.currentFrame.height.toNat + 1) 0 0 d.rd
          (List.replicate d.bufferSize 0) h0 (by omega) (by rw [hrem]; exact interlaceOrder_nodup _)
          (by rw [hrem]; exact fun r hr => interlaceOrder_lt hr) (by rw [hrem, interlaceOrder_length]; omega)
          (by rw [List.length_replicate]; exact hbs)
          (by rw [hrem, hbs]; exact fun r hr => rowOf_zeros _ _ r (interlaceOrder_lt hr))
        dsimp only at key
        rw [hrem] at key
        generalize d.conv.readRows d.currentFrame RD.decodeNextBytes (d.currentFrame.height.toNat + 1)
          ⟨d.currentFrame.height.toNat, 0, 0⟩ d.rd (List.replicate d.bufferSize 0) = x at *
        generalize fillRows d.lineLength (interlaceOrder d.currentFrame.height.toNat) d (List.replicate d.bufferSize 0) = y at *
        obtain ⟨x1, x2, x3⟩ := x
        obtain ⟨y1, y2, y3⟩ := y
        obtain ⟨k1, k2, k3⟩ := key
        simp only at k1 k2 k3
        subst k1 k2 k3
        match y3 with
        | .ok true => rfl
        | .ok false => rfl
        | .err e => rfl
        | .panic => rfl
        | .diverge => rfl
    · rw [if_neg hi, if_neg hi]
      have hs : d.conv.bufferSize d.currentFrame = d.bufferSize := rfl
      dsimp only
      rw [hs, if_pos (by rw [List.length_replicate]; omega), List.take_of_length_le (by rw [List.length_replicate]; omega),
        List.drop_of_length_le (by rw [List.length_replicate]; omega)]
      unfold Decoder.fillBuffer
      generalize d.conv.fillBuffer d.currentFrame RD.decodeNextBytes d.rd (List.replicate d.bufferSize 0) = x
      obtain ⟨t, pic, r⟩ := x
      match r with
      | .ok true => simp
      | .ok false => simp
      | .err e => simp
      | .panic => simp
      | .diverge => simp

/-- Two decoders that differ at most in the current frame. -/
def Fellows (a b : Decoder C) : Prop :=
  a.rd = b.rd ∧ a.conv = b.conv ∧ a.bgColor = b.bgColor ∧ a.repetition = b.repetition

theorem nextFrameLoop_fellows : ∀ (fuel : Nat) (a b : Decoder C), a.Fellows b →
    (nextFrameLoop fuel a).2 = (nextFrameLoop fuel b).2 ∧ (nextFrameLoop fuel a).1.Fellows (nextFrameLoop fuel b).1 ∧
    ((nextFrameLoop fuel a).2 = .ok true → (nextFrameLoop fuel a).1 = (nextFrameLoop fuel b).1) := by
  intro fuel
  induction fuel with
  | zero => exact fun a b h => ⟨rfl, h, by simp [nextFrameLoop]⟩
  | succ fuel ih =>
    intro a b h
    obtain ⟨ar, ac, ab, ap, af, at'⟩ := a
    obtain ⟨br, bc, bb, bp, bf, bt⟩ := b
    obtain ⟨h1, h2, h3, h4⟩ := h
    simp only at h1 h2 h3 h4
    subst h1 h2 h3 h4
    rw [nextFrameLoop, nextFrameLoop]
    dsimp only
    generalize RD.decodeNext .none ar = x
    obtain ⟨rd, out⟩ := x
    cases out with
    | err e => exact ⟨rfl, ⟨rfl, rfl, rfl, rfl⟩, by simp⟩
    | panic => exact ⟨rfl, ⟨rfl, rfl, rfl, rfl⟩, by simp⟩
    | diverge => exact ⟨rfl, ⟨rfl, rfl, rfl, rfl⟩, by simp⟩
    | ok ev =>
      cases ev with
      | none => exact ⟨rfl, ⟨rfl, rfl, rfl, rfl⟩, by simp⟩
      | some ev =>
        cases ev with
        | frameMetadata t =>
          dsimp only
          cases rd.sd.current with
          | none => exact ⟨rfl, ⟨rfl, rfl, rfl, rfl⟩, by simp⟩
          | some f => exact ⟨rfl, ⟨rfl, rfl, rfl, rfl⟩, fun _ => rfl⟩
        | _ => exact ih _ _ ⟨rfl, rfl, rfl, rfl⟩

theorem nextFrameInfo_fellows {a b : Decoder C} (h : a.Fellows b) :
    a.nextFrameInfo.2 = b.nextFrameInfo.2 ∧ a.nextFrameInfo.1.Fellows b.nextFrameInfo.1 ∧
    (a.nextFrameInfo.2 = .ok true → a.nextFrameInfo.1 = b.nextFrameInfo.1) := by
  unfold nextFrameInfo
  rw [h.1]
  exact nextFrameLoop_fellows _ a b h

theorem readNextFrame_fellows {a b : Decoder C} (h : a.Fellows b) :
    a.readNextFrame.2 = b.readNextFrame.2 ∧ a.readNextFrame.1.Fellows b.readNextFrame.1 := by
  obtain ⟨h1, h2, h3⟩ := nextFrameInfo_fellows h
  unfold readNextFrame
  generalize a.nextFrameInfo = x at *
  generalize b.nextFrameInfo = y at *
  obtain ⟨a1, ra⟩ := x
  obtain ⟨b1, rb⟩ := y
  simp only at h1 h2 h3
  subst h1
  match ra with
  | .ok true =>
    have := h3 rfl
    subst this
    exact ⟨rfl, rfl, rfl, rfl, rfl⟩
  | .ok false => exact ⟨rfl, h2⟩
  | .err e => exact ⟨rfl, h2⟩
  | .panic => exact ⟨rfl, h2⟩
  | .diverge => exact ⟨rfl, h2⟩

/-- Whatever the way, one frame is what `read_next_frame` gives. -/
theorem takeBy_read (hS : C.Safe) (d : Decoder C) (hi : d.Inv) (hk : d.rd.sd.skipFrameDecoding = false) (way : Way) :
    (d.takeBy d.conv.memoryLimit way).2 = d.readNextFrame.2 ∧ (d.takeBy d.conv.memoryLimit way).1.Fellows d.readNextFrame.1 := by
  by_cases hway : way = .read
  · subst hway; exact ⟨rfl, rfl, rfl, rfl, rfl⟩
  have hrun := nextFrameInfo_run hS d hi.rd
  obtain ⟨_, _, _, hcv, _, _, hbuf, _⟩ := frameRun_spec hS hrun hi.rd
  have htype := fun h => frameRun_type hS hrun hi.rd hk h
  have hu : d.takeBy d.conv.memoryLimit way =
      (match d.nextFrameInfo with
      | (d1, .ok true) =>
        if (match d.conv.memoryLimit with
          | .unlimited => true
          | .bytes n _ => decide (d1.bufferSize ≤ n)) then
          match d1.draw way with
          | (d, pic, .ok ()) =>
            (d, .ok (some { d.currentFrame with buffer := pic, ownedCap := some pic.length, interlaced := false }))
          | (d, _, .err e) => (d, .err e)
          | (d, _, .panic) => (d, .panic)
          | (d, _, .diverge) => (d, .diverge)
        else (d1, .ioErr .outOfMemory)
      | (d, .ok false) => (d, .ok none)
      | (d, .err e) => (d, .err e)
      | (d, .panic) => (d, .panic)
      | (d, .diverge) => (d, .diverge)) := by
    cases way with
    | read => exact absurd rfl hway
    | into => rfl
    | lines => rfl
  rw [hu]
  generalize hx : d.nextFrameInfo = x at *
  obtain ⟨d1, out⟩ := x
  simp only at hcv hbuf htype
  match out with
  | .ok false => rw [(readNextFrame_other hx).1 rfl]; exact ⟨rfl, rfl, rfl, rfl, rfl⟩
  | .err e => rw [(readNextFrame_other hx).2 e rfl]; exact ⟨rfl, rfl, rfl, rfl, rfl⟩
  | .panic => unfold readNextFrame; rw [hx]; exact ⟨rfl, rfl, rfl, rfl, rfl⟩
  | .diverge => unfold readNextFrame; rw [hx]; exact ⟨rfl, rfl, rfl, rfl, rfl⟩
  | .ok true =>
    obtain ⟨e1, e2, _⟩ := hbuf rfl
    rw [readNextFrame_pixels hx (htype rfl)]
    dsimp only
    rw [draw_into, ← hcv]
    unfold Converter.readFrame
    have hbs : d1.bufferSize = d1.conv.bufferSize d1.currentFrame := rfl
    rw [hbs]
    have hself : ({ d1.currentFrame with buffer := [], ownedCap := none } : Frame) = d1.currentFrame := by
      cases hf : d1.currentFrame
      rw [hf] at e1 e2
      simp only at e1 e2
      rw [e1, e2]
    have hfb : frameBuffer d1.currentFrame (d1.conv.bufferSize d1.currentFrame) =
        List.replicate (d1.conv.bufferSize d1.currentFrame) 0 := by unfold frameBuffer; rw [e2]
    rcases checkBufferSize_cases d1.conv d1.currentFrame with ⟨c1, c2⟩ | ⟨c1, c2⟩
    · have c3 : (match d1.conv.memoryLimit with
          | .unlimited => true
          | .bytes n _ => decide (d1.conv.bufferSize d1.currentFrame ≤ n)) = true := c2
      rw [c1, if_pos c3]
      dsimp only
      unfold Decoder.readIntoBuffer
      rw [hfb, hself]
      generalize d1.conv.readIntoBuffer d1.currentFrame RD.decodeNextBytes d1.rd
        (List.replicate (d1.conv.bufferSize d1.currentFrame) 0) = y
      obtain ⟨t, pic, o⟩ := y
      cases o with
      | ok u => exact ⟨rfl, rfl, rfl, rfl, rfl⟩
      | err e => exact ⟨rfl, rfl, rfl, rfl, rfl⟩
      | panic => exact ⟨rfl, rfl, rfl, rfl, rfl⟩
      | diverge => exact ⟨rfl, rfl, rfl, rfl, rfl⟩
    · have c3 : (match d1.conv.memoryLimit with
          | .unlimited => true
          | .bytes n _ => decide (d1.conv.bufferSize d1.currentFrame ≤ n)) = false := c2
      rw [c1, if_neg (by rw [c3]; exact Bool.false_ne_true)]
      exact ⟨rfl, rfl, rfl, rfl, rfl⟩

theorem takeAll_read (hS : C.Safe) : ∀ (ways : List Way) (a b : Decoder C), a.Inv → a.rd.sd.skipFrameDecoding = false → a.Fellows b →
    (takeAll a.conv.memoryLimit ways a).2 = (takeAll a.conv.memoryLimit (ways.map fun _ => .read) b).2 ∧
    (takeAll a.conv.memoryLimit ways a).1.Fellows (takeAll a.conv.memoryLimit (ways.map fun _ => .read) b).1 := by
  intro ways
  induction ways with
  | nil => exact fun a b _ _ h => ⟨rfl, h⟩
  | cons way ways ih =>
    intro a b hi hk h
    obtain ⟨t1, t2⟩ := takeBy_read hS a hi hk way
    obtain ⟨f1, f2⟩ := readNextFrame_fellows h
    obtain ⟨s1, _, s3, _⟩ := readNextFrame_spec hS a hi
    have s4 := readNextFrame_opts hS a hi
    simp only [takeAll, List.map_cons]
    have e1 : b.takeBy a.conv.memoryLimit .read = b.readNextFrame := rfl
    rw [e1]
    generalize a.takeBy a.conv.memoryLimit way = x at *
    generalize b.readNextFrame = y at *
    generalize a.readNextFrame = z at *
    obtain ⟨a1, x⟩ := x
    obtain ⟨b1, y⟩ := y
    obtain ⟨c1, z⟩ := z
    simp only at t1 t2 f1 f2 s1 s3 s4 ⊢
    have hi1 : a1.Inv := ⟨by rw [t2.1]; exact s1.rd, by rw [t2.1, t2.2.1]; exact s1.limit⟩
    have hk1 : a1.rd.sd.skipFrameDecoding = false := by
      simp only [SD.opts, Prod.mk.injEq] at s4
      rw [t2.1, s4.1]; exact hk
    have hab : a1.Fellows b1 := ⟨t2.1.trans f2.1, t2.2.1.trans f2.2.1, t2.2.2.1.trans f2.2.2.1, t2.2.2.2.trans f2.2.2.2⟩
    obtain ⟨i1, i2⟩ := ih a1 b1 hi1 hk1 hab
    rw [t2.2.1, s3] at i1 i2
    exact ⟨by rw [i1, t1, f1], i2⟩

/-- **C88**: one frame. In every state that a program can reach with a decoder that decodes pixels, `next_frame_info` followed by
`read_into_buffer` on a new buffer of `buffer_size()` bytes, or by `fill_buffer` (at once, or line by line in the row order of
interlaced images), gives what `read_next_frame` gives: the same frame, the end, or the same error. The decoder is the same
afterwards but for the current frame. -/
theorem way_is_read (hS : C.Safe) {o : DecodeOptions} {r : Reader} {d : Decoder C} (h : Reach o r d)
    (hk : o.skipFrameDecoding = false) (way : Way) {d1 d2 : Decoder C} {x y : Outcome (Option Frame)}
    (h1 : d.takeBy o.memoryLimit way = (d1, x)) (h2 : d.readNextFrame = (d2, y)) :
    x = y ∧ d1.rd = d2.rd ∧ d1.conv = d2.conv ∧ d1.bgColor = d2.bgColor ∧ d1.repetition = d2.repetition := by
  have hl : d.conv.memoryLimit = o.memoryLimit := by
    have hr := reach_opts hS h
    rw [← (reach_inv hS h).1.limit, opts_limit hr]
    rfl
  have := takeBy_read hS d (reach_inv hS h).1 ((reach_skip hS h).trans hk) way
  rw [hl, h1, h2] at this
  exact this

/-- **C88**: whole programs. Two programs that take the same number of frames, each frame in any of the ways, and go on after
errors, get the same frames and errors, and are left with the same decoder but for the current frame. -/
theorem ways_do_not_show (hS : C.Safe) {o : DecodeOptions} {r : Reader} {d : Decoder C} (h : Reach o r d)
    (hk : o.skipFrameDecoding = false) (ws vs : List Way) (hlen : ws.length = vs.length) {d1 d2 : Decoder C}
    {xs ys : List (Outcome (Option Frame))} (h1 : takeAll o.memoryLimit ws d = (d1, xs)) (h2 : takeAll o.memoryLimit vs d = (d2, ys)) :
    xs = ys ∧ d1.rd = d2.rd ∧ d1.conv = d2.conv ∧ d1.bgColor = d2.bgColor ∧ d1.repetition = d2.repetition := by
  have hl : d.conv.memoryLimit = o.memoryLimit := by
    have hr := reach_opts hS h
    rw [← (reach_inv hS h).1.limit, opts_limit hr]
    rfl
  have hi := (reach_inv hS h).1
  have hs := (reach_skip hS h).trans hk
  have hm : ∀ l l' : List Way, l.length = l'.length → (l.map fun _ => Way.read) = l'.map fun _ => Way.read := by
    intro l l' hl
    simp only [List.map_const']
    rw [hl]
  obtain ⟨a1, a2⟩ := takeAll_read hS ws d d hi hs ⟨rfl, rfl, rfl, rfl⟩
  obtain ⟨b1, b2⟩ := takeAll_read hS vs d d hi hs ⟨rfl, rfl, rfl, rfl⟩
  rw [hl, h1] at a1 a2
  rw [hl, h2, hm vs ws hlen.symm] at b1 b2
  exact ⟨a1.trans b1.symm, a2.1.trans b2.1.symm, a2.2.1.trans b2.2.1.symm, a2.2.2.1.trans b2.2.2.1.symm,
    a2.2.2.2.trans b2.2.2.2.symm⟩

/-! ## The hypotheses can be met -/

namespace Ways

/-- An interlaced frame of 1 × 4 pixels, a frame of 2 × 3 pixels, a frame whose data end early, and a frame of 2 × 1 pixels. -/
def reader : Reader :=
  { buf := [], src := [
      .data [0x47, 0x49, 0x46, 0x38, 0x39, 0x61, 2, 0, 4, 0, 0x80, 1, 0, 10, 20, 30, 40, 50, 60],
      .data [0x2C, 0, 0, 0, 0, 1, 0, 4, 0, 0x40, 2, 3, 0x44, 0x00, 0x05, 0],
      .data [0x2C, 0, 0, 0, 0, 2, 0, 3, 0, 0, 2, 3, 0x44, 0x12, 0x05, 0],
      .data [0x2C, 0, 0, 0, 0, 2, 0, 2, 0, 0, 2, 2, 0x4C, 0x0A, 0],
      .data [0x2C, 0, 0, 0, 0, 2, 0, 1, 0, 0, 2, 2, 0x4C, 0x0A, 0, 0x3B, 99]] }

/-- RGBA output, at most 16 bytes per frame. -/
def options : DecodeOptions := { DecodeOptions.new with memoryLimit := .bytes 16 (by decide), colorOutput := .rgba }

/-- What became of a frame. -/
def seen : Outcome (Option Frame) → Option (Option DecodingError × Option (List UInt8 × Bool))
  | .ok x => some (none, x.map fun f => (f.buffer, f.interlaced))
  | .err e => some (some e, none)
  | _ => none

theorem opened : Reach options reader (readInfo Ref.lzw options reader).1 := .opened (by decide +kernel)

/-- The frames as `fill_buffer` and `read_into_buffer` give them. -/
example : (takeAll options.memoryLimit [.lines, .into, .lines, .lines, .into] (readInfo Ref.lzw options reader).1).2.map seen =
    [some (none, some ([10, 20, 30, 255, 10, 20, 30, 255, 40, 50, 60, 255, 10, 20, 30, 255], false)),
      some (some (.io .outOfMemory), none), some (some (.format .imageTruncated), none),
      some (none, some ([40, 50, 60, 255, 40, 50, 60, 255], false)), some (none, none)] := by
  decide +kernel

/-- Hence `read_next_frame` gives them, too. -/
example : (takeAll options.memoryLimit [.lines, .into, .lines, .lines, .into] (readInfo Ref.lzw options reader).1).2 =
    (takeAll options.memoryLimit [.read, .read, .read, .read, .read] (readInfo Ref.lzw options reader).1).2 :=
  (ways_do_not_show Ref.lzw_safe opened rfl _ _ rfl rfl rfl).1

example : ((readInfo Ref.lzw options reader).1.takeBy options.memoryLimit .lines).2 = (readInfo Ref.lzw options reader).1.readNextFrame.2 :=
  (way_is_read Ref.lzw_safe opened rfl .lines rfl rfl).1

end Ways

end Decoder

end Gif
