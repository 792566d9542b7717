import Verif.Lemmas.Pull
import Verif.Lemmas.Fill
/-!
The decoder returns from every call and keeps its invariant.
-/

namespace Gif

/-- A data callback that returns, never writes more than it may, and keeps `P`. -/
def Callback.Good {τ : Type} (cb : Callback τ) (P : τ → Prop) : Prop :=
  ∀ t cap, P t → P (cb t cap).1 ∧ (cb t cap).2.returns = true ∧ ∀ bytes, (cb t cap).2 = .ok bytes → bytes.length ≤ cap

namespace Converter

variable {τ : Type}

theorem fillLoop_good (c : Converter) (f : Frame) {cb : Callback τ} {P : τ → Prop} (hg : cb.Good P) :
    ∀ (fuel : Nat) (t : τ) (buf : List UInt8), P t → buf.length < fuel →
      P (c.fillLoop f cb fuel t buf).1 ∧ (c.fillLoop f cb fuel t buf).2.2.returns = true ∧
      (c.fillLoop f cb fuel t buf).2.1.length = buf.length := by
  intro fuel
  induction fuel with
  | zero => intro t buf _ h; omega
  | succ fuel ih =>
    intro t buf hP hf
    rw [fillLoop]
    split
    · obtain ⟨g1, g2, g3⟩ := hg t buf.length hP
      match hcb : cb t buf.length with
      | (t', .ok bytes) =>
        rw [hcb] at g1 g2 g3
        have hlen := g3 bytes rfl
        simp only
        split
        · exact ⟨g1, rfl, rfl⟩
        · rw [if_neg (by omega)]
          split
          · rename_i hz
            refine ⟨g1, rfl, ?_⟩
            simp at hz ⊢; omega
          · obtain ⟨i1, i2, i3⟩ := ih t' (buf.drop bytes.length) g1 (by rw [List.length_drop]; omega)
            refine ⟨i1, i2, ?_⟩
            simp only [List.length_append, i3, List.length_drop]; omega
      | (t', .err e) => rw [hcb] at g1; exact ⟨g1, rfl, rfl⟩
      | (t', .panic) => rw [hcb] at g2; cases g2
      | (t', .diverge) => rw [hcb] at g2; cases g2
    · split
      · exact ⟨hP, rfl, rfl⟩
      · obtain ⟨g1, g2, g3⟩ := hg t (buf.length / 4) hP
        match hcb : cb t (buf.length / 4) with
        | (t', .ok bytes) =>
          rw [hcb] at g1 g2 g3
          have hlen := g3 bytes rfl
          simp only
          split
          · exact ⟨g1, rfl, rfl⟩
          · rw [if_neg (by omega)]
            split
            · rename_i hz
              refine ⟨g1, rfl, ?_⟩
              rw [expandPixels_length, List.length_take]
              simp at hz; omega
            · obtain ⟨i1, i2, i3⟩ := ih t' (buf.drop (bytes.length * 4)) g1 (by rw [List.length_drop]; omega)
              refine ⟨i1, i2, ?_⟩
              simp only [List.length_append, i3, List.length_drop, expandPixels_length, List.length_take]; omega
        | (t', .err e) => rw [hcb] at g1; exact ⟨g1, rfl, rfl⟩
        | (t', .panic) => rw [hcb] at g2; cases g2
        | (t', .diverge) => rw [hcb] at g2; cases g2

theorem fillBuffer_good (c : Converter) (f : Frame) {cb : Callback τ} {P : τ → Prop} (hg : cb.Good P) (t : τ)
    (buf : List UInt8) (hP : P t) :
    P (c.fillBuffer f cb t buf).1 ∧ (c.fillBuffer f cb t buf).2.2.returns = true ∧
      (c.fillBuffer f cb t buf).2.1.length = buf.length :=
  fillLoop_good c f hg _ t buf hP (by omega)

theorem readRows_good (c : Converter) (f : Frame) {cb : Callback τ} {P : τ → Prop} (hg : cb.Good P) (h : Nat) :
    ∀ (fuel next pass : Nat) (t : τ) (buf : List UInt8), P t → (h = 0 ∨ next < h ∧ pass ≤ 4) →
      (InterlaceIter.remaining h next pass).length < fuel →
      P (c.readRows f cb fuel ⟨h, next, pass⟩ t buf).1 ∧
      (c.readRows f cb fuel ⟨h, next, pass⟩ t buf).2.2.returns = true ∧
      (c.readRows f cb fuel ⟨h, next, pass⟩ t buf).2.1.length = buf.length := by
  intro fuel
  induction fuel with
  | zero => intro next pass t buf _ _ h; omega
  | succ fuel ih =>
    intro next pass t buf hP hn hf
    rw [readRows]
    rcases hn with rfl | ⟨hn, hp⟩
    · have hr : InterlaceIter.nextRow ⟨0, next, pass⟩ = (⟨0, next, pass⟩, none) := by simp [InterlaceIter.nextRow]
      rw [hr]
      exact ⟨hP, rfl, rfl⟩
    · rcases Nat.lt_or_ge pass 4 with hp4 | hp4
      · obtain ⟨next', pass', h1, h2, h3, h4⟩ := InterlaceIter.nextRow_spec h next pass hn hp4
        rw [h1]
        simp only
        rw [h2, List.length_cons] at hf
        split
        · rename_i hc
          obtain ⟨g1, g2, g3⟩ := fillBuffer_good c f hg t ((buf.drop (next * c.lineLength f)).take (c.lineLength f)) hP
          have hlen : ∀ line : List UInt8, line.length = ((buf.drop (next * c.lineLength f)).take (c.lineLength f)).length →
              (buf.take (next * c.lineLength f) ++ line ++ buf.drop (next * c.lineLength f + c.lineLength f)).length =
                buf.length := by
            intro line hl
            simp only [List.length_append, hl, List.length_take, List.length_drop] at *
            omega
          match hcb : c.fillBuffer f cb t ((buf.drop (next * c.lineLength f)).take (c.lineLength f)) with
          | (t', line, .ok true) =>
            rw [hcb] at g1 g2 g3
            obtain ⟨i1, i2, i3⟩ := ih next' pass' t' (buf.take (next * c.lineLength f) ++ line ++
              buf.drop (next * c.lineLength f + c.lineLength f)) g1 (.inr ⟨h3, h4⟩) (by omega)
            exact ⟨i1, i2, by rw [i3, hlen line g3]⟩
          | (t', line, .ok false) => rw [hcb] at g1 g3; exact ⟨g1, rfl, hlen line g3⟩
          | (t', line, .err e) => rw [hcb] at g1 g3; exact ⟨g1, rfl, hlen line g3⟩
          | (t', line, .panic) => rw [hcb] at g2; cases g2
          | (t', line, .diverge) => rw [hcb] at g2; cases g2
        · exact ⟨hP, rfl, rfl⟩
      · have : pass = 4 := by omega
        subst this
        rw [InterlaceIter.nextRow_end]
        exact ⟨hP, rfl, rfl⟩

theorem readIntoBuffer_good (c : Converter) (f : Frame) {cb : Callback τ} {P : τ → Prop} (hg : cb.Good P) (t : τ)
    (buf : List UInt8) (hP : P t) :
    P (c.readIntoBuffer f cb t buf).1 ∧ (c.readIntoBuffer f cb t buf).2.2.returns = true ∧
      (c.readIntoBuffer f cb t buf).2.1.length = buf.length := by
  rw [readIntoBuffer]
  split
  · refine readRows_good c f hg f.height.toNat _ 0 0 t buf hP ?_ ?_
    · rcases Nat.eq_zero_or_pos f.height.toNat with h | h
      · exact .inl h
      · exact .inr ⟨h, by decide⟩
    · rw [InterlaceIter.remaining_zero, Spec.interlaceOrder_length]; omega
  · simp only
    split
    · rename_i hsz
      obtain ⟨g1, g2, g3⟩ := fillBuffer_good c f hg t (buf.take (c.bufferSize f)) hP
      have hlen : ∀ pix : List UInt8, pix.length = (buf.take (c.bufferSize f)).length →
          (pix ++ buf.drop (c.bufferSize f)).length = buf.length := by
        intro pix hl
        simp only [List.length_append, hl, List.length_take, List.length_drop]; omega
      match hcb : c.fillBuffer f cb t (buf.take (c.bufferSize f)) with
      | (t', pix, .ok true) => rw [hcb] at g1 g3; exact ⟨g1, rfl, hlen _ g3⟩
      | (t', pix, .ok false) => rw [hcb] at g1 g3; exact ⟨g1, rfl, hlen _ g3⟩
      | (t', pix, .err e) => rw [hcb] at g1 g3; exact ⟨g1, rfl, hlen _ g3⟩
      | (t', pix, .panic) => rw [hcb] at g2; cases g2
      | (t', pix, .diverge) => rw [hcb] at g2; cases g2
    · exact ⟨hP, rfl, rfl⟩

theorem checkBufferSize_cases (c : Converter) (f : Frame) :
    (c.checkBufferSize f = .ok (c.bufferSize f) ∧ c.memoryLimit.sizeOk (c.bufferSize f) = true) ∨
    (c.checkBufferSize f = .ioErr .outOfMemory ∧ c.memoryLimit.sizeOk (c.bufferSize f) = false) := by
  have hw := f.width.toNat_lt
  have hh := f.height.toNat_lt
  have hm : f.width.toNat * f.height.toNat ≤ 65535 * 65535 := Nat.mul_le_mul (by omega) (by omega)
  unfold checkBufferSize MemoryLimit.bufferSize MemoryLimit.bufferSizeOn
  rw [bufferSize_eq]
  unfold chan
  cases hc : c.colorOutput <;> simp only <;> rw [if_pos (by omega)]
  · cases hml : c.memoryLimit with
    | unlimited =>
      left; simp only [MemoryLimit.sizeOk, and_true]; rw [if_pos (Nat.mul_comm _ _), Nat.mul_comm]
    | bytes l hl =>
      simp only [MemoryLimit.sizeOk]
      by_cases hx : f.width.toNat * f.height.toNat * 4 > l
      · right; rw [if_pos hx]; simp; omega
      · left; rw [if_neg hx]; simp only; rw [if_pos (Nat.mul_comm _ _), Nat.mul_comm]; simp; omega
  · cases hml : c.memoryLimit with
    | unlimited =>
      left; simp only [MemoryLimit.sizeOk, and_true]; rw [if_pos (Nat.mul_comm _ _), Nat.mul_comm]
    | bytes l hl =>
      simp only [MemoryLimit.sizeOk]
      by_cases hx : f.width.toNat * f.height.toNat * 1 > l
      · right; rw [if_pos hx]; simp; omega
      · left; rw [if_neg hx]; simp only; rw [if_pos (Nat.mul_comm _ _), Nat.mul_comm]; simp; omega

theorem frameBuffer_length (f : Frame) (n : Nat) : (frameBuffer f n).length = n := by
  unfold frameBuffer
  split
  · split
    · simp only [List.length_append, List.length_take, List.length_replicate]; omega
    · simp
  · simp

/-- `read_frame`: returns, keeps `P`, and on success the buffer has exactly the checked size. -/
theorem readFrame_good (c : Converter) (f : Frame) {cb : Callback τ} {P : τ → Prop} (hg : cb.Good P) (t : τ) (hP : P t) :
    P (c.readFrame f cb t).1 ∧ (c.readFrame f cb t).2.2.returns = true ∧
      ((c.readFrame f cb t).2.2 = .ok () → (c.readFrame f cb t).2.1.buffer.length = c.bufferSize f ∧
        c.memoryLimit.sizeOk (c.bufferSize f) = true ∧
        (c.readFrame f cb t).2.1 = { f with buffer := (c.readFrame f cb t).2.1.buffer
                                            ownedCap := some (c.bufferSize f), interlaced := false }) := by
  unfold readFrame
  rcases checkBufferSize_cases c f with ⟨h1, h2⟩ | ⟨h1, h2⟩
  · rw [h1]
    simp only
    obtain ⟨g1, g2, g3⟩ := readIntoBuffer_good c { f with buffer := [], ownedCap := none } hg t
      (frameBuffer f (c.bufferSize f)) hP
    rw [frameBuffer_length] at g3
    match hr : c.readIntoBuffer { f with buffer := [], ownedCap := none } cb t (frameBuffer f (c.bufferSize f)) with
    | (t', vec, .ok ()) =>
      rw [hr] at g1 g3
      simp only at g3 ⊢
      exact ⟨g1, rfl, fun _ => ⟨g3, h2, by rw [g3]⟩⟩
    | (t', vec, .err e) => rw [hr] at g1; exact ⟨g1, rfl, fun h => by simp at h⟩
    | (t', vec, .panic) => rw [hr] at g2; cases g2
    | (t', vec, .diverge) => rw [hr] at g2; cases g2
  · rw [h1]
    exact ⟨hP, rfl, fun h => by simp at h⟩

end Converter

namespace SD

variable {C : Codec}

/-- The options, which no step changes. -/
def opts (s : SD C) : Bool × Bool × Bool × MemoryLimit × Bool :=
  (s.skipFrameDecoding, s.checkFrameConsistency, s.allowUnknownBlocks, s.memoryLimit, s.lzw.checkForEndCode)

theorem reset_opts (r : LzwReader C) (m : UInt8) : (r.reset m).1.checkForEndCode = r.checkForEndCode := by
  unfold LzwReader.reset
  split
  · split
    · split <;> rfl
    · rfl
  · rfl

theorem decodeBytes_opts (r : LzwReader C) (l : List UInt8) (o : OutSpec) :
    (r.decodeBytes l o).1.checkForEndCode = r.checkForEndCode := by
  unfold LzwReader.decodeBytes
  split
  · rfl
  · cases o with
    | vec l => rfl
    | slice c => simp only; split <;> (try split) <;> rfl
    | none => simp only; split <;> (try split) <;> rfl

theorem tr_opts {o : OutSpec} {b : UInt8} {bs : List UInt8} {s s' : SD C} {n : Nat} {ev : Decoded}
    (h : Tr o b bs s s' n ev) : s'.opts = s.opts := by
  cases h with
  | screen => split <;> rfl
  | imageHeader => split <;> rfl
  | gctData => split <;> rfl
  | image => unfold addFrame; split <;> rfl
  | lctData => split <;> (try split) <;> rfl
  | lzwPixels m lzw hs hk hr =>
    have := reset_opts s.lzw m
    rw [hr] at this
    simp only [opts]; rw [← this]
  | decode left consumed bytes lzw hs hk hl he hon hd n1 hn hc =>
    have := decodeBytes_opts s.lzw ((b :: bs).take (min left (b :: bs).length)) o
    rw [hd] at this
    simp only [opts]; rw [← this]
  | decodeFlush consumed bytes lzw hs hk hb hd hne =>
    have := decodeBytes_opts s.lzw [] o
    rw [hd] at this
    simp only [opts]; rw [← this]
  | decodeEnd consumed lzw hs hk hb hd =>
    have := decodeBytes_opts s.lzw [] o
    rw [hd] at this
    simp only [opts]; rw [← this]
  | _ => rfl

theorem steps_opts (hS : C.Safe) {o : OutSpec} {s s' : SD C} {l l' : List UInt8} (h : Steps o s l s' l') (hw : WF s)
    (hl : Look s l) : s'.opts = s.opts := by
  induction h with
  | refl => rfl
  | @step s s1 s' b bs l' n h _ ih =>
    have htr := tr_of_nextState hw.ibuf h
    obtain ⟨x1, x2, x3⟩ := tr_wf hS hw htr
    rw [ih x1 x2, tr_opts htr]

theorem nextState_err_opts {o : OutSpec} {b : UInt8} {bs : List UInt8} {s s' : SD C} {e : DecodingError}
    (h : nextState s (b :: bs) o = (s', .err e)) (hi : ibufOk s) : s'.opts = s.opts := by
  unfold nextState at h
  simp only at h
  match hs : s.state with
  | .magic =>
    simp only [hs] at h
    simp only [ibufOk, hs, required] at hi
    rw [ensureMin_eq _ _ _ _ (by simpa using hi) (by decide)] at h
    split at h
    · cases h
    · unfold onMagic goto at h
      split at h
      · cases h
      · split at h
        · cases h
        · cases h; rfl
  | .screenDescriptor =>
    simp only [hs] at h
    simp only [ibufOk, hs, required] at hi
    rw [ensureMin_eq _ _ _ _ (by simpa using hi) (by decide)] at h
    split at h
    · cases h
    · unfold onScreenDescriptor goto at h
      split at h
      · split at h <;> cases h
      · cases h
  | .imageBlockStart =>
    simp only [hs] at h
    simp only [ibufOk, hs, required] at hi
    rw [ensureMin_eq _ _ _ _ (by simpa using hi) (by decide)] at h
    split at h
    · cases h
    · unfold onImageBlockStart goto at h
      split at h
      · split at h
        · cases h; rfl
        · simp only at h
          split at h
          · cases h; rfl
          · split at h <;> cases h
      · cases h
  | .globalPalette left =>
    simp only [hs] at h
    unfold onGlobalPalette goto at h
    split at h
    · simp only at h; cases h
    · cases h
  | .blockStart t =>
    simp only [hs] at h
    unfold onBlockStart goto at h
    split at h
    · cases h
    · split at h
      · cases h
      · simp only at h
        split at h
        · cases h; rfl
        · cases h
      · cases h
      · split at h
        · cases h
        · cases h; rfl
  | .blockEnd =>
    simp only [hs] at h
    unfold onBlockEnd goto at h
    split at h <;> cases h
  | .extensionBlockStart =>
    simp only [hs, goto] at h
    cases h
  | .extensionDataBlock left =>
    simp only [hs] at h
    unfold onExtensionDataBlock goto at h
    split at h
    · simp only at h
      split at h
      · cases h
      · cases h; rfl
    · split at h
      · simp only at h
        split at h
        · cases h
        · unfold readControlExtension at h
          split at h
          · cases h
          · rename_i hx
            cases h
            split at hx
            · cases hx
            · cases hx; rfl
          · cases h
          · cases h
        · cases h
      · cases h
  | .applicationExtension =>
    simp only [hs] at h
    unfold onApplicationExtension goto at h
    split at h
    · cases h
    · split at h
      · split at h <;> cases h
      · cases h
  | .localPalette left =>
    simp only [hs] at h
    unfold onLocalPalette goto at h
    split at h
    · simp only at h
      split at h
      · cases h; rfl
      · split at h
        · split at h <;> cases h
        · cases h
    · cases h
  | .lzwInit m =>
    simp only [hs] at h
    unfold onLzwInit goto at h
    split at h
    · split at h
      · cases h
      · rename_i hr
        have := reset_opts s.lzw m
        rw [hr] at this
        cases h; simp only [opts]; rw [← this]
      · cases h
      · cases h
    · split at h
      · cases h
      · cases h; rfl
  | .copySubBlock left =>
    simp only [hs] at h
    unfold onCopySubBlock goto at h
    split at h
    · cases h
    · split at h
      · simp only at h
        split at h
        · split at h <;> cases h
        · cases h; rfl
        · cases h
        · cases h
      · split at h <;> cases h
  | .decodeSubBlock left =>
    simp only [hs] at h
    unfold onDecodeSubBlock goto at h
    split at h
    · cases h
    · split at h
      · simp only at h
        split at h
        · cases h
        · split at h
          · rename_i lzw consumed bytes hd
            revert h
            generalize (if consumed = 0 ∧ bytes.length = 0 then min left (b :: bs).length else consumed) = x
            intro h
            split at h <;> cases h
          · rename_i hd
            have := decodeBytes_opts s.lzw ((b :: bs).take (min left (b :: bs).length)) o
            rw [hd] at this
            cases h; simp only [opts]; rw [← this]
          · cases h
          · cases h
      · split at h
        · cases h
        · split at h
          · simp only at h; split at h <;> cases h
          · rename_i hd
            have := decodeBytes_opts s.lzw [] o
            rw [hd] at this
            cases h; simp only [opts]; rw [← this]
          · cases h
          · cases h
  | .frameDecoded =>
    simp only [hs] at h
    unfold onFrameDecoded goto at h
    simp only at h
    split at h <;> cases h
  | .trailer =>
    simp only [hs, goto] at h
    cases h

/-- `BytesDecoded` is only reported with data, no more than fits. -/
theorem tr_bytes (hS : C.Safe) {o : OutSpec} {b : UInt8} {bs : List UInt8} {s s' : SD C} {n : Nat} {bytes : List UInt8}
    (h : Tr o b bs s s' n (.bytesDecoded bytes)) : bytes ≠ [] ∧ bytes.length ≤ OutSpec.cap o := by
  generalize hev : Decoded.bytesDecoded bytes = ev at h
  cases h with
  | decode left consumed bytes' lzw hs hk hl he hon hd n1 hn hc =>
    split at hev
    · cases hev
    · rename_i hb
      cases hev
      exact ⟨fun h => hb (by simp [h]), (decodeBytes_bounds hS hd).2.1⟩
  | decodeFlush consumed bytes' lzw hs hk hb hd hne =>
    cases hev
    exact ⟨hne, (decodeBytes_bounds hS hd).2.1⟩
  | _ => cases hev

/-- After `FrameMetadata` there is a current frame. -/
theorem tr_metadata {o : OutSpec} {b : UInt8} {bs : List UInt8} {s s' : SD C} {n : Nat} {t : FrameDataType}
    (h : Tr o b bs s s' n (.frameMetadata t)) (hw : WF s) :
    (∃ f, s'.current = some f ∧ s.current = some f) ∧ ((∃ left, s'.state = .decodeSubBlock left ∧ t = .pixels) ∨
      (∃ left m, s'.state = .copySubBlock left ∧ t = .lzw m ∧ LzwReader.codeSizeOk m = true)) := by
  generalize hev : Decoded.frameMetadata t = ev at h
  cases h with
  | lzwPixels m lzw hs hk hr =>
    cases hev
    have w4 := hw.st
    simp only [stOk, hs] at w4
    obtain ⟨f, hf⟩ := Option.isSome_iff_exists.1 w4.2
    exact ⟨⟨f, hf, hf⟩, .inl ⟨_, rfl, rfl⟩⟩
  | lzwSkip m hs hk hm =>
    cases hev
    have w4 := hw.st
    simp only [stOk, hs] at w4
    obtain ⟨f, hf⟩ := Option.isSome_iff_exists.1 w4.2
    exact ⟨⟨f, hf, hf⟩, .inr ⟨_, _, rfl, rfl, hm⟩⟩
  | decode => split at hev <;> cases hev
  | _ => cases hev

end SD

namespace RD

variable {C : Codec}

/-- The last step of a call that returned an event. -/
theorem pull_last (hS : C.Safe) {o : OutSpec} {d d' : RD C} {out : Outcome (Option Decoded)} {ev : Decoded}
    (h : Pull o d d' out) (hi : Inv d) (hout : out = .ok (some ev)) :
    ∃ s1 b bs n, SD.WF s1 ∧ SD.Look s1 (b :: bs) ∧ SD.nextState s1 (b :: bs) o = (d'.sd, .ok (n, ev)) ∧
      SD.Tr o b bs s1 d'.sd n ev ∧ d'.atEof = false ∧ d'.reader.buf = (b :: bs).drop n := by
  induction h with
  | eof => cases hout
  | readErr => cases hout
  | eos => cases hout
  | @more d d' r b bs s1 out h hf hs hp ih =>
    obtain ⟨w1, w2, w3, w4⟩ := SD.steps_wf hS hs hi.wf (look_fill hi h hf)
    exact ih ⟨w1, fun _ => w2, fun _ => w4 (hi.live h)⟩ hout
  | @event d r b b1 bs bs1 s1 s' n ev h hf hs hn hev hev' =>
    cases hout
    obtain ⟨w1, w2, w3, w4⟩ := SD.steps_wf hS hs hi.wf (look_fill hi h hf)
    exact ⟨s1, b1, bs1, n, w1, w2, hn, SD.tr_of_nextState w1.ibuf hn, h, rfl⟩
  | trailer => cases hout
  | err => cases hout

theorem pull_opts (hS : C.Safe) {o : OutSpec} {d d' : RD C} {out : Outcome (Option Decoded)} (h : Pull o d d' out)
    (hi : Inv d) : d'.sd.opts = d.sd.opts := by
  induction h with
  | eof => rfl
  | readErr => rfl
  | eos => rfl
  | @more d d' r b bs s1 out h hf hs hp ih =>
    have hlk := look_fill hi h hf
    obtain ⟨w1, w2, w3, w4⟩ := SD.steps_wf hS hs hi.wf hlk
    rw [ih ⟨w1, fun _ => w2, fun _ => w4 (hi.live h)⟩]
    exact SD.steps_opts hS hs hi.wf hlk
  | @event d r b b1 bs bs1 s1 s' n ev h hf hs hn hev hev' =>
    have hlk := look_fill hi h hf
    obtain ⟨w1, w2, w3, w4⟩ := SD.steps_wf hS hs hi.wf hlk
    show s'.opts = _
    rw [SD.tr_opts (SD.tr_of_nextState w1.ibuf hn), SD.steps_opts hS hs hi.wf hlk]
  | @trailer d r b b1 bs bs1 s1 s' n h hf hs hn =>
    have hlk := look_fill hi h hf
    obtain ⟨w1, w2, w3, w4⟩ := SD.steps_wf hS hs hi.wf hlk
    show s'.opts = _
    rw [SD.tr_opts (SD.tr_of_nextState w1.ibuf hn), SD.steps_opts hS hs hi.wf hlk]
  | @err d r b b1 bs bs1 s1 s' e h hf hs hn =>
    have hlk := look_fill hi h hf
    obtain ⟨w1, w2, w3, w4⟩ := SD.steps_wf hS hs hi.wf hlk
    show s'.opts = _
    rw [SD.nextState_err_opts hn w1.ibuf, SD.steps_opts hS hs hi.wf hlk]

theorem decodeNextBytes_good (hS : C.Safe) : (decodeNextBytes (C := C)).Good Inv := by
  intro d cap hi
  unfold decodeNextBytes
  have hp := decodeNext_pull hS (.slice cap) d hi
  have hret := pull_returns hp
  have hinv := pull_inv hS hp hi
  match hd : d.decodeNext (.slice cap) with
  | (d', .ok (some (.bytesDecoded bytes))) =>
    rw [hd] at hp hinv
    obtain ⟨s1, b, bs, n, _, _, _, htr, _⟩ := pull_last hS hp hi rfl
    refine ⟨hinv, rfl, ?_⟩
    intro x hx
    cases hx
    exact (SD.tr_bytes hS htr).2
  | (d', .ok (some .dataEnd)) => rw [hd] at hinv; exact ⟨hinv, rfl, fun x hx => by cases hx; simp⟩
  | (d', .ok none) => rw [hd] at hinv; exact ⟨hinv, rfl, fun x hx => by cases hx⟩
  | (d', .ok (some ev)) =>
    rw [hd] at hinv
    cases ev with
    | bytesDecoded bytes =>
      rw [hd] at hp
      obtain ⟨s1, b, bs, n, _, _, _, htr, _⟩ := pull_last hS hp hi rfl
      exact ⟨hinv, rfl, fun x hx => by cases hx; exact (SD.tr_bytes hS htr).2⟩
    | dataEnd => exact ⟨hinv, rfl, fun x hx => by cases hx; simp⟩
    | _ => exact ⟨hinv, rfl, fun x hx => by cases hx⟩
  | (d', .err e) => rw [hd] at hinv; exact ⟨hinv, rfl, fun x hx => by cases hx⟩
  | (d', .panic) => rw [hd] at hret; cases hret
  | (d', .diverge) => rw [hd] at hret; cases hret

end RD

end Gif
