import Verif.Props.FrameDecoder
import Verif.Props.Given
import Verif.Props.Safety
/-!
# C22, C23 for every codec that keeps the contract: what a `FrameDecoder` gives, is right
-/

namespace Gif

variable {C : Codec}

/-- A source that fails where the other one ends. -/
def Callback.strict {τ : Type} (cb : Callback τ) : Callback τ := fun t cap =>
  match cb t cap with
  | (t', .ok []) => (t', .fmtErr .imageTruncated)
  | x => x

theorem Callback.strict_ok {τ : Type} {cb : Callback τ} {t t' : τ} {cap : Nat} {bytes : List UInt8} (h : cb t cap = (t', .ok bytes))
    (hb : bytes.length ≠ 0) : cb.strict t cap = (t', .ok bytes) := by
  unfold strict
  rw [h]
  cases bytes with
  | nil => exact absurd rfl hb
  | cons => rfl

namespace Converter

variable {τ : Type}

theorem fillLoop_strict (c : Converter) (f : Frame) (cb : Callback τ) : ∀ (fuel : Nat) (t t' : τ) (buf b : List UInt8),
    c.fillLoop f cb fuel t buf = (t', b, .ok true) → c.fillLoop f cb.strict fuel t buf = (t', b, .ok true) := by
  intro fuel
  induction fuel with
  | zero => intro t t' buf b h; simp [fillLoop] at h
  | succ fuel ih =>
    intro t t' buf b h
    rw [fillLoop] at h ⊢
    cases hco : c.colorOutput with
    | indexed =>
      simp only [hco] at h ⊢
      match hcb : cb t buf.length with
      | (t1, .ok bytes) =>
        rw [hcb] at h
        simp only at h
        by_cases h1 : bytes.length = 0
        · rw [if_pos h1] at h; simp at h
        · rw [Callback.strict_ok hcb h1]
          simp only
          rw [if_neg h1] at h ⊢
          split at h
          · simp at h
          · rename_i h2
            rw [if_neg h2]
            split at h
            · rename_i h3
              rw [if_pos h3]; exact h
            · rename_i h3
              rw [if_neg h3]
              match hl : c.fillLoop f cb fuel t1 (buf.drop bytes.length) with
              | (t2, rest, r) =>
                rw [hl] at h
                simp only [Prod.mk.injEq] at h
                obtain ⟨rfl, rfl, rfl⟩ := h
                rw [ih _ _ _ _ hl]
      | (t1, .err e) => rw [hcb] at h; simp at h
      | (t1, .panic) => rw [hcb] at h; simp at h
      | (t1, .diverge) => rw [hcb] at h; simp at h
    | rgba =>
      simp only [hco] at h ⊢
      by_cases h0 : buf.length / 4 = 0
      · rw [if_pos h0] at h; simp at h
      rw [if_neg h0] at h ⊢
      match hcb : cb t (buf.length / 4) with
      | (t1, .ok bytes) =>
        rw [hcb] at h
        simp only at h
        by_cases h1 : bytes.length = 0
        · rw [if_pos h1] at h; simp at h
        · rw [Callback.strict_ok hcb h1]
          simp only
          rw [if_neg h1] at h ⊢
          split at h
          · simp at h
          · rename_i h2
            rw [if_neg h2]
            split at h
            · rename_i h3
              rw [if_pos h3]; exact h
            · rename_i h3
              rw [if_neg h3]
              match hl : c.fillLoop f cb fuel t1 (buf.drop (bytes.length * 4)) with
              | (t2, rest, r) =>
                rw [hl] at h
                simp only [Prod.mk.injEq] at h
                obtain ⟨rfl, rfl, rfl⟩ := h
                rw [ih _ _ _ _ hl]
      | (t1, .err e) => rw [hcb] at h; simp at h
      | (t1, .panic) => rw [hcb] at h; simp at h
      | (t1, .diverge) => rw [hcb] at h; simp at h

theorem readRows_strict (c : Converter) (f : Frame) (cb : Callback τ) : ∀ (fuel : Nat) (it : InterlaceIter) (t t' : τ)
    (buf b : List UInt8), c.readRows f cb fuel it t buf = (t', b, .ok ()) → c.readRows f cb.strict fuel it t buf = (t', b, .ok ()) := by
  intro fuel
  induction fuel with
  | zero => intro it t t' buf b h; simp [readRows] at h
  | succ fuel ih =>
    intro it t t' buf b h
    rw [readRows] at h ⊢
    match hr : it.nextRow with
    | (it1, none) => rw [hr] at h; exact h
    | (it1, some row) =>
      rw [hr] at h
      simp only at h ⊢
      split at h
      · rename_i hc
        rw [if_pos hc]
        match hl : c.fillBuffer f cb t ((buf.drop (row * c.lineLength f)).take (c.lineLength f)) with
        | (t1, line, .ok true) =>
          rw [hl] at h
          have : c.fillBuffer f cb.strict t ((buf.drop (row * c.lineLength f)).take (c.lineLength f)) = (t1, line, .ok true) :=
            fillLoop_strict c f cb _ _ _ _ _ hl
          rw [this]
          exact ih _ _ _ _ _ h
        | (t1, line, .ok false) => rw [hl] at h; simp at h
        | (t1, line, .err e) => rw [hl] at h; simp at h
        | (t1, line, .panic) => rw [hl] at h; simp at h
        | (t1, line, .diverge) => rw [hl] at h; simp at h
      · simp at h

theorem readIntoBuffer_strict (c : Converter) (f : Frame) (cb : Callback τ) {t t' : τ} {buf b : List UInt8}
    (h : c.readIntoBuffer f cb t buf = (t', b, .ok ())) : c.readIntoBuffer f cb.strict t buf = (t', b, .ok ()) := by
  unfold readIntoBuffer at h ⊢
  split at h
  · rename_i hi
    rw [if_pos hi]
    exact readRows_strict c f cb _ _ _ _ _ _ h
  · rename_i hi
    rw [if_neg hi]
    simp only at h ⊢
    split at h
    · rename_i hc
      rw [if_pos hc]
      match hl : c.fillBuffer f cb t (buf.take (c.bufferSize f)) with
      | (t1, line, .ok true) =>
        rw [hl] at h
        have : c.fillBuffer f cb.strict t (buf.take (c.bufferSize f)) = (t1, line, .ok true) := fillLoop_strict c f cb _ _ _ _ _ hl
        rw [this]
        exact h
      | (t1, line, .ok false) => rw [hl] at h; simp at h
      | (t1, line, .err e) => rw [hl] at h; simp at h
      | (t1, line, .panic) => rw [hl] at h; simp at h
      | (t1, line, .diverge) => rw [hl] at h; simp at h
    · simp at h

end Converter

namespace FrameDecoder

open Spec (shown Unpacks)

/-- What the data of a `FrameDecoder` expand to. -/
def Held (K : C.Contract) (e : LzwEnd) (t : LzwReader C × List UInt8) (l : List UInt8) : Prop :=
  ∃ st, t.1.decoder = some st ∧ K.Yields st t.2 l e

theorem pullLoop_held (K : C.Contract) {e : LzwEnd} (cap : Nat) :
    ∀ (fuel : Nat) (t : LzwReader C × List UInt8) (l : List UInt8), Held K e t l → t.2.length < fuel →
      (∃ t' p l', pullLoop cap fuel t = (t', .ok p) ∧ p.length ≤ cap ∧ l = p ++ l' ∧ Held K e t' l') ∨
      (∃ t' er, pullLoop cap fuel t = (t', .err er)) := by
  intro fuel
  induction fuel with
  | zero => intro t l _ h; omega
  | succ fuel ih =>
    rintro ⟨lzw, data⟩ l ⟨st, hst, hy⟩ hlen
    simp only at hst hy hlen
    have hstep := K.step (rest := []) cap (by rw [List.append_nil]; exact hy)
    have hcons := K.safe.consumed_le st data cap
    have hout := K.safe.out_le st data cap
    rw [List.append_nil] at hstep
    have hslice := LzwReader.decodeBytes_slice hst data cap
    by_cases hbad : (C.decodeBytes st data cap).status = .invalidCode
    · refine .inr ⟨({ lzw with decoder := some (C.decodeBytes st data cap).st }, data), .io .invalidCode, ?_⟩
      rw [pullLoop, hslice, hbad]
    · have hok : (∃ er, lzw.decodeBytes data (.slice cap) = ({ lzw with decoder := some (C.decodeBytes st data cap).st }, .err er)) ∨
          lzw.decodeBytes data (.slice cap) = ({ lzw with decoder := some (C.decodeBytes st data cap).st },
          .ok ((C.decodeBytes st data cap).consumed, (C.decodeBytes st data cap).out)) := by
        rw [hslice]
        split
        · exact .inr rfl
        · exact .inr rfl
        · split
          · exact .inl ⟨_, rfl⟩
          · exact .inr rfl
        · exact .inl ⟨_, rfl⟩
      rcases hok with ⟨er, hok⟩ | hok
      · exact .inr ⟨({ lzw with decoder := some (C.decodeBytes st data cap).st }, data), er, by rw [pullLoop, hok]⟩
      rw [pullLoop, hok]
      simp only
      obtain ⟨l', hl, hy'⟩ := hstep hbad
      clear hok hslice
      generalize C.decodeBytes st data cap = res at *
      split
      · exact .inl ⟨_, _, l', rfl, hout, hl, _, rfl, hy'⟩
      · rename_i hc
        simp only [not_or] at hc
        have hz : res.out = [] := List.eq_nil_of_length_eq_zero (by omega)
        rw [hz, List.nil_append] at hl
        subst hl
        refine ih _ l ⟨_, rfl, hy'⟩ ?_
        simp only [List.length_drop]
        omega

theorem strict_src (K : C.Contract) (e : LzwEnd) :
    Converter.Src (Callback.strict (pull (C := C))) (Held K e) (fun _ => False) (fun _ => True) := by
  intro t l cap h _
  rcases pullLoop_held K cap (t.2.length + 1) t l h (by omega) with ⟨t', p, l', h1, h2, h3, h4⟩ | ⟨t', er, h1⟩
  · have h1' : pull t cap = (t', .ok p) := h1
    by_cases hp : p = []
    · subst hp
      refine .inr (.inr ⟨t', .format .imageTruncated, ?_, trivial⟩)
      unfold Callback.strict
      rw [h1']
    · exact .inl ⟨t', p, l', Callback.strict_ok h1' (fun h => hp (List.eq_nil_of_length_eq_zero h)), hp, h2, h3, h4⟩
  · have h1' : pull t cap = (t', .err er) := h1
    refine .inr (.inr ⟨t', er, ?_, trivial⟩)
    unfold Callback.strict
    rw [h1']

/-- **C22, C23** for every frame, every options and every codec that keeps the contract: if a `FrameDecoder` does not fail, the
frame it makes is the picture described by the palette indices that the data expand to, however it was used before. -/
theorem right (K : C.Contract) {o : DecodeOptions} {d d' : FrameDecoder C} (hd : Reach o d) {f g : Frame}
    (h : d.decodeFrame f = (d', g, .ok ())) (hbuf : f.buffer ≠ []) :
    ∃ px, Unpacks K f px ∧ f.width.toNat * f.height.toNat ≤ px.1.length ∧ g = shown o.colorOutput d.conv.globalPalette f px.1 := by
  obtain ⟨h1, -, h3, -⟩ := hd.inv K
  match hb : f.buffer with
  | [] => exact absurd hb hbuf
  | m :: data =>
    obtain ⟨px, e, hy⟩ := K.total m data
    refine ⟨(px, e), ⟨m, data, hb, hy⟩, ?_⟩
    unfold decodeFrame at h
    rcases d.conv.checkBufferSize_cases f with ⟨hc, -⟩ | ⟨hc, -⟩
    · rw [hc] at h
      simp only at h
      unfold decodeIntoBuffer at h
      rw [hb] at h
      simp only at h
      by_cases hm : LzwReader.codeSizeOk m = true
      · obtain ⟨r1, r2, _, st, r3, r4⟩ := reset_yields K h1 hm
        have hr : d.lzw.reset m = ((d.lzw.reset m).1, .ok ()) := by
          unfold LzwReader.reset
          rw [if_pos hm]
          split
          · split <;> rfl
          · rfl
        rw [hr] at h
        simp only at h
        match hi : d.conv.readIntoBuffer f pull ((d.lzw.reset m).1, data) (List.replicate (d.conv.bufferSize f) 0) with
        | (t, vec, .ok ()) =>
          rw [hi] at h
          simp only [Prod.mk.injEq, and_true] at h
          have hi' := d.conv.readIntoBuffer_strict f pull hi
          rcases Decoder.readIntoBuffer_any d.conv f (strict_src K e) ((d.lzw.reset m).1, data) px ⟨st, r3, r4 _ _ _ hy⟩
            (by rw [hi']; rfl) with ⟨k1, t', k2, -⟩ | ⟨t', b, er, k2⟩
          · rw [hi'] at k2
            simp only [Prod.mk.injEq, and_true] at k2
            refine ⟨k1, ?_⟩
            rw [← h.2, k2.2, h3]
            rfl
          · rw [hi'] at k2
            simp at k2
        | (t, vec, .err er) => rw [hi] at h; simp at h
        | (t, vec, .panic) => rw [hi] at h; simp at h
        | (t, vec, .diverge) => rw [hi] at h; simp at h
      · have hr : d.lzw.reset m = (d.lzw, .fmtErr .invalidMinCodeSize) := by
          unfold LzwReader.reset
          rw [if_neg hm]
        rw [hr] at h
        simp at h
    · rw [hc] at h; simp at h

/-- **C23** for every file, all options and all reads: a frame that `read_next_frame` returns, after any calls, and the frame that a
`FrameDecoder` with the same colours and the global palette makes of the raw frame at this place in the file, are the same,
unless one of the two fails. The file with the raw frames may be longer than the one with the pixels. -/
theorem expand_agrees (K : C.Contract) {o p : DecodeOptions} (hs : o.skipFrameDecoding = false) (hc : p.colorOutput = o.colorOutput)
    {r x : Reader} (h : r.Reliable) (hx : x.Reliable) (hb : r.bytes <+: x.bytes) (as : List Act) (g : Frame) (w : View)
    (hg : Decoder.filmFrom C o r (as ++ [.read]) = Decoder.filmFrom C o r as ++ [.seen (.frame (some g) w)]) (f : Frame) (v : View)
    (c0 : Bool) (m : MemoryLimit)
    (hf : (Decoder.rawFilm C { o with memoryLimit := m, checkForEndCode := c0 } x (Spec.seeks as + 1))[Spec.seeks as + 1]? =
      some (.frame (some f) v))
    {d : FrameDecoder C} (hd : Reach p d) (hpal : d.conv.globalPalette = v.globalPalette) :
    (∃ d', d.decodeFrame f = (d', g, .ok ())) ∨ ∃ d' g' e, d.decodeFrame f = (d', g', .err e) := by
  obtain ⟨px, ⟨m', data, hbuf, hy⟩, hl, rfl, hw⟩ := Decoder.frame_right K o hs c0 m h hx hb as g w hg f v hf
  have hret := (calls_return K.safe d f []).1
  match hdec : d.decodeFrame f with
  | (d', g', .ok ()) =>
    left
    obtain ⟨px', ⟨m1, data1, hbuf1, hy1⟩, hl', rfl⟩ := right K hd hdec (by rw [hbuf]; simp)
    rw [hbuf] at hbuf1
    cases hbuf1
    obtain ⟨q, -⟩ := K.det hy hy1
    refine ⟨d', ?_⟩
    rw [hpal, hc, ← q]
  | (d', g', .err e) => exact .inr ⟨_, _, _, rfl⟩
  | (d', g', .panic) => rw [hdec] at hret; cases hret
  | (d', g', .diverge) => rw [hdec] at hret; cases hret

end FrameDecoder

end Gif
