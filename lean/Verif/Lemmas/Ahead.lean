import Verif.Lemmas.DecRun
/-!
What has been read determines what is returned: results of `read` calls not yet made have no influence.
-/

namespace Gif

namespace Reader

/-- The same reader with further results of `read` calls behind the ones known. -/
def ahead (ext : List ReadEv) (r : Reader) : Reader := { r with src := r.src ++ ext }

theorem fillBuf_ahead (ext : List ReadEv) {r r' : Reader} {x : Except Nat (List UInt8)} (h : r.fillBuf = (r', x)) (hx : x ≠ .ok []) :
    (r.ahead ext).fillBuf = (r'.ahead ext, x) := by
  obtain ⟨buf, src⟩ := r
  unfold fillBuf at h ⊢
  cases buf with
  | cons b bs => simp only [Prod.mk.injEq] at h; obtain ⟨rfl, rfl⟩ := h; rfl
  | nil =>
    cases src with
    | nil => simp only [Prod.mk.injEq] at h; exact absurd h.2.symm hx
    | cons ev src => cases ev <;> (simp only [Prod.mk.injEq] at h; obtain ⟨rfl, rfl⟩ := h; rfl)

theorem consume_ahead (ext : List ReadEv) (r : Reader) (n : Nat) : (r.ahead ext).consume n = (r.consume n).ahead ext := rfl

theorem bytes_ahead (ext : List ReadEv) (r : Reader) : r.bytes.length ≤ (r.ahead ext).bytes.length := by
  simp [bytes, ahead]

end Reader

/-- The outcome does not say that the reader came to its end, and it is one. -/
def Outcome.here {α : Type} (x : Outcome α) : Prop := x ≠ .diverge ∧ x ≠ .ioErr .unexpectedEof

theorem Outcome.here_err {α β : Type} {e : DecodingError} (h : (.err e : Outcome α).here) : (.err e : Outcome β).here := by
  refine ⟨by simp, fun hx => h.2 ?_⟩
  simp only [Outcome.err.injEq] at hx ⊢
  exact hx

theorem Outcome.here_ok {α : Type} (a : α) : (.ok a : Outcome α).here := ⟨by simp, by simp⟩

theorem Outcome.here_panic {α : Type} : (.panic : Outcome α).here := ⟨by simp, by simp⟩

namespace RD

variable {C : Codec}

def ahead (ext : List ReadEv) (d : RD C) : RD C := { d with reader := d.reader.ahead ext }

theorem decodeNextLoop_ahead (ext : List ReadEv) (o : OutSpec) : ∀ (fuel fuel' : Nat) (d d' : RD C) (x : Outcome (Option Decoded)),
    fuel ≤ fuel' → decodeNextLoop o fuel d = (d', x) → x.here → decodeNextLoop o fuel' (d.ahead ext) = (d'.ahead ext, x) := by
  intro fuel
  induction fuel with
  | zero =>
    intro fuel' d d' x _ h hx
    simp only [decodeNextLoop, Prod.mk.injEq] at h
    exact absurd h.2.symm hx.1
  | succ fuel ih =>
    intro fuel' d d' x hf h hx
    obtain ⟨k, rfl⟩ : ∃ k, fuel' = k + 1 := ⟨fuel' - 1, by omega⟩
    rw [decodeNextLoop] at h ⊢
    by_cases he : d.atEof = true
    · rw [if_pos he] at h
      rw [if_pos (show (d.ahead ext).atEof = true from he)]
      simp only [Prod.mk.injEq] at h
      obtain ⟨rfl, rfl⟩ := h
      rfl
    · rw [if_neg he] at h
      rw [if_neg (show ¬ (d.ahead ext).atEof = true from he)]
      match hfb : d.reader.fillBuf with
      | (r, .error e) =>
        rw [hfb] at h
        have := Reader.fillBuf_ahead ext hfb (by simp)
        rw [show (d.ahead ext).reader = d.reader.ahead ext from rfl, this]
        simp only [Prod.mk.injEq] at h ⊢
        obtain ⟨rfl, rfl⟩ := h
        exact ⟨rfl, rfl⟩
      | (r, .ok buf) =>
        rw [hfb] at h
        cases buf with
        | nil =>
          simp only [List.isEmpty_nil, if_true, Prod.mk.injEq] at h
          exact absurd h.2.symm hx.2
        | cons b bs =>
          have := Reader.fillBuf_ahead ext hfb (by simp)
          rw [show (d.ahead ext).reader = d.reader.ahead ext from rfl, this]
          simp only [List.isEmpty_cons, Bool.false_eq_true, if_false] at h ⊢
          rw [show (d.ahead ext).sd = d.sd from rfl]
          match hu : d.sd.update (b :: bs) o with
          | (sd, .ok (consumed, ev)) =>
            rw [hu] at h
            simp only at h ⊢
            split at h
            · exact ih _ _ _ _ (by omega) h hx
            · exact ih _ _ _ _ (by omega) h hx
            · simp only [Prod.mk.injEq] at h
              obtain ⟨rfl, rfl⟩ := h
              rfl
          | (sd, .err e) =>
            rw [hu] at h
            simp only [Prod.mk.injEq] at h
            obtain ⟨rfl, rfl⟩ := h
            rfl
          | (sd, .panic) =>
            rw [hu] at h
            simp only [Prod.mk.injEq] at h
            obtain ⟨rfl, rfl⟩ := h
            rfl
          | (sd, .diverge) =>
            rw [hu] at h
            simp only [Prod.mk.injEq] at h
            exact absurd h.2.symm hx.1

theorem decodeNext_ahead (ext : List ReadEv) {o : OutSpec} {d d' : RD C} {x : Outcome (Option Decoded)}
    (h : d.decodeNext o = (d', x)) (hx : x.here) : (d.ahead ext).decodeNext o = (d'.ahead ext, x) :=
  decodeNextLoop_ahead ext o _ _ d d' x (by simp [ahead, Reader.ahead]) h hx

theorem eventFuel_ahead (ext : List ReadEv) (d : RD C) : d.eventFuel ≤ (d.ahead ext).eventFuel := by
  have := Reader.bytes_ahead ext d.reader
  unfold eventFuel
  show 4 * d.reader.bytes.length + 8 ≤ 4 * (d.reader.ahead ext).bytes.length + 8
  omega

/-- A callback on two sources that are in step. -/
def _root_.Gif.Callback.Sync {τ : Type} (cb : Callback τ) (A : τ → τ) : Prop :=
  ∀ t cap t' x, cb t cap = (t', x) → x.here → cb (A t) cap = (A t', x)

theorem decodeNextBytes_ahead (ext : List ReadEv) : (decodeNextBytes (C := C)).Sync (ahead ext) := by
  intro d cap d' x h hx
  unfold decodeNextBytes at h ⊢
  match hd : d.decodeNext (.slice cap) with
  | (d1, .ok none) =>
    rw [hd] at h
    rw [decodeNext_ahead ext hd (Outcome.here_ok _)]
    simp only [Prod.mk.injEq] at h; obtain ⟨rfl, rfl⟩ := h; rfl
  | (d1, .ok (some ev)) =>
    rw [hd] at h
    rw [decodeNext_ahead ext hd (Outcome.here_ok _)]
    cases ev <;> (simp only [Prod.mk.injEq] at h; obtain ⟨rfl, rfl⟩ := h; rfl)
  | (d1, .err e) =>
    rw [hd] at h
    simp only [Prod.mk.injEq] at h; obtain ⟨rfl, rfl⟩ := h
    rw [decodeNext_ahead ext hd (Outcome.here_err hx)]
  | (d1, .panic) =>
    rw [hd] at h
    rw [decodeNext_ahead ext hd Outcome.here_panic]
    simp only [Prod.mk.injEq] at h; obtain ⟨rfl, rfl⟩ := h; rfl
  | (d1, .diverge) =>
    rw [hd] at h
    simp only [Prod.mk.injEq] at h
    exact absurd h.2.symm hx.1

end RD

namespace Converter

variable {τ : Type}

theorem fillLoop_sync (c : Converter) (f : Frame) {cb : Callback τ} {A : τ → τ} (hs : cb.Sync A) :
    ∀ (fuel : Nat) (t t' : τ) (buf buf' : List UInt8) (x : Outcome Bool), c.fillLoop f cb fuel t buf = (t', buf', x) → x.here →
      c.fillLoop f cb fuel (A t) buf = (A t', buf', x) := by
  intro fuel
  induction fuel with
  | zero =>
    intro t t' buf buf' x h hx
    simp only [fillLoop, Prod.mk.injEq] at h ⊢
    exact ⟨by rw [h.1], h.2.1, h.2.2⟩
  | succ fuel ih =>
    intro t t' buf buf' x h hx
    rw [fillLoop] at h ⊢
    cases hco : c.colorOutput with
    | indexed =>
      simp only [hco] at h ⊢
      match hcb : cb t buf.length with
      | (t1, .ok bytes) =>
        rw [hcb] at h
        rw [hs _ _ _ _ hcb (Outcome.here_ok _)]
        simp only at h ⊢
        by_cases h1 : bytes.length = 0
        · rw [if_pos h1] at h ⊢; simp only [Prod.mk.injEq] at h ⊢; exact ⟨by rw [h.1], h.2⟩
        · rw [if_neg h1] at h ⊢
          by_cases h2 : bytes.length > buf.length
          · rw [if_pos h2] at h ⊢; simp only [Prod.mk.injEq] at h ⊢; exact ⟨by rw [h.1], h.2⟩
          · rw [if_neg h2] at h ⊢
            by_cases h3 : (buf.drop bytes.length).isEmpty = true
            · rw [if_pos h3] at h ⊢; simp only [Prod.mk.injEq] at h ⊢; exact ⟨by rw [h.1], h.2⟩
            · rw [if_neg h3] at h ⊢
              match hl : c.fillLoop f cb fuel t1 (buf.drop bytes.length) with
              | (t2, rest, r) =>
                rw [hl] at h
                simp only [Prod.mk.injEq] at h
                obtain ⟨rfl, rfl, rfl⟩ := h
                rw [ih _ _ _ _ _ hl hx]
      | (t1, .err e) =>
        rw [hcb] at h
        simp only [Prod.mk.injEq] at h
        obtain ⟨rfl, rfl, rfl⟩ := h
        rw [hs _ _ _ _ hcb (Outcome.here_err hx)]
      | (t1, .panic) =>
        rw [hcb] at h
        simp only [Prod.mk.injEq] at h
        obtain ⟨rfl, rfl, rfl⟩ := h
        rw [hs _ _ _ _ hcb Outcome.here_panic]
      | (t1, .diverge) =>
        rw [hcb] at h
        simp only [Prod.mk.injEq] at h
        exact absurd h.2.2.symm hx.1
    | rgba =>
      simp only [hco] at h ⊢
      by_cases h0 : buf.length / 4 = 0
      · rw [if_pos h0] at h ⊢; simp only [Prod.mk.injEq] at h ⊢; exact ⟨by rw [h.1], h.2⟩
      rw [if_neg h0] at h ⊢
      match hcb : cb t (buf.length / 4) with
      | (t1, .ok bytes) =>
        rw [hcb] at h
        rw [hs _ _ _ _ hcb (Outcome.here_ok _)]
        simp only at h ⊢
        by_cases h1 : bytes.length = 0
        · rw [if_pos h1] at h ⊢; simp only [Prod.mk.injEq] at h ⊢; exact ⟨by rw [h.1], h.2⟩
        · rw [if_neg h1] at h ⊢
          by_cases h2 : bytes.length * 4 > buf.length
          · rw [if_pos h2] at h ⊢; simp only [Prod.mk.injEq] at h ⊢; exact ⟨by rw [h.1], h.2⟩
          · rw [if_neg h2] at h ⊢
            by_cases h3 : (buf.drop (bytes.length * 4)).isEmpty = true
            · rw [if_pos h3] at h ⊢; simp only [Prod.mk.injEq] at h ⊢; exact ⟨by rw [h.1], h.2⟩
            · rw [if_neg h3] at h ⊢
              match hl : c.fillLoop f cb fuel t1 (buf.drop (bytes.length * 4)) with
              | (t2, rest, r) =>
                rw [hl] at h
                simp only [Prod.mk.injEq] at h
                obtain ⟨rfl, rfl, rfl⟩ := h
                rw [ih _ _ _ _ _ hl hx]
      | (t1, .err e) =>
        rw [hcb] at h
        simp only [Prod.mk.injEq] at h
        obtain ⟨rfl, rfl, rfl⟩ := h
        rw [hs _ _ _ _ hcb (Outcome.here_err hx)]
      | (t1, .panic) =>
        rw [hcb] at h
        simp only [Prod.mk.injEq] at h
        obtain ⟨rfl, rfl, rfl⟩ := h
        rw [hs _ _ _ _ hcb Outcome.here_panic]
      | (t1, .diverge) =>
        rw [hcb] at h
        simp only [Prod.mk.injEq] at h
        exact absurd h.2.2.symm hx.1

theorem fillBuffer_sync (c : Converter) (f : Frame) {cb : Callback τ} {A : τ → τ} (hs : cb.Sync A) {t t' : τ}
    {buf buf' : List UInt8} {x : Outcome Bool} (h : c.fillBuffer f cb t buf = (t', buf', x)) (hx : x.here) :
    c.fillBuffer f cb (A t) buf = (A t', buf', x) := fillLoop_sync c f hs _ _ _ _ _ _ h hx

theorem readRows_sync (c : Converter) (f : Frame) {cb : Callback τ} {A : τ → τ} (hs : cb.Sync A) :
    ∀ (fuel : Nat) (it : InterlaceIter) (t t' : τ) (buf buf' : List UInt8) (x : Outcome Unit),
      c.readRows f cb fuel it t buf = (t', buf', x) → x.here → c.readRows f cb fuel it (A t) buf = (A t', buf', x) := by
  intro fuel
  induction fuel with
  | zero =>
    intro it t t' buf buf' x h hx
    simp only [readRows, Prod.mk.injEq] at h ⊢
    exact ⟨by rw [h.1], h.2.1, h.2.2⟩
  | succ fuel ih =>
    intro it t t' buf buf' x h hx
    rw [readRows] at h ⊢
    match hr : it.nextRow with
    | (it1, none) =>
      rw [hr] at h
      simp only [Prod.mk.injEq] at h ⊢; exact ⟨by rw [h.1], h.2⟩
    | (it1, some row) =>
      rw [hr] at h
      simp only at h ⊢
      split at h
      · rename_i hc
        rw [if_pos hc]
        match hl : c.fillBuffer f cb t ((buf.drop (row * c.lineLength f)).take (c.lineLength f)) with
        | (t1, line, .ok true) =>
          rw [hl] at h
          rw [fillBuffer_sync c f hs hl (Outcome.here_ok _)]
          exact ih _ _ _ _ _ _ h hx
        | (t1, line, .ok false) =>
          rw [hl] at h
          rw [fillBuffer_sync c f hs hl (Outcome.here_ok _)]
          simp only [Prod.mk.injEq] at h ⊢; exact ⟨by rw [h.1], h.2⟩
        | (t1, line, .err e) =>
          rw [hl] at h
          simp only [Prod.mk.injEq] at h
          obtain ⟨rfl, rfl, rfl⟩ := h
          rw [fillBuffer_sync c f hs hl (Outcome.here_err hx)]
        | (t1, line, .panic) =>
          rw [hl] at h
          rw [fillBuffer_sync c f hs hl Outcome.here_panic]
          simp only [Prod.mk.injEq] at h ⊢; exact ⟨by rw [h.1], h.2⟩
        | (t1, line, .diverge) =>
          rw [hl] at h
          simp only [Prod.mk.injEq] at h
          exact absurd h.2.2.symm hx.1
      · rename_i hc
        rw [if_neg hc]
        simp only [Prod.mk.injEq] at h ⊢; exact ⟨by rw [h.1], h.2⟩

theorem readIntoBuffer_sync (c : Converter) (f : Frame) {cb : Callback τ} {A : τ → τ} (hs : cb.Sync A) {t t' : τ}
    {buf buf' : List UInt8} {x : Outcome Unit} (h : c.readIntoBuffer f cb t buf = (t', buf', x)) (hx : x.here) :
    c.readIntoBuffer f cb (A t) buf = (A t', buf', x) := by
  unfold readIntoBuffer at h ⊢
  split at h
  · rename_i hi
    rw [if_pos hi]
    exact readRows_sync c f hs _ _ _ _ _ _ _ h hx
  · rename_i hi
    rw [if_neg hi]
    simp only at h ⊢
    split at h
    · rename_i hc
      rw [if_pos hc]
      match hl : c.fillBuffer f cb t (buf.take (c.bufferSize f)) with
      | (t1, line, .ok true) =>
        rw [hl] at h
        rw [fillBuffer_sync c f hs hl (Outcome.here_ok _)]
        simp only [Prod.mk.injEq] at h ⊢; exact ⟨by rw [h.1], h.2⟩
      | (t1, line, .ok false) =>
        rw [hl] at h
        rw [fillBuffer_sync c f hs hl (Outcome.here_ok _)]
        simp only [Prod.mk.injEq] at h ⊢; exact ⟨by rw [h.1], h.2⟩
      | (t1, line, .err e) =>
        rw [hl] at h
        simp only [Prod.mk.injEq] at h
        obtain ⟨rfl, rfl, rfl⟩ := h
        rw [fillBuffer_sync c f hs hl (Outcome.here_err hx)]
      | (t1, line, .panic) =>
        rw [hl] at h
        rw [fillBuffer_sync c f hs hl Outcome.here_panic]
        simp only [Prod.mk.injEq] at h ⊢; exact ⟨by rw [h.1], h.2⟩
      | (t1, line, .diverge) =>
        rw [hl] at h
        simp only [Prod.mk.injEq] at h
        exact absurd h.2.2.symm hx.1
    · rename_i hc
      rw [if_neg hc]
      simp only [Prod.mk.injEq] at h ⊢; exact ⟨by rw [h.1], h.2⟩

theorem readFrame_sync (c : Converter) (f : Frame) {cb : Callback τ} {A : τ → τ} (hs : cb.Sync A) {t t' : τ}
    {f' : Frame} {x : Outcome Unit} (h : c.readFrame f cb t = (t', f', x)) (hx : x.here) :
    c.readFrame f cb (A t) = (A t', f', x) := by
  unfold readFrame at h ⊢
  match hc : c.checkBufferSize f with
  | .ok n =>
    rw [hc] at h
    simp only at h ⊢
    match hl : c.readIntoBuffer { f with buffer := [], ownedCap := none } cb t (frameBuffer f n) with
    | (t1, v, .ok ()) =>
      rw [hl] at h
      rw [readIntoBuffer_sync c _ hs hl (Outcome.here_ok _)]
      simp only [Prod.mk.injEq] at h ⊢; exact ⟨by rw [h.1], h.2⟩
    | (t1, v, .err e) =>
      rw [hl] at h
      simp only [Prod.mk.injEq] at h
      obtain ⟨rfl, rfl, rfl⟩ := h
      rw [readIntoBuffer_sync c _ hs hl (Outcome.here_err hx)]
    | (t1, v, .panic) =>
      rw [hl] at h
      rw [readIntoBuffer_sync c _ hs hl Outcome.here_panic]
      simp only [Prod.mk.injEq] at h ⊢; exact ⟨by rw [h.1], h.2⟩
    | (t1, v, .diverge) =>
      rw [hl] at h
      simp only [Prod.mk.injEq] at h
      exact absurd h.2.2.symm hx.1
  | .err e => rw [hc] at h; simp only [Prod.mk.injEq] at h ⊢; exact ⟨by rw [h.1], h.2⟩
  | .panic => rw [hc] at h; simp only [Prod.mk.injEq] at h ⊢; exact ⟨by rw [h.1], h.2⟩
  | .diverge => rw [hc] at h; simp only [Prod.mk.injEq] at h ⊢; exact ⟨by rw [h.1], h.2⟩

end Converter

namespace Decoder

variable {C : Codec}

def ahead (ext : List ReadEv) (d : Decoder C) : Decoder C := { d with rd := d.rd.ahead ext }

theorem initLoop_ahead (ext : List ReadEv) : ∀ (fuel fuel' : Nat) (d d' : Decoder C) (x : Outcome Unit),
    fuel ≤ fuel' → initLoop fuel d = (d', x) → x.here → initLoop fuel' (d.ahead ext) = (d'.ahead ext, x) := by
  intro fuel
  induction fuel with
  | zero =>
    intro fuel' d d' x _ h hx
    simp only [initLoop, Prod.mk.injEq] at h
    exact absurd h.2.symm hx.1
  | succ fuel ih =>
    intro fuel' d d' x hf h hx
    obtain ⟨k, rfl⟩ : ∃ k, fuel' = k + 1 := ⟨fuel' - 1, by omega⟩
    have hk : fuel ≤ k := by omega
    rw [initLoop] at h ⊢
    rw [show (d.ahead ext).rd = d.rd.ahead ext from rfl]
    match hd : d.rd.decodeNext .none with
    | (d1, .ok none) =>
      rw [hd] at h
      rw [RD.decodeNext_ahead ext hd (Outcome.here_ok _)]
      simp only [Prod.mk.injEq] at h; obtain ⟨rfl, rfl⟩ := h; rfl
    | (d1, .ok (some ev)) =>
      rw [hd] at h
      rw [RD.decodeNext_ahead ext hd (Outcome.here_ok _)]
      cases ev <;> first
        | exact ih _ _ _ _ hk h hx
        | (simp only [Prod.mk.injEq] at h; obtain ⟨rfl, rfl⟩ := h; rfl)
    | (d1, .err e) =>
      rw [hd] at h
      simp only [Prod.mk.injEq] at h; obtain ⟨rfl, rfl⟩ := h
      rw [RD.decodeNext_ahead ext hd (Outcome.here_err hx)]
      rfl
    | (d1, .panic) =>
      rw [hd] at h
      rw [RD.decodeNext_ahead ext hd Outcome.here_panic]
      simp only [Prod.mk.injEq] at h; obtain ⟨rfl, rfl⟩ := h; rfl
    | (d1, .diverge) =>
      rw [hd] at h
      simp only [Prod.mk.injEq] at h
      exact absurd h.2.symm hx.1

theorem nextFrameLoop_ahead (ext : List ReadEv) : ∀ (fuel fuel' : Nat) (d d' : Decoder C) (x : Outcome Bool),
    fuel ≤ fuel' → nextFrameLoop fuel d = (d', x) → x.here → nextFrameLoop fuel' (d.ahead ext) = (d'.ahead ext, x) := by
  intro fuel
  induction fuel with
  | zero =>
    intro fuel' d d' x _ h hx
    simp only [nextFrameLoop, Prod.mk.injEq] at h
    exact absurd h.2.symm hx.1
  | succ fuel ih =>
    intro fuel' d d' x hf h hx
    obtain ⟨k, rfl⟩ : ∃ k, fuel' = k + 1 := ⟨fuel' - 1, by omega⟩
    have hk : fuel ≤ k := by omega
    rw [nextFrameLoop] at h ⊢
    rw [show (d.ahead ext).rd = d.rd.ahead ext from rfl]
    match hd : d.rd.decodeNext .none with
    | (d1, .ok none) =>
      rw [hd] at h
      rw [RD.decodeNext_ahead ext hd (Outcome.here_ok _)]
      simp only [Prod.mk.injEq] at h; obtain ⟨rfl, rfl⟩ := h; rfl
    | (d1, .ok (some ev)) =>
      rw [hd] at h
      rw [RD.decodeNext_ahead ext hd (Outcome.here_ok _)]
      cases ev with
      | frameMetadata t =>
        simp only at h ⊢
        rw [show (d1.ahead ext).sd = d1.sd from rfl]
        cases hcur : d1.sd.current with
        | none =>
          rw [hcur] at h
          simp only [Prod.mk.injEq] at h; obtain ⟨rfl, rfl⟩ := h; rfl
        | some f =>
          rw [hcur] at h
          simp only at h ⊢
          split at h
          · rename_i hc
            refine (if_pos hc).trans ?_
            simp only [Prod.mk.injEq] at h; obtain ⟨rfl, rfl⟩ := h; rfl
          · rename_i hc
            refine (if_neg hc).trans ?_
            simp only [Prod.mk.injEq] at h; obtain ⟨rfl, rfl⟩ := h; rfl
      | _ => exact ih _ _ _ _ hk h hx
    | (d1, .err e) =>
      rw [hd] at h
      simp only [Prod.mk.injEq] at h; obtain ⟨rfl, rfl⟩ := h
      rw [RD.decodeNext_ahead ext hd (Outcome.here_err hx)]
      rfl
    | (d1, .panic) =>
      rw [hd] at h
      rw [RD.decodeNext_ahead ext hd Outcome.here_panic]
      simp only [Prod.mk.injEq] at h; obtain ⟨rfl, rfl⟩ := h; rfl
    | (d1, .diverge) =>
      rw [hd] at h
      simp only [Prod.mk.injEq] at h
      exact absurd h.2.symm hx.1

theorem copyLoop_ahead (ext : List ReadEv) : ∀ (fuel fuel' : Nat) (d d' : RD C) (v v' : List UInt8) (x : Outcome Unit),
    fuel ≤ fuel' → copyLoop fuel d v = (d', v', x) → x.here → copyLoop fuel' (d.ahead ext) v = (d'.ahead ext, v', x) := by
  intro fuel
  induction fuel with
  | zero =>
    intro fuel' d d' v v' x _ h hx
    simp only [copyLoop, Prod.mk.injEq] at h
    exact absurd h.2.2.symm hx.1
  | succ fuel ih =>
    intro fuel' d d' v v' x hf h hx
    obtain ⟨k, rfl⟩ : ∃ k, fuel' = k + 1 := ⟨fuel' - 1, by omega⟩
    have hk : fuel ≤ k := by omega
    rw [copyLoop] at h ⊢
    match hd : d.decodeNext (.vec v.length) with
    | (d1, .ok none) =>
      rw [hd] at h
      rw [RD.decodeNext_ahead ext hd (Outcome.here_ok _)]
      simp only [Prod.mk.injEq] at h; obtain ⟨rfl, rfl, rfl⟩ := h; rfl
    | (d1, .ok (some ev)) =>
      rw [hd] at h
      rw [RD.decodeNext_ahead ext hd (Outcome.here_ok _)]
      cases ev <;> first
        | exact ih _ _ _ _ _ _ hk h hx
        | (simp only [Prod.mk.injEq] at h; obtain ⟨rfl, rfl, rfl⟩ := h; rfl)
    | (d1, .err e) =>
      rw [hd] at h
      simp only [Prod.mk.injEq] at h; obtain ⟨rfl, rfl, rfl⟩ := h
      rw [RD.decodeNext_ahead ext hd (Outcome.here_err hx)]
    | (d1, .panic) =>
      rw [hd] at h
      rw [RD.decodeNext_ahead ext hd Outcome.here_panic]
      simp only [Prod.mk.injEq] at h; obtain ⟨rfl, rfl, rfl⟩ := h; rfl
    | (d1, .diverge) =>
      rw [hd] at h
      simp only [Prod.mk.injEq] at h
      exact absurd h.2.2.symm hx.1

theorem checkBg_ahead (ext : List ReadEv) (d : Decoder C) : (d.ahead ext).checkBg = d.checkBg.ahead ext := by
  obtain ⟨rd, ⟨ml, co, gp⟩, bg, rep, cf, dt⟩ := d
  cases gp with
  | none => rfl
  | some p =>
    by_cases h : (bg.getD 0).toNat ≥ p.length / 3
    · simp only [checkBg, ahead, if_pos h]; exact if_pos h
    · simp only [checkBg, ahead, if_neg h]; exact if_neg h

theorem readInfo_ahead (ext : List ReadEv) {o : DecodeOptions} {r : Reader} {d : Decoder C} {x : Outcome Unit}
    (h : readInfo C o r = (d, x)) (hx : x.here) : readInfo C o (r.ahead ext) = (d.ahead ext, x) := by
  unfold readInfo init at h ⊢
  have hf := RD.eventFuel_ahead ext (withNoInit C o r).rd
  rw [show withNoInit C o (r.ahead ext) = (withNoInit C o r).ahead ext from rfl]
  match hl : initLoop (withNoInit C o r).rd.eventFuel (withNoInit C o r) with
  | (d1, .ok ()) =>
    rw [hl] at h
    have := initLoop_ahead ext _ _ _ _ _ hf hl (Outcome.here_ok _)
    rw [show ((withNoInit C o r).ahead ext).rd = (withNoInit C o r).rd.ahead ext from rfl, this]
    simp only [Prod.mk.injEq] at h; obtain ⟨rfl, rfl⟩ := h
    simp only [Prod.mk.injEq, and_true]
    exact checkBg_ahead ext d1
  | (d1, .err e) =>
    rw [hl] at h
    simp only [Prod.mk.injEq] at h; obtain ⟨rfl, rfl⟩ := h
    have := initLoop_ahead ext _ _ _ _ _ hf hl (Outcome.here_err hx)
    rw [show ((withNoInit C o r).ahead ext).rd = (withNoInit C o r).rd.ahead ext from rfl, this]
  | (d1, .panic) =>
    rw [hl] at h
    simp only [Prod.mk.injEq] at h; obtain ⟨rfl, rfl⟩ := h
    have := initLoop_ahead ext _ _ _ _ _ hf hl Outcome.here_panic
    rw [show ((withNoInit C o r).ahead ext).rd = (withNoInit C o r).rd.ahead ext from rfl, this]
  | (d1, .diverge) =>
    rw [hl] at h
    simp only [Prod.mk.injEq] at h
    exact absurd h.2.symm hx.1

theorem nextFrameInfo_ahead (ext : List ReadEv) {d d' : Decoder C} {x : Outcome Bool} (h : d.nextFrameInfo = (d', x)) (hx : x.here) :
    (d.ahead ext).nextFrameInfo = (d'.ahead ext, x) :=
  nextFrameLoop_ahead ext _ _ _ _ _ (RD.eventFuel_ahead ext d.rd) h hx

theorem copyLzw_ahead (ext : List ReadEv) {m : UInt8} {d d' : RD C} {v : List UInt8} {x : Outcome Unit}
    (h : copyLzw m d = (d', v, x)) (hx : x.here) : copyLzw m (d.ahead ext) = (d'.ahead ext, v, x) :=
  copyLoop_ahead ext _ _ _ _ _ _ _ (RD.eventFuel_ahead ext d) h hx

theorem readNextFrame_ahead (ext : List ReadEv) {d d' : Decoder C} {x : Outcome (Option Frame)} (h : d.readNextFrame = (d', x))
    (hx : x.here) : (d.ahead ext).readNextFrame = (d'.ahead ext, x) := by
  unfold readNextFrame at h ⊢
  match hl : d.nextFrameInfo with
  | (d1, .ok true) =>
    rw [hl] at h
    rw [nextFrameInfo_ahead ext hl (Outcome.here_ok _)]
    simp only at h ⊢
    rw [show (d1.ahead ext).dataType = d1.dataType from rfl]
    cases hdt : d1.dataType with
    | pixels =>
      rw [hdt] at h
      simp only at h ⊢
      rw [show (d1.ahead ext).conv = d1.conv from rfl, show (d1.ahead ext).currentFrame = d1.currentFrame from rfl,
        show (d1.ahead ext).rd = d1.rd.ahead ext from rfl]
      match hr : d1.conv.readFrame d1.currentFrame RD.decodeNextBytes d1.rd with
      | (rd, f, .ok ()) =>
        rw [hr] at h
        rw [Converter.readFrame_sync _ _ (RD.decodeNextBytes_ahead ext) hr (Outcome.here_ok _)]
        simp only [Prod.mk.injEq] at h; obtain ⟨rfl, rfl⟩ := h; rfl
      | (rd, f, .err e) =>
        rw [hr] at h
        simp only [Prod.mk.injEq] at h; obtain ⟨rfl, rfl⟩ := h
        rw [Converter.readFrame_sync _ _ (RD.decodeNextBytes_ahead ext) hr (Outcome.here_err hx)]
        rfl
      | (rd, f, .panic) =>
        rw [hr] at h
        rw [Converter.readFrame_sync _ _ (RD.decodeNextBytes_ahead ext) hr Outcome.here_panic]
        simp only [Prod.mk.injEq] at h; obtain ⟨rfl, rfl⟩ := h; rfl
      | (rd, f, .diverge) =>
        rw [hr] at h
        simp only [Prod.mk.injEq] at h
        exact absurd h.2.symm hx.1
    | lzw m =>
      rw [hdt] at h
      simp only at h ⊢
      rw [show (d1.ahead ext).currentFrame = d1.currentFrame from rfl, show (d1.ahead ext).rd = d1.rd.ahead ext from rfl]
      match hr : copyLzw m d1.rd with
      | (rd, v, .ok ()) =>
        rw [hr] at h
        rw [copyLzw_ahead ext hr (Outcome.here_ok _)]
        simp only [Prod.mk.injEq] at h; obtain ⟨rfl, rfl⟩ := h; rfl
      | (rd, v, .err e) =>
        rw [hr] at h
        simp only [Prod.mk.injEq] at h; obtain ⟨rfl, rfl⟩ := h
        rw [copyLzw_ahead ext hr (Outcome.here_err hx)]
        rfl
      | (rd, v, .panic) =>
        rw [hr] at h
        rw [copyLzw_ahead ext hr Outcome.here_panic]
        simp only [Prod.mk.injEq] at h; obtain ⟨rfl, rfl⟩ := h; rfl
      | (rd, v, .diverge) =>
        rw [hr] at h
        simp only [Prod.mk.injEq] at h
        exact absurd h.2.symm hx.1
  | (d1, .ok false) =>
    rw [hl] at h
    rw [nextFrameInfo_ahead ext hl (Outcome.here_ok _)]
    simp only [Prod.mk.injEq] at h; obtain ⟨rfl, rfl⟩ := h; rfl
  | (d1, .err e) =>
    rw [hl] at h
    simp only [Prod.mk.injEq] at h; obtain ⟨rfl, rfl⟩ := h
    rw [nextFrameInfo_ahead ext hl (Outcome.here_err hx)]
  | (d1, .panic) =>
    rw [hl] at h
    rw [nextFrameInfo_ahead ext hl Outcome.here_panic]
    simp only [Prod.mk.injEq] at h; obtain ⟨rfl, rfl⟩ := h; rfl
  | (d1, .diverge) =>
    rw [hl] at h
    simp only [Prod.mk.injEq] at h
    exact absurd h.2.symm hx.1

theorem fillBuffer_ahead (ext : List ReadEv) {d d' : Decoder C} {buf buf' : List UInt8} {x : Outcome Bool}
    (h : d.fillBuffer buf = (d', buf', x)) (hx : x.here) : (d.ahead ext).fillBuffer buf = (d'.ahead ext, buf', x) := by
  unfold fillBuffer at h ⊢
  match hl : d.conv.fillBuffer d.currentFrame RD.decodeNextBytes d.rd buf with
  | (rd, b, y) =>
    rw [hl] at h
    simp only [Prod.mk.injEq] at h; obtain ⟨rfl, rfl, rfl⟩ := h
    have := Converter.fillBuffer_sync _ _ (RD.decodeNextBytes_ahead ext) hl hx
    simp only [ahead, this]

theorem readIntoBuffer_ahead (ext : List ReadEv) {d d' : Decoder C} {buf buf' : List UInt8} {x : Outcome Unit}
    (h : d.readIntoBuffer buf = (d', buf', x)) (hx : x.here) : (d.ahead ext).readIntoBuffer buf = (d'.ahead ext, buf', x) := by
  unfold readIntoBuffer at h ⊢
  match hl : d.conv.readIntoBuffer d.currentFrame RD.decodeNextBytes d.rd buf with
  | (rd, b, y) =>
    rw [hl] at h
    simp only [Prod.mk.injEq] at h; obtain ⟨rfl, rfl, rfl⟩ := h
    have := Converter.readIntoBuffer_sync _ _ (RD.decodeNextBytes_ahead ext) hl hx
    simp only [ahead, this]

end Decoder

end Gif
