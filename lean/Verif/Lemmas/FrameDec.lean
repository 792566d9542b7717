import Verif.Lemmas.Sim
import Verif.Props.Film
/-!
`FrameDecoder`: what it makes of compressed data.
-/

namespace Gif

open Spec (Pixels deliver shown picture)

variable {C : Codec}

namespace FrameDecoder

/-- What the callback of a `FrameDecoder` is going to deliver. -/
def Stock (K : C.Contract) (warm : C.σ → Prop) (n : Nat) (ck : Bool) (e : LzwEnd) (t : LzwReader C × List UInt8)
    (l : List UInt8) : Prop :=
  K.Fit t.1 ∧ t.1.checkForEndCode = ck ∧
    ∃ st, t.1.decoder = some st ∧ K.Yields st t.2 l e ∧ (warm st ∨ n < t.2.length ∨ t.2 = [])

theorem pullLoop_stock (K : C.Contract) {warm : C.σ → Prop} {n : Nat}
    (hwarm : ∀ s inp cap, warm s ∨ inp ≠ [] → warm (C.decodeBytes s inp cap).st)
    (hp : ∀ {s inp out e} (cap), K.Yields s inp out e → 0 < cap → warm s ∨ n < inp.length →
      (C.decodeBytes s inp cap).status ≠ .invalidCode → (C.decodeBytes s inp cap).out = [] →
      (C.decodeBytes s inp cap).consumed = inp.length → out = [] ∧ e ≠ .invalid)
    {ck : Bool} {e : LzwEnd} (hck : ck = false ∨ e = .ended) (cap : Nat) (hcap : 0 < cap) :
    ∀ (fuel : Nat) (t : LzwReader C × List UInt8) (l : List UInt8), t.2.length < fuel → Stock K warm n ck e t l →
      (∃ t' p l', pullLoop cap fuel t = (t', .ok p) ∧ p ≠ [] ∧ p.length ≤ cap ∧ l = p ++ l' ∧ Stock K warm n ck e t' l') ∨
      (∃ t', pullLoop cap fuel t = (t', .ok []) ∧ l = [] ∧ e ≠ .invalid ∧ K.Fit t'.1 ∧ t'.1.checkForEndCode = ck) ∨
      (∃ t', pullLoop cap fuel t = (t', .err (.io .invalidCode)) ∧ e = .invalid ∧ K.Fit t'.1 ∧
        t'.1.checkForEndCode = ck) := by
  intro fuel
  induction fuel with
  | zero => intro t l h; omega
  | succ fuel ih =>
    rintro ⟨lzw, data⟩ l hlen ⟨hfit, hcheck, st, hst, hy, hw⟩
    simp only at hlen hfit hcheck hst hy hw
    have hstep := K.step (rest := []) cap (by rw [List.append_nil]; exact hy)
    have hinv := K.invalid cap hy
    have hprog := K.progress cap hy
    have hflush := fun h : data = [] => K.flush (s := st) (out := l) (e := e) cap (by rw [← h]; exact hy) hcap
    have hwarm' := hwarm st data cap
    have hcons := K.safe.consumed_le st data cap
    have hout := K.safe.out_le st data cap
    have hno := K.noProgress (s := st) (inp := data) (cap := cap)
    have hsize := K.size_step st data cap
    have hfit' : K.Fit ({ lzw with decoder := some (C.decodeBytes st data cap).st } : LzwReader C) := by
      intro x hx
      cases hx
      rw [hsize]
      exact hfit st hst
    rw [List.append_nil] at hstep
    replace hwarm' : warm (C.decodeBytes st data cap).st ∨ n < (data.drop (C.decodeBytes st data cap).consumed).length ∨
        data.drop (C.decodeBytes st data cap).consumed = [] := by
      rcases hw with hw | hw | hw
      · exact .inl (hwarm' (.inl hw))
      · exact .inl (hwarm' (.inr (by rintro rfl; simp at hw)))
      · exact .inr (.inr (by rw [hw, List.drop_nil]))
    have hp' : (C.decodeBytes st data cap).status ≠ .invalidCode → (C.decodeBytes st data cap).out = [] →
        (C.decodeBytes st data cap).consumed = data.length → l = [] ∧ e ≠ .invalid := by
      intro h1 h2 h3
      by_cases hd : data = []
      · subst hd
        exact ⟨(hflush rfl h1 h2).1, (hflush rfl h1 h2).2.1⟩
      · exact hp cap hy hcap (hw.imp id fun h => h.resolve_right hd) h1 h2 h3
    have hslice := LzwReader.decodeBytes_slice hst data cap
    by_cases hbad : (C.decodeBytes st data cap).status = .invalidCode
    · refine .inr (.inr ⟨({ lzw with decoder := some (C.decodeBytes st data cap).st }, data), ?_, hinv hbad, hfit', hcheck⟩)
      rw [pullLoop, hslice, hbad]
    · have hok : lzw.decodeBytes data (.slice cap) = ({ lzw with decoder := some (C.decodeBytes st data cap).st },
          .ok ((C.decodeBytes st data cap).consumed, (C.decodeBytes st data cap).out)) := by
        rw [hslice]
        split
        · rfl
        · rfl
        · rename_i hs
          rcases hck with hck | hck
          · rw [hcheck, hck]; rfl
          · exfalso
            obtain ⟨c1, c2, c3⟩ := hno hs
            by_cases hd : data = []
            · subst hd
              have := (hflush rfl hbad c2).2.2 hck
              rw [c3] at this
              cases this
            · have := hprog hd hcap hbad c1 c2
              rw [c3] at this
              cases this
        · exact absurd (by assumption) hbad
      rw [pullLoop, hok]
      simp only
      obtain ⟨l', hl, hy'⟩ := hstep hbad
      clear hok hslice
      generalize C.decodeBytes st data cap = res at *
      by_cases hb : res.out = []
      · rw [hb, List.nil_append] at hl
        subst hl
        rw [hb]
        by_cases hr : res.consumed = 0 ∨ data.drop res.consumed = []
        · -- nothing left
          rw [if_pos (.inr (by rcases hr with h | h <;> simp [h]))]
          refine .inr (.inl ⟨_, rfl, ?_⟩)
          have : l = [] ∧ e ≠ .invalid := by
            by_cases hall : res.consumed = data.length
            · exact hp' hbad hb hall
            · have h0 : res.consumed = 0 := by
                rcases hr with h | h
                · exact h
                · rw [List.drop_eq_nil_iff] at h; omega
              have hne : data ≠ [] := by rintro rfl; simp at hcons hall; omega
              have hend := hprog hne hcap hbad h0 hb
              obtain ⟨h1, h2⟩ := K.det hy' (K.ended _ hend)
              exact ⟨h1, by rw [h2]; simp⟩
          exact ⟨this.1, this.2, hfit', hcheck⟩
        · rw [if_neg (by
            rintro (h | h | h)
            · simp at h
            · exact hr (.inl h)
            · exact hr (.inr (by simpa using h)))]
          refine ih _ l ?_ ⟨hfit', hcheck, _, rfl, hy', hwarm'⟩
          simp only [List.length_drop]
          have : res.consumed ≠ 0 := fun h => hr (.inl h)
          omega
      · rw [if_pos (.inl (List.length_pos_iff.mpr hb))]
        exact .inl ⟨_, _, l', rfl, hb, hout, hl, hfit', hcheck, _, rfl, hy', hwarm'⟩

/-- The callback is a source of the pixels that the data expand to. -/
theorem pull_src (K : C.Contract) {warm : C.σ → Prop} {n : Nat}
    (hwarm : ∀ s inp cap, warm s ∨ inp ≠ [] → warm (C.decodeBytes s inp cap).st)
    (hp : ∀ {s inp out e} (cap), K.Yields s inp out e → 0 < cap → warm s ∨ n < inp.length →
      (C.decodeBytes s inp cap).status ≠ .invalidCode → (C.decodeBytes s inp cap).out = [] →
      (C.decodeBytes s inp cap).consumed = inp.length → out = [] ∧ e ≠ .invalid)
    {ck : Bool} {e : LzwEnd} (hck : ck = false ∨ e = .ended) :
    Converter.Src pull (Stock K warm n ck e) (fun t => e ≠ .invalid ∧ K.Fit t.1 ∧ t.1.checkForEndCode = ck)
      (fun er => er = .io .invalidCode ∧ e = .invalid) := by
  intro t l cap h hcap
  rcases pullLoop_stock K hwarm hp hck cap hcap (t.2.length + 1) t l (by omega) h with h | h | h
  · exact .inl h
  · obtain ⟨t', h1, h2, h3⟩ := h
    exact .inr (.inl ⟨t', h1, h2, h3⟩)
  · obtain ⟨t', h1, h2, _⟩ := h
    exact .inr (.inr ⟨t', _, h1, rfl, h2⟩)

end FrameDecoder

namespace Converter

/-- What the callback keeps, the functions that use it keep. -/
theorem fillLoop_keeps {τ : Type} (c : Converter) (f : Frame) {cb : Callback τ} {P : τ → Prop}
    (h : ∀ t cap, P t → P (cb t cap).1) : ∀ (fuel : Nat) (t : τ) (buf : List UInt8), P t → P (c.fillLoop f cb fuel t buf).1 := by
  intro fuel
  induction fuel with
  | zero => intro t buf ht; exact ht
  | succ fuel ih =>
    intro t buf ht
    rw [fillLoop]
    split
    · have h1 := h t buf.length ht
      split
      · rename_i t' bytes he
        rw [he] at h1
        split
        · exact h1
        · split
          · exact h1
          · simp only
            split
            · exact h1
            · exact ih _ _ h1
      all_goals (rename_i he; rw [he] at h1; exact h1)
    · split
      · exact ht
      · have h1 := h t (buf.length / 4) ht
        split
        · rename_i t' bytes he
          rw [he] at h1
          split
          · exact h1
          · split
            · exact h1
            · simp only
              split
              · exact h1
              · exact ih _ _ h1
        all_goals (rename_i he; rw [he] at h1; exact h1)

theorem readRows_keeps {τ : Type} (c : Converter) (f : Frame) {cb : Callback τ} {P : τ → Prop}
    (h : ∀ t cap, P t → P (cb t cap).1) : ∀ (fuel : Nat) (it : InterlaceIter) (t : τ) (buf : List UInt8), P t →
    P (c.readRows f cb fuel it t buf).1 := by
  intro fuel
  induction fuel with
  | zero => intro it t buf ht; exact ht
  | succ fuel ih =>
    intro it t buf ht
    rw [readRows]
    split
    · exact ht
    · rename_i it' row _
      simp only
      split
      · have h1 := fun k => fillLoop_keeps c f h k t ((buf.drop (row * c.lineLength f)).take (c.lineLength f)) ht
        replace h1 := h1 (((buf.drop (row * c.lineLength f)).take (c.lineLength f)).length + 1)
        unfold fillBuffer
        split
        all_goals (rename_i he; rw [he] at h1)
        · exact ih _ _ _ h1
        all_goals exact h1
      · exact ht

theorem readIntoBuffer_keeps {τ : Type} (c : Converter) (f : Frame) {cb : Callback τ} {P : τ → Prop}
    (h : ∀ t cap, P t → P (cb t cap).1) (t : τ) (buf : List UInt8) (ht : P t) : P (c.readIntoBuffer f cb t buf).1 := by
  unfold readIntoBuffer
  split
  · exact readRows_keeps c f h _ _ _ _ ht
  · simp only
    split
    · have h1 := fillLoop_keeps c f h ((buf.take (c.bufferSize f)).length + 1) t (buf.take (c.bufferSize f)) ht
      unfold fillBuffer
      split
      all_goals (rename_i he; rw [he] at h1; exact h1)
    · exact ht

end Converter

namespace FrameDecoder

theorem pullLoop_keeps (K : C.Contract) (ck : Bool) (cap : Nat) : ∀ (fuel : Nat) (t : LzwReader C × List UInt8),
    K.Fit t.1 ∧ t.1.checkForEndCode = ck → K.Fit (pullLoop cap fuel t).1.1 ∧ (pullLoop cap fuel t).1.1.checkForEndCode = ck := by
  intro fuel
  induction fuel with
  | zero => intro t h; exact h
  | succ fuel ih =>
    rintro ⟨lzw, data⟩ h
    have h1 : K.Fit (lzw.decodeBytes data (.slice cap)).1 ∧ (lzw.decodeBytes data (.slice cap)).1.checkForEndCode = ck := by
      cases hd : lzw.decoder with
      | none => simpa only [LzwReader.decodeBytes, hd] using h
      | some st =>
        rw [LzwReader.decodeBytes_slice hd]
        refine ⟨fun x hx => ?_, h.2⟩
        cases hx
        rw [K.size_step]
        exact h.1 st hd
    rw [pullLoop]
    split
    · rename_i he
      rw [he] at h1
      simp only
      split
      · exact h1
      · exact ih _ h1
    all_goals (rename_i he; rw [he] at h1; exact h1)

theorem reset_keeps (K : C.Contract) {r : LzwReader C} (h : K.Fit r) (m : UInt8) :
    K.Fit (r.reset m).1 ∧ (r.reset m).1.checkForEndCode = r.checkForEndCode := by
  by_cases hm : LzwReader.codeSizeOk m = true
  · have := reset_yields K h hm
    exact ⟨this.1, this.2.1⟩
  · unfold LzwReader.reset
    rw [if_neg hm]
    exact ⟨h, rfl⟩

theorem decodeIntoBuffer_keeps (K : C.Contract) {d : FrameDecoder C} (h : K.Fit d.lzw) (f : Frame) (buf : List UInt8) :
    K.Fit (d.decodeIntoBuffer f buf).1.lzw ∧
      (d.decodeIntoBuffer f buf).1.lzw.checkForEndCode = d.lzw.checkForEndCode ∧
      (d.decodeIntoBuffer f buf).1.conv = d.conv := by
  unfold decodeIntoBuffer
  cases f.buffer with
  | nil =>
    have h1 := reset_keeps K h 2
    simp only
    split
    · rename_i lzw he
      rw [he] at h1
      have h2 := d.conv.readIntoBuffer_keeps f (cb := pull)
        (P := fun t => K.Fit t.1 ∧ t.1.checkForEndCode = d.lzw.checkForEndCode)
        (fun t cap ht => pullLoop_keeps K _ cap _ t ht) (lzw, []) buf h1
      exact ⟨h2.1, h2.2, rfl⟩
    all_goals (rename_i he; rw [he] at h1; exact ⟨h1.1, h1.2, rfl⟩)
  | cons m data =>
    have h1 := reset_keeps K h m
    simp only
    split
    · rename_i lzw he
      rw [he] at h1
      have h2 := d.conv.readIntoBuffer_keeps f (cb := pull)
        (P := fun t => K.Fit t.1 ∧ t.1.checkForEndCode = d.lzw.checkForEndCode)
        (fun t cap ht => pullLoop_keeps K _ cap _ t ht) (lzw, data) buf h1
      exact ⟨h2.1, h2.2, rfl⟩
    all_goals (rename_i he; rw [he] at h1; exact ⟨h1.1, h1.2, rfl⟩)

theorem decodeFrame_keeps (K : C.Contract) {d : FrameDecoder C} (h : K.Fit d.lzw) (f : Frame) :
    K.Fit (d.decodeFrame f).1.lzw ∧ (d.decodeFrame f).1.lzw.checkForEndCode = d.lzw.checkForEndCode ∧
      (d.decodeFrame f).1.conv = d.conv := by
  unfold decodeFrame
  split
  · rename_i n _
    have h1 := decodeIntoBuffer_keeps K h f (List.replicate n 0)
    split
    all_goals (rename_i he; rw [he] at h1; exact h1)
  all_goals exact ⟨h, rfl, rfl⟩

theorem buffer_size {c : ColorOutput} {lim : MemoryLimit} {g : Option (List UInt8)} (f : Frame) {n : Nat}
    (h : lim.bufferSize c f.width f.height = some n) :
    (Converter.mk lim c g).checkBufferSize f = .ok n ∧ n = (Converter.mk lim c g).bufferSize f := by
  have hs : (Converter.mk lim c g).checkBufferSize f = if n = (Converter.mk lim c g).bufferSize f then .ok n else .panic := by
    simp only [Converter.checkBufferSize, h]
  rcases (Converter.mk lim c g).checkBufferSize_cases f with ⟨h1, -⟩ | ⟨h1, -⟩
  · rw [h1] at hs
    split at hs
    · rename_i he
      exact ⟨by rw [h1, ← he], he⟩
    · cases hs
  · rw [h1] at hs
    split at hs <;> cases hs

/-- What a `FrameDecoder` makes of a frame. -/
theorem decodeFrame_deliver (K : C.Contract) {n : Nat} (hp : K.Prompt n) {d : FrameDecoder C} (hfit : K.Fit d.lzw)
    (f : Frame) (m : UInt8) (data : List UInt8) (hbuf : f.buffer = m :: data) (hm : LzwReader.codeSizeOk m = true)
    (px : List UInt8) (e : LzwEnd) (hy : K.Yields (C.new m) data px e) (hn : n < data.length ∨ data = [])
    (hck : d.lzw.checkForEndCode = false ∨ e = .ended) (hpos : 0 < f.width.toNat * f.height.toNat)
    (hinv : e = .invalid → px.length < f.width.toNat * f.height.toNat) :
    (d.decodeFrame f).2 = match deliver d.conv.colorOutput d.conv.memoryLimit d.conv.globalPalette f (px, e) with
      | .ok g => (g, .ok ())
      | .error er => (f, .err er) := by
  obtain ⟨warm, hwarm, hp⟩ := hp
  unfold deliver decodeFrame
  cases hsz : d.conv.memoryLimit.bufferSize d.conv.colorOutput f.width f.height with
  | none => simp only [Converter.checkBufferSize, hsz]
  | some sz =>
    obtain ⟨h1, h2⟩ := buffer_size (g := d.conv.globalPalette) f hsz
    have h1' : d.conv.checkBufferSize f = .ok sz := h1
    rw [h1']
    simp only
    have hw : 0 < f.width.toNat := Nat.pos_of_ne_zero (by rintro h; rw [h] at hpos; simp at hpos)
    have hh : 0 < f.height.toNat := Nat.pos_of_ne_zero (by rintro h; rw [h] at hpos; simp at hpos)
    obtain ⟨r1, r2, _, st, r3, r4⟩ := reset_yields K hfit hm
    have hr : (d.lzw.reset m) = ((d.lzw.reset m).1, .ok ()) := by
      unfold LzwReader.reset
      rw [if_pos hm]
      split
      · split <;> rfl
      · rfl
    have hstock : Stock K warm n d.lzw.checkForEndCode e ((d.lzw.reset m).1, data) px :=
      ⟨r1, r2, st, r3, r4 _ _ _ hy, .inr hn⟩
    have hsrc := d.conv.readIntoBuffer_src f (pull_src K hwarm hp hck) _ px hstock hw hh
    have hdec : ∀ t b o, d.conv.readIntoBuffer f pull ((d.lzw.reset m).1, data) (List.replicate (d.conv.bufferSize f) 0) = (t, b, o) →
        d.decodeIntoBuffer f (List.replicate sz 0) = ({ d with lzw := t.1 }, b, o) := by
      intro t b o h
      unfold decodeIntoBuffer
      rw [hbuf]
      simp only
      rw [hr]
      simp only
      have : sz = d.conv.bufferSize f := h2
      rw [this, h]
    rcases hsrc with ⟨s1, t', s2, -⟩ | ⟨s1, t', b, s2, s3, -⟩ | ⟨t', b, er, s2, s3, s4⟩
    · rw [hdec _ _ _ s2]
      have hne : e ≠ .invalid := fun h => absurd (hinv h) (by omega)
      simp only [if_neg hne]
      rw [if_neg (by omega)]
      rfl
    · rw [hdec _ _ _ s2]
      simp only [if_neg s3]
      rw [if_pos s1]
    · rw [hdec _ _ _ s2, s3]
      simp only [if_pos s4]

end FrameDecoder

end Gif
