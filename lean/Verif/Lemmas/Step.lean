import Verif.Model.Streaming
/-!
The transitions of `next_state`, one constructor per way it can succeed.
-/

namespace Gif.SD

variable {C : Codec}

/-- Bytes collected for a fixed-size item before the state can be left (0: none are). -/
def required : State → Nat
  | .magic => 6
  | .screenDescriptor => 7
  | .imageBlockStart => 9
  | _ => 0

theorem ensureMin_eq (s : SD C) (buf : List UInt8) (req : Nat) (k : SD C → Nat → List UInt8 → StepResult C)
    (hi : s.ibuf.length < req) (h9 : req ≤ 9) :
    ensureMin s buf req k =
      if s.ibuf.length + buf.length < req then
        ({ s with ibuf := s.ibuf ++ buf }, .ok (buf.length, .nothing))
      else k { s with ibuf := [] } (req - s.ibuf.length) (s.ibuf ++ buf.take (req - s.ibuf.length)) := by
  unfold ensureMin
  by_cases h1 : buf.length ≥ req ∧ s.ibuf.length = 0
  · rw [if_pos h1, if_neg (by omega)]
    have : s.ibuf = [] := List.eq_nil_of_length_eq_zero h1.2
    rcases s with ⟨⟩
    simp_all
  · rw [if_neg h1, if_pos hi]
    simp only
    by_cases h2 : s.ibuf.length + buf.length < req
    · rw [if_pos h2]
      have e : min buf.length (req - s.ibuf.length) = buf.length := by omega
      rw [e, if_neg (by omega), if_pos h2, List.take_length]
    · rw [if_neg h2]
      have e : min buf.length (req - s.ibuf.length) = req - s.ibuf.length := by omega
      rw [e, if_neg (by omega), if_neg (by omega)]

/-- `Tr o s buf s' n ev`: `next_state` on `buf` leads from `s` to `s'`, consuming `n` bytes and emitting `ev`. -/
inductive Tr (o : OutSpec) (b : UInt8) (bs : List UInt8) (s : SD C) : SD C → Nat → Decoded → Prop
  | collect (h0 : required s.state ≠ 0) (h : s.ibuf.length + (b :: bs).length < required s.state) :
      Tr o b bs s { s with ibuf := s.ibuf ++ (b :: bs) } (b :: bs).length .nothing
  | magic (v : Version) (hs : s.state = .magic) (hi : s.ibuf.length < 6) (hl : 6 ≤ s.ibuf.length + (b :: bs).length)
      (hv : s.ibuf ++ (b :: bs).take (6 - s.ibuf.length) = (match v with
        | .v87a => magic87a
        | .v89a => magic89a)) :
      Tr o b bs s { s with ibuf := [], version := v, state := .screenDescriptor } (6 - s.ibuf.length) .nothing
  | screen (w0 w1 h0 h1 flags bg asp : UInt8) (hs : s.state = .screenDescriptor) (hi : s.ibuf.length < 7)
      (hl : 7 ≤ s.ibuf.length + (b :: bs).length)
      (hv : s.ibuf ++ (b :: bs).take (7 - s.ibuf.length) = [w0, w1, h0, h1, flags, bg, asp]) :
      Tr o b bs s
        (if flags &&& 0x80 ≠ 0 then
          { s with ibuf := [], width := u16le w0 w1, height := u16le h0 h1, state := .globalPalette (tableSize flags)
                   gctCap := max s.gctCap (s.gct.length + tableSize flags) }
         else
          { s with ibuf := [], width := u16le w0 w1, height := u16le h0 h1, state := .globalPalette 0 })
        (7 - s.ibuf.length) (.backgroundColor bg)
  | imageHeader (f : Frame) (l0 l1 t0 t1 w0 w1 h0 h1 flags : UInt8) (hs : s.state = .imageBlockStart)
      (hi : s.ibuf.length < 9) (hl : 9 ≤ s.ibuf.length + (b :: bs).length)
      (hv : s.ibuf ++ (b :: bs).take (9 - s.ibuf.length) = [l0, l1, t0, t1, w0, w1, h0, h1, flags])
      (hc : s.current = some f)
      (hcons : ¬ (s.checkFrameConsistency ∧ (checkedSubLt s.width (u16le w0 w1) (u16le l0 l1) ∨
        checkedSubLt s.height (u16le h0 h1) (u16le t0 t1)))) (f' : Frame)
      (hf' : f' = { f with left := u16le l0 l1, top := u16le t0 t1, width := u16le w0 w1, height := u16le h0 h1
                           interlaced := decide (flags &&& 0b01000000 ≠ 0) }) :
      Tr o b bs s
        (if flags &&& 0b10000000 ≠ 0 then
          { s with ibuf := [], current := some { f' with palette := some (f.palette.getD []) }
                   palCap := max (if f.palette.isSome then s.palCap else 0) ((f.palette.getD []).length + tableSize flags)
                   state := .localPalette (tableSize flags) }
         else { s with ibuf := [], current := some f', state := .localPalette 0 })
        (9 - s.ibuf.length) .nothing
  | gctData (left : Nat) (hs : s.state = .globalPalette left) (hl : 0 < left) :
      Tr o b bs s
        (if min left (b :: bs).length ≤ s.gctCap - s.gct.length then
          { s with gct := s.gct ++ (b :: bs).take (min left (b :: bs).length)
                   state := .globalPalette (left - min left (b :: bs).length) }
         else { s with state := .globalPalette (left - min left (b :: bs).length) })
        (min left (b :: bs).length) .nothing
  | gctEnd (hs : s.state = .globalPalette 0) :
      Tr o b bs s { s with gct := [], gctCap := 0, state := .blockStart b } 1 (.globalPalette s.gct)
  | headerEnd (t : UInt8) (hs : s.state = .blockStart t) (hh : s.headerEndReached = false) (ht : t ≠ 0x21) :
      Tr o b bs s { s with headerEndReached := true, state := .blockStart t } 0 .headerEnd
  | image (hs : s.state = .blockStart 0x2C) (hh : s.headerEndReached = true) :
      Tr o b bs s { s.addFrame with state := .imageBlockStart } 0 (.blockStart .image)
  | extension (hs : s.state = .blockStart 0x21) (hb : (Extension.fromU8 b).isSome) :
      Tr o b bs s { s with extData := [], extId := b, state := .extensionBlockStart } 1 (.blockStart .extension)
  | trailer (hs : s.state = .blockStart 0x3B) (hh : s.headerEndReached = true) :
      Tr o b bs s { s with state := .trailer } 1 (.blockStart .trailer)
  | unknown (t : UInt8) (hs : s.state = .blockStart t) (hh : s.headerEndReached = true) (ht : Block.fromU8 t = none)
      (ha : s.allowUnknownBlocks = true) :
      Tr o b bs s { s with state := .extensionDataBlock b.toNat } 1 .nothing
  | blockEndTrailer (hs : s.state = .blockEnd) (hb : b = 0x3B) :
      Tr o b bs s { s with state := .blockStart b } 0 .nothing
  | blockEnd (hs : s.state = .blockEnd) (hb : b ≠ 0x3B) :
      Tr o b bs s { s with state := .blockStart b } 1 .nothing
  | extFirst (hs : s.state = .extensionBlockStart) :
      Tr o b bs s { s with extData := s.extData ++ [b], state := .extensionDataBlock b.toNat } 1 .nothing
  | extData (left : Nat) (hs : s.state = .extensionDataBlock left) (hl : 0 < left)
      (hm : s.memoryLimit.sizeOk (s.extData.length + min left (b :: bs).length) = true) :
      Tr o b bs s
        { s with extData := s.extData ++ (b :: bs).take (min left (b :: bs).length)
                 state := .extensionDataBlock (left - min left (b :: bs).length) }
        (min left (b :: bs).length) .nothing
  | extEndApp (hs : s.state = .extensionDataBlock 0) (hb : b = 0) (he : s.extId = 0xFF) :
      Tr o b bs s { s with extIsBlockEnd := true, state := .applicationExtension } 0 (.blockFinished s.extId)
  | extEndControl (len flags d0 d1 trns : UInt8) (hs : s.state = .extensionDataBlock 0) (hb : b = 0)
      (he : s.extId = 0xF9) (hd : s.extData = [len, flags, d0, d1, trns]) :
      Tr o b bs s
        { s with extIsBlockEnd := true, state := .blockEnd
                 current := some (controlFrame (s.current.getD Frame.default) flags d0 d1 trns) }
        1 (.blockFinished s.extId)
  | extEndOther (hs : s.state = .extensionDataBlock 0) (hb : b = 0) (he : s.extId ≠ 0xF9) (he' : s.extId ≠ 0xFF) :
      Tr o b bs s { s with extIsBlockEnd := true, state := .blockEnd } 1 (.blockFinished s.extId)
  | extSub (hs : s.state = .extensionDataBlock 0) (hb : b ≠ 0) :
      Tr o b bs s { s with extIsBlockEnd := false, state := .extensionDataBlock b.toNat } 1 (.subBlockFinished s.extId)
  | appRepeat (r0 r1 : UInt8) (hs : s.state = .applicationExtension) (hb : b = 0) (hl : 15 ≤ s.extData.length)
      (ht : (s.extData.drop 1).take 12 = netscapeTag) (hr : (s.extData.drop 13).take 2 = [r0, r1]) :
      Tr o b bs s { s with state := .blockEnd } 1 (.repetitions (repeatOf r0 r1))
  | appOther (hs : s.state = .applicationExtension) (hb : b = 0)
      (hn : ¬ (15 ≤ s.extData.length ∧ (s.extData.drop 1).take 12 = netscapeTag)) :
      Tr o b bs s { s with state := .blockEnd } 1 .nothing
  | lctData (left : Nat) (f : Frame) (hs : s.state = .localPalette left) (hl : 0 < left) (hc : s.current = some f) :
      Tr o b bs s
        (match f.palette with
          | some pal =>
            if s.palCap - pal.length ≥ min left (b :: bs).length then
              { s with current := some { f with palette := some (pal ++ (b :: bs).take (min left (b :: bs).length)) }
                       state := .localPalette (left - min left (b :: bs).length) }
            else { s with state := .localPalette (left - min left (b :: bs).length) }
          | none => { s with state := .localPalette (left - min left (b :: bs).length) })
        (min left (b :: bs).length) .nothing
  | lctEnd (hs : s.state = .localPalette 0) :
      Tr o b bs s { s with state := .lzwInit b } 1 .nothing
  | lzwPixels (m : UInt8) (lzw : LzwReader C) (hs : s.state = .lzwInit m) (hk : s.skipFrameDecoding = false)
      (hr : s.lzw.reset m = (lzw, .ok ())) :
      Tr o b bs s { s with lzw := lzw, state := .decodeSubBlock b.toNat } 1 (.frameMetadata .pixels)
  | lzwSkip (m : UInt8) (hs : s.state = .lzwInit m) (hk : s.skipFrameDecoding = true)
      (hm : LzwReader.codeSizeOk m = true) :
      Tr o b bs s { s with state := .copySubBlock b.toNat } 1 (.frameMetadata (.lzw m))
  | copy (left consumed : Nat) (copied : List UInt8) (hs : s.state = .copySubBlock left)
      (hk : s.skipFrameDecoding = true) (hl : 0 < left)
      (ha : append o ((b :: bs).take (min left (b :: bs).length)) s.memoryLimit = .ok (consumed, copied))
      (hc : consumed ≤ left) :
      Tr o b bs s { s with state := .copySubBlock (left - consumed) } consumed (.lzwDataCopied copied)
  | copyNext (hs : s.state = .copySubBlock 0) (hk : s.skipFrameDecoding = true) (hb : b ≠ 0) :
      Tr o b bs s { s with state := .copySubBlock b.toNat } 1 .nothing
  | copyEnd (hs : s.state = .copySubBlock 0) (hk : s.skipFrameDecoding = true) (hb : b = 0) :
      Tr o b bs s { s with state := .frameDecoded } 0 .nothing
  | decodeSkip (left : Nat) (hs : s.state = .decodeSubBlock left) (hk : s.skipFrameDecoding = false) (hl : 0 < left)
      (he : s.lzw.hasEnded = true ∨ o = .none) :
      Tr o b bs s { s with state := .decodeSubBlock (left - min left (b :: bs).length) } (min left (b :: bs).length) .nothing
  | decode (left consumed : Nat) (bytes : List UInt8) (lzw : LzwReader C) (hs : s.state = .decodeSubBlock left)
      (hk : s.skipFrameDecoding = false) (hl : 0 < left) (he : s.lzw.hasEnded = false) (ho : o ≠ .none)
      (hd : s.lzw.decodeBytes ((b :: bs).take (min left (b :: bs).length)) o = (lzw, .ok (consumed, bytes)))
      (n : Nat) (hn : n = if consumed = 0 ∧ bytes.length = 0 then min left (b :: bs).length else consumed)
      (hc : n ≤ left) :
      Tr o b bs s { s with lzw := lzw, state := .decodeSubBlock (left - n) } n
        (if bytes.length = 0 then .nothing else .bytesDecoded bytes)
  | decodeNext (hs : s.state = .decodeSubBlock 0) (hk : s.skipFrameDecoding = false) (hb : b ≠ 0) :
      Tr o b bs s { s with state := .decodeSubBlock b.toNat } 1 .nothing
  | decodeFlush (consumed : Nat) (bytes : List UInt8) (lzw : LzwReader C) (hs : s.state = .decodeSubBlock 0)
      (hk : s.skipFrameDecoding = false) (hb : b = 0) (hd : s.lzw.decodeBytes [] o = (lzw, .ok (consumed, bytes)))
      (hne : bytes ≠ []) :
      Tr o b bs s { s with lzw := lzw, state := .decodeSubBlock 0 } 0 (.bytesDecoded bytes)
  | decodeEnd (consumed : Nat) (lzw : LzwReader C) (hs : s.state = .decodeSubBlock 0)
      (hk : s.skipFrameDecoding = false) (hb : b = 0) (hd : s.lzw.decodeBytes [] o = (lzw, .ok (consumed, []))) :
      Tr o b bs s { s with lzw := lzw, state := .frameDecoded } 0 .nothing
  | frameDecoded (hs : s.state = .frameDecoded) (hb : b = 0) :
      Tr o b bs s { s with current := none, state := .blockEnd } 1 .dataEnd
  | trailerLoop (hs : s.state = .trailer) :
      Tr o b bs s s 0 .nothing

/-- Number of collected header bytes that every state admits. -/
def ibufOk (s : SD C) : Prop :=
  if required s.state = 0 then s.ibuf = [] else s.ibuf.length < required s.state

theorem tr_of_nextState {o : OutSpec} {b : UInt8} {bs : List UInt8} {s s' : SD C} {n : Nat} {ev : Decoded}
    (hi : ibufOk s) (h : nextState s (b :: bs) o = (s', .ok (n, ev))) : Tr o b bs s s' n ev := by
  unfold nextState at h
  simp only at h
  match hs : s.state with
  | .magic =>
    simp only [hs] at h
    simp only [ibufOk, hs, required] at hi
    rw [ensureMin_eq _ _ _ _ (by simpa using hi) (by decide)] at h
    split at h
    · cases h; exact .collect (by simp [hs, required]) (by simpa [hs, required] using ‹_›)
    · unfold onMagic goto at h
      split at h
      · cases h; exact .magic .v87a hs (by simpa using hi) (by omega) ‹_›
      · split at h
        · cases h; exact .magic .v89a hs (by simpa using hi) (by omega) ‹_›
        · cases h
  | .screenDescriptor =>
    simp only [hs] at h
    simp only [ibufOk, hs, required] at hi
    rw [ensureMin_eq _ _ _ _ (by simpa using hi) (by decide)] at h
    split at h
    · cases h; exact .collect (by simp [hs, required]) (by simpa [hs, required] using ‹_›)
    · unfold onScreenDescriptor goto at h
      split at h
      · rename_i hlen _ w0 w1 h0 h1 flags bg asp hv
        have key := Tr.screen (o := o) w0 w1 h0 h1 flags bg asp hs (by simpa using hi) (by omega) hv
        split at h
        · rename_i hf; cases h; rw [if_pos hf] at key; exact key
        · rename_i hf; cases h; rw [if_neg hf] at key; exact key
      · cases h
  | .imageBlockStart =>
    simp only [hs] at h
    simp only [ibufOk, hs, required] at hi
    rw [ensureMin_eq _ _ _ _ (by simpa using hi) (by decide)] at h
    split at h
    · cases h; exact .collect (by simp [hs, required]) (by simpa [hs, required] using ‹_›)
    · unfold onImageBlockStart goto at h
      split at h
      · rename_i hlen _ l0 l1 t0 t1 w0 w1 h0 h1 flags hv
        split at h
        · cases h
        · rename_i f hc
          simp only at h
          split at h
          · cases h
          · rename_i hcons
            have key := Tr.imageHeader (o := o) f l0 l1 t0 t1 w0 w1 h0 h1 flags hs (by simpa using hi) (by omega) hv
              hc hcons _ rfl
            split at h
            · rename_i hf; cases h; rw [if_pos hf] at key; exact key
            · rename_i hf; cases h; rw [if_neg hf] at key; exact key
      · cases h
  | .globalPalette left =>
    simp only [hs] at h
    unfold onGlobalPalette goto at h
    split at h
    · rename_i hl
      simp only at h
      have key := Tr.gctData (o := o) (b := b) (bs := bs) left hs hl
      split at h
      · rename_i hf; cases h; rw [if_pos hf] at key; exact key
      · rename_i hf; cases h; rw [if_neg hf] at key; exact key
    · rename_i hl
      cases h
      exact .gctEnd (by rw [hs]; congr; omega)
  | .blockStart t =>
    simp only [hs] at h
    unfold onBlockStart goto at h
    split at h
    · rename_i hc; cases h
      exact .headerEnd t hs (by simpa using hc.1) (by simpa [Block.toU8] using hc.2)
    · rename_i hc
      have hh : t ≠ 0x21 → s.headerEndReached = true := by
        intro ht
        by_cases hx : s.headerEndReached = true
        · exact hx
        · exact absurd ⟨hx, by simpa [Block.toU8] using ht⟩ hc
      unfold Block.fromU8 at h
      by_cases h1 : t = 0x2C
      · subst h1; simp only [if_true] at h; cases h
        exact .image hs (hh (by decide))
      · by_cases h2 : t = 0x21
        · subst h2
          simp only [show ¬ ((0x21 : UInt8) = 0x2C) by decide, if_true, if_false] at h
          split at h
          · cases h
          · rename_i hb; cases h
            exact .extension hs (by cases hx : Extension.fromU8 b <;> simp_all)
        · by_cases h3 : t = 0x3B
          · subst h3
            simp only [show ¬ ((0x3B : UInt8) = 0x2C) by decide, show ¬ ((0x3B : UInt8) = 0x21) by decide, if_true,
              if_false] at h
            cases h
            exact .trailer hs (hh (by decide))
          · simp only [h1, h2, h3, if_false] at h
            split at h
            · rename_i ha; cases h
              exact .unknown t hs (hh h2) (by simp [Block.fromU8, h1, h2, h3]) ha
            · cases h
  | .blockEnd =>
    simp only [hs] at h
    unfold onBlockEnd goto at h
    split at h
    · rename_i hb; cases h; exact .blockEndTrailer hs (by simpa [Block.toU8] using hb)
    · rename_i hb; cases h; exact .blockEnd hs (by simpa [Block.toU8] using hb)
  | .extensionBlockStart =>
    simp only [hs, goto] at h
    cases h; exact .extFirst hs
  | .extensionDataBlock left =>
    simp only [hs] at h
    unfold onExtensionDataBlock goto at h
    split at h
    · rename_i hl
      simp only at h
      split at h
      · rename_i hm; cases h; exact .extData left hs hl hm
      · cases h
    · rename_i hl
      have hs0 : s.state = .extensionDataBlock 0 := by rw [hs]; congr; omega
      split at h
      · rename_i hb
        simp only at h
        unfold Extension.fromU8 readControlExtension at h
        by_cases h1 : s.extId = 0x01
        · simp only [h1, if_true] at h; cases h
          have := Tr.extEndOther (o := o) (b := b) (bs := bs) hs0 hb (by rw [h1]; decide) (by rw [h1]; decide)
          rw [h1] at this
          exact this
        · by_cases h2 : s.extId = 0xF9
          · simp only [h2, show ¬ ((0xF9 : UInt8) = 0x01) by decide, if_true, if_false] at h
            split at h
            · rename_i s1 hx
              split at hx
              · rename_i len flags d0 d1 trns hd
                cases hx; cases h
                have := Tr.extEndControl (o := o) (b := b) (bs := bs) len flags d0 d1 trns hs0 hb h2 hd
                rw [h2] at this
                exact this
              · cases hx
            · cases h
            · cases h
            · cases h
          · by_cases h3 : s.extId = 0xFF
            · simp only [h3, show ¬ ((0xFF : UInt8) = 0x01) by decide, show ¬ ((0xFF : UInt8) = 0xF9) by decide,
                show ¬ ((0xFF : UInt8) = 0xFE) by decide, if_true, if_false] at h
              cases h
              have := Tr.extEndApp (o := o) (b := b) (bs := bs) hs0 hb h3
              rw [h3] at this
              exact this
            · by_cases h4 : s.extId = 0xFE
              · simp only [h4, show ¬ ((0xFE : UInt8) = 0x01) by decide, show ¬ ((0xFE : UInt8) = 0xF9) by decide,
                  if_true, if_false] at h
                cases h
                have := Tr.extEndOther (o := o) (b := b) (bs := bs) hs0 hb h2 h3
                rw [h4] at this
                exact this
              · simp only [h1, h2, h3, h4, if_false] at h
                cases h
                exact .extEndOther hs0 hb h2 h3
      · rename_i hb; cases h; exact .extSub hs0 hb
  | .applicationExtension =>
    simp only [hs] at h
    unfold onApplicationExtension goto at h
    split at h
    · cases h
    · rename_i hb
      have hb0 : b = 0 := Classical.not_not.1 hb
      split at h
      · rename_i hc
        split at h
        · rename_i r0 r1 hr; cases h; exact .appRepeat r0 r1 hs hb0 hc.1 hc.2 hr
        · cases h
      · rename_i hc; cases h; exact .appOther hs hb0 hc
  | .localPalette left =>
    simp only [hs] at h
    unfold onLocalPalette goto at h
    split at h
    · rename_i hl
      simp only at h
      split at h
      · cases h
      · rename_i f hc
        have key := Tr.lctData (o := o) (b := b) (bs := bs) left f hs hl hc
        split at h
        · rename_i pal hp
          rw [hp] at key
          simp only at key
          split at h
          · rename_i hf; cases h; rw [if_pos hf] at key; exact key
          · rename_i hf; cases h; rw [if_neg hf] at key; exact key
        · rename_i hp
          rw [hp] at key
          cases h; exact key
    · rename_i hl
      cases h
      exact .lctEnd (by rw [hs]; congr; omega)
  | .lzwInit m =>
    simp only [hs] at h
    unfold onLzwInit goto at h
    split at h
    · rename_i hk
      split at h
      · rename_i lzw hr; cases h; exact .lzwPixels m lzw hs (by simpa using hk) hr
      · cases h
      · cases h
      · cases h
    · rename_i hk
      split at h
      · rename_i hm; cases h; exact .lzwSkip m hs (by simpa using hk) hm
      · cases h
  | .copySubBlock left =>
    simp only [hs] at h
    unfold onCopySubBlock goto at h
    split at h
    · cases h
    · rename_i hk
      have hk' : s.skipFrameDecoding = true := by simpa using hk
      split at h
      · rename_i hl
        simp only at h
        split at h
        · rename_i consumed copied ha
          split at h
          · cases h
          · cases h; exact .copy left _ _ hs hk' hl ha (by omega)
        · cases h
        · cases h
        · cases h
      · rename_i hl
        have hs0 : s.state = .copySubBlock 0 := by rw [hs]; congr; omega
        split at h
        · cases h; exact .copyNext hs0 hk' ‹_›
        · cases h; exact .copyEnd hs0 hk' (Classical.not_not.1 ‹_›)
  | .decodeSubBlock left =>
    simp only [hs] at h
    unfold onDecodeSubBlock goto at h
    split at h
    · cases h
    · rename_i hk
      have hk' : s.skipFrameDecoding = false := by simpa using hk
      split at h
      · rename_i hl
        simp only at h
        split at h
        · cases h; exact .decodeSkip left hs hk' hl ‹_›
        · rename_i he
          have he' : s.lzw.hasEnded = false ∧ o ≠ .none := by
            constructor
            · cases hx : s.lzw.hasEnded
              · rfl
              · exact absurd (.inl hx) he
            · exact fun hx => he (.inr hx)
          split at h
          · rename_i lzw consumed bytes hd
            have key := fun n hn hc => Tr.decode (o := o) left consumed bytes lzw hs hk' hl he'.1 he'.2 hd n hn hc
            revert h
            generalize (if consumed = 0 ∧ bytes.length = 0 then min left (b :: bs).length else consumed) = n' at key
            intro h
            split at h
            · cases h
            · cases h
              exact key _ rfl (by omega)
          · cases h
          · cases h
          · cases h
      · rename_i hl
        have hs0 : s.state = .decodeSubBlock 0 := by rw [hs]; congr; omega
        split at h
        · cases h; exact .decodeNext hs0 hk' ‹_›
        · rename_i hb
          have hb0 : b = 0 := Classical.not_not.1 hb
          split at h
          · rename_i lzw consumed bytes hd
            simp only at h
            split at h
            · rename_i hz
              have : bytes = [] := List.eq_nil_of_length_eq_zero hz
              subst this
              cases h; exact .decodeEnd consumed lzw hs0 hk' hb0 hd
            · rename_i hz
              cases h
              exact .decodeFlush consumed bytes lzw hs0 hk' hb0 hd (fun hx => hz (by simp [hx]))
          · cases h
          · cases h
          · cases h
  | .frameDecoded =>
    simp only [hs] at h
    unfold onFrameDecoded goto at h
    simp only at h
    split at h
    · cases h
    · cases h; exact .frameDecoded hs (Classical.not_not.1 ‹_›)
  | .trailer =>
    simp only [hs, goto] at h
    cases h
    have := Tr.trailerLoop (o := o) (b := b) (bs := bs) hs
    rcases s with ⟨⟩
    simp_all

end Gif.SD
