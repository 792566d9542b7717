import Verif.Props.RoundTripApi
import Verif.Props.RoundTripCases
/-!
# C47, the rest: files with nothing between their header and their trailer
-/

namespace Gif

open Spec

variable {C : Codec}

namespace Decoder

/-- `init` needs more bytes than there are. -/
theorem init_more (hS : C.Safe) (o : DecodeOptions) {rdr : Reader} (hr : rdr.Reliable) {evs : List Decoded}
    {s' : SD C} {a : List UInt8} (hu : SD.Upto isHeaderEnd (SD.withOptions C o) rdr.bytes evs (.more s' a)) :
    (readInfo C o rdr).2 = .ioErr .unexpectedEof := by
  have hi := inv_withNoInit (C := C) o rdr
  have w := initLoop_run hS _ (withNoInit C o rdr) hi.rd (meas_lt_fuel _)
  obtain ⟨l, n⟩ := initRun_reliable w hr
  obtain ⟨evs', out, u, e, _, f⟩ := initRun_upto hS w hi.rd (Reader.reliable_clean hr) rfl
  unfold readInfo init
  generalize initLoop (withNoInit C o rdr).rd.eventFuel (withNoInit C o rdr) = x at *
  obtain ⟨d', out'⟩ := x
  simp only at *
  have m : ∀ c, out ≠ .err (.io (.reader c)) := by
    intro c ho; subst ho; exact n c f
  obtain ⟨rfl, h2⟩ := uptoRes_det rfl u m hu
  replace h2 : out = .ioErr .unexpectedEof := h2
  subst h2
  subst f
  rfl

/-- **C47** A file without blocks cannot be opened if its trailer is the last byte: `read_info` returns `UnexpectedEof`, with all
options. -/
theorem no_blocks_eof (hS : C.Safe) (o : DecodeOptions) {g : File} (hg : g.Ok) (hn : g.blocks = []) {r : Reader} (hr : r.Reliable)
    (hb : r.bytes = g.render) : (readInfo C o r).2 = .ioErr .unexpectedEof := by
  obtain ⟨v, cap, hw⟩ := SD.walk_head (C := C) o g hg
  have hbytes : r.bytes = g.renderHead ++ [0x3B] := by
    rw [hb]; simp [File.render, hn, renderBlks]
  have hu := SD.walk_upto hw (P := isHeaderEnd) (rest := [0x3B]) (by
    intro ev hev
    simp only [List.mem_singleton] at hev
    subst hev
    exact ⟨rfl, by simp⟩)
    (.step (.event [] rfl (SD.not_quiet (by simp) (by simp))) rfl (by simp) (.stop (.nil _ _) (fun _ _ _ _ h => by cases h)))
  rw [← hbytes] at hu
  exact init_more hS o hr hu

/-- **C47** If something follows the trailer of a file without blocks, the file opens with what its header says and contains no
frames; but one of the bytes behind the trailer is taken from the reader. -/
theorem no_blocks_more (hS : C.Safe) (o : DecodeOptions) {g : File} (hg : g.Ok) (hn : g.blocks = []) {r : Reader} (hr : r.Reliable)
    {x : UInt8} {junk : List UInt8} (hb : r.bytes = g.render ++ x :: junk) :
    (readInfo C o r).2 = .ok () ∧ (readInfo C o r).1.view = g.view Frame.default ∧
      (readInfo C o r).1.readNextFrame.2 = .ok none ∧ (readInfo C o r).1.readNextFrame.1.rd.reader.bytes = junk := by
  obtain ⟨v, cap, hw⟩ := SD.walk_head (C := C) o g hg
  have hbytes : r.bytes = g.renderHead ++ 0x3B :: x :: junk := by
    rw [hb]; simp [File.render, hn, renderBlks]
  have hu := SD.walk_upto hw (P := isHeaderEnd) (rest := 0x3B :: x :: junk) (by
    intro ev hev
    simp only [List.mem_singleton] at hev
    subst hev
    exact ⟨rfl, by simp⟩)
    (.step (.event (x :: junk) rfl (SD.not_quiet (by simp) (by simp))) rfl (by simp)
      (SD.upto_found (l := junk) (b := x) (n := 0) rfl (SD.not_quiet (by simp) (by simp)) (.inl rfl)))
  rw [← hbytes] at hu
  obtain ⟨rd, e1, e2, e3, e4, e5⟩ := init_eq hS o hr hu
  have hinv := (inv_readInfo (C := C) hS o r).1
  have hold : ({ ([Decoded.backgroundColor g.background] ++ [Decoded.globalPalette (g.table.getD [])]).foldl onEvent
        (withNoInit C o r) with rd := rd } : Decoder C) =
      { withNoInit C o r with
        rd := rd, bgColor := some g.background
        conv := (Converter.new o.colorOutput o.memoryLimit).setGlobalPalette (g.table.getD []) } := rfl
  replace e1 := e1.trans (congrArg (fun d => (checkBg d, Outcome.ok ())) hold)
  have hpal : ((Converter.new o.colorOutput o.memoryLimit).setGlobalPalette (g.table.getD [])).globalPalette = g.table := by
    cases ht : g.table with
    | none => rfl
    | some t =>
      have := hg.2.2.1 t ht
      have hp : 0 < 2 ^ (g.size + 1) := Nat.pow_pos (by omega)
      simp only [Converter.setGlobalPalette, Option.getD_some]
      rw [if_neg]
      intro h
      rw [List.isEmpty_iff] at h
      subst h
      simp at this
      omega
  have hres : (readInfo C o r).1 =
      { withNoInit C o r with
        rd := rd, bgColor := g.backgroundColour
        conv := (Converter.new o.colorOutput o.memoryLimit).setGlobalPalette (g.table.getD []) } := by
    rw [e1]
    simp only [checkBg, hpal, File.backgroundColour]
    cases g.table with
    | none => rfl
    | some t =>
      simp only [Option.getD_some]
      by_cases hlt : g.background.toNat < t.length / 3
      · rw [if_pos hlt, if_neg (by omega)]
      · rw [if_neg hlt, if_pos (by omega)]
  have hview : (readInfo C o r).1.view = g.view Frame.default := by
    rw [hres]
    simp only [view, width, height, globalPalette, hpal, File.view, e2, File.loops, hn]
    rfl
  have hrd : (readInfo C o r).1.rd = rd := by rw [hres]
  refine ⟨by rw [e1], hview, ?_⟩
  generalize (readInfo C o r).1 = d at *
  have hu2 : SD.Upto isMetadata d.rd.sd d.rd.reader.bytes []
      (.event { d.rd.sd with state := .trailer } [] (.blockStart .trailer) junk) := by
    rw [hrd, e3, e2]
    exact SD.upto_found (l := junk) (b := x) (n := 1) rfl (SD.not_quiet (by simp) (by simp)) (.inr rfl)
  obtain ⟨out, rd', i1, i2, _⟩ := info_eq hS hinv (by rw [hrd]; exact e5) (by rw [hrd]; exact e4) hu2
  obtain ⟨g1, g2, g3⟩ := i2
  rcases g3 with ⟨_, rfl, g4⟩ | ⟨h, _⟩
  · simp only [infoOf] at i1
    unfold readNextFrame
    rw [i1]
    exact ⟨rfl, g2⟩
  · exact absurd rfl h

end Decoder

/-- **C47** The file of an encoder that is finished right away cannot be opened if nothing follows it; if something does, it opens
and contains no frames. -/
theorem no_calls_exact (hS : C.Safe) (o : DecodeOptions) (np : Bool) {w h : UInt16} {pal : List UInt8} (hpal : pal.length / 3 ≤ 256) :
    ∃ file, encodeFile C np w h pal [] = (some file, []) ∧ ∀ (r : Reader) (junk : List UInt8), r.Reliable → r.bytes = file ++ junk →
      if junk = [] then (Decoder.readInfo C o r).2 = .ioErr .unexpectedEof
      else (Decoder.readInfo C o r).2 = .ok () ∧
        (Decoder.readInfo C o r).1.view = screen w h pal (.finite 0) Frame.default ∧
        (Decoder.readInfo C o r).1.readNextFrame.2 = .ok none ∧
        (Decoder.readInfo C o r).1.readNextFrame.1.rd.reader.bytes = junk.tail := by
  refine ⟨_, encodeFile_eq C np w h pal [] hpal (by simp), ?_⟩
  intro r junk hr hb
  have hok := fileOf_ok w h pal hpal [] (by simp)
  cases junk with
  | nil =>
    rw [if_pos rfl]
    exact Decoder.no_blocks_eof hS o hok rfl hr (by rw [hb, List.append_nil]; rfl)
  | cons x junk =>
    rw [if_neg (by simp)]
    obtain ⟨h1, h2, h3, h4⟩ := Decoder.no_blocks_more hS o hok rfl hr hb
    refine ⟨h1, ?_, h3, h4⟩
    rw [h2]
    exact made_view (C := C) w h pal hpal [] Frame.default

set_option maxRecDepth 100000 in
/-- Such a file, alone and with a byte behind it. -/
example :
    (Decoder.readInfo Ref.lzw .new (readerOn [71, 73, 70, 56, 57, 97, 4, 0, 4, 0, 128, 0, 0, 1, 2, 3, 4, 5, 6, 59])).2 =
      .ioErr .unexpectedEof ∧
    (Decoder.readInfo Ref.lzw .new (readerOn [71, 73, 70, 56, 57, 97, 4, 0, 4, 0, 128, 0, 0, 1, 2, 3, 4, 5, 6, 59, 7])).2 = .ok () ∧
    (encodeFile Ref.lzw true 4 4 [1, 2, 3, 4, 5, 6] []).1 =
      some [71, 73, 70, 56, 57, 97, 4, 0, 4, 0, 128, 0, 0, 1, 2, 3, 4, 5, 6, 59] := by
  decide +kernel

end Gif
