import Verif.Lemmas.Grammar
import Verif.Lemmas.Sim
/-!
`Decoder` with `skip_frame_decoding` on a file of the grammar.
-/

namespace Gif

namespace Decoder

variable {C : Codec}

/-- `next_frame_info` does what the run over the bytes does. -/
theorem info_eq (hS : C.Safe) {d : Decoder C} (hi : d.Inv) (hr : d.rd.reader.Reliable) (he : d.rd.atEof = false)
    {evs : List Decoded} {r : SD.Res C} (hu : SD.Upto isMetadata d.rd.sd d.rd.reader.bytes evs r) :
    ∃ o rd, d.nextFrameInfo = infoOf d rd o ∧ LoopRes rd o r ∧ d.nextFrameInfo.1.rd.reader.Reliable := by
  have hrun := nextFrameInfo_run hS d hi.rd
  obtain ⟨l1, n1⟩ := frameRun_reliable hrun hr
  obtain ⟨evs', o, rd, u, _, e⟩ := frameRun_upto hS hrun hi.rd (Reader.reliable_clean hr) he
  have m : ∀ c, o ≠ .err (.io (.reader c)) := by
    intro c ho
    subst ho
    simp only [infoOf, Prod.mk.injEq] at e
    exact n1 c e.2
  exact ⟨o, rd, e, (uptoRes_det rfl u m hu).2, l1⟩

theorem foldl_onEvent_rd (evs : List Decoded) (d : Decoder C) : (evs.foldl onEvent d).rd = d.rd := by
  induction evs generalizing d with
  | nil => rfl
  | cons ev evs ih => rw [List.foldl_cons, ih]; cases ev <;> rfl

/-- `init` finds the end of the header that the run over the bytes finds. -/
theorem init_eq (hS : C.Safe) (o : DecodeOptions) {rdr : Reader} (hr : rdr.Reliable) {evs : List Decoded}
    {s' : SD C} {rest : List UInt8}
    (hu : SD.Upto isHeaderEnd (SD.withOptions C o) rdr.bytes evs (.event s' [] .headerEnd rest)) :
    ∃ rd, readInfo C o rdr = (({ evs.foldl onEvent (withNoInit C o rdr) with rd := rd } : Decoder C).checkBg, .ok ()) ∧
      rd.sd = s' ∧ rd.reader.bytes = rest ∧ rd.atEof = false ∧ rd.reader.Reliable := by
  have hi := inv_withNoInit (C := C) o rdr
  have w := initLoop_run hS _ (withNoInit C o rdr) hi.rd (meas_lt_fuel _)
  obtain ⟨l, n⟩ := initRun_reliable w hr
  obtain ⟨evs', out, u, e, _, f⟩ := initRun_upto hS w hi.rd (Reader.reliable_clean hr) rfl
  unfold readInfo init
  generalize initLoop (withNoInit C o rdr).rd.eventFuel (withNoInit C o rdr) = x at *
  obtain ⟨d', out'⟩ := x
  simp only at *
  have m : ∀ c, out ≠ .err (.io (.reader c)) := by
    intro c ho; subst ho; exact n c f
  obtain ⟨rfl, h2⟩ := uptoRes_det rfl u m hu
  obtain ⟨g1, g2, g3⟩ := h2
  rcases g3 with ⟨h, _⟩ | ⟨_, rfl, g4⟩
  · cases h
  · subst f
    exact ⟨d'.rd, by rw [← e], g1, g2, g4, l⟩

/-- `copy_lzw_into_buffer` does what the run over the bytes does. -/
theorem copy_eq (hS : C.Safe) {rd : RD C} (hi : rd.Inv) (hr : rd.reader.Reliable) (he : rd.atEof = false) (m : UInt8)
    {r : SD.Res C} (hu : SD.Eval true rd.sd [m] rd.reader.bytes r) :
    (copyLzw m rd).1.reader.Reliable ∧
    (∀ s acc rest, r = .event s acc .dataEnd rest → (copyLzw m rd).2 = (acc, .ok ()) ∧ (copyLzw m rd).1.sd = s ∧
      (copyLzw m rd).1.reader.bytes = rest ∧ (copyLzw m rd).1.atEof = false) ∧
    (∀ e, r = .err e → (copyLzw m rd).2.2 = .err e) := by
  have w := copyLoop_run hS _ rd [m] hi (meas_lt_fuel _)
  obtain ⟨l, n⟩ := copyRun_reliable w hr
  obtain ⟨_, c⟩ := copyRun_eval hS w hi (Reader.reliable_clean hr) he
  have hc : copyLzw m rd = copyLoop rd.eventFuel rd [m] := rfl
  rw [hc]
  generalize copyLoop rd.eventFuel rd [m] = x at *
  obtain ⟨rd', vec, out⟩ := x
  simp only at *
  refine ⟨l, ?_, ?_⟩
  · rintro s acc rest rfl
    cases out with
    | ok u =>
      obtain ⟨c1, c2⟩ := c
      have := SD.eval_det hu c2
      simp only [SD.Res.event.injEq] at this
      obtain ⟨rfl, rfl, _, rfl⟩ := this
      exact ⟨rfl, rfl, rfl, c1⟩
    | err e =>
      rcases c with ⟨c, rfl⟩ | ⟨_, _, s, h⟩ | ⟨_, s, a, ev, rest, hne, h⟩ | h
      · exact absurd rfl (n c)
      · cases SD.eval_det hu h
      · have := SD.eval_det hu h
        simp only [SD.Res.event.injEq] at this
        exact absurd this.2.2.1.symm hne
      · cases SD.eval_det hu h
    | panic => exact c.elim
    | diverge => exact c.elim
  · rintro e rfl
    cases out with
    | ok u => cases SD.eval_det hu c.2
    | err e' =>
      rcases c with ⟨c, rfl⟩ | ⟨_, _, s, h⟩ | ⟨_, s, a, ev, rest, hne, h⟩ | h
      · exact absurd rfl (n c)
      · cases SD.eval_det hu h
      · cases SD.eval_det hu h
      · have := SD.eval_det hu h
        simp only [SD.Res.err.injEq] at this
        rw [this]
    | panic => exact c.elim
    | diverge => exact c.elim

/-- The decoder is before the images `xs`, or at the end of the file. -/
inductive Stage (o : DecodeOptions) (g : Spec.File) (junk : List UInt8) (d : Decoder C) :
    List (Spec.Graphic × Spec.Image) → Prop
  | at_ (gr : Spec.Graphic) (bs : List Spec.Blk) (hi : d.Inv) (hr : d.rd.reader.Reliable) (he : d.rd.atEof = false)
      (hb : d.rd.sd.Between o g gr) (hh : d.rd.sd.headerEndReached = true) (hbs : d.rd.sd.Todo o bs)
      (hl : SD.Here junk d.rd.sd bs d.rd.reader.bytes) (hv : d.view = g.view d.currentFrame) :
      Stage o g junk d (Spec.frames gr bs)
  | done (he : d.rd.atEof = true) (hb : d.rd.reader.bytes = junk) (hv : d.view = g.view d.currentFrame) : Stage o g junk d []

theorem stage_view {o : DecodeOptions} {g : Spec.File} {junk : List UInt8} {d : Decoder C}
    {xs : List (Spec.Graphic × Spec.Image)} (h : Stage o g junk d xs) : d.view = g.view d.currentFrame := by
  cases h with
  | at_ gr bs hi hr he hb hh hbs hl hv => exact hv
  | done he hb hv => exact hv

/-- What `next_frame_info` has to return before the images `xs`. -/
def StageInfo (o : DecodeOptions) (g : Spec.File) (junk : List UInt8) (d : Decoder C) (res : Decoder C × Outcome Bool) :
    List (Spec.Graphic × Spec.Image) → Prop
  | [] => res.2 = .ok false ∧ res.1.currentFrame = d.currentFrame ∧ Stage o g junk res.1 [] ∧
      res.1.rd.atEof = true ∧ res.1.rd.reader.bytes = junk
  | (gr, i) :: xs =>
    match g.headVerdict o i with
    | some e => res.2 = .err e
    | none => res.2 = .ok true ∧ res.1.Inv ∧ res.1.rd.reader.Reliable ∧
        res.1.rd.atEof = false ∧ res.1.currentFrame = Spec.headFrame (gr, i) ∧
        res.1.view = g.view (Spec.headFrame (gr, i)) ∧
        res.1.dataType = .lzw i.minCode ∧
        ∃ x subs bs, i.subs = x :: subs ∧ res.1.rd.sd.state = .copySubBlock x.length ∧
          SD.Between o g gr { res.1.rd.sd with current := some (Spec.graphicFrame gr) } ∧
          res.1.rd.sd.headerEndReached = true ∧
          res.1.rd.reader.bytes = x ++ Spec.renderSubs subs ++ Spec.renderBlks bs ++ 0x3B :: junk ∧
          xs = Spec.frames .default bs ∧ res.1.rd.sd.Todo o bs ∧ Spec.SubsOk i.subs

/-- `next_frame_info` on a file of the grammar. -/
theorem stage_info (hS : C.Safe) {o : DecodeOptions} {g : Spec.File} {junk : List UInt8} {d : Decoder C}
    {xs : List (Spec.Graphic × Spec.Image)} (h : Stage o g junk d xs) : StageInfo o g junk d d.nextFrameInfo xs := by
  cases h with
  | done he hb hv =>
    rw [atEof_info he]
    exact ⟨rfl, rfl, .done he hb hv, he, hb⟩
  | at_ gr bs hi hr he hb hh hbs hl hv =>
    obtain ⟨evs, r, hu, hres⟩ := SD.upto_next hb hh hbs hl
    obtain ⟨out, rd, e1, e2, e3⟩ := info_eq hS hi hr he hu
    have hinv := (inv_nextFrameInfo hS d hi).1
    generalize Spec.frames gr bs = xs at *
    cases xs with
    | nil =>
      obtain ⟨s', rfl, h1, h2⟩ := hres
      obtain ⟨g1, g2, g3⟩ := e2
      rcases g3 with ⟨_, rfl, g4⟩ | ⟨h, _⟩
      · simp only [infoOf] at e1
        rw [e1]
        have hv' : ({ d with rd := rd } : Decoder C).view = g.view d.currentFrame := by
          rw [← hv]
          have hw : d.rd.sd.width = rd.sd.width := by rw [hb.width, g1, h1]
          have hh : d.rd.sd.height = rd.sd.height := by rw [hb.height, g1, h2]
          simp only [view, width, height, globalPalette, hw, hh]
        exact ⟨rfl, rfl, .done g4 g2 hv', g4, g2⟩
      · exact absurd rfl h
    | cons x xs =>
      obtain ⟨gr', i⟩ := x
      simp only [SD.NextRes] at hres
      unfold StageInfo Spec.File.headVerdict
      by_cases hc1 : o.checkFrameConsistency = true ∧ ¬ g.Contains i
      · rw [if_pos hc1] at hres
        subst hres
        replace e2 : out = .err (.format .frameOutOfBounds) := e2
        subst e2
        simp only [if_pos hc1, e1, infoOf]
      · rw [if_neg hc1] at hres
        by_cases hc2 : i.minCode.toNat < 1 ∨ 11 < i.minCode.toNat
        · rw [if_pos hc2] at hres
          subst hres
          replace e2 : out = .err (.format .invalidMinCodeSize) := e2
          subst e2
          simp only [if_neg hc1, if_pos hc2, e1, infoOf]
        · rw [if_neg hc2] at hres
          obtain ⟨s', x, subs, bs', h1, h2, h3, h4, h5, rfl, h7, h8⟩ := hres
          obtain ⟨g1, g2, g3⟩ := e2
          rcases g3 with ⟨h, _⟩ | ⟨_, rfl, g4⟩
          · cases h
          · have hcur : rd.sd.current = some (Spec.headFrame (gr', i)) := by rw [g1]; exact h3
            simp only [infoOf, hcur] at e1
            rw [e1] at hinv e3 ⊢
            simp only [if_neg hc1, if_neg hc2]
            have hgp : d.globalPalette = g.table := by
              have := congrArg View.globalPalette hv
              exact this
            have hpal : (Spec.headFrame (gr', i)).palette = i.table := rfl
            have hcond : ((Spec.headFrame (gr', i)).palette.isNone = true ∧ d.globalPalette.isNone = true) ↔
                (i.table = none ∧ g.table = none) := by
              rw [hpal, hgp, Option.isNone_iff_eq_none, Option.isNone_iff_eq_none]
            by_cases hc3 : i.table = none ∧ g.table = none
            · simp only [if_pos hc3, if_pos (hcond.2 hc3)]
            · simp only [if_neg hc3, if_neg (fun h => hc3 (hcond.1 h))]
              refine ⟨trivial, hinv, e3, g4, rfl, ?_, rfl, x, subs, bs', h1, ?_, ?_, ?_, g2, h7,
                ⟨h8.1.1, by
                  have := h8.1.2
                  rw [← show rd.sd = s' from g1] at this
                  exact this⟩, h8.2⟩
              · have hw : rd.sd.width = g.width := by rw [g1]; exact h2.width
                have hh : rd.sd.height = g.height := by rw [g1]; exact h2.height
                have hbg := congrArg View.bgColor hv
                have hrep := congrArg View.repetition hv
                simp only [view, Spec.File.view] at hbg hrep
                simp only [withFrame, view, width, height, globalPalette, Frame.take, Spec.File.view, hw, hh]
                have hgp' : d.conv.globalPalette = g.table := hgp
                rw [hgp', hbg, hrep]
              · show rd.sd.state = _
                rw [g1]; exact h5
              · have : ({ (d.withFrame rd (Spec.headFrame (gr', i)) (.lzw i.minCode)).rd.sd with
                    current := some (Spec.graphicFrame gr') } : SD C) = { s' with current := some (Spec.graphicFrame gr') } := by
                  simp only [withFrame, g1]
                rw [this]
                exact h2
              · show rd.sd.headerEndReached = true
                rw [g1]; exact h4

/-- What `read_next_frame` has to return before the images `xs`. -/
def StageRead (o : DecodeOptions) (g : Spec.File) (junk : List UInt8) (d : Decoder C) (res : Decoder C × Outcome (Option Frame)) :
    List (Spec.Graphic × Spec.Image) → Prop
  | [] => res.2 = .ok none ∧ res.1.currentFrame = d.currentFrame ∧ Stage o g junk res.1 [] ∧
      res.1.rd.atEof = true ∧ res.1.rd.reader.bytes = junk
  | x :: xs =>
    match g.verdict o x.2 with
    | some e => res.2 = .err e
    | none => res.2 = .ok (some (Spec.rawFrame x)) ∧ res.1.currentFrame = Spec.rawFrame x ∧ Stage o g junk res.1 xs

theorem sizeOk_one (m : MemoryLimit) : m.sizeOk 1 = true := by
  cases m with
  | unlimited => rfl
  | bytes l hl => simp only [MemoryLimit.sizeOk, decide_eq_true_eq]; omega

/-- `read_next_frame` on a file of the grammar. -/
theorem stage_read (hS : C.Safe) {o : DecodeOptions} {g : Spec.File} {junk : List UInt8} {d : Decoder C}
    {xs : List (Spec.Graphic × Spec.Image)} (h : Stage o g junk d xs) : StageRead o g junk d d.readNextFrame xs := by
  have hdi : xs ≠ [] → d.Inv := by
    intro hne
    cases h with
    | done => exact absurd rfl hne
    | at_ gr bs hi hr he hb hh hbs hl hv => exact hi
  have hinfo := stage_info hS h
  cases xs with
  | nil =>
    unfold StageInfo at hinfo
    unfold readNextFrame
    generalize d.nextFrameInfo = y at *
    obtain ⟨d', out⟩ := y
    simp only at *
    obtain ⟨rfl, h2, h3⟩ := hinfo
    exact ⟨rfl, h2, h3⟩
  | cons x xs =>
    obtain ⟨gr, i⟩ := x
    unfold StageInfo at hinfo
    unfold StageRead Spec.File.verdict
    have hinv' := (readNextFrame_spec hS d (hdi (by simp))).1
    cases hv : g.headVerdict o i with
    | some e =>
      simp only [hv] at hinfo ⊢
      unfold readNextFrame
      generalize d.nextFrameInfo = y at *
      obtain ⟨d', out⟩ := y
      simp only at *
      subst hinfo
      rfl
    | none =>
      simp only [hv] at hinfo ⊢
      obtain ⟨h1, h2, h3, h4, h5, h6, h7, x, subs, bs, h8, h9, h10, h11, h12, h13, h14, h15⟩ := hinfo
      unfold readNextFrame at hinv' ⊢
      generalize d.nextFrameInfo = y at *
      obtain ⟨d', out⟩ := y
      simp only at *
      subst h1
      simp only [h7, h5] at hinv' ⊢
      have hsubs : Spec.SubsOk subs := fun b hb => h15 b (by rw [h8]; exact List.mem_cons_of_mem _ hb)
      have hlim : d'.rd.sd.memoryLimit = o.memoryLimit := h10.limit
      have heval := SD.copy_subs hsubs d'.rd.sd [i.minCode] x (Spec.renderBlks bs ++ 0x3B :: junk) h10.skip (sizeOk_one _)
      have hst : ({ d'.rd.sd with state := .copySubBlock x.length } : SD C) = d'.rd.sd := by rw [← h9]
      have hdata : [i.minCode] ++ x ++ subs.flatten = i.data := by
        simp [Spec.Image.data, h8]
      rw [hst, ← List.append_assoc, ← h12, hlim, hdata] at heval
      obtain ⟨c1, c2, c3⟩ := copy_eq hS h2.rd h3 h4 i.minCode heval
      generalize hcl : copyLzw i.minCode d'.rd = z at *
      obtain ⟨rd, vec, out⟩ := z
      simp only at *
      by_cases hm : o.memoryLimit.sizeOk i.data.length = true
      · rw [if_pos hm] at c2 c3 ⊢
        obtain ⟨k1, k2, k3, k4⟩ := c2 _ _ _ rfl
        simp only [Prod.mk.injEq] at k1
        obtain ⟨rfl, rfl⟩ := k1
        simp only at hinv' ⊢
        refine ⟨rfl, rfl, ?_⟩
        rw [h13]
        refine .at_ .default bs hinv' c1 k4 ?_ ?_ ?_ ?_ ?_
        · show SD.Between o g .default rd.sd
          rw [k2]
          exact ⟨h10.ibuf, h10.skip, h10.check, rfl, h10.allow, h10.width, h10.height, rfl⟩
        · show rd.sd.headerEndReached = true
          rw [k2]; exact h11
        · show rd.sd.Todo o bs
          rw [k2]; exact h14
        · show SD.Here junk rd.sd bs rd.reader.bytes
          rw [k3]
          exact .blocks bs (by rw [k2])
        · have hw : rd.sd.width = g.width := by rw [k2]; exact h10.width
          have hh : rd.sd.height = g.height := by rw [k2]; exact h10.height
          have hbg := congrArg View.bgColor h6
          have hrep := congrArg View.repetition h6
          have hgp := congrArg View.globalPalette h6
          simp only [view, Spec.File.view, globalPalette] at hbg hrep hgp
          simp only [view, width, height, globalPalette, Spec.File.view, hw, hh, hgp, hbg, hrep]
      · rw [if_neg hm] at c2 c3 ⊢
        have := c3 _ rfl
        subst this
        rfl

/-- What `freeRead` has to return before the images `xs`. -/
def StageFree (o : DecodeOptions) (g : Spec.File) (junk : List UInt8) (d : Decoder C) (res : Decoder C × Outcome (Option Frame)) :
    List (Spec.Graphic × Spec.Image) → Prop
  | [] => res.2 = .ok none ∧ res.1.currentFrame = d.currentFrame ∧ Stage o g junk res.1 [] ∧
      res.1.rd.atEof = true ∧ res.1.rd.reader.bytes = junk
  | x :: xs =>
    match g.headVerdict o x.2 with
    | some e => res.2 = .err e
    | none => res.2 = .ok (some (Spec.rawFrame x)) ∧ res.1.currentFrame = Spec.rawFrame x ∧ Stage o g junk res.1 xs

/-- `freeRead` on a file of the grammar. -/
theorem stage_free (hS : C.Safe) {o : DecodeOptions} {g : Spec.File} {junk : List UInt8} {d : Decoder C}
    {xs : List (Spec.Graphic × Spec.Image)} (h : Stage o g junk d xs) : StageFree o g junk d d.freeRead xs := by
  have hinfo := stage_info hS h
  cases xs with
  | nil =>
    unfold StageInfo at hinfo
    unfold freeRead
    generalize d.nextFrameInfo = y at *
    obtain ⟨d', out⟩ := y
    simp only at *
    obtain ⟨rfl, h2, h3⟩ := hinfo
    exact ⟨rfl, h2, h3⟩
  | cons x xs =>
    obtain ⟨gr, i⟩ := x
    unfold StageInfo at hinfo
    unfold StageFree
    cases hv : g.headVerdict o i with
    | some e =>
      simp only [hv] at hinfo ⊢
      unfold freeRead
      generalize d.nextFrameInfo = y at *
      obtain ⟨d', out⟩ := y
      simp only at *
      subst hinfo
      rfl
    | none =>
      simp only [hv] at hinfo ⊢
      obtain ⟨h1, h2, h3, h4, h5, h6, h7, x, subs, bs, h8, h9, h10, h11, h12, h13, h14, h15⟩ := hinfo
      unfold freeRead
      generalize d.nextFrameInfo = y at *
      obtain ⟨d', out⟩ := y
      simp only at *
      subst h1
      simp only [h7, h5]
      have hsubs : Spec.SubsOk subs := fun b hb => h15 b (by rw [h8]; exact List.mem_cons_of_mem _ hb)
      have heval := SD.copy_subs hsubs (d'.rd.capTo .unlimited).sd [i.minCode] x (Spec.renderBlks bs ++ 0x3B :: junk) h10.skip rfl
      have hst : ({ (d'.rd.capTo .unlimited).sd with state := .copySubBlock x.length } : SD C) = (d'.rd.capTo .unlimited).sd := by
        unfold RD.capTo
        rw [← h9]
      have hdata : [i.minCode] ++ x ++ subs.flatten = i.data := by
        simp [Spec.Image.data, h8]
      have hcap : (d'.rd.capTo .unlimited).sd.memoryLimit = .unlimited := rfl
      rw [hst, ← List.append_assoc, ← h12, hcap, hdata] at heval
      have hi := capTo_inv .unlimited h2.rd rfl
      obtain ⟨c1, c2, c3⟩ := copy_eq hS hi h3 h4 i.minCode heval
      have hinv := (copyRun_spec hS (copyLoop_run hS _ (d'.rd.capTo .unlimited) [i.minCode] hi (meas_lt_fuel _)) hi rfl).1
      change (copyLzw i.minCode (d'.rd.capTo .unlimited)).1.Inv at hinv
      generalize hcl : copyLzw i.minCode (d'.rd.capTo .unlimited) = z at *
      obtain ⟨rd, vec, out⟩ := z
      simp only at *
      rw [if_pos (show MemoryLimit.unlimited.sizeOk i.data.length = true from rfl)] at c2
      obtain ⟨k1, k2, k3, k4⟩ := c2 _ _ _ rfl
      simp only [Prod.mk.injEq] at k1
      obtain ⟨rfl, rfl⟩ := k1
      simp only
      refine ⟨rfl, rfl, ?_⟩
      rw [h13]
      have k2' : (rd.capTo d'.rd.sd.memoryLimit).sd = { d'.rd.sd with state := .blockEnd, current := none } := by
        unfold RD.capTo
        rw [k2]
        rfl
      have hext : d'.rd.sd.memoryLimit.sizeOk rd.sd.extData.length = true := by
        have e : (rd.capTo d'.rd.sd.memoryLimit).sd.extData = d'.rd.sd.extData := by rw [k2']
        replace e : rd.sd.extData = d'.rd.sd.extData := e
        rw [e]
        exact h2.rd.wf.ext
      refine .at_ .default bs ⟨capTo_inv _ hinv hext, h2.limit⟩ c1 k4 ?_ ?_ ?_ ?_ ?_
      · show SD.Between o g .default (rd.capTo d'.rd.sd.memoryLimit).sd
        rw [k2']
        exact ⟨h10.ibuf, h10.skip, h10.check, h10.limit, h10.allow, h10.width, h10.height, rfl⟩
      · show (rd.capTo d'.rd.sd.memoryLimit).sd.headerEndReached = true
        rw [k2']; exact h11
      · show (rd.capTo d'.rd.sd.memoryLimit).sd.Todo o bs
        rw [k2']; exact h14
      · show SD.Here junk (rd.capTo d'.rd.sd.memoryLimit).sd bs rd.reader.bytes
        rw [k3]
        exact .blocks bs (by rw [k2'])
      · have hw : (rd.capTo d'.rd.sd.memoryLimit).sd.width = g.width := by rw [k2']; exact h10.width
        have hh : (rd.capTo d'.rd.sd.memoryLimit).sd.height = g.height := by rw [k2']; exact h10.height
        have hbg := congrArg View.bgColor h6
        have hrep := congrArg View.repetition h6
        have hgp := congrArg View.globalPalette h6
        simp only [view, Spec.File.view, globalPalette] at hbg hrep hgp
        simp only [view, width, height, globalPalette, Spec.File.view, hw, hh, hgp, hbg, hrep]

/-! ## The header -/

theorem foldl_extEvents (label : UInt8) (n : Nat) (d : Decoder C) : (SD.extEvents label n).foldl onEvent d = d := by
  have : ∀ n, (List.replicate n (Decoded.subBlockFinished label)).foldl onEvent d = d := by
    intro n
    induction n with
    | zero => rfl
    | succ n ih => rw [List.replicate_succ, List.foldl_cons]; exact ih
  unfold SD.extEvents
  rw [List.foldl_append]
  show List.foldl onEvent d (List.replicate n (Decoded.subBlockFinished label)) = d
  exact this n

/-- The extensions before the first image set the loop count. -/
theorem foldl_lead (lead : List Spec.Blk) (tail : List Spec.Blk) (h : ∀ b ∈ lead, ¬ SD.IsImage b ∧ ¬ SD.IsUnknown b)
    (ht : SD.Turn tail) (d : Decoder C) (l : Spec.Loops) (hd : d.repetition = Spec.loopsOf l) :
    (lead.flatMap SD.blkEvents).foldl onEvent d =
      { d with repetition := Spec.loopsOf (Spec.loopCount l (lead ++ tail)) } := by
  induction lead generalizing d l with
  | nil =>
    have : Spec.loopCount l tail = l := by
      rcases ht with rfl | ⟨i, t, rfl⟩ | ⟨x, subs, t, rfl⟩ <;> rfl
    rw [List.nil_append, this, ← hd]
    rfl
  | cons b lead ih =>
    rw [List.flatMap_cons, List.foldl_append]
    have h' : ∀ b ∈ lead, ¬ SD.IsImage b ∧ ¬ SD.IsUnknown b := fun c hc => h c (List.mem_cons_of_mem _ hc)
    cases b with
    | image i => exact absurd trivial (h _ List.mem_cons_self).1
    | unknown t subs => exact absurd trivial (h _ List.mem_cons_self).2
    | control c =>
      show List.foldl onEvent (List.foldl onEvent d (SD.extEvents 0xF9 0)) _ = _
      rw [foldl_extEvents, ih h' d l hd]
      rfl
    | ext label subs =>
      show List.foldl onEvent (List.foldl onEvent d (SD.extEvents label (subs.length - 1) ++ _)) _ = _
      rw [List.foldl_append, foldl_extEvents, List.cons_append]
      by_cases hl : label = 0xFF
      · rw [if_pos hl]
        simp only [Spec.loopCount, if_pos hl, SD.loopEvents]
        cases hn : Spec.netscape subs with
        | none =>
          simp only [Option.getD_none, List.foldl_nil]
          exact ih h' d l hd
        | some l' =>
          simp only [Option.getD_some, List.foldl_cons, List.foldl_nil]
          rw [ih h' _ l']
          · rfl
          · cases l' <;> rfl
      · rw [if_neg hl]
        simp only [Spec.loopCount, if_neg hl, List.foldl_nil]
        exact ih h' d l hd

/-- `read_info` on a file of the grammar. -/
theorem stage_open (hS : C.Safe) {o : DecodeOptions} (hsk : o.skipFrameDecoding = true) {g : Spec.File} (hg : g.Readable o)
    {junk : List UInt8} {r : Reader} (hr : r.Reliable) (hb : r.bytes = g.render ++ junk) :
    (readInfo C o r).2 = .ok () ∧ (readInfo C o r).1.currentFrame = Frame.default ∧
      Stage o g junk (readInfo C o r).1 g.frames ∧ (readInfo C o r).1.view = g.view Frame.default := by
  obtain ⟨v, cap, hw⟩ := SD.walk_head (C := C) o g hg.ok
  obtain ⟨s', l, lead, tail, h1, h2, h3, h4, h5, h6, h7, h8⟩ := SD.upto_start (C := C) (s := { SD.withOptions C o with
        state := .globalPalette 0, version := v, width := g.width, height := g.height
        gct := g.table.getD [], gctCap := cap }) hg
    ⟨rfl, hsk, rfl, rfl, rfl, rfl, rfl, rfl⟩ rfl rfl rfl rfl junk
  have hbytes : r.bytes = g.renderHead ++ (Spec.renderBlks g.blocks ++ 0x3B :: junk) := by
    rw [hb]; simp [Spec.File.render]
  have hu := SD.walk_upto hw (P := isHeaderEnd) (by
    intro ev hev
    simp only [List.mem_singleton] at hev
    subst hev
    exact ⟨rfl, by simp⟩) h4
  rw [← hbytes] at hu
  obtain ⟨rd, e1, e2, e3, e4, e5⟩ := init_eq hS o hr hu
  have hinv := (inv_readInfo hS o r).1
  have hold : ({ ([Decoded.backgroundColor g.background] ++ Decoded.globalPalette (g.table.getD []) ::
        lead.flatMap SD.blkEvents).foldl onEvent (withNoInit C o r) with rd := rd } : Decoder C) =
      { withNoInit C o r with
        rd := rd, bgColor := some g.background, repetition := Spec.loopsOf g.loops
        conv := (Converter.new o.colorOutput o.memoryLimit).setGlobalPalette (g.table.getD []) } := by
    rw [List.cons_append, List.nil_append, List.foldl_cons, List.foldl_cons,
      foldl_lead lead tail h2 h3 _ (.finite 0) rfl]
    simp only [Spec.File.loops, h1]
    rfl
  replace e1 := e1.trans (congrArg (fun d => (checkBg d, Outcome.ok ())) hold)
  have hpal : ((Converter.new o.colorOutput o.memoryLimit).setGlobalPalette (g.table.getD [])).globalPalette = g.table := by
    cases ht : g.table with
    | none => rfl
    | some t =>
      have := hg.ok.2.2.1 t ht
      have hp : 0 < 2 ^ (g.size + 1) := Nat.pow_pos (by omega)
      simp only [Converter.setGlobalPalette, Option.getD_some]
      rw [if_neg]
      intro h
      rw [List.isEmpty_iff] at h
      subst h
      simp at this
      omega
  have hres : (readInfo C o r).1 =
      { withNoInit C o r with
        rd := rd, bgColor := g.backgroundColour, repetition := Spec.loopsOf g.loops
        conv := (Converter.new o.colorOutput o.memoryLimit).setGlobalPalette (g.table.getD []) } := by
    rw [e1]
    simp only [checkBg, hpal, Spec.File.backgroundColour]
    cases g.table with
    | none => rfl
    | some t =>
      simp only [Option.getD_some]
      by_cases hlt : g.background.toNat < t.length / 3
      · rw [if_pos hlt, if_neg (by omega)]
      · rw [if_neg hlt, if_pos (by omega)]
  have hview : (readInfo C o r).1.view = g.view Frame.default := by
    rw [hres]
    simp only [view, width, height, globalPalette, hpal, Spec.File.view, e2]
    rw [h5.width, h5.height]
    rfl
  have hcf : (readInfo C o r).1.currentFrame = Frame.default := by rw [hres]; rfl
  have hrd : (readInfo C o r).1.rd = rd := by rw [hres]
  refine ⟨by rw [e1], hcf, ?_, hview⟩
  have hfr : g.frames = Spec.frames (lead.foldl SD.graphicOf .default) tail := by
    rw [Spec.File.frames, h1, SD.frames_lead lead tail _ fun b hb => (h2 b hb).1]
  rw [hfr]
  refine .at_ _ tail hinv ?_ ?_ ?_ ?_ ?_ ?_ ?_
  · rw [hrd]; exact e5
  · rw [hrd]; exact e4
  · rw [hrd, e2]; exact h5
  · rw [hrd, e2]; exact h6
  · rw [hrd, e2]; exact h8
  · rw [hrd, e2, e3]; exact h7
  · rw [hcf]; exact hview

/-- The frames of a file of the grammar. -/
theorem stage_reel (hS : C.Safe) {o : DecodeOptions} {g : Spec.File} {junk : List UInt8} (k : Nat) :
    ∀ {d : Decoder C} {xs : List (Spec.Graphic × Spec.Image)}, Stage o g junk d xs →
      session (List.replicate k .read) d = g.reel o k d.currentFrame xs := by
  induction k with
  | zero => intro d xs h; cases xs <;> rfl
  | succ k ih =>
    intro d xs h
    have hr := stage_read hS h
    rw [List.replicate_succ]
    cases xs with
    | nil =>
      obtain ⟨h1, h2, h3, _⟩ := hr
      have hv : d.readNextFrame.1.view = g.view d.currentFrame := by
        rw [← h2]
        exact stage_view h3
      have h4 := ih h3
      simp only [session, see, Spec.File.reel]
      generalize d.readNextFrame = y at *
      obtain ⟨d', out⟩ := y
      simp only at *
      subst h1
      simp only [h4, hv, h2]
    | cons x xs =>
      unfold StageRead at hr
      simp only [session, see, Spec.File.reel]
      cases hvd : g.verdict o x.2 with
      | some e =>
        simp only [hvd] at hr ⊢
        generalize d.readNextFrame = y at *
        obtain ⟨d', out⟩ := y
        simp only at *
        subst hr
        rfl
      | none =>
        simp only [hvd] at hr ⊢
        obtain ⟨h1, h2, h3⟩ := hr
        have hv : d.readNextFrame.1.view = g.view (Spec.rawFrame x) := by
          rw [← h2]
          exact stage_view h3
        have h4 := ih h3
        generalize d.readNextFrame = y at *
        obtain ⟨d', out⟩ := y
        simp only at *
        subst h1
        simp only [h4, hv, h2]

theorem verdict_unlimited (o : DecodeOptions) (g : Spec.File) (i : Spec.Image) :
    g.verdict { o with memoryLimit := .unlimited } i = g.headVerdict o i := by
  show (match g.headVerdict o i with
    | some e => some e
    | none => if MemoryLimit.unlimited.sizeOk i.data.length then none else some (.format .memoryLimit)) = _
  cases g.headVerdict o i with
  | some e => rfl
  | none => rfl

/-- The frames of a file of the grammar, with `freeRead`. -/
theorem stage_free_reel (hS : C.Safe) {o : DecodeOptions} {g : Spec.File} {junk : List UInt8} (k : Nat) :
    ∀ {d : Decoder C} {xs : List (Spec.Graphic × Spec.Image)}, Stage o g junk d xs →
      reads freeRead k d = g.reel { o with memoryLimit := .unlimited } k d.currentFrame xs := by
  induction k with
  | zero => intro d xs h; cases xs <;> rfl
  | succ k ih =>
    intro d xs h
    have hr := stage_free hS h
    cases xs with
    | nil =>
      obtain ⟨h1, h2, h3, _⟩ := hr
      have hv : d.freeRead.1.view = g.view d.currentFrame := by
        rw [← h2]
        exact stage_view h3
      have h4 := ih h3
      simp only [reads, Spec.File.reel]
      generalize d.freeRead = y at *
      obtain ⟨d', out⟩ := y
      simp only at *
      subst h1
      simp only [h4, hv, h2]
    | cons x xs =>
      unfold StageFree at hr
      simp only [reads, Spec.File.reel]
      rw [verdict_unlimited]
      cases hvd : g.headVerdict o x.2 with
      | some e =>
        simp only [hvd] at hr ⊢
        generalize d.freeRead = y at *
        obtain ⟨d', out⟩ := y
        simp only at *
        subst hr
        rfl
      | none =>
        simp only [hvd] at hr ⊢
        obtain ⟨h1, h2, h3⟩ := hr
        have hv : d.freeRead.1.view = g.view (Spec.rawFrame x) := by
          rw [← h2]
          exact stage_view h3
        have h4 := ih h3
        generalize d.freeRead = y at *
        obtain ⟨d', out⟩ := y
        simp only at *
        subst h1
        simp only [h4, hv, h2]

end Decoder

end Gif
