import Verif.Lemmas.DescentSeek
/-!
`Decoder` with `skip_frame_decoding` on any string of bytes.
-/

namespace Gif

namespace Decoder

variable {C : Codec}

open Spec.Descent (Notes Pos)

/-- `init` fails as the run over the bytes does. -/
theorem init_fails (hS : C.Safe) (o : DecodeOptions) {rdr : Reader} (hr : rdr.Reliable) {evs : List Decoded} {r : SD.Res C}
    {e : DecodingError} (hu : SD.Upto isHeaderEnd (SD.withOptions C o) rdr.bytes evs r) (he : SD.Fails r e) :
    (readInfo C o rdr).2 = .err e := by
  have hi := inv_withNoInit (C := C) o rdr
  have w := initLoop_run hS _ (withNoInit C o rdr) hi.rd (meas_lt_fuel _)
  obtain ⟨l, n⟩ := initRun_reliable w hr
  obtain ⟨evs', out, u, e', _, f⟩ := initRun_upto hS w hi.rd (Reader.reliable_clean hr) rfl
  unfold readInfo init
  generalize initLoop (withNoInit C o rdr).rd.eventFuel (withNoInit C o rdr) = x at *
  obtain ⟨d', out'⟩ := x
  simp only at *
  have m : ∀ c, out ≠ .err (.io (.reader c)) := by
    intro c ho; subst ho; exact n c f
  obtain ⟨rfl, h2⟩ := uptoRes_det rfl u m hu
  rcases he with rfl | ⟨rfl, t, rfl⟩
  · replace h2 : out = .err e := h2
    subst h2
    subst f
    rfl
  · replace h2 : out = .ioErr .unexpectedEof := h2
    subst h2
    subst f
    rfl

/-- `copy_lzw_into_buffer` at the end of the bytes. -/
theorem copy_more (hS : C.Safe) {rd : RD C} (hi : rd.Inv) (hr : rd.reader.Reliable) (he : rd.atEof = false) (m : UInt8)
    {s : SD C} {a : List UInt8} (hu : SD.Eval true rd.sd [m] rd.reader.bytes (.more s a)) :
    (copyLzw m rd).2.2 = .ioErr .unexpectedEof := by
  have w := copyLoop_run hS _ rd [m] hi (meas_lt_fuel _)
  obtain ⟨l, n⟩ := copyRun_reliable w hr
  obtain ⟨_, c⟩ := copyRun_eval hS w hi (Reader.reliable_clean hr) he
  have hc : copyLzw m rd = copyLoop rd.eventFuel rd [m] := rfl
  rw [hc]
  generalize copyLoop rd.eventFuel rd [m] = x at *
  obtain ⟨rd', vec, out⟩ := x
  simp only at *
  cases out with
  | ok u => cases SD.eval_det hu c.2
  | err e' =>
    rcases c with ⟨c, rfl⟩ | ⟨h, _⟩ | ⟨_, s, a, ev, rest, hne, h⟩ | h
    · exact absurd rfl (n c)
    · rw [h]
    · cases SD.eval_det hu h
    · cases SD.eval_det hu h
  | panic => exact c.elim
  | diverge => exact c.elim

/-- The decoder is where the specification is. -/
inductive Stand (o : DecodeOptions) (g : Spec.File) (loops : Spec.Loops) (d : Decoder C) : Pos → Prop
  | block (n : Notes) (l : List UInt8) (hi : d.Inv) (hr : d.rd.reader.Reliable) (he : d.rd.atEof = false)
      (ha : SD.At o g n d.rd.sd) (hh : d.rd.sd.headerEndReached = true) (hl : SD.Ready d.rd.sd l d.rd.reader.bytes)
      (hv : d.view = { g.view d.currentFrame with repetition := Spec.loopsOf loops }) : Stand o g loops d (.block n l)
  | data (n : Notes) (len : UInt8) (l : List UInt8) (hi : d.Inv) (hr : d.rd.reader.Reliable) (he : d.rd.atEof = false)
      (ha : SD.At o g n { d.rd.sd with current := some (Spec.graphicFrame n.graphic) })
      (hs : d.rd.sd.state = .copySubBlock len.toNat) (hh : d.rd.sd.headerEndReached = true) (hl : d.rd.reader.bytes = l)
      (hv : d.view = { g.view d.currentFrame with repetition := Spec.loopsOf loops }) : Stand o g loops d (.data n len l)
  | done (he : d.rd.atEof = true) (hv : d.view = { g.view d.currentFrame with repetition := Spec.loopsOf loops }) :
      Stand o g loops d .done

theorem stand_view {o : DecodeOptions} {g : Spec.File} {loops : Spec.Loops} {d : Decoder C} {p : Pos}
    (h : Stand o g loops d p) : d.view = { g.view d.currentFrame with repetition := Spec.loopsOf loops } := by
  cases h <;> assumption

/-- The search for the next image, without a look at the colour tables. -/
def look (o : DecodeOptions) (g : Spec.File) (n : Notes) (l : List UInt8) :
    Spec.Descent.Parse (Option (Notes × Spec.Image × UInt8 × List UInt8)) :=
  match Spec.Descent.seek o (l.length + 1) n l with
  | .error e => .error e
  | .ok none => .ok none
  | .ok (some (n, l)) =>
    match Spec.Descent.imageHead o g l with
    | .error e => .error e
    | .ok (i, len, l) => .ok (some (n, i, len, l))

/-- The look at the colour tables. -/
def coloured (g : Spec.File) (x : Spec.Descent.Parse (Option (Notes × Spec.Image × UInt8 × List UInt8))) :
    Spec.Descent.Parse (Option (Notes × Spec.Image × UInt8 × List UInt8)) :=
  match x with
  | .error e => .error e
  | .ok none => .ok none
  | .ok (some (n, i, len, l)) =>
    if i.table = none ∧ g.table = none then .error (.format .noColorTable) else .ok (some (n, i, len, l))

theorem next_eq (o : DecodeOptions) (g : Spec.File) (n : Notes) (l : List UInt8) :
    Spec.Descent.next o g n l = coloured g (look o g n l) := by
  unfold Spec.Descent.next look coloured
  cases Spec.Descent.seek o (l.length + 1) n l with
  | error e => rfl
  | ok x =>
    cases x with
    | none => rfl
    | some x =>
      obtain ⟨n', l'⟩ := x
      simp only
      cases Spec.Descent.imageHead o g l' with
      | error e => rfl
      | ok y => rfl

/-- How the run to the next image ends. -/
def Looked (o : DecodeOptions) (g : Spec.File) (r : SD.Res C) :
    Spec.Descent.Parse (Option (Notes × Spec.Image × UInt8 × List UInt8)) → Prop
  | .error e => SD.Fails r e
  | .ok none => ∃ s' rest', r = .event s' [] (.blockStart .trailer) rest' ∧ s'.width = g.width ∧ s'.height = g.height
  | .ok (some (n, i, len, l)) => ∃ s', r = .event s' [] (.frameMetadata (.lzw i.minCode)) l ∧
      s'.current = some (Spec.headFrame (n.graphic, i)) ∧ s'.state = .copySubBlock len.toNat ∧
      SD.At o g n { s' with current := some (Spec.graphicFrame n.graphic) } ∧ s'.headerEndReached = true

theorem metadata_calm : ∀ ev, isHeaderEnd ev = false → isMetadata ev = false → isMetadata ev = false := fun _ _ h => h

/-- The search for the next image on the bytes. -/
theorem look_run {o : DecodeOptions} {g : Spec.File} {n : Notes} {l rest : List UInt8} {s : SD C} (ha : SD.At o g n s)
    (hh : s.headerEndReached = true) (hl : SD.Ready s l rest) :
    ∃ evs r, SD.Upto isMetadata s rest evs r ∧ Looked o g r (look o g n l) := by
  obtain ⟨h1, h2, h3⟩ := SD.seek_run (l.length + 1) n l rest s ha hh hl (by omega)
  unfold look
  cases hx : Spec.Descent.seek o (l.length + 1) n l with
  | error e => exact SD.stops_upto metadata_calm (h1 e hx)
  | ok x =>
    cases x with
    | none =>
      obtain ⟨evs, s', rest', g1, g2, g3⟩ := h2 hx
      exact ⟨evs, _, g1, s', rest', rfl, g2, g3⟩
    | some x =>
      obtain ⟨n', l'⟩ := x
      obtain ⟨evs, s1, g1, g2, g3, g4, g5⟩ := h3 n' l' hx
      obtain ⟨k1, k2⟩ := SD.head_run g3 g4 g5 l'
      simp only
      cases hy : Spec.Descent.imageHead o g l' with
      | error e => exact SD.stops_upto metadata_calm (SD.stops_goes g1 g2 (k1 e hy))
      | ok y =>
        obtain ⟨i, len, l2⟩ := y
        obtain ⟨evs', s2, j1, j2⟩ := k2 i len l2 hy
        exact ⟨_, _, SD.goes_upto g1 (fun ev he => ⟨(g2 ev he).2.1, (g2 ev he).2.2⟩) j1, s2, rfl, j2⟩

/-- What `next_frame_info` has to do. -/
def Advanced (o : DecodeOptions) (g : Spec.File) (loops : Spec.Loops) (d : Decoder C) (res : Decoder C × Outcome Bool) :
    Spec.Descent.Parse (Option (Notes × Spec.Image × UInt8 × List UInt8)) → Prop
  | .error e => res.2 = .err e
  | .ok none => res.2 = .ok false ∧ res.1.currentFrame = d.currentFrame ∧ Stand o g loops res.1 .done
  | .ok (some (n, i, len, l)) => res.2 = .ok true ∧ res.1.currentFrame = Spec.headFrame (n.graphic, i) ∧
      res.1.dataType = .lzw i.minCode ∧ Stand o g loops res.1 (.data n len l)

theorem info_step (hS : C.Safe) {o : DecodeOptions} {g : Spec.File} {loops : Spec.Loops} {d : Decoder C} (hi : d.Inv)
    (hr : d.rd.reader.Reliable) (he : d.rd.atEof = false)
    (hv : d.view = { g.view d.currentFrame with repetition := Spec.loopsOf loops })
    {evs : List Decoded} {r : SD.Res C} (hu : SD.Upto isMetadata d.rd.sd d.rd.reader.bytes evs r)
    {x : Spec.Descent.Parse (Option (Notes × Spec.Image × UInt8 × List UInt8))} (hx : Looked o g r x) :
    Advanced o g loops d d.nextFrameInfo (coloured g x) := by
  obtain ⟨out, rd, e1, e2, e3⟩ := info_eq hS hi hr he hu
  have hinv := (inv_nextFrameInfo hS d hi).1
  have hw : d.rd.sd.width = g.width := congrArg View.width hv
  have hht : d.rd.sd.height = g.height := congrArg View.height hv
  have hgp : d.conv.globalPalette = g.table := congrArg View.globalPalette hv
  have hbg : d.bgColor = g.backgroundColour := congrArg View.bgColor hv
  have hrep : d.repetition = Spec.loopsOf loops := congrArg View.repetition hv
  cases x with
  | error e =>
    show d.nextFrameInfo.2 = .err e
    rw [e1]
    rcases hx with rfl | ⟨rfl, t, rfl⟩
    · replace e2 : out = .err e := e2
      subst e2
      rfl
    · replace e2 : out = .ioErr .unexpectedEof := e2
      subst e2
      rfl
  | ok x =>
    cases x with
    | none =>
      obtain ⟨s', rest', rfl, h1, h2⟩ := hx
      obtain ⟨g1, g2, g3⟩ := e2
      rcases g3 with ⟨_, rfl, g4⟩ | ⟨h, _⟩
      · simp only [infoOf] at e1
        rw [e1]
        refine ⟨rfl, rfl, .done g4 ?_⟩
        simp only [view, width, height, globalPalette, Spec.File.view, g1, h1, h2, hgp, hbg, hrep]
      · exact absurd rfl h
    | some x =>
      obtain ⟨n, i, len, l⟩ := x
      obtain ⟨s', rfl, h2, h3, h4, h5⟩ := hx
      obtain ⟨g1, g2, g3⟩ := e2
      rcases g3 with ⟨h, _⟩ | ⟨_, rfl, g4⟩
      · cases h
      · have hcur : rd.sd.current = some (Spec.headFrame (n.graphic, i)) := by rw [g1]; exact h2
        simp only [infoOf, hcur] at e1
        rw [e1] at hinv e3 ⊢
        have hpal : (Spec.headFrame (n.graphic, i)).palette = i.table := rfl
        have hcond : ((Spec.headFrame (n.graphic, i)).palette.isNone = true ∧ d.globalPalette.isNone = true) ↔
            (i.table = none ∧ g.table = none) := by
          rw [hpal, show d.globalPalette = g.table from hgp, Option.isNone_iff_eq_none, Option.isNone_iff_eq_none]
        unfold coloured
        simp only
        by_cases hc : i.table = none ∧ g.table = none
        · rw [if_pos hc, if_pos (hcond.2 hc)]
          rfl
        · rw [if_neg hc]
          simp only [if_neg (fun h => hc (hcond.1 h))] at hinv e3 ⊢
          refine ⟨rfl, rfl, rfl, .data n len l hinv e3 g4 ?_ ?_ ?_ g2 ?_⟩
          · have : ({ (d.withFrame rd (Spec.headFrame (n.graphic, i)) (.lzw i.minCode)).rd.sd with
                current := some (Spec.graphicFrame n.graphic) } : SD C) =
                { s' with current := some (Spec.graphicFrame n.graphic) } := by
              simp only [withFrame, g1]
            rw [this]
            exact h4
          · show rd.sd.state = _
            rw [g1]; exact h3
          · show rd.sd.headerEndReached = true
            rw [g1]; exact h5
          · have hw' : rd.sd.width = g.width := by rw [g1]; exact h4.between.width
            have hh' : rd.sd.height = g.height := by rw [g1]; exact h4.between.height
            simp only [withFrame, view, width, height, globalPalette, Spec.File.view, hw', hh', hgp, hbg, hrep]

/-- `next_frame_info` on any string of bytes. -/
theorem advance_run (hS : C.Safe) {o : DecodeOptions} {g : Spec.File} {loops : Spec.Loops} {d : Decoder C} {p : Pos}
    (h : Stand o g loops d p) : Advanced o g loops d d.nextFrameInfo (Spec.Descent.advance o g p) := by
  cases h with
  | done he hv =>
    rw [atEof_info he]
    exact ⟨rfl, rfl, .done he hv⟩
  | block n l hi hr he ha hh hl hv =>
    obtain ⟨evs, r, hu, hx⟩ := look_run ha hh hl
    have := info_step hS hi hr he hv hu hx
    rw [← next_eq] at this
    exact this
  | data n len l hi hr he ha hs hh hl hv =>
    subst hl
    obtain ⟨h1, h2⟩ := SD.skip_payload d.rd.reader.bytes len.toNat d.rd.sd ha.between.skip hs
    unfold Spec.Descent.advance
    simp only
    cases hb : (Spec.blocks len.toNat d.rd.reader.bytes).2 with
    | none =>
      obtain ⟨evs, r, hu, hx⟩ := SD.stops_upto metadata_calm (h1 hb)
      exact info_step hS hi hr he hv hu (x := .error _) hx
    | some l' =>
      have hb' := ha.between
      obtain ⟨evs, r, hu, hx⟩ := look_run (n := { n with graphic := .default }) (l := l') (rest := l')
        (s := { d.rd.sd with state := .blockEnd, current := none }) (o := o) (g := g)
        ⟨⟨hb'.ibuf, hb'.skip, hb'.check, hb'.limit, hb'.allow, hb'.width, hb'.height, rfl⟩, ha.label, ha.data⟩ hh (.blocks _ rfl)
      have hu' := SD.goes_upto (h2 l' hb) (P := isMetadata)
        (fun ev he => ⟨(SD.calm_dataEnd ev he).2.1, (SD.calm_dataEnd ev he).2.2⟩) hu
      have := info_step hS hi hr he hv hu' hx
      rw [← next_eq] at this
      exact this

/-- What `read_next_frame` has to do. -/
def ReadOn (o : DecodeOptions) (g : Spec.File) (loops : Spec.Loops) (d : Decoder C) (res : Decoder C × Outcome (Option Frame)) :
    Spec.Descent.Parse (Option (Notes × Spec.Image × UInt8 × List UInt8)) → Prop
  | .error e => res.2 = .err e
  | .ok none => res.2 = .ok none ∧ res.1.currentFrame = d.currentFrame ∧ Stand o g loops res.1 .done
  | .ok (some (n, i, len, l)) =>
    match Spec.Descent.payload o.memoryLimit 1 len l with
    | .error e => res.2 = .err e
    | .ok (x, l) => res.2 = .ok (some (Spec.rawFrame (n.graphic, { i with subs := [x] }))) ∧
        res.1.currentFrame = Spec.rawFrame (n.graphic, { i with subs := [x] }) ∧
        Stand o g loops res.1 (.block { n with graphic := .default } l)

/-- `read_next_frame` on any string of bytes. -/
theorem read_run (hS : C.Safe) {o : DecodeOptions} {g : Spec.File} {loops : Spec.Loops} {d : Decoder C} {p : Pos}
    (h : Stand o g loops d p) : ReadOn o g loops d d.readNextFrame (Spec.Descent.advance o g p) := by
  have hadv := advance_run hS h
  have hdi : p ≠ .done → d.Inv := by
    intro hne
    cases h with
    | block n l hi => exact hi
    | data n len l hi => exact hi
    | done => exact absurd rfl hne
  have hdone : p = .done → Spec.Descent.advance o g p = .ok none := by rintro rfl; rfl
  generalize Spec.Descent.advance o g p = x at *
  cases x with
  | error e =>
    replace hadv : d.nextFrameInfo.2 = .err e := hadv
    show d.readNextFrame.2 = .err e
    unfold readNextFrame
    generalize d.nextFrameInfo = y at *
    obtain ⟨d', out⟩ := y
    simp only at *
    subst hadv
    rfl
  | ok x =>
    cases x with
    | none =>
      obtain ⟨h1, h2, h3⟩ := hadv
      show d.readNextFrame.2 = .ok none ∧ _
      unfold readNextFrame
      generalize d.nextFrameInfo = y at *
      obtain ⟨d', out⟩ := y
      simp only at *
      subst h1
      exact ⟨rfl, h2, h3⟩
    | some x =>
      obtain ⟨n, i, len, l⟩ := x
      have hinv' := (readNextFrame_spec hS d (hdi (by intro hp; cases hdone hp))).1
      obtain ⟨h1, h2, h3, h4⟩ := hadv
      unfold ReadOn
      simp only
      unfold readNextFrame at hinv' ⊢
      generalize d.nextFrameInfo = y at *
      obtain ⟨d', out⟩ := y
      simp only at *
      subst h1
      simp only [h3, h2] at hinv' ⊢
      cases h4 with
      | data _ _ _ hi hr he ha hs hh hl hv =>
        obtain ⟨r, hev, hr1, hr2⟩ := SD.copy_payload d'.rd.reader.bytes len.toNat d'.rd.sd [i.minCode] ha.between.skip hs
        have hlim : d'.rd.sd.memoryLimit = o.memoryLimit := ha.between.limit
        rw [hlim, hl] at hr1 hr2
        simp only [List.length_singleton] at hr1 hr2
        obtain ⟨c1, c2, c3⟩ := copy_eq hS hi.rd hr he i.minCode hev
        have c4 : ∀ t a, r = .more t a → (copyLzw i.minCode d'.rd).2.2 = .ioErr .unexpectedEof := by
          rintro t a rfl
          exact copy_more hS hi.rd hr he i.minCode hev
        generalize hcl : copyLzw i.minCode d'.rd = z at *
        obtain ⟨rd, vec, out⟩ := z
        simp only at *
        unfold Spec.Descent.payload
        simp only
        by_cases hc : (Spec.blocks len.toNat l).1 ≠ [] ∧
            o.memoryLimit.sizeOk (1 + (Spec.blocks len.toNat l).1.length) = false
        · rw [if_pos hc]
          have := c3 _ (hr1 hc)
          subst this
          rfl
        · rw [if_neg hc]
          obtain ⟨k1, k2⟩ := hr2 hc
          cases hb : (Spec.blocks len.toNat l).2 with
          | none =>
            obtain ⟨t, a, rfl⟩ := k1 hb
            have := c4 _ _ rfl
            subst this
            rfl
          | some l' =>
            obtain ⟨m1, m2, m3, m4⟩ := c2 _ _ _ (k2 l' hb)
            simp only [Prod.mk.injEq] at m1
            obtain ⟨rfl, rfl⟩ := m1
            simp only at hinv' ⊢
            have hfr : ({ Spec.headFrame (n.graphic, i) with
                buffer := [i.minCode] ++ (Spec.blocks len.toNat l).1
                ownedCap := some ([i.minCode] ++ (Spec.blocks len.toNat l).1).length } : Frame) =
                Spec.rawFrame (n.graphic, { i with subs := [(Spec.blocks len.toNat l).1] }) := by
              simp [Spec.rawFrame, Spec.headFrame, Spec.Image.data]
            have hb' := ha.between
            refine ⟨congrArg (fun f => Outcome.ok (some f)) hfr, hfr, .block _ l' hinv' c1 m4 ?_ ?_ ?_ ?_⟩
            · show SD.At o g _ rd.sd
              rw [m2]
              exact ⟨⟨hb'.ibuf, hb'.skip, hb'.check, rfl, hb'.allow, hb'.width, hb'.height, rfl⟩, ha.label, ha.data⟩
            · show rd.sd.headerEndReached = true
              rw [m2]; exact hh
            · show SD.Ready rd.sd l' rd.reader.bytes
              rw [m3]
              exact .blocks l' (by rw [m2])
            · have hw' : rd.sd.width = g.width := by rw [m2]; exact hb'.width
              have hh' : rd.sd.height = g.height := by rw [m2]; exact hb'.height
              have hgp : d'.conv.globalPalette = g.table := congrArg View.globalPalette hv
              have hbg : d'.bgColor = g.backgroundColour := congrArg View.bgColor hv
              have hrep : d'.repetition = Spec.loopsOf loops := congrArg View.repetition hv
              simp only [view, width, height, globalPalette, Spec.File.view, hw', hh', hgp, hbg, hrep]

/-- All the calls. -/
theorem reading_run (hS : C.Safe) {o : DecodeOptions} {g : Spec.File} {loops : Spec.Loops} (cs : List Call) :
    ∀ {d : Decoder C} {p : Pos}, Stand o g loops d p →
      session cs d = Spec.Descent.reading o g loops cs d.currentFrame p := by
  induction cs with
  | nil => intro d p h; rfl
  | cons c cs ih =>
    intro d p h
    unfold session Spec.Descent.reading
    cases c with
    | info =>
      have hadv := advance_run hS h
      simp only [see]
      cases hx : Spec.Descent.advance o g p with
      | error e =>
        rw [hx] at hadv
        replace hadv : d.nextFrameInfo.2 = .err e := hadv
        generalize d.nextFrameInfo = y at *
        obtain ⟨d', out⟩ := y
        simp only at *
        subst hadv
        rfl
      | ok x =>
        cases x with
        | none =>
          rw [hx] at hadv
          obtain ⟨h1, h2, h3⟩ := hadv
          generalize d.nextFrameInfo = y at *
          obtain ⟨d', out⟩ := y
          simp only at *
          subst h1
          simp only [ih h3, h2]
          rw [stand_view h3, h2]
        | some x =>
          obtain ⟨n, i, len, l⟩ := x
          rw [hx] at hadv
          obtain ⟨h1, h2, _, h3⟩ := hadv
          generalize d.nextFrameInfo = y at *
          obtain ⟨d', out⟩ := y
          simp only at *
          subst h1
          simp only [ih h3, h2]
          rw [stand_view h3, h2]
    | read =>
      have hrd := read_run hS h
      simp only [see]
      cases hx : Spec.Descent.advance o g p with
      | error e =>
        rw [hx] at hrd
        replace hrd : d.readNextFrame.2 = .err e := hrd
        generalize d.readNextFrame = y at *
        obtain ⟨d', out⟩ := y
        simp only at *
        subst hrd
        rfl
      | ok x =>
        cases x with
        | none =>
          rw [hx] at hrd
          obtain ⟨h1, h2, h3⟩ := hrd
          generalize d.readNextFrame = y at *
          obtain ⟨d', out⟩ := y
          simp only at *
          subst h1
          simp only [ih h3, h2]
          rw [stand_view h3, h2]
        | some x =>
          obtain ⟨n, i, len, l⟩ := x
          rw [hx] at hrd
          unfold ReadOn at hrd
          simp only at hrd ⊢
          cases hp : Spec.Descent.payload o.memoryLimit 1 len l with
          | error e =>
            rw [hp] at hrd
            simp only at hrd
            generalize d.readNextFrame = y at *
            obtain ⟨d', out⟩ := y
            simp only at *
            subst hrd
            rfl
          | ok y =>
            obtain ⟨x, l'⟩ := y
            rw [hp] at hrd
            simp only at hrd
            obtain ⟨h1, h2, h3⟩ := hrd
            generalize d.readNextFrame = y at *
            obtain ⟨d', out⟩ := y
            simp only at *
            subst h1
            simp only [ih h3, h2]
            rw [stand_view h3, h2]

/-- A whole session. -/
theorem gif_run (hS : C.Safe) (o : DecodeOptions) (hsk : o.skipFrameDecoding = true) {r : Reader} (hr : r.Reliable)
    (cs : List Call) : sessionFrom C o r cs = Spec.Descent.gif o r.bytes cs := by
  obtain ⟨h1, h2⟩ := SD.screen_run (C := C) o r.bytes
  have failed : ∀ e, SD.Stops (SD.withOptions C o) r.bytes e → sessionFrom C o r cs = [.failed e] := by
    intro e h
    obtain ⟨evs, x, hu, hx⟩ := SD.stops_upto (P := isHeaderEnd) (fun _ h _ => h) h
    have := init_fails hS o hr hu hx
    unfold sessionFrom
    generalize readInfo C o r = y at *
    obtain ⟨d, out⟩ := y
    simp only at *
    subst this
    rfl
  unfold Spec.Descent.gif
  cases hx : Spec.Descent.screen r.bytes with
  | error e => exact failed e (h1 e hx)
  | ok x =>
    obtain ⟨g, l⟩ := x
    obtain ⟨hok, v, cap, hg⟩ := h2 g l hx
    simp only
    cases l with
    | nil =>
      exact failed _ (SD.stops_goes hg (SD.calm_background _) (SD.stops_nil _))
    | cons t l =>
      have hfirst : SD.Goes { SD.withOptions C o with
            state := .globalPalette 0, version := v, width := g.width, height := g.height
            gct := g.table.getD [], gctCap := cap } (t :: l) [.globalPalette (g.table.getD [])]
          { SD.withOptions C o with
            state := .blockStart t, version := v, width := g.width, height := g.height, gct := [], gctCap := 0 } l :=
        .event (n := 1) rfl (SD.not_quiet (by simp) (by simp)) (.refl _ _)
      have hgo := SD.goes_trans hg hfirst
      have hcalm : SD.Calm ([.backgroundColor g.background] ++ [.globalPalette (g.table.getD [])]) := by
        refine SD.calm_append (SD.calm_background _) ?_
        intro ev hev
        simp only [List.mem_singleton] at hev
        subst hev
        exact ⟨rfl, rfl, by simp⟩
      obtain ⟨k1, k2⟩ := SD.lead_run (C := C) (o := o) (g := g) ((t :: l).length + 1) true (.finite 0) .blank (t :: l) l
        { SD.withOptions C o with
            state := .blockStart t, version := v, width := g.width, height := g.height, gct := [], gctCap := 0 }
        ⟨⟨rfl, hsk, rfl, rfl, rfl, rfl, rfl, rfl⟩, rfl, rfl⟩ rfl (.first t l rfl) (by omega)
      cases hy : Spec.Descent.lead o ((t :: l).length + 1) true (.finite 0) .blank (t :: l) with
      | error e => exact failed e (SD.stops_goes hgo hcalm (k1 e hy))
      | ok y =>
        obtain ⟨loops, n, l'⟩ := y
        obtain ⟨evs, s', rest', j1, j2, j3, j4, j5⟩ := k2 loops n l' hy
        have hu := SD.goes_upto hgo (P := isHeaderEnd) (fun ev he => ⟨(hcalm ev he).1, (hcalm ev he).2.2⟩) j1
        obtain ⟨rd, e1, e2, e3, e4, e5⟩ := init_eq hS o hr hu
        have hinv := (inv_readInfo hS o r).1
        have hold : ({ ([Decoded.backgroundColor g.background] ++ [Decoded.globalPalette (g.table.getD [])] ++ evs).foldl onEvent
              (withNoInit C o r) with rd := rd } : Decoder C) =
            { withNoInit C o r with
              rd := rd, bgColor := some g.background, repetition := Spec.loopsOf loops
              conv := (Converter.new o.colorOutput o.memoryLimit).setGlobalPalette (g.table.getD []) } := by
          rw [List.append_assoc, List.cons_append, List.nil_append, List.foldl_cons, List.cons_append, List.nil_append,
            List.foldl_cons, j5 _ rfl]
          rfl
        replace e1 := e1.trans (congrArg (fun d => (checkBg d, Outcome.ok ())) hold)
        have hpal : ((Converter.new o.colorOutput o.memoryLimit).setGlobalPalette (g.table.getD [])).globalPalette = g.table := by
          cases ht : g.table with
          | none => rfl
          | some t =>
            have := hok.2.2.1 t ht
            have hp : 0 < 2 ^ (g.size + 1) := Nat.pow_pos (by omega)
            simp only [Converter.setGlobalPalette, Option.getD_some]
            rw [if_neg]
            intro h
            rw [List.isEmpty_iff] at h
            subst h
            simp at this
            omega
        have hres : (readInfo C o r).1 =
            { withNoInit C o r with
              rd := rd, bgColor := g.backgroundColour, repetition := Spec.loopsOf loops
              conv := (Converter.new o.colorOutput o.memoryLimit).setGlobalPalette (g.table.getD []) } := by
          rw [e1]
          simp only [checkBg, hpal, Spec.File.backgroundColour]
          cases g.table with
          | none => rfl
          | some t =>
            simp only [Option.getD_some]
            by_cases hlt : g.background.toNat < t.length / 3
            · rw [if_pos hlt, if_neg (by omega)]
            · rw [if_neg hlt, if_pos (by omega)]
        have hb := j2.between
        have hview : (readInfo C o r).1.view = { g.view Frame.default with repetition := Spec.loopsOf loops } := by
          rw [hres]
          simp only [view, width, height, globalPalette, hpal, Spec.File.view, e2]
          rw [hb.width, hb.height]
          rfl
        have hcf : (readInfo C o r).1.currentFrame = Frame.default := by rw [hres]; rfl
        have hrd : (readInfo C o r).1.rd = rd := by rw [hres]
        have hstand : Stand o g loops (readInfo C o r).1 (.block n l') := by
          refine .block n l' hinv ?_ ?_ ?_ ?_ ?_ ?_
          · rw [hrd]; exact e5
          · rw [hrd]; exact e4
          · rw [hrd, e2]; exact j2
          · rw [hrd, e2]; exact j3
          · rw [hrd, e2, e3]; exact j4
          · rw [hcf]; exact hview
        have hok' : (readInfo C o r).2 = .ok () := by rw [e1]
        have hsess := reading_run hS cs hstand
        unfold sessionFrom
        rw [hcf] at hsess
        generalize readInfo C o r = y at *
        obtain ⟨d, out⟩ := y
        simp only at *
        subst hok'
        simp only [hview, hsess]

end Decoder

end Gif
