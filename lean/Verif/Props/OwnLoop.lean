import Verif.Props.Loop
import Verif.Props.RoundTripApi
/-!
# C99: a loop around `StreamingDecoder::update` reads what the encoder wrote
-/

namespace Gif.Loop

open Spec SD Draw Twofold Gif.Props Encoder

variable {C : Codec}

/-! ## The end of a file -/

theorem eval_trailer (hS : C.Safe) {m : Bool} {s s' : SD C} {acc a l rest : List UInt8} {ev : Decoded} {r : Res C} (h : Eval m s acc l r)
    (hr : r = .event s' a ev rest) (hw : WF s) (hs : s.state ≠ .trailer) (ht : s'.state = .trailer) : ev = .blockStart .trailer := by
  induction h with
  | nil => cases hr
  | quiet h hq _ ih =>
    have htr := tr_of_nextState hw.ibuf h
    refine ih hr (tr_wf hS hw htr).1 fun hx => ?_
    have := (tr_trailer htr hs).1 hx
    subst this
    cases hq
  | event _ h hq =>
    cases hr
    exact (tr_trailer (tr_of_nextState hw.ibuf h) hs).1 ht
  | err => cases hr

theorem leaps_trailer (hS : C.Safe) {a a' : SD C} {l l' : List UInt8} {m m' : UInt8} {is : List Item} (h : Leaps a l m is a' l' m')
    (hw : WF a) (hk : a.skipFrameDecoding = true) (hs : a.state ≠ .trailer) (ht : a'.state = .trailer) :
    ∃ i ∈ is, i.1 = .blockStart .trailer := by
  induction h with
  | nil => exact absurd ht hs
  | @cons a a1 a' l l1 l' m m1 m' i is h _ ih =>
    obtain ⟨h1, h2, -⟩ := leap_takes hS h hw hk
    by_cases hx : a1.state = .trailer
    · refine ⟨i, List.mem_cons_self, ?_⟩
      cases h with
      | out _ _ h => exact eval_trailer hS h rfl hw hs hx
      | start _ _ h => exact eval_trailer hS h rfl hw hs hx
      | data => cases hx
    · obtain ⟨j, hj, he⟩ := ih h1 h2 hx ht
      exact ⟨j, List.mem_cons_of_mem _ hj, he⟩

theorem gist_told : ∀ (cs : List UpdateCall) (acc : List UInt8) {ev : Decoded} {d : List UInt8}, (ev, d) ∈ gist acc cs →
    ∃ c ∈ cs, c.event = some ev := by
  intro cs
  induction cs with
  | nil => intro acc ev d h; cases h
  | cons c cs ih =>
    intro acc ev d h
    rw [gist] at h
    cases hc : c.event with
    | none =>
      rw [hc] at h
      obtain ⟨c', h1, h2⟩ := ih _ h
      exact ⟨c', List.mem_cons_of_mem _ h1, h2⟩
    | some ev' =>
      rw [hc] at h
      simp only at h
      split at h
      · obtain ⟨c', h1, h2⟩ := ih _ h
        exact ⟨c', List.mem_cons_of_mem _ h1, h2⟩
      · rcases List.mem_cons.1 h with h | h
        · cases h
          exact ⟨c, List.mem_cons_self, hc⟩
        · obtain ⟨c', h1, h2⟩ := ih _ h
          exact ⟨c', List.mem_cons_of_mem _ h1, h2⟩

theorem each_mem {α β : Type} {R : α → β → Prop} {xs : List α} {ys : List β} (h : Each R xs ys) {x : α} (hx : x ∈ xs) :
    ∃ y ∈ ys, R x y := by
  induction h with
  | nil => cases hx
  | cons h _ ih =>
    rcases List.mem_cons.1 hx with rfl | hx
    · exact ⟨_, List.mem_cons_self, h⟩
    · obtain ⟨y, h1, h2⟩ := ih hx
      exact ⟨y, List.mem_cons_of_mem _ h1, h2⟩

/-- A loop that was told of the trailer has not failed. -/
theorem told_no_error (hS : C.Safe) {p : Driver} (hp : p.Fit) {o : DecodeOptions} {bytes l : List UInt8} {cs : List UpdateCall} {s : SD C}
    {e : Option DecodingError} (h : Drive C p o bytes cs s l) (he : DriveEnd p cs s l e)
    (ht : ∃ c ∈ cs, c.event = some (.blockStart .trailer)) : e = none := by
  cases he with
  | trailer => rfl
  | all => rfl
  | fails hne hu =>
    obtain ⟨h1, -⟩ := drive_drawing hp h
    obtain ⟨hw, -, h3, -⟩ := history_inv hS (drawing_calls h1)
    cases hx : l.take (p cs).1 with
    | nil => exact absurd hx (take_ne hne (hp cs).1)
    | cons b bs =>
      rw [hx] at hu
      rcases SD.update_any hS (p cs).2 s b bs hw with ⟨-, h⟩ | ⟨h, -⟩ | ⟨h, -⟩
      · rw [h] at hu; cases hu
      · rw [h] at hu; cases hu
      · exact absurd (h3.2 ht) h

/-- A loop that has got all the images of a file that ends after them has been told of the trailer. -/
theorem drive_complete (K : C.Contract) {p : Driver} (hp : p.Fit) {o : DecodeOptions} {r : Reader} (hr : r.Reliable)
    {cs : List UpdateCall} {s : SD C} {l : List UInt8} {e : Option DecodingError} (h : Drive C p o r.bytes cs s l)
    (he : DriveEnd p cs s l e) {n k : Nat} {v : View} (hf : (Decoder.rawFilm C o r k)[n + 1]? = some (.frame none v))
    (hn : n ≤ (gathered (gist [] cs)).length) :
    (∃ c ∈ cs, c.event = some (.blockStart .trailer)) ∧ e = none ∧ (gathered (gist [] cs)).length = n := by
  obtain ⟨h1, h2, -⟩ := drive_drawing hp h
  have hle := no_more_images K hr h1 h2 hf
  suffices ht : ∃ c ∈ cs, c.event = some (.blockStart .trailer) from
    ⟨ht, told_no_error K.safe hp h he ht, by omega⟩
  obtain ⟨hs, hg, hl⟩ := since_start K o r.bytes
  have hs' : Since K (LzwReader.new C o.checkForEndCode) (SD.withOptions C { o with skipFrameDecoding := true }) r.bytes 0 none
      (SD.withOptions C o) r.bytes [] := .out rfl rfl fun _ h => h
  obtain ⟨P, a, l0, m, acc, p1, p2, p3, p4, p5, p6, p7, -⟩ := drawing_leaps K h1 (SD.wf_withOptions o) hl hg hs' h2
  obtain ⟨D, b, l1, m1, d1, d2, d3⟩ := rawFilm_none K.safe o hr hf
  rw [← each_length (gathered_shows p2)] at hn
  have hP : ∃ l2 m2, Leaps (SD.withOptions C { o with skipFrameDecoding := true }) r.bytes 0 P b l2 m2 := by
    rcases leaps_order p1 d1 with ⟨t, rfl, ht⟩ | ⟨t, rfl, ht⟩
    · cases ht with
      | nil => exact ⟨_, _, p1⟩
      | @cons _ _ _ _ _ _ _ _ _ x xs hx hxs =>
        exfalso
        have hend : x.1 ≠ .dataEnd := by
          intro hx1
          rw [ends_append, List.length_append] at d2
          unfold ends at d2 hn
          rw [List.filter_cons_of_pos (by simpa using hx1), List.length_cons] at d2
          omega
        have stop : ∀ {j}, Shows K o x j → False := fun hj => finished_stops K (end_finished hp he) p4 p5 p6 p3 p7 hx hj
        cases hx with
        | out _ _ _ hev => exact stop (.same _ _ (.inr ⟨hev, hend⟩))
        | start _ _ _ =>
          cases hk : o.skipFrameDecoding with
          | true => exact stop (.same _ _ (.inl hk))
          | false => exact stop (.start _ _ hk)
        | data => exact hend rfl
    · have := trailer_end ht d3
      subst this
      rw [List.append_nil]
      exact ⟨_, _, d1⟩
  obtain ⟨l2, m2, hP⟩ := hP
  obtain ⟨i, hi, hev⟩ := leaps_trailer K.safe hP (SD.wf_withOptions _) rfl (by intro h; cases h) d3
  obtain ⟨⟨ev, d⟩, hy, hsh⟩ := each_mem p2 hi
  have : ev = .blockStart .trailer := by
    cases hsh with
    | same => exact hev
    | start => cases hev
    | data => cases hev
  subst this
  exact gist_told cs [] hy

/-! ## Files of the encoder -/

/-- The data of an image: what the encoder wrote. -/
def contents {C : Codec} (K : C.Contract) (o : DecodeOptions) (op : EncOp) (d : List UInt8) : Prop :=
  match op, o.skipFrameDecoding with
  | op, true => (compressed C op).buffer.tail = d
  | .frame f, false => f.buffer = d
  | op, false => Decodes K o (compressed C op) d

theorem frame_decodes (K : C.Contract) (o : DecodeOptions) (f : Frame) : Decodes K o (f.makeLzwPreEncoded C) f.buffer := by
  obtain ⟨m, data, h1, -, -, -, hy⟩ := encode_ne K f
  exact ⟨m, data, .ended, h1, hy, (by intro h; cases h), fun _ => rfl⟩

theorem decodes_raw {K : C.Contract} {o : DecodeOptions} {f : Frame} {d : List UInt8} (h : Decodes K o f d) : Decodes K o (readRaw f) d := h

theorem contents_decodes {K : C.Contract} {o : DecodeOptions} (ho : o.skipFrameDecoding = false) {op : EncOp} {d : List UInt8}
    (h : contents K o op d) : Decodes K o (compressed C op) d := by
  unfold contents at h
  rw [ho] at h
  cases op with
  | frame f =>
    simp only at h
    rw [← h]
    exact frame_decodes K o f
  | _ => exact h

theorem projection_get {w h : UInt16} {pal : List UInt8} {rep : Repeat} {fs : List Frame} {k i : Nat} {f : Frame} (hi : fs[i]? = some f) :
    (projection w h pal rep fs k)[i + 1]? = some (.frame (some f) (screen w h pal rep f)) := by
  have : i < fs.length := (List.getElem?_eq_some_iff.1 hi).1
  unfold projection
  rw [List.cons_append, List.getElem?_cons_succ, List.getElem?_append_left (by rw [List.length_map]; exact this), List.getElem?_map, hi]
  rfl

theorem projection_end {w h : UInt16} {pal : List UInt8} {rep : Repeat} {fs : List Frame} :
    (projection w h pal rep fs 1)[fs.length + 1]? = some (.frame none (screen w h pal rep (fs.getLast?.getD Frame.default))) := by
  unfold projection
  rw [List.cons_append, List.getElem?_cons_succ, List.getElem?_append_right (by rw [List.length_map]; exact Nat.le_refl _),
    List.length_map, Nat.sub_self]
  rfl

/-- **C99**: a loop around `update` gets what was written, and finds the trailer. -/
theorem own_loop (K : C.Contract) {o : DecodeOptions} (np : Bool) {w h : UInt16} {pal : List UInt8}
    (hpal : pal.length / 3 ≤ 256) {ops : List EncOp} (hsane : ∀ op ∈ ops, op.Sane) (hpl : ∀ op ∈ ops, Plain o op)
    {file : List UInt8} {rs : List (EOut Unit)} (henc : encodeFile C np w h pal ops = (some file, rs))
    (had : ∀ op ∈ written ops rs, Admissible C o w h op) (hld : ∀ op ∈ written ops rs, Held C o op)
    (hne : (encodeFile C np w h pal []).1 ≠ some file) {outs : List (List UInt8)}
    (hout : Each (contents K o) (written ops rs) outs) (junk : List UInt8) {p : Driver} (hp : p.Fit) {cs : List UpdateCall} {s : SD C}
    {l : List UInt8} {e : Option DecodingError} (hd : Drive C p o (file ++ junk) cs s l) (he : DriveEnd p cs s l e) :
    gathered (gist [] cs) = outs ∧ (∃ c ∈ cs, c.event = some (.blockStart .trailer)) ∧ e = none := by
  have hr : (Decoder.atOnce (file ++ junk)).Reliable := Decoder.atOnce_reliable _
  have hb : (Decoder.atOnce (file ++ junk)).bytes = file ++ junk := by simp [Decoder.atOnce, Reader.bytes]
  have hraw := roundtrip_raw K np hpal hsane hpl henc had hld hne hr hb 1
  rw [← hb] at hd
  generalize Decoder.atOnce (file ++ junk) = r at *
  generalize repetitions ops rs (.finite 0) = rep at *
  generalize written ops rs = ops at *
  have hget : ∀ {i : Nat} {op : EncOp}, ops[i]? = some op → ∃ v,
      (Decoder.rawFilm C o r (ops.length + 1))[i + 1]? = some (.frame (some (readRaw (compressed C op))) v) := by
    intro i op hi
    rw [hraw]
    exact ⟨_, projection_get (by rw [List.getElem?_map, hi]; rfl)⟩
  have hend : ∃ v, (Decoder.rawFilm C o r (ops.length + 1))[ops.length + 1]? = some (.frame none v) := by
    have := projection_end (w := w) (h := h) (pal := pal) (rep := rep) (fs := ops.map fun op => readRaw (compressed C op))
    rw [List.length_map] at this
    rw [hraw]
    exact ⟨_, this⟩
  have hall : ∀ {i : Nat} {op : EncOp} {d : List UInt8}, ops[i]? = some op → contents K o op d → (gathered (gist [] cs))[i]? = some d := by
    intro i op d hi hc
    obtain ⟨v, hv⟩ := hget hi
    cases hk : o.skipFrameDecoding with
    | true =>
      have ho : { o with skipFrameDecoding := true } = o := by cases o; simp only at hk; subst hk; rfl
      have hv' := hv
      unfold Decoder.rawFilm at hv'
      rw [ho] at hv'
      have := drive_finds K hp hk hr hd he hv'
      unfold contents at hc
      rw [hk] at hc
      rw [this, ← hc]
      rfl
    | false =>
      refine drive_decodes K hp hk hr hd he (fun j hj => ?_) hv (decodes_raw (contents_decodes hk hc))
      have hlt : j < ops.length := Nat.lt_of_le_of_lt hj (List.getElem?_eq_some_iff.1 hi).1
      obtain ⟨v', hv'⟩ := hget (List.getElem?_eq_getElem hlt)
      obtain ⟨y, -, hy⟩ := each_mem hout (List.getElem_mem hlt)
      exact ⟨_, v', y, hv', decodes_raw (contents_decodes hk hy)⟩
  have hlen := each_length hout
  obtain ⟨v, hv⟩ := hend
  have hle : ops.length ≤ (gathered (gist [] cs)).length := by
    cases hn : ops.length with
    | zero => exact Nat.zero_le _
    | succ n =>
      have hlt : n < ops.length := by omega
      obtain ⟨y, -, hy⟩ := each_mem hout (List.getElem_mem hlt)
      have := hall (List.getElem?_eq_getElem hlt) hy
      exact (List.getElem?_eq_some_iff.1 this).1
  obtain ⟨c1, c2, c3⟩ := drive_complete K hp hr hd he hv hle
  refine ⟨List.ext_getElem? fun i => ?_, c1, c2⟩
  by_cases hi : i < outs.length
  · obtain ⟨op, ho1, ho2⟩ := each_get hout (List.getElem?_eq_getElem hi)
    rw [hall ho1 ho2, List.getElem?_eq_getElem hi]
  · rw [List.getElem?_eq_none (by omega), List.getElem?_eq_none (by omega)]

/-- **C99**, when the program is told of an image: `current_frame_mut` gives the frame that was written, without the data. -/
theorem own_loop_frame (K : C.Contract) {o : DecodeOptions} (np : Bool) {w h : UInt16} {pal : List UInt8}
    (hpal : pal.length / 3 ≤ 256) {ops : List EncOp} (hsane : ∀ op ∈ ops, op.Sane) (hpl : ∀ op ∈ ops, Plain o op)
    {file : List UInt8} {rs : List (EOut Unit)} (henc : encodeFile C np w h pal ops = (some file, rs))
    (had : ∀ op ∈ written ops rs, Admissible C o w h op) (hld : ∀ op ∈ written ops rs, Held C o op)
    (hne : (encodeFile C np w h pal []).1 ≠ some file) (junk : List UInt8) {p : Driver} (hp : p.Fit) {cs : List UpdateCall}
    {c : UpdateCall} {s : SD C} {l : List UInt8} (hd : Drive C p o (file ++ junk) (cs ++ [c]) s l) {t : FrameDataType}
    (hc : c.event = some (.frameMetadata t)) {i : Nat} (hi : announcedImages (gist [] (cs ++ [c])) = i + 1) {op : EncOp}
    (hop : (written ops rs)[i]? = some op) :
    s.current = some (bare (readRaw (compressed C op))) := by
  have hr : (Decoder.atOnce (file ++ junk)).Reliable := Decoder.atOnce_reliable _
  have hb : (Decoder.atOnce (file ++ junk)).bytes = file ++ junk := by simp [Decoder.atOnce, Reader.bytes]
  have hraw := roundtrip_raw K np hpal hsane hpl henc had hld hne hr hb 1
  rw [← hb] at hd
  obtain ⟨h1, h2, -⟩ := drive_drawing hp hd
  exact (same_frame K hr h1 h2 hc hi (by rw [hraw]; exact projection_get (by rw [List.getElem?_map, hop]; rfl))).1

/-- **C99**, for frames that are written with `write_frame`: whatever slices and output buffers a loop around `update` uses, it ends, and
has the pixels of all the frames. -/
theorem own_frames_loop (K : C.Contract) {o : DecodeOptions} (hs : o.skipFrameDecoding = false) (np : Bool) {w h : UInt16}
    {pal : List UInt8} (hpal : pal.length / 3 ≤ 256) {fs : List Frame} (hne : fs ≠ []) (hf : ∀ f ∈ fs, Drawable pal f)
    (h5 : o.memoryLimit.sizeOk 5 = true)
    (hal : o.checkFrameConsistency = true →
      ∀ f ∈ fs, f.left.toNat + f.width.toNat ≤ w.toNat ∧ f.top.toNat + f.height.toNat ≤ h.toNat)
    (hld : ∀ f ∈ fs, o.memoryLimit.sizeOk (f.makeLzwPreEncoded C).buffer.length = true) :
    ∃ file, encodeFile C np w h pal (fs.map .frame) = (some file, fs.map fun _ => .ok ()) ∧
      ∀ (junk : List UInt8) (p : Driver), p.Fit →
        (∃ cs s l, Drive C p o (file ++ junk) cs s l ∧ DriveEnd p cs s l none) ∧
        ∀ {cs : List UpdateCall} {s : SD C} {l : List UInt8} {e : Option DecodingError}, Drive C p o (file ++ junk) cs s l →
          DriveEnd p cs s l e →
          gathered (gist [] cs) = fs.map (·.buffer) ∧ (∃ c ∈ cs, c.event = some (.blockStart .trailer)) ∧ e = none := by
  obtain ⟨file, henc⟩ := encode_drawable C np w h hpal hf
  refine ⟨file, henc, ?_⟩
  intro junk p hp
  have hsane : ∀ op ∈ fs.map EncOp.frame, op.Sane := by
    intro op hop
    obtain ⟨f, hfm, rfl⟩ := List.mem_map.mp hop
    exact (drawable_ok (hf f hfm)).2
  have hpl : ∀ op ∈ fs.map EncOp.frame, Plain o op := by
    intro op hop
    obtain ⟨f, hfm, rfl⟩ := List.mem_map.mp hop
    exact h5
  have hw := written_frames fs
  have had : ∀ op ∈ written (fs.map .frame) (fs.map fun _ => .ok ()), Admissible C o w h op := by
    rw [hw]
    intro op hop
    obtain ⟨f, hfm, rfl⟩ := List.mem_map.mp hop
    exact ⟨fun hc => hal hc f hfm, fun g hg => by cases hg⟩
  have hhd : ∀ op ∈ written (fs.map .frame) (fs.map fun _ => .ok ()), Held C o op := by
    rw [hw]
    intro op hop
    obtain ⟨f, hfm, rfl⟩ := List.mem_map.mp hop
    exact hld f hfm
  have hch := made_changed (C := C) np hpal hsane henc (by rw [hw]; simpa using hne)
  have hout : Each (contents K o) (written (fs.map .frame) (fs.map fun _ => .ok ())) (fs.map (·.buffer)) := by
    rw [hw]
    clear hf hal hld henc hsane hpl hw had hhd hch hne
    induction fs with
    | nil => exact .nil
    | cons f fs ih =>
      refine .cons ?_ ih
      unfold contents
      rw [hs]
  have key : ∀ {cs : List UpdateCall} {s : SD C} {l : List UInt8} {e : Option DecodingError}, Drive C p o (file ++ junk) cs s l →
      DriveEnd p cs s l e →
      gathered (gist [] cs) = fs.map (·.buffer) ∧ (∃ c ∈ cs, c.event = some (.blockStart .trailer)) ∧ e = none :=
    fun hd he => own_loop K np hpal hsane hpl henc had hhd hch hout junk hp hd he
  refine ⟨?_, key⟩
  obtain ⟨cs, s, l, e, h1, h2⟩ := drive_ends K hp o (file ++ junk)
  obtain ⟨-, -, rfl⟩ := key h1 h2
  exact ⟨cs, s, l, h1, h2⟩

end Gif.Loop
