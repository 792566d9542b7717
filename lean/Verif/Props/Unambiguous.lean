import Verif.Spec.AsWritten
import Verif.Lemmas.Unambiguous
import Verif.Props.EncoderFile
import Verif.Props.RoundTripApi
/-!
C91: different animations give different files.
-/

namespace Gif

open Spec Encoder

namespace Spec.Unambiguous

theorem le16_number (n : UInt16) :
    UInt16.ofNat ((UInt8.ofNat (n.toNat % 256)).toNat + 256 * (UInt8.ofNat (n.toNat / 256)).toNat) = n := by
  apply UInt16.toNat_inj.mp
  have := n.toNat_lt
  simp only [UInt16.toNat_ofNat', UInt8.toNat_ofNat']
  omega

/-- An extension with the label and the size of a control extension is one. -/
def settle : Blk → Blk
  | .ext label subs =>
    match label == 0xF9, subs with
    | true, [[a, b, c, d]] => .control ⟨a, UInt16.ofNat (b.toNat + 256 * c.toNat), d⟩
    | _, _ => .ext label subs
  | b => b

theorem settle_plainly (b : Blk) : settle (plainly b) = settle b := by
  cases b with
  | control c =>
    show settle (.ext 0xF9 [[c.packed, _, _, c.trns]]) = .control c
    unfold settle
    simp only [beq_self_eq_true, le16_number]
  | _ => rfl

theorem settle_ext (label : UInt8) (subs : List (List UInt8)) :
    settle (.ext label subs) = .ext label subs ∨ label = 0xF9 ∧ ∃ c, settle (.ext label subs) = .control c := by
  unfold settle
  simp only
  split
  · rename_i h
    exact .inr ⟨by simpa using h, _, rfl⟩
  · exact .inl rfl

theorem loopCount_settle : ∀ (bs : List Blk) (l : Loops), loopCount l (bs.map settle) = loopCount l bs
  | [], _ => rfl
  | .control c :: bs, l => loopCount_settle bs l
  | .image i :: bs, l => rfl
  | .unknown _ _ :: bs, l => rfl
  | .ext label subs :: bs, l => by
    rw [List.map_cons]
    rcases settle_ext label subs with h | ⟨rfl, c, h⟩
    · rw [h, loopCount, loopCount, loopCount_settle bs]
    · rw [h, loopCount, loopCount, loopCount_settle bs]
      rfl

theorem frames_settle (C : Codec) (g : Bool) : ∀ (ops : List EncOp) (gr : Graphic),
    Spec.frames gr ((ops.flatMap (opBlks C g)).map settle) = (written ops (ops.map (opResult g))).map (frameOf C)
  | [], _ => rfl
  | op :: ops, gr => by
    rw [List.flatMap_cons, List.map_cons, written, List.map_append]
    by_cases h : isFrame op = true ∧ opResult g op = .ok ()
    · rw [if_pos h, opBlks_frame C g op h.1 h.2]
      simp only [List.map_cons, List.map_nil, settle, List.cons_append, List.nil_append, Spec.frames, frames_settle C g ops]
      rfl
    · rw [if_neg h]
      rcases opBlks_other C g op h with ⟨l, x, hx⟩ | ⟨c, hx⟩ | hx
      · rw [hx]
        simp only [List.map_cons, List.map_nil, List.cons_append, List.nil_append]
        rcases settle_ext l x with h | ⟨_, c, h⟩
        · rw [h]; exact frames_settle C g ops _
        · rw [h]; exact frames_settle C g ops _
      · rw [hx]; exact frames_settle C g ops _
      · rw [hx]; exact frames_settle C g ops _

/-- What the encoder writes can be told from the bytes. -/
theorem opBlks_clear (C : Codec) (g : Bool) (op : EncOp) : ∀ b ∈ opBlks C g op, Clear b := by
  have hrep : ∀ r, ∀ b ∈ repeatBlks r, Clear b := by
    intro r b hb
    unfold repeatBlks at hb
    split at hb
    · cases hb
    · rw [List.mem_singleton] at hb
      subst hb
      intro x hx
      simp only [repeatSubs, List.mem_cons, List.not_mem_nil, or_false] at hx
      rcases hx with rfl | rfl <;> simp [netscapeName]
  by_cases hfr : isFrame op = true ∧ opResult g op = .ok ()
  · intro b hb
    have hpe := paletteError_of_ok (C := C) hfr.1 hfr.2
    rw [opBlks_frame C g op hfr.1 hfr.2] at hb
    simp only [List.mem_cons, List.not_mem_nil, or_false] at hb
    rcases hb with rfl | rfl
    · trivial
    · exact imageOf_ok _ _ (paletteError_none hpe)
  · intro b hb
    cases op with
    | setRepeat r => exact hrep r b hb
    | extension x =>
      cases x with
      | control fl d t =>
        simp only [opBlks, List.mem_singleton] at hb
        subst hb
        trivial
      | repetitions r => exact hrep r b hb
    | rawExtension l d =>
      simp only [opBlks, List.mem_singleton] at hb
      subst hb
      exact flatMap_subsOf_ok d
    | frame f =>
      rcases opBlks_other C g _ hfr with ⟨l, x, hx⟩ | ⟨c, hx⟩ | hx
      · simp only [opBlks] at hx
        split at hx
        · cases hx
        · split at hx <;> cases hx
      · rw [hx, List.mem_singleton] at hb
        subst hb
        trivial
      · rw [hx] at hb; cases hb
    | preEncoded f =>
      rcases opBlks_other C g _ hfr with ⟨l, x, hx⟩ | ⟨c, hx⟩ | hx
      · simp only [opBlks] at hx
        split at hx
        · cases hx
        · split at hx <;> cases hx
      · rw [hx, List.mem_singleton] at hb
        subst hb
        trivial
      · rw [hx] at hb; cases hb

theorem frame_asWritten {C : Codec} {g : Bool} {op : EncOp} (hp : paletteError g (compressed C op) = none) :
    { rawFrame (frameOf C op) with ownedCap := none } = asWritten C op := by
  have hd : (imageOf (compressed C op) (compressed C op).buffer).data =
      (compressed C op).buffer.headD 2 :: (compressed C op).buffer.tail := by
    unfold imageOf Image.data
    simp only [subsOf_flatten]
  unfold rawFrame headFrame frameOf asWritten
  simp only [hd, ctrl_graphic]
  simp only [imageOf, palette_map hp]

end Spec.Unambiguous

open Spec.Unambiguous

/-- The grammar of `GifSyntax.lean` is unambiguous, and no file is the beginning of another. -/
theorem format_unambiguous {g g' : File} (hg : g.Legal) (hg' : g'.Legal) {x y : List UInt8} (h : g.render ++ x = g'.render ++ y) :
    g = g' ∧ x = y := by
  have hcl : ∀ b : Blk, b.Legal → Clear b := by
    intro b hb
    cases b with
    | control _ => trivial
    | ext _ _ => exact hb.2
    | image _ => exact hb
    | unknown _ _ => exact hb
  have hset : ∀ b : Blk, b.Legal → settle b = b := by
    intro b hb
    cases b with
    | ext l s =>
      rcases settle_ext l s with h | ⟨rfl, _⟩
      · exact h
      · rcases hb.1 with h | h | h <;> exact absurd h (by decide)
    | _ => rfl
  unfold File.render at h
  simp only [List.append_assoc] at h
  obtain ⟨h1, h2⟩ := head_inj ⟨hg.1, hg.2.1, hg.2.2.1⟩ ⟨hg'.1, hg'.2.1, hg'.2.2.1⟩ h
  obtain ⟨h3, h4⟩ := blks_inj _ _ x y (fun b hb => hcl b (hg.2.2.2 b hb)) (fun b hb => hcl b (hg'.2.2.2 b hb)) h2
  have h5 := congrArg (List.map settle) h3
  simp only [List.map_map] at h5
  have e : ∀ bs : List Blk, (∀ b ∈ bs, b.Legal) → bs.map (settle ∘ plainly) = bs := by
    intro bs hb
    conv => rhs; rw [← List.map_id bs]
    exact List.map_congr_left fun b h => by rw [Function.comp, settle_plainly, hset b (hb b h), id]
  rw [e _ hg.2.2.2, e _ hg'.2.2.2] at h5
  refine ⟨?_, h4⟩
  cases g
  cases g'
  simp only [File.mk.injEq, and_true] at h1 h5 ⊢
  exact ⟨h1.1, h1.2.1, h1.2.2.1, h1.2.2.2.1, h1.2.2.2.2.1, h1.2.2.2.2.2.1, h1.2.2.2.2.2.2.1, h1.2.2.2.2.2.2.2, h5⟩

variable {C : Codec}

/-- **C91**: two encoders whose files are the same, or begin in the same way, were told the same: the size of the screen, the global
palette, the number of repetitions, and one after the other the frames. -/
theorem files_differ {np np' : Bool} {w h w' h' : UInt16} {pal pal' : List UInt8} {ops ops' : List EncOp} {file file' : List UInt8}
    {rs rs' : List (EOut Unit)} (henc : encodeFile C np w h pal ops = (some file, rs))
    (henc' : encodeFile C np' w' h' pal' ops' = (some file', rs')) (hp : .panic ∉ rs) (hp' : .panic ∉ rs') {x y : List UInt8}
    (heq : file ++ x = file' ++ y) :
    w = w' ∧ h = h' ∧ padded pal = padded pal' ∧ repetitions ops rs (.finite 0) = repetitions ops' rs' (.finite 0) ∧
      (written ops rs).map (asWritten C) = (written ops' rs').map (asWritten C) ∧ file = file' := by
  obtain ⟨hpal, hsane⟩ := encodeFile_cases np w h pal ops file rs henc hp
  obtain ⟨hpal', hsane'⟩ := encodeFile_cases np' w' h' pal' ops' file' rs' henc' hp'
  rw [encodeFile_eq C np w h pal ops hpal hsane] at henc
  rw [encodeFile_eq C np' w' h' pal' ops' hpal' hsane'] at henc'
  simp only [Prod.mk.injEq, Option.some.injEq] at henc henc'
  obtain ⟨rfl, rfl⟩ := henc
  obtain ⟨rfl, rfl⟩ := henc'
  have hall : ∀ (p : List UInt8), p.length / 3 ≤ 256 → 2 * (flagSize (p.length / 3)).toNat < 16 ∧ (flagSize (p.length / 3)).toNat < 8 ∧
      ∀ t, some (padTable p) = some t → t.length = 3 * 2 ^ ((flagSize (p.length / 3)).toNat + 1) := by
    intro p hp
    have := (flagSize_spec _ hp).1
    refine ⟨by omega, this, fun t ht => ?_⟩
    cases ht
    exact padTable_length p hp
  have hsame := heq
  unfold File.render at heq
  simp only [List.append_assoc] at heq
  obtain ⟨h1, h2⟩ := head_inj (hall pal hpal) (hall pal' hpal') heq
  simp only [fileOf, File.mk.injEq, true_and, and_true, Option.some.injEq] at h1
  obtain ⟨e1, e2, _, _, e3⟩ := h1
  have hclear : ∀ (g : Bool) (ops : List EncOp), ∀ b ∈ ops.flatMap (opBlks C g), Clear b := by
    intro g ops b hb
    obtain ⟨op, _, hb⟩ := List.mem_flatMap.1 hb
    exact opBlks_clear C g op b hb
  obtain ⟨h3, h4⟩ := blks_inj _ _ x y (hclear _ ops) (hclear _ ops') h2
  have h5 := congrArg (List.map settle) h3
  simp only [List.map_map] at h5
  have e : ∀ bs : List Blk, bs.map (settle ∘ plainly) = bs.map settle :=
    fun bs => List.map_congr_left fun b _ => settle_plainly b
  rw [e, e] at h5
  refine ⟨e1, e2, ?_, ?_, ?_, ?_⟩
  · rw [← padTable_eq pal hpal, ← padTable_eq pal' hpal', e3]
  · have a := loops_ops C (3 ≤ pal.length) ops (.finite 0)
    have b := loops_ops C (3 ≤ pal'.length) ops' (.finite 0)
    rw [← loopCount_settle] at a b
    rw [show (.finite 0 : Repeat) = loopsOf (.finite 0) from rfl, ← a, ← b, h5]
  · have a := frames_settle C (3 ≤ pal.length) ops .default
    have b := frames_settle C (3 ≤ pal'.length) ops' .default
    rw [h5, b] at a
    have key : ∀ (g : Bool) (ops : List EncOp), (written ops (ops.map (opResult g))).map (asWritten C) =
        ((written ops (ops.map (opResult g))).map (frameOf C)).map fun x => { rawFrame x with ownedCap := none } := by
      intro g ops
      rw [List.map_map]
      refine List.map_congr_left fun op hop => ?_
      obtain ⟨_, m2, m3⟩ := written_mem _ ops op hop
      exact (frame_asWritten (paletteError_of_ok m2 m3)).symm
    rw [key, key, a]
  · subst h4
    exact List.append_cancel_right hsame

/-- **C91** for frames with pixels: the file tells the frames from all others. -/
theorem animations_differ (K : C.Contract) {np np' : Bool} {w h w' h' : UInt16} {pal pal' : List UInt8} {fs fs' : List Frame}
    {file : List UInt8} (henc : encodeFile C np w h pal (fs.map .frame) = (some file, fs.map fun _ => .ok ()))
    (henc' : encodeFile C np' w' h' pal' (fs'.map .frame) = (some file, fs'.map fun _ => .ok ())) :
    w = w' ∧ h = h' ∧ padded pal = padded pal' ∧ fs.map essence = fs'.map essence := by
  have hnp : ∀ l : List Frame, (.panic : EOut Unit) ∉ l.map fun _ => .ok () := by
    intro l h
    obtain ⟨_, _, h⟩ := List.mem_map.1 h
    cases h
  obtain ⟨h1, h2, h3, h0, h4, _⟩ := files_differ (x := []) (y := []) henc henc' (hnp _) (hnp _) rfl
  refine ⟨h1, h2, h3, ?_⟩
  rw [written_frames, written_frames] at h4
  have key : ∀ f f' : Frame, asWritten C (.frame f) = asWritten C (.frame f') → essence f = essence f' := by
    intro f f' h
    obtain ⟨m, data, hm, _, _, _, hy⟩ := encode_ne K f
    obtain ⟨m', data', hm', _, _, _, hy'⟩ := encode_ne K f'
    have hb := congrArg Frame.buffer h
    simp only [asWritten, compressed, hm, hm', List.headD_cons, List.tail_cons, List.cons.injEq] at hb
    obtain ⟨rfl, rfl⟩ := hb
    have hpx := (K.det hy hy').1
    simp only [asWritten, compressed, Frame.makeLzwPreEncoded, Frame.mk.injEq] at h
    simp only [essence, Frame.mk.injEq]
    exact ⟨h.1, h.2.1, h.2.2.1, h.2.2.2.1, h.2.2.2.2.1, h.2.2.2.2.2.1, h.2.2.2.2.2.2.1, h.2.2.2.2.2.2.2.1, h.2.2.2.2.2.2.2.2.1,
      h.2.2.2.2.2.2.2.2.2.1, hpx, trivial⟩
  clear henc henc' h0 h1 h2 h3
  induction fs generalizing fs' with
  | nil =>
    cases fs' with
    | nil => rfl
    | cons _ _ => cases h4
  | cons f fs ih =>
    cases fs' with
    | nil => cases h4
    | cons f' fs' =>
      simp only [List.map_cons, List.cons.injEq] at h4 ⊢
      exact ⟨key _ _ h4.1, ih h4.2⟩

end Gif
