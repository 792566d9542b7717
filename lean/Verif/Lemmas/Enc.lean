import Verif.Lemmas.Writer
import Verif.Lemmas.Bytes
/-!
Encoder calls as lists of `write_all` calls.
-/

namespace Gif.Encoder

/-- On every writer, `res` is what comes out of `e` by making the calls `chunks` and then ending with `r`. -/
structure Does {α : Type} (e : Encoder) (res : Encoder × EOut α) (chunks : List (List UInt8)) (r : EOut α) : Prop where
  run : ∀ s, e.w = some s →
    res.1.w = some (W.bind (runChunks chunks) (fun _ => W.ofOut r) s).1 ∧
    res.2 = (W.bind (runChunks chunks) (fun _ => W.ofOut r) s).2
  palette : res.1.globalPalette = e.globalPalette
  width : res.1.width = e.width
  height : res.1.height = e.height

theorem does_withWriter {α : Type} (e : Encoder) {m : W α} {c : List (List UInt8)} {r : EOut α} (h : Emits m c r) :
    Does e (e.withWriter m) c r := by
  unfold Emits at h
  subst h
  unfold withWriter
  cases hw : e.w with
  | none => exact ⟨by rw [hw]; simp, rfl, rfl, rfl⟩
  | some s =>
    refine ⟨?_, rfl, rfl, rfl⟩
    intro s' hs'
    rw [hw] at hs'
    cases hs'
    exact ⟨rfl, rfl⟩

theorem does_result {α : Type} (e : Encoder) (r : EOut α) : Does e (e, r) [] r :=
  ⟨fun s hs => ⟨hs, rfl⟩, rfl, rfl, rfl⟩

theorem Does.andThen {α β : Type} {e : Encoder} {p : Encoder × EOut α} {k : Encoder → α → Encoder × EOut β}
    {c₁ c₂ : List (List UInt8)} {a : α} {r : EOut β} (h₁ : Does e p c₁ (.ok a))
    (h₂ : ∀ e', e'.globalPalette = e.globalPalette → e'.width = e.width → e'.height = e.height →
      Does e' (k e' a) c₂ r) (hw : e.w ≠ none) :
    Does e (andThen p k) (c₁ ++ c₂) r := by
  obtain ⟨hr, hp, hwd, hh⟩ := h₁
  obtain ⟨s, hs⟩ := Option.ne_none_iff_exists'.1 hw
  obtain ⟨hr1, hr2⟩ := hr s hs
  rcases p with ⟨e', out⟩
  have hb : W.bind (runChunks (c₁ ++ c₂)) (fun _ => W.ofOut r) =
      W.bind (runChunks c₁) fun _ => W.bind (runChunks c₂) fun _ => W.ofOut r := by
    rw [runChunks_append, W.bind_assoc]
  simp only at hr1 hr2 hp hwd hh
  have hx : ∀ (γ : Type) (k : Unit → W γ), W.bind (runChunks c₁) k s = match runChunks c₁ s with
      | (s, .ok a) => k a s
      | (s, .err e) => (s, .err e)
      | (s, .panic) => (s, .panic) := by
    intro γ k
    unfold W.bind
    rcases runChunks c₁ s with ⟨s', r⟩
    cases r <;> rfl
  match hc : runChunks c₁ s with
  | (s₁, .ok ()) =>
    rw [hx, hc] at hr1 hr2
    simp only [W.ofOut] at hr1 hr2
    subst hr2
    obtain ⟨k1, k2, k3, k4⟩ := h₂ e' hp hwd hh
    obtain ⟨k11, k12⟩ := k1 s₁ hr1
    refine ⟨?_, k2.trans hp, k3.trans hwd, k4.trans hh⟩
    intro s' hs'
    rw [hs] at hs'
    cases hs'
    rw [hb, hx, hc]
    exact ⟨k11, k12⟩
  | (s₁, .err err) =>
    rw [hx, hc] at hr1 hr2
    simp only at hr1 hr2
    subst hr2
    refine ⟨?_, hp, hwd, hh⟩
    intro s' hs'
    rw [hs] at hs'
    cases hs'
    rw [hb, hx, hc]
    exact ⟨hr1, rfl⟩
  | (s₁, .panic) =>
    rw [hx, hc] at hr1 hr2
    simp only at hr1 hr2
    subst hr2
    refine ⟨?_, hp, hwd, hh⟩
    intro s' hs'
    rw [hs] at hs'
    cases hs'
    rw [hb, hx, hc]
    exact ⟨hr1, rfl⟩

/-! ## The operations -/

/-- The bytes of a colour table as the encoder writes it, in its calls. -/
def tableChunks (table : List UInt8) : List (List UInt8) :=
  table.take (table.length / 3 * 3) ::
    List.replicate (2 ^ ((flagSize (table.length / 3)).toNat + 1) - table.length / 3) [0, 0, 0]

/-- The control extension of a frame. -/
def ctrlChunks (f : Frame) : List (List UInt8) :=
  extChunks (.newControlExt f.delay f.dispose f.needsUserInput f.transparent)

/-- Flag byte of the image descriptor. -/
def descFlags (f : Frame) : UInt8 :=
  let fl : UInt8 := if f.interlaced then 0 ||| 0b01000000 else 0
  match f.palette with
  | some p => fl ||| 0b10000000 ||| flagSize (p.length / 3)
  | none => fl

/-- Descriptor and local table. -/
def descChunks (f : Frame) : List (List UInt8) :=
  ([0x2C] ++ leBytes f.left ++ leBytes f.top ++ leBytes f.width ++ leBytes f.height ++ [descFlags f]) ::
    (match f.palette with
      | some p => tableChunks p
      | none => [])

/-- The palette problem of a frame, if any. -/
def paletteError (hasGlobal : Bool) (f : Frame) : Option EncodingError :=
  match f.palette with
  | some p => if p.length / 3 ≤ 256 then none else some (.format .tooManyColors)
  | none => if hasGlobal then none else some (.format .missingColorPalette)

theorem newControlExt_control (d : UInt16) (x : DisposalMethod) (u : Bool) (t : Option UInt8) :
    ∃ fl tr, ExtensionData.newControlExt d x u t = .control fl d tr := by
  unfold ExtensionData.newControlExt
  cases t <;> exact ⟨_, _, rfl⟩

theorem does_writeExtension (e : Encoder) (x : ExtensionData) (hx : x ≠ .repetitions (.finite 0)) :
    Does e (e.writeExtension x) (extChunks x) (.ok ()) := by
  have : e.writeExtension x = e.withWriter (writeExtensionTo x) := by
    unfold writeExtension
    split
    · exact absurd rfl hx
    · rfl
  rw [this]
  exact does_withWriter e (emits_writeExtensionTo x)

theorem does_writeFrameHeader_ok (e : Encoder) (f : Frame) (hw : e.w ≠ none)
    (hp : paletteError e.globalPalette f = none) :
    Does e (e.writeFrameHeader f) (ctrlChunks f ++ descChunks f) (.ok ()) := by
  unfold writeFrameHeader
  refine (does_writeExtension e _ ?_).andThen ?_ hw
  · obtain ⟨fl, tr, h⟩ := newControlExt_control f.delay f.dispose f.needsUserInput f.transparent
    rw [h]; simp
  · intro e' hg _ _
    unfold framePalette descChunks descFlags
    unfold paletteError at hp
    cases hpal : f.palette with
    | some p =>
      rw [hpal] at hp
      simp only at hp ⊢
      by_cases h256 : p.length / 3 ≤ 256
      · rw [checkColorTable_ok p h256]
        simp only
        exact does_withWriter e' ((emits_tmpBuf (N := 10) (by simp [leBytes])).bind (emits_writeColorTable _ _))
      · rw [if_neg h256] at hp; simp at hp
    | none =>
      rw [hpal] at hp
      simp only at hp ⊢
      have hgt : e'.globalPalette = true := by
        rw [hg]
        cases hx : e.globalPalette
        · rw [hx] at hp; simp at hp
        · rfl
      simp only [hgt, if_true]
      exact does_withWriter e' ((emits_tmpBuf (N := 10) (by simp [leBytes])).bind (emits_pure _))

theorem does_writeFrameHeader_err (e : Encoder) (f : Frame) (hw : e.w ≠ none) (err : EncodingError)
    (hp : paletteError e.globalPalette f = some err) :
    Does e (e.writeFrameHeader f) (ctrlChunks f) (.err err) := by
  unfold writeFrameHeader
  have key := (does_writeExtension e (.newControlExt f.delay f.dispose f.needsUserInput f.transparent) (by
    obtain ⟨fl, tr, h⟩ := newControlExt_control f.delay f.dispose f.needsUserInput f.transparent
    rw [h]; simp)).andThen (k := fun e () =>
      match e.framePalette f with
      | .err err => (e, .err err)
      | .panic => (e, .panic)
      | .ok (flags, palette) =>
        e.withWriter do
          tmpBuf 10 [[Block.image.toU8], leBytes f.left, leBytes f.top, leBytes f.width, leBytes f.height, [flags]]
          match palette with
          | some (table, padding) => writeColorTable table padding
          | none => pure ()) (c₂ := []) (r := .err err) ?_ hw
  · rw [List.append_nil] at key; exact key
  · intro e' hg _ _
    unfold framePalette
    unfold paletteError at hp
    cases hpal : f.palette with
    | some p =>
      rw [hpal] at hp
      simp only at hp ⊢
      by_cases h256 : p.length / 3 ≤ 256
      · rw [if_pos h256] at hp; simp at hp
      · rw [if_neg h256] at hp
        rw [checkColorTable_err p (by omega)]
        cases hp
        exact does_result e' _
    | none =>
      rw [hpal] at hp
      simp only at hp ⊢
      have hgt : e'.globalPalette = false := by
        rw [hg]
        cases hx : e.globalPalette
        · rfl
        · rw [hx] at hp; simp at hp
      have hgt' : e.globalPalette = false := hg ▸ hgt
      rw [hgt]
      rw [hgt'] at hp
      cases hp
      exact does_result e' _

/-- All calls of an accepted frame with compressed data `buf` (minimum code size first). -/
def frameChunks (f : Frame) (buf : List UInt8) : List (List UInt8) :=
  ctrlChunks f ++ descChunks f ++ imageChunks buf

theorem lzwEncode_nil (C : Codec) (data : List UInt8) :
    lzwEncode C data [] = minCodeSizeFor data :: C.encode (minCodeSizeFor data) data := by
  unfold lzwEncode
  simp

theorem does_writeFrame_ok (C : Codec) (e : Encoder) (f : Frame) (hw : e.w ≠ none)
    (hb : f.width.toNat * f.height.toNat ≤ f.buffer.length)
    (hd : (f.width > 0 ∧ f.height > 0) ∨ f.buffer = [])
    (hp : paletteError e.globalPalette f = none) :
    Does e (e.writeFrame C f) (frameChunks f (lzwEncode C f.buffer [])) (.ok ()) := by
  unfold writeFrame
  rw [if_neg (by omega), if_neg (by simpa using fun h => hd.resolve_left h)]
  refine (does_writeFrameHeader_ok e f hw hp).andThen ?_ hw
  intro e' _ _ _
  unfold writeImageBlock
  have := does_withWriter { e' with buffer := lzwEncode C f.buffer [] } (emits_writeEncodedImageBlock (lzwEncode C f.buffer []))
  exact ⟨this.1, this.2, this.3, this.4⟩

theorem does_writeFrame_palette (C : Codec) (e : Encoder) (f : Frame) (hw : e.w ≠ none)
    (hb : f.width.toNat * f.height.toNat ≤ f.buffer.length)
    (hd : (f.width > 0 ∧ f.height > 0) ∨ f.buffer = []) (err : EncodingError)
    (hp : paletteError e.globalPalette f = some err) :
    Does e (e.writeFrame C f) (ctrlChunks f) (.err err) := by
  unfold writeFrame
  rw [if_neg (by omega), if_neg (by simpa using fun h => hd.resolve_left h)]
  have h := does_writeFrameHeader_err e f hw err hp
  obtain ⟨h1, h2, h3, h4⟩ := h
  rcases hx : e.writeFrameHeader f with ⟨e', out⟩
  rw [hx] at h1 h2 h3 h4
  obtain ⟨s, hs⟩ := Option.ne_none_iff_exists'.1 hw
  obtain ⟨r1, r2⟩ := h1 s hs
  have hne : ∀ a, out ≠ .ok a := by
    intro a ha
    simp only at r2
    rw [ha] at r2
    rcases runChunks_cases (ctrlChunks f) s with ⟨s', hc, _⟩ | ⟨s', code, pre, hc, _⟩ <;>
      simp [W.bind, hc, W.ofOut] at r2
  cases out with
  | ok a => exact absurd rfl (hne a)
  | err e2 => exact ⟨h1, h2, h3, h4⟩
  | panic => exact ⟨h1, h2, h3, h4⟩

theorem does_writeFrame_small (C : Codec) (e : Encoder) (f : Frame)
    (hb : f.buffer.length < f.width.toNat * f.height.toNat) :
    Does e (e.writeFrame C f) [] (.err (.io .invalidInput)) := by
  unfold writeFrame
  rw [if_pos hb]
  exact does_result e _

/-- The problem of a pre-encoded frame's code size. -/
def badCodeSize (f : Frame) : Prop :=
  match f.buffer with
  | m :: _ => m > 11 ∨ m < 2
  | [] => False

instance (f : Frame) : Decidable (badCodeSize f) := by
  unfold badCodeSize; split <;> infer_instance

theorem does_writePre_bad (e : Encoder) (f : Frame) (hb : badCodeSize f) :
    Does e (e.writeLzwPreEncodedFrame f) [] (.err (.format .invalidMinCodeSize)) := by
  unfold badCodeSize at hb
  unfold writeLzwPreEncodedFrame
  split at hb
  · rename_i m data hbuf
    simp only [hbuf]
    rw [if_pos hb]
    exact does_result e _
  · exact hb.elim

theorem writePre_good (e : Encoder) (f : Frame) (hb : ¬ badCodeSize f) :
    e.writeLzwPreEncodedFrame f =
      andThen (e.writeFrameHeader f) fun e () => e.withWriter (writeEncodedImageBlock f.buffer) := by
  unfold badCodeSize at hb
  unfold writeLzwPreEncodedFrame
  split at hb
  · rename_i m data hbuf
    simp only [hbuf]
    rw [if_neg hb]
  · rename_i hbuf
    simp only [hbuf]

theorem does_writePre_ok (e : Encoder) (f : Frame) (hw : e.w ≠ none) (hb : ¬ badCodeSize f)
    (hp : paletteError e.globalPalette f = none) :
    Does e (e.writeLzwPreEncodedFrame f) (frameChunks f f.buffer) (.ok ()) := by
  rw [writePre_good e f hb]
  refine (does_writeFrameHeader_ok e f hw hp).andThen ?_ hw
  intro e' _ _ _
  exact does_withWriter e' (emits_writeEncodedImageBlock f.buffer)

theorem does_writePre_palette (e : Encoder) (f : Frame) (hw : e.w ≠ none) (hb : ¬ badCodeSize f) (err : EncodingError)
    (hp : paletteError e.globalPalette f = some err) :
    Does e (e.writeLzwPreEncodedFrame f) (ctrlChunks f) (.err err) := by
  rw [writePre_good e f hb]
  have h := does_writeFrameHeader_err e f hw err hp
  obtain ⟨h1, h2, h3, h4⟩ := h
  rcases hx : e.writeFrameHeader f with ⟨e', out⟩
  rw [hx] at h1 h2 h3 h4
  obtain ⟨s, hs⟩ := Option.ne_none_iff_exists'.1 hw
  obtain ⟨r1, r2⟩ := h1 s hs
  have hne : ∀ a, out ≠ .ok a := by
    intro a ha
    simp only at r2
    rw [ha] at r2
    rcases runChunks_cases (ctrlChunks f) s with ⟨s', hc, _⟩ | ⟨s', code, pre, hc, _⟩ <;>
      simp [W.bind, hc, W.ofOut] at r2
  cases out with
  | ok a => exact absurd rfl (hne a)
  | err e2 => exact ⟨h1, h2, h3, h4⟩
  | panic => exact ⟨h1, h2, h3, h4⟩

/-- Calls of `set_repeat`. -/
def repeatChunks : Repeat → List (List UInt8)
  | .finite 0 => []
  | r => extChunks (.repetitions r)

theorem does_setRepeat (e : Encoder) (r : Repeat) : Does e (e.setRepeat r) (repeatChunks r) (.ok ()) := by
  unfold setRepeat
  by_cases h : r = .finite 0
  · subst h
    exact does_result e _
  · have : repeatChunks r = extChunks (.repetitions r) := by
      unfold repeatChunks
      split
      · exact absurd rfl h
      · rfl
    rw [this]
    exact does_writeExtension e _ (by simpa using h)

/-- Calls of `write_raw_extension`. -/
def rawExtChunks (func : UInt8) (data : List (List UInt8)) : List (List UInt8) :=
  [0x21] :: [func] :: (rawChunks data ++ [[0]])

theorem does_writeRawExtension (e : Encoder) (func : UInt8) (data : List (List UInt8)) :
    Does e (e.writeRawExtension func data) (rawExtChunks func data) (.ok ()) :=
  does_withWriter e ((emits_writeU8 _).bind (k := fun _ => _) ((emits_writeU8 _).bind (k := fun _ => _)
    ((emits_writeRawBlocks data).bind (k := fun _ => _) (emits_writeU8 0))))

theorem does_writeTrailer (e : Encoder) : Does e e.writeTrailer [[0x3B]] (.ok ()) :=
  does_withWriter e (emits_writeU8 _)

/-- Flag byte of the screen descriptor. -/
def screenFlags (palette : List UInt8) : UInt8 :=
  (0b10000000 : UInt8) ||| flagSize (palette.length / 3) ||| (flagSize (palette.length / 3) <<< 4)

/-- Calls of `Encoder::new`. -/
def headerChunks (width height : UInt16) (palette : List UInt8) : List (List UInt8) :=
  ([0x47, 0x49, 0x46, 0x38, 0x39, 0x61] ++ leBytes width ++ leBytes height ++ [screenFlags palette, 0, 0]) ::
    tableChunks palette

/-- The encoder before anything is written. -/
def fresh (w : Sink) (width height : UInt16) (hasPalette : Bool) : Encoder :=
  { w := some w, globalPalette := hasPalette, width := width, height := height, buffer := [] }

theorem does_writeGlobalPalette (w : Sink) (width height : UInt16) (palette : List UInt8)
    (hp : palette.length / 3 ≤ 256) :
    Does (fresh w width height (3 ≤ palette.length)) ((fresh w width height false).writeGlobalPalette palette)
      (headerChunks width height palette) (.ok ()) := by
  unfold writeGlobalPalette
  rw [checkColorTable_ok palette hp]
  simp only
  have hg : (!(palette.take (palette.length / 3 * 3)).isEmpty) = decide (3 ≤ palette.length) := by
    rw [Bool.eq_iff_iff]
    simp only [Bool.not_eq_true', List.isEmpty_eq_false_iff, ne_eq, decide_eq_true_eq]
    rw [← List.length_eq_zero_iff, List.length_take]
    omega
  rw [hg]
  have h1 : Does (fresh w width height (3 ≤ palette.length))
      ((fresh w width height (3 ≤ palette.length)).writeScreenDesc (screenFlags palette))
      [[0x47, 0x49, 0x46, 0x38, 0x39, 0x61] ++ leBytes width ++ leBytes height ++ [screenFlags palette, 0, 0]]
      (.ok ()) := by
    exact does_withWriter _ (emits_tmpBuf (N := 13) (by simp [leBytes]))
  refine h1.andThen (c₂ := tableChunks palette) ?_ (by simp [fresh])
  intro e' _ _ _
  exact does_withWriter e' (emits_writeColorTable _ _)

end Gif.Encoder
