import Verif.Props.Given
/-!
# Cases of the theorems in `Verif.Props.Agree` and `Verif.Props.Given`, and C52
-/

namespace Gif

open Spec (rawFrames Sane)

namespace Decoder

/-- The option `check_lzw_end_code`. -/
def checking : DecodeOptions := { DecodeOptions.new with checkForEndCode := true }

/-- The animation up to the data of the second frame, one byte missing before its block terminator. -/
def animationShort : Reader := { buf := [], src := [.data (animation.bytes.take 69)] }

theorem animationShort_reliable : animationShort.Reliable := by
  intro ev hev
  simp only [animationShort, List.mem_singleton] at hev
  exact ⟨_, hev, by decide +kernel⟩

set_option maxRecDepth 100000 in
/-- The assumptions of `sessions_agree` are met by the animation and a beginning of it. Two frames are the same, then one of the
sessions fails. -/
example : SameWish .new checking ∧ animationShort.Reliable ∧ animationBytewise.Reliable ∧
    animationShort.bytes <+: animationBytewise.bytes ∧
    filmFrom Ref.lzw .new animationShort [.read, .read, .read] =
      (filmFrom Ref.lzw .new animationBytewise [.read, .read, .read]).take 3 ++ [.seen (.failed (.io .unexpectedEof))] ∧
    (filmFrom Ref.lzw .new animationBytewise [.read, .read, .read]).length = 4 := by
  refine ⟨⟨rfl, rfl, rfl, rfl, rfl⟩, animationShort_reliable, animationBytewise_reliable, ?_, by decide +kernel, by decide +kernel⟩
  exact ⟨animation.bytes.drop 69, by decide +kernel⟩

/-- C08 is false as it is stated, with an invalid code after the pixels: a decoder of the truncated file may find a frame where a
decoder of the file fails, if the reads are different. -/
theorem truncated_prefix_fails_invalid : ¬ ∀ r1 r2 : Reader, r1.Reliable → r2.Reliable → r1.bytes <+: r2.bytes →
    filmFrom Ref.lzw .new r1 [.read, .info] = filmFrom Ref.lzw .new r2 [.read, .info] ∨
    ∃ n, n < (filmFrom Ref.lzw .new r2 [.read, .info]).length ∧ filmFrom Ref.lzw .new r1 [.read, .info] =
      (filmFrom Ref.lzw .new r2 [.read, .info]).take n ++ [.seen (.failed (.io .unexpectedEof))] := by
  intro h
  have h := h (single 1 1 0 [2, 0xCC] [[1, 0, 0x2C, 0, 0, 0, 0, 1, 0, 1, 0, 0, 2, 2]])
    (single 1 1 0 [2, 0xCC, 1, 0, 0x2C, 0, 0, 0, 0, 1, 0, 1, 0, 0, 2, 2, 0x4C, 1, 0, 0x3B] [])
    (single_reliable _ _ _ _ _ (by simp)) (single_reliable _ _ _ _ _ (by simp))
    ⟨[0x4C, 1, 0, 0x3B], by decide +kernel⟩
  have hl : (filmFrom Ref.lzw .new (single 1 1 0 [2, 0xCC] [[1, 0, 0x2C, 0, 0, 0, 0, 1, 0, 1, 0, 0, 2, 2]]) [.read, .info]).getLast?.map
      Got.isError = some false := by decide +kernel
  rcases h with h | ⟨n, _, h⟩
  · rw [h] at hl
    revert hl
    decide +kernel
  · rw [h, List.getLast?_append] at hl
    cases hl

set_option maxRecDepth 100000 in
/-- The assumptions of `frame_right` are met by the second frame of the shortened animation, the first one of which has been
skipped. -/
example : filmFrom Ref.lzw checking animationShort ([.info] ++ [.read]) ≠ [] ∧
    ∃ g w f v, filmFrom Ref.lzw .new animationShort ([.info, .fill 0] ++ [.read]) =
      filmFrom Ref.lzw .new animationShort [.info, .fill 0] ++ [.seen (.frame (some g) w)] ∧
    (rawFilm Ref.lzw .new animation 2)[2]? = some (.frame (some f) v) ∧
    f.buffer = [2, 0x4C, 0x0A] ∧ g.buffer = [1, 1] := by
  refine ⟨by decide +kernel, frameAt (rawFilm Ref.lzw .new animation 2) 2 |> fun f => { f with buffer := [1, 1], ownedCap := some 2 },
    { width := 2, height := 1, globalPalette := some [10, 20, 30, 40, 50, 60], bgColor := some 1, repetition := .finite 0,
      currentFrame := { frameAt (rawFilm Ref.lzw .new animation 2) 2 with buffer := [1, 1], ownedCap := some 2 } },
    frameAt (rawFilm Ref.lzw .new animation 2) 2,
    { width := 2, height := 1, globalPalette := some [10, 20, 30, 40, 50, 60], bgColor := some 1,
      repetition := .finite 0, currentFrame := frameAt (rawFilm Ref.lzw .new animation 2) 2 }, ?_⟩
  decide +kernel

set_option maxRecDepth 100000 in
/-- The assumptions of `frame_independent` are met by a frame with an invalid code after its pixels, and by the same data after the
data of another frame of which only a pixel has been read. The pictures are the same. -/
example :
    let r1 := single 1 1 0 [2, 0xCC, 1, 0, 0x3B] []
    let r2 := single 2 1 0 [2, 0x4C, 0x0A, 0, 0x2C, 0, 0, 0, 0, 1, 0, 1, 0, 0, 2, 2, 0xCC] []
    let x2 := single 2 1 0 [2, 0x4C, 0x0A, 0, 0x2C, 0, 0, 0, 0, 1, 0, 1, 0, 0, 2, 2, 0xCC, 1, 0, 0x3B] []
    r2.bytes <+: x2.bytes ∧
    (∃ g1 w1, filmFrom Ref.lzw .new r1 ([] ++ [.read]) = filmFrom Ref.lzw .new r1 [] ++ [.seen (.frame (some g1) w1)]) ∧
    (∃ g2 w2, filmFrom Ref.lzw .new r2 ([.info, .fill 0] ++ [.read]) =
      filmFrom Ref.lzw .new r2 [.info, .fill 0] ++ [.seen (.frame (some g2) w2)] ∧ g2.buffer = [1]) ∧
    (∃ f1 v1, (rawFilm Ref.lzw .new r1 1)[1]? = some (.frame (some f1) v1) ∧
      ∃ f2 v2, (rawFilm Ref.lzw .new x2 2)[2]? = some (.frame (some f2) v2) ∧
      (f1.width, f1.height, f1.interlaced, f1.palette, f1.transparent, f1.buffer, v1.globalPalette) =
      (f2.width, f2.height, f2.interlaced, f2.palette, f2.transparent, f2.buffer, v2.globalPalette) ∧ f1.buffer = [2, 0xCC, 1]) := by
  let g : Frame := { Frame.default with width := 1, height := 1, buffer := [1], ownedCap := some 1 }
  let v : View :=
    { width := 1, height := 1, globalPalette := some [10, 20, 30, 40, 50, 60], bgColor := some 1,
      repetition := .finite 0, currentFrame := g }
  let f : Frame := frameAt (rawFilm Ref.lzw .new (single 1 1 0 [2, 0xCC, 1, 0, 0x3B] []) 1) 1
  refine ⟨⟨[1, 0, 0x3B], by decide +kernel⟩, ⟨g, v, by decide +kernel⟩, ⟨g, { v with width := 2 }, by decide +kernel⟩,
    f, { v with currentFrame := f }, by decide +kernel, f, { v with width := 2, currentFrame := f },
    by decide +kernel, rfl, by decide +kernel⟩

set_option maxRecDepth 100000 in
/-- The assumptions of `fill_buffer_right` are met by the second frame of the shortened animation. Both pieces are given. -/
example : ∃ v, filmFrom Ref.lzw .new animationShort ([.info] ++ [.info, .into]) =
      filmFrom Ref.lzw .new animationShort [.info] ++ [.seen (.info true v), .image [1, 1]] ∧
    v.currentFrame.interlaced = false ∧ v.currentFrame.width.toNat * v.currentFrame.height.toNat = 2 ∧
    filmFrom Ref.lzw .new animationBytewise ([.info] ++ .info :: [0, 0].map .fill) =
      filmFrom Ref.lzw .new animationBytewise [.info] ++ [.seen (.info true v), .filled [1] true, .filled [1] true] := by
  refine ⟨
    { width := 2, height := 1, globalPalette := some [10, 20, 30, 40, 50, 60], bgColor := some 1, repetition := .finite 0,
      currentFrame := Spec.bare (frameAt (rawFilm Ref.lzw .new animation 2) 2) }, ?_⟩
  decide +kernel

set_option maxRecDepth 100000 in
/-- The assumptions of `fill_buffer_stream_right` are met by a frame with an invalid code after its pixels; a pixel is given, then
an error. -/
example : ∃ f v e, (rawFilm Ref.lzw .new (single 1 1 0 [2, 0xCC, 1, 0, 0x3B] []) 1)[1]? = some (.frame (some f) v) ∧
    filmFrom Ref.lzw .new (single 1 1 0 [2, 0xCC, 1, 0, 0x3B] []) ([] ++ .info :: [0, 0].map .fill) =
      filmFrom Ref.lzw .new (single 1 1 0 [2, 0xCC, 1, 0, 0x3B] []) [] ++
        [.seen (.info true { v with currentFrame := Spec.bare f }), .filled [1] true, .seen (.failed e)] := by
  let f : Frame := frameAt (rawFilm Ref.lzw .new (single 1 1 0 [2, 0xCC, 1, 0, 0x3B] []) 1) 1
  refine ⟨f,
    { width := 1, height := 1, globalPalette := some [10, 20, 30, 40, 50, 60], bgColor := some 1,
      repetition := .finite 0, currentFrame := f }, .io .invalidCode, ?_⟩
  decide +kernel

end Decoder

namespace Ref

/-- A test for `SamePicture`. -/
def samePicture (f g : Frame) : Bool :=
  decide (Spec.bare f = Spec.bare g) &&
  match f.buffer, g.buffer with
  | m :: data, m' :: data' =>
    decide (((Dec.new m).feed data).pending.take (f.width.toNat * f.height.toNat) =
      ((Dec.new m').feed data').pending.take (f.width.toNat * f.height.toNat))
  | _, _ => false

theorem samePicture_same {f g : Frame} (h : samePicture f g = true) : Spec.SamePicture lzwContract f g := by
  unfold samePicture at h
  simp only [Bool.and_eq_true, decide_eq_true_eq] at h
  refine ⟨h.1, ?_⟩
  have h2 := h.2
  split at h2
  · rename_i m data m' data' hf hg
    simp only [decide_eq_true_eq] at h2
    exact ⟨(_, _), (_, _), ⟨m, data, hf, rfl, rfl⟩, ⟨m', data', hg, rfl, rfl⟩, h2⟩
  · cases h2

/-- A test for `SameShow`. -/
def sameShow : List Seen → List Seen → Bool
  | [], [] => true
  | .opened v :: l, .opened w :: l' => decide (v = w) && sameShow l l'
  | .frame (some f) v :: l, .frame (some g) w :: l' =>
    samePicture f g && decide ({ v with currentFrame := Frame.default } = { w with currentFrame := Frame.default }) &&
      sameShow l l'
  | .frame none v :: l, .frame none w :: l' =>
    decide ({ v with currentFrame := Frame.default } = { w with currentFrame := Frame.default }) && sameShow l l'
  | _, _ => false

theorem sameShow_same : ∀ {a b : List Seen}, sameShow a b = true → Spec.SameShow lzwContract a b := by
  intro a b
  fun_induction sameShow a b with
  | case1 => intro _; trivial
  | case2 v l w l' ih =>
    intro h
    simp only [Bool.and_eq_true, decide_eq_true_eq] at h
    exact ⟨congrArg Seen.opened h.1, ih h.2⟩
  | case3 f v l g w l' ih =>
    intro h
    simp only [Bool.and_eq_true, decide_eq_true_eq] at h
    exact ⟨⟨samePicture_same h.1.1, h.1.2⟩, ih h.2⟩
  | case4 v l w l' ih =>
    intro h
    simp only [Bool.and_eq_true, decide_eq_true_eq] at h
    exact ⟨h.1, ih h.2⟩
  | case5 => intro h; cases h

end Ref

namespace Decoder

set_option maxRecDepth 100000 in
/-- The assumptions of `extra_pixels_ignored` are met by a frame of one pixel, with an end code or with an invalid code after it. -/
example : Spec.Readable (rawFilm Ref.lzw .new (single 1 1 0 [2, 0xCC, 1, 0, 0x3B] []) 1) ∧
    Spec.Readable (rawFilm Ref.lzw .new (single 1 1 0 [2, 0x4C, 1, 0, 0x3B] []) 1) ∧
    Spec.SameShow Ref.lzwContract (rawFilm Ref.lzw .new (single 1 1 0 [2, 0xCC, 1, 0, 0x3B] []) 1)
      (rawFilm Ref.lzw .new (single 1 1 0 [2, 0x4C, 1, 0, 0x3B] []) 1) ∧
    filmFrom Ref.lzw .new (single 1 1 0 [2, 0xCC, 1, 0, 0x3B] []) [.read] =
      filmFrom Ref.lzw .new (single 1 1 0 [2, 0x4C, 1, 0, 0x3B] []) [.read] ∧
    (filmFrom Ref.lzw .new (single 1 1 0 [2, 0xCC, 1, 0, 0x3B] []) [.read]).length = 2 := by
  refine ⟨?_, ?_, Ref.sameShow_same (by decide +kernel), by decide +kernel, by decide +kernel⟩
  · unfold Spec.Readable; decide +kernel
  · unfold Spec.Readable; decide +kernel

set_option maxRecDepth 100000 in
/-- C49 is false as it is stated with the option `check_lzw_end_code`: superfluous pixels make the next call fail. -/
theorem extra_pixels_fails_check : ¬ ∀ r1 r2 : Reader, r1.Reliable → r2.Reliable →
    Sane Ref.lzwContract checking r1 2 → Sane Ref.lzwContract checking r2 2 →
    Spec.SameFilm Ref.lzwContract (rawFilm Ref.lzw checking r1 2) (rawFilm Ref.lzw checking r2 2) →
    filmFrom Ref.lzw checking r1 [.read, .read] = filmFrom Ref.lzw checking r2 [.read, .read] := by
  intro h
  exact absurd (h (single 1 1 0 [2, 0x4C, 0x0A, 0, 0x3B] []) (single 1 1 0 [2, 0x4C, 1, 0, 0x3B] [])
    (single_reliable _ _ _ _ _ (by simp)) (single_reliable _ _ _ _ _ (by simp))
    (Ref.tame_sane (by decide +kernel) (by decide +kernel) (by decide +kernel)).1
    (Ref.tame_sane (by decide +kernel) (by decide +kernel) (by decide +kernel)).1
    (Ref.sameFilm_same (by decide +kernel))) (by decide +kernel)

/-! ## C52 -/

/-- **C52** for every reader, also one that fails: a higher memory limit changes nothing but that errors of the memory limit
disappear. -/
theorem memory_limit_only_rejects (C : Codec) (o : DecodeOptions) (m : MemoryLimit)
    (hm : ∀ n, o.memoryLimit.sizeOk n = true → m.sizeOk n = true) (r : Reader) (acts : List Act) :
    filmFrom C o r acts = filmFrom C { o with memoryLimit := m } r acts ∨
    ∃ k e, (e = .format .memoryLimit ∨ e = .io .outOfMemory) ∧ k < (filmFrom C { o with memoryLimit := m } r acts).length ∧
      filmFrom C o r acts = (filmFrom C { o with memoryLimit := m } r acts).take k ++ [.seen (.failed e)] :=
  filmFrom_cap o hm r acts

/-- Six bytes suffice for the palette, but not for a frame. -/
def tight : DecodeOptions := { DecodeOptions.new with memoryLimit := .bytes 6 (by decide), colorOutput := .rgba }

set_option maxRecDepth 100000 in
/-- The assumption of `memory_limit_only_rejects` is met by a limit of six bytes, under which a frame is refused. -/
example : (∀ n, tight.memoryLimit.sizeOk n = true → (MemoryLimit.bytes 8 (by decide)).sizeOk n = true) ∧
    filmFrom Ref.lzw tight animation [.info, .fill 0, .read] =
      (filmFrom Ref.lzw { tight with memoryLimit := .bytes 8 (by decide) } animation [.info, .fill 0, .read]).take 3 ++
        [.seen (.failed (.io .outOfMemory))] ∧
    filmFrom Ref.lzw tight animation [.info, .fill 0, .read] ≠
      filmFrom Ref.lzw { tight with memoryLimit := .bytes 8 (by decide) } animation [.info, .fill 0, .read] := by
  refine ⟨?_, by decide +kernel, by decide +kernel⟩
  intro n h
  simp only [tight, MemoryLimit.sizeOk, decide_eq_true_eq] at h ⊢
  omega

end Decoder

end Gif
