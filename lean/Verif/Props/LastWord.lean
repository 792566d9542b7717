import Verif.Props.Remark
/-!
# C103: the last control extension before an image decides, and the last loop count before the first image
-/

namespace Gif.Remark

open Spec Spec.Descent Decoder

variable {o : DecodeOptions}

/-- Two extensions of which the second is a graphic control extension: the first is forgotten. -/
theorem control_forgets {limit : MemoryLimit} {len : UInt8} {D d : List UInt8} (h : SubBlocks len D d) (n n' : Notes) (u : List UInt8) :
    extension limit n (0xF9 :: len :: (D ++ u)) = extension limit n' (0xF9 :: len :: (D ++ u)) := by
  rw [extension, extension, if_pos (by decide), if_pos (by decide)]
  rcases payload_same (limit := limit) (used := 1) h with ⟨e, he⟩ | he
  · simp only [he]
  · simp only [he, Notes.finish, if_true]

/-- A control extension with the right length is accepted. -/
theorem control_step {len packed d0 d1 trns : UInt8} {D : List UInt8} (h : SubBlocks len D [packed, d0, d1, trns])
    (hlim : o.memoryLimit.sizeOk 5 = true) (n : Notes) (u : List UInt8) :
    ∃ n1, extension o.memoryLimit n (0xF9 :: len :: (D ++ u)) = .ok (n1, u) ∧ n1.label = 0xF9 := by
  have hp : payload o.memoryLimit 1 len (D ++ u) = .ok ([packed, d0, d1, trns], u) := by
    have hb : blocks len.toNat (D ++ u) = ([packed, d0, d1, trns], some u) := blocks_more_some D _ u h
    unfold payload
    rw [hb]
    simp only
    rw [if_neg]
    rintro ⟨-, h2⟩
    rw [show 1 + [packed, d0, d1, trns].length = 5 from rfl, hlim] at h2
    cases h2
  rw [extension, if_pos (by decide)]
  simp only [hp, Notes.finish, if_true]
  exact ⟨_, rfl, rfl⟩

/-- What comes next is a graphic control extension. -/
def ControlNext (l : List UInt8) : Prop := ∃ len D d u, SubBlocks len D d ∧ l = 0x21 :: 0xF9 :: len :: (D ++ u)

variable {len packed d0 d1 trns : UInt8} {D : List UInt8}

theorem control_skips (ho : o.allowUnknownBlocks = false) (h : SubBlocks len D [packed, d0, d1, trns])
    (hlim : o.memoryLimit.sizeOk 5 = true) : Skips o (0x21 :: 0xF9 :: len :: D) ControlNext := by
  rintro l ⟨len', D', d', u, h', rfl⟩ f1 f2 n n' h1 h2 hn
  match f1, f2, h1, h2 with
  | f1 + 1, f2 + 2, h1, h2 =>
    simp only [List.cons_append, List.length_cons, List.length_append] at h1 h2
    obtain ⟨n2, e2, -⟩ := control_step h hlim n' (0x21 :: 0xF9 :: len' :: (D' ++ u))
    have : seek o (f2 + 2) n' ((0x21 :: 0xF9 :: len :: D) ++ (0x21 :: 0xF9 :: len' :: (D' ++ u))) =
        seek o (f2 + 1) n2 (0x21 :: 0xF9 :: len' :: (D' ++ u)) := by
      simp only [List.cons_append]
      rw [seek, if_neg (by decide), if_neg (by decide), if_pos rfl, e2]
    rw [this, seek, if_neg (by decide), if_neg (by decide), if_pos rfl, seek, if_neg (by decide), if_neg (by decide), if_pos rfl,
      control_forgets h' n2 n]
    cases he : extension o.memoryLimit n (0xF9 :: len' :: (D' ++ u)) with
    | error e => rfl
    | ok x =>
      obtain ⟨n1, l1⟩ := x
      have := extension_shorter he
      simp only [List.length_cons, List.length_append] at this
      exact seek_same ho _ _ _ _ _ _ _ _ (Nat.le_refl _) (by omega) (by omega) rfl
  | f1 + 1, 1, h1, h2 => simp at h2

theorem control_leads (h : SubBlocks len D [packed, d0, d1, trns]) (hlim : o.memoryLimit.sizeOk 5 = true) {post : List UInt8}
    (hp : ControlNext post) : Leads o (0x21 :: 0xF9 :: len :: D) ControlNext post := by
  obtain ⟨len', D', d', u, h', rfl⟩ := hp
  intro f1 f2 first loops n h1 h2 hf
  match f1, f2, h1, h2 with
  | f1 + 1, f2 + 2, h1, h2 =>
    simp only [List.cons_append, List.length_cons, List.length_append] at h1 h2 ⊢
    obtain ⟨n2, e2, hlab⟩ := control_step h hlim n (0x21 :: 0xF9 :: len' :: (D' ++ u))
    rw [lead.eq_def o (f1 + 1), lead.eq_def o (f2 + 2)]
    simp only [if_true, e2]
    rw [lead.eq_def o (f2 + 1)]
    simp only [if_true, hlab]
    rw [control_forgets h' n2 n]
    cases he : extension o.memoryLimit n (0xF9 :: len' :: (D' ++ u)) with
    | error e => rfl
    | ok x =>
      obtain ⟨n1, l1⟩ := x
      have := extension_shorter he
      simp only [List.length_cons, List.length_append] at this
      rw [if_neg (by decide : ¬ (0xF9 : UInt8) = 0xFF)]
      exact lead_same _ _ _ _ _ _ _ _ _ _ _ (Nat.le_refl _) (by omega) (by omega) rfl (.inl rfl)
  | f1 + 1, 1, h1, h2 => simp at h2

theorem gif_control (ho : o.allowUnknownBlocks = false) (h : SubBlocks len D [packed, d0, d1, trns])
    (hlim : o.memoryLimit.sizeOk 5 = true) {head post : List UInt8} (hh : IsHead head) (xs : List (List UInt8))
    (hx : ∀ x ∈ xs, IsExtension x ∨ IsPicture x) (hp : ControlNext post) (cs : List Call) :
    gif o (head ++ (xs.flatten ++ post)) cs = gif o (head ++ (xs.flatten ++ ((0x21 :: 0xF9 :: len :: D) ++ post))) cs := by
  refine gif_extra ho (control_skips ho h hlim) hp hh xs hx (.inl (control_leads h hlim hp)) (.inr ?_) cs
  obtain ⟨_, _, _, _, _, rfl⟩ := hp
  simp

/-- **C103**. A graphic control extension directly before another one makes no difference: all calls give the same, with
`skip_frame_decoding`. -/
theorem control_session {C : Codec} (hS : C.Safe) (hsk : o.skipFrameDecoding = true) (ho : o.allowUnknownBlocks = false)
    (h : SubBlocks len D [packed, d0, d1, trns]) (hlim : o.memoryLimit.sizeOk 5 = true) {head post : List UInt8} (hh : IsHead head)
    (xs : List (List UInt8)) (hx : ∀ x ∈ xs, IsExtension x ∨ IsPicture x) (hp : ControlNext post)
    {r1 r2 : Reader} (hr1 : r1.Reliable) (hr2 : r2.Reliable) (h1 : r1.bytes = head ++ (xs.flatten ++ post))
    (h2 : r2.bytes = head ++ (xs.flatten ++ ((0x21 :: 0xF9 :: len :: D) ++ post))) (cs : List Call) :
    sessionFrom C o r1 cs = sessionFrom C o r2 cs := by
  rw [raw_reading hS o hsk hr1, raw_reading hS o hsk hr2, h1, h2]
  exact gif_control ho h hlim hh xs hx hp cs

/-- **C103**, opening a file with any options. -/
theorem control_open {C : Codec} (K : C.Contract) (ho : o.allowUnknownBlocks = false)
    (h : SubBlocks len D [packed, d0, d1, trns]) (hlim : o.memoryLimit.sizeOk 5 = true) {head post : List UInt8} (hh : IsHead head)
    (xs : List (List UInt8)) (hx : ∀ x ∈ xs, IsExtension x ∨ IsPicture x) (hp : ControlNext post)
    {r1 r2 : Reader} (hr1 : r1.Reliable) (hr2 : r2.Reliable) (h1 : r1.bytes = head ++ (xs.flatten ++ post))
    (h2 : r2.bytes = head ++ (xs.flatten ++ ((0x21 :: 0xF9 :: len :: D) ++ post))) :
    sessionFrom C o r1 [] = sessionFrom C o r2 [] := by
  rw [open_reading K o hr1, open_reading K o hr2, h1, h2]
  exact gif_control ho h hlim hh xs hx hp []

/-- **C103**, pixels, with the restrictions of `remark_film`. -/
theorem control_film {C : Codec} (K : C.Contract) (hs : o.skipFrameDecoding = false) (hce : o.checkForEndCode = false)
    (ho : o.allowUnknownBlocks = false)
    (h : SubBlocks len D [packed, d0, d1, trns]) (hlim : o.memoryLimit.sizeOk 5 = true) {head post : List UInt8} (hh : IsHead head)
    (xs : List (List UInt8)) (hx : ∀ x ∈ xs, IsExtension x ∨ IsPicture x) (hp : ControlNext post)
    {r1 r2 : Reader} (hr1 : r1.Reliable) (hr2 : r2.Reliable) (h1 : r1.bytes = head ++ (xs.flatten ++ post))
    (h2 : r2.bytes = head ++ (xs.flatten ++ ((0x21 :: 0xF9 :: len :: D) ++ post)))
    (acts : List Act) (hsane : Sane K o r1 (Spec.seeks acts)) (hok : Spec.Gentle K acts (rawFrames (rawFilm C o r1 (Spec.seeks acts)))) :
    filmFrom C o r1 acts = filmFrom C o r2 acts := by
  refine film_same K hs hce hr1 hr2 (fun cs => ?_) acts hsane hok
  rw [h1, h2]
  exact gif_control ho h hlim hh xs hx hp cs

/-! ## Loop counts -/

/-- What comes next is a loop count. -/
def LoopNext (l : List UInt8) : Prop := ∃ len D d q u, SubBlocks len D d ∧ netscape [d] = some q ∧ l = 0x21 :: 0xFF :: len :: (D ++ u)

theorem app_step {limit : MemoryLimit} {len : UInt8} {D d : List UInt8} (h : SubBlocks len D d) (n : Notes) :
    (∃ e, ∀ u, extension limit n (0xFF :: len :: (D ++ u)) = .error e) ∨
      ∀ u, extension limit n (0xFF :: len :: (D ++ u)) = .ok ({ n with label := 0xFF, data := len :: d }, u) := by
  rcases payload_same (limit := limit) (used := 1) h with ⟨e, he⟩ | he
  · exact .inl ⟨e, fun u => by rw [extension, if_pos (by decide)]; simp only [he]⟩
  · refine .inr fun u => ?_
    rw [extension, if_pos (by decide)]
    simp only [he, Notes.finish]
    rw [if_neg (by decide)]

theorem loop_leads {d : List UInt8} (hr : Remark o 0xFF len D d) {post : List UInt8} (hp : LoopNext post) :
    Leads o (0x21 :: 0xFF :: len :: D) (fun _ => True) post := by
  obtain ⟨len', D', d', q, u, h', hq, rfl⟩ := hp
  intro f1 f2 first loops n h1 h2 hf
  match f1, f2, h1, h2 with
  | f1 + 1, f2 + 2, h1, h2 =>
    simp only [List.cons_append, List.length_cons, List.length_append] at h1 h2 ⊢
    rw [lead.eq_def o (f1 + 1), lead.eq_def o (f2 + 2)]
    simp only [if_true, remark_step hr]
    rw [lead.eq_def o (f2 + 1)]
    simp only [if_true]
    rw [extension_same (n := { n with label := 0xFF, data := len :: d }) (n' := n) rfl]
    rcases app_step (limit := o.memoryLimit) h' n with ⟨e, he⟩ | he
    · rw [he]; rfl
    · rw [he]
      simp only [if_true, show (len' :: d').drop 1 = d' from rfl, hq, Option.getD_some]
      exact lead_same _ _ _ _ _ _ _ _ _ _ _ (Nat.le_refl _) (by omega) (by omega) rfl (.inl rfl)
  | f1 + 1, 1, h1, h2 => simp at h2

theorem gif_loop {d : List UInt8} (ho : o.allowUnknownBlocks = false) (hr : Remark o 0xFF len D d) {head post : List UInt8} (hh : IsHead head)
    (xs : List (List UInt8)) (hx : ∀ x ∈ xs, IsExtension x ∨ IsPicture x) (hp : LoopNext post) (cs : List Call) :
    gif o (head ++ (xs.flatten ++ post)) cs = gif o (head ++ (xs.flatten ++ ((0x21 :: 0xFF :: len :: D) ++ post))) cs := by
  refine gif_extra (P := fun _ => True) ho (remark_skips ho hr) trivial hh xs hx (.inl (loop_leads hr hp)) (.inr ?_) cs
  obtain ⟨_, _, _, _, _, _, _, rfl⟩ := hp
  simp

/-- **C103**, loop counts. A loop count directly before another one makes no difference: all calls give the same. -/
theorem loop_session {C : Codec} {d : List UInt8} (hS : C.Safe) (hsk : o.skipFrameDecoding = true) (ho : o.allowUnknownBlocks = false)
    (hr : Remark o 0xFF len D d) {head post : List UInt8} (hh : IsHead head)
    (xs : List (List UInt8)) (hx : ∀ x ∈ xs, IsExtension x ∨ IsPicture x) (hp : LoopNext post)
    {r1 r2 : Reader} (hr1 : r1.Reliable) (hr2 : r2.Reliable) (h1 : r1.bytes = head ++ (xs.flatten ++ post))
    (h2 : r2.bytes = head ++ (xs.flatten ++ ((0x21 :: 0xFF :: len :: D) ++ post))) (cs : List Call) :
    sessionFrom C o r1 cs = sessionFrom C o r2 cs := by
  rw [raw_reading hS o hsk hr1, raw_reading hS o hsk hr2, h1, h2]
  exact gif_loop ho hr hh xs hx hp cs

/-- **C103**, loop counts, opening a file with any options. -/
theorem loop_open {C : Codec} {d : List UInt8} (K : C.Contract) (ho : o.allowUnknownBlocks = false)
    (hr : Remark o 0xFF len D d) {head post : List UInt8} (hh : IsHead head)
    (xs : List (List UInt8)) (hx : ∀ x ∈ xs, IsExtension x ∨ IsPicture x) (hp : LoopNext post)
    {r1 r2 : Reader} (hr1 : r1.Reliable) (hr2 : r2.Reliable) (h1 : r1.bytes = head ++ (xs.flatten ++ post))
    (h2 : r2.bytes = head ++ (xs.flatten ++ ((0x21 :: 0xFF :: len :: D) ++ post))) :
    sessionFrom C o r1 [] = sessionFrom C o r2 [] := by
  rw [open_reading K o hr1, open_reading K o hr2, h1, h2]
  exact gif_loop ho hr hh xs hx hp []

/-- **C103**, loop counts, pixels, with the restrictions of `remark_film`. -/
theorem loop_film {C : Codec} {d : List UInt8} (K : C.Contract) (hs : o.skipFrameDecoding = false) (hce : o.checkForEndCode = false)
    (ho : o.allowUnknownBlocks = false) (hr : Remark o 0xFF len D d) {head post : List UInt8} (hh : IsHead head)
    (xs : List (List UInt8)) (hx : ∀ x ∈ xs, IsExtension x ∨ IsPicture x) (hp : LoopNext post)
    {r1 r2 : Reader} (hr1 : r1.Reliable) (hr2 : r2.Reliable) (h1 : r1.bytes = head ++ (xs.flatten ++ post))
    (h2 : r2.bytes = head ++ (xs.flatten ++ ((0x21 :: 0xFF :: len :: D) ++ post)))
    (acts : List Act) (hsane : Sane K o r1 (Spec.seeks acts)) (hok : Spec.Gentle K acts (rawFrames (rawFilm C o r1 (Spec.seeks acts)))) :
    filmFrom C o r1 acts = filmFrom C o r2 acts := by
  refine film_same K hs hce hr1 hr2 (fun cs => ?_) acts hsane hok
  rw [h1, h2]
  exact gif_loop ho hr hh xs hx hp cs

end Gif.Remark
