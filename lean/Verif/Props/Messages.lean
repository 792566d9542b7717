import Verif.Model.Messages
import Verif.Props.Descent
import Verif.Props.Errors
/-!
# C107: what the text of an error says
-/

namespace Gif.Messages

open Spec Decoder

variable {lzw : String} {rd : Nat → IoValue}

/-- `y` is `x`, or its source, or the source of that, and so on. -/
inductive Chain (lzw : String) (rd : Nat → IoValue) : ErrValue → ErrValue → Prop
  | here (x : ErrValue) : Chain lzw rd x x
  | next {x y z : ErrValue} (h : x.source lzw rd = some y) (ht : Chain lzw rd y z) : Chain lzw rd x z

/-- **C107** All errors in the chain of sources have the text of the first. -/
theorem same_text {x y : ErrValue} (h : Chain lzw rd x y) : y.display lzw rd = x.display lzw rd := by
  induction h with
  | here x => rfl
  | @next x y z h ht ih =>
    rw [ih]
    cases x with
    | decoding e => cases e <;> (cases h; rfl)
    | decodingFormat e => cases h; rfl
    | text s => cases h
    | encoding e => cases e <;> (cases h; rfl)
    | encodingFormat e => cases h
    | io v => cases h

/-- **C107** A program that follows the sources comes to an end, always to the same one. -/
theorem root (x : ErrValue) : ∃ y, Chain lzw rd x y ∧ y.source lzw rd = none ∧
    ∀ z, Chain lzw rd x z → z.source lzw rd = none → z = y := by
  have stop : ∀ {y z : ErrValue}, y.source lzw rd = none → Chain lzw rd y z → z = y := fun h hz => by
    cases hz with
    | here => rfl
    | next h' _ => rw [h] at h'; cases h'
  have one : ∀ {x y : ErrValue}, x.source lzw rd = some y → (∃ w, Chain lzw rd y w ∧ w.source lzw rd = none ∧
      ∀ z, Chain lzw rd y z → z.source lzw rd = none → z = w) → ∃ w, Chain lzw rd x w ∧ w.source lzw rd = none ∧
      ∀ z, Chain lzw rd x z → z.source lzw rd = none → z = w := fun h ⟨w, h1, h2, h3⟩ =>
    ⟨w, .next h h1, h2, fun z hz hn => by
      cases hz with
      | here => rw [h] at hn; cases hn
      | next h' ht => rw [h] at h'; cases h'; exact h3 z ht hn⟩
  have none : ∀ {x : ErrValue}, x.source lzw rd = none → ∃ w, Chain lzw rd x w ∧ w.source lzw rd = none ∧
      ∀ z, Chain lzw rd x z → z.source lzw rd = none → z = w := fun {x} h => ⟨x, .here x, h, fun z hz _ => stop h hz⟩
  cases x with
  | decoding e =>
    cases e with
    | format e => exact one (y := .decodingFormat e) rfl (one (y := .text e.message) rfl (none rfl))
    | io e => exact one (y := .io (e.value lzw rd)) rfl (none rfl)
  | decodingFormat e => exact one (y := .text e.message) rfl (none rfl)
  | text s => exact none rfl
  | encoding e =>
    cases e with
    | format e => exact one (y := .encodingFormat e) rfl (none rfl)
    | io e => exact one (y := .io (e.value rd)) rfl (none rfl)
  | encodingFormat e => exact none rfl
  | io v => exact none rfl

/-- **C107** A program that follows the sources finds the cause: the format error and its message, or the `io::Error`, with the kind it
was made with. -/
theorem cause :
    (∀ e, Chain lzw rd (.decoding (.format e)) (.decodingFormat e) ∧
      Chain lzw rd (.decodingFormat e) (.text ((ErrValue.decoding (.format e)).display lzw rd))) ∧
    (∀ c, Chain lzw rd (.decoding (.io (.reader c))) (.io (rd c))) ∧
    (∀ e, ∃ v, Chain lzw rd (.decoding (.io e)) (.io v) ∧ v.text = (ErrValue.decoding (.io e)).display lzw rd) ∧
    (∀ e, Chain lzw rd (.encoding (.format e)) (.encodingFormat e)) ∧
    (∀ c, Chain lzw rd (.encoding (.io (.writer c))) (.io (rd c))) ∧
    (∀ e, ∃ v, Chain lzw rd (.encoding (.io e)) (.io v) ∧ v.text = (ErrValue.encoding (.io e)).display lzw rd) ∧
    ∀ x : ErrValue, (∀ v, x ≠ .io v) → (∀ s, x ≠ .text s) → (∀ e, x ≠ .encodingFormat e) → x.source lzw rd ≠ none := by
  refine ⟨fun e => ⟨.next rfl (.here _), .next rfl (.here _)⟩, fun c => .next rfl (.here _), fun e => ⟨_, .next rfl (.here _), rfl⟩,
    fun e => .next rfl (.here _), fun c => .next rfl (.here _), fun e => ⟨_, .next rfl (.here _), rfl⟩, fun x h1 h2 h3 h => ?_⟩
  cases x with
  | decoding e => cases e <;> cases h
  | decodingFormat e => cases h
  | text s => exact h2 s rfl
  | encoding e => cases e <;> cases h
  | encodingFormat e => exact h3 e rfl
  | io v => exact h1 v rfl

theorem message_inj : ∀ {a b : FormatErr}, a.message = b.message → a = b := by
  intro a b h
  cases a <;> cases b <;> first | rfl | (revert h; simp only [FormatErr.message]; decide)

/-- The errors of the reader can be told from those of the decoder and from each other, and weezl does not say what the decoder says. -/
structure Distinct (lzw : String) (rd : Nat → IoValue) : Prop where
  codes : lzw ≠ "no end code in lzw stream"
  own : ∀ c, rd c ≠ ⟨.unexpectedEof, "unexpected end of file"⟩ ∧ rd c ≠ ⟨.outOfMemory, "image is too large"⟩ ∧
    rd c ≠ ⟨.unsupported, "unsupported"⟩ ∧ rd c ≠ ⟨.invalidData, "no end code in lzw stream"⟩ ∧ rd c ≠ ⟨.invalidData, lzw⟩
  inj : ∀ c c', rd c = rd c' → c = c'

theorem value_inj (h : Distinct lzw rd) {a b : IoErr} (hv : a.value lzw rd = b.value lzw rd) : a = b := by
  have h1 := h.codes
  cases a <;> cases b <;> simp only [IoErr.value] at hv <;>
    first
    | rfl
    | (exact absurd hv (h.own _).1) | (exact absurd hv (h.own _).2.1) | (exact absurd hv (h.own _).2.2.1)
    | (exact absurd hv (h.own _).2.2.2.1) | (exact absurd hv (h.own _).2.2.2.2)
    | (exact absurd hv.symm (h.own _).1) | (exact absurd hv.symm (h.own _).2.1) | (exact absurd hv.symm (h.own _).2.2.1)
    | (exact absurd hv.symm (h.own _).2.2.2.1) | (exact absurd hv.symm (h.own _).2.2.2.2)
    | (rw [h.inj _ _ hv])
    | (simp only [IoValue.mk.injEq, true_and] at hv; exact absurd hv h1)
    | (simp only [IoValue.mk.injEq, true_and] at hv; exact absurd hv.symm h1)
    | (simp only [IoValue.mk.injEq, reduceCtorEq, false_and] at hv)

/-- What a program can learn from an error: the text, and the kind and text of the `io::Error` in it, if it is one. -/
def told (lzw : String) (rd : Nat → IoValue) (e : DecodingError) : String × Option IoValue :=
  ((ErrValue.decoding e).display lzw rd, match e with
    | .format _ => none
    | .io e => some (e.value lzw rd))

/-- **C107** What calls told a program tells it what the errors are: no two causes, in whatever files, look the same. -/
theorem told_apart (h : Distinct lzw rd) {a b : DecodingError} (ht : told lzw rd a = told lzw rd b) : a = b := by
  cases a with
  | format a =>
    cases b with
    | format b => rw [message_inj (congrArg Prod.fst ht)]
    | io b => have := congrArg Prod.snd ht; simp [told] at this
  | io a =>
    cases b with
    | format b => have := congrArg Prod.snd ht; simp [told] at this
    | io b => rw [value_inj h (Option.some.inj (congrArg Prod.snd ht))]

/-- The same for the encoder. -/
def toldWriting (wr : Nat → IoValue) (e : EncodingError) : String × Option IoValue :=
  ((ErrValue.encoding e).display "" wr, match e with
    | .format _ => none
    | .io e => some (e.value wr))

/-- **C107** The errors of the encoder can be told apart, if those of the writer can be told from the encoder's and from each other. -/
theorem writing_told_apart {wr : Nat → IoValue}
    (own : ∀ c, ∀ e ∈ [EncodingIoErr.invalidInput, .unsupported, .writeZero, .outOfMemory], wr c ≠ e.value wr)
    (inj : ∀ c c', wr c = wr c' → c = c') {a b : EncodingError} (ht : toldWriting wr a = toldWriting wr b) : a = b := by
  cases a with
  | format a =>
    cases b with
    | format b =>
      have h : a.message = b.message := congrArg Prod.fst ht
      cases a <;> cases b <;> first | rfl | (revert h; simp only [EncodingFormatErr.message]; decide)
    | io b => have := congrArg Prod.snd ht; simp [toldWriting] at this
  | io a =>
    cases b with
    | format b => have := congrArg Prod.snd ht; simp [toldWriting] at this
    | io b =>
      have h : a.value wr = b.value wr := Option.some.inj (congrArg Prod.snd ht)
      cases a <;> cases b <;>
        first
        | rfl
        | (rw [inj _ _ h])
        | (simp only [EncodingIoErr.value, IoValue.mk.injEq, reduceCtorEq, false_and] at h; done)
        | (exact absurd h (own _ _ (by simp)))
        | (exact absurd h.symm (own _ _ (by simp)))

theorem extension_not {limit : MemoryLimit} {n : Spec.Descent.Notes} {l : List UInt8} :
    Spec.Descent.extension limit n l ≠ .error (.format .malformedHeader) := by
  intro h
  unfold Spec.Descent.extension Spec.Descent.payload Spec.Descent.Notes.finish Spec.Descent.cut at h
  grind

theorem lead_not {o : DecodeOptions} : ∀ (fuel : Nat) (first : Bool) (loops : Loops) (n : Spec.Descent.Notes) (l : List UInt8),
    Spec.Descent.lead o fuel first loops n l ≠ .error (.format .malformedHeader)
  | 0, _, _, _, _ => by simp [Spec.Descent.lead, Spec.Descent.cut]
  | _ + 1, _, _, _, [] => by simp [Spec.Descent.lead, Spec.Descent.cut]
  | fuel + 1, first, loops, n, t :: l => by
    intro h
    unfold Spec.Descent.lead at h
    split at h
    · split at h
      · rename_i e he
        cases h
        exact extension_not he
      · exact lead_not fuel _ _ _ _ h
    · split at h <;> cases h

theorem screen_not {l : List UInt8} (h : Spec.Descent.screen l = .error (.format .malformedHeader)) :
    6 ≤ l.length ∧ ¬ isSignature (l.take 6) := by
  unfold Spec.Descent.screen Spec.Descent.table Spec.Descent.item Spec.Descent.cut at h
  unfold isSignature
  grind

/-- **C107** "malformed GIF header" is the text of the error of `read_info` for exactly the files that have six bytes and are no GIF
files. -/
theorem not_a_gif {C : Codec} (K : C.Contract) (o : DecodeOptions) {r : Reader} (hr : r.Reliable) :
    (∃ e, (readInfo C o r).2 = .err e ∧ (ErrValue.decoding e).display lzw rd = "malformed GIF header") ↔
      6 ≤ r.bytes.length ∧ ¬ isSignature (r.bytes.take 6) := by
  constructor
  · rintro ⟨e, he, hd⟩
    have hm : e = .format .malformedHeader := by
      have hmay := open_errors K.safe o r e he
      cases e with
      | format e => rw [message_inj (b := .malformedHeader) hd]
      | io e =>
        cases e with
        | unexpectedEof => revert hd; simp only [ErrValue.display, IoErr.value]; decide
        | reader c =>
          obtain ⟨bs, hbs, -⟩ := hr _ hmay
          cases hbs
        | outOfMemory => exact hmay.elim
        | unsupported => exact hmay.elim
        | noEndCode => exact hmay.elim
        | invalidCode => exact hmay.elim
    subst hm
    rcases readInfo_session K o hr with ⟨h, -⟩ | ⟨e, h, hg⟩
    · rw [he] at h; cases h
    · rw [he] at h
      cases h
      unfold Spec.Descent.gif at hg
      split at hg
      · rename_i e hs
        cases hg
        exact screen_not hs
      · split at hg
        · rename_i e hs
          cases hg
          exact absurd hs (lead_not _ _ _ _ _)
        · cases hg
  · rintro ⟨h1, h2⟩
    exact ⟨_, other_files_rejected K o hr h1 h2, rfl⟩

/-- **C107** If the error of a call of a decoder has an `io::Error` in it that is none of those the decoder makes itself, it is one that the
reader returned. -/
theorem foreign_is_readers {C : Codec} (hS : C.Safe) {o : DecodeOptions} {r : Reader} {v : IoValue}
    (hv : v ∉ [IoErr.unexpectedEof, .outOfMemory, .unsupported, .noEndCode, .invalidCode].map (IoErr.value lzw rd)) {e : DecodingError}
    (hc : Chain lzw rd (.decoding e) (.io v)) :
    ((readInfo C o r).2 = .err e → ∃ c, .err c ∈ r.src ∧ v = rd c) ∧
    ∀ d : Decoder C, Reach o r d → (d.nextFrameInfo.2 = .err e → ∃ c, .err c ∈ r.src ∧ v = rd c) ∧
      (d.readNextFrame.2 = .err e → ∃ c, .err c ∈ r.src ∧ v = rd c) ∧
      ∀ buf, ((d.fillBuffer buf).2.2 = .err e → ∃ c, .err c ∈ r.src ∧ v = rd c) ∧
        ((d.readIntoBuffer buf).2.2 = .err e → ∃ c, .err c ∈ r.src ∧ v = rd c) := by
  have he : ∃ c, e = .io (.reader c) ∧ v = rd c := by
    cases hc with
    | next h ht =>
      cases e with
      | format e =>
        cases h
        cases ht with
        | next h ht => cases h; cases ht with | next h ht => cases h
      | io e =>
        cases h
        cases ht with
        | next h ht => cases h
        | here =>
          cases e with
          | reader c => exact ⟨c, rfl, rfl⟩
          | unexpectedEof => exact absurd (by simp) hv
          | outOfMemory => exact absurd (by simp) hv
          | unsupported => exact absurd (by simp) hv
          | noEndCode => exact absurd (by simp) hv
          | invalidCode => exact absurd (by simp) hv
  obtain ⟨c, rfl, rfl⟩ := he
  refine ⟨fun h => ⟨c, open_errors hS o r _ h, rfl⟩, fun d hd => ?_⟩
  obtain ⟨h1, h2, h3, h4, -⟩ := call_errors hS hd (.io (.reader c))
  exact ⟨fun h => ⟨c, h1 h, rfl⟩, fun h => ⟨c, (h2 h).1, rfl⟩, fun buf => ⟨fun h => ⟨c, h3 buf h, rfl⟩, fun h => ⟨c, (h4 buf h).1, rfl⟩⟩⟩

end Gif.Messages
