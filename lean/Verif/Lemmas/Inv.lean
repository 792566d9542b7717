import Verif.Lemmas.Step
import Verif.Spec.LzwContract
/-!
The invariant of the streaming decoder.
-/

namespace Gif.SD

variable {C : Codec}

/-- Per state: what holds of the decoder's fields. -/
def stOk (s : SD C) : Prop :=
  match s.state with
  | .magic => s.gct = [] ∧ s.gctCap = 0 ∧ s.current = none ∧ s.headerEndReached = false
  | .screenDescriptor => s.gct = [] ∧ s.gctCap = 0 ∧ s.current = none ∧ s.headerEndReached = false
  | .globalPalette left => s.gct.length + left ≤ s.gctCap ∧ s.current = none ∧ s.headerEndReached = false
  | .blockStart _ => ∀ f, s.current = some f → f.palette = none
  | .blockEnd => ∀ f, s.current = some f → f.palette = none
  | .extensionBlockStart => s.extData = [] ∧ ∀ f, s.current = some f → f.palette = none
  | .extensionDataBlock _ => ∀ f, s.current = some f → f.palette = none
  | .applicationExtension => ∀ f, s.current = some f → f.palette = none
  | .trailer => ∀ f, s.current = some f → f.palette = none
  | .imageBlockStart => s.headerEndReached = true ∧ ∃ f, s.current = some f ∧ f.palette.getD [] = []
  | .localPalette left => s.headerEndReached = true ∧
      ∃ f, s.current = some f ∧ (0 < left → ∃ p, f.palette = some p ∧ p.length + left ≤ s.palCap)
  | .lzwInit _ => s.headerEndReached = true ∧ s.current.isSome
  | .decodeSubBlock _ => s.headerEndReached = true ∧ s.current.isSome ∧ s.skipFrameDecoding = false ∧ s.lzw.decoder.isSome
  | .copySubBlock _ => s.headerEndReached = true ∧ s.current.isSome ∧ s.skipFrameDecoding = true
  | .frameDecoded => s.headerEndReached = true ∧ s.current.isSome

/-- The invariant. -/
structure WF (s : SD C) : Prop where
  ibuf : ibufOk s
  ext : s.memoryLimit.sizeOk s.extData.length = true
  buf : ∀ f, s.current = some f → f.buffer = [] ∧ f.ownedCap = none
  st : stOk s

/-- States that are entered without consuming the byte (zero) they expect. -/
def peeks : State → Bool
  | .applicationExtension => true
  | .frameDecoded => true
  | _ => false

/-- The input fits the state. -/
def Look (s : SD C) (l : List UInt8) : Prop := peeks s.state = true → ∃ t, l = 0 :: t

theorem sizeOk_zero (m : MemoryLimit) : m.sizeOk 0 = true := by
  cases m <;> simp [MemoryLimit.sizeOk]

theorem sizeOk_one (m : MemoryLimit) : m.sizeOk 1 = true := by
  cases m with
  | unlimited => rfl
  | bytes n h => simp [MemoryLimit.sizeOk]; omega

theorem sizeOk_mono (m : MemoryLimit) {a b : Nat} (h : a ≤ b) (hb : m.sizeOk b = true) : m.sizeOk a = true := by
  cases m with
  | unlimited => rfl
  | bytes n h => simp [MemoryLimit.sizeOk] at *; omega

theorem wf_withOptions (o : DecodeOptions) : WF (withOptions C o) := by
  refine ⟨?_, sizeOk_zero _, by simp [withOptions], ?_⟩
  · simp [ibufOk, withOptions, required]
  · simp [stOk, withOptions]

theorem look_of_not_peeks {s : SD C} {l : List UInt8} (h : peeks s.state = false) : Look s l := by
  intro hp; rw [h] at hp; simp at hp

theorem reset_decoder {r r' : LzwReader C} {m : UInt8} (h : r.reset m = (r', .ok ())) : r'.decoder.isSome := by
  unfold LzwReader.reset at h
  split at h
  · split at h
    · split at h <;> (cases h; rfl)
    · cases h; rfl
  · cases h

theorem decodeBytes_decoder {r r' : LzwReader C} {inp : List UInt8} {o : OutSpec} {x : Outcome (Nat × List UInt8)}
    (h : r.decodeBytes inp o = (r', x)) (hd : r.decoder.isSome) : r'.decoder.isSome := by
  unfold LzwReader.decodeBytes at h
  cases hr : r.decoder with
  | none => rw [hr] at hd; simp at hd
  | some d =>
    rw [hr] at h
    cases o with
    | vec l => simp at h; rw [← h.1]; exact hd
    | slice c =>
      simp only at h
      split at h
      · cases h; rfl
      · cases h; rfl
      · split at h <;> (cases h; rfl)
      · cases h; rfl
    | none =>
      simp only at h
      split at h
      · cases h; rfl
      · cases h; rfl
      · split at h <;> (cases h; rfl)
      · cases h; rfl

/-- Space in the output buffer, as LZW sees it. -/
def OutSpec.cap : OutSpec → Nat
  | .slice c => c
  | .vec _ => 0
  | .none => 0

theorem decodeBytes_bounds (hS : C.Safe) {r r' : LzwReader C} {inp : List UInt8} {o : OutSpec} {n : Nat} {out : List UInt8}
    (h : r.decodeBytes inp o = (r', .ok (n, out))) : n ≤ inp.length ∧ out.length ≤ OutSpec.cap o ∧ ∀ l, o ≠ .vec l := by
  unfold LzwReader.decodeBytes at h
  cases hr : r.decoder with
  | none => rw [hr] at h; simp at h
  | some d =>
    rw [hr] at h
    cases o with
    | vec l => simp at h
    | slice c =>
      simp only at h
      have h1 := hS.consumed_le d inp c
      have h2 := hS.out_le d inp c
      split at h
      · cases h; exact ⟨h1, h2, by simp⟩
      · cases h; exact ⟨h1, h2, by simp⟩
      · split at h <;> cases h; exact ⟨h1, h2, by simp⟩
      · cases h
    | none =>
      simp only at h
      have h1 := hS.consumed_le d inp 0
      have h2 := hS.out_le d inp 0
      split at h
      · cases h; exact ⟨h1, h2, by simp⟩
      · cases h; exact ⟨h1, h2, by simp⟩
      · split at h <;> cases h; exact ⟨h1, h2, by simp⟩
      · cases h

theorem append_bounds {o : OutSpec} {buf copied : List UInt8} {m : MemoryLimit} {n : Nat}
    (h : append o buf m = .ok (n, copied)) : n ≤ buf.length ∧ copied.length ≤ n := by
  unfold append at h
  cases o with
  | slice c =>
    simp only [Outcome.ok.injEq, Prod.mk.injEq] at h
    obtain ⟨rfl, rfl⟩ := h
    simp only [List.length_take]; omega
  | vec l =>
    simp only at h
    split at h
    · simp only [Outcome.ok.injEq, Prod.mk.injEq] at h
      obtain ⟨rfl, rfl⟩ := h; omega
    · cases h
  | none =>
    simp only [Outcome.ok.injEq, Prod.mk.injEq] at h
    obtain ⟨rfl, rfl⟩ := h; simp

/-- Steps keep the invariant. -/
theorem tr_wf (hS : C.Safe) {o : OutSpec} {b : UInt8} {bs : List UInt8} {s s' : SD C} {n : Nat} {ev : Decoded}
    (hw : WF s) (h : Tr o b bs s s' n ev) : WF s' ∧ Look s' ((b :: bs).drop n) ∧ n ≤ (b :: bs).length := by
  obtain ⟨w1, w2, w3, w4⟩ := hw
  cases h with
  | collect h0 h =>
    refine ⟨⟨?_, w2, w3, w4⟩, look_of_not_peeks ?_, Nat.le_refl _⟩
    · unfold ibufOk
      simp only
      rw [if_neg h0, List.length_append]
      exact h
    · simp only
      cases hs : s.state <;> simp [hs, required, peeks] at h0 ⊢
  | magic v hs hi hl hv =>
    simp only [stOk, hs] at w4
    exact ⟨⟨by simp [ibufOk, required], w2, w3, w4⟩, look_of_not_peeks rfl, by omega⟩
  | screen w0 w1' h0 h1 flags bg asp hs hi hl hv =>
    simp only [stOk, hs] at w4
    obtain ⟨g1, g2, g3, g4⟩ := w4
    split
    · refine ⟨⟨by simp [ibufOk, required], w2, w3, ?_⟩, look_of_not_peeks rfl, by omega⟩
      simp only [stOk, g1, g2, g3, g4, List.length_nil, Nat.zero_add, and_self, and_true]
      omega
    · refine ⟨⟨by simp [ibufOk, required], w2, w3, ?_⟩, look_of_not_peeks rfl, by omega⟩
      simp [stOk, g1, g2, g3, g4]
  | imageHeader f l0 l1 t0 t1 w0 w1' h0 h1 flags hs hi hl hv hc hcons f' hf' =>
    simp only [stOk, hs] at w4
    obtain ⟨g1, f0, g2, g3⟩ := w4
    rw [hc] at g2; cases g2
    obtain ⟨b1, b2⟩ := w3 f hc
    split
    · refine ⟨⟨by simp [ibufOk, required], w2, ?_, ?_⟩, look_of_not_peeks rfl, by omega⟩
      · intro g hg; simp only [Option.some.injEq] at hg; subst hg; subst hf'; exact ⟨b1, b2⟩
      · simp only [stOk]
        refine ⟨g1, _, rfl, fun _ => ⟨_, rfl, ?_⟩⟩
        simp only [g3, List.length_nil, Nat.zero_add]
        omega
    · refine ⟨⟨by simp [ibufOk, required], w2, ?_, ?_⟩, look_of_not_peeks rfl, by omega⟩
      · intro g hg; simp only [Option.some.injEq] at hg; subst hg; subst hf'; exact ⟨b1, b2⟩
      · simp only [stOk]
        exact ⟨g1, _, rfl, fun h => by omega⟩
  | gctData left hs hl =>
    simp only [stOk, hs] at w4
    obtain ⟨g1, g2, g3⟩ := w4
    have hi : s.ibuf = [] := by simpa [ibufOk, hs, required] using w1
    split
    · refine ⟨⟨by simp [ibufOk, required, hi], w2, w3, ?_⟩, look_of_not_peeks rfl, by omega⟩
      simp only [stOk, List.length_append, List.length_take]
      exact ⟨by omega, g2, g3⟩
    · refine ⟨⟨by simp [ibufOk, required, hi], w2, w3, ?_⟩, look_of_not_peeks rfl, by omega⟩
      simp only [stOk]
      exact ⟨by omega, g2, g3⟩
  | gctEnd hs =>
    simp only [stOk, hs] at w4
    have hi : s.ibuf = [] := by simpa [ibufOk, hs, required] using w1
    refine ⟨⟨by simp [ibufOk, required, hi], w2, w3, ?_⟩, look_of_not_peeks rfl, by simp⟩
    simp [stOk, w4.2.1]
  | headerEnd t hs hh ht =>
    simp only [stOk, hs] at w4
    have hi : s.ibuf = [] := by simpa [ibufOk, hs, required] using w1
    exact ⟨⟨by simp [ibufOk, required, hi], w2, w3, w4⟩, look_of_not_peeks rfl, by simp⟩
  | image hs hh =>
    simp only [stOk, hs] at w4
    have hi : s.ibuf = [] := by simpa [ibufOk, hs, required] using w1
    have hadd : s.addFrame.ibuf = s.ibuf ∧ s.addFrame.extData = s.extData ∧ s.addFrame.memoryLimit = s.memoryLimit ∧
        s.addFrame.headerEndReached = s.headerEndReached ∧ s.addFrame.current = some (s.current.getD Frame.default) := by
      unfold addFrame; cases hc : s.current <;> simp [hc]
    obtain ⟨a1, a2, a3, a4, a5⟩ := hadd
    refine ⟨⟨by simp [ibufOk, required, hi, a1], by simp only [a2, a3]; exact w2, ?_, ?_⟩, look_of_not_peeks rfl, by simp⟩
    · intro f hf
      simp only [a5, Option.some.injEq] at hf
      subst hf
      cases hc : s.current with
      | none => exact ⟨rfl, rfl⟩
      | some g => exact w3 g hc
    · simp only [stOk, a4, a5]
      refine ⟨hh, _, rfl, ?_⟩
      cases hc : s.current with
      | none => rfl
      | some g => simp only [Option.getD_some]; rw [w4 g hc]; rfl
  | extension hs hb =>
    simp only [stOk, hs] at w4
    have hi : s.ibuf = [] := by simpa [ibufOk, hs, required] using w1
    exact ⟨⟨by simp [ibufOk, required, hi], sizeOk_zero _, w3, ⟨rfl, w4⟩⟩, look_of_not_peeks rfl, by simp⟩
  | trailer hs hh =>
    simp only [stOk, hs] at w4
    have hi : s.ibuf = [] := by simpa [ibufOk, hs, required] using w1
    exact ⟨⟨by simp [ibufOk, required, hi], w2, w3, w4⟩, look_of_not_peeks rfl, by simp⟩
  | unknown t hs hh ht ha =>
    simp only [stOk, hs] at w4
    have hi : s.ibuf = [] := by simpa [ibufOk, hs, required] using w1
    exact ⟨⟨by simp [ibufOk, required, hi], w2, w3, w4⟩, look_of_not_peeks rfl, by simp⟩
  | blockEndTrailer hs hb =>
    simp only [stOk, hs] at w4
    have hi : s.ibuf = [] := by simpa [ibufOk, hs, required] using w1
    exact ⟨⟨by simp [ibufOk, required, hi], w2, w3, w4⟩, look_of_not_peeks rfl, by simp⟩
  | blockEnd hs hb =>
    simp only [stOk, hs] at w4
    have hi : s.ibuf = [] := by simpa [ibufOk, hs, required] using w1
    exact ⟨⟨by simp [ibufOk, required, hi], w2, w3, w4⟩, look_of_not_peeks rfl, by simp⟩
  | extFirst hs =>
    simp only [stOk, hs] at w4
    have hi : s.ibuf = [] := by simpa [ibufOk, hs, required] using w1
    refine ⟨⟨by simp [ibufOk, required, hi], ?_, w3, w4.2⟩, look_of_not_peeks rfl, by simp⟩
    simp only [w4.1]
    exact sizeOk_one _
  | extData left hs hl hm =>
    simp only [stOk, hs] at w4
    have hi : s.ibuf = [] := by simpa [ibufOk, hs, required] using w1
    refine ⟨⟨by simp [ibufOk, required, hi], ?_, w3, w4⟩, look_of_not_peeks rfl, by omega⟩
    refine sizeOk_mono _ ?_ hm
    simp only [List.length_append, List.length_take]; omega
  | extEndApp hs hb he =>
    simp only [stOk, hs] at w4
    have hi : s.ibuf = [] := by simpa [ibufOk, hs, required] using w1
    exact ⟨⟨by simp [ibufOk, required, hi], w2, w3, w4⟩, fun _ => ⟨bs, by simp [hb]⟩, by simp⟩
  | extEndControl len flags d0 d1 trns hs hb he hd =>
    simp only [stOk, hs] at w4
    have hi : s.ibuf = [] := by simpa [ibufOk, hs, required] using w1
    refine ⟨⟨by simp [ibufOk, required, hi], w2, ?_, ?_⟩, look_of_not_peeks rfl, by simp⟩
    · intro f hf
      simp only [Option.some.injEq] at hf
      subst hf
      cases hc : s.current with
      | none => exact ⟨rfl, rfl⟩
      | some g => exact w3 g hc
    · intro f hf
      simp only [Option.some.injEq] at hf
      subst hf
      cases hc : s.current with
      | none => rfl
      | some g => exact w4 g hc
  | extEndOther hs hb he he' =>
    simp only [stOk, hs] at w4
    have hi : s.ibuf = [] := by simpa [ibufOk, hs, required] using w1
    exact ⟨⟨by simp [ibufOk, required, hi], w2, w3, w4⟩, look_of_not_peeks rfl, by simp⟩
  | extSub hs hb =>
    simp only [stOk, hs] at w4
    have hi : s.ibuf = [] := by simpa [ibufOk, hs, required] using w1
    exact ⟨⟨by simp [ibufOk, required, hi], w2, w3, w4⟩, look_of_not_peeks rfl, by simp⟩
  | appRepeat r0 r1 hs hb hl ht hr =>
    simp only [stOk, hs] at w4
    have hi : s.ibuf = [] := by simpa [ibufOk, hs, required] using w1
    exact ⟨⟨by simp [ibufOk, required, hi], w2, w3, w4⟩, look_of_not_peeks rfl, by simp⟩
  | appOther hs hb hn =>
    simp only [stOk, hs] at w4
    have hi : s.ibuf = [] := by simpa [ibufOk, hs, required] using w1
    exact ⟨⟨by simp [ibufOk, required, hi], w2, w3, w4⟩, look_of_not_peeks rfl, by simp⟩
  | lctData left f hs hl hc =>
    simp only [stOk, hs] at w4
    obtain ⟨g1, f0, g2, g3⟩ := w4
    rw [hc] at g2; cases g2
    obtain ⟨p, hp, hpl⟩ := g3 hl
    have hi : s.ibuf = [] := by simpa [ibufOk, hs, required] using w1
    obtain ⟨b1, b2⟩ := w3 f hc
    simp only [hp]
    rw [if_pos (by omega)]
    refine ⟨⟨by simp [ibufOk, required, hi], w2, ?_, ?_⟩, look_of_not_peeks rfl, by omega⟩
    · intro g hg; simp only [Option.some.injEq] at hg; subst hg; exact ⟨b1, b2⟩
    · simp only [stOk]
      refine ⟨g1, _, rfl, fun _ => ⟨_, rfl, ?_⟩⟩
      simp only [List.length_append, List.length_take]; omega
  | lctEnd hs =>
    simp only [stOk, hs] at w4
    obtain ⟨g1, f0, g2, g3⟩ := w4
    have hi : s.ibuf = [] := by simpa [ibufOk, hs, required] using w1
    exact ⟨⟨by simp [ibufOk, required, hi], w2, w3, ⟨g1, by simp [g2]⟩⟩, look_of_not_peeks rfl, by simp⟩
  | lzwPixels m lzw hs hk hr =>
    simp only [stOk, hs] at w4
    have hi : s.ibuf = [] := by simpa [ibufOk, hs, required] using w1
    exact ⟨⟨by simp [ibufOk, required, hi], w2, w3, ⟨w4.1, w4.2, hk, reset_decoder hr⟩⟩, look_of_not_peeks rfl, by simp⟩
  | lzwSkip m hs hk hm =>
    simp only [stOk, hs] at w4
    have hi : s.ibuf = [] := by simpa [ibufOk, hs, required] using w1
    exact ⟨⟨by simp [ibufOk, required, hi], w2, w3, ⟨w4.1, w4.2, hk⟩⟩, look_of_not_peeks rfl, by simp⟩
  | copy left consumed copied hs hk hl ha hc =>
    simp only [stOk, hs] at w4
    have hi : s.ibuf = [] := by simpa [ibufOk, hs, required] using w1
    have hb := (append_bounds ha).1
    simp only [List.length_take] at hb
    exact ⟨⟨by simp [ibufOk, required, hi], w2, w3, w4⟩, look_of_not_peeks rfl, by omega⟩
  | copyNext hs hk hb =>
    simp only [stOk, hs] at w4
    have hi : s.ibuf = [] := by simpa [ibufOk, hs, required] using w1
    exact ⟨⟨by simp [ibufOk, required, hi], w2, w3, w4⟩, look_of_not_peeks rfl, by simp⟩
  | copyEnd hs hk hb =>
    simp only [stOk, hs] at w4
    have hi : s.ibuf = [] := by simpa [ibufOk, hs, required] using w1
    exact ⟨⟨by simp [ibufOk, required, hi], w2, w3, ⟨w4.1, w4.2.1⟩⟩, fun _ => ⟨bs, by simp [hb]⟩, by simp⟩
  | decodeSkip left hs hk hl he =>
    simp only [stOk, hs] at w4
    have hi : s.ibuf = [] := by simpa [ibufOk, hs, required] using w1
    exact ⟨⟨by simp [ibufOk, required, hi], w2, w3, w4⟩, look_of_not_peeks rfl, by omega⟩
  | decode left consumed bytes lzw hs hk hl he ho hd n1 hn hc =>
    simp only [stOk, hs] at w4
    have hi : s.ibuf = [] := by simpa [ibufOk, hs, required] using w1
    have hb := (decodeBytes_bounds hS hd).1
    simp only [List.length_take] at hb
    refine ⟨⟨by simp [ibufOk, required, hi], w2, w3, ⟨w4.1, w4.2.1, hk, decodeBytes_decoder hd w4.2.2.2⟩⟩,
      look_of_not_peeks rfl, ?_⟩
    rw [hn]; split <;> omega
  | decodeNext hs hk hb =>
    simp only [stOk, hs] at w4
    have hi : s.ibuf = [] := by simpa [ibufOk, hs, required] using w1
    exact ⟨⟨by simp [ibufOk, required, hi], w2, w3, w4⟩, look_of_not_peeks rfl, by simp⟩
  | decodeFlush consumed bytes lzw hs hk hb hd hne =>
    simp only [stOk, hs] at w4
    have hi : s.ibuf = [] := by simpa [ibufOk, hs, required] using w1
    exact ⟨⟨by simp [ibufOk, required, hi], w2, w3, ⟨w4.1, w4.2.1, hk, decodeBytes_decoder hd w4.2.2.2⟩⟩,
      look_of_not_peeks rfl, by simp⟩
  | decodeEnd consumed lzw hs hk hb hd =>
    simp only [stOk, hs] at w4
    have hi : s.ibuf = [] := by simpa [ibufOk, hs, required] using w1
    exact ⟨⟨by simp [ibufOk, required, hi], w2, w3, ⟨w4.1, w4.2.1⟩⟩, fun _ => ⟨bs, by simp [hb]⟩, by simp⟩
  | frameDecoded hs hb =>
    simp only [stOk, hs] at w4
    have hi : s.ibuf = [] := by simpa [ibufOk, hs, required] using w1
    exact ⟨⟨by simp [ibufOk, required, hi], w2, by simp, by simp [stOk]⟩, look_of_not_peeks rfl, by simp⟩
  | trailerLoop hs => exact ⟨⟨w1, w2, w3, w4⟩, look_of_not_peeks (by rw [hs]; rfl), by simp⟩

end Gif.SD
