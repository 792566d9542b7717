import Verif.Props.Honest
/-!
# Cases for C87
-/

namespace Gif

/-- A writer that takes one byte, is interrupted twice, takes up to three bytes, then one again, then everything. -/
def choppy : Port := ⟨[], [.took 1, .interrupted, .interrupted, .took 3, .took 1]⟩

/-- The hypothesis of `portions_do_not_show` holds for it. -/
example : ∀ ev ∈ choppy.evs, ev = .interrupted ∨ ∃ n, ev = .took (n + 1) := by
  simp [choppy]

/-- An encoder on it, after a frame was written and the writer taken back. -/
def choppyFile : EOut Port :=
  ((runOpsP idCodec (PEncoder.new true choppy 1 1 [1, 2, 3]).1 [.setRepeat .infinite, .frame exFrame]).1.intoInner
    true).2

/-- The file is there, with nothing missing and nothing twice. -/
example : choppyFile = .ok ⟨[0x47, 0x49, 0x46, 0x38, 0x39, 0x61, 1, 0, 1, 0, 0x80, 0, 0, 1, 2, 3, 0, 0, 0,
    0x21, 0xFF, 11, 0x4E, 0x45, 0x54, 0x53, 0x43, 0x41, 0x50, 0x45, 0x32, 0x2E, 0x30, 3, 1, 0, 0, 0] ++
    ((exEncoder true []).writeFrame idCodec exFrame).1.w.elim [] (fun s => s.written.drop 1) ++ [0x3B], []⟩ := by
  decide +kernel

/-- A writer whose disk is full after five bytes: `write` takes four bytes, then one, then nothing. -/
def fullDisk : Port := ⟨[], [.took 4, .took 1, .took 0]⟩

example : (PEncoder.new true fullDisk 1 1 [1, 2, 3]).2 = .err (.io (.writer wroteNothing)) := by decide +kernel

/-- The five bytes; then the destructor adds a trailer (C28, C30), here because the writer recovers. -/
example : (PEncoder.new true fullDisk 1 1 [1, 2, 3]).1.w = some ⟨[0x47, 0x49, 0x46, 0x38, 0x39, 0x3B], []⟩ := by
  decide +kernel

/-- A call in the second case of `portions_error`: the error comes after an interruption and two bytes of ten. -/
def breaking : PEncoder where
  w := some ⟨[7], [.took 1, .took 6, .took 1, .interrupted, .took 2, .err 5]⟩
  globalPalette := true
  width := 1
  height := 1
  buffer := []

example : ((EncOp.frame exFrame).runP idCodec breaking).2 = .err (.io (.writer 5)) := by decide +kernel
example : ((EncOp.frame exFrame).runP idCodec breaking).1.w =
    some ⟨[7, 0x21, 0xF9, 4, 4, 0, 0, 0, 0, 0x2C, 0], []⟩ := by decide +kernel

/-- The second case of `first_error_returned`: of two planned failures the first one is returned, the second is still to
come. -/
example : ((EncOp.frame exFrame).run idCodec (exEncoder true [none, some (3, 5), some (1, 6)])).2 =
    .err (.io (.writer 5)) ∧
    ((EncOp.frame exFrame).run idCodec (exEncoder true [none, some (3, 5), some (1, 6)])).1.plan = [some (1, 6)] := by
  decide +kernel

end Gif
