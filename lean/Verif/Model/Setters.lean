import Verif.Model.Decoder
/-!
# `src/reader/mod.rs:122-194, 251-264`: configuring a decoder
-/

namespace Gif

/-- A call of one of the methods of `DecodeOptions` that set an option. -/
inductive OptCall where
  /-- `set_color_output` -/
  | colorOutput (c : ColorOutput)
  /-- `set_memory_limit` -/
  | memoryLimit (m : MemoryLimit)
  /-- `check_frame_consistency` -/
  | frameConsistency (b : Bool)
  /-- `skip_frame_decoding` -/
  | skipFrames (b : Bool)
  /-- `check_lzw_end_code` -/
  | endCode (b : Bool)
  /-- `allow_unknown_blocks` -/
  | unknownBlocks (b : Bool)

namespace DecodeOptions

/-- `src/reader/mod.rs:124-126` `set_color_output` -/
def setColorOutput (o : DecodeOptions) (c : ColorOutput) : DecodeOptions := { o with colorOutput := c }

/-- `src/reader/mod.rs:129-131` `set_memory_limit` -/
def setMemoryLimit (o : DecodeOptions) (m : MemoryLimit) : DecodeOptions := { o with memoryLimit := m }

/-- `src/reader/mod.rs:143-145` `check_frame_consistency` -/
def setCheckFrameConsistency (o : DecodeOptions) (b : Bool) : DecodeOptions := { o with checkFrameConsistency := b }

/-- `src/reader/mod.rs:155-157` `skip_frame_decoding` -/
def setSkipFrameDecoding (o : DecodeOptions) (b : Bool) : DecodeOptions := { o with skipFrameDecoding := b }

/-- `src/reader/mod.rs:170-172` `check_lzw_end_code` -/
def setCheckLzwEndCode (o : DecodeOptions) (b : Bool) : DecodeOptions := { o with checkForEndCode := b }

/-- `src/reader/mod.rs:185-187` `allow_unknown_blocks` -/
def setAllowUnknownBlocks (o : DecodeOptions) (b : Bool) : DecodeOptions := { o with allowUnknownBlocks := b }

/-- Making the call. -/
def call (o : DecodeOptions) : OptCall → DecodeOptions
  | .colorOutput c => o.setColorOutput c
  | .memoryLimit m => o.setMemoryLimit m
  | .frameConsistency b => o.setCheckFrameConsistency b
  | .skipFrames b => o.setSkipFrameDecoding b
  | .endCode b => o.setCheckLzwEndCode b
  | .unknownBlocks b => o.setAllowUnknownBlocks b

/-- `DecodeOptions::new()` (or `Decoder::build()`, `src/reader/mod.rs:261-263`), and then the calls one after the other. -/
def configured (calls : List OptCall) : DecodeOptions := calls.foldl call .new

end DecodeOptions

variable (C : Codec)

/-- `src/reader/mod.rs:254-256` `Decoder::new` -/
def Decoder.new (r : Reader) : Decoder C × Outcome Unit := Decoder.readInfo C .new r

end Gif
