# Formal model of image-rs/image-gif (crate `gif` 0.13.2)

Lean 4.33.0, `lake build` in `lean/`. `properties.jsonl` has the properties, `MANIFEST.json` the theorems for each of
them, `seeded/LOG.jsonl` the wrong programs the theorems were tried against.

## Layout

| directory (under `lean/Verif/`) | content |
|---|---|
| `Model/` | executable model of the Rust code, function by function; each definition cites file and lines |
| `Spec/` | what the theorems are stated with, free of the model's helpers: the GIF89a grammar with `render` and its meaning (`GifSyntax`, `Meaning`), interlace order, pictures, LZW contract, call histories and sessions |
| `Lemmas/` | invariants, step relations, simulation and refinement lemmas |
| `Ref/` | reference LZW codecs, proved to meet the contract: it is satisfiable, and witnesses can be computed in the kernel |
| `Props/` | the property theorems, with a concrete instance (`example`) beside each of them, in `…Cases.lean`, or in `Applied….lean`, where theorems are applied to particular objects |
| `Check/` | the tests of the repository, run on the model (`check.sh`); no proofs |

## Modelling decisions

* Bytes are `UInt8`, `u16` is `UInt16`, `usize`/`u64` is `Nat` (no overflow is possible at the sizes involved on a
  64-bit target; the places where a 32-bit `usize` matters are modelled separately in `Model/Platform.lean` for C50).
* `Result` is data. Panics (slice index, subtraction underflow, `unwrap`, `debug_assert!`) are an explicit outcome
  `panic`; loops carry fuel computed from the input and running out of fuel is an explicit outcome `diverge`, so
  termination is a theorem (no `diverge`), not an artefact of the encoding.
* `&mut self` becomes a returned state. The state after an error is modelled too.
* `io::Read` behind `io::BufReader` is a list of read results: a chunk of bytes (empty = end of file) or an error. All
  theorems quantify over this list: it is the schedule. `Reader.Reliable` means that no read fails.
* `io::Write` is a sink with a fault plan: for each `write_all`, succeed or accept some bytes and fail.
  A second model (`Model/Port.lean`) describes the writer by its `write` (portions, `Interrupted`, `Ok(0)`, errors);
  C87 proves that the two agree.
* The `weezl` crate (LZW) is not part of /repo and its source is not available here. It is a parameter `Codec` of
  the model. What is assumed about it are `Codec.Safe`, `Codec.Contract` and, for `FrameDecoder` only, `Prompt`
  (`Spec/LzwContract.lean`), always explicit hypotheses of the theorem that needs them. `Ref/` proves all of them of a
  GIF-LZW codec (`Ref.lzw`), and all but `Prompt 0` of a codec with a slow start (`Ref.slow`).
* `color_quant` (NeuQuant) is a parameter of `from_rgba_speed`. Only C53 assumes something about it: at most 256 colours,
  and indices of them (`NeuQuant.Lawful`, an explicit hypothesis).
* `Model/Converter.lean` leaves out the scratch buffer of RGBA output, and the bytes that the LZW decoder has written to the
  caller's buffer when it fails with an invalid code or a missing end code (there the buffer stays as it was). `Model/Scratch.lean`
  has both, and C73 proves that this makes no difference, except to the contents of a buffer of palette indices after an error, about
  which no theorem says anything.
* `HashSet`/`HashMap` are lists without duplicates; `sort_unstable` is insertion sort (the elements are distinct).

## Trusted base

* Lean's kernel and the three standard axioms `propext`, `Classical.choice`, `Quot.sound`; none is added. The axioms
  of each manifest theorem are listed in `AXIOMS.md` (output of `#print axioms`). There is no `sorry`, `native_decide` or
  `bv_decide`. Concrete counterexamples are evaluated by the kernel (`decide +kernel`).
* The reading of the Rust source that the model embodies; nothing here runs the Rust code. As a check of that reading,
  `check.sh` compiles the model with the reference codec and runs the tests of the repository on it
  (`lean/Verif/Check/Samples.lean`, about five minutes): every test of `tests/*.rs` and the unit tests of `src` pass, among
  them the checksums of all sample images in `tests/results.txt` and `round_trip`, which compares the encoder's file with the
  original byte for byte.
* `std`: `Vec`, `BufReader`, `write_all`, `HashSet`/`HashMap`, `sort_unstable`, slices behave as documented. Allocation
  succeeds, except in the theorems about its failure: `Model/Refuse.lean` has every `try_reserve` of the decoder with an allocator that
  may refuse (C76), `Model/Alloc.lean` the one for raw frames with its size (C71), and `Model/Build.lean` that of `write_frame` (C75).
  Allocations that abort the process or panic when they fail (`vec![0; n]`, `push`, `.expect("OOM")` in `make_lzw_pre_encoded`) are
  assumed to succeed.

Modelled: all of `src/common.rs`, `src/encoder.rs`, `src/traits.rs`, `src/reader/{mod,decoder,converter}.rs` with these
exceptions: `Debug` impls (`Display` and `Error::source` are in `Model/Messages.lean`; everywhere else each message is a constructor),
`write_le` for `u32` and `u64` (unused), capacities of vectors except where they decide something
(`Converter.frameBuffer`, palettes), failure of infallible allocations. Also modelled: the programs `examples/explode.rs`, `examples/parallel.rs` and
`examples/check.rs` without command line, file names, messages and `BufWriter`, and the loop of the fuzz target (Model/Examples).
Not modelled: `gif-c` (it does not fit this version of the crate: it uses types the crate no longer has), `gif-afl`,
benches, NeuQuant, the internals of weezl, panics inside dependencies, stack and heap exhaustion.

Debug assertions are modelled as panics, so the theorems are about a debug build with overflow checks; a release build
differs only where an assertion fails or a subtraction wraps, and it is proved that neither happens (C11) except in
`write_frame` with an inconsistent empty frame (its `debug_assert!`, C56). The one assertion that is not a panic in the model,
`debug_assert!(self.pass < 4)` of the interlace iterator, is proved not to fail (`interlace_assert`).

## What the properties say where the code does not do it

Where a property as stated is false of the code, the manifest has a negation with a concrete input, and a theorem with the
suffix `_partial` for what remains true. The findings:

| finding | theorem |
|---|---|
| after the trailer event `update` loops forever on a non-empty slice | C09 `update_hangs_after_trailer` |
| `update` with an empty output slice in skip mode returns events forever | C10 `update_stuck_on_empty_slice` |
| an extension without data swallows the following block | C04, C36, C39, C43 |
| image data without sub-blocks swallow what follows | C04 `grammar_fails_empty_image` |
| header directly followed by the trailer is rejected | C04, C47 |
| an unknown block after a graphic control extension is taken for one; its label is that of the last extension | C37 |
| unknown extension labels are an error even with `allow_unknown_blocks` | C37 `unknown_label_fails` |
| an unknown block between an application extension's data hides the loop count | C37 `unknown_hides_loops` |
| with invalid or truncated data, what is read depends on how the reader cuts the input | C03 |
| `check_lzw_end_code` rejects complete files whose frames are not read to the end of the data | C45, C03 |
| `fill_buffer` with an empty buffer loses the frame | C19 |
| in RGBA mode, pixels whose index is not in the palette leave what was in the caller's buffer | C66 `into_leaves_old_pixels` |
| `FrameDecoder` fails on short data if the codec gives no output on its first call | C22, C23 |
| interlaced frames are written without reordering their rows | C05 |
| `set_repeat(Finite(0))` does not cancel an earlier loop count | C06 |
| code size 1 is read but cannot be written | C24 |
| a rejected frame leaves a control extension behind | C26 |
| a failed `Encoder::new` writes a trailer | C28, C30 |
| transparent pixels of different colours do not stay transparent | C32 |
| the iterator goes on after `None` for an interlaced frame of height 0 | C38 |
| zero-area frames that are written cannot be read | C48 |
| an encoder's own file is rejected with `check_lzw_end_code` if its bytes arrive in small pieces | C45 `own_file_rejected` |
| `write_frame` panics in debug builds for a frame without area but with pixels, and so does dropping the encoder afterwards | C56 |
| the example `explode` makes a file that cannot be decoded from an interlaced frame without rows | C69 `explode_no_pixels` |
| the example `explode` reports success although the end of a file could not be written (the encoder is dropped, `raii_no_panic`) | C69 `explode_loses_error` |
| the example `parallel` panics if a frame of the input cannot be decompressed, also where the decoder only reports an error | C70 `reencode_panics`, `reencode_panics_on_short_data` |
| the example `parallel` makes files that cannot be read from inputs without frames or with an interlaced frame without rows | C70 `reencode_no_frames`, `reencode_no_pixels` |
| `read_next_frame` with `skip_frame_decoding` reserves width × height / 4 bytes, up to a gigabyte, whatever the memory limit | C71 `raw_reserve_ignores_limit` |
| `write_frame` writes the header of the frame before it asks for memory: after `OutOfMemory` no later frame of the file can be read | C75 `out_of_memory`, `oom_unreadable` |
| after `OutOfMemory` a decoder cannot go on: `update` does not tell what it had consumed before, so that the next call reads from a wrong place and may report a frame that is not there | C76 `refusal_derails`, `refused_later_step` |
| with `skip_frame_decoding`, a decoder that goes on after a frame over the memory limit may report a frame that is not there (without this option it can go on) | C77 `raw_oversized_derails` |
| `buffer_size` panics on 32-bit platforms for huge RGBA frames | C50 |

## Assumptions about weezl

`Codec.Contract` says that output does not depend on how input and output are cut, that there is progress, that held-back
output comes out without further input, when `Done`/`Ok`/`NoProgress`/`InvalidCode` are reported, and that the decoder
inverts the encoder. These are what weezl documents or what the crate depends on. Doubtful points: whether the first call
gives output (hence `Prompt`, C22/C23), and what is delivered before an invalid code is reported (the contract leaves it
open, and C03 is false there even for the reference codec).

## Per property

The theorems themselves are named in `MANIFEST.json`; files are under `lean/Verif/Props/`.

| id | status | what is modelled and how it is proved | files |
|---|---|---|---|
| C01 | proved | `update`/`decode_next`/`init`/`next_frame_info` over arbitrary read results; split lemma for one `next_state` call, lifted by induction over the reads | Chunks |
| C02 | proved | same, plus induction over the copy loop of raw data; any mixture of calls | Chunks |
| C03 | partial | sessions related by what the codec contract says of the remaining data (`Lemmas/Sim`, `Uphold`); false in three ways (invalid code, truncation, end-code check), each with a negation; what holds for every file is `sessions_agree` | Agree, Film |
| C04 | partial | abstract syntax of GIF files with `render` and `Meaning`; decoder run on `render g ++ rest` by induction over the blocks; three negations for legal files that are misread | Descent, Grammar, GrammarCases |
| C05 | partial | encoder output equals `render` of a syntax tree for every call list; composed with C04; false for interlaced frames (negation) | OwnFiles, RoundTrip, RoundTripApi, RoundTripCases |
| C06 | partial | corollary of C05 machinery; false if `set_repeat(Finite(0))` follows another loop count (negation) | RoundTripApi, RoundTripCases |
| C07 | proved | arithmetic of `flag_size`/padding for all lengths, composed with the palette states | RoundTripApi |
| C08 | partial | reads of a prefix + C01/C03 machinery; equality of errors false after an invalid code (negation) | Agree, Chunks, Film, GivenCases |
| C09 | partial | fuel bound for every state but `Trailer`; false of the code in `Trailer` (negation) | Streaming |
| C10 | partial | case analysis per state, measure; false for an empty output slice in skip mode (negation) | Streaming |
| C11 | proved | invariant over all states, induction over API histories | Safety |
| C12 | proved | no `diverge` outcome, by a measure on state and remaining bytes | Safety |
| C13 | proved | invariant of `check_buffer_size` and the frame buffer, all histories | Safety |
| C14 | proved | invariant of `ext.data`, all histories | Streaming |
| C15 | proved | every image of every file of the grammar, all geometries; exact error otherwise | Grammar |
| C16 | proved | iterator unrolled to four arithmetic progressions for every height; permutation of the rows | Pixels |
| C17 | proved | loop invariant of `read_into_buffer` over an abstract pixel source; then for the decoder on any bytes after any calls | Film, Given, Pixels, Tint |
| C18 | proved | lookup lemma per pixel; then simulation of the RGBA session by the indexed one | Film, Given, Pixels, Tint |
| C19 | partial | induction over the partition; `fill_buffer` with an empty buffer loses the frame (negation) | Film, Given |
| C20 | proved | induction over the scan; power-of-two arithmetic | EncoderIo |
| C21 | proved | equality of the two write paths for every sink and session | EncoderIo |
| C22 | partial | codec contract with `Prompt`; refuted for a codec with a slow start (negation) | Expand, FrameDecoder, FrameDecoderCases |
| C23 | partial | C22 composed with sessions; same negation For `expand_agrees`, sources that end are replaced by sources that fail (`Callback.strict`), which does not change a successful result. | Expand, FrameDecoder, FrameDecoderCases |
| C24 | partial | C04 and C05 machinery for files of the grammar, and `Transcode` for arbitrary byte strings; false for code size 1 (negation) | Rewrite, RoundTripCases, Transcode |
| C25 | proved | induction on the data | EncoderIo |
| C26 | partial | false of the code (the control extension is written first): negation and exact residue | EncoderIo |
| C27 | proved | composed with C04: stray control extensions are overwritten | RoundTrip |
| C28 | partial | induction over writes with the fault plan; false for `Encoder::new` (negation) | EncoderIo, Honest |
| C29 | proved | encoder lifecycle with `Drop` and `into_inner` | EncoderIo |
| C30 | partial | false of the code (negation), exact residue proved | EncoderIo |
| C31 | proved | `from_rgba_speed` with sets as duplicate-free lists | Frames |
| C32 | partial | list induction over the colour table; exact set of transparent pixels (Props/Mask.lean) | Frames, Mask |
| C33 | proved | C31, C05 and C18 composed | Pipeline |
| C34 | proved | case analysis, both directions | Frames |
| C35 | proved | protocol automaton simulated by the state machine, all event sequences | Streaming |
| C36 | partial | event-level run over a rendered extension, all slicings; false for empty payloads and as to the extra byte (negations) | ExtensionCases, Extensions |
| C37 | partial | unknown blocks in the grammar; false after a control extension, without data, and as to the label (negations) | ExtensionCases, Extensions, Unknown |
| C38 | partial | lock-step of iterator and calls; false for interlaced frames of height 0 (negation), with the exact behaviour for all files (Props/Iterator.lean) | Iterator, Safety |
| C39 | partial | the end is an invariant; leftover bytes by C04; false after an empty extension (negation) | Grammar, GrammarCases, Safety |
| C40 | proved | invariant of `init` | Safety |
| C41 | proved | error steps leave the decoder unchanged; simulation by the reader without errors | Chunks |
| C42 | proved | all field values (finite domains by kernel computation, 16-bit by arithmetic), through encoder and decoder | RoundTripApi |
| C43 | partial | C04's meaning is compositional; false after an empty extension (negation) | Grammar, GrammarCases |
| C44 | proved | sessions of single frames embedded in sessions of whole files, any bytes and calls | Film, Given |
| C45 | partial | simulation between the sessions with and without the option; false as to 'only' when data is skipped or arrives in pieces (negations, also for the encoder's own files) | EndCode, Film, OwnFiles, Strict |
| C46 | proved | case analysis over `next_frame_info`; encoder side by the write path | EncoderIo, Safety |
| C47 | partial | corollary of the round trip; header walk for files without blocks (Props/NoBlocks.lean) | NoBlocks, RoundTripApi, RoundTripCases |
| C48 | partial | false except with `skip_frame_decoding` (negation) | RoundTrip, RoundTripCases, ZeroArea |
| C49 | partial | corollary of C03/C04 machinery; false with the end-code check (negation) | Film, Given, GivenCases |
| C50 | partial | arithmetic with a platform parameter; one panic on 32 bits (negation) | Platform |
| C51 | proved | queue invariant over all arrival orders | Parallel |
| C52 | proved | simulation between sessions with two limits, any reader | GivenCases |
| C53 | proved | `from_rgba_speed` with a quantizer that meets its contract; composed with the encoder | Images |
| C54 | proved | encoder output is `render` of a file that satisfies the grammar's side conditions | EncoderFile |
| C55 | proved | exact result of every call, both directions | EncoderFile |
| C56 | partial | all panics of the encoder located; one exists (negation) | EncoderFile |
| C57 | proved | simulation between sessions with laxer and stricter options, any reader | Strict |
| C58 | proved | invariant over all reachable decoders on what their frames look like, composed with C05 | Transcode |
| C59 | proved | Spec/Descent.lean is a recursive descent over the bytes. Each of its functions is related to a run of the state machine (Lemmas/Descent, DescentSeek), the runs to the loops of Decoder (DescentRun), by induction over the bytes and over the calls. | Descent |
| C60 | proved | Corollary of the total specification of C59; read_info gives the same with and without skip_frame_decoding by the simulation of Lemmas/Sim. | Descent |
| C61 | proved | Each update is a run of the state machine over the consumed bytes (Lemmas/Trace); the run over a byte string is unique, and so is what is told in it. | Events |
| C62 | proved | Invariant that relates state, buffers and accessors to the consumed bytes, kept by each step of the state machine. | Events |
| C63 | proved | The file is the rendering of a block list that is a function of the calls; reading back (C05, C10) gives calls with the same block list, because padding a palette is idempotent. | Again, AgainCases |
| C64 | proved | A decoder on the file without its trailer is compared with one on the whole file (Cut): should the former run out of bytes, the latter would have left at most the trailer, and after a frame less than that (Lemmas/Damage); then C08 for the continuation. | Damage, DamageCases |
| C65 | proved | Every loop of the model commutes with appending results to the reader unless it returns UnexpectedEof (Lemmas/Ahead); with C64 for the frames. | Ahead |
| C66 | partial | The calls of the data source depend only on the length of the buffer (Lemmas/Room, induction over the loops of the converter); the picture is painted over the old contents. | Buffers, ExpandCases |
| C67 | partial | The bytes of buffer and source together only lose a prefix in every call (Lemmas/Remain); streams by induction over the files with the end of the grammar theorems; Reader.wrap is a BufReader around a BufReader. | OwnStream, Stream |
| C68 | proved | A potential (bytes needed up to the next frame, by state) that falls by at most the bytes consumed; after a decoding error, which leaves the bytes unconsumed, it is at its maximum for the region of the file, or the decoder is in a state in which every further call fails (Lemmas/Cost). | Cost |
| C69 | partial | The program is modelled (Model/Examples). Frames a decoder returns are sound (Transcode), hence accepted by the encoder and read back; the loop ends because each frame costs input (C68). | Explode, ExplodeCases |
| C70 | partial | The program is modelled as a relation over arrival orders of the tasks (Model/Examples). The in-order queue makes the written sequence the list of items (Parallel), so the file is determined; raw frames expanded one by one are the frames read directly (C23), and pre-encoding a frame does not change the file (C21). | ReencodeCases, ReencodeFrames, ReencodeRun |
| C71 | partial | An invariant SD.Small (lengths of tables, extension buffer and frame) kept by every transition of the state machine (SD.Keeps), lifted to Decoder operations along Reach; the frame buffer is bounded by the check of the limit before it is allocated. The scratch buffer is followed in Model/Scratch, the reservation in Model/Alloc. | Memory, MemoryCases, Scratch |
| C72 | proved | The loops are modelled in Model/Examples with fuel of one more than the bytes of the input; C68 bounds the number of frames by the bytes, so the fuel is never used up. | ReadAll |
| C73 | proved | Model/Scratch has the converter with its scratch buffer and callbacks on slices; a simulation with the functions of Model/Converter, by induction over the loops (fillLoop_alike, readRows_alike). | Scratch |
| C74 | proved | Model/Build has write_frame with two switches, for the assertion and for the allocator. A session of a release build is simulated by one of a debug build in which frames without area are compressed first (tame_op), so that the theorems on debug builds carry over. | Build |
| C75 | proved | out_of_memory gives the bytes written; the file is then header, blocks and a torn descriptor, on which the reading of the specification Spec.Descent is computed (gif_blks, reading_torn in Lemmas/DescentGrammar), and C59 relates it to the decoder. | OutOfMemory |
| C76 | proved | Model/Refuse has the functions of the decoder with a list of answers of the allocator, one for each step of the state machine. Each is related to the ordinary function by RefuseRes: same state and result, or OutOfMemory after a refusal with the invariant kept; the relation goes through the converter by way of the data callback (Refuses). For safety the invariant of the decoder is weakened so that it holds after a refused local colour table (palette Some([])). | Refuse, RefuseCases |
| C77 | partial | Lemmas/NoOom: no function of the decoder but check_buffer_size gives OutOfMemory. For whole files, the calls with a limit are compared by the relaxation lemmas (C64) with calls without a limit in which next_frame_info takes the place of read_next_frame for large frames, and these by the specification of pixel decoding (C03) with calls of read_next_frame only. | Oversized, OversizedCases |
| C78 | proved | Spec/Work mirrors the loops of the model with a counter; Converter.*_over shows that the counter does not change the run. The potential is four times the unread bytes plus a rank of the state (C11): every step lowers it by one or makes a pixel (SD.tr_made), every call that does not fail is paid from it (perform_work), and the sum over a session is an induction (toil_le). For FrameDecoder a call of the callback is paid by the bytes it consumes and the pixels it makes, except for one that ends the data (Converter.*_toll). | ExpandWork, Work, WorkCases |
| C79 | proved | The setters are modelled one by one (Model/Setters.lean); induction on the list of calls from its end; the statements about additional calls are instances of C57. | Setters |
| C80 | proved | Model/Access.lean: get_mut applies any function of the writer. A call does the same on a writer that has accepted more before (EncOp.run_after, by the lists of writes of C28), so taking bytes commutes with calls (runTaking_after); the file is the concatenation of what each call writes alone (past_file). | Access |
| C81 | proved | Non-interference: a view of the decoder without the contents of the frame (SD.blur false), and one without the capacity of a palette that is not there (SD.blur true). Every arm of next_state gives the same result on a decoder and on its view, and views that agree (nextState_blur); induction over update and over the program. | Client |
| C82 | proved | Corollaries of encodeFile_eq (the file as a rendering of a syntax tree, C05), with the length of every part. | Size |
| C83 | proved | each step of the state machine names the state its error comes from; invariants over the event sequences of each call (Lemmas/Errors, Lemmas/ConvErrors, Props/Errors) | ErrorCases, Errors |
| C84 | proved | an invariant of decoder and reader buffer (RD.Halted) that every decode_next keeps while reporting the error; the few silent steps that can precede the error in the same update are classified (SD.silent_near), so that the byte the next call starts with is known (Lemmas/Final, Props/Final) | Final, FinalCases |
| C85 | proved | read_into_buffer and fill_buffer call the same source in the same way (fillLines, readRows_lines); then the theorem on mixed sessions (filmFrom_watch) is applied to the session that calls next_frame_info and fill_buffer for the bad frames and read_next_frame for the others (Spec/Salvage, Props/Salvage) | Salvage, SalvageCases |
| C86 | proved | the descriptions of decode_next and next_frame_info are shown to be functions (Lemmas/Unique); outside of the data of an image a step does not depend on the output buffer, and copied data are a part of what is passed over without a buffer (pull_slice); a frame can only be used up within its header, which only a call out of place reaches (pull_header); (Props/Misplaced) | Misplaced, MisplacedCases |
| C87 | proved | second model of the encoder on a writer with write (Model/Port.lean); simulation by a writer with write_all, built call by call (Props/Port.lean); which error is returned: Props/Honest.lean | Honest |
| C88 | proved | The programs are in Spec/Ways.lean. `read_into_buffer` on zeros is `fill_buffer` line by line by induction over the interlace iterator, with the invariant that the lines to come are still zero; `next_frame_info` does not look at the current frame; induction over the list of ways. | Ways |
| C89 | proved | The client programs are written out (Documented.calls, Documented.options); the file they make and the session that reads it come from the round-trip theorem, and the picture of a state through the global palette from picture_colors (Props/Documented.lean). | Documented |
| C90 | partial | Spec/Scene.lean describes heads by their length and pieces by what a decoder shows of them alone, without the grammar. By C59 (raw_reading) sessions are the recursive-descent reading; Lemmas/Scene.lean proves for each of its functions that success depends only on the bytes consumed, and characterises pieces by the inductive Way (extensions before an image). Pixels follow from the film theorem (filmFrom_screening), applied to the whole file and to each piece alone. | Scene, SceneCases, ScenePixels |
| C91 | proved | encodeFile_eq gives the file as a list of blocks; Lemmas/Unambiguous.lean proves by induction on blocks and sub-blocks that the bytes determine the blocks, up to control extensions written as raw extensions, which do not matter because every frame has its own. Pixels by determinism of the codec (K.det, K.roundtrip). | Unambiguous |
| C92 | proved | Reduction to C41: a decoder over a reader with pauses does step by step what the decoder over the reader with errors in their place does (Growing.info_hush, by induction on the loops of decode_next and next_frame_info), up to the error that is returned. | Growing |
| C93 | proved | Pauses are removed one at a time: up to the first pause the reader is reliable, the decoder returns the frames of the blocks so far (C64) and then comes to its end between two frames, where a failed next_frame_info can be resumed (Resume.lean: the big-step relation of decode_next continues from the state at the end of the reader); induction on the number of pauses and on the calls. What a writer has received after some calls is the beginning of the file at a block boundary (sent_eq, made_upTo). | Live |
| C94 | proved | A clip is a frame together with what read_next_frame gives at the same place of the same calls in RGBA mode (Spec/Join.lean). By C18 (rgba_session) these pixels are the lookup of the indices in the palette in force; by C58's invariant the frame is well formed; C05 (roundtrip_pixels) says what is read back. For compressed frames C03's theorem about the film of a file (filmFrom_screening) says what the data expand to in the source. | Join, JoinCases |
| C95 | proved | A call is a sequence of steps of the state machine over the bytes that are still to be consumed (Lemmas/Micro.lean). Invariant from the start of the file: the code size is the byte before, the LZW decoder is fit to be reset, the options are unchanged. Within an image: C01's relation Feed (what is still to come) for pixels, a relation Copying for compressed data, both kept by each step. | Drawing |
| C96 | proved | Every program is compared with a decoder that does not decode image data and has a fixed LZW decoder: outside image data with the deterministic big-step relation of C61 (Eval), in image data with C95's relations (Feed, Copying), and a leap from FrameMetadata to DataEnd that the sub-blocks determine. Both are deterministic, so of two programs one has come further than the other on the same path. | Gist |
| C97 | proved | A Decoder with skip_frame_decoding goes along the path of C96 that every careful program goes along, which is deterministic, so the i-th item of either is the same one. Without skip_frame_decoding, the program's calls are repeated on the file with missing bytes added and without memory limit, and C51/C52's theorem on what a frame must be is applied there. | TwoWays |
| C98 | proved | Each call consumes bytes, lowers a rank of at most three, or yields image data (C10); the image data are bounded because the images of a file are disjoint parts of it (the path of C96) and there are finitely many sublists of the file, each of which decodes to one output. A loop that is not left makes another call, so it is left. What it has at the end is compared with Decoder by C96 and C97. | Loop |
| C99 | proved | What a Decoder with skip_frame_decoding reads from such a file is known (C23); C98 says that the loop gets the same, and that it can only stop at the trailer. | OwnLoop |
| C100 | proved | read_info goes through the same events as the program (leaps_order); a fold over the events gives the fields of Decoder; the other way round by the theorem that a finished loop has nothing left to be told. | Heading |
| C101 | proved | An event depends only on the bytes up to it (eval_cut, leaps_swap), so the same events lead to the image in both files; after its data the decoder is in a state that does not depend on them, and the same bytes are left; the rest by determinism and by what a finished loop means. | Spoil |
| C102 | proved | By the recursive descent of C59, which all of Decoder with skip_frame_decoding is proved to follow: a relation between positions in the two files is kept by each of its functions; pixels by C04 for all files. | Remark |
| C103 | proved | As C102, by the recursive descent of C59; the second extension gives the same notes whatever was noted before. | LastWord |
| C104 | proved | As C102, by the recursive descent of C59; a relation between the positions in the two files is kept by each of its functions. | Alike |
| C105 | proved | As C104: a relation between the positions in the two files is kept by each function of the recursive descent of C59; then both films are expanded from their raw frames, whose delivery depends on the colours only through the table that applies. | Recolour |
| C106 | proved | As C105, with relations that keep less: of a graphic control extension only the transparent colour is followed, and only if colours are looked at. | Kindred |
| C107 | proved | Model/Messages gives each error its text and source. The chain by induction; differences of texts by cases over all constructors; the files by the descent of C59, in which no other part than the signature gives this error; the reader's errors by the lists of C83. | Messages |
