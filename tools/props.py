import json
P=[]
def p(title, statement, quantifier, why, anchors):
    P.append(dict(id="C%02d"%(len(P)+1), title=title, statement=statement, quantifier=quantifier, why_tests_cant=why, anchors=anchors))

D="src/reader/decoder.rs"; M="src/reader/mod.rs"; V="src/reader/converter.rs"; E="src/encoder.rs"; K="src/common.rs"
# 1
p("Header and metadata do not depend on how the reader splits the bytes",
  "Opening a GIF with DecodeOptions::read_info and scanning it with next_frame_info gives the same outcome (screen size, palettes, background colour, repeat count, every frame's metadata, or the same error) whatever sizes the io::Read hands its bytes over in.",
  "every byte string, valid or not, every way of cutting it into non-empty reads, every decode option",
  "tests cut a handful of sample files into chunks of 1, 2 and 3 bytes; the claim is about all cuts of all byte strings, including malformed ones",
  [f"{D}:StreamingDecoder::update", f"{D}:StreamingDecoder::next_state", f"{M}:ReadDecoder::decode_next", f"{M}:Decoder::init", f"{M}:Decoder::next_frame_info"])
# 2
p("Raw LZW frames do not depend on how the reader splits the bytes",
  "With skip_frame_decoding(true), read_next_frame returns the same frames and the same compressed buffer (or the same error) for every way of cutting the input into reads.",
  "every byte string, every way of cutting it, every memory limit",
  "the number of internal copy events depends on the cut; only a proof covers all cuts",
  [f"{M}:Decoder::copy_lzw_into_buffer", f"{D}:OutputBuffer::append", f"{D}:State::CopySubBlock"])
# 3
p("Decoded pixels do not depend on how the reader splits the bytes",
  "read_next_frame returns the same pixels for every way of cutting the input into reads.",
  "every byte string, every way of cutting it, every colour mode; every LZW decompressor that keeps its contract",
  "pixel data passes through an incremental decompressor with pending output, so the intermediate states differ for every cut",
  [f"{D}:State::DecodeSubBlock", f"{D}:LzwReader::decode_bytes", f"{V}:PixelConverter::fill_buffer"])
# 4
p("A well-formed GIF decodes to exactly the frames it describes",
  "For a file that follows the GIF89a grammar, read_info reports its screen size, global palette, background index and loop count, and successive read_next_frame calls return one frame per image descriptor, in order, with the position, size, delay, disposal, transparency, user-input flag and local palette written in the file and the pixels its LZW data expands to, then Ok(None).",
  "every file of the grammar: any number of frames and extensions, any palettes, any sub-block partition of the data, any read schedule",
  "the grammar has unboundedly many files",
  [f"{D}:StreamingDecoder::next_state", f"{D}:StreamingDecoder::read_control_extension", f"{M}:Decoder::read_next_frame"])
# 5
p("Encode then decode returns the same animation",
  "Writing any sequence of valid frames with Encoder and decoding the result gives back the same number of frames in the same order with the same metadata and the same pixels.",
  "every canvas size, every global palette, every list of frames whose buffers hold at least width*height pixels, every read schedule",
  "roundtrip tests use a few sample images",
  [f"{E}:Encoder::write_frame", f"{E}:Encoder::write_frame_header", f"{E}:lzw_encode", f"{M}:Decoder::read_next_frame"])
# 6
p("The loop count survives a round trip",
  "After Encoder::set_repeat(r) before the first frame, Decoder::repeat() returns r.",
  "every Repeat value (all 65536 finite counts and Infinite), every palette, canvas and following frames",
  "the encoding is not one-to-one at the byte level (0 means infinite, absence means zero) so the corner cases must be argued, not sampled",
  [f"{E}:Encoder::set_repeat", f"{E}:Encoder::write_extension", f"{D}:State::ApplicationExtension", f"{M}:Decoder::repeat"])
# 7
p("Palettes survive a round trip up to zero padding",
  "A global or local palette of 1 to 256 colours is read back with the same colours in front, followed only by black padding, and the padded length is the next power of two of at least two colours; longer palettes are rejected with TooManyColors.",
  "every palette byte string of every length",
  "tests try one colour pattern per size; the claim is about every length, including those not a multiple of three",
  [f"{E}:Encoder::check_color_table", f"{E}:Encoder::write_color_table", f"{E}:flag_size", f"{D}:State::GlobalPalette", f"{D}:State::LocalPalette"])
# 8
p("A truncated file yields a prefix of the frames and then an error",
  "If a file is cut at any byte, the decoder returns the first frames of the full file unchanged and then fails with UnexpectedEof: never a panic, a hang, an invented frame or a silent end of animation.",
  "every byte string, every cut point, every read schedule",
  "every truncation point of every file, not just of one sample",
  [f"{M}:ReadDecoder::decode_next", f"{D}:StreamingDecoder::update"])
# 9
p("StreamingDecoder::update always returns",
  "update terminates on every call, whatever bytes it is given and whatever the decoder's state.",
  "every decoder state reachable by any call history, every input slice, every output buffer",
  "termination for every input cannot be sampled; the loop runs while the buffer is non-empty and some transitions consume nothing",
  [f"{D}:StreamingDecoder::update", f"{D}:State::Trailer"])
# 10
p("update consumes only what it was given and makes progress",
  "update never reports more consumed bytes than the slice holds, reports Nothing only after consuming the whole slice, and a run of calls that re-presents the unconsumed bytes cannot return events forever without consuming input or producing output.",
  "every reachable state, every slice and output buffer",
  "an off-by-one in any of fifteen states is enough to stall on some input",
  [f"{D}:StreamingDecoder::update", f"{D}:StreamingDecoder::next_state"])
# 11
p("Decoding never panics",
  "No sequence of Decoder calls (read_info, next_frame_info, read_next_frame, fill_buffer, read_into_buffer, iteration) panics, whatever the input bytes, read schedule and read errors: no slice index out of range, no arithmetic underflow, no unwrap of None, no failed debug assertion.",
  "every input, every schedule with read errors, every history of API calls, every option",
  "fuzzing samples inputs; an invariant over all reachable states is needed",
  [f"{D}:StreamingDecoder::next_state", f"{D}:StreamingDecoder::current_frame_mut", f"{M}:Decoder::next_frame_info", f"{V}:PixelConverter::fill_buffer"])
# 12
p("Reading a frame always terminates",
  "read_info, next_frame_info, read_next_frame, read_into_buffer, fill_buffer and the iterator's next return after finitely many steps on every finite input.",
  "every input byte string and read schedule, every option",
  "tests/stall.rs runs a few files with a one-second timer",
  [f"{M}:ReadDecoder::decode_next", f"{M}:Decoder::init", f"{M}:Decoder::next_frame_info", f"{V}:PixelConverter::fill_buffer"])
# 13
p("The memory limit bounds the frame buffer",
  "With MemoryLimit::Bytes(n), no frame returned by read_next_frame has a buffer longer than n bytes, in pixel mode and in skip_frame_decoding mode; a larger frame is an error.",
  "every input, every limit, every mode",
  "resource limits must hold for adversarial files",
  [f"{M}:MemoryLimit::check_size", f"{M}:MemoryLimit::buffer_size", f"{V}:PixelConverter::check_buffer_size", f"{D}:OutputBuffer::append"])
# 14
p("The memory limit bounds stored extension data",
  "With MemoryLimit::Bytes(n), the extension data returned by last_ext is never longer than n bytes.",
  "every input, every cut of it, every limit, every point of the history",
  "the check is repeated at every partial copy and unknown blocks append without clearing",
  [f"{D}:State::ExtensionDataBlock", f"{D}:State::ExtensionBlockStart", f"{M}:MemoryLimit::check_size"])
# 15
p("check_frame_consistency accepts exactly the frames inside the canvas",
  "With check_frame_consistency(true) a frame is rejected exactly when left+width exceeds the screen width or top+height exceeds the screen height; with false it is never rejected for its position.",
  "all 2^96 combinations of canvas and frame geometry",
  "the comparison of Option<u16> values has a None case; all geometries cannot be enumerated",
  [f"{D}:State::ImageBlockStart", f"{M}:DecodeOptions::check_frame_consistency"])
# 16
p("Interlaced rows are visited in GIF order, each exactly once",
  "For an interlaced frame of height h the decoder fills rows 0,8,16,..., then 4,12,..., then 2,6,..., then 1,3,5,...; every row below h is filled exactly once.",
  "every height from 0 to 65535",
  "the unit test lists heights 0 to 17 and the last row for 65535",
  [f"{V}:InterlaceIterator", f"{V}:PixelConverter::read_into_buffer"])
# 17
p("Deinterlacing places the k-th decoded line on the k-th row of the interlace order",
  "For an interlaced frame the buffer returned by read_next_frame holds, at row interlace_order[k], exactly the k-th line of decoded pixels; for a non-interlaced frame the lines are in file order.",
  "every width and height, every pixel stream, both colour modes",
  "every geometry and every content",
  [f"{V}:PixelConverter::read_into_buffer", f"{V}:PixelConverter::read_frame"])
# 18
p("RGBA output is the palette lookup of indexed output",
  "With ColorOutput::RGBA each pixel is the three bytes of its palette entry followed by 0 if its index is the transparent index and 255 otherwise; the local palette is used when present, otherwise the global one; pixels whose index is outside the palette come out of read_next_frame as four zero bytes.",
  "every index stream, every palette length, every transparent index",
  "all palettes and index streams",
  [f"{V}:PixelConverter::fill_buffer"])
# 19
p("fill_buffer in pieces equals reading at once",
  "After next_frame_info, consecutive fill_buffer calls with buffers of any sizes return consecutive pieces of the same pixel stream that read_into_buffer returns for a non-interlaced frame, and true is returned exactly while the stream fills the buffer.",
  "every partition of the frame into buffers, every read schedule, every LZW decompressor that keeps its contract",
  "all partitions cannot be tried",
  [f"{M}:Decoder::fill_buffer", f"{V}:PixelConverter::fill_buffer"])
# 20
p("Every pixel fits the chosen LZW code size",
  "The minimum code size the encoder writes is between 2 and 8 and every index in the frame buffer is below 2^size; size 2 is used when all indices are below 4, otherwise the size is the smallest that fits.",
  "every pixel buffer of every length",
  "the scan stops early at the first byte above 127; correctness for all buffers needs an argument",
  [f"{E}:lzw_encode"])
# 21
p("Pre-encoding a frame does not change the file",
  "make_lzw_pre_encoded followed by write_lzw_pre_encoded_frame writes byte for byte what write_frame writes for the same frame, and frames may be pre-encoded in any order.",
  "every frame accepted by write_frame, every encoder state, every writer fault",
  "equality of two code paths on all inputs",
  [f"{E}:Frame::make_lzw_pre_encoded", f"{E}:Encoder::write_lzw_pre_encoded_frame", f"{E}:Encoder::write_frame"])
# 22
p("FrameDecoder inverts make_lzw_pre_encoded",
  "FrameDecoder::decode_lzw_encoded_frame on a frame produced by make_lzw_pre_encoded restores the original pixels (Indexed) for every non-interlaced frame with width*height > 0 pixels within the memory limit.",
  "every frame size and content",
  "round trip over all inputs",
  [f"{D}:FrameDecoder::decode_lzw_encoded_frame", f"{D}:FrameDecoder::decode_lzw_encoded_frame_into_buffer", f"{E}:Frame::make_lzw_pre_encoded"])
# 23
p("Skipped frames decode later to the same pixels",
  "Reading a frame with skip_frame_decoding(true) and expanding it with FrameDecoder gives the same pixels as reading it directly.",
  "every well-formed file, every sub-block partition and read schedule",
  "equality of two pipelines on all files",
  [f"{D}:FrameDecoder::decode_lzw_encoded_frame", f"{M}:Decoder::copy_lzw_into_buffer", f"{M}:Decoder::read_next_frame"])
# 24
p("Rewriting a GIF without re-encoding preserves it",
  "Frames read with skip_frame_decoding(true) and written with write_lzw_pre_encoded_frame give a file that decodes to the same frames (metadata, palettes, compressed data).",
  "every well-formed file with palettes, any number of frames",
  "tests rewrite two sample files",
  [f"{M}:Decoder::copy_lzw_into_buffer", f"{E}:Encoder::write_lzw_pre_encoded_frame", f"{E}:Encoder::write_encoded_image_block"])
# 25
p("Compressed data is framed in legal sub-blocks",
  "Image data and raw extension data are written as sub-blocks of 1 to 255 bytes that concatenate to the data, followed by a single zero byte; no zero-length sub-block appears before the end.",
  "every data length",
  "exact multiples of 255 and empty data are corner cases of an unbounded family",
  [f"{E}:Encoder::write_encoded_image_block", f"{E}:Encoder::write_raw_extension"])
# 26
p("A rejected frame leaves no bytes behind",
  "If write_frame or write_lzw_pre_encoded_frame returns a format or invalid-input error, nothing has been written to the output.",
  "every frame and encoder state",
  "all rejection paths of all frames",
  [f"{E}:Encoder::write_frame", f"{E}:Encoder::write_frame_header", f"{E}:Encoder::write_lzw_pre_encoded_frame"])
# 27
p("A rejected frame does not disturb later frames",
  "If a frame is rejected with a format error and the caller goes on writing other frames, the file decodes to exactly the accepted frames.",
  "every interleaving of accepted and rejected frames",
  "histories of any length",
  [f"{E}:Encoder::write_frame_header", f"{D}:StreamingDecoder::read_control_extension"])
# 28
p("A failing writer sees only a prefix of the file",
  "If the writer fails at any byte, the call returns that I/O error and the bytes written so far are a prefix of what a faultless writer would have received.",
  "every fault point, every sequence of encoder calls up to the first failure",
  "every crash point of every history",
  [f"{E}:Encoder::write_extension", f"{E}:Encoder::write_encoded_image_block", f"{E}:Encoder::write_color_table"])
# 29
p("The trailer is written exactly once",
  "With a working writer, finishing an encoder by into_inner or by drop appends exactly one trailer byte, and into_inner followed by the drop of the moved-out encoder does not write a second one.",
  "every history of encoder calls before the end",
  "all histories and both ways of finishing",
  [f"{E}:Encoder::into_inner", f"{E}:Encoder::write_trailer", f"{E}:Drop for Encoder"])
# 30
p("A failed Encoder::new writes nothing",
  "If Encoder::new returns an error because the global palette is too large, nothing has been written to the writer.",
  "every palette, canvas and writer",
  "the error path runs the destructor; all inputs that reach it must be considered",
  [f"{E}:Encoder::new", f"{E}:Encoder::write_global_palette", f"{E}:Drop for Encoder"])
# 31
p("from_rgb and from_rgba are lossless up to 256 colours",
  "If a frame has at most 256 distinct colours after alpha is reduced to 0 or 255, from_rgba/from_rgb builds a palette of exactly those colours and every pixel's palette entry is its original RGB value.",
  "every image of every size with at most 256 colours",
  "all images; the palette is built through a hash set, a sort and a zip with 0..=255",
  [f"{K}:Frame::from_rgba_speed", f"{K}:Frame::from_rgb_speed"])
# 32
p("from_rgba keeps the transparency mask",
  "A pixel is decoded as transparent exactly when its alpha was zero.",
  "every RGBA image with at most 256 colours",
  "all images, including those whose transparent pixels carry different RGB values",
  [f"{K}:Frame::from_rgba_speed"])
# 33
p("True-colour images survive the whole pipeline",
  "Frame::from_rgb, Encoder::write_frame and a Decoder in RGBA mode return the original pixels with alpha 255 for every image with at most 256 colours.",
  "every such image, every read schedule",
  "end-to-end claim over all images",
  [f"{K}:Frame::from_rgb_speed", f"{E}:Encoder::write_frame", f"{V}:PixelConverter::fill_buffer"])
# 34
p("Frame constructors panic exactly as documented",
  "from_palette_pixels panics exactly when the pixel count differs from width*height or the palette exceeds 768 bytes; from_indexed_pixels exactly when the pixel count differs; from_rgba_speed exactly when the length differs from width*height*4 or speed is outside 1..=30; otherwise they return a frame with the given size, pixels and default metadata.",
  "every argument",
  "both directions of an equivalence over all arguments",
  [f"{K}:Frame::from_palette_pixels", f"{K}:Frame::from_indexed_pixels", f"{K}:Frame::from_rgba_speed", f"{K}:Frame::from_rgb_speed"])
# 35
p("Decoder events follow the documented protocol",
  "On every input the events of StreamingDecoder::update come in the order: background colour, global palette, then blocks; HeaderEnd at most once and before the first image; each extension block is BlockStart, sub-blocks, BlockFinished; each image is BlockStart, FrameMetadata, data events, DataEnd; BlockStart(Trailer) is the last event; current_frame() is available from BlockStart(Image) until DataEnd.",
  "every byte string, every cut of it, every choice of output buffers",
  "a language inclusion over unbounded event sequences",
  [f"{D}:Decoded", f"{D}:StreamingDecoder::update", f"{D}:StreamingDecoder::current_frame"])
# 36
p("Raw extensions survive a round trip",
  "An extension written with write_raw_extension is reported by StreamingDecoder with the same label and the same payload, and decoding continues at the next block.",
  "every known label, every list of payload slices of every length",
  "payloads are split at 255 bytes and the first length byte is kept in the payload, so all lengths matter",
  [f"{E}:Encoder::write_raw_extension", f"{D}:State::ExtensionBlockStart", f"{D}:State::ExtensionDataBlock", f"{D}:StreamingDecoder::last_ext"])
# 37
p("allow_unknown_blocks skips unknown blocks without side effects",
  "With allow_unknown_blocks(true), inserting an unknown block between two blocks of a file does not change the decoded frames, and its sub-blocks are reported with label 0.",
  "every file, every insertion point, every block content",
  "the effect depends on the whole preceding history",
  [f"{M}:DecodeOptions::allow_unknown_blocks", f"{D}:State::BlockStart", f"{D}:State::ExtensionDataBlock"])
# 38
p("The frame iterator is fused and agrees with read_next_frame",
  "Iterating the decoder yields exactly the frames read_next_frame would return, then at most one error, then None forever.",
  "every input, every number of next() calls",
  "all inputs, including frames with empty buffers",
  [f"{M}:DecoderIter::next", f"{M}:Decoder::take_current_frame"])
# 39
p("After the trailer the decoder stays at the end and leaves the rest of the stream unread",
  "Once read_next_frame has returned Ok(None), every later call returns Ok(None), the reader is not polled again, and into_inner gives back exactly the bytes that follow the trailer.",
  "every well-formed file with at least one frame, followed by any bytes, every read schedule",
  "all files and all suffixes",
  [f"{M}:ReadDecoder::decode_next", f"{M}:Decoder::into_inner", f"{D}:State::BlockEnd"])
# 40
p("bg_color is always a valid palette index",
  "When the file has a global palette, bg_color() is either None or an index of a colour of the global palette.",
  "every input",
  "all headers",
  [f"{M}:Decoder::init", f"{M}:Decoder::bg_color"])
# 41
p("A failed read can be retried",
  "If the underlying reader returns an error during next_frame_info, the call returns that error and a later next_frame_info continues as if the error had not happened.",
  "every input, every position and number of read errors",
  "every fault schedule",
  [f"{M}:ReadDecoder::decode_next", f"{M}:Decoder::next_frame_info"])
# 42
p("Control extension fields survive a round trip",
  "Delay, disposal method, user-input flag and transparent index written for a frame are read back unchanged; reserved disposal values read as Any.",
  "all 65536 delays, 4 disposals, both flags, all 257 transparency values; all 256 flag bytes on reading",
  "full product space; bit packing in two places",
  [f"{E}:ExtensionData::new_control_ext", f"{D}:StreamingDecoder::read_control_extension", f"{K}:DisposalMethod::from_u8"])
# 43
p("Metadata does not leak from one frame to the next",
  "A frame's delay, disposal, transparency, user-input flag and palette come only from its own descriptor and the control extensions since the previous frame; without a control extension they have default values.",
  "every file, every number of preceding frames",
  "a history property",
  [f"{D}:State::FrameDecoded", f"{D}:StreamingDecoder::add_frame", f"{D}:StreamingDecoder::read_control_extension"])
# 44
p("LZW state does not leak from one frame to the next",
  "The pixels of a frame depend only on its own code size and data, not on earlier frames, on whether earlier frames were read completely, partly or not at all, or on superfluous data in them.",
  "every file, every reading pattern of the earlier frames",
  "the decompressor object is reused across frames",
  [f"{D}:LzwReader::reset", f"{D}:State::LzwInit", f"{D}:State::DecodeSubBlock"])
# 45
p("check_lzw_end_code rejects data without an end code and only such data",
  "With check_lzw_end_code(true), image data that ends without the LZW end code is an error when it is read to the end, and files whose image data all carry an end code decode as without the option.",
  "every file, every reading pattern and read schedule",
  "depends on where the end code falls relative to reads",
  [f"{D}:LzwReader::decode_bytes", f"{M}:DecodeOptions::check_lzw_end_code"])
# 46
p("A frame without any palette is an error",
  "If a file has neither a global palette nor a local palette for a frame, next_frame_info and read_next_frame return an error for that frame; they never return a frame without a usable palette. The encoder likewise refuses such a frame.",
  "every input",
  "all inputs",
  [f"{M}:Decoder::next_frame_info", f"{E}:Encoder::write_frame_header"])
# 47
p("An animation without frames round-trips",
  "A file written by Encoder::new and finished without frames is accepted by the decoder and contains no frames.",
  "every canvas, palette and set of extensions",
  "all headers",
  [f"{E}:Encoder::new", f"{M}:Decoder::init", f"{D}:State::GlobalPalette"])
# 48
p("Empty frames round-trip",
  "A frame of zero width or height, which write_frame accepts, is read back as an empty frame.",
  "every zero-area geometry",
  "a boundary family of geometries",
  [f"{E}:Encoder::write_frame", f"{V}:PixelConverter::fill_buffer", f"{V}:PixelConverter::read_into_buffer"])
# 49
p("Superfluous pixel data is ignored",
  "Pixels beyond width*height in a frame buffer or in a frame's LZW data do not change the decoded frame or any later frame.",
  "every amount and content of superfluous data",
  "all suffixes",
  [f"{V}:PixelConverter::read_into_buffer", f"{D}:State::DecodeSubBlock", f"{E}:Encoder::write_frame"])
# 50
p("Buffer arithmetic is exact on 32-bit and 64-bit platforms",
  "buffer_size and line_length give width*height*channels and width*channels; the row offset computed while deinterlacing never overflows before the too-small-buffer check rejects it, also when usize has 32 bits.",
  "all frame geometries, both platform widths, all buffer lengths an allocation can have",
  "16 GiB frames cannot be allocated in tests, least of all on 32-bit targets",
  [f"{V}:PixelConverter::buffer_size", f"{V}:PixelConverter::line_length", f"{V}:PixelConverter::read_into_buffer", f"{M}:MemoryLimit::buffer_size"])
# 51
p("Parallel compression writes frames in order under every schedule",
  "The reordering queue of the parallel re-encoding pattern (examples/parallel.rs) writes every frame exactly once and in frame order for every arrival order of the compressed frames.",
  "every number of frames, every permutation of arrivals",
  "all schedules",
  ["examples/parallel.rs:main", f"{E}:Encoder::write_lzw_pre_encoded_frame"])
with open('/verif/properties.jsonl','w') as f:
    for x in P: f.write(json.dumps(x)+"\n")
print(len(P))
