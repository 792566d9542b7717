{"id": "C01", "title": "Header and metadata do not depend on how the reader splits the bytes", "statement": "Opening a GIF with DecodeOptions::read_info and scanning it with next_frame_info gives the same outcome (screen size, palettes, background colour, repeat count, every frame's metadata, or the same error) whatever sizes the io::Read hands its bytes over in.", "quantifier": "every byte string, valid or not, every way of cutting it into non-empty reads, every decode option", "why_tests_cant": "tests cut a handful of sample files into chunks of 1, 2 and 3 bytes; the claim is about all cuts of all byte strings, including malformed ones", "anchors": ["src/reader/decoder.rs:StreamingDecoder::update", "src/reader/decoder.rs:StreamingDecoder::next_state", "src/reader/mod.rs:ReadDecoder::decode_next", "src/reader/mod.rs:Decoder::init", "src/reader/mod.rs:Decoder::next_frame_info"]}
{"id": "C02", "title": "Raw LZW frames do not depend on how the reader splits the bytes", "statement": "With skip_frame_decoding(true), read_next_frame returns the same frames and the same compressed buffer (or the same error) for every way of cutting the input into reads.", "quantifier": "every byte string, every way of cutting it, every memory limit", "why_tests_cant": "the number of internal copy events depends on the cut; only a proof covers all cuts", "anchors": ["src/reader/mod.rs:Decoder::copy_lzw_into_buffer", "src/reader/decoder.rs:OutputBuffer::append", "src/reader/decoder.rs:State::CopySubBlock"]}
{"id": "C03", "title": "Decoded pixels do not depend on how the reader splits the bytes", "statement": "read_next_frame returns the same pixels for every way of cutting the input into reads.", "quantifier": "every byte string, every way of cutting it, every colour mode; every LZW decompressor that keeps its contract", "why_tests_cant": "pixel data passes through an incremental decompressor with pending output, so the intermediate states differ for every cut", "anchors": ["src/reader/decoder.rs:State::DecodeSubBlock", "src/reader/decoder.rs:LzwReader::decode_bytes", "src/reader/converter.rs:PixelConverter::fill_buffer"]}
{"id": "C04", "title": "A well-formed GIF decodes to exactly the frames it describes", "statement": "For a file that follows the GIF89a grammar, read_info reports its screen size, global palette, background index and loop count, and successive read_next_frame calls return one frame per image descriptor, in order, with the position, size, delay, disposal, transparency, user-input flag and local palette written in the file and the pixels its LZW data expands to, then Ok(None).", "quantifier": "every file of the grammar: any number of frames and extensions, any palettes, any sub-block partition of the data, any read schedule", "why_tests_cant": "the grammar has unboundedly many files", "anchors": ["src/reader/decoder.rs:StreamingDecoder::next_state", "src/reader/decoder.rs:StreamingDecoder::read_control_extension", "src/reader/mod.rs:Decoder::read_next_frame"]}
{"id": "C05", "title": "Encode then decode returns the same animation", "statement": "Writing any sequence of valid frames with Encoder and decoding the result gives back the same number of frames in the same order with the same metadata and the same pixels.", "quantifier": "every canvas size, every global palette, every list of frames whose buffers hold at least width*height pixels, every read schedule", "why_tests_cant": "roundtrip tests use a few sample images", "anchors": ["src/encoder.rs:Encoder::write_frame", "src/encoder.rs:Encoder::write_frame_header", "src/encoder.rs:lzw_encode", "src/reader/mod.rs:Decoder::read_next_frame"]}
{"id": "C06", "title": "The loop count survives a round trip", "statement": "After Encoder::set_repeat(r) before the first frame, Decoder::repeat() returns r.", "quantifier": "every Repeat value (all 65536 finite counts and Infinite), every palette, canvas and following frames", "why_tests_cant": "the encoding is not one-to-one at the byte level (0 means infinite, absence means zero) so the corner cases must be argued, not sampled", "anchors": ["src/encoder.rs:Encoder::set_repeat", "src/encoder.rs:Encoder::write_extension", "src/reader/decoder.rs:State::ApplicationExtension", "src/reader/mod.rs:Decoder::repeat"]}
{"id": "C07", "title": "Palettes survive a round trip up to zero padding", "statement": "A global or local palette of 1 to 256 colours is read back with the same colours in front, followed only by black padding, and the padded length is the next power of two of at least two colours; longer palettes are rejected with TooManyColors.", "quantifier": "every palette byte string of every length", "why_tests_cant": "tests try one colour pattern per size; the claim is about every length, including those not a multiple of three", "anchors": ["src/encoder.rs:Encoder::check_color_table", "src/encoder.rs:Encoder::write_color_table", "src/encoder.rs:flag_size", "src/reader/decoder.rs:State::GlobalPalette", "src/reader/decoder.rs:State::LocalPalette"]}
{"id": "C08", "title": "A truncated file yields a prefix of the frames and then an error", "statement": "If a file is cut at any byte, the decoder returns the first frames of the full file unchanged and then fails with UnexpectedEof: never a panic, a hang, an invented frame or a silent end of animation.", "quantifier": "every byte string, every cut point, every read schedule", "why_tests_cant": "every truncation point of every file, not just of one sample", "anchors": ["src/reader/mod.rs:ReadDecoder::decode_next", "src/reader/decoder.rs:StreamingDecoder::update"]}
{"id": "C09", "title": "StreamingDecoder::update always returns", "statement": "update terminates on every call, whatever bytes it is given and whatever the decoder's state.", "quantifier": "every decoder state reachable by any call history, every input slice, every output buffer", "why_tests_cant": "termination for every input cannot be sampled; the loop runs while the buffer is non-empty and some transitions consume nothing", "anchors": ["src/reader/decoder.rs:StreamingDecoder::update", "src/reader/decoder.rs:State::Trailer"]}
{"id": "C10", "title": "update consumes only what it was given and makes progress", "statement": "update never reports more consumed bytes than the slice holds, reports Nothing only after consuming the whole slice, and a run of calls that re-presents the unconsumed bytes cannot return events forever without consuming input or producing output.", "quantifier": "every reachable state, every slice and output buffer", "why_tests_cant": "an off-by-one in any of fifteen states is enough to stall on some input", "anchors": ["src/reader/decoder.rs:StreamingDecoder::update", "src/reader/decoder.rs:StreamingDecoder::next_state"]}
{"id": "C11", "title": "Decoding never panics", "statement": "No sequence of Decoder calls (read_info, next_frame_info, read_next_frame, fill_buffer, read_into_buffer, iteration) panics, whatever the input bytes, read schedule and read errors: no slice index out of range, no arithmetic underflow, no unwrap of None, no failed debug assertion.", "quantifier": "every input, every schedule with read errors, every history of API calls, every option", "why_tests_cant": "fuzzing samples inputs; an invariant over all reachable states is needed", "anchors": ["src/reader/decoder.rs:StreamingDecoder::next_state", "src/reader/decoder.rs:StreamingDecoder::current_frame_mut", "src/reader/mod.rs:Decoder::next_frame_info", "src/reader/converter.rs:PixelConverter::fill_buffer"]}
{"id": "C12", "title": "Reading a frame always terminates", "statement": "read_info, next_frame_info, read_next_frame, read_into_buffer, fill_buffer and the iterator's next return after finitely many steps on every finite input.", "quantifier": "every input byte string and read schedule, every option", "why_tests_cant": "tests/stall.rs runs a few files with a one-second timer", "anchors": ["src/reader/mod.rs:ReadDecoder::decode_next", "src/reader/mod.rs:Decoder::init", "src/reader/mod.rs:Decoder::next_frame_info", "src/reader/converter.rs:PixelConverter::fill_buffer"]}
{"id": "C13", "title": "The memory limit bounds the frame buffer", "statement": "With MemoryLimit::Bytes(n), no frame returned by read_next_frame has a buffer longer than n bytes, in pixel mode and in skip_frame_decoding mode; a larger frame is an error.", "quantifier": "every input, every limit, every mode", "why_tests_cant": "resource limits must hold for adversarial files", "anchors": ["src/reader/mod.rs:MemoryLimit::check_size", "src/reader/mod.rs:MemoryLimit::buffer_size", "src/reader/converter.rs:PixelConverter::check_buffer_size", "src/reader/decoder.rs:OutputBuffer::append"]}
{"id": "C14", "title": "The memory limit bounds stored extension data", "statement": "With MemoryLimit::Bytes(n), the extension data returned by last_ext is never longer than n bytes.", "quantifier": "every input, every cut of it, every limit, every point of the history", "why_tests_cant": "the check is repeated at every partial copy and unknown blocks append without clearing", "anchors": ["src/reader/decoder.rs:State::ExtensionDataBlock", "src/reader/decoder.rs:State::ExtensionBlockStart", "src/reader/mod.rs:MemoryLimit::check_size"]}
{"id": "C15", "title": "check_frame_consistency accepts exactly the frames inside the canvas", "statement": "With check_frame_consistency(true) a frame is rejected exactly when left+width exceeds the screen width or top+height exceeds the screen height; with false it is never rejected for its position.", "quantifier": "all 2^96 combinations of canvas and frame geometry", "why_tests_cant": "the comparison of Option<u16> values has a None case; all geometries cannot be enumerated", "anchors": ["src/reader/decoder.rs:State::ImageBlockStart", "src/reader/mod.rs:DecodeOptions::check_frame_consistency"]}
{"id": "C16", "title": "Interlaced rows are visited in GIF order, each exactly once", "statement": "For an interlaced frame of height h the decoder fills rows 0,8,16,..., then 4,12,..., then 2,6,..., then 1,3,5,...; every row below h is filled exactly once.", "quantifier": "every height from 0 to 65535", "why_tests_cant": "the unit test lists heights 0 to 17 and the last row for 65535", "anchors": ["src/reader/converter.rs:InterlaceIterator", "src/reader/converter.rs:PixelConverter::read_into_buffer"]}
{"id": "C17", "title": "Deinterlacing places the k-th decoded line on the k-th row of the interlace order", "statement": "For an interlaced frame the buffer returned by read_next_frame holds, at row interlace_order[k], exactly the k-th line of decoded pixels; for a non-interlaced frame the lines are in file order.", "quantifier": "every width and height, every pixel stream, both colour modes", "why_tests_cant": "every geometry and every content", "anchors": ["src/reader/converter.rs:PixelConverter::read_into_buffer", "src/reader/converter.rs:PixelConverter::read_frame"]}
{"id": "C18", "title": "RGBA output is the palette lookup of indexed output", "statement": "With ColorOutput::RGBA each pixel is the three bytes of its palette entry followed by 0 if its index is the transparent index and 255 otherwise; the local palette is used when present, otherwise the global one; pixels whose index is outside the palette come out of read_next_frame as four zero bytes.", "quantifier": "every index stream, every palette length, every transparent index", "why_tests_cant": "all palettes and index streams", "anchors": ["src/reader/converter.rs:PixelConverter::fill_buffer"]}
{"id": "C19", "title": "fill_buffer in pieces equals reading at once", "statement": "After next_frame_info, consecutive fill_buffer calls with buffers of any sizes return consecutive pieces of the same pixel stream that read_into_buffer returns for a non-interlaced frame, and true is returned exactly while the stream fills the buffer.", "quantifier": "every partition of the frame into buffers, every read schedule, every LZW decompressor that keeps its contract", "why_tests_cant": "all partitions cannot be tried", "anchors": ["src/reader/mod.rs:Decoder::fill_buffer", "src/reader/converter.rs:PixelConverter::fill_buffer"]}
{"id": "C20", "title": "Every pixel fits the chosen LZW code size", "statement": "The minimum code size the encoder writes is between 2 and 8 and every index in the frame buffer is below 2^size; size 2 is used when all indices are below 4, otherwise the size is the smallest that fits.", "quantifier": "every pixel buffer of every length", "why_tests_cant": "the scan stops early at the first byte above 127; correctness for all buffers needs an argument", "anchors": ["src/encoder.rs:lzw_encode"]}
{"id": "C21", "title": "Pre-encoding a frame does not change the file", "statement": "make_lzw_pre_encoded followed by write_lzw_pre_encoded_frame writes byte for byte what write_frame writes for the same frame, and frames may be pre-encoded in any order.", "quantifier": "every frame accepted by write_frame, every encoder state, every writer fault", "why_tests_cant": "equality of two code paths on all inputs", "anchors": ["src/encoder.rs:Frame::make_lzw_pre_encoded", "src/encoder.rs:Encoder::write_lzw_pre_encoded_frame", "src/encoder.rs:Encoder::write_frame"]}
{"id": "C22", "title": "FrameDecoder inverts make_lzw_pre_encoded", "statement": "FrameDecoder::decode_lzw_encoded_frame on a frame produced by make_lzw_pre_encoded restores the original pixels (Indexed) for every non-interlaced frame with width*height > 0 pixels within the memory limit.", "quantifier": "every frame size and content", "why_tests_cant": "round trip over all inputs", "anchors": ["src/reader/decoder.rs:FrameDecoder::decode_lzw_encoded_frame", "src/reader/decoder.rs:FrameDecoder::decode_lzw_encoded_frame_into_buffer", "src/encoder.rs:Frame::make_lzw_pre_encoded"]}
{"id": "C23", "title": "Skipped frames decode later to the same pixels", "statement": "Reading a frame with skip_frame_decoding(true) and expanding it with FrameDecoder gives the same pixels as reading it directly.", "quantifier": "every well-formed file, every sub-block partition and read schedule", "why_tests_cant": "equality of two pipelines on all files", "anchors": ["src/reader/decoder.rs:FrameDecoder::decode_lzw_encoded_frame", "src/reader/mod.rs:Decoder::copy_lzw_into_buffer", "src/reader/mod.rs:Decoder::read_next_frame"]}
{"id": "C24", "title": "Rewriting a GIF without re-encoding preserves it", "statement": "Frames read with skip_frame_decoding(true) and written with write_lzw_pre_encoded_frame give a file that decodes to the same frames (metadata, palettes, compressed data).", "quantifier": "every well-formed file with palettes, any number of frames", "why_tests_cant": "tests rewrite two sample files", "anchors": ["src/reader/mod.rs:Decoder::copy_lzw_into_buffer", "src/encoder.rs:Encoder::write_lzw_pre_encoded_frame", "src/encoder.rs:Encoder::write_encoded_image_block"]}
{"id": "C25", "title": "Compressed data is framed in legal sub-blocks", "statement": "Image data and raw extension data are written as sub-blocks of 1 to 255 bytes that concatenate to the data, followed by a single zero byte; no zero-length sub-block appears before the end.", "quantifier": "every data length", "why_tests_cant": "exact multiples of 255 and empty data are corner cases of an unbounded family", "anchors": ["src/encoder.rs:Encoder::write_encoded_image_block", "src/encoder.rs:Encoder::write_raw_extension"]}
{"id": "C26", "title": "A rejected frame leaves no bytes behind", "statement": "If write_frame or write_lzw_pre_encoded_frame returns a format or invalid-input error, nothing has been written to the output.", "quantifier": "every frame and encoder state", "why_tests_cant": "all rejection paths of all frames", "anchors": ["src/encoder.rs:Encoder::write_frame", "src/encoder.rs:Encoder::write_frame_header", "src/encoder.rs:Encoder::write_lzw_pre_encoded_frame"]}
{"id": "C27", "title": "A rejected frame does not disturb later frames", "statement": "If a frame is rejected with a format error and the caller goes on writing other frames, the file decodes to exactly the accepted frames.", "quantifier": "every interleaving of accepted and rejected frames", "why_tests_cant": "histories of any length", "anchors": ["src/encoder.rs:Encoder::write_frame_header", "src/reader/decoder.rs:StreamingDecoder::read_control_extension"]}
{"id": "C28", "title": "A failing writer sees only a prefix of the file", "statement": "If the writer fails at any byte, the call returns that I/O error and the bytes written so far are a prefix of what a faultless writer would have received.", "quantifier": "every fault point, every sequence of encoder calls up to the first failure", "why_tests_cant": "every crash point of every history", "anchors": ["src/encoder.rs:Encoder::write_extension", "src/encoder.rs:Encoder::write_encoded_image_block", "src/encoder.rs:Encoder::write_color_table"]}
{"id": "C29", "title": "The trailer is written exactly once", "statement": "With a working writer, finishing an encoder by into_inner or by drop appends exactly one trailer byte, and into_inner followed by the drop of the moved-out encoder does not write a second one.", "quantifier": "every history of encoder calls before the end", "why_tests_cant": "all histories and both ways of finishing", "anchors": ["src/encoder.rs:Encoder::into_inner", "src/encoder.rs:Encoder::write_trailer", "src/encoder.rs:Drop for Encoder"]}
{"id": "C30", "title": "A failed Encoder::new writes nothing", "statement": "If Encoder::new returns an error because the global palette is too large, nothing has been written to the writer.", "quantifier": "every palette, canvas and writer", "why_tests_cant": "the error path runs the destructor; all inputs that reach it must be considered", "anchors": ["src/encoder.rs:Encoder::new", "src/encoder.rs:Encoder::write_global_palette", "src/encoder.rs:Drop for Encoder"]}
{"id": "C31", "title": "from_rgb and from_rgba are lossless up to 256 colours", "statement": "If a frame has at most 256 distinct colours after alpha is reduced to 0 or 255, from_rgba/from_rgb builds a palette of exactly those colours and every pixel's palette entry is its original RGB value.", "quantifier": "every image of every size with at most 256 colours", "why_tests_cant": "all images; the palette is built through a hash set, a sort and a zip with 0..=255", "anchors": ["src/common.rs:Frame::from_rgba_speed", "src/common.rs:Frame::from_rgb_speed"]}
{"id": "C32", "title": "from_rgba keeps the transparency mask", "statement": "A pixel is decoded as transparent exactly when its alpha was zero.", "quantifier": "every RGBA image with at most 256 colours", "why_tests_cant": "all images, including those whose transparent pixels carry different RGB values", "anchors": ["src/common.rs:Frame::from_rgba_speed"]}
{"id": "C33", "title": "True-colour images survive the whole pipeline", "statement": "Frame::from_rgb, Encoder::write_frame and a Decoder in RGBA mode return the original pixels with alpha 255 for every image with at most 256 colours.", "quantifier": "every such image, every read schedule", "why_tests_cant": "end-to-end claim over all images", "anchors": ["src/common.rs:Frame::from_rgb_speed", "src/encoder.rs:Encoder::write_frame", "src/reader/converter.rs:PixelConverter::fill_buffer"]}
{"id": "C34", "title": "Frame constructors panic exactly as documented", "statement": "from_palette_pixels panics exactly when the pixel count differs from width*height or the palette exceeds 768 bytes; from_indexed_pixels exactly when the pixel count differs; from_rgba_speed exactly when the length differs from width*height*4 or speed is outside 1..=30, from_rgb_speed likewise with width*height*3, and from_rgba and from_rgb are these with speed 1; otherwise they return a frame with the given size, pixels and default metadata.", "quantifier": "every argument", "why_tests_cant": "both directions of an equivalence over all arguments", "anchors": ["src/common.rs:Frame::from_palette_pixels", "src/common.rs:Frame::from_indexed_pixels", "src/common.rs:Frame::from_rgba_speed", "src/common.rs:Frame::from_rgb_speed"]}
{"id": "C35", "title": "Decoder events follow the documented protocol", "statement": "On every input the events of StreamingDecoder::update come in the order: background colour, global palette, then blocks; HeaderEnd at most once and before the first image; each extension block is BlockStart, sub-blocks, BlockFinished; each image is BlockStart, FrameMetadata, data events, DataEnd; BlockStart(Trailer) is the last event; current_frame() is available from BlockStart(Image) until DataEnd.", "quantifier": "every byte string, every cut of it, every choice of output buffers", "why_tests_cant": "a language inclusion over unbounded event sequences", "anchors": ["src/reader/decoder.rs:Decoded", "src/reader/decoder.rs:StreamingDecoder::update", "src/reader/decoder.rs:StreamingDecoder::current_frame"]}
{"id": "C36", "title": "Raw extensions survive a round trip", "statement": "An extension written with write_raw_extension is reported by StreamingDecoder with the same label and the same payload, and decoding continues at the next block.", "quantifier": "every known label, every list of payload slices of every length", "why_tests_cant": "payloads are split at 255 bytes and the first length byte is kept in the payload, so all lengths matter", "anchors": ["src/encoder.rs:Encoder::write_raw_extension", "src/reader/decoder.rs:State::ExtensionBlockStart", "src/reader/decoder.rs:State::ExtensionDataBlock", "src/reader/decoder.rs:StreamingDecoder::last_ext"]}
{"id": "C37", "title": "allow_unknown_blocks skips unknown blocks without side effects", "statement": "With allow_unknown_blocks(true), inserting an unknown block between two blocks of a file does not change the decoded frames, and its sub-blocks are reported with label 0.", "quantifier": "every file, every insertion point, every block content", "why_tests_cant": "the effect depends on the whole preceding history", "anchors": ["src/reader/mod.rs:DecodeOptions::allow_unknown_blocks", "src/reader/decoder.rs:State::BlockStart", "src/reader/decoder.rs:State::ExtensionDataBlock"]}
{"id": "C38", "title": "The frame iterator is fused and agrees with read_next_frame", "statement": "Iterating the decoder yields exactly the frames read_next_frame would return, then at most one error, then None forever.", "quantifier": "every input, every number of next() calls", "why_tests_cant": "all inputs, including frames with empty buffers", "anchors": ["src/reader/mod.rs:DecoderIter::next", "src/reader/mod.rs:Decoder::take_current_frame"]}
{"id": "C39", "title": "After the trailer the decoder stays at the end and leaves the rest of the stream unread", "statement": "Once read_next_frame has returned Ok(None), every later call returns Ok(None), the reader is not polled again, and into_inner gives back exactly the bytes that follow the trailer.", "quantifier": "every well-formed file with at least one frame, followed by any bytes, every read schedule", "why_tests_cant": "all files and all suffixes", "anchors": ["src/reader/mod.rs:ReadDecoder::decode_next", "src/reader/mod.rs:Decoder::into_inner", "src/reader/decoder.rs:State::BlockEnd"]}
{"id": "C40", "title": "bg_color is always a valid palette index", "statement": "When the file has a global palette, bg_color() is either None or an index of a colour of the global palette.", "quantifier": "every input", "why_tests_cant": "all headers", "anchors": ["src/reader/mod.rs:Decoder::init", "src/reader/mod.rs:Decoder::bg_color"]}
{"id": "C41", "title": "A failed read can be retried", "statement": "If the underlying reader returns an error during next_frame_info, the call returns that error and a later next_frame_info continues as if the error had not happened.", "quantifier": "every input, every position and number of read errors", "why_tests_cant": "every fault schedule", "anchors": ["src/reader/mod.rs:ReadDecoder::decode_next", "src/reader/mod.rs:Decoder::next_frame_info"]}
{"id": "C42", "title": "Control extension fields survive a round trip", "statement": "Delay, disposal method, user-input flag and transparent index written for a frame are read back unchanged; reserved disposal values read as Any.", "quantifier": "all 65536 delays, 4 disposals, both flags, all 257 transparency values; all 256 flag bytes on reading", "why_tests_cant": "full product space; bit packing in two places", "anchors": ["src/encoder.rs:ExtensionData::new_control_ext", "src/reader/decoder.rs:StreamingDecoder::read_control_extension", "src/common.rs:DisposalMethod::from_u8"]}
{"id": "C43", "title": "Metadata does not leak from one frame to the next", "statement": "A frame's delay, disposal, transparency, user-input flag and palette come only from its own descriptor and the control extensions since the previous frame; without a control extension they have default values.", "quantifier": "every file, every number of preceding frames", "why_tests_cant": "a history property", "anchors": ["src/reader/decoder.rs:State::FrameDecoded", "src/reader/decoder.rs:StreamingDecoder::add_frame", "src/reader/decoder.rs:StreamingDecoder::read_control_extension"]}
{"id": "C44", "title": "LZW state does not leak from one frame to the next", "statement": "The pixels of a frame depend only on its own code size and data, not on earlier frames, on whether earlier frames were read completely, partly or not at all, or on superfluous data in them.", "quantifier": "every file, every reading pattern of the earlier frames", "why_tests_cant": "the decompressor object is reused across frames", "anchors": ["src/reader/decoder.rs:LzwReader::reset", "src/reader/decoder.rs:State::LzwInit", "src/reader/decoder.rs:State::DecodeSubBlock"]}
{"id": "C45", "title": "check_lzw_end_code rejects data without an end code and only such data", "statement": "With check_lzw_end_code(true), image data that ends without the LZW end code is an error when it is read to the end, and files whose image data all carry an end code decode as without the option.", "quantifier": "every file, every reading pattern and read schedule", "why_tests_cant": "depends on where the end code falls relative to reads", "anchors": ["src/reader/decoder.rs:LzwReader::decode_bytes", "src/reader/mod.rs:DecodeOptions::check_lzw_end_code"]}
{"id": "C46", "title": "A frame without any palette is an error", "statement": "If a file has neither a global palette nor a local palette for a frame, next_frame_info and read_next_frame return an error for that frame; they never return a frame without a usable palette. The encoder likewise refuses such a frame.", "quantifier": "every input", "why_tests_cant": "all inputs", "anchors": ["src/reader/mod.rs:Decoder::next_frame_info", "src/encoder.rs:Encoder::write_frame_header"]}
{"id": "C47", "title": "An animation without frames round-trips", "statement": "A file written by Encoder::new and finished without frames is accepted by the decoder and contains no frames.", "quantifier": "every canvas, palette and set of extensions", "why_tests_cant": "all headers", "anchors": ["src/encoder.rs:Encoder::new", "src/reader/mod.rs:Decoder::init", "src/reader/decoder.rs:State::GlobalPalette"]}
{"id": "C48", "title": "Empty frames round-trip", "statement": "A frame of zero width or height, which write_frame accepts, is read back as an empty frame.", "quantifier": "every zero-area geometry", "why_tests_cant": "a boundary family of geometries", "anchors": ["src/encoder.rs:Encoder::write_frame", "src/reader/converter.rs:PixelConverter::fill_buffer", "src/reader/converter.rs:PixelConverter::read_into_buffer"]}
{"id": "C49", "title": "Superfluous pixel data is ignored", "statement": "Pixels beyond width*height in a frame buffer or in a frame's LZW data do not change the decoded frame or any later frame.", "quantifier": "every amount and content of superfluous data", "why_tests_cant": "all suffixes", "anchors": ["src/reader/converter.rs:PixelConverter::read_into_buffer", "src/reader/decoder.rs:State::DecodeSubBlock", "src/encoder.rs:Encoder::write_frame"]}
{"id": "C50", "title": "Buffer arithmetic is exact on 32-bit and 64-bit platforms", "statement": "buffer_size and line_length give width*height*channels and width*channels; the row offset computed while deinterlacing never overflows before the too-small-buffer check rejects it, also when usize has 32 bits.", "quantifier": "all frame geometries, both platform widths, all buffer lengths an allocation can have", "why_tests_cant": "16 GiB frames cannot be allocated in tests, least of all on 32-bit targets", "anchors": ["src/reader/converter.rs:PixelConverter::buffer_size", "src/reader/converter.rs:PixelConverter::line_length", "src/reader/converter.rs:PixelConverter::read_into_buffer", "src/reader/mod.rs:MemoryLimit::buffer_size"]}
{"id": "C51", "title": "Parallel compression writes frames in order under every schedule", "statement": "The reordering queue of the parallel re-encoding pattern (examples/parallel.rs) writes every frame exactly once and in frame order for every arrival order of the compressed frames.", "quantifier": "every number of frames, every permutation of arrivals", "why_tests_cant": "all schedules", "anchors": ["examples/parallel.rs:main", "src/encoder.rs:Encoder::write_lzw_pre_encoded_frame"]}
{"id": "C52", "title": "The memory limit only rejects", "statement": "Raising the memory limit changes nothing of what a decoding session gives, except that an error of the memory limit (\"memory limit reached\" or OutOfMemory) disappears: frames, metadata and other errors never depend on the limit.", "quantifier": "every byte string, every reader including failing ones, every sequence of calls, every option, every pair of limits", "why_tests_cant": "A test compares two limits on a few files. The claim is about every pair of limits and every call sequence, including limits that are hit in the middle of a session.", "anchors": ["src/reader/mod.rs:MemoryLimit::check_size", "src/reader/mod.rs:MemoryLimit::buffer_size", "src/reader/decoder.rs:OutputBuffer::append", "src/reader/converter.rs:PixelConverter::check_buffer_size"]}
{"id": "C53", "title": "Frames of images with any number of colours are valid", "statement": "A frame made by Frame::from_rgb(_speed) or Frame::from_rgba(_speed) from an image with any number of colours has a palette of at most 256 whole colours in which every pixel and the transparent index have an entry, and Encoder::write_frame accepts it. The lossy quantizer is used exactly when there are more than 256 distinct colours.", "quantifier": "All images, sizes and speeds, all quantizers that give at most 256 colours, all encoder states with a writer that does not fail.", "why_tests_cant": "The boundary between the exact and the quantized path depends on the number of distinct colours of the whole image; tests use a handful of images.", "anchors": ["src/common.rs:Frame::from_rgba_speed", "src/common.rs:Frame::from_rgb_speed", "src/encoder.rs:Encoder::write_frame"]}
{"id": "C54", "title": "The encoder writes files of the GIF89a grammar", "statement": "Whatever is written with an Encoder, if graphic control extensions are left to it, raw extensions have the labels GIF89a knows, and no frame is rejected for its palette, the bytes are those of a GIF89a file: signature, screen descriptor, padded colour tables, legal sub-blocks, every graphic control extension directly before its image, one image per accepted frame with its position, size and interlace flag, a code size of 2 to 11, and the trailer.", "quantifier": "All sequences of set_repeat, write_extension(Repetitions), write_raw_extension, write_frame and write_lzw_pre_encoded_frame calls, all frames, screen sizes and palettes.", "why_tests_cant": "Other decoders rely on the format for every animation; tests only read back a few files with this crate's own decoder.", "anchors": ["src/encoder.rs:Encoder"]}
{"id": "C55", "title": "The encoder accepts exactly the frames that can be written", "statement": "With a writer that does not fail, write_frame returns Ok exactly if the buffer has at least width*height pixels and there is a usable palette (a local one of at most 256 colours, or none and a non-empty global one), and otherwise the documented error; write_lzw_pre_encoded_frame the same with the code size instead of the pixel count. Other calls succeed. The result does not depend on the calls before.", "quantifier": "All sequences of calls on one encoder, all frames, all global palettes.", "why_tests_cant": "The result of each call has to be independent of the history of the encoder.", "anchors": ["src/encoder.rs:Encoder::write_frame"]}
{"id": "C56", "title": "Encoding never panics", "statement": "No call of Encoder::new, write_frame, write_lzw_pre_encoded_frame, write_extension, write_raw_extension, set_repeat, into_inner or drop panics (with the default feature raii_no_panic), whatever the frame and however the writer fails.", "quantifier": "All frames, encoder states, and writers failing at any byte.", "why_tests_cant": "Every combination of frame fields and failure points of the writer.", "anchors": ["src/encoder.rs:Encoder"]}
{"id": "C57", "title": "Strict options only reject", "statement": "A lower memory limit, check_lzw_end_code(true), check_frame_consistency(true) and allow_unknown_blocks(false), alone or together, never change what a decoding session gives; they only make it end early, and then with the error of an option that differs: memory limit, missing end code, frame out of bounds, or unknown block.", "quantifier": "Every byte string, every reader including failing ones, every sequence of calls, every pair of options with the same colour output and the same skip_frame_decoding.", "why_tests_cant": "A test compares a few files with one option flipped. The claim is about all combinations of options, all call sequences and all positions where an option may strike.", "anchors": ["src/reader/mod.rs:DecodeOptions", "src/reader/decoder.rs:StreamingDecoder::next_state", "src/reader/decoder.rs:LzwReader::decode_bytes"]}
{"id": "C58", "title": "Decoded frames can be written again and come back the same", "statement": "Whatever frame a decoder gives, it is well formed: the palette has a legal number of entries, it has a palette or the file has one, the buffer has exactly the pixels of its size, and it lies in the canvas if that was checked. So frames decoded as indices from any file, in any selection and order, are all accepted by write_frame of an encoder with the same size and palette, and decoding that file gives the same frames, with the same pixels, palettes and metadata, the same size, loop count and global palette. This is what tools that split, join or reorder animations do.", "quantifier": "Every byte string and reader, every sequence of calls, every selection and order of the frames obtained, every loop count, anything after the end of the new file, every chunking of the new file.", "why_tests_cant": "Tests transcode a few well formed sample files. The claim covers frames obtained from damaged files and partial reads, and all combinations of palettes, sizes, interlacing and extensions.", "anchors": ["src/reader/mod.rs:Decoder::read_next_frame", "src/encoder.rs:Encoder::write_frame", "examples/explode.rs"]}
{"id": "C59", "title": "What every byte string is read as", "statement": "With skip_frame_decoding, what read_info, next_frame_info and read_next_frame return and what the accessors show is, for every byte string, what a plain recursive descent over the bytes says: signature, screen descriptor, colour tables, extensions, loop count, image descriptors, code size and data in sub-blocks, with the documented error at the first byte that does not fit. Well-formed files are read, damaged files are rejected at the right place with the right error, and nothing else happens.", "quantifier": "every byte string, well-formed or not, in pieces of any size; every sequence of calls; every option (memory limit, frame consistency, unknown blocks)", "why_tests_cant": "The decoder is a state machine with about twenty states that is fed pieces of any size; tests and fuzzing see a vanishing part of the byte strings, and fuzzing has no oracle for what the right answer is.", "anchors": ["src/reader/decoder.rs:StreamingDecoder::next_state", "src/reader/mod.rs:Decoder::read_next_frame", "src/reader/mod.rs:ReadDecoder::decode_next"]}
{"id": "C60", "title": "Only GIF files are opened", "statement": "read_info succeeds only on bytes that begin with GIF87a or GIF89a and a logical screen descriptor, and width, height and global palette are the ones written there. Anything else with at least six bytes is rejected as a malformed header, a file that ends before the screen descriptor does with UnexpectedEof.", "quantifier": "every byte string, in pieces of any size, every option, with and without decoding of pixels", "why_tests_cant": "There are 2^48 signatures and only two are valid; the comparison is spread over several reads if the bytes come in pieces.", "anchors": ["src/reader/decoder.rs:StreamingDecoder::next_state", "src/reader/mod.rs:DecodeOptions::read_info"]}
{"id": "C61", "title": "What a streaming decoder tells does not depend on the slices", "statement": "The events that StreamingDecoder::update returns - block starts, finished extensions, palettes, frame metadata, ends of data, header end, trailer - apart from Nothing and the pieces of extension and image data, come in the same order with the same content however the bytes are cut into calls; readings of two clients are always one ahead of the other, at the end they are equal, and a damaged file gives the same error after the same events. Right after the same event both decoders have consumed the same bytes and show the same version, size, last extension and current frame.", "quantifier": "every byte string, every two ways to cut it into calls to update, every option, without output buffer", "why_tests_cant": "The number of ways to cut a file is exponential in its length, and the decoder takes several short cuts when more bytes are in sight.", "anchors": ["src/reader/decoder.rs:StreamingDecoder::update", "src/reader/decoder.rs:StreamingDecoder::next_state"]}
{"id": "C62", "title": "Accessors of the streaming decoder", "statement": "After any calls that succeeded, version() of a StreamingDecoder is the version written in the consumed bytes, width() and height() are those of the logical screen descriptor once it has been consumed and zero before, and the consumed bytes begin with a GIF signature.", "quantifier": "every byte string, every sequence of calls to update, every option", "why_tests_cant": "Histories are unbounded; the documentation does not say from when on the accessors can be relied on.", "anchors": ["src/reader/decoder.rs:StreamingDecoder::version", "src/reader/decoder.rs:StreamingDecoder::width", "src/reader/decoder.rs:StreamingDecoder::height"]}
{"id": "C63", "title": "Reading and writing again gives the same file", "statement": "A file written by the encoder as a loop count followed by accepted frames, read with skip_frame_decoding and written again through write_lzw_pre_encoded_frame with the size, palette and loop count that the decoder shows, is byte for byte the same file; so is one whose frames (not interlaced, with exactly width times height pixels) are decoded in indexed mode and written again with write_frame. For frames read from any file with any calls, the file they are written to is such a fixed point: reading and writing it again, any number of times, changes no byte.", "quantifier": "every codec meeting the contract, every palette up to 256 colours, every non-empty list of frames, every reader, every memory limit that admits the frames; frames with data and a code size other than 1 for the raw fixed point", "why_tests_cant": "The set of files is infinite; palette padding, flags and sub-block lengths all have to be reproduced exactly.", "anchors": ["src/encoder.rs:Encoder::write_lzw_pre_encoded_frame", "src/encoder.rs:Encoder::write_frame", "src/encoder.rs:Encoder::set_repeat", "src/reader/mod.rs:Decoder::read_next_frame"]}
{"id": "C64", "title": "Damage behind a frame does not affect the frame", "statement": "If a stream begins with a header and blocks that contain at least one image, all acceptable to the decoder, then header and all these images are read, with their metadata, raw data or pixels, whatever follows: nothing (the trailer or more is missing), part of a block, or garbage. In particular, when the writer of an encoder fails at any point, all frames for which a write method had returned Ok before can be read from what the writer received, whatever is written behind them later (such as the trailer by drop).", "quantifier": "every file of the grammar with at least one image, every continuation, every reader, raw or decoded without check_lzw_end_code; every writer failing at any point with any partial write, every sequence of encoder calls", "why_tests_cant": "Where a file is cut or damaged, and at which call and after how many bytes a writer fails, is unbounded.", "anchors": ["src/reader/mod.rs:Decoder::read_info", "src/reader/mod.rs:Decoder::read_next_frame", "src/reader/decoder.rs:StreamingDecoder::next_state", "src/encoder.rs:Encoder::write_frame", "src/encoder.rs:Drop for Encoder"]}
{"id": "C65", "title": "Decoding is causal, and frames are there as soon as their bytes are", "statement": "What a program is told by a decoder does not depend on read calls not yet made: two readers whose read calls give the same up to some point give the same results of all calls and the same accessor values (also calls after errors, with buffers of any size), until a call reports UnexpectedEof for the shorter one; until then the further read calls are not made and are left to the reader that into_inner returns. When the header and the blocks up to the end of an image have been received, all images so far are returned without a further read call, so a reader that would block or fail next does not delay or lose them. A file that ends after any read call is seen as a beginning of the whole file followed by UnexpectedEof.", "quantifier": "every safe codec, every options, every reader with errors and empty reads, every continuation, every list of calls; for the frames: every file of the grammar with at least one image", "why_tests_cant": "Whether a decoder looks ahead depends on where the reads end, in every state of the decoder.", "anchors": ["src/reader/mod.rs:ReadDecoder::decode_next", "src/reader/mod.rs:Decoder::read_next_frame", "src/reader/mod.rs:Decoder::next_frame_info", "src/reader/mod.rs:Decoder::fill_buffer", "src/reader/mod.rs:Decoder::read_into_buffer", "src/reader/mod.rs:Decoder::into_inner"]}
{"id": "C66", "title": "Buffers of the caller", "statement": "read_into_buffer, fill_buffer and FrameDecoder::decode_lzw_encoded_frame_into_buffer write nothing behind the first buffer_size() bytes of the buffer, whatever they return; they return Ok for a whole frame only if the buffer has room for it, and refuse a buffer that is too small for a frame that is not interlaced before reading or writing anything. What they return and what the decoder does afterwards does not depend on what was in the buffer. After Ok, the bytes of the frame do not depend on what was in the buffer before, so buffers can be reused for the next frame.", "quantifier": "every decoder state, every reader, every buffer size and contents, every codec", "why_tests_cant": "all buffer sizes and previous contents, for all files", "anchors": ["src/reader/converter.rs:PixelConverter::read_into_buffer", "src/reader/converter.rs:PixelConverter::fill_buffer", "src/reader/mod.rs:Decoder::read_into_buffer", "src/reader/mod.rs:Decoder::fill_buffer", "src/reader/decoder.rs:FrameDecoder::decode_lzw_encoded_frame_into_buffer"]}
{"id": "C67", "title": "Several files in one stream", "statement": "The reader that into_inner returns gives an end of the bytes of the original reader, whatever was called before and whatever it returned: nothing is read twice, and read calls that were not made are still to be made. A decoder that has returned Ok(None) has taken exactly the bytes of its file, so files that follow each other in one stream can be read one after the other, each with a new decoder on the reader the last one returned, and come out as each of them alone; animations that were written one after the other to one writer (into_inner, then Encoder::new) come back this way.", "quantifier": "every number of files, every reader and every partition of its bytes, every list of calls", "why_tests_cant": "all sequences of files and all partitions of the stream, in particular cuts within a file and between files", "anchors": ["src/reader/mod.rs:Decoder::into_inner", "src/reader/mod.rs:Decoder::read_next_frame", "src/reader/mod.rs:ReadDecoder::decode_next", "src/encoder.rs:Encoder::into_inner", "src/encoder.rs:Encoder::new"]}
{"id": "C68", "title": "Frames are not for free; loops over frames end", "statement": "Whatever calls a program makes on a decoder, in whatever order, also if it goes on after errors, and whatever the reader delivers: if it was told of n > 0 frames (next_frame_info returned Ok(true) or read_next_frame returned Ok(Some)), the input had at least 13 n + 12 bytes besides those that are still unread. Hence 'while let Some(frame) = decoder.read_next_frame()?' and 'for frame in decoder' end for every input, after at most one round per 13 bytes, with Ok or an error; a for loop sees at most one error, and it is the last item.", "quantifier": "every reader (also failing ones), every option, every list of calls, every lawful LZW codec", "why_tests_cant": "a bound over all inputs and all call sequences, including retries after errors, where bytes of the buffer are parsed again in a later state", "anchors": ["src/reader/mod.rs:Decoder::next_frame_info", "src/reader/mod.rs:Decoder::read_next_frame", "src/reader/mod.rs:DecoderIter::next", "src/reader/mod.rs:ReadDecoder::decode_next", "src/reader/decoder.rs:StreamingDecoder::next_state"]}
{"id": "C69", "title": "The files that the example explode makes", "statement": "examples/explode.rs ends for every input, whatever the file system does, without panicking; it exits with success, with an error of the decoder, or with an error of creating or writing a file. If files can be created and written, it makes exactly one file per frame that read_next_frame returns before it returns None or an error, exits with what read_next_frame ended with, and every file, decoded with any options that do not transform pixels, has the screen size and the global palette of the input and contains exactly that frame: pixels, position, delay, disposal, transparency, palette.", "quantifier": "every input, every reader behaviour, every behaviour of the files, every lawful LZW codec", "why_tests_cant": "composition of decoder and encoder for all inputs, including damaged ones; tests decode some sample files", "anchors": ["examples/explode.rs:main", "src/reader/mod.rs:Decoder::read_next_frame", "src/encoder.rs:Encoder::new", "src/encoder.rs:Encoder::write_frame", "src/encoder.rs:Drop for Encoder"]}
{"id": "C70", "title": "The file that the example parallel makes, whatever its threads do", "statement": "examples/parallel.rs, which reads raw frames, expands and compresses them on a thread pool and writes them as they become available in order, has an outcome for every input and file. The bytes it writes do not depend on how the threads are scheduled. It exits with success, an error of the decoder, an error of the output file, or a panic, and the last only if some raw frame of the input cannot be expanded; with a working file it succeeds whenever all frames can be read and expanded. If it succeeds, the output, decoded, gives the same screen size, repetition, global palette and frames as decoding the input directly.", "quantifier": "every input, every reader behaviour, every behaviour of the output file, every schedule of the tasks, every lawful LZW codec", "why_tests_cant": "the schedule of a thread pool cannot be controlled by a test, and the composition of decoder, FrameDecoder, pre-encoding and encoder is over all inputs", "anchors": ["examples/parallel.rs:main", "src/reader/mod.rs:FrameDecoder::decode_lzw_encoded_frame", "src/reader/mod.rs:DecoderIter", "src/common.rs:Frame::make_lzw_pre_encoded", "src/encoder.rs:Encoder::write_lzw_pre_encoded_frame", "src/encoder.rs:Encoder::into_inner"]}
{"id": "C71", "title": "The memory limit bounds everything a decoder holds", "statement": "With a memory limit of n bytes, at every moment of the life of a StreamingDecoder the buffers it owns (palettes, extension data, pending bytes, current frame) hold at most n + 1544 bytes, and at every moment between two calls on a Decoder its own buffers (those of the streaming decoder, the global palette and the frame that was read last) hold at most 2n + 3080 bytes, and its scratch buffer a quarter of n or of the longest buffer of the caller. The bound does not depend on the input, on how much of it has been read, on the number of frames or on the operations called. No call reserves more than the limit for a frame.", "quantifier": "every input, every reader behaviour, all options with that limit, every sequence of operations, every safe LZW codec", "why_tests_cant": "a peak over all inputs and all sequences of operations cannot be sampled; a test sees one file at a time and the allocator's numbers", "anchors": ["src/reader/mod.rs:MemoryLimit", "src/reader/mod.rs:Decoder::read_next_frame", "src/reader/decoder.rs:StreamingDecoder", "src/reader/converter.rs:PixelConverter"]}
{"id": "C72", "title": "Programs that read all frames end on every input", "statement": "try_decode of the fuzz target, and the same loop in tests/stall.rs, returns Ok or Err on every input: it neither panics nor loops for ever. It returns Ok exactly if the file can be opened and every frame up to the end can be read. examples/check.rs panics exactly if the file cannot be opened; otherwise it ends successfully after printing one line for each frame that read_next_frame gives, in order, followed by the error if the frames end with one.", "quantifier": "every input, every reader behaviour, all options, every safe LZW codec", "why_tests_cant": "this is what the fuzz target searches for: each run of the fuzzer settles one input", "anchors": ["fuzz/fuzz_targets/decode.rs:try_decode", "tests/stall.rs:decode", "examples/check.rs:main", "src/reader/mod.rs:Decoder::read_next_frame"]}
{"id": "C73", "title": "What the converter decoded before does not show", "statement": "Frames, errors and the state of a decoder do not depend on what the scratch buffer of the pixel converter contains, that is on frames decoded before or on calls that failed half-way, and not on what a failing LZW decoder left in the buffer it was given. The same holds for what read_into_buffer and fill_buffer write to the caller's buffer, unless they fail with output of palette indices, and for FrameDecoder, also when it is used for frames of several files.", "quantifier": "every input, every decoder state, every content of the scratch buffer, whatever failing calls write, all buffers", "why_tests_cant": "stale bytes show only if a later frame is shorter or fails, which depends on the order of frames and the cut of the input", "anchors": ["src/reader/converter.rs:PixelConverter::fill_buffer", "src/reader/converter.rs:PixelConverter::read_into_buffer", "src/reader/converter.rs:PixelConverter::read_frame", "src/reader/decoder.rs:FrameDecoder::decode_lzw_encoded_frame_into_buffer", "src/reader/mod.rs:Decoder::read_next_frame"]}
{"id": "C74", "title": "Release builds write what debug builds write, without the panic", "statement": "In a build without debug assertions every call on an encoder has the effect and the result that it has in a build with them, on every writer, except write_frame for a frame without area that has pixels: there the effect and the result are those of write_lzw_pre_encoded_frame for the same frame compressed beforehand. No call panics. So files of release builds belong to the GIF grammar, a frame is rejected exactly if it has too few pixels, too many colours or no palette, and with skip_frame_decoding what was written is read back.", "quantifier": "all sessions of calls, all frames, all palettes, every writer, every codec that keeps the contract", "why_tests_cant": "cargo test runs one build profile; the difference shows for frames without area, and a test of the effect on every writer and file is a test of samples", "anchors": ["src/encoder.rs:Encoder::write_frame", "src/encoder.rs:Encoder::write_lzw_pre_encoded_frame", "src/common.rs:Frame::make_lzw_pre_encoded"]}
{"id": "C75", "title": "An encoder that runs out of memory", "statement": "If write_frame gets no memory for the compressed data it returns OutOfMemory; the encoder can still be used, and no other call depends on that memory. The frames written before can be read from the file as always. The next read fails with an error, whatever calls followed and whatever follows the file: the decoder never presents a frame with data that are not its own.", "quantifier": "all sessions of calls before and after, with or without further failures of the allocator, all frames, every codec that keeps the contract, all options, every cut of the input, anything behind the file", "why_tests_cant": "a failing allocator is hard to inject, and the effect depends on what is written afterwards: the first byte of the next call is taken for a code size", "anchors": ["src/encoder.rs:Encoder::write_image_block", "src/encoder.rs:Encoder::write_frame", "src/encoder.rs:Encoder::write_frame_header", "src/reader/decoder.rs:StreamingDecoder::next_state"]}
{"id": "C76", "title": "A decoder whose allocator refuses", "statement": "If reservations of memory fail, in any pattern, then a decoder does what it does otherwise up to a call that returns OutOfMemory; without a refusal nothing changes. No call panics or runs forever, also if the program goes on after OutOfMemory, in which case every further call is what it always is from the state reached or fails with OutOfMemory again. The iterator ends after the error. If the refusal hits the first step of a call of update, and no bytes of a header were collected before, then the call can be made again with the same result.", "quantifier": "every pattern of refusals of try_reserve and try_reserve_exact, every reader, all options, all sequences of calls, every codec that is memory safe", "why_tests_cant": "allocation failures are not injected by any test, and there are as many patterns of them as subsets of the reservations", "anchors": ["src/reader/decoder.rs:OutputBuffer::append", "src/reader/decoder.rs:StreamingDecoder::next_state", "src/reader/decoder.rs:StreamingDecoder::update", "src/reader/mod.rs:ReadDecoder::decode_next", "src/reader/mod.rs:Decoder::read_next_frame", "src/reader/mod.rs:DecoderIter::next"]}
{"id": "C77", "title": "A frame that is over the memory limit can be skipped", "statement": "read_next_frame reports OutOfMemory exactly if the next frame takes more bytes than the memory limit, and then it has done no more than next_frame_info: a program that goes on after this error reads all other frames of the file as a program without a memory limit does.", "quantifier": "every file and reader, every limit, every sequence of calls before, every number of large frames at any places", "why_tests_cant": "errors are final in all tests; what a decoder does after one depends on the state it is left in, for every size, position and number of large frames", "anchors": ["src/reader/mod.rs:Decoder::read_next_frame", "src/reader/converter.rs:PixelConverter::check_buffer_size", "src/reader/converter.rs:PixelConverter::read_frame", "src/reader/mod.rs:MemoryLimit::buffer_size"]}
{"id": "C78", "title": "Decoding takes linear time", "statement": "However a program uses a Decoder, the number of steps of the state machine (calls of next_state, each of which calls the LZW decoder at most once) is at most four for every byte of the reader plus one for every pixel that the program asks for. Only a call that fails for another reason than the reader may go over the unread bytes without using them up, once per failed call. A FrameDecoder calls the LZW decoder at most once for every byte of compressed data, once for every pixel, and once more per frame.", "quantifier": "every input, every cut into reads, every option, every sequence of calls with buffers of every size, also after errors; for FrameDecoder every frame, buffer, and history", "why_tests_cant": "a loop that does quadratic work, or that steps without progress on a crafted input, shows on no small test file; the bound is about all inputs", "anchors": ["src/reader/decoder.rs:StreamingDecoder::update", "src/reader/decoder.rs:StreamingDecoder::next_state", "src/reader/decoder.rs:FrameDecoder", "src/reader/mod.rs:ReadDecoder::decode_next", "src/reader/mod.rs:Decoder::next_frame_info", "src/reader/converter.rs:PixelConverter::fill_buffer"]}
{"id": "C79", "title": "Options are independent, and the last call decides", "statement": "After any calls of the methods of DecodeOptions in any order, each option has the value of the last call that sets it, or its documented default (indexed output, 50 MB, no checks, frames are decoded, unknown blocks are errors); sessions of a Decoder depend on nothing else. Decoder::new is a decoder for which no option was set. Asking in addition for a check of frames or of end codes changes nothing but that a session may end early with the error of that check; allowing unknown blocks changes nothing but that it may go on. A FrameDecoder heeds the colour output, the memory limit and the check of end codes, and no other option.", "quantifier": "every list of calls, every reader (also failing ones), every sequence of decoder calls", "why_tests_cant": "the number of orders and combinations of calls is unbounded, and what an option must not influence is a statement about all inputs", "anchors": ["src/reader/mod.rs:DecodeOptions::set_color_output", "src/reader/mod.rs:DecodeOptions::set_memory_limit", "src/reader/mod.rs:DecodeOptions::check_frame_consistency", "src/reader/mod.rs:DecodeOptions::skip_frame_decoding", "src/reader/mod.rs:DecodeOptions::check_lzw_end_code", "src/reader/mod.rs:DecodeOptions::allow_unknown_blocks", "src/reader/mod.rs:Decoder::new", "src/reader/decoder.rs:FrameDecoder::new"]}
{"id": "C80", "title": "The writer behind an encoder: get_ref, get_mut", "statement": "get_ref and get_mut never panic, whatever was done with the encoder and with the writer (even if another one was put in its place). get_ref shows the writer that into_inner would return, but for the trailer. As long as the writer does not fail, nothing done with it changes the results of calls. A program that takes the written bytes out of the writer after each call gets the file in pieces, with any writer. Bytes written directly stand in the file where they were written and change nothing else: an extension can be written that way just as by write_raw_extension, and a trailer hides everything after it from decoders.", "quantifier": "every palette, every list of calls and accesses, every writer (also failing ones, where stated)", "why_tests_cant": "all interleavings of calls and accesses, and all failures of the writer", "anchors": ["src/encoder.rs:Encoder::get_ref", "src/encoder.rs:Encoder::get_mut", "src/encoder.rs:Encoder::into_inner", "src/encoder.rs:Encoder::write_raw_extension"]}
{"id": "C81", "title": "What a program does with the current frame does not affect decoding", "statement": "A program that uses a StreamingDecoder may change the frame that current_frame_mut gives it in any way and at any time. Every call of update, also after errors, returns what it would have returned had the frame been left alone (the same event, pixels, number of bytes, error, or panic), and the decoder is the same but for the contents of the current frame; current_frame_mut is available at the same times. From FrameMetadata to DataEnd the frame is what the program has made of it. After DataEnd the changes are forgotten: the frames that follow are what they would have been.", "quantifier": "every LZW decoder, every state of a StreamingDecoder, every sequence of updates (any slices, any output buffers) and changes (any function of the frame)", "why_tests_cant": "the changes are arbitrary functions at arbitrary points of arbitrary inputs; a check that reads back a field of the frame (a size, a palette) would make decoding depend on the program only on some inputs", "anchors": ["src/reader/decoder.rs:StreamingDecoder::current_frame_mut", "src/reader/decoder.rs:StreamingDecoder::update", "src/reader/decoder.rs:StreamingDecoder::next_state", "src/reader/decoder.rs:StreamingDecoder::add_frame"]}
{"id": "C82", "title": "The size of a file, and the pieces it is made of", "statement": "The size of a file that the encoder writes follows from the arguments and results of the calls: 13 bytes, the global colour table padded to a power of two of at least two colours, 19 bytes for a loop count other than Finite(0), 8 for a control extension, 3 for a raw extension and for each of its pieces the bytes and one more for every 255 begun, for a frame 20 bytes, its padded local table, its compressed data and one byte for every 255 begun, 8 bytes for a frame that is refused because of its palette and none for one refused otherwise, and the trailer. What calls add to a file depends only on the calls and on whether the global palette is empty: it is the same for every screen, every palette and everything written before.", "quantifier": "every screen size, every palette of at most 256 colours, every list of calls (also ones that fail)", "why_tests_cant": "the number of sub-blocks, table sizes and combinations of calls is unbounded; the bytes at the limits of 255 and of powers of two are easy to get wrong by one", "anchors": ["src/encoder.rs:Encoder::new", "src/encoder.rs:Encoder::write_frame", "src/encoder.rs:Encoder::write_lzw_pre_encoded_frame", "src/encoder.rs:Encoder::write_color_table", "src/encoder.rs:Encoder::write_image_block", "src/encoder.rs:Encoder::write_extension", "src/encoder.rs:Encoder::write_raw_extension"]}
{"id": "C83", "title": "Which errors each decoding call can report", "statement": "For each call of the decoding API the errors it can return are a fixed list that depends only on the options and on the errors of the reader: read_info only MalformedHeader, UnknownBlock, ControlWrongLength, the memory limit (if one is set), UnexpectedEof and errors of the reader; next_frame_info and read_next_frame never MalformedHeader and never an internal error (unexpected event, buffer too small, unsupported output), FrameOutOfBounds only with check_frame_consistency, a missing end code only with check_lzw_end_code and decoding, truncated images, odd buffers and refused buffers only when pixels are decoded, NoColorTable only without global palette, an I/O error only if the reader returned it; likewise fill_buffer, read_into_buffer, palette, the iterator, StreamingDecoder::update and FrameDecoder. Every error on the lists does occur.", "quantifier": "all readers, files, options, all earlier calls, all buffers and frames; every decompressor without out-of-range results", "why_tests_cant": "that an error never occurs is a statement about all files and call sequences; the error enum is public, so callers match on it, and a test can only show errors that do occur", "anchors": ["src/reader/decoder.rs:28-98", "src/reader/decoder.rs:205-240", "src/reader/decoder.rs:270-311", "src/reader/decoder.rs:520-790", "src/reader/mod.rs:170-460", "src/reader/converter.rs:60-230"]}
{"id": "C84", "title": "Which errors end the decoding of a file", "statement": "After UnknownBlock, InvalidMinCodeSize, an extension over the memory limit, or the end of the data, the decoder is stuck: whatever is called next, next_frame_info and read_next_frame return the same error again, fill_buffer too (or rejects its buffer), and nothing more is taken from the reader. So a program that calls on after an error never gets invented frames out of such a file. No other format error is final: after each of them the next call can succeed.", "quantifier": "all readers, files, options, all calls before the error, all calls after it, of any number", "why_tests_cant": "the statement is about all continuations after an error; the state machine reads some bytes twice after an error, so it depends on where the reader splits the data, and tests stop at the first error", "anchors": ["src/reader/decoder.rs:425-450", "src/reader/decoder.rs:620-691", "src/reader/decoder.rs:718-727", "src/reader/mod.rs:205-237", "src/reader/mod.rs:312-403"]}
{"id": "C85", "title": "Frames that cannot be read can be passed over", "statement": "read_next_frame is next_frame_info followed by fill_buffer: on the whole picture at once, or line by line if the image is interlaced, until the picture is full or a call gives something else than a full buffer. It fails with ImageTruncated exactly if fill_buffer returns false, and leaves the decoder where that call leaves it. So a program that goes on after ImageTruncated and OutOfMemory gets of each frame of the file what the data of that frame give, as if the frame were the only bad or good one: one frame with too few pixels, or over the memory limit, costs no other frame. This is not so for InvalidCode: after it the decoder reads image data as blocks of the file and the good frames that follow are lost.", "quantifier": "single calls: all readers, files, options (pixel mode), histories of calls; whole files: all files and splits by a reader without errors, any number and order of good, short and oversized frames, all memory limits and colour outputs", "why_tests_cant": "the state in which an error leaves the decoder is invisible at the error itself; it shows only in what later calls give, for every order of good and bad frames", "anchors": ["src/reader/mod.rs:338-363", "src/reader/converter.rs:59-74", "src/reader/converter.rs:92-147", "src/reader/converter.rs:164-185", "src/reader/mod.rs:312-335"]}
{"id": "C86", "title": "Asking for pixels when none are due", "statement": "A program that calls fill_buffer or read_into_buffer when no pixels are due (after read_info, after the last frame, after fill_buffer returned false, or after next_frame_info or read_next_frame when the frames are not decoded) gets an error or false, its buffer is left as it is, and it loses no frame: the next call of next_frame_info returns what it would have returned and leaves the same decoder; or that call would have failed, and fill_buffer fails with the same error and leaves the decoder that call would have left. With skip_frame_decoding fill_buffer never succeeds, after any calls, and a call uses up one frame at most. Two calls out of place in a row can use up a frame, and the third one then stores its pixels although the frame was never announced.", "quantifier": "all readers, files and splits, options, histories of calls before the call, and buffers; every LZW decoder that keeps its promises", "why_tests_cant": "a call out of place consumes events of the file that a later call of next_frame_info needs; whether one is lost depends on where in the file the decoder stands", "anchors": ["src/reader/mod.rs:227-234", "src/reader/mod.rs:312-335", "src/reader/mod.rs:378-403", "src/reader/converter.rs:92-185", "src/reader/decoder.rs:728-779"]}
{"id": "C87", "title": "Writers that take bytes in portions, are interrupted, or fill up", "statement": "The file and the results of all calls do not depend on how many bytes the writer takes in each call of write nor on interruptions: as long as every call of write that is not interrupted takes at least one byte, everything is as with a writer that takes all bytes at once. Interrupted is never returned to the caller. If write fails or takes nothing, the encoder call returns that error (of kind WriteZero if nothing was taken), makes no further call of the writer, and what the writer has taken is a proper prefix of what the call would have written.", "quantifier": "every sequence of results of write, every screen, palette and list of calls, into_inner and the destructor included", "why_tests_cant": "every way of splitting a file into portions, with interruptions and failures at every byte", "anchors": ["src/traits.rs:WriteBytesExt", "src/encoder.rs:Encoder::write_frame", "src/encoder.rs:Encoder::write_raw_extension", "src/encoder.rs:Encoder::into_inner", "src/encoder.rs:Buf::finish"]}
{"id": "C88", "title": "How a program takes the frames does not show", "statement": "With a decoder that decodes pixels, in every state that a program can reach, these ways to take the next frame give the same: read_next_frame; next_frame_info followed by read_into_buffer on a new buffer of buffer_size() zeros; next_frame_info followed by fill_buffer on such a buffer, or on one line after the other in the row order of GIF if the frame is interlaced. The frame, the end of the file and every error are the same (where read_next_frame refuses a frame that is over the memory limit the other programs have to compare buffer_size() with the limit), and the decoder is the same afterwards but for the current frame. So programs may mix the ways from frame to frame, also after errors, and get the same frames.", "quantifier": "all readers (any bytes, cuts and read errors), all options without skip_frame_decoding, all reachable states, all sequences of ways of the same length, all memory-safe LZW codecs", "why_tests_cant": "a test compares two ways on some files; the equality is about every state, including those after read errors, truncated frames and frames over the limit, and about every mixture of ways", "anchors": ["src/reader/mod.rs:312-403", "src/reader/converter.rs:46-185"]}
{"id": "C89", "title": "The programs of the documentation do what it says", "statement": "A program that follows the example of the crate documentation - Encoder::new with a size and a colour map, set_repeat(Repeat::Infinite), and one write_frame per state with a default frame of that size and the indices of its pixels - gets no error from any call, and a program that follows the decoding example - DecodeOptions::new, set_color_output(RGBA), read_info, read_next_frame until None - finds in the file that size, endless repetition, exactly one frame per state in order, at the origin with that size, whose buffer holds for every pixel the three bytes of its colour and an alpha of 255, and then None for ever.", "quantifier": "for every width and height with a non-empty canvas of at most 50,000,000 bytes of RGBA, every colour map of 1 to 256 colours, every list of states, empty or not, whose indices are in the map, every way in which a reliable reader divides the file, any bytes after the file, and any number of further calls", "why_tests_cant": "The example in the documentation is a doctest of one 6x6 picture with two states, and the file is not read back; the statement is about all colour maps, sizes and states together with the reading program.", "anchors": ["src/lib.rs:14-68 (the examples)", "src/encoder.rs (Encoder::new, set_repeat, write_frame, drop)", "src/reader/mod.rs (read_info, read_next_frame)"]}
{"id": "C90", "title": "Frames can be cut out of a file, repeated and put in another order", "statement": "A GIF file can be edited by cutting: the bytes from the end of one frame's data to the end of the next frame's data are a self-contained piece. Whatever frames a decoder reads of a file, the file is a head (signature, screen descriptor, global colour table), one piece per frame, and a rest; and every selection of these pieces, in any order and with any repetitions, behind the same head and before a trailer byte, is read as exactly the frames of the pieces in that order - with their delays, disposal, transparency, palettes and pixels - and then None for ever. Screen size, global palette and background stay the same; the number of repetitions of the animation is the one announced in the piece that is now first. More generally a piece is any string of bytes that, alone behind the head, gives one frame and no longer does with its last byte removed; pieces of different files with the same head can be mixed.", "quantifier": "for every string of bytes, every way in which a reliable reader divides it, every number of frames read, every selection and order of the pieces, any bytes after the trailer, any number of further calls; raw frames without unknown blocks; with pixels for frames whose data have no invalid code behind the last pixel", "why_tests_cant": "Unit tests read whole files of a fixed collection. That no state of the decoder - the pending graphic control, the local palette, the code size, the LZW dictionary, the buffers - leaks from one frame to the next for any combination of frames is a statement about all pairs of pieces in all orders.", "anchors": ["src/reader/decoder.rs:493-850 (StreamingDecoder::next_state)", "src/reader/mod.rs:312-375 (next_frame_info, read_next_frame)", "src/reader/decoder.rs:246-311 (LzwReader::reset, decode_bytes)"]}
{"id": "C91", "title": "Different animations give different files", "statement": "If two encoders are used in any two ways and the bytes they write are the same - or one of the two results is only the beginning of the other, or both are followed by other bytes - then both were told the same: the same screen size, the same global palette up to padding, the same number of repetitions, and in the same order the same frames: position, size, interlacing, delay, disposal, transparency, user input, local palette up to padding, and the same compressed data. Frames given with their pixels have the same pixels. So nothing a caller asks for is lost in the file, files can be compared instead of animations, and a finished file is never the beginning of another finished file.", "quantifier": "for all screen sizes, palettes, sequences of calls of the encoder in any order (frames, pre-encoded frames, extensions, raw extensions with any label, rejected frames), all results without panic, all following bytes, every contract-keeping LZW codec", "why_tests_cant": "That an encoding is injective is a statement about all pairs of inputs; tests compare single outputs with single expectations.", "anchors": ["src/encoder.rs:165-350 (write_frame, write_image_block, write_extension, write_raw_extension, write_color_table)", "src/encoder.rs:381-410 (lzw_encode, make_lzw_pre_encoded)"]}
{"id": "C92", "title": "The decoder can wait for a file that is still being written", "statement": "A reader over a file that another program is still writing, or over a connection, may report the end of the file, or an error, though more bytes come later. next_frame_info then fails with UnexpectedEof or with the reader's error, but nothing is lost: a program that just calls next_frame_info again gets, call by call, exactly what it would have got if all bytes had been there from the beginning - the same frames, the same accessors, the same errors - wherever in the file the pauses were, also within descriptors, palettes, sub-blocks and compressed data. If the bytes have really ended, every further call gives UnexpectedEof and changes nothing.", "quantifier": "for all readers (any bytes in any pieces, end of file reported any number of times anywhere, errors anywhere), all options, all decoder states that any calls can lead to, all numbers of frames, every safe LZW codec", "why_tests_cant": "A test has its pauses at a few places of a few files; the statement is about every byte of every file and every state that is kept between calls.", "anchors": ["src/reader/mod.rs:205-225 (decode_next)", "src/reader/mod.rs:312-330 (next_frame_info)", "src/reader/decoder.rs:426-443 (update)"]}
{"id": "C93", "title": "A program can follow an encoder while it writes", "statement": "One program writes an animation through an Encoder into a pipe (or a file), another reads frames from the other end. Whenever the reader has caught up with the writer, its read calls give nothing (end of file) or fail; the reading program then calls read_next_frame again. If this happens only after some call of the encoder has returned and at least one frame is through, the reading program gets every frame that the encoder accepted exactly once, in order, with the right pixels, and Ok(None) after the trailer - however the bytes are cut into pieces and however often it finds nothing. And it gets them at once: all frames accepted so far can be read when the encoder has returned from its call, without any further read call. The same holds for any GIF file with pauses between its blocks, also with skip_frame_decoding.", "quantifier": "for all sequences of encoder calls whose extensions can be read back, all palettes that new accepts, all frames with pixels within the memory limit, all readers in step with the writer (any pieces, any number of pauses of both kinds), all numbers of retries not less than the pauses, every lawful LZW codec; for the general form all files of the grammar of C04", "why_tests_cant": "Which state is kept over a failed call depends on where the pause is; tests have a few pauses in a few files.", "anchors": ["src/encoder.rs:169-176 (write_frame)", "src/reader/mod.rs:205-225 (decode_next)", "src/reader/mod.rs:312-350 (next_frame_info, read_next_frame)"]}
{"id": "C94", "title": "Frames of several files can be put into one animation", "statement": "A program that joins GIF files reads frames from any number of files, which may have different sizes and different global palettes, gives each frame that has no palette of its own the global palette of its file, moves it and changes its delay and disposal as it likes, and writes it to one encoder. The encoder accepts all of them, whatever the size and global palette of the new animation, and a decoder of the new file gives these frames in order with the new positions and delays, then None: with indexed output each frame has the palette indices it had in its own file, with RGBA output it has byte for byte the pixels that an RGBA decoder gives of it in its own file. The same holds for frames that are read with skip_frame_decoding and written with write_lzw_pre_encoded_frame, interlaced ones included. The copying of the palettes is needed: without it the program runs as well, but frames are shown in the colours of another file.", "quantifier": "for all source files, damaged or not, and all sequences of read calls on them, all selections, orders and repetitions of the frames that were read, all new positions, delays and disposal methods, all sizes and global palettes of the new file, all ways in which a reliable reader divides the new file and anything behind it; frames with pixels; without check_lzw_end_code; compressed frames of code size at least 2 without an invalid code behind the last pixel", "why_tests_cant": "A test joins two particular files. The property relates two decoders of every source file, an encoder and two decoders of the result, for every mixture of local and global palettes.", "anchors": ["src/encoder.rs:166-226", "src/encoder.rs:229-255", "src/reader/mod.rs:312-363", "src/reader/converter.rs:100-140"]}
{"id": "C95", "title": "A program that drives StreamingDecoder itself collects the pixels of each image", "statement": "A program calls StreamingDecoder::update in a loop, with slices of any size, and once it has been told FrameMetadata it gives an output buffer with room for at least one byte in each call. What the calls have written to these buffers is at any time the beginning of what the data of this image expand to, whatever the sizes of slices and buffers. The next call gives more of it (at least one and at most as many bytes as the buffer has room for), or asks for more bytes, or says DataEnd, exactly when all was given and the sub-blocks with their terminator have been consumed to the byte; it can only fail with an invalid code that is in the data, or, with check_lzw_end_code, when there is no end code in the data and all pixels were given. With skip_frame_decoding the same holds for the compressed data, where the buffer may also be a vector: they arrive complete, in order and unchanged, the code size is the one in the file, and the only error is the memory limit with a vector. So two programs with different slices and buffers collect the same. A call without an output buffer in between loses pixels without any error.", "quantifier": "for all options, all byte sequences, all histories of calls with slices and buffers of any size before the image, all sequences of non-empty slices and output buffers with room within the image, all LZW codecs that meet the contract", "why_tests_cant": "There are unboundedly many ways to cut a file into slices and to choose buffers; every border of a sub-block, of the slice and of the buffer can fall on every other.", "anchors": ["src/reader/decoder.rs:426-470", "src/reader/decoder.rs:715-785", "src/reader/decoder.rs:288-330"]}
{"id": "C96", "title": "Slices and output buffers make no difference to what a program gets from StreamingDecoder", "statement": "Programs call StreamingDecoder::update on the same file, each with slices of its own sizes and, within image data, with output buffers of its own sizes that have room. As far as two of them have come they are told the same events in the same order (all events but Nothing, BytesDecoded and LzwDataCopied), and between FrameMetadata and DataEnd of each image they collect the same bytes. If neither can go on (trailer, all bytes consumed, or a failing call), they have been told exactly the same, and if calls failed in both, it was the same error. Whenever both have just been told the same event, the same bytes are still to be consumed and all public properties of the decoders are the same. A program with skip_frame_decoding and one without are told the same events as well, and what the second collects for an image is what the data that the first collected expand to, with the code size that the first was told.", "quantifier": "for all byte sequences, damaged or not, all options, all pairs of sequences of calls with non-empty slices, all output buffers (with room within image data, any elsewhere; vectors too with skip_frame_decoding), all LZW codecs that meet the contract", "why_tests_cant": "Two unboundedly long sequences of calls are compared, for every file; a test compares some ways to cut some files.", "anchors": ["src/reader/decoder.rs:426-470", "src/reader/decoder.rs:473-800"]}
{"id": "C97", "title": "A program that drives StreamingDecoder itself gets the same frames as one that uses Decoder", "statement": "Let one program call StreamingDecoder::update on a file (in image data with an output buffer that has room) and keep what it collects between FrameMetadata and DataEnd of each image, and let another read the same file with Decoder. With skip_frame_decoding, the buffer of the i-th frame that read_next_frame returns is the code size the first program was told, followed by what it collected for the i-th image, and when it was told of the i-th image, current_frame_mut gave the same frame but for the data. If Decoder returns a frame, a program that was told of the trailer has collected an image for it; if Decoder returns None, no program collects another image. Without skip_frame_decoding, after any calls of next_frame_info, read_next_frame, read_into_buffer and fill_buffer, a frame that read_next_frame returns is the one current_frame_mut gave the first program at FrameMetadata of that image, with what it collected brought into row order (if the image is interlaced) and, with ColorOutput::RGBA, looked up in its palette; there were enough bytes for all its pixels.", "quantifier": "for all byte sequences, damaged or not, all options, all ways a reliable reader delivers the bytes, all sequences of calls of either program, all LZW codecs that meet the contract", "why_tests_cant": "Two ways through different layers of the crate are compared for every file and every sequence of calls; a test compares them on some files.", "anchors": ["src/reader/mod.rs:150-420", "src/reader/decoder.rs:426-470", "src/reader/decoder.rs:473-800"]}
{"id": "C98", "title": "A loop around StreamingDecoder::update ends, and has every frame when it ends", "statement": "Let a program call StreamingDecoder::update with the next bytes of a file (at least one, and no more than are left), advance by the number of bytes it returns, and stop when the trailer is reported, when no bytes are left or when a call fails. It chooses lengths of slices and output buffers from what it has seen, but never an empty slice as output buffer, and in image data always a slice with room. For every file, damaged or not, the loop ends, without a panic, after a number of calls that has a bound that depends on the file and the options only; with skip_frame_decoding, at most five calls for each byte, and three. Two such programs have got the same events and image data when they end, and if both end with an error, it is the same one. With skip_frame_decoding, the program has got the data of each frame that read_next_frame returns for the file; without, it has got the pixels of the i-th frame if the image data of the frames up to it can be decoded.", "quantifier": "for all byte sequences, all options, all programs that choose slices and output buffers as described, all ways a reliable reader delivers the bytes to the Decoder it is compared with, all LZW codecs that meet the contract", "why_tests_cant": "Termination is claimed for every file and every strategy of slicing; a test that runs a loop on some files cannot show that no file and no strategy makes it run forever.", "anchors": ["src/reader/decoder.rs:426-470", "src/reader/decoder.rs:473-800", "src/reader/mod.rs:150-420"]}
{"id": "C99", "title": "A loop around StreamingDecoder::update reads what the encoder wrote", "statement": "Let frames, pre-encoded frames, repetitions and extensions be written with Encoder, let bytes follow the file, and let a program run a loop around StreamingDecoder::update on it as in C98. Whatever slices and output buffers it uses, the loop ends without an error and is told of the trailer, and for each frame that the encoder accepted, in order, the program has collected exactly the buffer of the frame (also bytes behind its last pixel), or what the data of a pre-encoded frame decode to; with skip_frame_decoding, the compressed data that were written. This also holds with check_lzw_end_code and check_frame_consistency (if the frames lie inside the canvas). When the program is told of an image, current_frame_mut gives the frame that was written, with the palette padded and without the data.", "quantifier": "for all sequences of encoder calls whose data can be read back, all options, all programs that choose slices and output buffers as in C98, all bytes after the file, all LZW codecs that meet the contract", "why_tests_cant": "Every animation and every strategy of slicing; with Decoder, check_lzw_end_code may reject a file of the encoder, depending on how its bytes arrive (C45), so that it is not obvious that it is accepted here.", "anchors": ["src/encoder.rs:150-430", "src/reader/decoder.rs:426-470", "src/reader/decoder.rs:473-800"]}
{"id": "C100", "title": "What Decoder shows after read_info is what StreamingDecoder told before HeaderEnd", "statement": "Let a program feed StreamingDecoder::update, in slices and with output buffers of its choice, until it is told HeaderEnd for the first time. Then DecodeOptions::read_info succeeds on any reader of the same bytes that does not fail, whatever pieces it delivers them in, and the Decoder shows exactly what the program has been told: width() and height() are those of the StreamingDecoder; global_palette() is the palette last told, none if it is empty; bg_color() is the background colour last told, none if it is not a colour of the global palette; repeat() is the number of repetitions last told, Finite(0) if none was told. Conversely, if read_info succeeds, every loop around update on the same bytes is told HeaderEnd before it ends. For a file that Encoder wrote, what the loop is told before HeaderEnd is the size, the palette (padded with black to a power of two) and the number of repetitions that the encoder was given.", "quantifier": "for all files, well-formed or not, all programs that choose slices and output buffers as in C96, all options, all reliable readers, all LZW codecs that meet the contract", "why_tests_cant": "Every file and every way to deliver it, through two interfaces that keep their own copies of the palette, the background colour and the repetitions.", "anchors": ["src/reader/mod.rs:192-330", "src/reader/mod.rs:405-461", "src/reader/decoder.rs:426-470", "src/reader/decoder.rs:473-800"]}
{"id": "C101", "title": "The data of one image concern no other image", "statement": "Take a file in which the data of one image, that is its sub-blocks after the length byte of the first one, are replaced by other sub-blocks, of any number and length and with any content. If the data of both files can be decoded, loops around StreamingDecoder::update are told the same of both files, the same events in the same order with the same bytes for every other image, and differ only in what they collect for that image, which is what its data expand to; if both fail later, it is with the same error. If the new data cannot be decoded, the loop is told exactly what comes before that image and its announcement. Decoder with skip_frame_decoding returns the same frames for both files: all fields but the buffer are the same for every frame, and the buffer too for every frame but that one, where it is the code size followed by the data.", "quantifier": "for all files, well-formed or not before and after that image, all replacements, all loops that choose slices and output buffers as in C98, all options, all reliable readers, all LZW codecs that meet the contract", "why_tests_cant": "Any content of the sub-blocks, any number of them, any position in the file and any bytes after them; tests replace a few bytes in a few files.", "anchors": ["src/reader/decoder.rs:230-320", "src/reader/decoder.rs:473-800", "src/reader/mod.rs:192-330", "src/reader/mod.rs:405-461"]}
{"id": "C102", "title": "Comments, plain text and application data do not change what is read", "statement": "Take a file and put an extension between two of its blocks, or before the first or after the last: a comment, a plain text extension, or an application extension that is not a loop count (or any application extension, if an image comes before it), with any sub-blocks that the memory limit allows for. Everything that Decoder gives is the same as without it: read_info succeeds or fails with the same error and the accessors show the same, with all options; with skip_frame_decoding all calls of next_frame_info and read_next_frame return the same frames and the same errors and the accessors show the same after each of them, even if the extension is put between a graphic control extension and its image; without skip_frame_decoding all calls return the same pixels, if the raw frames have pixels and are whole, within the memory limit and free of invalid codes behind the last pixel. Two exceptions are shown to be real: with allow_unknown_blocks an unknown block continues the extension before it; and a file that has nothing but a trailer after the colour table is opened only if there is an extension before the trailer.", "quantifier": "for all files whose blocks before the extension are delimited as the format says (their content is arbitrary and may be rejected), any bytes after it, all extensions, all sequences of calls, all reliable readers, all options but allow_unknown_blocks, all LZW codecs that meet the contract", "why_tests_cant": "Any place in any file, any label and content of the extension, and all calls afterwards; the decoder stores the extension in the same fields as a control extension or a loop count.", "anchors": ["src/reader/decoder.rs:630-800", "src/reader/mod.rs:192-330", "src/reader/mod.rs:405-461"]}
{"id": "C103", "title": "The last control extension before an image decides, and the last loop count before the first image", "statement": "If a file has two graphic control extensions with only comments and the like between them (which C102 removes), the first might as well not be there: delay, transparent colour, disposal and user input all come from the second, and nothing of the first is left over. The same holds of two loop counts, or of any application extension before a loop count. Everything that Decoder gives is the same with and without the first one: read_info and the accessors, with all options; all calls of next_frame_info and read_next_frame with skip_frame_decoding; all pixels, however they are read, without it, if the raw frames have pixels and are whole, within the memory limit and free of invalid codes behind the last pixel. The first control extension has four bytes of data in sub-blocks of any lengths; the second may have any content, and if it is rejected, it is rejected in both files.", "quantifier": "for all files whose blocks before the place are delimited as the format says (their content is arbitrary), any bytes after it, all values in the extensions, all sequences of calls, all reliable readers, all options but allow_unknown_blocks, all LZW codecs that meet the contract", "why_tests_cant": "The decoder keeps the frame that it builds, the extension data and the loop count in fields that are overwritten in parts; that no part of a previous value is left over concerns all pairs of extensions and all places.", "anchors": ["src/reader/decoder.rs:630-760", "src/reader/mod.rs:192-330", "src/reader/mod.rs:405-461"]}
{"id": "C104", "title": "How data are cut into sub-blocks makes no difference, nor do bits without meaning", "statement": "Two files that differ only in what has no meaning read the same. They may differ, in any number of blocks at once, in: the lengths of the sub-blocks that the data of images and extensions are cut into; the version in the signature, the colour resolution, the sort flag and the aspect ratio of the screen descriptor; the sort flag and the reserved bits of image descriptors, and the size of a colour table that is not there; the reserved bits of graphic control extensions, and the index of a transparent colour if there is none. Everything that Decoder gives is the same: read_info and the accessors, with all options; all calls of next_frame_info and read_next_frame with skip_frame_decoding, frames as well as errors; all pixels, however they are read, without it, if the raw frames have pixels and are whole, within the memory limit and free of invalid codes behind the last pixel.", "quantifier": "for all pairs of files whose blocks correspond (their content is arbitrary and may be rejected), any bytes after them, all sequences of calls, all reliable readers, all options but allow_unknown_blocks, all LZW codecs that meet the contract", "why_tests_cant": "Any number of blocks of any content, cut in any way; the decoder works through the sub-blocks one by one and in slices of any size.", "anchors": ["src/reader/decoder.rs:540-800", "src/reader/mod.rs:192-330", "src/reader/mod.rs:405-461"]}
{"id": "C105", "title": "Where the colours are stored makes no difference", "statement": "Two files whose extensions, positions and sizes of images, interlace flags and image data are the same, but that store colours in different places, give the same pixels. One file may use a global colour table where the other has a local table in each image, tables may be larger than needed in indexed mode, and version, background, aspect ratio and (unless check_frame_consistency is set) the size of the screen may differ. With ColorOutput::RGBA the tables that apply to corresponding images must be equal; with ColorOutput::Indexed, and with skip_frame_decoding, any colours may stand in either file as long as each image has a table in both or in neither. Then all calls of Decoder give the same, errors included, but for the tables themselves and the accessors of the screen.", "quantifier": "for all pairs of files whose blocks correspond (their content is arbitrary and may be rejected), followed by the trailer and any bytes, or by nothing; all sequences of calls, all reliable readers, all options, all LZW codecs that meet the contract; pixels: without check_lzw_end_code, if the raw frames have pixels and are whole, within the memory limit and free of invalid codes behind the last pixel", "why_tests_cant": "The choice between local and global table is made in several functions, for any number of images with tables of any size; tests compare single files with reference pictures.", "anchors": ["src/reader/decoder.rs:558-640", "src/reader/mod.rs:192-330", "src/reader/mod.rs:405-461", "src/reader/converter.rs:60-260"]}
{"id": "C106", "title": "What pixels depend on", "statement": "The pixels of all frames, read in any way, and all errors depend on nothing but the sizes, interlace flags and data of the images and, with ColorOutput::RGBA, the colour tables that apply and the transparent colours. Without check_frame_consistency, two files that agree in this give the same sizes, pixels and errors from all calls of Decoder, whatever else is different in them: screen size, background, version; positions of images, their delays, disposal methods and user input flags, loop counts, the contents of comments and application data (of the same length, which the memory limit looks at), where the colour tables are stored, how data are cut into sub-blocks, and what comes behind the trailer. With ColorOutput::Indexed and with skip_frame_decoding colours and transparency make no difference either.", "quantifier": "for all pairs of files whose blocks correspond (their data are arbitrary and may be rejected), all sequences of calls, all reliable readers, all options with check_frame_consistency off, all LZW codecs that meet the contract; pixels: without check_lzw_end_code, if the raw frames have pixels and are whole, within the memory limit and free of invalid codes behind the last pixel", "why_tests_cant": "Any number of blocks, any differences in all of them at once; a dependence on a field that should not matter shows only for particular values of that field and particular options.", "anchors": ["src/reader/decoder.rs:540-800", "src/reader/mod.rs:192-330", "src/reader/mod.rs:405-461", "src/reader/converter.rs:92-147"]}
{"id": "C107", "title": "What the text of an error says", "statement": "An error, its source, the source of that and so on all have the same text, and the chain comes to an end, always the same one. The format error and its message, or the io::Error (that of the reader or writer, if it failed), are in the chain. Text, variant and the kind of the io::Error in it tell all errors of the decoder apart, and likewise those of the encoder, if those of the reader or writer differ from the crate's own and from each other. The text of the error of read_info is \"malformed GIF header\" for exactly the files that have at least six bytes and do not begin with a signature. An io::Error found in the chain that is none of those the decoder makes is one that the reader returned.", "quantifier": "for all errors, all texts of weezl and all errors of readers and writers; for all files and reliable readers, all options, all LZW codecs that meet the contract; for all readers and all reachable decoders", "why_tests_cant": "Which files give a text is a question about all files and all ways a reader may deliver them; that no two causes look the same is a question about all pairs of errors, those of the reader included.", "anchors": ["src/reader/decoder.rs:20-97", "src/encoder.rs:25-78", "src/reader/decoder.rs:540-548", "src/reader/converter.rs:49"]}
