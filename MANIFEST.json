{
 "claims": [
  {
   "property": "C01",
   "status": "proved",
   "theorems": [
    "Gif.Decoder.metadata_chunk_invariant"
   ],
   "note": "every file, option and cut; LZW codec only memory safe"
  },
  {
   "property": "C02",
   "status": "proved",
   "theorems": [
    "Gif.Decoder.raw_chunk_invariant"
   ],
   "note": "any mixture of next_frame_info and read_next_frame calls"
  },
  {
   "property": "C03",
   "status": "partial",
   "theorems": [
    "Gif.Decoder.pixels_chunk_invariant_partial",
    "Gif.Decoder.chunk_invariant_fails_invalid",
    "Gif.Decoder.chunk_invariant_fails_truncated",
    "Gif.Decoder.chunk_invariant_fails_check",
    "Gif.Decoder.sessions_agree"
   ],
   "note": "sessions_agree, without any assumption about the file, the options memory_limit and check_lzw_end_code or the reads: sessions over the same bytes give the same up to the first error in one of them. Equality of whole sessions, errors included: for every contract-keeping LZW decompressor, without check_lzw_end_code, with any memory limit, for files whose frames are complete, have at least one pixel and no invalid code after the last pixel; false of the code without these conditions (three negations)"
  },
  {
   "property": "C04",
   "status": "partial",
   "theorems": [
    "Gif.Decoder.grammar_frames_partial",
    "Gif.Decoder.grammar_raw_frames",
    "Gif.Decoder.grammar_reel",
    "Gif.grammar_fails_empty_extension",
    "Gif.grammar_fails_empty_image",
    "Gif.grammar_fails_no_blocks",
    "Gif.Decoder.pixel_reading_partial",
    "Gif.big_data"
   ],
   "note": "every file of the grammar whose extensions and images have data and that has at least one block; pixels as the LZW contract gives them, images with at least one pixel; with skip_frame_decoding every image, and the exact error for a rejected one; three negations for legal files that the decoder misreads; the data of an image may take more memory than the limit allows, if its pixels do not (big_data)"
  },
  {
   "property": "C05",
   "status": "partial",
   "theorems": [
    "Gif.encode_decode_partial",
    "Gif.roundtrip_pixels",
    "Gif.encode_decode_fails",
    "Gif.own_files_checked"
   ],
   "note": "all lists of non-interlaced frames with pixels; false for interlaced frames (proved counterexample: the encoder does not reorder rows); roundtrip_pixels says what any mixture of calls comes back as, also in RGBA mode; for readers without I/O errors, extensions that the decoder can read (of a known kind, with data), no check_lzw_end_code in pixel mode, every contract-keeping LZW codec; with check_lzw_end_code: the same, or an early end with the error of a missing end code (own_files_checked)"
  },
  {
   "property": "C06",
   "status": "partial",
   "theorems": [
    "Gif.repeat_survives_partial",
    "Gif.repeat_survives_fails",
    "Gif.roundtrip_open"
   ],
   "note": "all loop counts, except that set_repeat(Finite(0)) after another loop count leaves that one in the file (proved counterexample). roundtrip_open says for every sequence of calls what repeat() returns: the last loop count written before the first frame"
  },
  {
   "property": "C07",
   "status": "proved",
   "theorems": [
    "Gif.global_palette_survives",
    "Gif.local_palette_survives",
    "Gif.control_fields_raw",
    "Gif.padded_shape",
    "Gif.palette_rejected"
   ],
   "note": "for readers without I/O errors, extensions that the decoder can read (of a known kind, with data), no check_lzw_end_code in pixel mode, every contract-keeping LZW codec"
  },
  {
   "property": "C08",
   "status": "partial",
   "theorems": [
    "Gif.Decoder.truncated_prefix_partial",
    "Gif.Decoder.pixels_prefix_partial",
    "Gif.Decoder.sessions_agree",
    "Gif.Decoder.truncated_prefix_fails_invalid"
   ],
   "note": "metadata and raw frames for every file; pixels: sessions_agree for every file (what a decoder of the truncated file gives is what a decoder of the file gives, up to the first error in one of them); that only the truncated file fails, and with UnexpectedEof: for every contract-keeping LZW decompressor, without check_lzw_end_code, with any memory limit, for files whose frames are complete, have at least one pixel and no invalid code after the last pixel; false of the code otherwise (negation)"
  },
  {
   "property": "C09",
   "status": "partial",
   "theorems": [
    "Gif.Props.update_terminates_partial",
    "Gif.Props.update_hangs_after_trailer"
   ],
   "note": "every call returns unless the decoder has already returned the trailer event; after that event a call with a non-empty slice loops forever (negation proved)"
  },
  {
   "property": "C10",
   "status": "partial",
   "theorems": [
    "Gif.Props.update_consumed",
    "Gif.Props.update_progress_partial",
    "Gif.Props.update_stuck_on_empty_slice"
   ],
   "note": "proved unless an empty output slice is given in skip_frame_decoding mode, where update returns LzwDataCopied(0) forever (negation proved)"
  },
  {
   "property": "C11",
   "status": "proved",
   "theorems": [
    "Gif.Decoder.no_panic",
    "Gif.DecoderIter.next_no_panic",
    "Gif.FrameDecoder.calls_return"
   ],
   "note": "for every codec with memory-safe decode_bytes"
  },
  {
   "property": "C12",
   "status": "proved",
   "theorems": [
    "Gif.Decoder.calls_terminate",
    "Gif.DecoderIter.next_terminates",
    "Gif.FrameDecoder.calls_return"
   ],
   "note": "for every codec with memory-safe decode_bytes"
  },
  {
   "property": "C13",
   "status": "proved",
   "theorems": [
    "Gif.Decoder.frame_within_limit",
    "Gif.Decoder.large_frame_is_error",
    "Gif.FrameDecoder.frame_within_limit"
   ],
   "note": ""
  },
  {
   "property": "C14",
   "status": "proved",
   "theorems": [
    "Gif.Props.last_ext_within_limit"
   ],
   "note": ""
  },
  {
   "property": "C15",
   "status": "proved",
   "theorems": [
    "Gif.Decoder.frame_consistency",
    "Gif.Decoder.frame_consistency_raw",
    "Gif.Decoder.grammar_info",
    "Gif.Decoder.grammar_info_raw"
   ],
   "note": "every image of every file of the grammar, all geometries, whatever the image data"
  },
  {
   "property": "C16",
   "status": "proved",
   "theorems": [
    "Gif.Props.C16_interlace_rows",
    "Gif.Props.interlace_assert"
   ],
   "note": "all heights"
  },
  {
   "property": "C17",
   "status": "proved",
   "theorems": [
    "Gif.Decoder.read_next_frame_picture",
    "Gif.Spec.picture_rows",
    "Gif.Props.C17_deinterlace_indexed",
    "Gif.Props.C17_deinterlace_rgba",
    "Gif.Props.C17_plain_indexed",
    "Gif.Decoder.read_frame_picture",
    "Gif.Decoder.frame_right"
   ],
   "note": "read_next_frame_picture with picture_rows: whatever read_next_frame returns, on any bytes and after any calls, is the width*height indices fetched from the stream, placed by the interlace order; assumes only that the LZW decompressor does not panic or over-report (Codec.Safe). The C17_* theorems say the same of any pixel source; read_frame_picture identifies the indices with the expansion of the compressed frame for well-formed data"
  },
  {
   "property": "C18",
   "status": "proved",
   "theorems": [
    "Gif.Decoder.read_next_frame_picture",
    "Gif.Spec.picture_rgba",
    "Gif.Decoder.rgba_session",
    "Gif.Props.C18_rgba_is_lookup",
    "Gif.Props.C17_deinterlace_rgba",
    "Gif.Decoder.read_frame_picture",
    "Gif.Decoder.frame_right"
   ],
   "note": "read_next_frame_picture with picture_rgba: the bytes of each pixel are its palette lookup, on any bytes and after any calls. rgba_session: any session in RGBA mode shows the colours of what the same session shows in indexed mode, except for the memory limit and the kind of error for a frame without pixels. Codec.Safe is the only assumption about LZW"
  },
  {
   "property": "C19",
   "status": "partial",
   "theorems": [
    "Gif.Decoder.fill_buffer_pieces_partial",
    "Gif.Decoder.fill_buffer_stream",
    "Gif.Decoder.fill_buffer_empty_loses",
    "Gif.Decoder.fill_buffer_right",
    "Gif.Decoder.fill_buffer_stream_right"
   ],
   "note": "for every file and all options, what fill_buffer gives is the consecutive pieces of the image, up to an error (fill_buffer_right, fill_buffer_stream_right); that no error occurs: without check_lzw_end_code, with any memory limit, for files whose frames are complete, have at least one pixel and no invalid code after the last pixel. Buffers of whole pixels, at least one each; false of the code for empty buffers (negation)"
  },
  {
   "property": "C20",
   "status": "proved",
   "theorems": [
    "Gif.C20_code_size",
    "Gif.C20_C25_write_frame"
   ],
   "note": ""
  },
  {
   "property": "C21",
   "status": "proved",
   "theorems": [
    "Gif.C21_pre_encoding",
    "Gif.C21_op",
    "Gif.C21_session"
   ],
   "note": "frames need width*height>0 pixels in the buffer, which is what write_frame accepts"
  },
  {
   "property": "C22",
   "status": "partial",
   "theorems": [
    "Gif.FrameDecoder.restores_partial",
    "Gif.FrameDecoder.restores_picture_partial",
    "Gif.FrameDecoder.right",
    "Gif.FrameDecoder.tiny_frame_not_restored"
   ],
   "note": "holds without exception for a codec whose calls give output whenever they can (Prompt 0, proved of the reference codec); with a codec that takes in up to n bytes on its first call before it gives output (weezl may be one: its source is not available here), proved for more than n bytes of compressed data and refuted for less (proved counterexample); right: whatever frame it is given and whatever the codec, what a FrameDecoder returns with Ok is the picture of the data"
  },
  {
   "property": "C23",
   "status": "partial",
   "theorems": [
    "Gif.FrameDecoder.skip_then_expand_partial",
    "Gif.FrameDecoder.expand_agrees",
    "Gif.FrameDecoder.skipped_frame_lost"
   ],
   "note": "expand_agrees: for every file, also damaged or truncated ones, all options and all calls before, a frame from read_next_frame and the frame a FrameDecoder makes of the raw frame are the same unless one of the two fails. skip_then_expand_partial: errors included, for all readers and partitions, all frames of a session, every colour mode; same exception as C22 (proved counterexample); missing: equality of the errors for files that end within image data, have invalid codes behind the last pixel, or are read with check_lzw_end_code"
  },
  {
   "property": "C24",
   "status": "partial",
   "theorems": [
    "Gif.rewrite_partial",
    "Gif.rewrite_pixels_partial",
    "Gif.rewrite_fails",
    "Gif.rewrite_any_partial"
   ],
   "note": "all files of the grammar whose code sizes are at least 2 and that the decoder reads (C04); false for code size 1, which the decoder accepts and the encoder rejects (proved counterexample) rewrite_any_partial: the same for raw frames read from any byte string, in any order and number, with any calls before, damaged files included."
  },
  {
   "property": "C25",
   "status": "proved",
   "theorems": [
    "Gif.C20_C25_write_frame",
    "Gif.C25_pre_encoded",
    "Gif.C25_raw_extension"
   ],
   "note": ""
  },
  {
   "property": "C26",
   "status": "partial",
   "theorems": [
    "Gif.C26_negation",
    "Gif.C26_rejected_partial"
   ],
   "note": "false of the code: a frame rejected for its palette leaves an 8-byte control extension behind (negation); the exact residue of every rejection is proved"
  },
  {
   "property": "C27",
   "status": "proved",
   "theorems": [
    "Gif.roundtrip_raw",
    "Gif.roundtrip_pixels"
   ],
   "note": "`written` are the accepted frames among arbitrary calls; for readers without I/O errors, extensions that the decoder can read (of a known kind, with data), no check_lzw_end_code in pixel mode, every contract-keeping LZW codec; pixel mode also needs frames with pixels; with skip_frame_decoding the compressed data must fit into the memory limit (Held), otherwise they may be of any length"
  },
  {
   "property": "C28",
   "status": "partial",
   "theorems": [
    "Gif.C28_call",
    "Gif.C28_session",
    "Gif.C28_into_inner",
    "Gif.C28_new_negation",
    "Gif.C28_new_partial",
    "Gif.first_error_returned"
   ],
   "note": "proved for every call, session and into_inner; the error returned is the first one of the writer, which is not called after it (first_error_returned); for Encoder::new the destructor appends a trailer byte after the failure (negation), exact residue proved"
  },
  {
   "property": "C29",
   "status": "proved",
   "theorems": [
    "Gif.C29_into_inner",
    "Gif.C29_drop"
   ],
   "note": ""
  },
  {
   "property": "C30",
   "status": "partial",
   "theorems": [
    "Gif.C30_negation",
    "Gif.C30_new_partial"
   ],
   "note": "false of the code: dropping the half-built encoder writes a trailer byte; proved that this byte is all"
  },
  {
   "property": "C31",
   "status": "proved",
   "theorems": [
    "Gif.C31_from_rgba",
    "Gif.C31_from_rgb"
   ],
   "note": ""
  },
  {
   "property": "C32",
   "status": "partial",
   "theorems": [
    "Gif.C32_negation",
    "Gif.C32_mask_partial",
    "Gif.C32_exact",
    "Gif.C32_any"
   ],
   "note": "false of the code when transparent pixels have different RGB values (C32_negation). With at most 256 colours: true of an image exactly if all its pixels with alpha 0 have the same colour, and in general exactly the pixels like the last of them become transparent, never an opaque one (C32_exact). With more colours, whatever the quantiser does: a transparent index exists exactly if some pixel has alpha 0 (C32_any)"
  },
  {
   "property": "C33",
   "status": "proved",
   "theorems": [
    "Gif.true_colour_pipeline"
   ],
   "note": "images with at least one pixel; for readers without I/O errors, extensions that the decoder can read (of a known kind, with data), no check_lzw_end_code in pixel mode, every contract-keeping LZW codec"
  },
  {
   "property": "C34",
   "status": "proved",
   "theorems": [
    "Gif.C34_from_palette_pixels",
    "Gif.C34_from_indexed_pixels",
    "Gif.C34_from_rgba_speed",
    "Gif.C34_from_rgb_speed",
    "Gif.C34_default_speed"
   ],
   "note": ""
  },
  {
   "property": "C35",
   "status": "proved",
   "theorems": [
    "Gif.Props.events_follow_protocol",
    "Gif.Props.headerEnd_at_most_once",
    "Gif.Props.headerEnd_before_image",
    "Gif.Props.trailer_is_last"
   ],
   "note": ""
  },
  {
   "property": "C36",
   "status": "partial",
   "theorems": [
    "Gif.Props.raw_extension_partial",
    "Gif.Props.raw_extension_fails",
    "Gif.Props.empty_extension_fails",
    "Gif.Props.block_boundary",
    "Gif.Props.known_labels"
   ],
   "note": "Extensions with data are reported with their label and their data in last_ext after one extra byte, for all slicings of the input; the literal claim is false: last_ext has one byte more than the payload (raw_extension_fails), and an extension without data swallows the next block (empty_extension_fails)."
  },
  {
   "property": "C37",
   "status": "partial",
   "theorems": [
    "Gif.Decoder.unknown_block_partial",
    "Gif.Decoder.unknown_block_raw_partial",
    "Gif.Props.unknown_events_partial",
    "Gif.Props.label_zero",
    "Gif.Props.unknown_after_control_fails",
    "Gif.Props.empty_unknown_fails",
    "Gif.Props.unknown_label_fails",
    "Gif.Props.unknown_hides_loops"
   ],
   "note": "Unknown blocks with data whose last preceding extension is no graphic control extension are skipped: same frames, accessors and errors. The literal claim is false after a graphic control extension, for unknown blocks without data, and for the label, which is that of the last extension (0 only if there was none)."
  },
  {
   "property": "C38",
   "status": "partial",
   "theorems": [
    "Gif.DecoderIter.iterator_agrees_partial",
    "Gif.DecoderIter.iterator_not_fused",
    "Gif.DecoderIter.iterator_exact",
    "Gif.Decoder.frame_without_bytes"
   ],
   "note": "the statement is false for files with interlaced frames of height 0 (negation: iterator_not_fused). Proved when no frame has an empty area (iterator_agrees_partial); and for all files what the iterator does instead: it yields read_next_frame's results with frames without bytes replaced by None (iterator_exact), and those are exactly the interlaced frames of height 0 decoded to pixels (frame_without_bytes)"
  },
  {
   "property": "C39",
   "status": "partial",
   "theorems": [
    "Gif.Decoder.at_end",
    "Gif.Decoder.stays_at_end",
    "Gif.Decoder.end_leaves_rest_partial",
    "Gif.Decoder.end_leaves_rest_raw_partial",
    "Gif.end_leaves_rest_fails"
   ],
   "note": "the end is permanent and the reader is untouched for every stream; the leftover bytes are exactly those after the trailer for every file of the grammar whose extensions and images have data; false for files with an empty extension (negation)"
  },
  {
   "property": "C40",
   "status": "proved",
   "theorems": [
    "Gif.Decoder.bg_color_valid"
   ],
   "note": ""
  },
  {
   "property": "C41",
   "status": "proved",
   "theorems": [
    "Gif.Decoder.read_errors_retried"
   ],
   "note": "from every reachable decoder state; errors are reported in order, none lost, and retrying gives the scan of the reader without errors"
  },
  {
   "property": "C42",
   "status": "proved",
   "theorems": [
    "Gif.control_fields",
    "Gif.control_fields_raw",
    "Gif.control_read"
   ],
   "note": "for readers without I/O errors, extensions that the decoder can read (of a known kind, with data), no check_lzw_end_code in pixel mode, every contract-keeping LZW codec"
  },
  {
   "property": "C43",
   "status": "partial",
   "theorems": [
    "Gif.Decoder.metadata_local_partial",
    "Gif.Decoder.metadata_local_raw_partial",
    "Gif.metadata_local_fails"
   ],
   "note": "every file of the grammar as in C04, any blocks before and after; false for files with an empty extension (negation)"
  },
  {
   "property": "C44",
   "status": "proved",
   "theorems": [
    "Gif.Decoder.frame_independent",
    "Gif.Decoder.frame_right",
    "Gif.Decoder.frame_independent_partial",
    "Gif.Decoder.read_frame_picture"
   ],
   "note": "frame_independent: no assumption about the file, the calls before, the memory limit or check_lzw_end_code. frame_independent_partial adds, for regular files, that errors are the same too"
  },
  {
   "property": "C45",
   "status": "partial",
   "theorems": [
    "Gif.Decoder.check_end_code_only_rejects",
    "Gif.Decoder.check_only_rejects_partial",
    "Gif.Decoder.missing_end_code_found_partial",
    "Gif.Decoder.end_codes_accepted_partial",
    "Gif.Decoder.chunk_invariant_fails_check",
    "Gif.Decoder.check_end_code_fails_skip",
    "Gif.own_files_accepted",
    "Gif.own_file_rejected"
   ],
   "note": "Proved for every file, reader and sequence of calls: the option only adds the error of a missing end code. Proved for files whose frames can be read whole and have pixels: a session with the option on any pieces gives the same as one without on any other pieces, or ends with that error; a frame without an end code is never exhausted by fill_buffer and never passed by another call; if all frames have end codes and each is fetched until fill_buffer returns false, the option makes no difference. False in general for other reading patterns (negations): a frame with an end code is rejected when it is skipped, or depending on how the bytes arrive. The encoder's own files are accepted if each frame is fetched until fill_buffer returns false (own_files_accepted), and may be rejected otherwise (own_file_rejected)."
  },
  {
   "property": "C46",
   "status": "proved",
   "theorems": [
    "Gif.Decoder.frame_has_palette",
    "Gif.C46_encoder"
   ],
   "note": ""
  },
  {
   "property": "C47",
   "status": "partial",
   "theorems": [
    "Gif.no_frames_partial",
    "Gif.no_frames_fails",
    "Gif.no_calls_exact",
    "Gif.Decoder.no_blocks_eof",
    "Gif.Decoder.no_blocks_more"
   ],
   "note": "proved if some extension was written (no_frames_partial); false for header and trailer only (negation no_frames_fails). For those files, all palettes, options and readers: read_info returns UnexpectedEof if nothing follows the trailer; otherwise the file opens, has no frames, and one byte too many is taken from the reader (no_calls_exact; no_blocks_eof and no_blocks_more for files of any origin)"
  },
  {
   "property": "C48",
   "status": "partial",
   "theorems": [
    "Gif.empty_frame_fails",
    "Gif.roundtrip_raw",
    "Gif.Decoder.zero_area_rejected"
   ],
   "note": "false: the decoder rejects such frames as truncated or, in RGBA mode, as odd-sized (proved counterexample); true with skip_frame_decoding (roundtrip_raw has no condition on the area). zero_area_rejected: in any file, after any calls, reading a frame without area as pixels fails, in RGBA mode always with the same error and before any image data is read, unless the frame is interlaced and has no rows"
  },
  {
   "property": "C49",
   "status": "partial",
   "theorems": [
    "Gif.Decoder.extra_pixels_ignored_partial",
    "Gif.Spec.picture_take",
    "Gif.Decoder.extra_pixels_ignored",
    "Gif.Decoder.extra_pixels_fails_check"
   ],
   "note": "extra_pixels_ignored for every file whose raw frames can be read: the same frames up to the first error in one of the sessions; equality of whole sessions without check_lzw_end_code for files with no invalid code after the last pixel; false of the code with check_lzw_end_code (negation)"
  },
  {
   "property": "C50",
   "status": "partial",
   "theorems": [
    "Gif.Props.C50_read_into_buffer_no_overflow",
    "Gif.Props.C50_check_buffer_size",
    "Gif.Props.C50_sizes_64",
    "Gif.Props.C50_buffer_size_panics_on_32_bit",
    "Gif.Props.C50_sizes_32_partial"
   ],
   "note": "false of the code in one place: Decoder::buffer_size panics on 32-bit platforms for huge RGBA frames; everything else proved"
  },
  {
   "property": "C51",
   "status": "proved",
   "theorems": [
    "Gif.Parallel.C51_parallel_order"
   ],
   "note": ""
  },
  {
   "property": "C52",
   "status": "proved",
   "theorems": [
    "Gif.Decoder.memory_limit_only_rejects"
   ],
   "note": "for every reader, also one that fails or returns empty reads, every codec, every option including skip_frame_decoding"
  },
  {
   "property": "C53",
   "status": "proved",
   "theorems": [
    "Gif.from_rgba_sound",
    "Gif.from_rgb_sound",
    "Gif.sound_frame_written",
    "Gif.from_rgba_quantized"
   ],
   "note": "NeuQuant is an external crate: its contract (at most 256 colours, indices of them) is the hypothesis NeuQuant.Lawful."
  },
  {
   "property": "C54",
   "status": "proved",
   "theorems": [
    "Gif.encoder_writes_gif"
   ],
   "note": "two_controls_fail shows that the condition on explicit control extensions is needed; a frame rejected for its palette leaves a control extension behind (C26)."
  },
  {
   "property": "C55",
   "status": "proved",
   "theorems": [
    "Gif.frames_accepted"
   ],
   "note": "For calls that do not panic (C56)."
  },
  {
   "property": "C56",
   "status": "partial",
   "theorems": [
    "Gif.encoder_panics_partial",
    "Gif.encoder_panics_fails",
    "Gif.drop_panics",
    "Gif.new_no_panic",
    "Gif.into_inner_no_panic"
   ],
   "note": "False in debug builds: write_frame of a frame of zero width or height with a non-empty buffer hits a debug_assert (encoder_panics_fails). The partial theorem shows that this is the only panic."
  },
  {
   "property": "C57",
   "status": "proved",
   "theorems": [
    "Gif.Decoder.strict_options_only_reject"
   ],
   "note": "For every codec, reader (also failing ones), call sequence and pair of options that differ in the four."
  },
  {
   "property": "C58",
   "status": "proved",
   "theorems": [
    "Gif.decode_encode_decode",
    "Gif.Decoder.frames_sound",
    "Gif.Decoder.sessionFrom_sound"
   ],
   "note": "For every codec that meets the contract. Decoding the new file is with check_lzw_end_code off and with frames of at least one pixel; the file that frames come from may be any byte string and may be read with any calls."
  },
  {
   "property": "C59",
   "status": "proved",
   "theorems": [
    "Gif.Decoder.raw_reading"
   ],
   "note": "Spec.Descent.gif is a total functional specification, written without states, buffers and events."
  },
  {
   "property": "C60",
   "status": "proved",
   "theorems": [
    "Gif.Decoder.only_gifs_open",
    "Gif.Decoder.other_files_rejected",
    "Gif.Decoder.short_files_rejected",
    "Gif.Decoder.open_reading"
   ],
   "note": ""
  },
  {
   "property": "C61",
   "status": "proved",
   "theorems": [
    "Gif.Props.events_slices",
    "Gif.Props.events_slices_final",
    "Gif.Props.state_slices"
   ],
   "note": "Frames with an output buffer are the subject of C03 and C04."
  },
  {
   "property": "C62",
   "status": "proved",
   "theorems": [
    "Gif.Props.header_accessors"
   ],
   "note": ""
  },
  {
   "property": "C63",
   "status": "proved",
   "theorems": [
    "Gif.rewrite_identical",
    "Gif.reencode_identical",
    "Gif.rewrite_stable",
    "Gif.reencode_stable",
    "Gif.reencode_differs"
   ],
   "note": "reencode_differs shows that the conditions are needed: superfluous pixels, interlaced frames, comments and late loop counts give another file."
  },
  {
   "property": "C64",
   "status": "proved",
   "theorems": [
    "Gif.Decoder.damage_raw",
    "Gif.Decoder.damage_frames",
    "Gif.crash_raw",
    "Gif.crash_pixels",
    "Gif.damage_fails_imageless",
    "Gif.damage_fails_terminator",
    "Gif.crash_fails_retry"
   ],
   "note": "The last three show the limits: read_info of a file without images needs what follows; an image needs its terminator; a frame written again after a failure is not safe, because the bytes of the first attempt stay in the file. damage_frames and crash_pixels hold whatever the length of the compressed data; the raw frames have to fit the memory limit."
  },
  {
   "property": "C65",
   "status": "proved",
   "theorems": [
    "Gif.Decoder.causal",
    "Gif.Decoder.causal_reads",
    "Gif.Decoder.session_causal",
    "Gif.Decoder.prompt_raw",
    "Gif.Decoder.prompt_frames"
   ],
   "note": "session_causal is C08 with pixels, for every file and every option, if the whole file is read with the same read calls as the beginning. prompt_frames holds whatever the length of the compressed data."
  },
  {
   "property": "C66",
   "status": "partial",
   "theorems": [
    "Gif.Decoder.into_keeps",
    "Gif.Decoder.into_blind",
    "Gif.Decoder.into_refuses",
    "Gif.Decoder.into_paints",
    "Gif.Decoder.into_replaces_partial",
    "Gif.Decoder.into_leaves_old_pixels",
    "Gif.Decoder.fill_blind",
    "Gif.FrameDecoder.into_keeps",
    "Gif.FrameDecoder.into_blind"
   ],
   "note": "everything but the last sentence holds without exception; the last one holds of palette indices and of palettes with 256 colours, and is false otherwise: in RGBA mode an index without a colour leaves the old bytes (proved counterexample; into_paints says exactly which bytes are written)"
  },
  {
   "property": "C67",
   "status": "partial",
   "theorems": [
    "Gif.Decoder.rest_is_suffix",
    "Gif.Decoder.stream_raw",
    "Gif.Decoder.stream_frames_partial",
    "Gif.Decoder.stream_unique",
    "Gif.own_stream_partial"
   ],
   "note": "the first sentence holds for every reader (also failing ones), codec and list of calls; with skip_frame_decoding the streams of all legal files of C04; with pixels the streams of files of C04 (same exclusions), and of files of the encoder as in C05"
  },
  {
   "property": "C68",
   "status": "proved",
   "theorems": [
    "Gif.Decoder.frames_cost",
    "Gif.Decoder.frames_cost_rest",
    "Gif.Decoder.read_loop_ends",
    "Gif.Decoder.looped_det",
    "Gif.DecoderIter.items_end"
   ],
   "note": "sharp up to the six bytes of a colour table (cost_sharp)"
  },
  {
   "property": "C69",
   "status": "partial",
   "theorems": [
    "Gif.Examples.explode_ends",
    "Gif.Examples.explode_files_partial",
    "Gif.Examples.explode_no_pixels",
    "Gif.Examples.explode_loses_error"
   ],
   "note": "the files of frames without pixels cannot always be decoded (explode_no_pixels); if a write fails when the encoder is dropped, the program still reports success (explode_loses_error)"
  },
  {
   "property": "C70",
   "status": "partial",
   "theorems": [
    "Gif.Examples.reencode_exists",
    "Gif.Examples.reencode_same",
    "Gif.Examples.reencode_ends",
    "Gif.Examples.reencode_succeeds",
    "Gif.Examples.reencode_panics",
    "Gif.Examples.reencode_frames_partial",
    "Gif.Examples.reencode_panics_on_short_data",
    "Gif.Examples.reencode_no_frames",
    "Gif.Examples.reencode_no_pixels"
   ],
   "note": "proved for outputs with at least one frame and frames with pixels. Without frames the output cannot be opened (reencode_no_frames); a frame without pixels may become unreadable (reencode_no_pixels). If a frame cannot be expanded, the program panics instead of reporting the error (reencode_panics)."
  },
  {
   "property": "C71",
   "status": "partial",
   "theorems": [
    "Gif.Props.streaming_decoder_holds",
    "Gif.Decoder.decoder_holds_partial",
    "Gif.Decoder.scratch_bounded",
    "Gif.Decoder.refused_reservation",
    "Gif.Decoder.raw_reserve_ignores_limit"
   ],
   "note": "everything but the last sentence, counting the bytes in use. The last sentence is false: with skip_frame_decoding, read_next_frame reserves width*height/4 bytes whatever the limit, a gigabyte for a file of 35 bytes (raw_reserve_ignores_limit); if the allocator refuses, the call fails and the decoder is where next_frame_info would have left it (refused_reservation). Not counted: the BufReader (which std gives a fixed size) and the tables of the LZW decoder (outside this crate)."
  },
  {
   "property": "C72",
   "status": "proved",
   "theorems": [
    "Gif.Examples.try_decode_returns",
    "Gif.Examples.try_decode_ok",
    "Gif.Examples.check_prints"
   ],
   "note": "the text of the lines (Debug formatting) is not modelled, only the fields printed"
  },
  {
   "property": "C73",
   "status": "proved",
   "theorems": [
    "Gif.Decoder.frames_ignore_scratch",
    "Gif.Decoder.into_ignores_scratch",
    "Gif.Decoder.fill_ignores_scratch",
    "Gif.Decoder.reach_of_scratch",
    "Gif.FrameDecoder.frames_ignore_scratch",
    "Gif.FrameDecoder.into_ignores_scratch"
   ],
   "note": "the callback is any that writes the bytes it reports and leaves the rest of the slice alone when it succeeds (Spec.Writes)"
  },
  {
   "property": "C74",
   "status": "proved",
   "theorems": [
    "Gif.release_agrees",
    "Gif.release_zero_area",
    "Gif.release_session",
    "Gif.release_no_panic",
    "Gif.release_writes_gif",
    "Gif.release_accepts",
    "Gif.release_roundtrip",
    "Gif.debug_build"
   ],
   "note": "the memory always suffices, except in release_no_panic; for memory see C75"
  },
  {
   "property": "C75",
   "status": "proved",
   "theorems": [
    "Gif.out_of_memory",
    "Gif.oom_only_frames",
    "Gif.oom_unreadable"
   ],
   "note": "the price is that no frame behind can be reached: the header of the frame has been written before the memory is asked for (out_of_memory), and the file goes on with 0x21 or 0x3B where the code size is expected. Reading is with skip_frame_decoding (rawFilm); the frames before are decompressed as in C05."
  },
  {
   "property": "C76",
   "status": "proved",
   "theorems": [
    "Gif.Decoder.refusals_only_reject",
    "Gif.Decoder.refusals_are_safe",
    "Gif.DecoderIter.refusal_ends",
    "Gif.SD.refused_first_step",
    "Gif.Decoder.refusal_derails",
    "Gif.SD.refused_later_step"
   ],
   "note": "what is not claimed, because it is false: that decoding can be resumed after OutOfMemory. refusal_derails is a file with two frames of one pixel, where a decoder that goes on after a refusal reports a frame of 7 times 9 pixels; refused_later_step shows that both hypotheses of refused_first_step are needed. Allocations that abort the process are assumed to succeed."
  },
  {
   "property": "C77",
   "status": "partial",
   "theorems": [
    "Gif.Decoder.oversized_is_skipped",
    "Gif.Decoder.limit_hides_large_frames_partial",
    "Gif.Decoder.raw_oversized_derails"
   ],
   "note": "oversized_is_skipped is the claim for single calls, for every codec that is memory safe and every reader. limit_hides_large_frames_partial is about whole files: reliable reader, no check of end codes, frames with pixels and without invalid codes behind them; an extension that is larger than the limit ends the program with MemoryLimit. The claim is false with skip_frame_decoding: raw_oversized_derails is a file where a decoder that goes on after the error reports a frame that is not there."
  },
  {
   "property": "C78",
   "status": "proved",
   "theorems": [
    "Gif.Decoder.work_is_linear",
    "Gif.Decoder.open_work_is_linear",
    "Gif.Decoder.retries_are_not_free",
    "Gif.FrameDecoder.into_calls_linear",
    "Gif.FrameDecoder.frame_calls_linear",
    "Gif.FrameDecoder.into_calls_faithful"
   ],
   "note": "steps of the state machine are counted, not machine instructions; what the LZW decoder does in one call is not counted. retries_are_not_free shows that failed calls have to be counted: a program that repeats a failing call makes the decoder work for ever without reading"
  },
  {
   "property": "C79",
   "status": "proved",
   "theorems": [
    "Gif.DecodeOptions.configured_last",
    "Gif.Decoder.session_last_calls",
    "Gif.Decoder.new_is_default",
    "Gif.Decoder.then_check_frames",
    "Gif.Decoder.then_check_end_code",
    "Gif.Decoder.then_allow_unknown_blocks",
    "Gif.FrameDecoder.new_last_calls"
   ],
   "note": "for every codec and every reader"
  },
  {
   "property": "C80",
   "status": "proved",
   "theorems": [
    "Gif.access_never_panics",
    "Gif.get_ref_shows",
    "Gif.results_despite_touch",
    "Gif.taking_any_writer",
    "Gif.taking_file",
    "Gif.past_file",
    "Gif.past_extension",
    "Gif.past_trailer",
    "Gif.past_trailer_hides"
   ],
   "note": "what a decoder reads behind a trailer that was written directly is shown for files that the encoder made before it, as in C05"
  },
  {
   "property": "C81",
   "status": "proved",
   "theorems": [
    "Gif.SD.change_keeps_results",
    "Gif.SD.change_is_kept",
    "Gif.SD.change_is_forgotten"
   ],
   "note": "when there is no current frame current_frame_mut panics; the model then leaves the decoder as it is"
  },
  {
   "property": "C82",
   "status": "proved",
   "theorems": [
    "Gif.file_size",
    "Gif.file_pieces"
   ],
   "note": "the size of a compressed image is the one that make_lzw_pre_encoded gives; how well weezl compresses is not modelled. Frames keep to the documented precondition of write_frame (no pixels without area)"
  },
  {
   "property": "C83",
   "status": "proved",
   "theorems": [
    "Gif.Decoder.open_errors",
    "Gif.Decoder.call_errors",
    "Gif.DecoderIter.next_errors",
    "Gif.SD.update_errors",
    "Gif.FrameDecoder.decode_errors",
    "Gif.ErrorCases.open_occurs",
    "Gif.ErrorCases.find_occurs",
    "Gif.ErrorCases.read_occurs",
    "Gif.ErrorCases.fill_occurs",
    "Gif.ErrorCases.update_occurs",
    "Gif.ErrorCases.decode_occurs"
   ],
   "note": "the lists are Spec/Errors.lean. The *_occurs theorems are concrete files, one for each error on the lists, with the reference decompressor. Failed allocations are C76"
  },
  {
   "property": "C84",
   "status": "proved",
   "theorems": [
    "Gif.Decoder.final_errors",
    "Gif.FinalCases.final_occur",
    "Gif.FinalCases.others_recover"
   ],
   "note": "final_errors: an image over the memory limit, which only read_next_frame with skip_frame_decoding reports, is excluded (it is not final, see C77); the end of the data is final if the reader has nothing more to give. others_recover: one concrete file for each other error. A control extension of length 2 and a header outside the screen that the reader splits are accepted at the second attempt, because update does not tell the reader what it consumed before the error. The two errors of the decompressor (I/O errors) are left open: whether they stick is up to weezl"
  },
  {
   "property": "C85",
   "status": "proved",
   "theorems": [
    "Gif.Decoder.read_is_fill",
    "Gif.Decoder.bad_frames_are_passed",
    "Gif.Decoder.invalid_code_derails"
   ],
   "note": "bad_frames_are_passed assumes what the other theorems on pixels of whole files assume: no check of end codes, frames with pixels, no undefined LZW codes, no extension over the limit, no end of the data within an image. OddSizedBuffer (RGBA frames without area) leaves the decoder where next_frame_info does, see C48. invalid_code_derails is a concrete file, with the reference LZW decoder"
  },
  {
   "property": "C86",
   "status": "proved",
   "theorems": [
    "Gif.Decoder.misplaced_fill",
    "Gif.Decoder.misplaced_into",
    "Gif.Decoder.raw_never_fills",
    "Gif.Decoder.second_fill_takes_the_frame"
   ],
   "note": "read_into_buffer succeeds out of place if the last frame is interlaced and has no rows, and does nothing then. second_fill_takes_the_frame is a concrete file, with the reference LZW decoder"
  },
  {
   "property": "C87",
   "status": "proved",
   "theorems": [
    "Gif.portions_do_not_show",
    "Gif.any_portions",
    "Gif.portions_error",
    "Gif.first_error_returned"
   ],
   "note": "write_all is the provided method of the standard library, modelled as its documented loop (Model/Port.lean); a writer that overrides it or reports more bytes than it was given is not covered. any_portions also says that everything proved about writers described by their write_all holds for these writers"
  },
  {
   "property": "C88",
   "status": "proved",
   "theorems": [
    "Gif.Decoder.way_is_read",
    "Gif.Decoder.ways_do_not_show"
   ],
   "note": "fill_buffer is called for the whole picture or line by line as stated; how pieces of other sizes relate to it is C19"
  },
  {
   "property": "C89",
   "status": "proved",
   "theorems": [
    "Gif.Documented.beacon",
    "Gif.Documented.beacon_example"
   ],
   "note": "beacon_example shows that the example of the documentation itself meets every hypothesis. The size of the compressed data does not matter."
  },
  {
   "property": "C90",
   "status": "partial",
   "theorems": [
    "Gif.Decoder.scenes_spliced",
    "Gif.Decoder.scenes_exist",
    "Gif.Decoder.frames_rearranged",
    "Gif.Decoder.scenes_spliced_pixels_partial",
    "Gif.Decoder.scenes_unknown_block",
    "Gif.Decoder.scenes_invalid_code"
   ],
   "note": "For raw frames (skip_frame_decoding) without allow_unknown_blocks the property is proved in full: frames_rearranged cuts any file and puts the pieces together in any way, scenes_spliced does so for pieces of any origin. scenes_spliced_pixels_partial adds the pixels, for frames that have pixels, no invalid code behind the last of them, and compressed data within the memory limit, without check_lzw_end_code. Missing beyond that is false: scenes_unknown_block shows that with allow_unknown_blocks a piece that begins with an unknown block is taken for more data of the extension in the piece before it, scenes_invalid_code shows that an invalid code behind the last pixel of one piece makes the next one unreadable."
  },
  {
   "property": "C91",
   "status": "proved",
   "theorems": [
    "Gif.files_differ",
    "Gif.animations_differ",
    "Gif.format_unambiguous"
   ],
   "note": "files_differ is for all sequences of calls; animations_differ adds that pixels are the same, for programs of write_frame. Without a code size, compressed data are written with code size 2 (asWritten). format_unambiguous says of the grammar that C54 refers to that its files are determined by their bytes, so that C54 and C59 speak of one file only."
  },
  {
   "property": "C92",
   "status": "proved",
   "theorems": [
    "Gif.Decoder.waits_for_bytes",
    "Gif.Growing.info_dry"
   ],
   "note": "The hypotheses of C41 without its restriction to readers that report end of file only at the end. It is a statement about next_frame_info only: read_next_frame_loses shows a file where repeating read_next_frame loses the frame during which it failed, as the pixels read so far are dropped."
  },
  {
   "property": "C93",
   "status": "proved",
   "theorems": [
    "Gif.Live.follow_encoder",
    "Gif.Live.follow_at_once",
    "Gif.Live.follow_file",
    "Gif.Live.follow_raw"
   ],
   "note": "check_lzw_end_code is off, as in C04. Proved counterexamples show that the conditions are needed: with a pause within the data of an image that image is lost without notice (follow_needs_frames), and with a pause in the header read_info fails and there is no decoder to go on with (follow_needs_header)."
  },
  {
   "property": "C94",
   "status": "proved",
   "theorems": [
    "Gif.Join.joined",
    "Gif.Join.joined_raw",
    "Gif.Join.join_needs_palette"
   ],
   "note": "joined: frames of read_next_frame, write_frame. joined_raw: frames of skip_frame_decoding, write_lzw_pre_encoded_frame. join_needs_palette: concrete files for which leaving the palettes out gives other colours. For every LZW codec that meets the contract."
  },
  {
   "property": "C95",
   "status": "proved",
   "theorems": [
    "Gif.Draw.pixels_drawn",
    "Gif.Draw.pixels_complete",
    "Gif.Draw.pixels_alike",
    "Gif.Draw.data_drawn",
    "Gif.Draw.data_complete"
   ],
   "note": "pixels_drawn / data_drawn: at any point within an image. pixels_complete / data_complete: at DataEnd. pixels_alike: two programs. The example that a call without output buffer loses pixels is in Props/DrawingCases.lean."
  },
  {
   "property": "C96",
   "status": "proved",
   "theorems": [
    "Gif.Draw.gist_slices",
    "Gif.Draw.gist_final",
    "Gif.Draw.gist_state",
    "Gif.Draw.gist_modes"
   ],
   "note": "Extends C61, which is about programs without output buffers. gist pairs each event with the bytes that were collected since the last one (Spec/Gist.lean). In gist_final the failing call has a slice as output buffer within image data: with a vector it may fail with the memory limit, depending on how full the vector is."
  },
  {
   "property": "C97",
   "status": "proved",
   "theorems": [
    "Gif.Twofold.same_data",
    "Gif.Twofold.same_frame",
    "Gif.Twofold.no_more_frames",
    "Gif.Twofold.no_more_images",
    "Gif.Twofold.same_picture"
   ],
   "note": "The frames of a Decoder with skip_frame_decoding are rawFilm (C59); gathered and announcedImages (Spec/TwoWays.lean) read a program's results off its events. Together with C96, which compares programs that drive StreamingDecoder with each other."
  },
  {
   "property": "C98",
   "status": "proved",
   "theorems": [
    "Gif.Loop.drive_ends",
    "Gif.Loop.drive_bounded",
    "Gif.Loop.drive_calls",
    "Gif.Loop.drive_same",
    "Gif.Loop.drive_finds",
    "Gif.Loop.drive_decodes"
   ],
   "note": "The loop is Drive and DriveEnd (Spec/Loop.lean), for a Driver that is Fit. That update loops after the trailer, and that an empty slice makes no progress, is in C09 and C10."
  },
  {
   "property": "C99",
   "status": "proved",
   "theorems": [
    "Gif.Loop.own_loop",
    "Gif.Loop.own_loop_frame",
    "Gif.Loop.own_frames_loop"
   ],
   "note": "The calls of the encoder are restricted as in C05 and C23: the frames are within the memory limit when compressed (Held), extensions can be read back (Plain). Files without frames, repetitions and extensions are excluded (hne)."
  },
  {
   "property": "C100",
   "status": "proved",
   "theorems": [
    "Gif.Loop.heading_told",
    "Gif.Loop.heading_reached",
    "Gif.Loop.own_heading"
   ],
   "note": "The view after read_info is compared with Spec.heading, which is defined on the list of events only. The reader is reliable: it returns no error. The part about files of the encoder (own_heading) has the hypotheses of C99."
  },
  {
   "property": "C101",
   "status": "proved",
   "theorems": [
    "Gif.Loop.spoil_loop",
    "Gif.Loop.spoil_stops",
    "Gif.Loop.spoil_frames"
   ],
   "note": "The byte with the length of the first sub-block is the same in both files: the image is announced when it is read. spoil_frames compares frames that Decoder returns for both files."
  },
  {
   "property": "C102",
   "status": "proved",
   "theorems": [
    "Gif.Remark.remark_session",
    "Gif.Remark.remark_open",
    "Gif.Remark.remark_film"
   ],
   "note": "The place is described by lengths only (Spec.IsHead, Spec.IsExtension, Spec.IsPicture). check_lzw_end_code is off in the part with pixels."
  },
  {
   "property": "C103",
   "status": "proved",
   "theorems": [
    "Gif.Remark.control_session",
    "Gif.Remark.control_open",
    "Gif.Remark.control_film",
    "Gif.Remark.loop_session",
    "Gif.Remark.loop_open",
    "Gif.Remark.loop_film"
   ],
   "note": "The two are stated directly one after the other. check_lzw_end_code is off in the parts with pixels."
  },
  {
   "property": "C104",
   "status": "proved",
   "theorems": [
    "Gif.Alike.like_session",
    "Gif.Alike.like_open",
    "Gif.Alike.like_film"
   ],
   "note": "Spec.Like, Spec.LikeAll and Spec.LikeHead say what may differ, in terms of bytes. check_lzw_end_code is off in the part with pixels."
  },
  {
   "property": "C105",
   "status": "proved",
   "theorems": [
    "Gif.Recolour.recolour_session",
    "Gif.Recolour.recolour_open",
    "Gif.Recolour.recolour_film"
   ],
   "note": "Spec.Recoloured and Spec.applies say which table applies, in terms of bytes; Spec.fadeSeen and Spec.fadeGot leave out tables and the screen from what is compared. Pixel buffers, delays, positions, transparency, loop count and errors are compared."
  },
  {
   "property": "C106",
   "status": "proved",
   "theorems": [
    "Gif.Kindred.kindred_session",
    "Gif.Kindred.kindred_open",
    "Gif.Kindred.kindred_film"
   ],
   "note": "Spec.Kindred says in terms of bytes what has to be the same; Spec.pixSeen and Spec.pixGot keep the sizes, interlace flags, buffers and errors of what is given."
  },
  {
   "property": "C107",
   "status": "proved",
   "theorems": [
    "Gif.Messages.same_text",
    "Gif.Messages.root",
    "Gif.Messages.cause",
    "Gif.Messages.told_apart",
    "Gif.Messages.writing_told_apart",
    "Gif.Messages.not_a_gif",
    "Gif.Messages.foreign_is_readers"
   ],
   "note": "Texts of io::Error values made from a kind are those of the standard library, taken as given. Sources inside of an io::Error of the reader or writer are not followed. Allocation is assumed to succeed here: the failure of a try_reserve of the decoder (C76) has the same constructor as 'image is too large' and is not among the errors told apart."
  }
 ]
}