# Axioms of the theorems in MANIFEST.json

Output of `#print axioms`, with `import Verif`.

| theorem | axioms |
|---|---|
| `Gif.Decoder.metadata_chunk_invariant` | propext, Classical.choice, Quot.sound |
| `Gif.Decoder.raw_chunk_invariant` | propext, Classical.choice, Quot.sound |
| `Gif.Decoder.pixels_chunk_invariant_partial` | propext, Classical.choice, Quot.sound |
| `Gif.Decoder.chunk_invariant_fails_invalid` | propext, Quot.sound |
| `Gif.Decoder.chunk_invariant_fails_truncated` | propext, Quot.sound |
| `Gif.Decoder.chunk_invariant_fails_check` | propext, Quot.sound |
| `Gif.Decoder.sessions_agree` | propext, Classical.choice, Quot.sound |
| `Gif.Decoder.grammar_frames_partial` | propext, Classical.choice, Quot.sound |
| `Gif.Decoder.grammar_raw_frames` | propext, Classical.choice, Quot.sound |
| `Gif.Decoder.grammar_reel` | propext, Classical.choice, Quot.sound |
| `Gif.grammar_fails_empty_extension` | propext, Quot.sound |
| `Gif.grammar_fails_empty_image` | propext, Quot.sound |
| `Gif.grammar_fails_no_blocks` | propext, Quot.sound |
| `Gif.Decoder.pixel_reading_partial` | propext, Classical.choice, Quot.sound |
| `Gif.big_data` | propext, Classical.choice, Quot.sound |
| `Gif.encode_decode_partial` | propext, Classical.choice, Quot.sound |
| `Gif.roundtrip_pixels` | propext, Classical.choice, Quot.sound |
| `Gif.encode_decode_fails` | propext, Quot.sound |
| `Gif.own_files_checked` | propext, Classical.choice, Quot.sound |
| `Gif.repeat_survives_partial` | propext, Classical.choice, Quot.sound |
| `Gif.repeat_survives_fails` | propext, Quot.sound |
| `Gif.roundtrip_open` | propext, Classical.choice, Quot.sound |
| `Gif.global_palette_survives` | propext, Classical.choice, Quot.sound |
| `Gif.local_palette_survives` | propext, Classical.choice, Quot.sound |
| `Gif.control_fields_raw` | propext, Classical.choice, Quot.sound |
| `Gif.padded_shape` | propext, Quot.sound |
| `Gif.palette_rejected` | propext, Classical.choice, Quot.sound |
| `Gif.Decoder.truncated_prefix_partial` | propext, Classical.choice, Quot.sound |
| `Gif.Decoder.pixels_prefix_partial` | propext, Classical.choice, Quot.sound |
| `Gif.Decoder.truncated_prefix_fails_invalid` | propext, Quot.sound |
| `Gif.Props.update_terminates_partial` | propext, Classical.choice, Quot.sound |
| `Gif.Props.update_hangs_after_trailer` | propext, Classical.choice, Quot.sound |
| `Gif.Props.update_consumed` | propext, Classical.choice, Quot.sound |
| `Gif.Props.update_progress_partial` | propext, Classical.choice, Quot.sound |
| `Gif.Props.update_stuck_on_empty_slice` | propext, Quot.sound |
| `Gif.Decoder.no_panic` | propext, Classical.choice, Quot.sound |
| `Gif.DecoderIter.next_no_panic` | propext, Classical.choice, Quot.sound |
| `Gif.FrameDecoder.calls_return` | propext, Classical.choice, Quot.sound |
| `Gif.Decoder.calls_terminate` | propext, Classical.choice, Quot.sound |
| `Gif.DecoderIter.next_terminates` | propext, Classical.choice, Quot.sound |
| `Gif.Decoder.frame_within_limit` | propext, Classical.choice, Quot.sound |
| `Gif.Decoder.large_frame_is_error` | propext, Classical.choice, Quot.sound |
| `Gif.FrameDecoder.frame_within_limit` | propext, Classical.choice, Quot.sound |
| `Gif.Props.last_ext_within_limit` | propext, Classical.choice, Quot.sound |
| `Gif.Decoder.frame_consistency` | propext, Classical.choice, Quot.sound |
| `Gif.Decoder.frame_consistency_raw` | propext, Classical.choice, Quot.sound |
| `Gif.Decoder.grammar_info` | propext, Classical.choice, Quot.sound |
| `Gif.Decoder.grammar_info_raw` | propext, Classical.choice, Quot.sound |
| `Gif.Props.C16_interlace_rows` | propext, Classical.choice, Quot.sound |
| `Gif.Props.interlace_assert` | propext, Classical.choice, Quot.sound |
| `Gif.Decoder.read_next_frame_picture` | propext, Classical.choice, Quot.sound |
| `Gif.Spec.picture_rows` | propext, Classical.choice, Quot.sound |
| `Gif.Props.C17_deinterlace_indexed` | propext, Classical.choice, Quot.sound |
| `Gif.Props.C17_deinterlace_rgba` | propext, Classical.choice, Quot.sound |
| `Gif.Props.C17_plain_indexed` | propext, Classical.choice, Quot.sound |
| `Gif.Decoder.read_frame_picture` | propext, Classical.choice, Quot.sound |
| `Gif.Decoder.frame_right` | propext, Classical.choice, Quot.sound |
| `Gif.Spec.picture_rgba` | propext, Quot.sound |
| `Gif.Decoder.rgba_session` | propext, Classical.choice, Quot.sound |
| `Gif.Props.C18_rgba_is_lookup` | propext, Classical.choice, Quot.sound |
| `Gif.Decoder.fill_buffer_pieces_partial` | propext, Classical.choice, Quot.sound |
| `Gif.Decoder.fill_buffer_stream` | propext, Classical.choice, Quot.sound |
| `Gif.Decoder.fill_buffer_empty_loses` | propext, Quot.sound |
| `Gif.Decoder.fill_buffer_right` | propext, Classical.choice, Quot.sound |
| `Gif.Decoder.fill_buffer_stream_right` | propext, Classical.choice, Quot.sound |
| `Gif.C20_code_size` | propext, Classical.choice, Quot.sound |
| `Gif.C20_C25_write_frame` | propext, Classical.choice, Quot.sound |
| `Gif.C21_pre_encoding` | propext, Classical.choice, Quot.sound |
| `Gif.C21_op` | propext, Classical.choice, Quot.sound |
| `Gif.C21_session` | propext, Classical.choice, Quot.sound |
| `Gif.FrameDecoder.restores_partial` | propext, Classical.choice, Quot.sound |
| `Gif.FrameDecoder.restores_picture_partial` | propext, Classical.choice, Quot.sound |
| `Gif.FrameDecoder.right` | propext, Classical.choice, Quot.sound |
| `Gif.FrameDecoder.tiny_frame_not_restored` | propext, Classical.choice, Quot.sound |
| `Gif.FrameDecoder.skip_then_expand_partial` | propext, Classical.choice, Quot.sound |
| `Gif.FrameDecoder.expand_agrees` | propext, Classical.choice, Quot.sound |
| `Gif.FrameDecoder.skipped_frame_lost` | propext, Classical.choice, Quot.sound |
| `Gif.rewrite_partial` | propext, Classical.choice, Quot.sound |
| `Gif.rewrite_pixels_partial` | propext, Classical.choice, Quot.sound |
| `Gif.rewrite_fails` | propext, Quot.sound |
| `Gif.rewrite_any_partial` | propext, Classical.choice, Quot.sound |
| `Gif.C25_pre_encoded` | propext, Classical.choice, Quot.sound |
| `Gif.C25_raw_extension` | propext, Classical.choice, Quot.sound |
| `Gif.C26_negation` | propext, Quot.sound |
| `Gif.C26_rejected_partial` | propext, Classical.choice, Quot.sound |
| `Gif.roundtrip_raw` | propext, Classical.choice, Quot.sound |
| `Gif.C28_call` | propext, Classical.choice, Quot.sound |
| `Gif.C28_session` | propext, Classical.choice, Quot.sound |
| `Gif.C28_into_inner` | propext, Classical.choice, Quot.sound |
| `Gif.C28_new_negation` | propext, Quot.sound |
| `Gif.C28_new_partial` | propext, Classical.choice, Quot.sound |
| `Gif.first_error_returned` | propext, Classical.choice, Quot.sound |
| `Gif.C29_into_inner` | propext, Quot.sound |
| `Gif.C29_drop` | propext, Quot.sound |
| `Gif.C30_negation` | propext, Quot.sound |
| `Gif.C30_new_partial` | propext, Classical.choice, Quot.sound |
| `Gif.C31_from_rgba` | propext, Classical.choice, Quot.sound |
| `Gif.C31_from_rgb` | propext, Classical.choice, Quot.sound |
| `Gif.C32_negation` | propext |
| `Gif.C32_mask_partial` | propext, Classical.choice, Quot.sound |
| `Gif.C32_exact` | propext, Classical.choice, Quot.sound |
| `Gif.C32_any` | propext, Classical.choice, Quot.sound |
| `Gif.true_colour_pipeline` | propext, Classical.choice, Quot.sound |
| `Gif.C34_from_palette_pixels` | propext, Quot.sound |
| `Gif.C34_from_indexed_pixels` | propext |
| `Gif.C34_from_rgba_speed` | propext, Quot.sound |
| `Gif.C34_from_rgb_speed` | propext, Classical.choice, Quot.sound |
| `Gif.C34_default_speed` | propext, Classical.choice, Quot.sound |
| `Gif.Props.events_follow_protocol` | propext, Classical.choice, Quot.sound |
| `Gif.Props.headerEnd_at_most_once` | propext, Classical.choice, Quot.sound |
| `Gif.Props.headerEnd_before_image` | propext, Classical.choice, Quot.sound |
| `Gif.Props.trailer_is_last` | propext, Classical.choice, Quot.sound |
| `Gif.Props.raw_extension_partial` | propext, Classical.choice, Quot.sound |
| `Gif.Props.raw_extension_fails` | propext, Quot.sound |
| `Gif.Props.empty_extension_fails` | propext, Quot.sound |
| `Gif.Props.block_boundary` | propext, Classical.choice, Quot.sound |
| `Gif.Props.known_labels` | none |
| `Gif.Decoder.unknown_block_partial` | propext, Classical.choice, Quot.sound |
| `Gif.Decoder.unknown_block_raw_partial` | propext, Classical.choice, Quot.sound |
| `Gif.Props.unknown_events_partial` | propext, Classical.choice, Quot.sound |
| `Gif.Props.label_zero` | propext, Classical.choice, Quot.sound |
| `Gif.Props.unknown_after_control_fails` | propext, Quot.sound |
| `Gif.Props.empty_unknown_fails` | propext, Quot.sound |
| `Gif.Props.unknown_label_fails` | propext, Quot.sound |
| `Gif.Props.unknown_hides_loops` | propext, Quot.sound |
| `Gif.DecoderIter.iterator_agrees_partial` | propext, Classical.choice, Quot.sound |
| `Gif.DecoderIter.iterator_not_fused` | propext, Quot.sound |
| `Gif.DecoderIter.iterator_exact` | propext, Classical.choice, Quot.sound |
| `Gif.Decoder.frame_without_bytes` | propext, Classical.choice, Quot.sound |
| `Gif.Decoder.at_end` | propext, Quot.sound |
| `Gif.Decoder.stays_at_end` | propext, Classical.choice, Quot.sound |
| `Gif.Decoder.end_leaves_rest_partial` | propext, Classical.choice, Quot.sound |
| `Gif.Decoder.end_leaves_rest_raw_partial` | propext, Classical.choice, Quot.sound |
| `Gif.end_leaves_rest_fails` | propext, Quot.sound |
| `Gif.Decoder.bg_color_valid` | propext, Classical.choice, Quot.sound |
| `Gif.Decoder.read_errors_retried` | propext, Classical.choice, Quot.sound |
| `Gif.control_fields` | propext, Classical.choice, Quot.sound |
| `Gif.control_read` | propext, Classical.choice, Quot.sound |
| `Gif.Decoder.metadata_local_partial` | propext, Classical.choice, Quot.sound |
| `Gif.Decoder.metadata_local_raw_partial` | propext, Classical.choice, Quot.sound |
| `Gif.metadata_local_fails` | propext, Quot.sound |
| `Gif.Decoder.frame_independent` | propext, Classical.choice, Quot.sound |
| `Gif.Decoder.frame_independent_partial` | propext, Classical.choice, Quot.sound |
| `Gif.Decoder.check_end_code_only_rejects` | propext, Quot.sound |
| `Gif.Decoder.check_only_rejects_partial` | propext, Classical.choice, Quot.sound |
| `Gif.Decoder.missing_end_code_found_partial` | propext, Classical.choice, Quot.sound |
| `Gif.Decoder.end_codes_accepted_partial` | propext, Classical.choice, Quot.sound |
| `Gif.Decoder.check_end_code_fails_skip` | propext, Classical.choice, Quot.sound |
| `Gif.own_files_accepted` | propext, Classical.choice, Quot.sound |
| `Gif.own_file_rejected` | propext, Quot.sound |
| `Gif.Decoder.frame_has_palette` | propext, Classical.choice, Quot.sound |
| `Gif.C46_encoder` | propext, Classical.choice, Quot.sound |
| `Gif.no_frames_partial` | propext, Classical.choice, Quot.sound |
| `Gif.no_frames_fails` | propext, Quot.sound |
| `Gif.no_calls_exact` | propext, Classical.choice, Quot.sound |
| `Gif.Decoder.no_blocks_eof` | propext, Classical.choice, Quot.sound |
| `Gif.Decoder.no_blocks_more` | propext, Classical.choice, Quot.sound |
| `Gif.empty_frame_fails` | propext, Quot.sound |
| `Gif.Decoder.zero_area_rejected` | propext, Classical.choice, Quot.sound |
| `Gif.Decoder.extra_pixels_ignored_partial` | propext, Classical.choice, Quot.sound |
| `Gif.Spec.picture_take` | propext, Classical.choice, Quot.sound |
| `Gif.Decoder.extra_pixels_ignored` | propext, Classical.choice, Quot.sound |
| `Gif.Decoder.extra_pixels_fails_check` | propext, Classical.choice, Quot.sound |
| `Gif.Props.C50_read_into_buffer_no_overflow` | propext, Quot.sound |
| `Gif.Props.C50_check_buffer_size` | propext, Classical.choice, Quot.sound |
| `Gif.Props.C50_sizes_64` | propext, Quot.sound |
| `Gif.Props.C50_buffer_size_panics_on_32_bit` | none |
| `Gif.Props.C50_sizes_32_partial` | propext, Quot.sound |
| `Gif.Parallel.C51_parallel_order` | propext, Classical.choice, Quot.sound |
| `Gif.Decoder.memory_limit_only_rejects` | propext, Quot.sound |
| `Gif.from_rgba_sound` | propext, Classical.choice, Quot.sound |
| `Gif.from_rgb_sound` | propext, Classical.choice, Quot.sound |
| `Gif.sound_frame_written` | propext, Classical.choice, Quot.sound |
| `Gif.from_rgba_quantized` | propext, Classical.choice, Quot.sound |
| `Gif.encoder_writes_gif` | propext, Classical.choice, Quot.sound |
| `Gif.frames_accepted` | propext, Classical.choice, Quot.sound |
| `Gif.encoder_panics_partial` | propext, Classical.choice, Quot.sound |
| `Gif.encoder_panics_fails` | propext, Quot.sound |
| `Gif.drop_panics` | propext, Classical.choice, Quot.sound |
| `Gif.new_no_panic` | propext, Classical.choice, Quot.sound |
| `Gif.into_inner_no_panic` | propext, Classical.choice, Quot.sound |
| `Gif.Decoder.strict_options_only_reject` | propext, Quot.sound |
| `Gif.decode_encode_decode` | propext, Classical.choice, Quot.sound |
| `Gif.Decoder.frames_sound` | propext, Classical.choice, Quot.sound |
| `Gif.Decoder.sessionFrom_sound` | propext, Classical.choice, Quot.sound |
| `Gif.Decoder.raw_reading` | propext, Classical.choice, Quot.sound |
| `Gif.Decoder.only_gifs_open` | propext, Classical.choice, Quot.sound |
| `Gif.Decoder.other_files_rejected` | propext, Classical.choice, Quot.sound |
| `Gif.Decoder.short_files_rejected` | propext, Classical.choice, Quot.sound |
| `Gif.Decoder.open_reading` | propext, Classical.choice, Quot.sound |
| `Gif.Props.events_slices` | propext, Classical.choice, Quot.sound |
| `Gif.Props.events_slices_final` | propext, Classical.choice, Quot.sound |
| `Gif.Props.state_slices` | propext, Classical.choice, Quot.sound |
| `Gif.Props.header_accessors` | propext, Classical.choice, Quot.sound |
| `Gif.rewrite_identical` | propext, Classical.choice, Quot.sound |
| `Gif.reencode_identical` | propext, Classical.choice, Quot.sound |
| `Gif.rewrite_stable` | propext, Classical.choice, Quot.sound |
| `Gif.reencode_stable` | propext, Classical.choice, Quot.sound |
| `Gif.reencode_differs` | propext, Quot.sound |
| `Gif.Decoder.damage_raw` | propext, Classical.choice, Quot.sound |
| `Gif.Decoder.damage_frames` | propext, Classical.choice, Quot.sound |
| `Gif.crash_raw` | propext, Classical.choice, Quot.sound |
| `Gif.crash_pixels` | propext, Classical.choice, Quot.sound |
| `Gif.damage_fails_imageless` | propext, Quot.sound |
| `Gif.damage_fails_terminator` | propext, Quot.sound |
| `Gif.crash_fails_retry` | propext, Quot.sound |
| `Gif.Decoder.causal` | propext, Classical.choice, Quot.sound |
| `Gif.Decoder.causal_reads` | propext, Classical.choice, Quot.sound |
| `Gif.Decoder.session_causal` | propext, Classical.choice, Quot.sound |
| `Gif.Decoder.prompt_raw` | propext, Classical.choice, Quot.sound |
| `Gif.Decoder.prompt_frames` | propext, Classical.choice, Quot.sound |
| `Gif.Decoder.into_keeps` | propext, Classical.choice, Quot.sound |
| `Gif.Decoder.into_blind` | propext, Classical.choice, Quot.sound |
| `Gif.Decoder.into_refuses` | propext, Quot.sound |
| `Gif.Decoder.into_paints` | propext, Classical.choice, Quot.sound |
| `Gif.Decoder.into_replaces_partial` | propext, Classical.choice, Quot.sound |
| `Gif.Decoder.into_leaves_old_pixels` | propext, Quot.sound |
| `Gif.Decoder.fill_blind` | propext, Classical.choice, Quot.sound |
| `Gif.FrameDecoder.into_keeps` | propext, Classical.choice, Quot.sound |
| `Gif.FrameDecoder.into_blind` | propext, Classical.choice, Quot.sound |
| `Gif.Decoder.rest_is_suffix` | propext, Quot.sound |
| `Gif.Decoder.stream_raw` | propext, Classical.choice, Quot.sound |
| `Gif.Decoder.stream_frames_partial` | propext, Classical.choice, Quot.sound |
| `Gif.Decoder.stream_unique` | propext, Classical.choice, Quot.sound |
| `Gif.own_stream_partial` | propext, Classical.choice, Quot.sound |
| `Gif.Decoder.frames_cost` | propext, Classical.choice, Quot.sound |
| `Gif.Decoder.frames_cost_rest` | propext, Classical.choice, Quot.sound |
| `Gif.Decoder.read_loop_ends` | propext, Classical.choice, Quot.sound |
| `Gif.Decoder.looped_det` | propext, Quot.sound |
| `Gif.DecoderIter.items_end` | propext, Classical.choice, Quot.sound |
| `Gif.Examples.explode_ends` | propext, Classical.choice, Quot.sound |
| `Gif.Examples.explode_files_partial` | propext, Classical.choice, Quot.sound |
| `Gif.Examples.explode_no_pixels` | propext, Quot.sound |
| `Gif.Examples.explode_loses_error` | propext, Quot.sound |
| `Gif.Examples.reencode_exists` | propext, Classical.choice, Quot.sound |
| `Gif.Examples.reencode_same` | propext, Classical.choice, Quot.sound |
| `Gif.Examples.reencode_ends` | propext, Classical.choice, Quot.sound |
| `Gif.Examples.reencode_succeeds` | propext, Classical.choice, Quot.sound |
| `Gif.Examples.reencode_panics` | propext, Classical.choice, Quot.sound |
| `Gif.Examples.reencode_frames_partial` | propext, Classical.choice, Quot.sound |
| `Gif.Examples.reencode_panics_on_short_data` | propext, Classical.choice, Quot.sound |
| `Gif.Examples.reencode_no_frames` | propext, Classical.choice, Quot.sound |
| `Gif.Examples.reencode_no_pixels` | propext, Classical.choice, Quot.sound |
| `Gif.Props.streaming_decoder_holds` | propext, Classical.choice, Quot.sound |
| `Gif.Decoder.decoder_holds_partial` | propext, Classical.choice, Quot.sound |
| `Gif.Decoder.scratch_bounded` | propext, Classical.choice, Quot.sound |
| `Gif.Decoder.refused_reservation` | propext, Classical.choice, Quot.sound |
| `Gif.Decoder.raw_reserve_ignores_limit` | propext, Quot.sound |
| `Gif.Examples.try_decode_returns` | propext, Classical.choice, Quot.sound |
| `Gif.Examples.try_decode_ok` | propext, Classical.choice, Quot.sound |
| `Gif.Examples.check_prints` | propext, Classical.choice, Quot.sound |
| `Gif.Decoder.frames_ignore_scratch` | propext, Classical.choice, Quot.sound |
| `Gif.Decoder.into_ignores_scratch` | propext, Classical.choice, Quot.sound |
| `Gif.Decoder.fill_ignores_scratch` | propext, Classical.choice, Quot.sound |
| `Gif.Decoder.reach_of_scratch` | propext, Classical.choice, Quot.sound |
| `Gif.FrameDecoder.frames_ignore_scratch` | propext, Classical.choice, Quot.sound |
| `Gif.FrameDecoder.into_ignores_scratch` | propext, Classical.choice, Quot.sound |
| `Gif.release_agrees` | propext, Quot.sound |
| `Gif.release_zero_area` | propext, Classical.choice, Quot.sound |
| `Gif.release_session` | propext, Classical.choice, Quot.sound |
| `Gif.release_no_panic` | propext, Classical.choice, Quot.sound |
| `Gif.release_writes_gif` | propext, Classical.choice, Quot.sound |
| `Gif.release_accepts` | propext, Classical.choice, Quot.sound |
| `Gif.release_roundtrip` | propext, Classical.choice, Quot.sound |
| `Gif.debug_build` | propext, Quot.sound |
| `Gif.out_of_memory` | propext, Classical.choice, Quot.sound |
| `Gif.oom_only_frames` | propext, Classical.choice, Quot.sound |
| `Gif.oom_unreadable` | propext, Classical.choice, Quot.sound |
| `Gif.Decoder.refusals_only_reject` | propext, Classical.choice, Quot.sound |
| `Gif.Decoder.refusals_are_safe` | propext, Classical.choice, Quot.sound |
| `Gif.DecoderIter.refusal_ends` | propext, Classical.choice, Quot.sound |
| `Gif.SD.refused_first_step` | propext, Classical.choice, Quot.sound |
| `Gif.Decoder.refusal_derails` | propext, Quot.sound |
| `Gif.SD.refused_later_step` | propext, Quot.sound |
| `Gif.Decoder.oversized_is_skipped` | propext, Classical.choice, Quot.sound |
| `Gif.Decoder.limit_hides_large_frames_partial` | propext, Classical.choice, Quot.sound |
| `Gif.Decoder.raw_oversized_derails` | propext, Quot.sound |
| `Gif.Decoder.work_is_linear` | propext, Classical.choice, Quot.sound |
| `Gif.Decoder.open_work_is_linear` | propext, Classical.choice, Quot.sound |
| `Gif.Decoder.retries_are_not_free` | propext, Quot.sound |
| `Gif.FrameDecoder.into_calls_linear` | propext, Classical.choice, Quot.sound |
| `Gif.FrameDecoder.frame_calls_linear` | propext, Classical.choice, Quot.sound |
| `Gif.FrameDecoder.into_calls_faithful` | propext, Quot.sound |
| `Gif.DecodeOptions.configured_last` | propext, Classical.choice, Quot.sound |
| `Gif.Decoder.session_last_calls` | propext, Classical.choice, Quot.sound |
| `Gif.Decoder.new_is_default` | propext, Quot.sound |
| `Gif.Decoder.then_check_frames` | propext, Quot.sound |
| `Gif.Decoder.then_check_end_code` | propext, Quot.sound |
| `Gif.Decoder.then_allow_unknown_blocks` | propext, Quot.sound |
| `Gif.FrameDecoder.new_last_calls` | propext, Classical.choice, Quot.sound |
| `Gif.access_never_panics` | propext, Classical.choice, Quot.sound |
| `Gif.get_ref_shows` | propext, Classical.choice, Quot.sound |
| `Gif.results_despite_touch` | propext, Classical.choice, Quot.sound |
| `Gif.taking_any_writer` | propext, Classical.choice, Quot.sound |
| `Gif.taking_file` | propext, Classical.choice, Quot.sound |
| `Gif.past_file` | propext, Classical.choice, Quot.sound |
| `Gif.past_extension` | propext, Classical.choice, Quot.sound |
| `Gif.past_trailer` | propext, Classical.choice, Quot.sound |
| `Gif.past_trailer_hides` | propext, Classical.choice, Quot.sound |
| `Gif.SD.change_keeps_results` | propext, Quot.sound |
| `Gif.SD.change_is_kept` | propext, Quot.sound |
| `Gif.SD.change_is_forgotten` | propext, Quot.sound |
| `Gif.file_size` | propext, Classical.choice, Quot.sound |
| `Gif.file_pieces` | propext, Classical.choice, Quot.sound |
| `Gif.Decoder.open_errors` | propext, Classical.choice, Quot.sound |
| `Gif.Decoder.call_errors` | propext, Classical.choice, Quot.sound |
| `Gif.DecoderIter.next_errors` | propext, Classical.choice, Quot.sound |
| `Gif.SD.update_errors` | propext, Classical.choice, Quot.sound |
| `Gif.FrameDecoder.decode_errors` | propext, Classical.choice, Quot.sound |
| `Gif.ErrorCases.open_occurs` | propext, Quot.sound |
| `Gif.ErrorCases.find_occurs` | propext, Quot.sound |
| `Gif.ErrorCases.read_occurs` | propext, Quot.sound |
| `Gif.ErrorCases.fill_occurs` | propext, Quot.sound |
| `Gif.ErrorCases.update_occurs` | propext, Quot.sound |
| `Gif.ErrorCases.decode_occurs` | propext |
| `Gif.Decoder.final_errors` | propext, Classical.choice, Quot.sound |
| `Gif.FinalCases.final_occur` | propext, Quot.sound |
| `Gif.FinalCases.others_recover` | propext, Quot.sound |
| `Gif.Decoder.read_is_fill` | propext, Classical.choice, Quot.sound |
| `Gif.Decoder.bad_frames_are_passed` | propext, Classical.choice, Quot.sound |
| `Gif.Decoder.invalid_code_derails` | propext, Quot.sound |
| `Gif.Decoder.misplaced_fill` | propext, Classical.choice, Quot.sound |
| `Gif.Decoder.misplaced_into` | propext, Classical.choice, Quot.sound |
| `Gif.Decoder.raw_never_fills` | propext, Classical.choice, Quot.sound |
| `Gif.Decoder.second_fill_takes_the_frame` | propext, Quot.sound |
| `Gif.portions_do_not_show` | propext, Classical.choice, Quot.sound |
| `Gif.any_portions` | propext, Classical.choice, Quot.sound |
| `Gif.portions_error` | propext, Classical.choice, Quot.sound |
| `Gif.Decoder.way_is_read` | propext, Classical.choice, Quot.sound |
| `Gif.Decoder.ways_do_not_show` | propext, Classical.choice, Quot.sound |
| `Gif.Documented.beacon` | propext, Classical.choice, Quot.sound |
| `Gif.Documented.beacon_example` | none |
| `Gif.Decoder.scenes_spliced` | propext, Classical.choice, Quot.sound |
| `Gif.Decoder.scenes_exist` | propext, Classical.choice, Quot.sound |
| `Gif.Decoder.frames_rearranged` | propext, Classical.choice, Quot.sound |
| `Gif.Decoder.scenes_spliced_pixels_partial` | propext, Classical.choice, Quot.sound |
| `Gif.Decoder.scenes_unknown_block` | propext, Quot.sound |
| `Gif.Decoder.scenes_invalid_code` | propext, Quot.sound |
| `Gif.files_differ` | propext, Classical.choice, Quot.sound |
| `Gif.animations_differ` | propext, Classical.choice, Quot.sound |
| `Gif.format_unambiguous` | propext, Classical.choice, Quot.sound |
| `Gif.Decoder.waits_for_bytes` | propext, Classical.choice, Quot.sound |
| `Gif.Growing.info_dry` | propext, Quot.sound |
| `Gif.Live.follow_encoder` | propext, Classical.choice, Quot.sound |
| `Gif.Live.follow_at_once` | propext, Classical.choice, Quot.sound |
| `Gif.Live.follow_file` | propext, Classical.choice, Quot.sound |
| `Gif.Live.follow_raw` | propext, Classical.choice, Quot.sound |
| `Gif.Join.joined` | propext, Classical.choice, Quot.sound |
| `Gif.Join.joined_raw` | propext, Classical.choice, Quot.sound |
| `Gif.Join.join_needs_palette` | propext, Quot.sound |
| `Gif.Draw.pixels_drawn` | propext, Classical.choice, Quot.sound |
| `Gif.Draw.pixels_complete` | propext, Classical.choice, Quot.sound |
| `Gif.Draw.pixels_alike` | propext, Classical.choice, Quot.sound |
| `Gif.Draw.data_drawn` | propext, Classical.choice, Quot.sound |
| `Gif.Draw.data_complete` | propext, Classical.choice, Quot.sound |
| `Gif.Draw.gist_slices` | propext, Classical.choice, Quot.sound |
| `Gif.Draw.gist_final` | propext, Classical.choice, Quot.sound |
| `Gif.Draw.gist_state` | propext, Classical.choice, Quot.sound |
| `Gif.Draw.gist_modes` | propext, Classical.choice, Quot.sound |
| `Gif.Twofold.same_data` | propext, Classical.choice, Quot.sound |
| `Gif.Twofold.same_frame` | propext, Classical.choice, Quot.sound |
| `Gif.Twofold.no_more_frames` | propext, Classical.choice, Quot.sound |
| `Gif.Twofold.no_more_images` | propext, Classical.choice, Quot.sound |
| `Gif.Twofold.same_picture` | propext, Classical.choice, Quot.sound |
| `Gif.Loop.drive_ends` | propext, Classical.choice, Quot.sound |
| `Gif.Loop.drive_bounded` | propext, Classical.choice, Quot.sound |
| `Gif.Loop.drive_calls` | propext, Classical.choice, Quot.sound |
| `Gif.Loop.drive_same` | propext, Classical.choice, Quot.sound |
| `Gif.Loop.drive_finds` | propext, Classical.choice, Quot.sound |
| `Gif.Loop.drive_decodes` | propext, Classical.choice, Quot.sound |
| `Gif.Loop.own_loop` | propext, Classical.choice, Quot.sound |
| `Gif.Loop.own_loop_frame` | propext, Classical.choice, Quot.sound |
| `Gif.Loop.own_frames_loop` | propext, Classical.choice, Quot.sound |
| `Gif.Loop.heading_told` | propext, Classical.choice, Quot.sound |
| `Gif.Loop.heading_reached` | propext, Classical.choice, Quot.sound |
| `Gif.Loop.own_heading` | propext, Classical.choice, Quot.sound |
| `Gif.Loop.spoil_loop` | propext, Classical.choice, Quot.sound |
| `Gif.Loop.spoil_stops` | propext, Classical.choice, Quot.sound |
| `Gif.Loop.spoil_frames` | propext, Classical.choice, Quot.sound |
| `Gif.Remark.remark_session` | propext, Classical.choice, Quot.sound |
| `Gif.Remark.remark_open` | propext, Classical.choice, Quot.sound |
| `Gif.Remark.remark_film` | propext, Classical.choice, Quot.sound |
| `Gif.Remark.control_session` | propext, Classical.choice, Quot.sound |
| `Gif.Remark.control_open` | propext, Classical.choice, Quot.sound |
| `Gif.Remark.control_film` | propext, Classical.choice, Quot.sound |
| `Gif.Remark.loop_session` | propext, Classical.choice, Quot.sound |
| `Gif.Remark.loop_open` | propext, Classical.choice, Quot.sound |
| `Gif.Remark.loop_film` | propext, Classical.choice, Quot.sound |
| `Gif.Alike.like_session` | propext, Classical.choice, Quot.sound |
| `Gif.Alike.like_open` | propext, Classical.choice, Quot.sound |
| `Gif.Alike.like_film` | propext, Classical.choice, Quot.sound |
| `Gif.Recolour.recolour_session` | propext, Classical.choice, Quot.sound |
| `Gif.Recolour.recolour_open` | propext, Classical.choice, Quot.sound |
| `Gif.Recolour.recolour_film` | propext, Classical.choice, Quot.sound |
| `Gif.Kindred.kindred_session` | propext, Classical.choice, Quot.sound |
| `Gif.Kindred.kindred_open` | propext, Classical.choice, Quot.sound |
| `Gif.Kindred.kindred_film` | propext, Classical.choice, Quot.sound |
| `Gif.Messages.same_text` | none |
| `Gif.Messages.root` | none |
| `Gif.Messages.cause` | none |
| `Gif.Messages.told_apart` | propext |
| `Gif.Messages.writing_told_apart` | propext |
| `Gif.Messages.not_a_gif` | propext, Classical.choice, Quot.sound |
| `Gif.Messages.foreign_is_readers` | propext, Classical.choice, Quot.sound |
