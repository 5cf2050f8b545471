{
 "claims": [
  {
   "property": "C01",
   "status": "partial",
   "theorems": [
    "Verif.Range.range_wellformed",
    "Verif.Range.range_setStart_spec",
    "Verif.Range.range_setEnd_spec",
    "Verif.Range.range_expandTo_spec",
    "Verif.Range.range_membership",
    "Verif.Range.range_clamp_spec",
    "Verif.Range.range_shrink_partial",
    "Verif.Range.range_shrink_violated"
   ],
   "note": "shrinkIfSmaller on a disjoint interval yields an interval that is not the intersection (range_shrink_violated); every other operation is proved."
  },
  {
   "property": "C02",
   "status": "proved",
   "theorems": [
    "Verif.CCMap.ccmap_refines_finite_map",
    "Verif.CCMap.ccmap_iteration"
   ],
   "note": ""
  },
  {
   "property": "C03",
   "status": "proved",
   "theorems": [
    "Verif.SwapAndPop.swapAndPopAll_exact",
    "Verif.SwapAndPop.swapAndPopFirst_exact"
   ],
   "note": ""
  },
  {
   "property": "C04",
   "status": "partial",
   "theorems": [
    "Verif.Base64.base64_roundtrip_partial",
    "Verif.Base64.base64_roundtrip_plain",
    "Verif.Base64.base64_trailing_space_violated",
    "Verif.Base64.base64_rejects_foreign"
   ],
   "note": "Whitespace after the padding makes the decoder return nothing (base64_trailing_space_violated)."
  },
  {
   "property": "C05",
   "status": "partial",
   "theorems": [
    "Verif.Osc.osc_roundtrip_partial",
    "Verif.Osc.osc_roundtrip_narrowed",
    "Verif.Osc.osc_double_violated",
    "Verif.Osc.osc_decode",
    "Verif.Osc.osc_decode_no_space"
   ],
   "note": "Doubles pass through float in the encoder (osc_double_violated). Buffers below 2^29 bytes."
  },
  {
   "property": "C06",
   "status": "proved",
   "theorems": [
    "Verif.Osc.osc_encode_capacity",
    "Verif.Osc.osc_encode_size_stable",
    "Verif.Osc.osc_unknown_tag"
   ],
   "note": "Total message size below 2^32 (the size is a uint32_t)."
  },
  {
   "property": "C07",
   "status": "partial",
   "theorems": [
    "Verif.Osc.osc_decode_safe_partial",
    "Verif.Osc.osc_decode_blob_violated",
    "Verif.Osc.osc_decode_huge_violated"
   ],
   "note": "Blobs announcing 2^32-3 bytes or more are accepted although outside of the message; signatures of 2^29 tags overflow the argument array."
  },
  {
   "property": "C08",
   "status": "proved",
   "theorems": [
    "Verif.Midi.midi_events_sorted",
    "Verif.Midi.midi_block_events"
   ],
   "note": "The controllers the engine derives from its note history are covered by C55."
  },
  {
   "property": "C09",
   "status": "proved",
   "theorems": [
    "Verif.Midi.midi_block_boundary",
    "Verif.Midi.midi_current_value"
   ],
   "note": ""
  },
  {
   "property": "C10",
   "status": "partial",
   "theorems": [
    "Verif.Midi.midi_value_at_partial",
    "Verif.Midi.midi_value_at_is_next",
    "Verif.Midi.midi_value_at_violated"
   ],
   "note": "Between two events the code returns the value of the next one; midi_value_at_is_next is the exact behaviour."
  },
  {
   "property": "C11",
   "status": "partial",
   "theorems": [
    "Verif.Midi.midi_pressed",
    "Verif.Midi.midi_active_partial",
    "Verif.Midi.midi_active_violated"
   ],
   "note": "The count drifts when a key is pressed twice or released while up."
  },
  {
   "property": "C12",
   "status": "partial",
   "theorems": [
    "Verif.Engine.note_triggers_iff_partial",
    "Verif.Engine.conditions_after",
    "Verif.Engine.reset_bend_violated",
    "Verif.Engine.tempo_condition_violated",
    "Verif.Engine.note_controller_violated",
    "Verif.Engine.note_triggers_history_partial",
    "Verif.Engine.double_press_violated",
    "Verif.Engine.hears_history_partial"
   ],
   "note": "For every history without a reset of all controllers, at the turn of each region: triggered iff all conditions hold for the last values received. Excluded, with witnesses of failure: bend after CC121, tempo conditions, conditions on controllers derived from notes; sw_up/sw_down regions. hears_history_partial says the same of note-offs."
  },
  {
   "property": "C13",
   "status": "proved",
   "theorems": [
    "Verif.Engine.round_robin"
   ],
   "note": "For every history; regions that trigger on notes only and 1 <= seq_position <= seq_length."
  },
  {
   "property": "C14",
   "status": "partial",
   "theorems": [
    "Verif.Engine.key_switch_partial",
    "Verif.Engine.switch_after",
    "Verif.Engine.key_switch_down_violated"
   ],
   "note": "sw_last and sw_lolast/sw_hilast for every history; sw_down fails (witness)."
  },
  {
   "property": "C15",
   "status": "partial",
   "theorems": [
    "Verif.Engine.no_hanging_voice_partial",
    "Verif.Engine.not_released_early_partial",
    "Verif.Engine.key_up_received",
    "Verif.Engine.sustain_alone_violated",
    "Verif.Engine.hanging_voice_violated"
   ],
   "note": "For every history of in-order events and every region listening to both pedals: key up and pedals up imply released, and a release without choke implies note-off received and no pedal holding. Fails for sostenuto_sw=off or sustain_sw=off (each pedal handler is guarded by the other pedal's switch): two witnesses. Missing: early release within blocks (sound ends by itself) and within the reset of all controllers."
  },
  {
   "property": "C16",
   "status": "partial",
   "theorems": [
    "Verif.Engine.releases_wait_partial",
    "Verif.Engine.releases_played_partial",
    "Verif.Engine.releases_now_partial",
    "Verif.Engine.reset_lift_violated",
    "Verif.Engine.sostenuto_release_violated",
    "Verif.Engine.sound_off_release_violated",
    "Verif.Engine.held_keys_history",
    "Verif.Engine.hears_history_partial"
   ],
   "note": "Proved for every history of calls, both pedals and CC 121 included, without off_by, and when the polyphony limits leave room: what waits is exactly what was heard with the pedal down of keys not caught by the sostenuto pedal, the lift of either pedal plays one voice per release it sets free, a note-off with the pedal up plays at once. Violations: CC 121 lifts the pedal without playing or forgetting, the sostenuto lift plays releases of held keys, all sound off keeps the waiting releases."
  },
  {
   "property": "C17",
   "status": "proved",
   "theorems": [
    "Verif.Engine.active_voices_exact"
   ],
   "note": "For every history of API calls on every instrument. Voices of regions disabled at load are never listed."
  },
  {
   "property": "C18",
   "status": "partial",
   "theorems": [
    "Verif.Engine.polyphony_limits_partial",
    "Verif.Engine.limits_in_force",
    "Verif.Engine.polyphony_zero_violated"
   ],
   "note": "Proved for limits of at least one, for engine, groups, sets and regions. A limit of zero still lets one voice sound (witness)."
  },
  {
   "property": "C19",
   "status": "proved",
   "theorems": [
    "Verif.Engine.free_voice_choice",
    "Verif.Engine.no_start_lost"
   ],
   "note": "Choice of the voice for every state; with at most 256 voices required every start on a reachable state gets one."
  },
  {
   "property": "C20",
   "status": "partial",
   "theorems": [
    "Verif.Engine.rings_partial",
    "Verif.Engine.rings_close",
    "Verif.Engine.sisters_split_violated"
   ],
   "note": "For every start/end history in which the first voice of an event lasts until its last one starts, walking the ring visits exactly the voices of the event that have not ended, once each, and closes; for every engine history the rings close, hold only playing voices once each and are disjoint. sisters_split_violated: when the first voice is recycled by its own event the ring splits. Missing: the engine's dispatches are linked to the start/end histories only through the shared ring operations, not by a refinement theorem."
  },
  {
   "property": "C21",
   "status": "partial",
   "theorems": [
    "Verif.Playback.playback_inside_partial",
    "Verif.Playback.playback_position_inside_partial",
    "Verif.Playback.crossfade_inside_partial",
    "Verif.Playback.count_inside_partial",
    "Verif.Playback.partitions_tile",
    "Verif.Playback.loop_size_pos",
    "Verif.Playback.count_streaming_violated",
    "Verif.Playback.count_offset_violated",
    "Verif.Playback.count_fast_violated",
    "Verif.Playback.crossfade_violated"
   ],
   "note": "Proved for regions without count=; with count= it holds when the played part is in memory and speeds are below its length. The code violates it otherwise: witnesses for repeating while streaming, offset after the end, high speed, and loop_count with crossfade and a modulated end. Positions are exact rationals; int overflow not modelled."
  },
  {
   "property": "C22",
   "status": "proved",
   "theorems": [
    "Verif.Playback.looped_positions",
    "Verif.Playback.oneshot_positions",
    "Verif.Playback.loop_size_pos"
   ],
   "note": "For all loop points, speeds, start positions and block splits, with exact positions and at most 2^24 frames of advance per block. The loop points are constant over the blocks considered."
  },
  {
   "property": "C23",
   "status": "partial",
   "theorems": [
    "Verif.BufferPool.lent_once",
    "Verif.BufferPool.lent_fits",
    "Verif.BufferPool.request_outcome",
    "Verif.BufferPool.all_returned",
    "Verif.BufferPool.all_returned_violated"
   ],
   "note": "Exclusive lending, sizes and request outcomes over all histories of requests, moves, assignments and destructions. Return of all buffers is proved for histories that do not assign over a non-empty holder; otherwise the old buffer is lost (witness). The engine itself never does that (Voice.cpp:1149 assigns to empty holders)."
  },
  {
   "property": "C24",
   "status": "proved",
   "theorems": [
    "Verif.FilePool.view_safe",
    "Verif.FilePool.taken_unused",
    "Verif.FilePool.single_writer",
    "Verif.FilePool.lists_exclusive",
    "Verif.FilePool.unused_collected"
   ],
   "note": "Any number of voices and jobs, all interleavings of single atomic accesses (sequentially consistent, as the code's default memory order). One entry of the pool; entries share only the lock. Replacement of preloaded data and clearing are outside (see C62)."
  },
  {
   "property": "C25",
   "status": "partial",
   "theorems": [
    "Verif.Parser.parse_terminates_partial",
    "Verif.Parser.parse_finishes_partial",
    "Verif.Parser.expand_terminates_partial",
    "Verif.Parser.expand_terminates_violated",
    "Verif.Parser.parse_terminates_violated"
   ],
   "note": "Every parse finishes if every expansion of variables does, for all texts and include graphs (cyclic included); expansion finishes for definitions that do not refer to themselves, in particular when no #define value has a dollar sign. The unrestricted claim is false: '#define $a $a' followed by a use of $a never finishes (parse_terminates_violated)."
  },
  {
   "property": "C26",
   "status": "proved",
   "theorems": [
    "Verif.Parser.document_parsed",
    "Verif.Parser.print_parsed",
    "Verif.Parser.print_parsed_violated"
   ],
   "note": "document_parsed is over a grammar of texts with layout, definitions and includes; print_parsed is the same for documents given as lists. Well-formed excludes, for texts given as strings only, the byte 255 (print_parsed_violated shows that the value is cut there), values that run into the next opcode, and opcodes before the first header."
  },
  {
   "property": "C27",
   "status": "partial",
   "theorems": [
    "Verif.Parser.expand_iff_partial",
    "Verif.Parser.expand_plain",
    "Verif.Parser.expand_terminates_partial",
    "Verif.Parser.expand_rounds",
    "Verif.Parser.expand_local_violated"
   ],
   "note": "For any definitions the expansion is exactly the repeated replacement of variables by their values (expand_rounds). It equals the recursive substitution Subst when no definition's value ends in an unfinished reference; otherwise the code violates it: characters after the value extend the name (expand_local_violated)."
  },
  {
   "property": "C28",
   "status": "proved",
   "theorems": [
    "Verif.Parser.events_located",
    "Verif.Parser.reader_position"
   ],
   "note": "Positions are those of the text without the bytes 255 when the text is given as a string (the string reader takes such a byte for the end of the text without counting it)."
  },
  {
   "property": "C29",
   "status": "partial",
   "theorems": [
    "Verif.Opcode.name_has_pieces",
    "Verif.Opcode.opcode_name_partial",
    "Verif.Opcode.same_letters_same_opcode",
    "Verif.Opcode.large_number_violated",
    "Verif.Opcode.huge_number_violated"
   ],
   "note": "Every name is an assembly of letters and numbers; parameters, hash and letters-only name are those of the assembly for numbers below 65536. Larger numbers are truncated or dropped (violations)."
  },
  {
   "property": "C30",
   "status": "partial",
   "theorems": [
    "Verif.Opcode.in_bounds_unchanged",
    "Verif.Opcode.out_of_bounds",
    "Verif.Opcode.int_value_allowed",
    "Verif.Opcode.int_value_defined",
    "Verif.Opcode.float_value",
    "Verif.Opcode.phase_value",
    "Verif.Opcode.enforced_bound_not_normalized_violated"
   ],
   "note": "Integers proved for every text and specification; floats as exact rationals. Enforced float bounds are not normalized (latent)."
  },
  {
   "property": "C31",
   "status": "partial",
   "theorems": [
    "Verif.Opcode.note_name_partial",
    "Verif.Opcode.note_name_only",
    "Verif.Opcode.note_name_violated"
   ],
   "note": "Every name with an octave that does not overflow int is read as its key and nothing else is; empty text and huge octaves are undefined behaviour (violation)."
  },
  {
   "property": "C32",
   "status": "proved",
   "theorems": [
    "Verif.Curve.eval_defined",
    "Verif.Curve.curve_interpolates",
    "Verif.Curve.velcurve_same",
    "Verif.Curve.bipolar_line"
   ],
   "note": "Exact rationals; linear interpolator (the only one instruments can select)."
  },
  {
   "property": "C33",
   "status": "proved",
   "theorems": [
    "Verif.Curve.curve_numbering"
   ],
   "note": "Every sequence of declarations; unnumbered declarations after a numbered one are rejected, as the code documents."
  },
  {
   "property": "C34",
   "status": "partial",
   "theorems": [
    "Verif.BeatClock.clock_cycle_partial",
    "Verif.BeatClock.clock_sum_partial",
    "Verif.BeatClock.clock_block_partial",
    "Verif.BeatClock.clock_block_violated",
    "Verif.BeatClock.position_and_start_violated",
    "Verif.BeatClock.late_event_violated"
   ],
   "note": "Exact for events inside a cycle; in the synth, events precede the cycle and late delays are counted twice (violation). Exact rationals."
  },
  {
   "property": "C35",
   "status": "partial",
   "theorems": [
    "Verif.Adsr.block_length",
    "Verif.Adsr.level_in_range_partial",
    "Verif.Adsr.level_with_cancel_partial",
    "Verif.Adsr.released_ends_partial",
    "Verif.Adsr.oneshot_ends_partial",
    "Verif.Adsr.level_in_range_violated",
    "Verif.Adsr.split_violated",
    "Verif.Adsr.dynamic_delay_violated",
    "Verif.Adsr.dynamic_hold_violated",
    "Verif.Adsr.cancelled_delay_violated"
   ],
   "note": "Exact rationals. Levels in [-0.02/sampleRate, 1]; released and one-shot envelopes end. The code violates the exact lower bound, block-split independence, and the end of dynamic envelopes with delay or hold over 16 frames."
  },
  {
   "property": "C36",
   "status": "partial",
   "theorems": [
    "Verif.FlexEG.flex_follows_points_partial",
    "Verif.FlexEG.flex_finishes_partial",
    "Verif.FlexEG.flex_cancel_partial",
    "Verif.FlexEG.flex_waits",
    "Verif.FlexEG.flex_in_order",
    "Verif.FlexEG.release_time_violated",
    "Verif.FlexEG.free_running_split_violated"
   ],
   "note": "Frame-exact specification for every point list, sustain point, trigger delay and history of blocks and releases (exact arithmetic, constant controllers, times not negative, no free running). With changing controllers and in dynamic mode: order and waiting at the sustain point. Violated: a release asked before the trigger delay is over comes late; free-running envelopes depend on the block sizes."
  },
  {
   "property": "C37",
   "status": "partial",
   "theorems": [
    "Verif.ModMatrix.modulation_terminates",
    "Verif.ModMatrix.modulation_values_partial",
    "Verif.ModMatrix.values_exist",
    "Verif.ModMatrix.generated_once_violated",
    "Verif.ModMatrix.shared_pressure_violated"
   ],
   "note": "Exact arithmetic, black-box generators. Termination for every graph; values and exactly-once for graphs without cycles; on cyclic graphs a self-dependent source is generated twice. Violated for the pressure on the keys as controller 130: it is a source shared by all voices, and the voice that asks first decides what the others get."
  },
  {
   "property": "C38",
   "status": "partial",
   "theorems": [
    "Verif.ModMatrix.depth_keys_differ_partial",
    "Verif.ModMatrix.depth_independence_violated"
   ],
   "note": "Two LFOs (or two envelopes) on the same parameter share the depth control: violated; the keys differ in all other cases."
  },
  {
   "property": "C39",
   "status": "partial",
   "theorems": [
    "Verif.Smoother.smoother_stays_between",
    "Verif.Smoother.smoother_length",
    "Verif.Smoother.smoother_line_partial",
    "Verif.Smoother.smoother_arrives",
    "Verif.Smoother.smoother_split_violated",
    "Verif.Smoother.smoother_off",
    "Verif.Smoother.smoother_vector_code",
    "Verif.Smoother.smoother_settles",
    "Verif.Smoother.smoother_steps",
    "Verif.Smoother.smoother_milliseconds"
   ],
   "note": "Exact arithmetic. Bounds hold for every history of blocks. For smoothing times of 16 frames or more the outputs to a constant input are the straight line in exactly the smoothing time for every split into blocks; from 2 to 15 frames arrival within 16 frames is proved and independence of the split is refuted (smoother_split_violated). The vector code is proved equal to the plain loop in every reachable state."
  },
  {
   "property": "C40",
   "status": "partial",
   "theorems": [
    "Verif.Envelope.linear_envelope",
    "Verif.Envelope.envelope_through_events",
    "Verif.Envelope.quantized_envelope_partial",
    "Verif.Envelope.quantized_through_events_violated",
    "Verif.Controller.quantized_rounds"
   ],
   "note": "Exact arithmetic. Proved for every history of MIDI calls (delays not negative), every controller, block size and value mapping. The quantized variant is proved to write every frame once with multiples of the step within the bounds and to end at the last event's value; that it passes through every event at its frame is refuted. multiplicativeEnvelope has no caller and is not modelled."
  },
  {
   "property": "C41",
   "status": "partial",
   "theorems": [
    "Verif.Crossfade.key_fade_in",
    "Verif.Crossfade.key_fade_out",
    "Verif.Crossfade.value_fade_in_partial",
    "Verif.Crossfade.value_fade_in_top",
    "Verif.Crossfade.value_fade_out",
    "Verif.Crossfade.value_fade_in_violated",
    "Verif.Crossfade.key_fade_out_violated",
    "Verif.Crossfade.key_crossfade_complementary"
   ],
   "note": "Exact real arithmetic, non-empty ranges. Key fades and value fade-outs hold in full; the value fade-in holds on the 128 values of 7 bits and is refuted between them (gain up to 1.9 for a range of one step). A fade-out with equal bounds never fades (key_fade_out_violated)."
  },
  {
   "property": "C42",
   "status": "partial",
   "theorems": [
    "Verif.Lfo.wave_bounded",
    "Verif.Lfo.step_valid",
    "Verif.Lfo.wrap_rounded_mem",
    "Verif.Lfo.lfo_bounded",
    "Verif.Lfo.lfo_split_partial",
    "Verif.Lfo.lfo_delay",
    "Verif.Lfo.lfo_shape",
    "Verif.Lfo.lfo_phase_range",
    "Verif.Lfo.step_valid_float_violated",
    "Verif.Lfo.lfo_split_violated",
    "Verif.Lfo.lfo_beats_violated",
    "Verif.Lfo.lfo_shape_all"
   ],
   "note": "Exact arithmetic: every wave lies in [-1,1], the step index is valid, the whole output is bounded for every history of blocks, and it is the closed formula of its subs (free running or following the beats). In float a tiny negative phase wraps to 1 and the step read lies after the last one. After a delay, modulations and beats are read from the beginning of the block, so the LFO is off until the block ends."
  },
  {
   "property": "C43",
   "status": "proved",
   "theorems": [
    "Verif.Power.power_frames",
    "Verif.Power.power_split",
    "Verif.Power.power_bounds",
    "Verif.Power.power_long_block_violated"
   ],
   "note": "Exact arithmetic; blocks up to the configured block size. The estimate is that of the frames taken one by one for every split, stays within the squared range, and never leaves the temporary buffer; a longer block would (power_long_block_violated)."
  },
  {
   "property": "C44",
   "status": "proved",
   "theorems": [
    "Verif.AudioReader.blocks_deliver_file",
    "Verif.AudioReader.block_count",
    "Verif.AudioReader.reverse_readers_agree",
    "Verif.AudioReader.reverse_readers_agree_violated"
   ],
   "note": "For files which deliver the frames they declare (the property's files). For truncated files the two reverse readers are shown to differ (reverse_readers_agree_violated). The decoding library is represented by the samples it delivers."
  },
  {
   "property": "C45",
   "status": "partial",
   "theorems": [
    "Verif.Metadata.open_terminates",
    "Verif.Metadata.riff_extraction_safe",
    "Verif.Metadata.memory_agrees_with_file",
    "Verif.Metadata.memory_agrees_with_file_violated",
    "Verif.Metadata.aiff_extraction_partial",
    "Verif.Metadata.aiff_extraction_violated",
    "Verif.Metadata.riff_chunks_found",
    "Verif.Metadata.aiff_chunks_found",
    "Verif.Metadata.flac_chunks_found",
    "Verif.Metadata.chunk_data_read",
    "Verif.Metadata.smpl_read",
    "Verif.Metadata.smpl_loop_used",
    "Verif.Metadata.aiff_loop_read"
   ],
   "note": "For every byte string, from disk or memory: opening ends, and extraction is defined (RIFF) or defined when every marker has a name (AIFF). For every well-formed RIFF, AIFF or FLAC file the chunks, the sampler loops and the loop used by the engine are those written. Violated: a marker without a name divides by zero for memory sources; a last odd chunk without pad byte is refused from memory only. Not modelled: the clm wavetable text, disk errors."
  },
  {
   "property": "C46",
   "status": "proved",
   "theorems": [
    "Verif.Messages.match_iff",
    "Verif.Messages.indices_unique",
    "Verif.Messages.dispatch_iff",
    "Verif.Messages.dispatch_none",
    "Verif.Messages.table_plain",
    "Verif.Messages.table_hashes",
    "Verif.Messages.match_room"
   ],
   "note": "For every path and signature, over the engine's whole pattern table (extracted from the source): the handler that runs is that of the one pattern the path instantiates, with the indices in the path. The 485 case labels are computed and shown distinct."
  },
  {
   "property": "C47",
   "status": "partial",
   "theorems": [
    "Verif.Loader.region_settings_partial",
    "Verif.Loader.one_layer_per_region",
    "Verif.Loader.innermost_wins",
    "Verif.Loader.sfz_regular",
    "Verif.Loader.refused_then_ignored_violated"
   ],
   "note": "Each region has exactly the settings of the opcodes in force (global, master, group, own, in this order), for all files whose opcodes are accepted or refused by name (sfz_regular: all files without numbered LFO/envelope opcodes). Violated otherwise: an opcode refused in one region is ignored in all later ones."
  },
  {
   "property": "C48",
   "status": "partial",
   "theorems": [
    "Verif.Loader.controller_inside_partial",
    "Verif.Loader.collect_inside_partial",
    "Verif.Loader.defaults_inside",
    "Verif.Loader.seen_hash",
    "Verif.Loader.all_regions",
    "Verif.Loader.controller_512_violated",
    "Verif.Loader.set_cc_512_violated",
    "Verif.Loader.huge_lfo_number_violated"
   ],
   "note": "Every controller number stored by any opcode of any file is below 512, except for the seven opcodes that compare with > (controller 512 accepted), shown as violations, as is set_cc512. The value conversions of controller opcodes are not modelled."
  },
  {
   "property": "C49",
   "status": "proved",
   "theorems": [
    "Verif.Engine.all_sound_off_silences",
    "Verif.Engine.all_notes_off_lifts_keys"
   ],
   "note": "Voices after CC 120, CC 123 and the API call; keys after CC 120 and CC 123."
  },
  {
   "property": "C50",
   "status": "proved",
   "theorems": [
    "Verif.BitArray.bitarray_refines_set"
   ],
   "note": ""
  },
  {
   "property": "C51",
   "status": "partial",
   "theorems": [
    "Verif.Engine.off_groups_complete_partial",
    "Verif.Engine.off_groups_exact_partial",
    "Verif.Engine.same_key_violated",
    "Verif.Engine.off_groups_notes_partial"
   ],
   "note": "Completeness for every instrument and state on note-ons; exactness for note-ons after every history of an instrument without release regions while the polyphony limits leave room (a choke that starts releases, or a limit, can turn off further voices), and of the choke step for controller-triggered voices. The literal statement fails on repeated notes: voices of the same key and group are exempt even when started by another event (witness)."
  },
  {
   "property": "C52",
   "status": "partial",
   "theorems": [
    "Verif.Loader.key_moved",
    "Verif.Loader.key_moved_defined",
    "Verif.Loader.moved_mono",
    "Verif.Loader.region_moved",
    "Verif.Loader.keys_on_keyboard_partial",
    "Verif.Loader.default_switch_partial",
    "Verif.Loader.default_switch_violated",
    "Verif.Loader.offset_overflow_violated",
    "Verif.Loader.switch_range_violated",
    "Verif.Loader.empty_range_violated"
   ],
   "note": "All key numbers of all regions of all files are on the keyboard and transposed by the offsets in force, clamped at the ends. Missing: sw_default leaves the keyboard; sw_lolast/hilast are not transposed; an empty range can become playable; the sum of offsets can overflow."
  },
  {
   "property": "C53",
   "status": "proved",
   "theorems": [
    "Verif.SpinLock.mutual_exclusion",
    "Verif.SpinLock.attempt_succeeds"
   ],
   "note": "Any number of threads, all interleavings."
  },
  {
   "property": "C54",
   "status": "partial",
   "theorems": [
    "Verif.Midi.midi_note_duration",
    "Verif.Midi.midi_duration_rate",
    "Verif.Midi.midi_duration_rate_violated"
   ],
   "note": "Durations below 2^32 samples (the clock is unsigned). A change of the sample rate while the key is held is the exception: the duration then counts from the change on (midi_duration_rate_violated)."
  },
  {
   "property": "C55",
   "status": "proved",
   "theorems": [
    "Verif.Midi.midi_derived_controllers"
   ],
   "note": ""
  },
  {
   "property": "C56",
   "status": "proved",
   "theorems": [
    "Verif.Engine.every_history_defined",
    "Verif.Engine.envelope_stealer_zero_violated"
   ],
   "note": "With limits of at least one for the envelope stealer; a polyphony of zero with that stealer reads the front of an empty list (witness)."
  },
  {
   "property": "C57",
   "status": "partial",
   "theorems": [
    "Verif.Engine.unrendered_age",
    "Verif.Engine.voice_age_partial",
    "Verif.Engine.voice_age_violated"
   ],
   "note": "For every history: zero before the first block, plus n per later block of n frames. In the first block the code computes min(n - delay, 0) instead of n - delay, so the literal statement fails (witness)."
  },
  {
   "property": "C58",
   "status": "partial",
   "theorems": [
    "Verif.Engine.choked_fades_partial",
    "Verif.Engine.choked_stays_partial",
    "Verif.Engine.choked_voice_revived_violated"
   ],
   "note": "Holds for every history when sustain_cancels_release is off; with it on, a pedal event revives a choked voice (witness)."
  },
  {
   "property": "C59",
   "status": "proved",
   "theorems": [
    "Verif.Opcode.companion_name"
   ],
   "note": "All names and kinds."
  },
  {
   "property": "C60",
   "status": "proved",
   "theorems": [
    "Verif.ModMatrix.matrix_built",
    "Verif.ModMatrix.target_id_stable",
    "Verif.ModMatrix.connect_effect"
   ],
   "note": "Keys abstract."
  },
  {
   "property": "C61",
   "status": "partial",
   "theorems": [
    "Verif.AudioReader.preload_content",
    "Verif.AudioReader.stream_content",
    "Verif.AudioReader.preload_is_head_of_stream",
    "Verif.AudioReader.ram_switch_violated"
   ],
   "note": "Proved for preloading and streaming, including truncated files (except the fast-seeking reverse reader there). Violated when RAM loading is switched on after preloading: the last frame is lost (ram_switch_violated)."
  },
  {
   "property": "C62",
   "status": "partial",
   "theorems": [
    "Verif.FilePool.Clear.clear_safe_partial",
    "Verif.FilePool.Clear.clear_violated",
    "Verif.FilePool.Clear.wait_violated"
   ],
   "note": "Violated: the wait covers dispatched jobs only, a request still queued can become a job after it (clear_violated, wait_violated). Proved for clearing that begins with an empty queue."
  },
  {
   "property": "C63",
   "status": "proved",
   "theorems": [
    "Verif.BufferPool.render_never_refused",
    "Verif.BufferPool.pool_is_tight"
   ],
   "note": "Over the request structure of renderBlock for arbitrary voices; with one mono or index buffer less it would fail (pool_is_tight)."
  },
  {
   "property": "C64",
   "status": "partial",
   "theorems": [
    "Verif.Messages.elements_in_bounds",
    "Verif.Messages.controller_index_partial",
    "Verif.Messages.controller_index_violated",
    "Verif.Messages.voice_index_partial",
    "Verif.Messages.voice_index_violated",
    "Verif.Messages.point_index_partial",
    "Verif.Messages.point_index_safe",
    "Verif.Messages.point_index_violated"
   ],
   "note": "All accesses by index in the handlers. Violated: /cc512/value reads past the controller table; /voice4294967295/... passes the signed comparison; point 4294967295 wraps to the hidden first point."
  },
  {
   "property": "C65",
   "status": "partial",
   "theorems": [
    "Verif.Messages.room_partial",
    "Verif.Messages.envelope_room",
    "Verif.Messages.room_violated"
   ],
   "note": "Holds after loading and when envelopes are added; there is always room for all envelopes. Violated: add_filter and add_eq size the voices by the number of envelopes."
  },
  {
   "property": "C66",
   "status": "partial",
   "theorems": [
    "Verif.Playback.loop_count_partial",
    "Verif.Playback.loop_count_violated"
   ],
   "note": "Holds for blocks that do not begin at the loop point; the code plays the loop once more when a block begins there (witness)."
  },
  {
   "property": "C67",
   "status": "partial",
   "theorems": [
    "Verif.Loader.load_defined_partial",
    "Verif.Loader.seen_numbers",
    "Verif.Loader.controller_512_violated",
    "Verif.Loader.set_cc_512_violated",
    "Verif.Loader.huge_lfo_number_violated",
    "Verif.Loader.offset_overflow_violated",
    "Verif.Loader.default_switch_violated"
   ],
   "note": "Proved for all files without the opcodes that are shown to violate it (controller 512 in seven opcodes, set_cc from 512, LFO/envelope opcodes without number, extreme offsets)."
  },
  {
   "property": "C68",
   "status": "proved",
   "theorems": [
    "Verif.Loader.header_sets",
    "Verif.Loader.region_set"
   ],
   "note": "For all files."
  },
  {
   "property": "C69",
   "status": "partial",
   "theorems": [
    "Verif.Simd.gain",
    "Verif.Simd.gain1",
    "Verif.Simd.multiplyAdd1",
    "Verif.Simd.multiplyMul1",
    "Verif.Simd.add",
    "Verif.Simd.add1",
    "Verif.Simd.subtract",
    "Verif.Simd.subtract1",
    "Verif.Simd.copy",
    "Verif.Simd.divide_partial",
    "Verif.Simd.multiplyAdd_partial",
    "Verif.Simd.multiplyMul_partial",
    "Verif.Simd.clampAll",
    "Verif.Simd.linearRamp",
    "Verif.Simd.multiplicativeRamp_partial",
    "Verif.Simd.cumsum",
    "Verif.Simd.diff_partial",
    "Verif.Simd.mean",
    "Verif.Simd.sumSquares",
    "Verif.Simd.allWithin",
    "Verif.Simd.readInterleaved",
    "Verif.Simd.writeInterleaved",
    "Verif.Simd.multiplyAdd_misaligned_violated",
    "Verif.Simd.multiplyMul_misaligned_violated",
    "Verif.Simd.divide_misaligned_violated",
    "Verif.Simd.multiplicativeRamp_zero_violated",
    "Verif.Simd.diff_in_place_violated"
   ],
   "note": "Proved for exact numbers, any size and alignment. False for multiplyAdd, multiplyMul and divide when the gains or divisors are aligned differently from the output (the vector load faults), for multiplicativeRamp with a zero step and for diff in place."
  },
  {
   "property": "C70",
   "status": "partial",
   "theorems": [
    "Verif.Interp.vectorized_same",
    "Verif.Interp.passes_through",
    "Verif.Interp.bspline_through_violated",
    "Verif.Interp.straight_lines",
    "Verif.Interp.parabolas",
    "Verif.Interp.no_overshoot",
    "Verif.Interp.sinc_reads_partial",
    "Verif.Interp.sinc_defined",
    "Verif.Interp.sinc_table_partial",
    "Verif.Interp.sinc_table_violated",
    "Verif.Interp.sinc_lookup_partial",
    "Verif.Interp.sinc_lookup_violated",
    "Verif.Interp.sinc_error"
   ],
   "note": "Exact numbers. The B-spline does not go through the samples (by design). The sinc lookup is false: an integer division makes every lookup slightly left of its place, and four entries at the start of the table are overwritten; the size of the error is bounded."
  },
  {
   "property": "C71",
   "status": "partial",
   "theorems": [
    "Verif.Pan.lookup_inside",
    "Verif.Pan.pan_defined",
    "Verif.Pan.pan_ends",
    "Verif.Pan.pan_middle",
    "Verif.Pan.pan_power_partial",
    "Verif.Pan.pan_power_violated",
    "Verif.Pan.pan_monotone",
    "Verif.Pan.pan_accuracy",
    "Verif.Pan.width_settings"
   ],
   "note": "Real numbers; the scalar version (the NEON version is in C135). Constant power fails exactly halfway between two table entries, where both lookups round up."
  },
  {
   "property": "C72",
   "status": "proved",
   "theorems": [
    "Verif.OnePole.one_pole_stays_between",
    "Verif.OnePole.one_pole_approach",
    "Verif.OnePole.one_pole_shortcut",
    "Verif.OnePole.one_pole_off",
    "Verif.OnePole.passes_complement",
    "Verif.OnePole.one_pole_reset"
   ],
   "note": "Exact numbers; the tangent computed by setSmoothing is a parameter between 0 and 1."
  },
  {
   "property": "C73",
   "status": "proved",
   "theorems": [
    "Verif.Engine.note_polyphony",
    "Verif.Engine.note_polyphony_start",
    "Verif.Engine.note_polyphony_choice",
    "Verif.Engine.stolen_voice",
    "Verif.Engine.nothing_stolen",
    "Verif.Engine.voice_event"
   ],
   "note": "After every history, for limits of at least one (the parser enforces it). std::sort leaves the order of equal voices open; the model's is stable. The choice of the envelope stealer is left open."
  },
  {
   "property": "C74",
   "status": "partial",
   "theorems": [
    "Verif.Engine.timer_condition_partial",
    "Verif.Engine.timer_start",
    "Verif.Engine.timer_layer",
    "Verif.Engine.timer_delay_violated"
   ],
   "note": "False when the latest start of the group is delayed and has not sounded yet: the unsigned difference wraps and counts as more than a day. Proved otherwise, for clocks below 2^32. That nothing but starts changes the recorded times is part of the lemmas, not stated over whole histories."
  },
  {
   "property": "C75",
   "status": "partial",
   "theorems": [
    "Verif.Region.offset_value",
    "Verif.Region.offset_in_bounds",
    "Verif.Region.offset_monotone",
    "Verif.Region.offset_random_violated",
    "Verif.Region.preload_covers_partial",
    "Verif.Region.preload_negative_violated",
    "Verif.Region.preload_wrap_violated",
    "Verif.Region.end_value",
    "Verif.Region.loop_points",
    "Verif.Region.draw_between",
    "Verif.Region.delay_value"
   ],
   "note": "Controller values are exact. Violated: a negative offset_random gives the standard library an empty interval; negative offset modulations lower the part read in advance below reachable starts; a preload size near 2^32 wraps to nothing."
  },
  {
   "property": "C76",
   "status": "partial",
   "theorems": [
    "Verif.Region.velocity_gain",
    "Verif.Region.velocity_gain_range_partial",
    "Verif.Region.velocity_gain_monotone",
    "Verif.Region.default_response",
    "Verif.Region.full_velocity",
    "Verif.Region.velocity_gain_violated",
    "Verif.Region.velocity_track_jump",
    "Verif.Region.note_gain_range",
    "Verif.Region.key_tracking",
    "Verif.Region.crossfade_gain_range",
    "Verif.Region.pitch_of_key",
    "Verif.Region.pitch_of_tuning",
    "Verif.Region.pitch_of_velocity",
    "Verif.Region.volume_sum"
   ],
   "note": "Exact numbers. Violated: tracking beyond 100 %, which the parser accepts, makes the gain of soft notes negative. Velocities and controllers of 7 bits in the range theorems (fade-ins fail between them, see C41)."
  },
  {
   "property": "C77",
   "status": "partial",
   "theorems": [
    "Verif.Mixer.mix_of_voices",
    "Verif.Mixer.mix_order",
    "Verif.Mixer.mix_without_effects",
    "Verif.Mixer.even_channels",
    "Verif.Mixer.load_outputs",
    "Verif.Mixer.load_buses",
    "Verif.Mixer.output_message_violated",
    "Verif.Mixer.output_message_silent_violated",
    "Verif.Mixer.odd_channels_violated"
   ],
   "note": "Proved for any voices whose outputs are within the loaded instrument and an even number of channels, samples being exact rationals and the effects a parameter that keeps the number of frames. It fails when the output of a region is changed by a message while notes play (outside of the table of buses, or an output that is never mixed), and with one channel or an odd number of channels and several outputs (a channel that does not exist is written)."
  },
  {
   "property": "C78",
   "status": "partial",
   "theorems": [
    "Verif.Cleanup.clean_total",
    "Verif.Cleanup.clean_region",
    "Verif.Cleanup.old_name_is_current",
    "Verif.Cleanup.cc_is_oncc",
    "Verif.Cleanup.clean_idempotent",
    "Verif.Cleanup.group_header_violated"
   ],
   "note": "Exact for regions and for any text without NUL bytes; idempotent for any text and header. Violated in group headers: polyphony_group is not read as group there."
  },
  {
   "property": "C79",
   "status": "partial",
   "theorems": [
    "Verif.Tuning.tuning_of_calls",
    "Verif.Tuning.results_of_calls",
    "Verif.Tuning.never_throws",
    "Verif.Tuning.scale_exists",
    "Verif.Tuning.tuning_default",
    "Verif.Tuning.tuning_reference",
    "Verif.Tuning.tuning_monotone",
    "Verif.Tuning.scl_read_partial",
    "Verif.Tuning.scl_bounds",
    "Verif.Tuning.scl_rejected",
    "Verif.Tuning.scl_tail_violated",
    "Verif.Tuning.negative_ratio_violated",
    "Verif.Tuning.zero_frequency_violated",
    "Verif.Tuning.root_key_violated",
    "Verif.Tuning.count_violated",
    "Verif.Tuning.reload_violated"
   ],
   "note": "For any calls, the frequencies are those of the scale, root key and frequency set last; reading follows the format. Partial: text after a ratio must not contain a period or a slash (the code misreads it, scl_tail_violated); frequency 0, negative ratios, huge root keys and huge counts are not handled by the code; a file that failed to load is never reported as changed. Reals instead of floats."
  },
  {
   "property": "C80",
   "status": "partial",
   "theorems": [
    "Verif.Stretch.knob",
    "Verif.Stretch.whole_keys",
    "Verif.Stretch.between_keys",
    "Verif.Stretch.factor_mono_partial",
    "Verif.Stretch.keys_ascend",
    "Verif.Stretch.factor_mono_violated",
    "Verif.Stretch.knob_mono_violated",
    "Verif.Stretch.stretch_undefined_violated"
   ],
   "note": "Knob interpolation, bounds and order of keys for keys from 0 on, with the actual curves. Below key 0 the factor jumps (violated); with a reference frequency of 0 the conversion to int is undefined. Reals instead of floats."
  },
  {
   "property": "C81",
   "status": "partial",
   "theorems": [
    "Verif.Controller.voice_controller",
    "Verif.Controller.keys_apart",
    "Verif.Controller.smoothed_source",
    "Verif.Controller.smoothed_between",
    "Verif.Controller.still_partial",
    "Verif.Controller.steps_partial",
    "Verif.Controller.still_violated",
    "Verif.Controller.voices_independent_violated",
    "Verif.Controller.steps_violated",
    "Verif.ModMatrix.shared_pressure_violated",
    "Verif.Controller.smoothed_after_reset",
    "Verif.Controller.sharing_partial",
    "Verif.Controller.sharing_violated"
   ],
   "note": "Exact arithmetic. Unsmoothed voice controllers are exactly the voice's own value after every history; sources are independent; smoothing is one smoother per source. Violated: with smoothing, voices of a region share the smoother; pitch bend at rest glides from a wrong start; steps are not scaled for voice controllers and ignored with negative depths; controller 130 gives all voices the pressure of one key."
  },
  {
   "property": "C82",
   "status": "partial",
   "theorems": [
    "Verif.Loader.waits_previous",
    "Verif.Loader.waits_for_something",
    "Verif.Loader.waits_partial",
    "Verif.Loader.waits_violated"
   ],
   "note": "For all files whose sw_last and sw_down are keys. Violated: a later sw_down (or sw_last) that is not a key cancels the wait for the other one."
  },
  {
   "property": "C83",
   "status": "partial",
   "theorems": [
    "Verif.Effects.chain_in_turn_partial",
    "Verif.Effects.chained_disto_violated"
   ],
   "note": "For all chains where a distortion comes first at most. Violated by a distortion after another effect: run in place, it reads its own dry mix."
  },
  {
   "property": "C84",
   "status": "partial",
   "theorems": [
    "Verif.Effects.cuts_agree_partial",
    "Verif.Effects.linked_cut_violated"
   ],
   "note": "For all chains with a distortion first at most and no linked channels. Violated by linked channels, whose detector reads the second sample of the block."
  },
  {
   "property": "C85",
   "status": "proved",
   "theorems": [
    "Verif.Effects.compressor_bounds",
    "Verif.Effects.compressor_below",
    "Verif.Effects.compressor_ratio_one",
    "Verif.Effects.compressor_steady"
   ],
   "note": "Over the real numbers; the detector of the code with its oversampled input."
  },
  {
   "property": "C86",
   "status": "partial",
   "theorems": [
    "Verif.Effects.width_law_partial",
    "Verif.Effects.width_opcode_violated"
   ],
   "note": "Holds for the member in percent and so without the opcode. Violated for every value of the opcode, which is divided by 100 twice."
  },
  {
   "property": "C87",
   "status": "partial",
   "theorems": [
    "Verif.Effects.silent_after_clear_partial",
    "Verif.Effects.clear_cleared",
    "Verif.Effects.limiter_after_clear_violated",
    "Verif.Effects.compressor_after_clear_violated",
    "Verif.Effects.clear_resets_detectors"
   ],
   "note": "For gain, width, apan, strings (resonators silent once cleared), rectify, lofi, disto (first). Violated by limiter, compressor and gate, whose resamplers are not cleared."
  },
  {
   "property": "C88",
   "status": "proved",
   "theorems": [
    "Verif.Effects.gate_bounds",
    "Verif.Effects.gate_shut",
    "Verif.Effects.gate_hold_exact"
   ],
   "note": "Over the real numbers; the detector of the code with its oversampled input."
  },
  {
   "property": "C89",
   "status": "partial",
   "theorems": [
    "Verif.Effects.limiter_never_amplifies",
    "Verif.Effects.limiter_quiet_partial",
    "Verif.Effects.limiter_steady_partial",
    "Verif.Effects.limiter_quiet_violated",
    "Verif.Effects.limiter_ceiling_violated"
   ],
   "note": "Never amplifies; quiet signals are faded in exactly as stated; steady loud signals end at full scale. Violated: quiet signals are attenuated at the start, and sudden sounds come out over any bound."
  },
  {
   "property": "C90",
   "status": "partial",
   "theorems": [
    "Verif.Effects.linked_detector_partial",
    "Verif.Effects.unlinked_detectors",
    "Verif.Effects.linked_detector_violated"
   ],
   "note": "Holds for a right channel of constant level. Violated otherwise: the detector is given the second sample of the right channel at every instant."
  },
  {
   "property": "C91",
   "status": "proved",
   "theorems": [
    "Verif.Effects.chain_energy",
    "Verif.Effects.compressor_attenuates",
    "Verif.Effects.gate_attenuates"
   ],
   "note": "Over the real numbers; compressors and gates with channels of their own."
  },
  {
   "property": "C92",
   "status": "partial",
   "theorems": [
    "Verif.Effects.neutral_chain_partial",
    "Verif.Effects.chained_neutral_violated"
   ],
   "note": "For gain, width, apan, strings, lofi and a distortion as first effect. Violated by a distortion after another effect. The effects that resample are not transparent."
  },
  {
   "property": "C93",
   "status": "proved",
   "theorems": [
    "Verif.Effects.apan_balance",
    "Verif.Effects.apan_range",
    "Verif.Effects.apan_phase",
    "Verif.Effects.quantize_nearest"
   ],
   "note": "Exact numbers."
  },
  {
   "property": "C94",
   "status": "partial",
   "theorems": [
    "Verif.PerVoice.rates_follow_partial",
    "Verif.PerVoice.filters_after_set",
    "Verif.PerVoice.filters_either",
    "Verif.PerVoice.filter_rate_violated"
   ],
   "note": "Proved for everything but filters and equalizers after any history; for these: right after setting the rate, and always one of 48 kHz or the engine rate. Violated: new filters made by a load or a voice-count change stay at 48 kHz (Voice.cpp:1802-1822)."
  },
  {
   "property": "C95",
   "status": "partial",
   "theorems": [
    "Verif.Filter.second_order_stable_partial",
    "Verif.Filter.lowpass_unstable",
    "Verif.Filter.second_order_stable_violated"
   ],
   "note": "Proved for every cutoff below half the sample rate. Violated above it: the generated code limits the cutoff to 20 kHz, not to half the sample rate, so at 24 kHz a low-pass at 18 kHz turns a click into an unbounded sound."
  },
  {
   "property": "C96",
   "status": "proved",
   "theorems": [
    "Verif.Filter.constant_gain",
    "Verif.Filter.top_gain",
    "Verif.Filter.lowpass_cutoff",
    "Verif.Filter.highpass_cutoff",
    "Verif.Filter.bandpass_centre",
    "Verif.Filter.notch_centre",
    "Verif.Filter.peak_centre"
   ],
   "note": "Below half the sample rate, for the second-order families and equalizer bands; exact real arithmetic."
  },
  {
   "property": "C97",
   "status": "partial",
   "theorems": [
    "Verif.Filter.flat_band_partial",
    "Verif.Filter.flat_band_violated"
   ],
   "note": "Holds while frequency and bandwidth stand still. Violated while they move: numerator and denominator use delays of different sections of the recursion, so a 0 dB band with a moving frequency alters the sound."
  },
  {
   "property": "C98",
   "status": "partial",
   "theorems": [
    "Verif.Filter.control_law",
    "Verif.Filter.cut_at_interval",
    "Verif.Filter.note_output",
    "Verif.Filter.cut_violated"
   ],
   "note": "History, block cuts and channels are irrelevant under constant controls; under moving controls cuts at multiples of 16 frames are irrelevant and other cuts matter (violation shown)."
  },
  {
   "property": "C99",
   "status": "proved",
   "theorems": [
    "Verif.Filter.superposition",
    "Verif.Filter.every_filter_linear"
   ],
   "note": "Any filter type, one channel, arbitrary control curves, from a cleared memory."
  },
  {
   "property": "C100",
   "status": "partial",
   "theorems": [
    "Verif.Filter.first_order_stable_partial",
    "Verif.Filter.lowpass_peak",
    "Verif.Filter.first_order_constant",
    "Verif.Filter.allpass_energy_le",
    "Verif.Filter.allpass_energy",
    "Verif.Filter.allpass_tone",
    "Verif.Filter.allpass_unstable",
    "Verif.Filter.bandreject_unstable",
    "Verif.Filter.first_order_stable_violated"
   ],
   "note": "All-pass and band-reject are unstable for cutoffs above the sample rate over pi (15.3 kHz at 48 kHz): violation shown. The band-reject doubles steady levels."
  },
  {
   "property": "C101",
   "status": "partial",
   "theorems": [
    "Verif.Filter.state_variable_stable",
    "Verif.Filter.state_variable_constant",
    "Verif.Filter.state_variable_top",
    "Verif.Filter.sv_highpass_cutoff",
    "Verif.Filter.sv_bandpass_centre",
    "Verif.Filter.sv_lowpass_cutoff_partial",
    "Verif.Filter.sv_notch_centre_partial",
    "Verif.Filter.sv_notch_violated",
    "Verif.Filter.sv_lowpass_violated"
   ],
   "note": "The low-pass output of the generated code uses the state after twice the step; low-pass and band-reject therefore miss their landmarks (violations shown); high-pass and band-pass are right."
  },
  {
   "property": "C102",
   "status": "partial",
   "theorems": [
    "Verif.PerVoice.equipment_partial",
    "Verif.PerVoice.add_filter_violated",
    "Verif.PerVoice.add_eq_violated",
    "Verif.PerVoice.edit_while_playing_violated"
   ],
   "note": "Proved for all histories without add_filter/add_eq messages. Violated by those: they raise the count to the number of envelopes (SynthMessaging.cpp:490, 522), and they replace the envelopes of sounding voices."
  },
  {
   "property": "C104",
   "status": "partial",
   "theorems": [
    "Verif.Effects.decimator_exact",
    "Verif.Effects.decimator_partial",
    "Verif.Effects.decimator_refreshes",
    "Verif.Effects.decimator_silent_violated"
   ],
   "note": "Proved for every clock none of whose ticks falls exactly on a frame; ticks on a frame are lost, and a depth exists at which the effect is silent for every input."
  },
  {
   "property": "C105",
   "status": "partial",
   "theorems": [
    "Verif.Reload.load_forgets_partial",
    "Verif.Reload.load_controllers_partial",
    "Verif.Reload.load_told_partial",
    "Verif.Reload.reload_keeps_controllers",
    "Verif.Reload.image_controls_violated",
    "Verif.Reload.sustain_hint_violated",
    "Verif.Reload.controller_values_violated",
    "Verif.Reload.reload_names_violated",
    "Verif.Reload.reload_defaults_violated",
    "Verif.Reload.group_told",
    "Verif.Reload.key_name_told",
    "Verif.Reload.controller_name_told_partial",
    "Verif.Reload.path_told",
    "Verif.Reload.image_told",
    "Verif.Reload.reset_told_partial"
   ],
   "note": "Proved for everything the load resets, for controllers that the instrument sets and for settings that it tells. The code violates the rest: image_controls, hint_sustain_cancels_release and set_cc values leak into the next instrument; a reload loses the standard controller names and keeps removed defaults (witnesses proved)."
  },
  {
   "property": "C106",
   "status": "partial",
   "theorems": [
    "Verif.Reload.power_followed_partial",
    "Verif.Reload.power_violated"
   ],
   "note": "Proved for all histories without a change of the number of voices after the load; the code violates it after such a change (witness proved)."
  },
  {
   "property": "C107",
   "status": "partial",
   "theorems": [
    "Verif.Wavetable.oscillator_reads_waveform_partial",
    "Verif.Wavetable.no_seam",
    "Verif.Wavetable.create_repeats",
    "Verif.Wavetable.huge_frequency_violated",
    "Verif.Wavetable.between_samples",
    "Verif.Wavetable.between_reaches",
    "Verif.Wavetable.between_parabola",
    "Verif.Wavetable.between_nearest"
   ],
   "note": "Proved for all increments per frame that fit a 32-bit integer, with any monotone rounding. Violated beyond: a frame that advances by 2^31 periods is undefined behaviour, and pitches are not limited."
  },
  {
   "property": "C108",
   "status": "proved",
   "theorems": [
    "Verif.Wavetable.pitch_exact",
    "Verif.Wavetable.blocks_compose",
    "Verif.Wavetable.constant_same"
   ],
   "note": "Exact arithmetic for the pitch (increments that fit 32 bits); block laws for any rounding."
  },
  {
   "property": "C109",
   "status": "partial",
   "theorems": [
    "Verif.Wavetable.no_alias_partial",
    "Verif.Wavetable.holds_iff",
    "Verif.Wavetable.fundamental_kept",
    "Verif.Wavetable.reference_violated",
    "Verif.Wavetable.negative_violated",
    "Verif.Wavetable.detune_violated"
   ],
   "note": "Proved for frequencies 0 to 22050 Hz without detuning with a margin of 1.44% over half the reference rate. Violated: exactly at half the reference rate near borders of tables, by detuned oscillators (table chosen without the detuning), and by negative frequencies of frequency modulation (lowest table chosen)."
  },
  {
   "property": "C110",
   "status": "proved",
   "theorems": [
    "Verif.Wavetable.no_offset",
    "Verif.Wavetable.sine_exact",
    "Verif.Wavetable.file_exact",
    "Verif.Wavetable.lowest_not_cut",
    "Verif.Wavetable.unison_gains",
    "Verif.Wavetable.unison_centred",
    "Verif.Wavetable.triangle_exact",
    "Verif.Wavetable.saw_exact",
    "Verif.Wavetable.square_exact"
   ],
   "note": "Exact arithmetic; the transforms of kissfft are taken from its documentation. Files with as many frames as a table; files of other lengths are resampled by the transform and not covered."
  },
  {
   "property": "C111",
   "status": "proved",
   "theorems": [
    "Verif.Api.held_alive",
    "Verif.Api.freed_once"
   ],
   "note": "For all interleavings of calls by holders. The counter is atomic in the code; calls are modelled as atomic steps, memory ordering is not modelled."
  },
  {
   "property": "C112",
   "status": "proved",
   "theorems": [
    "Verif.Api.unknown_list",
    "Verif.Api.names_recovered"
   ],
   "note": "The loop that measures and the loop that writes agree for every list of names; the result is terminated at the last allocated byte. Names come from the parser, hence without zero bytes and commas."
  },
  {
   "property": "C113",
   "status": "partial",
   "theorems": [
    "Verif.Api.label_number",
    "Verif.Api.label_text_null",
    "Verif.Api.label_text_violated",
    "Verif.Api.label_text_repaired"
   ],
   "note": "Numbers and null results are right for all indices. The text is violated for every label: the vector of labels is copied (auto without &), and the returned pointer is into the destroyed copy. Repaired version by reference is proved."
  },
  {
   "property": "C114",
   "status": "partial",
   "theorems": [
    "Verif.Import.audio_import_partial",
    "Verif.Import.audio_recognised",
    "Verif.Import.header_name_violated",
    "Verif.Import.opcode_name_violated",
    "Verif.Import.sample_name_violated"
   ],
   "note": "Proved for all paths whose file name can be quoted as an opcode value; violated for names with angle brackets, with a space, a name and an equals sign, with $, leading * or a backslash."
  },
  {
   "property": "C115",
   "status": "partial",
   "theorems": [
    "Verif.Import.preset_import_partial",
    "Verif.Import.key_range",
    "Verif.Import.group_range_lost",
    "Verif.Import.group_range_violated",
    "Verif.Import.round_robin_violated"
   ],
   "note": "Structure and opcodes for all presets with quotable texts; exact key range and centre for samples that give all three, for all outcomes of the unstable sort. Violated: a range given by the group is lost for samples that give their root note; round robins never play beyond the first position as no sequence length is written. XML reading and real-number formatting are not modelled."
  },
  {
   "property": "C116",
   "status": "partial",
   "theorems": [
    "Verif.Edit.edited_keys",
    "Verif.Edit.narrowed_keys",
    "Verif.Edit.never_outside_loaded",
    "Verif.Edit.known_condition_obeyed",
    "Verif.Edit.new_condition_ignored",
    "Verif.Edit.edited_render_partial",
    "Verif.Edit.widened_keys_violated",
    "Verif.Edit.new_condition_violated",
    "Verif.Edit.moved_output_violated",
    "Verif.Edit.moved_output_silent_violated",
    "Verif.Edit.moved_output_overrun_violated",
    "Verif.Edit.key_edit"
   ],
   "note": "Proved exactly: an edited region answers a key iff both the loaded and the edited range contain it (so narrowing works), conditions on controllers the region listened to at load are obeyed from the next event on, and rendering is safe and complete while edits keep to the loaded outputs. The code violates the rest: widening a key range has no effect, a condition on a new controller is never looked at, and moving a region to another output reads past the table of outputs, or is silent, or overruns a stale buffer after a block size change."
  },
  {
   "property": "C117",
   "status": "partial",
   "theorems": [
    "Verif.Strings.packs_agree_partial",
    "Verif.Strings.string_bounded",
    "Verif.Strings.strings_bounded_partial",
    "Verif.Strings.strings_fade_partial",
    "Verif.Strings.strings_silence",
    "Verif.Strings.packs_violated",
    "Verif.Strings.strings_violated"
   ],
   "note": "Exact real arithmetic. Proved for numbers of strings that fill the packs (and all numbers on the plain path, one lane). Violated otherwise: unused lanes compute 0/0, and every frame after the first is not a number, silence included."
  },
  {
   "property": "C118",
   "status": "partial",
   "theorems": [
    "Verif.Reverb.reverb_bounded_partial",
    "Verif.Reverb.reverb_fades_partial",
    "Verif.Reverb.mix_linear",
    "Verif.Reverb.silence",
    "Verif.Reverb.causal",
    "Verif.Reverb.ring_reads",
    "Verif.Reverb.ring_is_line",
    "Verif.Reverb.counter_violated",
    "Verif.Reverb.reads_in_ring",
    "Verif.Reverb.table_in_bounds",
    "Verif.Reverb.dry_path",
    "Verif.Reverb.unset_silent",
    "Verif.Reverb.dry_violated",
    "Verif.Reverb.predelay_settles",
    "Verif.Reverb.predelay_violated"
   ],
   "note": "Stability proved in exact arithmetic for sampling rates from 44100 to 1000000. The code violates three parts: the frame counter overflows after 2^31 frames, the dry signal is faded in from nothing after each load or change of rate, and predelays above 65536 frames are cut short."
  },
  {
   "property": "C119",
   "status": "partial",
   "theorems": [
    "Verif.Render.rendering_defined",
    "Verif.Render.level_product",
    "Verif.Render.fade_bounded",
    "Verif.Render.fade_steps",
    "Verif.Render.fade_settles",
    "Verif.Render.fade_start_partial",
    "Verif.Render.fade_start_violated"
   ],
   "note": "The start is proved when no crossfade controller moves in the block of the start. The code violates the rest: the crossfade gain of the start comes from the last value of the block's messages, then is led through the whole block's messages."
  },
  {
   "property": "C120",
   "status": "partial",
   "theorems": [
    "Verif.Render.sample_clock_partial",
    "Verif.Render.sample_clock_second",
    "Verif.Render.sample_clock_later_partial",
    "Verif.Render.sample_clock_violated"
   ],
   "note": "The code violates it: the age of a voice stays 0 after its first block, so a voice that starts in its first block repeats a frame at the second one, and a voice that starts after its second block skips its first frame. Exact positions are proved for all cases, the clock is right when the voice starts in the second block."
  },
  {
   "property": "C121",
   "status": "partial",
   "theorems": [
    "Verif.Render.pitch_shifted",
    "Verif.Render.pitch_frame_partial",
    "Verif.Render.pitch_at_rest",
    "Verif.Render.pitch_frame_violated",
    "Verif.Render.bend_step_violated",
    "Verif.Render.bend_range"
   ],
   "note": "Proved for every block after the start. The code violates it in the block of the start, where bends and pitch modulation come later by the delay of the voice, and at the start with bend steps and smoothing."
  },
  {
   "property": "C122",
   "status": "partial",
   "theorems": [
    "Verif.Adsr.held_shape",
    "Verif.Adsr.release_shape_partial",
    "Verif.Adsr.release_frames",
    "Verif.Adsr.release_silent",
    "Verif.Adsr.times",
    "Verif.Adsr.release_late_violated",
    "Verif.Adsr.release_time",
    "Verif.Adsr.decay_time",
    "Verif.Adsr.early_release",
    "Verif.Adsr.early_silent",
    "Verif.Adsr.release_at_delay_violated"
   ],
   "note": "Exact arithmetic, constant parameters, sustain level above the free-running threshold. A release of t seconds decays for t to 37/36 t seconds before its last fade. A release before the end of the delay waits for it and starts from the start level, whatever the blocks. The code violates it when the delay ends exactly with a block (a later release comes one frame late), and for a release exactly at the end of the delay (one frame of the attack is made first, so that with no attack the release goes from full level)."
  },
  {
   "property": "C123",
   "status": "partial",
   "theorems": [
    "Verif.MidiValue.velocity_condition",
    "Verif.MidiValue.velocity_hd",
    "Verif.MidiValue.hd_value",
    "Verif.MidiValue.one_layer",
    "Verif.MidiValue.cc_condition",
    "Verif.MidiValue.start_condition",
    "Verif.MidiValue.chanaft_condition",
    "Verif.MidiValue.polyaft_condition",
    "Verif.MidiValue.pedal_condition",
    "Verif.MidiValue.bend_condition_partial",
    "Verif.MidiValue.bend_low_violated",
    "Verif.MidiValue.bend_gap_violated",
    "Verif.MidiValue.fraction_violated",
    "Verif.Float32.fl_nearest",
    "Verif.Float32.fl_mono",
    "Verif.Float32.fl_isFloat",
    "Verif.Float32.le_below_iff",
    "Verif.Float32.fl_tie"
   ],
   "note": "Proved with the binary32 rounding of the code, for MIDI numbers and for every float between them. Bends: the wheel at -8192 counts as -8191, high definition bends between two numbers meet neither range, and upper bounds with a fraction let in one number too many (shown)."
  },
  {
   "property": "C124",
   "status": "partial",
   "theorems": [
    "Verif.MidiValue.curve_point",
    "Verif.MidiValue.percent_back_partial",
    "Verif.MidiValue.percent_back_violated"
   ],
   "note": "Curves exact; percentages come back to 22 bits, not always to the last one (amplitude=15 is reported as 15.000001)."
  },
  {
   "property": "C125",
   "status": "proved",
   "theorems": [
    "Verif.MidiValue.one_random",
    "Verif.MidiValue.one_alternative"
   ],
   "note": "Bounds are read as floats; the same number goes to all regions."
  },
  {
   "property": "C126",
   "status": "partial",
   "theorems": [
    "Verif.VoiceFilter.cutoff_exact",
    "Verif.VoiceFilter.cutoff_range",
    "Verif.VoiceFilter.cutoff_law_partial",
    "Verif.VoiceFilter.cutoff_law_violated",
    "Verif.VoiceFilter.octave",
    "Verif.VoiceFilter.eq_law",
    "Verif.VoiceFilter.resonance_law",
    "Verif.VoiceFilter.chain_output",
    "Verif.VoiceFilter.effect_output"
   ],
   "note": "Proved over the reals for every description, key, velocity and history. The cents law fails when the cutoff before modulation passes 20 kHz and the modulation lowers it: it is limited before modulation (cutoff_law_violated). The chain theorem is for modulation that does not move within a note; filter classes come in through the laws proved for C95-C98."
  },
  {
   "property": "C127",
   "status": "proved",
   "theorems": [
    "Verif.Drift.place_drift",
    "Verif.Drift.pitch_drift"
   ],
   "note": "Binary32 rounding of every operation; for every split of the running sum into scalar and vector steps. Speeds are given floats; a block has fewer than 2^20 frames and passes at most 2^22 frames of the sample. Loops take whole frames off and are not in this model."
  },
  {
   "property": "C128",
   "status": "partial",
   "theorems": [
    "Verif.Drift.phase_drift_partial",
    "Verif.Drift.lfo_stops_violated"
   ],
   "note": "Binary32 rounding. The frequency is off by at most the sample rate times 2^-24 (0.003 Hz at 48 kHz). For slow LFOs that is as much as the frequency: below the sample rate times 2^-25 (0.0014 Hz at 48 kHz) the phase never passes one half."
  },
  {
   "property": "C129",
   "status": "partial",
   "theorems": [
    "Verif.Generator.single_note",
    "Verif.Generator.unison_note",
    "Verif.Generator.ring_note",
    "Verif.Generator.fm_note",
    "Verif.Generator.unison_peak",
    "Verif.Generator.start_phase_partial",
    "Verif.Generator.phase_message_violated",
    "Verif.Generator.unison_centre_partial",
    "Verif.Generator.unison_centre_violated"
   ],
   "note": "Real numbers, increments below 2^31 periods per frame. Violated: a start phase set by a message is not wrapped, so the first frame reads outside of the tables; unisons of even size are out of tune on average. Noise is not modelled."
  },
  {
   "property": "C130",
   "status": "partial",
   "theorems": [
    "Verif.Memory.buffers_are_values",
    "Verif.Memory.memory_exact",
    "Verif.Memory.nothing_lost",
    "Verif.Memory.resize_wrap_violated"
   ],
   "note": "Proved for every history in which the sizes asked for stay 30 elements under the largest of size_t. Violated above: the sum wraps and the buffer has no memory (sizes that come from negative block sizes). The counters are integers; one thread at a time."
  },
  {
   "property": "C131",
   "status": "partial",
   "theorems": [
    "Verif.Render.block_size_gain_pitch",
    "Verif.Render.block_size_places_partial",
    "Verif.Render.block_size_violated",
    "Verif.Render.block_size_bend_violated"
   ],
   "note": "Notes that start at the beginning of a block while bend and crossfade controllers stand still: gain and pitch for all ways to cut; places in the sample for samples that do not end or loop, when the first two blocks have the same sizes. Violated otherwise: the clock error of C120 depends on the size of the first block, and messages are led from the beginning of the block they arrive in."
  },
  {
   "property": "C132",
   "status": "partial",
   "theorems": [
    "Verif.EgNote.stage_value",
    "Verif.EgNote.note_shape",
    "Verif.EgNote.dynamic_stage_violated"
   ],
   "note": "Proved for envelopes that are not dynamic. With ampeg_dynamic the stages are re-read with the value of the next message (dynamic_stage_violated). Released notes: see C122."
  },
  {
   "property": "C133",
   "status": "partial",
   "theorems": [
    "Verif.FindSample.exact_kept",
    "Verif.FindSample.found_matches",
    "Verif.FindSample.found_iff_partial",
    "Verif.FindSample.slashes_same",
    "Verif.FindSample.two_cases_violated"
   ],
   "note": "Found exactly when a match exists, for file systems in which no directory holds two names that differ by case only; otherwise the search follows the first one only and can miss the sample (two_cases_violated). What is found always matches."
  },
  {
   "property": "C134",
   "status": "partial",
   "theorems": [
    "Verif.Aftertouch.poly_pressure",
    "Verif.Aftertouch.channel_pressure",
    "Verif.Aftertouch.no_pressure",
    "Verif.Aftertouch.reset_pressure_violated"
   ],
   "note": "Proved for all histories with delays that are not negative (exact arithmetic), except that reset of all controllers leaves the pressure as it was (reset_pressure_violated)."
  },
  {
   "property": "C135",
   "status": "partial",
   "theorems": [
    "Verif.Pan.mono_stage",
    "Verif.Pan.stereo_stage",
    "Verif.Pan.mono_centre",
    "Verif.Pan.stereo_default",
    "Verif.Pan.no_buffer_violated",
    "Verif.Pan.neon_power",
    "Verif.Pan.neon_accuracy",
    "Verif.Pan.neon_centre_violated",
    "Verif.Pan.arm_steady_violated"
   ],
   "note": "Every frame is placed by its own setting within half a step of the table; the level in the centre is below one by less than 0.2 per cent (mono) and 0.3 per cent (stereo). Violated in the code: with no free buffer a mono sound is heard on the left only; the vector code for ARM places the centre to the right, and frames outside of its groups of four are placed otherwise than those inside."
  },
  {
   "property": "C136",
   "status": "partial",
   "theorems": [
    "Verif.Clients.jack_message",
    "Verif.Clients.jack_cycles_partial",
    "Verif.Clients.jack_output",
    "Verif.Clients.jack_locked_violated",
    "Verif.Clients.jack_short_violated"
   ],
   "note": "Every valid message is decoded and every frame of every cycle is written. Violated in the code: when another thread holds the lock all messages of the cycle are dropped (a note can hang); an event with too few bytes is read beyond its end."
  },
  {
   "property": "C137",
   "status": "partial",
   "theorems": [
    "Verif.Clients.render_message_partial",
    "Verif.Clients.render_track_partial",
    "Verif.Clients.tail_blocks",
    "Verif.Clients.render_pressure_violated",
    "Verif.Clients.eot_violated",
    "Verif.Clients.zero_block_violated",
    "Verif.Clients.tail_violated",
    "Verif.Sequencer.render_file_partial"
   ],
   "note": "Exact times; one track with delays in seconds, or several tracks with ticks and tempos (C150); messages but pressures. Violated in the code: pressure messages are ignored; with --use-eot the sound ends with the block of the last event, not at the end of the track; blocks of 0 frames never end; a silent block cuts off what follows; a sound that never decays is rendered for ever."
  },
  {
   "property": "C138",
   "status": "partial",
   "theorems": [
    "Verif.Parser.blocks_agree",
    "Verif.Parser.names_proper",
    "Verif.Parser.orphans_warned_partial",
    "Verif.Parser.orphan_data_violated",
    "Verif.Parser.wrong_header_violated"
   ],
   "note": "Blocks and names hold for every text. The warning is missing for base64data outside of all headers (orphan_data_violated). The opcodes after a header that is spelled wrongly go to the block before (wrong_header_violated)."
  },
  {
   "property": "C139",
   "status": "partial",
   "theorems": [
    "Verif.BeatClock.beat_number",
    "Verif.BeatClock.beat_number_robust",
    "Verif.BeatClock.negative_beat_violated"
   ],
   "note": "Exact rationals. Proved for positions that are not negative; before the start of the song the number rounds towards zero, and beat 0 is missed (negative_beat_violated)."
  },
  {
   "property": "C140",
   "status": "partial",
   "theorems": [
    "Verif.Sources.adsr_alone_partial",
    "Verif.Sources.flex_alone",
    "Verif.Sources.lfo_alone",
    "Verif.Sources.run_tuned",
    "Verif.Sources.cancelled_release_violated"
   ],
   "note": "Proved for flex envelopes and LFOs, for ADSR envelopes as long as no release is cancelled. False for an ADSR envelope whose release is cancelled: it goes on with the slope an earlier note left. Exact arithmetic; the numbers an LFO draws belong to its description."
  },
  {
   "property": "C141",
   "status": "partial",
   "theorems": [
    "Verif.Connections.controller_connections",
    "Verif.Connections.far_controllers",
    "Verif.Connections.modulator_connections",
    "Verif.Connections.default_controllers",
    "Verif.Connections.instrument_modulators",
    "Verif.Connections.matrix_connections",
    "Verif.Connections.controller_in_matrix",
    "Verif.Connections.numbers_violated",
    "Verif.Connections.parameter_values",
    "Verif.Connections.single_controller"
   ],
   "note": "Proved for every list of effects of opcodes; the table from opcode names to effects is the subject of C145. Fails for numbers above 256 (numbers_violated): they are kept in 8 bits, so a modulation of filter 257 acts on filter 1."
  },
  {
   "property": "C142",
   "status": "partial",
   "theorems": [
    "Verif.Random.every_number",
    "Verif.Random.begins_again",
    "Verif.Random.random_within",
    "Verif.Random.random_share",
    "Verif.Random.random_phase",
    "Verif.Random.noise_within",
    "Verif.Random.noise_fresh",
    "Verif.Random.gnoise_within",
    "Verif.Random.gnoise_shared_violated"
   ],
   "note": "With binary32 rounding. The distributions of the standard library (lorand/hirand, offset_random, sample-and-hold LFO) are not modelled, nor settings below 2^-90. Violated: the noises of neighbouring gnoise voices share one of their four summands, a frame apart."
  },
  {
   "property": "C143",
   "status": "proved",
   "theorems": [
    "Verif.Shapes.shape_ends",
    "Verif.Shapes.shape_near",
    "Verif.Shapes.shape_monotone",
    "Verif.Shapes.shape_side",
    "Verif.Shapes.shape_of_point",
    "Verif.Shapes.shapes_shared",
    "Verif.Shapes.shapes_cleared"
   ],
   "note": "Over real numbers: the rounding of float and of std::pow is not modelled. The map of shapes is modelled with keys compared as real numbers (no NaN)."
  },
  {
   "property": "C144",
   "status": "partial",
   "theorems": [
    "Verif.Numbers.number_read",
    "Verif.Numbers.number_only",
    "Verif.Numbers.letter_e_violated",
    "Verif.Numbers.integer_read",
    "Verif.Numbers.words_read",
    "Verif.Numbers.boolean_number",
    "Verif.Numbers.boolean_none"
   ],
   "note": "Over the exact number: rounding to float and overflow to infinity are not modelled. absl::SimpleAtof is modelled by its documentation for texts without white space. letter_e_violated: 2em is not read although 2m is 2. Also whole numbers and on/off values."
  },
  {
   "property": "C145",
   "status": "partial",
   "theorems": [
    "Verif.Modulations.controller_opcode",
    "Verif.Modulations.modulator_opcode",
    "Verif.Modulations.modulator_cc_opcode",
    "Verif.Modulations.old_depth_opcode",
    "Verif.Modulations.old_velocity_opcode",
    "Verif.Modulations.old_depth_cc_opcode",
    "Verif.Modulations.old_freq_cc_opcode",
    "Verif.Modulations.old_depth_aftertouch_opcode",
    "Verif.Modulations.old_freq_aftertouch_opcode",
    "Verif.Modulations.cutoff_aftertouch_opcode",
    "Verif.Modulations.setting_cc_opcode",
    "Verif.Modulations.eg_freq_opcode",
    "Verif.Modulations.controller_opcode_only",
    "Verif.Modulations.modulator_opcode_only",
    "Verif.Modulations.region_controller_depth",
    "Verif.Modulations.region_modulator_depth",
    "Verif.Modulations.large_number_violated",
    "Verif.Modulations.eg_freq_order_violated",
    "Verif.Modulations.old_stage_opcode",
    "Verif.Modulations.old_stage_cc_opcode"
   ],
   "note": "Proved for numbers 1 to 256. Violated: numbers over 256 wrap around, and egK_freq_lfoN is ignored when it comes before the opcodes of an LFO with number N-1 or more. Opcodes are recognised by their letters, not by the hash of them. Old spellings are the subject of C78."
  },
  {
   "property": "C146",
   "status": "partial",
   "theorems": [
    "Verif.Loader.group_limits",
    "Verif.Loader.lift_violated",
    "Verif.Loader.region_polyphony_violated",
    "Verif.Loader.group_wrap_violated"
   ],
   "note": "group_limits gives the limit of every group after every load. Violated: a region with polyphony=256 does not lift an earlier limit, polyphony on a region without group limits nothing, group numbers equal modulo 2^32 are one group."
  },
  {
   "property": "C147",
   "status": "partial",
   "theorems": [
    "Verif.Slots.key_slots",
    "Verif.Slots.switch_slots",
    "Verif.Slots.keys_violated",
    "Verif.Slots.controller_slots_partial",
    "Verif.Slots.voice_controller_slots",
    "Verif.Slots.named_controller_slots",
    "Verif.Slots.controllers_violated",
    "Verif.Slots.pedal_slots"
   ],
   "note": "Key and key-switch slots: exact for every file that loads. Controllers: exact for all but the per-voice controllers (131 to 137, 140, 141), and from the text of an opcode with a controller in its name. Violated: a region with hikey=-1, which no key starts, still reports its keys; modulations by per-voice controllers are not reported. Missing: the controllers that regions use otherwise are given as a function of the region, not read from its tables."
  },
  {
   "property": "C148",
   "status": "partial",
   "theorems": [
    "Verif.Slots.changed_this",
    "Verif.Slots.changed_first",
    "Verif.Slots.changed_last",
    "Verif.Slots.changes_told_partial",
    "Verif.Slots.reset_violated",
    "Verif.Slots.message_violated",
    "Verif.Slots.note_violated"
   ],
   "note": "The two sets are exact after any history. That no change goes unreported holds for controllers below 128 without a reset in the block; violated by a reset of all controllers (121), by values set with the message /cc&/value, and for the controllers that notes set."
  },
  {
   "property": "C149",
   "status": "partial",
   "theorems": [
    "Verif.Names.export_well_formed",
    "Verif.Names.controller_names",
    "Verif.Names.key_names_partial",
    "Verif.Names.model_name",
    "Verif.Names.switch_names",
    "Verif.Names.two_names_violated",
    "Verif.Names.control_character_violated",
    "Verif.Names.label_512_violated",
    "Verif.Names.channel_names"
   ],
   "note": "Proved for all names made of characters that XML allows, with a reader of XML written from the recommendation. Violated by the code: a key that has a name and is a named key-switch is listed twice with different names; a name with a control character makes the document ill-formed; label_cc512 makes the export write outside of its bit array. Not modelled: encoding (bytes are taken as characters), the buffer of the writer."
  },
  {
   "property": "C150",
   "status": "partial",
   "theorems": [
    "Verif.Sequencer.tracks_merged_partial",
    "Verif.Sequencer.merged_unique",
    "Verif.Sequencer.render_file_partial",
    "Verif.Sequencer.after_end_violated"
   ],
   "note": "Exact times; tempos above 0; messages but pressures (see C137). Violated in the code: an event after the end of its track is played, and a tempo there takes effect for the other tracks. Reading the file is C151. Not modelled: files of format 2."
  },
  {
   "property": "C151",
   "status": "partial",
   "theorems": [
    "Verif.MidiFile.read_as_written_partial",
    "Verif.MidiFile.read_ends",
    "Verif.MidiFile.bytes_rendered_partial",
    "Verif.MidiFile.sysex_parts_violated",
    "Verif.MidiFile.cut_read_partial",
    "Verif.MidiFile.cut_length_violated",
    "Verif.MidiFile.loose_read_partial",
    "Verif.MidiFile.length_violated",
    "Verif.MidiFile.broken_read_partial",
    "Verif.MidiFile.status_refused",
    "Verif.MidiFile.packed_violated",
    "Verif.MidiFile.header_refused"
   ],
   "note": "Proved for all files of the standard without system messages in parts, from the bytes of the file to the calls of the synthesizer (formats 0 and 1, no pressure messages; see C137, C150), and reading ends for all bytes. Files cut off inside the events of a track are read up to the cut. Loosely written files (bytes around the header, wrong lengths of tracks, repeated ends, events after the end, system messages in parts or several in one, tracks that break off in a time) are read as far as they can be. The code violates the property for system messages in parts, whose times are lost, so that what follows comes too early; for several system messages in one, whose time counts several times, so that what follows comes too late; a file cut off in the length of a track is refused as a whole; and a wrong length that leads to the end of the file or to another track hides tracks."
  },
  {
   "property": "C152",
   "status": "partial",
   "theorems": [
    "Verif.AudioBuffer.table_partial",
    "Verif.AudioBuffer.resize_answer",
    "Verif.AudioBuffer.between_partial",
    "Verif.AudioBuffer.cut_violated",
    "Verif.AudioBuffer.failed_cut_violated",
    "Verif.AudioBuffer.failed_growth_violated",
    "Verif.AudioBuffer.moved_violated",
    "Verif.AudioBuffer.frames_aligned",
    "Verif.AudioBuffer.store_within",
    "Verif.AudioBuffer.file_margins_partial",
    "Verif.AudioBuffer.work_channels"
   ],
   "note": "Proved for all histories in which the buffer is made shorter only when no space is kept after its frames and memory is granted. The code violates the rest: cutting a buffer with space after the frames leaves old samples there, which come back when it grows; a failed cut leaves a channel shorter than its span; a failed growth leaves the channel's end beyond the frames; a moved-from buffer still counts channels."
  },
  {
   "property": "C153",
   "status": "proved",
   "theorems": [
    "Verif.Handles.owners_keep_alive",
    "Verif.Handles.nothing_left"
   ],
   "note": "Counts are numbers without limit and calls come one after another (C111 has the interleavings of the C interface)."
  },
  {
   "property": "C154",
   "status": "partial",
   "theorems": [
    "Verif.Requests.none_forgotten",
    "Verif.Requests.taken_once",
    "Verif.Requests.request_accepted",
    "Verif.Requests.request_refused",
    "Verif.Requests.refused_full",
    "Verif.Requests.bounded",
    "Verif.Requests.never_stuck",
    "Verif.Requests.all_taken",
    "Verif.Requests.own_unique",
    "Verif.Requests.destruction_ends",
    "Verif.Requests.in_order_partial",
    "Verif.Requests.order_violated"
   ],
   "note": "Proved for any number of threads and any capacity, at the level of the single atomic operations of the queue, with sequentially consistent memory and counters that do not wrap. The order holds when one thread makes the requests; with two threads order_violated shows requests taken out of order when one is held up in the middle of a request while the queue goes around once."
  },
  {
   "property": "C155",
   "status": "proved",
   "theorems": [
    "Verif.Workers.begun_in_order",
    "Verif.Workers.done_once",
    "Verif.Workers.no_lost_wakeup",
    "Verif.Workers.all_done",
    "Verif.Workers.own_decreases",
    "Verif.Workers.never_stuck",
    "Verif.Workers.destruction_completes"
   ],
   "note": "Any number of threads. Sections under the mutex are single steps, waking and spurious wakeups are separate steps; a job is a number whose running ends some time. That a thread which can go on does go on is left to the system."
  },
  {
   "property": "C156",
   "status": "partial",
   "theorems": [
    "Verif.Workers.Sharing.one_pool_partial",
    "Verif.Workers.Sharing.locked_read_safe",
    "Verif.Workers.Sharing.creation_race_violated"
   ],
   "note": "Sharing is proved for every interleaving, a read during an assignment giving the old value. The code does have such reads: the first look at the weak pointer is made without the mutex, so creating two synthesizers at the same time is a data race (creation_race_violated); the second look is safe (locked_read_safe)."
  },
  {
   "property": "C157",
   "status": "partial",
   "theorems": [
    "Verif.Preload.only_used",
    "Verif.Preload.load_enough",
    "Verif.Preload.complete_is_complete",
    "Verif.Preload.enough_partial",
    "Verif.Preload.raised_enough_partial",
    "Verif.Preload.reload_violated",
    "Verif.Preload.greatest_size_violated",
    "Verif.Preload.forgotten_complete_violated",
    "Verif.Preload.empty_sample_violated",
    "Verif.Preload.size_as_set",
    "Verif.Preload.ram_as_asked"
   ],
   "note": "Proved for every history: only the samples in use are in memory, enough of each right after every load, and what counts as complete is. With later changes of the preload size there is enough when another instrument was loaded last, or when the size is never lowered; reload_violated shows that after a reload with a greater offset too little is kept. Further violations: the greatest preload size wraps around, the completeness of samples is forgotten when the table of files grows, and an empty sample in RAM mode asks for 2^32-1 frames at a reload. Offsets below 2^31 and preload sizes up to 2^31; files are readable and do not change."
  },
  {
   "property": "C158",
   "status": "partial",
   "theorems": [
    "Verif.Preload.Embedded.other_heard_partial",
    "Verif.Preload.Embedded.again_heard_partial",
    "Verif.Preload.Embedded.edited_violated",
    "Verif.Preload.Embedded.removed_violated",
    "Verif.Preload.Embedded.backwards_violated",
    "Verif.Preload.Embedded.channels_violated"
   ],
   "note": "Proved after loading another instrument, and over any edits of a file whose embedded samples stay the same, for embedded samples of one or two channels played forwards. Violations: an edited embedded sample keeps its old sound at a reload, a removed one still sounds and hides a file of its name, a region playing an embedded sample backwards is dropped, and one with three channels is undefined behaviour. Files do not change; oscillators and silent samples are left out."
  },
  {
   "property": "C159",
   "status": "partial",
   "theorems": [
    "Verif.Engine.cc_triggers_iff_partial",
    "Verif.Engine.cc_triggers_history_partial",
    "Verif.Engine.turns_counted_partial",
    "Verif.Engine.cc_triggers_calls_partial"
   ],
   "note": "For every history without a reset of all controllers, at the turn of each region without sw_up/sw_down and tempo conditions. For controllers below 128 and regions whose random range admits every draw the turns are counted from the calls (turns_counted_partial, cc_triggers_calls_partial); otherwise the number of earlier turns is that of the state."
  }
 ]
}
