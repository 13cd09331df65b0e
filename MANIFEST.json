{
 "claims": [
  {
   "property": "C01",
   "status": "proved",
   "theorems": [
    "Verif.Multiplex.C01_varuint_round_trip",
    "Verif.Multiplex.C01_varuint_documented",
    "Verif.Multiplex.C01_varuint_too_large"
   ],
   "note": ""
  },
  {
   "property": "C02",
   "status": "proved",
   "theorems": [
    "Verif.Multiplex.C02_varuint_safe",
    "Verif.Multiplex.C02_varuint_local"
   ],
   "note": ""
  },
  {
   "property": "C03",
   "status": "proved",
   "theorems": [
    "Verif.Multiplex.C03_sentinel_iff_nonfinite",
    "Verif.Multiplex.C03_clip",
    "Verif.Multiplex.C03_receive",
    "Verif.Multiplex.C03_pack_never_fails"
   ],
   "note": ""
  },
  {
   "property": "C04",
   "status": "proved",
   "theorems": [
    "Verif.Multiplex.C04_odd",
    "Verif.Multiplex.C04_monotone",
    "Verif.Multiplex.C04_error",
    "Verif.Multiplex.C04_decode_error",
    "Verif.Multiplex.C04_sign",
    "Verif.Multiplex.C04_magnitude_refuted",
    "Verif.Multiplex.C04_reencode_refuted"
   ],
   "note": "Two tempting stronger claims are refuted with witnesses: the decoded magnitude can exceed the input by a rounding error, and re-encoding a decoded value can lose one count."
  },
  {
   "property": "C05",
   "status": "proved",
   "theorems": [
    "Verif.Multiplex.C05_block_round_trip",
    "Verif.Multiplex.C05_block_write_documented",
    "Verif.Multiplex.C05_long_block_raises"
   ],
   "note": ""
  },
  {
   "property": "C06",
   "status": "proved",
   "theorems": [
    "Verif.Multiplex.C06_query_exact",
    "Verif.Multiplex.C06_query_increasing",
    "Verif.Multiplex.C06_query_parser_total"
   ],
   "note": ""
  },
  {
   "property": "C07",
   "status": "proved",
   "theorems": [
    "Verif.Multiplex.C07_reply_size_exact",
    "Verif.Commands.C07_read_gpio_refuted"
   ],
   "note": "C07_reply_size_exact covers every query built by the combiner; the fixed size given by make_read_gpio is wrong (refuted with a witness)."
  },
  {
   "property": "C08",
   "status": "proved",
   "theorems": [
    "Verif.Multiplex.C08_leading_padding",
    "Verif.Multiplex.C08_padding_ignored",
    "Verif.Multiplex.C08_padding_command",
    "Verif.Multiplex.C08_query_parser_padding"
   ],
   "note": "C08_query_parser_padding records that the query parser yields None on trailing padding; replies are not affected."
  },
  {
   "property": "C09",
   "status": "proved",
   "theorems": [
    "Verif.Multiplex.C09_reply_parse_total",
    "Verif.Multiplex.C09_reply_parse_stable",
    "Verif.Multiplex.C09_values_fit"
   ],
   "note": ""
  },
  {
   "property": "C10",
   "status": "proved",
   "theorems": [
    "Verif.Commands.C10_last_value",
    "Verif.Commands.C10_concatenation"
   ],
   "note": ""
  },
  {
   "property": "C11",
   "status": "partial",
   "theorems": [
    "Verif.Commands.C11_position_partial",
    "Verif.Commands.C11_ilimit_scale_refuted"
   ],
   "note": "Full statement except the unit of ilimit_scale: the code sends it with the voltage scale, refuted with a witness."
  },
  {
   "property": "C12",
   "status": "partial",
   "theorems": [
    "Verif.Commands.C12_stop",
    "Verif.Commands.C12_brake",
    "Verif.Commands.C12_stay_within",
    "Verif.Commands.C12_vfoc",
    "Verif.Commands.C12_current_partial",
    "Verif.Commands.C12_current_refuted",
    "Verif.Commands.C12_set_output",
    "Verif.Commands.C12_reindex_recapture",
    "Verif.Commands.C12_reindex_query_refuted",
    "Verif.Commands.C12_set_trim",
    "Verif.Commands.C12_aux_pwm",
    "Verif.Commands.C12_write_gpio",
    "Verif.Commands.C12_read_gpio"
   ],
   "note": "make_current swaps the resolutions of d and q and cannot be called with the default resolution; require_reindex / recapture ignore query=True; both refuted with witnesses."
  },
  {
   "property": "C13",
   "status": "proved",
   "theorems": [
    "Verif.Fw.Registers.C13_frame",
    "Verif.Fw.Registers.C13_no_mode",
    "Verif.Fw.Registers.C13_position",
    "Verif.Fw.Registers.C13_stay_within",
    "Verif.Fw.Registers.C13_vfoc",
    "Verif.Fw.Registers.C13_current",
    "Verif.Fw.Registers.C13_stop_brake",
    "Verif.Fw.Registers.C13_idle",
    "Verif.Fw.Registers.C13_second_frame_drops"
   ],
   "note": "Model of the controller's register file, any history of frames. C13_frame is for every frame with a mode write; the others follow the arguments of the library's commands to the controller's command (ilimit_scale and make_current with the restrictions of C11 and C12). The default of the maximum torque is 100 Nm; the reference names a system-wide setting that does not exist. At most one frame is processed per pass of the main loop (fdcan_micro_server.h); MicroServer itself is in mjlib, not in the repository."
  },
  {
   "property": "C14",
   "status": "proved",
   "theorems": [
    "Verif.Commands.C14_query",
    "Verif.Commands.C14_custom_query",
    "Verif.Commands.C14_fields_unique",
    "Verif.Commands.C14_custom_query_empty"
   ],
   "note": ""
  },
  {
   "property": "C15",
   "status": "partial",
   "theorems": [
    "Verif.Can.C15_python_id",
    "Verif.Can.C15_python_source_refuted",
    "Verif.Can.C15_id_unambiguous",
    "Verif.Can.C15_id_range",
    "Verif.Can.C15_cpp_id",
    "Verif.Can.C15_controller_decodes",
    "Verif.Can.C15_reply_decodes",
    "Verif.Can.C15_bootloader_reply_decodes",
    "Verif.Can.C15_bootloader_prefix_refuted",
    "Verif.Can.C15_cpp_reply_matched",
    "Verif.Can.C15_cpp_source_refuted",
    "Verif.Can.C15_extended",
    "Verif.Can.C15_filter_reply",
    "Verif.Can.C15_filter_refuted",
    "Verif.Can.C15_raw_identifier"
   ],
   "note": "Holds for source 0 and for frames that request a reply. Refuted with witnesses: neither client sends a non-zero source, the bootloader replies without the prefix, and standard frames pass the receive filter of any prefix. A controller with the default prefix 0 has no filter at all, see C110."
  },
  {
   "property": "C16",
   "status": "proved",
   "theorems": [
    "Verif.Can.C16_round_trip",
    "Verif.Can.C16_one_token",
    "Verif.Can.C16_injective",
    "Verif.Can.C16_cpp_reads",
    "Verif.Can.C16_bootloader_reads",
    "Verif.Can.C16_address_text",
    "Verif.Can.C16_identifier_text",
    "Verif.Can.C16_received_line",
    "Verif.Can.C16_line_without_flags",
    "Verif.Can.C16_command_line",
    "Verif.Can.C16_python_hex_grammar"
   ],
   "note": ""
  },
  {
   "property": "C17",
   "status": "partial",
   "theorems": [
    "Verif.Can.C17_client_padding",
    "Verif.Can.C17_controller_padding",
    "Verif.Can.C17_tables_agree",
    "Verif.Can.C17_bootloader_padding",
    "Verif.Can.C17_bootloader_refuted",
    "Verif.Can.C17_too_large"
   ],
   "note": "Holds for both clients and the controller; the bootloader pads with zeros (refuted with a witness)."
  },
  {
   "property": "C18",
   "status": "proved",
   "theorems": [
    "Verif.Stream.C18_complete_in_order",
    "Verif.Stream.C18_frames",
    "Verif.Stream.C18_drain",
    "Verif.Stream.C18_channel_range",
    "Verif.Stream.C18_write_limit"
   ],
   "note": ""
  },
  {
   "property": "C19",
   "status": "proved",
   "theorems": [
    "Verif.Stream.C19_refines_byte_stream",
    "Verif.Stream.C19_chunk_invariant",
    "Verif.Stream.C19_read_exact",
    "Verif.Stream.C19_nonblocking_depends",
    "Verif.Stream.C19_read_zero_blocks"
   ],
   "note": "Blocking operations. The non-blocking read is chunk dependent by design (witness); read(0) blocks until a byte arrives (witness)."
  },
  {
   "property": "C20",
   "status": "proved",
   "theorems": [
    "Verif.Stream.C20_accepted_iff",
    "Verif.Stream.C20_round_trip",
    "Verif.Stream.C20_other_frames",
    "Verif.Stream.C20_read_request"
   ],
   "note": ""
  },
  {
   "property": "C21",
   "status": "proved",
   "theorems": [
    "Verif.Flash.C21_blocks_cover",
    "Verif.Flash.C21_empty_section_refuted",
    "Verif.Flash.C21_empty_image_refuted"
   ],
   "note": "For images whose sections are non empty, sorted and disjoint (what the ELF reader produces for such files); an empty section or an empty image give an invalid block (witnesses)."
  },
  {
   "property": "C22",
   "status": "proved",
   "theorems": [
    "Verif.Flash.C22_upload_stores",
    "Verif.Flash.C22_verified",
    "Verif.Flash.C22_upload_succeeds",
    "Verif.Flash.C22_padding_needed",
    "Verif.Flash.C22_full_region_refuted",
    "Verif.Flash.C22_gap_in_last_word_refuted",
    "Verif.Flash.C22_next_sector_refuted",
    "Verif.Flash.C22_first_word_fill",
    "Verif.Flash.C22_gaps_erased",
    "Verif.Flash.C22_clean_forever"
   ],
   "note": "The stated property holds for every hardware that reports its errors. Proved limits: padding must be writable, so an image that fills the region below the bootloader cannot be uploaded; a gap at the start of the last word fails verification; the sector after an image that ends with a sector is erased."
  },
  {
   "property": "C23",
   "status": "proved",
   "theorems": [
    "Verif.Flash.C23_frames_safe",
    "Verif.Flash.C23_protected",
    "Verif.Flash.C23_commands_safe",
    "Verif.Flash.C23_locked",
    "Verif.Flash.C23_command_buffer",
    "Verif.Flash.C23_next_line_as_data"
   ],
   "note": "C23_next_line_as_data records that a write without data takes the next line as data; it stays inside the writable region."
  },
  {
   "property": "C24",
   "status": "proved",
   "theorems": [
    "Verif.Flash.C24_same_distance",
    "Verif.Flash.C24_error_iff",
    "Verif.Flash.C24_disjoint",
    "Verif.Flash.C24_sections"
   ],
   "note": ""
  },
  {
   "property": "C25",
   "status": "proved",
   "theorems": [
    "Verif.Tool.C25_expand",
    "Verif.Tool.C25_expand_any",
    "Verif.Tool.C25_empty_field",
    "Verif.Tool.C25_negative",
    "Verif.Tool.C25_number_grammar"
   ],
   "note": "C25_empty_field and C25_negative record that an empty field is an error and that negative ids are not accepted as a field."
  },
  {
   "property": "C26",
   "status": "proved",
   "theorems": [
    "Verif.Tool.C26_injective",
    "Verif.Tool.C26_form",
    "Verif.Tool.C26_value"
   ],
   "note": ""
  },
  {
   "property": "C27",
   "status": "partial",
   "theorems": [
    "Verif.Tool.C27_identity",
    "Verif.Tool.C27_untouched",
    "Verif.Tool.C27_round_trip_010a",
    "Verif.Tool.C27_volts_double",
    "Verif.Tool.C27_power_refuted",
    "Verif.Tool.C27_bemf_partial",
    "Verif.Tool.C27_bemf_refuted",
    "Verif.Tool.C27_sign_refuted",
    "Verif.Tool.C27_poll_refuted",
    "Verif.Tool.C27_feedforward_partial",
    "Verif.Tool.C27_feedforward_refuted",
    "Verif.Tool.C27_pwm_0104",
    "Verif.Tool.C27_pwm_refuted",
    "Verif.Tool.C27_offset_0105",
    "Verif.Tool.C27_offset_refuted",
    "Verif.Tool.C27_pwm_rate_refuted",
    "Verif.Tool.C27_offsets_exact",
    "Verif.Tool.C27_offsets_upgrade",
    "Verif.Tool.C27_offsets_refuted",
    "Verif.Tool.C27_compensation",
    "Verif.Tool.C27_poll_values",
    "Verif.Tool.C27_filter_values",
    "Verif.Tool.C27_aux_encoder"
   ],
   "note": "Identity and untouched settings for every configuration and version pair. Round trips proved for 0x010a (exact, and the volts setting in doubles), 0x0104/0x0105 offset, 0x0109 tables (within 1/127) and offsets. Refuted with witnesses: power limit 450, back EMF 0, output sign, I2C poll rate, feedforward, PWM scale, PWM rate, position offset in doubles, configuration without offsets."
  },
  {
   "property": "C28",
   "status": "partial",
   "theorems": [
    "Verif.Telemetry.C28_value",
    "Verif.Telemetry.C28_bool_byte",
    "Verif.Telemetry.C28_map_last",
    "Verif.Telemetry.C28_unambiguous",
    "Verif.Telemetry.C28_schema",
    "Verif.Telemetry.C28_round_trip",
    "Verif.Telemetry.C28_time",
    "Verif.Telemetry.C28_time_refuted",
    "Verif.Telemetry.C28_object_flags_refuted",
    "Verif.Telemetry.C28_varint_refuted",
    "Verif.Telemetry.C28_escape_refuted"
   ],
   "note": "Holds for every schema and value of the format except the witnesses: flags of an object are replaced by those of the terminating field, signed varints cannot be read, names that collide after the escape of keywords are refused, times above 2^53 microseconds are not told apart. The encoder of the firmware (mjlib, not in the repository) is represented by the format relations Spec.Schema and Spec.Enc."
  },
  {
   "property": "C29",
   "status": "partial",
   "theorems": [
    "Verif.Telemetry.C29_total",
    "Verif.Telemetry.C29_prefix_partial",
    "Verif.Telemetry.C29_value_prefix_partial",
    "Verif.Telemetry.C29_short_string_refuted"
   ],
   "note": "Termination and consumption of a prefix hold for every input; dependence on the prefix only holds whenever something follows, and is violated by a short string at the end of the input (witness)."
  },
  {
   "property": "C30",
   "status": "partial",
   "theorems": [
    "Verif.Fw.C30_latched_partial",
    "Verif.Fw.C30_code_partial",
    "Verif.Fw.C30_cleared",
    "Verif.Fw.C30_code_refuted",
    "Verif.Fw.C30_race_refuted",
    "Verif.Fw.C30_no_code_refuted",
    "Verif.Fw.C30_stopped_refuted"
   ],
   "note": "Proved for every interleaving of interrupt and main loop in which the main loop is not at the end of the gate driver's enable sequence, with commands that are not refused. Refuted with witnesses: a refused command overwrites the code; the end of the enable sequence overwrites the fault; a fault without a code."
  },
  {
   "property": "C31",
   "status": "partial",
   "theorems": [
    "Verif.Fw.C31_fault_cycle_partial",
    "Verif.Fw.C31_stopped_cycle_partial",
    "Verif.Fw.C31_fault_stays_off",
    "Verif.Fw.C31_quiet_partial",
    "Verif.Fw.C31_cooldown_refuted",
    "Verif.Fw.C31_fault_refuted",
    "Verif.Fw.C31_race_refuted"
   ],
   "note": "Stopped: proved after the cooldown. Fault: proved for every cycle that begins in fault, and for those that enter it except through named control faults. Enabling, calibrating, complete: proved for every run from reset where the interrupt does not come inside a main loop call. Refuted with witnesses: cooldown drives the motor in stopped mode; a fault raised while controlling leaves the phases driven for one cycle; a race leaves them driven through the whole calibration."
  },
  {
   "property": "C32",
   "status": "partial",
   "theorems": [
    "Verif.Fw.C32_calibrated_partial",
    "Verif.Fw.C32_driver_partial",
    "Verif.Fw.C32_between_partial",
    "Verif.Fw.C32_race_refuted",
    "Verif.Fw.C32_config_refuted"
   ],
   "note": "Proved for every run from reset where the interrupt does not come inside a main loop call. Refuted with two witnesses where it does: the motor is driven with the gate driver disabled, and with a gate driver without configuration."
  },
  {
   "property": "C33",
   "status": "partial",
   "theorems": [
    "Verif.Fw.C33_expires_exact",
    "Verif.Fw.C33_expires_partial",
    "Verif.Fw.C33_no_return",
    "Verif.Fw.C33_long_refuted",
    "Verif.Fw.C33_infinite_refuted",
    "Verif.Fw.C33_disabled"
   ],
   "note": "Exact arithmetic: proved as stated. Binary32: proved with half a unit in the last place of the timeout taken off the period. Refuted with witnesses: a timeout of 2048 s at 30 kHz and an infinite one never expire."
  },
  {
   "property": "C34",
   "status": "partial",
   "theorems": [
    "Verif.Fw.C34_obeyed_partial",
    "Verif.Fw.C34_internal_modes",
    "Verif.Fw.C34_at_rest",
    "Verif.Fw.C34_handed_on",
    "Verif.Fw.C34_cooldown_refuted",
    "Verif.Fw.C34_assertion_refuted"
   ],
   "note": "Proved for every state and interleaving when the current can be controlled during the cooldown. Refuted with witnesses: a fault in the cooldown; mode 16 is accepted and halts the controller."
  },
  {
   "property": "C35",
   "status": "partial",
   "theorems": [
    "Verif.Fw.C35_bounds_partial",
    "Verif.Fw.C35_stops_at_bound",
    "Verif.Fw.C35_upper",
    "Verif.Fw.C35_lower",
    "Verif.Fw.C35_stop_refuted",
    "Verif.Fw.C35_truncation_refuted"
   ],
   "note": "Proved for every history and every arithmetic up to the position resolution of 2^-16 turns. Refuted with witnesses: a stop position outside of the bounds is applied after the bounds (control position 10 with a maximum of 1); a positive minimum is truncated toward zero."
  },
  {
   "property": "C36",
   "status": "partial",
   "theorems": [
    "Verif.Fw.C36_velocity_limit_partial",
    "Verif.Fw.C36_acceleration_partial",
    "Verif.Fw.C36_acceleration_rounded_partial",
    "Verif.Fw.C36_overspeed_partial",
    "Verif.Fw.C36_completion_refuted",
    "Verif.Fw.C36_bound_refuted",
    "Verif.Fw.C36_rounding_refuted",
    "Verif.Fw.C36_velocity_slip_refuted",
    "Verif.Fw.C36_large_acceleration_refuted"
   ],
   "note": "Velocity limit: invariant over any run, in any arithmetic, when a cycle of acceleration is at most twice the limit and there is no velocity slip limit; both conditions are necessary (witnesses). Acceleration: at most acceleration times period in exact arithmetic except in the completing cycle (1.5 times, witness) and at position bounds (witness); twice in binary32 through rounding (witness). Above the velocity limit each cycle slows down by one step until the limit (exact arithmetic)."
  },
  {
   "property": "C37",
   "status": "partial",
   "theorems": [
    "Verif.Fw.C37_no_limits",
    "Verif.Fw.C37_velocity",
    "Verif.Fw.C37_position_partial",
    "Verif.Fw.C37_stays",
    "Verif.Fw.C37_velocity_reached",
    "Verif.Fw.C37_position_refuted",
    "Verif.Fw.C37_stall_refuted"
   ],
   "note": "Velocity equality proved in any arithmetic; position exact without limits, and within a stated distance otherwise; equality of the position refuted with a witness. C37_stall_refuted: in binary32 a small acceleration never changes the velocity."
  },
  {
   "property": "C38",
   "status": "partial",
   "theorems": [
    "Verif.Fw.C38_follows_partial",
    "Verif.Fw.C38_exact_turn_partial",
    "Verif.Fw.C38_output_follows",
    "Verif.Fw.C38_velocity",
    "Verif.Fw.C38_lost",
    "Verif.Fw.C38_half_turn_refuted",
    "Verif.Fw.C38_gear_drift_refuted"
   ],
   "note": "For every sequence of readings, every cpr up to 2^24, ratios between 1/4096 and 64, both signs, in binary32 or exact arithmetic: no drift when the encoder moves at most a quarter of a turn (less 2^-15 output turns) per sample. Refuted with witnesses: a motion of 0.26 turns is counted as 0.74 the other way; with a ratio of 0.1 the output position drifts without bound because a turn is truncated to 2^-24."
  },
  {
   "property": "C39",
   "status": "partial",
   "theorems": [
    "Verif.Fw.C39_nearest_partial",
    "Verif.Fw.C39_reference_partial",
    "Verif.Fw.C39_before_request_partial",
    "Verif.Fw.C39_moves_by_turns_partial",
    "Verif.Fw.C39_honoured",
    "Verif.Fw.C39_truncation_refuted",
    "Verif.Fw.C39_rotor_turns_refuted",
    "Verif.Fw.C39_request_ignored_refuted",
    "Verif.Fw.C39_overflow_refuted"
   ],
   "note": "For every reading, offset, request up to 16384 turns: nearest, up to an explicit multiple of the rounding error (zero in exact arithmetic) and the resolution of 2^-16 turns. Refuted with witnesses: not exactly whole turns (truncation to 2^-16); only whole rotor turns without a reference; request ignored when only the reference is absolute; saturates at 32768 turns."
  },
  {
   "property": "C40",
   "status": "partial",
   "theorems": [
    "Verif.Fw.C40_band_proper",
    "Verif.Fw.C40_band_partial",
    "Verif.Fw.C40_registers",
    "Verif.Fw.C40_phase_order",
    "Verif.Fw.C40_balanced",
    "Verif.Fw.C40_balanced_rounded",
    "Verif.Fw.C40_nan_refuted",
    "Verif.Fw.C40_zero_bus_refuted"
   ],
   "note": "Band proved for every rate configuration, arithmetic and duty cycle except NaN, which passes the limit (witnesses: NaN, and 0 V at a bus voltage of 0 V). Balanced differences: exact in exact arithmetic, up to 2^-23 in binary32."
  },
  {
   "property": "C41",
   "status": "partial",
   "theorems": [
    "Verif.Fw.C41_integral_limit",
    "Verif.Fw.C41_integral_limit_run",
    "Verif.Fw.C41_integral_rate",
    "Verif.Fw.C41_set_point",
    "Verif.Fw.C41_set_point_used",
    "Verif.Fw.C41_first_set_point",
    "Verif.Fw.C41_exact",
    "Verif.Fw.C41_scale_zero",
    "Verif.Fw.C41_nan_forever",
    "Verif.Fw.C41_nan_refuted",
    "Verif.Fw.C41_rate_refuted_when_scale_shrinks",
    "Verif.Fw.C41_set_point_nan_refuted",
    "Verif.Fw.C41_simple_pi_refuted",
    "Verif.Fw.C41_output_exact",
    "Verif.Fw.C41_pi_exact"
   ],
   "note": "Limit, rate and set point bounds hold in every arithmetic with monotone rounding (single precision and exact). Refuted with witnesses: a NaN error makes the integral NaN until Clear, a NaN set point switches the rate limit off for one call, the rate bound needs the old integral to be within the limit of the call, SimplePI has no integral limit."
  },
  {
   "property": "C42",
   "status": "partial",
   "theorems": [
    "Verif.Fw.Torque.C42_odd",
    "Verif.Fw.Torque.C42_strictly_increasing",
    "Verif.Fw.Torque.C42_ideal_partial",
    "Verif.Fw.Torque.C42_round_trip",
    "Verif.Fw.Torque.C42_continuous_refuted",
    "Verif.Fw.Torque.C42_back_not_increasing_refuted",
    "Verif.Fw.Torque.C42_inverse_refuted"
   ],
   "note": "Full statement with the exact logarithm; with the polynomial approximations of the code (exact arithmetic) it is odd, strictly increasing and inverse within 0.1 percent; continuity, monotony of the way back and exact inverse are refuted. Rounding is not modelled."
  },
  {
   "property": "C43",
   "status": "proved",
   "theorems": [
    "Verif.Fw.Clock.C43_bounded",
    "Verif.Fw.Clock.C43_zero_restores",
    "Verif.Fw.Clock.C43_exact",
    "Verif.Fw.Clock.C43_overflow_refuted"
   ],
   "note": "C43_overflow_refuted records the int32 overflow for a configured trim near 2^31."
  },
  {
   "property": "C44",
   "status": "proved",
   "theorems": [
    "Verif.Fw.Registers.C44_foreign",
    "Verif.Fw.Registers.C44_matching",
    "Verif.Fw.Registers.C44_late_mask",
    "Verif.Fw.Registers.C44_mask_bytes"
   ],
   "note": "For every history before, every frame content and every future. C44_late_mask: a mask further back in the frame does not undo what was done before it."
  },
  {
   "property": "C45",
   "status": "proved",
   "theorems": [
    "Verif.Tool.C45_calls",
    "Verif.Tool.C45_count",
    "Verif.Tool.C45_exactly_once",
    "Verif.Tool.C45_unlisted",
    "Verif.Tool.C45_replies",
    "Verif.Tool.C45_error"
   ],
   "note": "Router.cycle only; Router.write / Router.read of the pinned commit cannot run and are not part of the property."
  },
  {
   "property": "C46",
   "status": "partial",
   "theorems": [
    "Verif.Cxx.C46_query",
    "Verif.Cxx.C46_stop",
    "Verif.Cxx.C46_brake",
    "Verif.Cxx.C46_position_partial",
    "Verif.Cxx.C46_stay_within",
    "Verif.Cxx.C46_current",
    "Verif.Cxx.C46_vfoc_partial",
    "Verif.Cxx.C46_output_nearest",
    "Verif.Cxx.C46_output_exact",
    "Verif.Cxx.C46_triggers_partial",
    "Verif.Cxx.C46_clock_trim",
    "Verif.Cxx.C46_write_gpio_partial",
    "Verif.Cxx.C46_aux_pwm_partial",
    "Verif.Cxx.C46_diagnostic_write",
    "Verif.Cxx.C46_diagnostic_read",
    "Verif.Cxx.C46_ilimit_scale_refuted",
    "Verif.Cxx.C46_vfoc_zero_rate_refuted",
    "Verif.Cxx.C46_triggers_refuted",
    "Verif.Cxx.C46_write_gpio_refuted",
    "Verif.Cxx.C46_aux_pwm_refuted",
    "Verif.Cxx.C46_read_gpio_refuted",
    "Verif.Cxx.C46_too_large_refuted",
    "Verif.Cxx.C46_far_registers_refuted"
   ],
   "note": "Simulation between models of both libraries, builder by builder, for every parameter subset, resolution and value that both can express. Eight differences between the libraries are proved."
  },
  {
   "property": "C47",
   "status": "partial",
   "theorems": [
    "Verif.Fw.Registers.C47_command_unit",
    "Verif.Fw.Registers.C47_reply_unit",
    "Verif.Fw.Registers.C47_replies_partial",
    "Verif.Fw.Registers.C47_integers",
    "Verif.Fw.Registers.C47_counter",
    "Verif.Fw.Registers.C47_negative_int32_refuted",
    "Verif.Fw.Registers.C47_command_registers_refuted",
    "Verif.Fw.Registers.C47_ilimit_scale_refuted"
   ],
   "note": "Every scale of the controller against the documented unit, in both directions, for every value, with single precision rounding. Refuted with witnesses: large negative values at INT32 are read as NaN; the client does not scale the command registers when it reads them; ilimit_scale."
  },
  {
   "property": "C48",
   "status": "proved",
   "theorems": [
    "Verif.Tool.C48_returns",
    "Verif.Tool.C48_polling",
    "Verif.Tool.C48_keyError",
    "Verif.Tool.C48_first",
    "Verif.Tool.C48_query"
   ],
   "note": ""
  },
  {
   "property": "C49",
   "status": "proved",
   "theorems": [
    "Verif.Fw.StreamWriter.C49_bytes",
    "Verif.Fw.StreamWriter.C49_assert"
   ],
   "note": "The file is an asynchronous double buffered writer; the property is read as: bytes stay inside of the buffers, nothing already written is disturbed, and the sent bytes are exactly the written ones. Callbacks that write again while being called are excluded here."
  },
  {
   "property": "C50",
   "status": "partial",
   "theorems": [
    "Verif.Calib.C50_wrap_uint16",
    "Verif.Calib.C50_wrap_int16",
    "Verif.Calib.C50_wrap_angle_exact",
    "Verif.Calib.C50_wrap_angle_unique",
    "Verif.Calib.C50_wrap_angle_float_partial",
    "Verif.Calib.C50_wrap_angle_refuted",
    "Verif.Calib.C50_unwrap_exact",
    "Verif.Calib.C50_unwrap_float"
   ],
   "note": "Integer wraps and unwrap in full, angle wrap exactly over the rationals and with double rounding for bounded angles; in doubles the loop does not terminate for huge angles (refuted with 2^57)."
  },
  {
   "property": "C51",
   "status": "proved",
   "theorems": [
    "Verif.Stream.C51_serial_chunk_invariant"
   ],
   "note": ""
  },
  {
   "property": "C52",
   "status": "proved",
   "theorems": [
    "Verif.Stream.C52_replies_in_order",
    "Verif.Stream.C52_lost_synchronization"
   ],
   "note": ""
  },
  {
   "property": "C53",
   "status": "partial",
   "theorems": [
    "Verif.Flash.C53_buffers_partial",
    "Verif.Flash.C53_error_buffer_refuted"
   ],
   "note": "The error code of a failed write is printed with 9 bytes into a buffer of 5."
  },
  {
   "property": "C54",
   "status": "proved",
   "theorems": [
    "Verif.Calib.C54_linspace_exact",
    "Verif.Calib.C54_linspace_float",
    "Verif.Calib.C54_interpolate",
    "Verif.Calib.C54_piecewise_unique",
    "Verif.Calib.C54_piecewise_bounds",
    "Verif.Calib.C54_unordered_refuted"
   ],
   "note": "Interpolation over exact rationals, grid also with double rounding."
  },
  {
   "property": "C55",
   "status": "proved",
   "theorems": [
    "Verif.Calib.C55_window",
    "Verif.Calib.C55_mean",
    "Verif.Calib.C55_bounds",
    "Verif.Calib.C55_small_window"
   ],
   "note": "Over exact rationals."
  },
  {
   "property": "C56",
   "status": "proved",
   "theorems": [
    "Verif.Calib.C56_travel",
    "Verif.Calib.C56_poles",
    "Verif.Calib.C56_no_error",
    "Verif.Calib.C56_inverted"
   ],
   "note": "First part of calibrate, with double rounding of the ratio."
  },
  {
   "property": "C57",
   "status": "proved",
   "theorems": [
    "Verif.Calib.C57_table",
    "Verif.Calib.C57_hall",
    "Verif.Calib.C57_refused"
   ],
   "note": ""
  },
  {
   "property": "C58",
   "status": "partial",
   "theorems": [
    "Verif.Fw.StreamWriter.C58_callbacks",
    "Verif.Fw.StreamWriter.C58_empty_write_refuted",
    "Verif.Fw.StreamWriter.C58_reentrant_refuted"
   ],
   "note": "Holds when callbacks do not write while they are being called. Refuted with witnesses: a callback that writes three times has its last callback called early; the callback of an empty write waits for a later write."
  },
  {
   "property": "C59",
   "status": "partial",
   "theorems": [
    "Verif.Fw.Registers.C59_set_output",
    "Verif.Fw.Registers.C59_reindex_recapture",
    "Verif.Fw.Registers.C59_set_trim_partial",
    "Verif.Fw.Registers.C59_set_trim_refuted",
    "Verif.Fw.Registers.C59_write_gpio",
    "Verif.Fw.Registers.C59_aux_pwm"
   ],
   "note": "Refuted for the clock trim: the library sends 32 bits, the controller keeps 8 (200 becomes -56)."
  },
  {
   "property": "C60",
   "status": "partial",
   "theorems": [
    "Verif.Fw.Registers.C60_gpio",
    "Verif.Fw.Registers.C60_encoder_validity_partial",
    "Verif.Fw.Registers.C60_encoder_validity_refuted"
   ],
   "note": "GPIO proved. The encoder validity register uses two bits per encoder instead of the documented one, and the last one is lost."
  },
  {
   "property": "C61",
   "status": "partial",
   "theorems": [
    "Verif.Cxx.C61_frame_size",
    "Verif.Cxx.C61_no_overrun_partial",
    "Verif.Cxx.C61_overrun_refuted"
   ],
   "note": "Holds for every frame that is returned, and without a default query or with an override. Refuted: MakeFrame copies the default query behind a nearly full frame with no check."
  },
  {
   "property": "C62",
   "status": "partial",
   "theorems": [
    "Verif.Cxx.C62_stop_brake_partial",
    "Verif.Cxx.C62_position_partial",
    "Verif.Cxx.C62_stay_within_partial",
    "Verif.Cxx.C62_output_partial",
    "Verif.Cxx.C62_unanswered_refuted",
    "Verif.Cxx.C62_reply_size_refuted"
   ],
   "note": "Holds for the mode commands; refuted for MakeGpioRead and MakeSchemaVersionQuery with either setting of default_query."
  },
  {
   "property": "C63",
   "status": "partial",
   "theorems": [
    "Verif.Fw.C63_absolute_partial",
    "Verif.Fw.C63_repeated",
    "Verif.Fw.C63_offset_refuted"
   ],
   "note": "Proved for every sample, offset and sign if the counts per revolution divide 2^32 (all encoders of known resolution) or the sum is not below minus one revolution. Refuted otherwise with a witness: 10000 counts, offset 2, sign -1, reading 9999 is reported as 7295 instead of 9999."
  },
  {
   "property": "C64",
   "status": "partial",
   "theorems": [
    "Verif.Fw.C64_software",
    "Verif.Fw.C64_missed_step",
    "Verif.Fw.C64_timer",
    "Verif.Fw.C64_source",
    "Verif.Fw.C64_index",
    "Verif.Fw.C64_absolute_after_index",
    "Verif.Fw.C64_follows_partial",
    "Verif.Fw.C64_start_refuted"
   ],
   "note": "Proved over every path of the shaft, from the pins to the source, if the state of the pins is known at the start. Refuted: the pins are taken to be low at the start, so an encoder at rest with other levels counts a step or an error at its first edge."
  },
  {
   "property": "C65",
   "status": "partial",
   "theorems": [
    "Verif.Fw.C65_sample",
    "Verif.Fw.C65_sector_partial",
    "Verif.Fw.C65_follows_partial",
    "Verif.Fw.C65_errors_never_counted",
    "Verif.Fw.C65_error_refuted",
    "Verif.Fw.C65_invalid_refuted",
    "Verif.Fw.C65_polarity_refuted",
    "Verif.Fw.C65_offset_refuted"
   ],
   "note": "Proved for offsets of at least -10 (sign 1) or at most 5 (sign -1). Refuted with witnesses: the error counter can never count (precedence of ?:), impossible states are taken for sector 0, a polarity above 7 reads outside of the table, offset 6 with sign -1 miscounts."
  },
  {
   "property": "C66",
   "status": "partial",
   "theorems": [
    "Verif.Fw.C66_fresh",
    "Verif.Fw.C66_port_error",
    "Verif.Fw.C66_valid_until_timeout",
    "Verif.Fw.C66_timeout_exact",
    "Verif.Fw.C66_timeout_partial",
    "Verif.Fw.C66_index_partial",
    "Verif.Fw.C66_long_timeout_refuted",
    "Verif.Fw.C66_absolute_refuted",
    "Verif.Fw.C66_index_refuted"
   ],
   "note": "An exact characterisation for every arithmetic and run without new samples; in binary32 up to the relative error of the clock. Refuted: timeouts of 1024 s or more never expire above 16 kHz; active_absolute is set again one cycle after the timeout; an index source (homing switch) is never valid after the timeout has passed once since the start."
  },
  {
   "property": "C67",
   "status": "partial",
   "theorems": [
    "Verif.Fw.C67_unfiltered",
    "Verif.Fw.C67_velocity_limit",
    "Verif.Fw.C67_converges",
    "Verif.Fw.C67_from_start",
    "Verif.Fw.C67_fast_refuted"
   ],
   "note": "Unfiltered position in binary32. Convergence in exact arithmetic, for encoders without compensation table, for every bandwidth with w dt up to 0.63 (the limit of the firmware for UART and I2C is 2 pi / 10). Refuted for SPI encoders, where the bandwidth is not limited: with w dt = 1 an error of one count grows to a quarter of a revolution."
  },
  {
   "property": "C68",
   "status": "partial",
   "theorems": [
    "Verif.Fw.C68_current",
    "Verif.Fw.C68_valid_partial",
    "Verif.Fw.C68_reindex",
    "Verif.Fw.C68_angle",
    "Verif.Fw.C68_angle_exact",
    "Verif.Fw.C68_continuous",
    "Verif.Fw.C68_frozen_refuted",
    "Verif.Fw.C68_error_refuted"
   ],
   "note": "The angle in full (any arithmetic with the stated rounding, with explicit error; no jump at the wrap). Validity proved when one source is used for commutation and output. Refuted with witnesses: with two encoders the angle stays valid with its old value after the commutation encoder timed out; after a port error it stays valid too, and current mode keeps driving."
  },
  {
   "property": "C69",
   "status": "partial",
   "theorems": [
    "Verif.Fw.C69_accepted",
    "Verif.Fw.C69_accepts",
    "Verif.Fw.C69_stable",
    "Verif.Fw.C69_kept",
    "Verif.Fw.C69_error_iff",
    "Verif.Fw.C69_defined_partial",
    "Verif.Fw.C69_calibrated",
    "Verif.Fw.C69_direction",
    "Verif.Fw.C69_filter",
    "Verif.Fw.C69_reference_refuted",
    "Verif.Fw.C69_i2c_refuted",
    "Verif.Fw.C69_ratio_refuted",
    "Verif.Fw.C69_phase_refuted",
    "Verif.Fw.C69_poles_refuted",
    "Verif.Fw.C69_cpr_refuted",
    "Verif.Fw.C69_rate_refuted"
   ],
   "note": "Accepted exactly if as described by an independent predicate, idempotent, choices kept; an accepted rotor encoder with finite table satisfies the hypotheses of C68; the direction is the sign the user set and the filter has two equal poles at 2\u03c0 times the bandwidth (exact arithmetic). Refuted with witnesses: reference source 3 and I2C device 3 read past an array; ratio 0, NaN phases, odd poles with an indexed quadrature encoder, cpr 0 and negative poll times are accepted."
  },
  {
   "property": "C70",
   "status": "partial",
   "theorems": [
    "Verif.Fw.C70_completes_partial",
    "Verif.Fw.C70_any_velocity_partial",
    "Verif.Fw.C70_endless_refuted",
    "Verif.Fw.C70_oscillates",
    "Verif.Fw.C70_overspeed_refuted"
   ],
   "note": "Proved in exact arithmetic for every start and distance (below 32767 turns) when one cycle of acceleration moves at most 1/64 of the distance resolution of 2^-16 turns (accelerations up to 53 turns/s^2 at 15 kHz) and at least the resolution of the position, and the velocity limit is at least one velocity step; the start velocity is arbitrary. Refuted beyond, in binary32 at 15 kHz: with acceleration 1054.7 and velocity limit 0.246 a motion of 9 resolution steps oscillates around the target forever; with a velocity limit below half a velocity step the velocity alternates above the limit forever."
  },
  {
   "property": "C71",
   "status": "proved",
   "theorems": [
    "Verif.Fw.C71_position",
    "Verif.Fw.C71_with_bounds",
    "Verif.Fw.C71_velocity",
    "Verif.Fw.C71_bounds_first",
    "Verif.Fw.C71_stop_first",
    "Verif.Fw.C71_resolution"
   ],
   "note": "For every state, command and measured value. Position in any arithmetic; the slip is rounded down to a multiple of 2^-16 turns. Velocity up to the rounding of one addition (exactly in exact arithmetic). Position bounds and stop position come after the slip limit (witnesses): with the measured position within the bounds both hold."
  },
  {
   "property": "C72",
   "status": "partial",
   "theorems": [
    "Verif.Session.C72_complete",
    "Verif.Session.C72_sweep_partial",
    "Verif.Session.C72_abort_refuted"
   ],
   "note": "Every execution against an arbitrary controller. Completed calibrations leave the motor off; whatever happens, an acknowledged stop follows a sweep of the encoder calibration, or an unacknowledged one is the last command. Refuted for other failures with a witness: `--cal-ll-kv-voltage 24` ends in an AssertionError with 18 V applied and the lower position limit NaN."
  },
  {
   "property": "C73",
   "status": "proved",
   "theorems": [
    "Verif.Session.C73_saved_off",
    "Verif.Session.C73_last",
    "Verif.Session.C73_complete_saves",
    "Verif.Session.C73_limits",
    "Verif.Session.C73_sign",
    "Verif.Session.C73_no_update"
   ],
   "note": "Every execution against an arbitrary controller."
  },
  {
   "property": "C74",
   "status": "partial",
   "theorems": [
    "Verif.Session.C74_kv_voltage_partial",
    "Verif.Session.C74_encoder_voltage_refuted",
    "Verif.Session.C74_power_refuted",
    "Verif.Session.C74_voltage_refuted",
    "Verif.Session.C74_speed_refuted"
   ],
   "note": "`--cal-kv-voltage` has exactly the executions of its replacement. Refuted for all executions: with `--cal-ll-encoder-voltage`, `--cal-power`, `--cal-voltage` or `--cal-speed` no calibration completes."
  },
  {
   "property": "C75",
   "status": "proved",
   "theorems": [
    "Verif.Session.C75_resistance",
    "Verif.Session.C75_voltages"
   ],
   "note": "Exact arithmetic; the error is at most R / (400 V) for a highest voltage V. Every controller; the number of steps is at most N + 1 with 0.01 * 1.1^N above 0.4 of the supply."
  },
  {
   "property": "C76",
   "status": "proved",
   "theorems": [
    "Verif.Session.C76_least_squares",
    "Verif.Session.C76_defined",
    "Verif.Session.C76_kv",
    "Verif.Session.C76_voltages"
   ],
   "note": "Exact arithmetic. Firmware from 0x010a on (which stores Kv); a voltage given with `--cal-ll-kv-voltage` must be at least 20 mV."
  },
  {
   "property": "C77",
   "status": "partial",
   "theorems": [
    "Verif.Fw.C77_limits_partial",
    "Verif.Fw.C77_period",
    "Verif.Fw.C77_found",
    "Verif.Fw.C77_hold_partial",
    "Verif.Fw.C77_setup_refuted",
    "Verif.Fw.C77_edges_ignored",
    "Verif.Fw.C77_hold_refuted"
   ],
   "note": "Refuted: the rise and fall times of the input are ignored, so the set-up time is too short by the rise time; the hold time is rounded down and can be too short for prescalers above 2."
  },
  {
   "property": "C78",
   "status": "partial",
   "theorems": [
    "Verif.Fw.C78_interval",
    "Verif.Fw.C78_asks_again",
    "Verif.Fw.C78_answers",
    "Verif.Fw.C78_used",
    "Verif.Fw.C78_cui_position",
    "Verif.Fw.C78_cui_errors",
    "Verif.Fw.C78_cui_single_error",
    "Verif.Fw.C78_aksim",
    "Verif.Fw.C78_poll_zero",
    "Verif.Fw.C78_late_refuted"
   ],
   "note": "Refuted: the late end of an answer is taken for the beginning of the next, and a position is reported that the encoder never had."
  },
  {
   "property": "C79",
   "status": "partial",
   "theorems": [
    "Verif.Aio.C79_size",
    "Verif.Aio.C79_once",
    "Verif.Aio.C79_nothing_lost_partial",
    "Verif.Aio.C79_order_partial",
    "Verif.Aio.C79_stream_partial",
    "Verif.Aio.C79_no_deadlock",
    "Verif.Aio.C79_write_partial",
    "Verif.Aio.C79_cancel_refuted",
    "Verif.Aio.C79_overlap_refuted",
    "Verif.Aio.C79_end_refuted",
    "Verif.Aio.C79_drain_refuted"
   ],
   "note": "Proved for calls that follow each other and are cancelled at most before the worker starts for them. Refuted: a call cancelled later loses bytes, a cancelled `drain` loses data, overlapping calls with `block` interleave, a call with `block` at the end of the file runs in a circle."
  },
  {
   "property": "C80",
   "status": "partial",
   "theorems": [
    "Verif.Fw.IcPz.C80_exclusive",
    "Verif.Fw.IcPz.C80_no_deadlock",
    "Verif.Fw.IcPz.C80_position",
    "Verif.Fw.IcPz.C80_frames",
    "Verif.Fw.IcPz.C80_signed",
    "Verif.Fw.IcPz.C80_read_partial",
    "Verif.Fw.IcPz.C80_write_partial",
    "Verif.Fw.IcPz.C80_read_refuted",
    "Verif.Fw.IcPz.C80_write_refuted",
    "Verif.Fw.IcPz.C80_diagnosis_refuted"
   ],
   "note": "Refuted: `ic-rd` with a size of 13 to 15 and `ic-wr` with 14 or 15 bytes fail an assertion that stops the controller, a negative size clears memory; `dig` is never set. The CRC of an answer is not checked by the code."
  },
  {
   "property": "C81",
   "status": "partial",
   "theorems": [
    "Verif.Fw.I2cEncoders.C81_free",
    "Verif.Fw.I2cEncoders.C81_settings",
    "Verif.Fw.I2cEncoders.C81_value",
    "Verif.Fw.I2cEncoders.C81_accounts",
    "Verif.Fw.I2cEncoders.C81_interval",
    "Verif.Fw.I2cEncoders.C81_ends_partial",
    "Verif.Fw.I2cEncoders.C81_written_once",
    "Verif.Fw.I2cEncoders.C81_hang_refuted",
    "Verif.Fw.I2cEncoders.C81_settings_refuted",
    "Verif.Fw.I2cEncoders.C81_starved_refuted"
   ],
   "note": "Values, accounting and intervals for every behaviour of the hardware. Refuted: without progress of the hardware a transfer never ends and nothing is counted; the settings of an AS5600 that does not acknowledge are never written and no error is counted; a device with a short interval starves those after it."
  },
  {
   "property": "C82",
   "status": "partial",
   "theorems": [
    "Verif.Fw.Foc.C82_command",
    "Verif.Fw.Foc.C82_phases",
    "Verif.Fw.Foc.C82_components",
    "Verif.Fw.Foc.C82_terminals",
    "Verif.Fw.Foc.C82_measured",
    "Verif.Fw.Foc.C82_round_trip",
    "Verif.Fw.Foc.C82_line_voltage",
    "Verif.Fw.Foc.C82_angle",
    "Verif.Fw.Foc.C82_fits_partial",
    "Verif.Fw.Foc.C82_command_refuted",
    "Verif.Fw.Foc.C82_half_turn_refuted"
   ],
   "note": "Any arithmetic with relative error up to 2^-24, binary32 in particular, against real sines and cosines; the error of the CORDIC unit is a parameter. Refuted: voltage mode limits the components one by one, so that the duty cycles are limited and the vector is bent; at half a turn the conversion of the angle to int32_t is out of range."
  },
  {
   "property": "C83",
   "status": "partial",
   "theorems": [
    "Verif.Fw.Current.C83_applied",
    "Verif.Fw.Current.C83_limit_range",
    "Verif.Fw.Current.C83_current",
    "Verif.Fw.Current.C83_unknown_temperature",
    "Verif.Fw.Current.C83_velocity",
    "Verif.Fw.Current.C83_unknown_velocity",
    "Verif.Fw.Current.C83_upper_bound",
    "Verif.Fw.Current.C83_lower_bound",
    "Verif.Fw.Current.C83_power_partial",
    "Verif.Fw.Current.C83_currents_partial",
    "Verif.Fw.Current.C83_temperature_partial",
    "Verif.Fw.Current.C83_cooler_partial",
    "Verif.Fw.Current.C83_voltage",
    "Verif.Fw.Current.C83_reaches_motor",
    "Verif.Fw.Current.C83_integral",
    "Verif.Fw.Current.C83_motor_refuted",
    "Verif.Fw.Current.C83_fet_refuted",
    "Verif.Fw.Current.C83_power_refuted",
    "Verif.Fw.Current.C83_nan_stays_refuted",
    "Verif.Fw.Current.C83_voltage_mode_refuted"
   ],
   "note": "Limits of current, velocity, bounds, voltage vector and integrals hold for any IEEE-like arithmetic (binary32 in particular); power and temperature are computed in exact arithmetic (partial). Refuted: with a motor temperature sensor only the cooler of motor and power stage limits the current; the power limit divides by the voltage of the last cycle, which gives NaN for 0, and once NaN every later cycle is NaN."
  },
  {
   "property": "C84",
   "status": "partial",
   "theorems": [
    "Verif.Fw.Modes.C84_position_torque",
    "Verif.Fw.Modes.C84_stay_torque",
    "Verif.Fw.Modes.C84_zero_torque",
    "Verif.Fw.Modes.C84_timeout",
    "Verif.Fw.Modes.C84_faults",
    "Verif.Fw.Modes.C84_flux_brake_off",
    "Verif.Fw.Modes.C84_flux_brake",
    "Verif.Fw.Modes.C84_unconfigured",
    "Verif.Fw.Modes.C84_zero_brakes",
    "Verif.Fw.Modes.C84_stay_inside",
    "Verif.Fw.Modes.C84_stay_outside",
    "Verif.Fw.Modes.C84_stay_bound",
    "Verif.Fw.Modes.C84_exact",
    "Verif.Fw.Modes.C84_cogging_in_range",
    "Verif.Fw.Modes.C84_cogging_exact",
    "Verif.Fw.Modes.C84_nan_limit_refuted",
    "Verif.Fw.Modes.C84_negative_limit_refuted",
    "Verif.Fw.Modes.C84_zero_limit_refuted",
    "Verif.Fw.Modes.C84_zero_first_cycle_refuted",
    "Verif.Fw.Modes.C84_kd_scale_refuted",
    "Verif.Fw.Modes.C84_timeout_hold_refuted",
    "Verif.Fw.Modes.C84_fixed_voltage_refuted"
   ],
   "note": "Proved for limits that are not negative; zero velocity from its second cycle on. Refuted: a NaN maximum torque is no limit and a negative one forces torque; the maximum torque of `d zero` is ignored; the first cycle of zero velocity mode may accelerate; the kd scale is not limited to the kp scale; timeout mode 10 has a limit of 100 Nm; fixed voltage mode does not limit the voltage."
  },
  {
   "property": "C85",
   "status": "partial",
   "theorems": [
    "Verif.Fw.Prep.C85_timeout",
    "Verif.Fw.Prep.C85_limits",
    "Verif.Fw.Prep.C85_same_limits",
    "Verif.Fw.Prep.C85_velocity",
    "Verif.Fw.Prep.C85_towards_stop",
    "Verif.Fw.Prep.C85_position",
    "Verif.Fw.Prep.C85_position_fits",
    "Verif.Fw.Prep.C85_max_velocity_partial",
    "Verif.Fw.Buffer.C85_buffer",
    "Verif.Fw.Prep.C85_negative_default_refuted",
    "Verif.Fw.Prep.C85_nan_maximum_refuted",
    "Verif.Fw.Prep.C85_no_limit_refuted",
    "Verif.Fw.Prep.C85_at_stop_refuted",
    "Verif.Fw.Prep.C85_position_overflow_refuted"
   ],
   "note": "The maximum velocity holds for commands with any limit, without `max_velocity_slip`, and for accelerations up to the maximum velocity per cycle. Refuted: a negative default velocity limit turns a velocity of 0 into motion; a maximum velocity of NaN removes the limits; at the stop position the direction is always negative; position and offset together can overflow 64 bits."
  },
  {
   "property": "C86",
   "status": "partial",
   "theorems": [
    "Verif.Fw.Measure.C86_filter_restarts",
    "Verif.Fw.Measure.C86_filter_range",
    "Verif.Fw.Measure.C86_filter_converges",
    "Verif.Fw.Measure.C86_gains",
    "Verif.Fw.Measure.C86_time_constant_partial",
    "Verif.Fw.Measure.C86_time_constant_refuted",
    "Verif.Fw.Measure.C86_filter_bounded",
    "Verif.Fw.Measure.C86_filter_stalls_refuted",
    "Verif.Fw.Measure.C86_filter_infinite_refuted",
    "Verif.Fw.Measure.C86_current_sign",
    "Verif.Fw.Measure.C86_current_partial",
    "Verif.Fw.Measure.C86_sensable_partial",
    "Verif.Fw.Measure.C86_negative_shunt_refuted",
    "Verif.Fw.Measure.C86_nan_current_refuted",
    "Verif.Fw.Measure.C86_profile_partial",
    "Verif.Fw.Measure.C86_documented",
    "Verif.Fw.Measure.C86_board_range",
    "Verif.Fw.Measure.C86_max_power",
    "Verif.Fw.Measure.C86_negative_power_refuted",
    "Verif.Fw.Measure.C86_motor_velocity",
    "Verif.Fw.Measure.C86_motor_velocity_value_partial",
    "Verif.Fw.Measure.C86_negative_kv_refuted",
    "Verif.Fw.Measure.C86_thermistor_index",
    "Verif.Fw.Measure.C86_thermistor_table",
    "Verif.Fw.Measure.C86_thermistor_increases",
    "Verif.Fw.Measure.C86_thermistor_error",
    "Verif.Fw.Measure.C86_thermistor_top",
    "Verif.Fw.Measure.C86_thermistor_1k_refuted"
   ],
   "note": "Values of currents, power and velocity in exact arithmetic, thermistors over the reals. Refuted: the slow voltage filter stops before it reaches a constant input (24.0286 V for 24 V at 30 kHz), and never forgets an infinite sample; above 30 kHz the time constants of all filters are doubled; negative or NaN configuration values give negative or no limits; with a 1 k\u03a9 motor thermistor no reading reaches 72 \u00b0C."
  },
  {
   "property": "C87",
   "status": "partial",
   "theorems": [
    "Verif.Fw.TestModes.C87_voltage_vector",
    "Verif.Fw.TestModes.C87_angle_advances",
    "Verif.Fw.TestModes.C87_rotation_refuted",
    "Verif.Fw.TestModes.C87_square_wave",
    "Verif.Fw.TestModes.C87_square_symmetric",
    "Verif.Fw.TestModes.C87_wave_partial",
    "Verif.Fw.TestModes.C87_integral_partial",
    "Verif.Fw.TestModes.C87_inductance_voltage",
    "Verif.Fw.TestModes.C87_period_range",
    "Verif.Fw.TestModes.C87_period_refuted",
    "Verif.Fw.TestModes.C87_debug"
   ],
   "note": "The integral in exact arithmetic. Refuted: the angle is a float that is never wrapped, so at 1 rad/s the vector turns 1.8 times too fast between 512 and 1024 rad and stops at 1024 rad; `d ind` accepts a period of 300 and uses 44."
  },
  {
   "property": "C88",
   "status": "partial",
   "theorems": [
    "Verif.Fw.Cal.C88_silent",
    "Verif.Fw.Cal.C88_ends",
    "Verif.Fw.Cal.C88_timeout",
    "Verif.Fw.Cal.C88_max_time",
    "Verif.Fw.Cal.C88_done",
    "Verif.Fw.Cal.C88_report",
    "Verif.Fw.Cal.C88_order",
    "Verif.Fw.Cal.C88_angle",
    "Verif.Fw.Cal.C88_commands",
    "Verif.Fw.Cal.C88_fits",
    "Verif.Fw.Cal.C88_malformed_refuted",
    "Verif.Fw.Cal.C88_stop_refuted",
    "Verif.Fw.Cal.C88_direction_refuted",
    "Verif.Fw.Cal.C88_zero_speed_refuted"
   ],
   "note": "Reports fit while the currents are below 1000 A. Refuted: `d cal` with a magnitude that is no number replies with an error but begins, with the voltage of the calibration before; stopping the servo by another command does not end the calibration, the next tick applies the voltage again; with speed 0 and a motor that stands still it never ends; two turns in the same direction count as there and back."
  },
  {
   "property": "C89",
   "status": "proved",
   "theorems": [
    "Verif.Session.Act.C89_lines",
    "Verif.Session.Act.C89_write_config",
    "Verif.Session.Act.C89_restore",
    "Verif.Session.Act.C89_refused",
    "Verif.Session.Act.C89_dump_restore",
    "Verif.Session.Act.C89_dump"
   ],
   "note": "`C89_dump_restore` is about lines without comment sign, carriage return or other special whitespace, as the controller prints them."
  },
  {
   "property": "C90",
   "status": "partial",
   "theorems": [
    "Verif.Session.Act.C90_flash_active",
    "Verif.Session.Act.C90_flash_plain",
    "Verif.Session.Act.C90_flash",
    "Verif.Session.Act.C90_offset",
    "Verif.Session.Act.C90_calibration",
    "Verif.Session.Act.C90_calibration_serial",
    "Verif.Session.Act.C90_search",
    "Verif.Session.Act.C90_search_finds",
    "Verif.Session.Act.C90_stop",
    "Verif.Session.Act.C90_calibration_message_refuted",
    "Verif.Session.Act.C90_search_refuted",
    "Verif.Session.Act.C90_prefix_refuted",
    "Verif.Session.Act.C90_stop_refuted",
    "Verif.Session.Act.C90_offset_zero_refuted"
   ],
   "note": "Refuted: the search never asks identifier 127 and ignores --can-prefix; if one target does not answer, --stop does not stop those after it; --set-offset 0 is taken for no action; with the report of another controller KeyError is raised instead of the message."
  },
  {
   "property": "C91",
   "status": "partial",
   "theorems": [
    "Verif.Fw.Aux.C91_safe_partial",
    "Verif.Fw.Aux.C91_possible",
    "Verif.Fw.Aux.C91_sampled",
    "Verif.Fw.Aux.C91_started",
    "Verif.Fw.Aux.C91_levels",
    "Verif.Fw.Aux.C91_error_stays_partial",
    "Verif.Fw.Aux.C91_refused_nothing",
    "Verif.Fw.Aux.C91_epoch",
    "Verif.Fw.Aux.C91_first_level_partial",
    "Verif.Fw.Aux.C91_debug_partial",
    "Verif.Fw.Aux.C91_reset_race_partial",
    "Verif.Fw.Aux.C91_hall_count_refuted",
    "Verif.Fw.Aux.C91_hall_missing_refuted",
    "Verif.Fw.Aux.C91_hall_polarity_refuted",
    "Verif.Fw.Aux.C91_error_erased_refuted",
    "Verif.Fw.Aux.C91_error_none_refuted",
    "Verif.Fw.Aux.C91_missing_pin_refuted",
    "Verif.Fw.Aux.C91_first_level_refuted",
    "Verif.Fw.Aux.C91_debug_refuted",
    "Verif.Fw.Aux.C91_change_race_refuted",
    "Verif.Fw.Aux.C91_reset_race_refuted"
   ],
   "note": "`C91_safe_partial` is about configurations with three hall pins that exist, or without hall sensors, an SPI and UART mode that exist, and interrupts not in the middle of a change. Refuted otherwise: fewer hall pins or a polarity above 7 make the next interrupt use a missing sensor or leave the table; a hall pin that the port lacks stops the controller; starting the SPI encoder erases an error reported before, after which nothing is sampled and no error is shown; a pin that the port lacks can be a digital input without error; an output with a pull direction starts high; the debug UART of a refused configuration is used; an interrupt between the change of a value and the call of `HandleConfigUpdate`, or within its first lines, uses a missing driver."
  },
  {
   "property": "C92",
   "status": "partial",
   "theorems": [
    "Verif.Fw.Adc.C92_own",
    "Verif.Fw.Adc.C92_stops",
    "Verif.Fw.Adc.C92_converters_fit",
    "Verif.Fw.Adc.C92_readings",
    "Verif.Fw.Adc.C92_analog",
    "Verif.Fw.Sc.C92_angle",
    "Verif.Fw.Adc.C92_sensor",
    "Verif.Fw.Adc.C92_refused_refuted"
   ],
   "note": "Refuted: after a refused configuration the converters still store at the pins of the previous one, because `config_update` is not called."
  },
  {
   "property": "C93",
   "status": "partial",
   "theorems": [
    "Verif.Fw.PinIrq.C93_served",
    "Verif.Fw.PinIrq.C93_calls",
    "Verif.Fw.PinIrq.C93_idle",
    "Verif.Fw.PinIrq.C93_make",
    "Verif.Fw.PinIrq.C93_release",
    "Verif.Fw.PinIrq.C93_ports",
    "Verif.Fw.PinIrq.C93_ports_served",
    "Verif.Fw.PinIrq.C93_early_refuted",
    "Verif.Fw.PinIrq.C93_torn_refuted",
    "Verif.Fw.PinIrq.C93_fourth_refuted",
    "Verif.Fw.PinIrq.C93_any_pins_refuted"
   ],
   "note": "Refuted: the callback may come before the owner has its object (empty optional); an entry that is being filled is called with argument 0; software quadrature with index on both ports needs a fourth entry and increments through a null pointer; the documentation allows any pins, but two pins with the same number cannot both have interrupts."
  },
  {
   "property": "C94",
   "status": "partial",
   "theorems": [
    "Verif.Fw.AuxPwm.C94_duty",
    "Verif.Fw.AuxPwm.C94_boards",
    "Verif.Fw.AuxPwm.C94_full_refuted",
    "Verif.Fw.AuxPwm.C94_nan_refuted",
    "Verif.Fw.AuxPwm.C94_long_refuted",
    "Verif.Fw.AuxPwm.C94_negative_refuted",
    "Verif.Fw.AuxPwm.C94_shared_refuted",
    "Verif.Fw.AuxPwm.C94_stuck_refuted",
    "Verif.Fw.AuxPwm.C94_restart_refuted"
   ],
   "note": "`C94_duty` is about periods below 2^32 clocks, pins that share no channel, values that are no NaN, and after the timers have begun anew. Refuted without: with a period of 771 \u00b5s a value of 1 is low for two clocks per period (the compare register saturates at 65535); NaN turns the output fully on; 26 s become 0.74 s; -400 \u00b5s divides by zero; pins 0 and 3 of the first port are accepted together but share a channel; a stopped timer leaves its pin driven, possibly high for ever; the counter is not reset, so a shorter period of TIM2 can begin with 25 s without output."
  },
  {
   "property": "C95",
   "status": "partial",
   "theorems": [
    "Verif.Fw.Open.C95_applied",
    "Verif.Fw.Open.C95_source",
    "Verif.Fw.Open.C95_blind",
    "Verif.Fw.Open.C95_engaged",
    "Verif.Fw.Open.C95_angle",
    "Verif.Fw.Open.C95_reported_partial",
    "Verif.Fw.Open.C95_timeout",
    "Verif.Fw.Open.C95_reported_refuted",
    "Verif.Fw.Open.C95_first_refuted",
    "Verif.Fw.Open.C95_start_refuted",
    "Verif.Fw.Open.C95_timeout_refuted",
    "Verif.Fw.Open.C95_stop_refuted",
    "Verif.Fw.Open.C95_fixed_current_refuted",
    "Verif.Fw.Open.C95_coarse_refuted"
   ],
   "note": "Refuted: after the output position has been set the reported position lacks the offset; in the first cycle the angle is computed from an empty optional; the first control position is that of the encoder although the documentation says the encoder is not used at all; after a timeout with an override the default action controls torque with the synthetic angle; stopping (cooldown) without a valid encoder angle ends in a fault, and so does every fixed current command; at 30000 turns the angle of a motor with 14 poles moves in steps of more than 2 electrical degrees."
  },
  {
   "property": "C96",
   "status": "partial",
   "theorems": [
    "Verif.Tool.CanDecode.C96_bytes",
    "Verif.Tool.CanDecode.C96_shown_partial",
    "Verif.Tool.CanDecode.C96_sound",
    "Verif.Tool.CanDecode.C96_unknown_refuted",
    "Verif.Tool.CanDecode.C96_unit_refuted",
    "Verif.Tool.CanDecode.C96_unscaled_refuted",
    "Verif.Tool.CanDecode.C96_cut_refuted"
   ],
   "note": "`C96_shown_partial` is about registers named in `moteus.Register` and, for integers, registers that the tool knows the unit of. Refuted without: a write of the documented register 0x02c ends the tool with a ValueError (`format_reg` catches TypeError); integers in 28 registers, such as the upper bound of stay within, are shown without unit; a diagnostic stream that was cut is shown without exception."
  },
  {
   "property": "C97",
   "status": "partial",
   "theorems": [
    "Verif.Fw.Hist.C97_accepts",
    "Verif.Fw.Hist.C97_options",
    "Verif.Fw.Hist.C97_quantity",
    "Verif.Fw.Hist.C97_gathers",
    "Verif.Fw.Hist.C97_mean",
    "Verif.Fw.Hist.C97_bin",
    "Verif.Fw.Hist.C97_rate",
    "Verif.Fw.Hist.C97_rate_plain",
    "Verif.Fw.Hist.C97_channel_refuted",
    "Verif.Fw.Hist.C97_stale_refuted",
    "Verif.Fw.Hist.C97_refused_refuted",
    "Verif.Fw.Hist.C97_limits_refuted"
   ],
   "note": "The mean is exact in exact arithmetic and within 1/127 of the largest value with rounding; a point within 1/8192 of the border of a bin may fall into the neighbour. Refuted: the digits 3 to 9 are accepted and read behind the end of the arrays; `d hend` before the first millisecond reports the histogram before, divided by the counts once more; a refused `d hstart` clears a running histogram and changes its sources; x values below 0 or above 1 are moved to 0 or 1 and counted."
  },
  {
   "property": "C98",
   "status": "partial",
   "theorems": [
    "Verif.Tool.Cogging.C98_windows",
    "Verif.Tool.Cogging.C98_average_partial",
    "Verif.Tool.Cogging.C98_fits",
    "Verif.Tool.Cogging.C98_applied",
    "Verif.Tool.Cogging.C98_place_refuted",
    "Verif.Tool.Cogging.C98_short_refuted",
    "Verif.Tool.Cogging.C98_zero_refuted",
    "Verif.Tool.Cogging.C98_limits_partial",
    "Verif.Tool.Cogging.C98_limits_refuted",
    "Verif.Tool.Cogging.C98_encoder_refuted"
   ],
   "note": "`C98_average_partial` is about at least 1024 bins, `C98_limits_partial` about histograms without empty bins. Refuted: the mean of a window is applied at its beginning instead of its middle; fewer than 8 splits, and a motor without cogging, end in a division by zero; an empty bin ends the program with the limits of the position removed, and the next call that succeeds saves that; the currents are gathered over encoder 0 whatever the source of commutation."
  },
  {
   "property": "C99",
   "status": "partial",
   "theorems": [
    "Verif.Tool.EncoderComp.C99_inertial",
    "Verif.Tool.EncoderComp.C99_reference",
    "Verif.Tool.EncoderComp.C99_reference_partial",
    "Verif.Tool.EncoderComp.C99_fits",
    "Verif.Tool.EncoderComp.C99_applied",
    "Verif.Tool.EncoderComp.C99_update",
    "Verif.Tool.EncoderComp.C99_reference_refuted",
    "Verif.Tool.EncoderComp.C99_zero_refuted"
   ],
   "note": "`C99_reference_partial` is about differences of the readings that, taken from 0 to 1, are less than half a turn apart. Refuted without: two encoders that agree to one hundredth of a turn give deviations of 49 hundredths, because the mean of numbers around 0 and 1 is a half; an encoder without deviation ends in a division by zero."
  },
  {
   "property": "C100",
   "status": "partial",
   "theorems": [
    "Verif.Fw.Gate.C100_settings_partial",
    "Verif.Fw.Gate.C100_limit_partial",
    "Verif.Fw.Gate.C100_gain_partial",
    "Verif.Fw.Gate.C100_verified",
    "Verif.Fw.Gate.C100_enabled",
    "Verif.Fw.Gate.C100_enables",
    "Verif.Fw.Gate.C100_fault",
    "Verif.Fw.Gate.C100_polled",
    "Verif.Fw.Gate.C100_sink_refuted",
    "Verif.Fw.Gate.C100_gain_refuted",
    "Verif.Fw.Gate.C100_old_gain_refuted",
    "Verif.Fw.Gate.C100_stale_refuted",
    "Verif.Fw.Gate.C100_race_refuted",
    "Verif.Fw.Gate.C100_early_refuted"
   ],
   "note": "`C100_settings_partial` is about all settings but the turn off current of the lower transistors of a DRV8353, `C100_gain_partial` about the gains 5, 10, 20, 40. Refuted: `idriven_ls_ma` is looked up in the table of `idrivep` on boards with a DRV8353, so the default of 200 mA becomes 600 mA, and on revision 7 the limit of 100 mA becomes 200 mA; a gain of 30 makes the chip amplify by 40 and the controller compute with 30; a changed gain reaches the computation only with the next update of the servo's configuration; on revision 3 a fault of the past is reported again after stopping and enabling; a stop during the set up of the registers followed by a command at once leaves the chip enabled with its reset values and no fault; a configuration in the first millisecond after enabling is a fault."
  },
  {
   "property": "C101",
   "status": "partial",
   "theorems": [
    "Verif.Cxx.Serial.C101_line",
    "Verif.Cxx.Serial.C101_flush",
    "Verif.Cxx.Serial.C101_sent",
    "Verif.Cxx.Serial.C101_lines_partial",
    "Verif.Cxx.Serial.C101_buffer",
    "Verif.Cxx.Serial.C101_received",
    "Verif.Cxx.Serial.C101_sane",
    "Verif.Cxx.Serial.C101_noise_refuted",
    "Verif.Cxx.Serial.C101_empty_refuted",
    "Verif.Cxx.Serial.C101_long_refuted"
   ],
   "note": "`C101_lines_partial` is about lines of less than 4096 characters, `C101_received` about frames with data. Refuted without: a frame without data is dropped; the rest of a line that is too long is taken for a line; an identifier that is no number, or too large, throws in the thread of the transport and so ends the program; a byte that is no number becomes 255; an odd number of digits is accepted."
  },
  {
   "property": "C102",
   "status": "partial",
   "theorems": [
    "Verif.Cxx.Cycle.C102_cycle_partial",
    "Verif.Cxx.Cycle.C102_sent_partial",
    "Verif.Cxx.Cycle.C102_answered",
    "Verif.Cxx.Cycle.C102_silent",
    "Verif.Cxx.Cycle.C102_result",
    "Verif.Cxx.Cycle.C102_stale_refuted",
    "Verif.Cxx.Cycle.C102_busy_refuted",
    "Verif.Cxx.Cycle.C102_gone_refuted",
    "Verif.Cxx.Cycle.C102_pipeline_refuted",
    "Verif.Cxx.Cycle.C102_socket_refuted"
   ],
   "note": "The `_partial` theorems exclude `max_pipeline` 0, with which a cycle does not end. Refuted: the frames that are read while the input is emptied are put into `replies`, so a late reply to the command before is the result of the next, even if the controller does not answer; every frame of others prolongs this emptying by 5 ms, so with foreign traffic every 4 ms nothing is ever sent; once the device is gone (`read` gives 0) neither loop ends; on a socket OKs are counted per received frame, so a command without reply delays a cycle by 5 ms."
  },
  {
   "property": "C103",
   "status": "partial",
   "theorems": [
    "Verif.Cxx.Diag.C103_written",
    "Verif.Cxx.Diag.C103_output_partial",
    "Verif.Cxx.Diag.C103_line_partial",
    "Verif.Cxx.Diag.C103_timeout",
    "Verif.Cxx.Diag.C103_absent_refuted",
    "Verif.Cxx.Diag.C103_error_refuted",
    "Verif.Cxx.Diag.C103_left_refuted"
   ],
   "note": "The `_partial` theorems exclude five empty texts in a row before the result. Refuted: empty replies are counted, missing ones not, so if the controller does not answer the command never ends, however many reads there were; the error of the callback is ignored and only OK is looked for, so a refused command returns the empty text like one that succeeds without output; text that is left from the command before, even only the line feed after its OK, is taken for the result."
  },
  {
   "property": "C104",
   "status": "partial",
   "theorems": [
    "Verif.Cxx.Replies.C104_total",
    "Verif.Cxx.Replies.C104_prefix",
    "Verif.Cxx.Replies.C104_frames",
    "Verif.Cxx.Replies.C104_fields",
    "Verif.Cxx.Replies.C104_units_partial",
    "Verif.Cxx.Replies.C104_ints_partial",
    "Verif.Cxx.Replies.C104_register_refuted",
    "Verif.Cxx.Replies.C104_unit_refuted",
    "Verif.Cxx.Replies.C104_marker_refuted",
    "Verif.Cxx.Replies.C104_extra_refuted"
   ],
   "note": "`C104_units_partial` is about all scaled registers but 0x018, 0x01e, 0x02b, 0x02c, `C104_ints_partial` about integers other than the smallest of their type. Refuted: 0x02b (I limit scale), 0x02c (fixed current) and 0x01e are missing in the table and read as integers, so 0.5 becomes 0 as a float and 16383 as `int16`; 0x018 is in radians except as a float; the smallest integer is NaN, and for a UUID word the conversion of NaN to `int`, which is undefined; register 65537 is taken for register 1; the 17th register without a member is dropped."
  },
  {
   "property": "C105",
   "status": "partial",
   "theorems": [
    "Verif.Tool.Tview.C105_accept",
    "Verif.Tool.Tview.C105_cut",
    "Verif.Tool.Tview.C105_stream",
    "Verif.Tool.Tview.C105_writes",
    "Verif.Tool.Tview.C105_recover",
    "Verif.Tool.Tview.C105_prompt_refuted",
    "Verif.Tool.Tview.C105_refused_refuted",
    "Verif.Tool.Tview.C105_stale_refuted",
    "Verif.Tool.Tview.C105_inflight_refuted",
    "Verif.Tool.Tview.C105_lost_refuted",
    "Verif.Tool.Tview.C105_old",
    "Verif.Tool.Tview.C105_name",
    "Verif.Tool.Tview.C105_ended_refuted"
   ],
   "note": "`C105_stream` is about a controller that answers as it should from the first command on, without lost messages; `C105_old` about one that refuses `conf list` and answers `conf enumerate`. Refuted: a controller that refuses `tel list` is not shown any more; after an empty line `readline` waits for the next message, so the second of two lines in a message is delayed until then; the test for ERR in `read_data` cannot be reached, so a refused `conf data` waits for ever; an OK that comes late is taken for the answer to `conf list`, and the groups of the configuration for channels; a record in flight when a command is sent is read as lines; if the message with the size of a record is lost the size is taken from other data and whole records are swallowed."
  },
  {
   "property": "C106",
   "status": "partial",
   "theorems": [
    "Verif.Tool.TviewConsole.C106_script",
    "Verif.Tool.TviewConsole.C106_devices",
    "Verif.Tool.TviewConsole.C106_query",
    "Verif.Tool.TviewConsole.C106_polled",
    "Verif.Tool.TviewConsole.C106_silent",
    "Verif.Tool.TviewConsole.C106_dispatch",
    "Verif.Tool.TviewConsole.C106_edit",
    "Verif.Tool.TviewConsole.C106_plot_partial",
    "Verif.Tool.TviewConsole.C106_history",
    "Verif.Tool.TviewConsole.C106_unknown_refuted",
    "Verif.Tool.TviewConsole.C106_typo_refuted",
    "Verif.Tool.TviewConsole.C106_prefix_refuted",
    "Verif.Tool.TviewConsole.C106_plot_refuted"
   ],
   "note": "`C106_plot_partial` allows two points before the window. `C106_query` counts the times that records are handled; whether the controller had executed the command when it sent them is not modelled. Refuted: a text for or a question about an unknown device does nothing without a message; a mistyped step is sent to the first controller; prefix and destination of an identifier are ignored, so messages of devices with another prefix and replies to another host are taken; a plot can keep two points before its window."
  },
  {
   "property": "C107",
   "status": "partial",
   "theorems": [
    "Verif.Fw.ConfigFlash.C107_saved",
    "Verif.Fw.ConfigFlash.C107_region",
    "Verif.Fw.ConfigFlash.C107_locked",
    "Verif.Fw.ConfigFlash.C107_twice_refuted",
    "Verif.Fw.ConfigFlash.C107_back_refuted",
    "Verif.Fw.ConfigFlash.C107_pause_refuted",
    "Verif.Fw.ConfigFlash.C107_again_refuted"
   ],
   "note": "`C107_saved` is about orders that program no address twice and do not return to an earlier word. Refuted without: programming a byte twice within a word stores the bitwise or of both; a return to an earlier word, a pause (lock) within a word and a byte that was programmed before are lost without a sign, because the result of `HAL_FLASH_Program` is ignored. The caller (mjlib's PersistentConfig) is not in the repository."
  },
  {
   "property": "C108",
   "status": "partial",
   "theorems": [
    "Verif.Fw.Ma732.C108_set",
    "Verif.Fw.Ma732.C108_reported",
    "Verif.Fw.Ma732.C108_filter600",
    "Verif.Fw.Ma732.C108_again",
    "Verif.Fw.Ma732.C108_absent",
    "Verif.Fw.Ma732.C108_filter_partial",
    "Verif.Fw.Ma732.C108_filter_refuted",
    "Verif.Fw.Ma732.C108_trim_refuted",
    "Verif.Fw.Ma732.C108_absent_refuted"
   ],
   "note": "`C108_filter_partial` is about windows up to 128 and above 512 us, `C108_absent` about the MA732. Refuted without: a window of 256 us is set as 512 us and one of 512 us as 1024 us, although both have a register value; when the trimmed axis changes, the other six bits of its register are set to 0 although they are masked in the comparison; a missing MA600 is not noticed if the configuration is all zero."
  },
  {
   "property": "C109",
   "status": "partial",
   "theorems": [
    "Verif.Tool.Bct.C109_search",
    "Verif.Tool.Bct.C109_valley",
    "Verif.Tool.Bct.C109_tried",
    "Verif.Tool.Bct.C109_restored",
    "Verif.Tool.Bct.C109_saved_partial",
    "Verif.Tool.Bct.C109_sign_refuted",
    "Verif.Tool.Bct.C109_forgotten_refuted",
    "Verif.Tool.Bct.C109_failed_refuted",
    "Verif.Tool.Bct.C109_left_refuted"
   ],
   "note": "`C109_search` and `C109_valley` are about searches without failed measurements, `C109_saved_partial` about the X axis. Refuted without: for the Y axis the value is sent with its sign (`bct -100`); the best value of the first round is measured again only by chance, so the result may be worse; a failed measurement at the end of the second round ends the search with a TypeError, and if all of a round fail with a ValueError; then the trimming that was tried last stays."
  },
  {
   "property": "C110",
   "status": "partial",
   "theorems": [
    "Verif.Fw.CanServer.C110_timing",
    "Verif.Fw.CanServer.C110_prefix",
    "Verif.Fw.CanServer.C110_filter_partial",
    "Verif.Fw.CanServer.C110_sending",
    "Verif.Fw.CanServer.C110_no_loss",
    "Verif.Fw.CanServer.C110_format",
    "Verif.Fw.CanServer.C110_rate_refuted",
    "Verif.Fw.CanServer.C110_short_refuted",
    "Verif.Fw.CanServer.C110_filter_refuted",
    "Verif.Fw.CanServer.C110_dropped_refuted"
   ],
   "note": "`C110_timing` is about bit rates up to the clock, `C110_filter_partial` about controllers that had a prefix other than 0 since they were started, `C110_no_loss` about frames that were begun before the next is handed over. Refuted without: the search for the timing does not end; a bit of two or three quanta gets a segment of length 0 (neither occurs with the rates of the firmware); with the default prefix the filter is never set, because the configuration equals the old one, so frames of every prefix are received; a reply that waits for the bus is dropped when the next one is handed over (the comment says so)."
  },
  {
   "property": "C111",
   "status": "partial",
   "theorems": [
    "Verif.Fw.UartTunnel.C111_in",
    "Verif.Fw.UartTunnel.C111_out",
    "Verif.Fw.UartTunnel.C111_order",
    "Verif.Fw.UartTunnel.C111_owned",
    "Verif.Fw.UartTunnel.C111_lost",
    "Verif.Fw.UartTunnel.C111_flush",
    "Verif.Fw.UartTunnel.C111_update_partial",
    "Verif.Fw.UartTunnel.C111_update_refuted"
   ],
   "note": "`C111_in`, `C111_out` and `C111_flush` are about times without changes of the configuration, `C111_update_partial` about changes while nothing is being sent. Refuted: a change of any setting of the port while a message is being sent to the UART forgets the transfer, and since only the end of a transfer starts the next read, nothing is sent to the UART any more until the controller is restarted."
  },
  {
   "property": "C112",
   "status": "partial",
   "theorems": [
    "Verif.Cxx.Socket.C112_send",
    "Verif.Cxx.Socket.C112_receive",
    "Verif.Cxx.Socket.C112_order",
    "Verif.Cxx.Socket.C112_called",
    "Verif.Cxx.Socket.C112_throws",
    "Verif.Cxx.Socket.C112_choice",
    "Verif.Cxx.Socket.C112_forced",
    "Verif.Cxx.Socket.C112_options",
    "Verif.Cxx.Socket.C112_default",
    "Verif.Cxx.Socket.C112_named",
    "Verif.Cxx.Socket.C112_wait",
    "Verif.Cxx.Socket.C112_brs_option",
    "Verif.Cxx.Socket.C112_standard_refuted",
    "Verif.Cxx.Socket.C112_classic_refuted",
    "Verif.Cxx.Socket.C112_padding_refuted",
    "Verif.Cxx.Socket.C112_brs_refuted",
    "Verif.Cxx.Socket.C112_refused_refuted",
    "Verif.Cxx.Socket.C112_closed_refuted",
    "Verif.Cxx.Socket.C112_left_refuted"
   ],
   "note": "Refuted: the standard identifier 0x7ff is sent in extended format; a frame in classic format is sent in CAN-FD format; frames are filled up with zeros and not with 0x50; `--can-disable-brs` does not hold for frames that ask for the switch; a cycle that `Post` refuses with an exception is carried out nevertheless; cycles in the queue when the transport is destroyed are never called back; options given twice, of a second transport, or once there is a transport stay in the arguments."
  },
  {
   "property": "C113",
   "status": "partial",
   "theorems": [
    "Verif.Fw.MainLoop.C113_polls",
    "Verif.Fw.MainLoop.C113_fault",
    "Verif.Fw.MainLoop.C113_step",
    "Verif.Fw.MainLoop.C113_counter",
    "Verif.Fw.MainLoop.C113_wait",
    "Verif.Fw.MainLoop.C113_long",
    "Verif.Fw.MainLoop.C113_read_ms_partial",
    "Verif.Fw.MainLoop.C113_pause_refuted",
    "Verif.Fw.MainLoop.C113_read_ms_refuted"
   ],
   "note": "`C113_polls`, `C113_fault` and `C113_step` suppose that the loop is never a whole turn of the timer behind, `C113_read_ms_partial` is about the first turn. Refuted without: a pause of a turn of the timer is not noticed at all, neither as milliseconds nor as a timing fault; the time in milliseconds since the start begins with 0 again after each turn, so that encoders configured then are held back as after power-on."
  },
  {
   "property": "C114",
   "status": "partial",
   "theorems": [
    "Verif.Fw.DiagCommands.C114_values",
    "Verif.Fw.DiagCommands.C114_old_words",
    "Verif.Fw.DiagCommands.C114_motion",
    "Verif.Fw.DiagCommands.C114_defaults",
    "Verif.Fw.DiagCommands.C114_within_partial",
    "Verif.Fw.DiagCommands.C114_ind_partial",
    "Verif.Fw.DiagCommands.C114_missing",
    "Verif.Fw.DiagCommands.C114_refused",
    "Verif.Fw.DiagCommands.C114_spaces_refuted",
    "Verif.Fw.DiagCommands.C114_empty_option_refuted",
    "Verif.Fw.DiagCommands.C114_within_refuted",
    "Verif.Fw.DiagCommands.C114_malformed_refuted",
    "Verif.Fw.DiagCommands.C114_ind_refuted"
   ],
   "note": "Well-formed commands have single spaces. Refuted: with two spaces before the first value `d dq  x y` is accepted and commands x for both currents; an option letter without a value is accepted as 0, for instance as the scale of kp; `d within` refuses the options v and a that are documented for it; a text that is no number is accepted as 0 by `d nearest` and as the rate of `d pwm`; `d ind` takes a period modulo 256. `C114_within_partial` is about the options that are accepted, `C114_ind_partial` about periods up to 127."
  },
  {
   "property": "C115",
   "status": "partial",
   "theorems": [
    "Verif.Aio.Serial.C115_bytes",
    "Verif.Aio.Serial.C115_size",
    "Verif.Aio.Serial.C115_awake",
    "Verif.Aio.Serial.C115_returns",
    "Verif.Aio.Serial.C115_write",
    "Verif.Aio.Serial.C115_cancel_partial",
    "Verif.Aio.Serial.C115_cancel_refuted",
    "Verif.Aio.Serial.C115_zero_refuted"
   ],
   "note": "`C115_cancel_partial` is about calls that do not block. Refuted: a call that blocks and is cancelled, for instance by a timeout, takes the bytes it had with it, and the next call continues behind them; `read(0)` waits for a byte and then fails with an AssertionError."
  },
  {
   "property": "C116",
   "status": "partial",
   "theorems": [
    "Verif.Fw.Board.C116_family",
    "Verif.Fw.Board.C116_search",
    "Verif.Fw.Board.C116_waits",
    "Verif.Fw.Board.C116_version_partial",
    "Verif.Fw.Board.C116_unknown_refuted"
   ],
   "note": "`C116_version_partial` leaves out the boards of family 0 whose revision pins have an unknown number. Refuted for those: the value -1 goes through a `uint8_t` and becomes 255, so the firmware is not stopped and treats the board as the newest revision."
  },
  {
   "property": "C117",
   "status": "partial",
   "theorems": [
    "Verif.Fw.Board.C117_exchange",
    "Verif.Fw.Board.C117_clock_partial",
    "Verif.Fw.Board.C117_clock_refuted"
   ],
   "note": "`C117_clock_partial` is about frequencies from 500 kHz on or dividing it, which covers those the firmware uses. Refuted: at 300 kHz the wait is rounded down to 1 us, so the clock can be faster than asked for."
  },
  {
   "property": "C118",
   "status": "partial",
   "theorems": [
    "Verif.Fw.Uuid.C118_fixed",
    "Verif.Fw.Uuid.C118_configured",
    "Verif.Fw.Uuid.C118_changed",
    "Verif.Fw.Uuid.C118_programming_refuted"
   ],
   "note": "The first two are about times at which the one-time programmable memory is not being programmed. Refuted while it is: the controller keeps the configured UUID until the configuration changes, and then takes a UUID of which only a part is programmed."
  },
  {
   "property": "C119",
   "status": "partial",
   "theorems": [
    "Verif.Fw.Spi.C119_ends",
    "Verif.Fw.Spi.C119_word_partial",
    "Verif.Fw.Spi.C119_release",
    "Verif.Fw.Spi.C119_timeout_refuted",
    "Verif.Fw.Spi.C119_dma_partial",
    "Verif.Fw.Spi.C119_dma_refuted"
   ],
   "note": "`C119_word_partial` is about words that arrive within the timeout, `C119_dma_partial` about buffers of one size, as the firmware uses them (fw/ic_pz.h:362-366). Refuted otherwise: without an answer the result is the old content of the data register and nothing tells it from an answer; the sizes of the two buffers are confused, so with more to send than to receive the transfer never finishes, and with less, memory behind the buffer is sent."
  }
 ]
}