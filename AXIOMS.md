# Axioms of the theorems listed in MANIFEST.json

Output of `#print axioms`.

| theorem | axioms |
|---|---|
| `Zpp.Props.C01_fixed_buffer_safe` | propext, Classical.choice, Quot.sound |
| `Zpp.Props.C02_fixed_exact` | propext, Classical.choice, Quot.sound |
| `Zpp.Props.C03_wire_format` | propext, Classical.choice, Quot.sound |
| `Zpp.Props.C03_same_format_same_bytes` | propext, Classical.choice, Quot.sound |
| `Zpp.Props.C04_growing_appends` | propext, Classical.choice, Quot.sound |
| `Zpp.Props.C05_fitted_partial` | propext, Classical.choice, Quot.sound |
| `Zpp.Props.C05_fitted_window_partial` | propext, Classical.choice, Quot.sound |
| `Zpp.Props.C05_fitted_no_varint_partial` | propext, Classical.choice, Quot.sound |
| `Zpp.Props.C05_not_fitted` | propext |
| `Zpp.Props.C05_window_sharp` | propext, Quot.sound |
| `Zpp.Props.C06_growing_failure_causes` | propext, Classical.choice, Quot.sound |
| `Zpp.Props.C06_growing_succeeds` | propext, Classical.choice, Quot.sound |
| `Zpp.Props.C07_alloc_limit` | propext, Classical.choice, Quot.sound |
| `Zpp.Props.C08_bitset_partial` | propext, Classical.choice, Quot.sound |
| `Zpp.Props.C08_or_partial` | propext, Classical.choice, Quot.sound |
| `Zpp.Props.C08_depends_on_old_content` | propext |
| `Zpp.Props.C09_rejected` | propext, Classical.choice, Quot.sound |
| `Zpp.Props.C10_round_trip` | propext, Classical.choice, Quot.sound |
| `Zpp.Props.C10_read_encoding` | propext, Classical.choice, Quot.sound |
| `Zpp.Props.C100_sorted` | propext, Classical.choice, Quot.sound |
| `Zpp.Props.C100_total` | propext, Classical.choice, Quot.sound |
| `Zpp.Props.C100_others` | propext |
| `Zpp.Props.C101_one_by_one` | propext, Classical.choice, Quot.sound |
| `Zpp.Props.C101_containers` | propext, Classical.choice, Quot.sound |
| `Zpp.Props.C101_cut_refuted` | propext |
| `Zpp.Props.C102_write` | propext, Quot.sound |
| `Zpp.Props.C102_read` | propext, Classical.choice, Quot.sound |
| `Zpp.Props.C102_prefix_fails` | propext |
| `Zpp.Props.C102_named` | propext, Quot.sound |
| `Zpp.Props.C102_round_trip` | propext, Classical.choice, Quot.sound |
| `Zpp.Props.C102_beyond` | propext, Quot.sound |
| `Zpp.Props.C102_negative` | propext, Classical.choice, Quot.sound |
| `Zpp.Props.C103_int` | propext, Quot.sound |
| `Zpp.Props.C103_varint_written` | propext, Classical.choice, Quot.sound |
| `Zpp.Props.C103_varint` | propext, Classical.choice, Quot.sound |
| `Zpp.Props.C103_varint_refused` | propext, Classical.choice, Quot.sound |
| `Zpp.Props.C103_zigzag_overwrites` | propext, Classical.choice, Quot.sound |
| `Zpp.Props.C103_read` | propext, Classical.choice, Quot.sound |
| `Zpp.Props.C103_prefix_fails` | propext |
| `Zpp.Props.C103_negative` | propext, Classical.choice, Quot.sound |
| `Zpp.Props.C103_named` | propext, Quot.sound |
| `Zpp.Props.C103_round_trip_int` | propext, Classical.choice, Quot.sound |
| `Zpp.Props.C103_round_trip_partial` | propext, Classical.choice, Quot.sound |
| `Zpp.Props.C103_zigzag_refuted` | propext |
| `Zpp.Props.C103_varint_beyond` | propext, Classical.choice, Quot.sound |
| `Zpp.Props.C103_beyond_refuted` | propext |
| `Zpp.Props.C104_merged` | propext, Classical.choice, Quot.sound |
| `Zpp.Props.C104_values` | propext, Quot.sound |
| `Zpp.Props.C105_serve` | propext, Quot.sound |
| `Zpp.Props.C105_order` | propext, Quot.sound |
| `Zpp.Props.C105_history` | propext, Classical.choice, Quot.sound |
| `Zpp.Props.C105_not_offered` | propext, Classical.choice, Quot.sound |
| `Zpp.Props.C105_unread_arguments` | propext |
| `Zpp.Props.C106_many` | propext, Classical.choice, Quot.sound |
| `Zpp.Props.C106_isolated` | propext |
| `Zpp.Props.C107_bound` | propext, Classical.choice, Quot.sound |
| `Zpp.Props.C107_fixed` | propext, Classical.choice, Quot.sound |
| `Zpp.Props.C107_attained` | propext, Quot.sound |
| `Zpp.Props.C107_varints` | propext, Quot.sound |
| `Zpp.Props.C108_shared` | propext, Classical.choice, Quot.sound |
| `Zpp.Props.C109_chunks` | propext, Classical.choice, Quot.sound |
| `Zpp.Props.C109_received` | propext, Classical.choice, Quot.sound |
| `Zpp.Props.C109_bits_refuted` | propext |
| `Zpp.Props.C11_local` | propext, Classical.choice, Quot.sound |
| `Zpp.Props.C110_bounded` | propext, Classical.choice, Quot.sound |
| `Zpp.Props.C110_order` | propext |
| `Zpp.Props.C111_pieces` | propext, Classical.choice, Quot.sound |
| `Zpp.Props.C111_stream` | propext, Classical.choice, Quot.sound |
| `Zpp.Props.C111_code_refuted` | propext |
| `Zpp.Props.C111_full_refuted` | propext |
| `Zpp.Props.C112_recovers` | propext, Classical.choice, Quot.sound |
| `Zpp.Props.C112_complete` | propext, Classical.choice, Quot.sound |
| `Zpp.Props.C112_uncut_refuted` | propext |
| `Zpp.Props.C113_schedule` | propext, Classical.choice, Quot.sound |
| `Zpp.Props.C113_order` | propext, Classical.choice, Quot.sound |
| `Zpp.Props.C114_atomic` | propext, Classical.choice, Quot.sound |
| `Zpp.Props.C114_bits_refuted` | propext |
| `Zpp.Props.C114_one_slot_refuted` | propext |
| `Zpp.Props.C115_retry` | propext, Classical.choice, Quot.sound |
| `Zpp.Props.C115_bits_refuted` | propext |
| `Zpp.Props.C116_relays` | propext, Classical.choice, Quot.sound |
| `Zpp.Props.C117_call` | propext, Classical.choice, Quot.sound |
| `Zpp.Props.C117_calls` | propext, Classical.choice, Quot.sound |
| `Zpp.Props.C117_written` | propext, Quot.sound |
| `Zpp.Props.C117_options` | propext, Classical.choice, Quot.sound |
| `Zpp.Props.C117_user` | propext, Classical.choice, Quot.sound |
| `Zpp.Props.C118_behind` | propext, Classical.choice, Quot.sound |
| `Zpp.Props.C118_append` | propext, Classical.choice, Quot.sound |
| `Zpp.Props.C118_concat` | propext, Classical.choice, Quot.sound |
| `Zpp.Props.C118_user` | propext, Classical.choice, Quot.sound |
| `Zpp.Props.C119_records` | propext, Classical.choice, Quot.sound |
| `Zpp.Props.C119_damaged` | propext, Classical.choice, Quot.sound |
| `Zpp.Props.C119_unchecked_refuted` | propext |
| `Zpp.Props.C12_streams` | propext, Classical.choice, Quot.sound |
| `Zpp.Props.outCalls_appends` | propext, Classical.choice, Quot.sound |
| `Zpp.Props.inCalls_flatten` | propext, Quot.sound |
| `Zpp.Props.C12_read_grouping` | propext, Quot.sound |
| `Zpp.Props.C12_write_grouping` | propext, Quot.sound |
| `Zpp.Props.C120_identify` | propext, Classical.choice, Quot.sound |
| `Zpp.Props.C120_table` | propext, Classical.choice, Quot.sound |
| `Zpp.Props.C120_hashed_refuted` | propext |
| `Zpp.Props.C121_contained` | propext, Classical.choice, Quot.sound |
| `Zpp.Props.C121_opened` | propext, Classical.choice, Quot.sound |
| `Zpp.Props.C121_damaged` | propext, Classical.choice, Quot.sound |
| `Zpp.Props.C122_authentic` | propext, Classical.choice, Quot.sound |
| `Zpp.Props.C122_honest` | propext, Classical.choice, Quot.sound |
| `Zpp.Props.C123_restored` | propext, Classical.choice, Quot.sound |
| `Zpp.Props.C123_equal` | propext, Classical.choice, Quot.sound |
| `Zpp.Props.C123_sorted` | propext, Classical.choice, Quot.sound |
| `Zpp.Props.C123_zeros_refuted` | propext |
| `Zpp.Props.C123_padding_refuted` | propext |
| `Zpp.Props.C124_once` | propext, Classical.choice, Quot.sound |
| `Zpp.Props.C124_progress` | propext, Classical.choice, Quot.sound |
| `Zpp.Props.C125_tree` | propext, Quot.sound |
| `Zpp.Props.C125_sharing` | propext |
| `Zpp.Props.C125_hopeless` | propext, Classical.choice, Quot.sound |
| `Zpp.Props.C125_copied` | propext, Classical.choice, Quot.sound |
| `Zpp.Props.C125_exponential` | propext, Quot.sound |
| `Zpp.Props.C126_search` | propext, Classical.choice, Quot.sound |
| `Zpp.Props.C126_damaged` | propext, Classical.choice, Quot.sound |
| `Zpp.Props.C127_safe` | propext, Classical.choice, Quot.sound |
| `Zpp.Props.C127_once` | propext, Classical.choice, Quot.sound |
| `Zpp.Props.C127_varint_partial` | propext, Classical.choice, Quot.sound |
| `Zpp.Props.C127_inline` | propext, Classical.choice, Quot.sound |
| `Zpp.Props.C127_constant` | propext, Classical.choice, Quot.sound |
| `Zpp.Props.C127_behind` | propext, Classical.choice, Quot.sound |
| `Zpp.Props.C127_consumed` | propext, Classical.choice, Quot.sound |
| `Zpp.Props.C127_double_fetch_refuted` | propext |
| `Zpp.Props.C128_write` | propext, Classical.choice, Quot.sound |
| `Zpp.Props.C128_read` | propext, Classical.choice, Quot.sound |
| `Zpp.Props.C128_any_input` | propext, Classical.choice, Quot.sound |
| `Zpp.Props.C128_any_container` | propext, Classical.choice, Quot.sound |
| `Zpp.Props.C128_backfill` | propext, Classical.choice, Quot.sound |
| `Zpp.Props.C129_together` | propext, Classical.choice, Quot.sound |
| `Zpp.Props.C129_read` | propext, Classical.choice, Quot.sound |
| `Zpp.Props.C129_container` | propext, Classical.choice, Quot.sound |
| `Zpp.Props.C13_safe` | propext, Classical.choice, Quot.sound |
| `Zpp.Props.C13_history` | propext, Classical.choice, Quot.sound |
| `Zpp.Props.C14_truncated` | propext, Classical.choice, Quot.sound |
| `Zpp.Props.C14_encoding_truncated` | propext, Classical.choice, Quot.sound |
| `Zpp.Props.C15_destination_irrelevant` | propext, Classical.choice, Quot.sound |
| `Zpp.Props.C16_announced` | propext |
| `Zpp.Props.C16_limit_kept_partial` | propext, Classical.choice, Quot.sound |
| `Zpp.Props.C16_packed_unlimited` | propext |
| `Zpp.Props.C16_packed_announced` | propext, Classical.choice, Quot.sound |
| `Zpp.Props.C17_pointer` | propext, Quot.sound |
| `Zpp.Props.C17_call` | propext, Quot.sound |
| `Zpp.Props.C17_member` | propext, Classical.choice, Quot.sound |
| `Zpp.Props.C18_prefix_free` | propext, Classical.choice, Quot.sound |
| `Zpp.Props.C19_written` | propext, Classical.choice, Quot.sound |
| `Zpp.Props.C19_varint_minimal` | propext, Classical.choice, Quot.sound |
| `Zpp.Props.C20_varint_roundtrip` | propext, Classical.choice, Quot.sound |
| `Zpp.Props.C21_archive` | propext, Classical.choice, Quot.sound |
| `Zpp.Props.C21_varint_decoder` | propext, Classical.choice, Quot.sound |
| `Zpp.Props.C21_varint_suffix_irrelevant` | propext, Classical.choice, Quot.sound |
| `Zpp.Props.C22_zigzag_bijection` | propext, Classical.choice, Quot.sound |
| `Zpp.Props.C23_varint_no_ub` | propext, Classical.choice, Quot.sound |
| `Zpp.Props.C24_written` | propext |
| `Zpp.Props.C24_read` | propext, Quot.sound |
| `Zpp.Props.C25_struct_out_partial` | propext, Classical.choice, Quot.sound |
| `Zpp.Props.C25_array_out_partial` | propext, Classical.choice, Quot.sound |
| `Zpp.Props.C25_seq_out_partial` | propext, Classical.choice, Quot.sound |
| `Zpp.Props.C25_struct_in_partial` | propext, Classical.choice, Quot.sound |
| `Zpp.Props.C25_array_in_partial` | propext, Classical.choice, Quot.sound |
| `Zpp.Props.C25_seq_in_partial` | propext, Classical.choice, Quot.sound |
| `Zpp.Props.D11_vector_of_empty` | propext |
| `Zpp.Props.D15_message_bulk_copied` | propext |
| `Zpp.Props.C26_host_independent` | propext, Classical.choice, Quot.sound |
| `Zpp.Props.C26_native` | propext |
| `Zpp.Props.C26_cross_host` | propext, Classical.choice, Quot.sound |
| `Zpp.Props.C27_same_output` | propext |
| `Zpp.Props.C27_same_input` | propext, Classical.choice, Quot.sound |
| `Zpp.Props.C27_read_as_other` | propext, Classical.choice, Quot.sound |
| `Zpp.Props.C28_size_converted_partial` | propext |
| `Zpp.Props.C28_read_back_partial` | propext, Classical.choice, Quot.sound |
| `Zpp.Props.C28_all_items_written` | propext |
| `Zpp.Props.C29_length_prefix_partial` | propext, Classical.choice, Quot.sound |
| `Zpp.Props.C29_native_order_partial` | propext, Classical.choice, Quot.sound |
| `Zpp.Props.D10_message_size_native_order` | propext |
| `Zpp.Props.C30_round_trip_partial` | propext, Classical.choice, Quot.sound |
| `Zpp.Props.C30_unsized_round_trip_partial` | propext, Classical.choice, Quot.sound |
| `Zpp.Props.D13_repeated_number_lost` | propext |
| `Zpp.Props.D14_byte_member` | propext |
| `Zpp.Props.C31_conforming_partial` | propext, Classical.choice, Quot.sound |
| `Zpp.Props.D12_fixed32_big_endian` | propext |
| `Zpp.Props.D25_negative_five_bytes` | propext |
| `Zpp.Props.C32_pb_safe` | propext, Classical.choice, Quot.sound |
| `Zpp.Props.C32_inside` | propext, Classical.choice, Quot.sound |
| `Zpp.Props.C32_to_the_end` | propext, Classical.choice, Quot.sound |
| `Zpp.Props.C32_to_the_size` | propext, Classical.choice, Quot.sound |
| `Zpp.Props.C33_unknown_tag_partial` | propext, Classical.choice, Quot.sound |
| `Zpp.Props.C33_unknown_not_skipped` | propext |
| `Zpp.Props.C33_tag_only_partial` | propext, Classical.choice, Quot.sound |
| `Zpp.Props.C33_tag_between_partial` | propext, Classical.choice, Quot.sound |
| `Zpp.Props.C33_tag_sized_partial` | propext, Classical.choice, Quot.sound |
| `Zpp.Props.C34_absent_kept` | propext, Classical.choice, Quot.sound |
| `Zpp.Props.C34_absent_cleared` | propext, Classical.choice, Quot.sound |
| `Zpp.Props.C35_members` | propext, Classical.choice, Quot.sound |
| `Zpp.Props.C35_order` | propext, Classical.choice, Quot.sound |
| `Zpp.Props.C35_exchange` | propext, Classical.choice, Quot.sound |
| `Zpp.Props.C35_last_wins` | propext, Classical.choice, Quot.sound |
| `Zpp.Props.C35_repeated_partial` | propext, Classical.choice, Quot.sound |
| `Zpp.Props.C35_set_map` | propext, Classical.choice, Quot.sound |
| `Zpp.Props.C35_string_last` | propext, Classical.choice, Quot.sound |
| `Zpp.Props.C35_fixed_overwritten` | propext |
| `Zpp.Props.C35_nested_cleared` | propext |
| `Zpp.Props.C36_rpc_partial` | propext, Classical.choice, Quot.sound |
| `Zpp.Props.C36_call` | propext, Classical.choice, Quot.sound |
| `Zpp.Props.C36_errc_no_response` | propext, Quot.sound |
| `Zpp.Props.C36_errc_steals` | propext, Classical.choice, Quot.sound |
| `Zpp.Props.C37_no_id` | propext |
| `Zpp.Props.C37_unknown_id` | propext, Quot.sound |
| `Zpp.Props.C37_bad_arguments` | propext, Classical.choice, Quot.sound |
| `Zpp.Props.C37_called` | propext, Classical.choice, Quot.sound |
| `Zpp.Props.C37_serve_cases` | propext, Classical.choice, Quot.sound |
| `Zpp.Props.C38_called` | propext, Classical.choice, Quot.sound |
| `Zpp.Props.C38_refused` | propext, Classical.choice, Quot.sound |
| `Zpp.Props.C38_no_parameters` | propext |
| `Zpp.Props.C38_encoded` | propext, Classical.choice, Quot.sound |
| `Zpp.Props.C38_errc_reported_as_failure` | propext, Classical.choice, Quot.sound |
| `Zpp.Props.C39_make` | propext, Classical.choice, Quot.sound |
| `Zpp.Props.C39_shl` | propext, Quot.sound |
| `Zpp.Props.C39_shr` | propext, Quot.sound |
| `Zpp.Props.C39_add` | propext, Classical.choice, Quot.sound |
| `Zpp.Props.C39_bitwise` | propext, Classical.choice, Quot.sound |
| `Zpp.Props.C39_compare_big` | propext, Classical.choice, Quot.sound |
| `Zpp.Props.C39_compare_little_wrong` | propext |
| `Zpp.Props.C40_sha1` | propext, Classical.choice, Quot.sound |
| `Zpp.Props.C41_sha256` | propext, Classical.choice, Quot.sound |
| `Zpp.Props.C42_decode_hex` | propext, Classical.choice, Quot.sound |
| `Zpp.Props.C42_inverse` | propext, Classical.choice, Quot.sound |
| `Zpp.Props.C42_lower_upper` | propext, Classical.choice, Quot.sound |
| `Zpp.Props.C43_to_bytes` | propext, Classical.choice, Quot.sound |
| `Zpp.Props.C43_too_large` | propext, Classical.choice, Quot.sound |
| `Zpp.Props.C43_from_bytes` | propext, Classical.choice, Quot.sound |
| `Zpp.Props.C43_id` | propext, Classical.choice, Quot.sound |
| `Zpp.Props.C43_hash_message` | propext, Classical.choice, Quot.sound |
| `Zpp.Props.C44_fifo` | propext, Classical.choice, Quot.sound |
| `Zpp.Props.C44_order` | propext |
| `Zpp.Props.C44_read_keeps` | propext |
| `Zpp.Props.C45_patch_local` | propext, Classical.choice, Quot.sound |
| `Zpp.Props.C46_view` | propext, Quot.sound |
| `Zpp.Props.C46_view_rest` | propext, Quot.sound |
| `Zpp.Props.C46_everywhere` | propext, Classical.choice, Quot.sound |
| `Zpp.Props.C46_success` | propext, Classical.choice, Quot.sound |
| `Zpp.Props.C47_span` | propext, Quot.sound |
| `Zpp.Props.C47_span_unsized` | propext, Quot.sound |
| `Zpp.Props.C48_size_type` | propext |
| `Zpp.Props.C48_alloc_limit` | propext |
| `Zpp.Props.C48_enlarger` | propext |
| `Zpp.Props.C48_byte_order` | propext |
| `Zpp.Props.C48_byte_order_option` | propext |
| `Zpp.Props.C48_flags` | propext |
| `Zpp.Props.C48_append` | propext, Quot.sound |
| `Zpp.Props.C48_plain` | propext |
| `Zpp.Props.C48_resize` | propext, Quot.sound |
| `Zpp.Props.C48_open_valid` | propext, Quot.sound |
| `Zpp.Props.C49_read` | propext, Classical.choice, Quot.sound |
| `Zpp.Props.C49_round_trip` | propext, Classical.choice, Quot.sound |
| `Zpp.Props.C50_id_omitted` | propext, Quot.sound |
| `Zpp.Props.C50_variant_is_id_then_known` | propext, Quot.sound |
| `Zpp.Props.C50_round_trip_partial` | propext, Classical.choice, Quot.sound |
| `Zpp.Props.C50_unknown_id` | propext |
| `Zpp.Props.C50_static_undefined` | propext |
| `Zpp.Props.C50_other_alternative_undefined` | propext, Quot.sound |
| `Zpp.Props.C50_input_partial` | propext, Quot.sound |
| `Zpp.Props.C51_earlier_output_survives` | propext, Classical.choice, Quot.sound |
| `Zpp.Props.C51_still_readable` | propext, Classical.choice, Quot.sound |
| `Zpp.Props.C52_trees` | propext, Classical.choice, Quot.sound |
| `Zpp.Props.C53_archives` | propext, Quot.sound |
| `Zpp.Props.C53_bytes` | propext, Classical.choice, Quot.sound |
| `Zpp.Props.C53_request` | propext, Classical.choice, Quot.sound |
| `Zpp.Props.C53_serve_cases` | propext, Classical.choice, Quot.sound |
| `Zpp.Props.C53_reading` | propext |
| `Zpp.Props.C53_bytes_take_all` | propext, Classical.choice, Quot.sound |
| `Zpp.Props.C54_results` | propext, Quot.sound |
| `Zpp.Props.C54_default_constructed` | propext |
| `Zpp.Props.C55_exact_partial` | propext, Classical.choice, Quot.sound |
| `Zpp.Props.C55_unused_partial` | propext, Classical.choice, Quot.sound |
| `Zpp.Props.C55_unused_sharp` | propext |
| `Zpp.Props.C55_varint` | propext |
| `Zpp.Props.C55_inside` | propext |
| `Zpp.Props.C56_all_or_rejected` | propext, Classical.choice, Quot.sound |
| `Zpp.Props.C56_aggregate` | propext, Classical.choice, Quot.sound |
| `Zpp.Props.C56_bindable` | propext, Classical.choice, Quot.sound |
| `Zpp.Props.C56_too_many` | propext, Classical.choice, Quot.sound |
| `Zpp.Props.C56_declared` | propext, Classical.choice, Quot.sound |
| `Zpp.Props.C56_declared_zero` | propext, Classical.choice, Quot.sound |
| `Zpp.Props.C56_sizes` | propext, Classical.choice, Quot.sound |
| `Zpp.Props.C57_same_rule` | propext |
| `Zpp.Props.C57_same_basic` | none |
| `Zpp.Props.C57_same_layout` | propext |
| `Zpp.Props.C57_associative_layout` | propext |
| `Zpp.Props.C57_by_interface` | propext |
| `Zpp.Props.C57_declared` | propext |
| `Zpp.Props.C57_fixed_prefix` | propext |
| `Zpp.Props.C58_write_scalar` | propext, Classical.choice, Quot.sound |
| `Zpp.Props.C58_write_bytes` | propext, Classical.choice, Quot.sound |
| `Zpp.Props.C58_move_message` | propext, Classical.choice, Quot.sound |
| `Zpp.Props.C58_read_scalar` | propext, Quot.sound |
| `Zpp.Props.C58_read_number` | propext, Quot.sound |
| `Zpp.Props.C58_read_bytes` | propext, Classical.choice, Quot.sound |
| `Zpp.Props.C58_read_varint` | propext, Classical.choice, Quot.sound |
| `Zpp.Props.C58_write_varint` | propext, Classical.choice, Quot.sound |
| `Zpp.Props.C59_least` | propext, Classical.choice, Quot.sound |
| `Zpp.Props.C59_elements` | propext, Classical.choice, Quot.sound |
| `Zpp.Props.C59_entries` | propext, Classical.choice, Quot.sound |
| `Zpp.Props.C59_unpaid` | propext, Classical.choice, Quot.sound |
| `Zpp.Props.C59_failed` | propext, Classical.choice, Quot.sound |
| `Zpp.Props.C60_linear` | propext, Classical.choice, Quot.sound |
| `Zpp.Props.C60_deep` | propext, Quot.sound |
| `Zpp.Props.C61_record` | propext, Classical.choice, Quot.sound |
| `Zpp.Props.C61_element` | propext, Classical.choice, Quot.sound |
| `Zpp.Props.C61_packed_length` | propext, Classical.choice, Quot.sound |
| `Zpp.Props.C61_packed_element` | propext, Classical.choice, Quot.sound |
| `Zpp.Props.C61_packed_short` | propext, Classical.choice, Quot.sound |
| `Zpp.Props.C61_number_zero` | propext, Classical.choice, Quot.sound |
| `Zpp.Props.C61_tag` | propext, Classical.choice, Quot.sound |
| `Zpp.Props.C62_members` | propext, Quot.sound |
| `Zpp.Props.C62_wire` | propext, Classical.choice, Quot.sound |
| `Zpp.Props.C62_round_trip` | propext, Classical.choice, Quot.sound |
| `Zpp.Props.C62_safe` | propext, Classical.choice, Quot.sound |
| `Zpp.Props.C62_local` | propext, Classical.choice, Quot.sound |
| `Zpp.Props.C62_listed` | propext, Classical.choice, Quot.sound |
| `Zpp.Props.C63_rewritable` | propext, Classical.choice, Quot.sound |
| `Zpp.Props.C63_normal` | propext, Classical.choice, Quot.sound |
| `Zpp.Props.C63_exact` | propext, Classical.choice, Quot.sound |
| `Zpp.Props.C63_unique` | propext, Classical.choice, Quot.sound |
| `Zpp.Props.C63_resave` | propext, Classical.choice, Quot.sound |
| `Zpp.Props.C64_same_bytes` | propext, Classical.choice, Quot.sound |
| `Zpp.Props.C64_interchange` | propext, Classical.choice, Quot.sound |
| `Zpp.Props.C65_memory` | propext, Classical.choice, Quot.sound |
| `Zpp.Props.C66_variant` | propext, Classical.choice, Quot.sound |
| `Zpp.Props.C66_duplicate_rejected` | propext, Classical.choice, Quot.sound |
| `Zpp.Props.C66_mixed_types_rejected` | propext, Classical.choice, Quot.sound |
| `Zpp.Props.C66_selects` | propext, Classical.choice, Quot.sound |
| `Zpp.Props.C66_unknown_refused` | propext, Classical.choice, Quot.sound |
| `Zpp.Props.C66_bindings` | propext, Classical.choice, Quot.sound |
| `Zpp.Props.C66_binding_duplicate` | propext, Classical.choice, Quot.sound |
| `Zpp.Props.C66_numbers` | propext, Classical.choice, Quot.sound |
| `Zpp.Props.C66_numbers_nested` | propext, Classical.choice, Quot.sound |
| `Zpp.Props.C67_covered` | propext, Classical.choice, Quot.sound |
| `Zpp.Props.C67_compiles` | propext, Classical.choice, Quot.sound |
| `Zpp.Props.C67_odd_members_compile` | propext |
| `Zpp.Props.C67_refused` | propext |
| `Zpp.Props.C68_call` | propext, Classical.choice, Quot.sound |
| `Zpp.Props.C68_linear_partial` | propext, Classical.choice, Quot.sound |
| `Zpp.Props.C68_at_most` | propext, Classical.choice, Quot.sound |
| `Zpp.Props.C68_quadratic` | propext, Quot.sound |
| `Zpp.Props.C69_block` | propext, Quot.sound |
| `Zpp.Props.C69_fixed` | propext, Quot.sound |
| `Zpp.Props.C69_written` | propext, Classical.choice, Quot.sound |
| `Zpp.Props.C69_read` | propext, Quot.sound |
| `Zpp.Props.C69_round_trip` | propext, Classical.choice, Quot.sound |
| `Zpp.Props.C69_all` | propext, Classical.choice, Quot.sound |
| `Zpp.Props.C69_count_not_checked` | propext, Quot.sound |
| `Zpp.Props.C69_size_wraps` | propext |
| `Zpp.Props.C70_wire` | propext, Classical.choice, Quot.sound |
| `Zpp.Props.C70_fixed` | propext, Classical.choice, Quot.sound |
| `Zpp.Props.C70_growing` | propext, Classical.choice, Quot.sound |
| `Zpp.Props.C70_round_trip` | propext, Classical.choice, Quot.sound |
| `Zpp.Props.C70_round_trip_all` | propext, Classical.choice, Quot.sound |
| `Zpp.Props.C70_safe` | propext, Classical.choice, Quot.sound |
| `Zpp.Props.C70_safe_out` | propext, Classical.choice, Quot.sound |
| `Zpp.Props.C70_local` | propext, Classical.choice, Quot.sound |
| `Zpp.Props.C70_as_library_in` | propext, Classical.choice, Quot.sound |
| `Zpp.Props.C70_as_library_out` | propext, Quot.sound |
| `Zpp.Props.C70_library_keys` | propext |
| `Zpp.Props.C70_complete_keys` | propext, Quot.sound |
| `Zpp.Props.C70_complete_elements` | propext, Quot.sound |
| `Zpp.Props.C70_seen_elements` | propext |
| `Zpp.Props.C71_evolve` | propext, Classical.choice, Quot.sound |
| `Zpp.Props.C71_appended` | propext, Classical.choice, Quot.sound |
| `Zpp.Props.C71_removed_refuted` | propext |
| `Zpp.Props.C72_read_encoding` | propext, Classical.choice, Quot.sound |
| `Zpp.Props.C72_round_trip` | propext, Classical.choice, Quot.sound |
| `Zpp.Props.C73_read` | propext, Quot.sound |
| `Zpp.Props.C73_remaining_only` | propext, Quot.sound |
| `Zpp.Props.C73_write` | propext, Classical.choice, Quot.sound |
| `Zpp.Props.C73_user_read` | propext, Quot.sound |
| `Zpp.Props.C73_user_write` | propext, Classical.choice, Quot.sound |
| `Zpp.Props.C74_output` | propext, Quot.sound |
| `Zpp.Props.C74_input` | propext, Quot.sound |
| `Zpp.Props.C74_interchangeable` | propext, Quot.sound |
| `Zpp.Props.C75_read` | propext, Classical.choice, Quot.sound |
| `Zpp.Props.C75_call` | propext, Classical.choice, Quot.sound |
| `Zpp.Props.C75_apply` | propext, Classical.choice, Quot.sound |
| `Zpp.Props.C75_every_run` | propext, Classical.choice, Quot.sound |
| `Zpp.Props.C75_every_call` | propext, Classical.choice, Quot.sound |
| `Zpp.Props.C76_valid` | propext, Classical.choice, Quot.sound |
| `Zpp.Props.C76_reused` | propext, Classical.choice, Quot.sound |
| `Zpp.Props.C76_never_valueless` | propext, Classical.choice, Quot.sound |
| `Zpp.Props.C77_same_or_refused` | propext, Quot.sound |
| `Zpp.Props.C77_success_kept` | propext, Quot.sound |
| `Zpp.Props.C77_failure_kept` | propext, Quot.sound |
| `Zpp.Props.C78_call` | propext, Quot.sound |
| `Zpp.Props.C78_members` | propext, Classical.choice, Quot.sound |
| `Zpp.Props.C78_array` | propext, Quot.sound |
| `Zpp.Props.C78_container` | propext, Quot.sound |
| `Zpp.Props.C78_block` | propext, Quot.sound |
| `Zpp.Props.C79_tape` | propext, Classical.choice, Quot.sound |
| `Zpp.Props.C79_read_anywhere` | propext, Classical.choice, Quot.sound |
| `Zpp.Props.C80_recognised_partial` | propext, Classical.choice, Quot.sound |
| `Zpp.Props.C80_recursive` | propext, Classical.choice, Quot.sound |
| `Zpp.Props.C80_stable` | propext, Classical.choice, Quot.sound |
| `Zpp.Props.C80_missed` | propext |
| `Zpp.Props.C80_missed_alone` | propext |
| `Zpp.Props.C81_storage` | propext, Classical.choice, Quot.sound |
| `Zpp.Props.C81_new` | propext, Classical.choice, Quot.sound |
| `Zpp.Props.C82_visits` | propext, Classical.choice, Quot.sound |
| `Zpp.Props.C82_work` | propext, Classical.choice, Quot.sound |
| `Zpp.Props.C82_unpaid` | propext, Classical.choice, Quot.sound |
| `Zpp.Props.C82_counts` | propext, Quot.sound |
| `Zpp.Props.C83_text_partial` | propext, Classical.choice, Quot.sound |
| `Zpp.Props.C83_hash_partial` | propext, Classical.choice, Quot.sound |
| `Zpp.Props.C83_hosts_differ` | propext, Classical.choice, Quot.sound |
| `Zpp.Props.C83_rpc_between_hosts` | propext, Classical.choice, Quot.sound |
| `Zpp.Props.C83_distinct` | propext, Classical.choice, Quot.sound |
| `Zpp.Props.C84_normal` | propext, Classical.choice, Quot.sound |
| `Zpp.Props.C84_resave` | propext, Classical.choice, Quot.sound |
| `Zpp.Props.C84_unsized` | propext, Classical.choice, Quot.sound |
| `Zpp.Props.C84_limit_refuses` | propext |
| `Zpp.Props.C85_converted` | propext, Classical.choice, Quot.sound |
| `Zpp.Props.C85_preserved` | propext, Classical.choice, Quot.sound |
| `Zpp.Props.C85_accepted` | propext, Classical.choice, Quot.sound |
| `Zpp.Props.C85_call` | propext, Classical.choice, Quot.sound |
| `Zpp.Props.C86_levels_partial` | propext, Classical.choice, Quot.sound |
| `Zpp.Props.C86_flat` | propext, Classical.choice, Quot.sound |
| `Zpp.Props.C86_plain` | propext, Classical.choice, Quot.sound |
| `Zpp.Props.C86_quadratic` | propext, Classical.choice, Quot.sound |
| `Zpp.Props.C86_no_factor` | propext, Classical.choice, Quot.sound |
| `Zpp.Props.C87_no_id` | propext |
| `Zpp.Props.C87_unknown_id` | propext |
| `Zpp.Props.C87_bad_arguments` | propext, Classical.choice, Quot.sound |
| `Zpp.Props.C87_called_partial` | propext, Classical.choice, Quot.sound |
| `Zpp.Props.C87_void_lost` | propext, Classical.choice, Quot.sound |
| `Zpp.Props.C87_errc_thrown` | propext, Classical.choice, Quot.sound |
| `Zpp.Props.C87_archives` | propext, Quot.sound |
| `Zpp.Props.C87_bytes` | propext, Classical.choice, Quot.sound |
| `Zpp.Props.C87_like_ordinary` | propext, Classical.choice, Quot.sound |
| `Zpp.Props.C88_parsers_read_written_partial` | propext, Classical.choice, Quot.sound |
| `Zpp.Props.C89_reads_as_parsers_partial` | propext, Classical.choice, Quot.sound |
| `Zpp.Props.C89_any_bytes_partial` | propext, Classical.choice, Quot.sound |
| `Zpp.Props.C89_same_values` | propext |
| `Zpp.Props.C89_set_map` | propext, Classical.choice, Quot.sound |
| `Zpp.Props.C89_undeclared_field` | propext |
| `Zpp.Props.C89_packed_twice` | propext |
| `Zpp.Props.C89_nested_twice` | propext |
| `Zpp.Props.C89_map_key_twice` | propext |
| `Zpp.Props.C89_negative_int32` | propext |
| `Zpp.Props.C89_wire_type` | propext |
| `Zpp.Props.C89_wide_bool` | propext |
| `Zpp.Props.C90_same` | propext, Quot.sound |
| `Zpp.Props.C90_shares` | propext, Classical.choice, Quot.sound |
| `Zpp.Props.C90_apart` | propext, Classical.choice, Quot.sound |
| `Zpp.Props.C90_failed` | propext, Classical.choice, Quot.sound |
| `Zpp.Props.C90_kept` | propext, Classical.choice, Quot.sound |
| `Zpp.Props.C90_copies` | propext, Classical.choice, Quot.sound |
| `Zpp.Props.C90_shared_buffer` | propext, Classical.choice, Quot.sound |
| `Zpp.Props.C91_other_buffers` | propext, Classical.choice, Quot.sound |
| `Zpp.Props.C91_own_buffer_partial` | propext, Classical.choice, Quot.sound |
| `Zpp.Props.C91_fixed` | propext, Classical.choice, Quot.sound |
| `Zpp.Props.C91_pass_on` | propext, Classical.choice, Quot.sound |
| `Zpp.Props.C91_compact` | propext, Classical.choice, Quot.sound |
| `Zpp.Props.C91_outside` | propext, Classical.choice, Quot.sound |
| `Zpp.Props.C91_growing` | propext |
| `Zpp.Props.C91_in_front` | propext |
| `Zpp.Props.C92_iff` | propext, Classical.choice, Quot.sound |
| `Zpp.Props.C92_small_partial` | propext, Classical.choice, Quot.sound |
| `Zpp.Props.C92_top_bit` | propext |
| `Zpp.Props.C93_visits` | propext |
| `Zpp.Props.C93_rejected` | propext |
| `Zpp.Props.C93_upgrade` | propext, Classical.choice, Quot.sound |
| `Zpp.Props.C93_too_many` | propext, Quot.sound |
| `Zpp.Props.C93_message_partial` | propext, Quot.sound |
| `Zpp.Props.C93_beyond_ignored` | propext, Quot.sound |
| `Zpp.Props.C93_lost` | propext |
| `Zpp.Props.C93_ambiguous` | propext |
| `Zpp.Props.C94_exactly` | propext, Quot.sound |
| `Zpp.Props.C94_growing` | propext, Classical.choice, Quot.sound |
| `Zpp.Props.C94_fixed` | propext, Classical.choice, Quot.sound |
| `Zpp.Props.C94_read` | propext, Classical.choice, Quot.sound |
| `Zpp.Props.C95_stays` | propext, Classical.choice, Quot.sound |
| `Zpp.Props.C95_exact` | propext, Classical.choice, Quot.sound |
| `Zpp.Props.C95_fixed` | propext, Classical.choice, Quot.sound |
| `Zpp.Props.C95_views` | propext, Classical.choice, Quot.sound |
| `Zpp.Props.C95_pass_on` | propext, Classical.choice, Quot.sound |
| `Zpp.Props.C95_moves` | propext |
| `Zpp.Props.C96_pieces` | propext, Classical.choice, Quot.sound |
| `Zpp.Props.C96_sent` | propext, Classical.choice, Quot.sound |
| `Zpp.Props.C96_message_early` | propext |
| `Zpp.Props.C97_length` | propext, Classical.choice, Quot.sound |
| `Zpp.Props.C97_read` | propext, Classical.choice, Quot.sound |
| `Zpp.Props.C97_replace` | propext, Classical.choice, Quot.sound |
| `Zpp.Props.C97_replace_fixed` | propext, Classical.choice, Quot.sound |
| `Zpp.Props.C97_same` | propext, Quot.sound |
| `Zpp.Props.C97_read_back` | propext, Classical.choice, Quot.sound |
| `Zpp.Props.C98_new_reads_old` | propext, Classical.choice, Quot.sound |
| `Zpp.Props.C98_old_reads_new` | propext, Classical.choice, Quot.sound |
| `Zpp.Props.C99_old_reads_new` | propext, Classical.choice, Quot.sound |
| `Zpp.Props.C99_new_reads_old` | propext, Classical.choice, Quot.sound |
| `Zpp.Props.C99_followed_refuted` | propext |
