{
 "claims": [
  {
   "property": "C01",
   "status": "proved",
   "theorems": [
    "Zpp.Props.C01_fixed_buffer_safe"
   ],
   "note": ""
  },
  {
   "property": "C02",
   "status": "proved",
   "theorems": [
    "Zpp.Props.C02_fixed_exact"
   ],
   "note": ""
  },
  {
   "property": "C03",
   "status": "proved",
   "theorems": [
    "Zpp.Props.C03_wire_format",
    "Zpp.Props.C03_same_format_same_bytes"
   ],
   "note": ""
  },
  {
   "property": "C04",
   "status": "proved",
   "theorems": [
    "Zpp.Props.C04_growing_appends"
   ],
   "note": ""
  },
  {
   "property": "C05",
   "status": "partial",
   "theorems": [
    "Zpp.Props.C05_fitted_partial",
    "Zpp.Props.C05_fitted_window_partial",
    "Zpp.Props.C05_fitted_no_varint_partial",
    "Zpp.Props.C05_not_fitted",
    "Zpp.Props.C05_window_sharp"
   ],
   "note": "False as stated: a varint near the old end leaves the buffer enlarged (witness C05_not_fitted). Holds exactly for every type unless the call ends inside the last eight bytes of the old buffer (C05_window_sharp: none of the eight can be dropped), and for types without varints always."
  },
  {
   "property": "C06",
   "status": "proved",
   "theorems": [
    "Zpp.Props.C06_growing_failure_causes",
    "Zpp.Props.C06_growing_succeeds"
   ],
   "note": ""
  },
  {
   "property": "C07",
   "status": "proved",
   "theorems": [
    "Zpp.Props.C07_alloc_limit"
   ],
   "note": ""
  },
  {
   "property": "C08",
   "status": "partial",
   "theorems": [
    "Zpp.Props.C08_bitset_partial",
    "Zpp.Props.C08_or_partial",
    "Zpp.Props.C08_depends_on_old_content"
   ],
   "note": "False as stated: bitset output ORs into the old bytes (witness C08_depends_on_old_content). C08_or_partial is the exact effect over any old content."
  },
  {
   "property": "C09",
   "status": "proved",
   "theorems": [
    "Zpp.Props.C09_rejected"
   ],
   "note": ""
  },
  {
   "property": "C10",
   "status": "proved",
   "theorems": [
    "Zpp.Props.C10_round_trip",
    "Zpp.Props.C10_read_encoding"
   ],
   "note": "Round trip through any archive pair of the same format; whatever the destination held. Spans and unsized containers are excluded (they need a prepared destination)."
  },
  {
   "property": "C100",
   "status": "proved",
   "theorems": [
    "Zpp.Props.C100_sorted",
    "Zpp.Props.C100_total",
    "Zpp.Props.C100_others"
   ],
   "note": "C100_others: little endian, signed integers, varints and containers do not sort."
  },
  {
   "property": "C101",
   "status": "proved",
   "theorems": [
    "Zpp.Props.C101_one_by_one",
    "Zpp.Props.C101_containers",
    "Zpp.Props.C101_cut_refuted"
   ],
   "note": "C101_one_by_one: classes without containers among their members, arbitrary bytes behind the first message. C101_containers: all classes, both parts made of records; sequences of numbers of fixed size and strings are replaced instead (C35_fixed_overwritten, C35_string_last), sets and maps: C35_set_map. C101_cut_refuted: a first part that ends inside a nested message is accepted alone but takes what follows as its own."
  },
  {
   "property": "C102",
   "status": "proved",
   "theorems": [
    "Zpp.Props.C102_write",
    "Zpp.Props.C102_read",
    "Zpp.Props.C102_prefix_fails",
    "Zpp.Props.C102_named",
    "Zpp.Props.C102_round_trip",
    "Zpp.Props.C102_beyond",
    "Zpp.Props.C102_negative"
   ],
   "note": "Containers; messages are C103."
  },
  {
   "property": "C103",
   "status": "partial",
   "theorems": [
    "Zpp.Props.C103_int",
    "Zpp.Props.C103_varint_written",
    "Zpp.Props.C103_varint",
    "Zpp.Props.C103_varint_refused",
    "Zpp.Props.C103_zigzag_overwrites",
    "Zpp.Props.C103_read",
    "Zpp.Props.C103_prefix_fails",
    "Zpp.Props.C103_negative",
    "Zpp.Props.C103_named",
    "Zpp.Props.C103_round_trip_int",
    "Zpp.Props.C103_round_trip_partial",
    "Zpp.Props.C103_zigzag_refuted",
    "Zpp.Props.C103_varint_beyond",
    "Zpp.Props.C103_beyond_refuted"
   ],
   "note": "The code falsifies the full statement: zigzag varints as sizes overwrite the first byte of messages of 64 to 127 bytes (and of further ranges of lengths), C103_zigzag_refuted; C103_zigzag_overwrites says what is written then. Round trip is proved for all other cases. Nor are messages too long for a varint size always refused: the length is reduced to the type (C103_varint_beyond, C103_beyond_refuted)."
  },
  {
   "property": "C104",
   "status": "proved",
   "theorems": [
    "Zpp.Props.C104_merged",
    "Zpp.Props.C104_values"
   ],
   "note": "Objects written by one call; several calls append the same bytes (C04, C12)."
  },
  {
   "property": "C105",
   "status": "proved",
   "theorems": [
    "Zpp.Props.C105_serve",
    "Zpp.Props.C105_order",
    "Zpp.Props.C105_history",
    "Zpp.Props.C105_not_offered",
    "Zpp.Props.C105_unread_arguments"
   ],
   "note": "Clients and servers with different bindings; errc functions send no response (C36). C105_unread_arguments: after not_supported the unread arguments are taken for the next request."
  },
  {
   "property": "C106",
   "status": "proved",
   "theorems": [
    "Zpp.Props.C106_many",
    "Zpp.Props.C106_isolated"
   ],
   "note": "Operations are atomic: the library does no locking. errc functions send no response (C36)."
  },
  {
   "property": "C107",
   "status": "proved",
   "theorems": [
    "Zpp.Props.C107_bound",
    "Zpp.Props.C107_fixed",
    "Zpp.Props.C107_attained",
    "Zpp.Props.C107_varints"
   ],
   "note": "Valid objects as in C94: no bool other than 0 and 1 and no null owning pointer."
  },
  {
   "property": "C108",
   "status": "proved",
   "theorems": [
    "Zpp.Props.C108_shared"
   ],
   "note": ""
  },
  {
   "property": "C109",
   "status": "proved",
   "theorems": [
    "Zpp.Props.C109_chunks",
    "Zpp.Props.C109_received",
    "Zpp.Props.C109_bits_refuted"
   ],
   "note": "C109_bits_refuted shows why bitsets are excluded."
  },
  {
   "property": "C11",
   "status": "proved",
   "theorems": [
    "Zpp.Props.C11_local"
   ],
   "note": "Self-delimiting types."
  },
  {
   "property": "C110",
   "status": "proved",
   "theorems": [
    "Zpp.Props.C110_bounded",
    "Zpp.Props.C110_order"
   ],
   "note": "An example shows that the position has to be set back after a failed call."
  },
  {
   "property": "C111",
   "status": "proved",
   "theorems": [
    "Zpp.Props.C111_pieces",
    "Zpp.Props.C111_stream",
    "Zpp.Props.C111_code_refuted",
    "Zpp.Props.C111_full_refuted"
   ],
   "note": "Functions bound by bind; parameter types that carry their own extent (C14). The two refuted theorems show the conditions of the statement are needed."
  },
  {
   "property": "C112",
   "status": "proved",
   "theorems": [
    "Zpp.Props.C112_recovers",
    "Zpp.Props.C112_complete",
    "Zpp.Props.C112_uncut_refuted"
   ],
   "note": "Crashes leave an initial part of the bytes written; other damage to a file is not detected by the library (no checksums). Records of types that carry their own extent, with encodings that are not empty."
  },
  {
   "property": "C113",
   "status": "proved",
   "theorems": [
    "Zpp.Props.C113_schedule",
    "Zpp.Props.C113_order"
   ],
   "note": "Schedules of whole calls; switches within a call are not modelled. Fixed buffers (spans, arrays)."
  },
  {
   "property": "C114",
   "status": "proved",
   "theorems": [
    "Zpp.Props.C114_atomic",
    "Zpp.Props.C114_bits_refuted",
    "Zpp.Props.C114_one_slot_refuted"
   ],
   "note": "For objects without bitsets. C114_bits_refuted shows that a bitset stored over bytes of an interrupted update is read back wrong; C114_one_slot_refuted shows that the second slot is needed."
  },
  {
   "property": "C115",
   "status": "proved",
   "theorems": [
    "Zpp.Props.C115_retry",
    "Zpp.Props.C115_bits_refuted"
   ],
   "note": "Objects with bitsets need new buffers of zeros, as C115_bits_refuted shows."
  },
  {
   "property": "C116",
   "status": "proved",
   "theorems": [
    "Zpp.Props.C116_relays"
   ],
   "note": ""
  },
  {
   "property": "C117",
   "status": "proved",
   "theorems": [
    "Zpp.Props.C117_call",
    "Zpp.Props.C117_calls",
    "Zpp.Props.C117_written",
    "Zpp.Props.C117_options",
    "Zpp.Props.C117_user"
   ],
   "note": ""
  },
  {
   "property": "C118",
   "status": "proved",
   "theorems": [
    "Zpp.Props.C118_behind",
    "Zpp.Props.C118_append",
    "Zpp.Props.C118_concat",
    "Zpp.Props.C118_user"
   ],
   "note": "For all types and objects, no Supported hypothesis. The bytes behind the position are taken to agree (zeros in new buffers), because bitsets are ored into what is there (C08)."
  },
  {
   "property": "C119",
   "status": "proved",
   "theorems": [
    "Zpp.Props.C119_records",
    "Zpp.Props.C119_damaged",
    "Zpp.Props.C119_unchecked_refuted"
   ],
   "note": "C119_unchecked_refuted shows that the check of the position in the reader is needed (see D01)."
  },
  {
   "property": "C12",
   "status": "proved",
   "theorems": [
    "Zpp.Props.C12_streams",
    "Zpp.Props.outCalls_appends",
    "Zpp.Props.inCalls_flatten",
    "Zpp.Props.C12_read_grouping",
    "Zpp.Props.C12_write_grouping"
   ],
   "note": "C12_read_grouping and C12_write_grouping: for any input and any objects, failures included, how the objects are spread over calls changes neither the values, the bytes, the position nor the status. For writing into growing storage that is fitted after each call (no `no_fit_size`, growth other than exact) the bytes and positions are covered by C12_streams, not the size of the storage between the calls."
  },
  {
   "property": "C120",
   "status": "proved",
   "theorems": [
    "Zpp.Props.C120_identify",
    "Zpp.Props.C120_table",
    "Zpp.Props.C120_hashed_refuted"
   ],
   "note": "C120_hashed_refuted shows that equality of unordered containers as sets is not enough."
  },
  {
   "property": "C121",
   "status": "proved",
   "theorems": [
    "Zpp.Props.C121_contained",
    "Zpp.Props.C121_opened",
    "Zpp.Props.C121_damaged"
   ],
   "note": "Damage to the envelopes themselves (kind, size) is not contained; for arbitrary bytes there C13 applies."
  },
  {
   "property": "C122",
   "status": "proved",
   "theorems": [
    "Zpp.Props.C122_authentic",
    "Zpp.Props.C122_honest"
   ],
   "note": "The second alternative of C122_authentic names the record and the bytes given by the store; an example shows that it is needed for weak hashes."
  },
  {
   "property": "C123",
   "status": "proved",
   "theorems": [
    "Zpp.Props.C123_restored",
    "Zpp.Props.C123_equal",
    "Zpp.Props.C123_sorted",
    "Zpp.Props.C123_zeros_refuted",
    "Zpp.Props.C123_padding_refuted"
   ],
   "note": "The exceptions named in the statement are the two refuted theorems."
  },
  {
   "property": "C124",
   "status": "proved",
   "theorems": [
    "Zpp.Props.C124_once",
    "Zpp.Props.C124_progress"
   ],
   "note": "Buffers arrive as they were sent or not at all; for damaged ones see C37 and C122."
  },
  {
   "property": "C125",
   "status": "proved",
   "theorems": [
    "Zpp.Props.C125_tree",
    "Zpp.Props.C125_sharing",
    "Zpp.Props.C125_hopeless",
    "Zpp.Props.C125_copied",
    "Zpp.Props.C125_exponential"
   ],
   "note": "The class has one value of any type and one vector of shared pointers. The archive handles std::shared_ptr like std::unique_ptr; it keeps no record of addresses."
  },
  {
   "property": "C126",
   "status": "proved",
   "theorems": [
    "Zpp.Props.C126_search",
    "Zpp.Props.C126_damaged"
   ],
   "note": "The program is a user's program over position() and operator(); the size prefix has k bytes."
  },
  {
   "property": "C127",
   "status": "partial",
   "theorems": [
    "Zpp.Props.C127_safe",
    "Zpp.Props.C127_once",
    "Zpp.Props.C127_varint_partial",
    "Zpp.Props.C127_inline",
    "Zpp.Props.C127_constant",
    "Zpp.Props.C127_behind",
    "Zpp.Props.C127_consumed",
    "Zpp.Props.C127_double_fetch_refuted"
   ],
   "note": "Safety for all objects and all writes. One fixed content for all objects without varints, and for all objects with ZPP_BITS_INLINE_DECODE_VARINT; with varints as compiled by default only if nobody writes between the two fetches of their first byte (lines 1759, 1760), and this is false without the assumption (witness). Writes behind the position never matter. A fetch is a read in the source; a compiler may merge or repeat fetches. The contents shown by views are not fetched by the archive."
  },
  {
   "property": "C128",
   "status": "proved",
   "theorems": [
    "Zpp.Props.C128_write",
    "Zpp.Props.C128_read",
    "Zpp.Props.C128_any_input",
    "Zpp.Props.C128_any_container",
    "Zpp.Props.C128_backfill"
   ],
   "note": "C128_any_input and C128_any_container are about elements whose reading does not depend on the object read into (no protobuf message); after a failure the positions agree for containers read element by element (C128_any_input), not for contiguous containers of elements copied as one block, which check the whole size first"
  },
  {
   "property": "C129",
   "status": "proved",
   "theorems": [
    "Zpp.Props.C129_together",
    "Zpp.Props.C129_read",
    "Zpp.Props.C129_container"
   ],
   "note": "calls are taken as a whole: schedules that switch within calls are not modelled, as in C113"
  },
  {
   "property": "C13",
   "status": "proved",
   "theorems": [
    "Zpp.Props.C13_safe",
    "Zpp.Props.C13_history"
   ],
   "note": "Any types, bytes, positions, call histories. `stack` (stack exhaustion) is an allowed outcome; `d` is the stack."
  },
  {
   "property": "C14",
   "status": "proved",
   "theorems": [
    "Zpp.Props.C14_truncated",
    "Zpp.Props.C14_encoding_truncated"
   ],
   "note": ""
  },
  {
   "property": "C15",
   "status": "proved",
   "theorems": [
    "Zpp.Props.C15_destination_irrelevant"
   ],
   "note": "oldFree excludes protobuf messages, mutable spans, containers without size prefix."
  },
  {
   "property": "C16",
   "status": "partial",
   "theorems": [
    "Zpp.Props.C16_announced",
    "Zpp.Props.C16_limit_kept_partial",
    "Zpp.Props.C16_packed_unlimited",
    "Zpp.Props.C16_packed_announced"
   ],
   "note": "Announced sizes beyond the limit give message_size with the container untouched (proved for all inputs); no container outside protobuf messages ever exceeds the limit. Inside messages packed varints ignore the limit: witness C16_packed_unlimited. C16_packed_announced: packed records of fixed-size numbers do obey the announced-size rule."
  },
  {
   "property": "C17",
   "status": "proved",
   "theorems": [
    "Zpp.Props.C17_pointer",
    "Zpp.Props.C17_call",
    "Zpp.Props.C17_member"
   ],
   "note": ""
  },
  {
   "property": "C18",
   "status": "proved",
   "theorems": [
    "Zpp.Props.C18_prefix_free"
   ],
   "note": ""
  },
  {
   "property": "C19",
   "status": "proved",
   "theorems": [
    "Zpp.Props.C19_written",
    "Zpp.Props.C19_varint_minimal"
   ],
   "note": "C19_written is about the bytes an archive appends, including uniqueness of the minimal encoding."
  },
  {
   "property": "C20",
   "status": "proved",
   "theorems": [
    "Zpp.Props.C20_varint_roundtrip"
   ],
   "note": "Through archives: C10_round_trip and C10_read_encoding, whose objects include varints anywhere."
  },
  {
   "property": "C21",
   "status": "proved",
   "theorems": [
    "Zpp.Props.C21_archive",
    "Zpp.Props.C21_varint_decoder",
    "Zpp.Props.C21_varint_suffix_irrelevant"
   ],
   "note": "C21_archive includes that value and position are unchanged on failure."
  },
  {
   "property": "C22",
   "status": "proved",
   "theorems": [
    "Zpp.Props.C22_zigzag_bijection"
   ],
   "note": ""
  },
  {
   "property": "C23",
   "status": "proved",
   "theorems": [
    "Zpp.Props.C23_varint_no_ub"
   ],
   "note": ""
  },
  {
   "property": "C24",
   "status": "proved",
   "theorems": [
    "Zpp.Props.C24_written",
    "Zpp.Props.C24_read"
   ],
   "note": ""
  },
  {
   "property": "C25",
   "status": "partial",
   "theorems": [
    "Zpp.Props.C25_struct_out_partial",
    "Zpp.Props.C25_array_out_partial",
    "Zpp.Props.C25_seq_out_partial",
    "Zpp.Props.C25_struct_in_partial",
    "Zpp.Props.C25_array_in_partial",
    "Zpp.Props.C25_seq_in_partial",
    "Zpp.Props.D11_vector_of_empty",
    "Zpp.Props.D15_message_bulk_copied"
   ],
   "note": "Holds for every byte-copied type built from scalars, bool, arrays and padding-free classes. False for two kinds of byte-copied types: empty classes in containers (D11) and protocol messages that are plain classes (D15)."
  },
  {
   "property": "C26",
   "status": "proved",
   "theorems": [
    "Zpp.Props.C26_host_independent",
    "Zpp.Props.C26_native",
    "Zpp.Props.C26_cross_host"
   ],
   "note": ""
  },
  {
   "property": "C27",
   "status": "proved",
   "theorems": [
    "Zpp.Props.C27_same_output",
    "Zpp.Props.C27_same_input",
    "Zpp.Props.C27_read_as_other"
   ],
   "note": ""
  },
  {
   "property": "C28",
   "status": "partial",
   "theorems": [
    "Zpp.Props.C28_size_converted_partial",
    "Zpp.Props.C28_read_back_partial",
    "Zpp.Props.C28_all_items_written"
   ],
   "note": "The prefix is the count modulo 256^w, followed by all elements; a reader gets the first count mod 256^w elements and stops behind them (C28_read_back_partial). The README's 'fewer items are serialized' is refuted by C28_all_items_written."
  },
  {
   "property": "C29",
   "status": "partial",
   "theorems": [
    "Zpp.Props.C29_length_prefix_partial",
    "Zpp.Props.C29_native_order_partial",
    "Zpp.Props.D10_message_size_native_order"
   ],
   "note": "False for multi-byte fixed size fields in byte-swapping archives: the size is patched in native order (D10). Proved for all other archives and size types; C29_native_order_partial is the exact output for every fixed size field, every archive order and every body length."
  },
  {
   "property": "C30",
   "status": "partial",
   "theorems": [
    "Zpp.Props.C30_round_trip_partial",
    "Zpp.Props.C30_unsized_round_trip_partial",
    "Zpp.Props.D13_repeated_number_lost",
    "Zpp.Props.D14_byte_member"
   ],
   "note": "False for repeated strings/messages with an explicit number different from the default one (D13) and for single std::byte members (D14). Proved for the message classes described in C67_covered; members the checks of the compiler also let through (C arrays, nested containers, containers of empty classes; C67_odd_members_compile, D23, D24) are not covered."
  },
  {
   "property": "C31",
   "status": "partial",
   "theorems": [
    "Zpp.Props.C31_conforming_partial",
    "Zpp.Props.D12_fixed32_big_endian",
    "Zpp.Props.D13_repeated_number_lost",
    "Zpp.Props.D14_byte_member",
    "Zpp.Props.D15_message_bulk_copied",
    "Zpp.Props.D25_negative_five_bytes"
   ],
   "note": "Proved except where the code departs from protobuf: fixed numbers in byte-swapping archives with varint sizes (D12), explicit numbers of repeated strings/messages (D13), single std::byte members (D14), messages copied as one block inside containers (D15). A negative vint32_t takes five bytes where protobuf writers use ten (D25)."
  },
  {
   "property": "C32",
   "status": "proved",
   "theorems": [
    "Zpp.Props.C32_pb_safe",
    "Zpp.Props.C32_inside",
    "Zpp.Props.C32_to_the_end",
    "Zpp.Props.C32_to_the_size"
   ],
   "note": "Any message type and bytes. Sized messages are read as if the input ended with them; success means the end of the message was reached."
  },
  {
   "property": "C33",
   "status": "partial",
   "theorems": [
    "Zpp.Props.C33_unknown_tag_partial",
    "Zpp.Props.C33_unknown_not_skipped",
    "Zpp.Props.C33_tag_only_partial",
    "Zpp.Props.C33_tag_between_partial",
    "Zpp.Props.C33_tag_sized_partial"
   ],
   "note": "False as stated: the payload of an undeclared field is read as records (C33_unknown_not_skipped). Proved: undeclared tags themselves have no effect; exactly, for any bytes behind the tag, reading at the tag and reading behind it are the same (except for packed lists, spans and ordered sets, where lengths near 2^64 wrap), so what the code does with the payload is determined."
  },
  {
   "property": "C34",
   "status": "proved",
   "theorems": [
    "Zpp.Props.C34_absent_kept",
    "Zpp.Props.C34_absent_cleared"
   ],
   "note": ""
  },
  {
   "property": "C35",
   "status": "partial",
   "theorems": [
    "Zpp.Props.C35_members",
    "Zpp.Props.C35_order",
    "Zpp.Props.C35_exchange",
    "Zpp.Props.C35_last_wins",
    "Zpp.Props.C35_repeated_partial",
    "Zpp.Props.C35_set_map",
    "Zpp.Props.C35_string_last",
    "Zpp.Props.C35_fixed_overwritten",
    "Zpp.Props.C35_nested_cleared"
   ],
   "note": "Proved except that packed records of fixed size numbers overwrite earlier ones (C35_fixed_overwritten) and containers of nested messages are emptied by each record (C35_nested_cleared)."
  },
  {
   "property": "C36",
   "status": "partial",
   "theorems": [
    "Zpp.Props.C36_rpc_partial",
    "Zpp.Props.C36_call",
    "Zpp.Props.C36_errc_no_response",
    "Zpp.Props.C36_errc_steals"
   ],
   "note": "Simulation of any history of requests, servings and responses over one or two buffers by an ideal message connection, for functions bound by bind and for opaquely bound functions that read their parameters from the archive. Missing because false: a function returning errc sends no response (C36_errc_no_response). Functions that return zpp::throwing: C87."
  },
  {
   "property": "C37",
   "status": "proved",
   "theorems": [
    "Zpp.Props.C37_no_id",
    "Zpp.Props.C37_unknown_id",
    "Zpp.Props.C37_bad_arguments",
    "Zpp.Props.C37_called",
    "Zpp.Props.C37_serve_cases"
   ],
   "note": "Arbitrary request bytes, bindings and functions."
  },
  {
   "property": "C38",
   "status": "proved",
   "theorems": [
    "Zpp.Props.C38_called",
    "Zpp.Props.C38_refused",
    "Zpp.Props.C38_no_parameters",
    "Zpp.Props.C38_encoded",
    "Zpp.Props.C38_errc_reported_as_failure"
   ],
   "note": ""
  },
  {
   "property": "C39",
   "status": "proved",
   "theorems": [
    "Zpp.Props.C39_make",
    "Zpp.Props.C39_shl",
    "Zpp.Props.C39_shr",
    "Zpp.Props.C39_add",
    "Zpp.Props.C39_bitwise",
    "Zpp.Props.C39_compare_big",
    "Zpp.Props.C39_compare_little_wrong"
   ],
   "note": "every width, both hosts, all shift amounts; ordering on little-endian hosts is not numeric (witness)"
  },
  {
   "property": "C40",
   "status": "proved",
   "theorems": [
    "Zpp.Props.C40_sha1"
   ],
   "note": "equals FIPS 180-4 for every accepted message; the accepted messages are characterized"
  },
  {
   "property": "C41",
   "status": "proved",
   "theorems": [
    "Zpp.Props.C41_sha256"
   ],
   "note": "equals FIPS 180-4 for every accepted message; the accepted messages are characterized"
  },
  {
   "property": "C42",
   "status": "proved",
   "theorems": [
    "Zpp.Props.C42_decode_hex",
    "Zpp.Props.C42_inverse",
    "Zpp.Props.C42_lower_upper"
   ],
   "note": "accepts exactly strings of pairs of hex digits"
  },
  {
   "property": "C43",
   "status": "proved",
   "theorems": [
    "Zpp.Props.C43_to_bytes",
    "Zpp.Props.C43_too_large",
    "Zpp.Props.C43_from_bytes",
    "Zpp.Props.C43_id",
    "Zpp.Props.C43_hash_message"
   ],
   "note": "objects without bitset (which reads the uninitialized buffer and does not compile)"
  },
  {
   "property": "C44",
   "status": "proved",
   "theorems": [
    "Zpp.Props.C44_fifo",
    "Zpp.Props.C44_order",
    "Zpp.Props.C44_read_keeps"
   ],
   "note": "Any interleaving of output and input calls over one buffer behaves as a queue."
  },
  {
   "property": "C45",
   "status": "proved",
   "theorems": [
    "Zpp.Props.C45_patch_local"
   ],
   "note": ""
  },
  {
   "property": "C46",
   "status": "proved",
   "theorems": [
    "Zpp.Props.C46_view",
    "Zpp.Props.C46_view_rest",
    "Zpp.Props.C46_everywhere",
    "Zpp.Props.C46_success"
   ],
   "note": "Views are compared by content (the bytes shown) here, by address in C90; views inside protobuf messages (only C arrays of views compile there) are not counted."
  },
  {
   "property": "C47",
   "status": "proved",
   "theorems": [
    "Zpp.Props.C47_span",
    "Zpp.Props.C47_span_unsized"
   ],
   "note": ""
  },
  {
   "property": "C48",
   "status": "proved",
   "theorems": [
    "Zpp.Props.C48_size_type",
    "Zpp.Props.C48_alloc_limit",
    "Zpp.Props.C48_enlarger",
    "Zpp.Props.C48_byte_order",
    "Zpp.Props.C48_byte_order_option",
    "Zpp.Props.C48_flags",
    "Zpp.Props.C48_append",
    "Zpp.Props.C48_plain",
    "Zpp.Props.C48_resize",
    "Zpp.Props.C48_open_valid"
   ],
   "note": ""
  },
  {
   "property": "C49",
   "status": "proved",
   "theorems": [
    "Zpp.Props.C49_read",
    "Zpp.Props.C49_round_trip"
   ],
   "note": "Hashed containers: the iteration order is unspecified, the model lists elements in insertion order."
  },
  {
   "property": "C50",
   "status": "partial",
   "theorems": [
    "Zpp.Props.C50_id_omitted",
    "Zpp.Props.C50_variant_is_id_then_known",
    "Zpp.Props.C50_round_trip_partial",
    "Zpp.Props.C50_unknown_id",
    "Zpp.Props.C50_static_undefined",
    "Zpp.Props.C50_other_alternative_undefined",
    "Zpp.Props.C50_input_partial"
   ],
   "note": "Round trip if the destination holds (or can be given) the alternative of that id; the static form reading a non-default-constructible alternative and output of another alternative are undefined behaviour (proved as negations)."
  },
  {
   "property": "C51",
   "status": "proved",
   "theorems": [
    "Zpp.Props.C51_earlier_output_survives",
    "Zpp.Props.C51_still_readable"
   ],
   "note": ""
  },
  {
   "property": "C52",
   "status": "proved",
   "theorems": [
    "Zpp.Props.C10_round_trip",
    "Zpp.Props.C52_trees"
   ],
   "note": "C10_round_trip covers every self-referencing class; C52_trees is the case of trees, with a recursive specification of its own."
  },
  {
   "property": "C53",
   "status": "proved",
   "theorems": [
    "Zpp.Props.C53_archives",
    "Zpp.Props.C53_bytes",
    "Zpp.Props.C53_request",
    "Zpp.Props.C53_serve_cases",
    "Zpp.Props.C53_reading",
    "Zpp.Props.C53_bytes_take_all"
   ],
   "note": "Functions are arbitrary; the branch for opaque functions returning value_or_errc (4115-4128) is never selected and exceptions thrown by functions are not modelled. A function of the remaining bytes that leaves its span alone takes every waiting request with it (C53_bytes_take_all)."
  },
  {
   "property": "C54",
   "status": "proved",
   "theorems": [
    "Zpp.Props.C54_results",
    "Zpp.Props.C54_default_constructed"
   ],
   "note": "Value types other than void. Default construction is undefined (C54_default_constructed) and excluded."
  },
  {
   "property": "C55",
   "status": "partial",
   "theorems": [
    "Zpp.Props.C55_exact_partial",
    "Zpp.Props.C55_unused_partial",
    "Zpp.Props.C55_unused_sharp",
    "Zpp.Props.C55_varint",
    "Zpp.Props.C55_inside"
   ],
   "note": "False as stated: a varint leaves unused bytes, and inside a buffer the buffer overshoots (witnesses). Exact for types without varints when calls start at the end of the buffer; for every type and position at most eighteen unused bytes (C55_unused_sharp: attained)."
  },
  {
   "property": "C56",
   "status": "proved",
   "theorems": [
    "Zpp.Props.C56_all_or_rejected",
    "Zpp.Props.C56_aggregate",
    "Zpp.Props.C56_bindable",
    "Zpp.Props.C56_too_many",
    "Zpp.Props.C56_declared",
    "Zpp.Props.C56_declared_zero",
    "Zpp.Props.C56_sizes"
   ],
   "note": "visit_members, visit_members_types and both ways of counting members, for any answers of the compiler. A declared count of 0 is not compared with the class (C56_declared_zero). Arrays, tuples and containers of a fixed size are visited element by element (C56_sizes)."
  },
  {
   "property": "C57",
   "status": "proved",
   "theorems": [
    "Zpp.Props.C57_same_rule",
    "Zpp.Props.C57_same_basic",
    "Zpp.Props.C57_same_layout",
    "Zpp.Props.C57_associative_layout",
    "Zpp.Props.C57_by_interface",
    "Zpp.Props.C57_declared",
    "Zpp.Props.C57_fixed_prefix"
   ],
   "note": "For all answers of the compiler to the constraints. Exceptions stated: associative containers with void size type cannot be read; a class with several interfaces may be refused as ambiguous; associative containers with random access iterators and data() would be written as a block."
  },
  {
   "property": "C58",
   "status": "proved",
   "theorems": [
    "Zpp.Props.C58_write_scalar",
    "Zpp.Props.C58_write_bytes",
    "Zpp.Props.C58_move_message",
    "Zpp.Props.C58_read_scalar",
    "Zpp.Props.C58_read_number",
    "Zpp.Props.C58_read_bytes",
    "Zpp.Props.C58_read_varint",
    "Zpp.Props.C58_write_varint"
   ],
   "note": "Equality, as functions on archive states, of the loops used in constant evaluation and of the copies used at run time by Model/Out and Model/In. C58_move_message assumes that the position is behind the reserved length byte, which holds after it has been written."
  },
  {
   "property": "C59",
   "status": "proved",
   "theorems": [
    "Zpp.Props.C59_least",
    "Zpp.Props.C59_elements",
    "Zpp.Props.C59_entries",
    "Zpp.Props.C59_unpaid",
    "Zpp.Props.C59_failed"
   ],
   "note": "Bounds hold on success. C59_unpaid and C59_failed show, as the statement says, what is not bounded: elements of classes without content, and the destination after a failed read."
  },
  {
   "property": "C60",
   "status": "proved",
   "theorems": [
    "Zpp.Props.C60_linear",
    "Zpp.Props.C60_deep"
   ],
   "note": "Linear upper bound for types whose cycles cost input (others: D09_self_owning_never_read), and inputs that need linear stack, so the depth is controlled by the input."
  },
  {
   "property": "C61",
   "status": "proved",
   "theorems": [
    "Zpp.Props.C61_record",
    "Zpp.Props.C61_element",
    "Zpp.Props.C61_packed_length",
    "Zpp.Props.C61_packed_element",
    "Zpp.Props.C61_packed_short",
    "Zpp.Props.C61_number_zero",
    "Zpp.Props.C61_tag"
   ],
   "note": "C61_record: members that are not containers; C61_element: elements of containers (entries of maps included) in records of their own; C61_packed_*: packed records (length unreadable, element unreadable, too short for numbers of fixed size). A packed record keeps the elements in front of the damaged one; a container of numbers of fixed size has been resized. Announced sizes beyond alloc_limit: C16_packed_announced."
  },
  {
   "property": "C62",
   "status": "proved",
   "theorems": [
    "Zpp.Props.C62_members",
    "Zpp.Props.C62_wire",
    "Zpp.Props.C62_round_trip",
    "Zpp.Props.C62_safe",
    "Zpp.Props.C62_local",
    "Zpp.Props.C62_listed"
   ],
   "note": "functions deciding on values handed over; members of library types. A function that lists all members behaves as reflection does (C62_listed), so containers of such objects are covered by the theorems on structs; containers of objects whose function decides on values only if the function loops over them itself"
  },
  {
   "property": "C63",
   "status": "proved",
   "theorems": [
    "Zpp.Props.C63_rewritable",
    "Zpp.Props.C63_normal",
    "Zpp.Props.C63_exact",
    "Zpp.Props.C63_unique",
    "Zpp.Props.C63_resave"
   ],
   "note": "For self-delimiting types. The bool condition is D04; that other types have several encodings is D05 and D07."
  },
  {
   "property": "C64",
   "status": "proved",
   "theorems": [
    "Zpp.Props.C64_same_bytes",
    "Zpp.Props.C64_interchange"
   ],
   "note": "The byte-for-byte behaviour of the writer is C01/C04; Readable on the reader's side includes the iteration order of sets and maps."
  },
  {
   "property": "C65",
   "status": "proved",
   "theorems": [
    "Zpp.Props.C65_memory"
   ],
   "note": "For any enlarger factor that satisfies GrowthLaws."
  },
  {
   "property": "C66",
   "status": "proved",
   "theorems": [
    "Zpp.Props.C66_variant",
    "Zpp.Props.C66_duplicate_rejected",
    "Zpp.Props.C66_mixed_types_rejected",
    "Zpp.Props.C66_selects",
    "Zpp.Props.C66_unknown_refused",
    "Zpp.Props.C66_bindings",
    "Zpp.Props.C66_binding_duplicate",
    "Zpp.Props.C66_numbers",
    "Zpp.Props.C66_numbers_nested"
   ],
   "note": "Types of ids: scalars, bool, arrays of scalars; different enumerations of one size are one type in the model. Alternatives are pairwise different types (otherwise std::get_if does not compile)."
  },
  {
   "property": "C67",
   "status": "proved",
   "theorems": [
    "Zpp.Props.C67_covered",
    "Zpp.Props.C67_compiles",
    "Zpp.Props.C67_odd_members_compile",
    "Zpp.Props.C67_refused"
   ],
   "note": "Each exception is shown to compile (C67_odd_members_compile); D13, D14, D23, D24 show what the library writes for them."
  },
  {
   "property": "C68",
   "status": "partial",
   "theorems": [
    "Zpp.Props.C68_call",
    "Zpp.Props.C68_linear_partial",
    "Zpp.Props.C68_at_most",
    "Zpp.Props.C68_quadratic"
   ],
   "note": "False with the default fit_size option: n calls of one byte each initialize at least n*n/4 bytes (C68_quadratic). Linear for calls without fitting (C68_linear_partial) and within each call (C68_call)."
  },
  {
   "property": "C69",
   "status": "proved",
   "theorems": [
    "Zpp.Props.C69_block",
    "Zpp.Props.C69_fixed",
    "Zpp.Props.C69_written",
    "Zpp.Props.C69_read",
    "Zpp.Props.C69_round_trip",
    "Zpp.Props.C69_all",
    "Zpp.Props.C69_count_not_checked",
    "Zpp.Props.C69_size_wraps"
   ],
   "note": "the limits of the guarantee (count larger than the number of items) are shown too"
  },
  {
   "property": "C70",
   "status": "proved",
   "theorems": [
    "Zpp.Props.C70_wire",
    "Zpp.Props.C70_fixed",
    "Zpp.Props.C70_growing",
    "Zpp.Props.C70_round_trip",
    "Zpp.Props.C70_round_trip_all",
    "Zpp.Props.C70_safe",
    "Zpp.Props.C70_safe_out",
    "Zpp.Props.C70_local",
    "Zpp.Props.C70_as_library_in",
    "Zpp.Props.C70_as_library_out",
    "Zpp.Props.C70_library_keys",
    "Zpp.Props.C70_complete_keys",
    "Zpp.Props.C70_complete_elements",
    "Zpp.Props.C70_seen_elements"
   ],
   "note": "Sets and maps are supposed to be ordered by what is handed over (StaysOrdered; the four theorems on keys and elements say when), since otherwise elements get lost, as an example shows. The two theorems on functions that list all members suppose that the elements of containers are not copied as bytes; the one on reading is for classes that are not recursive, with enough stack for a new object."
  },
  {
   "property": "C71",
   "status": "proved",
   "theorems": [
    "Zpp.Props.C71_evolve",
    "Zpp.Props.C71_appended",
    "Zpp.Props.C71_removed_refuted"
   ],
   "note": "The reader's class has all members of the writer. The converse (members removed) is false in the code and refuted by C71_removed_refuted."
  },
  {
   "property": "C72",
   "status": "proved",
   "theorems": [
    "Zpp.Props.C72_read_encoding",
    "Zpp.Props.C72_round_trip"
   ],
   "note": "Spans and unsized containers inside protobuf messages and inside associative containers are not covered (the former do not compile or are packed fields, covered by C10; elements of the latter are always new objects)."
  },
  {
   "property": "C73",
   "status": "proved",
   "theorems": [
    "Zpp.Props.C73_read",
    "Zpp.Props.C73_remaining_only",
    "Zpp.Props.C73_write",
    "Zpp.Props.C73_user_read",
    "Zpp.Props.C73_user_write"
   ],
   "note": "Writing is stated for views that do not grow: the sizes a growing buffer takes depend on the bytes already in it (its contents are covered by C04)."
  },
  {
   "property": "C74",
   "status": "proved",
   "theorems": [
    "Zpp.Props.C74_output",
    "Zpp.Props.C74_input",
    "Zpp.Props.C74_interchangeable"
   ],
   "note": "The pair of a map element is not counted as a level of the stack, as in the rest of the model. What the compiler answers for the standard types (traitsOf) is a transcription of the standard library's interfaces."
  },
  {
   "property": "C75",
   "status": "proved",
   "theorems": [
    "Zpp.Props.C75_read",
    "Zpp.Props.C75_call",
    "Zpp.Props.C75_apply",
    "Zpp.Props.C75_every_run",
    "Zpp.Props.C75_every_call"
   ],
   "note": "C75_read ranges over arbitrary scripts of decisions and exceptions. C75_every_run proves that each run of the archive model on actual data (any input, any outcome that returns or throws) is among these runs, with the same way of leaving and an ownership record matching the object read. Standard containers and moves are taken to keep their guarantees (a throwing move or resize leaves both sides as they were); shared pointers have one owner."
  },
  {
   "property": "C76",
   "status": "proved",
   "theorems": [
    "Zpp.Props.C76_valid",
    "Zpp.Props.C76_reused",
    "Zpp.Props.C76_never_valueless"
   ],
   "note": "The stack is assumed to suffice (the bound of C60 plus the nesting of new objects). Throwing constructors are not part of the reader model (see C75); the only exception is lack of memory when a container is resized."
  },
  {
   "property": "C77",
   "status": "proved",
   "theorems": [
    "Zpp.Props.C77_same_or_refused",
    "Zpp.Props.C77_success_kept",
    "Zpp.Props.C77_failure_kept"
   ],
   "note": ""
  },
  {
   "property": "C78",
   "status": "proved",
   "theorems": [
    "Zpp.Props.C78_call",
    "Zpp.Props.C78_members",
    "Zpp.Props.C78_array",
    "Zpp.Props.C78_container",
    "Zpp.Props.C78_block"
   ],
   "note": "C78_members, C78_array and C78_container reduce to C78_call."
  },
  {
   "property": "C79",
   "status": "proved",
   "theorems": [
    "Zpp.Props.C79_tape",
    "Zpp.Props.C79_read_anywhere"
   ],
   "note": ""
  },
  {
   "property": "C80",
   "status": "partial",
   "theorems": [
    "Zpp.Props.C80_recognised_partial",
    "Zpp.Props.C80_recursive",
    "Zpp.Props.C80_stable",
    "Zpp.Props.C80_missed",
    "Zpp.Props.C80_missed_alone"
   ],
   "note": "False as stated: mutually recursive classes and classes that find themselves behind two steps or in a variant are missed (C80_missed, C80_missed_alone). C80_recognised_partial is the exact condition; recognised classes are recursive (C80_recursive)."
  },
  {
   "property": "C81",
   "status": "proved",
   "theorems": [
    "Zpp.Props.C81_storage",
    "Zpp.Props.C81_new"
   ],
   "note": "All types of the model, messages included. Elements are counted, not capacity; nodes of sets and maps are counted by C59."
  },
  {
   "property": "C82",
   "status": "proved",
   "theorems": [
    "Zpp.Props.C82_visits",
    "Zpp.Props.C82_work",
    "Zpp.Props.C82_unpaid",
    "Zpp.Props.C82_counts"
   ],
   "note": "Objects visited and elements created are counted; copying bytes and inserting into sets and maps (whose cost depends on the standard library) are not. C82_unpaid shows that the condition is needed: a set of empty objects is read with as many steps as its prefix says, allocation limit or not. C82_counts checks the counting from below: the work of a successful call is at least the number of objects found in the destinations."
  },
  {
   "property": "C83",
   "status": "partial",
   "theorems": [
    "Zpp.Props.C83_text_partial",
    "Zpp.Props.C83_hash_partial",
    "Zpp.Props.C83_hosts_differ",
    "Zpp.Props.C83_rpc_between_hosts",
    "Zpp.Props.C83_distinct"
   ],
   "note": "False in the code for archives with an explicit byte order other than the host's (C83_hosts_differ, C83_rpc_between_hosts: ids are integers in the byte order of the compiling host). True with the host's byte order, and always for texts that do not have the length of an integer."
  },
  {
   "property": "C84",
   "status": "proved",
   "theorems": [
    "Zpp.Props.C84_normal",
    "Zpp.Props.C84_resave",
    "Zpp.Props.C84_unsized",
    "Zpp.Props.C84_limit_refuses"
   ],
   "note": "For the message classes of C67_covered; sizes and memory are assumed to suffice for the object (Roomy, prefixRoom)."
  },
  {
   "property": "C85",
   "status": "proved",
   "theorems": [
    "Zpp.Props.C85_converted",
    "Zpp.Props.C85_preserved",
    "Zpp.Props.C85_accepted",
    "Zpp.Props.C85_call"
   ],
   "note": "Exact account of which calls compile; one departure: if any argument needs a conversion, const objects of classes cannot be passed, because the library casts to a reference that is meant to be const and is not (C85_const_object). Floating point conversions and derived classes not modelled."
  },
  {
   "property": "C86",
   "status": "partial",
   "theorems": [
    "Zpp.Props.C86_levels_partial",
    "Zpp.Props.C86_flat",
    "Zpp.Props.C86_plain",
    "Zpp.Props.C86_quadratic",
    "Zpp.Props.C86_no_factor"
   ],
   "note": "False for messages inside each other: every level moves its body again when its length needs a second byte, so n nested messages of linear size move quadratically many bytes (C86_quadratic, C86_no_factor). Proved: at most one move of each byte for every message with a varint length around it (C86_levels_partial), at most the bytes written for flat messages (C86_flat), none without messages (C86_plain)."
  },
  {
   "property": "C87",
   "status": "partial",
   "theorems": [
    "Zpp.Props.C87_no_id",
    "Zpp.Props.C87_unknown_id",
    "Zpp.Props.C87_bad_arguments",
    "Zpp.Props.C87_called_partial",
    "Zpp.Props.C87_void_lost",
    "Zpp.Props.C87_errc_thrown",
    "Zpp.Props.C87_archives",
    "Zpp.Props.C87_bytes",
    "Zpp.Props.C87_like_ordinary"
   ],
   "note": "False, with proved counterexamples, for functions with parameters that return zpp::throwing<void> and throw (the exception is lost) or return errc and succeed (code 0 is thrown); proved for all other functions. What is assumed of zpp_throwing.h is stated in Model/RpcThrow."
  },
  {
   "property": "C88",
   "status": "partial",
   "theorems": [
    "Zpp.Props.C88_parsers_read_written_partial",
    "Zpp.Props.D12_fixed32_big_endian",
    "Zpp.Props.D13_repeated_number_lost",
    "Zpp.Props.D14_byte_member",
    "Zpp.Props.D15_message_bulk_copied",
    "Zpp.Props.D25_negative_five_bytes"
   ],
   "note": "Proved for all message classes and archives except those where the code departs from protobuf (D12-D15, see C31). D25: a negative vint32_t is written in five bytes; int32 parsers read it, int64 parsers do not."
  },
  {
   "property": "C89",
   "status": "partial",
   "theorems": [
    "Zpp.Props.C89_reads_as_parsers_partial",
    "Zpp.Props.C89_any_bytes_partial",
    "Zpp.Props.C89_same_values",
    "Zpp.Props.C89_set_map",
    "Zpp.Props.C89_undeclared_field",
    "Zpp.Props.C89_packed_twice",
    "Zpp.Props.C89_nested_twice",
    "Zpp.Props.C89_map_key_twice",
    "Zpp.Props.C89_negative_int32",
    "Zpp.Props.C89_wire_type",
    "Zpp.Props.C89_wide_bool"
   ],
   "note": "C89_reads_as_parsers_partial: messages in the library's own encoding of keys and numbers are read, with the values of the parser. C89_any_bytes_partial: for arbitrary bytes (varints of any length, in keys, lengths and numbers, at any depth), whenever both the library and the parser accept, they agree. Both for declared fields with the declared wire types, in which nested messages and packed numbers of fixed size (and sets of characters) have one record. Sets and maps hold the elements the parser lists, in container order (C89_set_map). False otherwise: a witness for undeclared fields, second packed records of fixed size numbers, second records of nested messages, duplicate keys, ten byte negative numbers, other wire types and bools of two groups."
  },
  {
   "property": "C90",
   "status": "proved",
   "theorems": [
    "Zpp.Props.C90_same",
    "Zpp.Props.C90_shares",
    "Zpp.Props.C90_apart",
    "Zpp.Props.C90_failed",
    "Zpp.Props.C90_kept",
    "Zpp.Props.C90_copies",
    "Zpp.Props.C90_shared_buffer"
   ],
   "note": "Places are buffer, offset and length; a buffer that grows and is moved is another buffer. Views inside protobuf messages (only C arrays of views compile there) are not counted."
  },
  {
   "property": "C91",
   "status": "partial",
   "theorems": [
    "Zpp.Props.C91_other_buffers",
    "Zpp.Props.C91_own_buffer_partial",
    "Zpp.Props.C91_fixed",
    "Zpp.Props.C91_pass_on",
    "Zpp.Props.C91_compact",
    "Zpp.Props.C91_outside",
    "Zpp.Props.C91_growing",
    "Zpp.Props.C91_in_front"
   ],
   "note": "Proved for views of other buffers, and for views of bytes of the archive's own buffer that it has already passed or that are at or behind the position at which the call ends, if the call does not enlarge the buffer beyond its capacity (fixed buffers never are; C95 says how much to reserve). False otherwise: a view of a growing vector dangles when the vector is moved before the bytes are copied (C91_growing), and a view of bytes the call writes to shows, or overlaps with, what is being written (C91_in_front). A view inside a protobuf message is taken to be read when the message begins."
  },
  {
   "property": "C92",
   "status": "partial",
   "theorems": [
    "Zpp.Props.C92_iff",
    "Zpp.Props.C92_small_partial",
    "Zpp.Props.C92_top_bit"
   ],
   "note": "False if the top bit of the value is set (C92_iff: if and only if): 2^31 as varint<uint32_t, zig_zag> comes back as 2^32 - 1 (C92_top_bit)."
  },
  {
   "property": "C93",
   "status": "partial",
   "theorems": [
    "Zpp.Props.C93_visits",
    "Zpp.Props.C93_rejected",
    "Zpp.Props.C93_upgrade",
    "Zpp.Props.C93_too_many",
    "Zpp.Props.C93_message_partial",
    "Zpp.Props.C93_beyond_ignored",
    "Zpp.Props.C93_lost",
    "Zpp.Props.C93_ambiguous"
   ],
   "note": "False for message classes that declare fewer members than they have: accepted with packs, all members are written but only the declared ones are read (C93_beyond_ignored, C93_lost), and field numbers of the others are not compared (C93_ambiguous)."
  },
  {
   "property": "C94",
   "status": "proved",
   "theorems": [
    "Zpp.Props.C94_exactly",
    "Zpp.Props.C94_growing",
    "Zpp.Props.C94_fixed",
    "Zpp.Props.C94_read"
   ],
   "note": "The list also has the case of a variant whose ids are not values of the type of its ids, which C++ rejects at compile time. What the code does with the obstacles: null owning pointers are rejected (C09), counts that do not fit are truncated (C28), lengths that do not fit are in C29."
  },
  {
   "property": "C95",
   "status": "proved",
   "theorems": [
    "Zpp.Props.C95_stays",
    "Zpp.Props.C95_exact",
    "Zpp.Props.C95_fixed",
    "Zpp.Props.C95_views",
    "Zpp.Props.C95_pass_on",
    "Zpp.Props.C95_moves"
   ],
   "note": "std::vector is assumed to move exactly when its size exceeds its capacity; the growth policy is arbitrary. C95_moves shows that reserving only the bytes to be written is not enough: the buffer is enlarged beyond them before it is fitted."
  },
  {
   "property": "C96",
   "status": "proved",
   "theorems": [
    "Zpp.Props.C96_pieces",
    "Zpp.Props.C96_sent",
    "Zpp.Props.C96_message_early"
   ],
   "note": "C96_message_early shows why protobuf messages are not among the types: their length is cut to the bytes that are there."
  },
  {
   "property": "C97",
   "status": "proved",
   "theorems": [
    "Zpp.Props.C97_length",
    "Zpp.Props.C97_read",
    "Zpp.Props.C97_replace",
    "Zpp.Props.C97_replace_fixed",
    "Zpp.Props.C97_same",
    "Zpp.Props.C97_read_back"
   ],
   "note": "Replacements that contain bitsets are excluded: bitsets are written over the bytes beneath with OR (C08_depends_on_old_content)."
  },
  {
   "property": "C98",
   "status": "proved",
   "theorems": [
    "Zpp.Props.C98_new_reads_old",
    "Zpp.Props.C98_old_reads_new"
   ],
   "note": "Plain format; protobuf messages have their own rules (C71)."
  },
  {
   "property": "C99",
   "status": "proved",
   "theorems": [
    "Zpp.Props.C99_old_reads_new",
    "Zpp.Props.C99_new_reads_old",
    "Zpp.Props.C99_followed_refuted"
   ],
   "note": "C99_followed_refuted shows why nothing may follow the old message."
  }
 ]
}
