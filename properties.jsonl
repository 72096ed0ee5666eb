{"id": "C01", "title": "Writing into a fixed buffer never leaves the buffer", "statement": "Serializing any object with `out` over a fixed-size view (array, span), starting at a position inside the view, never performs an out-of-bounds access: bytes in front of the start position keep their value, the view keeps its size, and the position stays between its old value and the view size, whatever the result code.", "quantifier": "every object of every modelled type (nested to any depth), every buffer content, size and start position <= size, every archive option set", "why_tests_cant": "The set of objects, sizes and positions is infinite; a test only shows a handful of shapes and cannot show the absence of an out-of-bounds write.", "anchors": ["zpp_bits.h: basic_out::serialize_one (2042-2416), basic_out::operator() (1925), serialize(varint) (1659-1701)"]}
{"id": "C02", "title": "Fixed-buffer success is exact", "statement": "`out` over a fixed view returns success exactly when the wire encoding of the object fits in the remaining bytes; on success the bytes [position, position+len) are exactly the wire encoding, no other byte changes and position grows by exactly len; otherwise it returns result_out_of_range.", "quantifier": "every encodable object of every modelled type, every buffer and start position (Excepted are the combinations in which the code departs from its documented format; these departures are the subject of C08, C25, C29, C30 and C31 and listed in DESIGN.md under Disagreements.)", "why_tests_cant": "Off-by-one boundaries exist for every type and every remaining-space value; only a proof covers all combinations.", "anchors": ["zpp_bits.h: basic_out::serialize_one (2042-2416)", "README.md: Error Codes"]}
{"id": "C03", "title": "Wire format is the documented one", "statement": "The bytes an output archive produces for an object are a function of the object, its type and the archive's size/endian options only, equal to the documented format (scalars verbatim, size prefix then elements, 1-byte optional flag, variant id then object, bitset packed LSB first, struct members in order, protobuf records), and do not depend on buffer kind, start position, growth policy or earlier buffer content.", "quantifier": "every encodable object, every start position, every buffer content, fixed and growing buffers, every growth option (Excepted are the combinations in which the code departs from its documented format; these departures are the subject of C08, C25, C29, C30 and C31 and listed in DESIGN.md under Disagreements.)", "why_tests_cant": "Two executions with different buffers would have to be compared for infinitely many objects.", "anchors": ["zpp_bits.h: basic_out (1860-2422)", "README.md: How does it work / Serialization format"]}
{"id": "C04", "title": "Growing buffer: earlier bytes survive and the result is appended", "statement": "With a growing buffer (vector, string), a successful `out` call leaves every byte in front of the start position unchanged, puts the wire encoding at the start position, keeps every old byte behind the encoding unchanged, and value-initializes newly created bytes.", "quantifier": "every encodable object, every initial buffer, every position <= size, every enlarger M/D with M >= D (Excepted are the combinations in which the code departs from its documented format; these departures are the subject of C08, C25, C29, C30 and C31 and listed in DESIGN.md under Disagreements.)", "why_tests_cant": "Growth happens at data dependent moments; every interleaving of growth and writes must keep the earlier bytes.", "anchors": ["zpp_bits.h: basic_out::enlarge_for (1966-2002), out::operator() (2443-2456)"]}
{"id": "C05", "title": "Growing buffer is fitted at the end of the call", "statement": "After `out(...)` on a growing buffer without no_fit_size the buffer is exactly as long as max(old size, position): if the buffer had to grow it is cut to the exact position, and it never shrinks below its size at the start of the call.", "quantifier": "every call, every object list, every initial buffer and position, success or failure", "why_tests_cant": "README promises it for every call; the interesting cases are when growth over-allocates and when position stays below the old end.", "anchors": ["zpp_bits.h: out::operator() (2443-2456)", "README.md: Data Sources & Sinks"]}
{"id": "C06", "title": "Growing buffer fails only by the documented cause", "statement": "Serializing an encodable object into a growing buffer fails only with no_buffer_space (allocation limit exceeded or size arithmetic overflow) or by the container's own allocation failure; whenever the enlarged size stays below the limit, the machine word and the host capacity the call succeeds.", "quantifier": "every encodable object, every growth option, every alloc_limit", "why_tests_cant": "Needs every growth sequence; tests exercise only small sizes where arithmetic cannot overflow.", "anchors": ["zpp_bits.h: basic_out::enlarge_for (1966-2002)", "README.md: Error Codes"]}
{"id": "C07", "title": "alloc_limit bounds the output buffer", "statement": "With alloc_limit<L> the output buffer never becomes larger than max(its initial size, L), at any moment of any sequence of output calls, successful or not.", "quantifier": "every sequence of output calls of any objects from any initial state", "why_tests_cant": "A bound over all histories of calls.", "anchors": ["zpp_bits.h: basic_out::enlarge_for (1993-1998), traits::alloc_limit (682-705)", "README.md: alloc_limit"]}
{"id": "C08", "title": "Bitset output does not depend on old buffer content", "statement": "The bytes written for a std::bitset are determined by the bitset alone, also when the target bytes already hold data (reused fixed buffer, rewound position).", "quantifier": "every bitset, every previous content of the target bytes", "why_tests_cant": "A test on a zeroed buffer always passes; the property quantifies over previous contents.", "anchors": ["zpp_bits.h: basic_out::serialize_one(bitset) (2314-2339)"]}
{"id": "C09", "title": "Null owning pointers and valueless variants are rejected", "statement": "Serializing an object that contains, at any depth reached, a null owning pointer or a valueless variant never succeeds; with enough space the call returns invalid_argument.", "quantifier": "every object of every modelled type containing such a part, any position and depth of the part", "why_tests_cant": "The offending part may sit at any depth, in any container element.", "anchors": ["zpp_bits.h: serialize_one(variant) (2277-2302), serialize_one(owning_pointer) (2304-2312)", "README.md: Error Codes"]}
{"id": "C10", "title": "Round trip", "statement": "Reading back the bytes written for an object, with an input archive of the same options, succeeds and yields an equal object, whatever the destination object held before.", "quantifier": "every encodable object of every modelled self-delimiting type (recursive types included), every previous destination value (Excepted are the combinations in which the code departs from its documented format; these departures are the subject of C08, C25, C29, C30 and C31 and listed in DESIGN.md under Disagreements.)", "why_tests_cant": "Objects are infinite in number and depth; tests use a few literals.", "anchors": ["zpp_bits.h: basic_out::serialize_one (2042-2416), in::serialize_one (2601-3122)"]}
{"id": "C11", "title": "Decoding consumes exactly the encoded bytes and depends on nothing else", "statement": "A successful read of objects of self-delimiting types (no protobuf message, whose length is clamped to the input, no mutable span, no container without size prefix) advances the position by exactly the number of bytes it read and its outcome does not depend on any byte outside that range: replacing everything before and after the consumed bytes changes neither the value nor the consumed length.", "quantifier": "every byte string, every position, every self-delimiting type without protobuf messages", "why_tests_cant": "Relates infinitely many pairs of inputs (relational property); in particular fast and slow decoder paths are selected by trailing data.", "anchors": ["zpp_bits.h: in::serialize_one (2601-3122), decode_varint (1703-1743)"]}
{"id": "C12", "title": "Calls compose: a stream of objects is read back in order", "statement": "Any sequence of objects written by successive output calls (grouped into calls in any way) is read back, in order, by input calls grouped in any other way; grouping changes neither the bytes nor the values.", "quantifier": "every list of objects and every grouping of both writer and reader calls (Excepted are the combinations in which the code departs from its documented format; these departures are the subject of C08, C25, C29, C30 and C31 and listed in DESIGN.md under Disagreements.)", "why_tests_cant": "All histories of calls; grouping choices grow exponentially.", "anchors": ["zpp_bits.h: serialize_many (2005-2019, 2585-2599), operator() (1925, 2443, 2532)"]}
{"id": "C13", "title": "Reading arbitrary bytes is memory safe", "statement": "Reading any type from any byte string at any position inside it never accesses memory outside the input (nor performs any other modelled undefined operation), always terminates (given stack), and leaves the position between its old value and the input size.", "quantifier": "every byte string (malformed included), every position <= size, every modelled type, every destination value", "why_tests_cant": "All inputs; fuzzing only samples.", "anchors": ["zpp_bits.h: in::serialize_one (2601-3122), decode_varint (1703-1743)"]}
{"id": "C14", "title": "Truncated input is always detected", "statement": "If the input ends before the end of an object's encoding (self-delimiting types, as in C11), reading the object fails with result_out_of_range and never succeeds with a partial value.", "quantifier": "every encodable object of every self-delimiting non-protobuf type and every proper prefix of its encoding", "why_tests_cant": "Every cut point of every encoding.", "anchors": ["zpp_bits.h: in::serialize_one (2601-3122)", "README.md: Error Codes"]}
{"id": "C15", "title": "Successful reads do not depend on the destination's old value", "statement": "The result code and position after a read never depend on what the destination object held before, and on success the resulting value does not either. (Excepted are the types documented to use the old contents: protobuf messages, mutable spans, containers without size prefix.)", "quantifier": "every byte string, every pair of previous destination values, every self-delimiting type without protobuf messages and without mutable spans", "why_tests_cant": "Relational property over all inputs and all previous values; decoders reuse vectors, optionals and variants in place.", "anchors": ["zpp_bits.h: in::serialize_one container/optional/variant (2725-3056)"]}
{"id": "C16", "title": "alloc_limit on input", "statement": "With alloc_limit<L>, reading a resizable container whose announced element count exceeds L / sizeof(element) fails with message_size before any resize, and no sequence container is ever resized beyond L bytes.", "quantifier": "every byte string, every type, every limit", "why_tests_cant": "The announced size is attacker controlled; the property ranges over all of them and over all nesting positions.", "anchors": ["zpp_bits.h: in::serialize_one(container) (2759-2767)", "README.md: alloc_limit"]}
{"id": "C17", "title": "Owning pointers keep their old object when a read fails", "statement": "If reading the pointee of an owning pointer (unique_ptr, shared_ptr, optional_ptr with a set flag) fails, the pointer still owns its previous object, unmodified.", "quantifier": "every byte string making the read fail, every pointee type, every previous pointer value", "why_tests_cant": "Every failure point inside the pointee.", "anchors": ["zpp_bits.h: in::serialize_one(owning_pointer) (3058-3071), serialize(optional_ptr) (1492-1515)"]}
{"id": "C18", "title": "Encodings are prefix free", "statement": "For a fixed self-delimiting type, the encoding of one value is never a proper prefix of the encoding of another, and different values have different encodings.", "quantifier": "every pair of encodable values of every self-delimiting type", "why_tests_cant": "Pairs of values.", "anchors": ["zpp_bits.h: basic_out (1860-2422)"]}
{"id": "C19", "title": "varint encoding is minimal LEB128 with the advertised size", "statement": "The bytes written for a varint are the unique minimal base-128 little-endian encoding of its unsigned value (zigzag image for zig_zag), their number equals varint_size(value) and is at most varint_max_size.", "quantifier": "every value of every integer width 1, 2, 4, 8 bytes, both encodings", "why_tests_cant": "2^64 values and bit-twiddling formula for the size.", "anchors": ["zpp_bits.h: varint_max_size (1641), varint_size (1645-1657), serialize(varint out) (1659-1701)"]}
{"id": "C20", "title": "varint round trip", "statement": "Decoding the encoding of a varint yields the same value and consumes exactly the encoded bytes, for every number of bytes following.", "quantifier": "every value of every width and encoding, every trailing data", "why_tests_cant": "2^64 values times two decoder code paths.", "anchors": ["zpp_bits.h: decode_varint (1703-1743), serialize(varint in) (1745-1833)"]}
{"id": "C21", "title": "varint decoder paths agree", "statement": "The byte-by-byte path, the unrolled path, the first-byte shortcut and the ZPP_BITS_INLINE_DECODE_VARINT variant return the same value and length whenever a terminated varint lies within varint_max_size bytes; an unterminated varint is always rejected (result_out_of_range if fewer than the maximal number of bytes remain, value_too_large otherwise), leaving value and position unchanged.", "quantifier": "every byte string, every width and encoding", "why_tests_cant": "All inputs; paths differ only by the amount of trailing data.", "anchors": ["zpp_bits.h: decode_varint (1703-1743), serialize(varint in) (1745-1833)"]}
{"id": "C22", "title": "zigzag is a bijection that keeps small magnitudes small", "statement": "The zig_zag mapping sends the signed value x to 2x if x >= 0 and to -2x-1 otherwise; it is a bijection between the signed range and the unsigned range of the width and the decoder applies its inverse.", "quantifier": "every signed value of every width", "why_tests_cant": "2^64 values.", "anchors": ["zpp_bits.h: serialize(varint) zig_zag branches (1668-1671, 1776-1779), varint_size (1647)"]}
{"id": "C23", "title": "varint shifts never overflow", "statement": "Decoding a varint never shifts by the width of the (promoted) type or more and always yields a value inside the range of the type, for arbitrary bytes.", "quantifier": "every byte string, every width", "why_tests_cant": "Undefined behaviour on unseen inputs is invisible to tests.", "anchors": ["zpp_bits.h: decode_varint (1703-1743)"]}
{"id": "C24", "title": "Variant ids select exactly the alternative written", "statement": "A variant is written as the id of its active alternative followed by the alternative; reading selects the alternative whose id equals the id read and no other; an id that belongs to no alternative gives bad_message and leaves the variant untouched.", "quantifier": "every variant type with distinct ids, every id read, every active alternative", "why_tests_cant": "All ids (2^64 or arbitrary byte arrays).", "anchors": ["zpp_bits.h: traits::variant_impl (431-564), serialize_one(variant) (2277-2302, 2964-3056)", "README.md: Variant Types and Version Control"]}
{"id": "C25", "title": "Byte-copy optimization is invisible", "statement": "For every type the library decides to serialize with a single memcpy, the resulting bytes, the consumed bytes and the decoded value are the same as member by member serialization.", "quantifier": "every type accepted by the byte-serializable test (any nesting of scalars, arrays, padding-free structs), every value", "why_tests_cant": "The decision is a recursive trait over all types.", "anchors": ["zpp_bits.h: access::byte_serializable (1270-1328), concepts::serialize_as_bytes (878), serialize_one(bytes) (2087-2141, 2642-2685)", "README.md: as bytes"]}
{"id": "C26", "title": "Explicit byte order makes the format host independent", "statement": "With endian::big (network) or endian::little given, the bytes produced are the same on little- and big-endian hosts and are read back correctly on either; without the option native order is used.", "quantifier": "every encodable object, both host byte orders, both options (Excepted are the combinations in which the code departs from its documented format; these departures are the subject of C08, C25, C29, C30 and C31 and listed in DESIGN.md under Disagreements.)", "why_tests_cant": "Needs hosts of both byte orders and every object.", "anchors": ["zpp_bits.h: endian options (1110-1129), endian_aware (1889, 2512), serialize_one fundamental (2051-2086, 2610-2641)", "README.md: endian options"]}
{"id": "C27", "title": "optional_ptr and optional share a wire format", "statement": "optional_ptr<T> is serialized identically to std::optional<T> and each can be read as the other.", "quantifier": "every T, every value, null or not", "why_tests_cant": "All types and values.", "anchors": ["zpp_bits.h: optional_ptr serialize (1480-1515), serialize_one(optional) (2267-2275, 2921-2962)", "README.md: optional_ptr"]}
{"id": "C28", "title": "Size prefix too small", "statement": "If a container holds more elements than its size type can represent, fewer items are serialized according to unsigned conversion, i.e. the output stays self-consistent: reading it back consumes exactly what was written.", "quantifier": "every container and every fixed size type", "why_tests_cant": "Only sizes beyond 2^8, 2^16, 2^32 show the behaviour.", "anchors": ["zpp_bits.h: serialize_one(container) (2195-2218, 2236-2247)", "README.md: sized containers note"]}
{"id": "C29", "title": "Length prefix of protocol messages is exact", "statement": "A message serialized by a protocol is preceded by a size field equal to the number of bytes of the message body, the body is the protocol's own encoding unchanged, and this holds for every size type including varint, whose own length varies with the body.", "quantifier": "every message, every size type wide enough, fixed and growing buffers, any start position", "why_tests_cant": "Boundary at every varint length step (2^7, 2^14, ...), moving the body inside the buffer.", "anchors": ["zpp_bits.h: basic_out::serialize_one(by_protocol) (2341-2416)"]}
{"id": "C30", "title": "Protobuf round trip", "statement": "Reading back the protobuf encoding of a message yields an equal message.", "quantifier": "every message type within the protobuf subset (nested, repeated, packed, maps, recursive), every value", "why_tests_cant": "Infinite messages and schemas.", "anchors": ["zpp_bits.h: pb (4454-5173)", "README.md: Protobuf"]}
{"id": "C31", "title": "Protobuf output is conforming protobuf", "statement": "The encoding of a message is the concatenation, in declaration order, of standard protobuf records: each member appears under its declared field number with the wire type of its kind, scalars as varint/fixed32/fixed64 little endian, strings, bytes, packed numbers, nested messages and map entries as length-delimited with exact length.", "quantifier": "every message type and value, every archive the message is written to", "why_tests_cant": "Conformance for all schemas, field numbers and archive options.", "anchors": ["zpp_bits.h: pb::serialize_one (4787-4927), make_tag (4632-4690), field_number (4532-4550)", "README.md: Protobuf"]}
{"id": "C32", "title": "Protobuf input is safe and terminates", "statement": "Reading a protobuf message from arbitrary bytes never accesses memory outside the message, always terminates and returns success or a documented error code.", "quantifier": "every byte string, every message type", "why_tests_cant": "All inputs.", "anchors": ["zpp_bits.h: pb::deserialize_fields (4947-4983), deserialize_field (4985-5172)"]}
{"id": "C33", "title": "Unknown protobuf fields are skipped", "statement": "A field whose number is not declared in the message is skipped with its payload and does not influence the declared fields (protobuf forward compatibility).", "quantifier": "every message, every unknown record at any place", "why_tests_cant": "All unknown records and positions.", "anchors": ["zpp_bits.h: pb::deserialize_field (4985-5024)"]}
{"id": "C34", "title": "Absent protobuf fields leave members intact", "statement": "Members whose field does not occur in the input keep their previous value, except containers, which become empty.", "quantifier": "every message type, every sequence of records, every previous value", "why_tests_cant": "All subsets of fields and all previous values.", "anchors": ["zpp_bits.h: pb::deserialize_fields (4947-4983)", "README.md: Protobuf"]}
{"id": "C35", "title": "Protobuf field order does not matter, last value wins", "statement": "Permuting the records of different singular fields does not change the decoded message; for a repeated occurrence of a singular scalar field the last one wins; repeated fields keep the relative order of their records.", "quantifier": "every permutation of every record sequence", "why_tests_cant": "Factorially many permutations.", "anchors": ["zpp_bits.h: pb::deserialize_fields (4947-4983), deserialize_field (5026-5172)"]}
{"id": "C36", "title": "RPC end to end", "statement": "For a client and server built from the same bindings over connected archives, request<Id>(args), serve(), response<Id>() delivers exactly f(args) of the binding with that id, calls f exactly once and no other function.", "quantifier": "every binding list with distinct ids, every binding, all arguments and all functions", "why_tests_cant": "All bindings, arguments and functions.", "anchors": ["zpp_bits.h: rpc_impl (3835-4332), bind (3744-3765), apply (3625-3742)", "README.md: RPC"]}
{"id": "C37", "title": "RPC server on arbitrary requests", "statement": "serve() calls a bound function only if the request starts with that binding's id and its parameters decode completely; an id without binding yields not_supported; in all failing cases no function is called and nothing is written to the response.", "quantifier": "every request byte string, every binding list", "why_tests_cant": "All requests.", "anchors": ["zpp_bits.h: rpc_impl::server (4059-4300)"]}
{"id": "C38", "title": "apply calls the function iff its arguments decode", "statement": "apply(f, archive) decodes all parameters in order and calls f once with them exactly if decoding succeeds; otherwise f is not called and the error is returned.", "quantifier": "every function signature, every input", "why_tests_cant": "All inputs and signatures.", "anchors": ["zpp_bits.h: apply (3625-3742)"]}
{"id": "C39", "title": "Big-endian numbers compute like ordinary unsigned numbers", "statement": "Shifts, addition and bitwise operations of numbers::big_endian<T> give the big-endian representation of the same operation on T modulo 2^bits, on hosts of either byte order.", "quantifier": "every pair of values of every width, every shift amount 0..bits", "why_tests_cant": "2^64 x 2^64 operand pairs.", "anchors": ["zpp_bits.h: numbers::big_endian (5180-5316)"]}
{"id": "C40", "title": "sha1 is SHA-1", "statement": "sha1<object>() equals the FIPS 180-4 SHA-1 digest of the object's bytes for every message it accepts (the padding computation accepts exactly messages with length mod 64 <= 55).", "quantifier": "every byte string", "why_tests_cant": "All messages; tests use two.", "anchors": ["zpp_bits.h: sha1 (5318-5405)"]}
{"id": "C41", "title": "sha256 is SHA-256", "statement": "sha256<object>() equals the FIPS 180-4 SHA-256 digest of the object's bytes for every message it accepts.", "quantifier": "every byte string", "why_tests_cant": "All messages; tests use two.", "anchors": ["zpp_bits.h: sha256 (5407-5534)"]}
{"id": "C42", "title": "Hex literals", "statement": "\"...\"_decode_hex yields, for every even-length string of hex digits in any case, the bytes those digits denote, and is the inverse of lower- and upper-case hex encoding.", "quantifier": "every byte string, every hex string", "why_tests_cant": "All strings.", "anchors": ["zpp_bits.h: operator\"\"_decode_hex (5552-5586)"]}
{"id": "C43", "title": "Compile-time bytes equal run-time bytes and size is exact", "statement": "to_bytes<objects...>() is exactly the concatenation of the objects' wire encodings, from_bytes inverts it, and id<...> of up to 8 bytes round trips through its integer form.", "quantifier": "every object list", "why_tests_cant": "All objects.", "anchors": ["zpp_bits.h: to_bytes_one, join, to_bytes, from_bytes, slice, serialize_id (3214-3304)"]}
{"id": "C44", "title": "Shared in/out archive is a FIFO queue", "statement": "On a shared growing buffer (in_out / data_in_out), any interleaving of output and input calls behaves as a FIFO queue of objects: the k-th object read equals the k-th written, provided it was written before, and reading never changes the buffer.", "quantifier": "every finite interleaving of successful writes and reads of every type sequence (Excepted are the combinations in which the code departs from its documented format; these departures are the subject of C08, C25, C29, C30 and C31 and listed in DESIGN.md under Disagreements.)", "why_tests_cant": "All schedules of reads and writes.", "anchors": ["zpp_bits.h: in_out (3155), data_in_out (3165), basic_out, in"]}
{"id": "C45", "title": "Patching at a saved position is local", "statement": "Rewinding an output archive to an earlier position and writing an encoding there changes only the bytes it covers; in particular a fixed-size header can be reserved, later patched, and everything else stays.", "quantifier": "every earlier position, every object, every buffer (Excepted are the combinations in which the code departs from its documented format; these departures are the subject of C08, C25, C29, C30 and C31 and listed in DESIGN.md under Disagreements.)", "why_tests_cant": "All positions and objects.", "anchors": ["zpp_bits.h: reset/position (1935-1959)", "README.md: position control"]}
{"id": "C46", "title": "Zero-copy views stay inside the input", "statement": "Reading a const byte view or string_view yields exactly the announced bytes of the input and fails with result_out_of_range if they are not all present; an unsized view takes exactly the rest of the input. Wherever views occur in the objects of a call (members, elements, map keys, optionals, variants, pointers), after a successful call every one of them shows bytes this call has consumed, never bytes of an earlier input; after a failed call a view is either such a window or the one the object held before.", "quantifier": "every byte string and position, every object containing views at any depth, every outcome", "why_tests_cant": "All announced sizes.", "anchors": ["zpp_bits.h: in::serialize_one(container) view branches (2768-2777, 2811-2836)", "README.md: views"]}
{"id": "C47", "title": "Mutable spans are never overrun", "statement": "Reading into a mutable span writes at most the span's elements: an announced count larger than the span fails with result_out_of_range, a smaller one shrinks the span to the count.", "quantifier": "every input, every span length", "why_tests_cant": "All announced sizes.", "anchors": ["zpp_bits.h: in::serialize_one(container) (2778-2783)"]}
{"id": "C48", "title": "Archive options mean what they say", "statement": "The effective size type, allocation limit and enlarger of an archive are those of the first option that sets them, in any option list, with the documented defaults (4-byte sizes, no limit, 3/2); the byte order is swapped exactly if some option asks for the order opposite to the host's; append starts writing at the end of the existing data, resize sets the buffer size, other options leave the buffer alone.", "quantifier": "every list of options", "why_tests_cant": "All option lists.", "anchors": ["zpp_bits.h: traits option helpers (653-730), options (1073-1172), option(append) (2021-2040)", "README.md: options"]}
{"id": "C49", "title": "Associative containers", "statement": "A set or map is written as its size and its elements and is read back as an equal container; reading never leaves an old element in it and an element whose key is already present is ignored.", "quantifier": "every ordered/unordered set/map/multi container value and every input (Excepted are the combinations in which the code departs from its documented format; these departures are the subject of C08, C25, C29, C30 and C31 and listed in DESIGN.md under Disagreements.)", "why_tests_cant": "All containers and all (duplicate) inputs.", "anchors": ["zpp_bits.h: in::serialize_one(associative_container) (2851-2904)"]}
{"id": "C50", "title": "known_id variants", "statement": "Writing with known_id<Id> omits the id and writes the alternative with that id, and reading with the same known_id (static or dynamic) restores the variant; the active alternative must be the one named.", "quantifier": "every variant, every id, every alternative", "why_tests_cant": "All variants and ids.", "anchors": ["zpp_bits.h: known_id (3306-3360), serialize_one<KnownId> (2283-2287, 2974-3001)"]}
{"id": "C51", "title": "Failed output calls do not damage earlier output", "statement": "After a failing output call every byte in front of the position at the start of the call is unchanged, the position is still inside the buffer, and everything written by earlier successful calls can still be read back.", "quantifier": "every sequence of calls with failures at any point", "why_tests_cant": "Every failure point in every object.", "anchors": ["zpp_bits.h: basic_out (1860-2422)"]}
{"id": "C52", "title": "Recursive data structures of any depth", "statement": "Self-referencing types (trees through containers, optional_ptr, owning pointers) are written and read back correctly for any finite value, limited only by stack depth.", "quantifier": "every finite value of every self-referencing type", "why_tests_cant": "Unbounded depth.", "anchors": ["zpp_bits.h: access::self_referencing (1392-1444), serialize_one self_referencing branches (2147, 2691)", "README.md: self referencing types"]}
{"id": "C53", "title": "Opaque RPC bindings get exactly the unread request", "statement": "When the id of a request belongs to a binding made with bind_opaque, server.serve() calls that function exactly once with the input archive right behind the id (or with exactly the bytes behind the id, if it takes the remaining data), reads nothing else itself, and keeps the input position and the output the function left. Afterwards an errc result is the outcome, any other result is appended to the output by one output call. A function of the remaining data moves the input position by the size of the span it leaves. Objects a client sent after the id can be read by the function.", "quantifier": "every list of bindings with distinct ids (ordinary and opaque mixed), every function, every request bytes and position, every state of the output", "why_tests_cant": "Arbitrary functions, requests and mixtures of bindings.", "anchors": ["zpp_bits.h: bind_opaque (3767-3833)", "zpp_bits.h: rpc_impl::server::call_binding (4097-4139)"]}
{"id": "C54", "title": "value_or_errc neither leaks nor destroys twice", "statement": "A value_or_errc made from a value or an error, moved any number of times, gives back that value or error through success(), failure(), value(), error() and or_throw(); each value object ever made inside one is destroyed exactly once, and there is no undefined behaviour as long as value() is asked of values and error() of errors only. (A default-constructed one is recorded as an exception.)", "quantifier": "every history of constructions, moves, accesses and destructions of any number of value_or_errc objects, every value type", "why_tests_cant": "Unbounded histories of moves and destructions.", "anchors": ["zpp_bits.h: value_or_errc (3469-3623)"]}
{"id": "C55", "title": "exact_enlarger grows to the exact size", "statement": "With exact_enlarger a growing buffer is exactly as long as the data written so far after every call, without the fitting step other enlargers need.", "quantifier": "every call that starts at the end of the buffer, every object list, success or failure", "why_tests_cant": "README promises exact growth for every object; the interesting cases are encodings whose length is not known when the buffer grows.", "anchors": ["zpp_bits.h: basic_out::enlarge_for (1966-2002), out::operator() (2443-2456), exact_enlarger", "README.md: exact_enlarger"]}
{"id": "C56", "title": "Every member of a class is visited once, in order, or the program is rejected", "statement": "For a class serialized without a serialize function of its own, the library sees exactly its data members, all of them, once each, in order of declaration - or the program does not compile: with more than 50 members, with a declared number of members (members<N>, protocol<P, N>) other than the real one, or if automatic counting gets the number wrong. (A declared count of 0 is taken literally.)", "quantifier": "every class: any number and types of members, any declared count, both ways of counting members, any answers of the compiler to the tests used for counting", "why_tests_cant": "51 hand-written branches of up to 50 names each in four tables; a test exercises single counts, and a swapped or missing name only shows with members that differ.", "anchors": ["zpp_bits.h: access::visit_members (232-247), visit_members_types (249-263)", "zpp_bits.h: access::number_of_members (1174-1268)"]}
{"id": "C57", "title": "Input and output choose the same rule for every type", "statement": "For every type of object: if it can be written it can be read into an object of that type, by the matching rule (plain object, array, container, tuple, optional, variant, owning pointer, bitset, protocol), with a size prefix on output exactly if input expects one, and as one block of bytes exactly if input reads one. A type with one of the interfaces is handled by the rule for that interface; what a class declares about its serialization takes precedence.", "quantifier": "every type, described by the compiler's answers to all constraints the library uses", "why_tests_cant": "The overloads and constraints of the two archives are written separately; tests cover a list of types, not every combination of traits.", "anchors": ["zpp_bits.h: concepts (764-937)", "zpp_bits.h: basic_out::serialize_one (2042-2416)", "zpp_bits.h: basic_in::serialize_one (2601-3122)"]}
{"id": "C58", "title": "Constant evaluation and run time agree", "statement": "Serializing or deserializing in a constant expression has the same effect as at run time: for every fundamental value, range of trivially copyable items, varint and length-prefixed message the same outcome, the same bytes (or the same object) and the same position. Varints are read alike from archives over char, signed or not, and over unsigned bytes.", "quantifier": "every value and object representation, byte order option, buffer content, position, size and growth policy", "why_tests_cant": "The two paths are separate code chosen by the evaluation context, so a test at run time never executes the other one, and static_assert tests only cover literals.", "anchors": ["zpp_bits.h: basic_out::serialize_one (2062-2085, 2112-2140, 2390-2399)", "zpp_bits.h: basic_in::serialize_one (2615-2640, 2661-2684)", "zpp_bits.h: serialize(Archive&, varint&) (1757-1774), decode_varint (1703-1743)"]}
{"id": "C59", "title": "No objects without input", "statement": "A successful read consumes at least the least size of the encodings of its objects, so shorter inputs are rejected; and a container with a size prefix that was read successfully has at most as many elements as the input consumed can pay for at the least size of an element. (Elements whose encoding can be empty are not bounded, and a failed read may leave the destination with as many elements as the input announced.)", "quantifier": "every type, destination, byte order, default size type, input and position", "why_tests_cant": "The size prefix can announce any number up to 2^64; tests try a few truncated inputs.", "anchors": ["zpp_bits.h: basic_in::serialize_one (2601-3122)"]}
{"id": "C60", "title": "Stack depth is linear in the input", "statement": "If every cycle through recursive classes passes something that takes input (a size prefix, presence byte, variant id, field tag or non-empty member), then reading any input needs a call depth at most linear in its length, with constants given by the definitions of the classes; in particular reading ends. The bound is reached: inputs exist whose every byte makes the reader of a linked list one object deeper, so the sender controls the depth.", "quantifier": "every family of (mutually) recursive classes with that property, every destination, input and position", "why_tests_cant": "Depth depends on the input; a test reads a few nested objects with ample stack.", "anchors": ["zpp_bits.h: basic_in::serialize_one (2601-3122)", "zpp_bits.h: serialize(Archive&, optional_ptr&) (1492-1515)", "zpp_bits.h: pb deserialization (4929-5178)"]}
{"id": "C61", "title": "A damaged record ends the message with its error", "statement": "When a protobuf message consists of readable records followed by something that is not a readable record, reading it fails: with protocol_error for field number 0, result_out_of_range or value_too_large for a tag that is cut or longer than five bytes, and with the code of the member's own read if its payload cannot be read. Members keep exactly what the records before the damage gave them; only the member of the damaged record may differ: a single object is what its own failed read left, a container gains exactly the packed elements in front of the damaged one, and a container of fixed-size numbers has the announced count of elements.", "quantifier": "every message type of supported members, every sequence of records before the damage, every damaged remainder, every previous value", "why_tests_cant": "The damage can stand after any history of records.", "anchors": ["zpp_bits.h: pb deserialization (4929-5172)"]}
{"id": "C62", "title": "Classes with a user-written serialize function", "statement": "Writing an object whose class has its own serialize function is the same as writing the members that function hands to the archive, in that order, where the function may decide on the values handed over before; an error the function returns itself becomes the result of the call, after the members handed over so far. Reading with the same function takes the same decisions, gives every member handed over its value back and leaves all others as they were. On arbitrary bytes reading is safe whatever the function decides, a successful read depends on the bytes consumed only, and any shorter input is rejected with result_out_of_range.", "quantifier": "every such function (any number of members, any decision on values, any error), every object, destination, buffer and input", "why_tests_cant": "Decisions taken on values read from the input follow paths no test data takes.", "anchors": ["zpp_bits.h: basic_out::serialize_one (2047-2050)", "zpp_bits.h: basic_in::serialize_one (2606-2609)", "zpp_bits.h: operator() (1925-1928, 2443-2456, 2532-2535)"]}
{"id": "C63", "title": "What was read can be written again", "statement": "Whatever bytes a read accepts, written by this library or not, the objects it gives can be written again (unless a bool was read from a byte other than 0 and 1): they have an encoding not longer than the bytes consumed, and that encoding is a normal form, in that reading it succeeds under the same allocation limit and gives the same objects. For types without varints, optional values, sets, maps and partly used bitsets, writing gives back exactly the bytes consumed, so no two byte strings are read as the same object.", "quantifier": "every input, position, destination and type whose encoding carries its own extent (no protobuf messages, spans or unsized containers)", "why_tests_cant": "The inputs are arbitrary bytes, including padded varints, any flag bytes, repeated and unordered elements; tests start from written objects.", "anchors": ["zpp_bits.h: basic_in::serialize_one (2601-3122)", "zpp_bits.h: basic_out::serialize_one (2029-2440)", "zpp_bits.h: varint reader (1745-1782)"]}
{"id": "C64", "title": "Types with the same format are interchangeable", "statement": "Writer and reader may use different types with the same format, and the reader gets the corresponding objects: sequence containers of any kind (vector, string, list, deque, views), sets and maps against sequences of elements or pairs, enumerations, characters and integers of one size, bool and a byte, varints of different width, owning pointers and the object, optionals and nullable pointers (and a bool followed by the value), arrays, unsized containers and classes with as many members, nested classes and their members in place, a variant and its id followed by the alternative, several arguments of one call and one class with these members.", "quantifier": "every pair of objects related by these rules, nested to any depth and combined in any way, every archive configuration, buffer and destination", "why_tests_cant": "The combinations of types are unbounded; tests use one type on both sides.", "anchors": ["zpp_bits.h: basic_out::serialize_one (2029-2440)", "zpp_bits.h: basic_in::serialize_one (2601-3122)"]}
{"id": "C65", "title": "Memory of a growing buffer is linear in the data", "statement": "After any number of calls on a growing output buffer, with any outcomes and with or without fitting, the buffer is no longer than it was at the beginning, or than the enlarger's factor times twice the data written plus 18 bytes (default enlarger: three times the data plus 27).", "quantifier": "every history of calls, every object list, every enlarger factor, success or failure", "why_tests_cant": "A bound on memory over all histories; tests only see particular sequences.", "anchors": ["zpp_bits.h: basic_out::enlarge_for (1966-2002), varint::serialize (1673-1700), out::operator() (2443-2456)"]}
{"id": "C66", "title": "Ambiguous ids and field numbers do not compile", "statement": "A variant compiles exactly when every alternative has an id (the declared serialize_id, otherwise its index as a byte), all ids have one type and no two are equal; the same holds for the functions of an rpc; message classes with two members of the same field number do not compile. For a variant that compiles, the id written for the active alternative is the id of this alternative, reading it makes this alternative active, and any other id is refused with bad_message.", "quantifier": "every list of alternatives with or without declared ids, every set of bindings, every assignment of field numbers by position, pb_map or pb_field, every id read", "why_tests_cant": "static_asserts cannot be unit tested (a failing one does not compile), and tests use a few variants only", "anchors": ["zpp_bits.h: traits::variant_impl, variant_checker, traits::tuple::visit, rpc_checker, traits::unique, pb::unique_field_numbers"]}
{"id": "C67", "title": "Every message class that compiles is covered, with a short list of exceptions", "statement": "Every class with the protobuf protocol that compiles satisfies the conditions under which the library writes and reads conforming protobuf, unless it has a std::byte member, a C array member, a container of containers (other than strings), of arrays or of empty classes, a repeated string or message with an explicit number different from the default one, a map with such keys or mapped objects, a field number of 2^29 or more, or a member with explicit number that pb_map maps twice; conversely the covered classes compile.", "quantifier": "every list of members of every type, every pb_map, every explicit numbering", "why_tests_cant": "a statement about all classes a user may write; tests contain a few message classes", "anchors": ["zpp_bits.h: pb::check_type, pb::tag_type, pb::serialize_one, pb::field_number, pb::unique_field_numbers"]}
{"id": "C68", "title": "Writing to a growing buffer costs work proportional to the data", "statement": "Over any sequence of `out(...)` calls on a growing buffer, the number of bytes the archive makes the container initialize is bounded by a constant times the number of bytes written.", "quantifier": "every sequence of calls, all objects, all starting buffers, every enlarger", "why_tests_cant": "growth policies only misbehave for long histories; tests write few objects", "anchors": ["zpp_bits.h: out::operator(), enlarge_for, enlarger, exact_enlarger, no_fit_size"]}
{"id": "C69", "title": "Raw memory is written and read exactly", "statement": "`bytes(items, count)`, `bytes(items)` and `as_bytes(object)` write exactly the memory of the first count items, without any length, succeed on a fixed buffer if and only if it has that much room, and read it back into as many bytes of other items, touching nothing behind them. The count is a precondition: it is not compared with the number of items, and the size in bytes may wrap.", "quantifier": "all memories, item sizes, counts, buffers, positions", "why_tests_cant": "sizes and counts are unbounded, and neighbouring memory is not observed by a test", "anchors": ["zpp_bits.h: bytes, as_bytes, out::serialize_one, in::serialize_one"]}
{"id": "C70", "title": "Classes with their own serialize function work anywhere inside an object", "statement": "Objects of classes with their own serialize function can be elements of containers and sets, keys and mapped objects of maps, contents of optionals, owning pointers and variants, and members of each other, also recursively. Writing such an object appends exactly its encoding: that of the members the functions hand over, with the size prefixes, presence bytes and ids of the surrounding containers, optionals and variants. In a fixed buffer this succeeds exactly if the encoding fits; a growing buffer only fails if the allocation limit or memory does not allow it to grow. Reading the encoding back, whatever the destination held, succeeds at the end of the encoding and gives an object that agrees with the written one in everything handed over, provided sets and maps are ordered by what is handed over (otherwise elements may be lost); if the functions hand over all members it is equal. Reading arbitrary bytes ends with a documented error or an error one of the functions returns, never reads outside the input, and moves the position forward inside it; a successful read depends on the bytes it consumed only, and any input ending before the last of them is refused with result_out_of_range; writing any object never touches memory outside the buffer or bytes before the position. If the functions list all members in order, reading and writing do exactly what they do for the classes without the functions, on every input and object.", "quantifier": "every type built of such classes (any functions deciding on any values handed over, any nesting, recursion and depth), every object, destination, buffer, archive configuration and input", "why_tests_cant": "Recursive classes and decisions on values give unboundedly many shapes; a test has one of them.", "anchors": ["zpp_bits.h: basic_out::serialize_one (2042-2416)", "zpp_bits.h: basic_in::serialize_one (2601-3122)", "zpp_bits.h: visit_members calls of serialize (2047-2050, 2606-2609)"]}
{"id": "C71", "title": "Protobuf messages can be read by newer versions of their classes", "statement": "A protobuf message written with one version of a class can be read with another version whose members include the written ones by field number: reordered, with additional members, with members of another type that has the same encoding (a wider integer, another kind of container), also inside nested messages, in the elements of repeated members and in the values of maps. Every written member is found in the member with the same number; members that were not written keep their previous value, except that containers become empty. Elements of repeated members are read into new objects.", "quantifier": "all pairs of message classes related in that way, all objects of the writer, all previous objects of the reader, all buffers and archive options with the same format", "why_tests_cant": "The pairs of class versions and objects are unbounded and nest; a test fixes both versions and one object.", "anchors": ["zpp_bits.h: pb::operator()(input archive), deserialize_fields, deserialize_field", "zpp_bits.h: pb_protocol::serialize_unsized, serialize_field"]}
{"id": "C72", "title": "Objects with spans and unsized containers come back into prepared destinations", "statement": "Objects that contain mutable spans, or containers written without a size prefix, at any depth (inside classes, arrays, containers, optionals, variants, pointers, recursive classes) are read back equal to what was written, provided the caller prepared the destination: every span has at least as many elements as the object's, every unsized container exactly as many. Spans are shortened to the object's length. Where the reader creates new objects (new elements of a container, new optional values, pointees), what counts is the value-initialized object.", "quantifier": "every type outside protobuf messages and associative containers of such types, every object, every prepared destination, every pair of host configurations with the same wire format, every buffer state and start position", "why_tests_cant": "Round trips of C10 exclude these types because the result depends on the destination; the pairs of object and destination shape are unbounded.", "anchors": ["zpp_bits.h: in::serialize_one(container) (2725-2847)", "zpp_bits.h: unsized_t / no_size (1517-1584)"]}
{"id": "C73", "title": "A position inside a view is as good as a view of its own", "statement": "An archive placed at a position of a view behaves exactly as a new archive over the bytes from that position on. Reading: outcome, resulting objects and number of bytes consumed depend only on the configuration, the destinations and the bytes ahead, never on the bytes or the number of bytes already passed; this includes failing reads of malformed input and every type (messages, spans, containers without size prefix, classes with their own serialize function). Writing into a view that does not grow: outcome, bytes and position change are the same, and the bytes in front are never touched.", "quantifier": "all object types and values, destinations, option combinations, contents and lengths of the bytes in front, positions, stack depths, and outcomes including every error", "why_tests_cant": "A test places an object at a few offsets; independence from the offset and from everything in front, also on every failing path, is a statement about all prefixes and all inputs.", "anchors": ["zpp_bits.h: basic_in, basic_out (operator(), position, serialize_one)", "zpp_bits.h: pb (nested archives over sub-spans)", "zpp_bits.h: varint serialize"]}
{"id": "C74", "title": "Archives follow the overload chosen for a type", "statement": "For every supported object, the bytes the output archive writes are those of the serialize_one overload that overload resolution selects from the interface of its type, with elements, members and contents handled by the archive in turn; reading does what the overload selected on input says. Types that a program can exchange for each other (tuple, class with the same members and class with a function listing them; std::array and C array; deque and list) are therefore written alike. Only maps and sets without a size type are refused on input.", "quantifier": "all supported types and the C++ types each stands for, all archive configurations, objects, destinations, inputs and positions", "why_tests_cant": "the number of combinations of type, configuration and content is unbounded; tests check the outcome for chosen types, not that the selected overload accounts for it", "anchors": ["zpp_bits.h: concepts::* (764-937)", "zpp_bits.h: basic_out::serialize_one (2042-2416)", "zpp_bits.h: basic_in::serialize_one (2601-3122)"]}
{"id": "C75", "title": "Reading neither leaks nor destroys twice", "statement": "Whenever a call reading objects is left - normally, with an error, or by an exception of an allocation, a constructor, a move, an insertion or a user function at any point - every object the library created on the heap or in temporary storage and every object the destinations owned before is either owned by the destinations, by exactly one owner, or was destroyed exactly once; nothing the destinations own was destroyed. The same holds for the parameters created by apply.", "quantifier": "all types, destinations, inputs (any success, failure, size, flag, alternative and member selection) and all points at which an exception can occur", "why_tests_cant": "leaks and double destruction show up on particular combinations of damaged input, nesting and exception points, which cannot be enumerated", "anchors": ["zpp_bits.h: destructor_guard (395-406)", "zpp_bits.h: basic_in::serialize_one (2601-3122)", "zpp_bits.h: access::placement_new, make_unique (179-200)", "zpp_bits.h: pb::deserialize_field (5026-5172)", "zpp_bits.h: apply (3625-3742)"]}
{"id": "C76", "title": "Destinations stay valid objects", "statement": "Whatever the input, and whether the call succeeds, fails with an error or throws for lack of memory, every destination that was a valid object of its type is one afterwards: numbers in range, arrays and bitsets of their length, optionals and pointers empty or holding a complete object, variants holding a complete object of one of their types (never valueless), sets and maps ordered and without duplicates. So a variable may be used, and reused as a destination, after any history of successful and failed reads. (A bool may hold any byte.)", "quantifier": "every input, position, type and destination object nested to any depth (protobuf messages, recursive classes and containers included), every outcome, every sequence of reads from any inputs", "why_tests_cant": "A failed read stops at an arbitrary place of an arbitrarily nested object; tests inspect the destination only after successful reads or a few failures.", "anchors": ["zpp_bits.h: in::serialize_one (2601-3122), variant reader (2994-3056), optional reader (2929-2992), associative containers (2851-2901), protobuf reader (4929-5172)"]}
{"id": "C77", "title": "Limits on reading only refuse", "statement": "Two input archives that differ only in alloc_limit and in the memory available to containers agree on every input, up to refusals: the one that allows less either fails with message_size (or an exception for lack of memory), or gives the same result, the same objects and the same position as the other. Raising or removing a limit changes no successful read, and setting or lowering one makes no failing read succeed.", "quantifier": "every pair of limits, every list of destinations, input and position", "why_tests_cant": "Two runs are compared for all pairs of limits and all inputs; the limit is checked at every container in an object.", "anchors": ["zpp_bits.h: basic_in::serialize_one(container) (2759-2767)", "zpp_bits.h: pb packed fields (5110-5150)", "zpp_bits.h: alloc_limit (681-703, 1095-1099)"]}
{"id": "C78", "title": "What a failed read leaves behind", "statement": "When a call fails, some of its destinations were read completely, exactly as by the call with these destinations alone, the next one was left where its own read failed, and the rest were not touched. The same holds for the members of a class, the elements of an array and the elements of a resizable container (after its resize); classes and elements copied as a block are read completely or not at all.", "quantifier": "every list of destinations, class, array and container, every input and position that make the read fail", "why_tests_cant": "Every failure point of every input; a test looks at the destinations of a few failing reads.", "anchors": ["zpp_bits.h: basic_in::serialize_many (2585-2599)", "zpp_bits.h: basic_in::serialize_one (2642-2685, 2756-2847, 2906-2919)"]}
{"id": "C79", "title": "An output archive is a tape", "statement": "A program that writes objects and moves the position (position(), reset) at will, over any buffer with room, succeeds in every call, and in the end the buffer is what the same program makes of a tape on which it puts the encodings one over the other, up to unused zero bytes at the end of a growing buffer; the position is that of the head. Wherever an encoding stands on the tape in the end, a reader gets its objects from there.", "quantifier": "every history of calls and position changes inside what was written, every buffer kind, growth option, start content and position; objects without bitsets (C08)", "why_tests_cant": "All histories of overlapping writes; a test tries one header patched after the fact.", "anchors": ["zpp_bits.h: basic_out::position, reset (1935-1959)", "zpp_bits.h: out::operator() (2443-2461), serialize_many (2005-2019)"]}
{"id": "C80", "title": "Recursive classes are recognised", "statement": "A class is recognised as recursive (self_referencing), so that its serialization is not forced inline into itself, exactly if serializing one of its objects can serialize another object of the class; the recognition ends for every program.", "quantifier": "every program of classes, tuples, arrays, containers, pointers, optionals and variants", "why_tests_cant": "The decision is a recursive template over all class graphs.", "anchors": ["zpp_bits.h: access::self_referencing (1392-1444), concepts::type_references (882-912)", "zpp_bits.h: basic_out::serialize_one (2147-2159), basic_in::serialize_one (2691-2703)", "README.md: always inline"]}
{"id": "C81", "title": "Memory is bounded by the input under alloc_limit", "statement": "With alloc_limit<L>, a call that reads from an input archive makes the sequence containers of its destinations, containers inside containers and members of protocol messages included, hold at most M bytes of elements more for every byte of the input it consumes, where M is the larger of L and the largest element size; this holds whether the call succeeds or fails. New destinations therefore hold at most M bytes for every byte of the input.", "quantifier": "every type, destination, nesting depth, input, position, limit and outcome", "why_tests_cant": "alloc_limit bounds each container, but an attacker multiplies containers: a vector of vectors announces many; the total over all nestings and inputs cannot be tested.", "anchors": ["zpp_bits.h: in::serialize_one(container) (2745-2847)", "zpp_bits.h: pb::deserialize_field (5026-5172)", "README.md: alloc_limit"]}
{"id": "C82", "title": "Reading takes work linear in the input", "statement": "If every element of a container, every entry of a set or map takes at least one byte of input, and a class cannot reach itself without input, then one call of an input archive visits a number of objects that is at most a constant for each byte consumed plus a constant, both depending only on the types read. With an allocation limit the same holds when the elements created by resizing containers are counted too. This is so for every input and every outcome, including failing calls, recursive classes and protobuf messages. The condition cannot be dropped: a set of objects that take no input is read with as many steps as its size prefix announces, which the allocation limit does not bound.", "quantifier": "all types meeting the condition, recursive classes, destinations, inputs, positions and outcomes", "why_tests_cant": "a test reads a few inputs; whether some input makes the reader do unbounded work for a few bytes needs all of them", "anchors": ["zpp_bits.h: in::serialize_one, in::serialize_many, pb::deserialize_field, alloc_limit"]}
{"id": "C83", "title": "Ids made from names mean the same everywhere", "statement": "An id made from a name, either the text itself (\"name\"_s) or a hash of it (\"name\"_sha1_int, \"name\"_sha256_int), is on the wire the same bytes in every program that uses the name: the text, or the first four bytes of the SHA-1 or SHA-256 digest. In one program different texts have different ids, and different names have equal hash ids only if the digests begin alike.", "quantifier": "all names, hosts of both byte orders, and archive options", "why_tests_cant": "Tests run on one host and with a few names; the claim is about every pair of hosts and every name.", "anchors": ["zpp_bits.h: serialize_id, id, id_v, slice, to_bytes, from_bytes, operator\"\"_sha1_int, operator\"\"_sha256_int, operator\"\"_s"]}
{"id": "C84", "title": "Messages from elsewhere can be passed on", "statement": "Whatever bytes a protobuf message was read from, written by this library or by another implementation, with records in any order, repeated, packed or not, with padded varints, and even if the call failed on the way, the object in the destination has an encoding, and this encoding is a normal form: reading it succeeds, anywhere in an input and into any destination, and gives the same object. So a program may read messages, write them, and its readers see the objects it saw. This needs bools read as 0 or 1 and no allocation limit: a limit may refuse the encoding of an object that was read under it.", "quantifier": "every input, position, outcome, message class (nested, repeated, packed, maps, recursive), destination that is a valid object", "why_tests_cant": "a test passes on a few messages; inputs of other writers are not limited to what this library writes, and failed calls leave partial objects", "anchors": ["zpp_bits.h: pb::operator(), pb::serialize_field, pb::deserialize_field, in::serialize_one, out::serialize_one"]}
{"id": "C85", "title": "Arguments of remote calls are converted like those of local calls", "statement": "request<Id>(arguments...) and request_body<Id>(arguments...) send for each parameter of the bound function the object a local call with these arguments would initialize the parameter to: integers keep their value modulo the range of the parameter's type (unchanged if it can represent them), bool tells whether the argument was nonzero, every other object is sent unchanged; so the function is called on the server with the arguments of the local call. Calls with a wrong number of arguments, or with arguments a local call could not pass, do not compile.", "quantifier": "all parameter lists and all arguments of integer, bool, enumeration and class types, all values, signed and unsigned, of all widths", "why_tests_cant": "the values, widths and signs of arguments and parameters are unbounded in combination; tests pass arguments of a few types", "anchors": ["zpp_bits.h: rpc::client::request (3870-3926), request_body (3928-3983)", "zpp_bits.h: function_traits (3362-3455)"]}
{"id": "C86", "title": "Writing takes work proportional to the bytes written", "statement": "Writing copies each byte a bounded number of times: apart from growing the buffer, the bytes moved inside the buffer by a call are at most a constant factor of the bytes the call writes, whatever the object.", "quantifier": "all objects, archive options, buffers and outcomes of the call", "why_tests_cant": "Tests measure a few objects; the work depends on how deep messages are nested, which no finite set of objects covers.", "anchors": ["zpp_bits.h: out::serialize_one (by_protocol, message_size, memmove)", "zpp_bits.h: pb::operator()", "zpp_bits.h: varint_size"]}
{"id": "C87", "title": "Servers of functions that throw", "statement": "If some bound function returns zpp::throwing, serve() does everything else a server does, and reports every failure by throwing: an id or arguments that cannot be read throw their error code and an unknown id throws not_supported, in all of which no function is called and nothing is written; what the called function throws, or the error code it returns, is what serve() throws, with nothing written; and if the function succeeds, serve() succeeds and has written the value, if any, as an ordinary server would.", "quantifier": "all sets of functions, ordinary, throwing or opaque, and all they may do; all states of the server; all request bytes, options and buffers", "why_tests_cant": "Tests serve a few requests to a few functions; the claim is about every mix of kinds of functions, arguments and failures.", "anchors": ["zpp_bits.h: server::serve, server::call_binding_throwing", "zpp_bits.h: apply, value_or_errc", "zpp_bits.h: client::response"]}
{"id": "C88", "title": "Protobuf parsers read what the library writes", "statement": "A message written by the library, seen by an independent parser of the published protobuf encoding that is given the declared field numbers and types, is the object written: every member has its value, negative numbers, zigzag numbers, enumerations, packed and unpacked repeated members, maps and nested messages included.", "quantifier": "all message classes (nested and recursive ones too) and their objects, all options, byte orders and size prefixes, all buffers", "why_tests_cant": "Tests compare a few messages with bytes made by another implementation; the claim is about every class and object.", "anchors": ["zpp_bits.h: pb::operator()(auto & archive, auto & item) (out)", "zpp_bits.h: pb::serialize_one", "zpp_bits.h: pb::tag, pb::tag_type"]}
{"id": "C89", "title": "The library reads messages as protobuf parsers do", "statement": "Reading any valid protobuf message of the class into a new object gives the members the values an independent parser of the published encoding finds, whatever the order of the records, whichever members are missing or repeated, and however repeated members are split into packed records and single elements; and reading ends where the message ends.", "quantifier": "all message classes, all sequences of records, all positions, options and size prefixes", "why_tests_cant": "Tests read messages of one writer, with its order of fields and its way of packing; the claim is about all orders and splittings that the encoding allows.", "anchors": ["zpp_bits.h: pb::operator()(auto & archive, auto & item) (in)", "zpp_bits.h: pb::deserialize_fields", "zpp_bits.h: pb::deserialize_field"]}
{"id": "C90", "title": "Views share the input, everything else is a copy", "statement": "After a successful read, a string_view or span of const bytes anywhere in the objects read is a place inside the part of the input buffer this call has consumed: it shows whatever bytes are there later. No two such views have a byte in common. Everything else is a copy: objects without views stay as they are whatever happens to the input, and objects with views stay as they are as long as the bytes this call has consumed do; in particular later calls of archives over the same buffer do not change views of bytes already written. After a failed read the views are in the input consumed or where they were before the call.", "quantifier": "all types, objects, input bytes, options, positions and outcomes, all later contents of the memory, all later histories of calls of archives sharing the buffer", "why_tests_cant": "A test shows one buffer overwritten after one read; the claim is that no way of changing memory outside of the consumed bytes, and no nesting of the view in other objects, makes a difference.", "anchors": ["zpp_bits.h: in::serialize_one (view containers, 2769-2847)", "zpp_bits.h: in_out", "zpp_bits.h: data_in_out"]}
{"id": "C91", "title": "Views can be written as what they show", "statement": "Writing objects that contain string_views or spans has the outcome, and appends the bytes, of writing objects that own the bytes shown when the call begins, also when views show bytes of the buffer that the archive itself writes to, if it has already passed them or does not come to them in this call. In particular objects read through an input archive over the same buffer can be passed on, or moved further to the front, through the output archive without copies.", "quantifier": "all types, objects, places of views, other buffers, options, buffer contents and positions", "why_tests_cant": "A test passes on one view over one buffer with spare room; the claim is about every moment in a call at which the bytes of a view are copied while the same call changes the buffer.", "anchors": ["zpp_bits.h: basic_out::serialize_one (bytes, 2087-2141)", "zpp_bits.h: basic_out::enlarge_for", "zpp_bits.h: in_out", "zpp_bits.h: data_in_out"]}
{"id": "C92", "title": "Zigzag varints of unsigned types", "statement": "A varint<Type, varint_encoding::zig_zag> of an unsigned type, written and read back, holds the value it had; the position read up to is the one written up to.", "quantifier": "every unsigned type of 1, 2, 4 or 8 bytes, every value, buffer, position and destination", "why_tests_cant": "2^64 values; the tests use signed types only", "anchors": ["zpp_bits.h: varint, varint_encoding::zig_zag, serialize(Archive &, varint<Type, Encoding>)"]}
{"id": "C93", "title": "Reflection by structured binding packs", "statement": "On compilers with structured binding packs (C++26) a class is serialized by all its members in order, as on other compilers and without their limit of 50 members; classes that other compilers accept keep their meaning; and a class that declares a number of members other than the real one is rejected or still written and read by all its members.", "quantifier": "every class: any number and types of members, any declared number; every message input", "why_tests_cant": "The branch is compiled on C++26 compilers only, and a wrong declared number shows only in inputs that have records of the members behind it.", "anchors": ["zpp_bits.h: access::visit_members (204-230)", "zpp_bits.h: access::number_of_members (1229-1241)", "zpp_bits.h: pb::deserialize_field (4985-5024)", "zpp_bits.h: pb::unique_field_numbers (4559-4570)"]}
{"id": "C94", "title": "Every valid object can be written, with a short list of exceptions", "statement": "Serializing valid objects of supported types into a buffer with enough room succeeds, unless one of them contains: a bool whose byte is neither 0 nor 1, a null unique_ptr or shared_ptr, a container with more elements than its size prefix can express, or a protobuf message, string or packed field longer than its length prefix can express. There is no other reason, at any nesting depth, and each of these reasons does keep the object from having an encoding. In particular what an archive has read from arbitrary bytes can be written again, with the same exceptions.", "quantifier": "every type and object of any size and nesting depth, every configuration, every buffer and position, and for the last part every input", "why_tests_cant": "A test writes the objects it thought of; that no other object is refused is a statement about all objects of all types.", "anchors": ["zpp_bits.h: basic_out::operator()", "zpp_bits.h: basic_out::serialize_one", "zpp_bits.h: pb::serialize_one", "zpp_bits.h: pb::serialize_field", "zpp_bits.h: varint_size"]}
{"id": "C95", "title": "Reserved buffers stay where they are", "statement": "A growing output vector whose capacity is at least its size, and at least the enlarger's factor times twice the data it will hold plus 18 (default enlarger: three times the data plus 27; exact_enlarger: the data plus 18), is never moved, by any number of calls with any outcomes; arrays and spans never are. So pointers, spans and string_views into the written part of such a buffer, those read from it by an input archive included, stay valid and show what they showed. Objects with views of the buffer can be written back to this buffer.", "quantifier": "every history of calls, every object list, every enlarger, buffer, position, capacity and growth policy of the vector", "why_tests_cant": "Whether a vector moves depends on every size it passes through in every call; a test sees one sequence with one allocator.", "anchors": ["zpp_bits.h: basic_out::enlarge_for (1966-2002)", "zpp_bits.h: out::operator() (2443-2456)", "zpp_bits.h: in_out"]}
{"id": "C96", "title": "Messages received in pieces", "statement": "A program receives bytes in pieces, as from a socket. After each piece it tries to read the next message with an input archive; when the call reports result_out_of_range it sets the position back to where the message began and waits for more. For types that carry their own extent, no matter how the bytes are cut into pieces and when bytes already read are discarded, the program has at any moment exactly the messages whose bytes have all arrived: none late, none early, none wrong, no other error. What failed attempts left in the destinations does not matter. If the bytes are those an output archive wrote, in the end exactly the messages sent have been received and no bytes are left. Protobuf messages have to be excluded.", "quantifier": "for all lists of messages of types that carry their own extent, all ways to cut their bytes into pieces (empty ones included), all moments at which read bytes are discarded, all bytes that follow, all initial contents of the destinations", "why_tests_cant": "A test tries some cuts of some messages. The number of ways to cut a stream is exponential, and every failed attempt leaves other contents in the destinations.", "anchors": ["zpp_bits.h: in::operator(), in::position, in::serialize_one, pb::operator()"]}
{"id": "C97", "title": "Parts of objects can be read and replaced in place", "statement": "Objects of types without containers, optionals, variants and varints always take the same number of bytes. So the offset of a part of an object (a member, element of an array, element of a container with a size prefix of fixed size) is known if everything in front of it is of such types. Setting the position of an input archive to the offset reads this part. Setting the position of an output archive to the offset and writing another object of the same number of bytes gives the encoding of the object with that part replaced, changes no other byte, and reading the whole gives the changed object. In a buffer that cannot grow this always succeeds.", "quantifier": "for all types, objects, paths to a part with a known offset, bytes in front of and behind the object, options, and all replacements of the same number of bytes without bitsets (C08)", "why_tests_cant": "A test patches some fields of some structs. That no padding, prefix or option shifts the offset of any part of any type needs a proof for all types.", "anchors": ["zpp_bits.h: out::position, in::position, out::serialize_one, in::serialize_one, concepts::byte_serializable"]}
{"id": "C98", "title": "Variants can get new alternatives", "statement": "A program is released again with alternatives added at the end of some of its variants, at any depth and also in classes that contain themselves; the new alternatives have ids the old ones do not have. The new program reads everything the old program wrote and gets the same objects. The old program reads what the new program wrote and gets the same objects as long as no variant in them holds a new alternative; if one does, it reports bad_message, and nothing else.", "quantifier": "every pair of types related by adding alternatives, every list of objects, every state of the destination objects, both byte orders and every size prefix", "why_tests_cant": "The rule has to hold for every type with variants at any depth and all bytes written before and behind the new alternative; a test compares two given versions of one class.", "anchors": ["zpp_bits.h: in::serialize_one (variant)", "zpp_bits.h: in::serialize_id, traits::variant_impl::index", "zpp_bits.h: out::serialize_one (variant)"]}
{"id": "C99", "title": "Members can be added at the end of the last class of a message", "statement": "A program is released again with members added at the end of the class of the last object of a message, of the last member of that class and so on (also through optionals, pointers, variants and classes that contain themselves), or with further objects at the end. The old program reads what the new program wrote and gets its objects without the added parts. The new program reading an old message with nothing behind it reports result_out_of_range, whatever the types of the added members, as long as they take bytes: it never makes up members. (If other bytes follow, these are taken for the added members: the plain format has no field numbers.)", "quantifier": "every pair of objects related by adding members at the end, every list of objects in front, all buffers and archive options with the same byte order and size prefixes, all previous values of the destinations", "why_tests_cant": "Holds only if every type writes its bytes in order and none of them looks behind its end; a test shows it for one class.", "anchors": ["zpp_bits.h: in::serialize_one, in::serialize_many, visit_members", "zpp_bits.h: out::serialize_one"]}
{"id": "C100", "title": "Encodings in big endian byte order sort like the objects", "statement": "Written with endian::big, the bytes of two lists of objects of the same types, made of unsigned integers, bool, classes, arrays, std::optional and variants with ascending ids (such as the default ones), are in lexicographic order exactly if the objects are in the order C++ gives them (member by member; empty optionals first; variants by alternative first). So the bytes can be used as keys. It does not hold in little endian byte order, nor for signed integers, variable length integers and containers with a size prefix.", "quantifier": "every list of such types, also of classes by name, and every two lists of objects of these types, on hosts of both byte orders", "why_tests_cant": "A statement about every pair of objects of every type; tests compare a few.", "anchors": ["zpp_bits.h: out::serialize_one (integers, arrays, optional, variant)", "zpp_bits.h: endian, concepts::byte_serializable"]}
{"id": "C101", "title": "Protobuf messages one behind the other are one message", "statement": "Two protobuf messages of a class, written without size prefix one behind the other, are read as one message. The outcome, the object and the number of bytes read are those of reading first the one and then the other into the same object, even if what stands behind the first message is not a valid message; only containers differ: read one by one, the second message empties them, read as one, repeated varints, enumerations, strings and messages hold the elements of both messages, in order (strings and numbers of fixed size those of the last record).", "quantifier": "all message classes, all sequences of records in the first message, all bytes behind it (for classes with containers: all sequences of records), all previous objects", "why_tests_cant": "The second part may be anything, including damaged messages, and the first any sequence of records, at any depth; tests try a few.", "anchors": ["zpp_bits.h: pb::operator(), deserialize_fields"]}
{"id": "C102", "title": "Size prefixes of any integer type", "statement": "Programs may give a container any integer type or varint as size type, signed ones included. Writing it is writing the number of elements in that type and then the elements; reading it is reading the number, converting it to a size, and then what an eight byte prefix with that number would do. The container comes back exactly if its number of elements is at most the largest value of the size type; a larger sequence is written without an error and never comes back; a negative size makes resizable sequences fail and leaves them as they were.", "quantifier": "every signed or unsigned integer type of 1, 2, 4 or 8 bytes and every varint of one (zigzag for signed types), every container and object, every archive, buffer and input", "why_tests_cant": "The tests use four byte unsigned sizes and vsize_t on short containers; the conversions matter at each boundary of each type and for every input that holds a negative size.", "anchors": ["zpp_bits.h: sized, sized_t", "zpp_bits.h: basic_out::serialize_one (containers)", "zpp_bits.h: in::serialize_one (containers, associative containers)"]}
{"id": "C103", "title": "Messages with a size of any integer type", "statement": "Programs may give a protobuf message any integer type or varint as size type. A message with a signed integer as size is written like one with the unsigned integer; one with a varint as size is written as the varint of its length, then its members, unless the varint has more bytes than the integer type, when the call fails. A negative size, or one larger than what follows, reads as all that follows. The message comes back exactly if its length is at most the largest value of the size type.", "quantifier": "every signed or unsigned integer type of 1, 2, 4 or 8 bytes and every varint of one (zigzag for signed types), every message and object, every archive, buffer and input", "why_tests_cant": "The tests use only the size types the library names; room for the size is made for another number than the one written, which shows only at some lengths.", "anchors": ["zpp_bits.h: sized", "zpp_bits.h: basic_out::serialize_one (by protocol)", "zpp_bits.h: in::serialize_one (by protocol)"]}
{"id": "C104", "title": "Protobuf messages appended to protobuf messages", "statement": "A program that appends objects of a class, as protobuf messages without size, to what it has written before, and later reads all of it as one message, succeeds and gets one object: numbers and nested messages of the last object, the elements of all objects in the sequences of varints, enumerations, strings and messages, the last non-empty string or sequence of fixed numbers, and in sets and maps the first element for every key.", "quantifier": "every message class, every number of objects, every object, every buffer and archive position, every previous object", "why_tests_cant": "The tests read each message by itself; the result depends on every member kind and on the whole history of appended objects.", "anchors": ["zpp_bits.h: pb (serialization and deserialization)", "zpp_bits.h: unsized", "zpp_bits.h: basic_out::operator()"]}
{"id": "C105", "title": "Services can get new functions", "statement": "A server may have more functions than its clients know, list them in another order and implement them anew, as long as the functions of the clients keep their ids, parameters and return types: every history of requests, servings and responses gives what it gives on an ideal connection to the server's functions; any request, well formed or not, with the id of an old function is served as before. A client that asks for a function the server does not have makes serve fail with not_supported, without a call and without output, and its arguments stay unread.", "quantifier": "every two lists of bindings with distinct ids of one type, every client and server, all functions, every history of operations, all bytes of requests", "why_tests_cant": "Tests compile client and server from one list; which orders and additions are harmless is a statement about all lists and all requests.", "anchors": ["zpp_bits.h: rpc_impl", "zpp_bits.h: server::call_binding", "zpp_bits.h: server::serve", "zpp_bits.h: client::request"]}
{"id": "C106", "title": "Many clients of one service", "statement": "Any number of clients, each over its own connection, may use one service, with bindings, options and formats of their own and their operations interleaved in any order: every operation returns what it returns on ideal connections, the functions are called in the order of serving with the arguments sent, and no client gets or loses anything because of what happens on another connection.", "quantifier": "every number of connections, every interleaving of requests, servings and responses, all bindings, functions, arguments and options; operations do not overlap in time", "why_tests_cant": "Interleavings of several connections are not enumerable; tests use one client and one server.", "anchors": ["zpp_bits.h: rpc_impl", "zpp_bits.h: server::serve", "zpp_bits.h: client::request", "zpp_bits.h: client::response"]}
{"id": "C107", "title": "A buffer of a size known from the types suffices", "statement": "Objects of types without containers (numbers, varints, optionals, variants, arrays, classes, bitsets, owned objects, protobuf messages of such members) take at most a number of bytes that depends on the types only. If a buffer that does not grow has that many bytes left, writing valid objects of these types into it succeeds, whatever their values are. For types without variants and messages some object takes exactly that many bytes.", "quantifier": "every list of types, all objects, every buffer and position", "why_tests_cant": "All values of all types; the longest encodings are not the obvious values (for example the most negative zigzag varint).", "anchors": ["zpp_bits.h: varint_max_size (1640-1642)", "zpp_bits.h: basic_out::serialize_one (2040-2462)", "zpp_bits.h: pb::serialize_field (4345-4900)"]}
{"id": "C108", "title": "Several services over the same archives; peers that call each other", "statement": "The archives of a connection can be given to the clients and servers of several services, for example by two peers that are client and server to each other (`client_server` on both sides). If the messages are taken in the order in which they arrive - a server serves when a request of its service is next, a client asks for a response when that response is next - every operation returns what it returns when messages are passed along in queues without encoding them, and the functions are called in the same order with the same arguments.", "quantifier": "every number of services, every assignment of the two buffers to requests and responses, every interleaving of requests, servings and responses that takes messages in order, all bindings, functions, arguments and options; operations do not overlap in time", "why_tests_cant": "Interleavings of two directions of calls are not enumerable; the project's tests of client_server only make single calls.", "anchors": ["zpp_bits.h: rpc_impl::client_server", "zpp_bits.h: server::serve", "zpp_bits.h: client::request", "zpp_bits.h: client::response"]}
{"id": "C109", "title": "Sending messages through a buffer of limited size", "statement": "A program writes messages one behind the other into a fixed buffer. When a message fails for lack of room it hands over the bytes in front of it, resets the position and writes the message again. If each message fits in the buffer alone, this always works; the chunks handed over are together exactly the encodings of the messages in order; each chunk consists of whole messages; no way of cutting the messages into groups that fit needs fewer chunks; and a receiver of the chunks (C96) gets exactly the messages sent. Old content of the buffer and what failed calls left in it do not matter. Bitsets have to be excluded (C08).", "quantifier": "every list of messages of all supported types without bitsets, every size and content of the buffer in which each message fits", "why_tests_cant": "Where the messages fail depends on all sizes in front; a failed call may have written any part of its message; tests cover single failures only.", "anchors": ["zpp_bits.h: out::operator()", "zpp_bits.h: out::position", "zpp_bits.h: out::processed_data", "zpp_bits.h: out::reset"]}
{"id": "C110", "title": "A fixed buffer as a queue of limited size", "statement": "A program uses an input and an output archive over one fixed buffer as a queue: when an output call fails for lack of room it sets the position back, moves the unread bytes to the beginning, and tries again; if that fails too it sets the position back and refuses. Then objects are stored exactly if they fit in the buffer together with those not yet taken out, refused objects leave no trace, and objects come out as they went in, in order, over any history.", "quantifier": "every history of storing and taking out, all supported types without bitsets, every size and content of the buffer", "why_tests_cant": "A failed call may have written any part of its objects and moved the position anywhere; histories with failures and compactions are not enumerable.", "anchors": ["zpp_bits.h: in_out", "zpp_bits.h: out::operator()", "zpp_bits.h: out::position", "zpp_bits.h: in::position"]}
{"id": "C111", "title": "Requests received in pieces are executed exactly once", "statement": "A server program that receives requests over a stream in pieces, serves until serve() reports result_out_of_range, then sets the input position back and waits for more, has at any moment executed exactly the requests that are complete by then: each once, in order, with the arguments sent. The world, the codes returned by serve() and the bytes of the replies are those of calling the functions directly; a client that receives the replies in pieces gets exactly the results. This needs that no function returns result_out_of_range itself and that there is room for the replies: otherwise a request is executed again with every piece.", "quantifier": "every service of bound functions, every sequence of requests, every way to cut the bytes of requests and replies into pieces, every choice of when to discard bytes", "why_tests_cant": "a test cuts a few messages at a few places; a request executed twice or early shows only at particular cuts, inside an id, a size or an argument", "anchors": ["zpp_bits.h: rpc::server::serve, call_binding, apply, in::position"]}
{"id": "C112", "title": "A log of records survives crashes at any point", "statement": "A program appends records of one type to a growing buffer with one output call each and writes the processed bytes to a file. A crash leaves any initial part of the file. Reading records until result_out_of_range finds exactly the records whose bytes all survived, and the program can cut its buffer there and go on appending; after any history of appends and crashes the file holds exactly the encodings of the records that should be there. Without cutting the buffer this fails for bitsets.", "quantifier": "every history of appended records and crashes, every number of bytes a crash leaves, every record type that carries its own extent", "why_tests_cant": "a test tries a few crash points; a record found that was never appended, or a complete record lost, shows only at particular crash points and sequences of crashes", "anchors": ["zpp_bits.h: out::operator(), out::processed_data, in::operator(), in::position"]}
{"id": "C113", "title": "Archives over separate parts of memory do not affect each other", "statement": "Threads make calls on archives over fixed parts of one memory. If a part that is written to is not shared, then under every schedule every thread gets from each call exactly the outcome and objects it would get alone, also from calls that fail; its part of the memory and its positions are what they would be alone; and memory in no part written to is not changed. Parts that are only read may overlap.", "quantifier": "every number of threads, every sequence of calls of each, every schedule of the calls, every memory and every choice of parts", "why_tests_cant": "schedules cannot be enumerated, and an access outside its own part shows only if another thread uses those bytes at that time", "anchors": ["zpp_bits.h: in_out, out::operator(), in::operator()"]}
{"id": "C114", "title": "An object kept in two slots survives interrupted updates", "statement": "A file has one byte that says which of two slots of equal size holds an object. An update writes the new object to the other slot with one call of an output archive at that position, and then the byte with another call at position zero. Whatever updates are made, and whichever of them are interrupted before the byte is written, leaving any bytes in the other slot, an input archive that reads the byte and then reads at that slot yields exactly the object of the last update that was not interrupted.", "quantifier": "all objects without bitsets whose encodings fit into a slot, all slot sizes, all histories of updates and interruptions, all bytes left behind by interruptions, all configurations", "why_tests_cant": "The histories of updates and crashes and the bytes they leave are unbounded; a test tries a few crash points. The claim depends on writing never touching bytes outside the encoding and on reading never depending on bytes behind it.", "anchors": ["zpp_bits.h: out::operator()", "zpp_bits.h: out::position", "zpp_bits.h: in::operator()", "zpp_bits.h: in::position"]}
{"id": "C115", "title": "Writing again with a larger buffer succeeds", "statement": "A program writes objects into a fixed buffer and, as long as the answer is result_out_of_range, replaces the buffer of n bytes by one of 2n+1 bytes and writes again from its begin. For every encodable object and every first buffer it ends after logarithmically many attempts, with exactly the encoding. The larger buffer may keep the bytes of the failed attempt if the objects contain no bitset.", "quantifier": "all encodable objects of any size, all sizes and contents of the first buffer, all numbers of attempts", "why_tests_cant": "The number of attempts and the point at which each attempt fails are unbounded; the claim needs that no failed attempt has another code and that partial output does no harm.", "anchors": ["zpp_bits.h: out::operator()", "zpp_bits.h: out::serialize_many"]}
{"id": "C116", "title": "Messages pass through relays with other options unchanged", "statement": "A message goes through any number of relays. Each reads it with the options with which it was written and writes what it has read with options of its own: other byte order, other size types, other growth. The last message is the encoding of the same objects with the last options, and reading it yields the same objects.", "quantifier": "all objects, all numbers of relays, all options at each of them for which the objects can be written and read", "why_tests_cant": "The combinations of options along a path are unbounded.", "anchors": ["zpp_bits.h: out::operator()", "zpp_bits.h: in::operator()", "zpp_bits.h: options"]}
{"id": "C117", "title": "Options that do not belong to the format do not change the bytes", "statement": "Two output archives over buffers with the same bytes differ in everything but the size and byte order options: fixed or growing buffer, its length, enlarger, alloc_limit, no_fit_size, the memory of the host. The same calls on both have the same outcomes and write the same bytes, unless one of them runs out of room. This holds for all types and all objects, including those for which the library departs from its documented format.", "quantifier": "all types and objects, all sequences of calls, all pairs of option lists with the same size and byte order options, all buffers", "why_tests_cant": "It relates two runs over unbounded sequences of growing steps; a test compares a few buffers for a few objects.", "anchors": ["zpp_bits.h: basic_out::enlarge_for", "zpp_bits.h: out::operator()", "zpp_bits.h: options"]}
{"id": "C118", "title": "What is written does not depend on what is in front", "statement": "Calls on an archive that has bytes in front of its position have the same outcome and write the same bytes as the same calls on an archive without these bytes, unless one of them has no room, and the bytes in front stay as they were whatever the outcome. So appending to existing data gives that data followed by what is written into an empty buffer, and writing two groups of objects through one archive gives the concatenation of what they write into buffers of their own.", "quantifier": "every list of calls with any objects of any type, whether or not their bytes follow the documented format, any bytes in front, fixed and growing buffers with every limit and enlarger on either side", "why_tests_cant": "the code reserves size fields and moves messages ahead by positions relative to the start of the buffer, and enlarges by the whole length; a test writes at a few positions", "anchors": ["zpp_bits.h: out::serialize_many", "zpp_bits.h: out::enlarge_for", "zpp_bits.h: pb serialize of messages", "zpp_bits.h: append"]}
{"id": "C119", "title": "A file with an index gives every record alone", "statement": "A program writes records one behind the other through one archive, noting position() before each, then the list of these positions, then the position of that list. Every record can then be read alone, through the positions in the file, into any destination of its types, and numbers of records that do not exist are refused. A reader that refuses positions behind the end of the file may be given damaged files: no call reads outside of them; one that does not check them can be made to read outside, because archives do not check positions set by the program.", "quantifier": "every number of records of any supported types and sizes, every pair of writer and reader with the same format, any bytes as damaged file", "why_tests_cant": "whether positions noted while the buffer grows and is fitted stay right, for all records before and behind, is a statement about all sequences of sizes", "anchors": ["zpp_bits.h: out::position", "zpp_bits.h: in::position", "zpp_bits.h: in::reset", "zpp_bits.h: sized"]}
{"id": "C120", "title": "Bytes identify objects", "statement": "Objects of the same types, written by programs with the same format on hosts and into buffers of their own, give the same bytes if and only if they are the same objects (for hashed containers: with the same iteration order). So bytes can serve as keys: a table of results of a function under the bytes of its arguments gives every request the result for its arguments, and calls the function exactly for arguments not seen before.", "quantifier": "every pair of supported objects whose types carry their own extent, every two archives with the same format, every sequence of requests and every function", "why_tests_cant": "that no two objects ever collide, and that equal objects never differ in bytes whatever host and buffer, ranges over all pairs of objects and configurations", "anchors": ["zpp_bits.h: out::operator()", "zpp_bits.h: data_out"]}
{"id": "C121", "title": "Damage inside an envelope stays inside", "statement": "Records of many kinds are written in envelopes: each into a buffer of its own, and then its kind and this buffer, as a vector of bytes, to the file. A reader finds every envelope, in order, whatever bytes are inside; what it makes of a record depends only on the kind and the bytes in its own envelope. So records of kinds it does not know are passed over, a damaged record does not affect any other, and undamaged records of known kinds are read as they were written.", "quantifier": "every list of envelopes with arbitrary bytes inside (within the ranges of the kind and the size), every set of known kinds, every reader with the same format", "why_tests_cant": "a damaged record may contain any bytes, and must not influence the reading of any other record, whatever these are", "anchors": ["zpp_bits.h: out::operator()", "zpp_bits.h: in::operator()", "zpp_bits.h: data_out"]}
{"id": "C122", "title": "A history chained by hashes cannot be changed unnoticed", "statement": "A program writes each record of a history together with the hash of the bytes of the record before it, gives the bytes to a store it does not trust, and remembers one hash. Whatever bytes the store answers with: if the history is read at all, it is exactly the objects written, unless the store found bytes different from those of a record with the same hash. With an honest store the history is read.", "quantifier": "every history, every behaviour of the store, every hash function with results of 32 bytes, writer and reader with the same format", "why_tests_cant": "the store is an adversary that may answer every request with any bytes", "anchors": ["zpp_bits.h: out::operator()", "zpp_bits.h: in::operator()", "zpp_bits.h: data_out"]}
{"id": "C123", "title": "Floating point numbers", "statement": "float and double objects are restored bit by bit, also NaNs with their payload, infinities, subnormal numbers and zeros of both signs, between hosts of different byte order with an explicit order. Their bytes are equal exactly if their bits are: for numbers equal in C++ they differ only for zeros of different signs. In big endian byte order the bytes of non-negative numbers sort like the numbers, those of negative numbers the other way and behind all others. (Not so long double on x86: its padding bytes are written, so equal numbers may have different bytes, which reveal what was in memory.)", "quantifier": "every bit pattern of every IEEE 754 binary format that fills a power of two of bytes, all hosts, options and positions", "why_tests_cant": "2^64 bit patterns, and pairs of them for order and equality", "anchors": ["zpp_bits.h: out::serialize_one (fundamental types)", "zpp_bits.h: in::serialize_one (fundamental types)"]}
{"id": "C124", "title": "Remote calls over a connection that loses, repeats and reorders messages", "statement": "A client writes a number and the request into a buffer of its own and sends it again and again until it has the reply with this number; a server serves a request only if it has the next number, and repeats its last reply for the number before. Then, whatever buffers the connection loses, repeats or reorders: at any moment the functions have been called exactly once, in order and with the arguments given, for all requests up to some number; the client has exactly the results of direct calls for the requests it has gone past and is at most one request behind. Whenever one request and the reply to it get through, the client goes on.", "quantifier": "every service of bound functions, every sequence of requests, every history of sending, loss, repetition and reordering", "why_tests_cant": "the histories of an unreliable connection are unbounded in number and length", "anchors": ["zpp_bits.h: client::request", "zpp_bits.h: server::serve", "zpp_bits.h: client::response"]}
{"id": "C125", "title": "Objects that point to each other", "statement": "Let a class hold a value and a vector of shared pointers to objects of the same class. Writing an object does exactly what writing the tree of all pointers followed from it does, so that an object is written as often as it is reached, and two programs whose objects look the same when pointers are followed write the same bytes, whatever they share. An object from which a cycle or a null pointer can be reached is never written successfully. Without cycles, reading gives the tree back, in which each pointer has an object of its own: sharing is lost. The size of the output is not bounded by the number of objects: n + 1 objects, each with two pointers to the next, take at least 4 * 2^n bytes when the value has 4 bytes.", "quantifier": "every graph of objects (any number of objects and pointers, shared, cyclic, endless, with null pointers), value type, size type, configuration, stack depth, state of the archive and buffer", "why_tests_cant": "Graphs of objects are unbounded and infinitely many; that sharing never shows in the bytes relates two programs for all graphs; cycles end in the exhaustion of a stack whose size the test does not choose.", "anchors": ["zpp_bits.h: owning_pointer (828-831), basic_out::serialize_one for owning pointers (2304-2312), basic_in::serialize_one for owning pointers (3058-3071), traits::is_shared_ptr"]}
{"id": "C126", "title": "A table of records can be searched without reading it", "statement": "A vector of records of a type of static size is written, in increasing order. A program that sets the position of an input archive to the middle record of what remains, reads it, and goes on in one half finds the first record that does not come before what it looks for, after reading at most log2 n + 1 records; no call fails. Over any other bytes of at least that length the search ends within the same number of reads, with success or an error the archive reports, and not behind the table.", "quantifier": "every type of static size, table, place in a buffer, width of the size prefix, order, configuration of writer and reader with the same format, old content of the record read into; for damaged tables every byte string", "why_tests_cant": "Tables and orders are unboundedly many; the bound on the number of reads and the absence of undefined behaviour hold for all sizes and all damaged contents.", "anchors": ["zpp_bits.h: basic_in::position (2542-2550), basic_in::operator() (2532-2535), basic_out::operator() (2443-2456)"]}
{"id": "C127", "title": "Input that changes while it is read", "statement": "An input archive over memory that another process writes to while it is read never leaves the memory, never hangs and ends with a documented outcome. The result is what some fixed contents of the memory give, in which every byte was in the memory at its place at some time: no check the archive made is undone by a later write. Bytes already read may be overwritten without effect on the objects read.", "quantifier": "all types and lists of destinations, all inputs, all positions and all contents the memory may have at every fetch", "why_tests_cant": "tests read memory nobody writes to; the write would have to fall between two instructions of the archive, and every such schedule counts", "anchors": ["zpp_bits.h: basic_in::serialize_one, remaining_data", "zpp_bits.h: serialize(archive, varint&) (lines 1745-1782)", "zpp_bits.h: decode_varint", "zpp_bits.h: pb_protocol operator()/deserialize_field"]}
{"id": "C128", "title": "Containers written and read one element at a time", "statement": "A program may write the number of elements of a container as an object of the size type (vsize_t for varint sizes) and then the elements, one call each: the bytes are those of the container written by one call, and a reader gets the container. With a size of fixed width the number may also be written over a placeholder when all elements are written. Conversely, the bytes of a container can be read as a number and then as many elements, one call each into one and the same object. On any input, valid or not, the loop and the list end with the same outcome at the same position, unless the list is refused for its size.", "quantifier": "all sequences, sets and maps, element types, size types, elements, byte orders, growth policies, positions and, for the last part, all inputs", "why_tests_cant": "tests stream a few containers of a few sizes; the equality concerns every element type, every size type and every input", "anchors": ["zpp_bits.h: basic_out::serialize_one (container overloads)", "zpp_bits.h: basic_in::serialize_one (container overloads)", "zpp_bits.h: vsize_t", "zpp_bits.h: sized, unsized, static_sized"]}
{"id": "C129", "title": "A message put together by several threads", "statement": "The parts of a message, for example the number of elements and the elements of a container, are written by one thread each, through archives over the places the parts have in one memory. Whatever the schedule is, once every thread has made its call the memory holds exactly the bytes one archive would have written, nothing in front or behind has changed, every call has succeeded, and a reader gets the whole message or container.", "quantifier": "every number of parts, all objects (those with bitsets in places filled with zeros, see C08), all sizes, every schedule of the calls and every content of the memory before", "why_tests_cant": "schedules cannot be enumerated, and a call that wrote outside its place would be seen only under schedules in which the neighbour was earlier", "anchors": ["zpp_bits.h: out::operator(), basic_out::serialize_one", "zpp_bits.h: out(std::span)"]}
