# Formal model of zpp_bits in Lean 4: design

Source under study: `/repo/zpp_bits.h` (single header). Properties: `properties.jsonl`.
Lean project: `lean/`, modules under `lean/Verif/`.

## Shape of the model

* Memory is explicit: an output archive is a byte list plus a position, an input archive an immutable
  byte list plus a position. `size_t` has 64 bits, its subtraction wraps as in C++.
* C++ outcomes are a sum: success, each error code, allocation exception, undefined behaviour (`ub`),
  stack exhaustion, and "program would not compile". Undefined behaviour is an outcome, never assumed away.
* C++ types are a deep embedding `Ty` (scalars, bool, varint, arrays, sequences, spans, views, sets/maps,
  optionals, pointers, variants, bitsets, structs/tuples, protobuf messages, named recursive types);
  objects are `Val`. Encoders and decoders are total functions on `Ty x Val`, recursive on the
  available stack depth, so that types with unbounded nesting are covered.
* The specification of the wire format (`wire`) is a separate pure function that knows nothing about
  buffers, positions, growth, code paths or destination objects.
* Host byte order, host allocation capacity, `sizeof` of class types (ABI) and the comparator of ordered
  containers are parameters.

## Plan per property

* **C01 Writing into a fixed buffer never leaves the buffer** - Safety induction over the type/value recursion: every output routine preserves `prefix ++ written ++ rest`, outcome is never `ub`.
* **C02 Fixed-buffer success is exact** - Functional-correctness induction: outcome and final state of the model are computed from the independent `wire` specification.
* **C03 Wire format is the documented one** - Same induction, with `wire` (a separate pure specification of the format) as the right-hand side; frame on buffer contents.
* **C04 Growing buffer: earlier bytes survive and the result is appended** - Growth lemma for `enlargeFor`, then the same induction for resizable archives.
* **C05 Growing buffer is fitted at the end of the call** - Model of `out::operator()`; the literal claim is false (varint over-allocation): negation with witness plus `_partial`; it holds for every type except when a call ends in the last eight bytes of the old buffer.
* **C06 Growing buffer fails only by the documented cause** - Failure analysis of `enlargeFor`; sufficient-room theorem.
* **C07 alloc_limit bounds the output buffer** - Invariant over the operations, then over call histories.
* **C08 Bitset output does not depend on old buffer content** - False in the code (OR into old bytes): negation with witness, `_partial` for zeroed target, exact OR for any target.
* **C09 Null owning pointers and valueless variants are rejected** - Induction over the encoder with a `Broken` predicate on values.
* **C10 Round trip** - Decoder induction against `wire`, for every old destination value.
* **C11 Decoding consumes exactly the encoded bytes and depends on nothing else** - Locality induction over the decoder (consumed bytes only).
* **C12 Calls compose: a stream of objects is read back in order** - List induction over objects from the single-object theorems, call grouping = list concatenation; for failing calls too, by induction over the groups (C12_read_grouping, C12_write_grouping).
* **C13 Reading arbitrary bytes is memory safe** - Safety induction over the decoder for arbitrary bytes.
* **C14 Truncated input is always detected** - Truncation induction over the decoder on proper prefixes of `wire`.
* **C15 Successful reads do not depend on the destination's old value** - Relational induction over the decoder (two old values).
* **C16 alloc_limit on input** - Decoder lemma on the size branch, plus a size-bound on every resize performed (ghost trace).
* **C17 Owning pointers keep their old object when a read fails** - Case analysis of the pointer branch of the decoder.
* **C18 Encodings are prefix free** - Corollary of round trip.
* **C19 varint encoding is minimal LEB128 with the advertised size** - Independent characterisation of LEB128 (digits, minimality, uniqueness); formula for the size by Nat.log2.
* **C20 varint round trip** - Induction on the digit list.
* **C21 varint decoder paths agree** - Equality of the modelled code paths on all inputs.
* **C22 zigzag is a bijection that keeps small magnitudes small** - Int-level specification, arithmetic proof for every width.
* **C23 varint shifts never overflow** - Shift amounts are explicit in the model, over-wide shift is `ub`; proved unreachable.
* **C24 Variant ids select exactly the alternative written** - Lookup lemma on ids plus decoder case.
* **C25 Byte-copy optimization is invisible** - Structural induction over types for `rep` versus member-wise encoding.
* **C26 Explicit byte order makes the format host independent** - Host byte order is a parameter of the model; equality of `wire` and of encoder results for both hosts.
* **C27 optional_ptr and optional share a wire format** - Equality of the model's two encoders, and cross decode.
* **C28 Size prefix too small** - False in the code: witness with a 1-byte size; `_partial`: exact prefix, and what a reader gets back for any number of elements.
* **C29 Length prefix of protocol messages is exact** - Lemma on the by-protocol encoder including body move; size-field endianness bug recorded as negation, exact bytes for every fixed size field.
* **C30 Protobuf round trip** - Protobuf decoder induction over records.
* **C31 Protobuf output is conforming protobuf** - `pbWire` specification; code deviations (explicit number of repeated fields, size/endian options, std::byte, bulk copied messages) as negations, `_partial` on the rest.
* **C32 Protobuf input is safe and terminates** - Safety and fuel-sufficiency of the record loop. A sized message is read exactly as if the input ended with it (`C32_inside`), so nothing behind it matters, and success means its end was reached.
* **C33 Unknown protobuf fields are skipped** - False in the code: witness; partial: undeclared tags between records, and for any bytes: a message that begins with an undeclared tag is read as what stands behind the tag (`C33_tag_only_partial`, `C33_tag_between_partial`, `C33_tag_sized_partial`), so the payload is read as records.
* **C34 Absent protobuf fields leave members intact** - Invariant of the record loop on untouched members.
* **C35 Protobuf field order does not matter, last value wins** - Commutation of record processing.
* **C36 RPC end to end** - Client/server model on top of encode/decode.
* **C37 RPC server on arbitrary requests** - Case analysis of `serve` for arbitrary requests.
* **C38 apply calls the function iff its arguments decode** - Case analysis of `apply`.
* **C39 Big-endian numbers compute like ordinary unsigned numbers** - Byte-array model of big_endian refines BitVec arithmetic.
* **C40 sha1 is SHA-1** - Model over big_endian words refines FIPS specification over BitVec 32.
* **C41 sha256 is SHA-256** - As C40.
* **C42 Hex literals** - Digit arithmetic, inverse of encoder specification.
* **C43 Compile-time bytes equal run-time bytes and size is exact** - Corollary of C02 with exact buffer.
* **C44 Shared in/out archive is a FIFO queue** - Invariant over histories of reads and writes.
* **C45 Patching at a saved position is local** - Corollary of frame lemmas.
* **C46 Zero-copy views stay inside the input** - Decoder case lemma; views at any depth by induction on the stack depth (Proof/InViews), with an inductive specification of "this view occurs in that object" (Spec/Views).
* **C47 Mutable spans are never overrun** - Decoder case lemma.
* **C48 Archive options mean what they say** - List induction over option lists.
* **C49 Associative containers** - Sorted-insert lemmas, decoder case.
* **C50 known_id variants** - Separate entry points; null dereference and missing return are `ub` outcomes, precondition stated.
* **C51 Failed output calls do not damage earlier output** - Corollary of the safety induction over histories.
* **C52 Recursive data structures of any depth** - `Ty.ref` with an environment of named types; theorems of C02/C10 quantify over it. Non-terminating by-value pointer recursion recorded.
* **C53 Opaque RPC bindings get exactly the unread request** - Case analysis of `serve` for arbitrary functions on an arbitrary world; composed with the round trip for requests of clients.
* **C54 value_or_errc neither leaks nor destroys twice** - `Model/Result`: union with flag over a store of objects counting destructor calls; simulation by a plain sum type over histories.
* **C55 exact_enlarger grows to the exact size** - Invariant "position is the end" through `encode`; fails for varints and inside the buffer (witnesses), hence `_partial`.
* **C56 Every member of a class is visited once, in order, or the program is rejected** - The four tables are transcribed; equality with the regular table (kernel computation over the complete table), then structural lemmas for any member list and any compiler answers.
* **C57 Input and output choose the same rule for every type** - Types are given by the answers to the `requires`-expressions; concepts, overload sets, overload resolution (with the one subsumption there is) and the `if constexpr` chains are transcribed for both archives and compared for all answers.
* **C58 Constant evaluation and run time agree** - The loops behind `std::is_constant_evaluated()` are modelled one by one, with out-of-range accesses and unassigned array elements as separate outcomes, and proved equal to the run-time copies for all states by induction over the loops.
* **C59 No objects without input** - `leastBytes` (Spec/Depth) is defined by recursion over types; induction over the reader shows every success consumes at least as much, and that element loops consume it once per element. Witnesses for all sizes show what is not bounded.
* **C60 Stack depth is linear in the input** - The reader takes its stack depth as an argument and reports exhaustion as a separate outcome. `freeRefs` (Spec/Depth) lists the classes reachable without input; with a ranking of them, induction over the depth shows that height + (S+1)*R*(bytes+1) levels suffice. The linked list on n bytes of 1 needs 3n levels.
* **C61 A damaged record ends the message with its error** - `BrokenAt` (Spec/Records) describes readable records followed by a remainder. The step lemma for records (C35) carries the loop to the damage, where one more iteration is computed.
* **C62 Classes with a user-written serialize function** - `Script` (Model/User) is the tree of what the function does. Output is reduced to a call with the members listed by `visits`; the input side is an induction over the tree on top of the round trip, safety and locality lemmas of single objects.
* **C63 What was read can be written again** - induction over the reader on arbitrary input: the result has an encoding in the format specification, bounded by the bytes consumed, and satisfies the conditions of C10; `rigid` lists the types for which the encoding is the input.
* **C64 Types with the same format are interchangeable** - an inductive relation `Alike` lists the rules; induction shows that related objects have the same encoding; C04 and the reader's main theorem transfer it to the archives.
* **C65 Memory of a growing buffer is linear in the data** - Size and position are tracked through every serialization step by one generic relation; the bound is an instance, then induction over the history.
* **C66 Ambiguous ids and field numbers do not compile** - model the recursive compile-time functions (`get_id`, `unique_ids`, `same_id_types`, `index`, `index_by_type`, `tuple::visit`) as functions on lists with `none`/`false` for programs that do not compile; characterize them by an inductive definition of "alternative i has id x"; show that the lookup used by the model of the reader agrees.
* **C67 Every message class that compiles is covered, with a short list of exceptions** - model `check_type`, `tag_type` and the assertions about numbers as Boolean functions on types and prove both inclusions with the conditions (`pbFieldsOk`, distinct numbers) assumed by C30-C35.
* **C68 Writing to a growing buffer costs work proportional to the data** - `work` adds, over the calls, the bytes by which a call made the buffer longer (`filled`). Linear bound with `no_fit_size` by the growth invariant; with the default `fit_size` each call enlarges by half and cuts back, so the cost is quadratic (`C68_quadratic`, for every number of calls); the general upper bound is `C68_at_most`.
* **C69 Raw memory is written and read exactly** - `Model/Raw`: a `bytes` object is the memory behind the pointer, the size of an item, and the count. Output is shown equal to writing a block; closed forms for the fixed buffer and the input; counts outside the precondition give `ub` or wrap.
* **C70 Classes with their own serialize function work anywhere inside an object** - `UTy` (Model/UserNest) are types with such classes, `ScriptOf` the functions. `uWire` and `uSame` (Spec/UserNest) are defined by recursion on a bound of the nesting; induction over it on top of the lemmas for library types. Sets and maps are supposed to be ordered by what is handed over (`StaysOrdered`). `AsLib` (Spec/UserLib) relates types whose functions list all members to the types without the functions; `uDecode` and `uEncode` are then equal to `decode` and `encode`.
* **C71 Protobuf messages can be read by newer versions of their classes** - `ReadAs`/`MsgReadAs` in Spec/Evolve relate written and read objects; every derivation gives a sequence of records (`recsBytes`) equal to the written bytes whose effect is the read object; then the theorem on records. Removing members is refuted (`C71_removed_refuted`, as undeclared fields are not skipped, C33).
* **C72 Objects with spans and unsized containers come back into prepared destinations** - Spec/Prepared.lean says inductively when a destination is prepared for an object; induction on it with the round trip of C10 at the leaves.
* **C73 A position inside a view is as good as a view of its own** - decode/encode commute with putting bytes in front (Proof/InShift, OutShift, UserShift), by induction on the stack depth; no hypothesis on types or input.
* **C74 Archives follow the overload chosen for a type** - `Model/Rules` transcribes each overload separately, selects one with `Model/Dispatch` from the answers of the compiler for the type, and `C74_output`/`C74_input` show equality with the kind-based archive model.
* **C75 Reading neither leaks nor destroys twice** - `Model/Lifetime` follows the creation, moving and destruction of objects through every reading rule, all decisions and exceptions being answers of an arbitrary script; a balance of owned, destroyed and created objects is kept by every rule (induction on the depth, on element counts and on members). That these scripts cover the archive is proved too: a simulation (`Proof/Mirror*`) gives, for every run of `decode`, a script leading the ownership model to the same outcome and to a record (`Mirror`) of the object read.
* **C76 Destinations stay valid objects** - `Spec/Objects`: an inductive definition of valid objects, independent of the reader. Induction on the depth of the reader with the stack measure of C60; new objects are valid when no class stores itself (`Layered`).
* **C77 Limits on reading only refuse** - two-run simulation by induction on the depth (Proof/InRefuse): each reader step of the tighter archive equals that of the looser one or stops with a refusal, which every enclosing reader passes on.
* **C78 What a failed read leaves behind** - induction on the destinations for the call; classes, arrays and containers are shown equal to a call on their members or elements.
* **C79 An output archive is a tape** - simulation of the archive by a tape, by induction on the history; each call uses C02, C04 and C06, reading uses C10.
* **C80 Recursive classes are recognised** - model of the two templates over an arbitrary graph of types; exact characterisation by induction on the nesting of instantiations; false as stated, with witnesses (mutual recursion, containers of containers, arrays of containers, variants).
* **C81 Memory is bounded by the input under alloc_limit** - Spec/Storage: bytes held by sequence containers at every depth. Proof/Storage: every reading function pays M for each byte consumed (amortised: a size prefix takes at least one byte and pays for the resize it allows, the tag of a record pays for one element of a repeated member). Props/Storage: C81_storage, C81_new, with a case where the bound is met exactly. Counted are elements, not reserved capacity (reserve for packed varints is not limited, see C16), and not the nodes of sets and maps (see C59_entries).
* **C82 Reading takes work linear in the input** - `Model/Work.lean` follows the functions of the reader and counts the objects visited and the elements created; `Spec/Work.lean` says which types take input and what they may cause ahead of it. By induction on the stack depth the work is paid by the input at a fixed price, a successful read of a type that takes input leaving one byte over.
* **C83 Ids made from names mean the same everywhere** - `sha1Int`, `sha256Int`, `textId` on top of `serializeId`; the id as bytes by `idItem_wire`. False for archives with an explicit byte order other than the host's: ids that were turned into integers are written backwards (`C83_hosts_differ`), and a call between hosts of different byte order fails (`C83_rpc_between_hosts`).
* **C84 Messages from elsewhere can be passed on** - From validity of destinations (C76) and the round trip (C10): by strong induction on the number of values in an object, every valid message object has an encoding of at most a fixed number of bytes for each value and meets the conditions of the reader (`Proof/Relay.lean`).
* **C85 Arguments of remote calls are converted like those of local calls** - `convertArgs` models the branches of `request`; `castInt` works on object representations, the specification (`Spec/RpcArgs.lean`) on numbers and congruence; end to end through C36.
* **C86 Writing takes work proportional to the bytes written** - The bytes of `memmove` are counted by functions that follow the functions of the output archive one by one (Model/Moves). Induction over the writing functions bounds the count by levels of messages times bytes written; a chain of nested messages shows that no constant factor suffices.
* **C87 Servers of functions that throw** - `Model/RpcThrow.lean` follows `call_binding_throwing`, with assumptions on zpp_throwing.h (not part of the repository) that are stated there. Cases on the kind of function; false as stated for two kinds of functions with parameters (`C87_void_lost`, `C87_errc_thrown`); where nothing throws, the server is shown equal to the ordinary one, so that C36 carries over.
* **C88 Protobuf parsers read what the library writes** - `Spec/Proto.lean` is a reference parser (records, packed elements, merging, skipping) that shares nothing with the model. Induction on the length of the message for nested messages, on members and on elements inside.
* **C89 The library reads messages as protobuf parsers do** - The records of C35 against the reference parser of C88: both have the same effect on every member, record by record. For arbitrary bytes (`Spec/ProtoBytes.lean`: varints with more groups than needed), by induction on the stack, the loop over records and the packed elements: if both accept, they agree. False for undeclared fields, other wire types, second records of some members, duplicate keys, ten byte negative numbers and bools of two groups, each with a witness.
* **C90 Views share the input, everything else is a copy** - `Model/Located.lean` models reading again with objects whose views are places (buffer, offset, length) instead of bytes, over a memory of several buffers. Simulation: looking at the result gives the result of `Model/In`. Induction on types for places inside the input consumed, disjoint, none in types without views; views look the same in memories that agree on their places.
* **C91 Views can be written as what they show** - `Model/Own.lean` models writing again with objects whose views are places; their bytes are read at the `memcpy`, from the buffer as it is then. Simulation: as long as the buffer keeps its bytes in front of the position and stays within its capacity, this is writing what the objects look like. False for growing buffers (the view dangles when the vector is enlarged before the bytes are copied) and for views of bytes the archive is about to overwrite: witnesses.
* **C92 Zigzag varints of unsigned types** - `Model/ZigzagUnsigned.lean`: the shift of an unsigned value brings in zeros. False for values with the top bit set: `C92_iff` says what comes back for each value (via the word of the signed type with the same bytes and `C10_round_trip`), `C92_top_bit` is a witness, `C92_small_partial` the part that holds.
* **C93 Reflection by structured binding packs** - `Model/Packs` for both functions and for message classes; relation to `Model/Reflect` by C56; the last part is false for messages: general theorem about members behind the declared number, two witnesses.
* **C94 Every valid object can be written, with a short list of exceptions** - `Spec/Writable` lists the obstacles as an inductive predicate on a type and an object, `Proof/Writable` shows that the encoding of a valid object (C76) is undefined exactly for them; with C06 and C02 this decides the result of every call on valid objects.
* **C95 Reserved buffers stay where they are** - `Model/Capacity` follows block and capacity of the vector through the calls; the bounds of C65 bound every size, so no resize exceeds the capacity. With C90 and C91 this gives the claims about views. `C95_moves`: reserving just the number of bytes to be written is not enough.
* **C96 Messages received in pieces** - `Spec/Receive` is the receiving program. Induction on the pieces; each attempt by `C10_read_encoding` (complete), `C14_prefix`-style truncation (not complete). `C96_message_early` is a protobuf message taken for complete too early.
* **C97 Parts of objects can be read and replaced in place** - `Spec/Layout` states sizes, offsets and parts without reference to the archive. Induction on the path shows that the encoding splits there (`place_split`); then `C10_read_encoding`, `C45_patch_local`, `C02_fixed_exact`.
* **C98 Variants can get new alternatives** - Spec/Versions has the relation between the types of the two programs. Proof by induction over the decoding depth: all parts before the first new alternative are read as they were written, its id is not found. The plain format only: protobuf messages have C71.
* **C99 Members can be added at the end of the last class of a message** - Spec/Append relates the objects of the two programs. The encoding of the grown object starts with that of the old one (induction over the relation); the rest is C10 and C14. Other bytes behind an old message are misread (C99_followed_refuted).
* **C100 Encodings in big endian byte order sort like the objects** - Spec/Sort has the order of the objects. Proof by induction over the order: the encodings differ first at a byte that is less; and over the depth of the object: any two different objects are ordered. The bytes are those of C04.
* **C101 Protobuf messages one behind the other are one message** - The loop over the records, started behind the first part, sees only the bytes that follow (`pbLoop_shift`, with any fuel), and the object the first part leaves is the one the second starts from, as clearing containers changes nothing if there are none (`emptied_recs`). With containers: both parts as record sequences, member by member (C35). A witness shows that the first part must not be cut inside a nested message, whose length is clamped.
* **C102 Size prefixes of any integer type** - `Model/SizeTypes.lean` has `sized<SizeType>` for integers and varints of any width and signedness (`Model/Types` has those the library names; `C102_named` says that they agree there). `C102_write` reduces writing to two items of one call, `C102_read` reading to an eight byte prefix (independence of the offset, `Proof/InShift`), `C102_prefix_fails` is the failure of the prefix; `C102_round_trip`, `C102_beyond`, `C102_negative` are the consequences. Messages with such size types are C103.
* **C103 Messages with a size of any integer type** - `Model/SizeTypes.lean` has messages beside containers (`encByProtocolInt`, `patchSizeInt`). `C103_int` reduces integers to the unsigned ones of the main model; `C103_varint`, `C103_varint_refused` and `C103_zigzag_overwrites` say what is appended (`Proof/SizeMsg`: what moving the body leaves, then the patch). `C103_read`, `C103_prefix_fails`, `C103_negative` are reading, `C103_named` the agreement with the main model, `C103_round_trip_int` and `C103_round_trip_partial` the round trips. Partial: room is made for the plain varint of the length, so that a zigzag size that is one byte longer overwrites the first byte of the message (`C103_zigzag_refuted`), and a length beyond the largest value of the integer type is reduced to the type before the size of its varint is looked at, so that such messages may be written without an error (`C103_varint_beyond`, `C103_beyond_refuted`).
* **C104 Protobuf messages appended to protobuf messages** - `Spec/Merge.lean` says what a further message makes of a member (`mergeValue`). `C104_merged` combines what a call appends (C04) with reading a sequence of records (`C35_members`), the records of an object being one per member (`Proof/Merge`). `C104_values` spells the fold out for the kinds of members.
* **C105 Services can get new functions** - `Model/RpcVersions.lean` has connections whose server has another list of bindings; the simulation of C36 (`Proof/Rpc`) is carried out for these, C36 being the case of equal lists. `C105_history` is the simulation, `C105_serve` and `C105_order` are about arbitrary bytes, `C105_not_offered` about missing functions; `C105_unread_arguments` shows what serving on after that does.
* **C106 Many clients of one service** - `Model/RpcMany.lean` runs operations of C105 on a family of connections that share the world. `C106_many` extends the simulation of C105: the invariant of a connection does not mention the world, so it survives the operations of the others. `C106_isolated` is about arbitrary bytes.
* **C107 A buffer of a size known from the types suffices** - `mostBytes` in Spec/Most computes the bound from the type, independently of the archive; induction on types against `wire`; C02 and C94 for the archive; `C107_attained` constructs the longest objects.
* **C108 Several services over the same archives; peers that call each other** - `Model/RpcShared.lean` runs the operations of all services on the same buffers. The ideal side (`Spec/RpcShared.lean`) has queues of messages that carry the number of their service. `C108_shared` is a simulation: each buffer holds the encoding of its queue, and each operation keeps that. An example shows that the order is needed: a client that asks too early takes a request for its response.
* **C109 Sending messages through a buffer of limited size** - The program is `Spec/Send.lean`, made of calls of the modelled archive and assignments of its position. By induction over the messages with C01 and C02 its chunks are those of a greedy packing without buffers, which is shown to be least by an exchange argument. `C109_received` composes it with C96.
* **C110 A fixed buffer as a queue of limited size** - The program is `Spec/Bounded.lean`, made of calls of the modelled archives, assignments of their positions and one memmove. The invariant of C44 (the encoding of the queue stands between the positions) is kept by failed calls that are taken back (C01, C02) and by the memmove.
* **C111 Requests received in pieces are executed exactly once** - Spec/ServePieces: the program (serveLoop, arrive, servePieces) and direct calls (callAll). C111_pieces by induction over pieces and requests: a complete request is served as called (C36), an incomplete one is refused with result_out_of_range without calling the function (C14, C38). C111_stream: from the client's output calls to the client's receiving program (with C12, C96). C111_code_refuted, C111_full_refuted: the conditions are needed.
* **C112 A log of records survives crashes at any point** - Spec/LogFile: the program (scan, logRun) and the list of records it should keep (logIdeal). C112_recovers by induction over the history, from the write step of the queue invariant (C44), C10 for complete records and C14 for the incomplete one. C112_complete says what complete means. C112_uncut_refuted: the buffer has to be cut.
* **C113 Archives over separate parts of memory do not affect each other** - Spec/Threads: threads with an input and an output archive over a part of the memory, and schedules. C113_schedule by induction over the schedule: a call leaves the length of its part (C01), so it can be put back, and does not change other parts. C113_order: schedules with the same turns are equivalent. Calls are taken as a whole; switching within calls is not modelled.
* **C114 An object kept in two slots survives interrupted updates** - the program in `Spec/TwoSlots.lean` is made of archive calls at assigned positions; the invariant says that the file selects a slot that begins with the encoding of the current object (`Proof/TwoSlots.lean`). Objects with bitsets do not have the property, since bits are added to the bytes that are there (`C114_bits_refuted`); one slot is not enough (`C114_one_slot_refuted`). The write of the one byte is taken to be atomic.
* **C115 Writing again with a larger buffer succeeds** - the program in `Spec/Retry.lean`; induction on the attempts with C02 and C01. Old bytes under bitsets are the reason for the exception (`C115_bits_refuted`).
* **C116 Messages pass through relays with other options unchanged** - the program in `Spec/Retry.lean`; induction on the relays with C10, C04 and C06. For messages from elsewhere see C63 and C84.
* **C117 Options that do not belong to the format do not change the bytes** - a relation between the states of the two archives (same position, same bytes up to zeros behind the end), preserved by every operation of `Model/Out.lean`; induction on the stack depth as for C01 (`Proof/OutSame.lean`). No hypothesis on the objects, so it also covers the objects excluded from C03.
* **C118 What is written does not depend on what is in front** - relation SameBehind k between two output states (Spec/OutSame.lean), generalising the relation of C117 by a distance k; every operation of the output model preserves it; Props/OutBehind.lean
* **C119 A file with an index gives every record alone** - putFile and getRecord as programs over the model (Spec/Indexed.lean); induction over the records with the invariant that the archive has written exactly the encodings so far
* **C120 Bytes identify objects** - injectivity from the round trip and functional wire format; the table as a program (Spec/Memo.lean) with the invariant that its keys are the encodings of the arguments seen
* **C121 Damage inside an envelope stays inside** - the program as functions in `Spec/Envelope.lean` (`putEnvelopes`, `openEnvelope`, `getEnvelopes`); the loop invariant and C10_read_encoding give the list of all envelopes (`C121_contained`), C04 and C10 the content of undamaged ones (`C121_opened`).
* **C122 A history chained by hashes cannot be changed unnoticed** - the program as functions in `Spec/Chain.lean`; induction over the history with C04 and C10: bytes with the right hash are the bytes written, or a forgery is at hand. The library's own sha256 takes compile-time strings only, so the hash function is a parameter.
* **C123 Floating point numbers** - numbers of IEEE 754 formats as bit patterns (`Spec/Float.lean`), compared by exact values; C10 and C120 for the bits, C100 for the order of bytes, and that the magnitude grows strictly with the bits below the sign (`Proof/Float.lean`).
* **C124 Remote calls over a connection that loses, repeats and reorders messages** - the program as functions in `Spec/Lossy.lean`; an invariant over histories: every buffer under way is the encoding of a request or reply of a known number, the kept reply is that of the last request served, the world is that of direct calls (`C124_once`); three events are enough for a step forward from any reachable state (`C124_progress`).
* **C125 Objects that point to each other** - Model/Graph.lean models the writer on a memory of objects with addresses; Spec/Graph.lean states the tree of pointers followed, objects that look the same (bisimulation), and sets of objects from which there is always a way on or a null pointer. Props/Graph.lean: the writer equals the writer of the tree for every graph by recursion on the stack; related objects are written alike; hopeless objects never succeed; round trip for ranked graphs through C10; the ladder by induction.
* **C126 A table of records can be searched without reading it** - Spec/Search.lean states the program; Props/Search.lean proves the loop by induction on the records that remain, with C04 for the bytes written, C97's static sizes for the places of the records, C10 for each read, and C13 for damaged bytes.
* **C127 Input that changes while it is read** - Model/Fetch.lean is the input archive with the memory given at every fetch (position, and number of the fetch at this position); Spec/Fetch.lean states sizes, bytes held and that the two fetches of the first byte of a varint agree. Safety as for constant input (Proof/FetchSafe.lean). Proof/FetchOnce.lean stitches the contents from what the parts of the read saw, position by position, through nested messages. For objects without varints, and with ZPP_BITS_INLINE_DECODE_VARINT, there is no assumption; with varints as compiled by default the claim is false (line 1759 tests a byte and line 1760 fetches it again): witness, and `_partial` theorem when the two fetches agree.
* **C128 Containers written and read one element at a time** - Spec/OneByOne.lean has the calls of the writer and the loop of the reader. Encodings are compared with the wire format (Spec/Wire.lean) and carried over to the archives by C10 and C12; for arbitrary input the loop is compared with the element loop of the model by induction, with decode_old for the object that is reused.
* **C129 A message put together by several threads** - Spec/Together.lean places one thread of Spec/Threads.lean per part. C113 gives what each thread leaves in its place, C02 that the call succeeds and fills it, and an induction over the parts glues the places together. Calls are taken as a whole, as in C113.

## Disagreements

Places where the code departs from its documentation, from protobuf, or from the natural reading of a property. Each
is a theorem with a concrete witness about the model (`Props/Disagreements.lean` unless another file is named). The
hypotheses of the positive theorems (`Good`, `GrowthLaws`, `BitsOk`, ...) exclude exactly these combinations.

| theorem | departure | lines of zpp_bits.h | excluded by |
|---|---|---|---|
| `D01_position_outside_write/read` | `reset(p)`/`position() = p` behind the end: next access is outside of the buffer (`size() - position` wraps) | 1940-1964, 1969, 2057, 2547-2571, 2612 | `pos <= size` in C01, C13 |
| `D02_shrinking_enlarger`, `D02_unchecked_overflow` | `enlarger<M, D>` with `M < D`, or `no_enlarge_overflow` with a wrapping product: write behind the end | 1966-2002 | `GrowthLaws` |
| `D03_varint_refused_within_limit` | `alloc_limit` refuses a varint that fits (room for the longest varint is requested, limit compared after enlarging) | 1675, 1966-2002 | `LimitRoom` in C06 |
| `D04_bool_not_checked` | a `bool` is read by copying the byte | 2601-2684 | only valid encodings in C10 |
| `D05_optional_flag` | every nonzero flag means "has value" | 2921-2962 | - |
| `D06_resized_before_check` | containers are resized before the input length is known | 2756-2847 | C16 with `alloc_limit` |
| `D07_overlong_varint`, `D08_unterminated_varint` | non-minimal varints accepted; error of an unterminated varint depends on the rest of the input | 1703-1833 | - |
| `D09_self_owning_never_read/written` | classes owning themselves by `unique_ptr` have no finite encoding | 2304-2312, 3058-3071 | `wire` is undefined for them |
| `D10_message_size_native_order` | fixed size field of a message in native order in byte-swapping archives | 2341-2416 | `msgSzOk`; C29 |
| `D11_vector_of_empty` | a vector of an empty class writes one byte per element | 1270-1328, 2182-2250 | `copyOk`; C25 |
| `C60_deep` | the depth of recursion is chosen by the input (no depth limit exists), so a short hostile input can exhaust the stack of a reader of a recursive class | 1492-1515, 2601-3122 | stack depth is an argument of the reader and exhaustion a separate outcome |
| `C59_failed` | a failed read has already resized the destination to the announced size | 2756-2783 | `alloc_limit` (C16) is the only guard |
| `D12_fixed32_big_endian` | fixed numbers of a message written in the archive's order if the archive has varint sizes | 4700-4760 | `nodeOk (.msg ..)`; C31 |
| `D13_repeated_number_lost` | explicit number of repeated strings/messages ignored by output | 4787-4927 | `pbFieldOk`; C30, C31 |
| `D14_byte_member` | `std::byte` member written raw under the length-delimited wire type | 4787-4927, 5026-5172 | `pbFieldOk`; C30, C31 |
| `D23_array_member` | a C array member is written under the length-delimited wire type without a length | 4590-4593, 4668-4669, 4795-4850 | `pbFieldOk`; C67 |
| `D24_nested_containers` | containers of containers: the length of the inner record is the number of elements | 4604-4611, 4912-4926 | `pbFieldOk`; C67 |
| `D25_negative_five_bytes` | negative `vint32_t` and enumeration values are written as five-byte varints, where protobuf writers use ten bytes; readers of `int64` find another number | 1642-1700, 4790-4815 | C88 (parsers of `int32` are not affected) |
| `D15_message_bulk_copied` | plain messages in containers are copied bytewise | 2163-2250 | `copyOk`; C25, C31 |
| `D16` - `D20` | lengths of nested messages are clamped, wire types are not compared, ten byte negative `int32` refused, packed records may end inside an element or wrap, left over bytes of packed fixed numbers are read as records | 4929-5172 | positive theorems assume conforming records only (C33-C35) |
| `D21_map_first_wins`, `D22_merge` | first of equal map keys is kept; reading into a used message merges | 4929-5172 | stated in C34, C35 |
| `C80_missed`, `C80_missed_alone` (Props/SelfRef) | mutually recursive classes, and classes behind two containers or in a variant, are not recognised as recursive | 883-912, 1392-1444 | C80 |
| `C82_unpaid` (Props/Work) | entries of a set or map that take no input are read as often as the size prefix says; `alloc_limit` is not asked | 2850-2901 | `affordable` in C82 |
| `C83_hosts_differ`, `C83_rpc_between_hosts` (Props/NamedIds) | ids made from names that have the length of an integer are integers in the byte order of the compiling host; with an explicit byte order they are written backwards on the other hosts | 3283-3304, 5600-5610 | C83 |
| `C05_not_fitted` | a growing buffer stays longer than the data after a varint | 1673-1700, 2443-2456 | C05 |
| `C55_varint`, `C55_inside` (Props/Exact) | `exact_enlarger` does not grow to the exact size: room for the longest varint stays; inside a buffer the whole size of the object is added | 1673-1700, 1966-2002, 2443-2456 | C55 |
| `C68_quadratic` (Props/Cost) | with the default `fit_size`, every call enlarges the buffer to 3/2 of its length and cuts it back: n one-byte calls initialize at least n²/4 bytes | 1966-2002, 2443-2456 | C68 |
| `C69_count_not_checked`, `C69_size_wraps` (Props/Raw) | `bytes(items, count)` does not compare the count with the items; the size in bytes may wrap | 999-1057 | C69 |
| `C56_declared_zero` (Props/Reflect) | `members<0>` on a class with members is not compared with the class: its members are not visited (a trivially copyable one is then written as a block of bytes) | 234-247, 1187-1228 | C56 |
| `C54_default_constructed` (Props/Result) | a default-constructed `value_or_errc` says `success()` but holds no value; reading, moving or destroying it is undefined | 3481, 3494-3519, 3617-3622 | C54 |
| `C08_depends_on_old_content` | bitset output ORs into old bytes | 2314-2339 | `BitsOk`; C08 |
| `C16_packed_unlimited` | `alloc_limit` does not bound packed varints | 5140-5148 | C16 |
| `C28_all_items_written` | size prefix is truncated, but all items are written (README: fewer items) | 2196-2218 | C28 |
| `C33_unknown_not_skipped` | payload of an undeclared field is read as records | 4954-5024 | C33 |
| `C35_fixed_overwritten`, `C35_nested_cleared` | a second packed record of fixed numbers overwrites the first; each record empties a container of nested messages | 5091-5172 | C35 |
| `C36_errc_no_response`, `C38_errc_reported_as_failure` | functions returning `errc` send no response, and `response()` for them consumes the answer of another call (`C36_errc_steals`); `apply` reports the function's `errc` as its own failure | 3625-3742, 3835-4343 | C36, C38 |
| `C87_void_lost`, `C87_errc_thrown` | an exception of a function with parameters that returns `zpp::throwing<void>` is lost and `serve()` succeeds; a function with parameters that returns `errc` and succeeds makes `serve()` throw the code 0 | 3488-3492, 4166-4191 | C87 |
| `C89_undeclared_field`, `C89_packed_twice`, `C89_nested_twice`, `C89_map_key_twice`, `C89_negative_int32`, `C89_wire_type`, `C89_wide_bool` | valid protobuf messages that the library reads differently from a protobuf parser | 4993-5178 | `RecsPlain`; C89 |
| `C123_padding_refuted` (Props/Float) | the padding bytes of `long double` (x86) are written: equal numbers have different bytes, and memory content is revealed | 2049-2086 | C123 |
| `C95_moves` | a vector with capacity for exactly the bytes to be written is moved | 1966-2002, 2443-2456 | capacity of C95 |
| `C91_growing`, `C91_in_front` | a view of the buffer written to dangles when the buffer is enlarged, or shows what is being written | 1966-2002, 2087-2141 | hypotheses of C91 |
| `C85_const_object` | `const decltype(get<I>(...)) &` is not a reference to `const`: a remote call that converts one argument cannot pass a `const` object of a class | 3903-3908, 3961-3966 | C85 |
| `C86_quadratic`, `C86_no_factor` (Props/Moves) | the body of a message is moved by `memmove` when its length needs more than one byte, once for every message around it: n nested messages of linear size move at least n² - 4096 bytes | 2373-2401 | C86 |
| `C84_limit_refuses` | under an allocation limit, numbers accepted in several records are not accepted back in the one packed record they are written to | 5091-5149 | C84 |
| `C39_compare_little_wrong` | `operator<=>` of `big_endian` numbers compares bytes in the wrong order on little-endian hosts | 5309-5310 | C39 |
| `C93_beyond_ignored`, `C93_lost`, `C93_ambiguous` | with structured binding packs, a wrong `protocol<pb{}, N>` is accepted: all members are written, N are read, and only the numbers of N are compared | 204-230, 1207-1241, 4559-4570, 4993 | C93 |
| `C96_message_early` | a protobuf message of which only some fields have arrived is taken for complete: its length is cut to the bytes that are there | 4936-4941 | C96 |
| `C103_beyond_refuted`, `C103_varint_beyond` | a message longer than the largest value of its varint size type is written with the length modulo the values of the type, without an error, when the varint of that fits | 2372, 2401-2406 | C103 |
| `C103_zigzag_refuted`, `C103_zigzag_overwrites` | room is made for the plain varint of the length of a message; a zigzag size that is one byte longer (lengths 64 to 127 and so on) overwrites the first byte of the message, without an error | 2369-2406 | C103 |
| `C92_iff`, `C92_top_bit` | zigzag varints of unsigned types do not come back if the top bit is set | 1664-1671, 1776-1779 | C92 |
| `C50_static_undefined`, `C50_other_alternative_undefined` | `known_id` on a variant not holding that alternative dereferences null / runs off a function end | 2974-3001, 3306-3360 | C50 |
| `C127_double_fetch_refuted` (`Props/Fetch.lean`) | the first byte of a varint is fetched once to be compared with 128 and again to be the value: over memory that another process writes to, a varint of one byte can have a value from 128 to 255 that no contents have (still memory safe) | 1757-1761 | `Steady` in C127 |

One departure has no effect the model can show: the size field of a message with a varint size is overwritten through a
`span` of 8 bytes (2403-2406), which reaches behind the end of the buffer if fewer bytes are left. The bytes outside are not
accessed (`patchSize` asks for the bytes of the varint only).

A quirk outside the type model: `std::array<std::optional<bool>, N>` with N ≥ 2 can be assigned from `{data(), 1}` (as two
elements, since pointers and numbers convert to `bool`), is therefore taken for a view, and is written with a size prefix
(2203, 2741; `C57_fixed_prefix`). The same holds for other element types both convert to, such as `std::tuple<bool>`. Arrays of the
model are C arrays and the other `std::array`s.

## Trusted base

* The kernel of Lean 4.33. The build is replayed by it; no `sorry`, no `native_decide`/`bv_decide`, no axiom is added.
* Axioms: every theorem of `MANIFEST.json` depends on a subset of `propext`, `Classical.choice`, `Quot.sound`. The list
  per theorem is in `AXIOMS.md` (output of `#print axioms`).
* The reading of the C++ text, as recorded in the comment of each definition under `Verif/Model`.
* The C++ standard library (vector, string, map, span, memcpy, memmove, bit_cast, countl_zero) behaving as specified, and
  zpp_throwing.h, where present, as stated in `Model/RpcThrow`;
  the ABI facts `AbiOk` (size of scalars and arrays, no object has size 0).

## Modelled

| lines of zpp_bits.h | what | module |
|---|---|---|
| 111-164 | error codes | `Model/Base` |
| 201-266, 1174-1268 | member counting and visiting | `Model/Reflect`, with structured binding packs in `Model/Packs` |
| 431-602, 745-759, 4334-4343 | variant and binding ids, checks of the compiler | `Model/Static`, `Model/In`, `Model/Out`, `Model/KnownId` |
| 653-730, 1059-1172, 1852-1923, 2021-2040, 2439-2441, 2512-2530 | archive options | `Model/Options` |
| 764-937, constraints of 2042-2416 and 2601-3122 | concepts and choice of the rule for a type | `Model/Dispatch` |
| 1757-1764, 2062-2072, 2112-2126, 2390-2394, 2615-2626, 2661-2678 | branches taken in constant evaluation | `Model/ConstEval` |
| 1270-1390 | byte serializable, endian independent types | `Model/Types` |
| 999-1057, 2087-2141, 2642-2685 | `bytes`, `as_bytes` | `Model/Raw` |
| 1464-1584 | `optional_ptr`, `sized` | `Model/Types`, `Model/Out`, `Model/In`; size types the library does not name in `Model/SizeTypes` |
| 1586-1833 | varints, zigzag, all decoder paths | `Model/Varint`; unsigned zigzag in `Model/ZigzagUnsigned` |
| 1860-2462 | `out` | `Model/Out`; bytes moved in `Model/Moves`; views of the buffer written to in `Model/Own` |
| 2485-3126 | `in` | `Model/In`; where views point to in `Model/Located`; over memory that changes in `Model/Fetch` |
| 2047-2050, 2606-2609 | user-written `serialize` functions | `Model/User`, `Model/UserNest` |
| 3155-3180 | shared in/out archives | `Model/Duplex` |
| 3214-3304 | `to_bytes`, `from_bytes`, `id` | `Model/Bytes` |
| 3306-3360 | `known_id`, `known_dynamic_id` | `Model/KnownId` |
| 3457-3623 | `value_or_errc` | `Model/Result` |
| 3625-3833 | `apply`, `bind`, `bind_opaque` | `Model/Rpc` |
| 3835-4343 | RPC client and server | `Model/Rpc`; conversions of arguments in `Model/RpcArgs`; functions that throw in `Model/RpcThrow`; different lists of bindings in `Model/RpcVersions`; many connections in `Model/RpcMany`; several services over the same archives in `Model/RpcShared` |
| 4345-5178 | protobuf | `Model/Out`, `Model/In` |
| 4352-4671 | checks of the compiler on message classes | `Model/Static` |
| 5180-5316 | `big_endian` numbers | `Model/Numbers` |
| 5318-5534 | sha1, sha256 | `Model/Numbers` |
| 5552-5586 | hex literals | `Model/Numbers` |

## Not modelled

The answers of the compiler to `requires`-expressions (inputs of `Model/Dispatch` and `Model/Reflect`), exceptions (but
for the objects they destroy while reading, `Model/Lifetime`), the coroutines of zpp_throwing.h, which is not part of the
repository (`Model/RpcThrow` states what is assumed of them), constant evaluation limits, compiler attributes, the
numeric address of a buffer (`Model/Capacity` follows which block of memory a growing buffer is in, C95).
Classes whose user-written `serialize` function just lists members are structs (`C62_listed`), all others are in
`Model/UserNest`.

## Wrong programs

`seeded/LOG.jsonl` has one line for each edit of a definition (of the model, or of a specification where the claim says so) made in a scratch copy of the project, as
the project was at the time of the edit.

* `theorems_failed` is what the build of the edited copy reported: the theorems, or examples with file and line at that time, that no longer check. The build does not go on to modules that import
  one that failed, so further theorems may be false after the edit without being listed.
* `property_modules_not_accepted` is not observed but computed, from the imports of the present project: the modules of `Props` that failed or import one that
  failed. It includes modules written after the edit was tried.
* An empty `theorems_failed` with an empty `property_modules_not_accepted` means that the edit survived. The claim then says why the edit is equivalent, or `theorems_tightened` says what was
  added so that it no longer survives.
* Three lines with an empty `theorems_failed` are neither: the builds for `getChain` and `sends` ended without naming a theorem because Lean ran out of memory, and the one for `protoVarint` was
  interrupted. These edits were tried again. The later lines say `run again` and name the theorems that failed.
