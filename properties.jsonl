{"id": "C01", "title": "Base64 round trip", "statement": "Decoding what base64_encode (resp. base64url_encode) produced returns exactly the original bytes, with no error, for both alphabets.", "quantifier": "For every byte sequence of any length, for the standard and the URL-safe variant.", "why_tests_cant": "Tests sample a few strings; the claim covers every length residue mod 3 and every bit pattern.", "anchors": ["src/base64.cpp: base64_encode, base64_decode, base64url_encode, base64url_decode"]}
{"id": "C02", "title": "Base64 encoder output is well formed", "statement": "base64_encode produces exactly 4*ceil(n/3) characters, the first ceil(8n/6) of which are in the standard alphabet and the rest are '='; base64url_encode produces exactly ceil(8n/6) characters, all of the URL-safe alphabet, and never '='.", "quantifier": "For every byte sequence of any length n.", "why_tests_cant": "The length and alphabet claim is about all inputs; tests look at a few outputs.", "anchors": ["src/base64.cpp: encode_impl, base64_encode, base64url_encode"]}
{"id": "C03", "title": "Base64 decoder accepts exactly the well formed strings", "statement": "base64_decode returns a value iff the length is a multiple of 4, at most two '=' end the string and all other characters are in the alphabet; base64url_decode returns a value iff after removing the (at most two) trailing '=' all characters are in the URL alphabet and the remaining length is not 1 mod 4. The decoded length is floor(6k/8) for k remaining characters. Anything else yields nullopt.", "quantifier": "For every input string, well formed or hostile.", "why_tests_cant": "The set of malformed inputs is infinite; a single misplaced table entry or a missing check of one of the four positions is only visible on particular bytes.", "anchors": ["src/base64.cpp: decode_impl, base64_decode, base64url_decode"]}
{"id": "C04", "title": "Base64 decoding is canonical up to the unused trailing bits", "statement": "If base64_decode accepts s, re-encoding the result gives back s if and only if the unused low bits of the last symbol are zero; encoding is injective, so two distinct byte strings never share an encoding.", "quantifier": "For every accepted string s and every pair of byte sequences.", "why_tests_cant": "Requires reasoning over all strings; tests only check a handful of canonical ones and miss that non-canonical strings are accepted.", "anchors": ["src/base64.cpp: encode_impl, decode_impl"]}
{"id": "C05", "title": "Binary serialization round trip", "statement": "Writing any value of the supported types (trivially copyable scalars, string, vector, map, set, optional, pair, variant, arbitrarily nested) to a buffer with enough room and reading the same type back yields an equal value with no error, consuming exactly the bytes that were written and nothing after them.", "quantifier": "For every type built from the supported constructors, every value whose container sizes fit in 32 bits, every following buffer contents.", "why_tests_cant": "Types nest without bound and buffers are arbitrary; tests instantiate a few types.", "anchors": ["include/kl/binary_rw.hpp: binary_reader, binary_writer", "include/kl/binary_rw/*.hpp: read_binary, write_binary"]}
{"id": "C06", "title": "Binary cursor stays inside its buffer", "statement": "Whatever sequence of reads, peeks, skips, span requests and writes is performed, on whatever (hostile) bytes, the cursor position stays within [0, buffer size], pos()+left() equals the buffer size, and no operation touches a byte outside the buffer.", "quantifier": "For every buffer, every sequence of operations with every argument (except skip(PTRDIFF_MIN)).", "why_tests_cant": "Out-of-bounds behaviour depends on operation histories and attacker chosen lengths.", "anchors": ["include/kl/binary_rw.hpp: cursor_base::skip, binary_reader::read_impl, binary_reader::span, binary_writer::write_impl"]}
{"id": "C07", "title": "Binary errors are sticky", "statement": "Once an operation has failed the cursor reports err() forever after, does not move any more, every later read fails without modifying scalar destinations, and a writer never changes its buffer again.", "quantifier": "For every state with the error flag set and every later sequence of operations.", "why_tests_cant": "Needs all continuations after any failure point.", "anchors": ["include/kl/binary_rw.hpp: cursor_base, binary_reader, binary_writer"]}
{"id": "C08", "title": "Binary writer is exact", "statement": "A write of a value succeeds iff the encoded size fits in the remaining space and no error happened before; on success exactly those bytes are appended at the old position, and all bytes before the old position and after the new position are unchanged. On failure of a composite write no byte outside the reserved remaining space is modified.", "quantifier": "For every value, buffer and position.", "why_tests_cant": "Off-by-one on remaining space shows only at exact boundary sizes of nested values.", "anchors": ["include/kl/binary_rw.hpp: binary_writer::write_impl", "include/kl/binary_rw/*.hpp: write_binary"]}
{"id": "C09", "title": "Binary reader on truncated or corrupt input", "statement": "Reading any value from any bytes either succeeds or sets the error flag; truncating a valid encoding at any point makes the read fail; after a failed read a destination string, vector, map or set is empty and a destination optional holds no value.", "quantifier": "For every type, every byte string, every truncation point.", "why_tests_cant": "Every cut point of every encoding; the optional clause is false in the code, which tests did not notice.", "anchors": ["include/kl/binary_rw/*.hpp: read_binary"]}
{"id": "C10", "title": "Binary skip and peek", "statement": "skip(n) moves by exactly n when the target lies inside the buffer and otherwise sets the error and does not move, for negative and positive n; peek never changes position or error state and agrees with the following read.", "quantifier": "For every buffer, position and signed offset.", "why_tests_cant": "Signed/unsigned boundary arithmetic over all offsets.", "anchors": ["include/kl/binary_rw.hpp: cursor_base::skip, binary_reader::peek"]}
{"id": "C11", "title": "Path parsing is dot-segment normalisation", "statement": "Parsing a URL-style path yields the segments obtained by splitting at '/', ignoring empty and '.' segments, letting '..' cancel the previous retained segment and never climb above the root, and percent-decoding every other segment exactly once (an encoded dot never acts as a dot segment).", "quantifier": "For every input string.", "why_tests_cant": "Unbounded nesting of '.', '..', empty and encoded segments.", "anchors": ["src/path.cpp: path::set, append_segment, pop_segment"]}
{"id": "C12", "title": "Path parser rejects exactly the malformed paths", "statement": "Parsing throws path_parse_error iff some segment that is neither '.', '..' nor empty contains a '%' not followed by two hex digits, or an encoded '/' (%2F or %2f); otherwise it succeeds.", "quantifier": "For every input string.", "why_tests_cant": "All positions of a bad escape, including the last two characters.", "anchors": ["src/path.cpp: path::set, percent decoding"]}
{"id": "C13", "title": "Path invariants", "statement": "In every path object reachable by construction, successful set, clear or copy: no segment is empty, no segment contains '/', joined(k) is the segments from k on joined with '/', and each prefix(k) of a view is the first k segments joined with '/'.", "quantifier": "For every path and every k.", "why_tests_cant": "Offset bookkeeping after pops must be right for every history of pushes and pops.", "anchors": ["include/kl/path.hpp: path, path_view", "src/path.cpp"]}
{"id": "C14", "title": "Distinct locations have distinct prefix strings", "statement": "Two valid segment lists produce the same joined string only if they are the same list; so a string keyed table of prefixes never confuses two locations.", "quantifier": "For every pair of valid paths and prefix lengths.", "why_tests_cant": "A collision would need one adversarial pair out of infinitely many.", "anchors": ["include/kl/path.hpp: path_view::prefix", "include/kl/resource.hpp: modification_tracker"]}
{"id": "C15", "title": "Every segment list is addressable", "statement": "For every list of non-empty segments without '/', the percent-encoded string of that list parses back to exactly that list; in particular parsing is surjective onto valid paths.", "quantifier": "For every list of segments over all 256 byte values.", "why_tests_cant": "All byte values in all positions.", "anchors": ["src/path.cpp"]}
{"id": "C16", "title": "A failed path parse leaves the path unchanged or empty", "statement": "If path::set throws, the object observably holds a valid path: joined(0) is consistent with its segments. (The code violates this: text of a partially decoded segment stays behind.)", "quantifier": "For every prior value and every malformed input.", "why_tests_cant": "Only visible by inspecting the object after an exception at every failure point.", "anchors": ["src/path.cpp: path::set"]}
{"id": "C17", "title": "Modification tracker reports the latest relevant change", "statement": "changed_at(p) is the generation of the latest notification that concerns p, i.e. whose path equals p, lies below p, or (for a subtree notification) lies above p; it is 0 when there is none.", "quantifier": "For every finite history of notifications and every query path.", "why_tests_cant": "Histories are unbounded and interact through a prefix keyed table.", "anchors": ["include/kl/resource.hpp: modification_tracker::notify_changed, changed_at"]}
{"id": "C18", "title": "changed_since never misses and never invents changes", "statement": "If g was the generation observed at some moment, then at any later moment changed_since(p, g) is true iff a notification concerning p happened after that moment; generations strictly increase by one per notification.", "quantifier": "For every history, every observation point, every path.", "why_tests_cant": "Quantifies over all pairs of points in all histories.", "anchors": ["include/kl/resource.hpp: modification_tracker::changed_since, current_generation"]}
{"id": "C19", "title": "Signal emission order", "statement": "A single emission calls the connected, unblocked slots in list order: at_back connections in connection order after all earlier ones, at_front connections in reverse connection order before all earlier ones.", "quantifier": "For every history of connects, disconnects and emissions.", "why_tests_cant": "All interleavings of front/back insertions and removals.", "anchors": ["include/kl/signal.hpp: signal::operator(), insert_new_slot_locked"]}
{"id": "C20", "title": "An emission is a snapshot with respect to connects", "statement": "A slot connected after an emission began is not called by that emission, whatever position it was inserted at and whichever thread or slot connected it.", "quantifier": "For every interleaving of threads and re-entrant slot bodies.", "why_tests_cant": "Schedules cannot be enumerated by tests.", "anchors": ["include/kl/signal.hpp: signal::operator()"]}
{"id": "C21", "title": "A disconnected slot is not called", "statement": "Once disconnect() on a connection (or disconnect_all_slots()) has taken effect, no emission - in flight or later - begins a new call of that slot; the only calls that can overlap are those whose connectedness check preceded the disconnect.", "quantifier": "For every interleaving of threads and re-entrant slot bodies.", "why_tests_cant": "Depends on the schedule point between any two steps of the traversal.", "anchors": ["include/kl/signal.hpp: slot_state::disconnect, signal::operator(), disconnect_all_slots"]}
{"id": "C22", "title": "At most once per emission", "statement": "No emission calls the same slot twice, and every slot connected before the emission began, still connected and unblocked when reached, and not cut off by stop_emission, is called exactly once.", "quantifier": "For every interleaving and every re-entrant behaviour.", "why_tests_cant": "The list is mutated while it is being traversed.", "anchors": ["include/kl/signal.hpp: signal::operator()"]}
{"id": "C23", "title": "stop_emission affects only the innermost emission of this thread", "statement": "this_signal::stop_emission() makes the emission that is currently calling the slot skip all remaining slots, and has no effect on outer emissions, other threads or later emissions; current_connection() names the slot being run, also after a nested emission returned.", "quantifier": "For every nesting of emissions on every thread.", "why_tests_cant": "Nesting depth and positions are unbounded.", "anchors": ["include/kl/signal.hpp: this_signal::stop_emission, current_connection, signal::operator()"]}
{"id": "C24", "title": "Blocking counts", "statement": "A slot is skipped exactly while at least one live connection::blocker refers to it; blockers nest, copies and moves count properly, and when the last one is gone the slot is called again.", "quantifier": "For every history of blocker creations, copies, moves, swaps and destructions.", "why_tests_cant": "Counter balance over all histories.", "anchors": ["include/kl/signal.hpp: connection::blocker, slot_state::block, unblock"]}
{"id": "C25", "title": "Slot memory safety", "statement": "A slot object is never accessed after it was destroyed and is destroyed as soon as no signal list, connection handle, blocker or running emission refers to it (provided no slot throws).", "quantifier": "For every interleaving of any number of threads.", "why_tests_cant": "Use-after-free windows are single schedule points.", "anchors": ["include/kl/signal.hpp: slot reference counting, signal::operator(), remove_slot_locked"]}
{"id": "C26", "title": "No dead slots remain at rest", "statement": "Whenever no emission of the signal is in flight and no disconnect is half way, the signal's internal list contains exactly the connected slots; num_slots() is the number of connected slots at every moment and empty() agrees with it.", "quantifier": "For every interleaving.", "why_tests_cant": "Deferred clean-up must happen for each possible order of last emission end and disconnect.", "anchors": ["include/kl/signal.hpp: cleanup_invalidated_slots_locked, num_slots, disconnect"]}
{"id": "C27", "title": "Exceptions from slots", "statement": "If a slot throws, the exception reaches the emitter's caller, the remaining slots are not called, the thread's emission state and the signal's in-flight bookkeeping are restored so later emissions and disconnects behave as if the emission had ended. (References: the code leaks the reference on the throwing slot.)", "quantifier": "For every slot position, nesting level and schedule.", "why_tests_cant": "Every throw point at every nesting level.", "anchors": ["include/kl/signal.hpp: signal::operator()"]}
{"id": "C28", "title": "Moving and swapping signals", "statement": "After a move or swap of signals every connection still controls its slot: the slots are called by the signal that received them, in the same order, and disconnecting removes them from there; the moved-from signal is empty.", "quantifier": "For every history of connects, moves, swaps and disconnects performed without concurrent use.", "why_tests_cant": "Histories are unbounded.", "anchors": ["include/kl/signal.hpp: signal(signal&&), operator=, swap, rebind_locked"]}
{"id": "C29", "title": "Connection handles", "statement": "connected() is true exactly from connect until disconnect / disconnect_all_slots / signal destruction; disconnect is idempotent; a scoped_connection disconnects exactly once at the end of its life unless released; an empty function gives an empty connection.", "quantifier": "For every history of handle copies, moves and destructions.", "why_tests_cant": "Ownership transfers compose arbitrarily.", "anchors": ["include/kl/signal.hpp: connection, scoped_connection"]}
{"id": "C30", "title": "Failed resource operations change nothing", "statement": "put, post, patch and del that do not answer with a 2xx status (or that end in an exception) leave the resource value equal to what it was and the modification tracker (generation and all changed_at answers) untouched.", "quantifier": "For every resource type, value, path, request body and validator.", "why_tests_cant": "Every failing point after partial mutation, in every type shape.", "anchors": ["include/kl/resource_op.hpp: put, post, patch, del, rollback_value, pop_back_rollback"]}
{"id": "C31", "title": "Successful operations leave a valid resource", "statement": "After a 2xx put, post, patch or del every validator in the whole tree accepts the new value and no keyed collection contains two children with the same key.", "quantifier": "For every type, value, path, body and validator.", "why_tests_cant": "Validators anywhere in the tree may depend on the changed node.", "anchors": ["include/kl/resource_op.hpp: validate_candidate, validate_node_tree"]}
{"id": "C32", "title": "Change tracking is complete", "statement": "If a successful operation changes what GET answers for a path q, then afterwards changed_since(q, g) is true for every generation g observed before. (Violated by DELETE of an optional holding a collection, and by alternative spellings of an index such as 00.)", "quantifier": "For every type, value, operation and query path.", "why_tests_cant": "Involves all pairs of modified and queried paths.", "anchors": ["include/kl/resource_op.hpp: put, post, patch, del", "include/kl/resource.hpp: modification_tracker"]}
{"id": "C33", "title": "Read-only is enforced on the addressed node", "statement": "put, patch and del on a node that is read_only, or that lies strictly below a subtree_read_only field, or is (part of) the identifying key of a keyed child, answer 405 and change nothing; the same for post on collections whose children are read only.", "quantifier": "For every type, value, path and body.", "why_tests_cant": "Attribute inheritance along arbitrary paths.", "anchors": ["include/kl/resource_op.hpp: access_context, put, post, patch, del"]}
{"id": "C34", "title": "Child keys are immutable", "statement": "A put or patch addressed to a keyed child or below it never changes the key of any child of that collection: it answers 405 and changes nothing, or the sequence of keys is the same as before. (Violated for the other keys if a field has several child_key attributes.)", "quantifier": "For every keyed collection, path and body.", "why_tests_cant": "The body may change the key at any depth.", "anchors": ["include/kl/resource_op.hpp: preserves_identity, put, patch"]}
{"id": "C35", "title": "Frame property of put and patch", "statement": "A successful put or patch at p changes the value only at p: GET on any path that neither is a prefix of p nor extends p answers as before.", "quantifier": "For every type, value, body and pair of diverging paths (with a unique spelling of indices).", "why_tests_cant": "All pairs of paths in all trees.", "anchors": ["include/kl/resource_op.hpp: visit_node, put, patch"]}
{"id": "C36", "title": "Put then get", "statement": "After a successful put at p, get at p answers 200 with the serialisation of the value obtained by deserialising the body over the old value.", "quantifier": "For every type, value, path and body (child keys whose == is equality, key_matches a function of the key).", "why_tests_cant": "Whole-tree claim over all paths.", "anchors": ["include/kl/resource_op.hpp: get, put"]}
{"id": "C37", "title": "Status codes form a decision table", "statement": "get answers 404 iff the path does not resolve, else 200; put/patch answer 404 iff the path does not resolve, otherwise 405 iff the node is read only, otherwise 400 iff the body does not deserialise, otherwise 405 iff the identifying key would change, otherwise 409 iff validation or key uniqueness fails, otherwise 200.", "quantifier": "For every type, value, path and body.", "why_tests_cant": "The order of checks over all combinations of simultaneous failures.", "anchors": ["include/kl/resource_op.hpp: get, put, patch"]}
{"id": "C38", "title": "Post appends exactly one element", "statement": "A successful post appends the deserialised element at the end of the addressed collection, leaves all other elements and all other parts of the resource unchanged, and marks the collection's subtree as changed.", "quantifier": "For every type, value, path and body.", "why_tests_cant": "All shapes of surrounding resource.", "anchors": ["include/kl/resource_op.hpp: post"]}
{"id": "C39", "title": "Delete removes exactly one element", "statement": "A successful del of a collection element removes exactly the addressed element and keeps the others in order; a successful del of an optional empties it; nothing else in the resource changes.", "quantifier": "For every type, value and path.", "why_tests_cant": "All positions in all containers.", "anchors": ["include/kl/resource_op.hpp: del, delete_direct_child"]}
{"id": "C40", "title": "Get is pure and resolution deterministic", "statement": "get never changes the value or tracker; for reflected structs a segment selects the unique field with that serialised name; a keyed collection is never addressed by index.", "quantifier": "For every resource and path.", "why_tests_cant": "All paths.", "anchors": ["include/kl/resource_op.hpp: get, visit_node"]}
{"id": "C41", "title": "Serialise/deserialise round trip", "statement": "Deserialising serialize(x) yields x, for types built from bool, integers, strings, enums, optionals, vectors, fixed arrays, string maps, tuples, pairs and reflected structs with rename/alias/emit_null/allow_missing/flatten attributes, under the stated side conditions (no optional directly inside optional, no null map entries unless nulls are emitted, no skipped fields).", "quantifier": "For every such type and value.", "why_tests_cant": "Types and values nest without bound.", "anchors": ["include/kl/detail/serialization.hpp: serialize_adl, deserialize_adl", "include/kl/json.hpp"]}
{"id": "C42", "title": "dump and serialize agree", "statement": "Streaming a value with dump produces the same document as building a tree with serialize and writing that tree, including skipped nulls, skipped empties, flattened and extra fields; they also fail on the same values.", "quantifier": "For every type and value in the model.", "why_tests_cant": "Two parallel recursive implementations must agree on all inputs.", "anchors": ["include/kl/detail/serialization.hpp: dump_adl, serialize_adl"]}
{"id": "C43", "title": "Field lookup: name first, then aliases in order", "statement": "A reflected field takes its value from the member with its serialised name if present, otherwise from the first alias present, otherwise it is missing; a missing field is an error unless allow_missing, default_value or its type accepts null.", "quantifier": "For every reflected type and every object.", "why_tests_cant": "All combinations of present members.", "anchors": ["include/kl/detail/serialization.hpp: field lookup, deserialize reflectable"]}
{"id": "C44", "title": "Unknown members are captured exactly once", "statement": "For a type with an extra_fields map, deserialising an object puts exactly the members whose names are not reserved by the type (names and aliases, including flattened ones) into the map, and serialising afterwards emits them again next to the fields. (Violated when the map sits in a flattened inner record: outer members are captured too and serialising throws.)", "quantifier": "For every type and object.", "why_tests_cant": "All objects with all member sets.", "anchors": ["include/kl/detail/serialization.hpp: extra_fields handling, collect_field_reserved_names, check_extra_field_key"]}
{"id": "C45", "title": "Patch leaves absent fields alone", "statement": "Patching a reflected value with an object changes only fields that are named in the object (recursively), keeps all others, and behaves like deserialize when the document is not an object; patching twice with the same document without repeated member names is the same as once. (Repeated names can violate it: members for an extra_fields map are applied in turn, and a validator may reject the state in between the second time.)", "quantifier": "For every type, value and document.", "why_tests_cant": "All partial documents at all depths.", "anchors": ["include/kl/detail/serialization.hpp: patch_adl"]}
{"id": "C46", "title": "Integer deserialisation is lossless or fails", "statement": "Deserialising a JSON number into an integer type of any width and signedness either yields exactly that number or raises deserialize_error; it succeeds iff the number is an integer representable in the type.", "quantifier": "For every JSON number and every width and signedness.", "why_tests_cant": "All 64-bit values for each type.", "anchors": ["include/kl/json.hpp: json integer decoding, narrow"]}
{"id": "C47", "title": "Validated fields satisfy their validators", "statement": "After a successful deserialisation each field with range/greater_equal/less_equal/validate that was present in the document satisfies it; a field that took its default_value is exempt. (Validators on a flattened field are never run.)", "quantifier": "For every type, constraint and document.", "why_tests_cant": "All values near every boundary.", "anchors": ["include/kl/serialization_attributes.hpp: range, validate, default_value", "include/kl/detail/serialization.hpp"]}
{"id": "C48", "title": "No duplicate members are emitted", "statement": "If the compile-time field name validation of a type passes, an object produced by serialize or dump never contains the same member name twice (including flattened fields and extra_fields).", "quantifier": "For every type that passes validation and every value.", "why_tests_cant": "All combinations of rename/flatten/skip.", "anchors": ["include/kl/detail/serialization.hpp: serialize_field_names_validator, deserialize_field_names_validator"]}
{"id": "C49", "title": "Sequence form of records", "statement": "A record can be read from an array: element i goes to the i-th non-skipped field, missing tail elements count as null, and an array longer than the field count is rejected.", "quantifier": "For every record type and array.", "why_tests_cant": "All lengths and skip patterns.", "anchors": ["include/kl/detail/serialization.hpp: deserialize reflectable from sequence"]}
{"id": "C50", "title": "enum_set serialisation", "statement": "Serialising an enum_set lists exactly the reflected enumerators all of whose bits are set; reading the list back gives the same set iff the set's bits are covered by the enumerators so listed.", "quantifier": "For every enum and every set value.", "why_tests_cant": "All 2^n sets.", "anchors": ["include/kl/detail/serialization.hpp: enum_set overloads", "include/kl/enum_set.hpp"]}
{"id": "C51", "title": "Range form: fixed size and growable", "statement": "Deserialising an array into a growable sequence yields one element per array element in order and replaces the old contents; into a fixed size one it fails iff the array is too long, or a missing element does not accept null.", "quantifier": "For every element type, array and old contents.", "why_tests_cant": "All lengths.", "anchors": ["include/kl/detail/serialization.hpp: range overloads"]}
{"id": "C52", "title": "Deserialisation errors name the path to the failing value", "statement": "A deserialize_error raised at depth d carries the innermost message first, followed by one line per enclosing field, record, map member and range element, outermost last. (Elements of tuples, pairs and enum sets add no line.)", "quantifier": "For every nesting.", "why_tests_cant": "All depths and failure positions.", "anchors": ["src/serialization_error.cpp: deserialize_error::add", "include/kl/detail/serialization.hpp"]}
{"id": "C53", "title": "enum_set is a Boolean algebra of bits", "statement": "|, &, ^, ~ on enum_set satisfy the Boolean algebra laws bit by bit; has_all is inclusion, has_any is non-empty intersection, and compound assignments and Enum overloads agree with the binary operators.", "quantifier": "For every underlying width and all values.", "why_tests_cant": "2^(2w) pairs per operator.", "anchors": ["include/kl/enum_set.hpp"]}
{"id": "C54", "title": "enum to_string fast path equals the table", "statement": "to_string returns the name of the first table entry with that value and the default for any other value, both for 'ordinary' enums, which use direct indexing, and for all others; no access outside the table happens, also for negative or out-of-range values.", "quantifier": "For every reflected enum table, every underlying type and every value of it.", "why_tests_cant": "The fast path is chosen at compile time from the table; all tables must be covered.", "anchors": ["include/kl/enum_reflector.hpp: to_string, is_ordinary_enum"]}
{"id": "C55", "title": "enum from_string inverts to_string", "statement": "from_string(s) is the value of the first entry named s, nullopt if none; from_string(to_string(v)) == v for each listed v when names are unique.", "quantifier": "For every reflected enum table.", "why_tests_cant": "All tables.", "anchors": ["include/kl/enum_reflector.hpp: from_string"]}
{"id": "C56", "title": "Enum ranges enumerate each value once", "statement": "Iterating enum_range, or for_each_enum(first, last), visits first, first+1, ... last-1 each exactly once in increasing order, count() of them, and terminates; in_range(e) holds exactly for the visited values.", "quantifier": "For every range of every underlying type.", "why_tests_cant": "All ranges, in particular at the limits of the type.", "anchors": ["include/kl/enum_traits.hpp: for_each_enum, enum_trait_support_range", "include/kl/enum_range.hpp"]}
{"id": "C57", "title": "Enum iterators obey the random access laws", "statement": "For enum iterators a and b of one range: b - a is the number of increments from a to b, a < b iff that number is positive, a + (b - a) == b. (Violated: the sign is reversed.)", "quantifier": "For every pair of iterators of every range.", "why_tests_cant": "Law over all pairs.", "anchors": ["include/kl/enum_range.hpp: enum_iterator::distance_to", "include/kl/iterator_facade.hpp: operator-, operator<"]}
{"id": "C58", "title": "iterator_facade derives consistent operators", "statement": "If an implementation provides increment, decrement, advance, equal_to and distance_to obeying the facade's convention, then all derived operators (++,--,+,-,[],==,!=,<,<=,>,>=) satisfy the random access iterator laws.", "quantifier": "For every implementation satisfying the convention and all positions.", "why_tests_cant": "Laws over all positions and offsets.", "anchors": ["include/kl/iterator_facade.hpp"]}
{"id": "C59", "title": "FNV-1a", "statement": "fnv1a(data) is the 32-bit FNV-1a hash for ASCII data, extends incrementally over concatenation, and two equal-length strings differing in exactly one byte never collide. (For bytes >= 0x80 with signed char it differs from standard FNV-1a.)", "quantifier": "For every string.", "why_tests_cant": "All strings and pairs of strings.", "anchors": ["include/kl/hash.hpp: fnv1a"]}
{"id": "C60", "title": "Hsieh hash", "statement": "hsieh(data) equals Paul Hsieh's SuperFastHash on ASCII data of every length. (For bytes >= 0x80 with signed char, sign extension erases the neighbouring byte, producing trivial collisions.)", "quantifier": "For every string.", "why_tests_cant": "All lengths mod 4 and all bytes.", "anchors": ["include/kl/hash.hpp: hsieh"]}
{"id": "C61", "title": "split", "statement": "split(s, delims) without empty tokens returns the maximal delimiter-free non-empty pieces in order; with empty tokens, the pieces between consecutive delimiters except that a final empty piece is dropped; no token contains a delimiter, and the string can be rebuilt from tokens and the delimiters between them.", "quantifier": "For every string and every set of delimiters.", "why_tests_cant": "All strings.", "anchors": ["include/kl/split.hpp: for_each_token, split"]}
{"id": "C62", "title": "stream_join", "statement": "Streaming stream_join(range) prints the elements separated by the delimiter, with no delimiter before the first or after the last, and the empty string text for an empty range.", "quantifier": "For every range and delimiter.", "why_tests_cant": "All lengths.", "anchors": ["include/kl/stream_join.hpp"]}
{"id": "C63", "title": "zip and enumerate", "statement": "Iterating zipped(a, b, ...) yields exactly min of the lengths tuples, the i-th made of the i-th elements, and never reads past the end of any range; enumerated(r) pairs the i-th element with i.", "quantifier": "For every number of ranges and every lengths.", "why_tests_cant": "All length combinations.", "anchors": ["include/kl/zip.hpp", "include/kl/tuple.hpp"]}
{"id": "C64", "title": "exception_info tags", "statement": "get(tag) returns the most recently set value that was not unset; unset exposes the previous one; tags do not interfere. A copy is independent of the original. (Independence violated: unset on a copy edits shared nodes.)", "quantifier": "For every history of set, unset and copy over any number of objects.", "why_tests_cant": "Aliasing shows only for particular histories.", "anchors": ["include/kl/exception_info.hpp"]}
{"id": "C65", "title": "file_view resource discipline", "statement": "Whatever the outcome of the system calls, opening a file_view closes the descriptor exactly once if it was opened, throws with the error of the failing call or maps exactly the file; destruction unmaps exactly what was mapped. (Violated: a failing mmap is not detected on unix.)", "quantifier": "For every combination of system call outcomes and file sizes.", "why_tests_cant": "Failure of each system call cannot be provoked in tests.", "anchors": ["src/file_view_unix.cpp", "src/file_view_win32.cpp"]}
{"id": "C66", "title": "Deferred actions run exactly once, last first", "statement": "Each KL_DEFER action runs exactly once when its scope is left, in reverse order of declaration, on normal exit as well as when an exception leaves the scope, and after the body.", "quantifier": "For every nesting of scopes and exit points.", "why_tests_cant": "All exit points.", "anchors": ["include/kl/defer.hpp"]}
{"id": "C67", "title": "Reflection visits each field once, bases first", "statement": "reflecting an object visits the fields of its reflected bases in declaration order and then its own, each exactly once, and num_fields is the number of visited fields; attribute lookup finds an attribute iff one was given.", "quantifier": "For every hierarchy of reflected types.", "why_tests_cant": "All hierarchies.", "anchors": ["include/kl/ctti.hpp", "include/kl/reflect_struct.hpp"]}
{"id": "C68", "title": "in_range of an integer agrees with in_range of the enumerator", "statement": "in_range(Integral) is true exactly when the argument, as an integer, is the value of an enumerator between the bounds, whatever integral type the argument has. (Violated for arguments of the other signedness: the comparison converts the bound.)", "quantifier": "For every underlying type, every integral argument type and every argument value.", "why_tests_cant": "All widths, signs and values.", "anchors": ["include/kl/enum_traits.hpp"]}
{"id": "C69", "title": "Operators of plain enums act on the bits", "statement": "The bitwise operators, shifts and increments that KL_ENUM operators give to an enum act on the underlying value exactly as on the integer, and check_mask tells whether some bit of the mask is set.", "quantifier": "For every underlying width and every pair of values.", "why_tests_cant": "All values of all widths.", "anchors": ["include/kl/enum_traits.hpp"]}
{"id": "C70", "title": "The tracker is told exactly what changed", "statement": "A successful put, patch, post or del advances the generation by one, and compared with the generation before marks exactly the prefixes of the modified path and, where descendants are addressable, its extensions; no other path counts as changed.", "quantifier": "For every type, value, request and query path.", "why_tests_cant": "All pairs of modified and queried paths.", "anchors": ["include/kl/resource_op.hpp: put, post, patch, del, has_addressable_descendants_v", "include/kl/resource.hpp: modification_tracker"]}
{"id": "C71", "title": "The verbs are total on well-typed resources", "statement": "On a value of the resource's type no verb reads a missing member, dereferences an end iterator or looks into an empty optional, and the value has its type afterwards.", "quantifier": "For every compiling type, value of that type, parsed path and request.", "why_tests_cant": "All shapes of values.", "anchors": ["include/kl/resource_op.hpp: visit_node, get, put, post, patch, del"]}
{"id": "C72", "title": "Invariants over any sequence of requests", "statement": "After any sequence of put, patch, post and del the value has its type, the generation has grown by the number of successful answers, the value is valid if it was so at the beginning or any request succeeded, and nothing has changed if none did.", "quantifier": "For every type, initial resource and finite sequence of requests.", "why_tests_cant": "Unbounded sequences.", "anchors": ["include/kl/resource_op.hpp: put, post, patch, del"]}
{"id": "C73", "title": "Polling with changed_since is sound", "statement": "A client that remembers the generation and what GET answered for q may skip reading q again: after any sequence of requests, if changed_since(q, generation) is false, GET answers the same for q.", "quantifier": "For every sequence of requests and every path (unique spelling of indices, one child_key per field, optionals hold structs or scalars: otherwise violated, see C32).", "why_tests_cant": "Unbounded sequences of requests and all query paths.", "anchors": ["include/kl/resource_op.hpp", "include/kl/resource.hpp: modification_tracker"]}
{"id": "C74", "title": "Status codes of post and del", "statement": "post answers 404 if the path names no node, else 405 if the children are read only or nothing can be appended, else 400 if the body does not deserialise, else 409 if the tree with the new element is not valid, else 201; del answers 404, 405, 409, 204 by the corresponding table for elements of collections and for optionals.", "quantifier": "For every type, value, path and body.", "why_tests_cant": "The order of checks over all combinations of simultaneous failures.", "anchors": ["include/kl/resource_op.hpp: post, del, delete_direct_child"]}
{"id": "C75", "title": "Which exceptions serialisation throws", "statement": "serialize and dump throw nothing but logic_error, and exactly when the names of a record or the keys of its extra_fields map collide; deserialize and patch throw only deserialize_error, an exception thrown by a user validator, or logic_error if the names of a record of the type collide. (A field skipped in both directions still takes part in this run-time collision check although the compile-time assertions leave it out.)", "quantifier": "For every type, value, document and set of validators.", "why_tests_cant": "All failing inputs at all depths.", "anchors": ["include/kl/detail/serialization.hpp: collect_reserved_names, check_extra_field_key", "include/kl/serialization_error.hpp"]}
{"id": "C76", "title": "Exact members written for a record", "statement": "The object written for a record consists of the members of its fields in order of declaration: one member under the serialised name, the members of a flattened record in its place, the non-null entries of the extra_fields map in key order, and nothing for a field that is skipped, null (unless nulls are written or the field has emit_null) or empty with skip_if_empty.", "quantifier": "For every record type, value and null policy.", "why_tests_cant": "All combinations of attributes at all depths.", "anchors": ["include/kl/detail/serialization.hpp: serialize reflectable, should_skip_field"]}
{"id": "C77", "title": "Deserialisation and patch produce values of the type", "statement": "A successful deserialize or patch leaves a value of the declared type (integers in range, fixed sizes kept, maps ordered with unique keys, enum values of the underlying type), and deserialising the same document again does not change it.", "quantifier": "For every type, old value and document.", "why_tests_cant": "All documents, including ill-formed ones.", "anchors": ["include/kl/detail/serialization.hpp: deserialize overloads", "include/kl/json.hpp: narrow"]}
{"id": "C78", "title": "Compile-time name validation is exact", "statement": "The compile-time check of serialised names accepts a record iff all names written by fields that are not skipped, including those of flattened records, are different; likewise for the names and aliases read.", "quantifier": "For every record type.", "why_tests_cant": "All combinations of rename, alias, flatten and skip.", "anchors": ["include/kl/detail/serialization.hpp: serialize_field_names_validator, deserialize_field_names_validator"]}
{"id": "C79", "title": "What each kind of type reads", "statement": "null reads as an empty optional and anything else as an optional holding the value read; a map takes the first member of each name and needs every member readable; tuples and pairs read elementwise with missing elements as null and reject longer arrays; an enum is read from the name of an enumerator; an enum set is the union of the enumerators listed; records are read from objects and arrays only; patching an optional patches the value it holds.", "quantifier": "For every type, old value and document.", "why_tests_cant": "All documents and nestings.", "anchors": ["include/kl/detail/serialization.hpp: deserialize_adl overloads, patch_adl for optionals"]}
{"id": "C80", "title": "What each kind of type writes", "statement": "Leaves are written by the backend, an enum as the name of its enumerator (or the unknown name), an empty optional as null and a full one as its value, ranges, tuples and pairs as arrays of their elements in order, maps as objects in key order without null entries when nulls are skipped.", "quantifier": "For every type and value.", "why_tests_cant": "All values and nestings.", "anchors": ["include/kl/detail/serialization.hpp: serialize_adl overloads", "include/kl/serialization_fwd.hpp: is_null_value, is_empty_value"]}
{"id": "C81", "title": "JSON scalars keep their kind", "statement": "With the JSON backend booleans and strings are read from JSON booleans and strings only, double from any number, and each is written as a scalar of its own kind; a document of another kind gives an error that names the kind expected and the kind found.", "quantifier": "For every document and leaf type.", "why_tests_cant": "All documents.", "anchors": ["include/kl/json.hpp", "src/json.cpp: expect_integral, expect_number, expect_boolean, expect_string"]}
{"id": "C82", "title": "Text of patch errors", "statement": "The text of an error of patch is the message of the failure followed by one line for each member, extra field, field and record around it, from the inside out; the failure reported is the first in the order of fields (and, in an extra_fields map, of members).", "quantifier": "For every type, old value and document without repeated names in an object.", "why_tests_cant": "All nestings and all combinations of simultaneous failures.", "anchors": ["include/kl/detail/serialization.hpp: patch reflectable, patch_adl overloads"]}
{"id": "C83", "title": "Which name collision is reported", "statement": "The run-time check of a record with extra_fields or flatten fails iff a name (of a field, alias or flattened field) or an extra_fields map is declared twice, and then serialize, dump, deserialize and patch all throw a logic_error that names the first repetition in order of declaration.", "quantifier": "For every record type and value.", "why_tests_cant": "All record types with any number of collisions.", "anchors": ["include/kl/detail/serialization.hpp: collect_reserved_names, add_reserved_name"]}
{"id": "C84", "title": "Unknown members are ignored", "statement": "Reading or patching a record without an extra_fields map depends on the first members with names of its fields only: members of other names can be added, removed or changed anywhere without effect on the result or the error.", "quantifier": "For every record type, old value and object.", "why_tests_cant": "All objects and unknown members.", "anchors": ["include/kl/detail/serialization.hpp: deserialize reflectable, patch reflectable, resolve_deserialize_field_name"]}
{"id": "C85", "title": "The order of members does not matter", "statement": "Documents without repeated names that differ only in the order of the members of objects, at any depth, deserialise to the same value and patch to the same value, or both fail.", "quantifier": "For every type, old value and pair of such documents.", "why_tests_cant": "All permutations at all depths.", "anchors": ["include/kl/detail/serialization.hpp: deserialize_adl overloads, patch_adl overloads", "include/kl/json.hpp"]}
{"id": "C86", "title": "YAML: round trip, dump, names and patch", "statement": "The YAML backend has the properties of serialisation: what is written is read back as the same value; dump emits the events of the node serialize makes; serialize succeeds iff no names collide; although add_field assigns, it never overwrites a member; values read are of the type and valid; patch keeps what the document does not name and is idempotent; only the documented exceptions are thrown.", "quantifier": "For every well-formed type, value, node and validator, and every conversion of doubles that reads back what it writes.", "why_tests_cant": "All types, values and documents; a test sees some structs.", "anchors": ["include/kl/yaml.hpp", "src/yaml.cpp", "include/kl/detail/serialization.hpp"]}
{"id": "C87", "title": "YAML: what scalars mean", "statement": "An integer is read iff the node is a scalar whose text is a decimal, octal (0) or hexadecimal (0x) number, with an optional sign and trailing white space, that fits the type, without minus sign if the type is unsigned; it is written in decimal without leading zero. A boolean is read iff the text is one of the 22 spellings. A string is the text of any scalar. Every failure has the text that names the node type or the place of the bad conversion.", "quantifier": "For every integer type and every text and node.", "why_tests_cant": "All texts.", "anchors": ["include/kl/yaml.hpp: deserialize_adl, serialize_adl", "src/yaml.cpp: expect_scalar, type_name"]}
{"id": "C88", "title": "JSON and YAML documents have the same shape", "statement": "serialize to YAML gives the document serialize to JSON gives, member for member and element for element, with the scalars spelled as text; one fails iff the other does, with the same exception.", "quantifier": "For every well-formed type and value, with and without null fields.", "why_tests_cant": "Two backends over all types.", "anchors": ["include/kl/yaml.hpp: yaml_tree_backend", "include/kl/json.hpp: json_tree_backend", "include/kl/detail/serialization.hpp"]}
{"id": "C89", "title": "Array builders and extractors", "statement": "A builder's array holds what the added values serialise to, in order. Each extract reads the element at the given index, else the one behind the element read last, else the first; an element that is not there is null; a failing extract does not advance and adds the line with its index. What was added is extracted, in order or by index.", "quantifier": "For every backend that meets the laws (JSON and YAML do), all sequences of added values, all arrays and all sequences of extract calls, including failing ones.", "why_tests_cant": "Unbounded call histories over all types.", "anchors": ["include/kl/json.hpp: array_builder, array_extractor, at", "include/kl/yaml.hpp: sequence_builder, sequence_extractor, at"]}
{"id": "C90", "title": "Object builders and extractors", "statement": "extract reads the first member of the name and null if there is none, and adds the line with the name to a failure. A JSON builder keeps every member added, so the first of a name is extracted; a YAML builder keeps the last of a name. Members added under different names are extracted as they were, in any order.", "quantifier": "For all sequences of added members, names, types and values.", "why_tests_cant": "Unbounded histories over all types; the two formats differ on repeated names.", "anchors": ["include/kl/json.hpp: object_builder, object_extractor, at", "include/kl/yaml.hpp: map_builder, map_extractor, at"]}
{"id": "C91", "title": "What a read that throws leaves in its target", "statement": "Whether or not deserialize throws, the target holds a value of its type. If it throws: leaves, enums and optionals are as before, and so is everything read from a document of the wrong kind or a sequence that is too long; a vector, set of enumerators or map holds what was read before the element that failed; arrays, tuples and records have the parts before the failing one new, that one as its own reading leaves it (a map of extra fields with the members before the bad one, or a value rejected by a validator in place), and the parts after it as before; fields with skip_deserialization are never touched.", "quantifier": "For every well-formed type, target, document, validator and failure, at any depth.", "why_tests_cant": "All positions of a failure in all nestings; tests look at the message of a failure, not at the half-written target.", "anchors": ["include/kl/detail/serialization.hpp: deserialize_adl overloads, deserialize reflectable", "include/kl/json.hpp: deserialize_adl", "include/kl/yaml.hpp: deserialize_adl"]}
{"id": "C92", "title": "What a patch that throws keeps", "statement": "Whether or not patch throws, what the document does not name, at any depth, is as before. If it throws, the fields before the failing one are patched, the ones after it are as before, an entry of an extra_fields map or a full optional is left as its own patch leaves it, and an empty optional stays empty.", "quantifier": "For every well-formed type, target and document.", "why_tests_cant": "All positions of a failure in all nestings.", "anchors": ["include/kl/detail/serialization.hpp: patch reflectable, patch_adl overloads"]}
{"id": "C93", "title": "A read after a failure starts afresh", "statement": "What is read into a target does not depend on what it holds, unless it has fields (not inside vectors, maps or optionals) that are skipped or may be missing without a default. So after a read or patch that threw, the next read gives what it would have given without it.", "quantifier": "For every such type, all targets and pairs of documents.", "why_tests_cant": "All histories of failed reads.", "anchors": ["include/kl/detail/serialization.hpp: deserialize_adl overloads, apply_missing_policy"]}
{"id": "C94", "title": "A resource over documents never breaks", "statement": "A resource whose bodies are documents (JSON or YAML) never reaches an undefined state: after any sequence of GET, PUT, PATCH, POST and DELETE requests at well-formed paths, however they end, its object is of its type, serialization sees it as a value of its type, and the tracker holds the notifications of the successes. GET answers 404 iff the path names no node, else 200 with the document serialize makes of the node; only a name collision escapes as logic_error.", "quantifier": "For every type that compiles, every description of its fields, every object, request sequence, document, validator, key comparison and lawful backend.", "why_tests_cant": "Unbounded request histories over all types and documents, through two headers that the tests exercise apart.", "anchors": ["include/kl/resource_op.hpp: get, put, patch, post, del", "include/kl/detail/serialization.hpp", "include/kl/resource.hpp"]}
{"id": "C95", "title": "What was put is what is got", "statement": "After a successful PUT (or PATCH) the node is what its document reads (or patches) to over the old value, and GET answers with the document of that. PUT of the document of a value that survives writing and reading leaves exactly that value and GET answers with exactly that document. PUT of what GET has answered succeeds and changes nothing. Repeating a successful PUT, or PATCH with a document that names nothing twice, succeeds and changes nothing more, if every range has at most one child key.", "quantifier": "For all types, objects, paths, documents and validators.", "why_tests_cant": "Round trips and idempotence over all types and documents.", "anchors": ["include/kl/resource_op.hpp: get, put, patch", "include/kl/detail/serialization.hpp"]}
{"id": "C96", "title": "GET below a path is the part of GET at the path", "statement": "If a path and an extension of it lead to nodes and every field and entry on the way has a place of its own in the document, then GET at the longer path answers with the part of the document GET answers with at the shorter one: the member named by the segment, or the element at the position.", "quantifier": "For all types, objects and pairs of paths.", "why_tests_cant": "All pairs of nodes of all trees.", "anchors": ["include/kl/resource_op.hpp: get, visit_node", "include/kl/detail/serialization.hpp: serialize reflectable"]}
{"id": "C97", "title": "PATCH keeps what its document does not name", "statement": "After a successful PATCH nothing outside the node has changed, and inside it every field, at any depth through structs, optionals and flattened structs, and every extra field that the document does not name is as before: paths to it lead to the same value and GET there answers the same.", "quantifier": "For all types, objects, paths, documents and paths below them.", "why_tests_cant": "All combinations of named and unnamed fields at all depths.", "anchors": ["include/kl/resource_op.hpp: patch", "include/kl/detail/serialization.hpp: patch reflectable, patch_adl overloads"]}
{"id": "C98", "title": "Which answer a request with a document gets", "statement": "PUT and PATCH answer 404 if the path names no node, else 405 if the node is protected, else 400 if the document cannot be read into it, else 405 if the key of a child would change, else 409 if the new tree is not valid or has duplicate keys, else 200. POST answers 404, else 405 if the children are protected or the node is no range, else 400, 409 or 201. Nothing else can happen, if no names collide, field validators throw deserialize_error and resource validators validation_error.", "quantifier": "For all types, objects, paths, documents and such validators.", "why_tests_cant": "The full decision table over two headers.", "anchors": ["include/kl/resource_op.hpp: put, patch, post", "include/kl/detail/serialization.hpp"]}
{"id": "C99", "title": "serialize_at_path and deserialize_at_path", "statement": "serialize_at_path makes the document of the node the path names (GET answers with its text) and throws what serialize throws. deserialize_at_path changes that node and nothing else; if it returns, the node is what the document reads to over the old value, and the object is what a successful PUT leaves; if it throws, it throws what deserialize throws and the object is still of its type. Both report a path that names no node and then change nothing.", "quantifier": "For all types, objects, paths and documents.", "why_tests_cant": "All paths into all trees, and all failures half way.", "anchors": ["include/kl/resource_op.hpp: serialize_at_path, deserialize_at_path"]}
{"id": "C100", "title": "A request sees the node, not the field that leads to it", "statement": "GET, PUT, PATCH and POST at a path depend on the serialization attributes of the node's own type only: if two descriptions of the fields agree on that type, answer and effect are the same, whatever skip_serializing, skip_deserializing, flatten, defaults or validators the fields on the way have.", "quantifier": "For all types, pairs of descriptions, objects, paths and documents.", "why_tests_cant": "Quantifies over pairs of programs.", "anchors": ["include/kl/resource_op.hpp: visit_node, get, put, patch, post", "include/kl/detail/serialization.hpp"]}
{"id": "C101", "title": "Exceptions thrown with information", "statement": "An exception thrown by throw_with_info is taken by exactly the handlers that would take the exception itself, which get the same subobject, and by those for the three classes added. However it is caught, as itself or by a reference to any of its subobjects, get_exception_info finds the information it was thrown with. Its diagnostic text, by reference or by exception_ptr, names the class given to throw_with_info, says what() if the class has one std::exception, and has the text of the information. That of an exception_ptr to another exception names its class and what() if it is one std::exception, and nothing otherwise.", "quantifier": "For all class hierarchies (any bases, also repeated ones) that the static assertions accept, all subobjects the exception is caught by, all information and texts.", "why_tests_cant": "Quantifies over all class hierarchies; a test has a few classes, and ambiguous bases are rarely among them.", "anchors": ["include/kl/exception_info.hpp: throw_with_info, get_exception_info, exception_diagnostic_info, detail::exception_with_info"]}
{"id": "C102", "title": "Diagnostic texts of values", "statement": "The diagnostic text of an exception_info is one line that says where the exception was thrown and one line per value, the newest first: tag, equals sign and what << writes or, for a type without <<, the bytes in hexadecimal. Different bytes are written differently, and a text has its lines in one way only.", "quantifier": "For all values of all byte lengths, all lists of values, all files, lines and functions, if none of the texts has a line break.", "why_tests_cant": "All byte strings and all lists of values.", "anchors": ["include/kl/exception_info.hpp: exception_info::diagnostic_info, diagnostic_info_impl"]}
{"id": "C103", "title": "Destruction of slot targets", "statement": "Targets of slots may own connections, scoped connections and signals. Whatever they own, every operation on signals and connections ends, in one way, and uses no slot or signal that has been destroyed; a target is destroyed at most once, and exactly when no signal, client or target has a reference to its slot; afterwards no mutex is locked.", "quantifier": "For all ownership graphs that clients can build, with emissions in progress, and all operations (one thread).", "why_tests_cant": "Destructors that run destructors give cascades of any depth over any graph.", "anchors": ["include/kl/signal.hpp: slot_base, connection, scoped_connection, signal::disconnect, disconnect_all_slots, cleanup_invalidated_slots_locked"]}
{"id": "C104", "title": "Destroying targets under the mutex", "statement": "If no target of a slot of a signal owns, even indirectly, something whose destruction locks that signal, no operation locks a mutex its thread has locked. It suffices that signals and slots have levels. If no emission is in progress and no target owns a signal, disconnecting and destroying connections never does so, whatever the targets own, and destroys no target while a mutex is locked.", "quantifier": "For all ownership graphs with that property and all operations (one thread).", "why_tests_cant": "A deadlock that needs a certain shape of ownership; quantifies over all shapes.", "anchors": ["include/kl/signal.hpp: signal::disconnect, disconnect_all_slots, cleanup_invalidated_slots_locked, remove_slot_locked, scoped_connection::~scoped_connection"]}
{"id": "C105", "title": "Nothing leaks without cycles", "statement": "A signal that is not being emitted lists exactly the slots connected to it, so a slot that was disconnected is then kept only by connections, and is destroyed without any. When clients hold nothing and no slot is kept by itself through targets, every target and every signal has been destroyed.", "quantifier": "For all states clients can reach; the second part for all acyclic ownership graphs.", "why_tests_cant": "Absence of leaks over all histories and graphs.", "anchors": ["include/kl/signal.hpp: slot_base, connection, signal::~signal"]}
{"id": "C106", "title": "Documents own what they say", "statement": "parse, serialize and object_builder make a document that says what they were given. Whatever a program does, a document uses only itself, its allocator, static memory, and characters that were handed over by pointer: StringRefTypes and const char* keys in objects, names given to object_builder::add. So it can be used, and says the same, until it is moved or destroyed, whatever happens to the objects, strings and other documents it was made from, as long as those characters are there. Serializing an object is defined if its string_views, const char* keys and views can be used and no view is default constructed.", "quantifier": "For all programs of parsing, serializing, building, deserializing, moving and destroying documents and strings, and all objects.", "why_tests_cant": "Use of memory that is gone often goes unnoticed; quantifies over all orders of destruction.", "anchors": ["include/kl/json.hpp: serialize_context, add_field, serialize_adl, object_builder, view, parse"]}
{"id": "C107", "title": "Objects read from documents", "statement": "deserialize gives what the document says. An object whose type has no string_views and views refers to nothing. Any other is good as long as the document is there: the memory of its string_views is there and its views show what they showed; if it is not a view or string_view itself, that also holds after the document was moved.", "quantifier": "For all types, documents and programs.", "why_tests_cant": "Dangling references are not visible in a test that keeps the document; quantifies over all types and later histories.", "anchors": ["include/kl/json.hpp: deserialize_adl, view, at_field, at_index, get_null_value", "include/kl/detail/serialization.hpp: deserialize_adl"]}
{"id": "C108", "title": "Customised types keep their format wherever they are used", "statement": "A member of serializer<T> handles every value of T before anything else; without one, an ADL overload does (one that is a template over the tag only if the library has none for T). If for every customised part of a type deserialize undoes serialize, it does for the whole type; if for every customised part dump says what serialize builds, it does for the whole type. The format of a part is bypassed when it is a flattened object (written field by field, read by its deserialize), the enumeration of an enum_set (dumped by names), a key of a map (written as text) or a null field (left out); the theorems say under which conditions that does no harm.", "quantifier": "For all types built from optionals, sequences, maps, tuples, enum_sets and reflected objects, with any customisations of any of their parts, and all values.", "why_tests_cant": "The customisations are arbitrary functions; tests use a few types.", "anchors": ["include/kl/serialization.hpp: customization contract, detail::dump, serialize, deserialize", "include/kl/detail/serialization.hpp: dump_adl, serialize_adl, deserialize_adl, add_reflected_fields, dump_reflected_fields"]}
{"id": "C109", "title": "Patching follows the format of every type it reaches", "statement": "patch compiles exactly if every type it reaches has a patch or may be replaced by deserialize. A type whose serializer has a deserialize is patched by its serializer wherever patch reaches it, or the program does not compile. If every customised part takes the format it is written in, patching with all that was written of a value gives that value. Patching an object patches the fields the map names and leaves the others; anything but a map replaces the whole object. A patch_adl that is a template over the tag is ambiguous for reflected types and optionals and is then silently ignored.", "quantifier": "For all types with any customisations of any of their parts, and all values.", "why_tests_cant": "Whether programs compile is not tested by running them; quantifies over all types.", "anchors": ["include/kl/serialization.hpp: detail::patch", "include/kl/detail/serialization.hpp: serializer_patch_compatibility, patch_adl", "include/kl/json.hpp: backend_traits"]}
{"id": "C110", "title": "What reading does to YAML documents", "statement": "deserialize and patch change no YAML document none of whose nodes a view of the object referred to before, however the call ends; so none if no view of the object referred to anything. If the views of the object refer to distinct nodes outside of the document, the object then means what the document says or there is a deserialize_error. Views of a new object refer to nodes of the document itself.", "quantifier": "For all types, objects, documents and states of memory that yaml-cpp nodes can be in (shared nodes and cycles included).", "why_tests_cant": "YAML::Node is a handle, assigning to one changes every document that shares the node; quantifies over all ways of sharing.", "anchors": ["include/kl/yaml.hpp: view, deserialize_adl for view, at_field, at_index", "include/kl/detail/serialization.hpp: deserialize_adl, patch_adl"]}
{"id": "C111", "title": "What writing shares with YAML documents", "statement": "serialize changes no YAML document, and its result reads as the object says, views as the documents they show. The result for an object without views is independent: whatever is then done to the result no document changes, and whatever is done to the documents the result does not change.", "quantifier": "For all types, objects and states of memory, and all later sequences of creating, assigning, appending and inserting.", "why_tests_cant": "Independence quantifies over everything a program may do afterwards.", "anchors": ["include/kl/yaml.hpp: serialize_adl for view, add_field, add_element, serialize_context", "include/kl/detail/serialization.hpp: serialize_adl, serialize_tuple, add_reflected_fields"]}
{"id": "C112", "title": "Enumeration macros expand as documented", "statement": "KL_REFLECT_ENUM and KL_REFLECT_ENUM_SEQ expand to the documented declarations: the table has one entry for each listed enumerator, in order, consisting of the enumerator and of its own name or the name it is paired with. KL_REFLECT_ENUM refuses more enumerators than a Boost.Preprocessor tuple may have. (Violated by the example in the documentation of KL_REFLECT_ENUM_SEQ, which does not expand.)", "quantifier": "For all enumerations, all non-empty lists of enumerators within the limits, each written alone, in parentheses or as a pair, with any whitespace.", "why_tests_cant": "Tests expand a few lists; quantifies over all lists and ways of writing them.", "anchors": ["include/kl/reflect_enum.hpp: KL_REFLECT_ENUM, KL_REFLECT_ENUM_SEQ", "include/kl/detail/macros.hpp: KL_SEQ_FOR_EACH2, KL_TUPLE_EXTEND_BY_FIRST"]}
{"id": "C113", "title": "Structure macros expand as documented", "statement": "KL_REFLECT_STRUCT, KL_REFLECT_STRUCT_DERIVED and their FRIEND forms expand to a function that visits the bases in order and then each listed field once, in order, with the name of the member and each of its attributes in a lambda of its own, and to a function that returns the number of listed fields plus those of the bases. (Violated for attributes with a comma inside braces or angle brackets, which are taken apart, and for an empty list of fields without __VA_OPT__.)", "quantifier": "For all types, all lists of bases and non-empty lists of fields within the limits, with any attributes that are single macro arguments and any whitespace.", "why_tests_cant": "Tests expand a few structures; quantifies over all lists of fields and attributes.", "anchors": ["include/kl/reflect_struct.hpp: KL_REFLECT_STRUCT, KL_REFLECT_STRUCT_DERIVED, KL_ACCESSOR_FIELD", "include/kl/detail/macros.hpp: KL_TUPLE_FOR_EACH, KL_TUPLE_FOR_EACH2, KL_ARG_TO_TUPLE"]}
{"id": "C114", "title": "Arguments reach every slot", "statement": "Every function behind a slot gets the arguments of the emission: an argument passed by value has the value it had when the emission began, in an object of the call's own, whatever earlier slots did to theirs (moving out of it included); an argument passed by reference is the caller's object itself; a constant object nobody else can change has its value throughout. The same holds behind member function adapters and behind signals that forward. The caller's objects are changed only through T& parameters, and an object moved into the signal is moved from once, however many slots there are.", "quantifier": "All programs of users behind slots (reading, writing, moving, nested emissions with any arguments), all signatures, all ways of connecting, every number of slots and depth of forwarding.", "why_tests_cant": "Tests connect one or two slots with ints; a slot that moves its by-value string out, followed by another slot, a forwarding signal with a different signature and an rvalue argument is a combination nobody writes down.", "anchors": ["include/kl/signal.hpp: signal::operator(), connect overloads"]}
{"id": "C115", "title": "Objects behind slots", "statement": "A member function behind a slot runs only on an object that lives; with a weak_ptr it runs exactly if the object lives and the other slots are called all the same; an object behind a shared_ptr or weak_ptr slot is not destroyed while the function runs, even if the function gives up the last other owner; slots leave no owner behind. Without owners (pointers, references) calls on destroyed objects are possible.", "quantifier": "All programs of users behind slots that copy and release owners, all signals, all ways of connecting.", "why_tests_cant": "Needs a handler that releases the last owner of its own object during its call, or an object that dies between two slots of one emission.", "anchors": ["include/kl/signal.hpp: connect overloads for weak_ptr, shared_ptr, pointers and references"]}
{"id": "C116", "title": "Type-level functions", "statement": "at_type_t<N, Ts...>, type_pack::extract and func_traits::arg give the N-th type and reject the program exactly if there is none. filter_t keeps exactly the types that satisfy the predicate, in order (if the last type is not itself a type_pack). The variadic is_same holds exactly if all types are equal. remove_cvref removes a reference and then one const. func_traits gives return type, parameters and class of everything that can be called, if no volatile, &, && or noexcept is part of its type, and compiles for nothing else.", "quantifier": "For all lists of types, all predicates, all indices, all classes with any call operators.", "why_tests_cant": "A test instantiates a template with a few types; a list that ends in a type_pack or a noexcept lambda is what nobody tried.", "anchors": ["include/kl/utility.hpp: at_type, type_pack", "include/kl/meta.hpp: push_front, filter", "include/kl/type_traits.hpp: func_traits, is_same, remove_cvref"]}
{"id": "C117", "title": "match runs the right handler", "statement": "match compiles exactly if every alternative has a best handler and all return the same type; it then runs that handler on the value, and raises bad_variant_access for a valueless variant. A handler that takes the alternative's own type is the best whatever other types the alternative converts to, and without one the only generic handler is; the order of the handlers does not matter; a function wrapped in func_overload is selected as a lambda with its parameter would be.", "quantifier": "For all sets of handlers (by value, const T&, T&, T&&, generic, mutable), all alternatives and all implicit conversions between types.", "why_tests_cant": "Overload resolution depends on all handlers and all conversions of a program at once; a test fixes both.", "anchors": ["include/kl/match.hpp: match, overloader, func_overload"]}
{"id": "C118", "title": "One form per type in documents", "statement": "dump and serialize of a backend make the same kind of document element of a value of a type, and deserialize reads that kind; bool is a boolean, numbers are numbers, strings are text, maps and reflected classes maps, other ranges sequences. Exactly which types have no overload: pointers, classes that are both reflected and ranges, ranges that cannot be read.", "quantifier": "For all arithmetic types, strings, pointers, enumerations and classes with any combination of the members the traits ask for, on platforms with 64-bit and 32-bit long.", "why_tests_cant": "Whether a type picks the overload for ranges, for numbers or none depends on implicit conversions and traits; tests use int, std::string and std::vector.", "anchors": ["include/kl/json.hpp: dump_adl, serialize_adl, deserialize_adl, is_json_constructible", "include/kl/yaml.hpp: dump_adl, serialize_adl, deserialize_adl, backend_traits", "include/kl/detail/serialization.hpp: dump_adl, serialize_adl, deserialize_adl", "include/kl/detail/concepts.hpp: is_range, is_growable_range, is_fixed_size_range, is_map_alike"]}
{"id": "C119", "title": "Bounds of fields mean what they say", "statement": "A field with range, greater_equal or less_equal accepts a value exactly if the value, as a number, lies within the bounds, whenever the type of the field and the types of the bounds can be compared without loss; for every other pair of arithmetic types there are a value and a bound that compare wrongly. A value read from a document into such a field is within its bounds. (nan is within no bounds but passes all of them; bounds of the wrong sign reject or accept everything.) The text of the error shows the bounds to half a millionth.", "quantifier": "For all integral types of 8 to 64 bits, bool, float and double for field and bounds independently, all values (infinities and nan included), plain and in an optional, all documents and backends.", "why_tests_cant": "Tests use int fields with int bounds and one double. The conversions of C++ matter for mixed types only and for values near the limits or negative ones.", "anchors": ["include/kl/serialization_attributes.hpp: range, greater_equal, less_equal", "include/kl/detail/serialization.hpp: validate_field"]}
{"id": "C120", "title": "No data races in signals", "statement": "However many threads connect, emit, disconnect, block, move and swap signals and copy, destroy and pass on connections, no two accesses to ordinary memory (members of signals, links and targets of slots, the slots themselves including their creation and deletion) race in the sense of the C++ memory model, and no step has undefined behaviour: no use after free, no double delete, no following of a link of a slot outside its list.", "quantifier": "For all numbers of threads and all interleavings of single accesses to atomic variables and mutexes; loads may give any value. Signals are not destroyed meanwhile.", "why_tests_cant": "A race needs a particular interleaving of single instructions; thread sanitizers see only the executions they are shown.", "anchors": ["include/kl/signal.hpp: signal, slot, slot_state, connection, connection_blocker"]}
{"id": "C121", "title": "Signals do not deadlock", "statement": "A thread that cannot go on in the library waits for a mutex that another thread holds, and that thread can go on; a mutex that is held is released after a number of the holder's own steps that depends on nothing that other threads do; as long as a thread is in the library some thread can go on. Mutexes are locked only while nobody owns them and unlocked only by their owners, and a thread owns none while code of users runs.", "quantifier": "For all reachable states of all numbers of threads, all interleavings.", "why_tests_cant": "Deadlocks need two threads at two particular places at once.", "anchors": ["include/kl/signal.hpp: signal::operator(), swap, move constructor, connect, disconnect, disconnect_all_slots, num_slots, cleanup_invalidated_slots_locked, rebind_locked"]}
{"id": "C122", "title": "Disconnected slots stay disconnected", "statement": "A slot that is not connected never becomes connected again as long as no signal is moved or swapped; one that is in no list either stays so even then. (A disconnect that runs at the same time as a move of the signal can be undone.)", "quantifier": "For all reachable states, all later steps of all threads.", "why_tests_cant": "The exception needs a move between two instructions of disconnect.", "anchors": ["include/kl/signal.hpp: slot_state::disconnect, signal::disconnect, rebind_locked"]}
{"id": "C123", "title": "Slots live exactly as long as somebody refers to them", "statement": "A slot that is in the list of a signal, that a connection or blocker of any thread refers to or whose target runs exists; a slot that nobody refers to has been deleted, provided that no target has thrown (C27_leak).", "quantifier": "For all numbers of threads, all interleavings of single accesses.", "why_tests_cant": "A lost reference shows up as a leak or a crash in another thread much later.", "anchors": ["include/kl/signal.hpp: slot_state::add_ref, release; signal::operator(), remove_slot_locked; connection, connection_blocker"]}
{"id": "C124", "title": "Destroying a signal", "statement": "A thread that destroys a signal races with nothing that any thread did before, even if other threads connected to it, emitted it and disconnected from it, and nobody uses the signal afterwards, provided that at the end of disconnect_all_slots no other thread knows the signal, works on it or can get to know it and no slot refers to it; without active emissions no slot is left in its list. A connection is not enough of a proviso: disconnect in one thread can lock the mutex of a signal that another thread has destroyed meanwhile.", "quantifier": "For all reachable states, all numbers of threads, all interleavings before and after the destruction.", "why_tests_cant": "The exception needs the destruction between two instructions of disconnect; thread sanitizers see only the executions they are shown.", "anchors": ["include/kl/signal.hpp: ~signal, disconnect_all_slots, slot_state::disconnect, signal::disconnect"]}
{"id": "C125", "title": "The functions for resources compile", "statement": "serialize_at_path compiles for every type and instantiates only what it needs; dump_at_path compiles exactly for the types on which no path passes a reflected class or a sequence with keys. (It should compile for all types that serialize_at_path compiles for; it does not, since the result of a visit that returns nothing cannot be stored.)", "quantifier": "For all types made of scalars, optionals, sequences, maps and reflected classes, to any depth.", "why_tests_cant": "Templates are checked for the types a test uses; no test uses dump_at_path with a reflected class.", "anchors": ["include/kl/resource_op.hpp: dump_at_path, serialize_at_path, deserialize_at_path, visit_node"]}
{"id": "C126", "title": "At rest, the lists contain exactly the connected slots", "statement": "A signal that is not being emitted and whose mutex is free has no clean-up pending, and each slot of its list is connected to it, unless a thread is about to lock the mutex to disconnect that slot or to finish moving the signal. When all functions have returned, no emission is counted, a slot is in the list of a signal exactly if it exists and is connected to that signal, and (if no target has thrown) a slot exists exactly if it is connected or a connection or blocker refers to it. The clean-up does not depend on luck: the thread that cleans up sees the last store to sender_ of every slot in the list.", "quantifier": "For all reachable states, all numbers of threads, all interleavings of single accesses, outdated values of loads that nothing orders.", "why_tests_cant": "That nothing is left behind is a claim about the end of all executions; outdated loads do not occur on the machines that run the tests.", "anchors": ["include/kl/signal.hpp: signal::operator(), disconnect, disconnect_all_slots, cleanup_invalidated_slots_locked, swap, move constructor, rebind_locked"]}
{"id": "C127", "title": "The check of field names is a constant expression and exact", "statement": "The compile-time validators of field names never leave the buffer they counted beforehand and never read past the end of a name, so the static assertion can be evaluated whatever the struct; and it holds if and only if the names written (the names and aliases read), those of flattened structs included and those of skipped and extra_fields fields excluded, are pairwise different as C strings. A flattened field that is neither skipped nor a struct makes the program ill-formed.", "quantifier": "For all structs: any number, nesting and names of fields, any renaming, skipping, flattening and any aliases up to the eight the attribute can hold.", "why_tests_cant": "Tests compile a handful of structs; that counting and collecting agree for every struct cannot be compiled case by case.", "anchors": ["include/kl/detail/serialization.hpp: cstr_name_set, cstring_equal, serialize_field_names_validator, deserialize_field_names_validator", "include/kl/serialization_attributes.hpp: aliases_t"]}
{"id": "C128", "title": "Recursive types", "statement": "A struct that contains itself below vectors or maps (a tree, a graph of named edges) is written, dumped, read and patched as every finite value and document of it would be by an ordinary type: the instantiations of the functions reached on a value or document of k levels are those of the struct written out k times, so all other properties apply; in particular what was written is read back, dump and serialize agree, and what is read or patched is a value of the struct.", "quantifier": "For all declarations of mutually recursive structs, all values and documents of any depth, all backends.", "why_tests_cant": "Tests have a few fixed nestings; the tests of the library have no recursive type at all.", "anchors": ["include/kl/detail/serialization.hpp: dump_adl, serialize_adl, deserialize_adl, patch_adl"]}
{"id": "C129", "title": "Copies and moves of arguments", "statement": "An emission copies and moves its arguments exactly as often as the declarations demand: an argument by value once for each slot that is called (also if the slot's object is gone), moved once more for each function that takes it by value; an argument by reference is copied once for each function that takes it by value and never moved; behind signals that forward the same is counted again. If all signals and functions take references, nothing is copied or moved.", "quantifier": "All signals, signatures, ways of connecting and depths of forwarding; all functions behind slots that do not emit signals themselves; all arguments of callers.", "why_tests_cant": "The test counts for three fixed signatures with two lambdas each; forwarding, expired slots and mixed signatures are not counted.", "anchors": ["include/kl/signal.hpp: signal::operator(), connect overloads", "tests/signal_test.cpp: signal - by value vs by const ref"]}
{"id": "C130", "title": "Zipped ranges do not dangle", "statement": "What zipped and enumerated give refers to no temporary object, whatever they are applied to: a call compiles exactly if every argument is a named range or a temporary non-constant iota range, and the result's iterators refer to exactly what the arguments' iterators refer to. kl::range compiles exactly for containers, arrays and ranges, takes their iterators, and gives constant elements exactly for constant and temporary ones; it is the only one that accepts a temporary container, and then refers to it after its destruction.", "quantifier": "All nested expressions of names, temporaries, kl::range, zipped and enumerated; all environments of containers, arrays, iota ranges, kl::ranges and zipped ranges, constant or not.", "why_tests_cant": "Dangling iterators often work by chance; and whether a call compiles cannot be tested with a compiled test at all.", "anchors": ["include/kl/zip.hpp: zipped, enumerated, is_borrowed_range, zipped_range", "include/kl/range.hpp: range and its deduction guides"]}
{"id": "C131", "title": "JSON text round trip", "statement": "json::parse accepts exactly the JSON texts of RFC 8259 (after a byte order mark or parts of one, and up to a null character) and makes the document each is a text of; dump and pretty_dump return a JSON text of the tree that serialize makes, without white space or with one line per element and member; so parse(dump(v)) is serialize(v), and deserialize(parse(dump(v))) is v where deserialize(serialize(v)) is, if no double is changed by printing and reading.", "quantifier": "All byte strings as texts; all types, values, layouts and documents of the model; every way of printing and reading doubles that prints finite ones as JSON numbers with a fraction or exponent.", "why_tests_cant": "Escapes, surrogate pairs, separators at every depth and 64-bit limits cannot be enumerated, and accepting too much is invisible to tests of valid texts.", "anchors": ["include/kl/json.hpp: dump, pretty_dump, parse, json_stream_backend, dump_adl"]}
{"id": "C132", "title": "Floating-point members of JSON documents", "statement": "A number read from a JSON document into a float or a double is the nearest number of that type, ties to even, and the integer itself exactly if it has at most 53 bits without trailing zeros; a float written to a document is the same number there and is read back bit by bit, through trees and through text. (Violated: an integer read into a float is rounded twice, so that it can be the second nearest; finite numbers beyond the limit of float become infinite; nothing reports the loss. The result never passes a float on either side of the integer.)", "quantifier": "For all 2^32 floats and all 2^64 doubles including subnormal ones, infinities and nan, and all integers a document can hold.", "why_tests_cant": "Tests read 3.0 and 1.5. Double rounding needs integers of more than 53 bits next to the middle between two floats; limits and subnormal numbers are not tested.", "anchors": ["include/kl/json.hpp: deserialize_adl for floating-point types", "include/kl/json.hpp: dump_adl(double), serialize_adl of JSON constructible types"]}
{"id": "C133", "title": "Memory requested while reading binary data", "statement": "However the allocator behaves: a read that returns has the result it has with unlimited memory; no read is undefined behaviour, and none throws if every request is granted; also after an exception the destination holds a value of its type and the cursor is within the buffer, not before where it was. The number of granted requests is at most the number of bytes consumed, and less if the read succeeds; for types without strings and vectors the bytes requested are at most the size of the largest node for every byte consumed. Known violations: four bytes make the reader ask for up to 2^32-1 elements or characters before it looks whether they are there; an exception is not reported by err(); it can leave a partly filled container; any byte becomes a bool.", "quantifier": "for all types, destinations, buffers, positions, error flags and allocators (any automaton that grants or refuses)", "why_tests_cant": "Tests run with a heap that never refuses; what an untrusted message can make the reader allocate, and what is left after std::bad_alloc at any of the requests, are not observed.", "anchors": ["include/kl/binary_rw/vector.hpp:31-71", "include/kl/binary_rw/string.hpp:19-32", "include/kl/binary_rw/map.hpp:21-36", "include/kl/binary_rw/set.hpp:18-33", "include/kl/binary_rw/optional.hpp:17-25", "include/kl/binary_rw/variant.hpp:11-50", "include/kl/binary_rw.hpp:110-126"]}
{"id": "C134", "title": "Connection objects: identity, order and when assignment is safe", "statement": "kl::connection and kl::scoped_connection objects behave as values. Two of them compare equal exactly if both are empty or both come from the same call of connect, although the addresses of deleted slots are used again; < is a strict total order that agrees with ==, and equal connections have equal hashes. A slot exists exactly as long as the list of its signal or some connection refers to it, and its count is the number of these. Copying, moving, assigning, swapping, disconnecting and destroying leave in the objects what their names say and touch no other connection of the client, and they end without undefined behaviour, provided that an assignment or disconnect that may delete a slot is only applied to objects that are not owned by targets of slots. Without the proviso it is false: an assignment from a connection owned by the target of the slot that is released, and a disconnect on a connection owned by the target of its own slot, use destroyed objects.", "quantifier": "All sequences of operations on any number of connection objects and slots, with any ownership of connections by targets, any depth of destruction and any reuse of addresses; all hash functions and address assignments", "why_tests_cant": "The use after free needs a target that owns the connection that is being assigned from; tests keep connections in local variables. That equality survives reuse of addresses depends on every live connection having a counted reference, which holds by an invariant over all histories", "anchors": ["include/kl/signal.hpp:25-101", "include/kl/signal.hpp:124-190", "include/kl/signal.hpp:275-368", "include/kl/signal.hpp:893-907"]}
{"id": "C135", "title": "Resources of recursive types", "statement": "On a resource whose struct mentions itself below a range or map (struct tree { string name; vector<tree> children; }) every verb has exactly one outcome: all instantiations deep enough for the value and the body agree on it. What is proved about finite types holds: no undefined behaviour, the value keeps its type, nothing changes unless the answer is a success, a success leaves a valid tree and one more generation, get answers 404 exactly if the path names nothing, polling is reliable. The values of the type are those which the declarations describe.", "quantifier": "for all families of codes of one type, in particular all declarations of structs (mutually recursive ones included), all values and bodies of any depth, all sequences of requests, all user functions that do not depend on how the type is encoded", "why_tests_cant": "Tests use one recursive struct and trees of two or three levels; the statement is about every depth and every declaration.", "anchors": ["include/kl/resource_op.hpp:351-392", "include/kl/resource_op.hpp:505-650", "include/kl/resource_op.hpp:850-1089"]}
{"id": "C136", "title": "Blockers as objects", "statement": "Whatever is done with connections and blockers (made, copied, moved, assigned, swapped, destroyed, owned by the targets of slots and destroyed with them), the counter blocking_ of a slot is the number of blocker objects that have it; so a slot is skipped exactly while a blocker of it exists, assert(prev > 0) holds, and a slot that a blocker has exists. Every function called by the rule of C134 ends without undefined behaviour and leaves in slot_ what the same function of a connection would leave. A blocker that comes and goes leaves everything as it was.", "quantifier": "for all sequences of functions of connections, scoped connections and blockers, all owners, and all states with fewer than 2^32 blockers of a slot", "why_tests_cant": "Tests make one or two blockers of one slot and never let a target own one; the counter is only seen as a flag.", "anchors": ["include/kl/signal.hpp:57-72", "include/kl/signal.hpp:100-100", "include/kl/signal.hpp:192-274"]}
{"id": "C137", "title": "Readers and writers in memory", "statement": "With a live buffer, and a destination or source that exists and shares no byte with the buffer, peek, read, write and span do in memory exactly what they do with lists of bytes (so C05 to C10 hold there), and change no other byte: reading changes the destination only, writing the bytes at the position only, span nothing. A copy between two buffers, writing a vector that has a block and reading into a vector that does not own the buffer do what the typed operations say; a decoded vector has its elements in a block of its own. A read or write of valid regions is undefined exactly if it is not refused and a pointer is null or the regions overlap.", "quantifier": "for all memories, cursors, regions, lengths and vectors", "why_tests_cant": "Tests use arrays on the stack and vectors with elements; memcpy of no bytes from a null pointer and overlapping copies work by chance.", "anchors": ["include/kl/binary_rw.hpp:60-65", "include/kl/binary_rw.hpp:138-170", "include/kl/binary_rw.hpp:230-242", "include/kl/binary_rw/vector.hpp:12-51"]}
{"id": "C138", "title": "The modification tracker when memory runs out", "statement": "Whatever the allocator does: every call of notify_changed uses up one generation and leaves the tracker usable; a call that returned counts for what it says, a call that threw counts for nothing or for a change at or above its location. So changed_since never misses a call that returned and holds only if some call concerns the location. A call whose location (or a location below it) was notified before asks for no memory and returns.", "quantifier": "for all allocators, histories of calls and locations", "why_tests_cant": "Tests never run out of memory, and the entries that a failed call leaves behind are seen only by later calls.", "anchors": ["include/kl/resource.hpp:23-43", "include/kl/resource.hpp:50-73", "include/kl/resource.hpp:85-105"]}
{"id": "C139", "title": "A resource when memory runs out", "statement": "Whatever the allocator does, a put, patch, post or del ends as it would with memory, or throws bad_alloc and has taken effect entirely or not at all, and then every location is reported as changed as it should be or as not changed. The value after any requests is what those that took effect make of the first value, and valid values stay valid. If the location and the one above it are known to the tracker, a request that throws has changed nothing. The program is terminated only if there are types whose moves may throw.", "quantifier": "for all allocators, resource types, user functions and sequences of requests", "why_tests_cant": "Tests never run out of memory, and each of the steps of a request may be the one that fails.", "anchors": ["include/kl/resource_op.hpp:394-457", "include/kl/resource_op.hpp:716-844", "include/kl/resource_op.hpp:868-1089", "include/kl/resource.hpp:23-43"]}
{"id": "C140", "title": "A path when memory runs out", "statement": "Whatever the allocator does, path::set returns with what the text denotes, throws the parse error of the text, or throws bad_alloc; then the path is empty, or shows the segments entered so far, as many as the array had room for. The text is asked for at most once and first. Nothing is asked for exactly if the text and every location on the way fit into the capacities; in particular a text that was set before can be set again without memory. After any calls the path can be read within its bounds.", "quantifier": "for all allocators, growth policies, capacities, texts and histories of calls", "why_tests_cant": "Tests run with plenty of memory, and most paths fit into the objects themselves.", "anchors": ["src/path.cpp:8-46", "src/path.cpp:65-107", "include/kl/path.hpp:94-137"]}
{"id": "C141", "title": "Paths are values, views are not", "statement": "Paths are values: constructing, copying, moving, setting, clearing and destroying change the objects named and no other, although blocks of segments change hands; no memory is shared or left over. An operation is undefined only for objects that do not live, a move to itself, and a path set to its own segment. A view, with segments dropped at either end, shows what it showed when taken for as long as its path is not changed, whatever happens to others.", "quantifier": "for all histories of operations on any number of paths, all library growth policies, and all views", "why_tests_cant": "The defects are reads of memory that usually still holds the old bytes; tests with short paths never leave the buffer inside the object.", "anchors": ["include/kl/path.hpp:21-75", "include/kl/path.hpp:94-137", "src/path.cpp:8-52"]}
{"id": "C142", "title": "Joiners are views, and each copy counts for itself", "statement": "A stream_joiner prints what its container holds when it is printed, with the delimiter as it is then; a program with joiners is defined exactly if nothing is used that does not exist at that moment (delimiter only with two elements, text for an empty range only for one). An outstream_joiner that is passed on by copies and moves, where only the newest is used, joins all values; several calls of std::copy join theirs exactly if what each returns is assigned back.", "quantifier": "for all programs over any number of containers, buffers, streams and joiners", "why_tests_cant": "Texts written by a joiner over a destroyed container often look right; a second std::copy through the same joiner is not in the tests.", "anchors": ["include/kl/stream_join.hpp:9-50", "include/kl/stream_join.hpp:53-57", "include/kl/stream_join.hpp:60-116"]}
{"id": "C143", "title": "Every state of a target while it is read, and reading again", "statement": "At every moment of deserialize and patch the target is a value of its type; the states begin with the old value and end with what the call leaves. Leaves, enums and optionals are old or new; sequences and maps are old or the reading of a beginning of the document; arrays, tuples and records are changed strictly in order, in place; patch keeps at all times what the document does not name. So an exception from elsewhere (std::bad_alloc) leaves such a state, and calling again with the same document ends as the first call would have, with the same value or error (patch: if no object repeats a name).", "quantifier": "for all types, documents, old values, backends and moments", "why_tests_cant": "Tests do not run out of memory in the middle of a read.", "anchors": ["include/kl/detail/serialization.hpp:816-1118", "include/kl/detail/serialization.hpp:1120-1242", "include/kl/json.hpp:679-757", "include/kl/yaml.hpp:528-563"]}
{"id": "C144", "title": "What dump has written when it throws", "statement": "dump writes as it goes, so an exception leaves a beginning in the writer. It throws only for colliding names; then what is written is never empty and never a whole document, the innermost that is open is a map between two of its members, and closing what is open makes it a document. Elements, members, fields and extra fields before the one that throws are written completely, and of that one exactly what was written of it; nothing of an extra field whose name collides. No other value written after it makes the output a document. A dump cut short anywhere is never the dump of another value.", "quantifier": "for all types, values and backends", "why_tests_cant": "Tests of failing dumps check the exception, not what is left in the writer.", "anchors": ["include/kl/detail/serialization.hpp:502-567", "include/kl/detail/serialization.hpp:614-715", "include/kl/json.hpp:354-405"]}
{"id": "C145", "title": "Nodes of exception_info live as long as they are shown", "statement": "Whatever a program does with the exception_info objects it has (set, unset, copies, moves, assignments also to itself, destruction, set without memory), no node is used that does not exist, each node exists iff an object leads to it, its count is the number of objects and nodes that refer to it, it is destroyed once, newest first, by the operation after which no object leads to it, and nothing is left when all objects are gone. The objects show what they would if nothing was ever destroyed.", "quantifier": "for all sequences of operations on any number of objects", "why_tests_cant": "Tests run without leak and lifetime checks and use few copies.", "anchors": ["include/kl/exception_info.hpp:20-31", "include/kl/exception_info.hpp:111-199", "include/kl/exception_info.hpp:201-226"]}
{"id": "C146", "title": "Copies of exception_info in different threads", "statement": "Two threads that use different exception_info objects (or share one that neither changes) do not race, whatever was copied from what before, as long as neither removes a value nor writes through the pointer of get: they may set, get, print, copy, move, assign and destroy. Any race is at a node that an object of each thread leads to.", "quantifier": "for all states reachable by any operations on any number of objects and all pairs of calls", "why_tests_cant": "No test uses exception_info from two threads; races depend on timing.", "anchors": ["include/kl/exception_info.hpp:134-199", "include/kl/exception_info.hpp:201-226"]}
{"id": "C147", "title": "Taking two mutexes", "statement": "swap and move assignment of signals take two mutexes with std::scoped_lock, which locks one, tries the other and begins again if that fails. Whatever threads do, the order in which commands on mutexes get done is one that is possible if both mutexes are taken at once, and the other way round; no deadlock is added. Threads calling signals always get something done as long as one has something to do, finitely many can finish from every state, and no thread locks or tries a mutex it owns.", "quantifier": "for all numbers of threads, signals and sequences of calls, and all interleavings of the steps inside std::scoped_lock", "why_tests_cant": "The interleavings that would deadlock need two threads in a window of a few instructions.", "anchors": ["include/kl/signal.hpp:421-447", "include/kl/signal.hpp:456-464", "include/kl/signal.hpp:595-750"]}
{"id": "C148", "title": "Destructors of targets that use other signals, with several threads", "statement": "Targets are destroyed while the mutex of their signal is locked, and what they own (such as scoped_connections) may lock other signals. If signals have levels such that destructors of targets of a signal use only signals of higher levels, threads never wait for each other for ever, finitely many can finish from every state, and no thread locks or tries a mutex it owns, however deep destructors nest.", "quantifier": "for all numbers of threads and signals, all assignments of levels, all nestings and interleavings", "why_tests_cant": "A deadlock that needs two threads, a certain shape of ownership and a certain timing.", "anchors": ["include/kl/signal.hpp:317", "include/kl/signal.hpp:410", "include/kl/signal.hpp:616-622", "include/kl/signal.hpp:658-676", "include/kl/signal.hpp:700-748"]}
{"id": "C149", "title": "Copies of exception_info in different threads, step by step", "statement": "Reading a pointer, changing a reference count, linking and destroying a node are separate steps, and steps of threads interleave in any order. If an object that a thread changes is used by no other thread, no two threads are ever about to access a node unless both read; every node that a thread visits or refers to exists; each node is destroyed by one thread, once; and when all objects are gone and all threads done no node is left. From every state threads can go on to there. unset is left out.", "quantifier": "for all states from which threads start, all numbers of threads and objects, all interleavings", "why_tests_cant": "The failures would be races inside the release of the last reference, which no test provokes.", "anchors": ["include/kl/exception_info.hpp:116-151", "include/kl/exception_info.hpp:181-217", "include/kl/exception_info.hpp:225"]}
{"id": "C150", "title": "enum_set over enumerations without a fixed underlying type", "statement": "Casting back to an enumeration whose underlying type is not fixed is undefined for values that it does not have. An expression of &, |, ^, ~ over enum_sets of values of the enumeration is defined exactly if it has no ~, or the underlying type is fixed, or an enumerator is negative, or the enumerators need all bits of an unsigned type. Where it is defined it has the bits that the operators say.", "quantifier": "for all expressions, all enumerations and all widths and signs of the type in which operators compute", "why_tests_cant": "The undefined casts do what one expects until a compiler uses that they cannot happen; the tests use enum class and a fixed type.", "anchors": ["include/kl/enum_set.hpp:54-75", "include/kl/enum_set.hpp:92-153"]}
{"id": "C151", "title": "Casts to enumerations without a fixed underlying type", "statement": "for_each_enum and loops over enum_range cast only values of the enumeration and give all from the first to the last, whatever its values. max() is defined exactly if the last enumerator is not included or is not the largest value of the enumeration; ++ exactly below the largest value (or where it wraps to zero); >> always; << of a flag exactly if the result is a value of the enumeration. Reading an enumeration that is not reflected from a document is defined exactly if the document holds a value of the enumeration.", "quantifier": "for all enumerations, bounds, values, shifts and documents", "why_tests_cant": "Undefined casts show only where a compiler uses that they cannot happen; the tests read values that exist.", "anchors": ["include/kl/enum_traits.hpp:13-18", "include/kl/enum_traits.hpp:63-78", "include/kl/enum_traits.hpp:107-120", "include/kl/enum_range.hpp:22-57", "include/kl/detail/serialization.hpp:1056-1061"]}
