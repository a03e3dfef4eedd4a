{
 "claims": [
  {
   "property": "C01",
   "status": "proved",
   "theorems": [
    "Verif.Base64.C01_roundtrip"
   ],
   "note": "All byte strings, both alphabets."
  },
  {
   "property": "C02",
   "status": "proved",
   "theorems": [
    "Verif.Base64.C02_rfc4648",
    "Verif.Base64.C02_shape"
   ],
   "note": "Output equals an independent bit-level RFC 4648 specification; shape theorem gives length, alphabet and padding."
  },
  {
   "property": "C03",
   "status": "proved",
   "theorems": [
    "Verif.Base64.C03_accepts",
    "Verif.Base64.C03_value"
   ],
   "note": "Exact acceptance condition and decoded value, all byte strings."
  },
  {
   "property": "C04",
   "status": "proved",
   "theorems": [
    "Verif.Base64.C04_canonical_std",
    "Verif.Base64.C04_canonical_url",
    "Verif.Base64.C04_injective",
    "Verif.Base64.C04_noncanonical_accepted"
   ],
   "note": "Canonical inputs re-encode to themselves, decoder injective on them; the decoder also accepts non-canonical trailing bits (C04_noncanonical_accepted)."
  },
  {
   "property": "C05",
   "status": "proved",
   "theorems": [
    "Verif.BinaryRW.C05_roundtrip",
    "Verif.BinaryRW.C05_roundtrip_seq"
   ],
   "note": "All type codes (nested), all values, all destinations, any position; also arbitrary sequences of values. Containers below 2^32 elements and variant indices below 2^8, as the prefixes are 32/8 bit."
  },
  {
   "property": "C06",
   "status": "proved",
   "theorems": [
    "Verif.BinaryRW.C06_reader_in_bounds",
    "Verif.BinaryRW.C06_writer_in_bounds"
   ],
   "note": "All operation lists on any bytes for reader and writer; offsets other than PTRDIFF_MIN (C10_skip_min: undefined there)."
  },
  {
   "property": "C07",
   "status": "proved",
   "theorems": [
    "Verif.BinaryRW.C07_destinations",
    "Verif.BinaryRW.C07_reader_sticky",
    "Verif.BinaryRW.C07_writer_sticky"
   ],
   "note": "All operation lists after an error; destinations of every kind of read."
  },
  {
   "property": "C08",
   "status": "proved",
   "theorems": [
    "Verif.BinaryRW.C08_write_exact",
    "Verif.BinaryRW.C08_write_frame"
   ],
   "note": "Exact success condition, exact bytes, frame, and what a failed composite write may have changed."
  },
  {
   "property": "C09",
   "status": "partial",
   "theorems": [
    "Verif.BinaryRW.C09_any_bytes",
    "Verif.BinaryRW.C09_containers_empty",
    "Verif.BinaryRW.C09_optional_iff",
    "Verif.BinaryRW.C09_optional_partial",
    "Verif.BinaryRW.C09_optional_violated",
    "Verif.BinaryRW.C09_truncation"
   ],
   "note": "Total, type safe and equal to the list-parser specification on any bytes; truncation always fails; containers empty after failure. The optional clause is violated by the code (C09_optional_violated); C09_optional_iff says exactly when the optional is empty."
  },
  {
   "property": "C10",
   "status": "proved",
   "theorems": [
    "Verif.BinaryRW.C10_peek",
    "Verif.BinaryRW.C10_skip",
    "Verif.BinaryRW.C10_skip_min",
    "Verif.BinaryRW.C10_span"
   ],
   "note": "skip for both signs, peek, span; skip(PTRDIFF_MIN) shown undefined."
  },
  {
   "property": "C11",
   "status": "proved",
   "theorems": [
    "Verif.Path.C11_denotes_unique",
    "Verif.Path.C11_normalisation"
   ],
   "note": "Result of a successful set equals the unique location denoted by the text."
  },
  {
   "property": "C12",
   "status": "proved",
   "theorems": [
    "Verif.Path.C12_rejects",
    "Verif.Path.C12_which"
   ],
   "note": "Exact characterisation of rejection for every byte string, and of the error reported (C12_which)."
  },
  {
   "property": "C13",
   "status": "proved",
   "theorems": [
    "Verif.Path.C13_invariants",
    "Verif.Path.C13_views"
   ],
   "note": "All observers of path and of every view obtained by drop_front/drop_back."
  },
  {
   "property": "C14",
   "status": "proved",
   "theorems": [
    "Verif.Path.C14_join_injective",
    "Verif.Path.C14_prefix_injective"
   ],
   "note": "join injective on valid lists; prefixes of any two parsed paths."
  },
  {
   "property": "C15",
   "status": "proved",
   "theorems": [
    "Verif.Path.C15_addressable",
    "Verif.Path.C15_any_encoding"
   ],
   "note": "Every valid segment list, any valid encoding of it."
  },
  {
   "property": "C16",
   "status": "partial",
   "theorems": [
    "Verif.Path.C16_consistent_iff",
    "Verif.Path.C16_exact",
    "Verif.Path.C16_failed_set_partial",
    "Verif.Path.C16_failed_set_violated"
   ],
   "note": "The code violates the full statement: C16_failed_set_violated (joined keeps text of the failed segment). C16_failed_set_partial: segments, operator[] and prefix stay valid, next set unaffected. C16_exact gives the exact text of joined after every throw, C16_consistent_iff says when it is consistent: iff there are no segments."
  },
  {
   "property": "C17",
   "status": "proved",
   "theorems": [
    "Verif.Tracker.C17_changed_at",
    "Verif.Tracker.C17_latest_unique"
   ],
   "note": "All histories over views of parsed paths (generation as unbounded counter)."
  },
  {
   "property": "C18",
   "status": "proved",
   "theorems": [
    "Verif.Tracker.C18_changed_since",
    "Verif.Tracker.C18_generation_step"
   ],
   "note": "All observation points in all histories; generation step."
  },
  {
   "property": "C19",
   "status": "proved",
   "theorems": [
    "Verif.Signal.C19_back",
    "Verif.Signal.C19_front",
    "Verif.Signal.C19_order"
   ],
   "note": "Every interleaving of any number of threads and every nesting: the calls of an emission are a sublist of the calling order when it began; at_back after, at_front before earlier ones."
  },
  {
   "property": "C20",
   "status": "proved",
   "theorems": [
    "Verif.Signal.C20_later",
    "Verif.Signal.C20_snapshot"
   ],
   "note": "Every interleaving."
  },
  {
   "property": "C21",
   "status": "partial",
   "theorems": [
    "Verif.Signal.C21_connected_partial",
    "Verif.Signal.C21_disconnect_all_partial",
    "Verif.Signal.C21_disconnect_partial",
    "Verif.Signal.C21_disconnected_partial",
    "Verif.Signal.C21_single_thread",
    "Verif.Signal.C21_violated"
   ],
   "note": "Every interleaving in which no signal is moved or swapped while another thread is between the two steps of disconnecting one of its slots; on one thread unconditionally (C21_single_thread). Otherwise violated (C21_violated: rebind brings the slot back)."
  },
  {
   "property": "C22",
   "status": "proved",
   "theorems": [
    "Verif.Signal.C22_all",
    "Verif.Signal.C22_at_most_once"
   ],
   "note": "Every interleaving; slots skipped are shown to be blocked or disconnected at that moment."
  },
  {
   "property": "C23",
   "status": "proved",
   "theorems": [
    "Verif.Signal.C23_current",
    "Verif.Signal.C23_innermost",
    "Verif.Signal.C23_stops"
   ],
   "note": "Every interleaving and nesting."
  },
  {
   "property": "C24",
   "status": "proved",
   "theorems": [
    "Verif.Signal.C24_checked",
    "Verif.Signal.C24_count",
    "Verif.Signal.C24_decision",
    "Verif.Signal.C24_race",
    "Verif.Signal.C24_single_thread"
   ],
   "note": "Every history of blockers; on one thread a blocked slot is never called; with more threads the check precedes the call by one step and a blocker may come in between (C24_race)."
  },
  {
   "property": "C25",
   "status": "proved",
   "theorems": [
    "Verif.Signal.C25_progress",
    "Verif.Signal.C25_referred_alive",
    "Verif.Signal.C25_safe",
    "Verif.Signal.C25_unreferred_gone"
   ],
   "note": "Every interleaving: no action is undefined behaviour, referred slots are alive, and without exceptions alive slots are referred to. User obligation: signals are used while they exist."
  },
  {
   "property": "C26",
   "status": "partial",
   "theorems": [
    "Verif.Signal.C26_num_slots_partial",
    "Verif.Signal.C26_rest_partial",
    "Verif.Signal.C26_single_thread",
    "Verif.Signal.C26_violated"
   ],
   "note": "Under the same condition as C21; on one thread unconditionally. Otherwise violated (C26_violated)."
  },
  {
   "property": "C27",
   "status": "proved",
   "theorems": [
    "Verif.Signal.C27_active",
    "Verif.Signal.C27_leak",
    "Verif.Signal.C27_no_calls",
    "Verif.Signal.C27_propagates",
    "Verif.Signal.C27_unwinds"
   ],
   "note": "Every interleaving and nesting; the leak of the reference that the statement mentions is C27_leak."
  },
  {
   "property": "C28",
   "status": "proved",
   "theorems": [
    "Verif.Signal.C28_move",
    "Verif.Signal.C28_swap",
    "Verif.Signal.C28_terminate"
   ],
   "note": "Every history in which moves and swaps are not concurrent with disconnections of the signals' slots; a move or swap of an emitting signal terminates."
  },
  {
   "property": "C29",
   "status": "proved",
   "theorems": [
    "Verif.Signal.C29_connect",
    "Verif.Signal.C29_connected",
    "Verif.Signal.C29_disconnect",
    "Verif.Signal.C29_drop",
    "Verif.Signal.C29_release",
    "Verif.Signal.C29_signal_gone"
   ],
   "note": "Every history in which moves and swaps are not concurrent with disconnections of the signals' slots (always so on one thread)."
  },
  {
   "property": "C30",
   "status": "proved",
   "theorems": [
    "Verif.Resource.C30_del",
    "Verif.Resource.C30_patch",
    "Verif.Resource.C30_post",
    "Verif.Resource.C30_put"
   ],
   "note": "All types, values, paths, bodies, validators and deserialisers (validators do not mutate)."
  },
  {
   "property": "C31",
   "status": "proved",
   "theorems": [
    "Verif.Resource.C31_del",
    "Verif.Resource.C31_patch",
    "Verif.Resource.C31_post",
    "Verif.Resource.C31_put"
   ],
   "note": "All types, values, paths, bodies and validators."
  },
  {
   "property": "C32",
   "status": "partial",
   "theorems": [
    "Verif.Resource.C32_del_partial",
    "Verif.Resource.C32_index_violated",
    "Verif.Resource.C32_optional_violated",
    "Verif.Resource.C32_patch_partial",
    "Verif.Resource.C32_post_partial",
    "Verif.Resource.C32_put_partial",
    "Verif.Resource.C32_two_keys_violated",
    "Verif.Resource.C32_two_segments_violated"
   ],
   "note": "With canonical spelling of indices, keys that match one segment, one child_key per field, and optionals that hold a struct or a scalar when deleted. Each restriction is needed: C32_index_violated, C32_two_segments_violated, C32_two_keys_violated, C32_optional_violated."
  },
  {
   "property": "C33",
   "status": "proved",
   "theorems": [
    "Verif.Resource.C33_del",
    "Verif.Resource.C33_del_child",
    "Verif.Resource.C33_patch",
    "Verif.Resource.C33_post",
    "Verif.Resource.C33_put"
   ],
   "note": "put, patch, post, del; all types, values, paths and bodies."
  },
  {
   "property": "C34",
   "status": "partial",
   "theorems": [
    "Verif.Resource.C34_one_key_patch",
    "Verif.Resource.C34_one_key_put",
    "Verif.Resource.C34_other_key_violated",
    "Verif.Resource.C34_patch_partial",
    "Verif.Resource.C34_put_partial"
   ],
   "note": "The key by which the child was addressed, at every position of the collection and for every outcome. For resources with at most one child_key per field this is the full statement (C34_one_key_put, C34_one_key_patch). With several child_key attributes the other keys can change (C34_other_key_violated)."
  },
  {
   "property": "C35",
   "status": "partial",
   "theorems": [
    "Verif.Resource.C35_patch_only_there",
    "Verif.Resource.C35_patch_partial",
    "Verif.Resource.C35_put_only_there",
    "Verif.Resource.C35_put_partial",
    "Verif.Resource.C35_two_keys_violated"
   ],
   "note": "What get answers elsewhere, with one child_key per field, canonical indices and keys that match one segment; the change of the value itself without these restrictions (C35_put_only_there). Violated with two child_key attributes (C35_two_keys_violated) and with keys that match two segments (C32_two_segments_violated)."
  },
  {
   "property": "C36",
   "status": "proved",
   "theorems": [
    "Verif.Resource.C36_patch_get",
    "Verif.Resource.C36_put_get"
   ],
   "note": "All types, values, paths and bodies; child keys compare by equality and key_matches depends on the key only."
  },
  {
   "property": "C37",
   "status": "proved",
   "theorems": [
    "Verif.Resource.C37_get",
    "Verif.Resource.C37_patch",
    "Verif.Resource.C37_put"
   ],
   "note": "All rows, for validators and deserialisers that throw nothing but validation_error and deserialize_error."
  },
  {
   "property": "C38",
   "status": "proved",
   "theorems": [
    "Verif.Resource.C38_post",
    "Verif.Resource.C38_post_get"
   ],
   "note": "All types, values, paths and bodies."
  },
  {
   "property": "C39",
   "status": "proved",
   "theorems": [
    "Verif.Resource.C39_del",
    "Verif.Resource.C39_in_optional_violated",
    "Verif.Resource.C39_removed"
   ],
   "note": "All types, values and paths. Elements of a collection held in an optional cannot be deleted (C39_in_optional_violated)."
  },
  {
   "property": "C40",
   "status": "proved",
   "theorems": [
    "Verif.Resource.C40_deterministic",
    "Verif.Resource.C40_field",
    "Verif.Resource.C40_keyed"
   ],
   "note": "get is a function of the resource in the model; resolution is unique; fields by name; keyed collections never by index."
  },
  {
   "property": "C41",
   "status": "proved",
   "theorems": [
    "Verif.Serial.C41_kept",
    "Verif.Serial.C41_nested_optional_violated",
    "Verif.Serial.C41_round_trip"
   ],
   "note": "All types and values under the side conditions (C41_round_trip); all types with every attribute, of values of which nothing is lost (C41_kept). Values: any lawful backend; JSON is one. The excluded optional in an optional is lost (C41_nested_optional_violated)."
  },
  {
   "property": "C42",
   "status": "proved",
   "theorems": [
    "Verif.Serial.C42_same",
    "Verif.Serial.C42_throws"
   ],
   "note": "All types, values and null policies, including which exception is thrown."
  },
  {
   "property": "C43",
   "status": "proved",
   "theorems": [
    "Verif.Serial.C43_missing",
    "Verif.Serial.C43_object",
    "Verif.Serial.C43_present",
    "Verif.Serial.C43_required"
   ],
   "note": "All records and objects; full characterisation of reading an object (C43_object)."
  },
  {
   "property": "C44",
   "status": "proved",
   "theorems": [
    "Verif.Serial.C44_captured",
    "Verif.Serial.C44_flattened_violated",
    "Verif.Serial.C44_no_more",
    "Verif.Serial.C44_writes",
    "Verif.Serial.C44_written"
   ],
   "note": "All records and objects with the map a direct field. For a map in a flattened record it does not hold (C44_flattened_violated)."
  },
  {
   "property": "C45",
   "status": "proved",
   "theorems": [
    "Verif.Serial.C45_kept",
    "Verif.Serial.C45_no_object",
    "Verif.Serial.C45_object",
    "Verif.Serial.C45_other",
    "Verif.Serial.C45_repeated_names_violated",
    "Verif.Serial.C45_twice"
   ],
   "note": "All types, values and documents; the second time for documents without repeated names (C45_repeated_names_violated shows the need)."
  },
  {
   "property": "C46",
   "status": "proved",
   "theorems": [
    "Verif.Serial.C46_error",
    "Verif.Serial.C46_exact"
   ],
   "note": "All JSON numbers, widths and signednesses. A JSON number is an integer iff rapidjson stores it as one (1.0 is not)."
  },
  {
   "property": "C47",
   "status": "proved",
   "theorems": [
    "Verif.Serial.C47_flattened_violated",
    "Verif.Serial.C47_legit",
    "Verif.Serial.C47_patched",
    "Verif.Serial.C47_present",
    "Verif.Serial.C47_sequence"
   ],
   "note": "All types and documents, at any depth, from objects, sequences and by patch. Validators of flattened fields are not run (C47_flattened_violated)."
  },
  {
   "property": "C48",
   "status": "proved",
   "theorems": [
    "Verif.Serial.C48_dump",
    "Verif.Serial.C48_unique"
   ],
   "note": "All types that compile and all their values."
  },
  {
   "property": "C49",
   "status": "proved",
   "theorems": [
    "Verif.Serial.C49_sequence"
   ],
   "note": "All records and sequences, as an equivalence."
  },
  {
   "property": "C50",
   "status": "proved",
   "theorems": [
    "Verif.Serial.C50_read",
    "Verif.Serial.C50_same_iff",
    "Verif.Serial.C50_written"
   ],
   "note": "All reflected enums and sets."
  },
  {
   "property": "C51",
   "status": "proved",
   "theorems": [
    "Verif.Serial.C51_fixed",
    "Verif.Serial.C51_fixed_succeeds",
    "Verif.Serial.C51_growable"
   ],
   "note": "All element types, arrays and old contents, as equivalences."
  },
  {
   "property": "C52",
   "status": "proved",
   "theorems": [
    "Verif.Serial.C52_text",
    "Verif.Serial.C52_tuple_violated"
   ],
   "note": "All types, values and documents, both ways: the text thrown is exactly the one the specification derives. Elements of tuples, pairs and enum sets have no line (C52_tuple_violated)."
  },
  {
   "property": "C53",
   "status": "proved",
   "theorems": [
    "Verif.Enums.C53_algebra",
    "Verif.Enums.C53_bits",
    "Verif.Enums.C53_order",
    "Verif.Enums.C53_overloads",
    "Verif.Enums.C53_queries"
   ],
   "note": "All underlying widths and values: bitwise laws, queries, order, and all operator overloads against sets of bit positions."
  },
  {
   "property": "C54",
   "status": "proved",
   "theorems": [
    "Verif.Enums.C54_ordinary_iff",
    "Verif.Enums.C54_to_string"
   ],
   "note": "All tables and values, including duplicates and values outside the table."
  },
  {
   "property": "C55",
   "status": "proved",
   "theorems": [
    "Verif.Enums.C55_from_string",
    "Verif.Enums.C55_roundtrip",
    "Verif.Enums.C55_roundtrip_str"
   ],
   "note": "All tables and strings; round trip for enumerators whose name is not shadowed."
  },
  {
   "property": "C56",
   "status": "partial",
   "theorems": [
    "Verif.Enums.C56_backwards_violated",
    "Verif.Enums.C56_bound_checked",
    "Verif.Enums.C56_closed_max_violated",
    "Verif.Enums.C56_for_each",
    "Verif.Enums.C56_kinds",
    "Verif.Enums.C56_range_partial",
    "Verif.Enums.C56_reversed"
   ],
   "note": "Every range that compiles is of one of two kinds (C56_kinds): bound above Min, where the claim holds (C56_range_partial), or max_value() below min_value(), where it is violated and C56_reversed says exactly what happens (C56_closed_max_violated, C56_backwards_violated)."
  },
  {
   "property": "C57",
   "status": "partial",
   "theorems": [
    "Verif.Enums.C57_difference",
    "Verif.Enums.C57_difference_violated",
    "Verif.Enums.C57_moves_partial",
    "Verif.Enums.C57_order",
    "Verif.Enums.C57_reversed"
   ],
   "note": "Iteration, advance, comparisons and reversed for every underlying type; iterator difference is violated for every underlying type (C57_difference_violated: sign reversed). C57_difference and C57_order give the exact difference and order for every type."
  },
  {
   "property": "C58",
   "status": "proved",
   "theorems": [
    "Verif.Enums.C58_compare",
    "Verif.Enums.C58_moves"
   ],
   "note": "For every implementation meeting the facade's convention."
  },
  {
   "property": "C59",
   "status": "proved",
   "theorems": [
    "Verif.Hash.C59_high_bytes_violated",
    "Verif.Hash.C59_incremental",
    "Verif.Hash.C59_literal",
    "Verif.Hash.C59_single_byte",
    "Verif.Hash.C59_standard"
   ],
   "note": "FNV-1a 32 on every string of bytes below 128; C59_high_bytes_violated shows the sign extension for the others."
  },
  {
   "property": "C60",
   "status": "proved",
   "theorems": [
    "Verif.Hash.C60_high_bytes_violated",
    "Verif.Hash.C60_in_bounds",
    "Verif.Hash.C60_superfasthash"
   ],
   "note": "Hsieh's SuperFastHash on every string whose bytes at the sign-extended places are below 128, no reads out of bounds; C60_high_bytes_violated for the others."
  },
  {
   "property": "C61",
   "status": "proved",
   "theorems": [
    "Verif.Text.C61_literal_string_violated",
    "Verif.Text.C61_literals",
    "Verif.Text.C61_split",
    "Verif.Text.C61_tokens"
   ],
   "note": "All strings and delimiter sets; a delimiter literal keeps its terminating NUL (C61_literal_string_violated)."
  },
  {
   "property": "C62",
   "status": "proved",
   "theorems": [
    "Verif.Text.C62_join",
    "Verif.Text.C62_out_joiner",
    "Verif.Text.C62_settings"
   ],
   "note": "All ranges and settings."
  },
  {
   "property": "C63",
   "status": "proved",
   "theorems": [
    "Verif.Zip.C63_enumerated",
    "Verif.Zip.C63_iota_downwards",
    "Verif.Zip.C63_min_exists",
    "Verif.Zip.C63_zip"
   ],
   "note": "All ranges and arities, including ranges of different length."
  },
  {
   "property": "C64",
   "status": "partial",
   "theorems": [
    "Verif.ExcInfo.C64_copy_violated",
    "Verif.ExcInfo.C64_no_copies",
    "Verif.ExcInfo.C64_others",
    "Verif.ExcInfo.C64_shared",
    "Verif.ExcInfo.C64_stacks_partial"
   ],
   "note": "Every history in which no unset or write through get touches a node shared with a copy; all histories without copies. Independence of copies is violated (C64_copy_violated). C64_shared gives the exact meaning of every history with copies (objects share cells), C64_others which operations other objects notice. throw_with_info and texts: C101, C102."
  },
  {
   "property": "C65",
   "status": "partial",
   "theorems": [
    "Verif.FileView.C65_copy_violated",
    "Verif.FileView.C65_history_partial",
    "Verif.FileView.C65_history_win_partial",
    "Verif.FileView.C65_mmap_never_reported",
    "Verif.FileView.C65_mmap_violated",
    "Verif.FileView.C65_unix_descriptor",
    "Verif.FileView.C65_unix_partial",
    "Verif.FileView.C65_win_handles",
    "Verif.FileView.C65_win_partial",
    "Verif.FileView.C65_win_size_violated"
   ],
   "note": "Unix and Windows constructors for all outcomes of the system calls, and all histories of constructors and destructors. Violations: a failing mmap is never detected (C65_mmap_violated, C65_mmap_never_reported), a failing GetFileSizeEx gives an empty view (C65_win_size_violated), a copied view unmaps twice (C65_copy_violated)."
  },
  {
   "property": "C66",
   "status": "proved",
   "theorems": [
    "Verif.Defer.C66_defer",
    "Verif.Defer.C66_once",
    "Verif.Defer.C66_terminates"
   ],
   "note": "All programs of the statement language; a throwing deferred action terminates (C66_terminates)."
  },
  {
   "property": "C67",
   "status": "proved",
   "theorems": [
    "Verif.Ctti.C67_any",
    "Verif.Ctti.C67_attributes",
    "Verif.Ctti.C67_type",
    "Verif.Ctti.C67_visits"
   ],
   "note": "All hierarchies declared by the macros, all filters and queries."
  },
  {
   "property": "C68",
   "status": "partial",
   "theorems": [
    "Verif.Enums.C68_exact",
    "Verif.Enums.C68_in_range_integral_partial",
    "Verif.Enums.C68_mixed_sign_violated",
    "Verif.Enums.C68_same_sign"
   ],
   "note": "Exact for arguments of the same signedness and for representable ones; violated for mixed signedness (C68_mixed_sign_violated). C68_exact says exactly which arguments are misjudged, for all pairs of types."
  },
  {
   "property": "C69",
   "status": "proved",
   "theorems": [
    "Verif.Enums.C69_inc",
    "Verif.Enums.C69_mask",
    "Verif.Enums.C69_shift"
   ],
   "note": "All widths and values."
  },
  {
   "property": "C70",
   "status": "proved",
   "theorems": [
    "Verif.Resource.C70_del",
    "Verif.Resource.C70_patch",
    "Verif.Resource.C70_post",
    "Verif.Resource.C70_put"
   ],
   "note": "All types, values, requests and query paths."
  },
  {
   "property": "C71",
   "status": "proved",
   "theorems": [
    "Verif.Resource.C71_get",
    "Verif.Resource.C71_served"
   ],
   "note": "All compiling types, well-typed values, parsed paths and requests."
  },
  {
   "property": "C72",
   "status": "proved",
   "theorems": [
    "Verif.Resource.C72_any_sequence"
   ],
   "note": "All finite sequences of requests."
  },
  {
   "property": "C73",
   "status": "proved",
   "theorems": [
    "Verif.Resource.C73_polling"
   ],
   "note": "Under the restrictions in the quantifier; each is needed (C32_*_violated)."
  },
  {
   "property": "C74",
   "status": "proved",
   "theorems": [
    "Verif.Resource.C74_changed_unique",
    "Verif.Resource.C74_del_element",
    "Verif.Resource.C74_del_missing_violated",
    "Verif.Resource.C74_del_optional",
    "Verif.Resource.C74_post"
   ],
   "note": "All rows. An index past the end of a protected or unerasable sequence gives 405 instead of 404 (C74_del_missing_violated)."
  },
  {
   "property": "C75",
   "status": "proved",
   "theorems": [
    "Verif.Serial.C75_deserialize",
    "Verif.Serial.C75_patch",
    "Verif.Serial.C75_serialize",
    "Verif.Serial.C75_skipped_name_violated"
   ],
   "note": "All types, values, documents and validators."
  },
  {
   "property": "C76",
   "status": "proved",
   "theorems": [
    "Verif.Serial.C76_members"
   ],
   "note": "All records and values."
  },
  {
   "property": "C77",
   "status": "proved",
   "theorems": [
    "Verif.Serial.C77_again",
    "Verif.Serial.C77_deserialize",
    "Verif.Serial.C77_patch"
   ],
   "note": "All types, values and documents."
  },
  {
   "property": "C78",
   "status": "proved",
   "theorems": [
    "Verif.Serial.C78_deserialize",
    "Verif.Serial.C78_serialize"
   ],
   "note": "All records whose fields are well formed."
  },
  {
   "property": "C79",
   "status": "proved",
   "theorems": [
    "Verif.Serial.C79_enum",
    "Verif.Serial.C79_enum_set",
    "Verif.Serial.C79_leaf",
    "Verif.Serial.C79_map",
    "Verif.Serial.C79_new",
    "Verif.Serial.C79_optional",
    "Verif.Serial.C79_patch_optional",
    "Verif.Serial.C79_record",
    "Verif.Serial.C79_tuple"
   ],
   "note": "All types, old values and documents, as equivalences."
  },
  {
   "property": "C80",
   "status": "proved",
   "theorems": [
    "Verif.Serial.C80_enum",
    "Verif.Serial.C80_leaf",
    "Verif.Serial.C80_map",
    "Verif.Serial.C80_names",
    "Verif.Serial.C80_null_empty",
    "Verif.Serial.C80_optional",
    "Verif.Serial.C80_range",
    "Verif.Serial.C80_tuple"
   ],
   "note": "All types and values, as equivalences."
  },
  {
   "property": "C81",
   "status": "proved",
   "theorems": [
    "Verif.Serial.C81_exact",
    "Verif.Serial.C81_written",
    "Verif.Serial.C81_wrong_kind"
   ],
   "note": "All documents; the conversion of an integer to double is a parameter."
  },
  {
   "property": "C82",
   "status": "proved",
   "theorems": [
    "Verif.Serial.C82_text"
   ],
   "note": "All types, values and documents without repeated names in an object, both ways."
  },
  {
   "property": "C83",
   "status": "proved",
   "theorems": [
    "Verif.Serial.C83_collides",
    "Verif.Serial.C83_named"
   ],
   "note": "All record types and values; the exact text."
  },
  {
   "property": "C84",
   "status": "proved",
   "theorems": [
    "Verif.Serial.C84_added",
    "Verif.Serial.C84_ignored"
   ],
   "note": "All records without extra_fields (flattened records included), results and errors."
  },
  {
   "property": "C85",
   "status": "proved",
   "theorems": [
    "Verif.Serial.C85_json",
    "Verif.Serial.C85_order",
    "Verif.Serial.C85_repeated_violated"
   ],
   "note": "All types and documents without repeated names; any backend whose leaves are scalars; JSON is one. With repeated names the first counts (C85_repeated_violated)."
  },
  {
   "property": "C86",
   "status": "proved",
   "theorems": [
    "Verif.Serial.C86_dump",
    "Verif.Serial.C86_kept",
    "Verif.Serial.C86_legit",
    "Verif.Serial.C86_patch",
    "Verif.Serial.C86_round_trip",
    "Verif.Serial.C86_serialize",
    "Verif.Serial.C86_throws",
    "Verif.Serial.C86_twice",
    "Verif.Serial.C86_unique"
   ],
   "note": "All types, values and nodes; yaml-cpp's conversion of doubles is a parameter assumed to read back what it writes."
  },
  {
   "property": "C87",
   "status": "proved",
   "theorems": [
    "Verif.Serial.C87_bool",
    "Verif.Serial.C87_integer",
    "Verif.Serial.C87_integer_written",
    "Verif.Serial.C87_one_number",
    "Verif.Serial.C87_rejected",
    "Verif.Serial.C87_string"
   ],
   "note": "All texts and nodes, as equivalences; yaml-cpp's conversions as documented (plain char is not modelled)."
  },
  {
   "property": "C88",
   "status": "proved",
   "theorems": [
    "Verif.Serial.C88_fails",
    "Verif.Serial.C88_same"
   ],
   "note": "All types and values."
  },
  {
   "property": "C89",
   "status": "proved",
   "theorems": [
    "Verif.Serial.C89_built",
    "Verif.Serial.C89_constructed",
    "Verif.Serial.C89_extracted",
    "Verif.Serial.C89_random",
    "Verif.Serial.C89_round_trip"
   ],
   "note": "All call histories; the index is a 32-bit unsigned number that wraps."
  },
  {
   "property": "C90",
   "status": "proved",
   "theorems": [
    "Verif.Serial.C90_constructed",
    "Verif.Serial.C90_extracted",
    "Verif.Serial.C90_json_built",
    "Verif.Serial.C90_round_trip",
    "Verif.Serial.C90_yaml_built"
   ],
   "note": "All histories; keys of YAML maps are strings."
  },
  {
   "property": "C91",
   "status": "proved",
   "theorems": [
    "Verif.Serial.C91_array",
    "Verif.Serial.C91_invalid_violated",
    "Verif.Serial.C91_map",
    "Verif.Serial.C91_object",
    "Verif.Serial.C91_same",
    "Verif.Serial.C91_sequence",
    "Verif.Serial.C91_skipped",
    "Verif.Serial.C91_slots",
    "Verif.Serial.C91_strong_violated",
    "Verif.Serial.C91_too_long",
    "Verif.Serial.C91_tuple",
    "Verif.Serial.C91_typed",
    "Verif.Serial.C91_whole",
    "Verif.Serial.C91_wrong_kind"
   ],
   "note": "All types, targets, documents and failures. There is no strong guarantee (C91_strong_violated), and a rejected value stays (C91_invalid_violated)."
  },
  {
   "property": "C92",
   "status": "proved",
   "theorems": [
    "Verif.Serial.C92_kept",
    "Verif.Serial.C92_object",
    "Verif.Serial.C92_optional"
   ],
   "note": "All types, targets and documents; the description field by field for documents without repeated names."
  },
  {
   "property": "C93",
   "status": "proved",
   "theorems": [
    "Verif.Serial.C93_forgets",
    "Verif.Serial.C93_missing_violated",
    "Verif.Serial.C93_retry"
   ],
   "note": "All types without such fields; with allow_missing the rest of a failed read shows (C93_missing_violated)."
  },
  {
   "property": "C94",
   "status": "proved",
   "theorems": [
    "Verif.Rest.C94_any_sequence",
    "Verif.Rest.C94_get",
    "Verif.Rest.C94_request"
   ],
   "note": "All request sequences, types, tables and lawful backends. Ranges are growable; tuples and std::array are not part of a resource's type here."
  },
  {
   "property": "C95",
   "status": "proved",
   "theorems": [
    "Verif.Rest.C95_echo",
    "Verif.Rest.C95_get_put",
    "Verif.Rest.C95_patch_get",
    "Verif.Rest.C95_patch_twice",
    "Verif.Rest.C95_put_get",
    "Verif.Rest.C95_put_twice",
    "Verif.Rest.C95_two_keys_violated"
   ],
   "note": "With two child keys the repetition can answer 405 (C95_two_keys_violated)."
  },
  {
   "property": "C96",
   "status": "proved",
   "theorems": [
    "Verif.Rest.C96_flattened_violated",
    "Verif.Rest.C96_part"
   ],
   "note": "Flattened fields are addressable under a name that the document does not have (C96_flattened_violated)."
  },
  {
   "property": "C97",
   "status": "proved",
   "theorems": [
    "Verif.Rest.C97_kept",
    "Verif.Rest.C97_map_violated",
    "Verif.Rest.C97_unnamed"
   ],
   "note": "Maps and vectors are replaced, not merged (C97_map_violated)."
  },
  {
   "property": "C98",
   "status": "proved",
   "theorems": [
    "Verif.Rest.C98_patch",
    "Verif.Rest.C98_post",
    "Verif.Rest.C98_put"
   ],
   "note": "All rows, exclusive and exhaustive."
  },
  {
   "property": "C99",
   "status": "proved",
   "theorems": [
    "Verif.Rest.C99_deserialize",
    "Verif.Rest.C99_get",
    "Verif.Rest.C99_missing",
    "Verif.Rest.C99_put",
    "Verif.Rest.C99_serialize",
    "Verif.Rest.C99_unchecked_violated"
   ],
   "note": "deserialize_at_path does not check protection, keys or validity and has no rollback (C99_unchecked_violated)."
  },
  {
   "property": "C100",
   "status": "proved",
   "theorems": [
    "Verif.Rest.C100_get",
    "Verif.Rest.C100_patch",
    "Verif.Rest.C100_post",
    "Verif.Rest.C100_put",
    "Verif.Rest.C100_skip_deserializing_violated",
    "Verif.Rest.C100_skip_serializing_violated",
    "Verif.Rest.C100_validator_violated"
   ],
   "note": "So hidden fields can be read, unread fields written and validators avoided at a field's own path (C100_skip_serializing_violated, C100_skip_deserializing_violated, C100_validator_violated)."
  },
  {
   "property": "C101",
   "status": "proved",
   "theorems": [
    "Verif.ExcInfo.C101_ambiguous_violated",
    "Verif.ExcInfo.C101_found",
    "Verif.ExcInfo.C101_handlers",
    "Verif.ExcInfo.C101_plain",
    "Verif.ExcInfo.C101_pointer",
    "Verif.ExcInfo.C101_text"
   ],
   "note": "For std::exception bases that are ambiguous the text depends on how the exception is caught (C101_ambiguous_violated)."
  },
  {
   "property": "C102",
   "status": "proved",
   "theorems": [
    "Verif.ExcInfo.C102_hex",
    "Verif.ExcInfo.C102_hex_injective",
    "Verif.ExcInfo.C102_lines",
    "Verif.ExcInfo.C102_lines_unique"
   ],
   "note": "What << writes for a value is an arbitrary function."
  },
  {
   "property": "C103",
   "status": "proved",
   "theorems": [
    "Verif.Targets.C103_ends",
    "Verif.Targets.C103_once",
    "Verif.Targets.C103_unlocked"
   ],
   "note": "One thread; destructors only destroy what is owned; swap and move of signals are left out."
  },
  {
   "property": "C104",
   "status": "proved",
   "theorems": [
    "Verif.Targets.C104_connections",
    "Verif.Targets.C104_destructor_violated",
    "Verif.Targets.C104_emission_violated",
    "Verif.Targets.C104_layered",
    "Verif.Targets.C104_levels"
   ],
   "note": "Without the condition ~signal and the end of an emission lock the mutex twice (C104_destructor_violated, C104_emission_violated)."
  },
  {
   "property": "C105",
   "status": "proved",
   "theorems": [
    "Verif.Targets.C105_cycle_violated",
    "Verif.Targets.C105_disconnected",
    "Verif.Targets.C105_freed",
    "Verif.Targets.C105_listed"
   ],
   "note": "A target with a connection to its own slot is never destroyed (C105_cycle_violated)."
  },
  {
   "property": "C106",
   "status": "proved",
   "theorems": [
    "Verif.Lifetime.C106_builder",
    "Verif.Lifetime.C106_content",
    "Verif.Lifetime.C106_defined",
    "Verif.Lifetime.C106_key_violated",
    "Verif.Lifetime.C106_lives",
    "Verif.Lifetime.C106_memory",
    "Verif.Lifetime.C106_name_violated",
    "Verif.Lifetime.C106_view_violated"
   ],
   "note": "rapidjson's constructors are part of the model. Names given to object_builder::add and const char* keys of maps are not copied, and a json::view copies a document but not such names (C106_name_violated, C106_key_violated, C106_view_violated)."
  },
  {
   "property": "C107",
   "status": "proved",
   "theorems": [
    "Verif.Lifetime.C107_destroyed_violated",
    "Verif.Lifetime.C107_lives",
    "Verif.Lifetime.C107_missing_view_violated",
    "Verif.Lifetime.C107_move",
    "Verif.Lifetime.C107_moved",
    "Verif.Lifetime.C107_owning",
    "Verif.Lifetime.C107_root_view_violated",
    "Verif.Lifetime.C107_short_violated"
   ],
   "note": "Members with equal names are all kept in maps. A view of a whole document and a string_view of one that is a short string do not outlive a move of the document (C107_root_view_violated, C107_short_violated); a missing field leaves a view that cannot be serialized (C107_missing_view_violated)."
  },
  {
   "property": "C108",
   "status": "proved",
   "theorems": [
    "Verif.Custom.C108_absent_violated",
    "Verif.Custom.C108_adl",
    "Verif.Custom.C108_dump",
    "Verif.Custom.C108_flatten_violated",
    "Verif.Custom.C108_key_violated",
    "Verif.Custom.C108_member",
    "Verif.Custom.C108_round_trip",
    "Verif.Custom.C108_set_violated"
   ],
   "note": "Attributes other than flatten are left out here. Bypassed formats do harm in C108_flatten_violated, C108_set_violated, C108_key_violated, C108_absent_violated."
  },
  {
   "property": "C109",
   "status": "proved",
   "theorems": [
    "Verif.Custom.C109_adl_violated",
    "Verif.Custom.C109_compiles",
    "Verif.Custom.C109_contract",
    "Verif.Custom.C109_fields",
    "Verif.Custom.C109_generic_ignored",
    "Verif.Custom.C109_generic_rejected",
    "Verif.Custom.C109_generic_violated",
    "Verif.Custom.C109_replaces",
    "Verif.Custom.C109_whole"
   ],
   "note": "The functions of users are taken to compile. A reflected type with deserialize_adl and no patch_adl is patched by its fields (C109_adl_violated, as documented); a patch_adl that is a template over the tag is ignored (C109_generic_ignored, C109_generic_violated)."
  },
  {
   "property": "C110",
   "status": "proved",
   "theorems": [
    "Verif.YamlNode.C110_anchor_violated",
    "Verif.YamlNode.C110_cycle_violated",
    "Verif.YamlNode.C110_fresh",
    "Verif.YamlNode.C110_keeps",
    "Verif.YamlNode.C110_overwrites_violated",
    "Verif.YamlNode.C110_reads",
    "Verif.YamlNode.C110_views"
   ],
   "note": "yaml-cpp's handles are part of the model; attributes, aliases and defaults of fields are left out. Reading into an object whose views are bound redirects the nodes they refer to: another document changes (C110_overwrites_violated), a document comes to contain itself (C110_cycle_violated), views bound to one anchor disturb each other (C110_anchor_violated). What patch makes of the object is not described here (C49-C52, C109 do, without memory)."
  },
  {
   "property": "C111",
   "status": "proved",
   "theorems": [
    "Verif.YamlNode.C111_independent",
    "Verif.YamlNode.C111_shared_violated",
    "Verif.YamlNode.C111_writes"
   ],
   "note": "Map keys and field names are distinct. With views the result shares nodes with the document they came from, in both directions (C111_shared_violated)."
  },
  {
   "property": "C112",
   "status": "proved",
   "theorems": [
    "Verif.Macros.C112_documented_violated",
    "Verif.Macros.C112_enum",
    "Verif.Macros.C112_limit",
    "Verif.Macros.C112_seq"
   ],
   "note": "For enumerators written in the documented ways; the macros of Boost.Preprocessor are modelled by their documentation and the arguments are not names of macros. The example in the header for KL_REFLECT_ENUM_SEQ, (A)(B, bb)(C), is not a sequence: C112_documented_violated."
  },
  {
   "property": "C113",
   "status": "proved",
   "theorems": [
    "Verif.Macros.C113_accessor",
    "Verif.Macros.C113_braces_violated",
    "Verif.Macros.C113_derived",
    "Verif.Macros.C113_no_fields",
    "Verif.Macros.C113_no_fields_violated",
    "Verif.Macros.C113_struct"
   ],
   "note": "As C112. A comma in an attribute is only protected by parentheses (C113_braces_violated); an empty list of fields needs __VA_OPT__ (C113_no_fields, C113_no_fields_violated)."
  },
  {
   "property": "C114",
   "status": "proved",
   "theorems": [
    "Verif.Args.C114_caller",
    "Verif.Args.C114_delivery",
    "Verif.Args.C114_rvalue_violated",
    "Verif.Args.C114_signatures"
   ],
   "note": "For objects not moved twice in one call (C++ does not specify the order). Slots do not connect or disconnect during the run (C19-C29 are about that). A signal with a parameter T&& cannot be emitted at all: C114_rvalue_violated."
  },
  {
   "property": "C115",
   "status": "proved",
   "theorems": [
    "Verif.Args.C115_kept",
    "Verif.Args.C115_life",
    "Verif.Args.C115_raw_violated",
    "Verif.Args.C115_safe",
    "Verif.Args.C115_weak"
   ],
   "note": "Objects behind pointers and references must be kept by somebody (hypothesis Outlives); otherwise the next slot is undefined (C115_raw_violated)."
  },
  {
   "property": "C116",
   "status": "proved",
   "theorems": [
    "Verif.Types.C116_at_type",
    "Verif.Types.C116_filter",
    "Verif.Types.C116_filter_pack_last",
    "Verif.Types.C116_filter_violated",
    "Verif.Types.C116_func_traits",
    "Verif.Types.C116_func_traits_only",
    "Verif.Types.C116_func_traits_violated",
    "Verif.Types.C116_is_same",
    "Verif.Types.C116_remove_cvref"
   ],
   "note": "Exceptions are exact: a type_pack at the end of a list is replaced by its types (C116_filter_pack_last, C116_filter_violated); noexcept, volatile and ref-qualified callables and constant function pointers are rejected (C116_func_traits_violated)."
  },
  {
   "property": "C117",
   "status": "proved",
   "theorems": [
    "Verif.Overload.C117_accepts",
    "Verif.Overload.C117_beside_functions",
    "Verif.Overload.C117_func_overload",
    "Verif.Overload.C117_generic",
    "Verif.Overload.C117_generic_violated",
    "Verif.Overload.C117_moved_violated",
    "Verif.Overload.C117_mutable_violated",
    "Verif.Overload.C117_named",
    "Verif.Overload.C117_order",
    "Verif.Overload.C117_runs"
   ],
   "note": "Under the conditions in C117_named; a mutable handler, a generic reference and a temporary variant break it (C117_mutable_violated, C117_generic_violated, C117_moved_violated)."
  },
  {
   "property": "C118",
   "status": "proved",
   "theorems": [
    "Verif.Overload.C118_agree",
    "Verif.Overload.C118_json_dump",
    "Verif.Overload.C118_json_serialize",
    "Verif.Overload.C118_long_long_violated",
    "Verif.Overload.C118_pointer_violated",
    "Verif.Overload.C118_read",
    "Verif.Overload.C118_set_violated",
    "Verif.Overload.C118_string_view_violated",
    "Verif.Overload.C118_yaml_dump",
    "Verif.Overload.C118_yaml_serialize"
   ],
   "note": "Exact tables; the exceptions to the statement are proved: long long and long double with JSON, string_view with YAML, pointers, sets (C118_long_long_violated, C118_string_view_violated, C118_pointer_violated, C118_set_violated). Constructors of rapidjson::Value and operator<< of YAML::Emitter are taken from their documentation."
  },
  {
   "property": "C119",
   "status": "proved",
   "theorems": [
    "Verif.Bounds.C119_accepts",
    "Verif.Bounds.C119_decode32",
    "Verif.Bounds.C119_decode64",
    "Verif.Bounds.C119_field",
    "Verif.Bounds.C119_less",
    "Verif.Bounds.C119_nan_violated",
    "Verif.Bounds.C119_nearest",
    "Verif.Bounds.C119_negative_violated",
    "Verif.Bounds.C119_optional",
    "Verif.Bounds.C119_rounding_violated",
    "Verif.Bounds.C119_serial",
    "Verif.Bounds.C119_sharp",
    "Verif.Bounds.C119_short",
    "Verif.Bounds.C119_text",
    "Verif.Bounds.C119_text_violated",
    "Verif.Bounds.C119_tie",
    "Verif.Bounds.C119_unsigned_violated",
    "Verif.Bounds.C119_yaml_nan_violated"
   ],
   "note": "C119_sharp names all pairs of types that go wrong; C119_nan_violated, C119_yaml_nan_violated, C119_unsigned_violated, C119_negative_violated, C119_rounding_violated and C119_text_violated are the ways in which attributes do not mean what they say. long double is left out."
  },
  {
   "property": "C120",
   "status": "proved",
   "theorems": [
    "Verif.Races.C120_no_race",
    "Verif.Races.C120_no_ub"
   ],
   "note": "Happens-before as in the C++ memory model for the synchronisation the code uses; the model lists the accesses of each step. Users must not destroy a signal that others use."
  },
  {
   "property": "C121",
   "status": "proved",
   "theorems": [
    "Verif.Races.C121_mutex",
    "Verif.Races.C121_outside",
    "Verif.Races.C121_progress",
    "Verif.Races.C121_release",
    "Verif.Races.C121_wait"
   ],
   "note": "Targets of users are not run while a mutex is held, except for their destruction (C104), which is left out here. std::scoped_lock is taken to lock both mutexes at once."
  },
  {
   "property": "C122",
   "status": "proved",
   "theorems": [
    "Verif.Races.C122_gone",
    "Verif.Races.C122_stays",
    "Verif.Races.C122_undone_violated"
   ],
   "note": "C122_undone_violated: with a move at the same time disconnect can be undone (see C26)."
  },
  {
   "property": "C123",
   "status": "proved",
   "theorems": [
    "Verif.Races.C123_deleted",
    "Verif.Races.C123_exists",
    "Verif.Races.C123_lost"
   ],
   "note": "C123_deleted names the exception: slots through which a target was called that threw."
  },
  {
   "property": "C124",
   "status": "proved",
   "theorems": [
    "Verif.Races.C124_destroy",
    "Verif.Races.C124_disconnect_violated",
    "Verif.Races.C124_empty"
   ],
   "note": "The action of destroying is put into executions of the machine of C120. C124_disconnect_violated: a pending disconnect of another thread uses the signal after its destruction."
  },
  {
   "property": "C125",
   "status": "proved",
   "theorems": [
    "Verif.Resource.C125_dump_iff",
    "Verif.Resource.C125_dump_violated",
    "Verif.Resource.C125_serialize_compiles",
    "Verif.Resource.C125_visits_instantiated"
   ],
   "note": "C125_dump_violated: dump_at_path does not compile for reflected classes. Paths of the library's other instantiations of visit_node return storable types."
  },
  {
   "property": "C126",
   "status": "proved",
   "theorems": [
    "Verif.Races.C126_rest",
    "Verif.Races.C126_seen",
    "Verif.Races.C126_slots",
    "Verif.Races.C126_tidy"
   ],
   "note": "The machine of C120. Loads of sender_ outside the mutex may give outdated values; C126_seen justifies that those in the clean-up may not."
  },
  {
   "property": "C127",
   "status": "proved",
   "theorems": [
    "Verif.Serial.C127_deserialize",
    "Verif.Serial.C127_equal",
    "Verif.Serial.C127_flatten",
    "Verif.Serial.C127_serialize"
   ],
   "note": "Refines the lists of C78 to the fixed buffers and C strings of the code. Names with embedded zeros are compared up to the zero."
  },
  {
   "property": "C128",
   "status": "proved",
   "theorems": [
    "Verif.Serial.C128_dump",
    "Verif.Serial.C128_ordinary",
    "Verif.Serial.C128_round_trip",
    "Verif.Serial.C128_stable",
    "Verif.Serial.C128_typed"
   ],
   "note": "Structs refer to themselves below std::vector and std::map, as the language demands. Initialisers of recursive members are empty. Depth of the call stack is not modelled."
  },
  {
   "property": "C129",
   "status": "proved",
   "theorems": [
    "Verif.Args.C129_counts",
    "Verif.Args.C129_no_copies"
   ],
   "note": "For functions behind slots that emit no signals themselves (signals connected to signals are counted). A temporary object passed by value counts as one move (C++17 leaves it out)."
  },
  {
   "property": "C130",
   "status": "proved",
   "theorems": [
    "Verif.Zip.C130_dangling",
    "Verif.Zip.C130_range",
    "Verif.Zip.C130_range_violated",
    "Verif.Zip.C130_refused_violated",
    "Verif.Zip.C130_zipped"
   ],
   "note": "Exact for all expressions. Findings: kl::range of a temporary container dangles (C130_range_violated); temporary kl::range and zipped_range objects are refused although safe (C130_refused_violated)."
  },
  {
   "property": "C131",
   "status": "proved",
   "theorems": [
    "Verif.JsonText.C131_kept",
    "Verif.JsonText.C131_layout",
    "Verif.JsonText.C131_nonfinite_violated",
    "Verif.JsonText.C131_null_violated",
    "Verif.JsonText.C131_parse_dump",
    "Verif.JsonText.C131_reader",
    "Verif.JsonText.C131_round_trip",
    "Verif.JsonText.C131_unambiguous",
    "Verif.JsonText.C131_vanishes_violated",
    "Verif.JsonText.C131_view",
    "Verif.JsonText.C131_writer"
   ],
   "note": "Reader: both directions, for all texts. Writer: exact layout, and a text of the document. rapidjson itself is modelled after its sources (not in the repository). Findings: non-finite doubles vanish from the text (C131_nonfinite_violated, C131_vanishes_violated); text after a null character is accepted unseen (C131_null_violated)."
  },
  {
   "property": "C132",
   "status": "proved",
   "theorems": [
    "Verif.Floating.C132_double",
    "Verif.Floating.C132_double_exact",
    "Verif.Floating.C132_float",
    "Verif.Floating.C132_float_int",
    "Verif.Floating.C132_float_nonfinite",
    "Verif.Floating.C132_float_written",
    "Verif.Floating.C132_lossless_violated",
    "Verif.Floating.C132_numbers_only",
    "Verif.Floating.C132_round_trip",
    "Verif.Floating.C132_text",
    "Verif.Floating.C132_twice_violated",
    "Verif.Floating.C132_unique"
   ],
   "note": "All conversions are IEEE 754 roundings on bit patterns; C132_unique shows that the spec Nearest determines the number. Where the code misses the nearest number or loses it without an error: C132_twice_violated, C132_lossless_violated; C132_float_int says what remains true."
  },
  {
   "property": "C133",
   "status": "proved",
   "theorems": [
    "Verif.BinaryRW.C133_amplification_violated",
    "Verif.BinaryRW.C133_bool_violated",
    "Verif.BinaryRW.C133_ends",
    "Verif.BinaryRW.C133_memory",
    "Verif.BinaryRW.C133_reported_violated",
    "Verif.BinaryRW.C133_requests",
    "Verif.BinaryRW.C133_same",
    "Verif.BinaryRW.C133_strong_violated",
    "Verif.BinaryRW.C133_valid"
   ],
   "note": "The allocator is any function from a state and a size to a new state or a refusal. Requests are counted even where the destination has capacity left. What does not hold: C133_amplification_violated, C133_reported_violated, C133_strong_violated, C133_bool_violated."
  },
  {
   "property": "C134",
   "status": "proved",
   "theorems": [
    "Verif.Handles.C134_assign_violated",
    "Verif.Handles.C134_count",
    "Verif.Handles.C134_disconnect_violated",
    "Verif.Handles.C134_equal_disconnect_violated",
    "Verif.Handles.C134_hash",
    "Verif.Handles.C134_identity",
    "Verif.Handles.C134_leak_violated",
    "Verif.Handles.C134_new",
    "Verif.Handles.C134_order",
    "Verif.Handles.C134_safe",
    "Verif.Handles.C134_slots",
    "Verif.Handles.C134_values"
   ],
   "note": "Handles/: C134_safe (allowed operations end well, with one outcome), C134_values (what they leave), C134_identity, C134_new, C134_slots, C134_order, C134_hash. C134_assign_violated, C134_disconnect_violated (use of destroyed objects when the proviso is not met), C134_leak_violated (a connection owned by the target of its own slot keeps it), C134_equal_disconnect_violated (disconnect makes equal connections differ)."
  },
  {
   "property": "C135",
   "status": "proved",
   "theorems": [
    "Verif.Resource.C135_get",
    "Verif.Resource.C135_polling",
    "Verif.Resource.C135_put_get",
    "Verif.Resource.C135_sequence",
    "Verif.Resource.C135_served",
    "Verif.Resource.C135_structs"
   ],
   "note": "Codes are written out k times from declarations; an outcome of the recursive type is what all codes from some k on give. Values and bodies of n levels are shown not to reach the place where the code was cut."
  },
  {
   "property": "C136",
   "status": "proved",
   "theorems": [
    "Verif.Handles.C136_assign_violated",
    "Verif.Handles.C136_blocked",
    "Verif.Handles.C136_counter",
    "Verif.Handles.C136_move_assign_violated",
    "Verif.Handles.C136_safe",
    "Verif.Handles.C136_scope",
    "Verif.Handles.C136_slots",
    "Verif.Handles.C136_values",
    "Verif.Handles.C136_wrap_violated"
   ],
   "note": "Blockers are added to the objects of C134; each function of a blocker is a function of a connection with block/unblock between its steps, so safety comes from C134 and the counter from counting objects. Violations: copy assignment releases before it reads (use after free if the old target owns the other blocker), move assignment does not end the old blocking, 2^32 blockers."
  },
  {
   "property": "C137",
   "status": "proved",
   "theorems": [
    "Verif.BinaryRW.C137_copy",
    "Verif.BinaryRW.C137_decode_vector",
    "Verif.BinaryRW.C137_empty_vector_violated",
    "Verif.BinaryRW.C137_encode_vector",
    "Verif.BinaryRW.C137_failed_span_violated",
    "Verif.BinaryRW.C137_overlap_violated",
    "Verif.BinaryRW.C137_own_vector_violated",
    "Verif.BinaryRW.C137_peek",
    "Verif.BinaryRW.C137_read",
    "Verif.BinaryRW.C137_read_undefined",
    "Verif.BinaryRW.C137_span",
    "Verif.BinaryRW.C137_write",
    "Verif.BinaryRW.C137_write_undefined"
   ],
   "note": "Memory of blocks with pointers; every function refines its list version under the abstraction of a cursor to its bytes, with frame conditions; exact conditions for undefined behaviour. Violations: writing an empty vector without a block, w << r.span(n) after the reader ran out, repeating bytes of the own buffer, reading into the vector that is the buffer."
  },
  {
   "property": "C138",
   "status": "proved",
   "theorems": [
    "Verif.Tracker.C138_changed_at",
    "Verif.Tracker.C138_changed_since",
    "Verif.Tracker.C138_lost_violated",
    "Verif.Tracker.C138_no_memory"
   ],
   "note": "The tracker of C17 with any automaton as allocator; a call that fails after k prefixes is the same as a complete call for the prefix of k-1 segments. Violation: a call that threw is lost for its location although the root has changed."
  },
  {
   "property": "C139",
   "status": "proved",
   "theorems": [
    "Verif.Resource.C139_ends",
    "Verif.Resource.C139_history",
    "Verif.Resource.C139_no_terminate",
    "Verif.Resource.C139_noted",
    "Verif.Resource.C139_terminate_violated",
    "Verif.Resource.C139_tracker",
    "Verif.Resource.C139_unnoticed_violated"
   ],
   "note": "The verbs of C30-C39 with any automaton as allocator, asked at each step that may allocate. Violations: a request that throws may have changed the value without any location being reported as changed; a refused value terminates the program if the old one cannot be moved back."
  },
  {
   "property": "C140",
   "status": "proved",
   "theorems": [
    "Verif.Path.C140_again",
    "Verif.Path.C140_asks",
    "Verif.Path.C140_ends",
    "Verif.Path.C140_fits",
    "Verif.Path.C140_granted",
    "Verif.Path.C140_history",
    "Verif.Path.C140_leftover_violated",
    "Verif.Path.C140_quiet"
   ],
   "note": "path::set of C11-C16 with any automaton as allocator and any growth policy. Violation: after bad_alloc from segments_.push_back the text holds one name more than the segments, so joined() disagrees with them."
  },
  {
   "property": "C141",
   "status": "proved",
   "theorems": [
    "Verif.Path.C141_defined",
    "Verif.Path.C141_moved_violated",
    "Verif.Path.C141_no_leak",
    "Verif.Path.C141_own_violated",
    "Verif.Path.C141_stale_violated",
    "Verif.Path.C141_values",
    "Verif.Path.C141_views"
   ],
   "note": "Objects with blocks of memory, shown to implement value semantics (Turns). Violations: a view kept over a change of its path shows another text, terminates or reads freed memory; a moved from path may keep segments without text; a path set to its own segment reads the text it has cleared."
  },
  {
   "property": "C142",
   "status": "proved",
   "theorems": [
    "Verif.Text.C142_algorithm",
    "Verif.Text.C142_by_value_violated",
    "Verif.Text.C142_defined",
    "Verif.Text.C142_delimiter_violated",
    "Verif.Text.C142_moved_violated",
    "Verif.Text.C142_now",
    "Verif.Text.C142_relay",
    "Verif.Text.C142_temporary_violated",
    "Verif.Text.C142_text"
   ],
   "note": "Objects with references and pointers, shown to write exactly what a specification by past actions says. Violations: a joiner of a temporary container is always undefined when printed later; a delimiter from a temporary string is undefined from two elements on; a second std::copy with the same joiner omits the delimiter; a moved from joiner writes with an empty delimiter."
  },
  {
   "property": "C143",
   "status": "proved",
   "theorems": [
    "Verif.Serial.C143_array",
    "Verif.Serial.C143_ends",
    "Verif.Serial.C143_kept",
    "Verif.Serial.C143_map",
    "Verif.Serial.C143_order",
    "Verif.Serial.C143_repeated_names_violated",
    "Verif.Serial.C143_resume",
    "Verif.Serial.C143_resume_patch",
    "Verif.Serial.C143_retry",
    "Verif.Serial.C143_sequence",
    "Verif.Serial.C143_skipped",
    "Verif.Serial.C143_torn_violated",
    "Verif.Serial.C143_tuple",
    "Verif.Serial.C143_typed",
    "Verif.Serial.C143_whole",
    "Verif.Serial.C143_wrong_kind",
    "Verif.Serial.C143_yaml"
   ],
   "note": "All intermediate states as lists; C143_resume by mutual induction over types. Violations: such a state may be neither old nor new; with repeated member names a patch that was cut short may fail when made again."
  },
  {
   "property": "C144",
   "status": "proved",
   "theorems": [
    "Verif.Serial.C144_closable",
    "Verif.Serial.C144_cut",
    "Verif.Serial.C144_exception",
    "Verif.Serial.C144_extra",
    "Verif.Serial.C144_fields",
    "Verif.Serial.C144_map",
    "Verif.Serial.C144_names",
    "Verif.Serial.C144_reason",
    "Verif.Serial.C144_reason_yaml",
    "Verif.Serial.C144_sequence",
    "Verif.Serial.C144_spoilt",
    "Verif.Serial.C144_torn_violated",
    "Verif.Serial.C144_unfinished",
    "Verif.Serial.C144_whole"
   ],
   "note": "dumpRun: events written and the exception. Violation: the beginning of a record stays in the writer, closed it reads as another record, while serialize leaves nothing."
  },
  {
   "property": "C145",
   "status": "proved",
   "theorems": [
    "Verif.ExcInfo.C145_alive",
    "Verif.ExcInfo.C145_count",
    "Verif.ExcInfo.C145_dangling_violated",
    "Verif.ExcInfo.C145_deep_violated",
    "Verif.ExcInfo.C145_defined",
    "Verif.ExcInfo.C145_no_memory",
    "Verif.ExcInfo.C145_nothing_left",
    "Verif.ExcInfo.C145_once",
    "Verif.ExcInfo.C145_safe",
    "Verif.ExcInfo.C145_same",
    "Verif.ExcInfo.C145_when"
   ],
   "note": "Reference-counted heap; invariant by induction, and a simulation by the model of C64 that destroys nothing. Violations: unset on a copy makes a pointer from get of the other object dangle; the destructor recurses once per value set, without bound."
  },
  {
   "property": "C146",
   "status": "proved",
   "theorems": [
    "Verif.ExcInfo.C146_free",
    "Verif.ExcInfo.C146_race_violated",
    "Verif.ExcInfo.C146_where"
   ],
   "note": "Accesses of every call to objects and nodes, on the reference-counted heap of C145; what is destroyed is led to only by objects the call changes. Each call is one step. Violation: unset on an object races with get, printing and unset on a copy of it."
  },
  {
   "property": "C147",
   "status": "proved",
   "theorems": [
    "Verif.Locks.C147_finish",
    "Verif.Locks.C147_livelock_violated",
    "Verif.Locks.C147_needed",
    "Verif.Locks.C147_no_new_deadlock",
    "Verif.Locks.C147_not_twice",
    "Verif.Locks.C147_progress",
    "Verif.Locks.C147_same",
    "Verif.Locks.C147_self_check"
   ],
   "note": "Simulation in both directions between taking mutexes one by one and both at once, for arbitrary programs; progress by a shape of what a thread still has to do. Discharges the simplification of C120 and C121 that std::scoped_lock is one step. Violation: no bound on the number of attempts (livelock)."
  },
  {
   "property": "C148",
   "status": "proved",
   "theorems": [
    "Verif.Locks.C148_cycle_violated",
    "Verif.Locks.C148_finish",
    "Verif.Locks.C148_levels",
    "Verif.Locks.C148_not_twice"
   ],
   "note": "Lock ordering on the model of C147 with nested sections: owners of mutexes of high levels can go on, by induction on the level. Violation: two signals whose targets own scoped_connections of each other deadlock two threads, though one thread alone can do the same calls."
  },
  {
   "property": "C149",
   "status": "proved",
   "theorems": [
    "Verif.ExcInfo.C149_covers",
    "Verif.ExcInfo.C149_finish",
    "Verif.ExcInfo.C149_no_race",
    "Verif.ExcInfo.C149_nothing_left",
    "Verif.ExcInfo.C149_once",
    "Verif.ExcInfo.C149_private",
    "Verif.ExcInfo.C149_release",
    "Verif.ExcInfo.C149_safe",
    "Verif.ExcInfo.C149_shared_violated"
   ],
   "note": "Labelled steps of threads on the heap of C145; invariant: counts equal the references in objects, local variables, nodes and next_ of nodes being destroyed; a visited node is led to by an object that the thread may read, so whoever has the only reference is alone. Violation: with one object used by two threads a reader and the destroyer race."
  },
  {
   "property": "C150",
   "status": "proved",
   "theorems": [
    "Verif.Enums.SetRange.C150_bits",
    "Verif.Enums.SetRange.C150_complement_violated",
    "Verif.Enums.SetRange.C150_defined",
    "Verif.Enums.SetRange.C150_flags",
    "Verif.Enums.SetRange.C150_kind"
   ],
   "note": "Induction on expressions; values of a signed enumeration are those whose arithmetic shift by bits - 1 is all zeros or all ones, which the operators keep. Violation: with enumerators 1, 2, 4, set & ~flag is undefined whichever underlying type the compiler takes."
  },
  {
   "property": "C151",
   "status": "proved",
   "theorems": [
    "Verif.Enums.SetRange.C151_end_violated",
    "Verif.Enums.SetRange.C151_flag_loop_violated",
    "Verif.Enums.SetRange.C151_for_each",
    "Verif.Enums.SetRange.C151_max",
    "Verif.Enums.SetRange.C151_next",
    "Verif.Enums.SetRange.C151_range",
    "Verif.Enums.SetRange.C151_read",
    "Verif.Enums.SetRange.C151_read_undefined",
    "Verif.Enums.SetRange.C151_read_violated",
    "Verif.Enums.SetRange.C151_shift_left",
    "Verif.Enums.SetRange.C151_shift_right"
   ],
   "note": "The values of an enumeration are an interval with zero; induction along the loops. Violations: the number 4 in a document read as an enumeration with the enumerators 0 to 3, and max() of its closed range, are undefined."
  }
 ]
}