{
 "claims": [
  {
   "property": "C01",
   "status": "proved",
   "theorems": [
    "Verif.C01_fifo",
    "Verif.C01_reads_decided"
   ],
   "note": "All histories of writes and reads of an in-memory buffer, including zero-length and failing reads."
  },
  {
   "property": "C02",
   "status": "proved",
   "theorems": [
    "Verif.C02_read",
    "Verif.C02_reachable",
    "Verif.C02_wrap_ub"
   ],
   "note": "Reads with pos+n < 2^64. C02_wrap_ub shows what happens outside that range."
  },
  {
   "property": "C03",
   "status": "proved",
   "theorems": [
    "Verif.C03_roundtrip",
    "Verif.C03_roundtrip_plain"
   ],
   "note": "Whole type universe Ty (raw pointers are C12/C13). Excluded and const members keep the destination's value."
  },
  {
   "property": "C04",
   "status": "proved",
   "theorems": [
    "Verif.C04_stream"
   ],
   "note": "Any list of items."
  },
  {
   "property": "C05",
   "status": "proved",
   "theorems": [
    "Verif.C05_truncation"
   ],
   "note": "Any type of the universe, any cut point."
  },
  {
   "property": "C06",
   "status": "partial",
   "theorems": [
    "Verif.C06_partial",
    "Verif.C06_string_fails",
    "Verif.C06_bool_fails"
   ],
   "note": "Holds for all types and inputs without eight consecutive 0xFF, smart pointers included as long as the flag before each is a 0 or 1 (any other is an invalid bool and the only undefined behaviour possible). C06_string_fails and C06_bool_fails prove the full claim false for the unchanged code."
  },
  {
   "property": "C07",
   "status": "proved",
   "theorems": [
    "Verif.C07_skip",
    "Verif.C07_array_differs"
   ],
   "note": "For data that are a packing of the type. C07_array_differs records that for other data a const std::array consumes a different amount."
  },
  {
   "property": "C08",
   "status": "proved",
   "theorems": [
    "Verif.C08_deepEq",
    "Verif.C08_deepEq_excluded",
    "Verif.C08_float_fails"
   ],
   "note": "Equality of fundamental values is equality of representation; C08_float_fails shows the difference for IEEE zeros."
  },
  {
   "property": "C09",
   "status": "partial",
   "theorems": [
    "Verif.C09_partial",
    "Verif.C09_fails",
    "Verif.C09_not_lexicographic"
   ],
   "note": "== and != are right for every conforming memcmp; < and > only for a memcmp that returns -1,0,1. C09_fails and C09_not_lexicographic prove the full claim false for the unchanged code."
  },
  {
   "property": "C10",
   "status": "proved",
   "theorems": [
    "Verif.C10_replay",
    "Verif.C10_fresh_start",
    "Verif.C10_seek_back"
   ],
   "note": "Histories over write, read, reseti, reseto, clear, seeko."
  },
  {
   "property": "C11",
   "status": "proved",
   "theorems": [
    "Verif.C11_ownership",
    "Verif.C11_swap",
    "Verif.C11_moved_from_unusable"
   ],
   "note": "Ownership over any program of swap, move, destroy; C11_moved_from_unusable records the state a move leaves behind."
  },
  {
   "property": "C12",
   "status": "partial",
   "theorems": [
    "Verif.Tree.C12_tree_roundtrip_partial",
    "Verif.Tree.C12_stale_fails",
    "Verif.Tree.C12_container_null_fails",
    "Verif.Tree.C12_constructor_fails",
    "Verif.Tree.C12_cycle_diverges"
   ],
   "note": "Holds for node classes whose constructor nulls pointer members, no null pointers in containers, null destination (C12_tree_roundtrip_partial, any finite tree or DAG, any trailing data). The rest is false of the code: stale destination, uninitialised members and container elements keep their old value when null was packed; cycles do not end."
  },
  {
   "property": "C13",
   "status": "partial",
   "theorems": [
    "Verif.Graph.C13_graph_roundtrip_partial",
    "Verif.Graph.C13_two_roots_fails",
    "Verif.Graph.C13_limit_partial",
    "Verif.Graph.C13_fails_limit"
   ],
   "note": "Isomorphism for every finite graph, including cycles, sharing and containers of pointers, when no limit is set (recur_max = 0), and with a limit (500 unless set otherwise) when the graph has at most two objects fewer than the limit; packing ends. False otherwise: C13_fails_limit shows, for every limit of at least 2, a chain of limit - 1 objects with the pointers in containers whose unpacking is undefined. Pointers that are direct members are fine with any limit (C14_limit_partial). C13_two_roots_fails records that the guarantee is per root pointer: two root pointers are separate sessions."
  },
  {
   "property": "C14",
   "status": "partial",
   "theorems": [
    "Verif.Graph.C14_limit_partial",
    "Verif.Graph.C14_vector_fails",
    "Verif.Graph.C14_limit_one_diverges"
   ],
   "note": "Proved for every limit >= 2 and node classes with graph pointers as direct members. False with containers of graph pointers (C14_vector_fails). C14_limit_one_diverges shows the bound 2 is sharp."
  },
  {
   "property": "C15",
   "status": "partial",
   "theorems": [
    "Verif.Ref.C15_counts",
    "Verif.Ref.C15_defined_partial",
    "Verif.Ref.C15_assign_effect",
    "Verif.Ref.C15_self_next_fails",
    "Verif.Ref.C15_self_value_fails"
   ],
   "note": "After every program that runs to completion the counts are exact, and assignment has its stated effect. Programs whose operands are held independently of the overwritten reference never hit undefined behaviour. Full statement is false for p=p->next and p=*p on the last reference (C15_self_next_fails, C15_self_value_fails). Overflow of the int count is not modelled."
  },
  {
   "property": "C16",
   "status": "partial",
   "theorems": [
    "Verif.PtrStore.C16_lifetime_partial",
    "Verif.PtrStore.C16_not_early_partial",
    "Verif.PtrStore.C16_assign_fails",
    "Verif.PtrStore.C16_self_assign_fails"
   ],
   "note": "Without assignment the lifetime is exact; with assignment nothing is destroyed early or twice but the old target leaks (C16_assign_fails, C16_self_assign_fails), so the full statement is false for this code."
  },
  {
   "property": "C17",
   "status": "partial",
   "theorems": [
    "Verif.C17_smart_ptr",
    "Verif.C17_smart_ptr_simple",
    "Verif.C17_poly_partial",
    "Verif.C17_poly_fails",
    "Verif.C17_object_partial",
    "Verif.C17_object_fails",
    "Verif.C17_weak_partial",
    "Verif.C17_weak_fails"
   ],
   "note": "Proved in full for shared_ptr and unique_ptr. For poly and object pointers only non-null values and null over null; C17_poly_fails, C17_object_fails, C17_weak_fails prove the rest false for the unchanged code. C17_weak_partial: a weak pointer comes back as a live pointer when something else owns the target."
  },
  {
   "property": "C18",
   "status": "proved",
   "theorems": [
    "Verif.Factory.C18_create",
    "Verif.Factory.C18_throws_iff",
    "Verif.Factory.C18_types",
    "Verif.Factory.C18_stable"
   ],
   "note": "For every key order and every sequence of registrations; also that later registrations never change what an earlier name creates."
  },
  {
   "property": "C19",
   "status": "partial",
   "theorems": [
    "Verif.EnumKeys.C19_name",
    "Verif.EnumKeys.C19_value",
    "Verif.EnumKeys.C19_value_name",
    "Verif.EnumKeys.C19_unknown",
    "Verif.EnumKeys.C19_has",
    "Verif.EnumKeys.C19_iterate_partial",
    "Verif.EnumKeys.C19_order_fails",
    "Verif.EnumKeys.C19_wide_fails"
   ],
   "note": "Everything but the order of iteration is proved for enums no wider than int. Iteration is in order of int(value), not of declaration (C19_order_fails), and enums wider than int are truncated (C19_wide_fails)."
  },
  {
   "property": "C20",
   "status": "partial",
   "theorems": [
    "Verif.EnumKeys.C20_roundtrip_partial",
    "Verif.EnumKeys.C20_stream",
    "Verif.EnumKeys.C20_wide_fails",
    "Verif.EnumKeys.C20_undeclared_lost"
   ],
   "note": "Proved for every table of an enum no wider than int, with any white space around the text. False for wider enums (C20_wide_fails). C20_undeclared_lost records that values without a name are read back as 0."
  },
  {
   "property": "C21",
   "status": "partial",
   "theorems": [
    "Verif.Json.C21_visits",
    "Verif.Json.C21_decomposes",
    "Verif.Json.C21_find",
    "Verif.Json.C21_store_find_partial",
    "Verif.Json.C21_undotted_fails"
   ],
   "note": "Proved for every path written with a leading dot (the form the descriptors produce) and every document: head/tail visit the names, json_find follows them, a basic value stored at a path whose parent object exists is found there, nothing else changes. C21_undotted_fails: packing under a name without a dot stores nothing."
  },
  {
   "property": "C22",
   "status": "partial",
   "theorems": [
    "Verif.Json.C22_roundtrip_partial",
    "Verif.Json.C22_equal_partial",
    "Verif.Json.C22_member_partial",
    "Verif.Json.C22_pair_member_fails",
    "Verif.Json.C22_map_to_pair_fails",
    "Verif.Json.C22_empty_key_fails",
    "Verif.Json.C22_dotted_key_fails",
    "Verif.Json.C22_null_pointer_fails"
   ],
   "note": "Round trip proved for basic types, strings, declared enumerators, classes with bases, sequences, std::array, C array members, sets and maps, StringKeyMaps with non-empty dot-free keys, pairs not directly members, non-null smart pointers, for every previous destination and flag setting, at the root and at any member path. Missing because false: pair members, pairs inside pairs or map values, empty string keys with class values, null pointers to classes (C22_*_fails). The JSON library itself (text form) is outside the model."
  },
  {
   "property": "C23",
   "status": "partial",
   "theorems": [
    "Verif.Json.C23_missing_partial",
    "Verif.Json.C23_throws_partial",
    "Verif.Json.C23_container_type_partial",
    "Verif.Json.C23_basic_unchanged_partial",
    "Verif.Json.C23_wrong_type_fails",
    "Verif.Json.C23_not_found_flag_fails",
    "Verif.Json.C23_missing_enum_fails",
    "Verif.Json.C23_short_array_fails",
    "Verif.Json.C23_short_array_pointer_fails",
    "Verif.Json.C23_assigns",
    "Verif.Json.C23_denotes_int",
    "Verif.Json.C23_element",
    "Verif.Json.C23_array_element"
   ],
   "note": "Proved: missing members unchanged and the rest assigned; throws exactly when a member is missing (with throw_on_error, not throw_on_not_found); containers given a non-array unchanged. The statement is false in four ways, each proved: throw_on_not_found has no effect on unpacking, a wrongly typed basic member throws regardless of flags, a missing enum is overwritten, a short JSON array is read past its end into a C array. What a present member receives is proved for every leaf type against the number the JSON value denotes (C23_assigns, C23_denotes_int), elementwise for sequences and fixed arrays."
  },
  {
   "property": "C24",
   "status": "partial",
   "theorems": [
    "Verif.Json.C24_first_partial",
    "Verif.Json.C24_pack_partial",
    "Verif.Json.C24_rest_fails",
    "Verif.Json.C24_roundtrip_fails",
    "Verif.Json.C24_member_fails"
   ],
   "note": "False for two or more elements (C24_rest_fails for every type and document, C24_roundtrip_fails). Proved: the packed array has every element in order, and the first element is restored."
  },
  {
   "property": "C25",
   "status": "partial",
   "theorems": [
    "Verif.Xml.C25_no_markup",
    "Verif.Xml.C25_ampersand",
    "Verif.Xml.C25_reads_exact",
    "Verif.Xml.C25_reads_partial",
    "Verif.Xml.C25_fails_signed",
    "Verif.Xml.C25_fails_markup",
    "Verif.Xml.C25_hexadecimal",
    "Verif.Xml.C25_decimal",
    "Verif.Xml.C25_plain"
   ],
   "note": "No markup is written and every ampersand starts an entity, for every string and either signedness. What the tokeniser returns is determined exactly: the string, except that with signed char codes 157 to 255 come back as 0 (C25_fails_signed). A decoded run that is exactly '<' or '</' is taken for markup by the parser (C25_fails_markup). Numeric references of both bases are read as their value (C25_hexadecimal, C25_decimal).  C25_plain: characters that need no quoting are written unchanged."
  },
  {
   "property": "C26",
   "status": "partial",
   "theorems": [
    "Verif.Xml.C26_well_formed_partial",
    "Verif.Xml.C26_fails_reuse",
    "Verif.Xml.C26_fails_null",
    "Verif.Xml.C26_fails_byte"
   ],
   "note": "Proved for a fresh packer, every type of the universe, arbitrary strings and either printing style. False for a packer used before under a dotted name, a null root pointer, and unsigned char members with markup characters (C26_fails_*). The universe now contains pointers to polymorphic objects."
  },
  {
   "property": "C27",
   "status": "partial",
   "theorems": [
    "Verif.Xml.C27_clamped",
    "Verif.Xml.C27_bool_words",
    "Verif.Xml.C27_roundtrip_partial",
    "Verif.Xml.C27_fails_empty_string",
    "Verif.Xml.C27_fails_empty_missing",
    "Verif.Xml.C27_fails_lt",
    "Verif.Xml.C27_fails_blank_char",
    "Verif.Xml.C27_fails_ref",
    "Verif.Xml.C27_fails_null_ref",
    "Verif.Xml.C27_fails_null_elem",
    "Verif.Xml.C27_fails_elem_ptr",
    "Verif.Xml.C27_fails_same_name"
   ],
   "note": "Proved for every value of the universe (booleans, integers of all widths, characters, strings, classes with bases, sequences, ordered containers, smart pointers, refs) under the stated conditions on strings, destinations and names; nine C27_fails_* theorems show the conditions needed. Pointers to polymorphic objects are in the universe; floats are in C120, tuples and arrays in C122. The words read as true and false are determined exactly (C27_bool_words).  C27_clamped: numbers out of range become the largest or smallest of the type."
  },
  {
   "property": "C28",
   "status": "partial",
   "theorems": [
    "Verif.Xml.C28_truncated",
    "Verif.Xml.C28_complete",
    "Verif.Xml.C28_accepted_partial",
    "Verif.Xml.C28_mismatch_partial",
    "Verif.Xml.C28_fails_suffix",
    "Verif.Xml.C28_fails_longer",
    "Verif.Xml.C28_fails_nothing",
    "Verif.Xml.C28_fails_entity",
    "Verif.Xml.C28_fails_no_file",
    "Verif.Xml.C28_reference_fails",
    "Verif.Xml.C28_reference_0x_fails"
   ],
   "note": "Proved: every truncation inside the root element is rejected; an accepted text is complete (continuations do not matter) and begins with a properly nested element; mismatched end tags are rejected at any depth unless the name ends the element's name or is longer than the open names together. The remaining cases are false (C28_fails_suffix, C28_fails_longer, C28_fails_nothing).  Numeric references: what follows the hexadecimal digits is passed over (C28_reference_fails) and a prefix 0x accepted (C28_reference_0x_fails). C28_fails_no_file: a file that is not there is read as an empty text."
  },
  {
   "property": "C29",
   "status": "partial",
   "theorems": [
    "Verif.Xml.C29_numbering_partial",
    "Verif.Xml.C29_nought",
    "Verif.Xml.C29_fails_dot"
   ],
   "note": "Proved for every document of the grammar whose element names have no dot or hash, for every key with or without numbers. False for dotted element names (C29_fails_dot), which XML permits."
  },
  {
   "property": "C30",
   "status": "partial",
   "theorems": [
    "Verif.MultiArray.C30_stride",
    "Verif.MultiArray.C30_in_bounds",
    "Verif.MultiArray.C30_rank12_partial",
    "Verif.MultiArray.C30_iterate",
    "Verif.MultiArray.C30_rank3_fails",
    "Verif.MultiArray.C30_array_ctor_fails",
    "Verif.MultiArray.C30_zero_dim_fails"
   ],
   "note": "In bounds for every rank; injective and onto for ranks 1 and 2 built from a list of dimensions. False above rank 2 (C30_rank3_fails), for the dimension-array constructor (C30_array_ctor_fails), and undefined for a last dimension 0 under C++17 (C30_zero_dim_fails).  For rank 3 and above only indexing of const arrays compiles: on others the compiler prefers the constructor template."
  },
  {
   "property": "C31",
   "status": "partial",
   "theorems": [
    "Verif.Mpi.C31_scatter_partial",
    "Verif.Mpi.C31_build",
    "Verif.Mpi.C31_gather",
    "Verif.Mpi.C31_scatter_gather",
    "Verif.Mpi.C31_bcast",
    "Verif.Mpi.C31_reuse_fails",
    "Verif.Mpi.C31_position_fails",
    "Verif.Mpi.C31_const_gather_fails"
   ],
   "note": "Proved for every number of processes, every list of segments and every root, MPI's collective operations having their standard meaning: scatter delivers segment i to process i, gather concatenates in rank order, scatter then gather is the identity, bcast copies. Fails: a second scatter (marks are never counted afresh, the first mark is written behind the array), gather with const_buffer (root's size not multiplied by the number of processes), read position kept by scatter."
  },
  {
   "property": "C32",
   "status": "partial",
   "theorems": [
    "Verif.Mpi.C32_partition_partial",
    "Verif.Mpi.C32_answers_partial",
    "Verif.Mpi.C32_wait_partial",
    "Verif.Mpi.C32_exec_idle",
    "Verif.Mpi.C32_silent_fails",
    "Verif.Mpi.C32_bcast_fails"
   ],
   "note": "Proved for every number of slaves and every interleaving, for requests made by exec whose methods answer: partition, no duplicates, all_idle exactly when nothing is outstanding, every request answered exactly once, waiting ends. Fails: methods that send nothing back (waits for ever), bcast of an answering method (idle twice)."
  },
  {
   "property": "C33",
   "status": "partial",
   "theorems": [
    "Verif.Rest.C33_longest_partial",
    "Verif.Rest.C33_not_found",
    "Verif.Rest.C33_root",
    "Verif.Rest.C33_wrapper",
    "Verif.Rest.C33_fails_root"
   ],
   "note": "Longest dot-boundary name gets exactly the rest (or the request about it: @signature, @list, @type); not-found characterised exactly; a container or smart pointer under the empty name gets everything else. The unrestricted statement is false: a class registered under the empty name is a prefix of every path but answers only requests about itself (C33_fails_root)."
  },
  {
   "property": "C34",
   "status": "partial",
   "theorems": [
    "Verif.Rest.C34_call",
    "Verif.Rest.C34_no_match",
    "Verif.Rest.C34_ambiguous",
    "Verif.Rest.C34_order",
    "Verif.Rest.C34_score",
    "Verif.Rest.C34_matchable_partial",
    "Verif.Rest.C34_exact",
    "Verif.Rest.C34_single",
    "Verif.Rest.C34_fails_excess",
    "Verif.Rest.C34_fails_wrap",
    "Verif.Rest.C34_matches_iff",
    "Verif.Rest.C34_fits_iff"
   ],
   "note": "For any scores: called exactly when strictly lowest and a match, 'no suitable' exactly when none matches, 'ambiguous' exactly on a tie for lowest, order irrelevant. For the scores: closed form, and match = enough arguments each fitting, when arity and excess arguments are below a bound; without the bound it is false (C34_fails_excess, C34_fails_wrap). Which JSON value fits which parameter type is characterised exactly (C34_matches_iff, C34_fits_iff)."
  },
  {
   "property": "C35",
   "status": "partial",
   "theorems": [
    "Verif.Rest.C35_one_per_signature",
    "Verif.Rest.C35_functions_partial",
    "Verif.Rest.C35_registered",
    "Verif.Rest.C35_object",
    "Verif.Rest.C35_number_partial",
    "Verif.Rest.C35_fails_number"
   ],
   "note": "One function per list of argument types, functions under a name exactly those registered and not ousted since, objects take over. False for numbers and strings, which are registered with emplace and lose to anything registered earlier (C35_fails_number)."
  },
  {
   "property": "C36",
   "status": "partial",
   "theorems": [
    "Verif.Rest.C36_json_partial",
    "Verif.Rest.C36_unreadable",
    "Verif.Rest.C36_leftover",
    "Verif.Rest.C36_single",
    "Verif.Rest.C36_fails_member",
    "Verif.Rest.C36_binary_partial"
   ],
   "note": "Each parameter receives the argument of its position, in JSON and in binary calls; too few or unreadable arguments throw without the call being made; left-over arguments go to the result. False for a member path after the call, where the arguments are given again to the member (C36_fails_member)."
  },
  {
   "property": "C37",
   "status": "partial",
   "theorems": [
    "Verif.Xsd.C37_output_partial",
    "Verif.Xsd.C37_base_fails"
   ],
   "note": "Proved for every state of the generator: the recursion depth is bounded by the number of names, each defined type is written exactly once, and after each recorded dependency that does not depend on it in turn (so for acyclic relations after all of them). Missing: a base class is not recorded as a dependency, so a derived class can be written before its base (C37_base_fails)."
  },
  {
   "property": "C38",
   "status": "partial",
   "theorems": [
    "Verif.Xsd.C38_nested_partial",
    "Verif.Xsd.C38_string_base_fails"
   ],
   "note": "Proved for all class structures in which class bases come first (any members, containers, pairs, enums, arrays, pointers, several roots). False for a class derived from a string or container and then from a class: C38_string_base_fails."
  },
  {
   "property": "C39",
   "status": "partial",
   "theorems": [
    "Verif.Java.C39_big_endian",
    "Verif.Java.C39_integers",
    "Verif.Java.C39_strings_partial",
    "Verif.Java.C39_long_strings_fail",
    "Verif.Java.C39_overlong_strings_cut",
    "Verif.Java.C39_u8_assign_fails"
   ],
   "note": "Integers of all widths: big-endian and read back, every value. Strings shorter than 32768 bytes. Fails: strings of 32768..65535 bytes (length taken for negative: packing undefined, reading throws); longer strings are cut; 64 bit values assigned to a u8 lose the upper half."
  },
  {
   "property": "C40",
   "status": "partial",
   "theorems": [
    "Verif.Java.C40_pool_partial",
    "Verif.Java.C40_pool_size_fails",
    "Verif.Java.C40_stable",
    "Verif.Java.C40_method",
    "Verif.Java.C40_flags",
    "Verif.Java.C40_class_partial",
    "Verif.Java.C40_long_string_fails"
   ],
   "note": "Indices stay valid over every sequence of additions while the pool has at most 65536 entries; entries never move; pools and whole class files with collections below 32768 read back. Fails: pools of 32768 to 65535 entries write nothing but the count and cannot be read."
  },
  {
   "property": "C41",
   "status": "proved",
   "theorems": [
    "Verif.C41_validated",
    "Verif.C41_roundtrip"
   ],
   "note": "Any declared count, element size and data; the wrapping of the check is modelled and shown harmless because resize refuses."
  },
  {
   "property": "C42",
   "status": "proved",
   "theorems": [
    "Verif.C42_same_packing",
    "Verif.C42_no_bytes",
    "Verif.C42_untouched"
   ],
   "note": "Any type of the universe."
  },
  {
   "property": "C43",
   "status": "partial",
   "theorems": [
    "Verif.Rest.C43_get",
    "Verif.Rest.C43_get_out",
    "Verif.Rest.C43_get_bad",
    "Verif.Rest.C43_set_partial",
    "Verif.Rest.C43_set_out",
    "Verif.Rest.C43_erase",
    "Verif.Rest.C43_erase_out",
    "Verif.Rest.C43_path_partial",
    "Verif.Rest.C43_path_end",
    "Verif.Rest.C43_path_out",
    "Verif.Rest.C43_insert",
    "Verif.Rest.C43_fails_erase",
    "Verif.Rest.C43_fails_noThrow",
    "Verif.Rest.C43_fails_index",
    "Verif.Rest.C43_fails_const",
    "Verif.Rest.C43_fails_assign",
    "Verif.Rest.C43_size",
    "Verif.Rest.C43_erase_argument",
    "Verif.Rest.C43_erase_default_fails",
    "Verif.Rest.C43_fixed",
    "Verif.Rest.C43_const_path",
    "Verif.Rest.C43_assign_stops",
    "Verif.Rest.C43_fails_large",
    "Verif.Rest.C43_fails_uninitialised"
   ],
   "note": "Reading, writing, erasing, inserting and path access hit exactly the element of the index, and an index outside the sequence throws and leaves it as it was, for indices below 2^31 in paths and a JSON library that throws on mismatches. False for erase ranges, elemNoThrow, indices that are not numbers, const sequences and assignment through the sequence path (C43_fails_*). @size, fixed-length sequences, constant sequences, arguments of erase and partial assignment on a bad element are covered; further defects: C43_fails_large, C43_fails_uninitialised.  C43_erase_default_fails: a missing or unsuitable index erases the first element."
  },
  {
   "property": "C44",
   "status": "partial",
   "theorems": [
    "Verif.Scan.C44_space",
    "Verif.Scan.C44_absent",
    "Verif.Scan.C44_single_partial",
    "Verif.Scan.C44_two_fails",
    "Verif.Scan.C44_identifier_fails",
    "Verif.Scan.C44_empty_name_diverges",
    "Verif.Scan.C44_trim"
   ],
   "note": "Proved for texts with at most one occurrence (and the trimming helper). With two occurrences the result is always wrong (C44_two_fails gives it exactly); occurrences inside longer identifiers are replaced too (C44_identifier_fails); an empty name never ends."
  },
  {
   "property": "C45",
   "status": "partial",
   "theorems": [
    "Verif.Scan.C45_gobble",
    "Verif.Scan.C45_gobble_pair",
    "Verif.Scan.C45_gobble_eof",
    "Verif.Scan.C45_gobble_suffix",
    "Verif.Scan.C45_shift_fails",
    "Verif.Scan.C45_angle_partial",
    "Verif.Scan.C45_template_partial",
    "Verif.Scan.C45_defaults_partial",
    "Verif.Scan.C45_default_fails",
    "Verif.Scan.C45_wrap_fails"
   ],
   "note": "Proved for every bracket but '<', including end of input, and for template brackets and template argument lists away from the defects. False: C45_shift_fails ('>>' closing two of three levels), C45_default_fails (default argument ending in '>>'), C45_wrap_fails (count wraps). Works on token sequences; the tokeniser, from characters to these, is C63. Parameter lists with default arguments lose exactly the defaults (C45_defaults_partial)."
  },
  {
   "property": "C46",
   "status": "partial",
   "theorems": [
    "Verif.Mpi.C46_wf",
    "Verif.Mpi.C46_copy_partial",
    "Verif.Mpi.C46_copy_ctor",
    "Verif.Mpi.C46_assign_fails",
    "Verif.Mpi.C46_fails_self",
    "Verif.Mpi.C46_copy_scatters"
   ],
   "note": "Copy construction and assignment to an empty buffer copy contents and marks (and the copy scatters like the original). Assignment to a non-empty buffer appends: contents right iff the destination was empty. Assigning a buffer to itself is undefined when it holds data, and otherwise loses all marks (C46_fails_self)."
  },
  {
   "property": "C47",
   "status": "proved",
   "theorems": [
    "Verif.C47_iterator",
    "Verif.C47_no_container",
    "Verif.C47_order_fails"
   ],
   "note": "Container before iterator. C47_order_fails shows that the other order is undefined."
  },
  {
   "property": "C48",
   "status": "proved",
   "theorems": [
    "Verif.C48_array",
    "Verif.C48_same_size"
   ],
   "note": "Sources of any length."
  },
  {
   "property": "C49",
   "status": "partial",
   "theorems": [
    "Verif.Graph.C49_session_partial",
    "Verif.Graph.C49_shallow_partial",
    "Verif.Graph.C49_recursion_fails"
   ],
   "note": "False: restarts nest (C49_recursion_fails: unbounded depth with limit 2). Proved: within a session, and when nothing is deferred, the depth is at most recur_max."
  },
  {
   "property": "C50",
   "status": "partial",
   "theorems": [
    "Verif.C50_append_throws_partial",
    "Verif.C50_append_fails",
    "Verif.C50_packraw_fails"
   ],
   "note": "Only that append reports the failure. C50_append_fails and C50_packraw_fails prove that earlier contents are lost, and that packraw dereferences null."
  },
  {
   "property": "C51",
   "status": "partial",
   "theorems": [
    "Verif.C51_roundtrip_partial",
    "Verif.C51_deepEq_fails"
   ],
   "note": "The round trip is proved; C51_deepEq_fails proves that deepEq can be false for equal containers."
  },
  {
   "property": "C52",
   "status": "partial",
   "theorems": [
    "Verif.Java.C52_head_partial",
    "Verif.Java.C52_layout_fails",
    "Verif.Java.C52_read_fails",
    "Verif.Java.C52_long_constant_fails"
   ],
   "note": "False for every class description: the four top level counts are written as 8 byte native integers (C52_layout_fails), files laid out correctly cannot be read (C52_read_fails), 8 byte constants are not given two pool places (C52_long_constant_fails). Proved: everything up to the super class index is laid out correctly."
  },
  {
   "property": "C53",
   "status": "proved",
   "theorems": [
    "Verif.Java.C53_signature",
    "Verif.Java.C53_nested_array_fails",
    "Verif.Java.C53_general"
   ],
   "note": "For every list of argument types. The stub's text itself is not modelled. Arrays of arrays, which the generator never emits, are misread (C53_nested_array_fails)."
  },
  {
   "property": "C54",
   "status": "partial",
   "theorems": [
    "Verif.Xsd.C54_references_defined_partial",
    "Verif.Xsd.C54_array_fails",
    "Verif.Xsd.C54_after_output_fails"
   ],
   "note": "Proved when C arrays are of basic types or strings. False for a C array of a class or enum (C54_array_fails), and writing the schema makes the missing type unobtainable (C54_after_output_fails)."
  },
  {
   "property": "C55",
   "status": "partial",
   "theorems": [
    "Verif.Xsd.C55_terminates_partial",
    "Verif.Xsd.C55_recursive_fails",
    "Verif.Xsd.C55_tree_fails"
   ],
   "note": "Proved for classes that contain one another without a cycle; for every class on a cycle generation never succeeds (C55_recursive_fails), for a tree it overflows any stack (C55_tree_fails)."
  },
  {
   "property": "C56",
   "status": "partial",
   "theorems": [
    "Verif.Xsd.C56_content_partial",
    "Verif.Xsd.C56_empty_class_fails"
   ],
   "note": "Proved when every class has a base or a member and class bases come first; false for an empty class (C56_empty_class_fails)."
  },
  {
   "property": "C57",
   "status": "partial",
   "theorems": [
    "Verif.Xsd.C57_root_partial",
    "Verif.Xsd.C57_base_fails"
   ],
   "note": "Proved when no base class is described under the name of the derived object (no bases, or descriptors generated with -onbase); with a plain base the root element gets the type of the base (C57_base_fails)."
  },
  {
   "property": "C58",
   "status": "partial",
   "theorems": [
    "Verif.Xml.C58_cdata_partial",
    "Verif.Xml.C58_fails_end",
    "Verif.Xml.C58_fails_bracket",
    "Verif.Xml.C58_fails_brackets",
    "Verif.Xml.C58_fails_nul",
    "Verif.Xml.C58_fails_pretty"
   ],
   "note": "Proved for non-empty strings without NUL, ']]>' or ']]]' and not ending in ']', without pretty printing. The rest is false (C58_fails_*)."
  },
  {
   "property": "C59",
   "status": "partial",
   "theorems": [
    "Verif.Xml.C59_comment_partial",
    "Verif.Xml.C59_fails_bracket",
    "Verif.Xml.C59_fails_quote",
    "Verif.Xml.C59_fails_space"
   ],
   "note": "Proved for every text before and after (not ending in a tag or beginning with white space) and every comment without double quotes and angle brackets. The rest is false (C59_fails_*)."
  },
  {
   "property": "C60",
   "status": "partial",
   "theorems": [
    "Verif.Xml.C60_attributes_ignored_partial",
    "Verif.Xml.C60_fails_empty_value",
    "Verif.Xml.C60_fails_blank_value"
   ],
   "note": "Proved for every document whose attribute values are not blank. Empty and blank values make the document be rejected (C60_fails_*)."
  },
  {
   "property": "C61",
   "status": "partial",
   "theorems": [
    "Verif.Rest.C61_enums_partial",
    "Verif.Rest.C61_fails_other",
    "Verif.Rest.C61_fails_short"
   ],
   "note": "True when names beginning with @enum are only used for enums; otherwise C61_fails_other and C61_fails_short."
  },
  {
   "property": "C62",
   "status": "partial",
   "theorems": [
    "Verif.Rest.C62_set_partial",
    "Verif.Rest.C62_get_partial",
    "Verif.Rest.C62_insert",
    "Verif.Rest.C62_erase",
    "Verif.Rest.C62_setElem",
    "Verif.Rest.C62_fails_member",
    "Verif.Rest.C62_fails_path",
    "Verif.Rest.C62_fails_bad",
    "Verif.Rest.C62_fails_get",
    "Verif.Rest.C62_quoted",
    "Verif.Rest.C62_bad_key"
   ],
   "note": "Set, get, setElem, insert and erase touch exactly the entry of the key, any key type with a strict order. False for members of an element (a copy is changed, C62_fails_member and C62_fails_path for all maps), arguments that do not convert (C62_fails_bad) and getElem of a missing key, which adds it (C62_fails_get)."
  },
  {
   "property": "C63",
   "status": "partial",
   "theorems": [
    "Verif.Tok.C63_tokens_partial",
    "Verif.Tok.C63_attribute",
    "Verif.Tok.C63_fails_ne",
    "Verif.Tok.C63_fails_slash",
    "Verif.Tok.C63_fails_end",
    "Verif.Tok.C63_fails_glue",
    "Verif.Tok.C63_fails_string",
    "Verif.Tok.C63_fails_open",
    "Verif.Tok.C63_fails_digits"
   ],
   "note": "Proved for all texts without attributes and continuation lines that can be split into tokens and separators by longest match; attributes standing apart make no difference. False for != (two tokens), preprocessor lines ending in a slash, a token at the very end of the text, attributes without spaces, double brackets in strings or never closed, and digit separators (C63_fails_*). Preprocessor lines may contain slashes and comments over several lines; #pragma lines are delivered as tokens."
  },
  {
   "property": "C64",
   "status": "partial",
   "theorems": [
    "Verif.Tok.C64_copied_partial",
    "Verif.Tok.C64_fails_attribute",
    "Verif.Tok.C64_fails_end"
   ],
   "note": "Proved for texts without [[ that do not end in a backslash, an opening bracket or a continuation. Attributes are not copied and the character after one is doubled (C64_fails_attribute); a last backslash is dropped (C64_fails_end). Where lines are inserted is C83."
  },
  {
   "property": "C65",
   "status": "partial",
   "theorems": [
    "Verif.Decl.C65_enumerators_partial",
    "Verif.Decl.C65_declaration",
    "Verif.Decl.C65_fails_empty",
    "Verif.Decl.C65_fails_comma",
    "Verif.Decl.C65_fails_brace",
    "Verif.Decl.C65_fails_variables",
    "Verif.Decl.C65_fails_initialised",
    "Verif.Decl.C65_fails_struct"
   ],
   "note": "Proved for all enums with at least one enumerator, values without top level commas and no braces, no comma after the last enumerator. False for an empty enum, a comma at the end, commas or braces in values, a variable declared with the enum and initialised, and `enum struct` (C65_fails_*)."
  },
  {
   "property": "C66",
   "status": "partial",
   "theorems": [
    "Verif.Decl.C66_members_partial",
    "Verif.Decl.C66_actions_partial",
    "Verif.Decl.C66_fails_template",
    "Verif.Decl.C66_truncated_partial",
    "Verif.Decl.C66_fails_friend",
    "Verif.Decl.C66_fails_constructor",
    "Verif.Decl.C66_fails_initialiser",
    "Verif.Decl.C66_fails_nested",
    "Verif.Decl.C66_fails_argument",
    "Verif.Decl.C66_fails_unnamed",
    "Verif.Decl.C66_fails_assert",
    "Verif.Decl.C66_fails_decltype",
    "Verif.Decl.C66_fails_flexible",
    "Verif.Decl.C66_fails_const",
    "Verif.Decl.C66_fails_static",
    "Verif.Decl.C66_fails_result"
   ],
   "note": "Proved for every sequence of data declarations (any number of declarators; bit fields, arrays, initialisers), functions with or without bodies, destructors, operators, pointers to functions, labels, enums, friends and using declarations, with and without -respect_private. Member function templates are covered. Missing: nested classes, typedefs and constructors with initialisers. False for friend functions with a body (the class ends at the function's brace), brace initialisers in constructors and after =, nested template arguments closed by >>, commas of template arguments in initialisers, unnamed bit fields, static_assert, decltype, arrays without bound; const is kept beyond the declaration and static forgotten after the first declarator (C66_fails_*). Bodies cut off anywhere in the list are reported as end of input (C66_truncated_partial), and `>>` is covered inside nested template arguments. A template operator makes the generator forget the next member function, whatever it is (C66_fails_template): the flag is_template is only reset when a named function is met.  C66_actions_partial also says which members are recorded as static and as static constants, where static stands alone in its declaration and const has not been left over from an earlier one (false otherwise: C66_fails_const, C66_fails_static, C66_fails_result)."
  },
  {
   "property": "C67",
   "status": "partial",
   "theorems": [
    "Verif.Json.C67_quiet_partial",
    "Verif.Json.C67_basic",
    "Verif.Json.C67_compound_partial",
    "Verif.Json.C67_wrong_flag_fails",
    "Verif.Json.C67_unreported_fails",
    "Verif.Json.C67_root_fails"
   ],
   "note": "Proved for object documents: with both flags clear nothing changes, for every type but tuples; basic types obey both flags exactly; other types below a non-object obey throw_on_error. False: a missing parent of a class, enum, container, array or smart pointer is governed by throw_on_error instead of throw_on_not_found (C67_wrong_flag_fails, C67_unreported_fails); a document that is not an object is discarded together with the flags (C67_root_fails)."
  },
  {
   "property": "C68",
   "status": "partial",
   "theorems": [
    "Verif.Xsd.C68_members_partial",
    "Verif.Xsd.C68_collision_fails",
    "Verif.Xsd.C68_container_base_fails"
   ],
   "note": "Proved for every class with at most one base, a class, when no enum, container, pair or array gets the same name. False when names of different types become equal after replacing punctuation (C68_collision_fails) and for classes derived from containers (C68_container_base_fails)."
  },
  {
   "property": "C69",
   "status": "partial",
   "theorems": [
    "Verif.Python.C69_json_partial",
    "Verif.Python.C69_python_partial",
    "Verif.Python.C69_bigint_fails",
    "Verif.Python.C69_nul_fails",
    "Verif.Python.C69_badkey",
    "Verif.Python.C69_keys_fails",
    "Verif.Python.C69_cycle_fails",
    "Verif.Python.C69_stack_fails",
    "Verif.Python.C69_shift_fails"
   ],
   "note": "Proved for integers of 64 bits, text without zero bytes and dicts with distinct string keys. False otherwise: larger ints silently become -1, JSON integers from 2^63 up become negative (C69_bigint_fails); text is cut at a zero byte (C69_nul_fails); keys with the same text collide (C69_keys_fails); lists containing themselves and ordinary objects exhaust the stack (C69_cycle_fails); operator<< of an object writes a string that operator>> does not read back (C69_shift_fails).  C69_badkey: a key whose text cannot be had throws; C69_stack_fails: a list containing itself is never finished."
  },
  {
   "property": "C70",
   "status": "partial",
   "theorems": [
    "Verif.PyRef.C70_fails_mapping",
    "Verif.Python.C70_balanced_partial",
    "Verif.Python.C70_alive_partial",
    "Verif.Python.C70_assign_fails",
    "Verif.Python.C70_array_fails",
    "Verif.Python.C70_setattr_fails",
    "Verif.Python.C70_none_fails"
   ],
   "note": "Proved for every sequence of constructions, copies, destructions and handing out. False for assignment (C70_assign_fails) and array() (C70_array_fails), which leak, for attributes set from Python, which are released too early (C70_setattr_fails), and for null pointers, insert and erase, which release None too often (C70_none_fails). Reading a Python mapping as JSON leaves every key and value counted once too often (C70_fails_mapping)."
  },
  {
   "property": "C71",
   "status": "partial",
   "theorems": [
    "Verif.Xdr.C71_fifo_partial",
    "Verif.Xdr.C71_chunk_fails",
    "Verif.Xdr.C71_rewind_fails",
    "Verif.Xdr.C71_empty_fails",
    "Verif.Xdr.C71_raw_fails",
    "Verif.Xdr.C71_seek_partial",
    "Verif.Xdr.C71_seek_fails",
    "Verif.Xdr.C71_pos_fails",
    "Verif.Xdr.C71_swap_fails"
   ],
   "note": "Proved up to 1020 bytes, and for moving back within a chunk or into the first. False beyond: more than 1024 bytes can be written but not read (C71_chunk_fails), growing puts the reading position back to the start (C71_rewind_fails), raw data above 1024 bytes is refused (C71_raw_fails), moving back over a chunk boundary ends elsewhere (C71_seek_fails); reading from an empty buffer succeeds (C71_empty_fails); pos() survives reseto (C71_pos_fails); swap mixes up encoding and decoding streams (C71_swap_fails)."
  },
  {
   "property": "C72",
   "status": "partial",
   "theorems": [
    "Verif.Object.C72_create",
    "Verif.Object.C72_distinct",
    "Verif.Object.C72_roundtrip_partial",
    "Verif.Object.C72_contents",
    "Verif.Object.C72_null_fails",
    "Verif.Object.C72_order_fails",
    "Verif.Object.C72_fixed_fails",
    "Verif.Object.C72_hostile_fails"
   ],
   "note": "Proved for every order of use and registration within one run: identifiers are stable and distinct, create returns the class, non-null pointers are restored. False: null does not replace what a pointer holds (C72_null_fails), identifiers of another run may belong to another class (C72_order_fails), a class choosing its own identifier can take over another's (C72_fixed_fails), bad identifiers are undefined behaviour (C72_hostile_fails).  C72_contents: contents that cannot be read make unpacking throw."
  },
  {
   "property": "C73",
   "status": "partial",
   "theorems": [
    "Verif.Bases.C73_bases_partial",
    "Verif.Bases.C73_typename",
    "Verif.Bases.C73_unqualified",
    "Verif.Bases.C73_plain",
    "Verif.Bases.C73_template_fails",
    "Verif.Bases.C73_comma_fails",
    "Verif.Bases.C73_shift_fails",
    "Verif.Bases.C73_identifiers"
   ],
   "note": "Proved for every list of bases whose names are words with or without template arguments (any nesting, `>>` included); typename is present when a parameter occurs before the last top level `::` (C73_typename), absent in unqualified names and when no identifier of the parameter list occurs. False: the keyword template is glued to the next word (C73_template_fails), a comma in parentheses splits a base (C73_comma_fails), shift operators hide the qualification (C73_shift_fails). A redundant typename is not excluded.  C73_identifiers: which characters make identifiers."
  },
  {
   "property": "C74",
   "status": "partial",
   "theorems": [
    "Verif.Bases.C74_targs_partial",
    "Verif.Bases.C74_default_partial",
    "Verif.Bases.C74_unnamed_fails",
    "Verif.Bases.C74_function_fails",
    "Verif.Bases.C74_default_fails",
    "Verif.Bases.C74_unclosed_fails",
    "Verif.Bases.C74_tokens_partial"
   ],
   "note": "Proved for named parameters with their name last, with template template parameters, packs and, from the tokens, defaults. False for unnamed parameters (C74_unnamed_fails), function pointers (C74_function_fails), defaults containing a comparison (C74_default_fails); an unclosed bracket is read beyond the end (C74_unclosed_fails).  C74_default_partial is about a default still present in the text."
  },
  {
   "property": "C75",
   "status": "partial",
   "theorems": [
    "Verif.Bases.C75_class_partial",
    "Verif.Bases.C75_template_partial",
    "Verif.Bases.C75_specialisation_partial",
    "Verif.Bases.C75_none",
    "Verif.Bases.C75_final_fails",
    "Verif.Bases.C75_specialisation_fails"
   ],
   "note": "Proved for classes, class templates and specialisations whose arguments contain no template arguments; classes that are inaccessible or inside a template get none (C75_none). False for `final` or a macro after the name: the class is silently taken for a declaration (C75_final_fails); and for specialisations such as A<B<int>::C> (C75_specialisation_fails)."
  },
  {
   "property": "C76",
   "status": "partial",
   "theorems": [
    "Verif.Poly.C76_json_root_partial",
    "Verif.Poly.C76_json_vector_partial",
    "Verif.Poly.C76_json_nested_partial",
    "Verif.Poly.C76_json_class_partial",
    "Verif.Poly.C76_json_document",
    "Verif.Poly.C76_json_vector_stops",
    "Verif.Poly.C76_json_ignored",
    "Verif.Poly.C76_json_member_fails",
    "Verif.Poly.C76_json_null_child_fails",
    "Verif.Xml.C76_xml_root_partial",
    "Verif.Xml.C76_xml_vector_partial",
    "Verif.Xml.C76_xml_unknown",
    "Verif.Xml.C76_xml_type_member_fails"
   ],
   "note": "Proved for XML anywhere in the document under the conditions of C27, for hierarchies without a member called type (false otherwise, C76_xml_type_member_fails). For JSON proved for a pointer packed as the whole document, for the elements of a vector, and for pointers below an object that itself has a type; a JSON pointer that is a member of an ordinary class is silently lost (C76_json_member_fails) and a null pointer below an object with a type is read as an object of an arbitrary type (C76_json_null_child_fails).  C76_json_class_partial: a pointer among the members of a class in a document with a type; C76_json_document: the document holds the type of the object; C76_json_vector_stops: elements before one that fails are read, those after it untouched."
  },
  {
   "property": "C77",
   "status": "partial",
   "theorems": [
    "Verif.RandomInit.C77_valid_partial",
    "Verif.RandomInit.C77_default_rand",
    "Verif.RandomInit.C77_enum_reach",
    "Verif.RandomInit.C77_size_reach",
    "Verif.RandomInit.C77_enum_fails",
    "Verif.RandomInit.C77_int64_fails",
    "Verif.RandomInit.C77_char_fails",
    "Verif.RandomInit.C77_map_fails",
    "Verif.RandomInit.C77_alias_fails",
    "Verif.RandomInit.C77_rounding_exists"
   ],
   "note": "Proved for every generator in [0,1) and every type of the universe except what it says of maps. False: the library's own rand() returns 1 exactly when std::rand() returns RAND_MAX (C77_default_rand), and then enumerations read behind their table (C77_enum_fails), 64 bit integers overflow (C77_int64_fails) and characters become DEL (C77_char_fails); keys of maps are never initialised, so an empty map gets at most one entry (C77_map_fails); of enumerations with aliases the last enumerators are never drawn (C77_alias_fails)."
  },
  {
   "property": "C78",
   "status": "partial",
   "theorems": [
    "Verif.Top.C78_file_partial",
    "Verif.Top.C78_truncated_partial",
    "Verif.Top.C78_truncated_nested_partial",
    "Verif.Top.C78_truncated_template_partial",
    "Verif.Top.C78_private_fails",
    "Verif.Top.C78_nested_namespace_fails",
    "Verif.Top.C78_local_fails",
    "Verif.Top.C78_unnamed_enum_fails",
    "Verif.Top.C78_member_template_fails",
    "Verif.Top.C78_template_enum_fails",
    "Verif.Top.C78_typedef_fails",
    "Verif.Top.C78_private_typedef_fails",
    "Verif.Top.C78_union_pointer_fails",
    "Verif.Top.C78_attribute_fails"
   ],
   "note": "Proved for every file made of plain tokens, parenthesised groups, pragmas, using and alias declarations, typedefs (in namespaces only of existing types), declarations, explicit instantiations, enumerations, classes with nested classes, class templates and specialisations without nested types, in namespaces nested to any depth. False: accessible types of a private class are registered (C78_private_fails), namespace a::b is ignored (C78_nested_namespace_fails), types local to a function are registered at namespace scope (C78_local_fails), after an unnamed enumeration with an underlying type nothing is (C78_unnamed_enum_fails), behind a member class template a function is lost (C78_member_template_fails), enumerations in class templates get a descriptor that cannot compile (C78_template_enum_fails), typedef struct loses its namespace (C78_typedef_fails) and access (C78_private_typedef_fails), attributes hide a class (C78_attribute_fails).  The registered actions carry the flags of C66_actions_partial.  Typedefs of unnamed and named classes are covered outside namespaces; the typedef of a pointer to a union gets a descriptor for the pointer that visits itself, the typedef of an array of unions is registered under the name ] (C78_union_pointer_fails).  C78_truncated_partial: a file that ends inside a class.  For files that end within a class: C78_truncated_nested_partial (inside a class inside a class: neither is registered, all types complete before the end are), C78_truncated_template_partial (after `template`)."
  },
  {
   "property": "C79",
   "status": "partial",
   "theorems": [
    "Verif.Emit.C79_guard_partial",
    "Verif.Emit.C79_base_file",
    "Verif.Emit.C79_twice",
    "Verif.Emit.C79_run_partial",
    "Verif.Emit.C79_marks",
    "Verif.Emit.C79_member",
    "Verif.Emit.C79_specialisation_fails",
    "Verif.Emit.C79_underscores_fails",
    "Verif.Emit.C79_parameters_fails",
    "Verif.Emit.C79_omit_fails",
    "Verif.Emit.C79_tab_fails",
    "Verif.Emit.C79_dos_fails",
    "Verif.Emit.C79_indented_fails",
    "Verif.Emit.C79_order_fails",
    "Verif.Emit.C79_bare_fails",
    "Verif.Emit.C79_typedef_fails"
   ],
   "note": "Proved for classes and enumerations whose names have no doubled or trailing underscore, and for class templates whose names and parameters have no underscore at all: guards are distinct for distinct types and actions (C79_guard_partial), and the preprocessed output has exactly one descriptor per type and action unless a directive of the header, of the action's own file or of that of an earlier action omits it (C79_run_partial), provided no directive is for an action whose name is a proper prefix of this one or conversely; C79_base_file, C79_marks, C79_twice. False in general: V<int*> and V<int&> share a guard and the second gets no descriptor (C79_specialisation_fails), so do ::a__b and ::a::b (C79_underscores_fails) and A_T<U> and A<T,U> (C79_parameters_fails); `#pragma omit xml _packX` omits X for xml_pack (C79_omit_fails); directives with a tab, with DOS line ends, indented in a file or in the file of a later action are not obeyed (C79_tab_fails, C79_dos_fails, C79_indented_fails, C79_order_fails); a bare `#pragma omit` ends the generator (C79_bare_fails); a typedef name that begins with struct, class or enum is mangled (C79_typedef_fails). Explicit specialisations and -workdir are not covered by the positive theorem.  C79_member says which name a pragma must give for an enumeration inside a class template."
  },
  {
   "property": "C80",
   "status": "partial",
   "theorems": [
    "Verif.TName.C80_generated_partial",
    "Verif.TName.C80_identifies_partial",
    "Verif.TName.C80_const_fails",
    "Verif.TName.C80_hidden_fails",
    "Verif.TName.C80_function_fails",
    "Verif.TName.C80_tuple_fails",
    "Verif.TName.C80_iterator_fails",
    "Verif.TName.C80_rvalue_fails",
    "Verif.TName.C80_value_fails",
    "Verif.TName.C80_unnamed_fails",
    "Verif.TName.C80_template_fails"
   ],
   "note": "Proved: the expression written for a class template evaluates to the names of the arguments in place of the type parameters, packs included, for all parameter lists without unnamed or template parameters (C80_generated_partial), and names are distinct for all types made of fundamental types, classes, library templates with default allocators and so on, templates of types, const on other than pointers, pointers, references and arrays (C80_identifies_partial). False in general: char* const and const char* (C80_const_fails, for all types), containers that differ in allocator, comparison or hash (C80_hidden_fails), all functions, member functions and std::functions (C80_function_fails), all tuples (C80_tuple_fails), all iterators (C80_iterator_fails), T and T&& (C80_rvalue_fails), instances that differ in arguments that are not types (C80_value_fails); unnamed parameters and values whose name contains class give text that is not C++ (C80_unnamed_fails); with a template template parameter the parameter list itself is the name (C80_template_fails)."
  },
  {
   "property": "C81",
   "status": "partial",
   "theorems": [
    "Verif.Over.C81_declared_partial",
    "Verif.Over.C81_distinct_partial",
    "Verif.Over.C81_shift_fails",
    "Verif.Over.C81_comma_fails",
    "Verif.Over.C81_string_fails",
    "Verif.Over.C81_space_fails",
    "Verif.Over.C81_global_fails",
    "Verif.Over.C81_variadic_fails",
    "Verif.Over.C81_callback_fails",
    "Verif.Over.C81_ref_fails",
    "Verif.Over.C81_trailing_fails",
    "Verif.Over.C81_typename_fails",
    "Verif.Over.C81_template_fails",
    "Verif.Over.C81_names_fails"
   ],
   "note": "Proved for every class of member functions (with default arguments, virtual/static/inline, const, bodies, deleted), data members and access labels: one declaration per accessible function, in order, of the right type (C81_declared_partial), and variables differ if no name ends in a digit (C81_distinct_partial). Refuted otherwise: return types ending in >> (C81_shift_fails), commas in default arguments outside braces or in strings (C81_comma_fails, C81_string_fails), `f( )` (C81_space_fails), arguments beginning with :: or ... (C81_global_fails, C81_variadic_fails), a callback as first argument (C81_callback_fails), reference qualifiers and trailing return types (C81_ref_fails, C81_trailing_fails), typename in front of an unqualified template (C81_typename_fails), templates mentioned twice (C81_template_fails), f with eleven overloads beside f1 (C81_names_fails). Not covered: classes with nested types, templates, operators or arrays."
  },
  {
   "property": "C82",
   "status": "partial",
   "theorems": [
    "Verif.Body.C82_operator_partial",
    "Verif.Body.C82_type_partial",
    "Verif.Body.C82_once_partial",
    "Verif.Body.C82_enum",
    "Verif.Body.C82_file_partial",
    "Verif.Body.C82_bits_fails",
    "Verif.Body.C82_reference_fails",
    "Verif.Body.C82_bound_fails",
    "Verif.Body.C82_result_fails",
    "Verif.Body.C82_type_data_fails",
    "Verif.Body.C82_type_reference_fails",
    "Verif.Body.C82_type_base_fails",
    "Verif.Body.C82_type_array_fails"
   ],
   "note": "Proved, from the tokens of a file to the text of the statements, for the classes of C78 without -overload and with static and const used as in C66_actions_partial: one call per base and per member, in order, with the member's name as label and the member itself (or a pointer to it) as argument; bounds and number of dimensions of arrays; static constants are marked; enumerations. False: -use_mbr_pointers takes pointers to bit fields and rvalue references (C82_bits_fails, C82_reference_fails), array bounds naming a constant of the class are not qualified (C82_bound_fails), a static function returning a constant is passed as a constant (C82_result_fails), the type function leaves out bases, references and, without -use_mbr_pointers, all data members, and mentions an object it does not have (C82_type_*_fails)."
  },
  {
   "property": "C83",
   "status": "partial",
   "theorems": [
    "Verif.Friend.C83_inserted_partial",
    "Verif.Friend.C83_template_fails",
    "Verif.Friend.C83_late_fails",
    "Verif.Friend.C83_empty_fails",
    "Verif.Friend.C83_enum_fails",
    "Verif.Friend.C83_nested_fails",
    "Verif.Friend.C83_missed_fails",
    "Verif.Friend.C83_function_fails",
    "Verif.Friend.C83_special_fails",
    "Verif.Friend.C83_comma_fails"
   ],
   "note": "Proved from the text of the header to the tokens of the output, for headers made of the parts listed in C83.Item, with white space behind the braces and labels after which something is inserted. False otherwise: without white space the line comes one character late and cuts words (C83_late_fails) or lands behind the class (C83_empty_fails); class templates run beyond the end of a string (C83_template_fails, for every class template in every such header); specialisations call a macro defined nowhere (C83_special_fails); classes inside structs without labels are left out and labels of inner classes taken for those of the struct (C83_nested_fails); scoped enumerations, functions returning a class and final classes are mistaken (C83_enum_fails, C83_function_fails, C83_missed_fails). Any option on the command line makes the program loop for ever (C105_fails_friend).  Specialisations for several arguments run beyond the end of a string as well (C83_comma_fails)."
  },
  {
   "property": "C84",
   "status": "partial",
   "theorems": [
    "Verif.Dump.C84_injective_partial",
    "Verif.Dump.C84_shown_partial",
    "Verif.Dump.C84_nested_partial",
    "Verif.Dump.C84_fails_separated",
    "Verif.Dump.C84_fails_null",
    "Verif.Dump.C84_fails_lines",
    "Verif.Dump.C84_fails_map",
    "Verif.Dump.C84_fails_map_name",
    "Verif.Dump.C84_fails_key",
    "Verif.Dump.C84_fails_dots"
   ],
   "note": "Proved for objects of classes: names without dots, braces and line ends, what is printed for numbers is a word, strings without line ends, map keys without brackets and line ends, pointers not to strings, pointers or arrays (C84_injective_partial, by decoding the text from the left); C84_shown_partial excludes maps from numbers to other things and empty arrays; C84_nested_partial needs values without braces. False otherwise: a container of numbers dumped by itself is not separated (C84_fails_separated), a null pointer looks like the string null (C84_fails_null), strings with line ends (C84_fails_lines), map entries share their line with the closing brace, carry the element's name between key and value, or lose the bracket before the key (C84_fails_map, C84_fails_map_name, C84_fails_key), a name with dots is cut (C84_fails_dots)."
  },
  {
   "property": "C85",
   "status": "partial",
   "theorems": [
    "Verif.PyCont.C85_sequence_partial",
    "Verif.PyCont.C85_element",
    "Verif.PyCont.C85_fails_assign",
    "Verif.PyCont.C85_fails_negative",
    "Verif.PyCont.C85_array_get_partial",
    "Verif.PyCont.C85_array_set_partial",
    "Verif.PyCont.C85_fails_array_iter",
    "Verif.PyCont.C85_fails_array_index",
    "Verif.PyCont.C85_fails_array_member",
    "Verif.PyCont.C85_map_get",
    "Verif.PyCont.C85_fails_key",
    "Verif.PyCont.C85_map_iter",
    "Verif.PyCont.C85_map_for",
    "Verif.PyCont.C85_overflow",
    "Verif.PyCont.C85_too_many",
    "Verif.PyCont.C85_modify_out"
   ],
   "note": "Proved: sequences of numbers and strings answer every program as a list does, for indices between 0 and 2^64 (C85_sequence_partial); members of elements of sequences can be assigned (C85_element); arrays of any rank within their bounds (C85_array_get_partial, C85_array_set_partial); maps: C85_map_get, C85_map_iter (with assignments in between), C85_map_for. False otherwise: assigning an element that is not a number or string does nothing (C85_fails_assign), negative indices are refused (C85_fails_negative), arrays are not checked, so that a for statement over one runs past its end (C85_fails_array_index, C85_fails_array_iter), elements of arrays are copies whose members cannot be assigned (C85_fails_array_member), a missing key is a RuntimeError (C85_fails_key). getMapItem for values that are not numbers or strings does not compile (python_base.h:251-255 returns a reference to a temporary) and is not modelled.  C85_overflow, C85_too_many and C85_modify_out: indices that do not fit, or are too many, are exceptions and change nothing."
  },
  {
   "property": "C86",
   "status": "partial",
   "theorems": [
    "Verif.PyScope.C86_found_partial",
    "Verif.PyScope.C86_fails_return",
    "Verif.PyScope.C86_fails_leave",
    "Verif.PyScope.C86_fails_finish",
    "Verif.PyScope.C86_finish"
   ],
   "note": "C86_found_partial: additions to one scope follow each other, no name is that of another entry or of a scope, and at most one scope is left from one addition to the next (or the library destroys vector elements from the last one). False otherwise: a scope returned to is made anew and its contents are lost (C86_fails_return, every library); with libstdc++, which destroys elements from the first one, leaving two scopes at once makes the outer one current, so that functions land there and objects raise TypeError (C86_fails_leave), also for whatever the module defines once the python_t is gone (C86_fails_finish; with libc++ C86_finish holds for all additions). Classes of arguments, which addFunctional defines in the current scope, are not modelled."
  },
  {
   "property": "C87",
   "status": "partial",
   "theorems": [
    "Verif.Isa.C87_isa_partial",
    "Verif.Isa.C87_fails_virtual",
    "Verif.Isa.C87_fails_reference"
   ],
   "note": "C87_isa_partial: exact for classes without virtual functions. False with them: typeid of a reference to a base with virtual functions is that of the whole object, so that such a base is never found (C87_fails_virtual, for every hierarchy), and through a reference the class that was declared is not found either (C87_fails_reference)."
  },
  {
   "property": "C88",
   "status": "partial",
   "theorems": [
    "Verif.Rest.C88_convert_partial",
    "Verif.Rest.C88_refused",
    "Verif.Rest.C88_no_argument",
    "Verif.Rest.C88_fails_char",
    "Verif.Rest.C88_fails_real",
    "Verif.Rest.C88_pointer_enum",
    "Verif.Rest.C88_shown",
    "Verif.Rest.C88_about",
    "Verif.Rest.C88_get_partial",
    "Verif.Rest.C88_set_partial",
    "Verif.Rest.C88_enum_partial",
    "Verif.Rest.C88_missing_partial",
    "Verif.Rest.C88_fails_range",
    "Verif.Rest.C88_fails_string",
    "Verif.Rest.C88_fails_label",
    "Verif.Rest.C88_fails_enum_number",
    "Verif.Rest.C88_fails_below_enum",
    "Verif.Rest.C88_fails_null",
    "Verif.Rest.C88_fails_hidden"
   ],
   "note": "Proved for objects in which no member hides a member of a base (C88_get_partial, C88_set_partial, C88_enum_partial, C88_missing_partial): any path through classes, bases and smart pointers reaches the member named, reading returns it unchanged, an argument of its type is stored in it alone, an enumeration is set by a label it has, and a path that names nothing throws and changes nothing. False otherwise: integers out of range are stored as others (C88_fails_range), numbers given to strings become a character (C88_fails_string), unknown labels set 0 (C88_fails_label), numbers given to enumerations are ignored (C88_fails_enum_number), paths going on after an enumeration set the enumeration (C88_fails_below_enum), requests through null pointers are silently ignored (C88_fails_null), a hidden member of a base is used instead of that of the derived class (C88_fails_hidden). Assigning a whole class, floats other than double, char, const members are not covered.  What is stored from other types of JSON values: C88_convert_partial (numbers between numeric types), C88_refused (a string for a number is an exception and changes nothing), C88_no_argument, C88_fails_char (a number stored in a string is a character), C88_fails_real (a real outside the range of an integral type is undefined), C88_pointer_enum, C88_shown, C88_about."
  },
  {
   "property": "C89",
   "status": "partial",
   "theorems": [
    "Verif.Rest.C89_created_partial",
    "Verif.Rest.C89_fails_callback",
    "Verif.Rest.C89_fails_name"
   ],
   "note": "With a callback and a name other than the factory's (C89_created_partial). Without the optional callback every call throws after having created the object (C89_fails_callback); created under the factory's own name it destroys the function being executed (C89_fails_name)."
  },
  {
   "property": "C90",
   "status": "partial",
   "theorems": [
    "Verif.PyMod.C90_refused",
    "Verif.PyMod.C90_pointer_enum",
    "Verif.PyMod.C90_fails_lost_both",
    "Verif.PyMod.C90_get_enum",
    "Verif.PyMod.C90_get_seq",
    "Verif.PyMod.C90_size",
    "Verif.PyMod.C90_static_partial",
    "Verif.PyMod.C90_member_partial",
    "Verif.PyMod.C90_call_partial",
    "Verif.PyMod.C90_get_partial",
    "Verif.PyMod.C90_set_partial",
    "Verif.PyMod.C90_fails_assign",
    "Verif.PyMod.C90_fails_lost",
    "Verif.PyMod.C90_fails_pointers",
    "Verif.PyMod.C90_fails_function",
    "Verif.PyMod.C90_fails_elem",
    "Verif.PyMod.C90_fails_elem_registered",
    "Verif.PyMod.C90_fails_unregistered",
    "Verif.PyMod.C90_returned"
   ],
   "note": "Proved for objects in which no member hides a member of a base and no smart pointer points to a smart pointer: C90_member_partial (names lead to the member), C90_get_partial, C90_set_partial (simple variables), C90_call_partial (a call with arguments is the REST request); for any registry C90_static_partial (every beginning of the path registered, no part starting with an underscore). False otherwise: assignment only replaces the Python attribute and hides the member from then on (C90_fails_assign), and has no effect at all behind a smart pointer (C90_fails_lost); members behind a pointer to a pointer are not found though REST finds them (C90_fails_pointers), nor what is registered under a dotted name alone (C90_fails_unregistered); members named on a function instead of its result are undefined behaviour (C90_fails_function); _elem, _elemNoThrow, _erase and _insert of a returned sequence always raise (C90_fails_elem), and of a registered one do not exist (C90_fails_elem_registered). Not covered: len, [], insert, erase, keys and contains of wrappers, register(), the dictionary of enumerations.  C90_refused (a string for a number is an exception, nothing changes), C90_get_enum and C90_pointer_enum (enumerations are labels), C90_get_seq, C90_size, C90_fails_lost_both.  C90_returned: what is returned takes arguments as they are."
  },
  {
   "property": "C91",
   "status": "partial",
   "theorems": [
    "Verif.PyCon.C91_list_partial",
    "Verif.PyCon.C91_dict_partial",
    "Verif.PyCon.C91_fails_del",
    "Verif.PyCon.C91_fails_del_key",
    "Verif.PyCon.C91_fails_missing",
    "Verif.PyCon.C91_fails_wrong",
    "Verif.PyCon.C91_fails_contains",
    "Verif.PyCon.C91_fails_negative",
    "Verif.PyCon.C91_fails_number_key",
    "Verif.PyCon.C91_fails_none_key",
    "Verif.PyCon.C91_fails_fixed",
    "Verif.PyCon.C91_index",
    "Verif.PyCon.C91_past",
    "Verif.PyCon.C91_key",
    "Verif.PyCon.C91_number_key",
    "Verif.PyCon.C91_string_key",
    "Verif.PyCon.C91_pair",
    "Verif.PyCon.C91_fails_default",
    "Verif.PyCon.C91_orders",
    "Verif.PyCon.C91_fails_none_erase"
   ],
   "note": "C91_list_partial: all programs of len, [i] and [i]= with 0<=i<2^63, insert and erase on sequences that can grow and shrink, values being of the element type (an erase out of range does nothing). C91_dict_partial: all programs of len, [k], [k]=, erase, contains and keys on maps that would not raise a KeyError on a dictionary. False otherwise: del removes nothing and turns a double into NaN (C91_fails_del), on a map it adds the key (C91_fails_del_key); reading a key that is not there adds it (C91_fails_missing), and so does a failed assignment (C91_fails_wrong); contains of a sequence is always false (C91_fails_contains); negative indices are refused (C91_fails_negative); contains and erase take a number for the character of that code (C91_fails_number_key); contains(None) with integer keys is undefined (C91_fails_none_key); erase on a sequence of fixed size is silently ignored (C91_fails_fixed). Not covered: insert on maps beyond its key test (C62_insert), sets, elements of classes; iter(w) and x in w raise TypeError, the type having no such methods.  Refusals change nothing: C91_index, C91_past, C91_key, C91_number_key, C91_string_key, C91_pair; C91_orders gives the hypothesis on the order for both kinds of keys; C91_fails_default and C91_fails_none_erase."
  },
  {
   "property": "C92",
   "status": "partial",
   "theorems": [
    "Verif.PyLife.C92_global_partial",
    "Verif.PyLife.C92_result_partial",
    "Verif.PyLife.C92_member_partial",
    "Verif.PyLife.C92_kept_partial",
    "Verif.PyLife.C92_fails_member",
    "Verif.PyLife.C92_fails_element",
    "Verif.PyLife.C92_fails_target",
    "Verif.PyLife.C92_fails_request"
   ],
   "note": "Proved for registered objects and their members (C92_global_partial), results of functions (C92_result_partial), members of results while the result is held as well (C92_member_partial), each after any program that leaves the variables alone, and for all programs that keep all they get in variables of their own while no container changes, no pointer is reset and no request goes into the result of a function (C92_kept_partial). False otherwise, in every such program: a member of a result that is not held itself, as in y=f().m (C92_fails_member), an element after its container has been changed (C92_fails_element), a member of the target of a smart pointer after that has been reset (C92_fails_target), a REST request for a member of what a function returns by value (C92_fails_request)."
  },
  {
   "property": "C93",
   "status": "partial",
   "theorems": [
    "Verif.Rest.C93_shape",
    "Verif.Rest.C93_get_partial",
    "Verif.Rest.C93_set_partial",
    "Verif.Rest.C93_out_partial",
    "Verif.Rest.C93_fails_order",
    "Verif.Rest.C93_show",
    "Verif.Rest.C93_show_partial",
    "Verif.Rest.C93_fails_show",
    "Verif.Rest.C93_assign",
    "Verif.Rest.C93_assign_partial",
    "Verif.Rest.C93_copy",
    "Verif.Rest.C93_python_partial",
    "Verif.Rest.C93_fails_none",
    "Verif.Rest.C93_row",
    "Verif.Rest.C93_index",
    "Verif.Rest.C93_path"
   ],
   "note": "Proved for arrays of one dimension and square arrays of two: C93_get_partial, C93_set_partial, C93_out_partial (paths), C93_show_partial, C93_assign_partial (whole arrays), C93_python_partial (reading and assigning elements in Python). What is shown can be assigned back, whatever the dimensions (C93_copy). False otherwise: `T a[n][m]` is taken for m rows of n elements (C93_shape says exactly what each path gives, C93_show and C93_assign likewise for whole arrays), so that elements of C are out of range or exchanged (C93_fails_order, for all n and m that differ; C93_fails_show); in Python a row out of range is None and assigning to it is ignored (C93_fails_none). Arrays of three dimensions and more do not compile.  C93_row (assignment of a row), C93_path (members of elements), C93_index (indices that are no numbers)."
  },
  {
   "property": "C94",
   "status": "partial",
   "theorems": [
    "Verif.Rest.C94_refused",
    "Verif.Rest.C94_refused_path",
    "Verif.Rest.C94_program_partial",
    "Verif.Rest.C94_has",
    "Verif.Rest.C94_fails_false",
    "Verif.Rest.C94_fails_list",
    "Verif.Rest.C94_fails_get",
    "Verif.Rest.C94_fails_set",
    "Verif.Rest.C94_no_key"
   ],
   "note": "C94_program_partial: all programs of `@elem.k` with true or without argument, `@insert`, `@erase`, `@size`, `@keys`, replacement of the whole set, and len, contains, insert, erase and keys in Python get the answers a set gives, and leave the same elements, whatever set one starts with (C94_has). False otherwise: `@elem.k` with false removes k but then always throws (C94_fails_false); an argument in an array, `[true]`, throws or is decided by a variable without a value (C94_fails_list); in Python s[k] adds k (C94_fails_get), and so does s[k]=False (C94_fails_set). Keys in the path are plain text; quoted ones are read as in C62_quoted.  C94_refused and C94_refused_path: keys that are refused are exceptions and change nothing.  C94_no_key: `@elem` without a key."
  },
  {
   "property": "C95",
   "status": "partial",
   "theorems": [
    "Verif.Rest.C95_no_argument",
    "Verif.Rest.C95_fails_item",
    "Verif.Rest.C95_set_partial",
    "Verif.Rest.C95_seq_partial",
    "Verif.Rest.C95_map_empty_partial",
    "Verif.Rest.C95_fails_map",
    "Verif.Rest.C95_fails_bad",
    "Verif.Rest.C95_fails_other"
   ],
   "note": "Proved for sets (C95_set_partial), sequences that can be resized (C95_seq_partial) and maps without items (C95_map_empty_partial). False otherwise: keys of maps are not read, so that any map shown comes back as the single item of a value-initialised key and the first value (C95_fails_map); if an element cannot be read, what the container had is lost (C95_fails_bad); anything but an array in an array is accepted without effect (C95_fails_other).  C95_no_argument; C95_fails_item (items without a value, values refused)."
  },
  {
   "property": "C96",
   "status": "partial",
   "theorems": [
    "Verif.Rest.C96_class_partial",
    "Verif.Rest.C96_pointer_partial",
    "Verif.Rest.C96_empty",
    "Verif.Rest.C96_fails_behind",
    "Verif.Rest.C96_fails_enum"
   ],
   "note": "C96_class_partial: the list of an object of a class has the paths of all its members, members of members and those of bases, each once, and `@enum.T` for each type of enumeration in it; all names with a dot in front can be put after the path. C96_pointer_partial: a smart pointer has the list of what it points to. C96_empty: simple variables, enumerations and null pointers have empty lists. False otherwise: what is behind a smart pointer within the object is not listed though it can be requested (C96_fails_behind, always); `@enum.T` cannot be put after the path, only sent alone (C96_fails_enum). Containers and functions are not covered."
  },
  {
   "property": "C97",
   "status": "partial",
   "theorems": [
    "Verif.PolyVal.C97_program_partial",
    "Verif.PolyVal.C97_no_leak",
    "Verif.PolyVal.C97_cloneT",
    "Verif.PolyVal.C97_fails_self",
    "Verif.PolyVal.C97_fails_throw",
    "Verif.PolyVal.C97_fails_slice"
   ],
   "note": "C97_program_partial: for all programs in which no variable is assigned to itself or given the object it holds, null is not used as an object, objects are of classes derived by means of Object<> or Poly<> and memory does not run out in an assignment or addObject. C97_no_leak: no object is left when all variables are gone. C97_cloneT: cloneT<U>. False otherwise: `x=x` and `x=*x` read a deleted object whenever x has one (C97_fails_self); if there is no memory for the copy, the variable keeps the address of a deleted object, and destroying it is undefined (C97_fails_throw); objects of a class that inherits clone from a base are copied as that base, or become null and are lost (C97_fails_slice)."
  },
  {
   "property": "C98",
   "status": "partial",
   "theorems": [
    "Verif.PyClass.C98_found_partial",
    "Verif.PyClass.C98_scope",
    "Verif.PyClass.C98_fails_deep",
    "Verif.PyClass.C98_fails_order",
    "Verif.PyClass.C98_fails_scope"
   ],
   "note": "C98_found_partial: all sequences in which every class or enumeration is in the global scope, in a namespace or class of the global scope, or in a class given before it, and no class comes after a class inside it. C98_scope: the current scope stays the same, for everything and from every state. False otherwise: the first class given from a namespace within a namespace is not found, and neither is the inner namespace, which is put into the outer one under the name `a.b` (C98_fails_deep, all names); a class given after one of its inner classes hides that (C98_fails_order, all names); while a scope is open for a dotted name, as for the classes of the arguments of a function added under one, classes end up in that (C98_fails_scope, all names)."
  },
  {
   "property": "C99",
   "status": "partial",
   "theorems": [
    "Verif.PyDef.C99_known_partial",
    "Verif.PyDef.C99_ends_partial",
    "Verif.PyDef.C99_fails_cycle",
    "Verif.PyDef.C99_fails_static",
    "Verif.PyDef.C99_fails_abstract",
    "Verif.PyDef.C99_fails_base"
   ],
   "note": "C99_known_partial: for every program and every sequence of types given to Python that comes to an end, everything that can be had from them is known with all its attributes. C99_ends_partial: it does come to an end when there is no way from a type back to it by bases, elements of member arrays, elements of containers and pointers alone. False otherwise: C99_fails_cycle (it never ends if arrays, containers and pointers lead back, e.g. struct Node {shared_ptr<Node> children[2];}, whatever has been described before). What is left out: C99_fails_static (what static members have, take and return is not described), C99_fails_abstract (abstract classes that are returned), C99_fails_base (a base with a constructor is there without its members)."
  },
  {
   "property": "C100",
   "status": "partial",
   "theorems": [
    "Verif.PyReg.C100_counts",
    "Verif.PyReg.C100_alive_partial",
    "Verif.PyReg.C100_fails_leak",
    "Verif.PyReg.C100_fails_none",
    "Verif.PyReg.C100_names_partial",
    "Verif.PyReg.C100_rest_partial",
    "Verif.PyReg.C100_fails_stale",
    "Verif.PyReg.C100_fails_package"
   ],
   "note": "C100_counts: the reference count of every object is exactly the number of references the program and the module hold, plus what calls of register have lost; C100_alive_partial: nothing but None is deleted while referred to. C100_names_partial: names in the module and in the registry are the objects registered last. C100_rest_partial: requests for a name registered go to the object if nothing with a longer name fits. Not true: C100_fails_leak (an object given to register, even if refused, is never deleted), C100_fails_none (every successful call takes a reference to None away), C100_fails_stale (paths below the name still lead into an earlier object of the name, and names deleted from the module stay in the registry), C100_fails_package (a module inside a package refuses every call)."
  },
  {
   "property": "C101",
   "status": "partial",
   "theorems": [
    "Verif.PyEnum.C101_types_partial",
    "Verif.PyEnum.C101_names_partial",
    "Verif.PyEnum.C101_fails_alias",
    "Verif.PyEnum.C101_fails_pointer",
    "Verif.PyEnum.C101_fails_reference"
   ],
   "note": "C101_types_partial: the dictionary has exactly the enumerations of registered objects, their members and bases at any depth and of arguments and results by value, if types of the same name are the same. C101_names_partial: the names listed for a type are those enumerators after which no other of the same value is declared, hence all of them if values are distinct. Not true: C101_fails_alias (of enumerators with equal values only the last is listed), C101_fails_pointer (enumerations only behind smart pointers are missing), C101_fails_reference (those only taken or returned by reference too)."
  },
  {
   "property": "C102",
   "status": "partial",
   "theorems": [
    "Verif.GraphErr.C102_truncated",
    "Verif.GraphErr.C102_clean_partial",
    "Verif.GraphErr.C102_fails_dirty",
    "Verif.GraphErr.C102_fails",
    "Verif.GraphErr.C102_fails_forever",
    "Verif.GraphErr.C102_fails_level",
    "Verif.GraphErr.C102_pack_clean_partial",
    "Verif.GraphErr.C102_fails_pack",
    "Verif.GraphErr.C102_unpack_same",
    "Verif.GraphErr.C102_pack_same"
   ],
   "note": "C102_clean_partial, C102_pack_clean_partial: a call that returns leaves no trace. C102_truncated: data cut short anywhere is an exception. False after an exception: the static tables and the recursion count are not put back (C102_fails_dirty, C102_fails_level), so that a later unpack of any other buffer does not give the graph packed in it (C102_fails: null, an object of the other buffer, or one whose first member is the ID), for the rest of the run (C102_fails_forever), and a later pack of the same object writes the number 1 only, which cannot be unpacked (C102_fails_pack). C102_unpack_same, C102_pack_same: where no exception has been, these calls do what C13 says of them, restarts included."
  },
  {
   "property": "C103",
   "status": "partial",
   "theorems": [
    "Verif.Nested.C103_once",
    "Verif.Nested.C103_types_partial",
    "Verif.Nested.C103_fails_using",
    "Verif.Nested.C103_fails_struct",
    "Verif.Nested.C103_fails_template",
    "Verif.Nested.C103_fails_template_more",
    "Verif.Nested.C103_fails_bracket",
    "Verif.Nested.C103_fails_private"
   ],
   "note": "C103_once holds for every table. C103_types_partial: for files whose classes declare types by typedef, class, struct and enum, outside private parts and not as templates, a name is introduced exactly for the type found by C++ lookup. False with using declarations (C103_fails_using: they make no difference anywhere), members declared with struct or class (C103_fails_struct: a type is named that does not exist), private types (C103_fails_private) and classes after a member class template (C103_fails_template). C103_fails_template_more: the same for templates that are only declared and for operators, whatever comes before the next function with a name. C103_fails_bracket: typedefs that end in a bracket (functions, arrays) are not known."
  },
  {
   "property": "C104",
   "status": "partial",
   "theorems": [
    "Verif.Work.C104_files",
    "Verif.Work.C104_again",
    "Verif.Work.C104_header",
    "Verif.Work.C104_stmts_partial",
    "Verif.Work.C104_fails_function",
    "Verif.Work.C104_fails_pointer",
    "Verif.Work.C104_target_partial",
    "Verif.Work.C104_fails_enum"
   ],
   "note": "C104_files: exactly the definitions due, once each, behind what the file had before (C104_again: so a second run without emptying the directory doubles all of them). C104_header: every file begins with the header. C104_stmts_partial: same calls as without the option for base classes, data, arrays and static functions. False for other member functions (C104_fails_function: the object is not passed) and with -use_mbr_pointers for data (C104_fails_pointer). C104_target_partial, C104_fails_enum: for scoped enumerations the name of the type is written as `enum class E`, which is no type in C++."
  },
  {
   "property": "C105",
   "status": "partial",
   "theorems": [
    "Verif.Opt.C105_options_partial",
    "Verif.Opt.C105_order",
    "Verif.Opt.C105_missing",
    "Verif.Opt.C105_usage",
    "Verif.Opt.C105_version",
    "Verif.Opt.C105_fails_unknown",
    "Verif.Opt.C105_fails_late",
    "Verif.Opt.C105_fails_friend"
   ],
   "note": "C105_options_partial: for all lists of options and descriptors, with enough turns of the loop, exactly what was asked for (C105.asked, stated by membership and last occurrence); C105_order, C105_missing, C105_version, C105_usage. False: C105_fails_unknown (any other word beginning with a hyphen, anywhere among the options: the loop is never left), C105_fails_late (options behind a descriptor are taken for descriptors), C105_fails_friend (insert-friend never ends if given anything beginning with a hyphen)."
  },
  {
   "property": "C106",
   "status": "partial",
   "theorems": [
    "Verif.Fwd.C106_printed",
    "Verif.Fwd.C106_exact_partial",
    "Verif.Fwd.C106_nodef",
    "Verif.Fwd.C106_fails_defined",
    "Verif.Fwd.C106_fails_alias",
    "Verif.Fwd.C106_fails_scope",
    "Verif.Fwd.C106_fails_special"
   ],
   "note": "C106_printed: a complete description of what is printed. C106_exact_partial: as wanted if declarations are outside of namespaces and classes and nothing declared is also defined except in a typedef. C106_nodef. False: C106_fails_defined (a class declared and also defined, in any order, gets a second definition), C106_fails_alias (so does one named in a typedef), C106_fails_scope (for declarations in a namespace a class outside is defined), C106_fails_special (the end of the name of a specialisation)."
  },
  {
   "property": "C107",
   "status": "partial",
   "theorems": [
    "Verif.GraphMix.C107_ends",
    "Verif.GraphMix.C107_copy_partial",
    "Verif.GraphMix.C107_fails_shared",
    "Verif.GraphMix.C107_fails_growth"
   ],
   "note": "C107_ends: packing ends for every finite graph, with a limit not below the number of objects and two. C107_copy_partial: whatever is packed, unpacking it gives a graph every object of which is a copy of one of the original, pointers leading to copies of what they led to, and the objects of the class of the pointer packed are copied once each; the data behind are left. False for sharing of objects of other classes (C107_fails_shared: any object with two pointers to the same object of another class comes back with two objects) and for the size (C107_fails_growth: k+1 objects need 2^(k+2)-2 numbers), as each class has its own table, emptied when the outermost call for that class returns."
  },
  {
   "property": "C108",
   "status": "partial",
   "theorems": [
    "Verif.BinStream.C108_roundtrip_partial",
    "Verif.BinStream.C108_overwrites",
    "Verif.BinStream.C108_truncated",
    "Verif.BinStream.C108_fails_contents",
    "Verif.BinStream.C108_fails_set",
    "Verif.BinStream.C108_fails_nested",
    "Verif.BinStream.C108_nested_iff"
   ],
   "note": "C108_roundtrip_partial: plain data, vectors, and lists, deques and sets of these come back in a default constructed object, the data behind being left (so any number of objects in order). C108_overwrites: plain data and vectors come back in any object. C108_truncated holds for every type and object. False for lists and sets that have contents (C108_fails_contents, C108_fails_set: the contents stay) and for lists of lists (C108_fails_nested: every inner list comes back behind all those before it; C108_nested_iff: right only if all but the last are empty)."
  },
  {
   "property": "C109",
   "status": "proved",
   "theorems": [
    "Verif.File.C109_reads",
    "Verif.File.C109_written",
    "Verif.File.C109_roundtrip",
    "Verif.File.C109_rewind",
    "Verif.File.C109_empty",
    "Verif.File.C109_readonly"
   ],
   "note": "C109_written: a new file has what is written to it, in order. C109_roundtrip: it is read again, piece by piece. C109_reads: any program of reads, from any position, gets from a file what it gets from a buffer in memory of the same contents, and throws when that one throws. C109_rewind: reading again from the start. C109_empty: of writes of no bytes one function throws, the other does nothing. C109_readonly: a file that is read is not written to."
  },
  {
   "property": "C110",
   "status": "partial",
   "theorems": [
    "Verif.File.C110_seek_partial",
    "Verif.File.C110_seek_back_partial",
    "Verif.File.C110_fails_more",
    "Verif.File.C110_fails_retry",
    "Verif.File.C110_fails_reseti",
    "Verif.File.C110_fails_reseto",
    "Verif.File.C110_fails_size",
    "Verif.File.C110_fails_check",
    "Verif.File.C110_check_partial",
    "Verif.File.C110_reseti_size_partial"
   ],
   "note": "C110_seek_partial, C110_seek_back_partial: moving within a file that is read, and writing again the last bytes. False for the rest: whether there is more to read is always answered no (C110_fails_more); after a failed read the bytes left cannot be read (C110_fails_retry), as from memory they can; reseti does not discard what was written (C110_fails_reseti); reseto moves the place where data are written (C110_fails_reseto); size counts only what append wrote (C110_fails_size); the test that keeps BinStream from allocating a wrong count refuses nothing (C110_fails_check). C110_check_partial: in memory that test refuses exactly the counts for which there are not enough bytes. C110_reseti_size_partial: after reseti counting starts again."
  },
  {
   "property": "C111",
   "status": "partial",
   "theorems": [
    "Verif.Whole.C111_file_partial",
    "Verif.Whole.C111_chain",
    "Verif.Whole.C111_unchain",
    "Verif.Whole.C111_fails_lost"
   ],
   "note": "C111_file_partial: for every file of the form of C78 and every class in it (members as in C82: no ill-placed static or const), the statements written pack the base classes and members in order, unpacking restores each (C42 for excluded and constant parts), the data are used up. C111_chain, C111_unchain: so packing and unpacking such an object, from any data, is that of the pair of its parts, to which C01, C04, C05, C42 and the rest apply. False otherwise: a member lost by the parser (C66) keeps the value it had in the object unpacked to (C111_fails_lost, all objects)."
  },
  {
   "property": "C112",
   "status": "partial",
   "theorems": [
    "Verif.XdrNum.C112_portable_partial",
    "Verif.XdrNum.C112_stream_partial",
    "Verif.XdrNum.C112_data",
    "Verif.XdrNum.C112_refused",
    "Verif.XdrNum.C112_ldouble",
    "Verif.XdrNum.C112_fails_long",
    "Verif.XdrNum.C112_fails_wchar",
    "Verif.XdrNum.C112_fails_same"
   ],
   "note": "C112_portable_partial: every number that the type has on both machines, except long double, longs beyond 32 bits and wchar_t where it has two bytes. C112_stream_partial: sequences of these through the buffer of C71. C112_data: what is in the buffer, for numbers not negative, is the same on all machines, most significant byte first. C112_refused, C112_ldouble: longs beyond 32 bits are refused by a library that checks, long doubles always. False for the rest: such a long throws or comes back as another number even between machines that have it (C112_fails_long); a wchar_t of two bytes is read and written as four (C112_fails_wchar, undefined behaviour). C112_fails_same: the data of a negative signed char differ with the sign of char (it comes back right all the same)."
  },
  {
   "property": "C113",
   "status": "partial",
   "theorems": [
    "Verif.MpiMsg.C113_atomic",
    "Verif.MpiMsg.C113_fifo_partial",
    "Verif.MpiMsg.C113_waiting",
    "Verif.MpiMsg.C113_get",
    "Verif.MpiMsg.C113_all_to_all",
    "Verif.MpiMsg.C113_sendrecv_partial",
    "Verif.MpiMsg.C113_fails_sendrecv_tag",
    "Verif.MpiMsg.C113_fails_sendrecv_any",
    "Verif.MpiMsg.C113_fails_self",
    "Verif.MpiMsg.C113_fails_sendrecv_proc",
    "Verif.MpiMsg.C113_packed"
   ],
   "note": "C113_fifo_partial: in every execution, between different processes and for each tag, what is heard is the beginning of what was said, and the rest is waiting (send_recv with a tag named for receiving). C113_packed: a message holds what was packed into its buffer since that was empty. C113_get: which message is received and what is in the buffer. C113_atomic: what arrives between finding and receiving a message makes no difference. C113_waiting: msg_waiting. C113_all_to_all: the exchange of the manual. C113_sendrecv_partial: send_recv with one process and one tag receives what get would. False for the rest: a message to oneself is neither sent nor cleared, nor ever received (C113_fails_self); send_recv with another tag for receiving waits for one with the tag it sent (C113_fails_sendrecv_tag); with the default arguments it may receive a message of another length than it allocated memory for (C113_fails_sendrecv_any); after it source and tag are undefined, since the status is that of the message sent (C113_fails_sendrecv_proc)."
  },
  {
   "property": "C114",
   "status": "partial",
   "theorems": [
    "Verif.MpiMsg.C114_safe_partial",
    "Verif.MpiMsg.C114_fails_reuse",
    "Verif.MpiMsg.C114_fails_array",
    "Verif.MpiMsg.C114_fails_twice",
    "Verif.MpiMsg.C114_fails_process",
    "Verif.MpiMsg.C114_array_partial"
   ],
   "note": "C114_safe_partial: no execution of processes that leave a buffer alone until it is sent (and complete nothing with calls on arrays) is undefined; destruction is safe at any time. C114_array_partial: which requests a call on an array completes. False for arrays: their calls complete copies of the requests, so that afterwards every wait, test and the destructor use a request that no longer exists (C114_fails_array). Also undefined: use of a buffer that is being sent (C114_fails_reuse, which a program can avoid), and two asynchronous sends of one buffer followed by its destruction (C114_fails_twice), and sending to a process that does not exist (C114_fails_process)."
  },
  {
   "property": "C115",
   "status": "partial",
   "theorems": [
    "Verif.MpiFarm.C115_executed_partial",
    "Verif.MpiFarm.C115_safe_partial",
    "Verif.MpiFarm.C115_ended_partial",
    "Verif.MpiFarm.C115_fails_bcast",
    "Verif.MpiFarm.C115_fails_bcast_bad",
    "Verif.MpiFarm.C115_fails_tag",
    "Verif.MpiFarm.C115_fails_self",
    "Verif.MpiFarm.C115_fails_stream",
    "Verif.MpiFarm.C115_fails_twice"
   ],
   "note": "For all executions in which requests go to existing slaves with tag 0, what is broadcast is in the manager's own buffer, and `slave <<` is followed by a method (C115_executed_partial, C115_safe_partial), and for finalising the manager once at any time (C115_ended_partial). The code does not do the rest: bcast(c) sends the manager's buffer instead of c (C115_fails_bcast, C115_fails_bcast_bad), a request sent with a tag ends the slave (C115_fails_tag), one to process 0 is not executed (C115_fails_self), `slave << x` with anything but a method calls itself for ever (C115_fails_stream), and finalize() followed by the destructor sends to slaves that have ended (C115_fails_twice)."
  },
  {
   "property": "C116",
   "status": "partial",
   "theorems": [
    "Verif.PyVal.C116_back_partial",
    "Verif.PyVal.C116_seen_partial",
    "Verif.PyVal.C116_taken_partial",
    "Verif.PyVal.C116_fails_chars",
    "Verif.PyVal.C116_fails_enums",
    "Verif.PyVal.C116_fails_array",
    "Verif.PyVal.C116_fails_nul",
    "Verif.PyVal.C116_fails_utf8",
    "Verif.PyVal.C116_fails_unsigned",
    "Verif.PyVal.C116_fails_zero",
    "Verif.PyVal.C116_fails_refuse",
    "Verif.PyVal.C116_numbers"
   ],
   "note": "C116_back_partial: values come back unchanged, C116_seen_partial: Python sees them, C116_taken_partial: objects made by Python are taken, for all nestings of sequences with the exceptions found. False: characters in a sequence are given as numbers and refused when taken back (C116_fails_chars); enums in sequences of sequences are given as bools (C116_fails_enums: the overload for enums is declared after that for sequences); a std::array is never stored (C116_fails_array); texts end at the first zero byte (C116_fails_nul), those not UTF-8 are undefined behaviour (C116_fails_utf8), the zero character is an empty text (C116_fails_zero); unsigned 64 bit numbers from 2^63 on are negative to Python (C116_fails_unsigned); nothing that does not fit a number or a sequence is refused (C116_fails_refuse)."
  },
  {
   "property": "C117",
   "status": "partial",
   "theorems": [
    "Verif.Xml.C117_written_partial",
    "Verif.Xml.C117_fails_read",
    "Verif.Xml.C117_fails_key",
    "Verif.Xml.C117_fails",
    "Verif.Xml.C117_fails_dot",
    "Verif.Xml.C117_fails_blank"
   ],
   "note": "C117_written_partial: what is written holds each value in the element named by its key, for keys that can be names of elements (values as in C27). Reading does not work at all: C117_fails_read (whatever is parsed, a map that is the root or a member is left as it was; the range searched has only the name of the map itself), so that C117_fails holds for every map with entries; where that name is found, one entry with a key beginning with a dot is made (C117_fails_key). Keys with a dot or a blank are not written properly (C117_fails_dot, C117_fails_blank)."
  },
  {
   "property": "C118",
   "status": "partial",
   "theorems": [
    "Verif.JavaObj.C118_variables_partial",
    "Verif.JavaObj.C118_functions_partial",
    "Verif.JavaObj.C118_declared_partial",
    "Verif.JavaObj.C118_fails_static",
    "Verif.JavaObj.C118_fails_case",
    "Verif.JavaObj.C118_fails_overload",
    "Verif.JavaObj.C118_fails_few",
    "Verif.JavaObj.C118_fails_nested",
    "Verif.JavaObj.C118_fails_name"
   ],
   "note": "For all objects in which no two members of a class are to be found under the same name: C118_variables_partial, C118_functions_partial (any nesting), C118_declared_partial (classes without members of class type). False otherwise: a static constant is registered as a copy that is gone by the time it is used (C118_fails_static); of names that differ in the case of the first letter the getter and setter are those of the first (C118_fails_case); of overloaded methods the first declared is called, whatever the arguments (C118_fails_overload); too few arguments and names that are not registered are undefined behaviour in a release build (C118_fails_few, C118_fails_name); members of members are declared in the class file as if they were those of the class, twice if the names are the same (C118_fails_nested)."
  },
  {
   "property": "C119",
   "status": "partial",
   "theorems": [
    "Verif.RestFn.C119_called_partial",
    "Verif.RestFn.C119_alone_partial",
    "Verif.RestFn.C119_single_partial",
    "Verif.RestFn.C119_fails_width",
    "Verif.RestFn.C119_fails_element",
    "Verif.RestFn.C119_fails_empty",
    "Verif.RestFn.C119_fails_char",
    "Verif.RestFn.C119_fails_one",
    "Verif.RestFn.C119_fails_bare",
    "Verif.RestFn.C119_converted"
   ],
   "note": "C119_called_partial: for all sets of functions that differ in number of parameters or in the kind of one (bool, integer, floating point, string, or a sequence of another kind), without char, and all values without empty sequences; C119_alone_partial: for a function that is not overloaded all values; C119_single_partial: an argument without the array, if it is not a sequence. False for the rest: a char is written as a string but looked for as a number, so that another function or none is called (C119_fails_char); overloads that differ in the width of numbers only cannot be called at all (C119_fails_width), nor f(T) beside f(vector<T>) with a T (C119_fails_element), nor with empty sequences (C119_fails_empty); a single value is accepted for a sequence, but the function gets an empty one (C119_fails_one), and so with a sequence as the argument without the array (C119_fails_bare)."
  },
  {
   "property": "C120",
   "status": "partial",
   "theorems": [
    "Verif.XmlFlt.C120_number_partial",
    "Verif.XmlFlt.C120_digits_partial",
    "Verif.XmlFlt.C120_roundtrip_partial",
    "Verif.XmlFlt.C120_fails_default",
    "Verif.XmlFlt.C120_fails_sixteen",
    "Verif.XmlFlt.C120_fails_eight",
    "Verif.XmlFlt.C120_upper",
    "Verif.XmlFlt.C120_none",
    "Verif.XmlFlt.C120_large",
    "Verif.XmlFlt.C120_words"
   ],
   "note": "True if the program sets the precision of the stream before packing: C120_number_partial (any format, as many digits as it needs), C120_digits_partial (17 for double, 9 for float), C120_roundtrip_partial (objects). xml_pack_t does not set it, and with the default of 6 digits C120_fails_default: no integer of seven digits is read back unless its last digit is 0. One digit less than these is not enough (C120_fails_sixteen, C120_fails_eight)."
  },
  {
   "property": "C121",
   "status": "partial",
   "theorems": [
    "Verif.ExWrap.C121_int_partial",
    "Verif.ExWrap.C121_narrow",
    "Verif.ExWrap.C121_fails_narrow",
    "Verif.ExWrap.C121_fails_real",
    "Verif.ExWrap.C121_fails_divide",
    "Verif.ExWrap.C121_fails_unequal",
    "Verif.ExWrap.C121_bool_partial",
    "Verif.ExWrap.C121_fails_short",
    "Verif.ExWrap.C121_fails_mask",
    "Verif.ExWrap.C121_pointer_partial",
    "Verif.ExWrap.C121_fails_null",
    "Verif.ExWrap.C121_fails_fraction"
   ],
   "note": "C121_int_partial: all programs whose operands fit the type of the variable and do not widen the arithmetic, with binary operators on types not narrower than int; C121_narrow says exactly which results of binary operators differ for narrower ones; C121_bool_partial: all programs whose second operands of && and || have no side effects and that give &= a bool; C121_pointer_partial: all programs that assign pointers to objects only. False for the rest: x *= 1.5 leaves an int alone (C121_fails_real), x /= 1L<<32 is undefined (C121_fails_divide), an unsigned char is not unequal to an int with the same low byte (C121_fails_unequal), sums of narrow types are reduced (C121_fails_narrow), && and || evaluate both operands (C121_fails_short), x &= 2 does not clear (C121_fails_mask), and assigning null follows the null pointer (C121_fails_null). Comparing with a fractional number differs too (C121_fails_fraction)."
  },
  {
   "property": "C122",
   "status": "partial",
   "theorems": [
    "Verif.Xml.C122_roundtrip_partial",
    "Verif.Xml.C122_fails_mixed",
    "Verif.Xml.C122_fails_null",
    "Verif.Xml.C122_fails_class",
    "Verif.Xml.C122_fails_template"
   ],
   "note": "C122_roundtrip_partial: arrays of all types but pointers and names with template arguments, and tuples of one simple type without pretty printing. False for the rest: the second of two different types in a tuple is never read back (C122_fails_mixed, for all simple types, names and values), a class in a tuple is not either (C122_fails_class), null pointers in an array are not written so that those after them move up (C122_fails_null), and arrays of vectors and the like are written as text that is not XML (C122_fails_template)."
  },
  {
   "property": "C123",
   "status": "partial",
   "theorems": [
    "Verif.RestSig.C123_listed",
    "Verif.RestSig.C123_covered",
    "Verif.RestSig.C123_called_partial",
    "Verif.RestSig.C123_object_partial",
    "Verif.RestSig.C123_enum_partial",
    "Verif.RestSig.C123_fails_refused",
    "Verif.RestSig.C123_fails_const_overload",
    "Verif.RestSig.C123_fails_const",
    "Verif.RestSig.C123_fails_null",
    "Verif.RestSig.C123_refused_partial",
    "Verif.RestSig.C123_alone_partial",
    "Verif.RestSig.C123_const",
    "Verif.RestSig.C123_enum_refused",
    "Verif.RestSig.C123_fails_alike"
   ],
   "note": "Listing is right for functions (C123_listed, C123_covered), and the functions that can be called are, with values of the types listed, if they can be told apart (C123_called_partial, with the conditions of C119); variables that can be changed are set (C123_object_partial, C123_enum_partial, C123_alone_partial); what no function can take, constants and wrong enumerators are refused (C123_refused_partial, C123_const, C123_enum_refused). False otherwise: functions with pointers or references to non-const as parameters, returning a unique_ptr, or not const on a const object are listed though every call is refused (C123_fails_refused); of a const and a non-const method with the same parameters only the one registered last is there, so that on a const object nothing can be called (C123_fails_const_overload); const variables and null pointers list that they can be set (C123_fails_const, C123_fails_null). Functions whose parameters a request cannot tell apart, like int and long, are listed and refused as ambiguous (C123_fails_alike)."
  },
  {
   "property": "C124",
   "status": "partial",
   "theorems": [
    "Verif.JniClass.C124_class_partial",
    "Verif.JniClass.C124_fails_large",
    "Verif.JniClass.C124_fails_twice"
   ],
   "note": "C124_class_partial: all class names and methods that fit in the constant pool. How it is written is C52. False otherwise: classes with too many methods are not refused, the index of the class then being that of nothing (C124_fails_large), and methods with the same name and descriptor are both declared, which Java does not allow (C124_fails_twice)."
  },
  {
   "property": "C125",
   "status": "partial",
   "theorems": [
    "Verif.JniStub.C125_call_partial",
    "Verif.JniStub.C125_fails_second",
    "Verif.JniStub.C125_fails_underscore",
    "Verif.JniStub.C125_fails_confused",
    "Verif.JniStub.C125_compiles_partial",
    "Verif.JniStub.C125_fails_nested",
    "Verif.JniStub.C125_fails_unlinked"
   ],
   "note": "C125_call_partial: after any history, for methods called on one object only and names without underscores; C125_compiles_partial: the functions written do not clash. False otherwise: a method called on any other object acts on the object on which it was called first (C125_fails_second); methods with an underscore in the name are not found by Java (C125_fails_underscore) or are another method (C125_fails_confused); those for members of members are undefined (C125_fails_nested). With an underscore in a name Java reports that the method has no function (C125_fails_unlinked)."
  },
  {
   "property": "C126",
   "status": "partial",
   "theorems": [
    "Verif.JavaStr.C126_cpp_exact",
    "Verif.JavaStr.C126_java_exact",
    "Verif.JavaStr.C126_received_partial",
    "Verif.JavaStr.C126_fails_astral",
    "Verif.JavaStr.C126_sent_exact",
    "Verif.JavaStr.C126_name"
   ],
   "note": "C126_cpp_exact, C126_java_exact and C126_sent_exact say exactly which strings survive: those of ASCII characters other than NUL; false for all others. C126_received_partial: every text of the basic multilingual plane without NUL arrives in C++ as UTF-8; others do not (C126_fails_astral). C126_name: names of objects are kept."
  },
  {
   "property": "C127",
   "status": "partial",
   "theorems": [
    "Verif.XmlFile.C127_same_partial",
    "Verif.XmlFile.C127_unsigned_partial",
    "Verif.XmlFile.C127_packed_partial",
    "Verif.XmlFile.C127_roundtrip_partial",
    "Verif.XmlFile.C127_fails_slash",
    "Verif.XmlFile.C127_fails_comment",
    "Verif.XmlFile.C127_fails_name",
    "Verif.XmlFile.C127_fails_other",
    "Verif.XmlFile.C127_fails_behind"
   ],
   "note": "C127_same_partial: all texts without the byte 255 directly behind `/` or `<` or behind `>` and space; C127_unsigned_partial: all texts where char is unsigned; C127_packed_partial and C127_roundtrip_partial: what xml_pack writes, if names, CDATA and signed or unsigned char members are free of that byte. False otherwise with signed char: ungetc(-1) puts nothing back, so that the byte is lost from texts (C127_fails_slash, C127_fails_comment), or an element gets another name or the document is refused (C127_fails_other, C127_fails_name)."
  },
  {
   "property": "C128",
   "status": "proved",
   "theorems": [
    "Verif.PyPtr.C128_exact",
    "Verif.PyPtr.C128_basic",
    "Verif.PyPtr.C128_members",
    "Verif.PyPtr.C128_fails_element"
   ],
   "note": "C128_exact: every program shows what it would if objects lived for ever, except exactly those that use an object got through a pointer that is not a data member when no pointer refers to it any more, which is undefined (C128_fails_element is such a program). C128_members: with data members only there is no exception; C128_basic: nor for basic types."
  },
  {
   "property": "C129",
   "status": "partial",
   "theorems": [
    "Verif.XdrFile.C129_roundtrip_partial",
    "Verif.XdrFile.C129_data_partial",
    "Verif.XdrFile.C129_truncated_partial",
    "Verif.XdrFile.C129_hostile_partial",
    "Verif.XdrFile.C129_seek_partial",
    "Verif.XdrFile.C129_back_partial",
    "Verif.XdrFile.C129_fails_direction",
    "Verif.XdrFile.C129_fails_more",
    "Verif.XdrFile.C129_fails_large",
    "Verif.XdrFile.C129_fails_front",
    "Verif.XdrFile.C129_reset_partial",
    "Verif.XdrFile.C129_refused_partial",
    "Verif.XdrFile.C129_fails_programs",
    "Verif.XdrFile.C129_fails_front_write",
    "Verif.XdrFile.C129_fails_wchar"
   ],
   "note": "C129_roundtrip_partial (and C129_data_partial, C129_truncated_partial): all sequences of values that both machines have in the sense of C112; C129_hostile_partial: any contents, for programs that read no two byte wchar_t; C129_seek_partial, C129_back_partial: in the first four gigabytes. False otherwise: use in the wrong direction follows a null pointer (C129_fails_direction), a file being read always says that it is at its end (C129_fails_more), and positions are reduced to four bytes, so that moving beyond four gigabytes, or to a place in front of the file, goes elsewhere (C129_fails_large, C129_fails_front). C129_reset_partial: writing again from the beginning replaces what was written; C129_refused_partial: numbers without a place in the file are an exception. C129_fails_programs: programs in the wrong direction; C129_fails_front_write: going back too far while writing. C129_fails_wchar: a wchar_t of two bytes."
  },
  {
   "property": "C130",
   "status": "partial",
   "theorems": [
    "Verif.FixPriv.C130_exact",
    "Verif.FixPriv.C130_headers_partial",
    "Verif.FixPriv.C130_again",
    "Verif.FixPriv.C130_fails_order",
    "Verif.FixPriv.C130_fails_missing",
    "Verif.FixPriv.C130_fails_relative",
    "Verif.FixPriv.C130_named",
    "Verif.FixPriv.C130_not_named",
    "Verif.FixPriv.C130_fails_hidden"
   ],
   "note": "C130_exact: what the script leaves in its directory, for all existing directories given by absolute names: that for the last directory that has the header. C130_headers_partial: hence the claim, if directories with the same header have it alike. C130_again: running it again. False otherwise: of a header in two directories the wrong one is written, or the right one removed (C130_fails_order); for a directory that does not exist the files in the current directory are taken (C130_fails_missing); with relative names another directory is (C130_fails_relative). C130_named, C130_not_named: which directory a name leads to. C130_fails_hidden: headers with names beginning with a dot, or in such directories, are passed over, and only those."
  },
  {
   "property": "C131",
   "status": "partial",
   "theorems": [
    "Verif.UnpFail.C131_refused",
    "Verif.UnpFail.C131_pack_partial",
    "Verif.UnpFail.C131_pack_same",
    "Verif.UnpFail.C131_unpack_partial",
    "Verif.UnpFail.C131_again",
    "Verif.UnpFail.C131_fails_pack",
    "Verif.UnpFail.C131_fails_unpack",
    "Verif.UnpFail.C131_fails_lost",
    "Verif.UnpFail.C131_pointer",
    "Verif.UnpFail.C131_fails_tuple",
    "Verif.UnpFail.C131_fails_hostile",
    "Verif.UnpFail.C131_raw"
   ],
   "note": "Not so: packing something with a raw pointer is refused whatever the pointer is (C131_refused), but what comes before the pointer stays in the buffer (C131_pack_partial, C131_fails_pack; unchanged exactly if nothing does, C131_pack_same). Unpacking data that end early leaves the members complete in the data new and the others old, sequences with the elements that are complete, the position behind the last part complete (C131_unpack_partial; C131_fails_unpack, C131_fails_lost); a tuple has at most its first member replaced, though the others have been read (C131_fails_tuple). Data already in the buffer are never affected, and reading all the data to the same object again gives what was packed (C131_again). C131_pointer: no data make unpacking of a raw pointer succeed. C131_fails_hostile: data that packing does not write can be undefined instead of an exception. C131_raw: a raw pointer is refused before anything is taken from the data."
  },
  {
   "property": "C132",
   "status": "partial",
   "theorems": [
    "Verif.Qt.C132_members_partial",
    "Verif.Qt.C132_actions_partial",
    "Verif.Qt.C132_enums_partial",
    "Verif.Qt.C132_same_partial",
    "Verif.Qt.C132_plain",
    "Verif.Qt.C132_fails_semicolon",
    "Verif.Qt.C132_fails_signals",
    "Verif.Qt.C132_fails_macro"
   ],
   "note": "Proved for bodies made of Qt macros, signals, slots and the items of C66; C132_plain is for any input. Fails: `Q_OBJECT;` is described as a data member; without -respect_private signals are left out though protected members are not; a macro not among the four, like Q_DISABLE_COPY(A), is described as a function and swallows the declaration after it. Not covered: nested classes."
  },
  {
   "property": "C133",
   "status": "partial",
   "theorems": [
    "Verif.PolyRef.C133_shared_partial",
    "Verif.PolyRef.C133_deleted_partial",
    "Verif.PolyRef.C133_fails_throw",
    "Verif.PolyRef.C133_fails_null"
   ],
   "note": "Proved for programs of any length in which constructors do not throw. False otherwise: C133_fails_throw (addObject on a variable that has an object deletes it before constructing the new one, so destroying the variable deletes it twice). Also C133_fails_null: copies of a null polyref do not share what is added to one of them later. operator== of polyref cannot be compiled (it casts a const reference to a non-const one), so comparing is not modelled."
  },
  {
   "property": "C134",
   "status": "partial",
   "theorems": [
    "Verif.OnBase.C134_name",
    "Verif.OnBase.C134_identifier",
    "Verif.OnBase.C134_roundtrip_partial",
    "Verif.OnBase.C134_document_partial",
    "Verif.OnBase.C134_without",
    "Verif.OnBase.C134_fails_clash",
    "Verif.OnBase.C134_fails_member",
    "Verif.OnBase.C134_spelled",
    "Verif.OnBaseXml.C134_xml_partial",
    "Verif.OnBaseXml.C134_fails_xml"
   ],
   "note": "Proved for JSON (C134_roundtrip_partial) under the conditions of C22, without that on inherited names; C134_document_partial says where the base classes are in the document. The names are those of the types with everything but letters and digits replaced: C134_name says exactly which coincide, C134_identifier that plain identifiers do not. False: C134_fails_clash (N::A and N__A), C134_fails_member (a member called base_A). C134_without shows what happens without the option. The same for XML: C134_xml_partial, under the conditions of C27 without those on base classes; C134_fails_xml. C134_spelled: what the names are."
  },
  {
   "property": "C135",
   "status": "partial",
   "theorems": [
    "Verif.PyRef.C135_counted_partial",
    "Verif.PyRef.C135_alive_partial",
    "Verif.PyRef.C135_fails_twice",
    "Verif.PyRef.C135_fails_list",
    "Verif.PyRef.C135_fails_buffer",
    "Verif.PyRef.C135_fails_destroyed"
   ],
   "note": "C135_counted_partial, C135_alive_partial: all programs that give holders only references they have, each once, whatever is moved where. False otherwise: two holders of one new reference release it twice (C135_fails_twice); a plain pointer made of a buffer has no reference of its own, so that a list made of buffers releases references that were never made (C135_fails_list, C135_fails_buffer). C135_fails_destroyed: no use of a destroyed holder is defined."
  },
  {
   "property": "C136",
   "status": "partial",
   "theorems": [
    "Verif.PyIndex.C136_list_partial",
    "Verif.PyIndex.C136_below_partial",
    "Verif.PyIndex.C136_const",
    "Verif.PyIndex.C136_fails_unchecked",
    "Verif.PyIndex.C136_fails_negative",
    "Verif.PyIndex.C136_fails_silent",
    "Verif.PyIndex.C136_fails_methods",
    "Verif.PyIndex.C136_fails_no_index",
    "Verif.PyIndex.C136_fails_length",
    "Verif.PyIndex.C136_fails_del",
    "Verif.PyIndex.C136_refused_partial",
    "Verif.PyIndex.C136_fails_const_unchecked"
   ],
   "note": "Proved: every program of len(w), w[i] and w[i]=v gets the answers of a list of fixed length if operator[] throws when the index is too large (C136_list_partial), otherwise for indices below the length (C136_below_partial); const objects stay as they are and the number of elements never changes (C136_const). False in the code: indices that are negative or too large reach an operator[] that does not test them (C136_fails_unchecked), and where it does indices from the end are refused (C136_fails_negative); anything but a number as the index is used uninitialised (C136_fails_no_index); assignments to elements of const objects or of objects without operator[] do nothing, without an exception (C136_fails_silent), and so do insert and erase (C136_fails_methods); del removes nothing, and makes floating point numbers NaN (C136_fails_del); without size() the length is 0 (C136_fails_length). C136_refused_partial: where what is not a number is an exception, and for classes that test the index; C136_fails_const_unchecked: the same for const objects of classes that do not."
  },
  {
   "property": "C137",
   "status": "proved",
   "theorems": [
    "Verif.PyAdd.C137_names",
    "Verif.PyAdd.C137_added",
    "Verif.PyAdd.C137_refused",
    "Verif.PyAdd.C137_main",
    "Verif.PyAdd.C137_program",
    "Verif.PyAdd.C137_member",
    "Verif.PyAdd.C137_stops"
   ],
   "note": "C137_names: a path stands for one name in one module; C137_added: the object is found there, other names and modules stay; C137_refused: exactly when the module is missing there is an exception; C137_main: x is __main__.x; C137_program: any sequence of calls; C137_member: paths to members of objects are refused. Importing a module is taken not to change modules. C137_stops: what a program has done when a module is missing."
  },
  {
   "property": "C138",
   "status": "partial",
   "theorems": [
    "Verif.WinStub.C138_forwarded_partial",
    "Verif.WinStub.C138_reported",
    "Verif.WinStub.C138_missing",
    "Verif.WinStub.C138_types_partial",
    "Verif.WinStub.C138_fails_exception",
    "Verif.WinStub.C138_fails_null"
   ],
   "note": "Proved: if nothing is reported at the start, every program does with the stubs what it does with Python's own functions (C138_forwarded_partial); what is reported is exactly what is missing (C138_reported); functions that are missing do nothing and return 0 (C138_missing); the types are those of Python (C138_types_partial). False in the code: the class of exceptions is replaced by the address of Python's variable that points to it (C138_fails_exception); variables that are missing are null pointers (C138_fails_null)."
  }
 ]
}