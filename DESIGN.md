# Design

Formal model and proofs for classdesc (reflection based serialisation for C++), in Lean 4.33 (`/verif/lean`).
`properties.jsonl` has the properties in full, `MANIFEST.json` the status and theorems of each, this file what is
modelled, how it is proved and what is left out. `seeded/LOG.jsonl` has the mutation tests.

## Conventions

* Every model definition cites the file and lines of `/repo` it transcribes and says where it simplifies.
* Outcomes: a value, an exception, or undefined behaviour (`ub`: access out of bounds, null dereference, use of an
  uninitialised value, dangling reference). Nothing partial in C++ is silently made total.
* `size_t` and `int` arithmetic that can wrap is written with an explicit modulus.
* The specification a theorem is stated against does not call the model's functions.
* Where the unchanged code violates the property, the negation is proved with a concrete witness (a theorem with
  `fails`, `differs`, `diverges` or `lost` in its name), and what does hold is proved as `..._partial`. The full
  statement stays in `properties.jsonl`. "partial" therefore nearly always means *the code does not have the full
  property*, not that a proof is outstanding; each entry says which.
* Theorems for property Cnn are in `lean/Verif/Props/*.lean`, named `Cnn_...`, each with an `example` beside it that
  meets its hypotheses in a non-trivial case.

## Trusted base

* The Lean 4.33 kernel. Axioms, given per theorem below: A0 none, A1 `propext`, A2 `propext`, `Quot.sound`,
  A3 `propext`, `Quot.sound`, `Classical.choice`. No other axioms, no `sorry`, no `native_decide`, no `bv_decide`.
* The transcription from C++ to Lean. Template dispatch (`enable_if`, overloads) is resolved by hand.
* The member lists of classes, which the `classdesc` program generates from headers, are taken as given except where a
  property is about the generator (C44, C45, C63-C83).
* LP64, little endian, two's complement; conversions between integer types wrap (C++20, and all compilers before).
* Standard containers behave as specified (`OMap` for ordered ones). MPI collectives behave as the MPI standard says.

## Modelled and not modelled

| part of /repo | modelled in | not modelled |
|---|---|---|
| pack_base.h, pack_stl.h, pack_epilogue.h, polyAccessPack.h, poly.h, pack_stream.h | Buffer, BufferHist, Codec, CodecMore, CodecHostile, BinStream, File, UnpFail | errors of devices, thread specific state |
| xdr_pack.cc | Xdr, XdrNum, XdrFile (files) | the XDR library (taken from its documentation) |
| pack_graph.h | Graph, GraphDepth, GraphErr, GraphMix, Tree | restarts with several node classes; exceptions from allocation |
| ref.h, pack_base.h PtrStoreRef | Ref, PtrStore | threads, counter overflow |
| factory.h | Factory | |
| object.h | Object, PolyVal (clone) | |
| poly.h, polyBase.h | PolyVal, PolyRef, CodecMore (packing) | comparing polyrefs |
| classdesc.h (EnumKeys, head, tail, typeName, Exclude), typeName_epilogue.h | EnumKeys, Json, TypeName, ExWrap | tuple helpers, Exclude of a class |
| json_pack*.h, stringKeyMap_epilogue.h, polyAccessJsonPack.h, polyJsonBase.h | Json, Poly, OnBase (-onbase), XmlSkm (StringKeyMap as XML) | text form of JSON (library) |
| xml_pack*.h, xml_unpack*.h, xml_common.h, cdata.h, polyAccessXMLPack.h, polyXMLBase.h | Xml, XmlSkm, XmlFlt, XmlArr, XmlFile, OnBaseXml (-onbase) | |
| xsd_generate*.h | Xsd | attribute text other than name and type |
| multiArray.h | MultiArray | |
| classdescMP.h | Mpi, MpiMsg, MpiFarm | the MPI library |
| javaClass*.h, java/compileClass.cc, java/JNIEx.* | Java, JavaObj (objects called from Java), JniClass (the class made), JniStub (the functions written), JavaStr (strings) | conversions of numbers to Java objects |
| classdesc.cc, tokeninput.h | Scan, Tok, Decl, Bases, TopLevel, Emit, Body, TypeName, Overload, Nested, Work, Opt, Fwd, Qt | -onbase, -objc |
| insert-friend.cc | Tok (copying of the input), Friend (all functions, the main loop), Opt | |
| fix-privates | FixPriv | names with special characters |
| RESTProcess_base.h, RESTProcess_epilogue.h, polyRESTProcess.h, function.h | Rest, RestCall, RestSeq, RestMap, RestObj, RestArr, RestSet, RestFn, RestSig | TCL front end, JSON conversions of arguments of class type (parameters), `@list` of containers and functions, `@type`, `@signature` |
| pythonBuffer.h | Python (conversion, reference counts), PyVal (values given and taken), PyMod (modules, attributes, calls), PyCon (containers), PyIndex (classes with operator[]), PyLife (lifetimes), RestArr (C arrays), PyRef (PyObjectRef), PyReg (register), PyEnum (the enum dictionary) | printing of exceptions |
| pythonCAPI.cc | WinStub | types of parameters and results |
| random_init_base.h, random_init_epilogue.h | RandomInit | floating point members, unique_ptr, normalise hooks |
| dump_base.h, dump_epilogue.h | Dump | stream output of numbers |
| python_base.h, python_epilogue.h | PyCont (containers and arrays), PyScope (dotted names), PyClass (names of classes and enumerations), PyDef (what is described for a class), PyPtr (targets of smart pointers), PyAdd (addPythonObject) | members of classes, constructors, overloads |
| isa_base.h | Isa | |
| use_mbr_pointers.h, base_cast | Whole | members other than for pack and unpack |
| signature.h | Rest, RestSig | |
| Realloc.h | | all |


## Properties

### C01 In-memory pack buffer is a byte FIFO

*Status:* proved. All histories of writes and reads of an in-memory buffer, including zero-length and failing reads.

*Model:* `Buffer.lean`: heap block, `m_size`, `m_pos`, wrapping bounds check (pack_base.h pack_t). *Proof:* Simulation by an abstract queue of bytes, induction over the list of calls. *Left out:* File streams and XDR mode.

*Theorems (axioms):* `C01_fifo` (A3), `C01_reads_decided` (A3)

### C02 Reading past the end throws and changes nothing

*Status:* proved. Reads with pos+n < 2^64. C02_wrap_ub shows what happens outside that range.

*Model:* `Buffer.lean`: heap block, `m_size`, `m_pos`, wrapping bounds check (pack_base.h pack_t). *Proof:* Case analysis on the wrapped comparison; `C02_reachable` shows every state met is well formed; `C02_wrap_ub` is the witness beyond 2^64.

*Theorems (axioms):* `C02_read` (A3), `C02_reachable` (A3), `C02_wrap_ub` (A0)

### C03 Every value round-trips through pack and unpack

*Status:* proved. Whole type universe Ty (raw pointers are C12/C13). Excluded and const members keep the destination's value.

*Model:* `Codec.lean`: types `Ty`, values `Val`, `packM`/`decM` written after each pack/unpack template, on the buffer model. *Proof:* `encode` is a separate specification of the bytes; `packs` (CodecMain) shows packing appends them, `reads_both` that unpacking them anywhere restores the value; induction on the type. *Left out:* Floating point is raw bytes. Class descriptors (the member lists) are taken as given. Unordered containers are C51.

*Theorems (axioms):* `C03_roundtrip` (A3), `C03_roundtrip_plain` (A3)

### C04 Heterogeneous streams come back in order

*Status:* proved. Any list of items.

*Model:* `Codec.lean`: types `Ty`, values `Val`, `packM`/`decM` written after each pack/unpack template, on the buffer model. *Proof:* List induction on C03 with trailing data.

*Theorems (axioms):* `C04_stream` (A3)

### C05 Truncated data is always detected

*Status:* proved. Any type of the universe, any cut point.

*Model:* `Codec.lean`: types `Ty`, values `Val`, `packM`/`decM` written after each pack/unpack template, on the buffer model. *Proof:* Induction on the type: every strict prefix of `encode` throws (`CodecLemmas`, `CodecMain`).

*Theorems (axioms):* `C05_truncation` (A3)

### C06 Unpacking hostile bytes stays inside the buffer

*Status:* partial. Holds for all types and inputs without eight consecutive 0xFF, smart pointers included as long as the flag before each is a 0 or 1 (any other is an invalid bool and the only undefined behaviour possible). C06_string_fails and C06_bool_fails prove the full claim false for the unchanged code.

*Model:* `Codec.lean`: types `Ty`, values `Val`, `packM`/`decM` written after each pack/unpack template, on the buffer model; `CodecHostile.lean`. *Proof:* Induction on the type for arbitrary bytes. *Left out:* Smart pointers (the factory's allocation is not bounded).

*Theorems (axioms):* `C06_partial` (A3), `C06_string_fails` (A2), `C06_bool_fails` (A2)

### C07 Unpacking to a const destination skips exactly the value

*Status:* proved. For data that are a packing of the type. C07_array_differs records that for other data a const std::array consumes a different amount.

*Model:* `Codec.lean`: types `Ty`, values `Val`, `packM`/`decM` written after each pack/unpack template, on the buffer model. *Proof:* The same induction for the skipping decoder, compared with the ordinary one.

*Theorems (axioms):* `C07_skip` (A3), `C07_array_differs` (A2)

### C08 deepEq is value equality

*Status:* proved. Equality of fundamental values is equality of representation; C08_float_fails shows the difference for IEEE zeros.

*Model:* `CodecMore.lean` deepEq on packM. *Proof:* Injectivity of `encode` (CodecHostile).

*Theorems (axioms):* `C08_deepEq` (A3), `C08_deepEq_excluded` (A3), `C08_float_fails` (A3)

### C09 Buffer comparison operators agree with a total order

*Status:* partial. == and != are right for every conforming memcmp; < and > only for a memcmp that returns -1,0,1. C09_fails and C09_not_lexicographic prove the full claim false for the unchanged code.

*Model:* `Buffer.lean` cmp, with `memcmp` a parameter constrained as the C standard does. *Proof:* Case analysis; witnesses for the two false parts.

*Theorems (axioms):* `C09_partial` (A3), `C09_fails` (A3), `C09_not_lexicographic` (A2)

### C10 Rewinding the output position replays the whole stream

*Status:* proved. Histories over write, read, reseti, reseto, clear, seeko.

*Model:* `BufferHist.lean`: histories. *Proof:* Induction over histories with the list of bytes written since the last reset as ghost state.

*Theorems (axioms):* `C10_replay` (A3), `C10_fresh_start` (A3), `C10_seek_back` (A3)

### C11 Swap and move transfer buffers without loss

*Status:* proved. Ownership over any program of swap, move, destroy; C11_moved_from_unusable records the state a move leaves behind.

*Model:* `BufferHist.lean`: heap of blocks, owners. *Proof:* Invariant: live blocks and owners correspond one to one. *Left out:* Copying is C46/not defined for pack_t.

*Theorems (axioms):* `C11_ownership` (A3), `C11_swap` (A1), `C11_moved_from_unusable` (A0)

### C12 Trees of treenode pointers round-trip

*Status:* partial. Holds for node classes whose constructor nulls pointer members, no null pointers in containers, null destination (C12_tree_roundtrip_partial, any finite tree or DAG, any trailing data). The rest is false of the code: stale destination, uninitialised members and container elements keep their old value when null was packed; cycles do not end.

*Model:* `Tree.lean` (pack_graph.h:26-56). *Proof:* Induction on the unfolding of the finite structure. *Left out:* Byte level (stream of numbers, C03 does bytes).

*Theorems (axioms):* `C12_tree_roundtrip_partial` (A2), `C12_stale_fails` (A1), `C12_container_null_fails` (A0), `C12_constructor_fails` (A0), `C12_cycle_diverges` (A1)

### C13 Graphs with sharing and cycles round-trip up to isomorphism

*Status:* partial. Isomorphism for every finite graph, including cycles, sharing and containers of pointers, when no limit is set (recur_max = 0), and with a limit (500 unless set otherwise) when the graph has at most two objects fewer than the limit; packing ends. False otherwise: C13_fails_limit shows, for every limit of at least 2, a chain of limit - 1 objects with the pointers in containers whose unpacking is undefined. Pointers that are direct members are fine with any limit (C14_limit_partial). C13_two_roots_fails records that the guarantee is per root pointer: two root pointers are separate sessions.

*Model:* `Graph.lean` (pack_graph.h:84-164): static tables, ids, restart stack. *Proof:* Termination by objects without an id; unpacker follows packer with a growing correspondence (GraphIso). With a limit out of reach (levels are bounded by objects seen) both runs are the same as without one. Failure for every limit by induction along a chain. *Left out:* Overflow of the int ids.

*Theorems (axioms):* `C13_graph_roundtrip_partial` (A3), `C13_two_roots_fails` (A0), `C13_limit_partial` (A3), `C13_fails_limit` (A2)

### C14 The recursion limit does not change the unpacked graph

*Status:* partial. Proved for every limit >= 2 and node classes with graph pointers as direct members. False with containers of graph pointers (C14_vector_fails). C14_limit_one_diverges shows the bound 2 is sharp.

*Model:* same with recur_max. *Proof:* Same simulation, generalised over the restart stack.

*Theorems (axioms):* `C14_limit_partial` (A3), `C14_vector_fails` (A0), `C14_limit_one_diverges` (A2)

### C15 Reference counts equal the number of live references

*Status:* partial. After every program that runs to completion the counts are exact, and assignment has its stated effect. Programs whose operands are held independently of the overwritten reference never hit undefined behaviour. Full statement is false for p=p->next and p=*p on the last reference (C15_self_next_fails, C15_self_value_fails). Overflow of the int count is not modelled.

*Model:* `Ref.lean` (ref.h:26-86). *Proof:* Counting invariant with the references the code itself holds (RefLemmas). *Left out:* Overflow of the int count; multi threading.

*Theorems (axioms):* `C15_counts` (A3), `C15_defined_partial` (A3), `C15_assign_effect` (A2), `C15_self_next_fails` (A2), `C15_self_value_fails` (A2)

### C16 Objects created by unpacking raw pointers live exactly as long as someone owns them

*Status:* partial. Without assignment the lifetime is exact; with assignment nothing is destroyed early or twice but the old target leaks (C16_assign_fails, C16_self_assign_fails), so the full statement is false for this code.

*Model:* `PtrStore.lean` (pack_base.h:99-132). *Proof:* Invariant cnt = number of owners.

*Theorems (axioms):* `C16_lifetime_partial` (A3), `C16_not_early_partial` (A3), `C16_assign_fails` (A2), `C16_self_assign_fails` (A2)

### C17 Null and non-null smart pointers survive packing with their dynamic type

*Status:* partial. Proved in full for shared_ptr and unique_ptr. For poly and object pointers only non-null values and null over null; C17_poly_fails, C17_object_fails, C17_weak_fails prove the rest false for the unchanged code. C17_weak_partial: a weak pointer comes back as a live pointer when something else owns the target.

*Model:* `Codec.lean` ptr types, `CodecMore.lean` poly/object/weak. *Proof:* From C03; witnesses.

*Theorems (axioms):* `C17_smart_ptr` (A3), `C17_smart_ptr_simple` (A3), `C17_poly_partial` (A3), `C17_poly_fails` (A3), `C17_object_partial` (A3), `C17_object_fails` (A3), `C17_weak_partial` (A3), `C17_weak_fails` (A3)

### C18 Factory lookups return the first registration and never another type's object

*Status:* proved. For every key order and every sequence of registrations; also that later registrations never change what an earlier name creates.

*Model:* `Factory.lean` (factory.h:20-95) on `OMap`. *Proof:* Induction over registrations.

*Theorems (axioms):* `C18_create` (A1), `C18_throws_iff` (A2), `C18_types` (A2), `C18_stable` (A1)

### C19 Enum names and values correspond

*Status:* partial. Everything but the order of iteration is proved for enums no wider than int. Iteration is in order of int(value), not of declaration (C19_order_fails), and enums wider than int are truncated (C19_wide_fails).

*Model:* `EnumKeys.lean` (classdesc.h:761-902). *Proof:* Induction over the declaration list; conversion arithmetic by omega.

*Theorems (axioms):* `C19_name` (A2), `C19_value` (A3), `C19_value_name` (A3), `C19_unknown` (A3), `C19_has` (A3), `C19_iterate_partial` (A3), `C19_order_fails` (A1), `C19_wide_fails` (A1)

### C20 Enums survive textual serialisation

*Status:* partial. Proved for every table of an enum no wider than int, with any white space around the text. False for wider enums (C20_wide_fails). C20_undeclared_lost records that values without a name are read back as 0.

*Model:* `EnumKeys.lean` textual forms. *Proof:* Uses C19; white space skipping.

*Theorems (axioms):* `C20_roundtrip_partial` (A3), `C20_stream` (A3), `C20_wide_fails` (A1), `C20_undeclared_lost` (A3)

### C21 Dotted paths decompose and recompose

*Status:* partial. Proved for every path written with a leading dot (the form the descriptors produce) and every document: head/tail visit the names, json_find follows them, a basic value stored at a path whose parent object exists is found there, nothing else changes. C21_undotted_fails: packing under a name without a dot stores nothing.

*Model:* `Json.lean` (json_pack_base.h:227-600, json_pack_epilogue.h, stringKeyMap_epilogue.h), a JSON document being the library's documented value tree. *Proof:* Paths as lists of names (`JsonPath`), head/tail/find agree with them.

*Theorems (axioms):* `C21_visits` (A2), `C21_decomposes` (A1), `C21_find` (A2), `C21_store_find_partial` (A2), `C21_undotted_fails` (A2)

### C22 JSON round trip

*Status:* partial. Round trip proved for basic types, strings, declared enumerators, classes with bases, sequences, std::array, C array members, sets and maps, StringKeyMaps with non-empty dot-free keys, pairs not directly members, non-null smart pointers, for every previous destination and flag setting, at the root and at any member path. Missing because false: pair members, pairs inside pairs or map values, empty string keys with class values, null pointers to classes (C22_*_fails). The JSON library itself (text form) is outside the model.

*Model:* `Json.lean` (json_pack_base.h:227-600, json_pack_epilogue.h, stringKeyMap_epilogue.h), a JSON document being the library's documented value tree. *Proof:* `enc` specifies the document; packing yields it (`JsonPackMain`), unpacking it restores (`JsonUnpackMain`), sub-paths by `JsonSub`. *Left out:* Text form and parser of the JSON library (absent submodule). packKV is simplified: one path for all key kinds.

*Theorems (axioms):* `C22_roundtrip_partial` (A3), `C22_equal_partial` (A3), `C22_member_partial` (A3), `C22_pair_member_fails` (A2), `C22_map_to_pair_fails` (A2), `C22_empty_key_fails` (A2), `C22_dotted_key_fails` (A2), `C22_null_pointer_fails` (A2)

### C23 JSON unpack error policy

*Status:* partial. Proved: missing members unchanged and the rest assigned; throws exactly when a member is missing (with throw_on_error, not throw_on_not_found); containers given a non-array unchanged. The statement is false in four ways, each proved: throw_on_not_found has no effect on unpacking, a wrongly typed basic member throws regardless of flags, a missing enum is overwritten, a short JSON array is read past its end into a C array. What a present member receives is proved for every leaf type against the number the JSON value denotes (C23_assigns, C23_denotes_int), elementwise for sequences and fixed arrays.

*Model:* `Json.lean` (json_pack_base.h:227-600, json_pack_epilogue.h, stringKeyMap_epilogue.h), a JSON document being the library's documented value tree. *Proof:* Case analysis on unpackLeaf/catchU and induction over members.

*Theorems (axioms):* `C23_missing_partial` (A2), `C23_throws_partial` (A3), `C23_container_type_partial` (A2), `C23_basic_unchanged_partial` (A1), `C23_wrong_type_fails` (A2), `C23_not_found_flag_fails` (A2), `C23_missing_enum_fails` (A1), `C23_short_array_fails` (A1), `C23_short_array_pointer_fails` (A1), `C23_assigns` (A3), `C23_denotes_int` (A2), `C23_element` (A3), `C23_array_element` (A2)

### C24 Tuples round-trip through JSON

*Status:* partial. False for two or more elements (C24_rest_fails for every type and document, C24_roundtrip_fails). Proved: the packed array has every element in order, and the first element is restored.

*Model:* `Json.lean` (json_pack_base.h:227-600, json_pack_epilogue.h, stringKeyMap_epilogue.h), a JSON document being the library's documented value tree. *Proof:* List induction; false part for every type and document.

*Theorems (axioms):* `C24_first_partial` (A3), `C24_pack_partial` (A3), `C24_rest_fails` (A1), `C24_roundtrip_fails` (A2), `C24_member_fails` (A2)

### C25 XML character quoting is invertible

*Status:* partial. No markup is written and every ampersand starts an entity, for every string and either signedness. What the tokeniser returns is determined exactly: the string, except that with signed char codes 157 to 255 come back as 0 (C25_fails_signed). A decoded run that is exactly '<' or '</' is taken for markup by the parser (C25_fails_markup). Numeric references of both bases are read as their value (C25_hexadecimal, C25_decimal).  C25_plain: characters that need no quoting are written unchanged.

*Model:* `Xml.lean` (xml_pack_base.h:30-260, xml_pack_epilogue.h:130-290, xml_unpack_base.h:40-620). *Proof:* Per character, for either signedness of char.

*Theorems (axioms):* `C25_no_markup` (A2), `C25_ampersand` (A2), `C25_reads_exact` (A2), `C25_reads_partial` (A2), `C25_fails_signed` (A3), `C25_fails_markup` (A3), `C25_hexadecimal` (A3), `C25_decimal` (A3), `C25_plain` (A3)

### C26 XML output is well formed

*Status:* partial. Proved for a fresh packer, every type of the universe, arbitrary strings and either printing style. False for a packer used before under a dotted name, a null root pointer, and unsigned char members with markup characters (C26_fails_*). The universe now contains pointers to polymorphic objects.

*Model:* `Xml.lean` (xml_pack_base.h:30-260, xml_pack_epilogue.h:130-290, xml_unpack_base.h:40-620). *Proof:* Grammar of documents as an inductive predicate on bytes (`XmlDoc`); the packer's output satisfies it (`XmlPack`). *Left out:* Floats, tuples, enums, abort flag, failing streams, -onbase.

*Theorems (axioms):* `C26_well_formed_partial` (A2), `C26_fails_reuse` (A3), `C26_fails_null` (A3), `C26_fails_byte` (A3)

### C27 XML round trip

*Status:* partial. Proved for every value of the universe (booleans, integers of all widths, characters, strings, classes with bases, sequences, ordered containers, smart pointers, refs) under the stated conditions on strings, destinations and names; nine C27_fails_* theorems show the conditions needed. Pointers to polymorphic objects are in the universe; floats are in C120, tuples and arrays in C122. The words read as true and false are determined exactly (C27_bool_words).  C27_clamped: numbers out of range become the largest or smallest of the type.

*Model:* `Xml.lean` (xml_pack_base.h:30-260, xml_pack_epilogue.h:130-290, xml_unpack_base.h:40-620). *Proof:* Grammar → tokens → tree → key database → values (`XmlTree`, `XmlKeys`, `XmlUnpack`, `XmlMain`). *Left out:* As C26; minus sign in unsigned text.

*Theorems (axioms):* `C27_clamped` (A2), `C27_bool_words` (A3), `C27_roundtrip_partial` (A3), `C27_fails_empty_string` (A3), `C27_fails_empty_missing` (A3), `C27_fails_lt` (A3), `C27_fails_blank_char` (A3), `C27_fails_ref` (A3), `C27_fails_null_ref` (A3), `C27_fails_null_elem` (A3), `C27_fails_elem_ptr` (A3), `C27_fails_same_name` (A3)

### C28 Malformed XML is rejected

*Status:* partial. Proved: every truncation inside the root element is rejected; an accepted text is complete (continuations do not matter) and begins with a properly nested element; mismatched end tags are rejected at any depth unless the name ends the element's name or is longer than the open names together. The remaining cases are false (C28_fails_suffix, C28_fails_longer, C28_fails_nothing).  Numeric references: what follows the hexadecimal digits is passed over (C28_reference_fails) and a prefix 0x accepted (C28_reference_0x_fails). C28_fails_no_file: a file that is not there is read as an empty text.

*Model:* `Xml.lean` (xml_pack_base.h:30-260, xml_pack_epilogue.h:130-290, xml_unpack_base.h:40-620). *Proof:* Properties of successful parses (`XmlSound`).

*Theorems (axioms):* `C28_truncated` (A3), `C28_complete` (A3), `C28_accepted_partial` (A3), `C28_mismatch_partial` (A3), `C28_fails_suffix` (A3), `C28_fails_longer` (A3), `C28_fails_nothing` (A3), `C28_fails_entity` (A3), `C28_fails_no_file` (A1), `C28_reference_fails` (A3), `C28_reference_0x_fails` (A3)

### C29 Repeated XML keys are numbered consistently

*Status:* partial. Proved for every document of the grammar whose element names have no dot or hash, for every key with or without numbers. False for dotted element names (C29_fails_dot), which XML permits.

*Model:* `Xml.lean` (xml_pack_base.h:30-260, xml_pack_epilogue.h:130-290, xml_unpack_base.h:40-620). *Proof:* Database of a tree described independently (paths with sibling numbers); keys parse uniquely.

*Theorems (axioms):* `C29_numbering_partial` (A3), `C29_nought` (A2), `C29_fails_dot` (A3)

### C30 Multidimensional indexing is in bounds and injective

*Status:* partial. In bounds for every rank; injective and onto for ranks 1 and 2 built from a list of dimensions. False above rank 2 (C30_rank3_fails), for the dimension-array constructor (C30_array_ctor_fails), and undefined for a last dimension 0 under C++17 (C30_zero_dim_fails).  For rank 3 and above only indexing of const arrays compiles: on others the compiler prefers the constructor template.

*Model:* `MultiArray.lean` (multiArray.h:20-150). *Proof:* Arithmetic induction over dimensions. *Left out:* Element type, const views.

*Theorems (axioms):* `C30_stride` (A3), `C30_in_bounds` (A3), `C30_rank12_partial` (A3), `C30_iterate` (A3), `C30_rank3_fails` (A3), `C30_array_ctor_fails` (A3), `C30_zero_dim_fails` (A1)

### C31 Scatter delivers each marked segment and gather concatenates in rank order

*Status:* partial. Proved for every number of processes, every list of segments and every root, MPI's collective operations having their standard meaning: scatter delivers segment i to process i, gather concatenates in rank order, scatter then gather is the identity, bcast copies. Fails: a second scatter (marks are never counted afresh, the first mark is written behind the array), gather with const_buffer (root's size not multiplied by the number of processes), read position kept by scatter.

*Model:* `Mpi.lean` (classdescMP.h). *Proof:* Lists of segments; collectives by their standard meaning. *Left out:* The MPI library.

*Theorems (axioms):* `C31_scatter_partial` (A3), `C31_build` (A3), `C31_gather` (A3), `C31_scatter_gather` (A3), `C31_bcast` (A2), `C31_reuse_fails` (A3), `C31_position_fails` (A1), `C31_const_gather_fails` (A3)

### C32 Every slave is either idle or working, never both

*Status:* partial. Proved for every number of slaves and every interleaving, for requests made by exec whose methods answer: partition, no duplicates, all_idle exactly when nothing is outstanding, every request answered exactly once, waiting ends. Fails: methods that send nothing back (waits for ever), bcast of an answering method (idle twice).

*Model:* `Mpi.lean` master/slave transition system. *Proof:* Invariant over all interleavings. *Left out:* Fairness: waiting ends because each reply is pending in the model.

*Theorems (axioms):* `C32_partition_partial` (A3), `C32_answers_partial` (A3), `C32_wait_partial` (A3), `C32_exec_idle` (A1), `C32_silent_fails` (A1), `C32_bcast_fails` (A1)

### C33 REST queries resolve to the longest registered prefix

*Status:* partial. Longest dot-boundary name gets exactly the rest (or the request about it: @signature, @list, @type); not-found characterised exactly; a container or smart pointer under the empty name gets everything else. The unrestricted statement is false: a class registered under the empty name is a prefix of every path but answers only requests about itself (C33_fails_root).

*Model:* `Rest.lean` (RESTProcess_epilogue.h:409-504). *Proof:* Dispatch loop = longest dot-boundary prefix; characterisation of not found.

*Theorems (axioms):* `C33_longest_partial` (A3), `C33_not_found` (A3), `C33_root` (A3), `C33_wrapper` (A3), `C33_fails_root` (A3)

### C34 Overload resolution picks the unique best match or throws

*Status:* partial. For any scores: called exactly when strictly lowest and a match, 'no suitable' exactly when none matches, 'ambiguous' exactly on a tie for lowest, order irrelevant. For the scores: closed form, and match = enough arguments each fitting, when arity and excess arguments are below a bound; without the bound it is false (C34_fails_excess, C34_fails_wrap). Which JSON value fits which parameter type is characterised exactly (C34_matches_iff, C34_fits_iff).

*Model:* `Rest.lean` (RESTProcess_epilogue.h:187-211, base 1229-1464). *Proof:* Fold over overloads; scores in 32 bit unsigned arithmetic.

*Theorems (axioms):* `C34_call` (A3), `C34_no_match` (A3), `C34_ambiguous` (A3), `C34_order` (A3), `C34_score` (A3), `C34_matchable_partial` (A3), `C34_exact` (A3), `C34_single` (A2), `C34_fails_excess` (A3), `C34_fails_wrap` (A3), `C34_matches_iff` (A3), `C34_fits_iff` (A3)

### C35 Overload registry keeps one entry per signature, last registration wins

*Status:* partial. One function per list of argument types, functions under a name exactly those registered and not ousted since, objects take over. False for numbers and strings, which are registered with emplace and lose to anything registered earlier (C35_fails_number).

*Model:* `Rest.lean` add (RESTProcess_base.h:357-398). *Proof:* Invariant over registration sequences.

*Theorems (axioms):* `C35_one_per_signature` (A2), `C35_functions_partial` (A2), `C35_registered` (A2), `C35_object` (A2), `C35_number_partial` (A2), `C35_fails_number` (A3)

### C36 Function arguments are marshalled in order

*Status:* partial. Each parameter receives the argument of its position, in JSON and in binary calls; too few or unreadable arguments throw without the call being made; left-over arguments go to the result. False for a member path after the call, where the arguments are given again to the member (C36_fails_member).

*Model:* `RestCall.lean` (function.h:482-645, RESTProcess_base.h:1125-1228). *Proof:* Induction over the parameter list; binary part uses C03. *Left out:* Return value conversion.

*Theorems (axioms):* `C36_json_partial` (A2), `C36_unreadable` (A1), `C36_leftover` (A1), `C36_single` (A2), `C36_fails_member` (A3), `C36_binary_partial` (A3)

### C37 Schema types are emitted once and after their dependencies

*Status:* partial. Proved for every state of the generator: the recursion depth is bounded by the number of names, each defined type is written exactly once, and after each recorded dependency that does not depend on it in turn (so for acyclic relations after all of them). Missing: a base class is not recorded as a dependency, so a derived class can be written before its base (C37_base_fails).

*Model:* `Xsd.lean` (xsd_generate_base.h). *Proof:* Depth-first search invariant (`XsdOut`). *Left out:* Text of attributes other than name and type.

*Theorems (axioms):* `C37_output_partial` (A3), `C37_base_fails` (A1)

### C38 Schema fragments are properly nested

*Status:* partial. Proved for all class structures in which class bases come first (any members, containers, pairs, enums, arrays, pointers, several roots). False for a class derived from a string or container and then from a class: C38_string_base_fails.

*Model:* `Xsd.lean`. *Proof:* Stack discipline over token lists (`XsdNest`). *Left out:* as C37; std::tuple

*Theorems (axioms):* `C38_nested_partial` (A3), `C38_string_base_fails` (A1)

### C39 Java class file integers and strings round-trip big-endian

*Status:* partial. Integers of all widths: big-endian and read back, every value. Strings shorter than 32768 bytes. Fails: strings of 32768..65535 bytes (length taken for negative: packing undefined, reading throws); longer strings are cut; 64 bit values assigned to a u8 lose the upper half.

*Model:* `Java.lean` (javaClass.h, javaClass_serialisation.h). *Proof:* Base 256 digits.

*Theorems (axioms):* `C39_big_endian` (A3), `C39_integers` (A3), `C39_strings_partial` (A3), `C39_long_strings_fail` (A3), `C39_overlong_strings_cut` (A2), `C39_u8_assign_fails` (A3)

### C40 Java constant pool indices stay valid

*Status:* partial. Indices stay valid over every sequence of additions while the pool has at most 65536 entries; entries never move; pools and whole class files with collections below 32768 read back. Fails: pools of 32768 to 65535 entries write nothing but the count and cannot be read.

*Model:* `Java.lean`. *Proof:* Invariant over additions; round trip by induction on the pool.

*Theorems (axioms):* `C40_pool_partial` (A3), `C40_pool_size_fails` (A3), `C40_stable` (A1), `C40_method` (A2), `C40_flags` (A2), `C40_class_partial` (A3), `C40_long_string_fails` (A3)

### C41 BinStream vectors: declared size is validated before allocation

*Status:* proved. Any declared count, element size and data; the wrapping of the check is modelled and shown harmless because resize refuses.

*Model:* `CodecMore.lean` BinStream. *Proof:* Arithmetic on the wrapped product.

*Theorems (axioms):* `C41_validated` (A3), `C41_roundtrip` (A3)

### C42 Excluded and static-const members do not take part in serialisation

*Status:* proved. Any type of the universe.

*Model:* `Codec.lean`: types `Ty`, values `Val`, `packM`/`decM` written after each pack/unpack template, on the buffer model. *Proof:* Induction on the type with values equal up to excluded members.

*Theorems (axioms):* `C42_same_packing` (A3), `C42_no_bytes` (A1), `C42_untouched` (A3)

### C43 Sequence element access is bounds checked

*Status:* partial. Reading, writing, erasing, inserting and path access hit exactly the element of the index, and an index outside the sequence throws and leaves it as it was, for indices below 2^31 in paths and a JSON library that throws on mismatches. False for erase ranges, elemNoThrow, indices that are not numbers, const sequences and assignment through the sequence path (C43_fails_*). @size, fixed-length sequences, constant sequences, arguments of erase and partial assignment on a bad element are covered; further defects: C43_fails_large, C43_fails_uninitialised.  C43_erase_default_fails: a missing or unsuitable index erases the first element.

*Model:* `RestSeq.lean` (RESTProcess_base.h:616-738, epilogue 213-291). *Proof:* Case analysis, digits of the index in the path. *Left out:* Element processing below the index (passed on as a path).

*Theorems (axioms):* `C43_get` (A3), `C43_get_out` (A2), `C43_get_bad` (A2), `C43_set_partial` (A3), `C43_set_out` (A3), `C43_erase` (A3), `C43_erase_out` (A2), `C43_path_partial` (A3), `C43_path_end` (A3), `C43_path_out` (A3), `C43_insert` (A3), `C43_fails_erase` (A3), `C43_fails_noThrow` (A3), `C43_fails_index` (A3), `C43_fails_const` (A1), `C43_fails_assign` (A3), `C43_size` (A3), `C43_erase_argument` (A3), `C43_erase_default_fails` (A3), `C43_fixed` (A3), `C43_const_path` (A3), `C43_assign_stops` (A3), `C43_fails_large` (A3), `C43_fails_uninitialised` (A1)

### C44 Type-name qualification replaces every occurrence and nothing else

*Status:* partial. Proved for texts with at most one occurrence (and the trimming helper). With two occurrences the result is always wrong (C44_two_fails gives it exactly); occurrences inside longer identifiers are replaced too (C44_identifier_fails); an empty name never ends.

*Model:* `Scan.lean` (classdesc.cc:53-62, 296-315). *Proof:* Lists: first occurrence, the loop's offset arithmetic.

*Theorems (axioms):* `C44_space` (A1), `C44_absent` (A2), `C44_single_partial` (A2), `C44_two_fails` (A2), `C44_identifier_fails` (A0), `C44_empty_name_diverges` (A2), `C44_trim` (A2)

### C45 Delimited text is skipped exactly to the matching close

*Status:* partial. Proved for every bracket but '<', including end of input, and for template brackets and template argument lists away from the defects. False: C45_shift_fails ('>>' closing two of three levels), C45_default_fails (default argument ending in '>>'), C45_wrap_fails (count wraps). Works on token sequences; the tokeniser, from characters to these, is C63. Parameter lists with default arguments lose exactly the defaults (C45_defaults_partial).

*Model:* `Scan.lean` (tokeninput.h:275-320). *Proof:* Balanced bracket grammar, induction. *Left out:* Characters → tokens is C63.

*Theorems (axioms):* `C45_gobble` (A2), `C45_gobble_pair` (A1), `C45_gobble_eof` (A2), `C45_gobble_suffix` (A0), `C45_shift_fails` (A0), `C45_angle_partial` (A2), `C45_template_partial` (A2), `C45_defaults_partial` (A2), `C45_default_fails` (A0), `C45_wrap_fails` (A0)

### C46 Copying an MPI buffer copies its contents

*Status:* partial. Copy construction and assignment to an empty buffer copy contents and marks (and the copy scatters like the original). Assignment to a non-empty buffer appends: contents right iff the destination was empty. Assigning a buffer to itself is undefined when it holds data, and otherwise loses all marks (C46_fails_self).

*Model:* `Mpi.lean`. *Proof:* Equations. *Left out:* Requests pending at assignment (C34).

*Theorems (axioms):* `C46_wf` (A2), `C46_copy_partial` (A2), `C46_copy_ctor` (A2), `C46_assign_fails` (A1), `C46_fails_self` (A2), `C46_copy_scatters` (A3)

### C47 Iterators into containers are restored to the same element

*Status:* proved. Container before iterator. C47_order_fails shows that the other order is undefined.

*Model:* `CodecMore.lean` Iterator. *Proof:* Position arithmetic.

*Theorems (axioms):* `C47_iterator` (A3), `C47_no_container` (A3), `C47_order_fails` (A3)

### C48 Fixed-size std::array restores at most its own size

*Status:* proved. Sources of any length.

*Model:* `Codec.lean`: types `Ty`, values `Val`, `packM`/`decM` written after each pack/unpack template, on the buffer model. *Proof:* Induction over elements.

*Theorems (axioms):* `C48_array` (A3), `C48_same_size` (A3)

### C49 The recursion limit bounds the native call stack

*Status:* partial. False: restarts nest (C49_recursion_fails: unbounded depth with limit 2). Proved: within a session, and when nothing is deferred, the depth is at most recur_max.

*Model:* `Graph.lean` with call depth, `GraphDepth.lean`. *Proof:* Depth as ghost state.

*Theorems (axioms):* `C49_session_partial` (A2), `C49_shallow_partial` (A2), `C49_recursion_fails` (A3)

### C50 An allocation failure while packing leaves the buffer usable

*Status:* partial. Only that append reports the failure. C50_append_fails and C50_packraw_fails prove that earlier contents are lost, and that packraw dereferences null.

*Model:* `Buffer.lean` with failing allocator. *Proof:* Equations, witnesses.

*Theorems (axioms):* `C50_append_throws_partial` (A1), `C50_append_fails` (A1), `C50_packraw_fails` (A1)

### C51 Unordered containers round-trip and compare by value

*Status:* partial. The round trip is proved; C51_deepEq_fails proves that deepEq can be false for equal containers.

*Model:* `CodecMore.lean` unordered containers (iteration order a parameter). *Proof:* Permutations.

*Theorems (axioms):* `C51_roundtrip_partial` (A3), `C51_deepEq_fails` (A3)

### C52 Class files written are laid out as the Java virtual machine requires

*Status:* partial. False for every class description: the four top level counts are written as 8 byte native integers (C52_layout_fails), files laid out correctly cannot be read (C52_read_fails), 8 byte constants are not given two pool places (C52_long_constant_fails). Proved: everything up to the super class index is laid out correctly.

*Model:* `Java.lean`. *Proof:* Comparison with a separate layout specification.

*Theorems (axioms):* `C52_head_partial` (A3), `C52_layout_fails` (A3), `C52_read_fails` (A1), `C52_long_constant_fails` (A1)

### C53 The native stub's parameter list matches the method's signature

*Status:* proved. For every list of argument types. The stub's text itself is not modelled. Arrays of arrays, which the generator never emits, are misread (C53_nested_array_fails).

*Model:* `Java.lean` (javaClassDescriptor.h, compileClass.cc). *Proof:* Induction over arguments. *Left out:* Text of the stub.

*Theorems (axioms):* `C53_signature` (A3), `C53_nested_array_fails` (A3), `C53_general` (A3)

### C54 Schemas do not refer to undefined types

*Status:* partial. Proved when C arrays are of basic types or strings. False for a C array of a class or enum (C54_array_fails), and writing the schema makes the missing type unobtainable (C54_after_output_fails).

*Model:* `Xsd.lean`. *Proof:* Invariant: referenced = defined or pending (`XsdRefs`). *Left out:* as C37

*Theorems (axioms):* `C54_references_defined_partial` (A2), `C54_array_fails` (A1), `C54_after_output_fails` (A1)

### C55 Schema generation ends

*Status:* partial. Proved for classes that contain one another without a cycle; for every class on a cycle generation never succeeds (C55_recursive_fails), for a tree it overflows any stack (C55_tree_fails).

*Model:* `Xsd.lean`. *Proof:* Well-founded containment gives a fuel bound; a cycle exhausts every fuel. *Left out:* as C37

*Theorems (axioms):* `C55_terminates_partial` (A3), `C55_recursive_fails` (A2), `C55_tree_fails` (A1)

### C56 Schema definitions follow the XML Schema content model

*Status:* partial. Proved when every class has a base or a member and class bases come first; false for an empty class (C56_empty_class_fails).

*Model:* `Xsd.lean`. *Proof:* `nest` with a content model predicate. *Left out:* as C37

*Theorems (axioms):* `C56_content_partial` (A3), `C56_empty_class_fails` (A1)

### C57 The schema's root element describes the object

*Status:* partial. Proved when no base class is described under the name of the derived object (no bases, or descriptors generated with -onbase); with a plain base the root element gets the type of the base (C57_base_fails).

*Model:* `Xsd.lean`. *Proof:* Frame argument on the root field. *Left out:* as C37

*Theorems (axioms):* `C57_root_partial` (A1), `C57_base_fails` (A1)

### C58 CDATA strings survive XML

*Status:* partial. Proved for non-empty strings without NUL, ']]>' or ']]]' and not ending in ']', without pretty printing. The rest is false (C58_fails_*).

*Model:* `Xml.lean` (xml_pack_base.h:30-260, xml_pack_epilogue.h:130-290, xml_unpack_base.h:40-620). *Proof:* Tokeniser on the CDATA text.

*Theorems (axioms):* `C58_cdata_partial` (A3), `C58_fails_end` (A3), `C58_fails_bracket` (A3), `C58_fails_brackets` (A3), `C58_fails_nul` (A3), `C58_fails_pretty` (A3)

### C59 XML comments make no difference

*Status:* partial. Proved for every text before and after (not ending in a tag or beginning with white space) and every comment without double quotes and angle brackets. The rest is false (C59_fails_*).

*Model:* `Xml.lean` (xml_pack_base.h:30-260, xml_pack_epilogue.h:130-290, xml_unpack_base.h:40-620). *Proof:* Tokeniser skips the comment and continues in the same state.

*Theorems (axioms):* `C59_comment_partial` (A3), `C59_fails_bracket` (A3), `C59_fails_quote` (A3), `C59_fails_space` (A3)

### C60 XML attributes make no difference

*Status:* partial. Proved for every document whose attribute values are not blank. Empty and blank values make the document be rejected (C60_fails_*).

*Model:* `Xml.lean` (xml_pack_base.h:30-260, xml_pack_epilogue.h:130-290, xml_unpack_base.h:40-620). *Proof:* Parse of the tree with and without attributes fills the same database for elements.

*Theorems (axioms):* `C60_attributes_ignored_partial` (A3), `C60_fails_empty_value` (A3), `C60_fails_blank_value` (A3)

### C61 Listing of enums through REST

*Status:* partial. True when names beginning with @enum are only used for enums; otherwise C61_fails_other and C61_fails_short.

*Model:* `Rest.lean`. *Proof:* Range of the ordered map from the lower bound of @enum.

*Theorems (axioms):* `C61_enums_partial` (A3), `C61_fails_other` (A3), `C61_fails_short` (A3)

### C62 A map behind the REST interface is read and changed key by key

*Status:* partial. Set, get, setElem, insert and erase touch exactly the entry of the key, any key type with a strict order. False for members of an element (a copy is changed, C62_fails_member and C62_fails_path for all maps), arguments that do not convert (C62_fails_bad) and getElem of a missing key, which adds it (C62_fails_get).

*Model:* `RestMap.lean` (RESTProcess_base.h:840-1030, epilogue 308-379) on `OMap`. *Proof:* Lookup after insert/put/erase. *Left out:* JSON-quoted keys in the path are a parameter (library parser); sets.

*Theorems (axioms):* `C62_set_partial` (A3), `C62_get_partial` (A3), `C62_insert` (A2), `C62_erase` (A2), `C62_setElem` (A2), `C62_fails_member` (A3), `C62_fails_path` (A3), `C62_fails_bad` (A3), `C62_fails_get` (A3), `C62_quoted` (A3), `C62_bad_key` (A3)

### C63 The scanner delivers the tokens of the source text

*Status:* partial. Proved for all texts without attributes and continuation lines that can be split into tokens and separators by longest match; attributes standing apart make no difference. False for != (two tokens), preprocessor lines ending in a slash, a token at the very end of the text, attributes without spaces, double brackets in strings or never closed, and digit separators (C63_fails_*). Preprocessor lines may contain slashes and comments over several lines; #pragma lines are delivered as tokens.

*Model:* `Tok.lean` (tokeninput.h:24-235), character by character, with the push-back and attribute handling of the stream class. *Proof:* Specification: a text is separators and tokens, each token maximal (`C63.Doc`); induction over it. *Left out:* #pragma lines; characters above 127 in words; line numbers.

*Theorems (axioms):* `C63_tokens_partial` (A3), `C63_attribute` (A3), `C63_fails_ne` (A3), `C63_fails_slash` (A3), `C63_fails_end` (A3), `C63_fails_glue` (A3), `C63_fails_string` (A3), `C63_fails_open` (A3), `C63_fails_digits` (A3)

### C64 insert-friend copies what it reads

*Status:* partial. Proved for texts without [[ that do not end in a backslash, an opening bracket or a continuation. Attributes are not copied and the character after one is doubled (C64_fails_attribute); a last backslash is dropped (C64_fails_end). Where lines are inserted is C83.

*Model:* `Tok.lean` `echo`: what the stream writes while reading. *Proof:* Induction over the text. *Left out:* The lines insert-friend adds are C83.

*Theorems (axioms):* `C64_copied_partial` (A3), `C64_fails_attribute` (A3), `C64_fails_end` (A3)

### C65 The table of an enum lists its enumerators

*Status:* partial. Proved for all enums with at least one enumerator, values without top level commas and no braces, no comma after the last enumerator. False for an empty enum, a comma at the end, commas or braces in values, a variable declared with the enum and initialised, and `enum struct` (C65_fails_*).

*Model:* `Decl.lean` `enumAction` (classdesc.cc:250-288) on tokens. *Proof:* Induction over the enumerators; the specification writes the tokens of an enum from its parts. *Left out:* Where the table is written; the text of the table.

*Theorems (axioms):* `C65_enumerators_partial` (A3), `C65_declaration` (A3), `C65_fails_empty` (A3), `C65_fails_comma` (A3), `C65_fails_brace` (A3), `C65_fails_variables` (A3), `C65_fails_initialised` (A3), `C65_fails_struct` (A3)

### C66 Every member of a class gets exactly one action

*Status:* partial. Proved for every sequence of data declarations (any number of declarators; bit fields, arrays, initialisers), functions with or without bodies, destructors, operators, pointers to functions, labels, enums, friends and using declarations, with and without -respect_private. Member function templates are covered. Missing: nested classes, typedefs and constructors with initialisers. False for friend functions with a body (the class ends at the function's brace), brace initialisers in constructors and after =, nested template arguments closed by >>, commas of template arguments in initialisers, unnamed bit fields, static_assert, decltype, arrays without bound; const is kept beyond the declaration and static forgotten after the first declarator (C66_fails_*). Bodies cut off anywhere in the list are reported as end of input (C66_truncated_partial), and `>>` is covered inside nested template arguments. A template operator makes the generator forget the next member function, whatever it is (C66_fails_template): the flag is_template is only reset when a named function is met.  C66_actions_partial also says which members are recorded as static and as static constants, where static stands alone in its declaration and const has not been left over from an earlier one (false otherwise: C66_fails_const, C66_fails_static, C66_fails_result).

*Model:* `Decl.lean` `members` (classdesc.cc:318-346, 467-840) on tokens. *Proof:* Specification: a class body as a list of items, each with its tokens and the members it declares; a simulation lemma per kind of item (`Props/Members.lean`, lemmas on skipping brackets in `DeclFacts.lean`), induction over the list. *Left out:* Nested classes and typedefs are reported as `other`; the base class list (363-465, C73). The text written for an action is in C82, nested classes and typedefs in C78.

*Theorems (axioms):* `C66_members_partial` (A3), `C66_actions_partial` (A3), `C66_fails_template` (A3), `C66_truncated_partial` (A3), `C66_fails_friend` (A3), `C66_fails_constructor` (A3), `C66_fails_initialiser` (A3), `C66_fails_nested` (A3), `C66_fails_argument` (A3), `C66_fails_unnamed` (A3), `C66_fails_assert` (A3), `C66_fails_decltype` (A3), `C66_fails_flexible` (A3), `C66_fails_const` (A3), `C66_fails_static` (A3), `C66_fails_result` (A3)

### C67 JSON packing leaves a document alone where a value cannot go

*Status:* partial. Proved for object documents: with both flags clear nothing changes, for every type but tuples; basic types obey both flags exactly; other types below a non-object obey throw_on_error. False: a missing parent of a class, enum, container, array or smart pointer is governed by throw_on_error instead of throw_on_not_found (C67_wrong_flag_fails, C67_unreported_fails); a document that is not an object is discarded together with the flags (C67_root_fails).

*Model:* `Json.lean` (json_pack_base.h:227-600, json_pack_epilogue.h, stringKeyMap_epilogue.h), a JSON document being the library's documented value tree. *Proof:* `Missing` and `Blocked` say where following a path ends; induction over the type, the path growing by a name per level. *Left out:* The state of the document after an exception (nothing has been written by then).

*Theorems (axioms):* `C67_quiet_partial` (A2), `C67_basic` (A2), `C67_compound_partial` (A2), `C67_wrong_flag_fails` (A2), `C67_unreported_fails` (A2), `C67_root_fails` (A2)

### C68 A schema describes each class member by member

*Status:* partial. Proved for every class with at most one base, a class, when no enum, container, pair or array gets the same name. False when names of different types become equal after replacing punctuation (C68_collision_fails) and for classes derived from containers (C68_container_base_fails).

*Model:* `Xsd.lean`. *Proof:* The definition expected is written down directly (`describe`); induction over the recursion depth of four statements: calls that leave the definition alone, members, the base, element types of containers. *Left out:* as C37; minOccurs of optional members

*Theorems (axioms):* `C68_members_partial` (A3), `C68_collision_fails` (A1), `C68_container_base_fails` (A1)

### C69 JSON turned into Python objects and back is unchanged, and so is Python data turned into JSON

*Status:* partial. Proved for integers of 64 bits, text without zero bytes and dicts with distinct string keys. False otherwise: larger ints silently become -1, JSON integers from 2^63 up become negative (C69_bigint_fails); text is cut at a zero byte (C69_nul_fails); keys with the same text collide (C69_keys_fails); lists containing themselves and ordinary objects exhaust the stack (C69_cycle_fails); operator<< of an object writes a string that operator>> does not read back (C69_shift_fails).  C69_badkey: a key whose text cannot be had throws; C69_stack_fails: a list containing itself is never finished.

*Model:* `Python.lean`: the C API's type tests as a view `Node` of an arbitrary type of objects, so that cyclic objects are covered; `getJson` with the size of the stack, `newPy`. *Proof:* Inductive predicates `Fit`, `Simple`, `PyEq` as specification; induction over them. Cycles: any set of objects closed under having a part in the set has no result for any stack. *Left out:* Python's `str` of a key and its UTF-8 test are parameters; sequences other than lists (tuples and bytes become lists).

*Theorems (axioms):* `C69_json_partial` (A2), `C69_python_partial` (A2), `C69_bigint_fails` (A2), `C69_nul_fails` (A1), `C69_badkey` (A1), `C69_keys_fails` (A2), `C69_cycle_fails` (A1), `C69_stack_fails` (A1), `C69_shift_fails` (A2)

### C70 The references the Python interface holds to Python objects are counted exactly

*Status:* partial. Proved for every sequence of constructions, copies, destructions and handing out. False for assignment (C70_assign_fails) and array() (C70_array_fails), which leak, for attributes set from Python, which are released too early (C70_setattr_fails), and for null pointers, insert and erase, which release None too often (C70_none_fails). Reading a Python mapping as JSON leaves every key and value counted once too often (C70_fails_mapping).

*Model:* `Python.lean`: counts, buffer variables and wrapper attributes as a state, one operation per constructor, assignment, destructor etc. *Proof:* `held` counts the variables holding an object; the difference of count and `held` is invariant, by induction over the operations. *Left out:* Temporaries inside get<json_pack_t> and newPyObjectJson (the dict branch leaks its values); push_back when PyList_Append fails.

*Theorems (axioms):* `C70_fails_mapping` (A3), `C70_balanced_partial` (A2), `C70_alive_partial` (A2), `C70_assign_fails` (A2), `C70_array_fails` (A3), `C70_setattr_fails` (A1), `C70_none_fails` (A2)

### C71 What is written to a machine independent (XDR) buffer comes out again in order

*Status:* partial. Proved up to 1020 bytes, and for moving back within a chunk or into the first. False beyond: more than 1024 bytes can be written but not read (C71_chunk_fails), growing puts the reading position back to the start (C71_rewind_fails), raw data above 1024 bytes is refused (C71_raw_fails), moving back over a chunk boundary ends elsewhere (C71_seek_fails); reading from an empty buffer succeeds (C71_empty_fails); pos() survives reseto (C71_pos_fails); swap mixes up encoding and decoding streams (C71_swap_fails).

*Model:* `Xdr.lean` (xdr_pack.cc:150-272): memory, chunk position, both streams as positions and lengths; the XDR library as documented. *Proof:* Refinement of a queue of bytes, by induction over the operations; the failures hold for all states or data beyond the limit. *Left out:* The byte layout of each type (library); XDR files; partial output of a filter that fails; out of memory.

*Theorems (axioms):* `C71_fifo_partial` (A3), `C71_chunk_fails` (A2), `C71_rewind_fails` (A3), `C71_empty_fails` (A0), `C71_raw_fails` (A3), `C71_seek_partial` (A3), `C71_seek_fails` (A3), `C71_pos_fails` (A2), `C71_swap_fails` (A0)

### C72 Type identifiers of the object hierarchy identify classes, and pointers into it survive packing

*Status:* partial. Proved for every order of use and registration within one run: identifiers are stable and distinct, create returns the class, non-null pointers are restored. False: null does not replace what a pointer holds (C72_null_fails), identifiers of another run may belong to another class (C72_order_fails), a class choosing its own identifier can take over another's (C72_fixed_fails), bad identifiers are undefined behaviour (C72_hostile_fails).  C72_contents: contents that cannot be read make unpacking throw.

*Model:* `Object.lean` (object.h): static identifiers, factory slots, pack and unpack of shared pointers. *Proof:* Invariant: an identifier given out has its class in the slot, every slot is given out. *Left out:* Reading and writing of contents is a parameter; the assertion in create is taken as compiled out; the const overload of unpack.

*Theorems (axioms):* `C72_create` (A2), `C72_distinct` (A2), `C72_roundtrip_partial` (A2), `C72_contents` (A2), `C72_null_fails` (A1), `C72_order_fails` (A2), `C72_fixed_fails` (A1), `C72_hostile_fails` (A2)

### C73 Base classes are described once each, in order

*Status:* partial. Proved for every list of bases whose names are words with or without template arguments (any nesting, `>>` included); typename is present when a parameter occurs before the last top level `::` (C73_typename), absent in unqualified names and when no identifier of the parameter list occurs. False: the keyword template is glued to the next word (C73_template_fails), a comma in parentheses splits a base (C73_comma_fails), shift operators hide the qualification (C73_shift_fails). A redundant typename is not excluded.  C73_identifiers: which characters make identifiers.

*Model:* `Bases.lean` `bases`, `typenameNeeded` (classdesc.cc:363-462, 234-248) on tokens. *Proof:* Specification: a base as prefix words and a name of words with bracket groups (`Base`), text as `Reads`; simulation per word, group and separator, induction over the list. `typename`: the scan from the right is followed with the bracket balance of the text behind it; completeness of `token_set` for whole words. *Left out:* -onbase; the table of virtual functions.

*Theorems (axioms):* `C73_bases_partial` (A3), `C73_typename` (A3), `C73_unqualified` (A3), `C73_plain` (A3), `C73_template_fails` (A3), `C73_comma_fails` (A3), `C73_shift_fails` (A3), `C73_identifiers` (A3)

### C74 The arguments of a class template are its parameters

*Status:* partial. Proved for named parameters with their name last, with template template parameters, packs and, from the tokens, defaults. False for unnamed parameters (C74_unnamed_fails), function pointers (C74_function_fails), defaults containing a comparison (C74_default_fails); an unclosed bracket is read beyond the end (C74_unclosed_fails).  C74_default_partial is about a default still present in the text.

*Model:* `Bases.lean` `extractTargs` (classdesc.cc:948-994) on bytes, together with `Scan.getTemplateArgs`. *Proof:* Specification: parameters as parts, pack mark and name, with the text of the list and of the arguments; the loop is followed part by part. *Left out:* bytes above 127 (isalnum of a negative char).

*Theorems (axioms):* `C74_targs_partial` (A2), `C74_default_partial` (A3), `C74_unnamed_fails` (A3), `C74_function_fails` (A3), `C74_default_fails` (A3), `C74_unclosed_fails` (A2), `C74_tokens_partial` (A2)

### C75 Every accessible class definition gets a descriptor

*Status:* partial. Proved for classes, class templates and specialisations whose arguments contain no template arguments; classes that are inaccessible or inside a template get none (C75_none). False for `final` or a macro after the name: the class is silently taken for a declaration (C75_final_fails); and for specialisations such as A<B<int>::C> (C75_specialisation_fails).

*Model:* `Bases.lean` `classHead`, `nested`, `qualify` (classdesc.cc:996-1049). *Proof:* Composition of C73, C74 and C45 with the scan for nested templates. *Left out:* What happens to the members (C66); out-of-class definitions `struct A::B` are modelled (`qualify`) but no theorem states them; `tokenBeforeLast` after template arguments is not tracked.

*Theorems (axioms):* `C75_class_partial` (A3), `C75_template_partial` (A3), `C75_specialisation_partial` (A3), `C75_none` (A3), `C75_final_fails` (A3), `C75_specialisation_fails` (A3)

### C76 Smart pointers to polymorphic objects keep the dynamic type and state of the object through JSON and XML

*Status:* partial. Proved for XML anywhere in the document under the conditions of C27, for hierarchies without a member called type (false otherwise, C76_xml_type_member_fails). For JSON proved for a pointer packed as the whole document, for the elements of a vector, and for pointers below an object that itself has a type; a JSON pointer that is a member of an ordinary class is silently lost (C76_json_member_fails) and a null pointer below an object with a type is read as an object of an arbitrary type (C76_json_null_child_fails).  C76_json_class_partial: a pointer among the members of a class in a document with a type; C76_json_document: the document holds the type of the object; C76_json_vector_stops: elements before one that fails are read, those after it untouched.

*Model:* `Poly.lean` (polyAccessJsonPack.h:22-110, polyJsonBase.h), `Xml.lean` constructor `XT.poly` (polyAccessXMLPack.h, polyXMLBase.h). *Proof:* JSON: the lemmas of C22 for the identifier and the members, with the test of the reader on the whole document followed by hand. XML: `poly` is a type of the universe of C26/C27, so the round trip is the general one. *Left out:* The factory is a function from identifiers to fresh objects; weak pointers; hierarchies deeper than one level below the pointer in JSON other than C76_json_nested_partial.

*Theorems (axioms):* `C76_json_root_partial` (A3), `C76_json_vector_partial` (A3), `C76_json_nested_partial` (A3), `C76_json_class_partial` (A3), `C76_json_document` (A3), `C76_json_vector_stops` (A3), `C76_json_ignored` (A1), `C76_json_member_fails` (A3), `C76_json_null_child_fails` (A2), `C76_xml_root_partial` (A3), `C76_xml_vector_partial` (A3), `C76_xml_unknown` (A3), `C76_xml_type_member_fails` (A3)

### C77 Random initialisation leaves every object in a valid state

*Status:* partial. Proved for every generator in [0,1) and every type of the universe except what it says of maps. False: the library's own rand() returns 1 exactly when std::rand() returns RAND_MAX (C77_default_rand), and then enumerations read behind their table (C77_enum_fails), 64 bit integers overflow (C77_int64_fails) and characters become DEL (C77_char_fails); keys of maps are never initialised, so an empty map gets at most one entry (C77_map_fails); of enumerations with aliases the last enumerators are never drawn (C77_alias_fails).

*Model:* `RandomInit.lean` (random_init_base.h, random_init_epilogue.h); doubles are rationals with rounding to nearest as a parameter (`Dbl`). *Proof:* Discreteness of the representable numbers and distance arguments for the draws; induction over the type for objects. *Left out:* Floating point members, unique_ptr (does not compile), user supplied random_init_normalise, x87 intermediate precision.

*Theorems (axioms):* `C77_valid_partial` (A3), `C77_default_rand` (A3), `C77_enum_reach` (A3), `C77_size_reach` (A3), `C77_enum_fails` (A3), `C77_int64_fails` (A3), `C77_char_fails` (A3), `C77_map_fails` (A3), `C77_alias_fails` (A3), `C77_rounding_exists` (A3)

### C78 Every type of a header gets a descriptor under its qualified name

*Status:* partial. Proved for every file made of plain tokens, parenthesised groups, pragmas, using and alias declarations, typedefs (in namespaces only of existing types), declarations, explicit instantiations, enumerations, classes with nested classes, class templates and specialisations without nested types, in namespaces nested to any depth. False: accessible types of a private class are registered (C78_private_fails), namespace a::b is ignored (C78_nested_namespace_fails), types local to a function are registered at namespace scope (C78_local_fails), after an unnamed enumeration with an underlying type nothing is (C78_unnamed_enum_fails), behind a member class template a function is lost (C78_member_template_fails), enumerations in class templates get a descriptor that cannot compile (C78_template_enum_fails), typedef struct loses its namespace (C78_typedef_fails) and access (C78_private_typedef_fails), attributes hide a class (C78_attribute_fails).  The registered actions carry the flags of C66_actions_partial.  Typedefs of unnamed and named classes are covered outside namespaces; the typedef of a pointer to a union gets a descriptor for the pointer that visits itself, the typedef of an array of unions is registered under the name ] (C78_union_pointer_fails).  C78_truncated_partial: a file that ends inside a class.  For files that end within a class: C78_truncated_nested_partial (inside a class inside a class: neither is registered, all types complete before the end are), C78_truncated_template_partial (after `template`).

*Model:* `TopLevel.lean`: the main loop (classdesc.cc:1236-1352), `parse_class` with nested classes and typedefs (467-822), `assign_class_action`, `parse_typedef`, `register_enum`; the lists `actions` of the run are the result. *Proof:* Specification: a file as a tree of declarations (`Src`, `Body`) with its tokens and the types it defines. One lemma per kind of declaration says that the loop passes over it (`Runs`), namespaces by the invariant `At` on the stack of ends; induction over the tree. Members, bases and parameters come from C66, C73-C75, enumerators from C65. *Left out:* Typedefs of pointers to unnamed structs and unnamed structs in classes are reported as `other`; the list `nested` of types declared in descriptors; virtualsdef.

*Theorems (axioms):* `C78_file_partial` (A3), `C78_truncated_partial` (A3), `C78_truncated_nested_partial` (A3), `C78_truncated_template_partial` (A3), `C78_private_fails` (A3), `C78_nested_namespace_fails` (A3), `C78_local_fails` (A3), `C78_unnamed_enum_fails` (A3), `C78_member_template_fails` (A3), `C78_template_enum_fails` (A3), `C78_typedef_fails` (A3), `C78_private_typedef_fails` (A3), `C78_union_pointer_fails` (A3), `C78_attribute_fails` (A3)

### C79 The compiler sees one descriptor per type and action, unless a pragma leaves it out

*Status:* partial. Proved for classes and enumerations whose names have no doubled or trailing underscore, and for class templates whose names and parameters have no underscore at all: guards are distinct for distinct types and actions (C79_guard_partial), and the preprocessed output has exactly one descriptor per type and action unless a directive of the header, of the action's own file or of that of an earlier action omits it (C79_run_partial), provided no directive is for an action whose name is a proper prefix of this one or conversely; C79_base_file, C79_marks, C79_twice. False in general: V<int*> and V<int&> share a guard and the second gets no descriptor (C79_specialisation_fails), so do ::a__b and ::a::b (C79_underscores_fails) and A_T<U> and A<T,U> (C79_parameters_fails); `#pragma omit xml _packX` omits X for xml_pack (C79_omit_fails); directives with a tab, with DOS line ends, indented in a file or in the file of a later action are not obeyed (C79_tab_fails, C79_dos_fails, C79_indented_fails, C79_order_fails); a bare `#pragma omit` ends the generator (C79_bare_fails); a typedef name that begins with struct, class or enum is mangled (C79_typedef_fails). Explicit specialisations and -workdir are not covered by the positive theorem.  C79_member says which name a pragma must give for an enumeration inside a class template.

*Model:* `Emit.lean`: `type_qualifier`, `without_type_qualifier`, `GuardMacro`, `rm_space`, the pragmas of the header (classdesc.cc:1254-1265), the `fscanf` loop over the file of the action (1485-1498), the name compared with the pragmas (1508-1531), the head of the descriptor (1556-1570); `seen` is the preprocessor on guarded text. *Proof:* Specification: names as a path and parameters; directives and lines as records with their text. Guards: the mask is injective because a doubled underscore marks each boundary. `run_mine` follows the list of actions with the directives in force, `seen_nodup` needs the guards to be distinct. *Left out:* Output to separate files (-workdir), types registered by `typedef struct`, and explicit specialisations (only in the counterexamples).

*Theorems (axioms):* `C79_guard_partial` (A3), `C79_base_file` (A3), `C79_twice` (A1), `C79_run_partial` (A3), `C79_marks` (A3), `C79_member` (A3), `C79_specialisation_fails` (A3), `C79_underscores_fails` (A3), `C79_parameters_fails` (A3), `C79_omit_fails` (A3), `C79_tab_fails` (A3), `C79_dos_fails` (A3), `C79_indented_fails` (A3), `C79_order_fails` (A3), `C79_bare_fails` (A3), `C79_typedef_fails` (A3)

### C80 The name of a type identifies it

*Status:* partial. Proved: the expression written for a class template evaluates to the names of the arguments in place of the type parameters, packs included, for all parameter lists without unnamed or template parameters (C80_generated_partial), and names are distinct for all types made of fundamental types, classes, library templates with default allocators and so on, templates of types, const on other than pointers, pointers, references and arrays (C80_identifies_partial). False in general: char* const and const char* (C80_const_fails, for all types), containers that differ in allocator, comparison or hash (C80_hidden_fails), all functions, member functions and std::functions (C80_function_fails), all tuples (C80_tuple_fails), all iterators (C80_iterator_fails), T and T&& (C80_rvalue_fails), instances that differ in arguments that are not types (C80_value_fails); unnamed parameters and values whose name contains class give text that is not C++ (C80_unnamed_fails); with a template template parameter the parameter list itself is the name (C80_template_fails).

*Model:* `TypeName.lean`: the constructor of `action_t` on bytes (classdesc.cc:79-133), an evaluator of the expression it writes, and `name`, the functions `typeName`/`tn` of the library over a data type of C++ types. *Proof:* Generated part: the loop is followed parameter by parameter; `class` can only be found at a parameter since texts are separated by spaces. Injectivity: spaces are deleted, a name is cut at the first character that is not part of a word, and induction on the size of the type follows the arguments; fixed names are looked up in a table. *Left out:* volatile, member data pointers (no name), enumerations in templates, explicit specialisations (named by their text), the guard macro of the generated function (as in C79), sizes of the built-in integer types other than the usual ones.

*Theorems (axioms):* `C80_generated_partial` (A3), `C80_identifies_partial` (A3), `C80_const_fails` (A3), `C80_hidden_fails` (A3), `C80_function_fails` (A3), `C80_tuple_fails` (A3), `C80_iterator_fails` (A3), `C80_rvalue_fails` (A3), `C80_value_fails` (A3), `C80_unnamed_fails` (A3), `C80_template_fails` (A3)

### C81 Member function pointers are declared with the type of their function

*Status:* partial. Proved for every class of member functions (with default arguments, virtual/static/inline, const, bodies, deleted), data members and access labels: one declaration per accessible function, in order, of the right type (C81_declared_partial), and variables differ if no name ends in a digit (C81_distinct_partial). Refuted otherwise: return types ending in >> (C81_shift_fails), commas in default arguments outside braces or in strings (C81_comma_fails, C81_string_fails), `f( )` (C81_space_fails), arguments beginning with :: or ... (C81_global_fails, C81_variadic_fails), a callback as first argument (C81_callback_fails), reference qualifiers and trailing return types (C81_ref_fails, C81_trailing_fails), typename in front of an unqualified template (C81_typename_fails), templates mentioned twice (C81_template_fails), f with eleven overloads beside f1 (C81_names_fails). Not covered: classes with nested types, templates, operators or arrays.

*Model:* The loop over the members of a class as far as functions, access labels and data members without braces or brackets go (`Over.step`, `Over.loop`): collection of the return type, the argument text, stripping of default arguments, `look`-ahead for const and delete, numbering, `reinstate` (replaceShornTypes), `insertTypename` and `MemberSig::declare`. *Proof:* `C81_declared_partial` is an induction over the members: `run_pre` carries the invariant that the collected return type spells the tokens read so far, `args_run` that the stripped argument text spells the argument types, `insert_spec` that `typename` only goes in front of a qualified name. The specification `Spells` says a text consists of given tokens; `Want.Is` gives the shape of a declaration. The refutations count a character that occurs too often or too rarely. *Left out:* Classes with nested types, templates, operators, arrays or brace initialisers; the Objective-C and Qt options; templates that mention themselves.

*Theorems (axioms):* `C81_declared_partial` (A3), `C81_distinct_partial` (A3), `C81_shift_fails` (A3), `C81_comma_fails` (A3), `C81_string_fails` (A3), `C81_space_fails` (A3), `C81_global_fails` (A3), `C81_variadic_fails` (A3), `C81_callback_fails` (A3), `C81_ref_fails` (A3), `C81_trailing_fails` (A3), `C81_typename_fails` (A3), `C81_template_fails` (A3), `C81_names_fails` (A3)

### C82 The code generated for a class visits each member once, under its name

*Status:* partial. Proved, from the tokens of a file to the text of the statements, for the classes of C78 without -overload and with static and const used as in C66_actions_partial: one call per base and per member, in order, with the member's name as label and the member itself (or a pointer to it) as argument; bounds and number of dimensions of arrays; static constants are marked; enumerations. False: -use_mbr_pointers takes pointers to bit fields and rvalue references (C82_bits_fails, C82_reference_fails), array bounds naming a constant of the class are not qualified (C82_bound_fails), a static function returning a constant is passed as a constant (C82_result_fails), the type function leaves out bases, references and, without -use_mbr_pointers, all data members, and mentions an object it does not have (C82_type_*_fails).

*Model:* `Body.lean`: the arguments recorded for each kind of member (classdesc.cc:328-344, 597-617, 716-768, 779-806) and the statements of `operator()` and `type()` printed from them (1585-1636). *Proof:* Specification: calls as a label and a list of arguments (`call`, `passed`, `pointer`). The text is split at commas; the tests the generator makes on its own text (`find`) are decided from what the names can contain. The members come from C78, whose `Match` carries the static and const flags. C82_once_partial reads the labels back from the text. *Left out:* -onbase, -objc, -overload; the using directive, nested types and function pointer variables declared before the statements (for the last see C81).

*Theorems (axioms):* `C82_operator_partial` (A3), `C82_type_partial` (A3), `C82_once_partial` (A3), `C82_enum` (A3), `C82_file_partial` (A3), `C82_bits_fails` (A3), `C82_reference_fails` (A3), `C82_bound_fails` (A3), `C82_result_fails` (A3), `C82_type_data_fails` (A3), `C82_type_reference_fails` (A3), `C82_type_base_fails` (A3), `C82_type_array_fails` (A3)

### C83 insert-friend gives access to every class with private members, and changes nothing else

*Status:* partial. Proved from the text of the header to the tokens of the output, for headers made of the parts listed in C83.Item, with white space behind the braces and labels after which something is inserted. False otherwise: without white space the line comes one character late and cuts words (C83_late_fails) or lands behind the class (C83_empty_fails); class templates run beyond the end of a string (C83_template_fails, for every class template in every such header); specialisations call a macro defined nowhere (C83_special_fails); classes inside structs without labels are left out and labels of inner classes taken for those of the struct (C83_nested_fails); scoped enumerations, functions returning a class and final classes are mistaken (C83_enum_fails, C83_function_fails, C83_missed_fails). Any option on the command line makes the program loop for ever (C105_fails_friend).  Specialisations for several arguments run beyond the end of a string as well (C83_comma_fails).

*Model:* `Friend.lean`: `insert_friend`, `extract_targs`, `deal_with_commas` and the main loop of insert-friend.cc on tokens; `run` puts the lines printed between the characters the scanner copies (`marks`: what is left after each token). *Proof:* Specification: a header as a list of parts with their tokens, which need access, and a text laid out with white space where something is inserted (`Layout`). Token level: one lemma per part (`item_run`), the body of a struct by induction over balanced braces. Text level: `lay_run` shows by induction over the layout that the spliced text is laid out again, so that C63 gives its tokens. Templates: whatever string ends in a space makes extract_targs read on. *Left out:* The command line; `static int cnt` is the parameter `cnt`, which stays 0 for names without commas; the undefined outcome is `none`.

*Theorems (axioms):* `C83_inserted_partial` (A3), `C83_template_fails` (A3), `C83_late_fails` (A3), `C83_empty_fails` (A3), `C83_enum_fails` (A3), `C83_nested_fails` (A3), `C83_missed_fails` (A3), `C83_function_fails` (A3), `C83_special_fails` (A3), `C83_comma_fails` (A3)

### C84 The text dumped for an object shows all of its contents

*Status:* partial. Proved for objects of classes: names without dots, braces and line ends, what is printed for numbers is a word, strings without line ends, map keys without brackets and line ends, pointers not to strings, pointers or arrays (C84_injective_partial, by decoding the text from the left); C84_shown_partial excludes maps from numbers to other things and empty arrays; C84_nested_partial needs values without braces. False otherwise: a container of numbers dumped by itself is not separated (C84_fails_separated), a null pointer looks like the string null (C84_fails_null), strings with line ends (C84_fails_lines), map entries share their line with the closing brace, carry the element's name between key and value, or lose the bracket before the key (C84_fails_map, C84_fails_map_name, C84_fails_key), a name with dots is cut (C84_fails_dots).

*Model:* `Dump.lean`: `format`, `dump_basic`, `dump_container`, the pair, array, pointer and enumeration overloads (dump_base.h:43-190) and the class `Format` of dump_epilogue.h over a data type of types and values. *Proof:* Injectivity: the text is read from the left, each piece being delimited by a line end, a space or a brace that cannot occur in it; mutual induction over types and member lists with the text that follows as a parameter. Shown: the lines of the text are compared with a list written from the value alone (`want`). *Left out:* The text the stream writes for numbers and enumerators (parameters; six digits for doubles); wide strings; member functions (print nothing).

*Theorems (axioms):* `C84_injective_partial` (A3), `C84_shown_partial` (A3), `C84_nested_partial` (A3), `C84_fails_separated` (A3), `C84_fails_null` (A3), `C84_fails_lines` (A3), `C84_fails_map` (A3), `C84_fails_map_name` (A3), `C84_fails_key` (A3), `C84_fails_dots` (A3)

### C85 Containers given to Python behave as Python's own

*Status:* partial. Proved: sequences of numbers and strings answer every program as a list does, for indices between 0 and 2^64 (C85_sequence_partial); members of elements of sequences can be assigned (C85_element); arrays of any rank within their bounds (C85_array_get_partial, C85_array_set_partial); maps: C85_map_get, C85_map_iter (with assignments in between), C85_map_for. False otherwise: assigning an element that is not a number or string does nothing (C85_fails_assign), negative indices are refused (C85_fails_negative), arrays are not checked, so that a for statement over one runs past its end (C85_fails_array_index, C85_fails_array_iter), elements of arrays are copies whose members cannot be assigned (C85_fails_array_member), a missing key is a RuntimeError (C85_fails_key). getMapItem for values that are not numbers or strings does not compile (python_base.h:251-255 returns a reference to a temporary) and is not modelled.  C85_overflow, C85_too_many and C85_modify_out: indices that do not fit, or are too many, are exceptions and change nothing.

*Model:* `PyCont.lean`: `getItemRef`, `getItem`, `setItem`, `convertListTo`, `assignList`, `getMapItem`, `setMapItem`, `Iterator`, `ArrayGet` (python_base.h:131-285, 976-1027, python_epilogue.h:35-47), as Boost.Python calls them: `index` is its converter to `size_t`. *Proof:* Specification: `pyStep` for lists, `nested` and `Nest.at` for nested lists. Sequences: simulation over all programs of operations with one iterator. Arrays: the offset of an element within the bounds is injective. Maps: `mrun_some` carries that everything still to come is not below the iterator's key. *Left out:* Conversions of single elements by Boost.Python (`none` is an object that cannot be converted); equality, `constructor`; sets.

*Theorems (axioms):* `C85_sequence_partial` (A2), `C85_element` (A3), `C85_fails_assign` (A2), `C85_fails_negative` (A2), `C85_array_get_partial` (A2), `C85_array_set_partial` (A2), `C85_fails_array_iter` (A3), `C85_fails_array_index` (A1), `C85_fails_array_member` (A2), `C85_map_get` (A1), `C85_fails_key` (A1), `C85_map_iter` (A2), `C85_map_for` (A2), `C85_overflow` (A2), `C85_too_many` (A3), `C85_modify_out` (A2)

### C86 Objects given to Python under dotted names are found there

*Status:* partial. C86_found_partial: additions to one scope follow each other, no name is that of another entry or of a scope, and at most one scope is left from one addition to the next (or the library destroys vector elements from the last one). False otherwise: a scope returned to is made anew and its contents are lost (C86_fails_return, every library); with libstdc++, which destroys elements from the first one, leaving two scopes at once makes the outer one current, so that functions land there and objects raise TypeError (C86_fails_leave), also for whatever the module defines once the python_t is gone (C86_fails_finish; with libc++ C86_finish holds for all additions). Classes of arguments, which addFunctional defines in the current scope, are not modelled.

*Model:* `PyScope.lean`: `Scope`, `checkScope`, `tail`, `addObject`, `addFunctional` and the destructor of `python_t` (python_base.h:497-510, 730-812) over a heap of attributes and Boost.Python's current scope; the order in which vector elements are destroyed is a parameter. *Proof:* Specification: `resolve` looks up a path from the module; `Grouped`, `Apart` and `Steps` speak about the names added only. Invariant: scopes are reached by one path each, the stack names the path of the scopes that are open, each restores the one around it. Setting an attribute leaves all paths alone that do not go through it. *Left out:* Overloads, equal names, classes of arguments, Boost.Python itself.

*Theorems (axioms):* `C86_found_partial` (A2), `C86_fails_return` (A2), `C86_fails_leave` (A2), `C86_fails_finish` (A2), `C86_finish` (A1)

### C87 isa tells whether one class is derived from another

*Status:* partial. C87_isa_partial: exact for classes without virtual functions. False with them: typeid of a reference to a base with virtual functions is that of the whole object, so that such a base is never found (C87_fails_virtual, for every hierarchy), and through a reference the class that was declared is not found either (C87_fails_reference).

*Model:* `Isa.lean`: `isa` and what the descriptor generated for a class calls (isa_base.h:37-76); `typeid` as C++ defines it. *Proof:* Specification: `Derives`, the reflexive and transitive closure of the bases. The types collected are exactly the `typeid` of the classes reached (`types_iff`, mutual induction). *Left out:* Ambiguous and virtual bases; equal types in different libraries, whose `type_info` objects differ.

*Theorems (axioms):* `C87_isa_partial` (A2), `C87_fails_virtual` (A2), `C87_fails_reference` (A2)

### C88 A path into an object behind the REST interface reads and sets exactly the member it names

*Status:* partial. Proved for objects in which no member hides a member of a base (C88_get_partial, C88_set_partial, C88_enum_partial, C88_missing_partial): any path through classes, bases and smart pointers reaches the member named, reading returns it unchanged, an argument of its type is stored in it alone, an enumeration is set by a label it has, and a path that names nothing throws and changes nothing. False otherwise: integers out of range are stored as others (C88_fails_range), numbers given to strings become a character (C88_fails_string), unknown labels set 0 (C88_fails_label), numbers given to enumerations are ignored (C88_fails_enum_number), paths going on after an enumeration set the enumeration (C88_fails_below_enum), requests through null pointers are silently ignored (C88_fails_null), a hidden member of a base is used instead of that of the derived class (C88_fails_hidden). Assigning a whole class, floats other than double, char, const members are not covered.  What is stored from other types of JSON values: C88_convert_partial (numbers between numeric types), C88_refused (a string for a number is an exception and changes nothing), C88_no_argument, C88_fails_char (a number stored in a string is a character), C88_fails_real (a real outside the range of an integral type is undefined), C88_pointer_enum, C88_shown, C88_about.

*Model:* `Verif.RestObj`: an object is a tree of described classes (bases and members in order), simple variables, enumerations and smart pointers, each with an address; the values are a memory. `regs` gives what the descriptor registers, in order; the registry is built and searched by the functions of `Verif.Rest` (C33, C35). `nodeProc`, `objProc`, `regProc` follow `process` of the entries, `RESTProcessObject` and the registry, a counter bounding their recursion (pointers may form cycles; every theorem says that some bound is enough). `convVar`, `convEnum` follow `convert` case by case. *Proof:* The names registered are shown to be exactly the paths that pass no pointer, the last registration under each being the one that counts; hence where dispatch ends for any path; then induction over the path. What a path should lead to is `C88.Reach`, and `C88.Lost` for one that names nothing, stated on the classes without the registry. *Left out:* Assignment of whole classes is a parameter; sequences and maps are C43 and C62, functions C34-C36; `float`, `char`, const and static members, arrays; `@list` is C96, `@type` and `@signature` requests give just `about`.

*Theorems (axioms):* `C88_convert_partial` (A3), `C88_refused` (A3), `C88_no_argument` (A3), `C88_fails_char` (A3), `C88_fails_real` (A3), `C88_pointer_enum` (A3), `C88_shown` (A1), `C88_about` (A3), `C88_get_partial` (A3), `C88_set_partial` (A3), `C88_enum_partial` (A3), `C88_missing_partial` (A3), `C88_fails_range` (A3), `C88_fails_string` (A3), `C88_fails_label` (A3), `C88_fails_enum_number` (A3), `C88_fails_below_enum` (A3), `C88_fails_null` (A3), `C88_fails_hidden` (A3)

### C89 A factory registered with the REST service creates objects under the names asked for

*Status:* partial. With a callback and a name other than the factory's (C89_created_partial). Without the optional callback every call throws after having created the object (C89_fails_callback); created under the factory's own name it destroys the function being executed (C89_fails_name).

*Model:* `Verif.Rest.factory`: the closure of `addFactory`: `add` under the name, then the callback, empty if none was given. The closure lives in the registry entry of the factory, which `add` under that name erases. *Proof:* By the laws of finite maps (`Verif.OMap`). *Left out:* The constructor of the object is not modelled, and neither are its exceptions.

*Theorems (axioms):* `C89_created_partial` (A2), `C89_fails_callback` (A2), `C89_fails_name` (A1)

### C90 Attributes of a Python module lead to the C++ members of that name, and calling them reads and sets them

*Status:* partial. Proved for objects in which no member hides a member of a base and no smart pointer points to a smart pointer: C90_member_partial (names lead to the member), C90_get_partial, C90_set_partial (simple variables), C90_call_partial (a call with arguments is the REST request); for any registry C90_static_partial (every beginning of the path registered, no part starting with an underscore). False otherwise: assignment only replaces the Python attribute and hides the member from then on (C90_fails_assign), and has no effect at all behind a smart pointer (C90_fails_lost); members behind a pointer to a pointer are not found though REST finds them (C90_fails_pointers), nor what is registered under a dotted name alone (C90_fails_unregistered); members named on a function instead of its result are undefined behaviour (C90_fails_function); _elem, _elemNoThrow, _erase and _insert of a returned sequence always raise (C90_fails_elem), and of a registered one do not exist (C90_fails_elem_registered). Not covered: len, [], insert, erase, keys and contains of wrappers, register(), the dictionary of enumerations.  C90_refused (a string for a number is an exception, nothing changes), C90_get_enum and C90_pointer_enum (enumerations are labels), C90_get_seq, C90_size, C90_fails_lost_both.  C90_returned: what is returned takes arguments as they are.

*Model:* `Verif.PyMod`: wrappers with their attributes (`A`), `attach` and `initModule` (what is attached when a module is loaded or a result returned), `getAttr`, `setPath` and `call` over an interface `Iface` of what is behind a wrapper; `iface` fills it with the objects of `Verif.RestObj` and functions, `seqIface` with sequences. *Proof:* The fold over the registry is characterised exactly: an attribute is the entry registered under prefix, dot and name. With the facts of C88 about the names registered for an object, induction over `C88.Reach`; at a smart pointer the attribute is missing and the look-up goes on in the registry of what it points to. *Left out:* Arguments and results are JSON (C69 has the conversion from and to Python objects, C70 reference counts); the JSON form of whole classes is a parameter.

*Theorems (axioms):* `C90_refused` (A3), `C90_pointer_enum` (A3), `C90_fails_lost_both` (A1), `C90_get_enum` (A3), `C90_get_seq` (A3), `C90_size` (A3), `C90_static_partial` (A3), `C90_member_partial` (A3), `C90_call_partial` (A3), `C90_get_partial` (A3), `C90_set_partial` (A3), `C90_fails_assign` (A3), `C90_fails_lost` (A2), `C90_fails_pointers` (A3), `C90_fails_function` (A3), `C90_fails_elem` (A3), `C90_fails_elem_registered` (A3), `C90_fails_unregistered` (A3), `C90_returned` (A2)

### C91 Containers in a Python module answer as lists and dictionaries do

*Status:* partial. C91_list_partial: all programs of len, [i] and [i]= with 0<=i<2^63, insert and erase on sequences that can grow and shrink, values being of the element type (an erase out of range does nothing). C91_dict_partial: all programs of len, [k], [k]=, erase, contains and keys on maps that would not raise a KeyError on a dictionary. False otherwise: del removes nothing and turns a double into NaN (C91_fails_del), on a map it adds the key (C91_fails_del_key); reading a key that is not there adds it (C91_fails_missing), and so does a failed assignment (C91_fails_wrong); contains of a sequence is always false (C91_fails_contains); negative indices are refused (C91_fails_negative); contains and erase take a number for the character of that code (C91_fails_number_key); contains(None) with integer keys is undefined (C91_fails_none_key); erase on a sequence of fixed size is silently ignored (C91_fails_fixed). Not covered: insert on maps beyond its key test (C62_insert), sets, elements of classes; iter(w) and x in w raise TypeError, the type having no such methods.  Refusals change nothing: C91_index, C91_past, C91_key, C91_number_key, C91_string_key, C91_pair; C91_orders gives the hypothesis on the order for both kinds of keys; C91_fails_default and C91_fails_none_erase.

*Model:* `Verif.PyCon`: `seqStep` and `mapStep`, one step per Python operation, on lists of simple values and ordered maps (`Verif.OMap`); `strKey` and `intKey` are the key types. *Proof:* Simulation of `listDoes` and `dictDoes`, written independently for lists and for dictionaries as items in the order of addition; for maps the relation is equality of all look-ups, from which the items are a permutation. *Left out:* Elements of classes (see C90 for what can be done with them); const containers (sets: C94).

*Theorems (axioms):* `C91_list_partial` (A3), `C91_dict_partial` (A3), `C91_fails_del` (A2), `C91_fails_del_key` (A1), `C91_fails_missing` (A1), `C91_fails_wrong` (A1), `C91_fails_contains` (A1), `C91_fails_negative` (A2), `C91_fails_number_key` (A3), `C91_fails_none_key` (A1), `C91_fails_fixed` (A2), `C91_index` (A1), `C91_past` (A3), `C91_key` (A1), `C91_number_key` (A2), `C91_string_key` (A1), `C91_pair` (A1), `C91_fails_default` (A1), `C91_orders` (A2), `C91_fails_none_erase` (A1)

### C92 What Python or a REST client holds can be used

*Status:* partial. Proved for registered objects and their members (C92_global_partial), results of functions (C92_result_partial), members of results while the result is held as well (C92_member_partial), each after any program that leaves the variables alone, and for all programs that keep all they get in variables of their own while no container changes, no pointer is reset and no request goes into the result of a function (C92_kept_partial). False otherwise, in every such program: a member of a result that is not held itself, as in y=f().m (C92_fails_member), an element after its container has been changed (C92_fails_element), a member of the target of a smart pointer after that has been reset (C92_fails_target), a REST request for a member of what a function returns by value (C92_fails_request).

*Model:* `Verif.PyLife`: each variable of Python holds a wrapper with the copy its RESTProcess object owns, if any, and what the C++ object it refers to needs in order to exist; `step` gives what each statement does to the variables, the containers (a count of their changes), the pointers and the copies. *Proof:* Variables that are not assigned keep their wrapper; a copy exists while a variable owns it, and once no variable owns it none ever will; the count of changes only grows and a target that is gone stays so. `C92_kept_partial` by an invariant: everything that is held is usable. *Left out:* Wrappers kept in attributes or in Python's containers rather than variables; reference counts (C70); that insertion moves elements is the case of `std::vector`, for lists and maps `change` stands for erasing the element.

*Theorems (axioms):* `C92_global_partial` (A1), `C92_result_partial` (A3), `C92_member_partial` (A3), `C92_kept_partial` (A3), `C92_fails_member` (A3), `C92_fails_element` (A2), `C92_fails_target` (A2), `C92_fails_request` (A1)

### C93 C arrays behind the REST interface and Python keep their rows, columns and bounds

*Status:* partial. Proved for arrays of one dimension and square arrays of two: C93_get_partial, C93_set_partial, C93_out_partial (paths), C93_show_partial, C93_assign_partial (whole arrays), C93_python_partial (reading and assigning elements in Python). What is shown can be assigned back, whatever the dimensions (C93_copy). False otherwise: `T a[n][m]` is taken for m rows of n elements (C93_shape says exactly what each path gives, C93_show and C93_assign likewise for whole arrays), so that elements of C are out of range or exchanged (C93_fails_order, for all n and m that differ; C93_fails_show); in Python a row out of range is None and assigning to it is ignored (C93_fails_none). Arrays of three dimensions and more do not compile.  C93_row (assignment of a row), C93_path (members of elements), C93_index (indices that are no numbers).

*Model:* `Verif.RestArr`: views (`Verif.MultiArray`) of a list of elements; `procN` is a REST request on an array, using the model of sequences (`Verif.RestSeq`) for rows; `convN` and `showN` the conversion of whole arrays, `getN`, `setN`, `pyGet`, `pySet` what Python wrappers do. *Proof:* The view of `T a[n][m]` has stride n and size m, from which each path is computed exactly (`C93_shape`); the specification `C93.off` is C's layout. Whole arrays by induction over the rows. *Left out:* Arrays of rank 3 and above do not compile with the REST interface; `@list`, `@type` and `@signature` of arrays.

*Theorems (axioms):* `C93_shape` (A3), `C93_get_partial` (A3), `C93_set_partial` (A3), `C93_out_partial` (A3), `C93_fails_order` (A3), `C93_show` (A2), `C93_show_partial` (A2), `C93_fails_show` (A2), `C93_assign` (A3), `C93_assign_partial` (A3), `C93_copy` (A3), `C93_python_partial` (A3), `C93_fails_none` (A3), `C93_row` (A3), `C93_index` (A1), `C93_path` (A3)

### C94 A set behind the REST interface and Python holds what it is told to

*Status:* partial. C94_program_partial: all programs of `@elem.k` with true or without argument, `@insert`, `@erase`, `@size`, `@keys`, replacement of the whole set, and len, contains, insert, erase and keys in Python get the answers a set gives, and leave the same elements, whatever set one starts with (C94_has). False otherwise: `@elem.k` with false removes k but then always throws (C94_fails_false); an argument in an array, `[true]`, throws or is decided by a variable without a value (C94_fails_list); in Python s[k] adds k (C94_fails_get), and so does s[k]=False (C94_fails_set). Keys in the path are plain text; quoted ones are read as in C62_quoted.  C94_refused and C94_refused_path: keys that are refused are exceptions and change nothing.  C94_no_key: `@elem` without a key.

*Model:* `Verif.RestSet`: a set is an ordered container of keys; `setReq` follows `RESTProcessAssociativeContainer::process`, `assignSet`, `setInsert`, `setErase` the helpers, `setPy` the functions the Python wrapper calls. Reading and converting keys are parameters (`Key`). *Proof:* Simulation of a set written as a list without repetitions (`C94.does`); the relation is: sorted, and the same elements, from which the keys are a permutation and the sizes agree. *Left out:* Const sets; `std::unordered_set` (same code, the order of the keys differs); requests on sets taken as objects.

*Theorems (axioms):* `C94_refused` (A3), `C94_refused_path` (A3), `C94_program_partial` (A3), `C94_has` (A2), `C94_fails_false` (A3), `C94_fails_list` (A3), `C94_fails_get` (A1), `C94_fails_set` (A1), `C94_no_key` (A3)

### C95 A container given back what it was shown as is unchanged

*Status:* partial. Proved for sets (C95_set_partial), sequences that can be resized (C95_seq_partial) and maps without items (C95_map_empty_partial). False otherwise: keys of maps are not read, so that any map shown comes back as the single item of a value-initialised key and the first value (C95_fails_map); if an element cannot be read, what the container had is lost (C95_fails_bad); anything but an array in an array is accepted without effect (C95_fails_other).  C95_no_argument; C95_fails_item (items without a value, values refused).

*Model:* `convSet`, `fill`, `convMap`, `fillMap`, `readPair` (`Verif.RestSet`) and `convSeq`, `decAll` (`Verif.RestSeq`): the function `convert` for containers; `showSet`, `showMap` what `asBuffer` gives. *Proof:* Sets: the loop adds just the elements shown, and ordered containers with the same elements are equal. Sequences: induction. Maps: every pair has the default key, so only the first insertion has an effect. *Left out:* The JSON form of elements and keys is a parameter that reads back (C21, C88 for simple types); maps with string keys shown as objects (`StringKeyMap`).

*Theorems (axioms):* `C95_no_argument` (A3), `C95_fails_item` (A3), `C95_set_partial` (A3), `C95_seq_partial` (A3), `C95_map_empty_partial` (A3), `C95_fails_map` (A3), `C95_fails_bad` (A3), `C95_fails_other` (A3)

### C96 The REST service lists exactly what can be requested

*Status:* partial. C96_class_partial: the list of an object of a class has the paths of all its members, members of members and those of bases, each once, and `@enum.T` for each type of enumeration in it; all names with a dot in front can be put after the path. C96_pointer_partial: a smart pointer has the list of what it points to. C96_empty: simple variables, enumerations and null pointers have empty lists. False otherwise: what is behind a smart pointer within the object is not listed though it can be requested (C96_fails_behind, always); `@enum.T` cannot be put after the path, only sent alone (C96_fails_enum). Containers and functions are not covered.

*Model:* `listed` and `nodeList` (`Verif.RestObj`): the keys of the registry made for the object, without the empty one, sorted; for smart pointers of what they point to. *Proof:* `C96.Inside` says what is inside an object without the registry. The entries registered are shown by mutual induction to be exactly these and the enumerations; dispatch to the object is the lemma of C88 with the word `@list` left over. *Left out:* Containers (whose list consists of `.@elem`, `.@insert` and the like) and functions (list of a default-constructed result).

*Theorems (axioms):* `C96_class_partial` (A3), `C96_pointer_partial` (A3), `C96_empty` (A3), `C96_fails_behind` (A3), `C96_fails_enum` (A3)

### C97 Variables of polymorphic value type have an object of their own

*Status:* partial. C97_program_partial: for all programs in which no variable is assigned to itself or given the object it holds, null is not used as an object, objects are of classes derived by means of Object<> or Poly<> and memory does not run out in an assignment or addObject. C97_no_leak: no object is left when all variables are gone. C97_cloneT: cloneT<U>. False otherwise: `x=x` and `x=*x` read a deleted object whenever x has one (C97_fails_self); if there is no memory for the copy, the variable keeps the address of a deleted object, and destroying it is undefined (C97_fails_throw); objects of a class that inherits clone from a base are copied as that base, or become null and are lost (C97_fails_slice).

*Model:* `Verif.PolyVal`: memory from addresses to objects (class and contents), variables holding an address or null; `step` follows the member functions of `poly` with `del` and `alloc` for delete and new; `cloneT`. A class hierarchy is given by whose `clone` each class has, slicing and `dynamic_cast`. *Proof:* Specification: an environment of optional objects (`C97.does`). Simulation; the invariant is that the variables with an object and the addresses in use correspond one to one. *Left out:* The prototypes kept in the type table (poly.h:30-36) and polyref, which shares a poly by means of ref (C15); addresses are not reused, so that use of a deleted object is always detected.

*Theorems (axioms):* `C97_program_partial` (A3), `C97_no_leak` (A0), `C97_cloneT` (A2), `C97_fails_self` (A2), `C97_fails_throw` (A1), `C97_fails_slice` (A1)

### C98 Classes given to Python are found under their C++ names

*Status:* partial. C98_found_partial: all sequences in which every class or enumeration is in the global scope, in a namespace or class of the global scope, or in a class given before it, and no class comes after a class inside it. C98_scope: the current scope stays the same, for everything and from every state. False otherwise: the first class given from a namespace within a namespace is not found, and neither is the inner namespace, which is put into the outer one under the name `a.b` (C98_fails_deep, all names); a class given after one of its inner classes hides that (C98_fails_order, all names); while a scope is open for a dotted name, as for the classes of the arguments of a function added under one, classes end up in that (C98_fails_scope, all names).

*Model:* `Verif.PyClass`: `cut` takes a name apart byte by byte, `openScopes` follows the loop of `ExtractClassNameAndSetScope` (look-up in `namedScope`, placeholder classes), `getClass` and `defineEnum` make attributes of the current scope. Attributes as in C86. *Proof:* `cut` is shown to give the parts for every name built from them (`C98.Part`, with balanced template arguments). Invariant: every name in `namedScope` leads to its object by attribute look-up; attributes form a tree, so that a new attribute leaves all other paths alone; joined names determine their parts. *Left out:* What Boost.Python itself does; default constructors and `__eq__`; `classes()` emptied by the user; names with dots in template arguments.

*Theorems (axioms):* `C98_found_partial` (A2), `C98_scope` (A1), `C98_fails_deep` (A2), `C98_fails_order` (A2), `C98_fails_scope` (A2)

### C99 Giving a class to Python gives it everything that can be had from the class

*Status:* partial. C99_known_partial: for every program and every sequence of types given to Python that comes to an end, everything that can be had from them is known with all its attributes. C99_ends_partial: it does come to an end when there is no way from a type back to it by bases, elements of member arrays, elements of containers and pointers alone. False otherwise: C99_fails_cycle (it never ends if arrays, containers and pointers lead back, e.g. struct Node {shared_ptr<Node> children[2];}, whatever has been described before). What is left out: C99_fails_static (what static members have, take and return is not described), C99_fails_abstract (abstract classes that are returned), C99_fails_base (a base with a constructor is there without its members).

*Model:* `Verif.PyDef`: types by number, with their bases and members; the recursion of `python<T>`, `python<T,Base>`, `DefineArgClasses` and `defineClass` as a list of calls still to be made (`step`, `run`), over `classDefStarted`, `completed` and what has been given to Boost.Python. *Proof:* Specification: `C99.Attr`, `C99.Uses`, `C99.Reach`, `C99.Known`, inductive relations on the program alone. Invariants over the calls still to be made: what is completed has all its attributes, since every attribute not there yet is promised by a call before the one that completes the class; whatever a described type uses is described, started, or promised. Termination by the number of types not started, then a rank. Non-termination: some call that is bad is always left. *Left out:* What Boost.Python does with the definitions, overload resolution (the last definition of a name wins), the class of iterators of maps and the helper classes for arrays of arrays, references and pointers as types of their own, raw pointers and exclude; the recursion limit of the machine (a stack overflow is non-termination here).

*Theorems (axioms):* `C99_known_partial` (A3), `C99_ends_partial` (A3), `C99_fails_cycle` (A2), `C99_fails_static` (A2), `C99_fails_abstract` (A2), `C99_fails_base` (A2)

### C100 Registering an object from Python under a name makes it that name, and costs no reference

*Status:* partial. C100_counts: the reference count of every object is exactly the number of references the program and the module hold, plus what calls of register have lost; C100_alive_partial: nothing but None is deleted while referred to. C100_names_partial: names in the module and in the registry are the objects registered last. C100_rest_partial: requests for a name registered go to the object if nothing with a longer name fits. Not true: C100_fails_leak (an object given to register, even if refused, is never deleted), C100_fails_none (every successful call takes a reference to None away), C100_fails_stale (paths below the name still lead into an earlier object of the name, and names deleted from the module stay in the registry), C100_fails_package (a module inside a package refuses every call).

*Model:* `Verif.PyReg`: reference counts (as integers), the references the program holds, attributes of the module and the registry; `registerObject` follows the function statement by statement, including the references it takes and does not give back; `PyModule_AddObject` steals a reference only if it succeeds. *Proof:* Specification: `C100.refs` counts the references there are, `C100.lost` says per call what is lost, `C100.Last` what a name was last given to, all on the program. Invariant over `run`; requests by C33. *Left out:* The name of the module is a parameter (`valid`); a name with a zero byte is cut (modelled by `cstr`); None as immortal from Python 3.12.

*Theorems (axioms):* `C100_counts` (A3), `C100_alive_partial` (A3), `C100_fails_leak` (A3), `C100_fails_none` (A3), `C100_names_partial` (A3), `C100_rest_partial` (A3), `C100_fails_stale` (A3), `C100_fails_package` (A1)

### C101 The dictionary of enumerations of a Python module has every enumeration in use, with all its enumerators

*Status:* partial. C101_types_partial: the dictionary has exactly the enumerations of registered objects, their members and bases at any depth and of arguments and results by value, if types of the same name are the same. C101_names_partial: the names listed for a type are those enumerators after which no other of the same value is declared, hence all of them if values are distinct. Not true: C101_fails_alias (of enumerators with equal values only the last is listed), C101_fails_pointer (enumerations only behind smart pointers are missing), C101_fails_reference (those only taken or returned by reference too).

*Model:* `Verif.PyEnum`: what objects register is `regs` of `Verif.RestObj`, functions register their parameter types last to first and then the result (`fnRegs`); `enumDict` asks for `@enum.@list` and for each name, by the dispatch of C33. *Proof:* Specification: `C101.In`, `C101.Occurs`, inductive relations on objects and signatures. The entries under `@enum.` are shown to be exactly these by mutual induction on objects; the list is that of C61, each request finds the last entry under its name (C35); names of enumerators by C19. *Left out:* Containers of enumerations (elements are not registered), references leaked by the dictionary's values, enumerations called `@list`.

*Theorems (axioms):* `C101_types_partial` (A3), `C101_names_partial` (A3), `C101_fails_alias` (A3), `C101_fails_pointer` (A3), `C101_fails_reference` (A3)

### C102 A failed graph pack or unpack does not affect others

*Status:* partial. C102_clean_partial, C102_pack_clean_partial: a call that returns leaves no trace. C102_truncated: data cut short anywhere is an exception. False after an exception: the static tables and the recursion count are not put back (C102_fails_dirty, C102_fails_level), so that a later unpack of any other buffer does not give the graph packed in it (C102_fails: null, an object of the other buffer, or one whose first member is the ID), for the rest of the run (C102_fails_forever), and a later pack of the same object writes the number 1 only, which cannot be unpacked (C102_fails_pack). C102_unpack_same, C102_pack_same: where no exception has been, these calls do what C13 says of them, restarts included.

*Model:* `GraphErr.lean` (pack_graph.h:83-164): the static variables, the recursion count and the limit of each buffer as state that outlives an exception; reading past the end and failing writes throw. *Proof:* Invariants of the state at level 0 and above, for calls that return and calls that throw; a lemma that more data makes no difference to a call that does not throw. *Left out:* Which writes fail is a parameter. Exceptions from allocating an object. One node class.

*Theorems (axioms):* `C102_truncated` (A3), `C102_clean_partial` (A2), `C102_fails_dirty` (A3), `C102_fails` (A3), `C102_fails_forever` (A2), `C102_fails_level` (A2), `C102_pack_clean_partial` (A2), `C102_fails_pack` (A3), `C102_unpack_same` (A3), `C102_pack_same` (A3)

### C103 Type names mean the same in a descriptor as in the class

*Status:* partial. C103_once holds for every table. C103_types_partial: for files whose classes declare types by typedef, class, struct and enum, outside private parts and not as templates, a name is introduced exactly for the type found by C++ lookup. False with using declarations (C103_fails_using: they make no difference anywhere), members declared with struct or class (C103_fails_struct: a type is named that does not exist), private types (C103_fails_private) and classes after a member class template (C103_fails_template). C103_fails_template_more: the same for templates that are only declared and for operators, whatever comes before the next function with a name. C103_fails_bracket: typedefs that end in a bracket (functions, arrays) are not known.

*Model:* `Nested.lean` (classdesc.cc:160-161, 268, 504-516, 521-560, 773, 1119-1138): the table of nested types with the flags it depends on, and the declarations printed. *Proof:* Scopes of a name by rfind are the beginnings of the path; what is printed is the first scope in that order with the name; the table follows the declarations by induction over the file. *Left out:* Declarations are taken as already split; that the typedefs compile.

*Theorems (axioms):* `C103_once` (A3), `C103_types_partial` (A3), `C103_fails_using` (A2), `C103_fails_struct` (A3), `C103_fails_template` (A2), `C103_fails_template_more` (A3), `C103_fails_bracket` (A2), `C103_fails_private` (A2)

### C104 Descriptors written to a directory do what the others do

*Status:* partial. C104_files: exactly the definitions due, once each, behind what the file had before (C104_again: so a second run without emptying the directory doubles all of them). C104_header: every file begins with the header. C104_stmts_partial: same calls as without the option for base classes, data, arrays and static functions. False for other member functions (C104_fails_function: the object is not passed) and with -use_mbr_pointers for data (C104_fails_pointer). C104_target_partial, C104_fails_enum: for scoped enumerations the name of the type is written as `enum class E`, which is no type in C++.

*Model:* `Work.lean` (classdesc.cc:1547, 1623-1706): file names, files opened to append, headers written once per run, the statements. *Proof:* By induction on the descriptors written; the statements of classes from C82 (what is written without the option), member by member. *Left out:* Typedefs of nested types in these files (C103 is about the others), -treenode and -graphnode declarations, -onbase; failure to open a file.

*Theorems (axioms):* `C104_files` (A3), `C104_again` (A3), `C104_header` (A3), `C104_stmts_partial` (A3), `C104_fails_function` (A3), `C104_fails_pointer` (A3), `C104_target_partial` (A3), `C104_fails_enum` (A3)

### C105 Options given to the programs are obeyed or refused

*Status:* partial. C105_options_partial: for all lists of options and descriptors, with enough turns of the loop, exactly what was asked for (C105.asked, stated by membership and last occurrence); C105_order, C105_missing, C105_version, C105_usage. False: C105_fails_unknown (any other word beginning with a hyphen, anywhere among the options: the loop is never left), C105_fails_late (options behind a descriptor are taken for descriptors), C105_fails_friend (insert-friend never ends if given anything beginning with a hyphen).

*Model:* `Opt.lean` (classdesc.cc:1140-1237, insert-friend.cc:136-154): the tests in their order, each seeing what the one before left, and the loop around them, with the number of turns as a parameter. *Proof:* Each test preserves what the rest of the line comes to, taken one option at a time, and makes the line shorter unless no word matched; hence a line without unknown words is used up in at most as many turns as it has words. *Left out:* What the options do (see the claims about them); printing of messages.

*Theorems (axioms):* `C105_options_partial` (A3), `C105_order` (A3), `C105_missing` (A3), `C105_usage` (A3), `C105_version` (A3), `C105_fails_unknown` (A3), `C105_fails_late` (A3), `C105_fails_friend` (A1)

### C106 Classes declared but not defined get an empty definition, and no others do

*Status:* partial. C106_printed: a complete description of what is printed. C106_exact_partial: as wanted if declarations are outside of namespaces and classes and nothing declared is also defined except in a typedef. C106_nodef. False: C106_fails_defined (a class declared and also defined, in any order, gets a second definition), C106_fails_alias (so does one named in a typedef), C106_fails_scope (for declarations in a namespace a class outside is defined), C106_fails_special (the end of the name of a specialisation).

*Model:* `Fwd.lean` (classdesc.cc:168-183, 875, 911, 1046-1048, 1362-1367): the table of names, with names from `Bases.classHead`. *Proof:* The entry of an identifier after any sequence of events, by induction; definitions enter qualified names and declarations plain ones. *Left out:* Which places of a file call these functions is in `Verif.Top`. The order of the lines printed (a hash table).

*Theorems (axioms):* `C106_printed` (A3), `C106_exact_partial` (A3), `C106_nodef` (A3), `C106_fails_defined` (A3), `C106_fails_alias` (A3), `C106_fails_scope` (A3), `C106_fails_special` (A3)

### C107 Graphs with nodes of several classes are copied

*Status:* partial. C107_ends: packing ends for every finite graph, with a limit not below the number of objects and two. C107_copy_partial: whatever is packed, unpacking it gives a graph every object of which is a copy of one of the original, pointers leading to copies of what they led to, and the objects of the class of the pointer packed are copied once each; the data behind are left. False for sharing of objects of other classes (C107_fails_shared: any object with two pointers to the same object of another class comes back with two objects) and for the size (C107_fails_growth: k+1 objects need 2^(k+2)-2 numbers), as each class has its own table, emptied when the outermost call for that class returns.

*Model:* `GraphMix.lean` (pack_graph.h:83-164): a table and a level for each class. *Proof:* Packing: the objects without an id go down with every nested call, and levels are bounded by table sizes. Copy: the unpacker is simulated along the packer with a growing map from copies to originals, tables of the two sides corresponding for classes in progress and empty for the others. Growth by induction along the chain. *Left out:* Calls that reach the recursion limit (C13 has them for one class).

*Theorems (axioms):* `C107_ends` (A3), `C107_copy_partial` (A3), `C107_fails_shared` (A2), `C107_fails_growth` (A3)

### C108 Objects streamed with BinStream come back

*Status:* partial. C108_roundtrip_partial: plain data, vectors, and lists, deques and sets of these come back in a default constructed object, the data behind being left (so any number of objects in order). C108_overwrites: plain data and vectors come back in any object. C108_truncated holds for every type and object. False for lists and sets that have contents (C108_fails_contents, C108_fails_set: the contents stay) and for lists of lists (C108_fails_nested: every inner list comes back behind all those before it; C108_nested_iff: right only if all but the last are empty).

*Model:* `BinStream.lean` (pack_base.h:371-438, pack_stl.h:81-102): types, writing, reading into an object, with the local variable of the loops kept from turn to turn. *Proof:* Induction over the loop; truncation from two facts about every type: reading consumes exactly what was written, and more data make no difference to a read that succeeds. *Left out:* The arithmetic of sizes (C41), XDR buffers (bytes pass through unchanged, C71), maps (their elements are plain pairs), unordered containers.

*Theorems (axioms):* `C108_roundtrip_partial` (A3), `C108_overwrites` (A3), `C108_truncated` (A3), `C108_fails_contents` (A3), `C108_fails_set` (A3), `C108_fails_nested` (A3), `C108_nested_iff` (A3)

### C109 What is packed to a file is what is unpacked from it

*Status:* proved. C109_written: a new file has what is written to it, in order. C109_roundtrip: it is read again, piece by piece. C109_reads: any program of reads, from any position, gets from a file what it gets from a buffer in memory of the same contents, and throws when that one throws. C109_rewind: reading again from the start. C109_empty: of writes of no bytes one function throws, the other does nothing. C109_readonly: a file that is read is not written to.

*Model:* `File.lean` (pack_base.h:162-281): a stream with contents and a position, the member functions in the modes of files, and reading programs as trees whose next read depends on what was read. *Proof:* Induction over the reading program with a relation between a file and a buffer; writing by induction over what is written. *Left out:* Errors of the device, files that are not regular, text mode translation (the documented mode "w" is translated on some systems), other modes of fopen ("a", "r+"), XDR buffers on files.

*Theorems (axioms):* `C109_reads` (A3), `C109_written` (A1), `C109_roundtrip` (A2), `C109_rewind` (A0), `C109_empty` (A1), `C109_readonly` (A1)

### C110 A buffer on a file can be used as one in memory is

*Status:* partial. C110_seek_partial, C110_seek_back_partial: moving within a file that is read, and writing again the last bytes. False for the rest: whether there is more to read is always answered no (C110_fails_more); after a failed read the bytes left cannot be read (C110_fails_retry), as from memory they can; reseti does not discard what was written (C110_fails_reseti); reseto moves the place where data are written (C110_fails_reseto); size counts only what append wrote (C110_fails_size); the test that keeps BinStream from allocating a wrong count refuses nothing (C110_fails_check). C110_check_partial: in memory that test refuses exactly the counts for which there are not enough bytes. C110_reseti_size_partial: after reseti counting starts again.

*Model:* `File.lean` (pack_base.h:162-281, pack_stl.h:95). *Proof:* Each failure is computed for every contents and position; writing behind a seek by induction over what is written. *Left out:* As C109.

*Theorems (axioms):* `C110_seek_partial` (A2), `C110_seek_back_partial` (A2), `C110_fails_more` (A1), `C110_fails_retry` (A3), `C110_fails_reseti` (A1), `C110_fails_reseto` (A1), `C110_fails_size` (A2), `C110_fails_check` (A2), `C110_check_partial` (A3), `C110_reseti_size_partial` (A1)

### C111 An object of a class described by the program survives packing

*Status:* partial. C111_file_partial: for every file of the form of C78 and every class in it (members as in C82: no ill-placed static or const), the statements written pack the base classes and members in order, unpacking restores each (C42 for excluded and constant parts), the data are used up. C111_chain, C111_unchain: so packing and unpacking such an object, from any data, is that of the pair of its parts, to which C01, C04, C05, C42 and the rest apply. False otherwise: a member lost by the parser (C66) keeps the value it had in the object unpacked to (C111_fails_lost, all objects).

*Model:* `Whole.lean` (use_mbr_pointers.h:18-52, pack_base.h:600-771, classdesc.h base_cast): the text of each statement written by `Body.operStmts` is taken apart again into the place it works on, and the calls of pack and unpack of `Verif.Codec` are made in order. *Proof:* C82_file_partial gives the statements for the file; the text of every kind of statement leads to the name of the member it was written for; streams compose (lemmas of C01). *Left out:* C++ itself beyond these statements: the types of members are a parameter, the bounds written for arrays are taken to be those of the type, base classes are places of their own; virtual bases; members of the same name as those of a base are distinct places.

*Theorems (axioms):* `C111_file_partial` (A3), `C111_chain` (A2), `C111_unchain` (A2), `C111_fails_lost` (A3)

### C112 Numbers in a machine independent buffer are the same numbers on every machine

*Status:* partial. C112_portable_partial: every number that the type has on both machines, except long double, longs beyond 32 bits and wchar_t where it has two bytes. C112_stream_partial: sequences of these through the buffer of C71. C112_data: what is in the buffer, for numbers not negative, is the same on all machines, most significant byte first. C112_refused, C112_ldouble: longs beyond 32 bits are refused by a library that checks, long doubles always. False for the rest: such a long throws or comes back as another number even between machines that have it (C112_fails_long); a wchar_t of two bytes is read and written as four (C112_fails_wchar, undefined behaviour). C112_fails_same: the data of a negative signed char differ with the sign of char (it comes back right all the same).

*Model:* `XdrNum.lean` (xdr_pack.cc:76-147, 198-206, pack_base.h:62-86): a machine is its byte order, the sizes of long and wchar_t, and the signs of char and wchar_t; the filter chosen for each type, and what the filters of the XDR library do with the object's bytes, from its documentation. *Proof:* Bytes of a number in either order are digits base 256; modular arithmetic for each width. `C112.Has`, `C112.bytes` state ranges and bytes by literal bounds and by addresses, without the filters. The stream theorem goes through C71_fifo_partial. *Left out:* The XDR library is not in /repo: its behaviour is assumed as documented, with a parameter for whether it refuses longs that do not fit. Machines on which int is not four bytes. Floating point numbers are bit patterns of IEEE format.

*Theorems (axioms):* `C112_portable_partial` (A3), `C112_stream_partial` (A3), `C112_data` (A3), `C112_refused` (A3), `C112_ldouble` (A1), `C112_fails_long` (A3), `C112_fails_wchar` (A2), `C112_fails_same` (A3)

### C113 Messages between processes arrive complete, once and in order

*Status:* partial. C113_fifo_partial: in every execution, between different processes and for each tag, what is heard is the beginning of what was said, and the rest is waiting (send_recv with a tag named for receiving). C113_packed: a message holds what was packed into its buffer since that was empty. C113_get: which message is received and what is in the buffer. C113_atomic: what arrives between finding and receiving a message makes no difference. C113_waiting: msg_waiting. C113_all_to_all: the exchange of the manual. C113_sendrecv_partial: send_recv with one process and one tag receives what get would. False for the rest: a message to oneself is neither sent nor cleared, nor ever received (C113_fails_self); send_recv with another tag for receiving waits for one with the tag it sent (C113_fails_sendrecv_tag); with the default arguments it may receive a message of another length than it allocated memory for (C113_fails_sendrecv_any); after it source and tag are undefined, since the status is that of the message sent (C113_fails_sendrecv_proc).

*Model:* `MpiMsg.lean` (classdescMP.h:75-130, 151, 185-231, 251-303, 389-395): the buffers of all processes, the messages sent to each in order, and a step for each call; what MPI leaves open (which process's message, when a request completes, undefined fields) is a parameter of the step. *Proof:* Specification: what was said and heard, taken from the contents of the buffers before and after the calls. Invariant: said = heard followed by waiting, for each pair and tag. The message probed is the first of its process with its tag, hence the one received. All-to-all by counting. *Left out:* The MPI library (as its standard says); blocking sends and deadlock; communicators other than one; sizes beyond int; errors of the network.

*Theorems (axioms):* `C113_atomic` (A3), `C113_fifo_partial` (A3), `C113_waiting` (A3), `C113_get` (A3), `C113_all_to_all` (A3), `C113_sendrecv_partial` (A3), `C113_fails_sendrecv_tag` (A2), `C113_fails_sendrecv_any` (A3), `C113_fails_self` (A3), `C113_fails_sendrecv_proc` (A2), `C113_packed` (A3)

### C114 Buffers sent asynchronously can be reused once sent, waited for alone or in arrays, and destroyed

*Status:* partial. C114_safe_partial: no execution of processes that leave a buffer alone until it is sent (and complete nothing with calls on arrays) is undefined; destruction is safe at any time. C114_array_partial: which requests a call on an array completes. False for arrays: their calls complete copies of the requests, so that afterwards every wait, test and the destructor use a request that no longer exists (C114_fails_array). Also undefined: use of a buffer that is being sent (C114_fails_reuse, which a program can avoid), and two asynchronous sends of one buffer followed by its destruction (C114_fails_twice), and sending to a process that does not exist (C114_fails_process).

*Model:* `MpiMsg.lean` (classdescMP.h:109-130, 177-233, 257-261): requests as numbers, those not completed with their buffers; a buffer whose request is not completed may not be written or freed. *Proof:* Invariant: the requests not completed are exactly those of the buffers. The failures hold from any state in which the calls return. *Left out:* As C113. Assignment of buffers with a request (C46).

*Theorems (axioms):* `C114_safe_partial` (A3), `C114_fails_reuse` (A3), `C114_fails_array` (A3), `C114_fails_twice` (A3), `C114_fails_process` (A1), `C114_array_partial` (A2)

### C115 Slaves execute the requests they are sent, answer them, and end with the manager

*Status:* partial. For all executions in which requests go to existing slaves with tag 0, what is broadcast is in the manager's own buffer, and `slave <<` is followed by a method (C115_executed_partial, C115_safe_partial), and for finalising the manager once at any time (C115_ended_partial). The code does not do the rest: bcast(c) sends the manager's buffer instead of c (C115_fails_bcast, C115_fails_bcast_bad), a request sent with a tag ends the slave (C115_fails_tag), one to process 0 is not executed (C115_fails_self), `slave << x` with anything but a method calls itself for ever (C115_fails_stream), and finalize() followed by the destructor sends to slaves that have ended (C115_fails_twice).

*Model:* `MpiFarm.lean` (classdescMP.h:397-476, 251-276): the master's buffers, the idle list, a queue of messages for each pair of processes, the object of each slave; a step for each call of the master and one for a turn of a slave's loop, which finds a message of a process given to the step. The methods of the class are a parameter, working on the slave's buffer. *Proof:* Specification: what the master asked for and was told, taken from its buffers, and the plain sequence of method calls (`C115.calls`). Invariant per slave: what it was asked is what it has done followed by what is in its queue; what the master was told by it, followed by what is under way, are the answers to what it has done. *Left out:* The MPI library (as its standard says), blocking sends; methods that throw or communicate themselves; heterogeneous clusters, where pointers to methods differ.

*Theorems (axioms):* `C115_executed_partial` (A3), `C115_safe_partial` (A3), `C115_ended_partial` (A3), `C115_fails_bcast` (A3), `C115_fails_bcast_bad` (A3), `C115_fails_tag` (A3), `C115_fails_self` (A1), `C115_fails_stream` (A1), `C115_fails_twice` (A1)

### C116 C++ values given to Python and taken back are unchanged, and Python sees the same values

*Status:* partial. C116_back_partial: values come back unchanged, C116_seen_partial: Python sees them, C116_taken_partial: objects made by Python are taken, for all nestings of sequences with the exceptions found. False: characters in a sequence are given as numbers and refused when taken back (C116_fails_chars); enums in sequences of sequences are given as bools (C116_fails_enums: the overload for enums is declared after that for sequences); a std::array is never stored (C116_fails_array); texts end at the first zero byte (C116_fails_nul), those not UTF-8 are undefined behaviour (C116_fails_utf8), the zero character is an empty text (C116_fails_zero); unsigned 64 bit numbers from 2^63 on are negative to Python (C116_fails_unsigned); nothing that does not fit a number or a sequence is refused (C116_fails_refuse).

*Model:* `PyVal.lean` (pythonBuffer.h:53-120, 167-214, 269-276, 292-362; classdesc.h:459-489): a value alone, as an element and as an element of an element, each with the overload that is found there; taking back into a variable with its old contents. *Proof:* Specification: `C116.Means`, which object stands for which value. Induction over it, with names of enumerators from C19. *Left out:* Objects of classes and maps (C69: they are given as text), std::list and other sequences without an index, scoped enums in nested sequences (they do not compile), float as distinct from double.

*Theorems (axioms):* `C116_back_partial` (A3), `C116_seen_partial` (A3), `C116_taken_partial` (A3), `C116_fails_chars` (A1), `C116_fails_enums` (A1), `C116_fails_array` (A2), `C116_fails_nul` (A3), `C116_fails_utf8` (A1), `C116_fails_unsigned` (A2), `C116_fails_zero` (A1), `C116_fails_refuse` (A3), `C116_numbers` (A1)

### C117 A StringKeyMap written as XML is read back

*Status:* partial. C117_written_partial: what is written holds each value in the element named by its key, for keys that can be names of elements (values as in C27). Reading does not work at all: C117_fails_read (whatever is parsed, a map that is the root or a member is left as it was; the range searched has only the name of the map itself), so that C117_fails holds for every map with entries; where that name is found, one entry with a key beginning with a dot is made (C117_fails_key). Keys with a dot or a blank are not written properly (C117_fails_dot, C117_fails_blank).

*Model:* `XmlSkm.lean` (stringKeyMap_epilogue.h:113-149, xml_unpack_base.h:372-378) on top of the packer and parser of `Xml.lean`. *Proof:* Writing is that of a class with a member for each key, to which the round trip of C27 applies. Reading: every name the parser stores has a number sign in it (induction over the parser), the name of the map has none, and the range searched has only equal names. *Left out:* The schema of such maps; pointers as values.

*Theorems (axioms):* `C117_written_partial` (A3), `C117_fails_read` (A2), `C117_fails_key` (A2), `C117_fails` (A2), `C117_fails_dot` (A2), `C117_fails_blank` (A3)

### C118 Java reads and writes each variable of a C++ object and calls its methods by name

*Status:* partial. For all objects in which no two members of a class are to be found under the same name: C118_variables_partial, C118_functions_partial (any nesting), C118_declared_partial (classes without members of class type). False otherwise: a static constant is registered as a copy that is gone by the time it is used (C118_fails_static); of names that differ in the case of the first letter the getter and setter are those of the first (C118_fails_case); of overloaded methods the first declared is called, whatever the arguments (C118_fails_overload); too few arguments and names that are not registered are undefined behaviour in a release build (C118_fails_few, C118_fails_name); members of members are declared in the class file as if they were those of the class, twice if the names are the same (C118_fails_nested).

*Model:* `JavaObj.lean` (javaClass_base.h:270-413, java/JNIEx.h:51-92, java/JNIEx.cc:49-75, function.h:398-482): the methods declared, the table of functions by dotted name, calling with a vector of arguments. *Proof:* Specification: `C118.Has`, the members inside an object by the dotted name of where they are, and `C118.declares`. The names in the table are all different, since no part has a dot in it (induction over the nesting); hence no insertion is lost and each name finds its function. *Left out:* Conversion between Java objects and C++ values (values are integers here), objects as arguments, methods without result, which return a null object; the JVM itself.

*Theorems (axioms):* `C118_variables_partial` (A3), `C118_functions_partial` (A3), `C118_declared_partial` (A3), `C118_fails_static` (A3), `C118_fails_case` (A3), `C118_fails_overload` (A3), `C118_fails_few` (A3), `C118_fails_nested` (A2), `C118_fails_name` (A2)

### C119 A call through REST with values of one overload's parameter types calls that overload with these values

*Status:* partial. C119_called_partial: for all sets of functions that differ in number of parameters or in the kind of one (bool, integer, floating point, string, or a sequence of another kind), without char, and all values without empty sequences; C119_alone_partial: for a function that is not overloaded all values; C119_single_partial: an argument without the array, if it is not a sequence. False for the rest: a char is written as a string but looked for as a number, so that another function or none is called (C119_fails_char); overloads that differ in the width of numbers only cannot be called at all (C119_fails_width), nor f(T) beside f(vector<T>) with a T (C119_fails_element), nor with empty sequences (C119_fails_empty); a single value is accepted for a sequence, but the function gets an empty one (C119_fails_one), and so with a sequence as the argument without the array (C119_fails_bare).

*Model:* `RestFn.lean` (RESTProcess_base.h:359-396, 1125-1228, 1232-1494, RESTProcess_epilogue.h:187-211, json_pack_base.h:247-329, 357-370, 489-516): values written and read as JSON, put into the choice of `Rest.lean` and the call of `RestCall.lean`. *Proof:* Specification: `C119.Of`, the values of a type; `C119.Apart`, types that can be told apart by a value. Reading undoes writing by induction; the values score 0 for their own function (C34_exact) and more for each one apart; then C34_call and C36_json_partial. *Left out:* The text of numbers (the JSON library), objects of classes as arguments, functions with more than 4000 parameters.

*Theorems (axioms):* `C119_called_partial` (A3), `C119_alone_partial` (A2), `C119_single_partial` (A3), `C119_fails_width` (A3), `C119_fails_element` (A3), `C119_fails_empty` (A3), `C119_fails_char` (A3), `C119_fails_one` (A3), `C119_fails_bare` (A2), `C119_converted` (A1)

### C120 Floating point numbers written as XML are read back unchanged

*Status:* partial. True if the program sets the precision of the stream before packing: C120_number_partial (any format, as many digits as it needs), C120_digits_partial (17 for double, 9 for float), C120_roundtrip_partial (objects). xml_pack_t does not set it, and with the default of 6 digits C120_fails_default: no integer of seven digits is read back unless its last digit is 0. One digit less than these is not enough (C120_fails_sixteen, C120_fails_eight).

*Model:* `XmlFlt.lean` (xml_pack_base.h:118-155, xml_unpack_base.h:389-415): formats by the number of binary digits and the exponents, numbers as rationals; the text in the notation of `%g`, character by character, and reading of such texts, with correct rounding; objects with numbers among the types of `Xml.lean`. Lemmas in `XmlFltNum.lean` (rounding) and `XmlFltTxt.lean` (texts). *Proof:* Specification: `C120.Number`, an integer of `prec` binary digits times a power of two. A decimal of P digits is nearer to the number than half the distance to its neighbours, on both sides of a power of two, if 2^prec < 10^(P-1); the text has the value of that decimal in each notation. Objects: the text passes through XML as a string would (C27). *Left out:* The conversions are those of the C++ library, assumed to round correctly; other notations (fixed, scientific, hexadecimal) and locales set on the stream; std::stod refusing subnormal numbers makes no difference, since the stream then reads them.

*Theorems (axioms):* `C120_number_partial` (A3), `C120_digits_partial` (A3), `C120_roundtrip_partial` (A3), `C120_fails_default` (A3), `C120_fails_sixteen` (A3), `C120_fails_eight` (A3), `C120_upper` (A3), `C120_none` (A3), `C120_large` (A3), `C120_words` (A3)

### C121 A variable declared to be excluded from serialisation works as before

*Status:* partial. C121_int_partial: all programs whose operands fit the type of the variable and do not widen the arithmetic, with binary operators on types not narrower than int; C121_narrow says exactly which results of binary operators differ for narrower ones; C121_bool_partial: all programs whose second operands of && and || have no side effects and that give &= a bool; C121_pointer_partial: all programs that assign pointers to objects only. False for the rest: x *= 1.5 leaves an int alone (C121_fails_real), x /= 1L<<32 is undefined (C121_fails_divide), an unsigned char is not unequal to an int with the same low byte (C121_fails_unequal), sums of narrow types are reduced (C121_fails_narrow), && and || evaluate both operands (C121_fails_short), x &= 2 does not clear (C121_fails_mask), and assigning null follows the null pointer (C121_fails_null). Comparing with a fractional number differs too (C121_fails_fraction).

*Model:* `ExWrap.lean` (classdesc.h:988-1026, 1028-1067, 1073-1090): one step of a program with the variable plain, by the rules of C++ (promotion, usual arithmetic conversions, overflow), and with the wrapper's operators; programs are sequences of such. *Proof:* Specification: the program with the plain variable. Equality of steps, by cases on the type with linear arithmetic, and induction over the program. *Left out:* The wrapper of a class, which derives from it; operators that do not compile with the wrapper (%, mixed binary operators); floating point variables; the rounding of double is a parameter. Which operator the compiler chooses was worked out by hand.

*Theorems (axioms):* `C121_int_partial` (A3), `C121_narrow` (A3), `C121_fails_narrow` (A3), `C121_fails_real` (A3), `C121_fails_divide` (A3), `C121_fails_unequal` (A3), `C121_bool_partial` (A3), `C121_fails_short` (A1), `C121_fails_mask` (A2), `C121_pointer_partial` (A2), `C121_fails_null` (A1), `C121_fails_fraction` (A3)

### C122 Arrays and tuples written as XML are read back

*Status:* partial. C122_roundtrip_partial: arrays of all types but pointers and names with template arguments, and tuples of one simple type without pretty printing. False for the rest: the second of two different types in a tuple is never read back (C122_fails_mixed, for all simple types, names and values), a class in a tuple is not either (C122_fails_class), null pointers in an array are not written so that those after them move up (C122_fails_null), and arrays of vectors and the like are written as text that is not XML (C122_fails_template).

*Model:* `XmlArr.lean` (xml_pack_base.h:207-224, xml_unpack_base.h:529-546, xml_pack_epilogue.h:31-59, 83-110) on top of the packer and parser of `Xml.lean`: types with arrays and tuples in classes; each element of a tuple written under its own name alone and read under the name of the first. *Proof:* Specification: `C122.Good`. What is written is what is written for sequences (`C122.asX`), so that by the lemmas of C27 each element is in the database; reading then is by induction over the type, with the previous value of each element. *Left out:* Arrays of pointers; tuples of containers, read element by element; which names typeName gives (C80).

*Theorems (axioms):* `C122_roundtrip_partial` (A3), `C122_fails_mixed` (A3), `C122_fails_null` (A1), `C122_fails_class` (A3), `C122_fails_template` (A3)

### C123 The signatures the REST service lists for a name are those with which it can be used

*Status:* partial. Listing is right for functions (C123_listed, C123_covered), and the functions that can be called are, with values of the types listed, if they can be told apart (C123_called_partial, with the conditions of C119); variables that can be changed are set (C123_object_partial, C123_enum_partial, C123_alone_partial); what no function can take, constants and wrong enumerators are refused (C123_refused_partial, C123_const, C123_enum_refused). False otherwise: functions with pointers or references to non-const as parameters, returning a unique_ptr, or not const on a const object are listed though every call is refused (C123_fails_refused); of a const and a non-const method with the same parameters only the one registered last is there, so that on a const object nothing can be called (C123_fails_const_overload); const variables and null pointers list that they can be set (C123_fails_const, C123_fails_null). Functions whose parameters a request cannot tell apart, like int and long, are listed and refused as ambiguous (C123_fails_alike).

*Model:* `RestSig.lean` (RESTProcess_base.h:142-149, 1159-1228, 1486-1537, RESTProcess_epilogue.h:58-103, 154-211, function.h:110-121, 329-391) on top of the registry and dispatch of `Rest.lean` and the calls of `RestFn.lean`: how parameters are passed, constness of methods and objects, signatures by the names of types, which are a parameter; variables, pointers and enumerations as far as they are set. *Proof:* Specification: `C123.Last`, `C123.Callable`. Dispatch by C33, what the registry holds by C35, the choice of an overload by C34 and C119; a function with a parameter that cannot be passed never matches. *Left out:* Functions returning references (C36); classes as parameters; the assignment itself (C88); containers of const elements.

*Theorems (axioms):* `C123_listed` (A3), `C123_covered` (A3), `C123_called_partial` (A3), `C123_object_partial` (A3), `C123_enum_partial` (A3), `C123_fails_refused` (A3), `C123_fails_const_overload` (A3), `C123_fails_const` (A3), `C123_fails_null` (A3), `C123_refused_partial` (A3), `C123_alone_partial` (A3), `C123_const` (A3), `C123_enum_refused` (A3), `C123_fails_alike` (A3)

### C124 The class file made for a C++ class describes that class to Java

*Status:* partial. C124_class_partial: all class names and methods that fit in the constant pool. How it is written is C52. False otherwise: classes with too many methods are not refused, the index of the class then being that of nothing (C124_fails_large), and methods with the same name and descriptor are both declared, which Java does not allow (C124_fails_twice).

*Model:* `JniClass.lean` (java/compileClass.cc:126-184, javaClass_base.h:301-304) on top of the class file of `Java.lean`: the steps of write_JNI, in order, for a list of methods. *Proof:* Specification: `C124.Cls`, `C124.MethodRef`, `C124.code`, the class file format of the Java virtual machine. The pool is computed in closed form by induction over the methods; every index is then that of a known place. *Left out:* The bytes (C52); whether Java objects to the names.

*Theorems (axioms):* `C124_class_partial` (A3), `C124_fails_large` (A3), `C124_fails_twice` (A3)

### C125 A native method called on a Java object acts on the C++ object of that Java object

*Status:* partial. C125_call_partial: after any history, for methods called on one object only and names without underscores; C125_compiles_partial: the functions written do not clash. False otherwise: a method called on any other object acts on the object on which it was called first (C125_fails_second); methods with an underscore in the name are not found by Java (C125_fails_underscore) or are another method (C125_fails_confused); those for members of members are undefined (C125_fails_nested). With an underscore in a name Java reports that the method has no function (C125_fails_unlinked).

*Model:* `JniStub.lean` (java/compileClass.cc:88-124, java/JNIEx.h:70-108) on top of the registry of `JavaObj.lean`: the functions written, with the static variable in each of them as state, how Java finds them by the symbol, programs as sequences of making objects and calls. *Proof:* Specification: `C125.Does`, what the member of the object does. Invariant over the program: what a static variable holds is what was registered for the object of an earlier call of the method; registering never changes what is there. *Left out:* How Java forms symbols is from the specification of the Java native interface, for letters, digits and underscores; threads; C++ functions that throw; conversions of arguments (javaClass_base.h:104-149).

*Theorems (axioms):* `C125_call_partial` (A3), `C125_fails_second` (A3), `C125_fails_underscore` (A2), `C125_fails_confused` (A2), `C125_compiles_partial` (A3), `C125_fails_nested` (A3), `C125_fails_unlinked` (A2)

### C126 Strings passed between C++ and Java are the same text on both sides

*Status:* partial. C126_cpp_exact, C126_java_exact and C126_sent_exact say exactly which strings survive: those of ASCII characters other than NUL; false for all others. C126_received_partial: every text of the basic multilingual plane without NUL arrives in C++ as UTF-8; others do not (C126_fails_astral). C126_name: names of objects are kept.

*Model:* `JavaStr.lean` (javaClass_base.h:47-50, 205-218, java/JNIEx.h:82-86, 98-108): Java strings as UTF-16 code units, C++ strings as bytes, char signed or not. *Proof:* Specification: UTF-16, and the UTF-8 of Lean's library. Lengths tell the strings apart that are not ASCII; no byte of the encoding is zero. *Left out:* The encoding of GetStringUTFChars is from the specification of the Java native interface; that the memory it returns is never released.

*Theorems (axioms):* `C126_cpp_exact` (A3), `C126_java_exact` (A3), `C126_received_partial` (A2), `C126_fails_astral` (A2), `C126_sent_exact` (A3), `C126_name` (A2)

### C127 XML read from a C file is what is read from a stream

*Status:* partial. C127_same_partial: all texts without the byte 255 directly behind `/` or `<` or behind `>` and space; C127_unsigned_partial: all texts where char is unsigned; C127_packed_partial and C127_roundtrip_partial: what xml_pack writes, if names, CDATA and signed or unsigned char members are free of that byte. False otherwise with signed char: ungetc(-1) puts nothing back, so that the byte is lost from texts (C127_fails_slash, C127_fails_comment), or an element gets another name or the document is refused (C127_fails_other, C127_fails_name).

*Model:* `XmlFile.lean` (xml_unpack_base.h:80-85, 103-109, 237-253, 297-302) on top of the tokeniser and parser of `Xml.lean`: what ungetc does with a char that is EOF. *Proof:* Specification: `C127.Apart`, a condition on the text only; `C127.Clean`, one on the value. Invariant: in each mode in which a character may be put back, what has been read ends in `/`, `<`, or `>` and space. No byte 255 is written by the packer, by induction over the type. *Left out:* Errors of the file system; files opened in text mode.

*Theorems (axioms):* `C127_same_partial` (A2), `C127_unsigned_partial` (A1), `C127_packed_partial` (A2), `C127_roundtrip_partial` (A3), `C127_fails_slash` (A1), `C127_fails_comment` (A1), `C127_fails_name` (A1), `C127_fails_other` (A1), `C127_fails_behind` (A1)

### C128 The target of a smart pointer in Python is the object it refers to

*Status:* proved. C128_exact: every program shows what it would if objects lived for ever, except exactly those that use an object got through a pointer that is not a data member when no pointer refers to it any more, which is undefined (C128_fails_element is such a program). C128_members: with data members only there is no exception; C128_basic: nor for basic types.

*Model:* `PyPtr.lean` (python_base.h:1028-1079): pointers and Python's variables by number, the objects alive, destruction of objects without a pointer; programs are sequences of statements. *Proof:* Specification: `C128.shows`, in which nothing is ever destroyed, and `C128.Loses`. Invariant: the objects alive are those that are referred to, with the values of the specification; induction over the program. *Left out:* How Boost.Python presents members, elements and results is from its documentation. The objects have no pointers in them, the pointers stay in place.

*Theorems (axioms):* `C128_exact` (A3), `C128_basic` (A3), `C128_members` (A3), `C128_fails_element` (A3)

### C129 What is written to a machine independent file is read from it on any machine

*Status:* partial. C129_roundtrip_partial (and C129_data_partial, C129_truncated_partial): all sequences of values that both machines have in the sense of C112; C129_hostile_partial: any contents, for programs that read no two byte wchar_t; C129_seek_partial, C129_back_partial: in the first four gigabytes. False otherwise: use in the wrong direction follows a null pointer (C129_fails_direction), a file being read always says that it is at its end (C129_fails_more), and positions are reduced to four bytes, so that moving beyond four gigabytes, or to a place in front of the file, goes elsewhere (C129_fails_large, C129_fails_front). C129_reset_partial: writing again from the beginning replaces what was written; C129_refused_partial: numbers without a place in the file are an exception. C129_fails_programs: programs in the wrong direction; C129_fails_front_write: going back too far while writing. C129_fails_wchar: a wchar_t of two bytes.

*Model:* `XdrFile.lean` (xdr_pack.cc:157-272 in the modes of files, pack_base.h:221-237) on top of the files of `File.lean` and the filters of `XdrNum.lean`. *Proof:* Specification: the values, their objects on each machine (`C112.object`), and `C129.data`, the standard. Each item is a known number of bytes, appended in turn; reading is by induction over the items, with portability of each from C112. *Left out:* The XDR library and its four byte positions are from its documentation; the state behind an exception.

*Theorems (axioms):* `C129_roundtrip_partial` (A3), `C129_data_partial` (A3), `C129_truncated_partial` (A3), `C129_hostile_partial` (A2), `C129_seek_partial` (A1), `C129_back_partial` (A2), `C129_fails_direction` (A1), `C129_fails_more` (A0), `C129_fails_large` (A2), `C129_fails_front` (A2), `C129_reset_partial` (A1), `C129_refused_partial` (A1), `C129_fails_programs` (A1), `C129_fails_front_write` (A2), `C129_fails_wchar` (A1)

### C130 fix-privates makes the private members of all headers accessible

*Status:* partial. C130_exact: what the script leaves in its directory, for all existing directories given by absolute names: that for the last directory that has the header. C130_headers_partial: hence the claim, if directories with the same header have it alike. C130_again: running it again. False otherwise: of a header in two directories the wrong one is written, or the right one removed (C130_fails_order); for a directory that does not exist the files in the current directory are taken (C130_fails_missing); with relative names another directory is (C130_fails_relative). C130_named, C130_not_named: which directory a name leads to. C130_fails_hidden: headers with names beginning with a dot, or in such directories, are passed over, and only those.

*Model:* `FixPriv.lean` (fix-privates:4-24): directories as trees, the files written by their place, the current directory. *Proof:* Specification: `C130.search`, the search of the compiler. What `proc_dir` does at each place, by induction over the tree; the list of directories by induction. *Left out:* insert-friend is any function (C64 and C83 are about it); names with characters special to the shell; names that are files in one directory and directories in another.

*Theorems (axioms):* `C130_exact` (A2), `C130_headers_partial` (A2), `C130_again` (A2), `C130_fails_order` (A2), `C130_fails_missing` (A2), `C130_fails_relative` (A2), `C130_named` (A2), `C130_not_named` (A2), `C130_fails_hidden` (A2)

### C131 A failed pack or unpack changes nothing

*Status:* partial. Not so: packing something with a raw pointer is refused whatever the pointer is (C131_refused), but what comes before the pointer stays in the buffer (C131_pack_partial, C131_fails_pack; unchanged exactly if nothing does, C131_pack_same). Unpacking data that end early leaves the members complete in the data new and the others old, sequences with the elements that are complete, the position behind the last part complete (C131_unpack_partial; C131_fails_unpack, C131_fails_lost); a tuple has at most its first member replaced, though the others have been read (C131_fails_tuple). Data already in the buffer are never affected, and reading all the data to the same object again gives what was packed (C131_again). C131_pointer: no data make unpacking of a raw pointer succeed. C131_fails_hostile: data that packing does not write can be undefined instead of an exception. C131_raw: a raw pointer is refused before anything is taken from the data.

*Model:* `UnpFail.lean` (pack_base.h:269-281, 528-576, 613-635; pack_stl.h:105-130, 238-268, 307-332; polyAccessPack.h:33-44, 64-81): packing and unpacking that return the object and the buffer as they are left, with exceptions and undefined behaviour as outcomes. *Proof:* Specification: `C131.items`, the parts of a value in order; `C131.front`, those before the first raw pointer; `C131.cut`, the object of which only so many bytes are there, and `C131.fit`, how many of them belong to complete parts. By induction over the type, with the loop over elements for sequences. *Left out:* Associative containers and arrays; buffers on files; exceptions for want of memory (C50); TREE and GRAPH flags (C12, C13, C102).

*Theorems (axioms):* `C131_refused` (A2), `C131_pack_partial` (A2), `C131_pack_same` (A2), `C131_unpack_partial` (A3), `C131_again` (A3), `C131_fails_pack` (A2), `C131_fails_unpack` (A3), `C131_fails_lost` (A3), `C131_pointer` (A1), `C131_fails_tuple` (A3), `C131_fails_hostile` (A3), `C131_raw` (A1)

### C132 With -qt, a class that uses Qt is described as the C++ class it stands for

*Status:* partial. Proved for bodies made of Qt macros, signals, slots and the items of C66; C132_plain is for any input. Fails: `Q_OBJECT;` is described as a data member; without -respect_private signals are left out though protected members are not; a macro not among the four, like Q_DISABLE_COPY(A), is described as a function and swallows the declaration after it. Not covered: nested classes.

*Model:* `Verif/Qt.lean`: the turn of the member loop with -qt (classdesc.cc:468-487), going on to `Decl.turn` for any other word. *Proof:* Specification `C132.Elem`: macros, `signals:`, labels with or without `slots`, and the items of C66; `described`, `recorded` and `enumerations` say what is to be described, `Elem.cpp` is the class without Qt. `C132_members_partial`, `C132_actions_partial` (with static and const) and `C132_enums_partial` are for any such body; the turns of C66 are reused because a lemma shows that reading only goes forward through the tokens of an item. `C132_same_partial`: with -respect_private the same as the class written without Qt. `C132_plain`: without the six words the option changes nothing, for any tokens. `C132_fails_semicolon`, `C132_fails_signals`, `C132_fails_macro`: what goes wrong. *Left out:* Nested classes; what `C66` leaves out.

*Theorems (axioms):* `C132_members_partial` (A3), `C132_actions_partial` (A3), `C132_enums_partial` (A3), `C132_same_partial` (A3), `C132_plain` (A3), `C132_fails_semicolon` (A3), `C132_fails_signals` (A3), `C132_fails_macro` (A3)

### C133 Copies of a polyref share one object, which lives as long as one of them

*Status:* partial. Proved for programs of any length in which constructors do not throw. False otherwise: C133_fails_throw (addObject on a variable that has an object deletes it before constructing the new one, so destroying the variable deletes it twice). Also C133_fails_null: copies of a null polyref do not share what is added to one of them later. operator== of polyref cannot be compiled (it casts a const reference to a non-const one), so comparing is not modelled.

*Model:* `Verif/PolyRef.lean`: objects, payloads with their count and the variables; `refdec`, `asg`, `polyObj`, and the statements of a program with what each does, deleted memory being absent. *Proof:* Specification `C133.Abs`: variables are null or name something, nothing is deleted, no counts. `C133_shared_partial`: every program that has a meaning there runs without undefined behaviour, with the same exceptions, objects, truth values, and counts. `C133_deleted_partial`: every object in memory is that of an existing variable. Both by an invariant relating counts to occurrences among the variables. `C133_fails_throw`, `C133_fails_null`: what does not hold, after any program. *Left out:* operator== (cannot be compiled), objects that contain polyrefs themselves (cycles are not deleted), threads.

*Theorems (axioms):* `C133_shared_partial` (A3), `C133_deleted_partial` (A3), `C133_fails_throw` (A3), `C133_fails_null` (A3)

### C134 With -onbase, base classes are kept apart

*Status:* partial. Proved for JSON (C134_roundtrip_partial) under the conditions of C22, without that on inherited names; C134_document_partial says where the base classes are in the document. The names are those of the types with everything but letters and digits replaced: C134_name says exactly which coincide, C134_identifier that plain identifiers do not. False: C134_fails_clash (N::A and N__A), C134_fails_member (a member called base_A). C134_without shows what happens without the option. The same for XML: C134_xml_partial, under the conditions of C27 without those on base classes; C134_fails_xml. C134_spelled: what the names are.

*Model:* `Verif/OnBase.lean`: `basename`, and the descriptor of a class with -onbase, in which a base class is treated as a member of that name; packing and unpacking are those of `Json.lean`. `Verif/OnBaseXml.lean`: the same for XML, with those of `Xml.lean`. *Proof:* Specification `C134.Good`, the conditions of C22 with names distinct in each class by itself, `C134.names`, `C134.baseOf`. The round trip is that of C22 (for XML that of C27, `C134.XGood`) once the values of a type, the default object and what is to be restored are shown to be the same for both descriptions. `C134_document_partial`: under the name of each base class there is what that class is written as alone. `C134_name`: exactly which names coincide. *Left out:* Schemas; binary packing, dumping and REST, for which the option makes no difference (pack_base.h:508-514, dump_base.h:186-188, RESTProcess_base.h:1640-1642).

*Theorems (axioms):* `C134_name` (A2), `C134_identifier` (A2), `C134_roundtrip_partial` (A3), `C134_document_partial` (A3), `C134_without` (A3), `C134_fails_clash` (A3), `C134_fails_member` (A3), `C134_spelled` (A3), `C134_xml_partial` (A3), `C134_fails_xml` (A1)

### C135 A reference to a Python object that C++ code holds is released exactly once

*Status:* partial. C135_counted_partial, C135_alive_partial: all programs that give holders only references they have, each once, whatever is moved where. False otherwise: two holders of one new reference release it twice (C135_fails_twice); a plain pointer made of a buffer has no reference of its own, so that a list made of buffers releases references that were never made (C135_fails_list, C135_fails_buffer). C135_fails_destroyed: no use of a destroyed holder is defined.

*Model:* `Verif/PyRef.lean`: the reference counts of Python objects, at 0 of which an object is gone, and the member functions of `PyObjectRef`; `newPyObject` of a buffer and of a sequence of buffers; the loop that reads a mapping. *Proof:* Specification `C135.Own`: every reference has one owner, a variable or the program. An invariant says that the count of each object is that of its owners and of references elsewhere. C70_fails_mapping, about buffers, is proved with the same model. *Left out:* Code that Python runs when an object goes, which could use the holder again; threads; the assertions of the constructors, which are about debugging.

*Theorems (axioms):* `C135_counted_partial` (A3), `C135_alive_partial` (A3), `C135_fails_twice` (A2), `C135_fails_list` (A3), `C135_fails_buffer` (A2), `C135_fails_destroyed` (A2)

### C136 Objects of classes with an index operator can be used from Python like lists of fixed length

*Status:* partial. Proved: every program of len(w), w[i] and w[i]=v gets the answers of a list of fixed length if operator[] throws when the index is too large (C136_list_partial), otherwise for indices below the length (C136_below_partial); const objects stay as they are and the number of elements never changes (C136_const). False in the code: indices that are negative or too large reach an operator[] that does not test them (C136_fails_unchecked), and where it does indices from the end are refused (C136_fails_negative); anything but a number as the index is used uninitialised (C136_fails_no_index); assignments to elements of const objects or of objects without operator[] do nothing, without an exception (C136_fails_silent), and so do insert and erase (C136_fails_methods); del removes nothing, and makes floating point numbers NaN (C136_fails_del); without size() the length is 0 (C136_fails_length). C136_refused_partial: where what is not a number is an exception, and for classes that test the index; C136_fails_const_unchecked: the same for const objects of classes that do not.

*Model:* `Verif/PyIndex.lean`: size, getElem and setElem of an object of a class, with or without size() and operator[], const or not; what operator[] does with an index that is too large is a parameter (an exception or undefined). Statements and values are those of `PyCon.lean`. *Proof:* Specification `C136.does`, a list of fixed length. The results of a program are compared with its answers one by one, by induction on the program. *Left out:* Elements of class type; operators that return values, which do not compile; operators with effects of their own.

*Theorems (axioms):* `C136_list_partial` (A3), `C136_below_partial` (A3), `C136_const` (A1), `C136_fails_unchecked` (A2), `C136_fails_negative` (A2), `C136_fails_silent` (A2), `C136_fails_methods` (A1), `C136_fails_no_index` (A1), `C136_fails_length` (A1), `C136_fails_del` (A2), `C136_refused_partial` (A2), `C136_fails_const_unchecked` (A2)

### C137 An object given to Python under a path is found there, and nothing else is changed

*Status:* proved. C137_names: a path stands for one name in one module; C137_added: the object is found there, other names and modules stay; C137_refused: exactly when the module is missing there is an exception; C137_main: x is __main__.x; C137_program: any sequence of calls; C137_member: paths to members of objects are refused. Importing a module is taken not to change modules. C137_stops: what a program has done when a module is missing.

*Model:* `Verif/PyAdd.lean`: modules as dictionaries, the search for the last dot, and `addPythonObject`. *Proof:* Specification `C137.Names`: a path is a module, a dot and a name without dots, or such a name by itself, in `__main__`. `C137_program` is by induction on the sequence of calls. *Left out:* What importing a module that has not been imported does (its code runs, and a submodule becomes an attribute of its package); how long the object lives.

*Theorems (axioms):* `C137_names` (A2), `C137_added` (A2), `C137_refused` (A2), `C137_main` (A2), `C137_program` (A2), `C137_member` (A2), `C137_stops` (A2)

### C138 On Windows the stubs for Python's functions and variables are those functions and variables

*Status:* partial. Proved: if nothing is reported at the start, every program does with the stubs what it does with Python's own functions (C138_forwarded_partial); what is reported is exactly what is missing (C138_reported); functions that are missing do nothing and return 0 (C138_missing); the types are those of Python (C138_types_partial). False in the code: the class of exceptions is replaced by the address of Python's variable that points to it (C138_fails_exception); variables that are missing are null pointers (C138_fails_null).

*Model:* `Verif/WinStub.lean`: the stubs with their parameters and the arguments they pass on, as written in pythonCAPI.cc; the library as what it exports; the check at the start, calls, and variables. *Proof:* Specification `C138.Runs`: the same program with the functions of the library; `C138.kind`: how Python declares the three variables. That each stub passes its parameters on in order is decided on the table of stubs, which is finite; programs are by induction. *Left out:* The types of parameters and results (on Windows `long` has 32 bits); static initialisation in other files that use Python before the stubs are there; `GetProcAddress` for a module that is not loaded, taken to find nothing.

*Theorems (axioms):* `C138_forwarded_partial` (A3), `C138_reported` (A2), `C138_missing` (A1), `C138_types_partial` (A3), `C138_fails_exception` (A1), `C138_fails_null` (A2)
