{"id": "C01", "title": "In-memory pack buffer is a byte FIFO", "statement": "For a pack_t held in memory, whatever sequence of packraw/unpackraw calls is made, the bytes delivered by successful unpackraw calls, concatenated in order, are exactly a prefix of the bytes handed to packraw, concatenated in order; size() is the number of bytes written, pos() the number read, and operator bool is true exactly when unread bytes remain.", "quantifier": "every finite interleaving of raw writes and reads of every length on a fresh in-memory buffer whose total length stays below 2^64", "why_tests_cant": "the interleavings and lengths are unbounded; a test fixes one schedule of writes and reads", "anchors": ["pack_base.h: pack_t::packraw, pack_t::unpackraw, pack_t::size, pack_t::pos, operator bool"]}
{"id": "C02", "title": "Reading past the end throws and changes nothing", "statement": "unpackraw of s bytes on an in-memory buffer throws pack_error exactly when fewer than s unread bytes remain, and then neither size, position nor contents change, so the caller can recover; a successful read advances the position by exactly s and never touches memory outside the buffer. (The check is evaluated in size_t arithmetic, so the claim is for s with pos+s < 2^64; outside that range the check wraps.)", "quantifier": "every buffer state and every requested length", "why_tests_cant": "a bounds check is a statement about all lengths, including the ones near 2^64 no test allocates", "anchors": ["pack_base.h: pack_t::unpackraw, pack_error"]}
{"id": "C03", "title": "Every value round-trips through pack and unpack", "statement": "For every type built from fundamental types, enums, strings, fixed arrays, std::array, sequence containers, sets, maps, multimaps, pairs, tuples, structs with bases, pointers with ownership (smart pointers), Exclude and const members, packing a value and unpacking the buffer into any destination object of the same type (whatever its previous contents) yields an equal value, leaves the destination's excluded members alone, and consumes exactly the bytes written, whatever follows them in the buffer.", "quantifier": "every type in the universe, every value of it, every previous destination value, every trailing byte string", "why_tests_cant": "the nesting of types, container sizes and stale destination states is unbounded", "anchors": ["pack_base.h: pack/unpack", "pack_stl.h: pack_container, unpackSequence, unpack of std::string/pair/tuple/set/map", "polyAccessPack.h: pack_smart_ptr", "pack_epilogue.h"]}
{"id": "C04", "title": "Heterogeneous streams come back in order", "statement": "If any list of values of any types is streamed into one pack_t with <<, streaming the same types out with >> in the same order yields the same values, and afterwards no unread byte remains.", "quantifier": "every list of typed values", "why_tests_cant": "self-delimitation has to hold for every pair of adjacent types and values", "anchors": ["pack_stream.h: operator<<, operator>>", "pack_base.h: pack_t"]}
{"id": "C05", "title": "Truncated data is always detected", "statement": "Unpacking a value from any strict prefix of its packed representation throws; it never returns normally with a partly read value.", "quantifier": "every type, every value, every truncation point", "why_tests_cant": "needs every cut point of every encoding, not a sample", "anchors": ["pack_base.h: pack_t::unpackraw", "pack_stl.h"]}
{"id": "C06", "title": "Unpacking hostile bytes stays inside the buffer", "statement": "Unpacking any type from any byte string either returns normally having consumed no more than the bytes available, or throws; it never reads outside the buffer.", "quantifier": "every byte string and every type", "why_tests_cant": "the attacker chooses the bytes; all lengths have to be covered", "anchors": ["pack_stl.h: unpack(std::basic_string), unpackSequence", "pack_base.h: pack_t::unpackraw"]}
{"id": "C07", "title": "Unpacking to a const destination skips exactly the value", "statement": "Unpacking into a const object (or container) leaves the object unchanged and consumes exactly the bytes the same unpack into a mutable object consumes, so values after it are still aligned.", "quantifier": "every type and value, any following data", "why_tests_cant": "alignment must hold for every nested type", "anchors": ["pack_base.h: unpack(const T&)", "pack_stl.h: unpack const sequences and associative containers"]}
{"id": "C08", "title": "deepEq is value equality", "statement": "deepEq(x,y) is true exactly when x and y hold equal values (member-wise through containers and owned pointers), for every type whose packing covers all its members.", "quantifier": "every pair of values of every type in the universe", "why_tests_cant": "equality requires injectivity of the encoding: a statement over all pairs of values", "anchors": ["pack_base.h: deepCmp, deepEq, pack_t::cmp"]}
{"id": "C09", "title": "Buffer comparison operators agree with a total order", "statement": "For any two buffers exactly one of a<b, a==b, a>b holds, < is transitive, and a==b exactly when the contents are identical. (The header documents cmp as lexicographic returning -1, 0 or 1.)", "quantifier": "every pair/triple of buffers and every conforming memcmp", "why_tests_cant": "the C library may return any negative or positive value from memcmp; a test sees only one libc", "anchors": ["pack_base.h: pack_t::cmp, operator<, operator>, operator==, operator!="]}
{"id": "C10", "title": "Rewinding the output position replays the whole stream", "statement": "After reseto() every byte ever written since the last reseti()/clear() is delivered again in order; after reseti() followed by reseto() (or clear) the buffer behaves as a fresh one; seeking the output position back by k replays the last k bytes read.", "quantifier": "every history of writes, reads, and resets", "why_tests_cant": "a statement over every history of operations", "anchors": ["pack_base.h: pack_t::reseti, reseto, seeki, seeko, clear"]}
{"id": "C11", "title": "Swap and move transfer buffers without loss", "statement": "a.swap(b) exchanges contents, size and position of two buffers and is its own inverse; move assignment delivers the source's unread bytes to the destination; no allocation is freed twice or leaked.", "quantifier": "every pair of buffer states, every sequence of swaps and moves", "why_tests_cant": "ownership has to be tracked across every sequence of operations", "anchors": ["pack_base.h: pack_t::swap_base, swap, pack_t(pack_t&&), operator=(pack_t&&)"]}
{"id": "C12", "title": "Trees of treenode pointers round-trip", "statement": "A linked structure whose pointers are packed with the treenode protocol is reproduced node for node when unpacked to a null pointer, for every finite tree; the null pointer is reproduced as null.", "quantifier": "every finite tree, any payload, any trailing bytes", "why_tests_cant": "trees are unbounded in depth and branching", "anchors": ["pack_graph.h: pack(treenode), unpack(treenode)"]}
{"id": "C13", "title": "Graphs with sharing and cycles round-trip up to isomorphism", "statement": "A structure packed with the graphnode protocol and unpacked is isomorphic to the original: same payloads, same null pointers, two pointers are equal after unpacking exactly when they were equal before packing, and each reachable object is written once; this terminates for every finite graph including cyclic ones.", "quantifier": "every finite pointer graph, with any sharing and any cycles", "why_tests_cant": "isomorphism over all graph shapes is beyond any sample of graphs", "anchors": ["pack_graph.h: pack_graph, unpack_graph"]}
{"id": "C14", "title": "The recursion limit does not change the unpacked graph", "statement": "Whatever recursion limit recur_max>=2 is configured, packing and unpacking a graph terminates, and the unpacked graph is isomorphic to the original, exactly as with no limit.", "quantifier": "every graph and every recursion limit of at least 2", "why_tests_cant": "limits and graph depths are unbounded, and restarts interleave with sharing", "anchors": ["pack_graph.h: pack_graph, unpack_graph (restart stack, recur_level)", "pack_base.h: pack_t::recur_max"]}
{"id": "C15", "title": "Reference counts equal the number of live references", "statement": "For every program over classdesc::ref copies, assignments, dereferences, nullifications and destructions, refCount() of an object is exactly the number of live refs denoting it, the object is destroyed exactly once when that number becomes zero, and no live ref denotes a destroyed object.", "quantifier": "every finite sequence of ref operations on any number of refs", "why_tests_cant": "aliasing patterns are unbounded; a missed decrement only appears in particular histories", "anchors": ["ref.h: ref::refdec, asg, operator=, nullify, operator*, swap"]}
{"id": "C16", "title": "Objects created by unpacking raw pointers live exactly as long as someone owns them", "statement": "The shared store that owns objects allocated while unpacking is deleted exactly once, when the last owner is destroyed, after any sequence of copy constructions, assignments and destructions.", "quantifier": "every finite sequence of owner copies, assignments and destructions", "why_tests_cant": "leaks and double frees depend on the history", "anchors": ["pack_base.h: PtrStoreRef"]}
{"id": "C17", "title": "Null and non-null smart pointers survive packing with their dynamic type", "statement": "Packing a smart pointer and unpacking it into any pointer (null or not) gives null exactly when the original was null, and otherwise an object of the same dynamic type and equal contents, for any class hierarchy registered by type.", "quantifier": "every registered hierarchy, every dynamic type, every destination state", "why_tests_cant": "all combinations of old and new dynamic types and contents", "anchors": ["polyAccessPack.h: pack_smart_ptr, unpack_smart_ptr", "poly.h: access_pack, access_unpack", "object.h: shared_ptr pack/unpack"]}
{"id": "C18", "title": "Factory lookups return the first registration and never another type's object", "statement": "After any sequence of registrations, create(name) builds an object of the type first registered under that name, throws InvalidType for names never registered, and types() lists each registered name exactly once.", "quantifier": "every sequence of registrations and lookups", "why_tests_cant": "history-dependent", "anchors": ["factory.h: Factory::registerType, create, types", "object.h: register_with_factory"]}
{"id": "C19", "title": "Enum names and values correspond", "statement": "For an enum whose enumerators are declared with any list of (name, value) pairs with distinct names, looking up a name yields its value; looking up a value yields a name that maps back to that value; unknown names give the value 0 and unknown values the empty string; the sequence of keys is the declaration order.", "quantifier": "every enumerator list (including aliased values), every name and value", "why_tests_cant": "every list of enumerators, including aliases", "anchors": ["classdesc.h: EnumKeys, Enum_handle"]}
{"id": "C20", "title": "Enums survive textual serialisation", "statement": "Writing an enum through its symbolic name and reading it back yields the same value for every declared enumerator, including when two enumerators share a value.", "quantifier": "every enumerator table and every declared value", "why_tests_cant": "all tables including aliases", "anchors": ["classdesc.h: Enum_handle, EnumKeys", "json_pack_base.h: json_pack/json_unpack of enums", "xml_unpack_base.h: enums"]}
{"id": "C21", "title": "Dotted paths decompose and recompose", "statement": "Splitting a dotted path with head and tail repeatedly visits exactly its components; a value stored at a path is found again at that path, and not at a path that differs.", "quantifier": "every path and every nested JSON object", "why_tests_cant": "paths and nesting are unbounded", "anchors": ["classdesc.h: head, tail", "json_pack_base.h: json_find"]}
{"id": "C22", "title": "JSON round trip", "statement": "json_pack of any value followed by json_unpack into any destination yields an equal value, for values built from numbers, booleans, strings, enums, nested objects, sequences, pairs and maps with non-string keys; with string keys, for keys without dots.", "quantifier": "every such value and every previous destination", "why_tests_cant": "nesting and contents are unbounded", "anchors": ["json_pack_base.h", "json_pack_epilogue.h", "stringKeyMap_epilogue.h"]}
{"id": "C23", "title": "JSON unpack error policy", "statement": "Unpacking from JSON with fields missing leaves the corresponding members unchanged and assigns the rest; with throw_on_not_found set it throws exactly when some member is missing; wrongly typed values never change the member, and throw exactly when throw_on_error is set.", "quantifier": "every JSON document and every target type", "why_tests_cant": "documents are arbitrary", "anchors": ["json_pack_base.h: json_unpackp, throw_on_error, throw_on_not_found"]}
{"id": "C24", "title": "Tuples round-trip through JSON", "statement": "A std::tuple packed to JSON and unpacked again has every element restored.", "quantifier": "every tuple length and contents", "why_tests_cant": "every length", "anchors": ["json_pack_epilogue.h: tuple json_unpack", "classdesc.h: tupleTail"]}
{"id": "C25", "title": "XML character quoting is invertible", "statement": "For every string, the text produced for it in XML output contains no markup character, and the XML reader turns it back into the same string.", "quantifier": "every string over every character code", "why_tests_cant": "all strings over 256 codes, whatever the signedness of char", "anchors": ["xml_pack_base.h: xml_quote", "xml_unpack_base.h: parse_entity"]}
{"id": "C26", "title": "XML output is well formed", "statement": "For every value, the emitted XML has properly nested, matching tags, and exactly one root.", "quantifier": "every value of every type in the universe", "why_tests_cant": "nesting unbounded", "anchors": ["xml_pack_base.h: xml_pack_t::tag, endtag, Tag"]}
{"id": "C27", "title": "XML round trip", "statement": "Every value packed to XML and parsed and unpacked again into any destination is restored.", "quantifier": "every value of the universe of structs, sequences, maps, strings, numbers and booleans", "why_tests_cant": "nesting, container sizes and string contents are unbounded", "anchors": ["xml_pack_base.h", "xml_unpack_base.h"]}
{"id": "C28", "title": "Malformed XML is rejected", "statement": "Parsing text whose end tags do not match their start tags, or that ends inside an element, throws.", "quantifier": "every token stream", "why_tests_cant": "documents are arbitrary", "anchors": ["xml_unpack_base.h: XMLunpack parse"]}
{"id": "C29", "title": "Repeated XML keys are numbered consistently", "statement": "In the unpacked XML key space, the i-th sibling with the same name is addressable as name#i, name alone is the same as name#0, and the number of siblings reported by count equals the number in the document.", "quantifier": "every document", "why_tests_cant": "documents are arbitrary", "anchors": ["xml_unpack_base.h: addHashNoughts, checkKey, count, process"]}
{"id": "C30", "title": "Multidimensional indexing is in bounds and injective", "statement": "For any dimensions, indexing a MultiArray with in-range indices always lands inside its storage, distinct index vectors address distinct elements, and every element is addressed; indexing agrees between arrays constructed from a dimension list and from a dimension array.", "quantifier": "every rank and dimension vector", "why_tests_cant": "ranks and dimensions are unbounded", "anchors": ["multiArray.h: constructDims, operator[], size"]}
{"id": "C31", "title": "Scatter delivers each marked segment and gather concatenates in rank order", "statement": "For any number of processes, scattering a buffer in which process segments were separated by mark gives process i exactly the i-th segment, and gathering buffers of any sizes gives the root the concatenation in rank order; scatter followed by gather is the identity; a buffer can be reused for a second scatter.", "quantifier": "every number of processes, every list of segments, every sequence of uses", "why_tests_cant": "process counts and message sizes are unbounded", "anchors": ["classdescMP.h: MPIbuf::mark, scatter, gather, bcast"]}
{"id": "C32", "title": "Every slave is either idle or working, never both", "statement": "In a master/slave run, under every interleaving of exec and replies, the idle list contains no duplicates, the idle and busy slaves partition all slaves, all_idle is true exactly when no request is outstanding, and wait_all_idle returns.", "quantifier": "every number of slaves and every arrival order of replies", "why_tests_cant": "arrival order of messages is nondeterministic", "anchors": ["classdescMP.h: MPIslave::exec, get_returnv, all_idle, wait_all_idle"]}
{"id": "C33", "title": "REST queries resolve to the longest registered prefix", "statement": "Processing a REST path dispatches to the registered item with the longest name that is a dot-boundary prefix of the path, passing it exactly the remainder, and throws 'Command not found' exactly when no prefix is registered.", "quantifier": "every registry and every path", "why_tests_cant": "registries and paths are unbounded", "anchors": ["RESTProcess_epilogue.h: RESTProcess_t::process"]}
{"id": "C34", "title": "Overload resolution picks the unique best match or throws", "statement": "Calling an overloaded function selects the overload whose match score is strictly lowest; throws 'no suitable match' exactly when none is matchable, and 'ambiguous' exactly when several tie for best; the result does not depend on registration order.", "quantifier": "every set of overloads and every argument buffer", "why_tests_cant": "any number of overloads in any order", "anchors": ["RESTProcess_epilogue.h: RESTProcessOverloadedFunction::process", "RESTProcess_base.h: MatchScore, matchScore"]}
{"id": "C35", "title": "Overload registry keeps one entry per signature, last registration wins", "statement": "After any sequence of registrations of functions and non-functions under names, each name has at most one entry per signature, and the entry used for a signature is the one registered last.", "quantifier": "every registration sequence", "why_tests_cant": "history-dependent", "anchors": ["RESTProcess_base.h: RESTProcess_t::add"]}
{"id": "C36", "title": "Function arguments are marshalled in order", "statement": "Calling a function through a buffer applies it to the decoded arguments in positional order, consuming each argument exactly once, for functions of any arity; packing arguments with a pack functor and calling from the buffer is the same as calling the function directly.", "quantifier": "every arity, every list of arguments", "why_tests_cant": "all arities (template recursion) and argument values", "anchors": ["function.h: CallOnBuffer, PackFunctor, eval", "RESTProcess_base.h: callFunction, JSONBuffer"]}
{"id": "C37", "title": "Schema types are emitted once and after their dependencies", "statement": "The generated XML schema lists every defined type exactly once, and for acyclic dependency relations every type after all types it depends on; output terminates also for cyclic dependencies.", "quantifier": "every finite dependency graph", "why_tests_cant": "graphs are unbounded", "anchors": ["xsd_generate_base.h: outputType, output, addDependency"]}
{"id": "C38", "title": "Schema fragments are properly nested", "statement": "For each type, the sequence of openType, addBase, addMember and closeType calls the generator makes yields XML whose tags are properly nested.", "quantifier": "every sequence of members and bases", "why_tests_cant": "every sequence of member declarations", "anchors": ["xsd_generate_base.h: openType, addBase, addMember, closeType"]}
{"id": "C39", "title": "Java class file integers and strings round-trip big-endian", "statement": "u2, u4 and u8 fields are written most significant byte first and read back unchanged for every value; strings with length below 65536 are written with a 2-byte length prefix and read back.", "quantifier": "every 16/32/64-bit value and every string", "why_tests_cant": "value space and string lengths cannot be enumerated", "anchors": ["javaClass.h: u2,u4,u8", "javaClass_serialisation.h: pack/unpack"]}
{"id": "C40", "title": "Java constant pool indices stay valid", "statement": "Every index handed out when adding to the constant pool refers to an entry equal to the one requested, entries are never moved, and packing and unpacking a class file reproduces the pool.", "quantifier": "every sequence of additions", "why_tests_cant": "history-dependent and size-dependent", "anchors": ["javaClass.h: ConstantPoolVector, ClassFile::addMethod", "javaClass_serialisation.h"]}
{"id": "C41", "title": "BinStream vectors: declared size is validated before allocation", "statement": "Reading a vector from a BinStream allocates only if the declared number of elements fits in the unread data, then reads exactly that many; otherwise it throws, whatever the declared count.", "quantifier": "every declared count and element size", "why_tests_cant": "multiplication overflow near 2^64", "anchors": ["pack_stl.h: BinStream operator>>(vector)"]}
{"id": "C42", "title": "Excluded and static-const members do not take part in serialisation", "statement": "Members wrapped in Exclude (and static constants) contribute no bytes, and are left untouched when unpacking; two objects that differ only there have equal packings.", "quantifier": "every type with any nesting of excluded members", "why_tests_cant": "nesting unbounded", "anchors": ["pack_base.h: pack/unpack Exclude, is_const_static", "classdesc.h: Exclude"]}
{"id": "C43", "title": "Sequence element access is bounds checked", "statement": "Through the REST interface, getElem/setElem/erase with any index affect only the addressed element: in-range get returns it, in-range set changes only it, out-of-range access throws and changes nothing, out-of-range erase is a no-op.", "quantifier": "every sequence, index and operation history", "why_tests_cant": "indices and histories unbounded", "anchors": ["RESTProcess_base.h: RESTProcessSequence", "RESTProcess_epilogue.h: elemImpl, sequenceProcess"]}
{"id": "C44", "title": "Type-name qualification replaces every occurrence and nothing else", "statement": "When the code generator qualifies a nested type name inside a default argument or member type, every occurrence is replaced by the full name and all other text is preserved.", "quantifier": "every input text and type name", "why_tests_cant": "any number of occurrences", "anchors": ["classdesc.cc: replaceShornTypes"]}
{"id": "C45", "title": "Delimited text is skipped exactly to the matching close", "statement": "The header scanner's bracket skipping consumes exactly up to the delimiter that balances the opening one, for any nesting, and fails with an error on input that ends first.", "quantifier": "every input text", "why_tests_cant": "nesting unbounded", "anchors": ["tokeninput.h: gobble_delimited, get_template_args, nexttok"]}
{"id": "C46", "title": "Copying an MPI buffer copies its contents", "statement": "After a=b the contents of MPIbuf a are those of b and a's marks are b's.", "quantifier": "every pair of buffers", "why_tests_cant": "prior contents arbitrary", "anchors": ["classdescMP.h: MPIbuf::operator="]}
{"id": "C47", "title": "Iterators into containers are restored to the same element", "statement": "An iterator packed with its container and unpacked against the restored container denotes the element at the same position.", "quantifier": "every container and iterator position including end", "why_tests_cant": "positions unbounded", "anchors": ["pack_stl.h: Iterator pack/unpack"]}
{"id": "C48", "title": "Fixed-size std::array restores at most its own size", "statement": "Unpacking to std::array<T,N> from a packed std::array<T,N> restores all elements; from a longer sequence it fills N elements and never writes outside the array.", "quantifier": "every N, every packed length", "why_tests_cant": "lengths unbounded", "anchors": ["pack_stl.h: unpackSequence(std::array)"]}
{"id": "C49", "title": "The recursion limit bounds the native call stack", "statement": "While packing or unpacking a graph with recursion limit recur_max, the number of simultaneously active native calls of the graph (un)packer never exceeds recur_max, whatever the depth of the graph.", "quantifier": "every graph and every limit", "why_tests_cant": "deep graphs are unbounded", "anchors": ["pack_graph.h: pack_graph, unpack_graph", "pack_base.h: recur_max", "doc/classdesc-common.tex: recur_max"]}
{"id": "C50", "title": "An allocation failure while packing leaves the buffer usable", "statement": "If growing the buffer fails during a pack, an exception reaches the caller and everything packed before is still readable.", "quantifier": "every buffer state, every failure point", "why_tests_cant": "allocation failure can strike at any of unboundedly many points", "anchors": ["pack_base.h: pack_t::append, packraw, resize, realloc", "Realloc.h: realloc"]}
{"id": "C51", "title": "Unordered containers round-trip and compare by value", "statement": "Packing an unordered set or map and unpacking restores the same set of elements; deepEq of two unordered containers with the same elements is true.", "quantifier": "every set of elements, every iteration order", "why_tests_cant": "iteration order is implementation-defined", "anchors": ["pack_stl.h", "pack_base.h: deepEq", "classdesc.h: is_associative_container<std::unordered_*>"]}
{"id": "C52", "title": "Class files written are laid out as the Java virtual machine requires", "statement": "Writing a class description produces the bytes of the class file format: every table (interfaces, fields, methods, attributes) preceded by a two byte count, most significant byte first, so that a Java virtual machine can load it and a class file produced by a Java compiler can be read.", "quantifier": "every class description whose values and sizes fit the format", "why_tests_cant": "a wrong count width is invisible to a write-then-read test; tables are unbounded", "anchors": ["javaClass.h: JavaClassVector, ClassFile", "pack_stl.h: pack of containers", "java/compileClass.cc: write_JNI"]}
{"id": "C53", "title": "The native stub's parameter list matches the method's signature", "statement": "Reading the Java signature generated for a C++ method gives, in order, the native interface types of its arguments and last that of its return value, for any number of arguments of the types for which a signature can be generated.", "quantifier": "every list of argument types and every return type", "why_tests_cant": "argument lists are unbounded", "anchors": ["javaClassDescriptor.h: descriptor, arg_desc", "java/compileClass.cc: JNI_arglist"]}
{"id": "C54", "title": "Schemas do not refer to undefined types", "statement": "Every type of the target namespace that a generated schema refers to, as the type of an element or as a base, is defined in the same schema.", "quantifier": "every class structure, every sequence of objects described with one generator", "why_tests_cant": "class structures are unbounded; a dangling reference only shows when a validator resolves that very type", "anchors": ["xsd_generate_base.h: xsd_generate, processExtraClass, openType, addMember, addBase, defineType, output"]}
{"id": "C55", "title": "Schema generation ends", "statement": "Generating the schema for an object returns, whatever its type.", "quantifier": "every class structure", "why_tests_cant": "termination over all class structures cannot be tested", "anchors": ["xsd_generate_base.h: xsd_generate, processExtraClass"]}
{"id": "C56", "title": "Schema definitions follow the XML Schema content model", "statement": "Each element of a generated definition stands where XML Schema permits it: element declarations and wild cards in a sequence, a sequence in a complexType or an extension, an extension in a complexContent.", "quantifier": "every class structure", "why_tests_cant": "every sequence of member declarations", "anchors": ["xsd_generate_base.h: openType, addBase, addMember, closeType"]}
{"id": "C57", "title": "The schema's root element describes the object", "statement": "After describing an object under an undotted name the schema's root element has that name and the object's type.", "quantifier": "every class structure", "why_tests_cant": "every class structure", "anchors": ["xsd_generate_base.h: xsd_generate, output"]}
{"id": "C58", "title": "CDATA strings survive XML", "statement": "A CDATA string packed to XML and unpacked again is restored.", "quantifier": "every string", "why_tests_cant": "string contents are unbounded; which bracket sequences break the scanner is not visible from examples", "anchors": ["cdata.h: CDATA, xml_pack, xml_unpack", "xml_unpack_base.h: XMLtoken::process_cdata (bang)"]}
{"id": "C59", "title": "XML comments make no difference", "statement": "Inserting a comment between other parts of an XML document does not change what is unpacked from it.", "quantifier": "every document, every comment text, every place", "why_tests_cant": "documents, comments and places are unbounded", "anchors": ["xml_unpack_base.h: XMLtoken::gobble_comment"]}
{"id": "C60", "title": "XML attributes make no difference", "statement": "What is unpacked from an XML document does not depend on the attributes of its elements.", "quantifier": "every document", "why_tests_cant": "documents are unbounded", "anchors": ["xml_unpack_base.h: XMLunpack parse, parseTag"]}
{"id": "C61", "title": "Listing of enums through REST", "statement": "The query @enum.@list returns exactly the names of the enums registered, in order, and never fails.", "quantifier": "every registry", "why_tests_cant": "registries are unbounded and names arbitrary", "anchors": ["RESTProcess_epilogue.h: RESTProcess_t::process (413-420)"]}
{"id": "C62", "title": "A map behind the REST interface is read and changed key by key", "statement": "For a map registered with the REST service: giving an argument to `.@elem.key` makes that key, and no other, have the converted value; `.@elem.key` without an argument returns the value of the key and changes nothing, throwing if there is none; insert refuses a key that is already there and otherwise adds exactly it; erase removes exactly the key; reaching a member of an element through `.@elem.key.member` reads or changes that member; requests that throw or only read leave the map as it was.", "quantifier": "for all key types with a strict order, all element types, maps, keys and arguments", "why_tests_cant": "The outcome depends on every key that happens to be in the map and on how the argument converts; tests use a few literal keys.", "anchors": ["RESTProcess_base.h:840-1030", "RESTProcess_epilogue.h:308-379"]}
{"id": "C63", "title": "The scanner delivers the tokens of the source text", "statement": "The scanner of the code generator delivers, in order, the tokens of the C++ text: words, quoted constants and operators by longest match. White space, comments, preprocessor lines and attributes between tokens make no difference, and no token is lost, invented, split or joined.", "quantifier": "for all source texts", "why_tests_cant": "A scanner is a loop over every possible character sequence; which characters stand next to each other at token and line ends decides the result, and tests only hold a few layouts.", "anchors": ["tokeninput.h:24-235"]}
{"id": "C64", "title": "insert-friend copies what it reads", "statement": "The insert-friend filter writes every character it reads to its output unchanged, so that its output is the input apart from the lines it inserts.", "quantifier": "for all source texts", "why_tests_cant": "Look-ahead and push back happen at arbitrary places of the text; a test compares one or two headers.", "anchors": ["tokeninput.h:40-120", "insert-friend.cc:81-200"]}
{"id": "C65", "title": "The table of an enum lists its enumerators", "statement": "For every enum declaration the code generator reads, the table of names and values it writes has exactly one entry for each enumerator, in the order of declaration, whatever the values given are; the declarations that follow are read as if the enum had not been there.", "quantifier": "for all enum declarations (named or class enums, any underlying type, any number of enumerators and any expressions for their values)", "why_tests_cant": "The number of enumerators and the expressions for their values are unbounded; a test has one or two enums.", "anchors": ["classdesc.cc:250-288"]}
{"id": "C66", "title": "Every member of a class gets exactly one action", "statement": "Reading the body of a class, the code generator records one action for each data member and each member function, with its name and the right kind (data, array with its number of dimensions, function), in the order of declaration, and nothing else: types, initialisers, bit field widths, array bounds, function bodies, friends, using declarations, operators and labels record nothing. With -respect_private private and protected members record nothing; overloaded functions and functions of using declarations are left out.", "quantifier": "for all class bodies made of data declarations, functions, operators, labels, enums, friends and using declarations", "why_tests_cant": "Class bodies combine arbitrarily many declarations of many forms, and what one declaration leaves behind affects the next; tests hold a few headers.", "anchors": ["classdesc.cc:318-346", "classdesc.cc:467-840"]}
{"id": "C67", "title": "JSON packing leaves a document alone where a value cannot go", "statement": "Packing a value into a JSON document under a dotted name whose parent is missing or is not an object leaves the document as it was. If the parent is missing the call throws exactly when throw_on_not_found is set, if it is not an object exactly when throw_on_error is set.", "quantifier": "for all JSON documents, all paths, all types and values, and all settings of the two flags", "why_tests_cant": "Documents, paths and nestings of types are unbounded, and the handling is repeated in six places of the code; tests try a path or two.", "anchors": ["json_pack_base.h:324-356", "json_pack_base.h:394-418", "json_pack_base.h:535-567", "json_pack_epilogue.h:37-64", "stringKeyMap_epilogue.h:9-29"]}
{"id": "C68", "title": "A schema describes each class member by member", "statement": "In a generated XML schema the definition of a class has exactly one element for each of its members, in the order of declaration, with the member's name and schema type (the type pointed to for smart pointers), names its base class, and has nothing else; and every class an object of which has been described has a definition.", "quantifier": "for all class declarations, nested and shared to any depth, and all sequences of objects described with one generator", "why_tests_cant": "The definitions are assembled piecemeal while nested classes, containers and pairs are described in between; tests compare one or two schemas.", "anchors": ["xsd_generate_base.h:80-180", "xsd_generate_base.h:249-345", "xsd_generate_base.h:353-403", "xsd_generate_base.h:454-505"]}
{"id": "C69", "title": "JSON turned into Python objects and back is unchanged, and so is Python data turned into JSON", "statement": "Converting a JSON document into Python objects and those back into JSON gives the same document. Converting a Python value built of None, bools, ints, floats, strings, lists and dicts into JSON and back gives an equal Python value. A value that has no JSON form is reported.", "quantifier": "for all documents and all Python values, nested to any depth", "why_tests_cant": "Losses occur for values at the edge of a representation (64 bits, zero bytes, keys that are not strings) and for cyclic structures; the tests convert a few small values.", "anchors": ["pythonBuffer.h:53-95", "pythonBuffer.h:197-267", "pythonBuffer.h:392-406"]}
{"id": "C70", "title": "The references the Python interface holds to Python objects are counted exactly", "statement": "Whatever sequence of constructions, copies, assignments, destructions and queries a program performs with buffers on Python objects, and whatever attributes are set on and deleted from wrapped C++ objects, the reference count of each Python object changes by exactly the change in the number of references held: no object is released while in use, and none is kept for ever.", "quantifier": "for all sequences of operations on any number of buffers and objects", "why_tests_cant": "A wrong count shows only as memory growth or, much later, as a crash somewhere else; None is immortal in recent interpreters and hides part of it.", "anchors": ["pythonBuffer.h:123-196", "pythonBuffer.h:269-291", "pythonBuffer.h:480-494", "pythonBuffer.h:571-604"]}
{"id": "C71", "title": "What is written to a machine independent (XDR) buffer comes out again in order", "statement": "Values and raw data written to a memory buffer of the XDR kind are read back unchanged, in the order written, however writing, reading and rewinding alternate and however much is written; size() tells how many bytes were written, moving the writing position back by n bytes removes exactly the last n, reading more than was written is reported, and swapping two buffers exchanges them.", "quantifier": "for all sequences of operations and all amounts of data", "why_tests_cant": "The buffer grows in chunks of 1024 bytes, and every defect needs more than one chunk, or memory that happens not to be zero.", "anchors": ["xdr_pack.cc:150-155", "xdr_pack.cc:187-272", "pack_base.h:323-359"]}
{"id": "C72", "title": "Type identifiers of the object hierarchy identify classes, and pointers into it survive packing", "statement": "Each class of the object hierarchy has one identifier for the life of the program, different classes have different ones, and creating an object from an identifier gives an object of that class, in whatever order classes are registered or used. A shared pointer to an object, null or not, is restored by packing and unpacking with class and contents, also in another run of the program; an identifier in the data that fits no class or no class the pointer may point to is reported.", "quantifier": "for all orders of registration and use, all classes and all packed data", "why_tests_cant": "Identifiers depend on the order of first use over the whole program; a test fixes one order and packs and unpacks in one process.", "anchors": ["object.h:19-58", "object.h:75-97", "object.h:104-151"]}
{"id": "C73", "title": "Base classes are described once each, in order", "statement": "When the code generator reads a class definition, the generated descriptor contains exactly one call for each direct base class, in the order written and naming the class as written, and `typename` precedes the name exactly when the name is qualified by something that depends on a template parameter; with -respect_private bases that are private or protected, explicitly or by the default of `class`, are left out.", "quantifier": "all lists of base classes, with any access specifiers, `virtual`, qualified names and nested template arguments, for classes, structs and templates, with and without -respect_private", "why_tests_cant": "names, template arguments and lists are unbounded; the access default, `>>` and the search for the last `::` interact, and tests use a few headers", "anchors": ["classdesc.cc:363-462", "classdesc.cc:234-248"]}
{"id": "C74", "title": "The arguments of a class template are its parameters", "statement": "For `template <...> class X`, the descriptor is generated for X with an argument list naming each template parameter once, in order, packs expanded, and without default arguments.", "quantifier": "all template parameter lists: type, non-type and template parameters, packs, with and without default arguments and names", "why_tests_cant": "parameter lists are unbounded and nest; a wrong argument list only shows when the descriptor of that particular template is compiled", "anchors": ["classdesc.cc:948-994", "tokeninput.h:298-320"]}
{"id": "C75", "title": "Every accessible class definition gets a descriptor", "statement": "Each definition of a class, struct, class template or specialisation that is accessible and not nested in a class template gets a descriptor under its own name, and declarations and inaccessible classes get none.", "quantifier": "all class heads: with any name, scope, template arguments, base classes and the specifier `final`", "why_tests_cant": "a class that is skipped produces no error in the generator; the absence of a descriptor is noticed, if at all, by a user of that class", "anchors": ["classdesc.cc:996-1049"]}
{"id": "C76", "title": "Smart pointers to polymorphic objects keep the dynamic type and state of the object through JSON and XML", "statement": "If a smart pointer to a base class refers to an object of a derived class known to the reader's factory, then after packing the pointer (alone, as an element of a vector, or as a member) with json_pack or xml_pack and unpacking it, the destination pointer refers to a new object of the same dynamic type with the same state, whatever it referred to before; a null pointer is restored as null; a type the factory does not know raises an exception in XML.", "quantifier": "for all class hierarchies, type identifiers, objects, destinations, positions of the pointer, and flags of the reader", "why_tests_cant": "The type of the object is only known at run time, and whether its record is found depends on the place of the pointer in the document and on what else the document contains; tests use one hierarchy and one place.", "anchors": ["polyAccessJsonPack.h:22-110", "polyJsonBase.h:15-51", "polyAccessXMLPack.h:17-80", "polyXMLBase.h:17-63"]}
{"id": "C77", "title": "Random initialisation leaves every object in a valid state", "statement": "random_init(r,\"\",x), with a generator whose rand() returns doubles in [0,1), terminates without undefined behaviour and leaves every described part of x valid: integers between 0 and the maximum of their type, printable characters, strings, sequences and sets of at most nine (new) elements, enumerations one of their enumerators, smart pointers to default constructible types non-null, constants, excluded members and raw pointers unchanged, maps up to nine random entries. Every enumerator and every size up to nine can be drawn. The generator supplied by the library returns values in [0,1).", "quantifier": "for all types, initial contents, sequences of random numbers and roundings to nearest", "why_tests_cant": "The faults are at single values of the generator (one draw in 2^31), at rounding of products, and in enumerations with aliases; tests draw a few numbers with a fixed seed.", "anchors": ["random_init_base.h:20-160", "random_init_epilogue.h:20-75", "classdesc.h:803"]}
{"id": "C78", "title": "Every type of a header gets a descriptor under its qualified name", "statement": "Processing a header, the generator emits exactly one descriptor per class, class template, explicit specialisation and enumeration defined in it (outside function bodies), in the order of their closing braces, and none for mere declarations, uses, aliases or unnamed enumerations. The descriptor names the type with all its enclosing namespaces and classes and lists its accessible bases and members and, for a template, its parameters. Nested classes and enumerations get one if and only if they are accessible; anything inside a namespace is named by that namespace only, whatever namespaces come before or after.", "quantifier": "for all sequences of declarations nested to any depth (namespaces, unnamed namespaces, classes in classes), both access settings, all names", "why_tests_cant": "The space of headers is unbounded and the state carried along (current namespace, its end, pending template parameters, access) only goes wrong for particular successions of declarations", "anchors": ["classdesc.cc:467-569", "classdesc.cc:996-1049", "classdesc.cc:1236-1352", "classdesc.cc:250-288", "classdesc.cc:848-930"]}
{"id": "C79", "title": "The compiler sees one descriptor per type and action, unless a pragma leaves it out", "statement": "For every type the generator knows of and every action it is asked for, the code it writes, once it has been through the preprocessor, contains exactly one specialisation of the action for that type, for the type's own name and template parameters. It contains none if and only if the header has a directive `#pragma omit action type` for just this action and type, or the file <action>_base.h on the include path has one. Other types and actions are not affected, and including the output twice is the same as including it once. Likewise a class is treated as the node of a tree or of a graph if and only if a directive `#pragma treenode` or `#pragma graphnode` names it.", "quantifier": "for all sets of types (in any namespaces, with any template parameters), all lists of actions, all directives and all contents of the files", "why_tests_cant": "Each pair of types or of directives can clash by itself, and the missing descriptor only shows as a fallback chosen silently elsewhere; a test has a handful of types with short names", "anchors": ["classdesc.cc:1052-1117", "classdesc.cc:1254-1265", "classdesc.cc:1474-1632"]}
{"id": "C80", "title": "The name of a type identifies it", "statement": "typeName<T>() returns different strings for different types, so that names can serve as keys (of factories, of type registries, of documentation). For an instance of a class template known to the generator the name is the qualified name of the template followed by the names of its arguments in order.", "quantifier": "for all types built from fundamental types, classes, class templates of the user and of the standard library, const, pointers, references and arrays, nested to any depth", "why_tests_cant": "The set of types is infinite and a collision needs a particular pair; the generated part is a program text assembled from the parameter list, whose faults depend on how parameters are spelled", "anchors": ["classdesc.h:572-760", "classdesc.h:907-923", "typeName_epilogue.h:15-60", "classdesc.cc:79-133", "classdesc.cc:1386-1422"]}
{"id": "C81", "title": "Member function pointers are declared with the type of their function", "statement": "With overloading on (the default), the code generated for a class declares for each accessible, not deleted member function other than destructors one pointer variable, in the order of declaration: it is declared with the function's own return type, argument types (default arguments left out) and const qualifier, as an ordinary function pointer if the function is static, and is initialised with the address of the function; constructors get a dummy pointer with their argument types. Different functions and different overloads of one function have different variables. `typename` is put in front of a return type only where it is a qualified name.", "quantifier": "all classes of member functions, data members and access labels; all return types, argument lists and default arguments; with and without private members respected", "why_tests_cant": "The declaration is text assembled from whatever tokens the class contains; test classes use a handful of argument lists, while the defects depend on details of the declaration (a comma in a default argument, a return type that ends with >>, a space between empty parentheses).", "anchors": ["classdesc.cc:188-228", "classdesc.cc:585-606", "classdesc.cc:640-774", "classdesc.cc:813-822", "classdesc.cc:1576-1578"]}
{"id": "C82", "title": "The code generated for a class visits each member once, under its name", "statement": "The function generated for an action visits an object by one call per accessible base class, passing the object as that base, and one call per accessible member, in the order of declaration. The call for member x appends .x to the name of the object and passes the member x of the object: data directly or as a pointer to member (as requested), arrays with their element, number of dimensions and bounds, functions as pointers, static constants marked as such. Members with different names get different labels. The function generated for the type alone makes the same visits with pointers to the members. Everything passed exists in C++.", "quantifier": "all headers of namespaces, classes, class templates and enumerations; all member names, types, array bounds and specifiers; both options for member pointers", "why_tests_cant": "The text depends on combinations of specifiers, declarators, options and earlier declarations in the class; tests compile a few fixed classes with the default options, and a member left out compiles silently.", "anchors": ["classdesc.cc:318-346", "classdesc.cc:597-617", "classdesc.cc:716-806", "classdesc.cc:914-928", "classdesc.cc:1556-1636"]}
{"id": "C83", "title": "insert-friend gives access to every class with private members, and changes nothing else", "statement": "The copy of a header written by insert-friend contains every token of the header in its order. In each class, and in each struct that has a private or protected label, one declaration CLASSDESC_ACCESS with the name of that class is added inside its braces (for a class before its members, for a struct behind the label), for templates CLASSDESC_ACCESS_TEMPLATE. Nothing is added for declarations, friends, unnamed classes, scoped enumerations, function and variable declarations, explicit instantiations and structs with public members only. The result does not depend on the layout of the header.", "quantifier": "all headers: all sequences of class, struct and template definitions, other tokens and white space between them", "why_tests_cant": "The place of insertion depends on the character after a brace and on tokens arbitrarily far ahead (the first label of a struct at any depth); the repository's tests run the program on a few headers laid out in one style.", "anchors": ["insert-friend.cc:29-195", "tokeninput.h:60-320", "doc/classdesc-common.tex:456-462"]}
{"id": "C84", "title": "The text dumped for an object shows all of its contents", "statement": "dump(out, name, object) writes a readable description: every value in the object is on a line after the name of its member, indented by the number of objects around it, members in the order of declaration and bases first where the descriptor puts them; elements of containers carry their number, those of containers of numbers are separated on one line; braces are closed by their partners. Two objects of one class have the same description only if they are equal (up to what the stream writes for their numbers).", "quantifier": "all classes built from numbers, strings, enumerations, nested classes and bases, sequences, arrays, maps and shared pointers to any depth; all values; all names", "why_tests_cant": "Different objects with the same text and misplaced separators appear only for particular combinations of nesting depth, element type and content; the tests compare one dump of one class with a stored file.", "anchors": ["dump_base.h:43-190", "dump_epilogue.h:13-60", "doc/classdesc-common.tex:1095-1102"]}
{"id": "C85", "title": "Containers given to Python behave as Python's own", "statement": "A sequence, array or map that is a member of an object given to Python answers len, indexing, assignment and for statements as a list, nested list or dictionary with the same elements would: an element read is the one last assigned, indices outside raise IndexError (a missing key KeyError), negative indices count from the end, a for statement visits every element once and then stops, even if elements are assigned meanwhile; a list that cannot be converted leaves the container as it was; assigning a member of an element changes that element.", "quantifier": "all sequences and maps, arrays of any number of dimensions; all sequences of operations, including assignments while an iterator is in use; all indices and keys", "why_tests_cant": "Which operations are interleaved with an iteration and how many elements there are is unbounded; the tests of the Python binding read and assign a few elements of short containers.", "anchors": ["python_base.h:131-148", "python_base.h:200-285", "python_base.h:976-1027", "python_epilogue.h:35-47"]}
{"id": "C86", "title": "Objects given to Python under dotted names are found there", "statement": "After addObject and addFunctional with dotted names, every object and function is an attribute at that path of the module (module.a.b.x), whatever else is added and in whatever order; once the python_t object is gone, definitions go to the module again.", "quantifier": "all sequences of additions, of objects and functions, with names of any depth; both orders in which a standard library may destroy the elements of a vector", "why_tests_cant": "What is lost depends on the order of the additions and on how many scopes are left at once, and on the standard library; the example adds two objects.", "anchors": ["python_base.h:497-510", "python_base.h:730-812"]}
{"id": "C87", "title": "isa tells whether one class is derived from another", "statement": "isa(x,y) is true exactly if the class of x is that of y or derived from it, directly or through further bases.", "quantifier": "all class hierarchies, with and without virtual functions; all objects and references", "why_tests_cant": "Whether virtual functions anywhere in a hierarchy change the answer is a question about all hierarchies; a test uses one.", "anchors": ["isa_base.h:37-76"]}
{"id": "C88", "title": "A path into an object behind the REST interface reads and sets exactly the member it names", "statement": "For objects registered with the REST service, a dotted path of member names leads, through members, base classes and smart pointers, to the member a C++ expression with the same names would: without an argument it is returned and nothing changes; with an argument that member and no other gets exactly the value given, or, if it cannot hold it, an exception is thrown and nothing changes; a path that names nothing throws and changes nothing.", "quantifier": "All object structures (classes, bases, members, enumerations, smart pointers to shared or recursive objects), all registries of such objects, all paths, arguments and values in memory", "why_tests_cant": "The registry is flat and built by macros of one entry per member; which entry a path finds, after how many redirections through pointers and nested registries, depends on all names of all objects registered, and values that do not fit are silent conversions.", "anchors": ["RESTProcess_base.h:154-238, 336-342, 443-470, 582-585, 1060-1122, 1563-1640", "RESTProcess_epilogue.h:179-185, 381-407, 506-519"]}
{"id": "C89", "title": "A factory registered with the REST service creates objects under the names asked for", "statement": "After addFactory<T>(typeName[, callback]), a request to typeName with a name and constructor arguments creates an object that is from then on found under that name, runs the callback if one was given, returns normally, and changes nothing registered under other names.", "quantifier": "All registries, factory names, object names, with and without a callback", "why_tests_cant": "Tests give a callback and a fresh name; the call without the optional callback and the one with the name of the factory itself are only seen when made.", "anchors": ["RESTProcess_base.h:408-418", "RESTProcess_epilogue.h:534-547"]}
{"id": "C90", "title": "Attributes of a Python module lead to the C++ members of that name, and calling them reads and sets them", "statement": "In a module made with CLASSDESC_PYTHON_MODULE, module.a.b.c is the member c of the member b of the registered object a, through classes, base classes and smart pointers. Calling it without arguments returns its value and changes nothing; calling it with an argument of its type sets it, changes nothing else and returns the new value. Any call with arguments does what the REST request /a/b/c with these arguments does. Assigning module.a.b.c=v sets it too, and containers offer their elements under the names listed for them.", "quantifier": "all registries and described objects, all paths, all values and arguments", "why_tests_cant": "Names reach an attribute in two ways, once when the module is loaded and once when an attribute is looked up; which applies depends on the shape of the object. A test tries a few members of one class.", "anchors": ["pythonBuffer.h:412-446", "pythonBuffer.h:526-606", "pythonBuffer.h:660-682", "pythonBuffer.h:711-732", "RESTProcess_base.h:1055-1096", "RESTProcess_base.h:1492-1515", "RESTProcess_epilogue.h:103-138"]}
{"id": "C91", "title": "Containers in a Python module answer as lists and dictionaries do", "statement": "For a sequence or map of a Python module, whatever sequence of len(w), w[i], w[i]=v, del w[i], w.insert(v), w.erase(i), w.contains(k) and w.keys() is executed, the answers and the elements left are those of a Python list or dictionary with the same elements (insert appending, erase removing, keys in any order); what a list or dictionary refuses raises an exception and changes nothing.", "quantifier": "all programs of these operations, all element types that are numbers, truth values or strings, all key types with a strict order, all contents", "why_tests_cant": "An operation's effect depends on all that were executed before and on the types of keys and elements; tests execute a few on literal contents.", "anchors": ["pythonBuffer.h:471-506", "pythonBuffer.h:606-650", "RESTProcess_base.h:75-92", "RESTProcess_base.h:616-738", "RESTProcess_base.h:840-1030"]}
{"id": "C92", "title": "What Python or a REST client holds can be used", "statement": "Whatever a Python program has got from a module (a registered object, the result of a function, a member of either, an element of a container, the target of a smart pointer) can be used as long as the program holds it, whatever else is done in between; the same for what a REST request returns.", "quantifier": "for every sequence of look-ups, calls, copies, deletions, changes of containers and resets of pointers", "why_tests_cant": "Use after free usually goes unnoticed in a test: the memory still has the old content. The sequences of operations are unbounded.", "anchors": ["pythonBuffer.h:417-446", "pythonBuffer.h:571-590", "pythonBuffer.h:660-694", "RESTProcess_base.h:448-451", "RESTProcess_base.h:710-733", "RESTProcess_base.h:1060-1071", "RESTProcess_base.h:1157-1209", "RESTProcess_epilogue.h:103-125"]}
{"id": "C93", "title": "C arrays behind the REST interface and Python keep their rows, columns and bounds", "statement": "For a member that is an array of C, the path `@elem.i.@elem.j` and Python's `w[i][j]` denote the element C++ calls `a[i][j]`; an argument or assignment changes that element only; indices out of range raise an exception and change nothing; the whole array is shown as, and can be assigned from, one JSON array per row.", "quantifier": "for every element type, all dimensions and contents, and all indices", "why_tests_cant": "Tests use square or one dimensional arrays, where exchanged dimensions are invisible; the claim is about all dimensions and indices.", "anchors": ["RESTProcess_base.h:267-299", "RESTProcess_base.h:750-829", "RESTProcess_base.h:1655-1667", "RESTProcess_epilogue.h:213-306", "RESTProcess_epilogue.h:507-520", "multiArray.h:22-161"]}
{"id": "C94", "title": "A set behind the REST interface and Python holds what it is told to", "statement": "For a member that is a std::set, `@elem.k` with `true` adds k and with `false` removes it, `@elem.k` without argument tells whether it is there, `@insert`, `@erase`, `@size` and `@keys` do what their names say, an array given for the whole set replaces its elements, and the wrapper in Python (len, insert, erase, contains, keys, [k]) acts on the same elements; reading never changes the set, and what cannot be understood is refused.", "quantifier": "for every key type with a strict order, every set and every sequence of requests", "why_tests_cant": "The answers depend on everything done before; sequences of requests and sets are unbounded.", "anchors": ["RESTProcess_base.h:298-321", "RESTProcess_base.h:844-867", "RESTProcess_base.h:909-923", "RESTProcess_base.h:976-1024", "RESTProcess_epilogue.h:308-379"]}
{"id": "C95", "title": "A container given back what it was shown as is unchanged", "statement": "If the JSON array that a sequence, set or map of the REST interface is shown as is given as the argument of a request on the whole container, the container has exactly the elements shown, whatever it had before; an argument that cannot be converted raises an exception and leaves the container as it was.", "quantifier": "for every element and key type whose own JSON form reads back, all contents before and after, and all other arguments", "why_tests_cant": "A round trip over all contents; the existing tests assign sequences of integers only.", "anchors": ["RESTProcess_base.h:267-321", "RESTProcess_epilogue.h:213-236", "RESTProcess_epilogue.h:308-324", "json_pack_base.h:519-568"]}
{"id": "C96", "title": "The REST service lists exactly what can be requested", "statement": "Asking the REST service for the `@list` of an object gives every name that can be put after the path of the object to address something in it, and nothing that cannot, without repetitions; nothing is changed by asking.", "quantifier": "for every registry of objects of described classes, every object in it (nested, inherited from, behind chains of smart pointers), all names and all arguments of the request", "why_tests_cant": "Lists depend on the whole structure of the object and on everything registered before; structures are unbounded.", "anchors": ["RESTProcess_epilogue.h:103-125", "RESTProcess_epilogue.h:409-461", "RESTProcess_base.h:1043-1071", "RESTProcess_base.h:1092-1096"]}
{"id": "C97", "title": "Variables of polymorphic value type have an object of their own", "statement": "A variable of type poly<T> behaves as a value: copying, assigning and swapping give each variable its own object of the same dynamic type and contents, later changes to one do not show in another, each object is destroyed exactly once and none is left over when all variables are gone; a statement that throws (allocation, bad cast) changes nothing. cloneT<U> gives a new copy that is a U, or null without leaving an object behind.", "quantifier": "for every class hierarchy, every sequence of declarations, copies, assignments (of variables, of objects, of what a variable holds), addObject, swaps, changes through the pointer, casts and destructions, with allocation failing at any of them", "why_tests_cant": "Ownership depends on the whole history of the program; failing allocations cannot be tested systematically.", "anchors": ["poly.h:38-92", "object.h:90-93", "polyBase.h:29-37", "polyBase.h:75-81"]}
{"id": "C98", "title": "Classes given to Python are found under their C++ names", "statement": "A class named `a::b::c` in C++ that is given to Python by way of a python_t can be used in Python as `module.a.b.c`, and that is the class made for it, whatever else is given to Python before or afterwards; likewise enumerations, whose enumerators are attributes of the enumeration and of the scope it is in, with their values. Different names stand for different classes, and giving a class to Python does not change which scope things given afterwards end up in.", "quantifier": "all sequences of classes and enumerations, with all qualified names (any nesting, template arguments containing `::`), and all orders in which they are given", "why_tests_cant": "whether a class is found depends on what was given before: a test has a few classes in one order, and scopes are created on demand by the first class in them", "anchors": ["python_base.h:509-549", "python_base.h:705-728", "python_epilogue.h:49-56"]}
{"id": "C99", "title": "Giving a class to Python gives it everything that can be had from the class", "statement": "After `python<T>` (or addPythonObject, or BOOST_PYTHON_MODULE calling python) for any classes, one after the other, each of them is in Python with all its members, inherited ones too; and so is every type that can be had from it by members, elements of arrays and containers, targets of shared pointers, arguments and results of member functions, again and again: classes with all their members and constructors, containers with their methods, shared pointers with `target`, enumerations. Giving classes to Python always comes to an end, also when classes refer to each other in circles.", "quantifier": "all programs: any number of classes, containers, pointers and enumerations referring to each other in any way, with any bases and members, and any sequence of classes given to Python", "why_tests_cant": "whether a type is described depends on the order in which the recursion meets it, through switches that are set once per type; tests have a handful of classes and no circles through arrays", "anchors": ["python_base.h:120-127", "python_base.h:753-781", "python_base.h:871-880", "python_base.h:961-968", "python_base.h:998-1080", "python_base.h:1111-1122", "python_epilogue.h:21-45"]}
{"id": "C100", "title": "Registering an object from Python under a name makes it that name, and costs no reference", "statement": "After any sequence of a Python program's assignments, deletions and calls `module.register(obj,name)`, a name of the module is the object last registered under it (or nothing, if deleted since), REST requests for the name and for paths below it go to that object, calls with other arguments are exceptions that change nothing, and every object is kept exactly as long as the program or the module refers to it.", "quantifier": "all sequences of taking and dropping references, registering (with any arguments, whether accepted or not) and deleting names, from every state", "why_tests_cant": "reference counts are wrong by one per call, which nothing shows until memory runs out or a count reaches zero; what is left in the registry of earlier objects shows only for particular pairs of names", "anchors": ["pythonBuffer.h:747-771", "pythonBuffer.h:786-791", "pythonBuffer.h:796-816", "pythonCAPI.h:50-58"]}
{"id": "C101", "title": "The dictionary of enumerations of a Python module has every enumeration in use, with all its enumerators", "statement": "The attribute `enum` of a module made by CLASSDESC_PYTHON_MODULE is a dictionary with an item for exactly those enumeration types that are registered: global objects of such a type, members of registered objects at any depth and in bases, arguments and results of registered functions. The item under the name of the type is the list of the names of its enumerators.", "quantifier": "all collections of registered objects (any nesting of members and bases) and functions (any parameter and result types), all enumeration types with any number of enumerators of any values", "why_tests_cant": "which types get in is decided by overloads on the way they are used; a test looks for a type it knows to be there", "anchors": ["pythonBuffer.h:735-745", "RESTProcess_base.h:1594-1634", "RESTProcess_epilogue.h:390-396", "RESTProcess_epilogue.h:409-420"]}
{"id": "C102", "title": "A failed graph pack or unpack does not affect others", "statement": "If packing or unpacking a graph pointer throws (the data end too soon, the file cannot be written), the exception reaches the caller and nothing else is affected: later graphs, in other buffers, are packed and unpacked as if the failed call had not been made. Data cut short anywhere inside a graph are always noticed.", "quantifier": "every graph, every point of failure, every later buffer", "why_tests_cant": "the effect is in hidden state that a test in a fresh process does not see; the points of failure are unbounded", "anchors": ["pack_graph.h: pack_graph, unpack_graph (static graph_map, restart, recur_level)", "pack_base.h: pack_t::unpackraw"]}
{"id": "C103", "title": "Type names mean the same in a descriptor as in the class", "statement": "In the code generated for a class, the name of a type declared in the class or in a class around it can be used without qualification and denotes the type C++ finds under that name inside the class: the innermost one. Each name is introduced once, and no name is introduced that the class does not have.", "quantifier": "every nesting of classes, every set of type declarations", "why_tests_cant": "the scopes, names and hidden names combine without bound, and a wrong name shows only when somebody's class is compiled", "anchors": ["classdesc.cc: printNestedTypes", "classdesc.cc: parse_class (nested)", "classdesc.cc: assign_enum_action"]}
{"id": "C104", "title": "Descriptors written to a directory do what the others do", "statement": "With -workdir every descriptor of a type that is not a template is defined exactly once, in the file of the directory named after the type, after the header named by -include, and each definition visits the base classes and members of its type in the same way, with the same arguments, as the definition generated without the option.", "quantifier": "every list of types and descriptors, every set of members, every previous content of the directory", "why_tests_cant": "the option has its own copy of the generator, and what it leaves out shows only for kinds of members the tests of the option do not have", "anchors": ["classdesc.cc: main (workdir)", "doc/classdesc-common.tex: -workdir"]}
{"id": "C105", "title": "Options given to the programs are obeyed or refused", "statement": "The options given to classdesc in front of the names of descriptors take effect in whatever order they come, each with its argument, the last one counting where an option is given twice; the other arguments are the descriptors. A missing argument and an option the program does not have are reported. The same holds for insert-friend, which has no options.", "quantifier": "every command line", "why_tests_cant": "there are unboundedly many command lines, and a program that does not end does not fail a test that never runs it", "anchors": ["classdesc.cc: main (options)", "insert-friend.cc: main (options)", "doc/classdesc-common.tex: Synopsis of classdesc"]}
{"id": "C106", "title": "Classes declared but not defined get an empty definition, and no others do", "statement": "The generated code defines an empty class for exactly those classes the input declares and does not define, in the scope of the declaration, unless -nodef is given. In particular it never defines a class a second time.", "quantifier": "every sequence of declarations, definitions and typedefs in every scope", "why_tests_cant": "declarations and definitions combine in any order and scope, and what goes wrong shows only when the generated code is compiled with the header", "anchors": ["classdesc.cc: type_defined_t::declared, type_defined_t::defined", "classdesc.cc: main (def)", "classdesc.cc: assign_class_action", "classdesc.cc: parse_typedef", "doc/classdesc-common.tex: -nodef"]}
{"id": "C107", "title": "Graphs with nodes of several classes are copied", "statement": "Packing a pointer to a node of a graph whose nodes are of several classes, each with pointers to nodes of any class, ends, and unpacking the result gives a graph of the same shape: the same data, null pointers where there were null pointers, and two pointers to one object where two pointers led to one object. The size of the packed data is in proportion to the graph.", "quantifier": "every finite graph, every assignment of classes to its nodes, cycles and sharing included", "why_tests_cant": "graphs are unbounded, and sharing across classes is a combination of shape and typing that example graphs of one node class do not have", "anchors": ["pack_graph.h: pack_graph, unpack_graph", "doc/classdesc-common.tex: graphs of nodes"]}
{"id": "C108", "title": "Objects streamed with BinStream come back", "statement": "What is written to a buffer with BinStream is read again with BinStream, in the same order, by objects of the same types: plain data, standard containers of plain data, and containers of such containers. The object read into has afterwards the value written, whatever it was before. Data cut short are noticed.", "quantifier": "every type built of plain data, vectors, lists, deques and ordered sets; every value; every previous value of the object read into; every length of data behind", "why_tests_cant": "types and values nest without bound, and the tests read single containers into new objects only", "anchors": ["pack_base.h: BinStream", "pack_stl.h: BinStream operator<<, operator>> for vector", "doc/classdesc-common.tex: BinStream"]}
{"id": "C109", "title": "What is packed to a file is what is unpacked from it", "statement": "What is written to a buffer opened on a file name is the contents of the file, in order, and is read again from a buffer opened on that file. A program that reads from a file gets what it would get from a buffer in memory with the same contents, whatever it makes of what it has read, and an exception where it would get one there. It can start again from the beginning at any time.", "quantifier": "every sequence of values written; every reading program, whatever it makes of what it has read; every position, every contents of the file", "why_tests_cant": "programs that read and the places where data end are unbounded; the tests write one vector to a file and read it once", "anchors": ["pack_base.h: pack_t file constructor, append, popoff, packraw, unpackraw, reseto", "doc/classdesc-common.tex: Packing to a file"]}
{"id": "C110", "title": "A buffer on a file can be used as one in memory is", "statement": "A buffer opened on a file name answers and moves as a buffer in memory does: after a failed read what is left can still be read, the answer to whether there is more to read and the size are those of the data, resetting the input discards what was written, resetting the output does not touch it, moving in the data leads to the same place, and a count that cannot be right is refused before memory is taken for it.", "quantifier": "every contents, every position, every sequence of values written", "why_tests_cant": "the tests write one vector to a file and read it once; the positions and lengths for which files and buffers differ are unbounded", "anchors": ["pack_base.h: pack_t operator bool, size, reseti, reseto, seeki, seeko, popoff, unpackraw", "pack_stl.h: BinStream operator>> for vector", "doc/classdesc-common.tex: pack_t"]}
{"id": "C111", "title": "An object of a class described by the program survives packing", "statement": "If the program accepts a header, then with the code it writes for a class in it an object of that class is packed, and unpacking the result into another object of the class gives every member and base class the value it had in the object packed, uses up exactly the data packed, and leaves the rest as it was. This is so for either way of passing members (with or without -use_mbr_pointers).", "quantifier": "every header; every class in it; every type and value of its members and bases; every object unpacked to", "why_tests_cant": "it joins the parser, the generated text and the stream library: each test packs objects of a few fixed classes, while headers, classes and values are unbounded", "anchors": ["classdesc.cc: main", "classdesc.cc: parse_class", "pack_base.h: pack, unpack", "use_mbr_pointers.h", "doc/classdesc-common.tex: Using Classdesc"]}
{"id": "C112", "title": "Numbers in a machine independent buffer are the same numbers on every machine", "statement": "A number of one of the built-in types that is packed in an xdr_pack buffer on one machine, and unpacked into an object of that type on another machine (other byte order, sizes of long and wchar_t, signedness of char), is the same number, if the type has it on both machines; a sequence of numbers gives the same sequence. What the form cannot represent throws rather than give another number.", "quantifier": "every type and number; every pair of machines (byte order, sizes, signedness); every sequence that fits the buffer", "why_tests_cant": "the tests pack and unpack on one machine; the others, and the numbers, are not enumerable by tests", "anchors": ["xdr_pack.cc: XDR_filter", "xdr_pack.cc: xdr_pack::packraw", "pack_base.h: xdr_pack", "doc/classdesc-common.tex: xdr_pack"]}
{"id": "C113", "title": "Messages between processes arrive complete, once and in order", "statement": "What a process packs in an MPIbuf and sends to another process with a tag (send, isend, send_recv) is received there exactly once by a matching get or send_recv, with the contents, source and tag it was sent with; messages of the same tag between two processes are received in the order in which they were sent, however the processes interleave and whatever arrives while a message is being received. msg_waiting says whether get would return at once. After the all-to-all exchange shown in the manual every process has one message from each other.", "quantifier": "every number of processes; every interleaving of their calls; every contents, tag and pattern of receiving", "why_tests_cant": "the library needs a cluster of processes to test, and the interleavings are unbounded; the existing test only assigns one empty array to another", "anchors": ["classdescMP.h: MPIbuf::send, isend, get, send_recv, msg_waiting", "doc/classdesc-common.tex: classdescMP"]}
{"id": "C114", "title": "Buffers sent asynchronously can be reused once sent, waited for alone or in arrays, and destroyed", "statement": "After isend a program may, once wait has returned or sent has answered yes, use the buffer again; it may destroy the buffer at any time, the destructor waiting for the message; and it may wait for or test groups of messages with the calls of MPIbuf_array, as often as it likes. None of this is undefined behaviour.", "quantifier": "every sequence of calls of every process, in every interleaving", "why_tests_cant": "whether the library is still reading a buffer depends on timing; tests on a fast local network do not see it", "anchors": ["classdescMP.h: MPIbuf::isend, wait, sent, ~MPIbuf", "classdescMP.h: MPIbuf_array", "doc/classdesc-common.tex: MPIbuf_array"]}
{"id": "C115", "title": "Slaves execute the requests they are sent, answer them, and end with the manager", "statement": "Let a master process have a manager `MPIslave<S> slave`. Each request `slave << &S::method << arguments` sent with `send(p)`, `slave.exec(...)` or `slave.bcast(...)`, from the manager's own buffer or another MPIbuf, is executed by the slave or slaves it was sent to: once, in the order in which the requests to that slave were made, on that slave's own object, and with the arguments given. A method that ends with `args.reset() << result` answers with exactly that, and `get_returnv()` gives the master the answers of each slave complete and in order. When the manager is finalised or destroyed every slave executes what it was sent before and ends.", "quantifier": "For all classes S and methods, all numbers of processes, all sequences of requests, arguments and answers, and all interleavings of the processes and choices of the message received next.", "why_tests_cant": "Which slave runs when, and whose message the master receives next, changes from run to run; a test sees one order on one number of processes, and the failures found concern calls that the examples do not make or that send the wrong data without an error.", "anchors": ["classdescMP.h:397-476", "classdescMP.h:251-276", "pack_base.h:701-711", "pack_stream.h:25-29"]}
{"id": "C116", "title": "C++ values given to Python and taken back are unchanged, and Python sees the same values", "statement": "For every value x of a type built from bool, integers, floating point numbers, char, std::string, enumerations and standard sequences, b<<x on a PythonBuffer gives Python the corresponding object (a bool, the same number, the same text, the name of the enumerator, a list of such), and b>>y then stores a value equal to x in y whatever y held before; an object made by Python that corresponds to a value of y's type is stored as that value, and one that does not is refused.", "quantifier": "for all types built from those named, nested to any depth, all values of them, all previous contents of the variable, all enumeration tables and all Python objects", "why_tests_cant": "Types nest without bound and overload resolution differs between a value alone, in a sequence, and in a sequence of sequences; tests of a few types at one depth, with small numbers and ASCII texts, see none of the exceptions.", "anchors": ["pythonBuffer.h:53-120", "pythonBuffer.h:167-214", "pythonBuffer.h:269-276", "pythonBuffer.h:292-362", "classdesc.h:459-489"]}
{"id": "C117", "title": "A StringKeyMap written as XML is read back", "statement": "For every StringKeyMap whose values can be written as XML, xml_pack writes one element for each entry, named by its key and holding its value, and xml_unpack of that document restores the same entries in a map, whatever the map held before.", "quantifier": "for all key sets, value types and values, all settings of the packer, all positions of the map in the document, and all documents read", "why_tests_cant": "The reader searches an ordered table by a range of names, which has to hold for every set of names in the document; a test of writing alone, or of reading with the values already in the map, passes.", "anchors": ["stringKeyMap_epilogue.h:113-149", "xml_unpack_base.h:322-378", "xml_unpack_base.h:467-509", "xml_pack_base.h:75-116"]}
{"id": "C118", "title": "Java reads and writes each variable of a C++ object and calls its methods by name", "statement": "For every set of C++ objects registered with Java, each variable of a basic type, of the object or of an object inside of it, is read and set by calling it by its name, read by its getter get<Name> and set by its setter set<Name>, which change that variable only; each method called by its name with its arguments does and returns what it does in C++. The class file made for the class declares each of these once, with the types of the arguments and of the result.", "quantifier": "for all objects with classes nested to any depth, all member names and types, all values of the variables and all arguments", "why_tests_cant": "Functions are found through one table of dotted names shared by all objects, first come first served, and capitalising maps different names to the same getter; a test of one class with members of unrelated names does not show which functions hide each other.", "anchors": ["javaClass_base.h:270-413", "java/JNIEx.h:51-92", "java/JNIEx.cc:49-75", "function.h:398-482", "javaClass.h:721-730"]}
{"id": "C119", "title": "A call through REST with values of one overload's parameter types calls that overload with these values", "statement": "Let an object registered with a REST registry have functions of one name. A request for that name with an array of values as argument, each written as JSON and of the type of the corresponding parameter of one of these functions, calls that function, with exactly these values, and returns its result, whatever the other functions of the name are, as long as they have other parameter types. A single argument may be given without the array.", "quantifier": "all sets of functions of one name, all parameter types built from bool, integers, char, floating point numbers, strings and sequences, and all values of these types", "why_tests_cant": "Which function is called depends on all the parameter types of all the overloads and on the values given; a test has a few overloads that differ obviously.", "anchors": ["RESTProcess_base.h:359-396", "RESTProcess_base.h:1125-1228", "RESTProcess_base.h:1232-1494", "RESTProcess_epilogue.h:187-211", "json_pack_base.h:247-329", "json_pack_base.h:357-370", "json_pack_base.h:489-516"]}
{"id": "C120", "title": "Floating point numbers written as XML are read back unchanged", "statement": "Let x be a float, double or long double, or an object with such members in it, in classes, base classes and sequences, nested to any depth. What xml_pack_t writes for x to a stream is read by xml_unpack_t as x: every number bit for bit, with its sign, also zeros, subnormal numbers and infinities, and NaN as NaN.", "quantifier": "all binary floating point formats and all numbers of each; all precisions of the stream; all objects with such members", "why_tests_cant": "There are 2^64 doubles, and whether a decimal text leads back to the number it was made of depends on rounding in two number systems; tests use numbers such as 0.5 whose decimal text is short.", "anchors": ["xml_pack_base.h:118-155", "xml_unpack_base.h:389-415"]}
{"id": "C121", "title": "A variable declared to be excluded from serialisation works as before", "statement": "Let a program use a variable of an integer type, bool, or a pointer type T. Declaring it Exclude<T> instead, so that descriptors leave it out, changes nothing else, as far as the program still compiles: assignments, the operators +, -, *, / and their assigning forms, comparisons, &&, || and !, following the pointer and pointer arithmetic have the same results and side effects, and none becomes undefined.", "quantifier": "all integer types, all values of the variable and of operands of all arithmetic types, all sequences of operations", "why_tests_cant": "The wrapper's operators take the variable's own type, so that results depend on the values of operands of other types, and && as a function evaluates its operands in cases where a test sees no difference.", "anchors": ["classdesc.h:988-1026", "classdesc.h:1028-1067", "classdesc.h:1073-1090", "test/exclude.cc"]}
{"id": "C122", "title": "Arrays and tuples written as XML are read back", "statement": "Let an object have C arrays of one or more dimensions and tuples among its members, at any depth of classes and base classes. xml_unpack of what xml_pack writes for it restores every element of every array and tuple, whatever the variable held before.", "quantifier": "all element types that can be written as XML, all dimensions, all tuple types, all values and previous values", "why_tests_cant": "Reader and writer compute the names of elements separately from type names, and count elements of one name; whether they agree depends on all the types of a tuple and the values of an array, of which tests have one.", "anchors": ["xml_pack_base.h:207-224", "xml_unpack_base.h:529-546", "xml_pack_epilogue.h:31-59", "xml_pack_epilogue.h:83-110"]}
{"id": "C123", "title": "The signatures the REST service lists for a name are those with which it can be used", "statement": "For every history of registrations, a request `name.@signature` lists return type and argument types of the functions registered under the name, one for each list of argument types, the one registered last; each function that C++ would let be called on the object is listed, and a request for the name with values of the types in one of the signatures listed calls that function with these values. For a variable the signatures listed are reading it and, unless it is const, setting it from a value of its type, and a request with such a value sets it.", "quantifier": "every sequence of registrations of functions and objects, every name, parameter lists of any length with parameters by value, reference, rvalue reference or pointer, const and other methods of const and other objects, every list of argument values", "why_tests_cant": "The listing and the call are computed by different templates; a test compares them for a few functions, not for all combinations of parameter passing, constness and overloads in all orders of registration.", "anchors": ["RESTProcess_base.h:367-397", "RESTProcess_base.h:1159-1228", "RESTProcess_base.h:1476-1537", "RESTProcess_epilogue.h:58-172", "function.h:110-121", "function.h:329-391"]}
{"id": "C124", "title": "The class file made for a C++ class describes that class to Java", "statement": "For every C++ class, compileClass makes a description that names the class, with CppObject as its superclass, declares each method that the class offers, once and under its name and descriptor, as public and native, and `auto` the same, and has a public constructor that calls the constructor of CppObject; every index in the description, also in the code of the constructor, is that of an entry of the constant pool of the kind needed there. A class that cannot be so described is refused.", "quantifier": "all class names, all lists of methods with any names and descriptors", "why_tests_cant": "The code of the constructor is fixed bytes with constant indices into a pool whose layout depends on the number of methods; tests load a few classes, not one for every number of methods.", "anchors": ["java/compileClass.cc:126-184", "javaClass.h:698-746", "javaClass_base.h:301-304"]}
{"id": "C125", "title": "A native method called on a Java object acts on the C++ object of that Java object", "statement": "For every Java program that makes objects of C++ classes and calls their methods in any order, each call of a method of an object runs the C++ member of that name of the C++ object made for it, with the arguments given, and returns its result: getters, setters and methods of one object neither read nor change another.", "quantifier": "all classes, any number of objects, all sequences of creating objects and calling methods, all arguments", "why_tests_cant": "The functions generated keep state from one call to the next, so whether a call is right depends on the whole history of calls on all objects; unit tests do not run the generated code under a Java virtual machine with several objects.", "anchors": ["java/compileClass.cc:88-124", "java/JNIEx.h:70-108", "javaClass_base.h:311-395"]}
{"id": "C126", "title": "Strings passed between C++ and Java are the same text on both sides", "statement": "A text given from Java to C++ as a string argument arrives as that text in UTF-8, a C++ string with UTF-8 text given to Java arrives as that text, and a string passed over and back is unchanged. The name by which a Java object knows its C++ object is kept exactly.", "quantifier": "all Java strings, all C++ strings, signed or unsigned char", "why_tests_cant": "Text is unbounded and the conversions treat every character range, NUL and surrogates differently; tests use ASCII.", "anchors": ["javaClass_base.h:47-50", "javaClass_base.h:205-218", "java/JNIEx.h:82-86", "java/JNIEx.h:98-108"]}
{"id": "C127", "title": "XML read from a C file is what is read from a stream", "statement": "For every text, an xml_unpack_t that parses it from a FILE* holds the same, and refuses the same, as one that parses it from a std::istream; hence values written as XML are restored from either.", "quantifier": "all texts, well formed or not, any previous contents of the database, signed or unsigned char, all values that can be written as XML", "why_tests_cant": "The two kinds of input differ in how a character is put back, which matters only for one byte value in certain places of a text; tests read from files without such bytes.", "anchors": ["xml_unpack_base.h:80-109", "xml_unpack_base.h:237-253", "xml_unpack_base.h:297-302", "xml_unpack_base.h:464-475"]}
{"id": "C128", "title": "The target of a smart pointer in Python is the object it refers to", "statement": "For every class registered with Boost.Python whose members are smart pointers to objects of some type: a program in Python, which takes `v.target` of pointers, gives `v.target=x` to them, reads and changes the objects it got, and makes pointers refer to the object of another or to none, shows at each statement what it would if each pointer named an object and objects lived for ever. All pointers to the same object see a change made through one of them, a null pointer raises an exception for reading and for assigning and nothing changes, and so does assigning to an object of a class that cannot be assigned. Values of basic types and enumerations are copies. It is undefined behaviour exactly when a statement uses an object got through a pointer that is not a data member (an element of a container, the result of a member function), when no pointer refers to it any more.", "quantifier": "all types of objects, all numbers of pointers and of variables, all patterns of sharing at the start, and all programs of any length, for assignable and for unassignable classes, basic types and classes", "why_tests_cant": "Sharing and the end of an object's life depend on the whole history of the program; a test runs one program, and undefined behaviour usually goes unnoticed in it.", "anchors": ["python_base.h:1028-1079"]}
{"id": "C129", "title": "What is written to a machine independent file is read from it on any machine", "statement": "Values written with xdr_pack to a file on one machine - numbers of the built-in types that both machines have, and raw data of any size - are read from that file with xdr_pack on another machine, in the same order and unchanged, whatever the program does with them or reads next; the file has the bytes that the XDR standard prescribes. A file that was cut short makes reading throw, and reading a file with any other contents gives a result or an exception. Rewinding and moving in the file work as for other buffers. Using the file in the wrong direction throws, as it does with pack_t.", "quantifier": "all sequences of values of any length and size, all pairs of machines (byte order, sizes of long and wchar_t, signedness), every place at which a file may be cut, every contents of a file and every program that reads it, all positions", "why_tests_cant": "Tests write and read one short file on one machine; they cannot have the other machine, nor every sequence and every cut, and undefined behaviour may go unnoticed.", "anchors": ["xdr_pack.cc:157-185", "xdr_pack.cc:187-272", "pack_base.h:221-237"]}
{"id": "C130", "title": "fix-privates makes the private members of all headers accessible", "statement": "For every list of include directories in the file include-paths, after `fix-privates inc` a compiler that searches the directory inc before those directories finds, under each name, what insert-friend makes of the header it found there before; headers that insert-friend leaves as they are are not copied. Running the script again, with other headers, gives what running it for the first time does for every header there is.", "quantifier": "all contents of the file system, all lists of directories with any headers in directories of any depth, whatever insert-friend does to a file, all previous contents of the directory written to", "why_tests_cant": "The script walks whole directory trees whose contents depend on the machine; the outcome of one run depends on which names occur in several directories and on the directory it is run in.", "anchors": ["fix-privates:4-24"]}
{"id": "C131", "title": "A failed pack or unpack changes nothing", "statement": "If packing an object to a buffer throws, the buffer holds what it held before; if unpacking an object throws, the object and the position in the buffer are what they were before.", "quantifier": "all types made of fundamental types, strings, classes, tuples, sequences, smart pointers and raw pointers; all values of them; all buffers; all truncations of the data; all previous states of the object", "why_tests_cant": "Where the data end and where in the object a pointer is are arbitrary, and tests look at the exception rather than at the object left behind.", "anchors": ["pack_base.h: access_pack<T*>, access_unpack<T*>, unpackraw", "pack_stl.h: unpackSequence, strings", "polyAccessPack.h: unpack_smart_ptr"]}
{"id": "C132", "title": "With -qt, a class that uses Qt is described as the C++ class it stands for", "statement": "Run with -qt, the code generator describes a class with Qt macros as if they had been expanded: Q_OBJECT, Q_PROPERTY(...), Q_ENUMS(...) and Q_CLASSINFO(...) stand for nothing, `public slots:` and `private slots:` are the access labels in front, and a section of signals is a protected one. So the members and the enumerations described are exactly those of the expanded class, in order and with their kinds; signals are left out. For input without these words the option makes no difference.", "quantifier": "all class bodies made of Qt macros, sections of signals and slots, and the members, functions, operators, labels and enumerations of C66, any options -respect_private and -overload; for the last sentence, any input at all", "why_tests_cant": "Macros can stand anywhere among any members in any number; a test shows one class with one arrangement of them.", "anchors": ["classdesc.cc:468-487", "classdesc.cc:489-500", "classdesc.cc:825-839", "tokeninput.h:275-295"]}
{"id": "C133", "title": "Copies of a polyref share one object, which lives as long as one of them", "statement": "Copies of a `polyref` made by copying or assigning refer to one object: replacing it with addObject or changing it through one of them is seen through all the others. refCount is the number of them, operator bool says whether there is an object, cast throws exactly if the object is not of that type. The object is deleted when the last of them is destroyed, assigned another or made null, and not before.", "quantifier": "all programs of any length that declare, copy, assign, swap, make null, destroy and use any number of variables of type polyref", "why_tests_cant": "Whether an object is deleted once, and not while somebody refers to it, depends on the whole history of all variables; a test has one history, and reading deleted memory often goes unnoticed.", "anchors": ["poly.h:96-137", "poly.h:38-92", "ref.h:27-86"]}
{"id": "C134", "title": "With -onbase, base classes are kept apart", "statement": "Described with the option -onbase, an object of a class is written with each base class as an object of its own, named after the class, and restored from it: base classes may have members of the same names as each other and as the class, be containers, or be repeated further up the hierarchy, without anything being mixed up. Different base classes have different names.", "quantifier": "all classes with any number of base classes, nested to any depth, in JSON and XML; all values; all previous contents of the object read to", "why_tests_cant": "Which names clash depends on all the classes of a hierarchy and on how the names of types are turned into names in the document; a test has one hierarchy.", "anchors": ["classdesc.cc:446-452", "classdesc.cc:1579-1592", "classdesc.h:1129-1136", "json_pack_base.h:649-655", "xml_pack_base.h:242-244", "xml_unpack_base.h:522-524"]}
{"id": "C135", "title": "A reference to a Python object that C++ code holds is released exactly once", "statement": "Whatever a C++ program does with the holders the library offers for references to Python objects (constructing them from new references, moving them, also to themselves, assigning new references to them, taking references out and destroying them), an object that a holder refers to is not released, no reference is released twice, and when the holders and the references taken out are gone every object is counted as before. A list or pointer made of such an object keeps it alive too.", "quantifier": "all sequences of statements on any number of holders and objects, including moves of a holder to itself; all sequences of buffers made to lists; all mappings read", "why_tests_cant": "Reference counts go wrong only after particular sequences of moves, assignments and releases, and the harm (a released object in use, or one that stays for ever) appears elsewhere and later.", "anchors": ["pythonBuffer.h:123-149", "pythonBuffer.h:279", "pythonBuffer.h:290", "pythonBuffer.h:99-107", "pythonBuffer.h:236-251"]}
{"id": "C136", "title": "Objects of classes with an index operator can be used from Python like lists of fixed length", "statement": "For an object of a class that has size() and operator[] and is announced to have it, len(w) in Python is its size(), w[i] is the element at i and w[i]=v changes that element and nothing else; an index that is not one of an element, or is not a number, is an exception. Const objects are not changed. What cannot be done with an object (assigning to an element of a const object or of an object without operator[], deleting, inserting or erasing elements) is an exception.", "quantifier": "all programs of such statements, all numbers and values of elements (numbers, truth values, text), all indices, all combinations of size(), operator[], const and classes that test the index or do not", "why_tests_cant": "Tests index a few elements that exist; indices that are negative, too large or no numbers reach the operator of the user's class unchecked, and statements without effect are not noticed.", "anchors": ["RESTProcess_base.h:485-512", "RESTProcess_base.h:82-92", "RESTProcess_base.h:552-556", "classdesc.h:493-510", "pythonBuffer.h:479-506", "pythonBuffer.h:606-650"]}
{"id": "C137", "title": "An object given to Python under a path is found there, and nothing else is changed", "statement": "addPythonObject(path, object) makes the object known to Python under the name behind the last dot of the path, in the module that the rest of the path names, or in __main__ if there is no dot. After any sequence of such calls every name in every module is the object that was added for it last, or what it was before. If there is no such module, the call is an exception and nothing is changed; a path to a member of an object is such a case.", "quantifier": "all paths, including empty ones and those with several dots; all sequences of calls; all modules and what is in them", "why_tests_cant": "Paths are cut by searching for a dot from the end; tests use one or two paths and do not look at what happened to other names and modules.", "anchors": ["python_base.h:1160-1188"]}
{"id": "C138", "title": "On Windows the stubs for Python's functions and variables are those functions and variables", "statement": "A program that uses Python through the stubs that are compiled in on Windows does what it would do with Python's own functions: every call passes the same arguments in the same order and returns the same result, and the variables for types and for the class of exceptions denote the same objects. What the Python library lacks is named when the program starts; if nothing is, no call fails for lack of a function. A function that is not there has no effect, returns zero and is named.", "quantifier": "all programs of calls of stubs, in which what is called next depends on results; all libraries, also ones that lack functions or are not loaded; all arguments", "why_tests_cant": "The stubs are compiled on Windows only, with a library that has everything; arguments in a wrong order, and pointers to variables instead of their values, compile without a warning.", "anchors": ["pythonCAPI.cc:15-104", "pythonCAPI.h:263-314", "pythonBuffer.h:20-37"]}
