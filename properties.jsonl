{"id": "C01", "title": "JSON document round trip", "statement": "Serializing a value to a JSON document and deserializing that document into a target of the same type yields exactly the original value, reports no error and throws nothing, for every value that the format can represent (strings without embedded NUL, no non-null smart pointer or optional whose pointee itself serializes to null, maps read into an empty map, no shadowed member names).", "quantifier": "every type expression built from the supported scalars, strings, optionals, smart pointers, vectors, (multi)sets, (multi)maps, pairs, tuples, variants and reflected classes with base classes; every representable value; every initial content of the target; errors object present or null", "why_tests_cant": "types, values and nesting depth are unbounded; tests cover a handful of structs", "anchors": ["lib/json/reflector.h: push/pull/toJsonDocument/fromJson overloads", "lib/json/serializable.h: JsonSerializable::toJson/fromJson", "generator/jsonserializationcodegenerator.cpp: generate"]}
{"id": "C02", "title": "Exact fate of string content through JSON", "statement": "A std::string written to a JSON value and read back comes back as the prefix of the original before its first NUL byte, further limited to 2^32-1 bytes; it is unchanged iff it contains no NUL and is shorter than 2^32 bytes.", "quantifier": "every byte string", "why_tests_cant": "depends on every possible byte content and length, including sizes no test allocates", "anchors": ["lib/json/reflector.h: push(std::string) 208-212, pull(std::string) 597-608, rapidJsonSize 53-57"]}
{"id": "C03", "title": "Missing, extra and reordered members", "statement": "When an object is read into a reflected class, members absent from the object keep their previous value, object members without a counterpart are ignored, the order of the object's members is irrelevant as long as their names are distinct, and of several members of the same name the first one is used; none of this reports an error.", "quantifier": "every class, object, previous content and permutation of members", "why_tests_cant": "unbounded objects and permutations", "anchors": ["lib/json/reflector.h: pull member 973-997", "generator/jsonserializationcodegenerator.cpp: generated pull"]}
{"id": "C04", "title": "Type mismatch is reported exactly once and leaves the target alone", "statement": "If the JSON type of a value can not be stored into the target type at all, deserialization leaves the target unchanged and, if an errors object is supplied, appends exactly one TypeMismatch error carrying the actual JSON type and the current record/member/index, and throws it iff TypeMismatch is flagged fatal.", "quantifier": "every target type with a type check (all except nullable wrappers and time types), every JSON value of a wrong type, every previous target content, every errors state", "why_tests_cant": "product of all types, values, contexts and flags", "anchors": ["lib/json/reflector.h: pull overloads 531-1012", "lib/json/errorhandling.h: reportTypeMismatch"]}
{"id": "C05", "title": "Error list is append-only", "statement": "Deserialization never removes, reorders or modifies errors already present in the errors object, whether it completes or throws, and never changes the caller's throwOn flags.", "quantifier": "every type, JSON value, target, errors state", "why_tests_cant": "must hold on every path through every overload", "anchors": ["lib/json/errorhandling.h: JsonDeserializationErrors", "lib/json/reflector.h: pull overloads"]}
{"id": "C06", "title": "Error context is restored", "statement": "After a deserialization call that completes, the current record and current member of the errors object are what they were before the call, and the current index is either what it was before or reset to noIndex (reset as soon as an array was processed).", "quantifier": "every type, JSON value, target, errors state", "why_tests_cant": "nesting of contexts is unbounded", "anchors": ["lib/json/reflector.h: pull member 973-997, pull array 661-741", "generator/jsonserializationcodegenerator.cpp: previousRecord"]}
{"id": "C07", "title": "Errors are fatal exactly when flagged and the thrown error is the last reported one", "statement": "Deserialization throws a JsonDeserializationError only directly after reporting an error whose kind is flagged in throwOn; the thrown object equals the last element of the error list; with throwOn == None nothing is thrown; and no error of a flagged kind is ever reported without being thrown.", "quantifier": "every type, JSON value, target, errors state and flag combination", "why_tests_cant": "every combination of 256 flag values with every path", "anchors": ["lib/json/errorhandling.h: throwMaybe 207-212, report* 217-265"]}
{"id": "C08", "title": "Supplying an errors object does not change the deserialized value", "statement": "If deserialization with a null errors pointer yields a value, then deserialization with any errors object that has no fatal kinds yields the same value.", "quantifier": "every type, JSON value, target and errors state", "why_tests_cant": "relational property over all executions", "anchors": ["lib/json/reflector.h: pull overloads (if (errors) guards)"]}
{"id": "C09", "title": "Duplicates when reading sets", "statement": "Reading an array into a set yields the set of distinct items; with an errors object each item equivalent to an earlier one adds exactly one UnexpectedDuplicate error; with a null errors pointer a duplicate is undefined behaviour.", "quantifier": "every array and every element order", "why_tests_cant": "number and position of duplicates unbounded; UB is invisible to tests", "anchors": ["lib/json/reflector.h: pull set 716-741", "lib/json/errorhandling.h: reportUnexpectedDuplicate"]}
{"id": "C10", "title": "Invalid variant objects are never fatal", "statement": "Reading a variant from an object lacking index or data, with a non-uint64 index or with an index out of range leaves the variant unchanged and appends exactly one InvalidVariantObject/InvalidVariantIndex error, and never throws on its own, even when all kinds are flagged fatal.", "quantifier": "every variant type, object and flags", "why_tests_cant": "all flag values and malformed objects", "anchors": ["lib/json/reflector.h: pull variant 899-956"]}
{"id": "C11", "title": "Tuples and pairs are all-or-nothing on size mismatch", "statement": "Reading an array of a length different from the tuple/pair size leaves the tuple unchanged and reports exactly one ArraySizeMismatch; when the size matches, component i is read from element i.", "quantifier": "every tuple type (any arity), array and previous content", "why_tests_cant": "arity and length unbounded", "anchors": ["lib/json/reflector.h: pull tuple 794-831, pair 836-855"]}
{"id": "C12", "title": "Arrays keep length and order, also in presence of item errors", "statement": "A completed read of a JSON array of n items into a vector-like container yields exactly n elements, element i being what reading item i into a fresh element yields; previous elements are gone. A written container of n elements gives an array of n items in order.", "quantifier": "every element type, array, previous content", "why_tests_cant": "lengths unbounded", "anchors": ["lib/json/reflector.h: pull array 661-683, push array 217-239"]}
{"id": "C13", "title": "Silent wrap-around of 8-bit integers", "statement": "Reading an int-representable JSON number n into an 8-bit integer stores n modulo 2^8 (two's complement) and reports nothing; the value is preserved iff n is in range.", "quantifier": "every int n, both 8-bit types", "why_tests_cant": "full range plus every errors state", "anchors": ["lib/json/reflector.h: pull 8-bit 549-558"]}
{"id": "C14", "title": "Out-of-range numbers are undefined behaviour, never an error", "statement": "Reading an integer JSON number into a 32- or 64-bit integer type stores the number if it is in range and is undefined behaviour otherwise; it never reports an error. Fractional numbers are truncated towards zero when the truncated value is in range.", "quantifier": "every integer and floating point JSON number, every integer target type", "why_tests_cant": "2^64 inputs; UB is not observable by tests", "anchors": ["lib/json/reflector.h: pull number 531-544"]}
{"id": "C15", "title": "Null-collapsing of nested nullables", "statement": "A value serialized to null by an optional/smart pointer reads back as the empty outer nullable: an optional or pointer holding something that serializes to null (empty nullable, null C-string, valueless variant) is not distinguishable from an empty one after a JSON round trip, and this is the only loss.", "quantifier": "every nesting of nullable types", "why_tests_cant": "nesting depth unbounded", "anchors": ["lib/json/reflector.h: push nullable 324-334, pull unique_ptr/shared_ptr/optional 860-896"]}
{"id": "C16", "title": "Accumulate versus replace", "statement": "Reading JSON arrays replaces the previous content of vectors and sets, while reading JSON objects into maps keeps all entries whose key is not mentioned, overwrites/merges entries that are mentioned, and reading into multimaps only ever adds entries.", "quantifier": "every previous content and input", "why_tests_cant": "all pairs of contents", "anchors": ["lib/json/reflector.h: pull map 746-759, multimap 764-786, array/set 661-741"]}
{"id": "C17", "title": "Multimap grouping", "statement": "Writing a multimap yields an object with one array member per distinct key containing that key's values in iteration order, regardless of whether equal keys are adjacent in iteration order; reading a non-array member adds one entry and an array member one entry per item.", "quantifier": "every multimap content and iteration order", "why_tests_cant": "unbounded contents and hash orders", "anchors": ["lib/json/reflector.h: push multimap 257-273, pull multimap 764-786"]}
{"id": "C18", "title": "Map keys containing NUL", "statement": "Writing a (unordered_)map uses for each entry the key up to its first NUL; two entries whose keys agree up to the first NUL produce duplicate members, and such a map does not round trip; if no key contains NUL keys are written verbatim and distinct.", "quantifier": "every map content", "why_tests_cant": "every key content", "anchors": ["lib/json/reflector.h: push map 244-252"]}
{"id": "C19", "title": "Ownership of JSON document content", "statement": "A document produced from a value remains valid after the source value is destroyed iff the value contains no non-empty map or multimap: all strings are copied and member names are literals, but map keys are borrowed from the source.", "quantifier": "every value", "why_tests_cant": "dangling references are invisible to functional tests", "anchors": ["lib/json/reflector.h: StringRef uses 250, 262, 397, 409; SetString(..., allocator)"]}
{"id": "C20", "title": "Accuracy of the reported expected type", "statement": "In a TypeMismatch error the expected type is a JSON type that the target would have accepted, except for pair and tuple (reported Object, accepted Array) and multimap (reported Array, accepted Object).", "quantifier": "every target type", "why_tests_cant": "unbounded type expressions", "anchors": ["lib/json/errorhandling.h: jsonType<Type>() 48-82"]}
{"id": "C21", "title": "fromJson on malformed or wrong top-level input", "statement": "fromJson throws the parse result iff the text is not valid JSON, before touching errors; a top-level type mismatch reports one TypeMismatch in the initial context and returns a value-initialized object; scalars are accepted only if exactly representable in the requested type.", "quantifier": "every text and every supported top-level type", "why_tests_cant": "all inputs", "anchors": ["lib/json/reflector.h: parseJsonDocFromString 73-81, fromJson 1098-1181"]}
{"id": "C22", "title": "Error formatting", "statement": "The formatted message names the error kind, the record with member if known, else index if known, and expected/actual type only for type mismatches; distinct kinds never format alike.", "quantifier": "every error value", "why_tests_cant": "all errors", "anchors": ["lib/json/errorformatting.h: formatJsonDeserializationError"]}
{"id": "C23", "title": "JSON deserialization terminates", "statement": "Deserialization terminates for every JSON document and every target type, including recursive classes; the recursion depth is bounded by document depth, type nesting and inheritance depth.", "quantifier": "every document, type, class hierarchy", "why_tests_cant": "recursive types are unbounded", "anchors": ["lib/json/reflector.h: pull overloads"]}
{"id": "C24", "title": "JSON serialization of shared objects", "statement": "Serializing an acyclic pointer graph to JSON yields the same document as serializing its tree unfolding (shared objects are duplicated and come back as distinct objects); serializing a cyclic graph does not terminate.", "quantifier": "every object graph", "why_tests_cant": "graphs unbounded; non-termination is not testable", "anchors": ["lib/json/reflector.h: push shared_ptr 324-334, pull shared_ptr 874-883"]}
{"id": "C25", "title": "Time values in JSON", "statement": "Reading a DateTime/TimeSpan from a string stores the parsed value or, if the string does not parse, reports exactly one ConversionError and keeps the previous value; reading one from a non-string reports a TypeMismatch and then additionally treats the value as empty string.", "quantifier": "every string/JSON value, errors state", "why_tests_cant": "all strings", "anchors": ["lib/json/reflector-chronoutilities.h 22-68"]}
{"id": "C26", "title": "Variable-length integers", "statement": "Every integer below 2^56 is written in the minimal number of bytes (1..8) and read back exactly, consuming exactly these bytes; larger integers throw on write; a first byte of zero throws on read.", "quantifier": "all 2^64 integers and all byte sequences", "why_tests_cant": "domain too large", "anchors": ["lib/binary/reflector.h: writeVariableLengthUIntBE/readVariableLengthUIntBE uses (sizes, ids, versions)"]}
{"id": "C27", "title": "Binary round trip", "statement": "Deserializing what was serialized into a fresh object yields the original object (up to addresses of shared objects), consuming exactly the bytes written, for every value that is writable.", "quantifier": "every binary-supported type, value, class hierarchy with versions, and trailing stream content", "why_tests_cant": "types, values and nesting unbounded", "anchors": ["lib/binary/reflector.h: BinarySerializer/BinaryDeserializer", "lib/binary/serializable.h"]}
{"id": "C28", "title": "Sharing and cycles are restored by the binary format", "statement": "After a binary round trip two shared pointers refer to the same object iff they did before; cyclic structures come back as isomorphic cyclic structures.", "quantifier": "every object graph", "why_tests_cant": "graphs unbounded", "anchors": ["lib/binary/reflector.h: read shared_ptr 142-164, write shared_ptr 272-295"]}
{"id": "C29", "title": "Each shared object is written once and writing terminates", "statement": "In one serializer session the content of each shared object is written at most once (at its first occurrence) and writing terminates on every finite graph, cyclic or not.", "quantifier": "every finite heap and root", "why_tests_cant": "graphs unbounded", "anchors": ["lib/binary/reflector.h: m_pointer 118, write shared_ptr 272-295"]}
{"id": "C30", "title": "Binary framing", "statement": "A successful read consumes a prefix of the stream determined independently of what follows; consecutively written values can be read back consecutively.", "quantifier": "every type, stream and continuation", "why_tests_cant": "all continuations", "anchors": ["lib/binary/reflector.h: BinaryDeserializer::read"]}
{"id": "C31", "title": "Truncated binary input is detected", "statement": "Reading from any strict prefix of the bytes a successful read would consume throws; it never yields a value and never is undefined behaviour.", "quantifier": "every type, input and cut point", "why_tests_cant": "every crash/cut point", "anchors": ["lib/binary/reflector.h: BinaryDeserializer::read"]}
{"id": "C32", "title": "Reading arbitrary bytes is safe", "statement": "Deserializing any byte sequence as any supported type terminates with a valid value or an exception; it never is undefined behaviour. (There is one limit: if elements of a set or entries of a map are of a class with a scalar member without initialiser which is not read in the version at hand, moving the uninitialised element into the container is undefined behaviour; such element types are excluded.)", "quantifier": "every byte sequence, binary-supported type, previous content of the object and state of the session", "why_tests_cant": "all inputs", "anchors": ["lib/binary/reflector.h: BinaryDeserializer::read"]}
{"id": "C33", "title": "Back-references are type-checked", "statement": "A back-reference to an identifier not yet defined in the session or defined with another pointer type throws a ConversionException; a successful back-reference yields an object previously created with the very same type.", "quantifier": "every input and session state", "why_tests_cant": "all inputs", "anchors": ["lib/binary/reflector.h: read shared_ptr 157-163"]}
{"id": "C34", "title": "Big identifiers", "statement": "Every 64-bit object address is written such that it is read back as the same identifier: variable-length below 2^55, as 8 bytes with flag 4 set from there on; writing an address never throws.", "quantifier": "all 2^64 addresses", "why_tests_cant": "domain too large; addresses not controllable in tests", "anchors": ["lib/binary/reflector.h: 279-290, 151"]}
{"id": "C35", "title": "Variant index in the binary format", "statement": "The first byte of a written variant is its alternative's index and selects the same alternative on read; any other index throws; writing a valueless variant throws after emitting 0xFF.", "quantifier": "every variant type/value/byte", "why_tests_cant": "all alternatives", "anchors": ["lib/binary/reflector.h: 214-239, 311-325"]}
{"id": "C36", "title": "Binary encoding is injective", "statement": "Two writable pointer-free values of the same type with identical encodings are equal; moreover no encoding is a strict prefix of another.", "quantifier": "all pairs of values of every type", "why_tests_cant": "pairs of unbounded values", "anchors": ["lib/binary/reflector.h: BinarySerializer::write"]}
{"id": "C37", "title": "Reading binary data into non-empty containers", "statement": "Reading replaces vectors, but maps and sets keep previous entries: for maps an already present key keeps its old value, sets are united and multi-containers appended.", "quantifier": "every previous content and input", "why_tests_cant": "all pairs", "anchors": ["lib/binary/reflector.h: 175-205"]}
{"id": "C38", "title": "Unsupported versions are rejected", "statement": "Reading a versioned class whose encoded version exceeds the supported one throws VersionNotSupported with present and maximum version and the record's name, before any own member is read or modified.", "quantifier": "every input, class and version", "why_tests_cant": "all versions", "anchors": ["lib/versioning.h 34-63", "generator/binaryserializationcodegenerator.cpp: 315-325"]}
{"id": "C39", "title": "Version defaulting and propagation", "statement": "A versioned class is prefixed with the caller's version or its own default if 0 is given; the version is handed to direct members but dropped to 0 by every container, pointer, optional, pair, enum or variant in between.", "quantifier": "every version, class and nesting", "why_tests_cant": "all nestings", "anchors": ["lib/versioning.h: applyDefault", "lib/binary/reflector.h: 241-250, 327-336", "generator/binaryserializationcodegenerator.cpp: 254-295"]}
{"id": "C40", "title": "Nested class with lower maximum version", "statement": "If a versioned class is a direct member of a class and the version in effect exceeds the nested class' maximum, writing succeeds but reading the result always throws VersionNotSupported.", "quantifier": "every outer/inner class and version", "why_tests_cant": "all class pairs and versions", "anchors": ["generator/binaryserializationcodegenerator.cpp: 254-262, 315-325", "lib/versioning.h"]}
{"id": "C41", "title": "Explicit version and base classes", "statement": "Bases are written with the caller's version but read with the version of the surrounding read call (0 at top level): a non-default explicit version reads back correctly if no base has version-dependent members and can be misread otherwise.", "quantifier": "every class hierarchy and version", "why_tests_cant": "all hierarchies", "anchors": ["lib/binary/serializable.h 36-44", "generator/binaryserializationcodegenerator.cpp: 251-253, 311-313"]}
{"id": "C42", "title": "Time values in the binary format", "statement": "DateTime and TimeSpan round trip exactly as 8-byte big-endian tick counts.", "quantifier": "all 2^64 tick values", "why_tests_cant": "domain too large", "anchors": ["lib/binary/reflector-chronoutilities.h 19-47"]}
{"id": "C43", "title": "Which classes get code", "statement": "Code is generated for exactly those completely defined classes of the main file which directly inherit from an instantiation of the serializable template or are requested explicitly, and for those completely defined classes (from any file) adapted by a specialization in the main file; each exactly once, in declaration order.", "quantifier": "every translation unit", "why_tests_cant": "all ASTs", "anchors": ["generator/serializationcodegenerator.cpp: 29-122", "generator/jsonserializationcodegenerator.cpp: 40-57", "generator/binaryserializationcodegenerator.cpp: 45-62"]}
{"id": "C44", "title": "Which base classes are serialized", "statement": "Generated code serializes exactly those (direct or indirect) base classes for which code is generated in the same run, before the class' own members; base classes that are only included are silently left out.", "quantifier": "every class hierarchy", "why_tests_cant": "all hierarchies", "anchors": ["generator/serializationcodegenerator.cpp: 124-134", "generator/jsonserializationcodegenerator.cpp: 115-132"]}
{"id": "C45", "title": "Repeated serialization of indirect bases", "statement": "In a linear chain of n+1 relevant classes the root's members are serialized 2^(n-1) times when serializing the most derived class (once iff n <= 1); the JSON document then contains duplicate members.", "quantifier": "every chain length", "why_tests_cant": "unbounded chain", "anchors": ["generator/serializationcodegenerator.cpp: 124-134"]}
{"id": "C46", "title": "Const and private members", "statement": "Generated JSON code writes public members (all members if befriended) including const ones and reads the non-const of them; generated binary code writes and reads exactly the same non-const members provided both friend declarations are present or none.", "quantifier": "every class declaration", "why_tests_cant": "all declarations", "anchors": ["generator/jsonserializationcodegenerator.cpp: 88-175", "generator/binaryserializationcodegenerator.cpp: 216-357"]}
{"id": "C47", "title": "Version guards", "statement": "A member following version markers is written (and read) in generated binary code iff the version lies within the interval given by the latest as-of/until markers (a marker contradicting the other one resets it); guards are balanced; reader and writer agree on every member.", "quantifier": "every sequence of member declarations and markers, every version", "why_tests_cant": "sequences unbounded", "anchors": ["generator/binaryserializationcodegenerator.cpp: MemberTracking 103-190, 263-357"]}
{"id": "C48", "title": "Nothing relevant, nothing written", "statement": "A generator emits no output at all iff no class is relevant; otherwise its output is one balanced namespace block.", "quantifier": "every translation unit", "why_tests_cant": "all ASTs", "anchors": ["generator/jsonserializationcodegenerator.cpp: 62-75, 176-181", "generator/binaryserializationcodegenerator.cpp: 200-208, 358-362"]}
{"id": "C49", "title": "Classes without default constructor", "statement": "For a class without default constructor only serialization code is generated; deserialization code is generated for every other relevant class.", "quantifier": "every class", "why_tests_cant": "all ASTs", "anchors": ["generator/jsonserializationcodegenerator.cpp: 134-137", "generator/binaryserializationcodegenerator.cpp: 299-302"]}
{"id": "C50", "title": "Error resilience", "statement": "With error resilience the run counts as failed iff a non-semantic error was diagnosed, no matter how many semantic errors precede or follow and in which order; without it any error fails the run.", "quantifier": "every sequence of diagnostics", "why_tests_cant": "unbounded histories", "anchors": ["generator/consumer.cpp 62-88"]}
{"id": "C51", "title": "Command line handling", "statement": "Clang options are the non-empty ;-separated pieces of all given values in order; each named generator is instantiated in the given order; an unknown name ends the run with status -5 without generating anything; by default only the JSON generator runs.", "quantifier": "every argument vector", "why_tests_cant": "unbounded", "anchors": ["generator/main.cpp 71-122", "generator/codefactory.cpp 53-63, 79-85"]}
{"id": "C52", "title": "JSON text round trip", "statement": "Printing a document without non-finite numbers and parsing the text yields the same document (with all names owned); a document containing a non-finite number is cut off before it and does not parse.", "quantifier": "every document", "why_tests_cant": "unbounded documents", "anchors": ["lib/json/reflector.h: serializeJsonDocToString 62-68, parseJsonDocFromString 73-81"]}
{"id": "C53", "title": "Member order in JSON objects", "statement": "The members of a serialized class appear as: members of base classes first (in generation order), then own members in declaration order, each exactly once per serialized field.", "quantifier": "every class hierarchy", "why_tests_cant": "unbounded", "anchors": ["generator/jsonserializationcodegenerator.cpp: 115-132"]}
{"id": "C54", "title": "No error iff the document conforms", "statement": "Deserializing a document into an object of any type, with an error list, reports no error if and only if the document conforms to the type, where conforming is defined on the document and the type only (kinds of values, lengths of tuples and pairs, distinct set items, variant index and data, present members, ISO dates). If deserialization throws, the document does not conform.", "quantifier": "every type (including recursive classes), document, previous content of the object and error list", "why_tests_cant": "unbounded types and documents; unit tests only sample single mismatches", "anchors": ["lib/json/reflector.h: pull 531-1012, fromJson 1098-1181"]}
{"id": "C55", "title": "Undefined behaviour exactly on listed hazards", "statement": "Deserializing a JSON document which does not end in an exception has undefined behaviour if and only if the document contains, at a place which is read, a number without value in the range of the integer type it is read into, an item read into a set or multiset which leaves the element (partly) uninitialised, or - when no error list is given - equivalent items read into a set. Previous content of the object, error context and fatal kinds do not matter.", "quantifier": "every type, document, previous content and error list", "why_tests_cant": "undefined behaviour is not observable by tests, and documents are unbounded", "anchors": ["lib/json/reflector.h: pull 531-1012"]}
{"id": "C56", "title": "Safe outcomes of deserialization from JSON", "statement": "Whatever the bytes given, reading them as a class, map or array terminates with one of: a parse exception (iff the text is not JSON), a valid object of the type, a thrown reported error whose kind is flagged in the given error list, or undefined behaviour exactly on the documents with the hazards of C55.", "quantifier": "every byte string, every supported type including recursive classes, with or without error list", "why_tests_cant": "all inputs", "anchors": ["lib/json/reflector.h: pull 531-1012, fromJson 1098-1181", "lib/json/errorhandling.h 24-265"]}
{"id": "C57", "title": "Serialised form of every object", "statement": "Serialising an object yields exactly the documented JSON representation: scalars as values of the documented JSON types, lists and sets as arrays in iteration order, maps as objects with one member per entry, multimaps as objects with one array per distinct key, optionals and smart pointers as null or their content, variants as index/data, classes as objects with the members of the bases first. Serialising succeeds iff the object is completely initialised and pointers can be followed to an end, and is undefined behaviour iff an uninitialised scalar is serialised. Each object has at most one representation. The documents of toJsonDocument and toJson are these representations too, except that a null C-string passed to toJsonDocument is undefined behaviour and that strings of 2^32 bytes or more are cut.", "quantifier": "every type and object, including object graphs on the heap", "why_tests_cant": "unbounded types, objects and pointer graphs", "anchors": ["lib/json/reflector.h: push 140-410", "README.md 50-107"]}
{"id": "C58", "title": "Errors reported are exactly the faults of the document", "statement": "Deserialising a document reports exactly the faults of the document (wrong JSON types, wrong array sizes, unparsable times, invalid variants, duplicates), each once and in document order (base classes before own members), with the record, the member and the index determined by the place of the fault; if some fault is fatal, reporting stops with the first fatal one, which is thrown. The index refers to the innermost array item unless an array within this item has been completed before. Every document has a unique list of faults, whose places exist in the document.", "quantifier": "every readable type including recursive classes, every document, previous content of the object, initial error context and list, and set of fatal kinds", "why_tests_cant": "unit tests check a handful of error lists; documents and nesting are unbounded", "anchors": ["lib/json/reflector.h: pull 531-1012", "lib/json/errorhandling.h 24-265", "generator/jsonserializationcodegenerator.cpp 150-176"]}
{"id": "C59", "title": "the generated text means what it should when read as C++", "statement": "Read as C++ source text (tokens, statements, blocks, name lookup), the text produced by a code generator consists of the namespaces of the library and, within, exactly one definition per (de)serialization function of every wanted class. The class a function is a specialization of, its parameter and the base classes its calls refer to are the declared ones independently of what unqualified name lookup would find where the text is included. The functions for JSON (de)serialize the wanted bases and then the accessible members under their own names as JSON member names, the deserializing function setting the error context's record to the class and restoring it. The binary functions write/read the bases, the version (as versioned by the serializable template the class inherits), and for every version exactly the accessible members which belong to it, in declaration order; the reading function returns the version. This includes that version conditions are opened and closed properly and never nest.", "quantifier": "every translation unit whose names are C++ names, every generator configuration, every version, every environment of declarations", "why_tests_cant": "unit tests compare the output for one header; the property is about all translation units and about the meaning of the text", "anchors": ["generator/serializationcodegenerator.cpp: 29-134", "generator/jsonserializationcodegenerator.cpp: 62-181", "generator/binaryserializationcodegenerator.cpp: 65-363", "generator/codefactory.cpp 53-98"]}
{"id": "C60", "title": "Bytes written for every object", "statement": "Writing an object of any type appends exactly the bytes of its binary representation, which is defined by a table: numbers big-endian with the size of the type, lengths of variable size, contents of containers in iteration order, flag bytes for optionals and pointers, identifier and content at the first occurrence and identifier only at further occurrences of a shared object, index of variants, bases before version before the members of the version. An exception is thrown iff (and after exactly the bytes before) the representation comes to a length or version of at least 2^56 or a valueless variant, and writing has undefined behaviour iff it comes to an uninitialised scalar. Each object has one representation, and each valid object - including cyclic shared objects - has one.", "quantifier": "every type (including recursive classes), object graph, version and state of the serializer", "why_tests_cant": "unbounded types, objects and pointer graphs; unit tests compare a few byte strings", "anchors": ["lib/binary/reflector.h 100-120, 257-336", "generator/binaryserializationcodegenerator.cpp 195-363"]}
{"id": "C61", "title": "Bytes accepted and rejected when reading", "statement": "Reading an object of any type from any bytes succeeds with a value, consuming certain bytes, if and only if these bytes are an encoding of the value, where the encodings are given by rules on bytes only: fixed-size numbers big-endian, lengths and versions of one to eight bytes not necessarily minimal, any non-zero byte meaning true, flags of shared pointers of which only bits 0-2 matter, identifiers defined or referred to, members of the version at hand. It throws if and only if the input is rejected by the rules (truncated anywhere, zero first byte of a number, length beyond the limit, undefined or differently typed reference, unknown alternative, unsupported version), with the exception given by the rules; undefined behaviour only if an uninitialised scalar is moved into a set or map. For every input exactly one of these holds.", "quantifier": "every type (including recursive classes), every input, previous content of the object, version and state of the deserializer", "why_tests_cant": "all inputs, including non-canonical ones no writer produces", "anchors": ["lib/binary/reflector.h 126-250", "lib/versioning.h 27-63", "generator/binaryserializationcodegenerator.cpp 304-354"]}
{"id": "C62", "title": "Types supported by the (de)serializers", "statement": "A call of push, pull, toJson, toJsonDocument, fromJson, BinarySerializer::write or BinaryDeserializer::read compiles for a C++ type if and only if the type is built from the supported ones: for each function there is a list of basic types, standard templates and class traits (TREAT_AS macros, generated code), closed under nesting. No call is ambiguous except toJsonDocument<std::string_view>(...), wrong use of the TREAT_AS macros makes calls ill-formed instead of picking one overload, the overload picked accepts the JSON type documented for the C++ type, and the overloads for containers never call themselves endlessly. Not all supported types are supported in both directions (e.g. a variant within an optional can be read from JSON but not written).", "quantifier": "every C++ type built from arithmetic types, enums, pointers, standard templates and classes with arbitrary declarations, every combination of user declarations", "why_tests_cant": "a unit test can not contain a call which does not compile, and there are infinitely many types", "anchors": ["lib/traits.h 36-58", "lib/json/reflector.h: IsBuiltInType 84-94, overloads 96-363, 425-624, 1019-1181", "lib/json/errorhandling.h jsonType 48-81", "lib/binary/reflector.h 46-117", "README.md 50-101"]}
{"id": "C63", "title": "Boost.Hana and generated code are interchangeable", "statement": "If the members listed when adapting classes via Boost.Hana are the ones generated code would visit (inherited ones first), then for every object the JSON document and the binary data are the same as with generated code, and for every JSON value or binary input the outcome (object, exception, errors, remaining input, returned version 0) is the same, except that the record named in errors is the enclosing one; for binary data the adapted classes must not be versioned. Members which are not listed, including those of base classes, are neither written nor touched when reading. Both ways can be mixed within one program.", "quantifier": "every program, choice of adapted classes, object graph, JSON value, input text, binary input and state of the (de)serializer", "why_tests_cant": "the tests compare a few objects; programs and objects are unbounded", "anchors": ["lib/json/reflector-boosthana.h 29-46", "lib/binary/reflector-boosthana.h 27-40"]}
{"id": "C64", "title": "Truncated JSON text is never accepted", "statement": "The text of a JSON value other than a number which is cut off at any byte (a strict prefix) is rejected by the parser. In particular, if the text returned by toJson for an object, map or array is cut off anywhere, fromJson throws the parse error for every requested type without reporting anything; so it does for the complete text if a number is not finite. Numbers at the top level are an exception: an integer without its last digit is accepted as the integer divided by ten.", "quantifier": "every document, every position of the cut, every requested type and error list", "why_tests_cant": "all documents and cut positions (crash points of whoever stores the text)", "anchors": ["lib/json/reflector.h: serializeJsonDocToString 62-68, parseJsonDocFromString 73-81, toJson 1084-1091, fromJson 1098-1181"]}
{"id": "C65", "title": "Load, save, load", "statement": "Whatever has been read from an arbitrary JSON document or text - members missing, unknown, duplicate or of the wrong type - and is written again yields a document (text) which is read as the same object without any error and is written as the same document (text), provided that parts of the object not mentioned in the document are initialised to something which survives itself, that members have different names and that times survive formatting. Limits: an optional<string_view> read from a string is restored as empty, a number beyond the range of float becomes infinity, whose text can not be read again.", "quantifier": "every type (including recursive classes), document, text, previous content of the object, error list", "why_tests_cant": "all documents including faulty ones, all types", "anchors": ["lib/json/reflector.h: push 140-410, pull 531-1012, toJson 1084-1091, fromJson 1098-1181"]}
{"id": "C66", "title": "Floating-point numbers are rounded correctly", "statement": "Reading a JSON number into a double yields the number if it was parsed as double, otherwise the nearest double (ties to even), which is the same number up to 2^53. Reading a number parsed as double into a float yields the nearest float (ties to even), infinity iff the number is at least half way between the biggest float and 2^128, and keeps the sign; infinities and NaNs stay what they are. Writing a float is exact, and it is read as the same float. Limits: integers read into a float are rounded twice, so the result is not always the nearest float; a document which is just a number is accepted for float only up to 3.4028234e38, so the biggest float is written but not accepted.", "quantifier": "every double, every 64-bit integer, every float", "why_tests_cant": "2^64 inputs", "anchors": ["lib/json/reflector.h: push 140-163, pull 531-544, toJsonDocument 1019-1079, fromJson 1117-1129"]}
{"id": "C67", "title": "Load, save, load for the binary format", "statement": "Whatever fromBinary or restoreFromBinary (into any properly initialised object) has read from arbitrary input - possibly of an older version, with lengths, flags or identifiers encoded unusually, or with duplicate elements - can be written by toBinary with the default version, and reading what has been written (followed by anything) succeeds, consumes exactly what has been written and yields the same object graph including sharing and cycles; without pointers to shared objects the very same object. Required of the program: all members belong to the current version, members missing in streams of older versions and the initial content of sets and maps are initialised to something which survives being written and read, no member is read twice via several bases, variants have at most 255 alternatives, keys are ordered and free of pointers to shared objects, hashed multisets/multimaps keep the order of equivalent elements. Limits: members which do not belong to the version in effect have no influence on what is written (so they are lost when an object of an old version is saved), members which do not belong to the version of the stream are left as they were, and an object with an uninitialised scalar among the members to be saved can not be saved.", "quantifier": "every program, class, byte sequence, version in the stream, object graph", "why_tests_cant": "all byte sequences and histories of versions", "anchors": ["lib/binary/reflector.h: read 126-250, write 257-336", "lib/binary/serializable.h 22-51", "generator/binaryserializationcodegenerator.cpp 195-363"]}
{"id": "C68", "title": "Reading from streams which do not throw", "statement": "If exceptions are not enabled for the input stream (the default for C++ streams), restoreFromBinary returns an object and leaves the stream good if and only if it returns the same object from a stream with exceptions enabled; if the input ends too early, the stream is in fail state whenever restoreFromBinary returns or throws. The exceptions thrown by the library itself are the same in both modes. So checking fail() afterwards is sufficient. It is also necessary: reading a number past the end yields whatever the buffer contains without any exception, and reading a truncated linked list may recurse without end.", "quantifier": "every program, class, input, previous content of the object and content of the buffers after failing reads", "why_tests_cant": "all inputs and all positions where the input may end; the tests enable exceptions", "anchors": ["lib/binary/reflector.h: read 126-250", "lib/binary/serializable.h 41-51", "lib/tests/binaryreflector.cpp 309"]}
{"id": "C69", "title": "Writing to streams which fail", "statement": "If the output stream fails at any point while toBinary writes to it, the stream contains the first bytes of what should have been written and is in fail state; toBinary throws if and only if exceptions are enabled for the stream. If the stream is good afterwards, everything has been written. Bytes of an object of which writing failed are never mistaken for an object: reading them throws unless all bytes have been written. Exceptions thrown by the library itself are not affected by a failing stream which does not throw.", "quantifier": "every program, class, object graph, version and point of failure (any number of bytes accepted by any write)", "why_tests_cant": "all crash points of all objects", "anchors": ["lib/binary/reflector.h: write 257-336", "lib/binary/serializable.h 36-39"]}
{"id": "C70", "title": "Resources needed for reading binary data", "statement": "Reading an object from any bytes, valid or not, needs a number of nested calls which is at most proportional to the number of bytes, the factor depending only on the type. If elements of containers take at least one byte each, then the size of the resulting objects (bytes of strings, elements, owned and shared objects) exceeds the initial size by at most a constant of the type per byte read. Both are limits of what untrusted input can do and both are attained: a linked list of k items takes k + 1 bytes and more than 2k nested calls, and 8 bytes suffice for a vector of any number of elements of a class without members.", "quantifier": "every program without classes containing themselves by value, type, byte sequence, previous content and state of the deserializer", "why_tests_cant": "all byte sequences; a test can not show that no short input exhausts stack or memory", "anchors": ["lib/binary/reflector.h: read 126-250", "lib/binary/serializable.h 41-51"]}
{"id": "C71", "title": "Older and newer versions of a program (binary format)", "statement": "If a newer program differs from an older one only by members added (or removed) for versions above the versions the older program knows, then every byte sequence the older program reads is read by the newer program as well, with the same version returned, the same bytes consumed, the same values of all members both know, and the added members left at their initial value; in particular everything the older program has written is restored. Conversely, told to write a version the older program knows, the newer program writes exactly the bytes the older one would write, whatever the added members contain, so the older program restores the object. Limits: elements of containers, pointees and the like are always written in the newest version, so the older program can not read them (VersionNotSupported) whatever version is requested; adding a member to a class without version is a breaking change which is not detected: the following bytes are taken for the new member.", "quantifier": "every pair of programs, class, byte sequence, object graph, version", "why_tests_cant": "all programs, all inputs", "anchors": ["README.md 357-403 (Versioning)", "lib/binary/reflector.h: read 126-250, write 257-336", "lib/versioning.h 27-63", "generator/binaryserializationcodegenerator.cpp 195-363"]}
{"id": "C72", "title": "Older and newer versions of a program (JSON)", "statement": "If a newer program differs from an older one only by added members, then: a JSON document which does not contain added members where they are looked for is read by the newer program with exactly the same outcome (errors, exceptions, content of the old members) as by the older one, and the added members keep their previous content; every document the newer program reads is read by the older program as well, with the same content of the old members and reporting only errors the newer one reports too; documents written by the older program never contain added members, unless a name is used for different members of an object. Consequently what either program writes is restored by the other without any error as far as both know the members, and additional members are dropped when the older program writes the object again.", "quantifier": "every pair of programs, type, document (valid or not), previous content of the object, error list and object", "why_tests_cant": "all programs, all documents", "anchors": ["README.md 357-361 (Versioning)", "lib/json/reflector.h: push 390-410, pull 973-1012", "generator/jsonserializationcodegenerator.cpp 62-181"]}
{"id": "C73", "title": "Resources needed for reading JSON", "statement": "If no class reads a member twice (which happens if indirect bases are listed besides direct ones), then reading any JSON document or text, valid or not, into an object makes it grow (bytes of strings, elements, owned objects) at most in proportion to the size of the document or text, the factor depending only on the types; with multimaps, whose keys are copied for each element, at most in proportion to the square. At most three errors are reported per unit of the size, even if an exception is thrown, and the number of nested calls is at most proportional to the length of the text. The conditions are needed: otherwise a document of linear size can yield an object and a list of errors of exponential size, and a chain of objects is written as a document of exponential size.", "quantifier": "every program, type, document, text, previous content of the object and error list", "why_tests_cant": "all documents and texts; a test can not show that no short input exhausts memory", "anchors": ["lib/json/reflector.h: push 140-410, pull 531-1012, fromJson 1098-1181", "lib/json/errorhandling.h: 207-265", "generator/jsonserializationcodegenerator.cpp: 62-181"]}
{"id": "C74", "title": "State of the object when reading JSON throws", "statement": "If reading a JSON document into an existing object throws (because the caller made an error fatal), the object is still a valid object of its type. It is exactly as far read as the document has been processed: a value which does not fit as a whole leaves the object unchanged; members (also inherited ones) before the offending one have been read, those after it or missing in the document are as before; arrays contain the elements read before plus the partially read one; sets contain only completely read elements; maps keep entries of other keys; pointers, optionals and variants refer to the new, partially read object. Reading the same document again into the object that was left, with nothing being fatal, gives the same as if that had been done right away (no multimaps and no repeated names in objects read into maps); reading it twice changes nothing. With multimaps the entries are there twice.", "quantifier": "every program, type, document, previous content of the object, set of fatal kinds of errors and point at which an exception is thrown", "why_tests_cant": "the exception may be thrown at any point of any document; a test covers only some points and previous contents", "anchors": ["lib/json/reflector.h: pull 531-1012", "lib/json/errorhandling.h: throwMaybe 207-214, 217-265", "generator/jsonserializationcodegenerator.cpp: 139-175"]}
{"id": "C75", "title": "State of the object when reading binary data throws", "statement": "If reading binary data into an existing object throws (input ends early, unsupported version, unknown identifier, invalid variant index, length too big), the object and all shared objects of the session are still valid objects of their types; shared objects which existed before are unchanged. The object is exactly as far read as the input could be processed: scalars, enums and strings are unchanged or completely read; base classes and members before the offending one have been read, those after it and members which are never read are as before; a sequence already has the length announced by the input, elements after the offending one being as if it had just been resized; sets and maps keep previous elements and gain completely read ones only; pointers, optionals and variants refer to a new, partially read object unless already their flag, identifier or index could not be read.", "quantifier": "every program, type, input, previous content of the object, session (identifiers and shared objects known so far) and point at which reading throws", "why_tests_cant": "the exception may be thrown at any byte of any input; a test covers only some points and previous contents", "anchors": ["lib/binary/reflector.h: 126-250", "lib/binary/serializable.h: 41-44", "generator/binaryserializationcodegenerator.cpp: 304-354"]}
{"id": "C76", "title": "Reading binary data again into the same object after an exception (or after success)", "statement": "If BinaryDeserializer::read or restoreFromBinary throws, the object can be read again, from any other input, with exactly the outcome (object, exception, identifiers, input left) an attempt with the object in its original state would have had; the same holds after any sequence of successful and failed attempts. This covers scalars, strings, pointers, optionals, variants, pairs, sequences of such and classes all members of which are read for every version; more generally the outcome does not depend on the previous content as far as it is replaced. It does not hold for sets and maps (elements of the failed attempt remain, elements of multisets are duplicated even with the same data) and for members which some versions skip.", "quantifier": "for all types, pairs of previous contents differing only in what is replaced, inputs, versions, exceptions and sequences of attempts", "why_tests_cant": "tests read into fresh objects; the claim ranges over all states an aborted read can leave behind and all following inputs", "anchors": ["lib/binary/reflector.h 126-250", "lib/binary/serializable.h 41-44", "generator/binaryserializationcodegenerator.cpp 304-354"]}
{"id": "C77", "title": "Invoking the code generator via CMake", "statement": "add_reflection_generator_invocation adds one command per input file, in order, or fails iff an include directory of the cache variable does not exist. The command's output is <output directory>/<name up to the first dot>.h; outputs are different iff these names are; all outputs are appended to each variable given via OUTPUT_LISTS and no other variable changes. The tool gets exactly the input, output, generators, classes, visibility and error resilience specified. Clang gets, as separate arguments and in this order, CLANG_OPTIONS, the resource directory, triple, include directories and, per target, -std, flags, options, -D for each definition and -I for each include directory (and likewise the interface properties of dependencies). After running all commands in any order each output file contains the code of the specified generators for its input and no other file has changed. Exceptions: lists such as \"NO\" or ending in -NOTFOUND are ignored; the keyword BINARY_VISIBILITY is taken as value; without GENERATORS the files are empty.", "quantifier": "for all argument lists, settings, target properties (any string), output lists and orders of execution", "why_tests_cant": "tests build one project; the claim ranges over all arguments and property values, including empty elements and values CMake regards as false", "anchors": ["lib/cmake/modules/ReflectionGenerator.cmake 70-225", "generator/main.cpp 58-141", "README.md 172-232"]}
{"id": "C78", "title": "Size of the output", "statement": "The binary data written for an object graph has at most a constant number of bytes per (sub)object (9, or 8 per versioned class of a hierarchy if that is more) plus the length of strings; a shared object counts once, however many pointers (including cycles) refer to it, and objects written before by the same serializer do not count again. A JSON document is bounded the same way but counts a shared object wherever it is referred to, so n+1 objects referring to each other twice take 2^n values; JSON text has at most 26 bytes per value and per byte of names and strings. Limit: if a class has an indirect base class, the generated code writes that base's members repeatedly, and data grows exponentially in both formats (n+1 objects owning each other take at least 2^n bytes).", "quantifier": "for all types, values, object graphs and lengths", "why_tests_cant": "bounds over all object graphs; the exponential cases need unbounded families", "anchors": ["lib/binary/reflector.h: 257-336", "lib/json/reflector.h: 140-410", "generator/serializationcodegenerator.cpp: 124-134"]}
{"id": "C79", "title": "Values written by one serializer while objects change", "statement": "If a program writes several values with one BinarySerializer and changes, destroys or creates objects between the calls, then the data equals the data for a program state in which every shared object has, all the time, the content it had when the serializer wrote it first; reading the values back in one go yields exactly these contents with the sharing between the values. If the shared objects do not change between the calls, these are the actual contents. Limits: what is changed after an object has been written first is not written when a later value refers to it; an address reused after destruction is taken for the previous object: with the same type the reader gets the previous object, with another type (or if pointers of different types refer to the same address) writing succeeds but reading throws a ConversionException.", "quantifier": "for all sequences of calls, heaps at the time of each call, types, values and object graphs", "why_tests_cant": "tests write one or two values of an unchanging graph; the claim ranges over all histories of calls and modifications in between", "anchors": ["lib/binary/reflector.h: 272-295 (m_pointer keeps addresses, no owners), 142-164, BinarySerializer::write"]}
{"id": "C80", "title": "Reading and objects owned by others", "statement": "Reading binary data, whatever the data is and whether it succeeds or throws, does not change any shared object which existed before: neither the objects the target referred to, nor the objects returned by earlier reads of the same deserializer, nor any other. Every shared pointer within the result (or within the partially read object) was there before, or refers to an object created by this call, or to one created earlier by the same deserializer; pointers within newly created objects are never ones of the target. So what is read into a new object by a new deserializer shares nothing with any other object, and if an existing object is read into, everything reachable afterwards is either new or was reachable before and is unchanged. (Provided constructors do not create shared objects themselves.)", "quantifier": "for all byte sequences, types, targets, heaps and deserializer states", "why_tests_cant": "aliasing between everything that exists and what is read, for arbitrary input including malicious data and exceptions at any point", "anchors": ["lib/binary/reflector.h: 142-164, 126-250", "lib/binary/serializable.h: 41-51"]}
{"id": "C81", "title": "What the code generated for a class depends on", "statement": "The output of the code generators consists of a header, one block per class code is wanted for, in the order of definitions, and a footer. The block for a class depends only on the visibility attribute, the class's own name, members, friends and constructor, the names of its bases code is generated for, and (binary only) the instantiation of BinarySerializable it inherits from. So adding any declarations which are neither adaptions nor bases of existing classes leaves the existing blocks and their order unchanged (or the whole output if no code is wanted for them), and the order of base specifiers does not matter. Limit: reordering the definitions of unrelated base classes reorders the bases in the code of derived classes, so the binary format changes silently.", "quantifier": "for all translation units, settings, added declarations and orders of base specifiers", "why_tests_cant": "locality over all translation units; tests use a few headers", "anchors": ["generator/serializationcodegenerator.cpp: 29-134", "generator/jsonserializationcodegenerator.cpp: 62-181", "generator/binaryserializationcodegenerator.cpp: 195-363"]}
{"id": "C82", "title": "Using both formats for the same object", "statement": "An object graph restored from binary data is written by toJson/toJsonDocument exactly like the original - same document, same text; for cyclic graphs both never come to an end. So JSON read into an object, sent in binary form, restored and written as JSON gives the same text as writing the object right away, and reading that text yields the object read first; an acyclic object graph sent in binary form and then as JSON arrives as the corresponding tree in which nothing is shared.", "quantifier": "for all types, values and object graphs representable in the formats, versions and texts", "why_tests_cant": "relates the outcome of four operations for all object graphs", "anchors": ["lib/json/reflector.h: push 140-410, toJson 1084-1091, fromJson 1098-1181", "lib/binary/reflector.h: 126-336", "lib/binary/serializable.h: 22-51"]}
{"id": "C83", "title": "One errors object for several calls", "statement": "If one JsonDeserializationErrors object is passed to several calls of fromJson (changing throwOn in between, catching exceptions), the outcome of each call - object returned, parse error, fatal error and its kind - is the same as with a new errors object. The list contains the errors of all calls in order. Calls which return or reject the text leave the context as it was, so as long as no fatal error has occurred each call adds exactly the errors it would add to an object of its own. A fatal error leaves record, member and index at its own location; errors of later calls are then still the same except that a part of the location which would be the initial one is the one left; e.g. a document of the wrong type is reported as if it was located in the earlier document. Restoring the three context fields makes the next call exact again.", "quantifier": "for all sequences of calls, types, texts, flags and states of the errors object", "why_tests_cant": "ranges over all histories of calls with a shared, mutable object; tests use a new object (or clear the list) for each call", "anchors": ["lib/json/errorhandling.h: 154-265", "lib/json/reflector.h: 973-997, 1098-1181", "generator/jsonserializationcodegenerator.cpp: 148-174"]}
{"id": "C84", "title": "Composing documents with the RapidJSON-level functions", "statement": "JsonReflector::push into an existing array appends exactly one item, push under a name into an existing object appends exactly one member (also if there is one of that name already; nothing is ever replaced), push of a class into an existing object appends the members of the class's representation, push into a value replaces it; the parts appended are exactly the representation toJsonDocument uses, and what is undefined there is undefined here. JsonReflector::pull by name reads the first member of that name like reading the value and does nothing if there is none; so what was pushed first under a name is what is read. Values of any types pushed under different names can be read back by name, in any order and whatever the object contains besides; values pushed to an array can be read back in order via an iterator; reading at the end is undefined. Names are not copied.", "quantifier": "for all types, values, existing arrays and objects, names and sequences of calls", "why_tests_cant": "ranges over all existing contents and all sequences of calls; tests start with empty arrays and objects", "anchors": ["lib/json/reflector.h: push 101-410, pull 961-997", "generator/jsonserializationcodegenerator.cpp: 107-129", "lib/json/serializable.h: 43-54"]}
{"id": "C85", "title": "Members of equal names in a class and its bases", "statement": "If a class has a data member of the same name as one of its base classes (or several of its bases have such), the JSON object has several members of that name, and reading it back gives each of these data members (of equal types) the value of the one written first, that is the one of a base rather than of the class itself, without any error; so the value of the other one is lost whenever they differ. Whatever the types are, the values of all but the first one have no effect on reading the document at all. (The binary format does not use names and restores all of them.)", "quantifier": "for all classes with bases, members, objects, and objects read into, with or without errors object", "why_tests_cant": "ranges over all class hierarchies and values; the tests have no members of equal names", "anchors": ["lib/json/reflector.h: pull 973-997", "generator/jsonserializationcodegenerator.cpp: 112-176"]}
{"id": "C86", "title": "Iteration order of hashed containers", "statement": "Reading never depends on the order in which hashed sets and maps are iterated: any document and any bytes are read with the same outcome, including errors and exceptions. So what a process writes using one order is read by a process using another order (another implementation of the standard library, another seed of the hash function) and yields the value in JSON, and a copy of the object graph in the binary format. The JSON documents of the same value written using different orders are the same up to the order of items of arrays and of members of objects, and if the value can be written using one order it can be using the other one.", "quantifier": "for all programs, iteration orders visiting each element once, types, values, object graphs, documents and byte sequences", "why_tests_cant": "tests run with one order only, the one of the standard library they are compiled with", "anchors": ["lib/json/reflector.h: push 217-273, pull 531-1012", "lib/binary/reflector.h: 184-205, 297-304"]}
{"id": "C87", "title": "Reproducible output", "statement": "For types not involving hashed containers: the JSON document and text of an object graph are the same in every process and for every placement of the shared objects in memory; the binary data of an object not involving shared pointers is the same in every process; with shared pointers the binary data of the same object graph at other addresses differs in nothing but the addresses. With hashed containers but without shared pointers two processes write the same bytes up to order, in particular equally many. Limits: the binary data of a shared pointer contains the address of the object, which everyone having the data can read off; so the data of the same object graph is never the same when a shared object is located elsewhere (as with address space layout randomisation).", "quantifier": "for all types, object graphs, placements in memory, iteration orders and processes", "why_tests_cant": "tests compare the output of one process with itself", "anchors": ["lib/binary/reflector.h: 272-295 (address used as identifier, 278), 297-304", "lib/json/reflector.h: 217-334"]}
{"id": "C88", "title": "Using a serializer after an exception", "statement": "After exceptions (e.g. due to a valueless variant) a BinarySerializer can still be used for values sharing no objects with those touched before: they are written exactly like by a new serializer, after what is in the stream already, and a new deserializer starting there reads a copy of the object graph. Limit: if writing a shared pointer throws, the serializer takes the object for written; writing it again - after repairing the object and even if the stream has been reset - succeeds but writes only a reference, which reading rejects with a ConversionException.", "quantifier": "for all states a serializer can be in, types, object graphs, versions, and states of the stream when trying again", "why_tests_cant": "ranges over all histories including exceptions at any point within an object graph", "anchors": ["lib/binary/reflector.h: 272-295 (alreadyWritten set before the object is written, 291-294), 311-325, 142-164"]}
{"id": "C89", "title": "One deserializer for the output of several serializers", "statement": "A BinaryDeserializer in any state - whatever it has read before, whatever identifiers it knows, also after exceptions - restores data written by a new serializer correctly: the result is a copy of the object graph consisting of new objects only, although identifiers (addresses) may coincide with those read before, and what has been read before is not modified. So a file to which records have been appended by different processes is restored by one deserializer, record by record, without objects being shared between records. This is limited to data of new serializers: a reference written by a serializer which has written the object elsewhere resolves silently to whatever object of that type has been read last under that identifier.", "quantifier": "for all deserializer states, records, object graphs (cyclic or not), and coincidences of identifiers", "why_tests_cant": "ranges over all histories of a deserializer and all collisions of addresses between processes; tests use a new deserializer for the output of one serializer", "anchors": ["lib/binary/reflector.h: 142-164 (m_pointer[id] is overwritten, 154), 118, 272-295", "lib/binary/serializable.h: 22-51"]}
{"id": "C90", "title": "Changing types without changing the JSON representation", "statement": "Two objects with the same content have the same JSON document (apart from who owns the memory of names) and the same text, whatever their types are - even in programs with different classes. Content means: truth values, whole numbers of any integer or enumeration type, floating-point numbers of either size, texts (including formatted times), nothing, items in iteration order (lists, sets, pairs, tuples), named members (classes with or without bases, maps; a multimap counts as a map with lists), alternatives of variants by index; optionals and pointers count as what they hold. Consequently a program which uses other types for its members restores the data written by the other program, without any error, provided the value fits the new type and is representable.", "quantifier": "for all pairs of programs, types and values with the same content, object graphs, and texts", "why_tests_cant": "ranges over all pairs of types and values; tests read with the types which were used for writing", "anchors": ["lib/json/reflector.h: push 140-410, pull 531-1012, toJson 1084-1091, fromJson 1098-1181", "generator/jsonserializationcodegenerator.cpp: 107-176", "README.md: 50-107"]}
{"id": "C91", "title": "Changing types without changing the binary representation", "statement": "Two object graphs with the same content and structure are written as the same bytes - or throw the same exception after the same bytes - whatever their types are, even in programs with different classes: numbers of the same size (integers of either signedness, enumerations, truth values, times), containers with the same elements in iteration order (maps being containers of pairs), optionals and unique pointers, unset pointers of any kind, shared pointers to the same objects, alternatives of variants by index, pairs and classes with the same sequence of components (members may be renamed, and moved between a class and its bases as long as the sequence stays the same; versions count as components). Consequently a program using other types restores the object graph written by the other program. In contrast to JSON the size of numbers matters: numbers of different sizes always have different representations.", "quantifier": "for all pairs of programs, types, object graphs (cyclic or not), versions and serializer states", "why_tests_cant": "ranges over all pairs of types and object graphs; tests read with the types which were used for writing", "anchors": ["lib/binary/reflector.h: 126-336", "generator/binaryserializationcodegenerator.cpp: 195-363", "lib/binary/reflector-chronoutilities.h: 22-47"]}
{"id": "C92", "title": "Using the output for comparing objects", "statement": "JSON documents and texts and binary data can be used as keys of objects (caching, detecting modifications, comparison). Two representable object graphs, possibly of different processes, with the same JSON document have the same content; if no hashed containers are involved their documents, and their texts, are the same iff their contents are (content: shared objects count like copies, so sharing is not seen). Object graphs with the same binary data are copies of each other, including the way objects are shared; without hashed containers and shared pointers the binary data is the same iff the objects are the same. Limits: outside of the representable values different objects have the same document (nested optionals, keys of maps which differ after a NUL only).", "quantifier": "for all types, pairs of object graphs and processes", "why_tests_cant": "ranges over all pairs of values; tests compare the output of a few values with expected output", "anchors": ["lib/json/reflector.h: push 140-410, toJson 1084-1091", "lib/binary/reflector.h: 257-336"]}
{"id": "C93", "title": "Trying again once all data has arrived", "statement": "Reading the same binary data again into an object which has been read from it changes nothing. If reading throws because the input ends too early (wherever it ends, however often this is tried), reading the complete data into the same - partly read - object with a new deserializer yields the same object, the same version and consumes the same input as reading it in the first place. In contrast to reading other data, this includes sets and maps (which are added to by reading) and members which depend on the version; excluded are multisets and multimaps, shared pointers within the elements of sets and maps, and members which are read more than once.", "quantifier": "for all types, previous contents, inputs, cut positions and numbers of attempts", "why_tests_cant": "ranges over all types, inputs and positions where the input may end; tests read complete input into new objects", "anchors": ["lib/binary/reflector.h: 126-250", "generator/binaryserializationcodegenerator.cpp: 304-354", "lib/binary/serializable.h: 41-44", "lib/versioning.h: 54-59"]}
{"id": "C94", "title": "Recovering appended records after a crash", "statement": "Records are appended to a file, each written by its own BinarySerializer (or toBinary call), and a crash leaves an arbitrary prefix of the bytes written. Reading record after record with one BinaryDeserializer restores every record which is completely in the file, and the read of the first incomplete one throws 'end of file': no record is restored wrongly, partially or skipped. If the file is truncated to what has been read and further records are appended, all records - those recovered and those appended later - are restored, with no object shared between records.", "quantifier": "for all lists of records (object graphs with sharing and cycles), crash points, deserializer states and records appended later", "why_tests_cant": "ranges over all crash points and histories of appending; tests read complete data", "anchors": ["lib/binary/reflector.h: 126-250, 257-336", "generator/binaryserializationcodegenerator.cpp: 41-130, 304-354", "lib/binary/serializable.h: 25-44"]}
{"id": "C95", "title": "One JSON document per line (log files)", "statement": "The text returned by toJson never contains a line break (or any other control character), so documents can be written one per line, whatever line breaks their strings and names contain, and reading line by line yields them again, in order. After a crash which leaves any prefix of the file, the complete lines are exactly the first documents written; what follows the last line break is nothing, the complete next document lacking only its line break, or is rejected with a parse error (documents being objects or arrays or anything else but bare numbers). After removing it - or ending the line - documents appended are read like the others.", "quantifier": "for all lists of documents, all strings within, all positions of the cut and all documents appended later", "why_tests_cant": "ranges over all documents, cuts and histories; tests parse a few complete texts", "anchors": ["lib/json/reflector.h: serializeJsonDocToString 62-68, toJson 1084-1091, fromJson 1098-1181"]}
{"id": "C96", "title": "Layered configuration", "statement": "Reading a JSON document with defaults into an object and then further documents which override some of the members into the same object yields the same object as reading a single document once in which the members have been overridden - with base classes, and for any number of layers. Members of scalar and string types, arrays, sets, pointers and optionals are replaced as a whole by the last document which has them; objects and maps are combined recursively or merged. Documents which have no members in common can be read in either order.", "quantifier": "for all classes none of the members of which is read twice, documents, previous contents and numbers of layers", "why_tests_cant": "ranges over all classes, documents and numbers of layers; tests read one document into a new object", "anchors": ["lib/json/reflector.h: pull 531-1012", "generator/jsonserializationcodegenerator.cpp: 118-176", "README.md: 120-140"]}
