# Formal model of reflective-rapidjson in Lean 4: design

## What is modelled

* `lib/json/reflector.h`, `errorhandling.h`, `errorformatting.h`, `reflector-chronoutilities.h`, (generated code /
  `reflector-boosthana.h` as "class code"): the `push`/`pull`/`toJsonDocument`/`fromJson` functions, on RapidJSON documents
  represented as ordered trees, with the error object as explicit state and null pointer errors, exceptions and
  undefined behaviour as distinct outcomes.
* `lib/binary/reflector.h`, `reflector-chronoutilities.h`, `serializable.h`, `lib/versioning.h`: `write`/`read` on byte
  lists, with the pointer tables, a heap (object graphs with sharing and cycles), versions and exceptions.
* `generator/*`: relevance of classes, base class search, member filters, version guards, emitted code (as structured
  lines which are interpreted, and rendered to text), diagnostics, command line decisions - over an abstract AST.

### Outcomes
`Res = ok value state | exc exception state | ub reason | stuck | fuel`. `stuck` means "this instantiation does not
compile / value does not have that type", `fuel` that the recursion budget was used up.

### Recursion
The C++ functions are mutually recursive templates over types (and classes recursive through pointers). The model uses
open recursion: `pullStep self` is the body of every `pull` overload with recursive calls going to `self`;
`pull (n+1) = pullStep (pull n)`. Theorems hold for every `n`; separate theorems show that a sufficient `n` exists
(termination) and that results do not depend on `n` once it suffices.

### Parameters (the trusted environment `Env`)
Things which are not part of this repository are parameters with the weakest laws required, stated as hypotheses of the
theorems that need them and shown satisfiable by concrete instances: floating point conversions, comparison/ordering of
set elements and map keys, iteration order of hashed containers (arbitrary permutation), ISO date printing/parsing,
the memory limit at which `resize` throws.

## Plan per property

| id | model | proof |
|----|-------|-------|
| C01 | `Push`, `Pull` over `Ty`/`Val`/`Json` | induction over representability derivations (`JRepr`), unbounded types/values/classes |
| C02 | `push`/`pull` at `str` | exact equation |
| C03 | class pull as fold over members | list induction; permutation of members |
| C04 | `pullStep` | case analysis on type, for all contexts |
| C05-C08 | error state as state monad | closure of an invariant under all operations of `pullStep`, induction on fuel (C08: relational) |
| C09 | sorted insertion | induction over items |
| C10, C11 | `pullStep` at variants, tuples | case analysis, list induction |
| C12 | `forIdx` loop | list induction |
| C13, C14 | number pull | integer arithmetic; `ub` outcome; concrete IEEE conversions |
| C15 | nullable push/pull | round trip + collapse theorem |
| C16 | maps, multimaps, arrays | list induction |
| C17, C18 | multimap / map push | list induction, permutations |
| C19 | `Key.src` provenance in DOM | induction over push |
| C20 | `jsonType<T>` table vs. accepting set derived from `pull` | case analysis |
| C21 | `Api` over an abstract parser, later the concrete one | case analysis |
| C22 | `Format` | case analysis, injectivity |
| C23 | fuel bound | well-founded measure (document size, type size, class rank) |
| C24 | heap + unfolding | induction on unfolding; divergence by induction on fuel |
| C25 | time types with abstract ISO printer/parser | case analysis |
| C26 | `Varint` | arithmetic, induction on length |
| C27, C28 | `write`/`read` with heaps | simulation: table correspondence, induction on fuel |
| C29 | visited set | measure on unvisited addresses |
| C30-C32 | `read` | closure of a framing invariant, induction on fuel |
| C33-C35 | `readStep`/`writeStep` | case analysis, arithmetic |
| C36 | via C27 + framing | corollary |
| C37 | sorted insertion | list induction |
| C38-C41 | versions | case analysis; counter-example theorems for C41 |
| C42 | ticks | arithmetic |
| C43-C49 | generator model | list induction, interpreter of guarded lines vs. interval spec |
| C50, C51 | state machines | induction over histories |
| C52 | concrete writer and recursive descent parser for JSON text | induction on documents |
| C53 | class push | induction |
| C54 | `Conforms` (document and type only) vs. the error list after `pull` | `Quiet` logic (Hoare-style: "adds an error iff"), induction on fuel |
| C55 | `Hazard` (document and type only) vs. outcome `ub` of `pull` | `Haz` logic (Hoare-style: "ub iff"), induction on fuel |
| C56 | `JsonTyped`, `JsonReadable` (validity of objects, supported types); outcomes of `pull` and `fromJson` on arbitrary text | `Snd` logic, C23 (termination), C55, C52 |
| C57 | `Denotes` (representation of an object, from README table), `ValidObj` vs. `push` | inversion of `push` by induction on fuel, converse by induction on `Denotes`; `Fine` logic for outcomes |
| C58 | `Faulty` (faults of a document with places), `errorsOf` (context of an error from its place) vs. `pull` | `Emits` logic: a computation reports the errors of a list of events; induction on `Faulty`; existence by induction on depth of the document and rank of the type |
| C59 | `Spec/GenCpp.lean`: lexer, parser and reader for the C++ subset the generated code uses (`readCode`), vs. `renderAll (generateJson/generateBinary …)` | token lists of every piece of output (`render_toks`), parser lemmas, loop invariant of the open version condition. Excluded by hypothesis: FieldDecls without a name (unnamed bit-fields, anonymous unions): for those the generated code would not compile |
| C60 | `Spec/BinForm.lean`: the binary format as a table (`contents`) plus the relation `Layout` (bytes, shared objects seen, ending) vs. `write`/`toBinary` | induction over the fuel (soundness) and over `Layout` (completeness), for success, exceptions and undefined behaviour; existence by C29's termination. The number encodings are stated arithmetically (`x / 256^i`, `2^(7k)+x`), not by the model's shift loops |
| C61 | `Spec/BinRead.lean`: `Decodes` (encodings incl. non-canonical ones) and `Rejects` (input for which reading fails, and how), inductive rules on bytes, vs. `read`/`fromBinary` | soundness by induction over the budget with a Hoare-style rule for sequencing (`Does.bind`), completeness by induction over the rules; totality by C32 |
| C62 | `Model/Dispatch.lean`: C++ types as terms, the conditions of all overloads as Boolean functions, `Compiles` (the call resolves to one overload and so do the calls in its body); `Spec/Dispatch.lean`: supported types as inductive rules | tables of enabled overloads per type, induction over `Compiles` (soundness) and over the rules (completeness) |
| C63 | `Model/Hana.lean`: the generic Boost.Hana functions as class code; `Spec/Hana.lean`: members of a class hierarchy, outcomes which differ in records only | two-run relations between the program with generated code and the adapted program (`Le`, `HR`), flattening the calls for base classes |
| C64 | `Model/Text.lean` (scanner, printer), `Spec/JsonText.lean` (grammar) | texts of non-numbers are prefix-free (`scanValue_closed` shows that the scanner ignores what follows), with C52 (accepted texts are grammatical) and the cut-off text of non-finite numbers being a strict prefix of a grammatical one |
| C65 | `Spec/JsonReload.lean`: what is required of initial values and class declarations (`Settled`, `Reloadable`), documents as RapidJSON holds them (`Storable`) | invariant of everything `pull` yields (`Cont`: what has been read is representable unless uninitialised), then C01/C52/C57 |
| C66 | `Spec/Floats.lean`: numbers denoted by bit patterns (exact, as multiples of 2^-1074), nearest number with ties to even, overflow; `Model/Ieee.lean`: the conversions | rounding on a strictly increasing grid (`grid`, `grid_bound`), magnitudes of consecutive bit patterns (`mag_step`) |
| C67 | `Spec/BinReload.lean`: members in the current version (`Current`), initial content which can be written (`Prepared`), parts of types (`PartOf`), what is needed of each (`Kept`) | induction on `Decodes` (C61): what has been read is representable, for the growing table of shared objects (`Outc`); representable objects can be written (C60) and are restored (C27) |
| C68 | `Model/Stream.lean`: the `read` overloads over arbitrary stream primitives (`Reader`), streams without exceptions (`defaultReader`, contents of buffers after failing reads arbitrary) vs. `restoreFromBinary` | relation between computations on two kinds of streams, closed under sequencing (`HRel`, parametricity of the overloads); instance for throwing streams is `Model/Binary.lean` (`reader_restore`, `writer_write`) |
| C69 | `Model/Stream.lean`: the `write` overloads over arbitrary stream primitives, streams accepting any number of bytes at any point (`Sink`), with and without exceptions | as C68; with C27 and C31 for reading what has been written |
| C70 | `Spec/BinCost.lean`: types closed under parts, nesting by value, types which take at least one byte, amount of data in a value | induction on the budget: depth at most (bytes left) · (B + 1) + nesting; potential `amount(heap) + 2C · bytes left` never increases by more than the growth of the object; linked list and vector of empty classes show that the bounds/assumptions are needed |
| C71 | `Spec/Evolution.lean`: two programs `E` (older) and `E'` (newer); `Extends`: an object of the newer program with the same content as far as known to the older one; `ReadableBy`/`WritesLike`: which differences between the programs are allowed | simulation of `read` of `E` by `read` of `E'` (`up_read`) and of `write` (`up_write`) by induction on the budget; composed with C27; limits by C38/C39 and concrete classes |
| C72 | `Spec/JsonEvolution.lean`: two programs `E` (older) and `E'` (newer), `MembersAdded`: the newer one reads additional members; `MentionsAdded`: the document contains an added member at a place where it is looked for; `Extends` as for C71 | one simulation proof of `pull` (`RelH.pullStep`) for two relations: same outcome (`Lock`) and `whatever the newer one reads the older one reads` (`Down`), by induction on the budget; documents of the older program by C57; composed with C01 |
| C73 | `Spec/JsonCost.lean`: size of documents (`Json.volume`), `ReadOnce` (no class reads a member twice), number of errors; amount of data in a value as for C70; `JsonText.Text` for texts | accounting for all `pull` overloads (`Cheap`: growth of the object and number of new errors, also if an exception is thrown) by induction on the budget; a text is at least as long as the size of its document (induction on the grammar, with C52); multimaps and classes with indirect bases show that the bounds/assumptions are needed |
| C74 | `Model/PullX.lean`: the model of `pull` where exceptions carry the state of the object being read (proved to agree with `Model/Pull.lean` in everything else: `C74_same_outcome`); `Spec/JsonExceptions.lean`: `Left` (which states an aborted reading might leave), `Rereadable` | `Left` follows from the structure of `pullX` by induction on the budget; validity of the object by induction on `Left` with C56; retry: reading is idempotent (induction on `Rereadable`) and insensitive to what an aborted attempt has left |
| C75 | `Model/ReadX.lean`: the model of `read` where exceptions carry the state of the object being read and of shared objects being read (proved to agree with `Model/Binary.lean` in everything else: `C75_same_outcome`); `Spec/BinExceptions.lean`: `BinReads`, `BinThrows` and sequences of these | validity: the soundness proof of C32 repeated with a postcondition for exceptions; decomposition theorems per type by inversion; objects existing before: the heap before is a prefix of the heap after (induction on the budget) |
| C76 | Retrying / reusing an object when reading binary data: contents differing only in what is replaced (`Spec/BinRetry.lean`) have the same outcome; what an aborted read leaves differs only in what is replaced | relational induction over the recursion budget of `read` (`retry_read`), invariant of `readX` (`leaves_readX`), induction over the history of attempts; limits by concrete counterexamples |
| C77 | `Model/CMake.lean`: the function `add_reflection_generator_invocation` (argument parsing, generator expressions over arbitrary property values, commands, output lists), linked to `Model/Cli.lean`; `Spec/CMake.lean` describes lists, false constants and the options expected per target | splitting/joining at semicolons (uniqueness of parts from C51), induction over argument sections, commands and order of execution |
| C78 | `Spec/OutputSize.lean`: `Val.footprint` (constant per node plus string lengths), members written per class as a relation over the hierarchy. Bounds for `write`/`push`/the text writer; exponential families as limits. | Potential argument: bytes written plus the size of objects not yet written never exceeds the budget (`Lemmas/BinSize.lean`), induction on the recursion budget; explicit families for the lower bounds. |
| C79 | `Spec/Sessions.lean`: a session is a list of calls, each with its own heap (the program changes objects in between); `FirstContents` relates the calls to the contents at the time of the first write. | A call depends only on the contents of the objects it records (`write_congr_recorded`, by the closure principle for `write`), so the session equals one on an unchanging heap; then C30. Limits via C34/C33. |
| C80 | `Spec/Ownership.lean`: addresses are positions in the growing heap; objects created by a call are those between the lengths before and after. | Prefix invariant of the heap (`Lemmas/ReadXHeap.lean`) and a provenance invariant for every address in values, table and new objects (`Lemmas/Provenance.lean`), by induction on the recursion budget for the model with exceptions (`Model/ReadX.lean`). |
| C81 | `Spec/GenLocality.lean`: `ClassView` lists what the text for one class may depend on; header and footer as literal text; `UnrelatedAdded`, `BasesReordered` describe edits of a translation unit. | The characterisation of the classes found (`Lemmas/GenClasses.lean`) turns the generators into header ++ blocks ++ footer with a block function of `ClassView`; the edits are shown to keep views, using one-definition and basesFirst. A concrete pair of translation units shows the dependence on the order of definitions. |
| C82 | `Spec/Formats.lean`: the iteration order of hashed containers does not depend on addresses. Objects and their copies: `GraphCopy` (C27); trees: `Unfold` (C24). | `Lemmas/PushRename.lean`: `push` commutes with renaming addresses, by induction on the recursion budget (so also for cyclic graphs, where both sides run out of any budget); composed with C27, C24, C52 and C65. |
| C83 | `Spec/ErrorHistory.lean`: calls of `fromJson` one after another, each with the errors object as left by the previous one and the caller's flags; `SameFault` relates errors up to inherited parts of the location. | Two runs of `pull` with different errors objects are related by the closure principle of `Lemmas/PullClosed.lean`; a second invariant says that an exception leaves the context at the place of the thrown error; histories by induction. |
| C84 | `Model/PushInto.lean`: all overloads of `push` with the target array or object threaded through the calls, as in the code; named and iterator based `pull`. `Spec/RapidJsonLevel.lean`: sequences of calls. | Refinement: by induction on the recursion budget the threaded version equals appending what `Model/Push.lean` returns (`pushInto_eq`); the rest follows from C57 (representation) and C01 (round trip) by induction on the sequence of calls. |
| C85 | class code whose members have equal names in several classes of a hierarchy; `FirstOfName`: first member written of a name | the proof of the class case of C01 with names replaced by keys; C03 and C53 for arbitrary types |
| C86 | two environments differing in `iter`/`iterKV` only (`SameExceptOrder`), documents compared up to permutations at any depth (`SameUpToOrder`) | reading does not use `iter`: the environment with other orders is rewritten away by induction over the depth; hence C01/C27 between processes; writing by induction with permutations carried through `Forall₂`, for multimaps via the grouping of C17 |
| C87 | two processes: `SameExceptOrder`, `GraphCopy` (same graph at other addresses); `WithoutHashed`/`WithoutSharedPtr`: types an object consists of; `Renders`: data with gaps for addresses | JSON: `push` without hashed containers ignores the order, then C82's renaming lemma; binary: relational induction over `write` (bytes equal, bytes permuted, or rendered from the same pieces); the address is read off with the reader's own functions |
| C88 | serializer state = output and addresses seen, also after exceptions (`Res.exc` carries the state) | the induction of C87 (`write_tmpl`) with further addresses in the state which the value does not reach; pointers via C34/C33 |
| C89 | state of the deserializer = input, table of identifiers, objects, all arbitrary | `Pair` (writer and reader in lockstep, as for C27) relative to the number of objects the deserializer already has; induction on the records |
| C90 | two programs (environments, heaps) with different types | content defined by six views on objects (`Spec/TypeChange.lean`), each of which determines the representation (C57); induction on `SameContent`; reading via C01 and C52 of the new program |
| C91 | two programs (environments, heaps) with different types | the parts of the two objects agree when unfolded according to the table of C60 (`Agree`, induction on `SameBinary`); induction on `Layout` for shared objects; reading via C27 of the other program |
| C92 | pairs of object graphs in two processes | reading the common output yields both contents (C01, C27; reading is independent of the process, C86); object graphs with a common copy are copies of each other; converse from C24/C87 |
| C93 | attempts to read prefixes of the input, then the whole input | reading prefixes agrees with reading the whole (C30); assigning members of an object as a list of updates: the updates of an aborted attempt are a prefix (of keys) of those of the complete one; inserting into sets and maps is idempotent |
| C94 | records appended to a file by serializers of their own, of which a prefix survives a crash | induction over the records: a record within the prefix is restored as for C89 (fresh copies), the first which is not throws eof (C31); what has been consumed is the concatenation of the complete records (framing, C30) |
| C95 | files with one printed document per line; `std::getline` as a small specification | no control characters in printed documents (C52) so lines are determined; a cut keeps whole lines plus a prefix of the next, which is rejected by C64 unless complete; round trip of C52 |
| C96 | reading several documents into one object, `Layers` | reading an object is a sequence of reads of members (bases flattened); reads of different members commute, so the reads of a member from both documents can be brought together and replaced by one |

## Trusted base

1. **Lean's kernel** (4.33.0) and the elaborator only as far as it produces what the kernel checks.
2. **Axioms.** Every theorem listed in MANIFEST.json depends on a subset of `propext`, `Classical.choice`, `Quot.sound`
   (checked with `#print axioms`). No axiom is added; no `native_decide`/`bv_decide`.
3. **The transcription** of the C++ code into `lean/Verif/Model/*` (by hand; each definition cites file and lines).
4. **The specifications** `lean/Verif/Spec/*` and the statements themselves.
5. **The environment** (`Env`, `Dbl` hypotheses, see below): things outside this repository, assumed to satisfy only what the
   theorems list as hypotheses.

## What is modelled, file by file

| file | modelled | not modelled |
|------|----------|--------------|
| lib/json/reflector.h | all `push` and `pull` overloads, `toJsonDocument`, `toJson`, `fromJson`, `serializeJsonDocToString`, `parseJsonDocFromString`, `rapidJsonSize` | allocator (memory exhaustion of RapidJSON), (the overloads adding to arrays and objects are modelled twice, see C84). Overload resolution and ill-formed calls are a model of their own (C62, `Model/Dispatch.lean`); in the models of `push`/`pull`/`read`/`write` unsupported types are the outcome `stuck` |
| lib/json/errorhandling.h, errorformatting.h | error list, kinds, context (record, member, index), throwing rules, formatting | `std::ostream` details |
| lib/json/serializable.h | the member functions as the free functions they call | macros |
| lib/json/reflector-chronoutilities.h | `DateTime`, `TimeSpan` | ISO printing/parsing itself (parameter with hypotheses) |
| lib/json/reflector-boosthana.h, lib/binary/reflector-boosthana.h | as class code without bases, version and record (C63, `Model/Hana.lean`) | Boost.Hana itself; that the binary version returns 0 and not the version passed |
| lib/binary/reflector.h | all `read`/`write` of `BinaryDeserializer`/`BinarySerializer`, variable length sizes, pointer tables | c++utilities' `BinaryReader`/`BinaryWriter` (modelled after their documentation; failing streams in `Model/Stream.lean`, C68/C69) |
| lib/binary/serializable.h, lib/versioning.h | version prefix, `assertVersion`, `toBinary`/`fromBinary`, `restoreBinary` | - |
| lib/traits.h | all traits, as conditions on C++ types incl. user-defined containers and `TREAT_AS` macros (C62); in the models of the reflectors: the (closed) universe `Ty` of types | C arrays, unions, member pointers, cv-qualifiers, ADL-found user overloads |
| generator/serializationcodegenerator.cpp, jsonserializationcodegenerator.cpp, binaryserializationcodegenerator.cpp, codegenerator.cpp | collecting of classes, relevance, bases, member filters, guards, emitted text | clang's AST itself (abstract input: declarations with the facts the generator asks for) |
| generator/consumer.cpp, frontendaction.cpp, visitor.cpp, codefactory.cpp, main.cpp | diagnostics filter, traversal order, clang arguments, choice of generators, exit codes | clang, file system |
| lib/cmake/modules/ReflectionGenerator.cmake | lines 70-225 (C77, `Model/CMake.lean`) | CMake itself (lists, `if`, generator expressions, `cmake_parse_arguments` are modelled after its documentation); detection of the generator and of Clang's resource directory (1-68) |
| moc generator, tests, other CMake files | - | yes |

Simplifications that matter for reading the theorems:

* Integers, sizes and text are mathematical (with explicit range checks where the C++ code depends on width); memory is
  unbounded except for the explicit limit at which `resize` throws; the call stack is unbounded (a document nested more
  deeply than the C++ stack permits is not represented).
* `Val` is a tree; sharing is represented by heap addresses (`ptr`) only for `std::shared_ptr` (binary) and in the heap of
  JSON push (C24).
* `std::unordered_*` are lists with an arbitrary order (a parameter), `std::set`/`std::map` are sorted by a parameter `lt`.

## External parameters (`Env`) and where their laws are assumed

* `lt` (ordering of set elements): strict weak order on the elements at hand (`WeakOrderOn`), assumed by C09, C37, C54, C55, C56, C01/C27
  for sets.
* `dtParse`/`dtShow`, `tsParse`/`tsShow`: printing then parsing gives the value back; assumed by C25/C01 only.
* `Dbl` (text of a double): printing then parsing gives the value back; assumed by C52's value round trip only
  (`C52_value_round_trip`); RapidJSON's default parser does *not* guarantee it, see findings.
* IEEE conversions are concrete (`Model/Ieee.lean`), not parameters.
* class code (`cls`): what the generated code does for a class; `Gen.C43`-`C49`/GeneratorLink prove that the code the
  generator emits is such class code.

Every such hypothesis is shown satisfiable by the concrete environments in `Demo.lean`/`DemoGen.lean`/`ConformDemo`.

## Findings (behaviour of the code the model exposes; proved as theorems where noted)

1. Strings and map keys are cut at the first NUL on reading (C02); map keys are also cut on writing, so keys can collide.
   Strings are clamped to 2^32-1 bytes.
2. A duplicate item of a set with `errors == nullptr` dereferences the null pointer (undefined behaviour).
3. A mismatching item of a set of scalars inserts an indeterminate value (undefined behaviour).
4. Numbers out of range: undefined behaviour; 8-bit integers (and enums) wrap silently (C14).
5. Maps (JSON and binary) and binary sets accumulate: old content is kept (C16). A reused element of a binary
   `vector<map>` accumulates as well.
6. Nested nullables collapse (`optional<optional<T>>`, C15).
7. Names of map keys in the document are borrowed from the map, which must outlive it (C19).
8. `expectedType` is misreported for pairs, tuples and multimaps (C20).
9. Errors in variants are never fatal.
10. The index in the error context is lost after a nested array (C12); the context is not restored when throwing.
11. `DateTime`/`TimeSpan` continue after a type mismatch.
12. Members of indirect base classes are emitted repeatedly, 2^(n-1) times for the root of a chain (C45).
13. Base classes found only in included headers are silently not serialized (C44).
14. The version is dropped when going through builtin containers (C39).
15. A nested versioned class with a lower maximum version fails to read (C40).
16. `toBinary(version != 0)` of a class with a base that depends on the version is misread (C41).
17. Two `shared_ptr`s with the same address but different types make reading throw.
18. `toJson` cuts the text off at the first NaN/Inf (C52); the help text of `-g` says "all generators" but only JSON is the
    default (C51); `fromBinary` for versioned types does not compile; `fromJson<double>("5")` is a type mismatch;
    `fromJson<std::set<...>>` does not compile.
19. A valueless variant is `null` in JSON; its binary form is not readable.
20. A binary set of a class with a version-guarded uninitialised member copies an indeterminate value.
21. Unnamed bit-fields and anonymous members give generated code that does not compile.
22. Adaptions match by qualified name only; an adapted class that also inherits the template loses its version prefix.
23. Static flags in `makeClangArgs` capture the first factory's application path.
24. An unknown generator name leaves the output file truncated; on a failed run the output was written already; duplicate
    names emit the code twice.
25. 2^32 errors wrap the counters.
26. Generated read code emits padding for skipped private members.
27. Everything after a NUL byte in a JSON text is ignored; RapidJSON's default number parsing is not full precision.
28. Overloads (C62): a `std::variant` within a `std::optional` or smart pointer can be read from JSON but not written, because the
    overload of `push` for variants is declared after the one for pointers and not found there (two-phase lookup);
    `toJson(std::string)` and `toJson(const char *)` are admitted by the declaration but do not compile, as `toJsonDocument` can not
    deduce its template argument; `toJsonDocument<std::string_view>` is ambiguous (`IsArray` does not exclude string views) and
    `toJson(std::string_view)` uses the overload for arrays; `fromJson<std::string_view>` compiles but never accepts anything;
    `std::array`, `std::forward_list` can be written to JSON but not read, `std::string_view` can be written to binary but not read,
    `std::forward_list` can be read from binary but not written; `std::vector<bool>` can be written but not read; `std::weak_ptr`,
    `std::tuple<>`, 16-bit integers, `char` and `long long` are not supported by JSON although their type traits admit them; maps with
    `std::string_view`, `const char *` or `bool` keys can be read from JSON (the former two would dangle).
29. (C65) Reading into a `std::optional<std::string_view>` (or any `string_view`) checks the JSON type only, and the value read is
    an empty view; written again it is `null`, so the optional is lost. Numbers beyond the range of `float` are read as infinity
    without an error; the text written for it is not JSON.
30. (C66) Integers read into a `float` are rounded twice (to `double` first): 2^60 + 2^36 + 1 becomes 2^60 although 2^60 + 2^37 is
    nearer. `fromJson<float>` accepts a document which is just a number only up to 3.4028234e38, so the text written for the biggest
    `float` (3.40282347e38) is rejected as type mismatch.
31. (C67) A member with `until_version` is read from an old stream but lost (and possibly uninitialised) when the object is saved with the
    default version and loaded again. A member added with `as_of_version` which the constructor does not initialise makes saving an object
    read from an old stream undefined behaviour.
32. (C68) With default settings of the stream (no exceptions), truncated input is read silently as whatever the buffer contains; a
    truncated list linked by `std::unique_ptr` recurses without end if the last byte read was a non-zero flag. The library never checks
    the stream, so callers have to enable exceptions (as the tests do) or check `fail()`, the latter not being enough for recursive types.
33. (C70) Reading has no limit for nesting: a linked list of k items (k + 1 bytes) takes more than 2k nested calls, so untrusted input of
    some 100 kB may overflow the stack. A vector (or multiset) of objects which take no byte (classes without members) is read with any
    number of elements from at most 9 bytes. Vectors and strings are resized before their elements are read, so 9 bytes can make the
    library allocate whatever `max_size()`/the allocator permits even if the input ends there.
34. (C57) `toJsonDocument<const char *>(nullptr)` is undefined behaviour, whereas a null C-string as member is serialised as `null`.
35. (C71) `toBinary(stream, version)` is not able to produce data for an older program if a versioned class whose version has been increased
    is contained in a vector, optional, pointer, etc.: the version does not reach the elements, they are written in the newest version.
36. (C73, C45) If a class lists an indirect base besides the direct one (which generated code does), the members of the indirect base are
    read and written twice, and if they own objects of that class, this happens on each level: a chain of k objects is written as a document
    of size at least 2^k, and a document of size O(k) can make an object of size 2^k and 2^(k+1) errors.
37. (C74) An exception thrown while reading JSON leaves the object partially read (basic guarantee only): previous contents of arrays, pointers
    etc. are lost. Reading the same document again into it is fine unless multimaps are involved: their entries are there twice then.
38. (C75) An exception thrown by `restoreFromBinary` leaves the object partially read: vectors are truncated or extended to the announced length
    before any element is read, and sets/maps are a mix of old and new elements (they are not cleared before reading, see C37), so
    another attempt does not give the same result as a first attempt.
39. (C76) Retrying `restoreFromBinary` with the same object after an exception is not safe if the object contains sets, maps or members
   guarded by versions: entries of the failed attempt remain (multisets/multimaps get duplicates even when retrying with the same data),
   and members read by the failed attempt survive a successful attempt with an older version. Otherwise retrying is equivalent to a first attempt.
40. (C77) `ReflectionGenerator.cmake`: the keyword for the visibility of binary serialisers is misspelled (`BINARY_VISBILITY`), so
    `BINARY_VISIBILITY x` adds two input files, classes or whatever list was given before; there is no way to specify `--binary-classes`.
41. (C77) `$<BOOL:…>` is applied to whole lists, so a target whose only definition is e.g. `N` or `NO` (or whose last include directory ends
    with `-NOTFOUND`) contributes nothing.
42. (C77) Input files with the same name up to the first dot (e.g. `a/foo.h` and `b/foo.bar.cpp`) get the same output file; `COMPILE_FLAGS` is a
    space separated string but passed as one argument; if `GENERATORS` is not specified, `--generators` is passed without values, so nothing
    is generated (the tool's default applies only without the option); a directory given via `OUTPUT_DIRECTORY` is not created.
43. (C78, C45) Data of classes with an indirect base class grows exponentially with the length of an ownership chain through a member of that base,
    in both formats; JSON documents also grow exponentially with sharing (the binary format does not).
44. (C79) `BinarySerializer` remembers addresses but does not keep the objects alive (reflector.h 118, 280): if an object is destroyed while the
    serializer is still in use and its address is reused, a pointer to the new object is written as a reference to the old one; with another
    pointee type the data can not be read at all although writing succeeded.
45. (C81) In generated code, bases are handled in the order in which the base classes are *defined* in the translation unit, not in the order of
    the base specifiers (serializationcodegenerator.cpp 124-134). Moving the definition of a base class (e.g. reordering two headers) silently
    changes the binary format of classes derived from several serializable classes.
46. (C83) A fatal error leaves `currentRecord`, `currentMember` and `currentIndex` of the errors object at its own location (errorhandling.h
    207-213; reflector.h 982-996 restore them only on normal return). If the object is used for a further `fromJson` call, errors about the
    document as a whole, and errors within arrays of scalars, are attributed to that record, member and index.
47. (C84) `JsonSerializable::push(container)` and `push(container, name)` (lib/json/serializable.h 43-54) can not be instantiated: there is no
    overload of `JsonReflector::push` without an allocator. Pushing a value under a name which is already in use appends a second
    member of that name, which is never read.
48. (C85) A member hiding one of a base of the same name is silently overwritten with the value of the base's member by a JSON round trip: the
    generated code writes both under the same name and reads both from the first one. The generator does not warn.
49. (C87) Binary data contains the addresses of shared objects (reflector.h 278, 286-290): it discloses them to whoever gets the data and the
    data of equal object graphs differs from run to run.
50. (C88) `alreadyWritten = true` is set before the object is written (reflector.h 291-294; necessary for cycles) and not reset if that throws:
    trying again with the same serializer writes a dangling reference without any error.

## Checking the model against the repository's own tests

The model was written by reading the code; the project can not be built here. As evidence that it behaves like the code, the unit
tests of the repository were transcribed: all test cases of lib/tests/binaryreflector.cpp, binaryreflector-boosthana.cpp,
jsonreflector.cpp, jsonreflector-boosthana.cpp, jsonreflector-chronoutilities.cpp and traits.cpp (static assertions) and of
generator/tests/binarygenerator.cpp and jsongenerator.cpp, with the expected bytes, texts, objects and errors as in the tests
(`Verif/Props/RepoTests.lean`, `RepoTestsJson.lean`, `RepoTestsGen.lean`; `GeneratorExamples.lean` for the reference output of the
generator). For jsongenerator.cpp the modelled generator is run on structs.h/morestructs.h and the modelled reflectors use the
functions it emits. All of them hold of the model (evaluated by the kernel). Not covered by this: the offset of a parse error
(testHandlingParseError; offsets are not modelled) and running the actual executable (testCLI). These are tests of the model, not
properties; they are not listed in MANIFEST.json.

## Testing the theorems against wrong programs

`seeded/LOG.jsonl` has one line per edit of the model (in a scratch copy), with the theorems that failed. An edit whose claim
still proves was treated as a defect of the statement, which was then tightened (recorded in the line).
