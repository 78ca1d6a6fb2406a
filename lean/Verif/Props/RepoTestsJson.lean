import Verif.Props.RepoTests

/-!
# The expectations of the repository's own unit tests: reading JSON

See `Verif.Props.RepoTests`.
-/

namespace Verif.RepoTests

/-! ## lib/tests/jsonreflector.cpp -/

/-- the elements of an array given as text -/
def elements (json : List String) : List Json :=
  match textParser dbl (txt json) with
  | .ok (.arr js) => js
  | _ => []

/-- `JsonReflector::pull(x, array, &errors)` for variables with the specified types and initial values and the consecutive elements
of the array; all errors go to the same object -/
def pullAll : List (Ty × Val) → List Json → PM (List Val)
  | (t, v) :: l, j :: js => do
    let a ← pull env 8 t j v
    let as ← pullAll l js
    pure (a :: as)
  | _, _ => pure []

def pulls (l : List (Ty × Val)) (json : List String) (vs : List Val) (errs : List Err) : Bool :=
  match pullAll l (elements json) (some ErrSt.init) with
  | .ok as (some st) => Val.eqbL as vs && decide (st.errs = errs)
  | _ => false

def primitives : List String := ["[\"a\", 5, 5.0,", " 5e6, 4, \"test\",", " true, 4.125,", " false]"]

/-- testDeserializePrimitives (411-444) -/
theorem json_read_primitives : pulls
    [(.str, S ""), (tInt, .int 0), (tInt, .int 0), (.f32, .f32 0), (.f32, .f32 0), (.str, S ""), (.bool, .bool false), (.f64, .f64 0),
      (.bool, .bool true)] primitives
    [S "a", .int 5, .int 5, .f32 0x4A989680, .f32 0x40800000, S "test", .bool true, .f64 0x4010800000000000, .bool false] [] = true := by
  decide +kernel

/-- testDeserializePrimitives (446-463): the array as tuples, the last one with a wrong size -/
def tupleOutcome (ts : List Ty) (v : Val) (kinds : List ErrKind) : Bool :=
  match pull env 8 (.tuple ts) (.arr (elements primitives)) (env.valInit (.tuple ts)) (some ErrSt.init) with
  | .ok a (some st) => a.eqb v && decide (st.errs.map Err.kind = kinds)
  | _ => false

theorem json_read_tuples :
    tupleOutcome [.str, tInt, tInt, .f32, .f32, .str, .bool, .f64, .bool]
      (.tup [S "a", .int 5, .int 5, .f32 0x4A989680, .f32 0x40800000, S "test", .bool true, .f64 0x4010800000000000, .bool false]) [] = true ∧
    tupleOutcome [.str, tInt] (.tup [S "", .int 0]) [.arraySizeMismatch] = true := by decide +kernel

/-- testDeserializeSimpleObjects (468-503) -/
theorem json_read_simple_objects : parsed (.cls 3)
    ["{\"number\":42,", "\"number2\":3.141592653589", "793,\"numbers\":", "[1,2,3,4],\"text\":", "\"test\",\"boolean\":", "false,\"someMap\":", "{\"a\":1,\"b\":2},", "\"someHash\":{", "\"c\":true,\"d\":", "false},\"someMultimap\":", "{\"a\":[1,2],\"b\":", "[3]},\"someMultiHash\":", "{\"a\":[4,5],\"b\":", "[6]},\"someSet\":", "[\"a\",\"b\"],\"someMultiset\"", ":[\"a\",\"a\"],\"someUnordere", "dSet\":[\"a\",\"b\"],", "\"someUnorderedMultiset\":", "[\"a\",\"a\"],\"someVariant\":", "{\"index\":0,\"data\":", "null},\"anotherVariant\":", "{\"index\":0,\"data\":", "\"foo\"},\"yetAnotherVarian", "t\":{\"index\":", "1,\"data\":42}}"]
    (mk objJson [.int 42, .f64 pi, ints [1, 2, 3, 4], S "test", .bool false, entries [("a", .int 1), ("b", .int 2)],
      entries [("c", .bool true), ("d", .bool false)], entries [("a", .int 1), ("a", .int 2), ("b", .int 3)],
      entries [("a", .int 4), ("a", .int 5), ("b", .int 6)], strs ["a", "b"], strs ["a", "a"], strs ["a", "b"], strs ["a", "a"],
      .alt 0 .mono, .alt 0 (S "foo"), .alt 1 (.int 42)]) [] = true := by decide +kernel

def nestingText : List String := ["{\"name\":\"nesting\",", "\"testObj\":{\"number\":", "42,\"number2\":", "3.141592653589793,", "\"numbers\":[1,", "2,3,4],\"text\":", "\"test\",\"boolean\":", "false}}"]
def arrayText : List String := ["{\"name\":\"nesting2\",", "\"testObjects\":", "[{\"number\":42,", "\"number2\":3.141592653589", "793,\"numbers\":", "[1,2,3,4],\"text\":", "\"test\",\"boolean\":", "false},{\"number\":", "43,\"number2\":", "3.141592653589793,", "\"numbers\":[1,", "2,3,4],\"text\":", "\"test\",\"boolean\":", "false}]}"]

/-- testDeserializeNestedObjects (508-554) and the beginning of testHandlingTypeMismatch (644-649) -/
theorem json_read_nested_objects :
    parsed (.cls 4) nestingText (mk nestingJson [S "nesting", simple 42 "test"]) [] = true ∧
    parsed (.cls 5) arrayText (mk arrayJson [S "nesting2", .list [simple 42 "test", simple 43 "test"]]) [] = true ∧
    parsed (.vec (.cls 3)) ["[{\"number\":42,", "\"number2\":3.141592653589", "793,\"numbers\":", "[1,2,3,4],\"text\":", "\"test\",\"boolean\":", "false,\"someMap\":", "{},\"someHash\":", "{}}]"] (.list [simple 42 "test"]) [] = true := by decide +kernel

/-- testDeserializeUniquePtr (559-579) -/
theorem json_read_unique_ptr : pulls [(.uptr .str, .null), (.uptr .str, .null), (.uptr (.cls 3), .null)]
    ["[\"foo\",null,", "{\"text\":\"bar\"}]"]
    [.ptr (S "foo"), .null, .ptr (mk objJson ([.int 0, .f64 0, ints [], S "bar", .bool false] ++ rest))] [] = true := by
  decide +kernel

/-- testDeserializeSharedPtr (581-601) -/
theorem json_read_shared_ptr : pulls [(.sptr .str, .null), (.sptr .str, .null), (.sptr (.cls 3), .null)]
    ["[\"foo\",null,", "{\"text\":\"bar\"}]"]
    [.ptr (S "foo"), .null, .ptr (mk objJson ([.int 0, .f64 0, ints [], S "bar", .bool false] ++ rest))] [] = true := by
  decide +kernel

/-- testDeserializeOptional (603-617) -/
theorem json_read_optional : pulls [(.opt .str, .some (S "foo")), (.opt .str, .null)] ["[\"foo\",null]"]
    [.some (S "foo"), .null] [] = true := by decide +kernel

/-- testHandlingParseError (622-633): `kParseErrorValueInvalid` (offsets are not modelled) -/
theorem json_parse_error : throws (.cls 4)
    ["{\"name\":nesting\",", "\"testObj\":{\"number\":", "42,\"number2\":", "3.141592653589793,", "\"numbers\":[1,", "2,3,4],\"text\":", "\"test\",\"boolean\":", "false}}"] ErrSt.init = some (.parse ⟨3, 0⟩) := by
  decide +kernel

/-- an error -/
def err (k : ErrKind) (expected actual : JType) (record member : String) (index : Nat := noIndex) : Err :=
  ⟨k, expected, actual, some (lit record), some (lit member), index⟩

def notAnObject : List String := ["{\"name\":[],\"testObj\":", "\"this is not an object\"}"]

/-- testHandlingTypeMismatch (650-711). The index of the errors about duplicates is not checked by the test. -/
theorem json_type_mismatch :
    errorsOf (.cls 4) ["{\"name\":\"nesting\",", "\"testObj\":{\"number\":", "\"42\",\"number2\":", "3.141592653589793,", "\"numbers\":[1,", "2,3,4],\"text\":", "\"test\",\"boolean\":", "false,\"someSet\":", "[\"a\",\"a\"],\"someMultiset\"", ":[\"a\",\"a\"],\"someUnordere", "dSet\":[\"a\",\"a\"],", "\"someUnorderedMultiset\":", "[\"a\",\"a\"]}}"] =
      some [err .typeMismatch .number .string "TestObject" "number",
        err .unexpectedDuplicate .array .array "TestObject" "someSet" 1,
        err .unexpectedDuplicate .array .array "TestObject" "someUnorderedSet" 1] ∧
    errorsOf (.cls 4) ["{\"name\":\"nesting\",", "\"testObj\":{\"number\":", "42,\"number2\":", "3.141592653589793,", "\"numbers\":1,", "\"text\":\"test\",", "\"boolean\":false}}"] =
      some [err .typeMismatch .array .number "TestObject" "numbers"] ∧
    errorsOf (.cls 4) notAnObject =
      some [err .typeMismatch .string .array "NestingObject" "name",
        err .typeMismatch .object .string "NestingObject" "testObj"] ∧
    errorsOf (.cls 5) ["{\"name\":\"nesting2\",", "\"testObjects\":", "[25,{\"number\":", "42,\"number2\":", "3.141592653589793,", "\"numbers\":[1,", "2,3,4],\"text\":", "\"test\",\"boolean\":", "false},\"foo\",", "{\"number\":43,", "\"number2\":3.141592653589", "793,\"numbers\":", "[1,2,3,4,\"bar\"],", "\"text\":\"test\",", "\"boolean\":false}]}"] =
      some [err .typeMismatch .object .number "NestingArray" "testObjects" 0,
        err .typeMismatch .object .string "NestingArray" "testObjects" 2,
        err .typeMismatch .number .string "TestObject" "numbers" 4] ∧
    throws (.cls 4) notAnObject { ErrSt.init with throwOn := 1 } =
      some (.err (err .typeMismatch .string .array "NestingObject" "name")) := by decide +kernel

/-! ## lib/tests/jsonreflector-boosthana.cpp -/

def simpleHana (n : Int) : Val := mk objHana [.int n, .f64 pi, ints [1, 2, 3, 4], S "test", .bool false]

/-- testSerializeSimpleObjects (84-94) and testSerializeNestedObjects (99-124); testDeserializeSimpleObjects (129-139) and
testDeserializeNestedObjects (144-173): reading yields the objects written -/
theorem hana_json :
    textOf (.cls 6) (simpleHana 42) = some (txt ["{\"number\":42,", "\"number2\":3.141592653589", "793,\"numbers\":", "[1,2,3,4],\"text\":", "\"test\",\"boolean\":", "false}"]) ∧
    textOf (.cls 7) (mk nestingHana [S "nesting", simpleHana 42]) = some (txt nestingText) ∧
    textOf (.cls 8) (mk arrayHana [S "nesting2", .list [simpleHana 42, simpleHana 43]]) = some (txt arrayText) ∧
    parsed (.cls 6) ["{\"number\":42,", "\"number2\":3.141592653589", "793,\"numbers\":", "[1,2,3,4],\"text\":", "\"test\",\"boolean\":", "false}"] (simpleHana 42) [] = true ∧
    parsed (.cls 7) nestingText (mk nestingHana [S "nesting", simpleHana 42]) [] = true ∧
    parsed (.cls 8) arrayText (mk arrayHana [S "nesting2", .list [simpleHana 42, simpleHana 43]]) [] = true := by decide +kernel

/-- testHandlingTypeMismatch (178-255): the record is not known -/
theorem hana_type_mismatch :
    errorsOf (.cls 7) ["{\"name\":\"nesting\",", "\"testObj\":{\"number\":", "\"42\",\"number2\":", "3.141592653589793,", "\"numbers\":[1,", "2,3,4],\"text\":", "\"test\",\"boolean\":", "false}}"] =
      some [err .typeMismatch .number .string "[document]" "number"] ∧
    errorsOf (.cls 7) ["{\"name\":\"nesting\",", "\"testObj\":{\"number\":", "42,\"number2\":", "3.141592653589793,", "\"numbers\":1,", "\"text\":\"test\",", "\"boolean\":false}}"] =
      some [err .typeMismatch .array .number "[document]" "numbers"] ∧
    errorsOf (.cls 7) notAnObject =
      some [err .typeMismatch .string .array "[document]" "name",
        err .typeMismatch .object .string "[document]" "testObj"] ∧
    errorsOf (.cls 8) ["{\"name\":\"nesting2\",", "\"testObjects\":", "[25,{\"number\":", "42,\"number2\":", "3.141592653589793,", "\"numbers\":[1,", "2,3,4],\"text\":", "\"test\",\"boolean\":", "false},\"foo\",", "{\"number\":43,", "\"number2\":3.141592653589", "793,\"numbers\":", "[1,2,3,4,\"bar\"],", "\"text\":\"test\",", "\"boolean\":false}]}"] =
      some [err .typeMismatch .object .number "[document]" "testObjects" 0,
        err .typeMismatch .object .string "[document]" "testObjects" 2,
        err .typeMismatch .number .string "[document]" "numbers" 4] ∧
    throws (.cls 7) notAnObject { ErrSt.init with throwOn := 1 } =
      some (.err (err .typeMismatch .string .array "[document]" "name")) := by decide +kernel

/-! ## lib/tests/jsonreflector-chronoutilities.cpp

The conversions between time and text are parameters of the model; here they are defined for the values used by the tests. -/

/-- testSerializeing (63-77) -/
theorem chrono_write : pushAll [(.dateTime, .tick 636267438811651250), (.timeSpan, .tick 117191250000)] =
    some (txt ["[\"2017-04-02T15:31:21.", "165125\",\"03:15:19.125\"]"]) := by decide +kernel

/-- testDeserializeing (82-98) -/
theorem chrono_read : pulls [(.dateTime, .tick 0), (.timeSpan, .tick 0)] ["[\"2017-04-02T15:31:21.", "165125\",\"03:15:19.125\"]"]
    [.tick 636267438811651250, .tick 117191250000] [] = true := by decide +kernel

/-- testErroHandling (103-119): the date does not exist; there is one error and the variable is left alone -/
theorem chrono_error : (match pullAll [(.dateTime, .tick 0), (.timeSpan, .tick 0)]
      (elements ["[\"2017-04-31T15:31:21.", "165125\",\"03:15:19.125\"]"]) (some ErrSt.init) with
    | .ok as (some st) => Val.eqbL as [.tick 0, .tick 117191250000] && decide (st.errs.map Err.kind = [.conversionError])
    | _ => false) = true := by decide +kernel

end Verif.RepoTests
