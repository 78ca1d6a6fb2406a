import Verif.Props.RepoTestsJson
import Verif.Spec.Generator
import Verif.Model.Dispatch

/-!
# The expectations of the repository's own unit tests: generated code, traits

The model of the code generator is run on generator/tests/structs.h and generator/tests/morestructs.h; the reflectors then use what
it emits (`generated`). See `Verif.Props.RepoTests`.
-/

namespace Verif.RepoTests

open Verif.Gen

/-! ## generator/tests/structs.h -/

def field (name : String) (t : Ty) (isConst := false) (isPublic := true) : Member := .field ⟨lit name, t, isConst, isPublic⟩

def jsonBase (name : String) : BaseSpec := ⟨some 0, lit ("ReflectiveRapidJSON::JsonSerializable<" ++ name ++ ">"), 0⟩
def binaryBase (name : String) (version := 0) : BaseSpec :=
  ⟨some 1, lit ("ReflectiveRapidJSON::BinarySerializable<" ++ name ++ ">"), version⟩

def class' (q : String) (bases : List BaseSpec := []) (members : List Member := []) (friends : List Friend := []) : Class :=
  ⟨lit q, true, bases, members, friends, true⟩

/-- The classes of structs.h (3-13) and of the included morestructs.h (14-18). -/
def structsCls (c : Nat) : Class :=
  match c with
  | 0 => class' "ReflectiveRapidJSON::JsonSerializable"
  | 1 => class' "ReflectiveRapidJSON::BinarySerializable"
  | 2 => class' "ReflectiveRapidJSON::AdaptedJsonSerializable"
  | 3 => class' "TestStruct" [jsonBase "TestStruct", binaryBase "TestStruct"]
      [field "someInt" tInt, field "someSize" (.int .u64), field "someString" .str, field "yetAnotherString" .str,
        .var (lit "staticMember") [], .var (lit "anotherStaticMember") [], field "privateString" .str (isPublic := false)]
  | 4 => class' "NestedTestStruct" [jsonBase "NestedTestStruct"]
      [.other, field "nested" (.vec (.vec (.cls 3))), field "ptr" (.uptr (.cls 3)), field "deq" (.vec .f64) (isPublic := false)]
      [⟨true, lit "ReflectiveRapidJSON::JsonReflector::push"⟩, ⟨true, lit "ReflectiveRapidJSON::JsonReflector::pull"⟩,
        ⟨false, lit "JsonGeneratorTests"⟩]
  | 5 => class' "AnotherTestStruct" [jsonBase "AnotherTestStruct", binaryBase "AnotherTestStruct"]
      [field "arrayOfStrings" (.vec .str)]
  | 6 => class' "DerivedTestStruct"
      [⟨some 3, lit "TestStruct", 0⟩, jsonBase "DerivedTestStruct", binaryBase "DerivedTestStruct"] [field "someBool" .bool]
  | 7 => class' "NonSerializable" [] [field "ignored" tInt]
  | 8 => class' "MultipleDerivedTestStruct"
      [⟨some 3, lit "TestStruct", 0⟩, ⟨some 5, lit "AnotherTestStruct", 0⟩, ⟨some 7, lit "NonSerializable", 0⟩,
        jsonBase "MultipleDerivedTestStruct"] [field "someBool" .bool]
  | 9 => class' "StructWithCustomTypes" [jsonBase "StructWithCustomTypes"] [field "dt" .dateTime, field "ts" .timeSpan]
  | 10 => class' "NotJsonSerializable" [] [field "butSerializableAnyways" .str]
  | 11 => class' "NestedNotJsonSerializable" []
      [field "asMember" (.cls 10), field "asArrayElement" (.vec (.cls 10)), field "asTupleElement" (.tuple [tInt, .cls 10])]
  | 12 => class' "OtherNotJsonSerializable" [] [field "codeIsGenerated" .str]
  | 13 => class' "ReallyNotJsonSerializable" [] [field "notSerializable" .str]
  | 14 => class' "IncludedStruct" [jsonBase "IncludedStruct", binaryBase "IncludedStruct"] [field "someInt" tInt]
  | 15 => class' "ConstStruct" [jsonBase "ConstStruct", binaryBase "IncludedStruct"]
      [field "modifiableInt" tInt, field "constInt" tInt (isConst := true)]
  | 16 => class' "PointerTarget" [binaryBase "PointerTarget"]
      [field "n" (.int .u32), field "dummy1" (.int .u64), field "dummy2" (.int .u64), field "dummy3" (.int .u64)]
  | 17 => class' "PointerStruct" [binaryBase "PointerStruct"]
      [field "s1" (.sptr (.cls 16)), field "u2" (.uptr (.cls 16)), field "u3" (.uptr (.cls 16)), field "s2" (.sptr (.cls 16)),
        field "u1" (.uptr (.cls 16)), field "s3" (.sptr (.cls 16))]
  | 18 => class' "SomeNamespace::VersionedStruct" [binaryBase "SomeNamespace::VersionedStruct, 3" 3]
      [field "a" (.int .u32), field "b" (.int .u32), .var (lit "rrjUntilVersion2") [2], field "c" (.int .u32),
        field "d" (.int .u32), .var (lit "rrjAsOfVersion3") [3], field "e" (.int .u32), field "f" (.int .u32),
        .var (lit "rrjAsOfVersion4") [4], field "g" (.int .u32)]
  | _ => ⟨[], false, [], [], [], false⟩

def node (c : Nat) (complete := true) (onlyIncluded := false) : Decl := .record ⟨c, complete, onlyIncluded, none⟩
def adapted (c : Nat) : Decl := .record ⟨2, true, false, some [.type (some c)]⟩

/-- structs.h: the included declarations, then its own ones; forward declarations of `TestStruct` (41-43) do not matter -/
def structsTU : TU where
  cls := structsCls
  decls := [14, 15, 16, 17, 18].map (node · true true) ++
    [node 3, node 3 false, node 3 false, node 3 false, node 4, node 5, node 6, node 7, node 8, node 9, node 10, node 11,
      adapted 10, adapted 11, node 12, node 13]

/-- morestructs.h as main file -/
def moreTU : TU where
  cls := structsCls
  decls := [node 14, node 15, node 16, node 17, node 18]

/-- generator/CMakeLists.txt 92-93: `JSON_CLASSES OtherNotJsonSerializable` -/
def structsJson : List Fn := functions (generateJson (jsonConfig (some [lit "OtherNotJsonSerializable"]) none) structsTU)
def structsBin : List Fn := functions (generateBinary (binaryConfig none none) structsTU)
def moreJson : List Fn := functions (generateJson (jsonConfig (some [lit "OtherNotJsonSerializable"]) none) moreTU)
def moreBin : List Fn := functions (generateBinary (binaryConfig none none) moreTU)

/-- names of the classes for which functions of the specified kind are generated -/
def namesOf (k : FnKind) (fns : List Fn) : List Str := (fns.filter fun f => decide (f.kind = k)).map Fn.qname

/-- Code is generated for the classes of the file itself (structs.h 4-6 and morestructs.h 18-27, 32-34; the comments of the test
structs): those which derive from the templates, those adapted via macro and the one specified via CMake. -/
theorem generated_classes :
    namesOf .push structsJson = ["TestStruct", "NestedTestStruct", "AnotherTestStruct", "DerivedTestStruct",
      "MultipleDerivedTestStruct", "StructWithCustomTypes", "NotJsonSerializable", "NestedNotJsonSerializable",
      "OtherNotJsonSerializable"].map lit ∧
    namesOf .pull structsJson = namesOf .push structsJson ∧
    namesOf .push moreJson = ["IncludedStruct", "ConstStruct"].map lit ∧
    namesOf .write structsBin = ["TestStruct", "AnotherTestStruct", "DerivedTestStruct"].map lit ∧
    namesOf .write moreBin = ["IncludedStruct", "ConstStruct", "PointerTarget", "PointerStruct",
      "SomeNamespace::VersionedStruct"].map lit ∧
    namesOf .read moreBin = namesOf .write moreBin := by decide +kernel

/-! ## The reflectors using the generated functions -/

/-- the class with the specified name -/
def classNamed (q : Str) : Option Nat := (List.range 19).find? fun c => (structsCls c).qname = q

def basesOf (calls : List Gen.Call) : List Nat := calls.filterMap fun
  | .base q => classNamed q
  | _ => none

def fieldsOf (c : Nat) (calls : List Gen.Call) : List Field := calls.filterMap fun
  | .member n => ((structsCls c).fields.find? fun f => f.name = n).map fun f => ⟨c, f.name, f.ty⟩
  | _ => none

/-- the calls made by the function of the specified kind for class `c` -/
def callsOf (k : FnKind) (c : Nat) (version : Nat) (fns : List Fn) : Option (List Gen.Call) :=
  (fns.find? fun f => decide (f.kind = k ∧ f.qname = (structsCls c).qname)).bind fun f => exec version f.body

/-- The code of a class according to the generated functions. -/
def jsonOf (c : Nat) (fns : List Fn) : Option JsonCode :=
  match callsOf .push c 0 fns, callsOf .pull c 0 fns with
  | some ps, some ls => some ⟨basesOf ps, fieldsOf c ps, fieldsOf c ls, true, true⟩
  | _, _ => none

/-- default member initialisers (structs.h 31-37, 71, 79, 88, 100, 109-110, 119; morestructs.h 35-36) -/
def initOf : Nat → Store
  | 3 => [((3, lit "someInt"), .int 0), ((3, lit "someSize"), .int 1), ((3, lit "someString"), S "foo"),
      ((3, lit "yetAnotherString"), S "bar"), ((3, lit "privateString"), S "not going to be serialized")]
  | 4 => [((4, lit "nested"), .list []), ((4, lit "ptr"), .null), ((4, lit "deq"), .list [])]
  | 5 => [((5, lit "arrayOfStrings"), strs ["a", "b", "cd"])]
  | 6 => initOf 3 ++ [((6, lit "someBool"), .bool true)]
  | 8 => initOf 3 ++ initOf 5 ++ [((7, lit "ignored"), .int 25), ((8, lit "someBool"), .bool false)]
  | 9 => [((9, lit "dt"), .tick 636267438811651250), ((9, lit "ts"), .tick 117191250000)]
  | 10 => [((10, lit "butSerializableAnyways"), S "useful to adapt 3rd party structs")]
  | 11 => [((11, lit "asMember"), .obj [((10, lit "butSerializableAnyways"), S "useful to adapt 3rd party structs")]),
      ((11, lit "asArrayElement"), .list []),
      ((11, lit "asTupleElement"), .tup [.int 0, .obj [((10, lit "butSerializableAnyways"), S "useful to adapt 3rd party structs")]])]
  | 15 => [((15, lit "modifiableInt"), .int 23), ((15, lit "constInt"), .int 42)]
  | _ => []

/-- the environment using the generated code -/
def generated : Env := { scalars with cls := fun c =>
  (jsonOf c (structsJson ++ moreJson)).map fun code => ⟨(structsCls c).qname, code, default, initOf c, initOf c⟩ }

/-- an object with some members changed -/
def with' (c : Nat) (l : List (ClassId × String × Val)) : Val :=
  .obj (l.foldl (fun st p => Store.set st (p.1, lit p.2.1) p.2.2) (initOf c))

def dbl' : Dbl where
  print d := if d = 0x40091EB851EB851F then lit "3.14" else []
  parse s := if s = lit "3.14" then some 0x40091EB851EB851F else none

/-- whether `toJson` yields the text and `fromJson` the object again, without errors -/
def both (c : Nat) (v : Val) (text : List String) : Bool × Bool :=
  ((match toJson generated noHeap dbl' 8 (.cls c) v () with
    | .ok s _ => decide (s = txt text)
    | _ => false),
   (match fromJsonStr generated (textParser dbl') 8 (.cls c) (txt text) (some ErrSt.init) with
    | .ok a (some st) => a.eqb v && decide (st = ErrSt.init)
    | _ => false))

/-- `test` of testIncludingGeneratedHeader (generator/tests/jsongenerator.cpp 108-115) -/
def testStruct (c : Nat) (size : Int) (l : List (ClassId × String × Val) := []) : Val := with' c
  ([(3, "someInt", .int 42), (3, "someSize", .int size), (3, "someString", S "the answer"),
    (3, "yetAnotherString", S "but what was the question")] ++ l)

def testStructText (size : String) : List String :=
  ["\"someInt\":42,", "\"someSize\":", size, ",\"someString\":", "\"the answer\",", "\"yetAnotherString\":",
    "\"but what was the ", "question\""]

/-- testIncludingGeneratedHeader (106-127) -/
theorem generated_header : both 3 (testStruct 3 0xAAAAAAAA) (["{"] ++ testStructText "2863311530" ++ ["}"]) = (true, true) := by
  decide +kernel

/-- testNesting (132-163): private members are handled because of the macro -/
theorem generated_nesting : both 4
    (with' 4 [(4, "nested", .list [.list [testStruct 3 0xAAAAAAAA]]), (4, "deq", .list [.f64 0x40091EB851EB851F])])
    (["{\"nested\":[[{"] ++ testStructText "2863311530" ++ ["}]],\"ptr\":null,", "\"deq\":[3.14]}"]) = (true, true) := by
  decide +kernel

/-- testSingleInheritence (168-193) -/
theorem generated_single_inheritance :
    both 6 (testStruct 6 5 [(6, "someBool", .bool false)]) (["{"] ++ testStructText "5" ++ [",\"someBool\":false}"]) = (true, true) ∧
    (match toJson generated noHeap dbl' 8 (.cls 3) (testStruct 6 5 [(6, "someBool", .bool false)]) () with
      | .ok s _ => decide (s = txt (["{"] ++ testStructText "5" ++ ["}"]))
      | _ => false) = true := by decide +kernel

/-- testMultipleInheritence (198-222) -/
theorem generated_multiple_inheritance :
    both 8 (testStruct 8 4294967274 [(8, "someBool", .bool false), (5, "arrayOfStrings", strs ["array", "of", "strings"])])
      (["{"] ++ testStructText "4294967274" ++ [",\"arrayOfStrings\":", "[\"array\",\"of\",", "\"strings\"],", "\"someBool\":false}"]) =
    (true, true) := by decide +kernel

/-- testCustomSerialization (227-240) -/
theorem generated_custom_types : both 9 (with' 9 [])
    ["{\"dt\":\"2017-04-02T", "15:31:21.165125\",", "\"ts\":\"03:15:19.125\"}"] = (true, true) := by decide +kernel

def third (s : String) : Val := with' 10 [(10, "butSerializableAnyways", S s)]

/-- test3rdPartyAdaption (245-291) -/
theorem generated_third_party :
    both 10 (with' 10 []) ["{\"butSerializableAnyways\":", "\"useful to adapt 3rd ", "party structs\"}"] = (true, true) ∧
    both 11 (with' 11 [(11, "asMember", third "foo"), (11, "asArrayElement", .list [third "1", third "2", third "3"]),
        (11, "asTupleElement", .tup [.int 42, third "bar"])])
      ["{\"asMember\":{", "\"butSerializableAnyways\":", "\"foo\"},", "\"asArrayElement\":[", "{\"butSerializableAnyways\":", "\"1\"},",
        "{\"butSerializableAnyways\":", "\"2\"},", "{\"butSerializableAnyways\":", "\"3\"}],", "\"asTupleElement\":[42,",
        "{\"butSerializableAnyways\":", "\"bar\"}]}"] = (true, true) := by decide +kernel

/-- testHandlingConstMembers (297-309): the constant member is written but not read -/
theorem generated_const_members :
    both 15 (with' 15 [(15, "modifiableInt", .int 24)]) ["{\"modifiableInt\":24,", "\"constInt\":42}"] = (true, true) ∧
    (match fromJsonStr generated (textParser dbl') 8 (.cls 15) (txt ["{\"modifiableInt\":24,", "\"constInt\":43}"]) (some ErrSt.init) with
      | .ok a (some st) => a.eqb (with' 15 [(15, "modifiableInt", .int 24)]) && decide (st = ErrSt.init)
      | _ => false) = true := by decide +kernel

/-- `VersionedStruct` (morestructs.h 90-103): which members are handled in which version -/
theorem generated_versioned_struct : ∀ k ∈ [FnKind.write, FnKind.read],
    [1, 2, 3, 4].map (fun v => (callsOf k 18 v moreBin).map (fieldsOf 18)) =
      [["a", "b", "c", "d"], ["a", "b", "c", "d"], ["a", "b", "e", "f"], ["a", "b", "e", "f", "g"]].map
        fun l => some (l.map fun n => ⟨18, lit n, .int .u32⟩) := by decide +kernel

end Verif.RepoTests

/-! ## lib/tests/traits.cpp -/

namespace Verif.RepoTests

open Verif.Dispatch

abbrev tInt' : CppTy := .arith .int
/-- `Foo` is class 0, `Bar` class 1 (lib/tests/traits.cpp 9-25) -/
def isFoo : CppTy → Bool
  | .cls 0 => true
  | _ => false
def isBar : CppTy → Bool
  | .cls 1 => true
  | _ => false

def traitsProgram : Program where
  iteratable _ := false
  hasSize _ := false
  reservable _ := false
  resizable _ := false
  backInsertable _ := false
  insertable _ := false
  elem _ := tInt'
  key _ := tInt'
  mapped _ := tInt'
  complete _ := true
  derivesJson _ := false
  jsonPush _ := false
  jsonPull _ := false
  binWrite _ := false
  binRead _ := false
  jsonSpecial _ := false
  adaptedJson _ := false
  treatAsMap := isFoo
  treatAsMultiMap := isFoo
  treatAsSet := isBar
  treatAsMultiSet := isFoo
  valueRef := true

/-- the `static_assert`s about the traits (30-58) -/
theorem traits_asserts :
    isArray traitsProgram (.std .vector [tInt']) = true ∧ isArray traitsProgram (.std .list [tInt']) = true ∧
    isArray traitsProgram (.std .set [tInt']) = false ∧ isArray traitsProgram (.std .multiset [tInt']) = false ∧
    isArrayOrSet traitsProgram (.std .set [tInt']) = true ∧ isArrayOrSet traitsProgram (.std .multiset [tInt']) = true ∧
    isArrayOrSet traitsProgram (.cls 0) = true ∧ isArrayOrSet traitsProgram (.cls 1) = true ∧
    isArrayOrSet traitsProgram .string = false ∧
    isSet traitsProgram (.std .set [tInt']) = true ∧ isSet traitsProgram (.std .unorderedSet [tInt']) = true ∧
    isSet traitsProgram (.cls 1) = true ∧ isSet traitsProgram .string = false ∧
    isMultiSet traitsProgram (.std .unorderedMultiset [tInt']) = true ∧ isMultiSet traitsProgram (.cls 0) = true ∧
    isMultiSet traitsProgram .string = false ∧ isArray traitsProgram .string = false ∧
    isMapOrHash traitsProgram (.std .map [.string, tInt']) = true ∧
    isMapOrHash traitsProgram (.std .unorderedMap [.string, tInt']) = true ∧
    isMapOrHash traitsProgram (.std .vector [tInt']) = false ∧ isMapOrHash traitsProgram (.cls 0) = true ∧
    isMultiMapOrHash traitsProgram (.std .multimap [.string, tInt']) = true ∧
    isMultiMapOrHash traitsProgram (.std .unorderedMultimap [.string, tInt']) = true ∧
    isMultiMapOrHash traitsProgram (.std .vector [tInt']) = false ∧ isMultiMapOrHash traitsProgram (.cls 0) = true ∧
    isIteratableExceptString traitsProgram (.std .vector [tInt']) = true ∧
    isIteratableExceptString traitsProgram .string = false ∧
    isIteratableExceptString traitsProgram (.std .basicString [.arith .wchar]) = false := by decide +kernel

/-- the `static_assert`s about default versions (69-70) -/
theorem version_asserts : effVersion (some 3) 0 = 3 ∧ effVersion (some 3) 2 = 2 := by decide

end Verif.RepoTests
