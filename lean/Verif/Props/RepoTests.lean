import Verif.Model.Binary
import Verif.Model.Text
import Verif.Model.Hana
import Verif.Lemmas.ValEq

/-!
# The expectations of the repository's own unit tests, evaluated in the model

These are tests of the model, not properties: the outcomes which the CppUnit tests under lib/tests and generator/tests assert about
the library are shown to be the outcomes of the model. Expected bytes, texts and errors are copied from the tests.
`someHash` is iterated in reverse order because this is what testSerializeSimpleObjects expects.
-/

namespace Verif.RepoTests

/-- lexicographic comparison of byte strings (`std::less<std::string>`) -/
def strLt : Str → Str → Bool
  | [], [] => false
  | [], _ :: _ => true
  | _ :: _, [] => false
  | a :: as, b :: bs => if a < b then true else if b < a then false else strLt as bs

def stdLt : Val → Val → Bool
  | .str a, .str b => strLt a b
  | _, _ => false

/-- a member -/
def fld (c : ClassId) (name : String) (t : Ty) : Field := ⟨c, lit name, t⟩

/-- the type shared by the numbers of all test structs -/
abbrev tInt : Ty := .int .i32

/-- members of `TestObjectBinary` (lib/tests/binaryreflector.cpp 45-61) -/
def objBinary : List Field :=
  [fld 0 "number" tInt, fld 0 "number2" .f64, fld 0 "numbers" (.vec tInt), fld 0 "text" .str, fld 0 "boolean" .bool,
    fld 0 "someMap" (.map false false .str tInt), fld 0 "someHash" (.map true false .str .bool),
    fld 0 "someSet" (.set false false .str), fld 0 "someMultiset" (.set false true .str),
    fld 0 "someUnorderedSet" (.set true false .str), fld 0 "someUnorderedMultiset" (.set true true .str),
    fld 0 "someEnum" (.enum .u32), fld 0 "someEnumClass" (.enum .u16),
    fld 0 "timeSpan" .timeSpan, fld 0 "dateTime" .dateTime]

/-- members of `NestingArrayBinary` (63-66) -/
def nestingBinary : List Field := [fld 1 "name" .str, fld 1 "testObjects" (.vec (.cls 0))]

/-- members of `ObjectWithVariantsBinary` (68-72) -/
def variantsBinary : List Field :=
  [fld 2 "someVariant" (.variant [tInt, .str, .mono]), fld 2 "anotherVariant" (.variant [.str, .f32]),
    fld 2 "yetAnotherVariant" (.variant [.str, tInt])]

/-- members of `TestObject` (lib/tests/jsonreflector.cpp 46-63) -/
def objJson : List Field :=
  [fld 3 "number" tInt, fld 3 "number2" .f64, fld 3 "numbers" (.vec tInt), fld 3 "text" .str, fld 3 "boolean" .bool,
    fld 3 "someMap" (.map false false .str tInt), fld 3 "someHash" (.map true false .str .bool),
    fld 3 "someMultimap" (.map false true .str tInt), fld 3 "someMultiHash" (.map true true .str tInt),
    fld 3 "someSet" (.set false false .str), fld 3 "someMultiset" (.set false true .str),
    fld 3 "someUnorderedSet" (.set true false .str), fld 3 "someUnorderedMultiset" (.set true true .str),
    fld 3 "someVariant" (.variant [.mono, .str, tInt, .f32]), fld 3 "anotherVariant" (.variant [.str, tInt, .f32]),
    fld 3 "yetAnotherVariant" (.variant [.str, tInt, .f32])]

/-- members of `NestingObject` (65-68) and `NestingArray` (70-73) -/
def nestingJson : List Field := [fld 4 "name" .str, fld 4 "testObj" (.cls 3)]
def arrayJson : List Field := [fld 5 "name" .str, fld 5 "testObjects" (.vec (.cls 3))]

/-- members of `TestObjectHana`, `NestingObjectHana` and `NestingArrayHana` (lib/tests/jsonreflector-boosthana.cpp 31-41);
`TestObjectBinaryHana` and `NestingArrayBinaryHana` (lib/tests/binaryreflector-boosthana.cpp 31-37) have the same members -/
def objHana : List Field :=
  [fld 6 "number" tInt, fld 6 "number2" .f64, fld 6 "numbers" (.vec tInt), fld 6 "text" .str, fld 6 "boolean" .bool]
def nestingHana : List Field := [fld 7 "name" .str, fld 7 "testObj" (.cls 6)]
def arrayHana : List Field := [fld 8 "name" .str, fld 8 "testObjects" (.vec (.cls 6))]

/-- members of `TestStruct` and `DerivedTestStruct` (generator/tests/structs.h 27-86); static and private members are not visited -/
def structs9 : List Field :=
  [fld 9 "someInt" tInt, fld 9 "someSize" (.int .u64), fld 9 "someString" .str, fld 9 "yetAnotherString" .str]
def structs10 : List Field := [fld 10 "someBool" .bool]

/-- members of `PointerTarget` and `PointerStruct` (generator/tests/morestructs.h 42-77) -/
def target : List Field :=
  [fld 11 "n" (.int .u32), fld 11 "dummy1" (.int .u64), fld 11 "dummy2" (.int .u64), fld 11 "dummy3" (.int .u64)]
def pointers : List Field :=
  [fld 12 "s1" (.sptr (.cls 11)), fld 12 "u2" (.uptr (.cls 11)), fld 12 "u3" (.uptr (.cls 11)),
    fld 12 "s2" (.sptr (.cls 11)), fld 12 "u1" (.uptr (.cls 11)), fld 12 "s3" (.sptr (.cls 11))]

def guard0 (fs : List Field) : List (Guard × Field) := fs.map fun f => (⟨0, 0⟩, f)

/-- An environment without classes, for the initial values of members. -/
def scalars : Env where
  cls _ := none
  lt _ := stdLt
  iter := List.reverse
  iterKV := List.reverse
  dtPrint i := if i = 636267438811651250 then lit "2017-04-02T15:31:21.165125" else []
  dtParse s := if s = lit "2017-04-02T15:31:21.165125" then some 636267438811651250 else none
  tsPrint i := if i = 117191250000 then lit "03:15:19.125" else []
  tsParse s := if s = lit "03:15:19.125" then some 117191250000 else none
  maxLen := 1000000

/-- value-initialised members -/
def valInits (fs : List Field) : Store := fs.map fun f => (f.key, scalars.valInit f.ty)
/-- default-initialised members -/
def defInits (fs : List Field) : Store := fs.map fun f => (f.key, scalars.defInit f.ty)

/-- a struct without base classes the code for which is written by hand as in the tests (or generated) -/
def plain (name : String) (fs : List Field) : ClassInfo where
  qname := lit name
  json := ⟨[], fs, fs, true, true⟩
  bin := ⟨[], none, guard0 fs, guard0 fs, true⟩
  valInit := valInits fs
  defInit := defInits fs

/-- a struct which contains objects of another one -/
def nesting (name : String) (fs : List Field) (v d : Store) : ClassInfo :=
  { plain name fs with valInit := v, defInit := d }

def initStruct9 : Store :=
  [((9, lit "someInt"), .int 0), ((9, lit "someSize"), .int 1), ((9, lit "someString"), .str (lit "foo")),
    ((9, lit "yetAnotherString"), .str (lit "bar"))]
def initStruct10 : Store := initStruct9 ++ [((10, lit "someBool"), .bool true)]
def dummies : Store :=
  [((11, lit "dummy1"), .int 0x1111111111111111), ((11, lit "dummy2"), .int 0x1111111111111111),
    ((11, lit "dummy3"), .int 0x1111111111111111)]
def initTarget : Store := ((11, lit "n"), .int 0xAAAAAAAA) :: dummies

def classes : ClassId → Option ClassInfo
  | 0 => some (plain "TestObjectBinary" objBinary)
  | 1 => some (plain "NestingArrayBinary" nestingBinary)
  | 2 => some (plain "ObjectWithVariantsBinary" variantsBinary)
  | 3 => some (plain "TestObject" objJson)
  | 4 => some (nesting "NestingObject" nestingJson
      [((4, lit "name"), .str []), ((4, lit "testObj"), .obj (valInits objJson))]
      [((4, lit "name"), .str []), ((4, lit "testObj"), .obj (defInits objJson))])
  | 5 => some (plain "NestingArray" arrayJson)
  | 6 => some (plain "TestObjectHana" objHana)
  | 7 => some (nesting "NestingObjectHana" nestingHana
      [((7, lit "name"), .str []), ((7, lit "testObj"), .obj (valInits objHana))]
      [((7, lit "name"), .str []), ((7, lit "testObj"), .obj (defInits objHana))])
  | 8 => some (plain "NestingArrayHana" arrayHana)
  | 9 => some (nesting "TestStruct" structs9 initStruct9 initStruct9)
  | 10 => some { nesting "DerivedTestStruct" structs10 initStruct10 initStruct10 with
      json := ⟨[9], structs10, structs10, true, true⟩,
      bin := ⟨[9], none, guard0 structs10, guard0 structs10, true⟩ }
  | 11 => some (nesting "PointerTarget" target initTarget initTarget)
  | 12 => some (plain "PointerStruct" pointers)
  | _ => none

/-- The environment of the tests; the structs 6 to 8 are adapted via Boost.Hana. -/
def env : Env := viaHana { scalars with cls := classes } fun
  | 6 => some objHana
  | 7 => some nestingHana
  | 8 => some arrayHana
  | _ => none

/-! ## Helpers to build values -/

/-- a long text, cut into pieces so the kernel evaluates it faster -/
def txt (l : List String) : Str := l.flatMap lit

def S (s : String) : Val := .str (lit s)
def ints (l : List Int) : Val := .list (l.map .int)
def strs (l : List String) : Val := .list (l.map S)
/-- object with the specified member values, in order of the members -/
def mk (fs : List Field) (vs : List Val) : Val := .obj ((fs.map Field.key).zip vs)
/-- entries of a map -/
def entries (l : List (String × Val)) : Val := .map (l.map fun p => (S p.1, p.2))

def noHeap : Heap := fun _ => none

/-- the written bytes if writing succeeds -/
def bytesOf (r : Res BExc WSt Unit) : Option Str :=
  match r with
  | .ok _ s => some s.out
  | _ => none

/-- whether reading yields the specified object and leaves no input -/
def reads (r : Res BExc RSt Val) (v : Val) : Bool :=
  match r with
  | .ok a s => a.eqb v && s.inp.isEmpty
  | _ => false

def pi : BitVec 64 := 0x400921FB54442D18

/-- the floating point numbers which occur in the tests -/
def dblTable : List (BitVec 64 × String) :=
  [(pi, "3.141592653589793"), (0x4029000000000000, "12.5"), (0x4079D00000000000, "413.0"), (0x4014000000000000, "5.0"),
    (0x415312D000000000, "5e6"), (0x4010800000000000, "4.125")]

def dbl : Dbl where
  print d := ((dblTable.find? fun p => p.1 == d).map fun p => lit p.2).getD []
  parse s := (dblTable.find? fun p => lit p.2 == s).map fun p => p.1

/-- text of the JSON produced by `toJson` -/
def textOf (t : Ty) (v : Val) (H : Heap := noHeap) : Option Str :=
  match toJson env H dbl 8 t v () with
  | .ok s _ => some s
  | _ => none

/-- text of a document with one array into which values of various types are pushed -/
def pushAll (l : List (Ty × Val)) (H : Heap := noHeap) : Option Str :=
  (l.mapM fun (p : Ty × Val) => match push env H 8 p.1 p.2 () with
    | .ok j _ => some j
    | _ => none).map fun js => printDoc dbl (.arr js)

/-- result of `fromJson` -/
def parse (t : Ty) (json : List String) (errors : Option ErrSt) := fromJsonStr env (textParser dbl) 8 t (txt json) errors

/-- object and errors resulting from `fromJson` if nothing is thrown -/
def parsed (t : Ty) (json : List String) (v : Val) (errs : List Err) : Bool :=
  match parse t json (some ErrSt.init) with
  | .ok a (some st) => a.eqb v && decide (st = { ErrSt.init with errs := errs })
  | _ => false

/-- only the errors -/
def errorsOf (t : Ty) (json : List String) : Option (List Err) :=
  match parse t json (some ErrSt.init) with
  | .ok _ (some st) => some st.errs
  | _ => none

def throws (t : Ty) (json : List String) (st : ErrSt) : Option ApiExc :=
  match parse t json (some st) with
  | .exc e _ => some e
  | _ => none

/-! ## lib/tests/binaryreflector.cpp -/

/-- `m_testObj` (239-256) -/
def testObj : Val := mk objBinary
  [.int 5, .f64 0x4004000000000000, ints [1, 2, 3, 4, 5], S "some text", .bool true,
    entries [("bar", .int 19), ("foo", .int 17)], entries [], strs ["1", "2", "3"], strs ["1", "2", "2", "3"],
    .list [], .list [], .int 1, .int 2, .tick 0xABCD, .tick 0xEFAB]

/-- `m_nestedTestObj` (257-261) -/
def nestedTestObj : Val := mk nestingBinary [S "struct with nesting", .list [testObj, testObj]]

/-- `m_expectedTestObj` (195-229) -/
def expectedTestObj : Str :=
  [0x00, 0x00, 0x00, 0x05,
    0x40, 0x04, 0x00, 0x00, 0x00, 0x00, 0x00, 0x00,
    0x85,
      0x00, 0x00, 0x00, 0x01,
      0x00, 0x00, 0x00, 0x02,
      0x00, 0x00, 0x00, 0x03,
      0x00, 0x00, 0x00, 0x04,
      0x00, 0x00, 0x00, 0x05,
    0x89,
      0x73, 0x6F, 0x6D, 0x65, 0x20, 0x74, 0x65, 0x78, 0x74,
    0x01,
    0x82,
      0x83, 0x62, 0x61, 0x72, 0x00, 0x00, 0x00, 0x13,
      0x83, 0x66, 0x6f, 0x6f, 0x00, 0x00, 0x00, 0x11,
    0x80,
    0x83,
      0x81, 0x31,
      0x81, 0x32,
      0x81, 0x33,
    0x84,
      0x81, 0x31,
      0x81, 0x32,
      0x81, 0x32,
      0x81, 0x33,
    0x80,
    0x80,
    0x00, 0x00, 0x00, 0x01,
    0x00, 0x02,
    0x00, 0x00, 0x00, 0x00, 0x00, 0x00, 0xAB, 0xCD,
    0x00, 0x00, 0x00, 0x00, 0x00, 0x00, 0xEF, 0xAB]

/-- `m_expectedNestedTestObj` (230-233, 258-260) -/
def expectedNestedTestObj : Str :=
  [0x93, 0x73, 0x74, 0x72, 0x75, 0x63, 0x74, 0x20, 0x77, 0x69, 0x74, 0x68, 0x20, 0x6e, 0x65, 0x73, 0x74, 0x69, 0x6e, 0x67,
    0x82] ++ expectedTestObj ++ expectedTestObj

/-- testSerializeSimpleStruct (306-316) -/
theorem serialize_simple_struct : bytesOf (toBinary env noHeap 8 0 testObj 0) = some expectedTestObj := by decide +kernel

/-- testDeserializeSimpleStruct (318-325) -/
theorem deserialize_simple_struct : reads (fromBinary env 8 0 expectedTestObj) testObj = true := by decide +kernel

/-- testSerializeNestedStruct (327-337) -/
theorem serialize_nested_struct : bytesOf (toBinary env noHeap 8 1 nestedTestObj 0) = some expectedNestedTestObj := by
  decide +kernel

/-- testDeserializeNestedStruct (339-350) -/
theorem deserialize_nested_struct : reads (fromBinary env 8 1 expectedNestedTestObj) nestedTestObj = true := by decide +kernel

/-- testSharedPointer (367-392): a shared pointer the target of which has already been written -/
def writtenBefore (id : Nat) : Option Str := bytesOf (write env noHeap 8 0 (.sptr tInt) (.ref id) ⟨[], [id]⟩)

/-- the same data is read while the table of the deserializer contains the specified entry -/
def readBefore (id : Nat) (t : Ty) (target : Val) : Option (Res BExc RSt Val) :=
  (writtenBefore id).map fun b => read env 8 0 (.sptr tInt) .null ⟨b, [(id, t, 0)], [target]⟩

/-- `CPPUNIT_ASSERT_THROW(deserializer.read(readPtr), CppUtilities::ConversionException)` -/
def conversionThrown : Option (Res BExc RSt Val) → Bool
  | some (.exc .conv _) => true
  | _ => false

/-- the pointer read refers to an object with the specified value -/
def pointsTo (v : Val) : Option (Res BExc RSt Val) → Bool
  | some (.ok (.ref a) s) => (s.heap[a]?.map fun w => w.eqb v).getD false
  | _ => false

/-- testSmallSharedPointer (394-397) and testBigSharedPointer (399-402) -/
theorem shared_pointers : ∀ id ∈ [1, 2 ^ 64 - 1],
    conversionThrown (readBefore id .cstr (.cstr (some (lit "foo")))) = true ∧
    pointsTo (.int 42) (readBefore id tInt (.int 42)) = true := by decide +kernel

/-- testVariant (404-426) -/
theorem variants : ((bytesOf (toBinary env noHeap 8 2
      (mk variantsBinary [.alt 2 .mono, .alt 0 (S "foo"), .alt 1 (.int 42)]) 0)).map fun b =>
    reads (fromBinary env 8 2 b) (mk variantsBinary [.alt 2 .mono, .alt 0 (S "foo"), .alt 1 (.int 42)])) = some true := by
  decide +kernel

/-- testOptional (428-452): two optionals are written one after another and read back -/
theorem optionals : (bytesOf ((do
      write env noHeap 8 0 (.opt .str) (.some (S "foo"))
      write env noHeap 8 0 (.opt .str) .null : WM Unit) WSt.init)).map (fun b =>
    reads ((do
      let a ← read env 8 0 (.opt .str) .null
      let b ← read env 8 0 (.opt .str) .null
      pure (.tup [a, b]) : RM Val) (RSt.init b)) (.tup [.some (S "foo"), .null])) = some true := by decide +kernel

/-! ## lib/tests/binaryreflector-boosthana.cpp -/

/-- testSerializingAndDeserializing (68-95) -/
def hanaObj : Val := mk arrayHana [S "bar", .list [mk objHana
  [.int 42, .f64 0x4093490000000000, ints [1, 2, 3, 4, 5], S "foo", .bool true]]]

theorem hana_binary : (bytesOf (toBinary env noHeap 8 8 hanaObj 0)).map (fun b => reads (fromBinary env 8 8 b) hanaObj) =
    some true := by decide +kernel

/-! ## generator/tests/binarygenerator.cpp -/

/-- testSerializationAndDeserialization (48-66): the base class's members are written as well -/
def derivedObj : Val := .obj
  [((9, lit "someInt"), .int 25), ((9, lit "someSize"), .int 27), ((9, lit "someString"), S "foo"),
    ((9, lit "yetAnotherString"), S "bar"), ((10, lit "someBool"), .bool true)]

theorem derived_binary : (bytesOf (toBinary env noHeap 8 10 derivedObj 0)).map (fun b =>
    reads (fromBinary env 8 10 b) derivedObj) = some true := by decide +kernel

/-- a `PointerTarget` -/
def targetObj (n : Int) : Val := .obj (((11, lit "n"), .int n) :: dummies)

/-- the heap and object of testPointerHandling (76-97): `s1` and `s2` refer to the same object -/
def psHeap : Heap := fun a => if a = 100 then some (targetObj 0xF1F2F3F4) else if a = 200 then some (targetObj 0xBBBBBBBB) else none
def ps : Val := mk pointers
  [.ref 100, .ptr (targetObj 0xDDDDDDDD), .ptr (targetObj 0xEEEEEEEE), .ref 100, .ptr (targetObj 0xF1F2F3F4), .ref 200]

/-- testPointerHandling (98-121): after reading, `s1` and `s2` share one object, `s3` another one; the objects owned by the unique
pointers are restored. -/
def psRead : Option (Res BExc RSt Val) := (bytesOf (toBinary env psHeap 8 12 ps 0)).map fun b => fromBinary env 8 12 b

def psExpected : Option (Res BExc RSt Val) → Bool
  | some (.ok v s) =>
    v.eqb (mk pointers [.ref 0, .ptr (targetObj 0xDDDDDDDD), .ptr (targetObj 0xEEEEEEEE), .ref 0, .ptr (targetObj 0xF1F2F3F4),
      .ref 1]) &&
    Val.eqbL s.heap [targetObj 0xF1F2F3F4, targetObj 0xBBBBBBBB]
  | _ => false

theorem pointer_handling : psExpected psRead = true := by decide +kernel

/-! ## lib/tests/jsonreflector.cpp -/

/-- testSerializePrimitives (226-262) -/
theorem json_primitives :
    pushAll [(.str, S "foo"), (.cstr, .cstr (some (lit "bar"))), (tInt, .int 25), (.f64, .f64 0x4029000000000000),
      (.enum .u32, .int 1), (.enum .i32, .int 1), (.enum .i32, .int 2),
      (.vec .cstr, .list [.cstr (some (lit "foo1")), .cstr (some (lit "bar1"))]),
      (.vec .cstr, .list [.cstr (some (lit "foo2")), .cstr (some (lit "bar2"))]),
      (.vec .cstr, .list [.cstr (some (lit "foo3")), .cstr (some (lit "bar3"))]),
      (.tuple [tInt, .f64], .tup [.int 2, .f64 0x4079D00000000000]), (.bool, .bool true), (.bool, .bool false)] =
    some (txt ["[\"foo\",\"bar\",", "25,12.5,1,1,", "2,[\"foo1\",\"bar1\"],", "[\"foo2\",\"bar2\"],", "[\"foo3\",\"bar3\"],", "[2,413.0],true,", "false]"]) := by
  decide +kernel

/-- members of the objects in the tests which are not set explicitly -/
def rest : List Val :=
  [entries [], entries [], entries [], entries [], .list [], .list [], .list [], .list [],
    .alt 0 .mono, .alt 0 (S ""), .alt 0 (S "")]

/-- `testObj` of testSerializeNestedObjects and others (297-302) with the specified number and text -/
def simple (n : Int) (text : String) : Val := mk objJson ([.int n, .f64 pi, ints [1, 2, 3, 4], S text, .bool false] ++ rest)

/-- JSON of such an object -/
def simpleText (n text : String) : List String :=
  ["{\"number\":", n] ++ [",\"number2\":3.14159265358", "9793,\"numbers\":", "[1,2,3,4],\"text\":", "\""] ++ [text] ++
  ["\",\"boolean\":", "false,\"someMap\":", "{},\"someHash\":", "{},\"someMultimap\":", "{},\"someMultiHash\":", "{},\"someSet\":", "[],\"someMultiset\":", "[],\"someUnorderedSet\":", "[],\"someUnorderedMultise", "t\":[],\"someVariant\":", "{\"index\":0,\"data\":", "null},\"anotherVariant\":", "{\"index\":0,\"data\":", "\"\"},\"yetAnotherVariant\":", "{\"index\":0,\"data\":", "\"\"}}"]

/-- `testObj` of testSerializeSimpleObjects (269-285) -/
def fullObj : Val := mk objJson
  [.int 42, .f64 pi, ints [1, 2, 3, 4], S "test", .bool false, entries [("a", .int 1), ("b", .int 2)],
    entries [("c", .bool true), ("d", .bool false)], entries [("a", .int 1), ("a", .int 2), ("b", .int 3)],
    entries [("a", .int 1)], strs ["a", "b", "c"], strs ["a", "b", "b"], strs ["a"], strs ["b", "b", "b"],
    .alt 0 .mono, .alt 0 (S "foo"), .alt 1 (.int 42)]

/-- testSerializeSimpleObjects (286-288) -/
theorem json_simple_objects : textOf (.cls 3) fullObj = some (txt
    ["{\"number\":42,", "\"number2\":3.141592653589", "793,\"numbers\":", "[1,2,3,4],\"text\":", "\"test\",\"boolean\":", "false,\"someMap\":", "{\"a\":1,\"b\":2},", "\"someHash\":{", "\"d\":false,\"c\":", "true},\"someMultimap\":", "{\"a\":[1,2],\"b\":", "[3]},\"someMultiHash\":", "{\"a\":[1]},\"someSet\":", "[\"a\",\"b\",\"c\"],", "\"someMultiset\":", "[\"a\",\"b\",\"b\"],", "\"someUnorderedSet\":", "[\"a\"],\"someUnorderedMult", "iset\":[\"b\",\"b\",", "\"b\"],\"someVariant\":", "{\"index\":0,\"data\":", "null},\"anotherVariant\":", "{\"index\":0,\"data\":", "\"foo\"},\"yetAnotherVarian", "t\":{\"index\":", "1,\"data\":42}}"]) := by
  decide +kernel

/-- testSerializeNestedObjects (294-328) -/
theorem json_nested_objects :
    textOf (.cls 4) (mk nestingJson [S "nesting", simple 42 "test"]) =
      some (txt (["{\"name\":\"nesting\",\"testObj\":"] ++ simpleText "42" "test" ++ ["}"])) ∧
    textOf (.cls 5) (mk arrayJson [S "nesting2", .list [simple 42 "test", simple 43 "test"]]) =
      some (txt (["{\"name\":\"nesting2\",\"testObjects\":["] ++ simpleText "42" "test" ++ [","] ++ simpleText "43" "test" ++ ["]}"])) ∧
    textOf (.vec (.cls 3)) (.list [simple 42 "test"]) = some (txt (["["] ++ simpleText "42" "test" ++ ["]"])) := by
  decide +kernel

/-- testSerializeUniquePtr (330-356) -/
theorem json_unique_ptr :
    pushAll [(.uptr .str, .ptr (S "foo")), (.uptr .str, .null), (.uptr (.cls 3), .ptr (simple 42 "bar"))] =
    some (txt (["[\"foo\",null,"] ++ simpleText "42" "bar" ++ ["]"])) := by decide +kernel

def ptrHeap : Heap := fun a => if a = 1 then some (S "foo") else if a = 2 then some (simple 42 "bar") else none

/-- testSerializeSharedPtr (358-384) -/
theorem json_shared_ptr :
    pushAll [(.sptr .str, .ref 1), (.uptr .str, .null), (.sptr (.cls 3), .ref 2)] ptrHeap =
    some (txt (["[\"foo\",null,"] ++ simpleText "42" "bar" ++ ["]"])) := by decide +kernel

/-- testSerializeOptional (389-406) -/
theorem json_optional :
    pushAll [(.opt .str, .some (S "foo")), (.opt .str, .null)] = some (lit "[\"foo\",null]") := by decide +kernel

end Verif.RepoTests
