import Verif.Model.Json

/-!
# Overload resolution of the reflector functions (lib/traits.h, the `EnableIf` conditions in lib/json/reflector.h,
lib/json/errorhandling.h and lib/binary/reflector.h)

The reflectors are overload sets of templates; which body runs for an object is decided by the `EnableIf`/`DisableIf`
conditions. Here C++ types are terms, the conditions are Boolean functions of types (transcribed condition by condition),
`candidates` are the overloads a call can refer to and `Compiles` says whether a call and everything its body calls resolve
to exactly one function.

Simplifications: cv-qualifiers of top-level types are dropped, C arrays, unions and member pointers are not represented;
`int8_t`/`uint8_t`/`int64_t`/`uint64_t` are `signed char`/`unsigned char`/`long`/`unsigned long` (x86-64 Linux). Properties of
classes which are not standard templates (being iteratable, having `size()`, ...) and of user declarations (the `TREAT_AS`
macros, base classes, existence of generated code) are given by a `Program`.
-/

namespace Verif.Dispatch

/-- arithmetic types -/
inductive Arith where
  | bool | char | schar | uchar | wchar | short | ushort | int | uint | long | ulong | llong | ullong
  | float | double | ldouble
deriving DecidableEq, Repr

/-- standard class templates the conditions mention or which are iteratable -/
inductive Tmpl where
  | basicString | basicStringView
  | vector | list | deque | forwardList | array
  | set | unorderedSet | multiset | unorderedMultiset
  | map | unorderedMap | multimap | unorderedMultimap
  | pair | tuple | uniquePtr | sharedPtr | weakPtr | optional | variant
deriving DecidableEq, Repr

/-- C++ types. `std T args` is a specialisation of a standard template, `monostate` is `std::monostate`, `cls c` any other
class. -/
inductive CppTy where
  | arith (a : Arith)
  | enum (underlying : Arith)
  | ptr (toConst : Bool) (pointee : CppTy)
  | std (t : Tmpl) (args : List CppTy)
  | monostate
  | cls (c : Nat)

namespace CppTy
abbrev string : CppTy := .std .basicString [.arith .char]
abbrev stringView : CppTy := .std .basicStringView [.arith .char]
abbrev constCharPtr : CppTy := .ptr true (.arith .char)
end CppTy

/-- Declarations of a program.
* `iteratable`, `hasSize`, `reservable`, `resizable`: whether a class has `begin()`/`end()`, `size()`, `reserve()`, `resize()`
* `backInsertable`: `clear()`, `emplace_back()`, `back()`; `insertable`: `clear()` and `emplace(value)`
* `elem`, `key`, `mapped`: its element/key/mapped type
* `complete`, `derivesJson`: whether the class is complete and derives from `JsonSerializable<itself>`
* `jsonPush`, `jsonPull`, `binWrite`, `binRead`: whether code for a class has been generated (or provided via Boost.Hana)
* `jsonSpecial`: whether `push`/`pull` for `Value` are specialised (like for `DateTime`, `TimeSpan`)
* `adaptedJson`, `treatAs…`: which types the macros have been used with
* `valueRef`: whether RapidJSON's `Array`/`Object` convert to `Value &` (depends on the version) -/
structure Program where
  iteratable : Nat → Bool
  hasSize : Nat → Bool
  reservable : Nat → Bool
  resizable : Nat → Bool
  backInsertable : Nat → Bool
  insertable : Nat → Bool
  elem : Nat → CppTy
  key : Nat → CppTy
  mapped : Nat → CppTy
  complete : Nat → Bool
  derivesJson : Nat → Bool
  jsonPush : Nat → Bool
  jsonPull : Nat → Bool
  binWrite : Nat → Bool
  binRead : Nat → Bool
  jsonSpecial : Nat → Bool
  adaptedJson : CppTy → Bool
  treatAsMap : CppTy → Bool
  treatAsMultiMap : CppTy → Bool
  treatAsSet : CppTy → Bool
  treatAsMultiSet : CppTy → Bool
  valueRef : Bool

/-! ## Traits of the standard library and of c++utilities -/

/-- `std::is_floating_point` -/
def isFloatingPoint : CppTy → Bool
  | .arith .float | .arith .double | .arith .ldouble => true
  | _ => false

/-- `std::is_integral` -/
def isIntegral : CppTy → Bool
  | .arith .float | .arith .double | .arith .ldouble => false
  | .arith _ => true
  | _ => false

/-- `std::is_pointer` -/
def isPointer : CppTy → Bool
  | .ptr _ _ => true
  | _ => false

/-- `std::is_enum` -/
def isEnum : CppTy → Bool
  | .enum _ => true
  | _ => false

/-- `std::is_same<Type, A>` for an arithmetic type -/
def isArith (a : Arith) : CppTy → Bool
  | .arith b => a == b
  | _ => false

/-- `std::is_same<Type, std::string>` -/
def isStdString : CppTy → Bool
  | .std .basicString [.arith .char] => true
  | _ => false

/-- `std::is_same<Type, std::string_view>` -/
def isStdStringView : CppTy → Bool
  | .std .basicStringView [.arith .char] => true
  | _ => false

/-- `std::is_same<Type, const char *>` -/
def isConstCharPtr : CppTy → Bool
  | .ptr true (.arith .char) => true
  | _ => false

/-- `Traits::IsSpecializationOf<Type, T>` -/
def spec (T : Tmpl) : CppTy → Bool
  | .std T' _ => T == T'
  | _ => false

/-- iteratable standard templates -/
def Tmpl.iteratable : Tmpl → Bool
  | .pair | .tuple | .uniquePtr | .sharedPtr | .weakPtr | .optional | .variant => false
  | _ => true

/-- `Traits::IsIteratable` -/
def isIteratable (P : Program) : CppTy → Bool
  | .std T _ => T.iteratable
  | .cls c => P.iteratable c
  | _ => false

/-- `Traits::HasSize`: all iteratable templates but `std::forward_list` have `size()` -/
def hasSize (P : Program) : CppTy → Bool
  | .std T _ => T.iteratable && T != .forwardList
  | .cls c => P.hasSize c
  | _ => false

/-- `Traits::IsReservable` -/
def isReservable (P : Program) : CppTy → Bool
  | .std .basicString _ | .std .vector _ | .std .unorderedSet _ | .std .unorderedMultiset _ | .std .unorderedMap _
  | .std .unorderedMultimap _ => true
  | .cls c => P.reservable c
  | _ => false

/-- `Traits::IsResizable` -/
def isResizable (P : Program) : CppTy → Bool
  | .std .basicString _ | .std .vector _ | .std .list _ | .std .deque _ | .std .forwardList _ => true
  | .cls c => P.resizable c
  | _ => false

/-- `Traits::IsCString` -/
def isCString : CppTy → Bool
  | .ptr _ (.arith .char) => true
  | _ => false

/-- `Traits::IsString` -/
def isString (t : CppTy) : Bool := isCString t || spec .basicString t || spec .basicStringView t

/-! ## lib/traits.h -/

/-- `IsMapOrHash` (lib/traits.h 36-38) -/
def isMapOrHash (P : Program) (t : CppTy) : Bool := spec .map t || spec .unorderedMap t || P.treatAsMap t
/-- `IsMultiMapOrHash` (39-41) -/
def isMultiMapOrHash (P : Program) (t : CppTy) : Bool := spec .multimap t || spec .unorderedMultimap t || P.treatAsMultiMap t
/-- `IsSet` (42-43) -/
def isSet (P : Program) (t : CppTy) : Bool := spec .set t || spec .unorderedSet t || P.treatAsSet t
/-- `IsMultiSet` (44-46) -/
def isMultiSet (P : Program) (t : CppTy) : Bool := spec .multiset t || spec .unorderedMultiset t || P.treatAsMultiSet t
/-- `IsArrayOrSet` (47-51) -/
def isArrayOrSet (P : Program) (t : CppTy) : Bool :=
  (isIteratable P t && !spec .basicString t && !spec .basicStringView t && !isMapOrHash P t && !isMultiMapOrHash P t)
    || P.treatAsSet t || P.treatAsMultiSet t
/-- `IsArray` (52-54); unlike `IsArrayOrSet` it does not exclude `std::basic_string_view` -/
def isArray (P : Program) (t : CppTy) : Bool :=
  isIteratable P t && !spec .basicString t && !isMapOrHash P t && !isMultiMapOrHash P t && !isSet P t && !isMultiSet P t
/-- `IsIteratableExceptString` (55-57) -/
def isIteratableExceptString (P : Program) (t : CppTy) : Bool :=
  isIteratable P t && !spec .basicString t && !spec .basicString t
/-- `IsVariant` (58) -/
def isVariant (t : CppTy) : Bool := spec .variant t

/-- `JsonReflector::IsBuiltInType` (lib/json/reflector.h 84-87) -/
def jsonBuiltIn (P : Program) (t : CppTy) : Bool :=
  isIntegral t || isFloatingPoint t || isPointer t || isEnum t || (spec .tuple t || spec .pair t) || isIteratable P t
    || (spec .uniquePtr t || spec .sharedPtr t || spec .weakPtr t || spec .optional t) || isVariant t

/-- `IsJsonSerializable` (lib/json/reflector.h 90-94) -/
def isJsonSerializable (P : Program) (t : CppTy) : Bool :=
  (match t with | .cls c => !P.complete c | _ => false)
    || (match t with | .cls c => P.derivesJson c | _ => false) || P.adaptedJson t

/-- types `CppUtilities::BinaryReader`/`BinaryWriter` have overloads for, as listed in `BinaryReflector::IsBuiltInType`
(lib/binary/reflector.h 47-48) -/
def binNative (t : CppTy) : Bool :=
  isArith .char t || isArith .uchar t || isArith .bool t || isStdString t || isArith .short t || isArith .ushort t
    || isArith .int t || isArith .uint t || isArith .long t || isArith .ulong t || isArith .float t || isArith .double t

/-- `BinaryReflector::IsBuiltInType` (lib/binary/reflector.h 46-50) -/
def binBuiltIn (P : Program) (t : CppTy) : Bool :=
  binNative t || isIteratable P t || (spec .pair t || spec .uniquePtr t || spec .sharedPtr t || spec .optional t)
    || isEnum t || isVariant t

/-! ## Calls and overloads -/

/-- Calls of overloaded functions: the function, the kind of its arguments and the type of the object.
`pushPointee`: the call of `push(…, Value &)` within the overload for pointers and optionals (lib/json/reflector.h 333)
`toDocument explicit`: `toJsonDocument<T>(x)` or `toJsonDocument(x)` -/
inductive Call where
  | pushValue (t : CppTy) | pushPointee (t : CppTy) | pushArray (t : CppTy) | pushMember (t : CppTy) | pushObject (t : CppTy)
  | pullValue (t : CppTy) | pullArray (t : CppTy) | pullObject (t : CppTy)
  | jsonType (t : CppTy)
  | toDocument (explicit : Bool) (t : CppTy) | toJson (t : CppTy) | fromJson (t : CppTy)
  | write (t : CppTy) | writeVersion (t : CppTy) | writeCustom (t : CppTy)
  | read (t : CppTy) | readVersion (t : CppTy) | readCustom (t : CppTy)

/-- The type a call is about. -/
def Call.ty : Call → CppTy
  | pushValue t | pushPointee t | pushArray t | pushMember t | pushObject t | pullValue t | pullArray t | pullObject t
  | jsonType t
  | toDocument _ t | toJson t | fromJson t | write t | writeVersion t | writeCustom t | read t | readVersion t | readCustom t => t

/-- The overloads. -/
inductive Fn where
  -- push(…, Value &)
  | pushCustom | pushNumber | pushInt8 | pushEnum | pushCStr | pushSView | pushStr | pushSized | pushUnsized
  | pushMap | pushMultiMap | pushTuple | pushPair | pushNullable | pushVariant
  -- push(…, Array &), push(…, name, Object &), push(…, Object &)
  | pushArrayCustom | pushArrayOther | pushMemberCustom | pushMemberOther | pushObject
  -- pull(…, const Value &)
  | pullCustom | pullNumber | pullInt8 | pullBool | pullEnum | pullStr | pullStrCheck | pullUnreservable | pullReservable
  | pullMap | pullMultiMap | pullTuple | pullPair | pullUniquePtr | pullSharedPtr | pullOptional | pullVariant
  -- pull(…, ConstArray), pull(…, const ConstObject &)
  | pullIntoArray | pullIntoSet | pullIntoMultiSet | pullObject
  -- jsonType<Type>()
  | typeNumber | typeBool | typeString | typeArray | typeObject
  -- toJsonDocument, toJson, fromJson
  | docObject | docArith | docString | docCString | docStringView | docArray
  | toJson
  | fromObject | fromArith | fromString | fromArray
  -- BinarySerializer::write
  | writeNative | writePair | writeUniqueOrOptional | writeShared | writeIteratable | writeEnum | writeVariant | writeClass
  | writeBuiltInVersion | writeCustom
  -- BinaryDeserializer::read
  | readNative | readPair | readUnique | readShared | readOptional | readResizable | readMap | readOther | readEnum | readVariant
  | readClass | readBuiltInVersion | readCustom
deriving DecidableEq, Repr

/-- overloads whose condition holds -/
def enabled (fs : List (Fn × Bool)) : List Fn := (fs.filter (·.2)).map (·.1)

/-- `push(const Type &, Value &, allocator)` (lib/json/reflector.h 139-363) -/
def pushValueFns (P : Program) (t : CppTy) : List Fn := enabled [
  -- 139: DisableIf<IsBuiltInType<Type>>
  (.pushCustom, !jsonBuiltIn P t),
  -- 150-153
  (.pushNumber, (isIntegral t && !isArith .uchar t && !isArith .schar t) || isFloatingPoint t),
  -- 162
  (.pushInt8, isArith .uchar t || isArith .schar t),
  -- 171
  (.pushEnum, isEnum t),
  -- 181
  (.pushCStr, isConstCharPtr t),
  -- 194
  (.pushSView, isStdStringView t),
  -- 207
  (.pushStr, isStdString t),
  -- 216
  (.pushSized, isArrayOrSet P t && hasSize P t),
  -- 230
  (.pushUnsized, isArrayOrSet P t && !hasSize P t),
  -- 243
  (.pushMap, isMapOrHash P t),
  -- 256
  (.pushMultiMap, isMultiMapOrHash P t),
  -- 297
  (.pushTuple, spec .tuple t),
  -- 311
  (.pushPair, spec .pair t),
  -- 324
  (.pushNullable, spec .uniquePtr t || spec .sharedPtr t || spec .weakPtr t || spec .optional t),
  -- 339
  (.pushVariant, isVariant t)]

/-- `push(const Type &, Array &, allocator)` (lib/json/reflector.h 368-385) -/
def pushArrayFns (P : Program) (t : CppTy) : List Fn := enabled [
  (.pushArrayCustom, isJsonSerializable P t), (.pushArrayOther, !isJsonSerializable P t)]

/-- `push(const Type &, const char *, Object &, allocator)` (lib/json/reflector.h 390-410) -/
def pushMemberFns (P : Program) (t : CppTy) : List Fn := enabled [
  (.pushMemberCustom, isJsonSerializable P t), (.pushMemberOther, !isJsonSerializable P t)]

/-- `pull(Type &, const Value &, errors)` (lib/json/reflector.h 425-502, 526-624) -/
def pullValueFns (P : Program) (t : CppTy) : List Fn := enabled [
  -- 425
  (.pullCustom, !jsonBuiltIn P t),
  -- 526-528
  (.pullNumber, !isArith .bool t && !isArith .uchar t && !isArith .schar t && (isIntegral t || isFloatingPoint t)),
  -- 548
  (.pullInt8, isArith .uchar t || isArith .schar t),
  -- 563
  (.pullBool, isArith .bool t),
  -- 580
  (.pullEnum, isEnum t),
  -- 597
  (.pullStr, isStdString t),
  -- 614-615
  (.pullStrCheck, isConstCharPtr t || isStdStringView t),
  -- 431
  (.pullUnreservable, isArrayOrSet P t && !isReservable P t),
  -- 437
  (.pullReservable, isArrayOrSet P t && isReservable P t),
  -- 461
  (.pullMap, isMapOrHash P t),
  -- 467
  (.pullMultiMap, isMultiMapOrHash P t),
  -- 473
  (.pullTuple, spec .tuple t),
  -- 479
  (.pullPair, spec .pair t),
  -- 485
  (.pullUniquePtr, spec .uniquePtr t),
  -- 491
  (.pullSharedPtr, spec .sharedPtr t),
  -- 497
  (.pullOptional, spec .optional t),
  -- 503
  (.pullVariant, isVariant t)]

/-- `pull(Type &, ConstArray, errors)` (lib/json/reflector.h 443-456) -/
def pullArrayFns (P : Program) (t : CppTy) : List Fn := enabled [
  (.pullIntoArray, isArray P t), (.pullIntoSet, isSet P t), (.pullIntoMultiSet, isMultiSet P t)]

/-- `jsonType<Type>()` (lib/json/errorhandling.h 48-81) -/
def jsonTypeFns (P : Program) (t : CppTy) : List Fn := enabled [
  (.typeNumber, !isArith .bool t && (isIntegral t || isFloatingPoint t)),
  (.typeBool, isArith .bool t),
  (.typeString, isString t || isCString t),
  (.typeArray, isIteratable P t && !(isString t || spec .map t || spec .unorderedMap t)),
  (.typeObject, !(isIntegral t || isFloatingPoint t || isString t || isCString t
    || (isIteratable P t && !(isString t || spec .map t || spec .unorderedMap t))))]

/-- `toJsonDocument` (lib/json/reflector.h 1019-1079): the overloads for strings, C-strings and string views do not have a
parameter `Type` can be deduced from. -/
def toDocumentFns (P : Program) (explicit : Bool) (t : CppTy) : List Fn := enabled [
  (.docObject, isJsonSerializable P t || isMapOrHash P t || isMultiMapOrHash P t),
  (.docArith, isIntegral t || isFloatingPoint t),
  (.docString, explicit && isStdString t),
  (.docCString, explicit && isConstCharPtr t),
  (.docStringView, explicit && isStdStringView t),
  (.docArray, isArray P t)]

/-- `toJson` (lib/json/reflector.h 1084-1091) -/
def toJsonFns (P : Program) (t : CppTy) : List Fn := enabled [
  (.toJson, isJsonSerializable P t || isMapOrHash P t || isMultiMapOrHash P t || isIntegral t || isFloatingPoint t || isString t
    || isArray P t)]

/-- `fromJson` (lib/json/reflector.h 1098-1165) -/
def fromJsonFns (P : Program) (t : CppTy) : List Fn := enabled [
  (.fromObject, isJsonSerializable P t || isMapOrHash P t || isMultiMapOrHash P t),
  (.fromArith, isIntegral t || isFloatingPoint t),
  (.fromString, isStdString t),
  (.fromArray, isArray P t)]

/-- templates `BinarySerializer::write(const Type &)` incl. the one for custom types with default version
(lib/binary/reflector.h 107-116) -/
def writeFns (P : Program) (t : CppTy) : List Fn := enabled [
  (.writePair, spec .pair t),
  (.writeUniqueOrOptional, spec .uniquePtr t || spec .optional t),
  (.writeShared, spec .sharedPtr t),
  (.writeIteratable, isIteratableExceptString P t && hasSize P t),
  (.writeEnum, isEnum t),
  (.writeVariant, isVariant t),
  (.writeClass, !binBuiltIn P t)]

/-- `BinarySerializer::write(const Type &, BinaryVersion)` (lib/binary/reflector.h 115-116) -/
def writeVersionFns (P : Program) (t : CppTy) : List Fn := enabled [
  (.writeBuiltInVersion, binBuiltIn P t), (.writeClass, !binBuiltIn P t)]

/-- templates `BinaryDeserializer::read(Type &)` incl. the one for custom types with default version
(lib/binary/reflector.h 81-95) -/
def readFns (P : Program) (t : CppTy) : List Fn := enabled [
  (.readPair, spec .pair t),
  (.readUnique, spec .uniquePtr t),
  (.readShared, spec .sharedPtr t),
  (.readOptional, spec .optional t),
  (.readResizable, isArray P t && isResizable P t),
  (.readMap, isMapOrHash P t || isMultiMapOrHash P t),
  (.readOther, isIteratableExceptString P t && !(isMapOrHash P t || isMultiMapOrHash P t || (isArray P t && isResizable P t))),
  (.readEnum, isEnum t),
  (.readVariant, isVariant t),
  (.readClass, !binBuiltIn P t)]

/-- `BinaryDeserializer::read(Type &, BinaryVersion)` (lib/binary/reflector.h 94-95) -/
def readVersionFns (P : Program) (t : CppTy) : List Fn := enabled [
  (.readBuiltInVersion, binBuiltIn P t), (.readClass, !binBuiltIn P t)]

/-- Overloads which are best matches for a call. An overload with an exact match for the RapidJSON argument is preferred over
one which needs a conversion of `Array`/`Object` to `Value &`; the (non-template) functions of `CppUtilities::BinaryReader`/
`BinaryWriter` are preferred over templates. Within a template only functions declared before it (or within the namespaces of
the arguments) are found: the overload for variants (lib/json/reflector.h 339) is declared after the one for pointers and
optionals (324) and there is no forward declaration. All other calls come after all overloads or after a forward declaration
(96-134, 418-523). -/
def candidates (P : Program) : Call → List Fn
  | .pushValue t => pushValueFns P t
  | .pushPointee t => (pushValueFns P t).filter (· != .pushVariant)
  | .pushArray t => pushArrayFns P t
  | .pushMember t => pushMemberFns P t
  -- 104-109: DisableIf<IsBuiltInType<Type>>
  | .pushObject t => if !jsonBuiltIn P t then [.pushObject] else if P.valueRef then pushValueFns P t else []
  | .pullValue t => pullValueFns P t
  | .pullArray t =>
    match pullArrayFns P t with
    | [] => if P.valueRef then pullValueFns P t else []
    | fs => fs
  -- 418-420: DisableIf<IsBuiltInType<Type>>
  | .pullObject t => if !jsonBuiltIn P t then [.pullObject] else if P.valueRef then pullValueFns P t else []
  | .jsonType t => jsonTypeFns P t
  | .toDocument e t => toDocumentFns P e t
  | .toJson t => toJsonFns P t
  | .fromJson t => fromJsonFns P t
  | .write t => if binNative t then [.writeNative] else writeFns P t
  | .writeVersion t => writeVersionFns P t
  -- 67-68: EnableIf<IsCustomType<Type>>
  | .writeCustom t => if !binBuiltIn P t then [.writeCustom] else []
  | .read t => if binNative t then [.readNative] else readFns P t
  | .readVersion t => readVersionFns P t
  -- 60-61: EnableIf<IsCustomType<Type>>
  | .readCustom t => if !binBuiltIn P t then [.readCustom] else []

/-! ## Bodies -/

/-- RapidJSON has `Is<T>`, `Get<T>`, `Set<T>` (specialisations of `internal::TypeHelper`) for these types only. -/
def rapidJsonAccessor : CppTy → Bool
  | .arith .bool | .arith .int | .arith .uint | .arith .long | .arith .ulong | .arith .float | .arith .double => true
  | _ => false

/-- `value_type` of an iteratable -/
def elemTy (P : Program) : CppTy → Option CppTy
  | .std .map [k, v] | .std .unorderedMap [k, v] | .std .multimap [k, v] | .std .unorderedMultimap [k, v] =>
    some (.std .pair [k, v])
  | .std .map _ | .std .unorderedMap _ | .std .multimap _ | .std .unorderedMultimap _ => none
  | .std _ [t] => some t
  | .cls c => some (P.elem c)
  | _ => none

/-- `key_type` and `mapped_type` of a map -/
def mapTys (P : Program) : CppTy → Option (CppTy × CppTy)
  | .std _ [k, v] => some (k, v)
  | .cls c => some (P.key c, P.mapped c)
  | _ => none

/-- `key.data()` is a `const char *` and there is `key.size()` -/
def hasCharData : CppTy → Bool
  | .std .basicString [.arith .char] | .std .basicStringView [.arith .char] | .std .vector [.arith .char]
  | .std .array [.arith .char] => true
  | _ => false

/-- a key can be initialised with a `const char *` (pointers convert to `bool`, too) -/
def fromCString : CppTy → Bool
  | .std .basicString [.arith .char] | .std .basicStringView [.arith .char] | .ptr true (.arith .char) | .arith .bool => true
  | _ => false

/-- has `clear()`, `emplace_back()` and `back()` returning a reference to an element (not so `std::vector<bool>`) -/
def backInsertable (P : Program) : CppTy → Bool
  | .std .vector [.arith .bool] => false
  | .std .vector [_] | .std .list [_] | .std .deque [_] => true
  | .cls c => P.backInsertable c
  | _ => false

/-- has `clear()` and `emplace(value)` -/
def insertable (P : Program) : CppTy → Bool
  | .std .set [_] | .std .unorderedSet [_] | .std .multiset [_] | .std .unorderedMultiset [_] => true
  | .cls c => P.insertable c
  | _ => false

/-- `for (auto &element : iteratable)` (lib/binary/reflector.h 183) is well-formed: dereferencing the iterator gives a reference -/
def elemRefs : CppTy → Bool
  | .std .vector [.arith .bool] => false
  | _ => true

/-- alternatives of a variant which are (de)serialised: `if constexpr (!std::is_same_v<…, std::monostate>)` -/
def CppTy.isMonostate : CppTy → Bool
  | .monostate => true
  | _ => false

/-- `some cs`: the body of the overload is well-formed for that type if all of the calls `cs` are; `none`: it is not. -/
def calls (P : Program) (t : CppTy) : Fn → Option (List Call)
  -- lib/json/reflector.h 140-146; lib/json/reflector-chronoutilities.h 22-36
  | .pushCustom => match t with
    | .cls c => if P.jsonSpecial c then some [] else some [.pushObject t]
    | _ => some [.pushObject t]
  -- 156: value.Set(reflectable, allocator)
  | .pushNumber => if rapidJsonAccessor t then some [] else none
  | .pushInt8 | .pushEnum | .pushCStr | .pushSView | .pushStr => some []
  -- 217-239
  | .pushSized | .pushUnsized => (elemTy P t).map fun e => [.pushArray e]
  -- 244-252: item.first.data()
  | .pushMap => match mapTys P t with
    | some (k, v) => if hasCharData k then some [.pushMember v] else none
    | none => none
  -- 257-273
  | .pushMultiMap => match mapTys P t with
    | some (k, v) => if hasCharData k then some [.pushArray v] else none
    | none => none
  -- 280-305: TuplePushHelper<Tuple, N> ends with N = 1
  | .pushTuple => match t with
    | .std _ (a :: as) => some ((a :: as).map .pushArray)
    | _ => none
  -- 311-319
  | .pushPair => match t with
    | .std _ [a, b] => some [.pushArray a, .pushArray b]
    | _ => none
  -- 327-333: `!reflectable` (there is no operator bool in std::weak_ptr), `*reflectable`
  | .pushNullable => match t with
    | .std T [a] => if T = .weakPtr then none else some [.pushPointee a]
    | _ => none
  -- 341-363
  | .pushVariant => match t with
    | .std _ (a :: as) => some (((a :: as).filter (!·.isMonostate)).map .pushValue)
    | _ => none
  -- 368-410
  | .pushArrayCustom | .pushMemberCustom => some [.pushObject t]
  | .pushArrayOther | .pushMemberOther => some [.pushValue t]
  | .pushObject => match t with
    | .cls c => if P.jsonPush c then some [] else none
    | _ => none
  -- 1002-1012; lib/json/reflector-chronoutilities.h 40-68
  | .pullCustom => match t with
    | .cls c => if P.jsonSpecial c then some [.pullValue .string] else some [.jsonType t, .pullObject t]
    | _ => some [.jsonType t, .pullObject t]
  -- 537-543
  | .pullNumber => if rapidJsonAccessor t then some [.jsonType t] else none
  -- 552-557
  | .pullInt8 => some [.pullValue (.arith .int)]
  | .pullBool => some [.jsonType t]
  -- 584-591
  | .pullEnum => some [.jsonType (.arith .long), .jsonType (.arith .ulong)]
  | .pullStr | .pullStrCheck => some [.jsonType .string]
  -- 630-662
  | .pullUnreservable | .pullReservable => some [.jsonType t, .pullArray t]
  -- 746-759: reflectable[i->name.GetString()]
  | .pullMap => match mapTys P t with
    | some (k, v) => if fromCString k then some [.jsonType t, .pullValue v] else none
    | none => none
  -- 764-786
  | .pullMultiMap => match mapTys P t with
    | some (k, v) => if fromCString k then some [.jsonType t, .pullValue v] else none
    | none => none
  -- 794-831
  | .pullTuple => match t with
    | .std _ (a :: as) => some (.jsonType t :: (a :: as).map .pullValue)
    | _ => none
  -- 836-855
  | .pullPair => match t with
    | .std _ [a, b] => some [.jsonType t, .pullValue a, .pullValue b]
    | _ => none
  -- 860-896
  | .pullUniquePtr | .pullSharedPtr | .pullOptional => match t with
    | .std _ [a] => some [.pullValue a]
    | _ => none
  -- 899-956
  | .pullVariant => match t with
    | .std _ (a :: as) => some (.jsonType t :: ((a :: as).filter (!·.isMonostate)).map .pullValue)
    | _ => none
  -- 665-683
  | .pullIntoArray => match elemTy P t with
    | some e => if backInsertable P t then some [.pullValue e] else none
    | none => none
  -- 688-741
  | .pullIntoSet | .pullIntoMultiSet => match elemTy P t with
    | some e => if insertable P t then some [.pullValue e] else none
    | none => none
  | .pullObject => match t with
    | .cls c => if P.jsonPull c then some [] else none
    | _ => none
  | .typeNumber | .typeBool | .typeString | .typeArray | .typeObject => some []
  -- 1020-1025, 1073-1079
  | .docObject | .docArray => some [.pushValue t]
  -- 1031-1036: document.Set(reflectable, …)
  | .docArith => if rapidJsonAccessor t then some [] else none
  | .docString | .docCString | .docStringView => some []
  -- 1089: auto document(toJsonDocument(reflectable));
  | .toJson => some [.toDocument false t]
  -- 1098-1165: the document's Object/Array converts to a Value
  | .fromObject | .fromArray => some [.jsonType t, .pullValue t]
  | .fromArith => if rapidJsonAccessor t then some [.jsonType t] else none
  | .fromString => some [.jsonType t]
  -- lib/binary/reflector.h 257-336
  | .writeNative => some []
  | .writePair => match t with
    | .std _ [a, b] => some [.write a, .write b]
    | _ => none
  | .writeUniqueOrOptional | .writeShared => match t with
    | .std _ [a] => some [.write a]
    | _ => none
  | .writeIteratable => (elemTy P t).map fun e => [.write e]
  | .writeEnum => match t with
    | .enum u => some [.write (.arith u)]
    | _ => none
  -- 313: static_assert on the number of alternatives
  | .writeVariant => match t with
    | .std _ (a :: as) =>
      if (a :: as).length < 255 then some (((a :: as).filter (!·.isMonostate)).map .write) else none
    | _ => none
  | .writeClass => some [.writeCustom t]
  | .writeBuiltInVersion => some [.write t]
  | .writeCustom => match t with
    | .cls c => if P.binWrite c then some [] else none
    | _ => none
  -- lib/binary/reflector.h 126-250
  | .readNative => some []
  | .readPair => match t with
    | .std _ [a, b] => some [.read a, .read b]
    | _ => none
  | .readUnique | .readShared | .readOptional => match t with
    | .std _ [a] => some [.read a]
    | _ => none
  | .readResizable => match elemTy P t with
    | some e => if elemRefs t then some [.read e] else none
    | none => none
  | .readMap => match mapTys P t with
    | some (k, v) => some [.read (.std .pair [k, v])]
    | none => none
  | .readOther => match elemTy P t with
    | some e => if insertable P t then some [.read e] else none
    | none => none
  | .readEnum => match t with
    | .enum u => some [.read (.arith u)]
    | _ => none
  | .readVariant => match t with
    | .std _ (a :: as) => some (((a :: as).filter (!·.isMonostate)).map .read)
    | _ => none
  | .readClass => some [.readCustom t]
  | .readBuiltInVersion => some [.read t]
  | .readCustom => match t with
    | .cls c => if P.binRead c then some [] else none
    | _ => none

/-- The type of JSON values an overload of `pull(…, const Value &)` accepts (lib/json/reflector.h 526-624: `IsNumber`/`Is<…>`,
`IsBool`, `IsInt64`/`IsUint64`, `IsString`; 630-831: `IsArray`, `IsObject`; 899: `IsObject`; 1002: `IsObject`); `none` if that
is up to the other functions called. -/
def acceptsType (P : Program) (t : CppTy) : Fn → Option JType
  | .pullNumber | .pullInt8 | .pullEnum => some .number
  | .pullBool => some .bool
  | .pullStr | .pullStrCheck => some .string
  | .pullUnreservable | .pullReservable | .pullTuple | .pullPair => some .array
  | .pullMap | .pullMultiMap | .pullVariant => some .object
  | .pullCustom => match t with
    | .cls c => if P.jsonSpecial c then none else some .object
    | _ => some .object
  | _ => none

/-- The value returned by the overloads of `jsonType<Type>()` (lib/json/errorhandling.h 48-81). -/
def typeOf : Fn → Option JType
  | .typeNumber => some .number
  | .typeBool => some .bool
  | .typeString => some .string
  | .typeArray => some .array
  | .typeObject => some .object
  | _ => none

/-- The call refers to exactly one overload and its body is well-formed. (The members of classes are not followed: the
generated code has a call per member, which is another `Call`.) -/
inductive Compiles (P : Program) : Call → Prop
  | mk {c f cs} : candidates P c = [f] → calls P c.ty f = some cs → (∀ c' ∈ cs, Compiles P c') → Compiles P c

end Verif.Dispatch
