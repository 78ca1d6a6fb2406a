import Verif.Model.Env

/-!
# RapidJSON documents and the JSON error object
-/

namespace Verif

/-- Where the bytes of an object member's name live: in the document's allocator (`copied`, e.g. when parsed), in a string
literal of the program (`literal`), or in the object being serialised (`borrowed`). -/
inductive Src where
  | copied | literal | borrowed
deriving DecidableEq, Repr, Inhabited

/-- Name of an object member. -/
structure Key where
  bytes : Str
  src : Src
deriving DecidableEq, Repr, Inhabited

/-- A JSON number as stored by RapidJSON: an integer (in the range of `int64_t` or `uint64_t`; RapidJSON's kIntFlag,
kUintFlag, kInt64Flag and kUint64Flag are functions of the integer) or a `double`. -/
inductive Num where
  | int (i : Int)
  | dbl (b : BitVec 64)
deriving DecidableEq, Repr, Inhabited

/-- `rapidjson::Value`: members are ordered and names may repeat. -/
inductive Json where
  | null
  | bool (b : Bool)
  | num (n : Num)
  | str (s : Str)
  | arr (js : List Json)
  | obj (ms : List (Key × Json))
deriving Repr, Inhabited

/-- `JsonType` (lib/json/errorhandling.h 37-44) -/
inductive JType where
  | null | number | bool | string | array | object
deriving DecidableEq, Repr, Inhabited

/-- `jsonType(rapidjson::Type)` applied to `value.GetType()` (errorhandling.h 87-104) -/
def Json.jtype : Json → JType
  | .null => .null
  | .bool _ => .bool
  | .num _ => .number
  | .str _ => .string
  | .arr _ => .array
  | .obj _ => .object

/-- `jsonType<Type>()` (errorhandling.h 48-82): integral and floating point types except `bool` are `Number`, `bool` is
`Bool`, `std::string` and C-strings are `String`, iteratable types other than strings, `std::map` and
`std::unordered_map` are `Array`, everything else is `Object`. -/
def jtypeOf : Ty → JType
  | .int _ => .number
  | .f32 => .number
  | .f64 => .number
  | .bool => .bool
  | .str => .string
  | .cstr => .string
  | .sview => .string
  | .vec _ => .array
  | .set _ _ _ => .array
  | .map _ multi _ _ => if multi then .array else .object
  | _ => .object

/-- `JsonDeserializationErrorKind` (errorhandling.h 24-31) -/
inductive ErrKind where
  | typeMismatch | arraySizeMismatch | conversionError | unexpectedDuplicate | invalidVariantObject | invalidVariantIndex
deriving DecidableEq, Repr, Inhabited

/-- `JsonDeserializationError::noIndex` (errorhandling.h 127) -/
def noIndex : Nat := 2 ^ 64 - 1

/-- `JsonDeserializationError` (errorhandling.h 109-143); `none` for a null `record`/`member` -/
structure Err where
  kind : ErrKind
  expected : JType
  actual : JType
  record : Option Str
  member : Option Str
  index : Nat
deriving DecidableEq, Repr, Inhabited

/-- `JsonDeserializationErrors` (errorhandling.h 154-192) -/
structure ErrSt where
  errs : List Err
  record : Option Str
  member : Option Str
  index : Nat
  throwOn : BitVec 8
deriving DecidableEq, Repr, Inhabited

/-- default constructor (errorhandling.h 182-189) -/
def ErrSt.init : ErrSt := ⟨[], some (lit "[document]"), none, noIndex, 0⟩

/-- `ThrowOn` flag of an error kind as passed to `throwMaybe` by the report functions (errorhandling.h 170-177, 217-265).
The variant errors are not reported via such a function (lib/json/reflector.h 917-918, 940-941, 949-950). -/
def ErrKind.flag : ErrKind → BitVec 8
  | .typeMismatch => 0x1
  | .arraySizeMismatch => 0x2
  | .conversionError => 0x4
  | .unexpectedDuplicate => 0x8
  | .invalidVariantObject => 0
  | .invalidVariantIndex => 0

/-- Computations of the deserialisation functions; the state is the object `errors` points to, `none` for a null pointer. -/
abbrev PM := M Err (Option ErrSt)

/-- `errors->emplace_back(kind, expected, actual, errors->currentRecord, errors->currentMember, errors->currentIndex)` -/
def ErrSt.mk' (st : ErrSt) (k : ErrKind) (exp act : JType) : Err :=
  ⟨k, exp, act, st.record, st.member, st.index⟩

def ErrSt.push (st : ErrSt) (e : Err) : ErrSt := { st with errs := st.errs ++ [e] }

/-- `if (errors) { errors->report...(...); }`: append an error in the current context, then `throwMaybe`
(errorhandling.h 207-265; guards at the call sites in lib/json/reflector.h). -/
def report (k : ErrKind) (exp act : JType) : PM Unit := fun s =>
  match s with
  | none => .ok () none
  | some st =>
    let e := st.mk' k exp act
    if st.throwOn &&& k.flag ≠ 0 then .exc e (some (st.push e)) else .ok () (some (st.push e))

/-- `errors->reportUnexpectedDuplicate(JsonType::Array);` without a check for null (lib/json/reflector.h 733): calling a
member function through a null pointer is undefined. -/
def reportDuplicateUnchecked : PM Unit := fun s =>
  match s with
  | none => .ub
  | some _ => report .unexpectedDuplicate .array .array s

/-- `if (errors) { errors->currentIndex = i; }` -/
def setIndex (i : Nat) : PM Unit := M.modify (Option.map fun st => { st with index := i })

end Verif
