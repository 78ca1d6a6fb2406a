import Verif.Model.Json

/-!
# Specification vocabulary: which JSON types a C++ type can be read from
-/

namespace Verif

/-- The JSON type a C++ type is represented by, as documented in README.md; `none` for types which accept null in addition
to whatever the wrapped type accepts (optional, smart pointers), for time types (which are custom types on top of strings)
and for `std::monostate`. -/
def acceptedType : Ty → Option JType
  | .bool => some .bool
  | .int _ => some .number
  | .f32 => some .number
  | .f64 => some .number
  | .enum _ => some .number
  | .str => some .string
  | .cstr => some .string
  | .sview => some .string
  | .vec _ => some .array
  | .set _ _ _ => some .array
  | .map _ _ _ _ => some .object
  | .pair _ _ => some .array
  | .tuple _ => some .array
  | .variant _ => some .object
  | .cls _ => some .object
  | .opt _ => none
  | .uptr _ => none
  | .sptr _ => none
  | .mono => none
  | .dateTime => none
  | .timeSpan => none

/-- A number an enum can be read from: an integer in the range of `uint64_t` (unsigned underlying type) or `int64_t`. -/
def EnumNumber (signed : Bool) : Json → Prop
  | .num (.int i) => if signed then -(2 ^ 63) ≤ i ∧ i < 2 ^ 63 else 0 ≤ i ∧ i < 2 ^ 64
  | _ => False

/-- The JSON value has a type which can be stored in an object of C++ type `t`. -/
def Accepts (t : Ty) (j : Json) : Prop :=
  acceptedType t = some j.jtype ∧
    match t with
    | .enum u => EnumNumber u.signed j
    | _ => True

/-- Types for which `pull` exists: RapidJSON has no accessors for plain `char` and 16-bit integers, map keys must be
`std::string`, classes need (generated) deserialisation code. -/
def PullSupported (E : Env) : Ty → Prop
  | .int t => t ≠ .char ∧ t ≠ .i16 ∧ t ≠ .u16
  | .map _ _ k _ => k = .str
  | .cls c => ∃ ci, E.cls c = some ci ∧ ci.json.pullable = true
  | .mono => False
  | _ => True

end Verif
