import Verif.Model.Json

/-!
# Error formatting (lib/json/errorformatting.h)
-/

namespace Verif

/-- Decimal digits of a number, as appended by `CppUtilities::argsToString`/`operator%` (c++utilities, external). -/
def decimal (n : Nat) : Str := if n < 10 then [UInt8.ofNat (48 + n)] else decimal (n / 10) ++ [UInt8.ofNat (48 + n % 10)]
termination_by n
decreasing_by omega

/-- the double quote character -/
def quote : UInt8 := 34

/-- `jsonTypeToString` (errorformatting.h 17-35); the `default` label is unreachable for values of the enum. -/
def jsonTypeToString : JType → Str
  | .null => lit "null"
  | .number => lit "number"
  | .bool => lit "bool"
  | .string => lit "string"
  | .array => lit "array"
  | .object => lit "object"

/-- `errorKind` as set by the `switch` (errorformatting.h 42-63) -/
def kindText : ErrKind → Str
  | .typeMismatch => lit "type mismatch"
  | .arraySizeMismatch => lit "array size mismatch"
  | .conversionError => lit "conversion error"
  | .unexpectedDuplicate => lit "unexpected duplicate"
  | .invalidVariantObject => lit "invalid variant object"
  | .invalidVariantIndex => lit "invalid variant index"

/-- `additionalInfo` as set by the `switch` (errorformatting.h 43-45) -/
def additionalInfo (e : Err) : Str :=
  match e.kind with
  | .typeMismatch => lit ": expected \"" ++ jsonTypeToString e.expected ++ lit "\", got \"" ++ jsonTypeToString e.actual ++ [quote]
  | _ => []

/-- `formatJsonDeserializationError` (errorformatting.h 37-74) -/
def formatError (e : Err) : Str :=
  match e.record, e.member with
  | some r, some m => kindText e.kind ++ lit " within record \"" ++ r ++ lit "\" and member \"" ++ m ++ [quote] ++ additionalInfo e
  | some r, none =>
    if e.index ≠ noIndex then
      kindText e.kind ++ lit " within record \"" ++ r ++ lit "\" and index \"" ++ decimal e.index ++ [quote] ++ additionalInfo e
    else kindText e.kind ++ lit " within record \"" ++ r ++ [quote] ++ additionalInfo e
  | none, _ => kindText e.kind ++ lit " in document" ++ additionalInfo e

end Verif
