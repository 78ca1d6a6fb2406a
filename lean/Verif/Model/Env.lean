import Verif.Model.Types
import Verif.Model.Ieee

/-!
# Environment of the reflectors

Everything the reflector functions use which is defined elsewhere: the (generated) code of reflected classes, element ordering, iteration order of hashed containers, ISO time formatting, memory limit.
-/

namespace Verif

/-- A (non-static) data member. -/
structure Field where
  owner : ClassId
  name : Str
  ty : Ty
deriving Repr, DecidableEq, Inhabited

def Field.key (f : Field) : FieldKey := (f.owner, f.name)

/-- Shape of the `push`/`pull` functions emitted for one class by the JSON code generator
(generator/jsonserializationcodegenerator.cpp 115-175) or provided via Boost.Hana (lib/json/reflector-boosthana.h 29-46).
* `bases`: `push(static_cast<const Base &>(reflectable), value, allocator)` calls, in order
* `pushFields`/`pullFields`: member calls, in order
* `pullable`: whether a `pull` exists at all (default constructible)
* `setsRecord`: whether `pull` sets `errors->currentRecord` (generated code does, the Hana version does not) -/
structure JsonCode where
  bases : List ClassId
  pushFields : List Field
  pullFields : List Field
  pullable : Bool
  setsRecord : Bool
deriving Repr, Inhabited

/-- Version condition around a member access (generator/binaryserializationcodegenerator.cpp 159-180); 0 means "no bound". -/
structure Guard where
  asOf : Nat
  untilV : Nat
deriving Repr, DecidableEq, Inhabited

/-- `if (version >= asOf && version <= until)` as emitted (binaryserializationcodegenerator.cpp 167-178). -/
def Guard.holds (g : Guard) (version : Nat) : Bool :=
  (g.asOf == 0 || decide (g.asOf ≤ version)) && (g.untilV == 0 || decide (version ≤ g.untilV))

/-- Shape of `writeCustomType`/`readCustomType` emitted for one class by the binary code generator
(binaryserializationcodegenerator.cpp 243-357).
* `version`: `some v` iff `Versioning<relevantBase>::enabled`, `v` being `Type::version` -/
structure BinCode where
  bases : List ClassId
  version : Option Nat
  writeFields : List (Guard × Field)
  readFields : List (Guard × Field)
  readable : Bool
deriving Repr, Inhabited

/-- A reflected class: qualified name, generated code and the content of value-initialised (`T()`, `emplace()`,
`make_unique<T>()`) and default-initialised (`T x;`) objects. -/
structure ClassInfo where
  qname : Str
  json : JsonCode
  bin : BinCode
  valInit : Store
  defInit : Store
deriving Repr, Inhabited

/-- The environment. -/
structure Env where
  cls : ClassId → Option ClassInfo
  /-- comparison used by (multi)sets/(multi)maps with key type `t` -/
  lt : Ty → Val → Val → Bool
  /-- iteration order of hashed sets / maps, as function of the content -/
  iter : List Val → List Val
  iterKV : List (Val × Val) → List (Val × Val)
  /-- `DateTime::toIsoString`, `DateTime::fromIsoStringGmt` (`none`: throws `ConversionException`) -/
  dtPrint : Int → Str
  dtParse : Str → Option Int
  /-- `TimeSpan::toString`, `TimeSpan::fromString` -/
  tsPrint : Int → Str
  tsParse : Str → Option Int
  /-- largest number of elements a container/string can be resized to (beyond: `std::bad_alloc`/`std::length_error`) -/
  maxLen : Nat

mutual
/-- Value-initialised object: `T()`, `emplace_back()`, `emplace()`, `make_unique<T>()`, `make_shared<T>()`. -/
def Env.valInit (E : Env) : Ty → Val
  | .bool => .bool false
  | .int _ => .int 0
  | .f32 => .f32 0
  | .f64 => .f64 0
  | .enum _ => .int 0
  | .str => .str []
  | .cstr => .cstr none
  | .sview => .cstr none
  | .opt _ => .null
  | .uptr _ => .null
  | .sptr _ => .null
  | .vec _ => .list []
  | .set _ _ _ => .list []
  | .map _ _ _ _ => .map []
  | .pair a b => .tup [E.valInit a, E.valInit b]
  | .tuple ts => .tup (E.valInitL ts)
  | .variant ts => .alt 0 (E.valInitHead ts)
  | .mono => .mono
  | .cls c => match E.cls c with
    | some ci => .obj ci.valInit
    | none => .indet
  | .dateTime => .tick 0
  | .timeSpan => .tick 0
def Env.valInitL (E : Env) : List Ty → List Val
  | [] => []
  | t :: ts => E.valInit t :: E.valInitL ts
def Env.valInitHead (E : Env) : List Ty → Val
  | [] => .indet
  | t :: _ => E.valInit t
end

/-- Default-initialised object: `T x;`. `std::pair`, `std::tuple` and `std::variant` value-initialise their content. -/
def Env.defInit (E : Env) : Ty → Val
  | .bool => .indet
  | .int _ => .indet
  | .f32 => .indet
  | .f64 => .indet
  | .enum _ => .indet
  | .cstr => .indet
  | .cls c => match E.cls c with
    | some ci => .obj ci.defInit
    | none => .indet
  | t => E.valInit t

/-! ## Containers -/

/-- `std::set::emplace`: ordered insertion, second component: whether an insertion took place. -/
def insertUniq (lt : Val → Val → Bool) (x : Val) : List Val → List Val × Bool
  | [] => ([x], true)
  | y :: ys =>
    if lt x y then (x :: y :: ys, true)
    else if lt y x then
      let r := insertUniq lt x ys
      (y :: r.1, r.2)
    else (y :: ys, false)

/-- `std::multiset::emplace`: ordered insertion behind equivalent elements. -/
def insertMulti (lt : Val → Val → Bool) (x : Val) : List Val → List Val
  | [] => [x]
  | y :: ys => if lt x y then x :: y :: ys else y :: insertMulti lt x ys

/-- `std::map::find` -/
def mapFind (lt : Val → Val → Bool) (k : Val) : List (Val × Val) → Option Val
  | [] => none
  | (k', v') :: kvs =>
    if lt k k' then none
    else if lt k' k then mapFind lt k kvs
    else some v'

/-- Assign to `map[k]` (inserting the key if not present; the stored key of an existing entry is kept). -/
def mapSet (lt : Val → Val → Bool) (k v : Val) : List (Val × Val) → List (Val × Val)
  | [] => [(k, v)]
  | (k', v') :: kvs =>
    if lt k k' then (k, v) :: (k', v') :: kvs
    else if lt k' k then (k', v') :: mapSet lt k v kvs
    else (k', v) :: kvs

/-- `std::map::emplace`: no effect if the key is present. -/
def mapEmplace (lt : Val → Val → Bool) (k v : Val) : List (Val × Val) → List (Val × Val)
  | [] => [(k, v)]
  | (k', v') :: kvs =>
    if lt k k' then (k, v) :: (k', v') :: kvs
    else if lt k' k then (k', v') :: mapEmplace lt k v kvs
    else (k', v') :: kvs

/-- `std::multimap::insert`/`emplace`: behind entries with equivalent key. -/
def mapInsertMulti (lt : Val → Val → Bool) (k v : Val) : List (Val × Val) → List (Val × Val)
  | [] => [(k, v)]
  | (k', v') :: kvs =>
    if lt k k' then (k, v) :: (k', v') :: kvs
    else (k', v') :: mapInsertMulti lt k v kvs

/-- Elements in the order in which a range-based `for` visits them. -/
def Env.order (E : Env) (hashed : Bool) (vs : List Val) : List Val := if hashed then E.iter vs else vs
def Env.orderKV (E : Env) (hashed : Bool) (kvs : List (Val × Val)) : List (Val × Val) :=
  if hashed then E.iterKV kvs else kvs

end Verif
