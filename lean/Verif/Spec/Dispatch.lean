import Verif.Model.Dispatch
import Verif.Model.Env

/-!
# Specification vocabulary: which C++ types can be (de)serialised

README.md 50-101 as inductive rules over C++ types, independently of the conditions of the overloads.
-/

namespace Verif.Dispatch

/-- The declarations of a program make sense: the `TREAT_AS` macros are used with iteratable classes, at most one of them per
class; `MAKE_JSON_SERIALIZABLE` is used with classes; a class which is `JsonSerializable` is not a container and has no
specialised `push`/`pull` of its own; a class which is not complete has no known members. -/
structure Sane (P : Program) : Prop where
  map : ∀ t, P.treatAsMap t = true → ∃ c, t = .cls c ∧ P.iteratable c = true
  multiMap : ∀ t, P.treatAsMultiMap t = true → ∃ c, t = .cls c ∧ P.iteratable c = true
  set : ∀ t, P.treatAsSet t = true → ∃ c, t = .cls c ∧ P.iteratable c = true
  multiSet : ∀ t, P.treatAsMultiSet t = true → ∃ c, t = .cls c ∧ P.iteratable c = true
  once : ∀ t, [P.treatAsMap t, P.treatAsMultiMap t, P.treatAsSet t, P.treatAsMultiSet t].count true ≤ 1
  adapted : ∀ t, P.adaptedJson t = true → ∃ c, t = .cls c
  json : ∀ c, (P.derivesJson c = true ∨ P.adaptedJson (.cls c) = true ∨ P.complete c = false) →
    P.iteratable c = false ∧ P.jsonSpecial c = false

/-- Numbers RapidJSON can represent (besides 8-bit integers). -/
def jsonNumbers : List Arith := [.bool, .int, .uint, .long, .ulong, .float, .double]

/-- Lists and sets. -/
def lists : List Tmpl := [.vector, .list, .deque]
def sets : List Tmpl := [.set, .unorderedSet, .multiset, .unorderedMultiset]
def maps : List Tmpl := [.map, .unorderedMap, .multimap, .unorderedMultimap]
def nullables : List Tmpl := [.uniquePtr, .sharedPtr, .optional]

/-- `std::string` and other types having `data()` which is a `const char *`. -/
def textKeys : List CppTy := [.string, .stringView, .std .vector [.arith .char], .std .array [.arith .char]]

/-- Types which can be initialised with a C-string. -/
def cStringKeys : List CppTy := [.string, .stringView, .constCharPtr, .arith .bool]

/-- The type can be serialised to JSON. -/
inductive CanToJson (P : Program) : CppTy → Prop
  | number {a} : a ∈ jsonNumbers → CanToJson P (.arith a)
  | int8 {a} : a = .schar ∨ a = .uchar → CanToJson P (.arith a)
  | enum (u) : CanToJson P (.enum u)
  | text {t} : t = .string ∨ t = .stringView ∨ t = .constCharPtr → CanToJson P t
  | list {T t} : T ∈ lists ++ sets ++ [.forwardList, .array] → CanToJson P t → CanToJson P (.std T [t])
  | map {T k v} : T ∈ maps → k ∈ textKeys → CanToJson P v → CanToJson P (.std T [k, v])
  | pair {a b} : CanToJson P a → CanToJson P b → CanToJson P (.std .pair [a, b])
  | tuple {as} : as ≠ [] → (∀ a ∈ as, CanToJson P a) → CanToJson P (.std .tuple as)
  -- but no variants within pointers and optionals
  | nullable {T t} : T ∈ nullables → (∀ as, t ≠ .std .variant as) → CanToJson P t → CanToJson P (.std T [t])
  | variant {as} : as ≠ [] → (∀ a ∈ as, a ≠ .monostate → CanToJson P a) → CanToJson P (.std .variant as)
  -- classes with specialised functions or generated code
  | cls {c} : P.iteratable c = false → P.jsonSpecial c = true ∨ P.jsonPush c = true → CanToJson P (.cls c)
  -- containers
  | clsList {c} : P.iteratable c = true → P.treatAsMap (.cls c) = false → P.treatAsMultiMap (.cls c) = false →
      CanToJson P (P.elem c) → CanToJson P (.cls c)
  | clsMap {c} : P.treatAsMap (.cls c) = true ∨ P.treatAsMultiMap (.cls c) = true → P.key c ∈ textKeys →
      CanToJson P (P.mapped c) → CanToJson P (.cls c)

/-- The type can be deserialised from JSON (`std::string_view` and `const char *` are only checked). -/
inductive CanFromJson (P : Program) : CppTy → Prop
  | number {a} : a ∈ jsonNumbers → CanFromJson P (.arith a)
  | int8 {a} : a = .schar ∨ a = .uchar → CanFromJson P (.arith a)
  | enum (u) : CanFromJson P (.enum u)
  | text {t} : t = .string ∨ t = .stringView ∨ t = .constCharPtr → CanFromJson P t
  -- `std::vector<bool>` does not store `bool`s
  | list {T t} : T ∈ lists → ¬(T = .vector ∧ t = .arith .bool) → CanFromJson P t → CanFromJson P (.std T [t])
  | set {T t} : T ∈ sets → CanFromJson P t → CanFromJson P (.std T [t])
  | map {T k v} : T ∈ maps → k ∈ cStringKeys → CanFromJson P v → CanFromJson P (.std T [k, v])
  | pair {a b} : CanFromJson P a → CanFromJson P b → CanFromJson P (.std .pair [a, b])
  | tuple {as} : as ≠ [] → (∀ a ∈ as, CanFromJson P a) → CanFromJson P (.std .tuple as)
  | nullable {T t} : T ∈ nullables → CanFromJson P t → CanFromJson P (.std T [t])
  | variant {as} : as ≠ [] → (∀ a ∈ as, a ≠ .monostate → CanFromJson P a) → CanFromJson P (.std .variant as)
  | cls {c} : P.iteratable c = false → P.jsonSpecial c = true ∨ P.jsonPull c = true → CanFromJson P (.cls c)
  | clsList {c} : P.iteratable c = true → P.treatAsMap (.cls c) = false → P.treatAsMultiMap (.cls c) = false →
      P.treatAsSet (.cls c) = false → P.treatAsMultiSet (.cls c) = false → P.backInsertable c = true →
      CanFromJson P (P.elem c) → CanFromJson P (.cls c)
  | clsSet {c} : P.treatAsSet (.cls c) = true ∨ P.treatAsMultiSet (.cls c) = true → P.insertable c = true →
      CanFromJson P (P.elem c) → CanFromJson P (.cls c)
  | clsMap {c} : P.treatAsMap (.cls c) = true ∨ P.treatAsMultiMap (.cls c) = true → P.key c ∈ cStringKeys →
      CanFromJson P (P.mapped c) → CanFromJson P (.cls c)

/-- Types with a fixed binary encoding (besides `std::string`). -/
def binNumbers : List Arith := [.bool, .char, .uchar, .short, .ushort, .int, .uint, .long, .ulong, .float, .double]

/-- The type can be serialised to binary. -/
inductive CanToBinary (P : Program) : CppTy → Prop
  | number {a} : a ∈ binNumbers → CanToBinary P (.arith a)
  | enum {u} : u ∈ binNumbers → CanToBinary P (.enum u)
  | string : CanToBinary P .string
  | list {T t} : T ∈ lists ++ sets ++ [.array, .basicStringView] → CanToBinary P t → CanToBinary P (.std T [t])
  | map {T k v} : T ∈ maps → CanToBinary P k → CanToBinary P v → CanToBinary P (.std T [k, v])
  | pair {a b} : CanToBinary P a → CanToBinary P b → CanToBinary P (.std .pair [a, b])
  | nullable {T t} : T ∈ nullables → CanToBinary P t → CanToBinary P (.std T [t])
  | variant {as} : as ≠ [] → as.length < 255 → (∀ a ∈ as, a ≠ .monostate → CanToBinary P a) →
      CanToBinary P (.std .variant as)
  | cls {c} : P.iteratable c = false → P.binWrite c = true → CanToBinary P (.cls c)
  | clsList {c} : P.iteratable c = true → P.hasSize c = true → CanToBinary P (P.elem c) → CanToBinary P (.cls c)

/-- The type can be deserialised from binary. -/
inductive CanFromBinary (P : Program) : CppTy → Prop
  | number {a} : a ∈ binNumbers → CanFromBinary P (.arith a)
  | enum {u} : u ∈ binNumbers → CanFromBinary P (.enum u)
  | string : CanFromBinary P .string
  | list {T t} : T ∈ lists ++ [.forwardList] → ¬(T = .vector ∧ t = .arith .bool) → CanFromBinary P t →
      CanFromBinary P (.std T [t])
  | set {T t} : T ∈ sets → CanFromBinary P t → CanFromBinary P (.std T [t])
  | map {T k v} : T ∈ maps → CanFromBinary P k → CanFromBinary P v → CanFromBinary P (.std T [k, v])
  | pair {a b} : CanFromBinary P a → CanFromBinary P b → CanFromBinary P (.std .pair [a, b])
  | nullable {T t} : T ∈ nullables → CanFromBinary P t → CanFromBinary P (.std T [t])
  | variant {as} : as ≠ [] → (∀ a ∈ as, a ≠ .monostate → CanFromBinary P a) → CanFromBinary P (.std .variant as)
  | cls {c} : P.iteratable c = false → P.binRead c = true → CanFromBinary P (.cls c)
  | clsList {c} : P.iteratable c = true → P.treatAsMap (.cls c) = false → P.treatAsMultiMap (.cls c) = false →
      P.treatAsSet (.cls c) = false → P.treatAsMultiSet (.cls c) = false → P.resizable c = true →
      CanFromBinary P (P.elem c) → CanFromBinary P (.cls c)
  -- containers which are a set or can not be resized
  | clsSet {c} : P.iteratable c = true → P.treatAsMap (.cls c) = false → P.treatAsMultiMap (.cls c) = false →
      (P.treatAsSet (.cls c) = true ∨ P.treatAsMultiSet (.cls c) = true ∨ P.resizable c = false) → P.insertable c = true →
      CanFromBinary P (P.elem c) → CanFromBinary P (.cls c)
  | clsMap {c} : P.treatAsMap (.cls c) = true ∨ P.treatAsMultiMap (.cls c) = true →
      CanFromBinary P (P.key c) → CanFromBinary P (P.mapped c) → CanFromBinary P (.cls c)

/-- The table of README.md 53-69: the JSON type of a C++ type; `none` for types which are not in the table or the JSON type of
which depends on another type. -/
def readmeType (P : Program) : CppTy → Option JType
  | .arith .bool => some .bool
  | .arith _ => some .number
  | .enum _ => some .number
  | .std .basicString [.arith .char] => some .string
  | .std .basicStringView [.arith .char] => some .string
  | .ptr true (.arith .char) => some .string
  | .std T _ =>
    if T ∈ lists ++ sets ++ [.forwardList, .array, .pair, .tuple] then some .array
    else if T ∈ maps ++ [.variant] then some .object
    else none
  | .cls c =>
    if P.treatAsMap (.cls c) || P.treatAsMultiMap (.cls c) then some .object
    else if P.iteratable c then some .array
    else if P.jsonSpecial c then none
    else some .object
  | _ => none

/-- Types supported by `toJson` and `fromJson` themselves, i.e. as the type of the whole document: numbers (but no 8-bit
integers), sequences, maps and classes which are `JsonSerializable`, but no sets, pairs, tuples, pointers, optionals, variants
and enums. `std::string_view` is considered a sequence. -/
inductive TopLevel (P : Program) : CppTy → Prop
  | number {a} : a ∈ jsonNumbers → TopLevel P (.arith a)
  | list (T as) : T ∈ lists ++ [.forwardList, .array] → TopLevel P (.std T as)
  | stringView : TopLevel P .stringView
  | map (T as) : T ∈ maps → TopLevel P (.std T as)
  | serializable (c) : P.derivesJson c = true ∨ P.adaptedJson (.cls c) = true ∨ P.complete c = false → TopLevel P (.cls c)
  | clsList (c) : P.iteratable c = true → P.treatAsSet (.cls c) = false → P.treatAsMultiSet (.cls c) = false → TopLevel P (.cls c)

/-! ## The types of the other models as C++ types -/

/-- integral types -/
def intTy : IntTy → Arith
  | .char => .char
  | .i8 => .schar
  | .u8 => .uchar
  | .i16 => .short
  | .u16 => .ushort
  | .i32 => .int
  | .u32 => .uint
  | .i64 => .long
  | .u64 => .ulong

/-- sets and maps -/
def setTmpl : Bool → Bool → Tmpl
  | false, false => .set
  | true, false => .unorderedSet
  | false, true => .multiset
  | true, true => .unorderedMultiset
def mapTmpl : Bool → Bool → Tmpl
  | false, false => .map
  | true, false => .unorderedMap
  | false, true => .multimap
  | true, true => .unorderedMultimap

mutual
/-- A type of the models of the reflectors as a C++ type; `V` is the template used for sequences. `DateTime` and `TimeSpan` are
the classes 0 and 1, the classes of the environment follow. -/
def toCpp (V : Tmpl) : Ty → CppTy
  | .bool => .arith .bool
  | .int it => .arith (intTy it)
  | .f32 => .arith .float
  | .f64 => .arith .double
  | .enum u => .enum (intTy u)
  | .str => .string
  | .cstr => .constCharPtr
  | .sview => .stringView
  | .opt t => .std .optional [toCpp V t]
  | .uptr t => .std .uniquePtr [toCpp V t]
  | .sptr t => .std .sharedPtr [toCpp V t]
  | .vec t => .std V [toCpp V t]
  | .set hashed multi t => .std (setTmpl hashed multi) [toCpp V t]
  | .map hashed multi k v => .std (mapTmpl hashed multi) [toCpp V k, toCpp V v]
  | .pair a b => .std .pair [toCpp V a, toCpp V b]
  | .tuple ts => .std .tuple (toCppL V ts)
  | .variant ts => .std .variant (toCppL V ts)
  | .mono => .monostate
  | .cls c => .cls (c + 2)
  | .dateTime => .cls 0
  | .timeSpan => .cls 1
def toCppL (V : Tmpl) : List Ty → List CppTy
  | [] => []
  | t :: ts => toCpp V t :: toCppL V ts
end

/-- The program has (generated) code for the classes of the environment and none of them is a container;
lib/json/reflector-chronoutilities.h and lib/binary/reflector-chronoutilities.h are included. -/
structure Describes (P : Program) (E : Env) : Prop where
  sane : Sane P
  plain : ∀ c, P.iteratable c = false
  special : ∀ c, P.jsonSpecial c = true ↔ c = 0 ∨ c = 1
  pull : ∀ c, P.jsonPull (c + 2) = true ↔ ∃ ci, E.cls c = some ci ∧ ci.json.pullable = true
  read : ∀ c, P.binRead (c + 2) = true ↔ ∃ ci, E.cls c = some ci ∧ ci.bin.readable = true
  time : P.binRead 0 = true ∧ P.binRead 1 = true

end Verif.Dispatch
