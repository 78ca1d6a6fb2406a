import Verif.Spec.Generator

/-!
# A translation unit used to show that the hypotheses of the theorems about the code generators can be met
-/

namespace Verif.Gen.Demo

def field (name : String) (isConst := false) (isPublic := true) : Member := .field ⟨lit name, .int .i32, isConst, isPublic⟩

def jsonBase : BaseSpec := ⟨some 0, lit "ReflectiveRapidJSON::JsonSerializable<X>", 0⟩
def binaryBase : BaseSpec := ⟨some 1, lit "ReflectiveRapidJSON::BinarySerializable<X, 3>", 3⟩

def named (q : String) (bases : List BaseSpec := []) (members : List Member := []) (friends : List Friend := [])
    (hasDefaultCtor := true) : Class := ⟨lit q, true, bases, members, friends, hasDefaultCtor⟩

/-- 0, 1: instantiations of the serializable templates; 2: only included; 3: root of a hierarchy; 4: derived from it;
5: derived from 4 and 2; 6: not default constructible, private and const members, friends, version markers;
7: specialization adapting 8 (only included); 9: not relevant; 10: requested via command line. -/
def cls (c : Nat) : Class :=
  match c with
  | 0 => named "ReflectiveRapidJSON::JsonSerializable"
  | 1 => named "ReflectiveRapidJSON::BinarySerializable"
  | 2 => named "N::Included" [jsonBase, binaryBase] [field "x"]
  | 3 => named "N::Root" [jsonBase, binaryBase] [field "a"]
  | 4 => named "N::Mid" [⟨some 3, lit "Root", 0⟩, jsonBase, binaryBase] [field "b", field "c" (isConst := true)]
  | 5 => named "N::Leaf" [⟨some 4, lit "Mid", 0⟩, ⟨some 2, lit "Included", 0⟩, jsonBase, binaryBase] [field "d"]
  | 6 => named "N::Special" [jsonBase, binaryBase]
      [field "always", .var (lit "rrjAsOfVersion2") [2], field "p" (isPublic := false), .other,
        .var (lit "rrjUntilVersion3") [3], field "q", .var (lit "rrjAsOfVersion5") [5], field "r",
        field "k" (isConst := true)]
      [⟨true, lit "ReflectiveRapidJSON::JsonReflector::push"⟩,
        ⟨true, lit "ReflectiveRapidJSON::BinaryReflector::writeCustomType"⟩,
        ⟨true, lit "ReflectiveRapidJSON::BinaryReflector::readCustomType"⟩] false
  | 7 => named "ReflectiveRapidJSON::AdaptedJsonSerializable"
  | 8 => named "N::ThirdParty" [] [field "t"]
  | 9 => named "N::Irrelevant" [⟨some 8, lit "ThirdParty", 0⟩] [field "i"]
  | 10 => named "N::Requested" [] [field "s"]
  | _ => ⟨[], false, [], [], [], false⟩

def node (c : Nat) (complete := true) (onlyIncluded := false) : Node := ⟨c, complete, onlyIncluded, none⟩

def tu : TU where
  cls := cls
  decls := [.record (node 2 (onlyIncluded := true)), .record (node 8 (onlyIncluded := true)), .other,
    .record (node 3 (complete := false)), .record (node 3), .record (node 4), .record (node 5), .record (node 6),
    .record ⟨7, true, false, some [.type (some 8)]⟩, .record (node 9), .record (node 10)]

def json : Config := jsonConfig (some [lit "N::Requested"]) none
def binary : Config := binaryConfig none (some (lit "__attribute__((visibility(\"default\")))"))

end Verif.Gen.Demo
