import Verif.Spec.Generator

/-!
# Specification vocabulary: what the code generated for a class depends on
-/

namespace Verif.Gen

open Classical

/-- Everything of a translation unit the code for one class may depend on. -/
structure ClassView where
  qname : Str
  members : List Member
  friends : List Friend
  hasDefaultCtor : Bool
  /-- qualified names of the direct and indirect bases code is generated for in the same run, in the order of their definitions -/
  bases : List Str
  /-- the instantiation of the serializable template the class inherits from (if it is not adapted) -/
  versionType : Option Str

noncomputable def view (cfg : Config) (tu : TU) (n : Node) : ClassView where
  qname := (tu.cls n.cls).qname
  members := (tu.cls n.cls).members
  friends := (tu.cls n.cls).friends
  hasDefaultCtor := (tu.cls n.cls).hasDefaultCtor
  bases := wantedBases cfg tu n.cls
  versionType := if Adapted cfg tu (tu.cls n.cls).qname then none
    else ((tu.cls n.cls).bases.find? fun b => decide (b.Serializable cfg tu)).map BaseSpec.typeName

/-- The output consists of a header, one block per class code is wanted for, and a footer. -/
def InBlocks (header footer output : Str) (ns : List Node) (block : Node → Str) : Prop :=
  (ns = [] → output = []) ∧ (ns ≠ [] → output = header ++ ns.flatMap block ++ footer)

def jsonHeader : Str := lit "namespace ReflectiveRapidJSON {\nnamespace JsonReflector {\n\n"
def jsonFooter : Str := lit "} // namespace JsonReflector\n} // namespace ReflectiveRapidJSON\n"
def binaryHeader : Str := lit "namespace ReflectiveRapidJSON {\nnamespace BinaryReflector {\n\n"
def binaryFooter : Str := lit "} // namespace BinaryReflector\n} // namespace ReflectiveRapidJSON\n"

/-- `tu'` is `tu` with some more declarations (at any place), none of which is an adaption or declares a base of a class code is wanted
for in `tu`. -/
structure UnrelatedAdded (cfg : Config) (tu tu' : TU) : Prop where
  cls : tu'.cls = tu.cls
  decls : tu.decls.Sublist tu'.decls
  unrelated : ∀ n ∈ tu'.nodes, n ∉ tu.nodes → ¬ IsAdaption cfg tu n ∧ ∀ m ∈ wanted cfg tu, ¬ tu.Derived m.cls n.cls

/-- `tu'` is `tu` with the base specifiers of classes written in another order. -/
structure BasesReordered (tu tu' : TU) : Prop where
  decls : tu'.decls = tu.decls
  bases : ∀ c, (tu'.cls c).bases.Perm (tu.cls c).bases
  rest : ∀ c, tu'.cls c = { tu.cls c with bases := (tu'.cls c).bases }

/-- No class inherits from different instantiations of the serializable template. -/
def OneSerializableBase (cfg : Config) (tu : TU) : Prop :=
  ∀ c, ∀ b ∈ (tu.cls c).bases, ∀ b' ∈ (tu.cls c).bases, b.Serializable cfg tu → b'.Serializable cfg tu → b.typeName = b'.typeName

end Verif.Gen
