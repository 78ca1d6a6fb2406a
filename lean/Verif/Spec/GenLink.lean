import Verif.Spec.Generator
import Verif.Spec.JsonRepr
import Verif.Spec.BinRepr

/-!
# Generated code as used by the reflectors

What it means that the code of a class in an environment (`JsonCode`, `BinCode`, `Model/Env.lean`) is what the generated
functions for that class do: names in the generated text refer to the classes and data members of the translation unit.
-/

namespace Verif.Gen

/-- Names are unambiguous: different classes have different qualified names; members of a class have different names. -/
structure Names (tu : TU) : Prop where
  classes : ∀ n ∈ tu.nodes, ∀ m ∈ tu.nodes, n.complete = true → m.complete = true →
    (tu.cls n.cls).qname = (tu.cls m.cls).qname → n.cls = m.cls
  members : ∀ c, ((tu.cls c).fields.map FieldD.name).Nodup

/-- a data member of class `c` as seen by the reflectors -/
def fieldOf (c : ClassId) (f : FieldD) : Field := ⟨c, f.name, f.ty⟩

/-- `f` is a data member of class `c` -/
def IsMember (tu : TU) (c : ClassId) (f : Field) : Prop := ∃ fd ∈ (tu.cls c).fields, f = fieldOf c fd

/-- a class which is defined -/
def IsDefined (tu : TU) (c : ClassId) : Prop := ∃ n ∈ tu.nodes, n.complete = true ∧ n.cls = c

def baseCalls (tu : TU) (bs : List ClassId) : List Call := bs.map fun b => .base (tu.cls b).qname
def fieldCalls (fs : List Field) : List Call := fs.map fun f => .member f.name

/-- the JSON code of class `c` is what the functions generated for it do -/
structure LinksJson (tu : TU) (fns : List Fn) (c : ClassId) (code : JsonCode) : Prop where
  bases : ∀ b ∈ code.bases, IsDefined tu b
  pushMembers : ∀ f ∈ code.pushFields, IsMember tu c f
  pullMembers : ∀ f ∈ code.pullFields, IsMember tu c f
  push : ∃ f ∈ fns, f.kind = .push ∧ f.qname = (tu.cls c).qname ∧
    exec 0 f.body = some (baseCalls tu code.bases ++ fieldCalls code.pushFields)
  pullable : code.pullable = true ↔ ∃ f ∈ fns, f.kind = .pull ∧ f.qname = (tu.cls c).qname
  pull : ∀ f ∈ fns, f.kind = .pull → f.qname = (tu.cls c).qname →
    exec 0 f.body = some (baseCalls tu code.bases ++ .setRecord (tu.cls c).qname :: fieldCalls code.pullFields ++ [.restoreRecord])
  setsRecord : code.setsRecord = true

/-- the statement about the version and the resulting version of the class: `Versioning<Base>` is enabled if the base has a
version which is not 0 (lib/versioning.h 32-38) -/
def VersionOf (tu : TU) (c : ClassId) (version : Option Nat) (calls : List Call) : Prop :=
  (calls = [] ∧ version = none) ∨
    ∃ b ∈ (tu.cls c).bases, calls = [.version b.typeName] ∧ version = if b.version = 0 then none else some b.version

/-- the binary code of class `c` is what the functions generated for it do -/
structure LinksBin (tu : TU) (fns : List Fn) (c : ClassId) (code : BinCode) : Prop where
  bases : ∀ b ∈ code.bases, IsDefined tu b
  writeMembers : ∀ gf ∈ code.writeFields, IsMember tu c gf.2
  readMembers : ∀ gf ∈ code.readFields, IsMember tu c gf.2
  write : ∃ f ∈ fns, f.kind = .write ∧ f.qname = (tu.cls c).qname ∧ ∃ vc, VersionOf tu c code.version vc ∧
    ∀ v, exec v f.body = some (baseCalls tu code.bases ++ vc ++ fieldCalls (activeFields v code.writeFields))
  readable : code.readable = true ↔ ∃ f ∈ fns, f.kind = .read ∧ f.qname = (tu.cls c).qname
  read : ∀ f ∈ fns, f.kind = .read → f.qname = (tu.cls c).qname → ∃ vc, VersionOf tu c code.version vc ∧
    ∀ v, exec v f.body = some (baseCalls tu code.bases ++ vc ++ fieldCalls (activeFields v code.readFields))

/-- the environment uses the generated JSON code -/
def LinkedJson (cfg : Config) (tu : TU) (E : Env) : Prop := ∀ n ∈ wanted cfg tu, ∃ ci, E.cls n.cls = some ci ∧
  ci.qname = (tu.cls n.cls).qname ∧ LinksJson tu (functions (generateJson cfg tu)) n.cls ci.json

/-- the environment uses the generated binary code -/
def LinkedBin (cfg : Config) (tu : TU) (E : Env) : Prop := ∀ n ∈ wanted cfg tu, ∃ ci, E.cls n.cls = some ci ∧
  ci.qname = (tu.cls n.cls).qname ∧ LinksBin tu (functions (generateBinary cfg tu)) n.cls ci.bin

end Verif.Gen
