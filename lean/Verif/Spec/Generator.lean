import Verif.Model.Generator
import Mathlib.Logic.Relation

/-!
# Specification of the code generators

What the generated text means (functions, calls in them, version conditions) and which classes, bases and members are to be
considered - without referring to how the generators work.
-/

namespace Verif.Gen

open Classical

/-! ## Translation units -/

/-- the record declarations in the order of occurrence -/
def TU.nodes (tu : TU) : List Node := tu.decls.filterMap fun
  | .record n => some n
  | .other => none

/-- What clang guarantees: a base class is defined before the derived class (classes being numbered in the order of their
definition); a class has at most one definition, and a class a definition of which has been seen is defined. -/
structure TU.WellFormed (tu : TU) : Prop where
  basesFirst : ∀ c : Nat, ∀ b ∈ (tu.cls c).bases, ∀ d : Nat, b.cls = some d → d < c
  oneDefinition : ((tu.nodes.filter fun n => n.complete).map Node.cls).Nodup
  defined : ∀ n ∈ tu.nodes, n.complete = true → (tu.cls n.cls).hasDefinition = true

/-- `d` is a direct base of `c` -/
def TU.DirectBase (tu : TU) (c d : ClassId) : Prop := ∃ b ∈ (tu.cls c).bases, b.cls = some d

/-- `d` is a direct or indirect base of `c` -/
def TU.Derived (tu : TU) : ClassId → ClassId → Prop := Relation.TransGen tu.DirectBase

/-- `n` is a specialization of the adaption template (e.g. `AdaptedJsonSerializable<T>`) -/
def IsAdaption (cfg : Config) (tu : TU) (n : Node) : Prop :=
  (tu.cls n.cls).hasDefinition = true ∧ n.specArgs ≠ none ∧ (tu.cls n.cls).qname = cfg.adaptionName

/-- the main file contains a specialization of the adaption template for a class with this qualified name -/
def Adapted (cfg : Config) (tu : TU) (qname : Str) : Prop :=
  ∃ a ∈ tu.nodes, IsAdaption cfg tu a ∧ a.onlyIncluded = false ∧
    ∃ d, a.specArgs = some [.type (some d)] ∧ (tu.cls d).qname = qname

/-- the base is an instantiation of the serializable template (e.g. `JsonSerializable<T>`) -/
def BaseSpec.Serializable (cfg : Config) (tu : TU) (b : BaseSpec) : Prop :=
  ∃ d, b.cls = some d ∧ (tu.cls d).qname = cfg.recordsName

/-- one of the direct bases is an instantiation of the serializable template -/
def InheritsSerializable (cfg : Config) (tu : TU) (c : ClassId) : Prop := ∃ b ∈ (tu.cls c).bases, b.Serializable cfg tu

/-- explicitly requested via the command line -/
def Requested (cfg : Config) (qname : Str) : Prop := ∃ names, cfg.additional = some names ∧ qname ∈ names

/-- The declarations code is to be generated for. -/
def Wanted (cfg : Config) (tu : TU) (n : Node) : Prop :=
  n.complete = true ∧ ¬ IsAdaption cfg tu n ∧
    (Adapted cfg tu (tu.cls n.cls).qname ∨
      n.onlyIncluded = false ∧ (InheritsSerializable cfg tu n.cls ∨ Requested cfg (tu.cls n.cls).qname))

/-- the definitions code is to be generated for, in declaration order -/
noncomputable def wanted (cfg : Config) (tu : TU) : List Node := tu.nodes.filter fun n => decide (Wanted cfg tu n)

/-! ## The generated text -/

inductive FnKind where
  | push | pull | write | read
deriving Repr, DecidableEq, Inhabited

/-- A generated function: what it does, for which class, and its body. -/
structure Fn where
  kind : FnKind
  qname : Str
  body : List Item
deriving Repr, DecidableEq, Inhabited

/-- beginning of a function definition -/
def Item.opens : Item → Option (FnKind × Str)
  | .pushOpen _ q => some (.push, q)
  | .pullOpen _ q => some (.pull, q)
  | .writeOpen _ q => some (.write, q)
  | .readOpen _ q => some (.read, q)
  | _ => none

/-- end of a function definition -/
def Item.ends : Item → Bool
  | .funEnd => true
  | .funEndBlank => true
  | _ => false

/-- The functions defined by a piece of generated text: what is between the beginning of a function and its end.
`cur` is the function we are in. -/
def functionsFrom (cur : Option Fn) : List Item → List Fn
  | [] => []
  | i :: is => match cur with
    | none => match i.opens with
      | some (k, q) => functionsFrom (some ⟨k, q, []⟩) is
      | none => functionsFrom none is
    | some f => if i.ends then f :: functionsFrom none is else functionsFrom (some { f with body := f.body ++ [i] }) is

def functions (is : List Item) : List Fn := functionsFrom none is

/-- What a function body does, in terms of the calls made: serializes a base class, handles the version, handles a data
member, sets/restores the record in the error context. -/
inductive Call where
  | base (qname : Str)
  | version (typeName : Str)
  | member (name : Str)
  | setRecord (qname : Str)
  | restoreRecord
deriving Repr, DecidableEq, Inhabited

/-- the call a statement stands for -/
def Item.call : Item → Option Call
  | .pushBase q | .pullBase q | .writeBase q | .readBase q => some (.base q)
  | .writeVersion t | .readVersion t _ => some (.version t)
  | .pushMember n | .pullMember n | .writeMember n | .readMember n => some (.member n)
  | .pullSetRecord q => some (.setRecord q)
  | .pullRestore => some .restoreRecord
  | _ => none

/-- Executes a function body for a version in effect: `if` statements are evaluated, `conds` are the values of the conditions
of the enclosing `if` statements. `none`: not well-formed (an `if` is not closed or something is closed which is not open). -/
def execFrom (version : Nat) (conds : List Bool) : List Item → Option (List Call)
  | [] => if conds = [] then some [] else none
  | .ifVersion a u :: is => execFrom version (Guard.holds ⟨a, u⟩ version :: conds) is
  | .endIf :: is => match conds with
    | [] => none
    | _ :: conds => execFrom version conds is
  | i :: is => match i.call with
    | none => execFrom version conds is
    | some c => if conds.all id then (execFrom version conds is).map (c :: ·) else execFrom version conds is

def exec (version : Nat) (body : List Item) : Option (List Call) := execFrom version [] body

/-! ## Bases and members to be handled -/

/-- qualified names of the (direct or indirect) bases of `c` among the classes code is generated for -/
noncomputable def wantedBases (cfg : Config) (tu : TU) (c : ClassId) : List Str :=
  ((wanted cfg tu).filter fun n => decide (tu.Derived c n.cls)).map fun n => (tu.cls n.cls).qname

/-- the class declares the function with the given qualified name to be a friend -/
def Befriends (c : Class) (fn : Str) : Prop := ∃ f ∈ c.friends, f.isFunction = true ∧ f.qname = fn

/-- A version marker: a static data member called `rrjAsOfVersion…` or `rrjUntilVersion…` the value of which is given by an
integer literal of at most 64 bits. -/
inductive Marker where
  | asOf (v : Nat)
  | untilV (v : Nat)
deriving Repr, DecidableEq

/-- the markers among some declarations, in order -/
def markers (ms : List Member) : List Marker := ms.filterMap fun
  | .var name literals => match literals.find? fun n => n < 2 ^ 64 with
    | some v =>
      if lit "rrjAsOfVersion" <+: name then some (.asOf v)
      else if lit "rrjUntilVersion" <+: name then some (.untilV v)
      else none
    | none => none
  | _ => none

/-- the lower bound `a` is in effect: it is the last one and no later upper bound is below it -/
def LowerBound (ms : List Marker) (a : Nat) : Prop :=
  ∃ before after, ms = before ++ .asOf a :: after ∧ ∀ m ∈ after, (∀ b, m ≠ .asOf b) ∧ ∀ u, m = .untilV u → a ≤ u

/-- the upper bound `u` is in effect: it is the last one and no later lower bound is above it -/
def UpperBound (ms : List Marker) (u : Nat) : Prop :=
  ∃ before after, ms = before ++ .untilV u :: after ∧ ∀ m ∈ after, (∀ b, m ≠ .untilV b) ∧ ∀ a, m = .asOf a → a ≤ u

/-- a member declared after these markers belongs to the given version (an upper bound of 0 means none) -/
def InVersion (ms : List Marker) (version : Nat) : Prop :=
  (∀ a, LowerBound ms a → a ≤ version) ∧ (∀ u, UpperBound ms u → u ≠ 0 → version ≤ u)

/-- Names of the data members satisfying `p` (which may depend on what is declared before the member), in declaration
order. -/
noncomputable def membersWith (c : Class) (p : List Member → FieldD → Prop) : List Str :=
  (List.range c.members.length).filterMap fun i : Nat => match c.members[i]? with
    | some (.field f) => if p (c.members.take i) f then some f.name else none
    | _ => none

/-! ## Nesting of braces in the text -/

/-- Follows the braces in a text starting at nesting depth `d`: the depth at the end, `none` if more is closed than open. -/
def braces : Nat → Str → Option Nat
  | d, [] => some d
  | d, c :: cs =>
    if c = 123 then braces (d + 1) cs
    else if c = 125 then if d = 0 then none else braces (d - 1) cs
    else braces d cs

/-- a text without braces -/
abbrev NoBraces (s : Str) : Prop := ∀ c ∈ s, c ≠ 123 ∧ c ≠ 125

/-- none of the names which may occur in the output contains a brace -/
structure NamesOk (cfg : Config) (tu : TU) : Prop where
  visibility : ∀ v, cfg.visibility = some v → NoBraces v
  classes : ∀ c, NoBraces (tu.cls c).qname
  bases : ∀ c, ∀ b ∈ (tu.cls c).bases, NoBraces b.typeName
  members : ∀ c f, Member.field f ∈ (tu.cls c).members → NoBraces f.name

end Verif.Gen
