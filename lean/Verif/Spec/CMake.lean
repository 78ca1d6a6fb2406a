import Verif.Model.CMake
import Verif.Props.CommandLine

/-!
# Specification: invoking the generator via CMake
-/

namespace Verif.CMake
open Verif.Cli (Parts semicolon)

/-- `l` are the elements of the list `v` (the non-empty parts between semicolons) -/
def Items (v : Str) (l : List Str) : Prop := ∃ ps, Parts v ps ∧ l = ps.filter fun p => p ≠ []

/-- a value meaning "false" -/
def FalseConstant (x : Str) : Prop :=
  upper x ∈ [lit "0", lit "FALSE", lit "OFF", lit "N", lit "NO", lit "IGNORE", lit "NOTFOUND"] ∨ lit "-NOTFOUND" <:+ x

/-- lists which do not count as "true": the empty list, a list with just one element which means "false" and lists the last element of which
ends with `-NOTFOUND` -/
inductive Off : List Str → Prop
  | empty : Off []
  | one {x} : FalseConstant x → Off [x]
  | last {l x} : lit "-NOTFOUND" <:+ x → Off (l ++ [x])

/-- the options `r` made of the elements `l` of a property: each one prefixed with `pre`; none if the list does not count as true -/
def Contributes (pre : Str) (l r : List Str) : Prop := (Off l ∧ r = []) ∨ (¬ Off l ∧ r = l.map (pre ++ ·))

/-- the option for the C++ standard -/
def StdOption (v : Str) (r : List Str) : Prop :=
  (v = [] ∧ r = []) ∨ (v ∈ [lit "98", lit "11", lit "14", lit "17", lit "20", lit "23", lit "26"] ∧ r = [lit "-std=c++" ++ v])

/-- The options `r` for a target specified via `CLANG_OPTIONS_FROM_TARGETS`: its C++ standard, compile flags, compile options, definitions
and include directories. -/
def TargetOptions (props : Str → Str → Str) (t : Str) (r : List Str) : Prop :=
  ∃ std fs os ds is fs' os' ds' is', StdOption (props t (lit "CXX_STANDARD")) std ∧
    (Items (props t (lit "COMPILE_FLAGS")) fs ∧ Contributes [] fs fs') ∧
    (Items (props t (lit "COMPILE_OPTIONS")) os ∧ Contributes [] os os') ∧
    (Items (props t (lit "COMPILE_DEFINITIONS")) ds ∧ Contributes (lit "-D") ds ds') ∧
    (Items (props t (lit "INCLUDE_DIRECTORIES")) is ∧ Contributes (lit "-I") is is') ∧
    r = std ++ fs' ++ os' ++ ds' ++ is'

/-- likewise for `CLANG_OPTIONS_FROM_DEPENDENCIES`; what is not a target is ignored -/
def DependencyOptions (isTarget : Str → Bool) (props : Str → Str → Str) (t : Str) (r : List Str) : Prop :=
  (isTarget t = false ∧ r = []) ∨
  (isTarget t = true ∧ ∃ os ds is os' ds' is',
    (Items (props t (lit "INTERFACE_COMPILE_OPTIONS")) os ∧ Contributes [] os os') ∧
    (Items (props t (lit "INTERFACE_COMPILE_DEFINITIONS")) ds ∧ Contributes (lit "-D") ds ds') ∧
    (Items (props t (lit "INTERFACE_INCLUDE_DIRECTORIES")) is ∧ Contributes (lit "-I") is is') ∧
    r = os' ++ ds' ++ is')

/-- keywords of the function -/
def keywords : List Str := optionKeywords ++ singleKeywords ++ multiKeywords

/-- A section of the function's arguments: a keyword and the values following it (none of which is a keyword). -/
structure Section where
  keyword : Str
  values : List Str

def Section.WellFormed (s : Section) : Prop := s.keyword ∈ keywords ∧ ∀ v ∈ s.values, v ∉ keywords

/-- no element is empty or contains a semicolon (CMake splits unquoted arguments there and drops empty ones) -/
def Element (a : Str) : Prop := a ≠ [] ∧ semicolon ∉ a

end Verif.CMake
