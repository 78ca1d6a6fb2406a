import Verif.Spec.Evolution
import Verif.Spec.JsonFaults
import Verif.Spec.JsonForm
import Verif.Props.JsonObjects

/-!
# Specification vocabulary: JSON documents exchanged between an older and a newer version of a program
-/

namespace Verif

/-- `PartRead E t j t' j'`: when the document `j` is read into an object of type `t`, its part `j'` is read into an object of type
`t'`. -/
inductive PartRead (E : Env) : Ty → Json → Ty → Json → Prop
  | vec {t js j} : j ∈ js → PartRead E (.vec t) (.arr js) t j
  | set {h m t js j} : j ∈ js → PartRead E (.set h m t) (.arr js) t j
  | map {h t} {ms : List (Key × Json)} {m} : m ∈ ms → PartRead E (.map h false .str t) (.obj ms) t m.2
  | multimap {h t} {ms : List (Key × Json)} {m j} : m ∈ ms → j ∈ multimapValues m.2 → PartRead E (.map h true .str t) (.obj ms) t j
  | pair {a b js t j} : (t, j) ∈ [a, b].zip js → PartRead E (.pair a b) (.arr js) t j
  | tuple {ts js t j} : (t, j) ∈ ts.zip js → PartRead E (.tuple ts) (.arr js) t j
  | content {t u j} : t = .opt u ∨ t = .uptr u ∨ t = .sptr u → j ≠ .null → PartRead E t j u j
  | variant {ts : List Ty} {ms : List (Key × Json)} {i : Nat} {t jd} : firstNamed (lit "index") ms = some (.num (.int i)) →
      firstNamed (lit "data") ms = some jd → ts[i]? = some t → PartRead E (.variant ts) (.obj ms) t jd
  | base {c ci b} {ms : List (Key × Json)} : E.cls c = some ci → b ∈ ci.json.bases → PartRead E (.cls c) (.obj ms) (.cls b) (.obj ms)
  | member {c ci} {f : Field} {ms : List (Key × Json)} {j} : E.cls c = some ci → f ∈ ci.json.pullFields →
      firstNamed f.name ms = some j → PartRead E (.cls c) (.obj ms) f.ty j

/-- `S` contains with each type the types of the parts. -/
def ClosedUnderParts (E : Env) (S : Ty → Prop) : Prop := ∀ t j t' j', PartRead E t j t' j' → S t → S t'

/-- The newer program `E'` reads the same members as the older program `E` and in addition those with `added`. -/
def MembersAdded (added : FieldKey → Bool) (S : Ty → Prop) (E E' : Env) : Prop :=
  ∀ c, S (.cls c) → ∃ ci ci', E.cls c = some ci ∧ E'.cls c = some ci' ∧ ci'.qname = ci.qname ∧ ci'.json.bases = ci.json.bases ∧
    ci'.json.pullable = ci.json.pullable ∧ ci'.json.setsRecord = ci.json.setsRecord ∧
    ci.json.pullFields = ci'.json.pullFields.filter fun f => !added f.key

/-- Times are parsed in the same way. -/
def SameTimes (E E' : Env) : Prop := E'.dtParse = E.dtParse ∧ E'.tsParse = E.tsParse

/-- The document contains - at a place where it is read - an added member. -/
inductive MentionsAdded (added : FieldKey → Bool) (E' : Env) : Ty → Json → Prop
  | here {c ci} {f : Field} {ms : List (Key × Json)} : E'.cls c = some ci → f ∈ ci.json.pullFields → added f.key = true →
      (firstNamed f.name ms).isSome = true → MentionsAdded added E' (.cls c) (.obj ms)
  | part {t j t' j'} : PartRead E' t j t' j' → MentionsAdded added E' t' j' → MentionsAdded added E' t j

/-- Both programs end in the same way: with corresponding objects and the same errors, with the same exception etc. -/
def EqualOutcome {ε σ α β : Type} (Q : α → β → Prop) : Res ε σ α → Res ε σ β → Prop
  | .ok a s, .ok b s' => s' = s ∧ Q a b
  | .exc e s, .exc e' s' => e' = e ∧ s' = s
  | .ub, .ub => True
  | .stuck, .stuck => True
  | .fuel, .fuel => True
  | _, _ => False

/-- `FewerErrors s s'`: the errors of `s` are among those of `s'`, in the same order (regardless of the index of the array element they
refer to); otherwise both lists of errors are in the same state. -/
def FewerErrors : Option ErrSt → Option ErrSt → Prop
  | none, none => True
  | some s, some s' => s'.throwOn = s.throwOn ∧ s'.record = s.record ∧ s'.member = s.member ∧
      (s.errs.map fun e => { e with index := 0 }).Sublist (s'.errs.map fun e => { e with index := 0 })
  | _, _ => False

/-- The newer program does not use the name of a member which the older program writes for another member of the same object:
whatever it reads under this name is an old member of the same type. -/
def NamesKept (added : FieldKey → Bool) (S : Ty → Prop) (E E' : Env) : Prop :=
  ∀ c P f g, S (.cls c) → FlatFields E [c] P → g ∈ P → Reads E' c f → f.name = g.name → added f.key = false ∧ f.ty = g.ty

end Verif
