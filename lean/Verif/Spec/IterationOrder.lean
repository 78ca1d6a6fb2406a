import Mathlib.Data.List.Forall2
import Verif.Model.Env
import Verif.Model.Json

/-!
# Specification vocabulary: processes which differ in the order in which hashed containers are iterated
-/

namespace Verif

/-- The same program in two processes (or with two implementations of the standard library): everything is the same except for the order
in which hashed sets and maps are iterated. -/
structure SameExceptOrder (E E' : Env) : Prop where
  cls : E'.cls = E.cls
  lt : E'.lt = E.lt
  dtPrint : E'.dtPrint = E.dtPrint
  dtParse : E'.dtParse = E.dtParse
  tsPrint : E'.tsPrint = E.tsPrint
  tsParse : E'.tsParse = E.tsParse
  maxLen : E'.maxLen = E.maxLen

/-- Iterating visits every element exactly once. -/
def VisitsAll (E : Env) : Prop := (∀ l, (E.iter l).Perm l) ∧ ∀ l, (E.iterKV l).Perm l

/-- Documents which are the same up to the order of the items of arrays and of the members of objects, at any depth. -/
inductive SameUpToOrder : Json → Json → Prop
  | same (j) : SameUpToOrder j j
  | arr {js ks js'} : js.Perm ks → List.Forall₂ SameUpToOrder ks js' → SameUpToOrder (.arr js) (.arr js')
  | obj {ms ks ms'} : ms.Perm ks → ks.map Prod.fst = ms'.map Prod.fst →
      List.Forall₂ SameUpToOrder (ks.map Prod.snd) (ms'.map Prod.snd) → SameUpToOrder (.obj ms) (.obj ms')

end Verif
