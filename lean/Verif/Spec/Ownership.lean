import Verif.Spec.BinRepr

/-!
# Specification vocabulary: whose objects an object refers to after reading

`Val.refs` and `Reachable` are from `Spec/BinRepr.lean`. Addresses are positions in the heap; objects are only ever appended, so the
objects existing in state `s` are those below `s.heap.length`.
-/

namespace Verif

/-- Constructors (member initialisers) do not create shared objects. -/
def NoSharedByDefault (E : Env) : Prop := ∀ c ci, E.cls c = some ci → Val.refsF ci.valInit = [] ∧ Val.refsF ci.defInit = []

/-- `a` is the address of an object created between the states `s` and `s'` of the deserializer -/
def CreatedSince (s s' : RSt) (a : Nat) : Prop := s.heap.length ≤ a ∧ a < s'.heap.length

/-- the deserializer remembers the object at `a` (it has been created by a previous `read` with this deserializer) -/
def Remembered (s : RSt) (a : Nat) : Prop := ∃ id t, (id, t, a) ∈ s.table

end Verif
