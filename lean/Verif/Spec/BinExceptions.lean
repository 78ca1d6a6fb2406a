import Verif.Model.ReadX

/-!
# Specification: reading a part completely, reading a part until an exception is thrown

The state `RSt` consists of the input which is left, the identifiers known and the shared objects which have been created.
-/

namespace Verif

/-- Reading an object of type `t` (the previous content of which is `p`) in state `s` yields `v`; the state is `s'` then. -/
def BinReads (E : Env) (version : Nat) (t : Ty) (p : Val) (s : RSt) (v : Val) (s' : RSt) : Prop :=
  ∃ n, read E n version t p s = .ok v s'

/-- Reading an object of type `t` (the previous content of which is `p`) in state `s` throws `e`; the object is `q` then and the state
is `s'`. -/
def BinThrows (E : Env) (version : Nat) (t : Ty) (p : Val) (s : RSt) (e : BExc) (q : Val) (s' : RSt) : Prop :=
  ∃ n, readX E n version t p s = .exc (e, q) s'

/-- Several objects of type `t` (with previous contents `ps`) are read one after the other. -/
inductive BinReadsEach (E : Env) (t : Ty) : List Val → RSt → List Val → RSt → Prop
  | nil (s) : BinReadsEach E t [] s [] s
  | cons {p ps s v s1 vs s'} : BinReads E 0 t p s v s1 → BinReadsEach E t ps s1 vs s' → BinReadsEach E t (p :: ps) s (v :: vs) s'

/-- The parts of the base classes `bs` are read one after the other. -/
inductive BinReadsBases (E : Env) (version : Nat) : List ClassId → Val → RSt → Val → RSt → Prop
  | nil (v s) : BinReadsBases E version [] v s v s
  | cons {b bs p s v s1 q s'} : BinReads E version (.cls b) p s v s1 → BinReadsBases E version bs v s1 q s' →
      BinReadsBases E version (b :: bs) p s q s'

/-- The members `fs` are read one after the other. -/
inductive BinReadsMembers (E : Env) (version : Nat) : List Field → Store → RSt → Store → RSt → Prop
  | nil (st s) : BinReadsMembers E version [] st s st s
  | cons {f : Field} {fs} {st : Store} {p s v s1 st' s'} : st.get? f.key = some p → BinReads E version f.ty p s v s1 →
      BinReadsMembers E version fs (st.set f.key v) s1 st' s' → BinReadsMembers E version (f :: fs) st s st' s'

/-- types whose objects are assigned in one go -/
def AssignedAtOnce : Ty → Bool
  | .bool | .int _ | .f32 | .f64 | .enum _ | .str | .dateTime | .timeSpan => true
  | _ => false

end Verif
