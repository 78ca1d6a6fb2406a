import Verif.Spec.BinCost
import Verif.Spec.JsonRepr
import Verif.Props.JsonGraph

/-!
# Specification vocabulary: resources needed for reading JSON documents
-/

namespace Verif

mutual
/-- Size of a document: number of values plus number and length of names plus length of strings. -/
def Json.volume : Json → Nat
  | .str s => s.length + 1
  | .arr js => Json.volumeL js + 1
  | .obj ms => Json.volumeM ms + 1
  | _ => 1
def Json.volumeL : List Json → Nat
  | [] => 0
  | j :: js => j.volume + Json.volumeL js
def Json.volumeM : List (Key × Json) → Nat
  | [] => 0
  | (k, j) :: ms => k.bytes.length + 1 + j.volume + Json.volumeM ms
end

/-- how many optionals and pointers are directly nested in each other -/
def Ty.wraps : Ty → Nat
  | .opt t | .uptr t | .sptr t => t.wraps + 1
  | _ => 0

/-- the number of errors in a list (if there is one) -/
def errorCount : Option ErrSt → Nat
  | some st => st.errs.length
  | none => 0

/-- No class has two members of the same name (including those of the bases) and none is read twice via several bases. -/
def ReadOnce (E : Env) (S : Ty → Prop) : Prop :=
  ∀ c, S (.cls c) → ∃ Q, FlatPull E [c] Q ∧ (Q.map Field.name).Nodup

end Verif
