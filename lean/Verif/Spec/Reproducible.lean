import Verif.Spec.IterationOrder

/-!
# Specification vocabulary: which types an object consists of
-/

namespace Verif

/-- `ConsistsOf E t t'`: writing an object of type `t` (in one of the formats) involves writing objects of type `t'`. -/
inductive ConsistsOf (E : Env) : Ty → Ty → Prop
  | refl (t) : ConsistsOf E t t
  | enum (u) : ConsistsOf E (.enum u) (.int u)
  | opt {t t'} : ConsistsOf E t t' → ConsistsOf E (.opt t) t'
  | uptr {t t'} : ConsistsOf E t t' → ConsistsOf E (.uptr t) t'
  | sptr {t t'} : ConsistsOf E t t' → ConsistsOf E (.sptr t) t'
  | vec {t t'} : ConsistsOf E t t' → ConsistsOf E (.vec t) t'
  | set {h m t t'} : ConsistsOf E t t' → ConsistsOf E (.set h m t) t'
  | entry {h m k t t'} : ConsistsOf E (.pair k t) t' → ConsistsOf E (.map h m k t) t'
  | fst {a b t'} : ConsistsOf E a t' → ConsistsOf E (.pair a b) t'
  | snd {a b t'} : ConsistsOf E b t' → ConsistsOf E (.pair a b) t'
  | elem {ts t t'} : t ∈ ts → ConsistsOf E t t' → ConsistsOf E (.tuple ts) t'
  | alt {ts t t'} : t ∈ ts → ConsistsOf E t t' → ConsistsOf E (.variant ts) t'
  | jsonBase {c ci b t'} : E.cls c = some ci → b ∈ ci.json.bases → ConsistsOf E (.cls b) t' → ConsistsOf E (.cls c) t'
  | jsonMember {c ci f t'} : E.cls c = some ci → f ∈ ci.json.pushFields → ConsistsOf E f.ty t' → ConsistsOf E (.cls c) t'
  | binBase {c ci b t'} : E.cls c = some ci → b ∈ ci.bin.bases → ConsistsOf E (.cls b) t' → ConsistsOf E (.cls c) t'
  | binMember {c ci gf t'} : E.cls c = some ci → gf ∈ ci.bin.writeFields → ConsistsOf E gf.2.ty t' → ConsistsOf E (.cls c) t'

/-- No hashed sets or maps are involved. -/
def WithoutHashed (E : Env) (t : Ty) : Prop := ∀ t', ConsistsOf E t t' → (∀ m u, t' ≠ .set true m u) ∧ ∀ m k u, t' ≠ .map true m k u

/-- No shared pointers are involved. -/
def WithoutSharedPtr (E : Env) (t : Ty) : Prop := ∀ t', ConsistsOf E t t' → ∀ u, t' ≠ .sptr u

end Verif
