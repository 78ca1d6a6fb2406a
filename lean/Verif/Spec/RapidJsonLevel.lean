import Verif.Model.PushInto

/-!
# Specification: composing documents with the RapidJSON-level functions
-/

namespace Verif

/-- A program adds values to an object under names, one after another: `push(value, name, object, allocator)`. -/
inductive BuildsObject (E : Env) (H : Heap) (n : Nat) : ObjMembers → List (Str × Ty × Val) → ObjMembers → Prop
  | nil {ms} : BuildsObject E H n ms [] ms
  | cons {ms name t v ms1 rest ms'} : pushAsMember E H n t v name ms () = .ok ms1 () → BuildsObject E H n ms1 rest ms' →
      BuildsObject E H n ms ((name, t, v) :: rest) ms'

/-- A program adds values to an array, one after another: `push(value, array, allocator)`. -/
inductive BuildsArray (E : Env) (H : Heap) (n : Nat) : List Json → List (Ty × Val) → List Json → Prop
  | nil {js} : BuildsArray E H n js [] js
  | cons {js t v js1 rest js'} : pushToArray E H n t v js () = .ok js1 () → BuildsArray E H n js1 rest js' →
      BuildsArray E H n js ((t, v) :: rest) js'

/-- A program reads values from an iterator, one after another: `pull(object, iterator, errors)`; `(t, p, v)` stands for
reading into an object of type `t` with content `p` and getting `v`. `js` and `js'` are the items from the iterator's position on,
before and after. -/
inductive ReadsItems (E : Env) (n : Nat) (s : Option ErrSt) : List Json → List (Ty × Val × Val) → List Json → Prop
  | nil {js} : ReadsItems E n s js [] js
  | cons {js t p v js1 rest js' s'} : pullNext E n t js p s = .ok (v, js1) s' → ReadsItems E n s js1 rest js' →
      (s = none → s' = none) → (∀ st, s = some st → ∃ st', s' = some st' ∧ st'.errs = st.errs) →
      ReadsItems E n s js ((t, p, v) :: rest) js'

end Verif
