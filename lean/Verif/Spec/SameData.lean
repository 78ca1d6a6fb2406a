import Verif.Spec.BinRetry
import Verif.Spec.Reproducible
import Verif.Props.JsonSets

/-!
# Specification: types whose objects can be read again from the same, now complete, data
-/

namespace Verif

/-- One step of `Resumable`: what objects of the type consist of.

* scalars, strings, pointers, optionals and variants are replaced as a whole (their content is not restricted);
* elements of pairs and sequences are read in place;
* sets and maps (also hashed ones, but not multisets and multimaps): the elements (keys) are properly ordered and there are no shared
  pointers in them because these are different objects every time. `E.lt` is compared for all values; it is up to the environment how values
  of other types are ordered, e.g. all of them as if they were equivalent to the empty string;
* classes: no member is read more than once, i.e. it is listed only once and the bases have no members in common (with the class and
  each other). Which members are read may depend on the version. -/
inductive ResumableStep (E : Env) (S : Ty → Prop) : Ty → Prop
  | replaced {t} : ReplacedAsWhole t = true → ResumableStep E S t
  | pair {a b} : S a → S b → ResumableStep E S (.pair a b)
  | vec {t} : S t → ResumableStep E S (.vec t)
  | set {hashed t} : WithoutSharedPtr E t → (∀ vs, WeakOrderOn (E.lt t) vs) → ResumableStep E S (.set hashed false t)
  | map {hashed k t} : WithoutSharedPtr E k → WithoutSharedPtr E t → (∀ vs, WeakOrderOn (E.lt k) vs) → ResumableStep E S (.map hashed false k t)
  | cls {c ci} : E.cls c = some ci → (ci.bin.readFields.map fun gf => gf.2.key).Nodup →
      (∀ b ∈ ci.bin.bases, ∀ g f, HasField E b g f → ∀ gf ∈ ci.bin.readFields, f.key ≠ gf.2.key) →
      (ci.bin.bases.Pairwise fun a b => ∀ g f g' f', HasField E a g f → HasField E b g' f' → f.key ≠ f'.key) →
      (∀ b ∈ ci.bin.bases, S (.cls b)) → (∀ gf ∈ ci.bin.readFields, S gf.2.ty) → ResumableStep E S (.cls c)

/-- The type and everything its objects consist of is as described by `ResumableStep` (coinductively, so types may be recursive). -/
def Resumable (E : Env) (t : Ty) : Prop := ∃ S : Ty → Prop, S t ∧ ∀ t, S t → ResumableStep E S t

end Verif
