import Verif.Spec.BinReload
import Verif.Spec.BinTypes

/-!
# Specification: objects which are the same once they have been read
-/

namespace Verif

/-- `SameOnceRead E t p q`: the contents `p` and `q` of an object of type `t` differ only in what is replaced by reading the object:

* scalars, strings, pointers, optionals and variants are replaced as a whole;
* sequences are resized, so all elements including new ones (`E.valInit t`) must be the same once they have been read;
* objects of classes: members which are never read must have the same value, members which are read must be read for all versions and be
  the same once they have been read.

There is no rule for sets and maps because reading adds to them. -/
inductive SameOnceRead (E : Env) : Ty → Val → Val → Prop
  | replaced {t} (p q) : ReplacedAsWhole t = true → SameOnceRead E t p q
  | pair {a b x y x' y'} : SameOnceRead E a x x' → SameOnceRead E b y y' → SameOnceRead E (.pair a b) (.tup [x, y]) (.tup [x', y'])
  | vec {t ps qs} : (∀ p ∈ E.valInit t :: ps, ∀ q ∈ E.valInit t :: qs, SameOnceRead E t p q) →
      SameOnceRead E (.vec t) (.list ps) (.list qs)
  | cls {c} {st st' : Store} : st.map Prod.fst = st'.map Prod.fst → (st.map Prod.fst).Nodup →
      (∀ g f, HasField E c g f → ∀ version, g.holds version = true) →
      (∀ k, (∀ g f, HasField E c g f → f.key ≠ k) → st.get? k = st'.get? k) →
      (∀ g f x y, HasField E c g f → st.get? f.key = some x → st'.get? f.key = some y → SameOnceRead E f.ty x y) →
      SameOnceRead E (.cls c) (.obj st) (.obj st')

end Verif
