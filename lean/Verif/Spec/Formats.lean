import Verif.Spec.BinRepr

/-!
# Specification vocabulary: using both formats
-/

namespace Verif

/-- The iteration order of hashed containers does not depend on the addresses of shared objects their elements refer to. -/
structure IterNoAddresses (E : Env) : Prop where
  iter : ∀ (ρ : Nat → Nat) l, E.iter (Val.renameL ρ l) = Val.renameL ρ (E.iter l)
  iterKV : ∀ (ρ : Nat → Nat) l, E.iterKV (Val.renameKV ρ l) = Val.renameKV ρ (E.iterKV l)

end Verif
