import Verif.Model.Bytes

/-!
# Specification vocabulary: how shared pointers look like in binary data
-/

namespace Verif

/-- The bytes of an identifier: variable-length (marker bit at 7k, `k` minimal) below 2^55, 8 bytes otherwise. -/
inductive IdBytes : Nat → Str → Prop
  | short {a k : Nat} : a < 2 ^ 55 → 1 ≤ k → k ≤ 8 → a < 2 ^ (7 * k) → (1 < k → 2 ^ (7 * (k - 1)) ≤ a) →
      IdBytes a (beBytes k (a + 2 ^ (7 * k)))
  | long {a : Nat} : 2 ^ 55 ≤ a → a < 2 ^ 64 → IdBytes a (beBytes 8 a)

/-- binary data as a sequence of data not depending on addresses and pointers to the objects at the specified addresses; `again`: the
object has been written before -/
inductive Piece where
  | data (bs : Str)
  | pointer (again : Bool) (a : Nat)

/-- The bytes of such a sequence if the object at address `a` was at address `ρ a`. -/
inductive Renders (ρ : Nat → Nat) : List Piece → Str → Prop
  | nil : Renders ρ [] []
  | data {ps out} (bs : Str) : Renders ρ ps out → Renders ρ (.data bs :: ps) (bs ++ out)
  | first {ps out bs} {a : Nat} : IdBytes (ρ a) bs → Renders ρ ps out →
      Renders ρ (.pointer false a :: ps) ((if 2 ^ 55 ≤ ρ a then 5 else 1) :: (bs ++ out))
  | again {ps out bs} {a : Nat} : IdBytes (ρ a) bs → Renders ρ ps out →
      Renders ρ (.pointer true a :: ps) ((if 2 ^ 55 ≤ ρ a then 6 else 2) :: (bs ++ out))

end Verif
