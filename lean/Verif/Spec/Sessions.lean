import Verif.Model.Binary

/-!
# Specification vocabulary: values written by one `BinarySerializer` while the program goes on

Between two calls of `write` the program may change, delete and create objects, so each call comes with its own heap.
-/

namespace Verif

/-- one call `serializer.write(value)`: the shared objects at that time, and the value -/
structure Call where
  heap : Heap
  ty : Ty
  value : Val

/-- the calls of a session, one after another -/
def writeCalls (E : Env) (n : Nat) : List Call → WM Unit
  | [] => pure ()
  | c :: cs => do
    write E c.heap n 0 c.ty c.value
    writeCalls E n cs

/-- `FirstContents E n s cs F`: `F a` is the content object `a` had when the session (starting in state `s`) recorded it as written.
Nothing is said about objects which are not written by the session. -/
inductive FirstContents (E : Env) (n : Nat) : WSt → List Call → Heap → Prop
  | nil (s F) : FirstContents E n s [] F
  | cons {s s' c cs F} : write E c.heap n 0 c.ty c.value s = .ok () s' → (∀ a ∈ s'.seen, a ∉ s.seen → F a = c.heap a) →
      FirstContents E n s' cs F → FirstContents E n s (c :: cs) F

end Verif
