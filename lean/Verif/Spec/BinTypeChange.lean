import Verif.Spec.BinForm
import Verif.Spec.BinRepr

/-!
# Specification vocabulary: changing types without changing the binary representation

`SameBinary E E' R vw t v vw' t' v'`: the object `v` of type `t` of one program, written with version `vw`, has the same content and the
same structure as the object `v'` of type `t'` of the other program, written with version `vw'`. `R a` are the types which the shared
object at address `a` has in the two programs.
-/

namespace Verif

/-- a number and its number of bytes -/
inductive NumberOf : Ty → Val → Nat → Int → Prop
  | bool (b) : NumberOf .bool (.bool b) 1 (if b then 1 else 0)
  | int (it : IntTy) (i) : it ≠ .i8 → NumberOf (.int it) (.int i) it.bytes i
  | enum (u : IntTy) (i) : u ≠ .i8 → NumberOf (.enum u) (.int i) u.bytes i
  | dateTime (i) : NumberOf .dateTime (.tick i) 8 i
  | timeSpan (i) : NumberOf .timeSpan (.tick i) 8 i

/-- no object -/
inductive NoObject : Ty → Val → Prop
  | opt (t) : NoObject (.opt t) .null
  | uptr (t) : NoObject (.uptr t) .null
  | sptr (t) : NoObject (.sptr t) .null

/-- an object owned by an optional or `std::unique_ptr` -/
inductive Owns : Ty → Val → Ty → Val → Prop
  | opt (t v) : Owns (.opt t) (.some v) t v
  | uptr (t v) : Owns (.uptr t) (.ptr v) t v

/-- a container with its size and its elements in the order in which they are iterated; those of maps are pairs -/
inductive HasElements (E : Env) : Ty → Val → Nat → List (Ty × Val) → Prop
  | vec (t vs) : HasElements E (.vec t) (.list vs) vs.length (vs.map fun v => (t, v))
  | set (hashed multi t vs) : HasElements E (.set hashed multi t) (.list vs) vs.length ((E.order hashed vs).map fun v => (t, v))
  | map (hashed multi k t kvs) : HasElements E (.map hashed multi k t) (.map kvs) kvs.length
      ((E.orderKV hashed kvs).map fun e => (.pair k t, .tup [e.1, e.2]))

/-- what a pair or an object of a class consists of -/
inductive Component where
  /-- the version of a class -/
  | version (n : Nat)
  /-- an object written with the specified version -/
  | object (version : Nat) (t : Ty) (v : Val)

/-- `ComponentsOf E version st cs xs`: the parts of the object `st` which belong to the classes `cs` consist of `xs`: for each class those
of its bases, its version if it is versioned (which defaults to the version of the class) and its members which are part of that version. -/
inductive ComponentsOf (E : Env) (version : Nat) (st : Store) : List ClassId → List Component → Prop
  | nil : ComponentsOf E version st [] []
  | plain {c ci cs bs xs} (w : Field → Val) : E.cls c = some ci → ci.bin.version = none → ComponentsOf E version st ci.bin.bases bs →
      (∀ f ∈ activeFields version ci.bin.writeFields, st.get? f.key = some (w f)) → ComponentsOf E version st cs xs →
      ComponentsOf E version st (c :: cs) (bs ++ (activeFields version ci.bin.writeFields).map (fun f => .object version f.ty (w f)) ++ xs)
  | versioned {c ci d cs bs xs} (w : Field → Val) (eff : Nat) : E.cls c = some ci → ci.bin.version = some d →
      eff = (if version = 0 then d else version) → ComponentsOf E version st ci.bin.bases bs →
      (∀ f ∈ activeFields eff ci.bin.writeFields, st.get? f.key = some (w f)) → ComponentsOf E version st cs xs →
      ComponentsOf E version st (c :: cs)
        (bs ++ .version eff :: (activeFields eff ci.bin.writeFields).map (fun f => .object eff f.ty (w f)) ++ xs)

inductive HasComponents (E : Env) (version : Nat) : Ty → Val → List Component → Prop
  | pair (a b v w) : HasComponents E version (.pair a b) (.tup [v, w]) [.object 0 a v, .object 0 b w]
  | cls {c st xs} : ComponentsOf E version st [c] xs → HasComponents E version (.cls c) (.obj st) xs

inductive SameBinary (E E' : Env) (R : Nat → Option (Ty × Ty)) : Nat → Ty → Val → Nat → Ty → Val → Prop
  | number {vw vw' t v t' v' k i} : NumberOf t v k i → NumberOf t' v' k i → SameBinary E E' R vw t v vw' t' v'
  | f32 (vw vw' b) : SameBinary E E' R vw .f32 (.f32 b) vw' .f32 (.f32 b)
  | f64 (vw vw' b) : SameBinary E E' R vw .f64 (.f64 b) vw' .f64 (.f64 b)
  | str (vw vw' s) : SameBinary E E' R vw .str (.str s) vw' .str (.str s)
  | nothing {vw vw' t v t' v'} : NoObject t v → NoObject t' v' → SameBinary E E' R vw t v vw' t' v'
  | owned {vw vw' t v u w t' v' u' w'} : Owns t v u w → Owns t' v' u' w' → SameBinary E E' R 0 u w 0 u' w' →
      SameBinary E E' R vw t v vw' t' v'
  | shared {vw vw' t t' a} : R a = some (t, t') → SameBinary E E' R vw (.sptr t) (.ref a) vw' (.sptr t') (.ref a)
  | elements {vw vw' t v t' v' k xs ys} : HasElements E t v k xs → HasElements E' t' v' k ys → xs.length = ys.length →
      (∀ (i : Nat) x y, xs[i]? = some x → ys[i]? = some y → SameBinary E E' R 0 x.1 x.2 0 y.1 y.2) → SameBinary E E' R vw t v vw' t' v'
  | components {vw vw' t v t' v' xs ys} : HasComponents E vw t v xs → HasComponents E' vw' t' v' ys → xs.length = ys.length →
      (∀ (i : Nat) n, xs[i]? = some (.version n) ↔ ys[i]? = some (.version n)) →
      (∀ (i : Nat) ver u w ver' u' w', xs[i]? = some (.object ver u w) → ys[i]? = some (.object ver' u' w') →
        SameBinary E E' R ver u w ver' u' w') → SameBinary E E' R vw t v vw' t' v'
  | mono {vw vw' v v'} {ts ts' : List Ty} {i : Nat} : ts[i]? = some .mono → ts'[i]? = some .mono →
      SameBinary E E' R vw (.variant ts) (.alt i v) vw' (.variant ts') (.alt i v')
  | alternative {vw vw' v v' t t'} {ts ts' : List Ty} {i : Nat} : ts[i]? = some t → ts'[i]? = some t' → t ≠ .mono → t' ≠ .mono →
      SameBinary E E' R 0 t v 0 t' v' → SameBinary E E' R vw (.variant ts) (.alt i v) vw' (.variant ts') (.alt i v')

/-- The shared objects have the same content, too. -/
def SameHeap (E E' : Env) (R : Nat → Option (Ty × Ty)) (H H' : Heap) : Prop :=
  ∀ a t t', R a = some (t, t') → ∃ x x', H a = some x ∧ H' a = some x' ∧ SameBinary E E' R 0 t x 0 t' x'

end Verif
