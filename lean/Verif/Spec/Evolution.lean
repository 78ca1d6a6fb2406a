import Verif.Spec.BinRepr
import Verif.Spec.BinCost

/-!
# Specification vocabulary: older and newer versions of the same program
-/

namespace Verif

/-- values which do not contain other values -/
def Val.Leaf : Val → Prop
  | .some _ | .ptr _ | .list _ | .map _ | .tup _ | .alt _ _ | .obj _ => False
  | _ => True

/-- `Extends N v v'`: the object `v'` of the newer program has all the members the object `v` of the older program has, with the
same content (in the same sense). It may have further members; their names and values fulfil `N`. No member of the older program's
object is considered such a new member. -/
inductive Extends (N : FieldKey → Val → Prop) : Val → Val → Prop
  | leaf {v} : v.Leaf → Extends N v v
  | some {v v'} : Extends N v v' → Extends N (.some v) (.some v')
  | ptr {v v'} : Extends N v v' → Extends N (.ptr v) (.ptr v')
  | list {vs vs'} : List.Forall₂ (Extends N) vs vs' → Extends N (.list vs) (.list vs')
  | map {kvs kvs'} : List.Forall₂ (Extends N) (kvs.map Prod.fst) (kvs'.map Prod.fst) →
      List.Forall₂ (Extends N) (kvs.map Prod.snd) (kvs'.map Prod.snd) → Extends N (.map kvs) (.map kvs')
  | tup {vs vs'} : List.Forall₂ (Extends N) vs vs' → Extends N (.tup vs) (.tup vs')
  | alt (i) {v v'} : Extends N v v' → Extends N (.alt i v) (.alt i v')
  | obj {st st' : Store} (g : FieldKey → Val) : (st.map Prod.fst).Nodup → (st'.map Prod.fst).Nodup →
      (∀ k v, st.get? k = Option.some v → st'.get? k = Option.some (g k)) →
      (∀ k v, st.get? k = Option.some v → Extends N v (g k)) →
      (∀ k v', st.get? k = none → st'.get? k = Option.some v' → N k v') →
      (∀ k v w, st.get? k = Option.some v → ¬ N k w) → Extends N (.obj st) (.obj st')

/-- New objects of the newer program extend those of the older one. -/
def SameInit (N : FieldKey → Val → Prop) (S : Ty → Prop) (E E' : Env) : Prop :=
  ∀ t, S t → Extends N (E.valInit t) (E'.valInit t) ∧ Extends N (E.defInit t) (E'.defInit t)

/-- Elements of sets and keys of maps are compared by their old members only. -/
def SameOrder (N : FieldKey → Val → Prop) (E E' : Env) : Prop :=
  ∀ t a a' b b', Extends N a a' → Extends N b b' → E'.lt t a' b' = E.lt t a b

/-- The newer program `E'` is able to read the data of the older one: the classes have the same bases; versioned classes stay
versioned, their version does not decrease; for the versions the older program knows, the members are the same. (Members of a class
without own version are governed by the version of a class they are part of; `W` is the highest version of the older program.) -/
structure ReadableBy (S : Ty → Prop) (W : Nat) (E E' : Env) : Prop where
  highest : ∀ c ci m, S (.cls c) → E.cls c = some ci → ci.bin.version = some m → m ≤ W
  classes : ∀ c ci, S (.cls c) → E.cls c = some ci → ∃ ci', E'.cls c = some ci' ∧ ci'.bin.bases = ci.bin.bases ∧
    (ci.bin.readable = true → ci'.bin.readable = true) ∧
    (∀ w, w ≤ ci.bin.version.getD W → activeFields w ci'.bin.readFields = activeFields w ci.bin.readFields) ∧
    match ci.bin.version with
    | none => ci'.bin.version = none
    | some m => ∃ m', ci'.bin.version = some m' ∧ m ≤ m'

/-- `P version type`: what is written – with this version – while writing something with some version. -/
structure WrittenTypes (E : Env) (P : Nat → Ty → Prop) : Prop where
  parts : ∀ w t, P w t → (∀ c, t ≠ .cls c) → ∀ t' ∈ binParts E t, P 0 t'
  bases : ∀ w c ci, P w (.cls c) → E.cls c = some ci → ∀ b ∈ ci.bin.bases, P w (.cls b)
  fields : ∀ w c ci, P w (.cls c) → E.cls c = some ci →
    ∀ f ∈ activeFields (effVersion ci.bin.version w) ci.bin.writeFields, P (effVersion ci.bin.version w) f.ty

/-- The newer program `E'` writes in the format of the older one: for each class the version in effect and the members belonging to
it are the same. -/
def WritesLike (P : Nat → Ty → Prop) (E E' : Env) : Prop :=
  ∀ w c ci, P w (.cls c) → E.cls c = some ci → ∃ ci', E'.cls c = some ci' ∧ ci'.bin.bases = ci.bin.bases ∧
    (ci'.bin.version.isSome = ci.bin.version.isSome) ∧
    effVersion ci'.bin.version w = effVersion ci.bin.version w ∧
    activeFields (effVersion ci.bin.version w) ci'.bin.writeFields =
      activeFields (effVersion ci.bin.version w) ci.bin.writeFields

/-- Hashed containers are iterated in the same order. -/
def SameIteration (N : FieldKey → Val → Prop) (E E' : Env) : Prop :=
  (∀ vs vs', List.Forall₂ (Extends N) vs vs' → List.Forall₂ (Extends N) (E.iter vs) (E'.iter vs')) ∧
  ∀ kvs kvs', Extends N (.map kvs) (.map kvs') → Extends N (.map (E.iterKV kvs)) (.map (E'.iterKV kvs'))

end Verif
