import Verif.Spec.BinRepr

/-!
# Specification: programs in which whatever has been read from a stream can be written and read again

The following says what is needed of the program (class declarations, initial contents of objects, comparison functions) so that
an object which has been read from an arbitrary stream - possibly written with an older version - survives being written (with
the default version) and read again.
-/

namespace Verif

/-- `Current E w cs Q`: `Q` are the members of the classes `cs` (those of bases first), each with the version in effect when it is
written and its version condition, if the writer is called with version `w`. The same members are written and read, the versions
written are supported by the reader, and *all* members are included in the version in effect. -/
inductive Current (E : Env) : Nat → List ClassId → List (Nat × Guard × Field) → Prop
  | nil (w) : Current E w [] []
  | cons {w c ci cs bs fs} (eff : Nat) : E.cls c = some ci → ci.bin.readable = true → ci.bin.writeFields = ci.bin.readFields →
      (ci.bin.version = none → eff = w) →
      (∀ m, ci.bin.version = some m → eff = (if w = 0 then m else w) ∧ eff ≤ m ∧ m < 2 ^ 56) →
      (∀ gf ∈ ci.bin.readFields, gf.1.holds eff = true) → Current E w ci.bin.bases bs → Current E w cs fs →
      Current E w (c :: cs) (bs ++ ci.bin.readFields.map (fun gf => (eff, gf.1, gf.2)) ++ fs)

/-- Objects having the content `p` initially can be written right away (with version `w`) and are restored. In particular `p` is
initialised and does not contain pointers to shared objects. -/
def SelfRestoring (E : Env) (w : Nat) (t : Ty) (p : Val) : Prop := ∀ HT ρ, BRepr E HT ρ w w t p p

/-- types whose objects are replaced as a whole when they are read -/
def ReplacedAsWhole : Ty → Bool
  | .bool | .int _ | .f32 | .f64 | .enum _ | .str | .dateTime | .timeSpan | .opt _ | .uptr _ | .sptr _ | .variant _ => true
  | _ => false

/-- `Prepared E w t p`: whatever part of the initial content `p` is possibly left as it is when reading can be written. -/
inductive Prepared (E : Env) : Nat → Ty → Val → Prop
  | replaced {w t} (p) : ReplacedAsWhole t = true → Prepared E w t p
  | vec {w t} {ps : List Val} : (∀ p ∈ ps, Prepared E 0 t p) → Prepared E w (.vec t) (.list ps)
  -- reading adds to sets and maps
  | set {w hashed multi t} {ps : List Val} : SelfRestoring E w (.set hashed multi t) (.list ps) →
      Prepared E w (.set hashed multi t) (.list ps)
  | map {w hashed multi k t} {ps : List (Val × Val)} : SelfRestoring E w (.map hashed multi k t) (.map ps) →
      Prepared E w (.map hashed multi k t) (.map ps)
  | pair {w a b p q} : Prepared E 0 a p → Prepared E 0 b q → Prepared E w (.pair a b) (.tup [p, q])
  -- members which streams of some version do not contain must be initialised
  | cls {w c} {Q : List (Nat × Guard × Field)} {st : Store} : Current E w [c] Q → (st.map Prod.fst).Nodup →
      (∀ q ∈ Q, ∃ p, st.get? q.2.2.key = some p) →
      (∀ q ∈ Q, ∀ p, st.get? q.2.2.key = some p → Prepared E q.1 q.2.2.ty p) →
      (∀ q ∈ Q, ∀ p, st.get? q.2.2.key = some p → (∀ version, q.2.1.holds version = true) ∨ SelfRestoring E q.1 q.2.2.ty p) →
      (∀ k v, (∀ q ∈ Q, q.2.2.key ≠ k) → st.get? k = some v → v.refs = []) →
      Prepared E w (.cls c) (.obj st)

/-- `PartOf E w t w' t'`: an object of type `t` written with version `w` consists of objects of type `t'`, which are written with
version `w'`. -/
inductive PartOf (E : Env) : Nat → Ty → Nat → Ty → Prop
  | refl (w t) : PartOf E w t w t
  | opt {w t w' t'} : PartOf E 0 t w' t' → PartOf E w (.opt t) w' t'
  | uptr {w t w' t'} : PartOf E 0 t w' t' → PartOf E w (.uptr t) w' t'
  | sptr {w t w' t'} : PartOf E 0 t w' t' → PartOf E w (.sptr t) w' t'
  | vec {w t w' t'} : PartOf E 0 t w' t' → PartOf E w (.vec t) w' t'
  | set {w h m t w' t'} : PartOf E 0 t w' t' → PartOf E w (.set h m t) w' t'
  | mapKey {w h m k t w' t'} : PartOf E 0 k w' t' → PartOf E w (.map h m k t) w' t'
  | mapVal {w h m k t w' t'} : PartOf E 0 t w' t' → PartOf E w (.map h m k t) w' t'
  | fst {w a b w' t'} : PartOf E 0 a w' t' → PartOf E w (.pair a b) w' t'
  | snd {w a b w' t'} : PartOf E 0 b w' t' → PartOf E w (.pair a b) w' t'
  | alt {w ts t w' t'} : t ∈ ts → PartOf E 0 t w' t' → PartOf E w (.variant ts) w' t'
  | member {w c Q w' t'} {q : Nat × Guard × Field} : Current E w [c] Q → q ∈ Q → PartOf E q.1 q.2.2.ty w' t' →
      PartOf E w (.cls c) w' t'

/-- Objects of the type do not contain pointers to shared objects. -/
def WithoutShared (E : Env) (t : Ty) : Prop := ∀ w' t', PartOf E 0 t w' (.sptr t') → False

/-- What is needed of a type itself. -/
def LocallyKept (E : Env) (w : Nat) : Ty → Prop
  | .opt t | .uptr t | .sptr t | .vec t => Prepared E 0 t (E.valInit t)
  -- a hashed multiset/multimap is restored only if equivalent elements are visited in the order of insertion
  | .set hashed multi t => Prepared E 0 t (E.defInit t) ∧ WithoutShared E t ∧
      (hashed = true → multi = true → ∀ vs k, groupBy (E.lt t) id k (E.iter vs) = groupBy (E.lt t) id k vs)
  | .map hashed multi k t => Prepared E 0 k (E.valInit k) ∧ Prepared E 0 t (E.valInit t) ∧ WithoutShared E k ∧
      (hashed = true → multi = true → ∀ kvs a, groupBy (E.lt k) Prod.fst a (E.iterKV kvs) = groupBy (E.lt k) Prod.fst a kvs)
  | .variant ts => ts.length ≤ 255 ∧ ∀ t ∈ ts, t ≠ .mono → Prepared E 0 t (E.valInit t)
  -- no member is handled twice (via several bases)
  | .cls c => ∃ Q, Current E w [c] Q ∧ (Q.map fun q => q.2.2.key).Nodup
  | _ => True

/-- What is needed of a type including all types its objects consist of. -/
def Kept (E : Env) (w : Nat) (t : Ty) : Prop := ∀ w' t', PartOf E w t w' t' → LocallyKept E w' t'

/-- Comparison functions are strict weak orders on (initialised, representable) values of the type. -/
def OrderedKeys (E : Env) : Prop :=
  ∀ t (vs : List Val), (∀ v ∈ vs, v.hasIndet = false ∧ ∃ HT ρ p, BRepr E HT ρ 0 0 t p v) → WeakOrderOn (E.lt t) vs

mutual
/-- lengths of all strings and containers within a value -/
def Val.sizes : Val → List Nat
  | .str s => [s.length]
  | .some v => v.sizes
  | .ptr v => v.sizes
  | .list vs => vs.length :: Val.sizesL vs
  | .map kvs => kvs.length :: Val.sizesKV kvs
  | .tup vs => Val.sizesL vs
  | .alt _ v => v.sizes
  | .obj fs => Val.sizesF fs
  | _ => []
def Val.sizesL : List Val → List Nat
  | [] => []
  | v :: vs => v.sizes ++ Val.sizesL vs
def Val.sizesKV : List (Val × Val) → List Nat
  | [] => []
  | (k, v) :: kvs => k.sizes ++ v.sizes ++ Val.sizesKV kvs
def Val.sizesF : List (FieldKey × Val) → List Nat
  | [] => []
  | (_, v) :: fs => v.sizes ++ Val.sizesF fs
end

/-- Nothing has 2^56 or more elements (as such lengths can not be written). -/
def Val.Countable (v : Val) : Prop := ∀ n ∈ v.sizes, n < 2 ^ 56

/-! ## Which members are saved and loaded -/

/-- `Saved E w c eff f`: the member `f` - of the class `c` or of one of its bases - is written when an object of class `c` is written
with version `w`; `eff` is the version in effect. -/
inductive Saved (E : Env) : Nat → ClassId → Nat → Field → Prop
  | own {w c ci f} : E.cls c = some ci → ci.bin.version = none → f ∈ activeFields w ci.bin.writeFields → Saved E w c w f
  | ownVersioned {w c ci m f} (eff : Nat) : E.cls c = some ci → ci.bin.version = some m → eff = (if w = 0 then m else w) →
      f ∈ activeFields eff ci.bin.writeFields → Saved E w c eff f
  | base {w c ci b eff f} : E.cls c = some ci → b ∈ ci.bin.bases → Saved E w b eff f → Saved E w c eff f

/-- `Loadable E c f`: the member `f` - of the class `c` or of one of its bases - is read from streams of some version. -/
inductive Loadable (E : Env) : ClassId → Field → Prop
  | own {c ci g f} : E.cls c = some ci → (g, f) ∈ ci.bin.readFields → Loadable E c f
  | base {c ci b f} : E.cls c = some ci → b ∈ ci.bin.bases → Loadable E b f → Loadable E c f

end Verif
