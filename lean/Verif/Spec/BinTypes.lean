import Verif.Model.Binary

/-!
# Specification vocabulary for the safety of binary deserialisation

Which types can be deserialised, which objects are valid objects of a type, and for which element types `std::set<T>` and
`std::map<K, T>` never copy an uninitialised scalar.
-/

namespace Verif

/-- classes of which an object of type `t` directly contains an object (i.e. not via a pointer, container, optional or
variant) -/
def Ty.direct : Ty → List ClassId
  | .cls c => [c]
  | .pair a b => a.direct ++ b.direct
  | _ => []

/-- No class contains itself, be it as base class or as (part of a) member - C++ does not allow that. `rk` is any ranking of
the classes witnessing it. -/
def BinRanked (E : Env) (rk : ClassId → Nat) : Prop :=
  ∀ c ci, E.cls c = some ci →
    (∀ b ∈ ci.bin.bases, rk b < rk c) ∧ (∀ gf ∈ ci.bin.readFields, ∀ d ∈ gf.2.ty.direct, rk d < rk c)

/-- `f` is a member which reading an object of class `c` assigns (if the version is within `g`), be it a member of `c` or of a
base class. -/
inductive HasField (E : Env) : ClassId → Guard → Field → Prop
  | own {c ci g f} : E.cls c = some ci → (g, f) ∈ ci.bin.readFields → HasField E c g f
  | base {c ci b g f} : E.cls c = some ci → b ∈ ci.bin.bases → HasField E b g f → HasField E c g f

/-- A member (identified by its declaring class and name) has one type. -/
def KeyTypes (E : Env) : Prop :=
  ∀ c g f c' g' f', HasField E c g f → HasField E c' g' f' → f.key = f'.key → f.ty = f'.ty

/-- `HasTy E HT t v`: `v` is a valid object of type `t`, where `HT` are the types of the shared objects. Scalars might be
uninitialised. -/
inductive HasTy (E : Env) (HT : List Ty) : Ty → Val → Prop
  | noBool : HasTy E HT .bool .indet
  | noInt (it) : HasTy E HT (.int it) .indet
  | noF32 : HasTy E HT .f32 .indet
  | noF64 : HasTy E HT .f64 .indet
  | noEnum (u) : HasTy E HT (.enum u) .indet
  | bool (b) : HasTy E HT .bool (.bool b)
  | int (it : IntTy) (i) : it.lo ≤ i → i < it.hi → HasTy E HT (.int it) (.int i)
  | f32 (b) : HasTy E HT .f32 (.f32 b)
  | f64 (b) : HasTy E HT .f64 (.f64 b)
  | enum (u : IntTy) (i) : u.lo ≤ i → i < u.hi → HasTy E HT (.enum u) (.int i)
  | str (s) : HasTy E HT .str (.str s)
  | dateTime (i) : 0 ≤ i → i < 2 ^ 64 → HasTy E HT .dateTime (.tick i)
  | timeSpan (i) : -2 ^ 63 ≤ i → i < 2 ^ 63 → HasTy E HT .timeSpan (.tick i)
  | optNone (t) : HasTy E HT (.opt t) .null
  | uptrNone (t) : HasTy E HT (.uptr t) .null
  | sptrNone (t) : HasTy E HT (.sptr t) .null
  | optSome {t v} : HasTy E HT t v → HasTy E HT (.opt t) (.some v)
  | uptrSome {t v} : HasTy E HT t v → HasTy E HT (.uptr t) (.ptr v)
  -- a pointer refers to an existing object of the pointee type
  | sptrSome {t} {a : Nat} : HT[a]? = some t → HasTy E HT (.sptr t) (.ref a)
  | vec {t vs} : (∀ v ∈ vs, HasTy E HT t v) → HasTy E HT (.vec t) (.list vs)
  | set {hashed multi t vs} : (∀ v ∈ vs, HasTy E HT t v) → HasTy E HT (.set hashed multi t) (.list vs)
  | map {hashed multi k t kvs} : (∀ q ∈ kvs, HasTy E HT k q.1) → (∀ q ∈ kvs, HasTy E HT t q.2) →
      HasTy E HT (.map hashed multi k t) (.map kvs)
  | pair {a b x y} : HasTy E HT a x → HasTy E HT b y → HasTy E HT (.pair a b) (.tup [x, y])
  | mono : HasTy E HT .mono .mono
  | variant {ts : List Ty} {i : Nat} {t v} : ts[i]? = some t → HasTy E HT t v → HasTy E HT (.variant ts) (.alt i v)
  | valueless (ts) : HasTy E HT (.variant ts) .valueless
  | cls {c} {st : Store} : (∀ g f, HasField E c g f → (st.get? f.key).isSome = true) →
      (∀ g f v, HasField E c g f → st.get? f.key = some v → HasTy E HT f.ty v) → HasTy E HT (.cls c) (.obj st)

/-- The state of a deserialiser is consistent: every identifier in the table refers to an existing object of the type it has
been registered with and all shared objects are valid objects of their type. -/
structure TypedSt (E : Env) (HT : List Ty) (s : RSt) : Prop where
  len : HT.length = s.heap.length
  table : ∀ id t a, (id, t, a) ∈ s.table → HT[a]? = some t
  heap : ∀ (a : Nat) t v, HT[a]? = some t → s.heap[a]? = some v → HasTy E HT t v

/-- types for which reading overwrites the whole object (or which do not directly contain scalars) -/
def Ty.overwritten : Ty → Bool
  | .bool | .int _ | .f32 | .f64 | .enum _ | .str | .uptr _ | .sptr _ | .vec _ | .set _ _ _ | .map _ _ _ _
  | .dateTime | .timeSpan => true
  | _ => false

/-- `Covered E t p`: after reading an object of type `t` the previous content of which is `p` it does not contain an
uninitialised scalar. For classes: each uninitialised member must be one which is read in every version. -/
inductive Covered (E : Env) : Ty → Val → Prop
  | leaf {t} (p) : t.overwritten = true → Covered E t p
  | opt {t} (p) : Covered E t (E.valInit t) → Covered E (.opt t) p
  | variant {ts : List Ty} (p) : (∀ t ∈ ts, t ≠ .mono → Covered E t (E.valInit t)) → Covered E (.variant ts) p
  | pair {a b x y} : Covered E a x → Covered E b y → Covered E (.pair a b) (.tup [x, y])
  | cls {c} {st : Store} : (st.map Prod.fst).Nodup →
      (∀ g f v, HasField E c g f → st.get? f.key = some v → Covered E f.ty v) →
      (∀ k v, (k, v) ∈ st → v.hasIndet = true → ∃ f, HasField E c ⟨0, 0⟩ f ∧ f.key = k) → Covered E (.cls c) (.obj st)

/-- `Needs E t t'`: deserialising an object of type `t` involves deserialising objects of type `t'`. -/
inductive Needs (E : Env) : Ty → Ty → Prop
  | refl (t) : Needs E t t
  | opt {t t'} : Needs E t t' → Needs E (.opt t) t'
  | uptr {t t'} : Needs E t t' → Needs E (.uptr t) t'
  | sptr {t t'} : Needs E t t' → Needs E (.sptr t) t'
  | vec {t t'} : Needs E t t' → Needs E (.vec t) t'
  | set {h m t t'} : Needs E t t' → Needs E (.set h m t) t'
  | mapKey {h m k t t'} : Needs E k t' → Needs E (.map h m k t) t'
  | mapVal {h m k t t'} : Needs E t t' → Needs E (.map h m k t) t'
  | fst {a b t'} : Needs E a t' → Needs E (.pair a b) t'
  | snd {a b t'} : Needs E b t' → Needs E (.pair a b) t'
  | alt {ts t t'} : t ∈ ts → t ≠ .mono → Needs E t t' → Needs E (.variant ts) t'
  | base {c ci b t'} : E.cls c = some ci → b ∈ ci.bin.bases → Needs E (.cls b) t' → Needs E (.cls c) t'
  | field {c ci gf t'} : E.cls c = some ci → gf ∈ ci.bin.readFields → Needs E gf.2.ty t' → Needs E (.cls c) t'

/-- `t` itself is supported; for classes: there is deserialisation code and the constructors yield valid objects; for sets
and maps: the elements are completely read, see `Covered`. -/
def LocallyOk (E : Env) : Ty → Prop
  | .int it => it ≠ .i8
  | .enum u => u ≠ .i8
  | .cstr | .sview | .tuple _ | .mono => False
  | .variant ts => ts ≠ []
  | .set _ _ t => Covered E t (E.defInit t)
  | .map _ _ k t => Covered E k (E.valInit k) ∧ Covered E t (E.valInit t)
  | .cls c => ∃ ci, E.cls c = some ci ∧ ci.bin.readable = true ∧ HasTy E [] (.cls c) (.obj ci.valInit) ∧
      HasTy E [] (.cls c) (.obj ci.defInit)
  | _ => True

/-- `t` can be deserialised. -/
def Readable (E : Env) (t : Ty) : Prop := ∀ t', Needs E t t' → LocallyOk E t'

end Verif
