import Verif.Props.JsonObjects
import Verif.Props.JsonScalars

/-!
# Specification vocabulary for the safety of JSON deserialisation

Which types can be deserialised from JSON and which objects are valid objects of a type.
-/

namespace Verif

/-- A member (identified by its declaring class and name) has one type. -/
def JsonKeyTypes (E : Env) : Prop :=
  ∀ c f c' f', Reads E c f → Reads E c' f' → f.key = f'.key → f.ty = f'.ty

/-- `JsonTyped E t v`: `v` is a valid object of type `t`. Scalars might be uninitialised. -/
inductive JsonTyped (E : Env) : Ty → Val → Prop
  | noBool : JsonTyped E .bool .indet
  | noInt (it) : JsonTyped E (.int it) .indet
  | noF32 : JsonTyped E .f32 .indet
  | noF64 : JsonTyped E .f64 .indet
  | noEnum (u) : JsonTyped E (.enum u) .indet
  | noCstr : JsonTyped E .cstr .indet
  | bool (b) : JsonTyped E .bool (.bool b)
  | int (it : IntTy) (i) : (intRange it).1 ≤ i → i < (intRange it).2 → JsonTyped E (.int it) (.int i)
  | f32 (b) : JsonTyped E .f32 (.f32 b)
  | f64 (b) : JsonTyped E .f64 (.f64 b)
  | enum (u : IntTy) (i) : (intRange u).1 ≤ i → i < (intRange u).2 → JsonTyped E (.enum u) (.int i)
  | str (s) : JsonTyped E .str (.str s)
  | cstr (s) : JsonTyped E .cstr (.cstr s)
  | sview (s) : JsonTyped E .sview (.cstr s)
  | dateTime (i) : JsonTyped E .dateTime (.tick i)
  | timeSpan (i) : JsonTyped E .timeSpan (.tick i)
  | optNone (t) : JsonTyped E (.opt t) .null
  | uptrNone (t) : JsonTyped E (.uptr t) .null
  | sptrNone (t) : JsonTyped E (.sptr t) .null
  | optSome {t v} : JsonTyped E t v → JsonTyped E (.opt t) (.some v)
  | uptrSome {t v} : JsonTyped E t v → JsonTyped E (.uptr t) (.ptr v)
  | sptrSome {t v} : JsonTyped E t v → JsonTyped E (.sptr t) (.ptr v)
  -- an object which is shared with others (it is never accessed when reading into the pointer)
  | sptrRef (t a) : JsonTyped E (.sptr t) (.ref a)
  | vec {t vs} : (∀ v ∈ vs, JsonTyped E t v) → JsonTyped E (.vec t) (.list vs)
  | set {hashed multi t vs} : (∀ v ∈ vs, JsonTyped E t v) → JsonTyped E (.set hashed multi t) (.list vs)
  | map {hashed multi k t kvs} : (∀ q ∈ kvs, JsonTyped E k q.1) → (∀ q ∈ kvs, JsonTyped E t q.2) →
      JsonTyped E (.map hashed multi k t) (.map kvs)
  | pair {a b x y} : JsonTyped E a x → JsonTyped E b y → JsonTyped E (.pair a b) (.tup [x, y])
  | tuple {ts : List Ty} {vs : List Val} : vs.length = ts.length →
      (∀ (i : Nat) t v, ts[i]? = some t → vs[i]? = some v → JsonTyped E t v) → JsonTyped E (.tuple ts) (.tup vs)
  | mono : JsonTyped E .mono .mono
  | variant {ts : List Ty} {i : Nat} {t v} : ts[i]? = some t → JsonTyped E t v → JsonTyped E (.variant ts) (.alt i v)
  | valueless (ts) : JsonTyped E (.variant ts) .valueless
  | cls {c} {st : Store} : (∀ f, Reads E c f → (st.get? f.key).isSome = true) →
      (∀ f v, Reads E c f → st.get? f.key = some v → JsonTyped E f.ty v) → JsonTyped E (.cls c) (.obj st)

/-- `JsonNeeds E t t'`: deserialising an object of type `t` involves deserialising objects of type `t'`. -/
inductive JsonNeeds (E : Env) : Ty → Ty → Prop
  | refl (t) : JsonNeeds E t t
  | opt {t t'} : JsonNeeds E t t' → JsonNeeds E (.opt t) t'
  | uptr {t t'} : JsonNeeds E t t' → JsonNeeds E (.uptr t) t'
  | sptr {t t'} : JsonNeeds E t t' → JsonNeeds E (.sptr t) t'
  | vec {t t'} : JsonNeeds E t t' → JsonNeeds E (.vec t) t'
  | set {h m t t'} : JsonNeeds E t t' → JsonNeeds E (.set h m t) t'
  | mapVal {h m k t t'} : JsonNeeds E t t' → JsonNeeds E (.map h m k t) t'
  | fst {a b t'} : JsonNeeds E a t' → JsonNeeds E (.pair a b) t'
  | snd {a b t'} : JsonNeeds E b t' → JsonNeeds E (.pair a b) t'
  | elem {ts t t'} : t ∈ ts → JsonNeeds E t t' → JsonNeeds E (.tuple ts) t'
  | alt {ts t t'} : t ∈ ts → t ≠ .mono → JsonNeeds E t t' → JsonNeeds E (.variant ts) t'
  | base {c ci b t'} : E.cls c = some ci → b ∈ ci.json.bases → JsonNeeds E (.cls b) t' → JsonNeeds E (.cls c) t'
  | field {c ci f t'} : E.cls c = some ci → f ∈ ci.json.pullFields → JsonNeeds E f.ty t' → JsonNeeds E (.cls c) t'

/-- `t` itself is supported: there is a `pull` overload for it; for classes: there is deserialisation code (the class has a
default constructor) and the constructors yield valid objects. -/
def JsonLocallyOk (E : Env) : Ty → Prop
  | .int it => it = .i8 ∨ it = .u8 ∨ it = .i32 ∨ it = .u32 ∨ it = .i64 ∨ it = .u64
  | .map _ _ k _ => k = .str
  | .mono => False
  | .variant ts => ts ≠ []
  | .cls c => ∃ ci, E.cls c = some ci ∧ ci.json.pullable = true ∧ JsonTyped E (.cls c) (.obj ci.valInit) ∧
      JsonTyped E (.cls c) (.obj ci.defInit)
  | _ => True

/-- `t` can be deserialised from JSON. -/
def JsonReadable (E : Env) (t : Ty) : Prop := ∀ t', JsonNeeds E t t' → JsonLocallyOk E t'

end Verif
