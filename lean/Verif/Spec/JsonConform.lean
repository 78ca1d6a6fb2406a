import Verif.Props.JsonSets
import Verif.Props.JsonScalars
import Verif.Props.JsonObjects
import Verif.Spec.JsonTypes

/-!
# Specification: which JSON documents conform to a C++ type

`Conforms E t j` describes, following README.md and the doc comments of lib/json/reflector.h, the documents which can be
stored in an object of type `t` without anything to complain about. It speaks about the document and the type only; how (and
in which order) the document is processed, the error object and the previous content of the object do not occur.
-/

namespace Verif

/-- The item `j` of an array is turned into the set element `v`. -/
def ReadAs (E : Env) (t : Ty) (j : Json) (v : Val) : Prop :=
  ∃ n s s', pull E n t j (E.defInit t) s = .ok v s'

inductive Conforms (E : Env) : Ty → Json → Prop
  | bool (b) : Conforms E .bool (.bool b)
  | int (it n) : Conforms E (.int it) (.num n)
  | f32 (n) : Conforms E .f32 (.num n)
  | f64 (n) : Conforms E .f64 (.num n)
  | enum {u j} : EnumNumber u.signed j → Conforms E (.enum u) j
  | str (s) : Conforms E .str (.str s)
  | cstr (s) : Conforms E .cstr (.str s)
  | sview (s) : Conforms E .sview (.str s)
  | vec {t js} : (∀ j ∈ js, Conforms E t j) → Conforms E (.vec t) (.arr js)
  | multiset {hashed t js} : (∀ j ∈ js, Conforms E t j) → Conforms E (.set hashed true t) (.arr js)
  -- no two items of an array for a set are read as equivalent elements
  | set {hashed t js} : (∀ j ∈ js, Conforms E t j) →
      (js.Pairwise fun j j' => ∀ v v', ReadAs E t j v → ReadAs E t j' v' → ¬ Equivalent (E.lt t) v v') →
      Conforms E (.set hashed false t) (.arr js)
  | map {hashed t} {ms : List (Key × Json)} : (∀ k j, (k, j) ∈ ms → Conforms E t j) →
      Conforms E (.map hashed false .str t) (.obj ms)
  -- a member of the object for a multimap is an array of values or a single value
  | multimap {hashed t} {ms : List (Key × Json)} : (∀ k js, (k, .arr js) ∈ ms → ∀ j ∈ js, Conforms E t j) →
      (∀ k j, (k, j) ∈ ms → j.jtype ≠ .array → Conforms E t j) → Conforms E (.map hashed true .str t) (.obj ms)
  | pair {a b j j'} : Conforms E a j → Conforms E b j' → Conforms E (.pair a b) (.arr [j, j'])
  | tuple {ts js} : js.length = ts.length → (∀ (i : Nat) t j, ts[i]? = some t → js[i]? = some j → Conforms E t j) →
      Conforms E (.tuple ts) (.arr js)
  | optNull (t) : Conforms E (.opt t) .null
  | uptrNull (t) : Conforms E (.uptr t) .null
  | sptrNull (t) : Conforms E (.sptr t) .null
  | opt {t j} : Conforms E t j → Conforms E (.opt t) j
  | uptr {t j} : Conforms E t j → Conforms E (.uptr t) j
  | sptr {t j} : Conforms E t j → Conforms E (.sptr t) j
  -- `index` is the number of an alternative and `data` conforms to it (and is irrelevant for `std::monostate`)
  | variant {ts : List Ty} {ms : List (Key × Json)} {i : Nat} {t jd} : firstNamed (lit "index") ms = some (.num (.int i)) →
      i < 2 ^ 64 → firstNamed (lit "data") ms = some jd → ts[i]? = some t → t ≠ .mono → Conforms E t jd →
      Conforms E (.variant ts) (.obj ms)
  | variantMono {ts : List Ty} {ms : List (Key × Json)} {i : Nat} : firstNamed (lit "index") ms = some (.num (.int i)) →
      i < 2 ^ 64 → (firstNamed (lit "data") ms).isSome → ts[i]? = some .mono → Conforms E (.variant ts) (.obj ms)
  -- members which are present conform; so does the whole object to all base classes
  | cls {c ci} {ms : List (Key × Json)} : E.cls c = some ci → (∀ b ∈ ci.json.bases, Conforms E (.cls b) (.obj ms)) →
      (∀ f ∈ ci.json.pullFields, ∀ j, firstNamed f.name ms = some j → Conforms E f.ty j) → Conforms E (.cls c) (.obj ms)
  | dateTime {s r} : CutAtNul s r → (E.dtParse r).isSome → Conforms E .dateTime (.str s)
  | timeSpan {s r} : CutAtNul s r → (E.tsParse r).isSome → Conforms E .timeSpan (.str s)

/-- The ordering of each type is a strict weak order on the (initialised) values which can be read; this is a precondition of
`std::set`. -/
def OrderedItems (E : Env) : Prop :=
  ∀ t (vs : List Val), (∀ v ∈ vs, v.hasIndet = false ∧ ∃ j, ReadAs E t j v) → WeakOrderOn (E.lt t) vs

end Verif
