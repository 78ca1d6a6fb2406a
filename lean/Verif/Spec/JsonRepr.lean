import Verif.Props.JsonScalars
import Verif.Props.JsonNames
import Verif.Props.JsonSets
import Verif.Props.JsonMaps

/-!
# Which values the JSON format can represent

`JRepr E H t prior v`: the value `v` of type `t` is representable, where `prior` is the content of the object it is going to
be restored into.
-/

namespace Verif

/-- `FlatPull E cs fs`: `fs` are the members read for the classes `cs` in that order, where a class first reads what its
(listed) bases read and then its own members; all classes have deserialisation code. -/
inductive FlatPull (E : Env) : List ClassId → List Field → Prop
  | nil : FlatPull E [] []
  | cons {c ci cs bs fs} : E.cls c = some ci → ci.json.pullable = true → FlatPull E ci.json.bases bs → FlatPull E cs fs →
      FlatPull E (c :: cs) (bs ++ ci.json.pullFields ++ fs)

/-- A string the format (document level) restores: no NUL, below 4 GiB. -/
def PlainStr (s : Str) : Prop := 0 ∉ s ∧ s.length < 2 ^ 32

inductive JRepr (E : Env) (H : Heap) : Ty → Val → Val → Prop
  -- scalars: any value of the type, except that a `float` must not be NaN; any prior content
  | bool (p b) : JRepr E H .bool p (.bool b)
  | int (p i) (it : IntTy) : it ≠ .char → it ≠ .i16 → it ≠ .u16 → it.lo ≤ i → i < it.hi → JRepr E H (.int it) p (.int i)
  | f32 (p b) : Ieee.isNaN32 b = false → JRepr E H .f32 p (.f32 b)
  | f64 (p b) : JRepr E H .f64 p (.f64 b)
  | enum (p i) (u : IntTy) : u.lo ≤ i → i < u.hi → JRepr E H (.enum u) p (.int i)
  | str (p s) : PlainStr s → JRepr E H .str p (.str s)
  -- non-owning strings are only checked when reading, so the object must already have its value
  | cstr (s) : JRepr E H .cstr (.cstr (some s)) (.cstr (some s))
  | sview (s) : JRepr E H .sview (.cstr (some s)) (.cstr (some s))
  -- times must survive formatting and parsing
  | dateTime (p i) : PlainStr (E.dtPrint i) → E.dtParse (E.dtPrint i) = some i → JRepr E H .dateTime p (.tick i)
  | timeSpan (p i) : PlainStr (E.tsPrint i) → E.tsParse (E.tsPrint i) = some i → JRepr E H .timeSpan p (.tick i)
  -- nullables: the content must not itself be represented by null
  | optNone (t p) : JRepr E H (.opt t) p .null
  | uptrNone (t p) : JRepr E H (.uptr t) p .null
  | sptrNone (t p) : JRepr E H (.sptr t) p .null
  | optSome {t p v} : JRepr E H t (E.valInit t) v → ¬ NullLike H t v → JRepr E H (.opt t) p (.some v)
  | uptrSome {t p v} : JRepr E H t (E.valInit t) v → ¬ NullLike H t v → JRepr E H (.uptr t) p (.ptr v)
  | sptrSome {t p v} : JRepr E H t (E.valInit t) v → ¬ NullLike H t v → JRepr E H (.sptr t) p (.ptr v)
  -- sequences
  | vec {t p vs} : (∀ v ∈ vs, JRepr E H t (E.valInit t) v) → JRepr E H (.vec t) p (.list vs)
  -- sets: elements strictly ascending; the iteration order of hashed sets is some permutation
  | set {hashed t p vs} : (∀ v ∈ vs, JRepr E H t (E.defInit t) v) → (∀ v ∈ vs, v.hasIndet = false) →
      WeakOrderOn (E.lt t) vs → (vs.Pairwise fun a b => E.lt t a b = true) → (E.order hashed vs).Perm vs →
      JRepr E H (.set hashed false t) p (.list vs)
  | multiset {hashed t p vs} : (∀ v ∈ vs, JRepr E H t (E.defInit t) v) → (∀ v ∈ vs, v.hasIndet = false) →
      WeakOrderOn (E.lt t) vs → (vs.Pairwise fun a b => E.lt t b a = false) → (E.order hashed vs).Perm vs →
      (hashed = true → ∀ a ∈ vs, ∀ b ∈ vs, Equivalent (E.lt t) a b → a = b) →
      JRepr E H (.set hashed true t) p (.list vs)
  -- maps: reading merges into the prior content, so its keys must be among those of the value
  | map {hashed t ps kvs} : MapOK E ps → MapOK E kvs → (∀ k v, (.str k, v) ∈ kvs → PlainStr k) →
      (∀ k p, (.str k, p) ∈ ps → ∃ v, (.str k, v) ∈ kvs) →
      (∀ k v p, (.str k, v) ∈ kvs → (.str k, p) ∈ ps → JRepr E H t p v) →
      (∀ k v, (.str k, v) ∈ kvs → (∀ p, (.str k, p) ∉ ps) → JRepr E H t (E.valInit t) v) →
      (E.orderKV hashed kvs).Perm kvs → JRepr E H (.map hashed false .str t) (.map ps) (.map kvs)
  -- multimaps: reading adds, so the prior content must be empty; entries in non-descending order of keys; hashed ones may be
  -- iterated in any order keeping entries of the same key in order
  | multimap {hashed t kvs} : (∀ q ∈ kvs, ∃ k, q.1 = .str k ∧ PlainStr k) →
      (kvs.Pairwise fun a b => E.lt .str b.1 a.1 = false) → (∀ q ∈ kvs, JRepr E H t (E.valInit t) q.2) →
      (E.orderKV hashed kvs).Perm kvs → (∀ k, valuesOf k (E.orderKV hashed kvs) = valuesOf k kvs) →
      JRepr E H (.map hashed true .str t) (.map []) (.map kvs)
  | pair {a b p q v w} : JRepr E H a p v → JRepr E H b q w → JRepr E H (.pair a b) (.tup [p, q]) (.tup [v, w])
  | tuple {ts : List Ty} {ps vs : List Val} : ps.length = ts.length → vs.length = ts.length →
      (∀ (i : Nat) t p v, ts[i]? = some t → ps[i]? = some p → vs[i]? = some v → JRepr E H t p v) →
      JRepr E H (.tuple ts) (.tup ps) (.tup vs)
  | variantMono {ts : List Ty} {i : Nat} {p} : ts[i]? = some .mono → i < 2 ^ 64 → JRepr E H (.variant ts) p (.alt i .mono)
  | variant {ts : List Ty} {i : Nat} {t p v} : ts[i]? = some t → t ≠ .mono → i < 2 ^ 64 → JRepr E H t (E.valInit t) v →
      JRepr E H (.variant ts) p (.alt i v)
  -- objects: `P`/`Q` are the members written/read. Members which are not read must already have their value, members
  -- which are read more than once (via several bases) must survive being read into an object which already has the value.
  -- Different members must have different names.
  | cls {c} {P Q : List Field} {st0 st : Store} (w : Field → Val) : FlatFields E [c] P → FlatPull E [c] Q →
      (∀ f ∈ Q, f ∈ P) → (∀ f ∈ P, ∀ f' ∈ P, f.name = f'.name → f = f') →
      st0.map Prod.fst = st.map Prod.fst → (st.map Prod.fst).Nodup → (∀ f ∈ P, ∃ v, st.get? f.key = some v) →
      (∀ f ∈ P, ∀ v, st.get? f.key = some v → JRepr E H f.ty (w f) v) →
      (∀ f ∈ Q, ∀ p v, st0.get? f.key = some p → st.get? f.key = some v → JRepr E H f.ty p v) →
      (∀ f v, 2 ≤ Q.count f → st.get? f.key = some v → JRepr E H f.ty v v) →
      (∀ k, (∀ f ∈ Q, f.key ≠ k) → st0.get? k = st.get? k) →
      JRepr E H (.cls c) (.obj st0) (.obj st)

end Verif
