import Verif.Spec.JsonForm
import Verif.Spec.JsonRepr
import Verif.Lemmas.Own

/-!
# Specification vocabulary: changing types without changing the JSON representation

A newer program `E'` (with objects on the heap `H'`) uses other types than the older program `E` (with objects on the heap `H`).
`SameContent E H E' H' t v t' v'`: the object `v` of type `t` in one program has the same content as the object `v'` of type `t'` in the
other one. There are six kinds of content: scalars, nothing, what a pointer or optional holds, items, members and alternatives.
-/

namespace Verif

/-- a scalar and what it stands for (as JSON): a truth value, a whole number, a floating-point number or a text -/
inductive ScalarOf (E : Env) : Ty → Val → Json → Prop
  | bool (b) : ScalarOf E .bool (.bool b) (.bool b)
  | int (it : IntTy) (i) : it ≠ .char → it ≠ .i16 → it ≠ .u16 → ScalarOf E (.int it) (.int i) (.num (.int i))
  | enum (u i) : ScalarOf E (.enum u) (.int i) (.num (.int i))
  | f32 (b) : ScalarOf E .f32 (.f32 b) (.num (.dbl (Ieee.widen b)))
  | f64 (b) : ScalarOf E .f64 (.f64 b) (.num (.dbl b))
  | str (s) : s.length < 2 ^ 32 → ScalarOf E .str (.str s) (.str s)
  | sview (s) : s.length < 2 ^ 32 → ScalarOf E .sview (.cstr (some s)) (.str s)
  | cstr (s) : s.length < 2 ^ 32 → 0 ∉ s → ScalarOf E .cstr (.cstr (some s)) (.str s)
  | dateTime (i) : (E.dtPrint i).length < 2 ^ 32 → ScalarOf E .dateTime (.tick i) (.str (E.dtPrint i))
  | timeSpan (i) : (E.tsPrint i).length < 2 ^ 32 → ScalarOf E .timeSpan (.tick i) (.str (E.tsPrint i))

/-- something which holds nothing -/
inductive Absent : Ty → Val → Prop
  | opt (t) : Absent (.opt t) .null
  | uptr (t) : Absent (.uptr t) .null
  | sptr (t) : Absent (.sptr t) .null
  | cstr : Absent .cstr (.cstr none)
  | sview : Absent .sview (.cstr none)

/-- something which holds an object of another type -/
inductive Holds (H : Heap) : Ty → Val → Ty → Val → Prop
  | opt (t v) : Holds H (.opt t) (.some v) t v
  | uptr (t v) : Holds H (.uptr t) (.ptr v) t v
  | sptr (t v) : Holds H (.sptr t) (.ptr v) t v
  | uptrRef {t a v} : H a = some v → Holds H (.uptr t) (.ref a) t v
  | sptrRef {t a v} : H a = some v → Holds H (.sptr t) (.ref a) t v

/-- something which has items, in the order in which they are iterated -/
inductive HasItems (E : Env) : Ty → Val → List (Ty × Val) → Prop
  | vec (t vs) : HasItems E (.vec t) (.list vs) (vs.map fun v => (t, v))
  | set (hashed multi t vs) : HasItems E (.set hashed multi t) (.list vs) ((E.order hashed vs).map fun v => (t, v))
  | pair (a b v w) : HasItems E (.pair a b) (.tup [v, w]) [(a, v), (b, w)]
  | tuple {ts : List Ty} {vs : List Val} : vs.length = ts.length → HasItems E (.tuple ts) (.tup vs) (ts.zip vs)

/-- something which has named members: the data members of a class (those of its bases first) or the entries of a map. The members of a
multimap are its keys without repetition, each with the list of its values. -/
inductive HasMembers (E : Env) : Ty → Val → List (Str × Ty × Val) → Prop
  | cls {c fs} {st : Store} (w : Field → Val) : FlatFields E [c] fs → (∀ f ∈ fs, st.get? f.key = some (w f)) →
      HasMembers E (.cls c) (.obj st) (fs.map fun f => (f.name, f.ty, w f))
  | map {hashed t kvs} {es : List (Str × Val)} : E.orderKV hashed kvs = es.map (fun e => (.str e.1, e.2)) → (∀ e ∈ es, PlainStr e.1) →
      HasMembers E (.map hashed false .str t) (.map kvs) (es.map fun e => (e.1, t, e.2))
  | multimap {hashed t kvs} {es : List (Str × Val)} : E.orderKV hashed kvs = es.map (fun e => (.str e.1, e.2)) →
      (∀ e ∈ es, PlainStr e.1) →
      HasMembers E (.map hashed true .str t) (.map kvs)
        ((es.map Prod.fst).eraseDups.map fun k => (k, .vec t, .list (es.filterMap fun e => if e.1 = k then some e.2 else none)))

inductive SameContent (E : Env) (H : Heap) (E' : Env) (H' : Heap) : Ty → Val → Ty → Val → Prop
  | scalar {t v t' v' j} : ScalarOf E t v j → ScalarOf E' t' v' j → SameContent E H E' H' t v t' v'
  | absent {t v t' v'} : Absent t v → Absent t' v' → SameContent E H E' H' t v t' v'
  -- a pointer or optional has the same content as what it holds
  | held {t v u w t' v'} : Holds H t v u w → SameContent E H E' H' u w t' v' → SameContent E H E' H' t v t' v'
  | held' {t v t' v' u' w'} : Holds H' t' v' u' w' → SameContent E H E' H' t v u' w' → SameContent E H E' H' t v t' v'
  | items {t v t' v' xs ys} : HasItems E t v xs → HasItems E' t' v' ys → xs.length = ys.length →
      (∀ (i : Nat) x y, xs[i]? = some x → ys[i]? = some y → SameContent E H E' H' x.1 x.2 y.1 y.2) → SameContent E H E' H' t v t' v'
  | members {t v t' v' xs ys} : HasMembers E t v xs → HasMembers E' t' v' ys → xs.map Prod.fst = ys.map Prod.fst →
      (∀ (i : Nat) x y, xs[i]? = some x → ys[i]? = some y → SameContent E H E' H' x.2.1 x.2.2 y.2.1 y.2.2) →
      SameContent E H E' H' t v t' v'
  | mono {ts ts' : List Ty} {i : Nat} {v v'} : ts[i]? = some .mono → ts'[i]? = some .mono →
      SameContent E H E' H' (.variant ts) (.alt i v) (.variant ts') (.alt i v')
  | alternative {ts ts' : List Ty} {i : Nat} {t t' v v'} : ts[i]? = some t → ts'[i]? = some t' → t ≠ .mono → t' ≠ .mono →
      SameContent E H E' H' t v t' v' → SameContent E H E' H' (.variant ts) (.alt i v) (.variant ts') (.alt i v')

/-- the same document, except for who owns the memory of the names of members -/
def SameDocument (j j' : Json) : Prop := own j = own j'

end Verif
