import Verif.Spec.JsonErrors
import Verif.Spec.JsonObjectTypes
import Verif.Spec.JsonRepr

/-!
# Specification: what an object is like after an exception has been thrown while reading it

`Left E t j p q`: reading `j` into an object of type `t` which was `p` might be aborted leaving `q`. The parts which have been read
completely are described by what reading just them gives (`Gives`).
-/

namespace Verif

/-- Reading the JSON value `j` into the object `p` gives `v`. -/
def Gives (E : Env) (t : Ty) (j : Json) (p v : Val) : Prop := ∃ n s s', pull E n t j p s = .ok v s'

/-- The JSON value has the type needed for reading the parts of an object of type `t` from it. -/
def Opens : Ty → Json → Prop
  | .vec _, .arr _ => True
  | .set _ _ _, .arr _ => True
  | .map _ _ _ _, .obj _ => True
  | .pair _ _, .arr js => js.length = 2
  | .tuple ts, .arr js => js.length = ts.length
  | .opt _, _ => True
  | .uptr _, _ => True
  | .sptr _, _ => True
  | .variant _, .obj _ => True
  | .cls _, .obj _ => True
  | _, _ => False

/-- Reading the bases `bs` of an object one after another. -/
inductive BasesRead (E : Env) (ms : List (Key × Json)) : List ClassId → Val → Val → Prop
  | nil (v) : BasesRead E ms [] v v
  | cons {b bs v v' w} : Gives E (.cls b) (.obj ms) v v' → BasesRead E ms bs v' w → BasesRead E ms (b :: bs) v w

/-- Reading the members `fs` of an object one after another: a member which is present in the document is read, others are left
alone. -/
inductive MembersRead (E : Env) (ms : List (Key × Json)) : List Field → Store → Store → Prop
  | nil (st) : MembersRead E ms [] st st
  | absent {f fs st st'} : findMember f.name ms = none → MembersRead E ms fs st st' → MembersRead E ms (f :: fs) st st'
  | present {f fs} {st st' : Store} {j x x'} : findMember f.name ms = some j → st.get? f.key = some x → Gives E f.ty j x x' →
      MembersRead E ms fs (st.set f.key x') st' → MembersRead E ms (f :: fs) st st'

inductive Left (E : Env) : Ty → Json → Val → Val → Prop
  -- the value as a whole is wrong: the object is as before
  | same {t j} (p) : ¬ Opens t j → Left E t j p p
  -- arrays: the previous elements are gone; there are the elements read before and the incompletely read one
  | vec {t done j rest p vs q} : Gives E (.vec t) (.arr done) p (.list vs) → Left E t j (E.valInit t) q →
      Left E (.vec t) (.arr (done ++ j :: rest)) p (.list (vs ++ [q]))
  -- sets: there are only the elements read before; either the next one could not be read ...
  | set {h m t done j rest p vs q} : Gives E (.set h m t) (.arr done) p (.list vs) → Left E t j (E.defInit t) q →
      Left E (.set h m t) (.arr (done ++ j :: rest)) p (.list vs)
  -- ... or an equivalent one is present already
  | duplicate {h t done j rest p vs x} : Gives E (.set h false t) (.arr done) p (.list vs) → Gives E t j (E.defInit t) x →
      (∃ y ∈ vs, E.lt t x y = false ∧ E.lt t y x = false) → Left E (.set h false t) (.arr (done ++ j :: rest)) p (.list vs)
  -- maps: as after reading the entries before; additionally there is the incompletely read value
  | map {h t done k j rest ps kvs q} : Gives E (.map h false .str t) (.obj done) (.map ps) (.map kvs) →
      Left E t j ((mapFind (E.lt .str) (.str (cstrOf k.bytes)) kvs).getD (E.valInit t)) q →
      Left E (.map h false .str t) (.obj (done ++ (k, j) :: rest)) (.map ps) (.map (mapSet (E.lt .str) (.str (cstrOf k.bytes)) q kvs))
  -- multimaps: likewise; an array stands for several values
  | multimap {h t done k j rest ps kvs q} : (∀ js, j ≠ .arr js) → Gives E (.map h true .str t) (.obj done) (.map ps) (.map kvs) →
      Left E t j (E.valInit t) q →
      Left E (.map h true .str t) (.obj (done ++ (k, j) :: rest)) (.map ps)
        (.map (mapInsertMulti (E.lt .str) (.str (cstrOf k.bytes)) q kvs))
  | multimapArr {h t done k jdone j jrest rest ps kvs q} :
      Gives E (.map h true .str t) (.obj (done ++ [(k, .arr jdone)])) (.map ps) (.map kvs) → Left E t j (E.valInit t) q →
      Left E (.map h true .str t) (.obj (done ++ (k, .arr (jdone ++ j :: jrest)) :: rest)) (.map ps)
        (.map (mapInsertMulti (E.lt .str) (.str (cstrOf k.bytes)) q kvs))
  -- pairs and tuples: components before the incompletely read one have been read, those after it are as before
  | fst {a b j j' x y q} : Left E a j x q → Left E (.pair a b) (.arr [j, j']) (.tup (x :: y)) (.tup (q :: y))
  | snd {a b j j' x x' y z q} : Gives E a j x x' → Left E b j' y q → Left E (.pair a b) (.arr [j, j']) (.tup (x :: y :: z)) (.tup (x' :: q :: z))
  | tuple {ts1 t ts2 js1 j js2 ps vs x ps2 q} : js1.length = ts1.length → ps.length = ts1.length →
      js2.length = ts2.length → Gives E (.tuple ts1) (.arr js1) (.tup ps) (.tup vs) → Left E t j x q →
      Left E (.tuple (ts1 ++ t :: ts2)) (.arr (js1 ++ j :: js2)) (.tup (ps ++ x :: ps2)) (.tup (vs ++ q :: ps2))
  -- pointers, optionals and variants: the previous object is gone; there is the incompletely read new one
  | uptr {t j q} (p) : j ≠ .null → Left E t j (E.valInit t) q → Left E (.uptr t) j p (.ptr q)
  | sptr {t j q} (p) : j ≠ .null → Left E t j (E.valInit t) q → Left E (.sptr t) j p (.ptr q)
  | opt {t j q} (p) : j ≠ .null → Left E t j (E.valInit t) q → Left E (.opt t) j p (.some q)
  | variant {ts : List Ty} {ms jd} {i : Nat} {t q} (p) : findMember (lit "index") ms = some (.num (.int i)) → i < 2 ^ 64 →
      findMember (lit "data") ms = some jd → ts[i]? = some t → t ≠ .mono → Left E t jd (E.valInit t) q →
      Left E (.variant ts) (.obj ms) p (.alt i q)
  -- classes: bases and members before the incompletely read one have been read, others are as before
  | base {c ci bs b bs' ms p v q} : E.cls c = some ci → ci.json.bases = bs ++ b :: bs' → BasesRead E ms bs p v →
      Left E (.cls b) (.obj ms) v q → Left E (.cls c) (.obj ms) p q
  | member {c ci fs f fs' ms p} {st st' : Store} {j x q} : E.cls c = some ci → ci.json.pullFields = fs ++ f :: fs' →
      BasesRead E ms ci.json.bases p (.obj st) → MembersRead E ms fs st st' → findMember f.name ms = some j →
      st'.get? f.key = some x → Left E f.ty j x q → Left E (.cls c) (.obj ms) p (.obj (st'.set f.key q))

/-- Types whose objects are replaced as a whole when they are read. -/
def WhollyReplaced : Ty → Prop
  | .pair _ _ | .tuple _ | .map _ _ _ _ | .cls _ => False
  | _ => True

/-- Types and documents for which reading the document twice is the same as reading it once: there are no multimaps (other than within
containers which are replaced) and objects which are read into maps do not contain the same name several times. Members of classes might be
read several times (via different base classes); a key identifies a member. -/
inductive Rereadable (E : Env) : Ty → Json → Prop
  | replaced {t j} : WhollyReplaced t → Rereadable E t j
  | mismatch {t j} : ¬ Opens t j → Rereadable E t j
  | pair {a b j j'} : Rereadable E a j → Rereadable E b j' → Rereadable E (.pair a b) (.arr [j, j'])
  | tuple {ts : List Ty} {js : List Json} : (∀ (i : Nat) t j, ts[i]? = some t → js[i]? = some j → Rereadable E t j) →
      Rereadable E (.tuple ts) (.arr js)
  | map {h t} {ms : List (Key × Json)} : (ms.map fun m => cstrOf m.1.bytes).Nodup → (∀ k j, (k, j) ∈ ms → Rereadable E t j) →
      Rereadable E (.map h false .str t) (.obj ms)
  | cls {c} {Q : List Field} {ms : List (Key × Json)} : FlatPull E [c] Q → (∀ f ∈ Q, ∀ g ∈ Q, f.key = g.key → f = g) →
      (∀ f ∈ Q, ∀ j, findMember f.name ms = some j → Rereadable E f.ty j) → Rereadable E (.cls c) (.obj ms)

end Verif
