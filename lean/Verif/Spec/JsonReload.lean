import Verif.Spec.JsonRepr
import Verif.Spec.JsonForm
import Verif.Spec.JsonConform
import Verif.Spec.JsonObjectTypes

/-!
# Specification: programs in which whatever has been read can be written and read again

The following says what is needed of the program (initial contents of objects, class declarations, comparison functions, time
conversions) so that an object which has been read from an arbitrary document survives being written and read again.
-/

namespace Verif

/-- Documents as RapidJSON holds them (integers of 64 bits, lengths of strings of 32 bits) without NaN. -/
inductive Storable : Json → Prop
  | null : Storable .null
  | bool (b) : Storable (.bool b)
  | int {i : Int} : -(2 ^ 63) ≤ i → i < 2 ^ 64 → Storable (.num (.int i))
  | dbl {d} : ¬ (Ieee.exp64 d = 2047 ∧ Ieee.man64 d ≠ 0) → Storable (.num (.dbl d))
  | str {s : Str} : s.length < 2 ^ 32 → Storable (.str s)
  | arr {js} : (∀ j ∈ js, Storable j) → Storable (.arr js)
  | obj {ms : List (Key × Json)} : (∀ k j, (k, j) ∈ ms → k.bytes.length < 2 ^ 32) → (∀ k j, (k, j) ∈ ms → Storable j) →
      Storable (.obj ms)

/-- Types whose objects are replaced as a whole when they are read (in contrast to those read component by component or
merged). -/
def Replaced : Ty → Prop
  | .pair _ _ | .tuple _ | .map _ _ _ _ | .cls _ => False
  | _ => True

/-- `Settled E H t p`: whatever part of `p` is left as it is when reading - because the document does not mention it or has an
error there - can be written and read again, provided it is initialised at all. Multimaps must be empty initially (reading
adds to them). -/
inductive Settled (E : Env) (H : Heap) : Ty → Val → Prop
  | replaced {t p} : Replaced t → (ValidObj E H false t p → JRepr E H t p p) → Settled E H t p
  | pair {a b p q} : Settled E H a p → Settled E H b q → Settled E H (.pair a b) (.tup [p, q])
  | tuple {ts : List Ty} {ps : List Val} : ps.length = ts.length →
      (∀ (i : Nat) t p, ts[i]? = some t → ps[i]? = some p → Settled E H t p) → Settled E H (.tuple ts) (.tup ps)
  | map {hashed t ps} : MapOK E ps → (∀ k v, (.str k, v) ∈ ps → PlainStr k) → (∀ k v, (.str k, v) ∈ ps → Settled E H t v) →
      Settled E H (.map hashed false .str t) (.map ps)
  | multimap {hashed t} : Settled E H (.map hashed true .str t) (.map [])
  -- `P`/`Q`: the members which are written/read; those which are not read (e.g. because they are `const`) have to be
  -- representable anyway
  | cls {c} {P Q : List Field} {st : Store} : FlatFields E [c] P → FlatPull E [c] Q → (st.map Prod.fst).Nodup →
      (∀ f ∈ P, ∃ v, st.get? f.key = some v) → (∀ f ∈ Q, ∀ v, st.get? f.key = some v → Settled E H f.ty v) →
      (∀ f ∈ P, f ∉ Q → ∀ v, st.get? f.key = some v → ValidObj E H false f.ty v → ∃ w, JRepr E H f.ty w v) →
      Settled E H (.cls c) (.obj st)

/-- Reading an object of the type a second time does not add anything: no multimaps (other than within containers which are
replaced). -/
inductive NoMultimap (E : Env) : Ty → Prop
  | replaced {t} : Replaced t → NoMultimap E t
  | pair {a b} : NoMultimap E a → NoMultimap E b → NoMultimap E (.pair a b)
  | tuple {ts : List Ty} : (∀ t ∈ ts, NoMultimap E t) → NoMultimap E (.tuple ts)
  | map {hashed t} : NoMultimap E t → NoMultimap E (.map hashed false .str t)
  | cls {c} {P : List Field} : FlatFields E [c] P → (∀ f ∈ P, NoMultimap E f.ty) → NoMultimap E (.cls c)

/-- What is needed of a type itself. -/
def LocallyReloadable (E : Env) (H : Heap) : Ty → Prop
  | .opt t => Settled E H t (E.valInit t)
  | .uptr t => Settled E H t (E.valInit t)
  | .sptr t => Settled E H t (E.valInit t)
  | .vec t => Settled E H t (E.valInit t)
  -- a hashed multiset is restored only if elements which are equivalent are equal
  | .set hashed multi t => Settled E H t (E.defInit t) ∧
      (hashed = true → multi = true → ∀ a b, Equivalent (E.lt t) a b → a = b)
  -- a hashed multimap is restored only if the entries of a key are visited in order
  | .map hashed multi _ t => Settled E H t (E.valInit t) ∧
      (hashed = true → multi = true → ∀ kvs k, valuesOf k (E.iterKV kvs) = valuesOf k kvs)
  | .variant ts => ∀ t ∈ ts, t ≠ .mono → Settled E H t (E.valInit t)
  -- all members which are read are written, under different names; members read more than once are not multimaps
  | .cls c => ∃ P Q, FlatFields E [c] P ∧ FlatPull E [c] Q ∧ (∀ f ∈ Q, f ∈ P) ∧
      (∀ f ∈ P, ∀ f' ∈ P, f.name = f'.name → f = f') ∧ (∀ f, 2 ≤ Q.count f → NoMultimap E f.ty)
  -- times which have been parsed are formatted to something which is parsed as the same time
  | .dateTime => ∀ s i, E.dtParse s = some i → PlainStr (E.dtPrint i) ∧ E.dtParse (E.dtPrint i) = some i
  | .timeSpan => ∀ s i, E.tsParse s = some i → PlainStr (E.tsPrint i) ∧ E.tsParse (E.tsPrint i) = some i
  | _ => True

/-- What is needed of a type including all types its objects consist of. -/
def Reloadable (E : Env) (H : Heap) (t : Ty) : Prop := ∀ t', JsonNeeds E t t' → LocallyReloadable E H t'

end Verif
