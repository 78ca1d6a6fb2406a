import Verif.Model.Binary
import Verif.Lemmas.Containers

/-!
# Which values the binary format can represent, and what it means to be restored

A restored object graph equals the original one up to the addresses of shared objects: `v.rename ρ` is `v` with address `a`
replaced by `ρ a`.
-/

namespace Verif

mutual
/-- replace the addresses of shared objects -/
def Val.rename (ρ : Nat → Nat) : Val → Val
  | .some v => .some (v.rename ρ)
  | .ptr v => .ptr (v.rename ρ)
  | .ref a => .ref (ρ a)
  | .list vs => .list (Val.renameL ρ vs)
  | .map kvs => .map (Val.renameKV ρ kvs)
  | .tup vs => .tup (Val.renameL ρ vs)
  | .alt i v => .alt i (v.rename ρ)
  | .obj fs => .obj (Val.renameF ρ fs)
  | v => v
def Val.renameL (ρ : Nat → Nat) : List Val → List Val
  | [] => []
  | v :: vs => v.rename ρ :: Val.renameL ρ vs
def Val.renameKV (ρ : Nat → Nat) : List (Val × Val) → List (Val × Val)
  | [] => []
  | (k, v) :: kvs => (k.rename ρ, v.rename ρ) :: Val.renameKV ρ kvs
def Val.renameF (ρ : Nat → Nat) : List (FieldKey × Val) → List (FieldKey × Val)
  | [] => []
  | (k, v) :: fs => (k, v.rename ρ) :: Val.renameF ρ fs
end

mutual
/-- addresses of shared objects a value refers to directly -/
def Val.refs : Val → List Nat
  | .some v => v.refs
  | .ptr v => v.refs
  | .ref a => [a]
  | .list vs => Val.refsL vs
  | .map kvs => Val.refsKV kvs
  | .tup vs => Val.refsL vs
  | .alt _ v => v.refs
  | .obj fs => Val.refsF fs
  | _ => []
def Val.refsL : List Val → List Nat
  | [] => []
  | v :: vs => v.refs ++ Val.refsL vs
def Val.refsKV : List (Val × Val) → List Nat
  | [] => []
  | (k, v) :: kvs => k.refs ++ v.refs ++ Val.refsKV kvs
def Val.refsF : List (FieldKey × Val) → List Nat
  | [] => []
  | (_, v) :: fs => v.refs ++ Val.refsF fs
end

/-- Objects that can be reached from a value via shared pointers; `H a` is the object at address `a`. -/
inductive Reachable (H : Heap) (v : Val) : Nat → Prop
  | direct {a} : a ∈ v.refs → Reachable H v a
  | step {a x b} : Reachable H v a → H a = some x → b ∈ x.refs → Reachable H v b

/-- The value `v'` on heap `H'` is a copy of the object graph `v` on heap `H`: `ρ` maps objects to their copies, different
objects have different copies and the content of a copy is the content of the original, referring to the copies. -/
structure GraphCopy (H : Heap) (v : Val) (H' : Heap) (v' : Val) (ρ : Nat → Nat) : Prop where
  root : v' = v.rename ρ
  inj : ∀ a b, Reachable H v a → Reachable H v b → ρ a = ρ b → a = b
  content : ∀ a, Reachable H v a → ∃ x, H a = some x ∧ H' (ρ a) = some (x.rename ρ)

/-- members the version condition of which holds -/
def activeFields (version : Nat) (fs : List (Guard × Field)) : List Field :=
  (fs.filter fun gf => gf.1.holds version).map Prod.snd

/-- `FlatBin E vw vr cs Q`: `Q` are the members written and read for the classes `cs`, in that order, when the writer is
called with version `vw` and the reader with version `vr`; each member comes with the version in effect when it is written
and when it is read. A class first handles what its (listed) bases handle and then its own members. If it is versioned, the
version in effect is written - so both sides agree on it - and it must not exceed the class' version. -/
inductive FlatBin (E : Env) : Nat → Nat → List ClassId → List (Nat × Nat × Field) → Prop
  | nil (vw vr) : FlatBin E vw vr [] []
  | plain {vw vr c ci cs bs fs} : E.cls c = some ci → ci.bin.readable = true → ci.bin.version = none →
      FlatBin E vw vr ci.bin.bases bs → activeFields vw ci.bin.writeFields = activeFields vr ci.bin.readFields →
      FlatBin E vw vr cs fs →
      FlatBin E vw vr (c :: cs) (bs ++ (activeFields vr ci.bin.readFields).map (fun f => (vw, vr, f)) ++ fs)
  | versioned {vw vr c ci m cs bs fs} (eff : Nat) : E.cls c = some ci → ci.bin.readable = true → ci.bin.version = some m →
      eff = (if vw = 0 then m else vw) → eff ≤ m →
      FlatBin E vw vr ci.bin.bases bs → activeFields eff ci.bin.writeFields = activeFields eff ci.bin.readFields →
      FlatBin E vw vr cs fs →
      FlatBin E vw vr (c :: cs) (bs ++ (activeFields eff ci.bin.readFields).map (fun f => (eff, eff, f)) ++ fs)

/-- `BRepr E HT ρ vw vr t prior v`: the value `v` of type `t` is representable when written with version `vw` and restored
with version `vr` into an object having the content `prior`. `HT a` is the type of the shared object at address `a` (an
address occurs with one pointee type only). `ρ` only matters if `prior` contains pointers (i.e. not for new objects). -/
inductive BRepr (E : Env) (HT : Nat → Option Ty) (ρ : Nat → Nat) : Nat → Nat → Ty → Val → Val → Prop
  | bool (vw vr p b) : BRepr E HT ρ vw vr .bool p (.bool b)
  | int (vw vr p i) (it : IntTy) : it ≠ .i8 → it.lo ≤ i → i < it.hi → BRepr E HT ρ vw vr (.int it) p (.int i)
  | f32 (vw vr p b) : BRepr E HT ρ vw vr .f32 p (.f32 b)
  | f64 (vw vr p b) : BRepr E HT ρ vw vr .f64 p (.f64 b)
  | enum (vw vr p i) (u : IntTy) : u ≠ .i8 → u.lo ≤ i → i < u.hi → BRepr E HT ρ vw vr (.enum u) p (.int i)
  | str (vw vr p s) : s.length ≤ E.maxLen → BRepr E HT ρ vw vr .str p (.str s)
  | dateTime (vw vr p i) : 0 ≤ i → i < 2 ^ 64 → BRepr E HT ρ vw vr .dateTime p (.tick i)
  | timeSpan (vw vr p i) : -2 ^ 63 ≤ i → i < 2 ^ 63 → BRepr E HT ρ vw vr .timeSpan p (.tick i)
  | optNone (vw vr t p) : BRepr E HT ρ vw vr (.opt t) p .null
  | uptrNone (vw vr t p) : BRepr E HT ρ vw vr (.uptr t) p .null
  | sptrNone (vw vr t p) : BRepr E HT ρ vw vr (.sptr t) p .null
  | optSome {vw vr t p v} : BRepr E HT ρ 0 0 t (E.valInit t) v → BRepr E HT ρ vw vr (.opt t) p (.some v)
  | uptrSome {vw vr t p v} : BRepr E HT ρ 0 0 t (E.valInit t) v → BRepr E HT ρ vw vr (.uptr t) p (.ptr v)
  -- the object referred to is described by the heap
  | sptrSome {vw vr t p a} : HT a = some t → a < 2 ^ 64 → BRepr E HT ρ vw vr (.sptr t) p (.ref a)
  -- sequences: the first elements are read into existing ones
  | vec {vw vr t} {ps vs : List Val} : vs.length ≤ E.maxLen →
      (∀ (i : Nat) v, vs[i]? = some v → BRepr E HT ρ 0 0 t ((ps[i]?).getD (E.valInit t)) v) →
      BRepr E HT ρ vw vr (.vec t) (.list ps) (.list vs)
  -- sets: elements (without pointers) strictly ascending, hashed ones iterated in any order; a previous element must be
  -- one of the new ones
  | set {vw vr hashed t ps vs} : (∀ v ∈ vs, BRepr E HT ρ 0 0 t (E.defInit t) v) → (∀ v ∈ vs, v.hasIndet = false) →
      (∀ v ∈ vs, v.refs = []) → WeakOrderOn (E.lt t) vs → (vs.Pairwise fun a b => E.lt t a b = true) →
      (E.order hashed vs).Perm vs → (ps.Pairwise fun a b => E.lt t a b = true) → (∀ p ∈ ps, p ∈ vs) →
      BRepr E HT ρ vw vr (.set hashed false t) (.list ps) (.list vs)
  -- multisets: the previous content must be empty
  | multiset {vw vr hashed t vs} : (∀ v ∈ vs, BRepr E HT ρ 0 0 t (E.defInit t) v) → (∀ v ∈ vs, v.hasIndet = false) →
      (∀ v ∈ vs, v.refs = []) → WeakOrderOn (E.lt t) vs → (vs.Pairwise fun a b => E.lt t b a = false) →
      (E.order hashed vs).Perm vs → (∀ k ∈ vs, groupBy (E.lt t) id k (E.order hashed vs) = groupBy (E.lt t) id k vs) →
      BRepr E HT ρ vw vr (.set hashed true t) (.list []) (.list vs)
  -- maps: keys without pointers; previous entries must be among the new ones
  | map {vw vr hashed k t ps kvs} :
      (∀ q ∈ kvs, BRepr E HT ρ 0 0 k (E.valInit k) q.1) → (∀ q ∈ kvs, BRepr E HT ρ 0 0 t (E.valInit t) q.2) →
      (∀ q ∈ kvs, q.1.hasIndet = false ∧ q.2.hasIndet = false) → (∀ q ∈ kvs, q.1.refs = []) →
      WeakOrderOn (E.lt k) (kvs.map Prod.fst) → (kvs.Pairwise fun a b => E.lt k a.1 b.1 = true) →
      (E.orderKV hashed kvs).Perm kvs → (ps.Pairwise fun a b => E.lt k a.1 b.1 = true) →
      (∀ p ∈ ps, ∃ q ∈ kvs, p = (q.1, q.2.rename ρ)) →
      BRepr E HT ρ vw vr (.map hashed false k t) (.map ps) (.map kvs)
  | multimap {vw vr hashed k t kvs} :
      (∀ q ∈ kvs, BRepr E HT ρ 0 0 k (E.valInit k) q.1) → (∀ q ∈ kvs, BRepr E HT ρ 0 0 t (E.valInit t) q.2) →
      (∀ q ∈ kvs, q.1.hasIndet = false ∧ q.2.hasIndet = false) → (∀ q ∈ kvs, q.1.refs = []) →
      WeakOrderOn (E.lt k) (kvs.map Prod.fst) → (kvs.Pairwise fun a b => E.lt k b.1 a.1 = false) →
      (E.orderKV hashed kvs).Perm kvs →
      (∀ q ∈ kvs, groupBy (E.lt k) Prod.fst q.1 (E.orderKV hashed kvs) = groupBy (E.lt k) Prod.fst q.1 kvs) →
      BRepr E HT ρ vw vr (.map hashed true k t) (.map []) (.map kvs)
  | pair {vw vr a b p q v w} : BRepr E HT ρ 0 0 a p v → BRepr E HT ρ 0 0 b q w →
      BRepr E HT ρ vw vr (.pair a b) (.tup [p, q]) (.tup [v, w])
  | variantMono {vw vr} {ts : List Ty} {i : Nat} {p} : ts[i]? = some .mono → i < 255 →
      BRepr E HT ρ vw vr (.variant ts) p (.alt i .mono)
  | variant {vw vr} {ts : List Ty} {i : Nat} {t p v} : ts[i]? = some t → t ≠ .mono → i < 255 →
      BRepr E HT ρ 0 0 t (E.valInit t) v → BRepr E HT ρ vw vr (.variant ts) p (.alt i v)
  -- objects: members not handled must already have their value (without pointers); members handled more than once (via
  -- several bases) must survive being read into an object which already has the value
  | cls {vw vr c} {Q : List (Nat × Nat × Field)} {st0 st : Store} : FlatBin E vw vr [c] Q →
      st0.map Prod.fst = st.map Prod.fst → (st.map Prod.fst).Nodup →
      (∀ q ∈ Q, ∃ v, st.get? q.2.2.key = some v) →
      (∀ q ∈ Q, ∀ p v, st0.get? q.2.2.key = some p → st.get? q.2.2.key = some v → BRepr E HT ρ q.1 q.2.1 q.2.2.ty p v) →
      (∀ q ∈ Q, ∀ v, 2 ≤ (Q.filter fun q' => q'.2.2.key = q.2.2.key).length → st.get? q.2.2.key = some v →
        BRepr E HT ρ q.1 q.2.1 q.2.2.ty (v.rename ρ) v) →
      (∀ k, (∀ q ∈ Q, q.2.2.key ≠ k) → st0.get? k = st.get? k ∧ ∀ v, st.get? k = some v → v.refs = []) →
      BRepr E HT ρ vw vr (.cls c) (.obj st0) (.obj st)

/-- All shared objects are representable when restored into new objects. -/
def HeapRepr (E : Env) (H : Heap) (HT : Nat → Option Ty) (ρ : Nat → Nat) : Prop :=
  ∀ a t, HT a = some t → ∃ v, H a = some v ∧ BRepr E HT ρ 0 0 t (E.valInit t) v

end Verif
