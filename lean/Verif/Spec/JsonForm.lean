import Verif.Props.JsonNames
import Verif.Props.JsonScalars

/-!
# Specification: the JSON representation of C++ objects

`Denotes E H t v j`: `j` is the JSON representation of the object `v` of type `t`, following the table "Supported datatypes"
and the remarks in README.md (lines 50-107). Pointers are resolved in the heap `H`.
-/

namespace Verif

/-- What RapidJSON keeps of a string with known length: up to 2^32-1 bytes. -/
def clamped (s : Str) : Str := s.take (2 ^ 32 - 1)

/-- `CStringText s r`: `r` is what RapidJSON takes from a C-string `s`: everything before the first NUL (of which the length is
counted modulo 2^32). -/
def CStringText (s r : Str) : Prop := ∃ q, CutAtNul s q ∧ r = q.take (q.length % 2 ^ 32)

/-- `Grouped ps ms`: the members `ms` are the groups of the pairs `ps`: the names in the order of their first occurrence
without repetition, each with the array of its values in the order of `ps`. -/
def Grouped (ps : List (Str × Json)) (ms : List (Key × Json)) : Prop :=
  (ms.map fun m => m.1.bytes) = (ps.map Prod.fst).eraseDups ∧
    ∀ m ∈ ms, m.1.src = .borrowed ∧ m.2 = .arr (ps.filterMap fun p => if p.1 = m.1.bytes then some p.2 else none)

inductive Denotes (E : Env) (H : Heap) : Ty → Val → Json → Prop
  | bool (b) : Denotes E H .bool (.bool b) (.bool b)
  | int (it : IntTy) (i) : it ≠ .char → it ≠ .i16 → it ≠ .u16 → Denotes E H (.int it) (.int i) (.num (.int i))
  | f32 (b) : Denotes E H .f32 (.f32 b) (.num (.dbl (Ieee.widen b)))
  | f64 (b) : Denotes E H .f64 (.f64 b) (.num (.dbl b))
  | enum (u i) : Denotes E H (.enum u) (.int i) (.num (.int i))
  | str (s) : Denotes E H .str (.str s) (.str (clamped s))
  | cstrNull : Denotes E H .cstr (.cstr none) .null
  | cstr {s r} : CStringText s r → Denotes E H .cstr (.cstr (some s)) (.str r)
  | sviewNull : Denotes E H .sview (.cstr none) .null
  | sview (s) : Denotes E H .sview (.cstr (some s)) (.str (clamped s))
  | dateTime (i) : Denotes E H .dateTime (.tick i) (.str (clamped (E.dtPrint i)))
  | timeSpan (i) : Denotes E H .timeSpan (.tick i) (.str (clamped (E.tsPrint i)))
  -- lists and sets: the array of the elements in iteration order
  | vec {t vs js} : vs.length = js.length → (∀ (i : Nat) v j, vs[i]? = some v → js[i]? = some j → Denotes E H t v j) →
      Denotes E H (.vec t) (.list vs) (.arr js)
  | set {hashed multi t vs js} {it : List Val} : it = E.order hashed vs → it.length = js.length →
      (∀ (i : Nat) v j, it[i]? = some v → js[i]? = some j → Denotes E H t v j) →
      Denotes E H (.set hashed multi t) (.list vs) (.arr js)
  -- maps: one member per entry
  | map {hashed t kvs} {it : List (Val × Val)} {ms : List (Key × Json)} : it = E.orderKV hashed kvs → it.length = ms.length →
      (∀ (i : Nat) e m, it[i]? = some e → ms[i]? = some m →
        ∃ k, e.1 = .str k ∧ CStringText k m.1.bytes ∧ m.1.src = .borrowed) →
      (∀ (i : Nat) e m, it[i]? = some e → ms[i]? = some m → Denotes E H t e.2 m.2) →
      Denotes E H (.map hashed false .str t) (.map kvs) (.obj ms)
  -- multimaps: one array per key
  | multimap {hashed t kvs} {it : List (Val × Val)} {ps : List (Str × Json)} {ms : List (Key × Json)} :
      it = E.orderKV hashed kvs → it.length = ps.length →
      (∀ (i : Nat) e p, it[i]? = some e → ps[i]? = some p → ∃ k, e.1 = .str k ∧ p.1 = clamped k) →
      (∀ (i : Nat) e p, it[i]? = some e → ps[i]? = some p → Denotes E H t e.2 p.2) → Grouped ps ms →
      Denotes E H (.map hashed true .str t) (.map kvs) (.obj ms)
  | pair {a b v w j j'} : Denotes E H a v j → Denotes E H b w j' → Denotes E H (.pair a b) (.tup [v, w]) (.arr [j, j'])
  | tuple {ts : List Ty} {vs : List Val} {js : List Json} : vs.length = ts.length → js.length = ts.length →
      (∀ (i : Nat) t v j, ts[i]? = some t → vs[i]? = some v → js[i]? = some j → Denotes E H t v j) →
      Denotes E H (.tuple ts) (.tup vs) (.arr js)
  -- optionals and smart pointers: null or whatever the content is
  | optNull (t) : Denotes E H (.opt t) .null .null
  | uptrNull (t) : Denotes E H (.uptr t) .null .null
  | sptrNull (t) : Denotes E H (.sptr t) .null .null
  | opt {t v j} : Denotes E H t v j → Denotes E H (.opt t) (.some v) j
  | uptr {t v j} : Denotes E H t v j → Denotes E H (.uptr t) (.ptr v) j
  | sptr {t v j} : Denotes E H t v j → Denotes E H (.sptr t) (.ptr v) j
  | uptrRef {t a v j} : H a = some v → Denotes E H t v j → Denotes E H (.uptr t) (.ref a) j
  | sptrRef {t a v j} : H a = some v → Denotes E H t v j → Denotes E H (.sptr t) (.ref a) j
  -- variants: `{"index": ..., "data": ...}`
  | valueless (ts) : Denotes E H (.variant ts) .valueless .null
  | mono {ts : List Ty} {i : Nat} {v} : ts[i]? = some .mono →
      Denotes E H (.variant ts) (.alt i v) (.obj [(⟨lit "index", .literal⟩, .num (.int i)), (⟨lit "data", .literal⟩, .null)])
  | variant {ts : List Ty} {i : Nat} {t v j} : ts[i]? = some t → t ≠ .mono → Denotes E H t v j →
      Denotes E H (.variant ts) (.alt i v) (.obj [(⟨lit "index", .literal⟩, .num (.int i)), (⟨lit "data", .literal⟩, j)])
  -- classes: one member per data member, those of the bases first
  | cls {c} {st : Store} {fs : List Field} {ms : List (Key × Json)} (w : Field → Val) : FlatFields E [c] fs → fs.length = ms.length →
      (∀ (i : Nat) f m, fs[i]? = some f → ms[i]? = some m → m.1 = ⟨f.name, .literal⟩ ∧ st.get? f.key = some (w f)) →
      (∀ (i : Nat) f m, fs[i]? = some f → ms[i]? = some m → Denotes E H f.ty (w f) m.2) →
      Denotes E H (.cls c) (.obj st) (.obj ms)

/-- `ValidObj E H uninit t v`: `v` is a valid object of type `t` (and the type is supported), pointers resolve to objects and
following them comes to an end. `uninit`: scalars may be uninitialised. -/
inductive ValidObj (E : Env) (H : Heap) (uninit : Bool) : Ty → Val → Prop
  | noBool : uninit = true → ValidObj E H uninit .bool .indet
  | noInt (it : IntTy) : it ≠ .char → it ≠ .i16 → it ≠ .u16 → uninit = true → ValidObj E H uninit (.int it) .indet
  | noF32 : uninit = true → ValidObj E H uninit .f32 .indet
  | noF64 : uninit = true → ValidObj E H uninit .f64 .indet
  | noEnum (u) : uninit = true → ValidObj E H uninit (.enum u) .indet
  | noCstr : uninit = true → ValidObj E H uninit .cstr .indet
  | bool (b) : ValidObj E H uninit .bool (.bool b)
  | int (it : IntTy) (i) : it ≠ .char → it ≠ .i16 → it ≠ .u16 → ValidObj E H uninit (.int it) (.int i)
  | f32 (b) : ValidObj E H uninit .f32 (.f32 b)
  | f64 (b) : ValidObj E H uninit .f64 (.f64 b)
  | enum (u i) : ValidObj E H uninit (.enum u) (.int i)
  | str (s) : ValidObj E H uninit .str (.str s)
  | cstr (s) : ValidObj E H uninit .cstr (.cstr s)
  | sview (s) : ValidObj E H uninit .sview (.cstr s)
  | dateTime (i) : ValidObj E H uninit .dateTime (.tick i)
  | timeSpan (i) : ValidObj E H uninit .timeSpan (.tick i)
  | vec {t vs} : (∀ v ∈ vs, ValidObj E H uninit t v) → ValidObj E H uninit (.vec t) (.list vs)
  | set {hashed multi t vs} {it : List Val} : it = E.order hashed vs → (∀ v ∈ it, ValidObj E H uninit t v) →
      ValidObj E H uninit (.set hashed multi t) (.list vs)
  | map {hashed multi t kvs} {it : List (Val × Val)} : it = E.orderKV hashed kvs → (∀ e ∈ it, ∃ k, e.1 = .str k) →
      (∀ e ∈ it, ValidObj E H uninit t e.2) → ValidObj E H uninit (.map hashed multi .str t) (.map kvs)
  | pair {a b v w} : ValidObj E H uninit a v → ValidObj E H uninit b w → ValidObj E H uninit (.pair a b) (.tup [v, w])
  | tuple {ts : List Ty} {vs : List Val} : vs.length = ts.length →
      (∀ (i : Nat) t v, ts[i]? = some t → vs[i]? = some v → ValidObj E H uninit t v) → ValidObj E H uninit (.tuple ts) (.tup vs)
  | optNull (t) : ValidObj E H uninit (.opt t) .null
  | uptrNull (t) : ValidObj E H uninit (.uptr t) .null
  | sptrNull (t) : ValidObj E H uninit (.sptr t) .null
  | opt {t v} : ValidObj E H uninit t v → ValidObj E H uninit (.opt t) (.some v)
  | uptr {t v} : ValidObj E H uninit t v → ValidObj E H uninit (.uptr t) (.ptr v)
  | sptr {t v} : ValidObj E H uninit t v → ValidObj E H uninit (.sptr t) (.ptr v)
  | uptrRef {t a v} : H a = some v → ValidObj E H uninit t v → ValidObj E H uninit (.uptr t) (.ref a)
  | sptrRef {t a v} : H a = some v → ValidObj E H uninit t v → ValidObj E H uninit (.sptr t) (.ref a)
  | valueless (ts) : ValidObj E H uninit (.variant ts) .valueless
  | mono {ts : List Ty} {i : Nat} {v} : ts[i]? = some .mono → ValidObj E H uninit (.variant ts) (.alt i v)
  | variant {ts : List Ty} {i : Nat} {t v} : ts[i]? = some t → t ≠ .mono → ValidObj E H uninit t v →
      ValidObj E H uninit (.variant ts) (.alt i v)
  | cls {c} {st : Store} {fs : List Field} (w : Field → Val) : FlatFields E [c] fs → (∀ f ∈ fs, st.get? f.key = some (w f)) →
      (∀ f ∈ fs, ValidObj E H uninit f.ty (w f)) → ValidObj E H uninit (.cls c) (.obj st)

/-- The JSON types by which objects of a type are represented (README.md 53-69); `none`: not determined by the type alone. -/
def documentedTypes : Ty → Option (List JType)
  | .bool => some [.bool]
  | .int _ => some [.number]
  | .f32 => some [.number]
  | .f64 => some [.number]
  | .enum _ => some [.number]
  | .str => some [.string]
  | .sview => some [.string, .null]
  | .cstr => some [.string, .null]
  | .vec _ => some [.array]
  | .set _ _ _ => some [.array]
  | .pair _ _ => some [.array]
  | .tuple _ => some [.array]
  | .opt t => (documentedTypes t).map (.null :: ·)
  | .uptr t => (documentedTypes t).map (.null :: ·)
  | .sptr t => (documentedTypes t).map (.null :: ·)
  | .map _ _ _ _ => some [.object]
  | .variant _ => some [.object, .null]
  | .cls _ => some [.object]
  | .dateTime => some [.string]
  | .timeSpan => some [.string]
  | .mono => none

end Verif
