import Verif.Spec.JsonConform

/-!
# Specification: documents whose deserialisation is undefined behaviour

`Hazard E nul t j` lists, by document and type only, everything that makes reading the document `j` into an object of type
`t` undefined behaviour (`nul`: no errors object is supplied):
* a number which is out of range of the integer type it is read into (`int` for 8-bit integers),
* an item of an array read into a (multi)set which leaves the freshly declared element (partly) uninitialised,
* two equivalent items in an array read into a set without errors object,
* any of these in a part of the document which is read.
-/

namespace Verif

/-- The number has no value in the range of the integer type (after rounding a fractional number towards zero). -/
def Unrepresentable (t : IntTy) : Num → Prop
  | .int i => ¬ ((intRange t).1 ≤ i ∧ i < (intRange t).2)
  | .dbl d => ¬ ∃ k, Ieee.isFinite d = true ∧ IsTrunc d k ∧ (intRange t).1 ≤ k ∧ k < (intRange t).2

/-- Documents as produced by RapidJSON: numbers stored as integers fit into `int64_t` or `uint64_t`. -/
inductive StoredNumbers : Json → Prop
  | null : StoredNumbers .null
  | bool (b) : StoredNumbers (.bool b)
  | int {i : Int} : -(2 ^ 63) ≤ i → i < 2 ^ 64 → StoredNumbers (.num (.int i))
  | dbl (d) : StoredNumbers (.num (.dbl d))
  | str (s) : StoredNumbers (.str s)
  | arr {js} : (∀ j ∈ js, StoredNumbers j) → StoredNumbers (.arr js)
  | obj {ms : List (Key × Json)} : (∀ k j, (k, j) ∈ ms → StoredNumbers j) → StoredNumbers (.obj ms)

/-- The object - not counting what it refers to or keeps on the heap - contains an uninitialised scalar. This is what
`Val.hasIndet` decides (`C55_uninitialised`). -/
inductive HoldsUninitialised : Val → Prop
  | scalar : HoldsUninitialised .indet
  | optional {v} : HoldsUninitialised v → HoldsUninitialised (.some v)
  | component {vs v} : v ∈ vs → HoldsUninitialised v → HoldsUninitialised (.tup vs)
  | alternative {i v} : HoldsUninitialised v → HoldsUninitialised (.alt i v)
  | member {fs : Store} {k v} : (k, v) ∈ fs → HoldsUninitialised v → HoldsUninitialised (.obj fs)

/-- what makes reading a document undefined behaviour, see above -/
inductive Hazard (E : Env) (nul : Bool) : Ty → Json → Prop
  | int {t n} : t = .i32 ∨ t = .u32 ∨ t = .i64 ∨ t = .u64 → Unrepresentable t n → Hazard E nul (.int t) (.num n)
  | int8 {t n} : t = .i8 ∨ t = .u8 → Unrepresentable .i32 n → Hazard E nul (.int t) (.num n)
  | vec {t js j} : j ∈ js → Hazard E nul t j → Hazard E nul (.vec t) (.arr js)
  | setItem {hashed multi t js j} : j ∈ js → Hazard E nul t j → Hazard E nul (.set hashed multi t) (.arr js)
  | setIndet {hashed multi t js j v} : j ∈ js → ReadAs E t j v → v.hasIndet = true →
      Hazard E nul (.set hashed multi t) (.arr js)
  | setDuplicate {hashed t js} : nul = true →
      ¬ (js.Pairwise fun j j' => ∀ v v', ReadAs E t j v → ReadAs E t j' v' → ¬ Equivalent (E.lt t) v v') →
      Hazard E nul (.set hashed false t) (.arr js)
  | map {hashed t} {ms : List (Key × Json)} {k j} : (k, j) ∈ ms → Hazard E nul t j →
      Hazard E nul (.map hashed false .str t) (.obj ms)
  | multimapArr {hashed t} {ms : List (Key × Json)} {k js j} : (k, .arr js) ∈ ms → j ∈ js → Hazard E nul t j →
      Hazard E nul (.map hashed true .str t) (.obj ms)
  | multimap {hashed t} {ms : List (Key × Json)} {k j} : (k, j) ∈ ms → j.jtype ≠ .array → Hazard E nul t j →
      Hazard E nul (.map hashed true .str t) (.obj ms)
  | fst {a b j j'} : Hazard E nul a j → Hazard E nul (.pair a b) (.arr [j, j'])
  | snd {a b j j'} : Hazard E nul b j' → Hazard E nul (.pair a b) (.arr [j, j'])
  | tuple {ts js t j} {i : Nat} : js.length = ts.length → ts[i]? = some t → js[i]? = some j → Hazard E nul t j →
      Hazard E nul (.tuple ts) (.arr js)
  | opt {t j} : j ≠ .null → Hazard E nul t j → Hazard E nul (.opt t) j
  | uptr {t j} : j ≠ .null → Hazard E nul t j → Hazard E nul (.uptr t) j
  | sptr {t j} : j ≠ .null → Hazard E nul t j → Hazard E nul (.sptr t) j
  | variant {ts : List Ty} {ms : List (Key × Json)} {i : Nat} {t jd} : firstNamed (lit "index") ms = some (.num (.int i)) →
      i < 2 ^ 64 → firstNamed (lit "data") ms = some jd → ts[i]? = some t → t ≠ .mono → Hazard E nul t jd →
      Hazard E nul (.variant ts) (.obj ms)
  | base {c ci b} {ms : List (Key × Json)} : E.cls c = some ci → b ∈ ci.json.bases → Hazard E nul (.cls b) (.obj ms) →
      Hazard E nul (.cls c) (.obj ms)
  | member {c ci f j} {ms : List (Key × Json)} : E.cls c = some ci → f ∈ ci.json.pullFields →
      firstNamed f.name ms = some j → Hazard E nul f.ty j → Hazard E nul (.cls c) (.obj ms)

end Verif
