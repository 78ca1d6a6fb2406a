import Verif.Spec.JsonConform

/-!
# Specification: the faults of a document and how they are located

`Faulty E t j evs` describes, for a document `j` to be stored in an object of type `t`, the faults of the document in document
order, each with its place (a path through the document), together with the places of the arrays which are completed in
between. It speaks about the document and the type only. `errorsOf` then says which errors a user gets to see: the context
stored in an error is computed from the path of the fault (and from the arrays completed before, as the index of the current
item gets lost when a nested array ends).
-/

namespace Verif

/-- One step from a place in the document to a place within. -/
inductive Step where
  /-- the item of an array for a vector or set -/
  | item (i : Nat)
  /-- the component of an array for a pair or tuple, or of the array of a multimap's key -/
  | comp (i : Nat)
  /-- the member of an object for a map -/
  | entry (i : Nat)
  /-- the `data` member of the object for a variant -/
  | data
  /-- (same place) the `i`-th base class -/
  | base (i : Nat)
  /-- (same place) the members of the class itself; with the name of the class if class code sets the record -/
  | own (record : Option Str)
  /-- the member of an object for the `i`-th member (having the specified name) of a class -/
  | member (i : Nat) (name : Str)
deriving DecidableEq, Repr

abbrev Path := List Step

inductive Finding where
  | fault (p : Path) (kind : ErrKind) (expected actual : JType)
  /-- the array at `p` has been read -/
  | done (p : Path)
deriving DecidableEq, Repr

/-- the same event as seen from one step above -/
def Finding.under (s : Step) : Finding → Finding
  | .fault p k e a => .fault (s :: p) k e a
  | .done p => .done (s :: p)

/-- the events of consecutive parts, the `k`-th of which is reached by the step `s (i + k)` -/
def inOrder (s : Nat → Step) : Nat → List (List Finding) → List Finding
  | _, [] => []
  | i, es :: ess => es.map (Finding.under (s i)) ++ inOrder s (i + 1) ess

/-- types without parts -/
def Atomic : Ty → Prop
  | .bool | .int _ | .f32 | .f64 | .enum _ | .str | .cstr | .sview => True
  | _ => False

/-- the values a member of an object for a multimap stands for -/
def multimapValues : Json → List Json
  | .arr js => js
  | j => [j]

/-- Item `i` is turned into an element equivalent to one of an earlier item. -/
def RepeatsEarlier (E : Env) (t : Ty) (js : List Json) (i : Nat) : Prop :=
  ∃ k j j' v v', k < i ∧ js[k]? = some j ∧ js[i]? = some j' ∧ ReadAs E t j v ∧ ReadAs E t j' v' ∧ Equivalent (E.lt t) v v'

/-- the fault of an item which repeats an earlier one -/
def duplicateFault (d : Bool) : List Finding := if d then [.fault [] .unexpectedDuplicate .array .array] else []

/-- the step to member number `i` of a class with the members `fs` -/
def memberStep (fs : List Field) (i : Nat) : Step := .member i ((fs[i]?.map Field.name).getD [])

/-- the faults of a value for a time: `parse` of the string or, if it is not a string, of the empty one -/
def timeFaults (parse : Str → Option Int) (s : Str) : List Finding :=
  if (parse s).isSome then [] else [.fault [] .conversionError .string .string]

inductive Faulty (E : Env) : Ty → Json → List Finding → Prop
  -- a value of another type (the type reported as expected is the accepted one, except for pairs, tuples and multimaps)
  | mismatch {t j e} : reportedType t = some e → ¬ Accepts t j → Faulty E t j [.fault [] .typeMismatch e j.jtype]
  | atomic {t j} : Atomic t → Accepts t j → Faulty E t j []
  -- arrays: the faults of the items
  | vec {t js ess} : ess.length = js.length →
      (∀ (i : Nat) j es, js[i]? = some j → ess[i]? = some es → Faulty E t j es) →
      Faulty E (.vec t) (.arr js) (inOrder .item 0 ess ++ [.done []])
  | multiset {hashed t js ess} : ess.length = js.length →
      (∀ (i : Nat) j es, js[i]? = some j → ess[i]? = some es → Faulty E t j es) →
      Faulty E (.set hashed true t) (.arr js) (inOrder .item 0 ess ++ [.done []])
  | set {hashed t js ess} {ds : List Bool} : ess.length = js.length →
      (∀ (i : Nat) j es, js[i]? = some j → ess[i]? = some es → Faulty E t j es) → ds.length = js.length →
      (∀ (i : Nat) d, ds[i]? = some d → (d = true ↔ RepeatsEarlier E t js i)) →
      Faulty E (.set hashed false t) (.arr js)
        (inOrder .item 0 (List.zipWith (fun es d => es ++ duplicateFault d) ess ds) ++ [.done []])
  -- objects for maps
  | map {hashed t} {ms : List (Key × Json)} {ess} : ess.length = ms.length →
      (∀ (i : Nat) m es, ms[i]? = some m → ess[i]? = some es → Faulty E t m.2 es) →
      Faulty E (.map hashed false .str t) (.obj ms) (inOrder .entry 0 ess)
  | multimap {hashed t} {ms : List (Key × Json)} {esss : List (List (List Finding))} : esss.length = ms.length →
      (∀ (i : Nat) m ess, ms[i]? = some m → esss[i]? = some ess → ess.length = (multimapValues m.2).length) →
      (∀ (i : Nat) m ess, ms[i]? = some m → esss[i]? = some ess →
        ∀ (k : Nat) j es, (multimapValues m.2)[k]? = some j → ess[k]? = some es → Faulty E t j es) →
      Faulty E (.map hashed true .str t) (.obj ms) (inOrder .entry 0 (esss.map (inOrder .comp 0)))
  -- pairs and tuples
  | pair {a b j es} : Faulty E (.tuple [a, b]) j es → Faulty E (.pair a b) j es
  | tupleSize {ts js} : js.length ≠ ts.length → Faulty E (.tuple ts) (.arr js) [.fault [] .arraySizeMismatch .array .array]
  | tuple {ts js ess} : js.length = ts.length → ess.length = ts.length →
      (∀ (i : Nat) t j es, ts[i]? = some t → js[i]? = some j → ess[i]? = some es → Faulty E t j es) →
      Faulty E (.tuple ts) (.arr js) (inOrder .comp 0 ess)
  -- optionals and smart pointers: whatever the content's faults are
  | null {t u} : t = .opt u ∨ t = .uptr u ∨ t = .sptr u → Faulty E t .null []
  | content {t u j es} : t = .opt u ∨ t = .uptr u ∨ t = .sptr u → j ≠ .null → Faulty E u j es → Faulty E t j es
  -- variants
  | variantObject {ts} {ms : List (Key × Json)} : firstNamed (lit "index") ms = none ∨ firstNamed (lit "data") ms = none →
      Faulty E (.variant ts) (.obj ms) [.fault [] .invalidVariantObject .object .object]
  | variantIndexType {ts} {ms : List (Key × Json)} {ji} : firstNamed (lit "index") ms = some ji →
      (firstNamed (lit "data") ms).isSome = true → ¬ EnumNumber false ji →
      Faulty E (.variant ts) (.obj ms) [.fault [] .invalidVariantIndex .number ji.jtype]
  | variantIndex {ts} {ms : List (Key × Json)} {i : Nat} : firstNamed (lit "index") ms = some (.num (.int i)) → i < 2 ^ 64 →
      (firstNamed (lit "data") ms).isSome = true → ts.length ≤ i →
      Faulty E (.variant ts) (.obj ms) [.fault [] .invalidVariantIndex .number .number]
  | variantMono {ts : List Ty} {ms : List (Key × Json)} {i : Nat} : firstNamed (lit "index") ms = some (.num (.int i)) → i < 2 ^ 64 →
      (firstNamed (lit "data") ms).isSome = true → ts[i]? = some .mono → Faulty E (.variant ts) (.obj ms) []
  | variant {ts : List Ty} {ms : List (Key × Json)} {i : Nat} {t jd es} : firstNamed (lit "index") ms = some (.num (.int i)) →
      i < 2 ^ 64 → firstNamed (lit "data") ms = some jd → ts[i]? = some t → t ≠ .mono → Faulty E t jd es →
      Faulty E (.variant ts) (.obj ms) (es.map (.under .data))
  -- classes: what is wrong for the base classes, then what is wrong with the members which are present
  | cls {c ci} {ms : List (Key × Json)} {bess fess} : E.cls c = some ci →
      bess.length = ci.json.bases.length →
      (∀ (i : Nat) b es, ci.json.bases[i]? = some b → bess[i]? = some es → Faulty E (.cls b) (.obj ms) es) →
      fess.length = ci.json.pullFields.length →
      (∀ (i : Nat) f es, ci.json.pullFields[i]? = some f → fess[i]? = some es → firstNamed f.name ms = none → es = []) →
      (∀ (i : Nat) f es j, ci.json.pullFields[i]? = some f → fess[i]? = some es → firstNamed f.name ms = some j →
        Faulty E f.ty j es) →
      Faulty E (.cls c) (.obj ms) (inOrder .base 0 bess ++
        (inOrder (memberStep ci.json.pullFields) 0 fess).map
          (.under (.own (if ci.json.setsRecord then some ci.qname else none))))
  -- times: strings only, but conversion is attempted anyway
  | dateTime {s r} : CutAtNul s r → Faulty E .dateTime (.str s) (timeFaults E.dtParse r)
  | timeSpan {s r} : CutAtNul s r → Faulty E .timeSpan (.str s) (timeFaults E.tsParse r)
  | dateTimeType {j} : j.jtype ≠ .string →
      Faulty E .dateTime j (.fault [] .typeMismatch .string j.jtype :: timeFaults E.dtParse [])
  | timeSpanType {j} : j.jtype ≠ .string →
      Faulty E .timeSpan j (.fault [] .typeMismatch .string j.jtype :: timeFaults E.tsParse [])

/-! ## What the user gets to see -/

/-- The record an error at `p` is attributed to: the innermost class, or what it was before. -/
def recordAt (r : Option Str) : Path → Option Str
  | [] => r
  | .own (some r') :: p => recordAt (some r') p
  | _ :: p => recordAt r p

/-- The member an error at `p` is attributed to: the innermost one, or what it was before. -/
def memberAt (m : Option Str) : Path → Option Str
  | [] => m
  | .member _ n :: p => memberAt (some n) p
  | _ :: p => memberAt m p

/-- The innermost item the path leads through: the path to that item and its index. -/
def lastItem : Path → Option (Path × Nat)
  | [] => none
  | s :: p =>
    match lastItem p with
    | some (q, i) => some (s :: q, i)
    | none =>
      match s with
      | .item i => some ([s], i)
      | _ => none

/-- The index stored in an error at `p`: the index of the innermost item - unless an array within this item has been completed
before. If there is no such item, it is what it was before - unless any array has been completed. -/
def indexAt (i0 : Nat) (completed : List Path) (p : Path) : Nat :=
  match lastItem p with
  | some (q, i) => if completed.any (q.isPrefixOf ·) then noIndex else i
  | none => if completed.isEmpty then i0 else noIndex

/-- The errors for a list of events, given the context at the beginning and the arrays completed so far. -/
def errorsOf (record member : Option Str) (index : Nat) : List Path → List Finding → List Err
  | _, [] => []
  | completed, .done p :: es => errorsOf record member index (p :: completed) es
  | completed, .fault p k e a :: es =>
    ⟨k, e, a, recordAt record p, memberAt member p, indexAt index completed p⟩ :: errorsOf record member index completed es

/-- the place a path leads to -/
def Json.place : Json → Path → Option Json
  | j, [] => some j
  | j, .base _ :: p => j.place p
  | j, .own _ :: p => j.place p
  | .arr js, .item i :: p => js[i]?.bind (·.place p)
  | j, .comp i :: p => (multimapValues j)[i]?.bind (·.place p)
  | .obj ms, .entry i :: p => ms[i]?.bind (·.2.place p)
  | .obj ms, .data :: p => (firstNamed (lit "data") ms).bind (·.place p)
  | .obj ms, .member _ n :: p => (firstNamed n ms).bind (·.place p)
  | _, _ => none

end Verif
