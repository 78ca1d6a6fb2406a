import Verif.Model.Hana
import Mathlib.Data.List.Forall2

/-!
# Specification vocabulary: adapted members versus generated code
-/

namespace Verif

/-- `Members ok own bases E cs fs`: `fs` are the members of the base classes of the classes `cs` followed by their own ones, in that
order and down to the topmost base classes; all classes involved are `ok`. -/
inductive Members (E : Env) (ok : ClassInfo → Prop) (bases : ClassInfo → List ClassId) (own : ClassInfo → List Field) :
    List ClassId → List Field → Prop
  | nil : Members E ok bases own [] []
  | cons {c ci cs inherited fs} : E.cls c = some ci → ok ci → Members E ok bases own (bases ci) inherited →
      Members E ok bases own cs fs → Members E ok bases own (c :: cs) (inherited ++ own ci ++ fs)

/-- The members listed for adapted classes are the ones generated code would push and pull, in that order; generated code would
pull all of the classes. -/
def JsonAdapted (E : Env) (keys : ClassId → Option (List Field)) : Prop :=
  ∀ c ks ci, keys c = some ks → E.cls c = some ci →
    Members E (fun _ => True) (·.json.bases) (·.json.pushFields) [c] ks ∧
    Members E (·.json.pullable = true) (·.json.bases) (·.json.pullFields) [c] ks

/-- The class is not versioned and there are no conditions on versions. -/
def NoVersions (ci : ClassInfo) : Prop :=
  ci.bin.version = none ∧ (∀ gf ∈ ci.bin.writeFields ++ ci.bin.readFields, gf.1 = ⟨0, 0⟩)

/-- The members listed for adapted classes are the ones generated code would write and read, in that order; versioning is not
used for them. -/
def BinaryAdapted (E : Env) (keys : ClassId → Option (List Field)) : Prop :=
  ∀ c ks ci, keys c = some ks → E.cls c = some ci →
    Members E NoVersions (·.bin.bases) (·.bin.writeFields.map Prod.snd) [c] ks ∧
    Members E (fun ci => NoVersions ci ∧ ci.bin.readable = true) (·.bin.bases) (·.bin.readFields.map Prod.snd) [c] ks

/-- Two errors are the same except for the record. -/
def Err.SameButRecord (e e' : Err) : Prop := ∃ r, e' = { e with record := r }

/-- Two error objects are the same except for records. -/
inductive SameButRecords : Option ErrSt → Option ErrSt → Prop
  | none : SameButRecords none none
  | some {st : ErrSt} {errs' : List Err} (r : Option Str) : List.Forall₂ Err.SameButRecord st.errs errs' →
      SameButRecords (some st) (some { st with errs := errs', record := r })

/-- Two outcomes of deserialisation are the same except for the records of errors; `same` compares exceptions. -/
inductive SameOutcome {ε α : Type} (same : ε → ε → Prop) : Res ε (Option ErrSt) α → Res ε (Option ErrSt) α → Prop
  | ok (a : α) {s s'} : SameButRecords s s' → SameOutcome same (.ok a s) (.ok a s')
  | exc {e e' s s'} : same e e' → SameButRecords s s' → SameOutcome same (.exc e s) (.exc e' s')
  | ub : SameOutcome same .ub .ub
  | stuck : SameOutcome same .stuck .stuck

/-- Two exceptions thrown by `fromJson` are the same except for the record. -/
inductive ApiExc.SameButRecord : ApiExc → ApiExc → Prop
  | parse (e : ParseErr) : ApiExc.SameButRecord (.parse e) (.parse e)
  | err {e e' : Err} : e.SameButRecord e' → ApiExc.SameButRecord (.err e) (.err e')

end Verif
