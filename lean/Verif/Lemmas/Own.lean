import Verif.Model.Pull

/-!
# Where names are stored is irrelevant for deserialisation
-/

namespace Verif

mutual
/-- the same document with all names owned by it -/
def own : Json → Json
  | .null => .null
  | .bool b => .bool b
  | .num n => .num n
  | .str s => .str s
  | .arr js => .arr (ownItems js)
  | .obj ms => .obj (ownMembers ms)
def ownItems : List Json → List Json
  | [] => []
  | j :: js => own j :: ownItems js
def ownMembers : List (Key × Json) → List (Key × Json)
  | [] => []
  | (k, j) :: ms => (⟨k.bytes, .copied⟩, own j) :: ownMembers ms
end

theorem ownItems_eq (js : List Json) : ownItems js = js.map own := by
  induction js with
  | nil => rfl
  | cons j js ih => simp [ownItems, ih]

theorem ownMembers_eq (ms : List (Key × Json)) : ownMembers ms = ms.map fun m => (⟨m.1.bytes, .copied⟩, own m.2) := by
  induction ms with
  | nil => rfl
  | cons m ms ih => obtain ⟨k, j⟩ := m; simp [ownMembers, ih]

theorem own_jtype (j : Json) : (own j).jtype = j.jtype := by cases j <;> simp [own, Json.jtype]

theorem findMember_own (name : Str) (ms : List (Key × Json)) :
    findMember name (ownMembers ms) = (findMember name ms).map own := by
  rw [ownMembers_eq]
  induction ms with
  | nil => rfl
  | cons m ms ih =>
    obtain ⟨k, j⟩ := m
    simp only [List.map_cons, findMember]
    by_cases h : k.bytes = name
    · simp [h]
    · simp only [h, if_false]; exact ih

variable {E : Env} {self : Ty → Json → Val → PM Val}

theorem forIdx_own {β : Type} {f : Json → β → PM β} (hf : ∀ j b, f (own j) b = f j b) (js : List Json) :
    ∀ i b, forIdx f (ownItems js) i b = forIdx f js i b := by
  induction js with
  | nil => intro i b; rfl
  | cons j js ih => intro i b; simp only [ownItems, forIdx, hf, ih]

theorem mismatch_own (e : JType) (j : Json) (v : Val) : mismatch e (own j) v = mismatch e j v := by
  simp only [mismatch, own_jtype]

section
variable (hs : ∀ t j v, self t (own j) v = self t j v)
include hs

theorem pullMapEntries_own (t : Ty) (ms : List (Key × Json)) :
    ∀ kvs, pullMapEntries E self t (ownMembers ms) kvs = pullMapEntries E self t ms kvs := by
  induction ms with
  | nil => intro kvs; rfl
  | cons m ms ih => obtain ⟨k, j⟩ := m; intro kvs; simp only [ownMembers, pullMapEntries, hs, ih]

theorem pullMultimapItems_own (t : Ty) (key : Str) (js : List Json) :
    ∀ kvs, pullMultimapItems E self t key (ownItems js) kvs = pullMultimapItems E self t key js kvs := by
  induction js with
  | nil => intro kvs; rfl
  | cons j js ih => intro kvs; simp only [ownItems, pullMultimapItems, hs, ih]

theorem pullMultimapEntries_own (t : Ty) (ms : List (Key × Json)) :
    ∀ kvs, pullMultimapEntries E self t (ownMembers ms) kvs = pullMultimapEntries E self t ms kvs := by
  induction ms with
  | nil => intro kvs; rfl
  | cons m ms ih =>
    obtain ⟨k, j⟩ := m
    intro kvs
    have h1 : ∀ kvs, pullMultimapItems E self t (cstrOf k.bytes) (match own j with | .arr js => js | j => [j]) kvs =
        pullMultimapItems E self t (cstrOf k.bytes) (match j with | .arr js => js | j => [j]) kvs := by
      intro kvs
      cases j with
      | arr js => exact pullMultimapItems_own hs t _ js kvs
      | obj ms => exact pullMultimapItems_own hs t _ [.obj ms] kvs
      | _ => rfl
    simp only [ownMembers, pullMultimapEntries, ih]
    exact congrArg (fun m => m >>= fun kvs => pullMultimapEntries E self t ms kvs) (h1 kvs)

theorem pullTuple_own (ts : List Ty) : ∀ js vs, pullTuple self ts (ownItems js) vs = pullTuple self ts js vs := by
  induction ts with
  | nil => intro js vs; cases js <;> cases vs <;> rfl
  | cons t ts ih =>
    intro js vs
    cases js with
    | nil => rfl
    | cons j js =>
      cases vs with
      | nil => rfl
      | cons v vs => simp only [ownItems, pullTuple, hs, ih]

theorem pullBases_own (bs : List ClassId) (ms : List (Key × Json)) :
    ∀ v, pullBases self bs (ownMembers ms) v = pullBases self bs ms v := by
  induction bs with
  | nil => intro v; rfl
  | cons b bs ih =>
    intro v
    have := hs (.cls b) (.obj ms) v
    simp only [own] at this
    simp only [pullBases, this, ih]

theorem pullField_own (f : Field) (ms : List (Key × Json)) (st : Store) :
    pullField self f (ownMembers ms) st = pullField self f ms st := by
  simp only [pullField, findMember_own]
  cases findMember f.name ms with
  | none => rfl
  | some j => simp only [Option.map_some, hs]

theorem pullFields_own (fs : List Field) (ms : List (Key × Json)) :
    ∀ st, pullFields self fs (ownMembers ms) st = pullFields self fs ms st := by
  induction fs with
  | nil => intro st; rfl
  | cons f fs ih => intro st; simp only [pullFields, pullField_own hs, ih]

theorem pullStep_own (t : Ty) (j : Json) (v : Val) : pullStep E self t (own j) v = pullStep E self t j v := by
  have hv : ∀ t' j vs, vecItem E self t' (own j) vs = vecItem E self t' j vs := fun t' j vs => by simp only [vecItem, hs]
  have hm : ∀ t' j vs, multisetItem E self t' (own j) vs = multisetItem E self t' j vs := fun t' j vs => by
    simp only [multisetItem, hs]
  have hset : ∀ t' j vs, setItem E self t' (own j) vs = setItem E self t' j vs := fun t' j vs => by simp only [setItem, hs]
  have hmis : ∀ e v, mismatch e (own j) v = mismatch e j v := fun e v => mismatch_own e j v
  have hlen : ∀ js, (ownItems js).length = js.length := fun js => by rw [ownItems_eq, List.length_map]
  have hu : ∀ ji, uint64? (own ji) = uint64? ji := fun ji => by cases ji <;> rfl
  cases t
  case bool => cases j <;> first | rfl | exact hmis _ _
  case int it =>
    cases it <;> cases j <;> first | rfl | exact hmis _ _
  case f32 => cases j <;> first | rfl | exact hmis _ _
  case f64 => cases j <;> first | rfl | exact hmis _ _
  case enum u => cases j <;> first | rfl | exact hmis _ _
  case str => cases j <;> first | rfl | exact hmis _ _
  case cstr => cases j <;> first | rfl | exact hmis _ _
  case sview => cases j <;> first | rfl | exact hmis _ _
  case vec t' =>
    cases j
    case arr js => simp only [own, pullStep, forIdx_own (hv t')]
    all_goals first | rfl | exact hmis _ _
  case set hashed multi t' =>
    cases j
    case arr js =>
      simp only [own, pullStep]
      cases multi
      · simp only [Bool.false_eq_true, if_false, forIdx_own (hset t')]
      · simp only [if_true, forIdx_own (hm t')]
    all_goals first | rfl | exact hmis _ _
  case map hashed multi k t' =>
    cases k
    case str =>
      cases j
      case obj ms =>
        simp only [own, pullStep]
        cases v
        case map kvs => simp only [pullMultimapEntries_own hs, pullMapEntries_own hs]
        all_goals rfl
      all_goals first | rfl | exact hmis _ _
    all_goals rfl
  case pair a b =>
    cases j
    case arr js =>
      simp only [own, pullStep, hlen]
      by_cases h : js.length ≠ 2
      · simp only [if_pos h]
      · simp only [if_neg h]
        cases v
        case tup vs => simp only [pullTuple_own hs]
        all_goals rfl
    all_goals first | rfl | exact hmis _ _
  case tuple ts =>
    cases j
    case arr js =>
      simp only [own, pullStep, hlen]
      by_cases h : js.length ≠ ts.length
      · simp only [if_pos h]
      · simp only [if_neg h]
        cases v
        case tup vs => simp only [pullTuple_own hs]
        all_goals rfl
    all_goals first | rfl | exact hmis _ _
  case uptr t' =>
    have := hs t' j (E.valInit t')
    cases j <;> first | rfl | (simp only [own] at this ⊢; simp only [pullStep, this])
  case sptr t' =>
    have := hs t' j (E.valInit t')
    cases j <;> first | rfl | (simp only [own] at this ⊢; simp only [pullStep, this])
  case opt t' =>
    have := hs t' j (E.valInit t')
    cases j <;> first | rfl | (simp only [own] at this ⊢; simp only [pullStep, this])
  case variant ts =>
    cases j
    case obj ms =>
      simp only [own, pullStep, findMember_own]
      cases findMember (lit "index") ms with
      | none => rfl
      | some ji =>
        cases findMember (lit "data") ms with
        | none => rfl
        | some jd =>
          simp only [Option.map_some, hu, own_jtype, hs]
    all_goals first | rfl | exact hmis _ _
  case mono => rfl
  case cls c =>
    simp only [pullStep]
    cases E.cls c with
    | none => rfl
    | some ci =>
      simp only
      split
      · rfl
      · cases j
        case obj ms => simp only [own, pullBases_own hs, pullFields_own hs]
        all_goals first | rfl | exact hmis _ _
  case dateTime => cases j <;> rfl
  case timeSpan => cases j <;> rfl

end

/-- deserialisation does not depend on where names are stored -/
theorem pull_own (E : Env) (n : Nat) : ∀ t j v, pull E n t (own j) v = pull E n t j v := by
  induction n with
  | zero => intro t j v; rfl
  | succ n ih => intro t j v; exact pullStep_own ih t j v

end Verif
