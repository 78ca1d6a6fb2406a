import Verif.Model.PullX

/-!
# `pullX` is `pull` with additional information
-/

namespace Verif

/-- drop the state of the object from exceptions -/
def forget {α : Type} (m : XM α) : PM α := fun s =>
  match m s with
  | .ok a s => .ok a s
  | .exc e s => .exc e.1 s
  | .ub => .ub
  | .stuck => .stuck
  | .fuel => .fuel

section
variable {α β : Type}

@[simp] theorem forget_pure (a : α) : forget (pure a : XM α) = pure a := rfl
@[simp] theorem forget_ub : forget (M.ub : XM α) = M.ub := rfl
@[simp] theorem forget_stuck : forget (M.stuck : XM α) = M.stuck := rfl

@[simp] theorem forget_holding (q : Val) (m : PM α) : forget (holding q m) = m := by
  funext s
  simp only [forget, holding]
  cases m s <;> rfl

@[simp] theorem forget_ctx (m : PM α) : forget (ctx m) = m := forget_holding _ _

@[simp] theorem forget_within (g : Val → Val) (m : XM α) : forget (within g m) = forget m := by
  funext s
  simp only [forget, within]
  cases m s <;> rfl

@[simp] theorem forget_bind (m : XM α) (f : α → XM β) : forget (m >>= f) = forget m >>= fun a => forget (f a) := by
  funext s
  simp only [forget, M.bind_apply]
  cases m s <;> rfl

@[simp] theorem forget_withMember (name : Str) (m : XM α) : forget (withMemberX name m) = withMember name (forget m) := by
  simp only [withMemberX, withMember, forget_bind, forget_ctx, forget_pure]

@[simp] theorem forget_withRecord (name : Str) (m : XM α) : forget (withRecordX name m) = withRecord name (forget m) := by
  simp only [withRecordX, withRecord, forget_bind, forget_ctx, forget_pure]

theorem forget_ite {c : Prop} [Decidable c] (a b : XM α) : forget (if c then a else b) = if c then forget a else forget b := by
  split <;> rfl

theorem forget_forIdx {f : Json → β → XM β} {f' : Json → β → PM β} (hf : ∀ j b, forget (f j b) = f' j b) (js : List Json) (i : Nat) (b : β) :
    forget (forIdxX f js i b) = forIdx f' js i b := by
  induction js generalizing i b with
  | nil => simp only [forIdxX, forIdx, forget_bind, forget_ctx, forget_pure]
  | cons j js ih => simp only [forIdxX, forIdx, forget_bind, forget_ctx, hf, ih]

variable (E : Env) {self : Ty → Json → Val → XM Val} {self' : Ty → Json → Val → PM Val} (hs : ∀ t j v, forget (self t j v) = self' t j v)
include hs

theorem forget_vecItem (t : Ty) (j : Json) (vs : List Val) : forget (vecItemX E self t j vs) = vecItem E self' t j vs := by
  simp only [vecItemX, vecItem, forget_bind, forget_within, hs, forget_pure]

theorem forget_multisetItem (t : Ty) (j : Json) (vs : List Val) : forget (multisetItemX E self t j vs) = multisetItem E self' t j vs := by
  simp only [multisetItemX, multisetItem, forget_bind, forget_within, hs, forget_ite, forget_pure, forget_ub]

theorem forget_setItem (t : Ty) (j : Json) (vs : List Val) : forget (setItemX E self t j vs) = setItem E self' t j vs := by
  simp only [setItemX, setItem, forget_bind, forget_within, hs, forget_ite, forget_pure, forget_ub, forget_holding]

theorem forget_mapEntries (t : Ty) (ms : List (Key × Json)) (kvs : List (Val × Val)) :
    forget (pullMapEntriesX E self t ms kvs) = pullMapEntries E self' t ms kvs := by
  induction ms generalizing kvs with
  | nil => rfl
  | cons m ms ih => simp only [pullMapEntriesX, pullMapEntries, forget_bind, forget_within, hs, ih]

theorem forget_multimapItems (t : Ty) (key : Str) (js : List Json) (kvs : List (Val × Val)) :
    forget (pullMultimapItemsX E self t key js kvs) = pullMultimapItems E self' t key js kvs := by
  induction js generalizing kvs with
  | nil => rfl
  | cons j js ih => simp only [pullMultimapItemsX, pullMultimapItems, forget_bind, forget_within, hs, ih]

theorem forget_multimapEntries (t : Ty) (ms : List (Key × Json)) (kvs : List (Val × Val)) :
    forget (pullMultimapEntriesX E self t ms kvs) = pullMultimapEntries E self' t ms kvs := by
  induction ms generalizing kvs with
  | nil => rfl
  | cons m ms ih =>
    simp only [pullMultimapEntriesX, pullMultimapEntries, forget_bind, forget_multimapItems E hs, ih]
    obtain ⟨k, j⟩ := m
    cases j <;> rfl

omit E in
theorem forget_tuple (done : List Val) (ts : List Ty) (js : List Json) (vs : List Val) :
    forget (pullTupleX self done ts js vs) = pullTuple self' ts js vs := by
  induction ts generalizing done js vs with
  | nil => cases js <;> cases vs <;> rfl
  | cons t ts ih =>
    cases js <;> cases vs <;> first | rfl | skip
    simp only [pullTupleX, pullTuple, forget_bind, forget_within, hs, ih, forget_pure]

omit E in
theorem forget_bases (bs : List ClassId) (ms : List (Key × Json)) (v : Val) :
    forget (pullBasesX self bs ms v) = pullBases self' bs ms v := by
  induction bs generalizing v with
  | nil => rfl
  | cons b bs ih => simp only [pullBasesX, pullBases, forget_bind, hs, ih]

omit E in
theorem forget_field (f : Field) (ms : List (Key × Json)) (st : Store) : forget (pullFieldX self f ms st) = pullField self' f ms st := by
  unfold pullFieldX pullField
  cases findMember f.name ms with
  | none => rfl
  | some j =>
    cases st.get? f.key with
    | none => rfl
    | some v => simp only [forget_bind, forget_withMember, forget_within, hs, forget_pure]

omit E in
theorem forget_fields (fs : List Field) (ms : List (Key × Json)) (st : Store) :
    forget (pullFieldsX self fs ms st) = pullFields self' fs ms st := by
  induction fs generalizing st with
  | nil => rfl
  | cons f fs ih => simp only [pullFieldsX, pullFields, forget_bind, forget_field hs, ih]

theorem forget_step (t : Ty) (j : Json) (v : Val) : forget (pullXStep E self t j v) = pullStep E self' t j v := by
  cases t with
  | vec t =>
    cases j with
    | arr js => simp only [pullXStep, pullStep, forget_bind, forget_forIdx (forget_vecItem E hs t), forget_pure]
    | _ => exact forget_holding _ _
  | set h m t =>
    cases j with
    | arr js =>
      cases m
      · simp only [pullXStep, pullStep, forget_bind, Bool.false_eq_true, if_false, forget_forIdx (forget_setItem E hs t), forget_pure]
      · simp only [pullXStep, pullStep, forget_bind, if_true, forget_forIdx (forget_multisetItem E hs t), forget_pure]
    | _ => exact forget_holding _ _
  | map h m k t =>
    cases k with
    | str =>
      cases j with
      | obj ms =>
        cases v with
        | map kvs =>
          simp only [pullXStep, pullStep, forget_bind, forget_ite, forget_mapEntries E hs, forget_multimapEntries E hs, forget_pure]
        | _ => rfl
      | _ => exact forget_holding _ _
    | _ => rfl
  | pair a b =>
    cases j with
    | arr js =>
      simp only [pullXStep, pullStep, forget_ite, forget_holding]
      cases v with
      | tup vs => simp only [forget_bind, forget_tuple hs, forget_pure]
      | _ => rfl
    | _ => exact forget_holding _ _
  | tuple ts =>
    cases j with
    | arr js =>
      simp only [pullXStep, pullStep, forget_ite, forget_holding]
      cases v with
      | tup vs => simp only [forget_bind, forget_tuple hs, forget_pure]
      | _ => rfl
    | _ => exact forget_holding _ _
  | uptr t => cases j <;> first | rfl | simp only [pullXStep, pullStep, forget_bind, forget_within, hs, forget_pure]
  | sptr t => cases j <;> first | rfl | simp only [pullXStep, pullStep, forget_bind, forget_within, hs, forget_pure]
  | opt t => cases j <;> first | rfl | simp only [pullXStep, pullStep, forget_bind, forget_within, hs, forget_pure]
  | variant ts =>
    cases j with
    | obj ms =>
      simp only [pullXStep, pullStep]
      cases findMember (lit "index") ms with
      | none => exact forget_holding _ _
      | some ji =>
        cases findMember (lit "data") ms with
        | none => exact forget_holding _ _
        | some jd =>
          dsimp only
          cases uint64? ji with
          | none => exact forget_holding _ _
          | some i =>
            dsimp only
            cases ts[i]? with
            | none => exact forget_holding _ _
            | some t' =>
              cases t' <;> first | rfl | simp only [forget_bind, forget_within, hs, forget_pure]
    | _ => exact forget_holding _ _
  | cls c =>
    simp only [pullXStep, pullStep]
    cases E.cls c with
    | none => rfl
    | some ci =>
      dsimp only
      rw [forget_ite]
      split
      · rfl
      · cases j with
        | obj ms =>
          simp only [forget_bind, forget_bases hs]
          congr 1
          funext v
          cases v with
          | obj st => simp only [forget_bind, forget_ite, forget_withRecord, forget_fields hs, forget_pure]
          | _ => rfl
        | _ => exact forget_holding _ _
  | mono => exact forget_holding v M.stuck
  | _ => exact forget_holding _ _

end

theorem forget_pullX (E : Env) (n : Nat) (t : Ty) (j : Json) (v : Val) : forget (pullX E n t j v) = pull E n t j v := by
  induction n generalizing t j v with
  | zero => rfl
  | succ n ih => exact forget_step E ih t j v

end Verif
