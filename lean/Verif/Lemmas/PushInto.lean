import Verif.Model.PushInto

/-! # Adding to existing arrays and objects amounts to appending what `push` returns -/

namespace Verif

variable {E : Env} {H : Heap} {V : Ty → Val → SM Json} {O : ClassId → Val → ObjMembers → SM ObjMembers}

/-- what `O` should do -/
def AppendsTo (V : Ty → Val → SM Json) (O : ClassId → Val → ObjMembers → SM ObjMembers) : Prop :=
  ∀ c v ms, O c v ms = V (.cls c) v >>= fun j => match j with
    | .obj ms' => pure (ms ++ ms')
    | _ => M.stuck

theorem sm_ext {α : Type} {m m' : SM α} (h : m () = m' ()) : m = m' := by
  funext s; cases s; exact h

theorem obj_of_cls {n : Nat} {c : ClassId} {v : Val} {j : Json} (h : push E H n (.cls c) v () = .ok j ()) : ∃ ms, j = .obj ms := by
  cases n with
  | zero => cases h
  | succ n =>
    have h : pushStep E H (push E H n) (.cls c) v () = .ok j () := h
    cases v with
    | obj st =>
      simp only [pushStep] at h
      cases hc : E.cls c with
      | none => rw [hc] at h; cases h
      | some ci =>
        rw [hc] at h
        obtain ⟨ms, _, h1, h2⟩ := M.bind_eq_ok.1 h
        obtain ⟨ms', _, h3, h4⟩ := M.bind_eq_ok.1 h2
        cases h4
        exact ⟨_, rfl⟩
    | cstr x => cases x <;> cases h
    | _ => cases h

/-- the values `V` yields for classes are objects -/
def ObjForCls (V : Ty → Val → SM Json) : Prop := ∀ c v j, V (.cls c) v () = .ok j () → ∃ ms, j = .obj ms

theorem item_eq (hO : AppendsTo V O) (hV : ObjForCls V) (t : Ty) (v : Val) (js : List Json) :
    pushItem V O t v js = V t v >>= fun j => pure (js ++ [j]) := by
  apply sm_ext
  unfold pushItem
  split
  · rename_i c
    rw [hO]
    simp only [M.bind_apply]
    cases h : V (.cls c) v () with
    | ok j s => cases s; obtain ⟨ms, rfl⟩ := hV _ _ _ h; rfl
    | _ => rfl
  · rfl

theorem named_eq (hO : AppendsTo V O) (hV : ObjForCls V) (t : Ty) (v : Val) (k : Key) (ms : ObjMembers) :
    pushNamed V O t v k ms = V t v >>= fun j => pure (ms ++ [(k, j)]) := by
  apply sm_ext
  unfold pushNamed
  split
  · rename_i c
    rw [hO]
    simp only [M.bind_apply]
    cases h : V (.cls c) v () with
    | ok j s => cases s; obtain ⟨ms, rfl⟩ := hV _ _ _ h; rfl
    | _ => rfl
  · rfl

theorem items_eq (hO : AppendsTo V O) (hV : ObjForCls V) (t : Ty) (vs : List Val) (js : List Json) :
    pushItems V O t vs js = pushElems V t vs >>= fun js' => pure (js ++ js') := by
  induction vs generalizing js with
  | nil => apply sm_ext; simp [pushItems, pushElems, M.bind_apply]
  | cons v vs ih =>
    apply sm_ext
    simp only [pushItems, pushElems, item_eq hO hV, ih, M.bind_apply]
    cases V t v () with
    | ok j s => simp only [M.pure_apply]; cases pushElems V t vs () <;> simp
    | _ => rfl

theorem components_eq (hO : AppendsTo V O) (hV : ObjForCls V) (ts : List Ty) (vs : List Val) (js : List Json) :
    pushComponents V O ts vs js = pushTuple V ts vs >>= fun js' => pure (js ++ js') := by
  induction ts generalizing vs js with
  | nil =>
    apply sm_ext
    cases vs <;> simp [pushComponents, pushTuple, M.bind_apply]
  | cons t ts ih =>
    apply sm_ext
    cases vs with
    | nil => simp [pushComponents, pushTuple, M.bind_apply]
    | cons v vs =>
      simp only [pushComponents, pushTuple, item_eq hO hV, ih, M.bind_apply]
      cases V t v () with
      | ok j s => simp only [M.pure_apply]; cases pushTuple V ts vs () <;> simp
      | _ => rfl

theorem entries_eq (hO : AppendsTo V O) (hV : ObjForCls V) (t : Ty) (kvs : List (Val × Val)) (ms : ObjMembers) :
    pushEntries V O t kvs ms = pushMapEntries V t kvs >>= fun ms' => pure (ms ++ ms') := by
  induction kvs generalizing ms with
  | nil => apply sm_ext; simp [pushEntries, pushMapEntries, M.bind_apply]
  | cons kv kvs ih =>
    apply sm_ext
    obtain ⟨k, v⟩ := kv
    cases k <;> try rfl
    simp only [pushEntries, pushMapEntries, named_eq hO hV, ih, M.bind_apply]
    cases V t v () with
    | ok j s => simp only [M.pure_apply]; cases pushMapEntries V t kvs () <;> simp
    | _ => rfl

theorem setMember_group {name : Str} {ms : ObjMembers} {js : List Json} (j : Json) (h : findMember name ms = some (.arr js)) :
    setMemberValue name (.arr (js ++ [j])) ms = appendToMember name j ms := by
  induction ms with
  | nil => cases h
  | cons m ms ih =>
    obtain ⟨k, j'⟩ := m
    unfold findMember at h
    unfold setMemberValue appendToMember
    by_cases hk : k.bytes = name
    · rw [if_pos hk] at h
      cases h
      simp [hk]
    · rw [if_neg hk] at h
      rw [if_neg hk, if_neg hk, ih h]

theorem groups_eq (hO : AppendsTo V O) (hV : ObjForCls V) (t : Ty) (kvs : List (Val × Val)) (ms : ObjMembers) :
    pushGroups V O t kvs ms = pushMultimapEntries V t kvs ms := by
  induction kvs generalizing ms with
  | nil => rfl
  | cons kv kvs ih =>
    apply sm_ext
    obtain ⟨k, v⟩ := kv
    cases k <;> try rfl
    rename_i k
    simp only [pushGroups, pushMultimapEntries]
    unfold addToGroup
    cases hf : findMember (rjString k) ms with
    | none =>
      simp only [item_eq hO hV, ih, M.bind_apply]
      cases V t v () <;> rfl
    | some j0 =>
      cases j0 with
      | arr js =>
        simp only [item_eq hO hV, ih, M.bind_apply]
        cases V t v () with
        | ok j s => simp only [M.pure_apply]; rw [setMember_group j hf]
        | _ => rfl
      | _ =>
        simp only [item_eq hO hV, ih, M.bind_apply]
        cases V t v () <;> rfl

theorem intoBases_eq (hO : AppendsTo V O) (bs : List ClassId) (v : Val) (ms : ObjMembers) :
    pushIntoBases O bs v ms = pushBases V bs v >>= fun ms' => pure (ms ++ ms') := by
  induction bs generalizing ms with
  | nil => apply sm_ext; simp [pushIntoBases, pushBases, M.bind_apply]
  | cons b bs ih =>
    apply sm_ext
    simp only [pushIntoBases, pushBases, hO b, ih, M.bind_apply]
    cases V (.cls b) v () with
    | ok j s =>
      cases j <;> try rfl
      simp only [M.pure_apply, M.bind_apply]
      cases pushBases V bs v () <;> simp
    | _ => rfl

theorem intoFields_eq (hO : AppendsTo V O) (hV : ObjForCls V) (fs : List Field) (st : Store) (ms : ObjMembers) :
    pushIntoFields V O fs st ms = pushFields V fs st >>= fun ms' => pure (ms ++ ms') := by
  induction fs generalizing ms with
  | nil => apply sm_ext; simp [pushIntoFields, pushFields, M.bind_apply]
  | cons f fs ih =>
    apply sm_ext
    simp only [pushIntoFields, pushFields]
    cases st.get? f.key with
    | none => rfl
    | some v =>
      simp only [named_eq hO hV, ih, M.bind_apply]
      cases V f.ty v () with
      | ok j s => simp only [M.pure_apply]; cases pushFields V fs st () <;> simp
      | _ => rfl

theorem objectStep_eq (hO : AppendsTo V O) (hV : ObjForCls V) (c : ClassId) (v : Val) (ms : ObjMembers) :
    pushObjectStep E V O c v ms = pushStep E H V (.cls c) v >>= fun j => match j with
      | .obj ms' => pure (ms ++ ms')
      | _ => M.stuck := by
  apply sm_ext
  cases v with
  | obj st =>
    simp only [pushStep, pushObjectStep]
    cases E.cls c with
    | none => rfl
    | some ci =>
      simp only [intoBases_eq hO, intoFields_eq hO hV, M.bind_apply]
      cases pushBases V ci.json.bases (.obj st) () with
      | ok ms1 s =>
        cases s
        simp only [M.pure_apply]
        cases pushFields V ci.json.pushFields st () <;> simp
      | _ => rfl
  | cstr x => cases x <;> rfl
  | _ => rfl

theorem valueStep_eq (hO : AppendsTo V O) (hV : ObjForCls V)
    (hP : ∀ c v j, pushStep E H V (.cls c) v () = .ok j () → ∃ ms, j = .obj ms) (t : Ty) (v : Val) :
    pushValueStep E H V O (pushObjectStep E V O) t v = pushStep E H V t v := by
  apply sm_ext
  unfold pushValueStep
  split
  · simp only [pushStep]
  · simp only [items_eq hO hV, pushStep, M.bind_apply]; cases pushElems V _ _ () <;> simp
  · simp only [items_eq hO hV, pushStep, M.bind_apply]; cases pushElems V _ _ () <;> simp
  · simp only [entries_eq hO hV, pushStep, M.bind_apply]; cases pushMapEntries V _ _ () <;> simp
  · simp only [groups_eq hO hV, pushStep, M.bind_apply]
  · simp only [components_eq hO hV, pushStep, M.bind_apply]; cases pushTuple V _ _ () <;> simp
  · simp only [components_eq hO hV, pushStep, M.bind_apply]; cases pushTuple V _ _ () <;> simp
  · rename_i c _
    rw [objectStep_eq (H := H) hO hV]
    simp only [M.bind_apply]
    cases h : pushStep E H V (.cls c) v () with
    | ok j s => cases s; obtain ⟨ms, rfl⟩ := hP _ _ _ h; simp
    | _ => rfl
  · rfl

theorem pushInto_eq (E : Env) (H : Heap) (n : Nat) :
    (pushInto E H n).1 = push E H n ∧ AppendsTo (push E H n) (pushInto E H n).2 := by
  induction n with
  | zero => exact ⟨rfl, fun c v ms => rfl⟩
  | succ n ih =>
    obtain ⟨h1, h2⟩ := ih
    have hV : ObjForCls (push E H n) := fun c v j => obj_of_cls
    constructor
    · funext t v
      show pushValueStep E H (pushInto E H n).1 (pushInto E H n).2 _ t v = pushStep E H (push E H n) t v
      rw [h1]
      exact valueStep_eq h2 hV (fun c v j h => obj_of_cls (n := n + 1) h) t v
    · intro c v ms
      show pushObjectStep E (pushInto E H n).1 (pushInto E H n).2 c v ms = _
      rw [h1]
      exact objectStep_eq (H := H) h2 hV c v ms

end Verif
