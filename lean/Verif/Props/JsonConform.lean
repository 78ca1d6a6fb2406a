import Verif.Spec.JsonConform
import Verif.Model.Api

/-!
# C54: no error is reported iff the document conforms to the type
-/

namespace Verif

open Demo (env)

/-! ## Computations which report errors exactly under a condition -/

/-- Run with any errors object, `m` reports nothing iff `P` (if it does not return, it throws, so not `P`). -/
def Quiet {α : Type} (m : PM α) (P : Prop) : Prop :=
  ∀ st : ErrSt, match m (some st) with
    | .ok _ s' => ∃ st' new, s' = some st' ∧ st'.errs = st.errs ++ new ∧ (new = [] ↔ P)
    | .exc _ _ => ¬ P
    | _ => True

theorem Quiet.congr {α : Type} {m : PM α} {P Q : Prop} (h : Quiet m P) (hPQ : P ↔ Q) : Quiet m Q := by
  intro st
  have := h st
  cases hm : m (some st) with
  | ok a s => rw [hm] at this; dsimp only at this ⊢; rw [← hPQ]; exact this
  | exc e s => rw [hm] at this; dsimp only at this ⊢; rw [← hPQ]; exact this
  | _ => trivial

theorem Quiet.pure {α : Type} (a : α) {P : Prop} (hP : P) : Quiet (Pure.pure a : PM α) P :=
  fun st => ⟨st, [], rfl, by simp, by simp [hP]⟩

theorem Quiet.stuck {α : Type} {P : Prop} : Quiet (M.stuck : PM α) P := fun _ => trivial
theorem Quiet.ub {α : Type} {P : Prop} : Quiet (M.ub : PM α) P := fun _ => trivial

theorem Quiet.report (k : ErrKind) (a b : JType) {P : Prop} (hP : ¬ P) : Quiet (report k a b) P := by
  intro st
  simp only [Verif.report]
  by_cases h : st.throwOn &&& k.flag ≠ 0
  · rw [if_pos h]; exact hP
  · rw [if_neg h]; exact ⟨_, [st.mk' k a b], rfl, rfl, by simp [hP]⟩

theorem Quiet.bind' {α β : Type} {m : PM α} {f : α → PM β} {P Q : Prop} (hm : Quiet m P)
    (hf : ∀ a st s', m (some st) = .ok a s' → Quiet (f a) Q) : Quiet (m >>= f) (P ∧ Q) := by
  intro st
  have h1 := hm st
  rw [M.bind_apply]
  cases h : m (some st) with
  | ok a s =>
    rw [h] at h1
    obtain ⟨st', new, rfl, h2, h3⟩ := h1
    dsimp only
    have h4 := hf a st _ h st'
    cases h' : f a (some st') with
    | ok b s' =>
      rw [h'] at h4
      obtain ⟨st'', new', rfl, h5, h6⟩ := h4
      refine ⟨st'', new ++ new', rfl, by rw [h5, h2, List.append_assoc], ?_⟩
      rw [List.append_eq_nil_iff, h3, h6]
    | exc e s' => rw [h'] at h4; exact fun hp => h4 hp.2
    | _ => trivial
  | exc e s => rw [h] at h1; exact fun hp => h1 hp.1
  | _ => trivial

theorem Quiet.bind {α β : Type} {m : PM α} {f : α → PM β} {P Q : Prop} (hm : Quiet m P)
    (hf : ∀ a, Quiet (f a) Q) : Quiet (m >>= f) (P ∧ Q) := Quiet.bind' hm fun a _ _ _ => hf a

theorem Quiet.bind_false {α β : Type} {m : PM α} {f : α → PM β} (hm : Quiet m False) (hf : ∀ a, ∃ Q, Quiet (f a) Q) :
    Quiet (m >>= f) False := by
  intro st
  have h1 := hm st
  rw [M.bind_apply]
  cases h : m (some st) with
  | ok a s =>
    rw [h] at h1
    obtain ⟨st', new, rfl, h2, h3⟩ := h1
    dsimp only
    obtain ⟨Q, hQ⟩ := hf a
    have h4 := hQ st'
    cases h' : f a (some st') with
    | ok b s' =>
      rw [h'] at h4
      obtain ⟨st'', new', rfl, h5, h6⟩ := h4
      refine ⟨st'', new ++ new', rfl, by rw [h5, h2, List.append_assoc], ?_⟩
      rw [List.append_eq_nil_iff, h3]; simp
    | exc e s' => exact fun hp => hp
    | _ => trivial
  | exc e s => exact fun hp => hp
  | _ => trivial

theorem Quiet.map {α β : Type} {m : PM α} {P : Prop} (g : α → β) (hm : Quiet m P) :
    Quiet (m >>= fun a => Pure.pure (g a)) P :=
  (hm.bind (Q := True) fun _ => Quiet.pure _ trivial).congr (by simp)

theorem Quiet.setIndex (i : Nat) : Quiet (setIndex i) True :=
  fun st => ⟨{ st with index := i }, [], rfl, by simp, by simp⟩

theorem Quiet.withMember {α : Type} {m : PM α} {P : Prop} (n : Str) (h : Quiet m P) : Quiet (withMember n m) P := by
  intro st
  have h1 := h { st with member := some n }
  rw [withMember_some]
  cases hm : m (some { st with member := some n }) with
  | ok a s =>
    rw [hm] at h1
    obtain ⟨st', new, rfl, h2, h3⟩ := h1
    exact ⟨_, new, rfl, h2, h3⟩
  | exc e s => rw [hm] at h1; exact h1
  | _ => trivial

theorem Quiet.withRecord {α : Type} {m : PM α} {P : Prop} (n : Str) (h : Quiet m P) : Quiet (withRecord n m) P := by
  intro st
  have h1 := h { st with record := some n }
  rw [withRecord_some]
  cases hm : m (some { st with record := some n }) with
  | ok a s =>
    rw [hm] at h1
    obtain ⟨st', new, rfl, h2, h3⟩ := h1
    exact ⟨_, new, rfl, h2, h3⟩
  | exc e s => rw [hm] at h1; exact h1
  | _ => trivial

theorem Quiet.mismatch (e : JType) (j : Json) (v : Val) {P : Prop} (hP : ¬ P) : Quiet (mismatch e j v) P :=
  ((Quiet.report (P := P) .typeMismatch e j.jtype hP).bind (Q := True) fun _ => Quiet.pure v trivial).congr (by simp)

theorem Quiet.numToInt (t : IntTy) (n : Num) : Quiet (numToInt t n) True := by
  have hc : ∀ d, Quiet (castDouble t d) True := by
    intro d
    unfold castDouble
    split
    · split
      · exact Quiet.pure _ trivial
      · exact Quiet.ub
    · exact Quiet.ub
  cases n with
  | int i =>
    simp only [Verif.numToInt]
    split
    · exact Quiet.pure _ trivial
    · exact hc _
  | dbl d => exact hc _

theorem Quiet.forIdx {β : Type} {f : Json → β → PM β} {P : Json → Prop} (js : List Json) (i : Nat) (b : β)
    (h : ∀ j ∈ js, ∀ b, Quiet (f j b) (P j)) : Quiet (forIdx f js i b) (∀ j ∈ js, P j) := by
  induction js generalizing i b with
  | nil => exact ((Quiet.setIndex _).bind (Q := True) fun _ => Quiet.pure _ trivial).congr (by simp)
  | cons j js ih =>
    refine ((Quiet.setIndex i).bind fun _ => (h j List.mem_cons_self b).bind fun b' =>
      ih (i + 1) b' fun j' hj' => h j' (List.mem_cons_of_mem _ hj')).congr ?_
    simp

/-! ## What an item is read as does not depend on the errors object -/

def SameVal (α : Type) (m : PM α) : Prop := ∀ s1 s1' s2 s2' a b, m s1 = .ok a s1' → m s2 = .ok b s2' → a = b

theorem SameVal.bind {α β : Type} (m : PM α) (f : α → PM β) (hm : SameVal α m) (hf : ∀ a, SameVal β (f a)) :
    SameVal β (m >>= f) := by
  intro s1 s1' s2 s2' b b' h1 h2
  obtain ⟨a, t, e1, e2⟩ := M.bind_eq_ok.1 h1
  obtain ⟨a', t', e1', e2'⟩ := M.bind_eq_ok.1 h2
  obtain rfl := hm _ _ _ _ _ _ e1 e1'
  exact hf a _ _ _ _ _ _ e2 e2'

theorem sameVal_unit (m : PM Unit) : SameVal Unit m := fun _ _ _ _ _ _ _ _ => rfl

theorem sameVal_pure {α : Type} (a : α) : SameVal α (Pure.pure a) := by
  intro s1 s1' s2 s2' b b' h1 h2
  cases h1; cases h2; rfl

theorem sameVal_closed : Closed SameVal where
  pure := sameVal_pure
  ub := fun _ _ _ _ _ _ h => by cases h
  stuck := fun _ _ _ _ _ _ h => by cases h
  fuel := fun _ _ _ _ _ _ h => by cases h
  bind := SameVal.bind
  report _ _ _ := sameVal_unit _
  dup := sameVal_unit _
  member n m hm := by
    intro s1 s1' s2 s2' b b' h1 h2
    have key : ∀ s s' a, withMember n m s = .ok a s' → ∃ t t', m t = .ok a t' := by
      intro s s' a h
      simp only [withMember] at h
      obtain ⟨_, _, _, h⟩ := M.bind_eq_ok.1 h
      obtain ⟨_, _, _, h⟩ := M.bind_eq_ok.1 h
      obtain ⟨_, _, h', h⟩ := M.bind_eq_ok.1 h
      obtain ⟨_, _, _, h⟩ := M.bind_eq_ok.1 h
      cases h
      exact ⟨_, _, h'⟩
    obtain ⟨_, _, e1⟩ := key _ _ _ h1
    obtain ⟨_, _, e2⟩ := key _ _ _ h2
    exact hm _ _ _ _ _ _ e1 e2
  record n m hm := by
    intro s1 s1' s2 s2' b b' h1 h2
    have key : ∀ s s' a, withRecord n m s = .ok a s' → ∃ t t', m t = .ok a t' := by
      intro s s' a h
      simp only [withRecord] at h
      obtain ⟨_, _, _, h⟩ := M.bind_eq_ok.1 h
      obtain ⟨_, _, _, h⟩ := M.bind_eq_ok.1 h
      obtain ⟨_, _, h', h⟩ := M.bind_eq_ok.1 h
      obtain ⟨_, _, _, h⟩ := M.bind_eq_ok.1 h
      cases h
      exact ⟨_, _, h'⟩
    obtain ⟨_, _, e1⟩ := key _ _ _ h1
    obtain ⟨_, _, e2⟩ := key _ _ _ h2
    exact hm _ _ _ _ _ _ e1 e2
  idx f hf js i b := by
    induction js generalizing i b with
    | nil => exact SameVal.bind _ _ (sameVal_unit _) fun _ => sameVal_pure _
    | cons j js ih => exact SameVal.bind _ _ (sameVal_unit _) fun _ => SameVal.bind _ _ (hf j b) fun _ => ih _ _

theorem ReadAs.unique {E : Env} {t : Ty} {j : Json} {v v' : Val} (h : ReadAs E t j v) (h' : ReadAs E t j v') : v = v' := by
  obtain ⟨n, s, s1, h⟩ := h
  obtain ⟨m, s2, s3, h'⟩ := h'
  have e1 := pull_mono (Nat.le_max_left n m) h (by simp)
  have e2 := pull_mono (Nat.le_max_right n m) h' (by simp)
  exact (sameVal_closed.pull (E := E) (max n m) t j (E.defInit t)) _ _ _ _ _ _ e1 e2

/-! ## The overloads -/

theorem quiet_set {E : Env} {n : Nat} {t : Ty} (hO : OrderedItems E) (js : List Json)
    (hs : ∀ j ∈ js, ∀ v, Quiet (pull E n t j v) (Conforms E t j)) (i : Nat) (pre acc : List Val)
    (hpre : ∀ v ∈ pre, v.hasIndet = false ∧ ∃ j, ReadAs E t j v) (hI : SetInv (E.lt t) pre acc) :
    Quiet (forIdx (setItem E (pull E n) t) js i acc)
      ((∀ j ∈ js, Conforms E t j) ∧ (∀ j ∈ js, ∀ v, ReadAs E t j v → ∀ p ∈ pre, ¬ Equivalent (E.lt t) p v) ∧
        js.Pairwise fun j j' => ∀ v v', ReadAs E t j v → ReadAs E t j' v' → ¬ Equivalent (E.lt t) v v') := by
  induction js generalizing i pre acc with
  | nil => exact ((Quiet.setIndex _).bind (Q := True) fun _ => Quiet.pure _ trivial).congr (by simp)
  | cons j js ih =>
    intro st
    rw [forIdx_cons, Option.map_some]
    have hset : setItem E (pull E n) t j acc = (pull E n t j (E.defInit t) >>= fun v =>
        if v.hasIndet then M.ub
        else if (insertUniq (E.lt t) v acc).2 then Pure.pure (insertUniq (E.lt t) v acc).1
        else reportDuplicateUnchecked >>= fun _ => Pure.pure (insertUniq (E.lt t) v acc).1) := rfl
    rw [hset, M.bind_assoc', M.bind_apply]
    have h1 := hs j List.mem_cons_self (E.defInit t) { st with index := i }
    cases hm : pull E n t j (E.defInit t) (some { st with index := i }) with
    | exc e s =>
      rw [hm] at h1
      exact fun hp => h1 (hp.1 j List.mem_cons_self)
    | ok v s =>
      rw [hm] at h1
      obtain ⟨st', new, rfl, h2, h3⟩ := h1
      have hv : ReadAs E t j v := ⟨n, _, _, hm⟩
      dsimp only
      cases hxi : v.hasIndet with
      | true => trivial
      | false =>
        simp only [Bool.false_eq_true, if_false]
        have hS := hO t (v :: pre) (by
          intro x hx
          rcases List.mem_cons.1 hx with rfl | hx
          · exact ⟨hxi, j, hv⟩
          · exact hpre x hx)
        obtain ⟨s1, s2, s3⟩ := SetInv.step hS hI (fun x hx => List.mem_cons_of_mem _ hx) (List.mem_cons_self)
        by_cases hd : ∃ z ∈ pre, Equivalent (E.lt t) z v
        · -- duplicate
          have hno : ∀ P : Prop, ¬ (P ∧ (∀ j' ∈ j :: js, ∀ v, ReadAs E t j' v → ∀ p ∈ pre, ¬ Equivalent (E.lt t) p v) ∧
              (j :: js).Pairwise fun j j' => ∀ v v', ReadAs E t j v → ReadAs E t j' v' → ¬ Equivalent (E.lt t) v v') := by
            rintro P ⟨-, h, -⟩
            obtain ⟨z, hz, he⟩ := hd
            exact h j List.mem_cons_self v hv z hz he
          rw [s1 hd]
          simp only [Bool.false_eq_true, if_false]
          have hq : Quiet ((reportDuplicateUnchecked >>= fun _ => (Pure.pure acc : PM (List Val))) >>= fun b =>
              forIdx (setItem E (pull E n) t) js (i + 1) b) False := by
            have hr : Quiet reportDuplicateUnchecked False := by
              intro st; exact Quiet.report .unexpectedDuplicate .array .array (fun h => h) st
            intro st0
            have ha := hr st0
            rw [M.bind_assoc', M.bind_apply]
            cases hr0 : reportDuplicateUnchecked (some st0) with
            | ok u s0 =>
              rw [hr0] at ha
              obtain ⟨st1, new1, rfl, g1, g2⟩ := ha
              dsimp only
              rw [M.pure_bind']
              have hI' : SetInv (E.lt t) (pre ++ [v]) acc := by have := s3; rw [s1 hd] at this; exact this
              have h5 := ih (fun j' hj' => hs j' (List.mem_cons_of_mem _ hj')) (i + 1) (pre ++ [v]) acc (by
                intro x hx
                rcases List.mem_append.1 hx with hx | hx
                · exact hpre x hx
                · rw [List.mem_singleton.1 hx]; exact ⟨hxi, j, hv⟩) hI' st1
              cases h6 : forIdx (setItem E (pull E n) t) js (i + 1) acc (some st1) with
              | ok b s' =>
                rw [h6] at h5
                obtain ⟨st2, new2, rfl, g3, g4⟩ := h5
                exact ⟨st2, new1 ++ new2, rfl, by rw [g3, g1, List.append_assoc], by
                  rw [List.append_eq_nil_iff, g2]; simp⟩
              | exc e s' => exact fun h => h
              | _ => trivial
            | exc e s0 => exact fun h => h
            | _ => trivial
          have h5 := hq st'
          cases h6 : ((reportDuplicateUnchecked >>= fun _ => (Pure.pure acc : PM (List Val))) >>= fun b =>
              forIdx (setItem E (pull E n) t) js (i + 1) b) (some st') with
          | ok b s' =>
            rw [h6] at h5
            obtain ⟨st2, new2, rfl, g3, g4⟩ := h5
            refine ⟨st2, new ++ new2, rfl, by rw [g3, h2, List.append_assoc], ?_⟩
            rw [List.append_eq_nil_iff, g4]
            exact ⟨fun h => h.2.elim, fun h => (hno _ h).elim⟩
          | exc e s' => exact hno _
          | _ => trivial
        · rw [s2 hd]
          simp only [if_true]
          rw [M.pure_bind']
          have h5 := ih (fun j' hj' => hs j' (List.mem_cons_of_mem _ hj')) (i + 1) (pre ++ [v]) _ (by
            intro x hx
            rcases List.mem_append.1 hx with hx | hx
            · exact hpre x hx
            · rw [List.mem_singleton.1 hx]; exact ⟨hxi, j, hv⟩) s3 st'
          have hiff : ((∀ j' ∈ j :: js, Conforms E t j') ∧
              (∀ j' ∈ j :: js, ∀ v, ReadAs E t j' v → ∀ p ∈ pre, ¬ Equivalent (E.lt t) p v) ∧
              (j :: js).Pairwise fun j j' => ∀ v v', ReadAs E t j v → ReadAs E t j' v' → ¬ Equivalent (E.lt t) v v') ↔
            (Conforms E t j ∧ (∀ j ∈ js, Conforms E t j) ∧
              (∀ j ∈ js, ∀ w, ReadAs E t j w → ∀ p ∈ pre ++ [v], ¬ Equivalent (E.lt t) p w) ∧
              js.Pairwise fun j j' => ∀ v v', ReadAs E t j v → ReadAs E t j' v' → ¬ Equivalent (E.lt t) v v') := by
            rw [List.forall_mem_cons, List.forall_mem_cons, List.pairwise_cons]
            constructor
            · rintro ⟨⟨a1, a2⟩, ⟨a3, a4⟩, a5, a6⟩
              refine ⟨a1, a2, fun j' hj' w hw p hp => ?_, a6⟩
              rcases List.mem_append.1 hp with hp | hp
              · exact a4 j' hj' w hw p hp
              · rw [List.mem_singleton.1 hp]; exact a5 j' hj' v w hv hw
            · rintro ⟨a1, a2, a3, a6⟩
              refine ⟨⟨a1, a2⟩, ⟨?_, ?_⟩, ?_, a6⟩
              · intro w hw p hp he
                rw [ReadAs.unique hw hv] at he
                exact hd ⟨p, hp, he⟩
              · exact fun j' hj' w hw p hp => a3 j' hj' w hw p (List.mem_append_left _ hp)
              · intro j' hj' w w' hw hw'
                rw [ReadAs.unique hw hv]
                exact a3 j' hj' w' hw' v (by simp)
          cases h6 : forIdx (setItem E (pull E n) t) js (i + 1) (insertUniq (E.lt t) v acc).1 (some st') with
          | ok b s' =>
            rw [h6] at h5
            obtain ⟨st2, new2, rfl, g3, g4⟩ := h5
            refine ⟨st2, new ++ new2, rfl, by rw [g3, h2, List.append_assoc], ?_⟩
            rw [List.append_eq_nil_iff, g4, h3, hiff]
          | exc e s' => rw [h6] at h5; exact fun hp => h5 (hiff.1 hp).2
          | _ => trivial
    | _ => trivial

section
variable {E : Env} {self : Ty → Json → Val → PM Val}

theorem quiet_map {t : Ty} (ms : List (Key × Json)) (hs : ∀ j v, Quiet (self t j v) (Conforms E t j))
    (kvs : List (Val × Val)) : Quiet (pullMapEntries E self t ms kvs) (∀ k j, (k, j) ∈ ms → Conforms E t j) := by
  induction ms generalizing kvs with
  | nil => exact Quiet.pure _ (by simp)
  | cons m ms ih =>
    obtain ⟨k, j⟩ := m
    refine ((hs j _).bind fun _ => ih _).congr ?_
    constructor
    · rintro ⟨h1, h2⟩ k' j' h
      rcases List.mem_cons.1 h with h | h
      · cases h; exact h1
      · exact h2 _ _ h
    · exact fun h => ⟨h k j List.mem_cons_self, fun k' j' h' => h k' j' (List.mem_cons_of_mem _ h')⟩

theorem quiet_multimapItems {t : Ty} (key : Str) (js : List Json) (hs : ∀ j v, Quiet (self t j v) (Conforms E t j))
    (kvs : List (Val × Val)) : Quiet (pullMultimapItems E self t key js kvs) (∀ j ∈ js, Conforms E t j) := by
  induction js generalizing kvs with
  | nil => exact Quiet.pure _ (by simp)
  | cons j js ih => exact ((hs j _).bind fun _ => ih _).congr (by simp)

theorem quiet_multimap {t : Ty} (ms : List (Key × Json)) (hs : ∀ j v, Quiet (self t j v) (Conforms E t j))
    (kvs : List (Val × Val)) : Quiet (pullMultimapEntries E self t ms kvs)
      ((∀ k js, (k, .arr js) ∈ ms → ∀ j ∈ js, Conforms E t j) ∧
        ∀ k j, (k, j) ∈ ms → j.jtype ≠ .array → Conforms E t j) := by
  induction ms generalizing kvs with
  | nil => exact Quiet.pure _ (by simp)
  | cons m ms ih =>
    obtain ⟨k, j⟩ := m
    refine ((quiet_multimapItems _ _ hs _).bind fun _ => ih _).congr ?_
    constructor
    · rintro ⟨h1, h2, h3⟩
      refine ⟨fun k' js h => ?_, fun k' j' h hj' => ?_⟩
      · rcases List.mem_cons.1 h with h | h
        · cases h; exact h1
        · exact h2 _ _ h
      · rcases List.mem_cons.1 h with h | h
        · cases h
          refine h1 j ?_
          cases j <;> simp [Json.jtype] at hj' ⊢
        · exact h3 _ _ h hj'
    · rintro ⟨h1, h2⟩
      refine ⟨fun j' hj' => ?_, fun k' js h => h1 k' js (List.mem_cons_of_mem _ h),
        fun k' j' h => h2 k' j' (List.mem_cons_of_mem _ h)⟩
      cases j with
      | arr js => exact h1 k js List.mem_cons_self j' hj'
      | null => rw [List.mem_singleton.1 hj']; exact h2 k _ List.mem_cons_self (by simp [Json.jtype])
      | bool b => rw [List.mem_singleton.1 hj']; exact h2 k _ List.mem_cons_self (by simp [Json.jtype])
      | num b => rw [List.mem_singleton.1 hj']; exact h2 k _ List.mem_cons_self (by simp [Json.jtype])
      | str b => rw [List.mem_singleton.1 hj']; exact h2 k _ List.mem_cons_self (by simp [Json.jtype])
      | obj b => rw [List.mem_singleton.1 hj']; exact h2 k _ List.mem_cons_self (by simp [Json.jtype])

theorem quiet_tuple (ts : List Ty) (js : List Json) (vs : List Val) (hl : js.length = ts.length)
    (hs : ∀ t j v, Quiet (self t j v) (Conforms E t j)) : Quiet (pullTuple self ts js vs)
      (∀ (i : Nat) t j, ts[i]? = some t → js[i]? = some j → Conforms E t j) := by
  induction ts generalizing js vs with
  | nil =>
    cases js with
    | nil => cases vs with
      | nil => exact Quiet.pure _ (by simp)
      | cons v vs => exact Quiet.stuck
    | cons j js => cases hl
  | cons t ts ih =>
    cases js with
    | nil => cases hl
    | cons j js => cases vs with
      | nil => exact Quiet.stuck
      | cons v vs =>
        simp only [pullTuple]
        refine ((hs t j v).bind fun _ => (Quiet.map _ (ih js vs (by simpa using hl)))).congr ?_
        constructor
        · rintro ⟨h1, h2⟩ i t' j' ht' hj'
          cases i with
          | zero => simp at ht' hj'; subst ht'; subst hj'; exact h1
          | succ i => exact h2 i t' j' (by simpa using ht') (by simpa using hj')
        · intro h
          exact ⟨h 0 t j rfl rfl, fun i t' j' ht' hj' => h (i + 1) t' j' (by simpa using ht') (by simpa using hj')⟩

theorem quiet_bases (bs : List ClassId) (ms : List (Key × Json)) (v : Val)
    (hs : ∀ t j v, Quiet (self t j v) (Conforms E t j)) :
    Quiet (pullBases self bs ms v) (∀ b ∈ bs, Conforms E (.cls b) (.obj ms)) := by
  induction bs generalizing v with
  | nil => exact Quiet.pure _ (by simp)
  | cons b bs ih => exact ((hs _ _ _).bind fun _ => ih _).congr (by simp)

theorem quiet_fields (fs : List Field) (ms : List (Key × Json)) (st : Store)
    (hs : ∀ t j v, Quiet (self t j v) (Conforms E t j)) :
    Quiet (pullFields self fs ms st) (∀ f ∈ fs, ∀ j, firstNamed f.name ms = some j → Conforms E f.ty j) := by
  induction fs generalizing st with
  | nil => exact Quiet.pure _ (by simp)
  | cons f fs ih =>
    have h1 : Quiet (pullField self f ms st) (∀ j, firstNamed f.name ms = some j → Conforms E f.ty j) := by
      unfold pullField
      rw [findMember_eq]
      cases hf : firstNamed f.name ms with
      | none => exact Quiet.pure _ (by simp)
      | some j =>
        cases hg : st.get? f.key with
        | none => exact Quiet.stuck
        | some v => exact (Quiet.map _ (Quiet.withMember _ (hs f.ty j v))).congr (by simp)
    exact (h1.bind fun _ => ih _).congr (by simp)

theorem quiet_time (parse : Str → Option Int) (j : Json) (v : Val) (P : Prop)
    (hP : P ↔ ∃ s, j = .str s ∧ (parse (cstrOf s)).isSome) : Quiet (pullTime parse j v) P := by
  unfold pullTime pullTimeStr
  cases j with
  | str s =>
    rw [M.pure_bind']
    cases hp : parse (cstrOf s) with
    | some i => exact Quiet.pure _ (hP.2 ⟨s, rfl, by rw [hp]; rfl⟩)
    | none =>
      refine ((Quiet.report (P := P) _ _ _ ?_).bind (Q := True) fun _ => Quiet.pure _ trivial).congr (by simp)
      rw [hP]; rintro ⟨s', h, h'⟩; cases h; rw [hp] at h'; cases h'
  | _ =>
    have hn : ¬ P := by rw [hP]; rintro ⟨s', h, h'⟩; cases h
    refine (Quiet.bind_false (Quiet.bind_false (Quiet.report _ _ _ (fun h => h)) fun _ => ⟨True, Quiet.pure _ trivial⟩)
      fun s => ?_).congr (by simp [hn])
    cases parse s with
    | some i => exact ⟨True, Quiet.pure _ trivial⟩
    | none =>
      exact ⟨False, Quiet.bind_false (Quiet.report _ _ _ (fun h => h)) fun _ => ⟨True, Quiet.pure _ trivial⟩⟩

end

theorem enumNum_iff {u : IntTy} {j : Json} : (enumNum (!u.signed) j).isSome ↔ EnumNumber u.signed j := by
  cases j with
  | num m =>
    cases m with
    | int i =>
      cases hu : u.signed
      · simp only [enumNum, EnumNumber, Bool.not_false, if_true]
        have : IntTy.inRange .u64 i = true ↔ 0 ≤ i ∧ i < 2 ^ 64 := by
          simp [IntTy.inRange, IntTy.lo, IntTy.hi, IntTy.card, IntTy.bytes, IntTy.signed]
        by_cases h : IntTy.inRange .u64 i = true
        · rw [if_pos h]; exact ⟨fun _ => this.1 h, fun _ => rfl⟩
        · rw [if_neg h]; exact ⟨fun h' => (by cases h'), fun h' => absurd (this.2 h') h⟩
      · simp only [enumNum, EnumNumber, Bool.not_true, Bool.false_eq_true, if_false, if_true]
        have : IntTy.inRange .i64 i = true ↔ -(2 ^ 63) ≤ i ∧ i < 2 ^ 63 := by
          simp [IntTy.inRange, IntTy.lo, IntTy.hi, IntTy.card, IntTy.bytes, IntTy.signed]
        by_cases h : IntTy.inRange .i64 i = true
        · rw [if_pos h]; exact ⟨fun _ => this.1 h, fun _ => rfl⟩
        · rw [if_neg h]; exact ⟨fun h' => (by cases h'), fun h' => absurd (this.2 h') h⟩
    | dbl d => simp [enumNum, EnumNumber]
  | _ => simp [enumNum, EnumNumber]

theorem inRange_u64 {k : Int} (h : IntTy.inRange .u64 k = true) : ∃ m : Nat, k = m ∧ m < 2 ^ 64 := by
  have hr : 0 ≤ k ∧ k < 2 ^ 64 := by
    simpa [IntTy.inRange, IntTy.lo, IntTy.hi, IntTy.card, IntTy.bytes, IntTy.signed] using h
  obtain ⟨m, rfl⟩ := Int.eq_ofNat_of_zero_le hr.1
  exact ⟨m, rfl, by have := hr.2; omega⟩

theorem uint64_some {j : Json} {i : Nat} (h : uint64? j = some i) : j = .num (.int i) ∧ i < 2 ^ 64 := by
  unfold uint64? at h
  split at h
  · split at h
    · rename_i hr
      obtain ⟨m, rfl, hm⟩ := inRange_u64 hr
      rw [Int.toNat_natCast] at h
      cases h
      exact ⟨rfl, hm⟩
    · cases h
  · cases h

theorem numInt_inj {i i' : Nat} (h : Json.num (.int i) = .num (.int i')) : i' = i := by
  injection h with h; injection h with h; exact (Int.natCast_inj.1 h).symm

theorem quiet_pull (E : Env) (hO : OrderedItems E) (n : Nat) (t : Ty) (j : Json) (v : Val) :
    Quiet (pull E n t j v) (Conforms E t j) := by
  induction n generalizing t j v with
  | zero => exact fun _ => trivial
  | succ n ih =>
    show Quiet (pullStep E (pull E n) t j v) _
    have mis : ∀ e j v t, ¬ Conforms E t j → Quiet (mismatch e j v) (Conforms E t j) := fun e j v t h => Quiet.mismatch e j v h
    cases t with
    | bool =>
      cases j <;> first | exact Quiet.pure _ (.bool _) | exact mis _ _ _ _ (fun h => by cases h)
    | int it =>
      have hn : ∀ m : Num, Quiet (numToInt it m >>= fun i => Pure.pure (Val.int i)) (Conforms E (.int it) (.num m)) :=
        fun m => (Quiet.map _ (Quiet.numToInt _ _)).congr (by simp [Conforms.int])
      have hn' : ∀ m : Num, Quiet (numToInt .i32 m >>= fun i => Pure.pure (Val.int (it.wrap i))) (Conforms E (.int it) (.num m)) :=
        fun m => (Quiet.map _ (Quiet.numToInt _ _)).congr (by simp [Conforms.int])
      cases it <;> cases j <;>
        first
        | exact hn _
        | exact hn' _
        | exact Quiet.stuck
        | exact mis _ _ _ _ (fun h => by cases h)
    | f32 => cases j <;> first | exact Quiet.pure _ (.f32 _) | exact mis _ _ _ _ (fun h => by cases h)
    | f64 => cases j <;> first | exact Quiet.pure _ (.f64 _) | exact mis _ _ _ _ (fun h => by cases h)
    | enum u =>
      simp only [pullStep]
      cases he : enumNum (!u.signed) j with
      | some i => exact Quiet.pure _ (.enum (enumNum_iff.1 (by rw [he]; rfl)))
      | none =>
        refine mis _ _ _ _ (fun h => ?_)
        cases h with
        | enum h => have := enumNum_iff.2 h; rw [he] at this; cases this
    | str => cases j <;> first | exact Quiet.pure _ (.str _) | exact mis _ _ _ _ (fun h => by cases h)
    | cstr => cases j <;> first | exact Quiet.pure _ (.cstr _) | exact mis _ _ _ _ (fun h => by cases h)
    | sview => cases j <;> first | exact Quiet.pure _ (.sview _) | exact mis _ _ _ _ (fun h => by cases h)
    | vec t' =>
      cases j with
      | arr js =>
        refine (Quiet.map _ (Quiet.forIdx js 0 [] fun j _ b => Quiet.map _ (ih t' j _))).congr ?_
        exact ⟨.vec, fun h => by cases h; assumption⟩
      | _ => exact mis _ _ _ _ (fun h => by cases h)
    | set hashed multi t' =>
      cases j with
      | arr js =>
        cases multi with
        | true =>
          have hi : ∀ j b, Quiet (multisetItem E (pull E n) t' j b) (Conforms E t' j) := by
            intro j b
            refine ((ih t' j _).bind (Q := True) fun v => ?_).congr (by simp)
            split
            · exact Quiet.ub
            · exact Quiet.pure _ trivial
          refine (Quiet.map _ (Quiet.forIdx js 0 [] fun j _ b => hi j b)).congr ?_
          exact ⟨.multiset, fun h => by cases h; assumption⟩
        | false =>
          refine (Quiet.map _ (quiet_set hO js (fun j _ v => ih t' j v) 0 [] [] (by simp) ⟨.nil, by
            intro y; simp [FirstOfItsKind]⟩)).congr ?_
          constructor
          · rintro ⟨h1, -, h3⟩; exact .set h1 h3
          · intro h
            cases h with
            | set h1 h2 => exact ⟨h1, by simp, h2⟩
      | _ => exact mis _ _ _ _ (fun h => by cases h)
    | map hashed multi k t' =>
      cases k with
      | str =>
        cases j with
        | obj ms =>
          cases v with
          | map kvs =>
            cases multi with
            | true =>
              refine (Quiet.map _ (quiet_multimap ms (fun j v => ih t' j v) kvs)).congr ?_
              exact ⟨fun h => .multimap h.1 h.2, fun h => by cases h with | multimap h1 h2 => exact ⟨h1, h2⟩⟩
            | false =>
              refine (Quiet.map _ (quiet_map ms (fun j v => ih t' j v) kvs)).congr ?_
              exact ⟨.map, fun h => by cases h; assumption⟩
          | _ => exact Quiet.stuck
        | _ => exact mis _ _ _ _ (fun h => by cases h)
      | _ => exact Quiet.stuck
    | pair a b =>
      cases j with
      | arr js =>
        simp only [pullStep]
        by_cases hl : js.length = 2
        · rw [if_neg (by simpa using hl)]
          cases v with
          | tup vs =>
            refine (Quiet.map _ (quiet_tuple [a, b] js vs hl fun t j v => ih t j v)).congr ?_
            match js, hl with
            | [x, y], _ =>
              constructor
              · exact fun h => .pair (h 0 a x rfl rfl) (h 1 b y rfl rfl)
              · intro h
                cases h with
                | pair h1 h2 =>
                  intro i t j ht hj
                  match i with
                  | 0 => simp at ht hj; subst ht; subst hj; exact h1
                  | 1 => simp at ht hj; subst ht; subst hj; exact h2
                  | i + 2 => simp at ht
          | _ => exact Quiet.stuck
        · rw [if_pos hl]
          exact (Quiet.map _ (Quiet.report (P := False) _ _ _ (fun h => h))).congr
            ⟨fun h => h.elim, fun h => by cases h; exact hl rfl⟩
      | _ => exact mis _ _ _ _ (fun h => by cases h)
    | tuple ts =>
      cases j with
      | arr js =>
        simp only [pullStep]
        by_cases hl : js.length = ts.length
        · rw [if_neg (by simpa using hl)]
          cases v with
          | tup vs =>
            refine (Quiet.map _ (quiet_tuple ts js vs hl fun t j v => ih t j v)).congr ?_
            exact ⟨.tuple hl, fun h => by cases h; assumption⟩
          | _ => exact Quiet.stuck
        · rw [if_pos hl]
          exact (Quiet.map _ (Quiet.report (P := False) _ _ _ (fun h => h))).congr
            ⟨fun h => h.elim, fun h => by cases h; contradiction⟩
      | _ => exact mis _ _ _ _ (fun h => by cases h)
    | opt t' =>
      cases j <;> first
        | exact Quiet.pure _ (.optNull _)
        | exact (Quiet.map _ (ih t' _ _)).congr ⟨.opt, fun h => by cases h; assumption⟩
    | uptr t' =>
      cases j <;> first
        | exact Quiet.pure _ (.uptrNull _)
        | exact (Quiet.map _ (ih t' _ _)).congr ⟨.uptr, fun h => by cases h; assumption⟩
    | sptr t' =>
      cases j <;> first
        | exact Quiet.pure _ (.sptrNull _)
        | exact (Quiet.map _ (ih t' _ _)).congr ⟨.sptr, fun h => by cases h; assumption⟩
    | variant ts =>
      cases j with
      | obj ms =>
        have bad : ∀ k a b, ¬ Conforms E (.variant ts) (.obj ms) →
            Quiet (report k a b >>= fun _ => (Pure.pure v : PM Val)) (Conforms E (.variant ts) (.obj ms)) :=
          fun k a b h => (Quiet.map (fun _ => v) (Quiet.report k a b h))
        simp only [pullStep, findMember_eq]
        cases hi : firstNamed (lit "index") ms with
        | none =>
          refine bad _ _ _ (fun h => ?_)
          cases h with
          | variant h => rw [hi] at h; cases h
          | variantMono h => rw [hi] at h; cases h
        | some ji =>
          cases hd : firstNamed (lit "data") ms with
          | none =>
            refine bad _ _ _ (fun h => ?_)
            cases h with
            | variant _ _ h => rw [hd] at h; cases h
            | variantMono _ _ h => rw [hd] at h; cases h
          | some jd =>
            dsimp only
            have huint : ∀ i : Nat, ji = .num (.int i) → i < 2 ^ 64 → uint64? ji = some i := by
              rintro i rfl h
              have : IntTy.inRange .u64 (i : Int) = true := by
                simp only [IntTy.inRange, IntTy.lo, IntTy.hi, IntTy.card, IntTy.bytes, IntTy.signed]
                simp; omega
              simp [uint64?, this]
            cases hu : uint64? ji with
            | none =>
              refine bad _ _ _ (fun h => ?_)
              cases h with
              | variant h h' => rw [hi] at h; cases h; rw [huint _ rfl h'] at hu; cases hu
              | variantMono h h' => rw [hi] at h; cases h; rw [huint _ rfl h'] at hu; cases hu
            | some i =>
              have hji := uint64_some hu
              obtain ⟨rfl, hlt⟩ := hji
              dsimp only
              have hidx : ∀ i' : Nat, (Json.num (.int i)) = .num (.int i') → i' = i := fun i' h => numInt_inj h
              cases ht : ts[i]? with
              | none =>
                refine bad _ _ _ (fun h => ?_)
                cases h with
                | variant h _ _ h' => rw [hi] at h; rw [hidx _ (Option.some.inj h), ht] at h'; cases h'
                | variantMono h _ _ h' => rw [hi] at h; rw [hidx _ (Option.some.inj h), ht] at h'; cases h'
              | some t' =>
                have hcl : t' ≠ .mono → (Conforms E t' jd ↔ Conforms E (.variant ts) (.obj ms)) := by
                  intro hm
                  constructor
                  · exact fun h => .variant hi hlt hd ht hm h
                  · intro h
                    cases h with
                    | variant h _ h2 h' _ hc =>
                      rw [hi] at h; rw [hidx _ (Option.some.inj h), ht] at h'
                      rw [hd] at h2; cases h'; cases h2; exact hc
                    | variantMono h _ _ h' =>
                      rw [hi] at h; rw [hidx _ (Option.some.inj h), ht] at h'; cases h'; exact absurd rfl hm
                cases t' <;> first
                  | exact Quiet.pure _ (.variantMono hi hlt (by rw [hd]; rfl) ht)
                  | exact (Quiet.map _ (ih _ jd _)).congr (hcl (by simp))
      | _ => exact mis _ _ _ _ (fun h => by cases h)
    | mono => exact Quiet.stuck
    | cls c =>
      simp only [pullStep]
      cases hc : E.cls c with
      | none => exact Quiet.stuck
      | some ci =>
        dsimp only
        by_cases hp : ci.json.pullable = false
        · rw [if_pos hp]; exact Quiet.stuck
        · rw [if_neg hp]
          cases j with
          | obj ms =>
            refine ((quiet_bases ci.json.bases ms v fun t j v => ih t j v).bind
              (Q := ∀ f ∈ ci.json.pullFields, ∀ j, firstNamed f.name ms = some j → Conforms E f.ty j) fun v => ?_).congr ?_
            · cases v with
              | obj st =>
                have := quiet_fields ci.json.pullFields ms st fun t j v => ih t j v
                dsimp only
                by_cases hr : ci.json.setsRecord = true
                · rw [if_pos hr]; exact Quiet.map _ (Quiet.withRecord _ this)
                · rw [if_neg hr]; exact Quiet.map _ this
              | _ => exact Quiet.stuck
            · constructor
              · exact fun h => .cls hc h.1 h.2
              · intro h
                cases h with
                | cls h h1 h2 => rw [hc] at h; cases h; exact ⟨h1, h2⟩
          | _ => exact mis _ _ _ _ (fun h => by cases h)
    | dateTime =>
      refine quiet_time _ _ _ _ ⟨fun h => ?_, ?_⟩
      · cases h with
        | dateTime hc hp => exact ⟨_, rfl, by rw [← cut_unique hc (cstrOf_cut _)]; exact hp⟩
      · rintro ⟨s, rfl, h⟩; exact .dateTime (cstrOf_cut s) h
    | timeSpan =>
      refine quiet_time _ _ _ _ ⟨fun h => ?_, ?_⟩
      · cases h with
        | timeSpan hc hp => exact ⟨_, rfl, by rw [← cut_unique hc (cstrOf_cut _)]; exact hp⟩
      · rintro ⟨s, rfl, h⟩; exact .timeSpan (cstrOf_cut s) h

/-- C54: whenever a deserialisation returns, it has added errors to the errors object iff the document does not conform to
the type; when it throws, the document does not conform. So a conforming document is never complained about and every
non-conforming document read to the end leaves at least one error. -/
theorem C54_no_error_iff_conforming (E : Env) (hO : OrderedItems E) (n : Nat) (t : Ty) (j : Json) (v : Val) (st : ErrSt) :
    (∀ v' s', pull E n t j v (some st) = .ok v' s' → ∃ st', s' = some st' ∧ (st'.errs = st.errs ↔ Conforms E t j)) ∧
    (∀ e s', pull E n t j v (some st) = .exc e s' → ¬ Conforms E t j) := by
  have h := quiet_pull E hO n t j v st
  refine ⟨fun v' s' hp => ?_, fun e s' hp => ?_⟩
  · rw [hp] at h
    obtain ⟨st', new, rfl, h1, h2⟩ := h
    refine ⟨st', rfl, ?_⟩
    rw [h1, List.append_right_eq_self, h2]
  · rw [hp] at h; exact h

/-- C54 (high-level function): `fromJson` for classes, maps and sequences, given text which parses as document `j`: the errors
object is left as it was iff the document conforms. -/
theorem C54_fromJson (E : Env) (hO : OrderedItems E) (P : Parser) (n : Nat) (t : Ty) (text : Str) (j : Json)
    (ht : (∃ c, t = .cls c) ∨ (∃ h m k u, t = .map h m k u) ∨ ∃ u, t = .vec u) (hp : P text = .ok j) (st : ErrSt) :
    (∀ v s', fromJson E P n t text (some st) = .ok v s' → ∃ st', s' = some st' ∧ (st'.errs = st.errs ↔ Conforms E t j)) ∧
    (∀ e s', fromJson E P n t text (some st) = .exc e s' → (∃ e', e = .err e') ∧ ¬ Conforms E t j) := by
  have hdoc : parseDoc P text (some st) = .ok j (some st) := by simp only [parseDoc, hp]; rfl
  have hmis : ∀ j, ¬ Conforms E t j →
      (∀ v s', topMismatch E t j (some st) = .ok v s' → ∃ st', s' = some st' ∧ (st'.errs = st.errs ↔ Conforms E t j)) ∧
      (∀ e s', topMismatch E t j (some st) = .exc e s' → (∃ e', e = .err e') ∧ ¬ Conforms E t j) := by
    intro j hn
    have hq := Quiet.report .typeMismatch (jtypeOf t) j.jtype hn st
    constructor
    · intro v s' h
      obtain ⟨_, s1, h1, h2⟩ := M.bind_eq_ok.1 h
      unfold liftP at h1
      cases hr : report .typeMismatch (jtypeOf t) j.jtype (some st) with
      | ok u s2 =>
        rw [hr] at h1 hq
        obtain ⟨st', new, rfl, g1, g2⟩ := hq
        cases h1; cases h2
        exact ⟨st', rfl, by rw [g1, List.append_right_eq_self, g2]⟩
      | _ => rw [hr] at h1; cases h1
    · intro e s' h
      refine ⟨?_, hn⟩
      rcases M.bind_eq_exc.1 h with h | ⟨_, _, _, h⟩
      · unfold liftP at h
        cases hr : report .typeMismatch (jtypeOf t) j.jtype (some st) with
        | exc e' s2 => rw [hr] at h; cases h; exact ⟨e', rfl⟩
        | _ => rw [hr] at h; cases h
      · cases h
  have hpull : ∀ w, (∀ v s', liftP (pull E n t j w) (some st) = .ok v s' → ∃ st', s' = some st' ∧ (st'.errs = st.errs ↔ Conforms E t j)) ∧
      (∀ e s', liftP (pull E n t j w) (some st) = .exc e s' → (∃ e', e = .err e') ∧ ¬ Conforms E t j) := by
    intro w
    have h := C54_no_error_iff_conforming E hO n t j w st
    unfold liftP
    cases hr : pull E n t j w (some st) with
    | ok v s => exact ⟨fun v' s' h' => by cases h'; exact h.1 _ _ hr, fun e s' h' => by cases h'⟩
    | exc e s => exact ⟨fun v' s' h' => (by cases h'), fun e' s' h' => by cases h'; exact ⟨⟨e, rfl⟩, h.2 _ _ hr⟩⟩
    | _ => exact ⟨fun v' s' h' => (by cases h'), fun e' s' h' => by cases h'⟩
  rcases ht with ⟨c, rfl⟩ | ⟨hh, m, k, u, rfl⟩ | ⟨u, rfl⟩
  · simp only [fromJson]
    rw [M.bind_ok hdoc]
    cases j with
    | obj ms => exact hpull _
    | _ => exact hmis _ (fun h => by cases h)
  · simp only [fromJson]
    rw [M.bind_ok hdoc]
    cases j with
    | obj ms => exact hpull _
    | _ => exact hmis _ (fun h => by cases h)
  · simp only [fromJson]
    rw [M.bind_ok hdoc]
    cases j with
    | arr ms => exact hpull _
    | _ => exact hmis _ (fun h => by cases h)

/-! ### The hypotheses are satisfiable -/

namespace ConformDemo

/-- what an object of the given type can be after reading: its previous value or something of its type -/
def Ret (t : Ty) (v v' : Val) : Prop :=
  v' = v ∨ match t with
    | .int _ => ∃ i, v' = .int i
    | .enum _ => ∃ i, v' = .int i
    | .str => ∃ x, v' = .str x
    | _ => (∀ i, v' ≠ .int i) ∧ ∀ x, v' ≠ .str x

theorem ret_map {α : Type} {m : PM α} {g : α → Val} {s s' : Option ErrSt} {v' : Val}
    (h : (m >>= fun a => Pure.pure (g a)) s = .ok v' s') : ∃ a, v' = g a := by
  obtain ⟨a, _, _, h⟩ := M.bind_eq_ok.1 h
  cases h; exact ⟨a, rfl⟩

theorem ret_mismatch {e : JType} {j : Json} {v v' : Val} {s s' : Option ErrSt} (h : mismatch e j v s = .ok v' s') : v' = v := by
  obtain ⟨_, h⟩ := ret_map h; exact h

theorem ret_time {p : Str → Option Int} {j : Json} {v v' : Val} {s s' : Option ErrSt} (h : pullTime p j v s = .ok v' s') :
    v' = v ∨ ∃ i, v' = .tick i := by
  obtain ⟨x, _, _, h⟩ := M.bind_eq_ok.1 h
  cases hp : p x with
  | some i => rw [hp] at h; cases h; exact .inr ⟨i, rfl⟩
  | none => rw [hp] at h; obtain ⟨_, h⟩ := ret_map h; exact .inl h

theorem shape {E : Env} {n : Nat} {t : Ty} {j : Json} {v v' : Val} {s s' : Option ErrSt} (h : pull E n t j v s = .ok v' s') :
    Ret t v v' := by
  cases n with
  | zero => cases h
  | succ n =>
    change pullStep E (pull E n) t j v s = _ at h
    have mis : ∀ {e j v v' s s'}, mismatch e j v s = .ok v' s' → v' = v := ret_mismatch
    cases t with
    | bool => cases j <;> first | exact .inl (mis h) | (cases h; exact .inr ⟨by simp, by simp⟩)
    | int it =>
      cases it <;> cases j <;> first
        | (cases h)
        | exact .inl (mis h)
        | (obtain ⟨a, rfl⟩ := ret_map h; exact .inr ⟨_, rfl⟩)
    | f32 => cases j <;> first | exact .inl (mis h) | (cases h; exact .inr ⟨by simp, by simp⟩)
    | f64 => cases j <;> first | exact .inl (mis h) | (cases h; exact .inr ⟨by simp, by simp⟩)
    | enum u =>
      simp only [pullStep] at h
      cases he : enumNum (!u.signed) j with
      | some i => rw [he] at h; cases h; exact .inr ⟨_, rfl⟩
      | none => rw [he] at h; exact .inl (mis h)
    | str => cases j <;> first | exact .inl (mis h) | (cases h; exact .inr ⟨_, rfl⟩)
    | cstr => cases j <;> first | exact .inl (mis h) | (cases h; exact .inl rfl)
    | sview => cases j <;> first | exact .inl (mis h) | (cases h; exact .inl rfl)
    | vec t' => cases j <;> first | exact .inl (mis h) | (obtain ⟨a, rfl⟩ := ret_map h; exact .inr ⟨by simp, by simp⟩)
    | set hs mu t' => cases j <;> first | exact .inl (mis h) | (obtain ⟨a, rfl⟩ := ret_map h; exact .inr ⟨by simp, by simp⟩)
    | map hs mu k t' =>
      cases k <;> first | (cases h) | skip
      cases j <;> first | exact .inl (mis h) | skip
      cases v <;> first | (cases h) | skip
      obtain ⟨a, rfl⟩ := ret_map h; exact .inr ⟨by simp, by simp⟩
    | pair a b =>
      cases j <;> first | exact .inl (mis h) | skip
      simp only [pullStep] at h
      split at h
      · obtain ⟨_, h⟩ := ret_map h; exact .inl h
      · cases v <;> first | (cases h) | (obtain ⟨a, rfl⟩ := ret_map h; exact .inr ⟨by simp, by simp⟩)
    | tuple ts =>
      cases j <;> first | exact .inl (mis h) | skip
      simp only [pullStep] at h
      split at h
      · obtain ⟨_, h⟩ := ret_map h; exact .inl h
      · cases v <;> first | (cases h) | (obtain ⟨a, rfl⟩ := ret_map h; exact .inr ⟨by simp, by simp⟩)
    | opt t' =>
      cases j <;> first
        | (cases h; exact .inr ⟨by simp, by simp⟩) | (obtain ⟨a, rfl⟩ := ret_map h; exact .inr ⟨by simp, by simp⟩)
    | uptr t' =>
      cases j <;> first
        | (cases h; exact .inr ⟨by simp, by simp⟩) | (obtain ⟨a, rfl⟩ := ret_map h; exact .inr ⟨by simp, by simp⟩)
    | sptr t' =>
      cases j <;> first
        | (cases h; exact .inr ⟨by simp, by simp⟩) | (obtain ⟨a, rfl⟩ := ret_map h; exact .inr ⟨by simp, by simp⟩)
    | variant ts =>
      cases j <;> first | exact .inl (mis h) | skip
      simp only [pullStep] at h
      generalize findMember (lit "index") _ = a at h
      generalize findMember (lit "data") _ = b at h
      cases a with
      | none => obtain ⟨_, h⟩ := ret_map h; exact .inl h
      | some ji =>
        cases b with
        | none => obtain ⟨_, h⟩ := ret_map h; exact .inl h
        | some jd =>
          dsimp only at h
          cases hu : uint64? ji with
          | none => rw [hu] at h; obtain ⟨_, h⟩ := ret_map h; exact .inl h
          | some i =>
            rw [hu] at h
            dsimp only at h
            cases ht : ts[i]? with
            | none => rw [ht] at h; obtain ⟨_, h⟩ := ret_map h; exact .inl h
            | some t' =>
              rw [ht] at h
              cases t' <;> first
                | (cases h; exact .inr ⟨by simp, by simp⟩)
                | (obtain ⟨a, rfl⟩ := ret_map h; exact .inr ⟨by simp, by simp⟩)
    | mono => cases h
    | cls c =>
      simp only [pullStep] at h
      cases hc : E.cls c with
      | none => rw [hc] at h; cases h
      | some ci =>
        rw [hc] at h
        dsimp only at h
        split at h
        · cases h
        · cases j <;> first | exact .inl (mis h) | skip
          obtain ⟨w, _, _, h⟩ := M.bind_eq_ok.1 h
          cases w <;> first | (cases h) | (obtain ⟨a, rfl⟩ := ret_map h; exact .inr ⟨by simp, by simp⟩)
    | dateTime =>
      rcases ret_time h with h | ⟨i, rfl⟩
      · exact .inl h
      · exact .inr ⟨by simp, by simp⟩
    | timeSpan =>
      rcases ret_time h with h | ⟨i, rfl⟩
      · exact .inl h
      · exact .inr ⟨by simp, by simp⟩

theorem strLt_irrefl (a : Str) : Demo.strLt a a = false := by
  induction a with
  | nil => rfl
  | cons x a ih => simp [Demo.strLt, ih]

theorem strLt_trans {a b c : Str} (h1 : Demo.strLt a b = true) (h2 : Demo.strLt b c = true) : Demo.strLt a c = true := by
  induction a generalizing b c with
  | nil =>
    cases b with
    | nil => cases h1
    | cons y b => cases c with
      | nil => cases h2
      | cons z c => rfl
  | cons x a ih =>
    cases b with
    | nil => cases h1
    | cons y b => cases c with
      | nil => cases h2
      | cons z c =>
        simp only [Demo.strLt] at h1 h2 ⊢
        by_cases hxy : x < y
        · by_cases hyz : y < z
          · rw [if_pos (UInt8.lt_trans hxy hyz)]
          · rw [if_neg hyz] at h2
            by_cases hzy : z < y
            · rw [if_pos hzy] at h2; cases h2
            · have : y = z := UInt8.le_antisymm (UInt8.not_lt.1 hzy) (UInt8.not_lt.1 hyz)
              rw [if_pos (this ▸ hxy)]
        · rw [if_neg hxy] at h1
          by_cases hyx : y < x
          · rw [if_pos hyx] at h1; cases h1
          · have he : x = y := UInt8.le_antisymm (UInt8.not_lt.1 hyx) (UInt8.not_lt.1 hxy)
            subst he
            rw [if_neg hyx] at h1
            by_cases hyz : x < z
            · rw [if_pos hyz]
            · rw [if_neg hyz] at h2 ⊢
              by_cases hzy : z < x
              · rw [if_pos hzy] at h2; cases h2
              · rw [if_neg hzy] at h2 ⊢; exact ih h1 h2

theorem strLt_total {a b : Str} (h1 : Demo.strLt a b = false) (h2 : Demo.strLt b a = false) : a = b := by
  induction a generalizing b with
  | nil => cases b with
    | nil => rfl
    | cons y b => cases h1
  | cons x a ih => cases b with
    | nil => cases h2
    | cons y b =>
      simp only [Demo.strLt] at h1 h2
      by_cases hxy : x < y
      · rw [if_pos hxy] at h1; cases h1
      · by_cases hyx : y < x
        · rw [if_pos hyx] at h2; cases h2
        · rw [if_neg hxy, if_neg hyx] at h1
          rw [if_neg hyx, if_neg hxy] at h2
          rw [UInt8.le_antisymm (UInt8.not_lt.1 hyx) (UInt8.not_lt.1 hxy), ih h1 h2]

theorem ordered : OrderedItems env := by
  intro t vs h
  show WeakOrderOn Demo.stdLt vs
  have hr : ∀ v ∈ vs, Ret t (env.defInit t) v := by
    intro v hv
    obtain ⟨_, j, n, s, s', h⟩ := h v hv
    exact shape h
  by_cases hint : (∃ it, t = .int it) ∨ ∃ u, t = .enum u
  · have hv : ∀ v ∈ vs, ∃ i, v = .int i := by
      intro v hv
      have h1 := hr v hv
      have h2 := (h v hv).1
      rcases hint with ⟨it, rfl⟩ | ⟨u, rfl⟩
      · rcases h1 with h1 | h1
        · rw [h1] at h2; cases h2
        · exact h1
      · rcases h1 with h1 | h1
        · rw [h1] at h2; cases h2
        · exact h1
    refine ⟨fun x hx => ?_, fun x hx y hy z hz => ?_, fun x hx y hy z hz => ?_⟩
    · obtain ⟨i, rfl⟩ := hv x hx; simp [Demo.stdLt]
    · obtain ⟨i, rfl⟩ := hv x hx; obtain ⟨k, rfl⟩ := hv y hy; obtain ⟨l, rfl⟩ := hv z hz
      simp only [Demo.stdLt, decide_eq_true_eq]; omega
    · obtain ⟨i, rfl⟩ := hv x hx; obtain ⟨k, rfl⟩ := hv y hy; obtain ⟨l, rfl⟩ := hv z hz
      simp only [Demo.stdLt, decide_eq_false_iff_not]; omega
  · by_cases hstr : t = .str
    · subst hstr
      have hv : ∀ v ∈ vs, ∃ x, v = .str x := by
        intro v hv
        rcases hr v hv with h1 | h1
        · exact ⟨[], h1⟩
        · exact h1
      refine ⟨fun x hx => ?_, fun x hx y hy z hz => ?_, fun x hx y hy z hz => ?_⟩
      · obtain ⟨i, rfl⟩ := hv x hx; exact strLt_irrefl i
      · obtain ⟨i, rfl⟩ := hv x hx; obtain ⟨k, rfl⟩ := hv y hy; obtain ⟨l, rfl⟩ := hv z hz
        exact strLt_trans
      · obtain ⟨i, rfl⟩ := hv x hx; obtain ⟨k, rfl⟩ := hv y hy; obtain ⟨l, rfl⟩ := hv z hz
        simp only [Demo.stdLt]
        intro h1 h2
        by_contra h3
        rw [Bool.not_eq_false] at h3
        cases h4 : Demo.strLt k i with
        | true => rw [strLt_trans h4 h3] at h2; cases h2
        | false => rw [strLt_total h1 h4, h2] at h3; cases h3
    · have hv : ∀ v ∈ vs, (∀ i, v ≠ .int i) ∧ ∀ x, v ≠ .str x := by
        intro v hv
        have h1 := hr v hv
        have hd : (∀ i, env.defInit t ≠ .int i) ∧ ∀ x, env.defInit t ≠ .str x := by
          cases t with
          | int it => exact absurd (.inl ⟨it, rfl⟩) hint
          | enum u => exact absurd (.inr ⟨u, rfl⟩) hint
          | str => exact absurd rfl hstr
          | cls c =>
            simp only [Env.defInit]
            cases env.cls c <;> simp
          | _ => simp [Env.defInit, Env.valInit]
        rcases h1 with h1 | h1
        · rw [h1]; exact hd
        · cases t with
          | int it => exact absurd (.inl ⟨it, rfl⟩) hint
          | enum u => exact absurd (.inr ⟨u, rfl⟩) hint
          | str => exact absurd rfl hstr
          | _ => exact h1
      have hf : ∀ x ∈ vs, ∀ y, Demo.stdLt x y = false := by
        intro x hx y
        obtain ⟨h1, h2⟩ := hv x hx
        cases x <;> first | exact absurd rfl (h1 _) | exact absurd rfl (h2 _) | rfl
      exact ⟨fun x hx => hf x hx x, (fun x hx y _ z _ h1 => by rw [hf x hx] at h1; cases h1), fun x hx _ _ z _ _ _ => hf x hx z⟩

/-- a conforming document: `{"i": 3, "m": {"a": 1}, "s": ["x"]}` for `Derived` -/
example : Conforms env (.cls 1) (.obj [(⟨lit "i", .copied⟩, .num (.int 3)),
    (⟨lit "m", .copied⟩, .obj [(⟨lit "a", .copied⟩, .num (.int 1))]), (⟨lit "s", .copied⟩, .arr [.str (lit "x")])]) := by
  refine .cls (ci := Demo.derived) rfl ?_ ?_
  · intro b hb
    simp only [Demo.derived, List.mem_singleton] at hb
    subst hb
    refine .cls (ci := Demo.base) rfl (by simp [Demo.base]) ?_
    intro f hf j hj
    simp only [Demo.base, List.mem_cons, List.not_mem_nil, or_false] at hf
    rcases hf with rfl | rfl
    · cases hj; exact .int _ _
    · cases hj
      refine .map fun k j h => ?_
      simp only [List.mem_singleton, Prod.mk.injEq] at h
      rw [h.2]; exact .int _ _
  · intro f hf j hj
    simp only [Demo.derived, List.mem_singleton] at hf
    subst hf
    cases hj
    refine .vec fun j h => ?_
    rw [List.mem_singleton.1 h]; exact .str _

/-- duplicates do not conform to a set -/
example : ¬ Conforms env (.set false false (.int .i32)) (.arr [.num (.int 1), .num (.int 1)]) := by
  intro h
  cases h with
  | set h1 h2 =>
    rw [List.pairwise_cons] at h2
    exact h2.1 _ List.mem_cons_self (.int 1) (.int 1) ⟨1, none, none, rfl⟩ ⟨1, none, none, rfl⟩ ⟨rfl, rfl⟩

end ConformDemo

end Verif
