import Verif.Spec.JsonHazards
import Verif.Props.JsonConform

/-!
# C55: exactly which documents make deserialisation undefined behaviour
-/

namespace Verif

open Demo (env)

/-- Whether `m` has undefined behaviour (if it does not throw) is decided by `P`; whether there is an errors object does not
change. -/
def Haz {α : Type} (nul : Bool) (m : PM α) (P : Prop) : Prop :=
  ∀ s : Option ErrSt, s.isNone = nul → match m s with
    | .ok _ s' => s'.isNone = nul ∧ ¬ P
    | .ub => P
    | _ => True

namespace Haz
variable {α β : Type} {nul : Bool}

theorem congr {m : PM α} {P Q : Prop} (h : Haz nul m P) (hPQ : P ↔ Q) : Haz nul m Q := by
  obtain rfl : P = Q := propext hPQ
  exact h

theorem pure (a : α) {P : Prop} (hP : ¬ P) : Haz nul (Pure.pure a : PM α) P := fun _ hs => ⟨hs, hP⟩
theorem stuck {P : Prop} : Haz nul (M.stuck : PM α) P := fun _ _ => trivial
theorem ub {P : Prop} (hP : P) : Haz nul (M.ub : PM α) P := fun _ _ => hP

theorem report (k : ErrKind) (a b : JType) {P : Prop} (hP : ¬ P) : Haz nul (report k a b) P := by
  intro s hs
  cases s with
  | none => exact ⟨hs, hP⟩
  | some st =>
    simp only [Verif.report]
    by_cases h : st.throwOn &&& k.flag ≠ 0
    · rw [if_pos h]; trivial
    · rw [if_neg h]; exact ⟨hs, hP⟩

theorem bind' {m : PM α} {f : α → PM β} {P Q : Prop} (hm : Haz nul m P)
    (hf : ∀ a s s', m s = .ok a s' → Haz nul (f a) Q) : Haz nul (m >>= f) (P ∨ Q) := by
  intro s hs
  have h1 := hm s hs
  rw [M.bind_apply]
  cases h : m s with
  | ok a s1 =>
    rw [h] at h1
    have h2 := hf a s _ h s1 h1.1
    dsimp only
    cases h' : f a s1 with
    | ok b s2 => rw [h'] at h2; exact ⟨h2.1, fun h => h.elim h1.2 h2.2⟩
    | ub => rw [h'] at h2; exact .inr h2
    | _ => trivial
  | ub => rw [h] at h1; exact .inl h1
  | _ => trivial

theorem bind {m : PM α} {f : α → PM β} {P Q : Prop} (hm : Haz nul m P) (hf : ∀ a, Haz nul (f a) Q) :
    Haz nul (m >>= f) (P ∨ Q) := bind' hm fun a _ _ _ => hf a

theorem map {m : PM α} {P : Prop} (g : α → β) (hm : Haz nul m P) : Haz nul (m >>= fun a => Pure.pure (g a)) P :=
  (hm.bind (Q := False) fun _ => pure _ (fun h => h)).congr (by simp)

theorem setIndex (i : Nat) : Haz nul (setIndex i) False := by
  intro s hs
  cases s <;> exact ⟨hs, fun h => h⟩

theorem withMember {m : PM α} {P : Prop} (n : Str) (h : Haz nul m P) : Haz nul (withMember n m) P := by
  intro s hs
  cases s with
  | none =>
    have h1 := h none hs
    rw [withMember_none]
    cases hm : m none with
    | ok a s => rw [hm] at h1; cases s <;> exact h1
    | ub => rw [hm] at h1; exact h1
    | _ => trivial
  | some st =>
    have h1 := h (some { st with member := some n }) hs
    rw [withMember_some]
    cases hm : m (some { st with member := some n }) with
    | ok a s => rw [hm] at h1; cases s <;> exact h1
    | ub => rw [hm] at h1; exact h1
    | _ => trivial

theorem withRecord {m : PM α} {P : Prop} (n : Str) (h : Haz nul m P) : Haz nul (withRecord n m) P := by
  intro s hs
  cases s with
  | none =>
    have h1 := h none hs
    rw [withRecord_none]
    cases hm : m none with
    | ok a s => rw [hm] at h1; cases s <;> exact h1
    | ub => rw [hm] at h1; exact h1
    | _ => trivial
  | some st =>
    have h1 := h (some { st with record := some n }) hs
    rw [withRecord_some]
    cases hm : m (some { st with record := some n }) with
    | ok a s => rw [hm] at h1; cases s <;> exact h1
    | ub => rw [hm] at h1; exact h1
    | _ => trivial

theorem mismatch (e : JType) (j : Json) (v : Val) {P : Prop} (hP : ¬ P) : Haz nul (mismatch e j v) P :=
  (report (P := P) .typeMismatch e j.jtype hP).map _

theorem forIdx {f : Json → β → PM β} {P : Json → Prop} (js : List Json) (i : Nat) (b : β)
    (h : ∀ j ∈ js, ∀ b, Haz nul (f j b) (P j)) : Haz nul (forIdx f js i b) (∃ j ∈ js, P j) := by
  induction js generalizing i b with
  | nil => exact ((setIndex _).map _).congr (by simp)
  | cons j js ih =>
    refine ((setIndex i).bind fun _ => (h j List.mem_cons_self b).bind fun b' =>
      ih (i + 1) b' fun j' hj' => h j' (List.mem_cons_of_mem _ hj')).congr ?_
    simp

end Haz

/-! ## Numbers -/

theorem IsTrunc.unique {d : BitVec 64} {k k' : Int} (h : IsTrunc d k) (h' : IsTrunc d k') : k = k' := by
  obtain ⟨h1, h2, h3⟩ := h
  obtain ⟨h1', h2', h3'⟩ := h'
  have e : k.natAbs = k'.natAbs := by
    have a1 := Nat.lt_of_mul_lt_mul_right (Nat.lt_of_le_of_lt h2 h3')
    have a2 := Nat.lt_of_mul_lt_mul_right (Nat.lt_of_le_of_lt h2' h3)
    omega
  clear h2 h3 h2' h3'
  cases hn : Ieee.neg64 d <;> simp [hn] at h1 h1' <;> omega

theorem haz_numToInt {nul : Bool} (t : IntTy) (ht : t = .i32 ∨ t = .u32 ∨ t = .i64 ∨ t = .u64) (n : Num)
    (hn : StoredNumbers (.num n)) : Haz nul (numToInt t n) (Unrepresentable t n) := by
  intro s hs
  cases n with
  | int i =>
    cases hn with
    | int h1 h2 =>
      have := C14_int_out_of_range_is_ub env 0 t ht i ⟨h1, h2⟩ .null s
      rw [pull_int_eq env 0 t ht] at this
      by_cases hr : (intRange t).1 ≤ i ∧ i < (intRange t).2
      · have h := this.1 hr
        cases hm : numToInt t (.int i) s with
        | ok a s' =>
          rw [hm] at h; cases h
          exact ⟨hs, fun h => h hr⟩
        | _ => rw [hm] at h; cases h
      · have h := this.2 hr
        cases hm : numToInt t (.int i) s with
        | ub => exact hr
        | _ => rw [hm] at h; cases h
  | dbl d =>
    have := C14_double_truncated env 0 t ht d .null s
    rw [pull_int_eq env 0 t ht] at this
    cases hf : Ieee.isFinite d with
    | false =>
      have h := this.2 hf
      cases hm : numToInt t (.dbl d) s with
      | ub => rintro ⟨k, h1, -⟩; rw [hf] at h1; cases h1
      | _ => rw [hm] at h; cases h
    | true =>
      obtain ⟨k, hk, a1, a2⟩ := this.1 hf
      by_cases hr : (intRange t).1 ≤ k ∧ k < (intRange t).2
      · have h := a1 hr
        cases hm : numToInt t (.dbl d) s with
        | ok a s' => rw [hm] at h; cases h; exact ⟨hs, fun h => h ⟨k, hf, hk, hr⟩⟩
        | _ => rw [hm] at h; cases h
      · have h := a2 hr
        cases hm : numToInt t (.dbl d) s with
        | ub => rintro ⟨k', _, h2, h3⟩; rw [hk.unique h2] at hr; exact hr h3
        | _ => rw [hm] at h; cases h

/-! ## Sets -/

theorem haz_multiset {E : Env} {nul : Bool} {n : Nat} {t : Ty} (js : List Json) (hashed : Bool)
    (hs : ∀ j ∈ js, ∀ v, Haz nul (pull E n t j v) (Hazard E nul t j)) :
    Haz nul (forIdx (multisetItem E (pull E n) t) js 0 []) (Hazard E nul (.set hashed true t) (.arr js)) := by
  refine (Haz.forIdx (P := fun j => Hazard E nul t j ∨ ∃ v, ReadAs E t j v ∧ v.hasIndet = true) js 0 [] ?_).congr ?_
  · intro j hj b
    refine (hs j hj (E.defInit t)).bind' fun v s s' hv => ?_
    have hr : ReadAs E t j v := ⟨n, s, s', hv⟩
    split
    · rename_i h; exact Haz.ub ⟨v, hr, h⟩
    · rename_i h
      refine Haz.pure _ ?_
      rintro ⟨v', h1, h2⟩
      rw [ReadAs.unique h1 hr] at h2; exact h h2
  · constructor
    · rintro ⟨j, hj, h | ⟨v, h1, h2⟩⟩
      · exact .setItem hj h
      · exact .setIndet hj h1 h2
    · intro h
      cases h with
      | setItem hj h => exact ⟨_, hj, .inl h⟩
      | setIndet hj h1 h2 => exact ⟨_, hj, .inr ⟨_, h1, h2⟩⟩

theorem haz_set {E : Env} {nul : Bool} {n : Nat} {t : Ty} (hO : OrderedItems E) (js : List Json)
    (hs : ∀ j ∈ js, ∀ v, Haz nul (pull E n t j v) (Hazard E nul t j)) (i : Nat) (pre acc : List Val)
    (hpre : ∀ v ∈ pre, v.hasIndet = false ∧ ∃ j, ReadAs E t j v) (hI : SetInv (E.lt t) pre acc) :
    Haz nul (forIdx (setItem E (pull E n) t) js i acc)
      ((∃ j ∈ js, Hazard E nul t j) ∨ (∃ j ∈ js, ∃ v, ReadAs E t j v ∧ v.hasIndet = true) ∨
        (nul = true ∧ ¬ ((∀ j ∈ js, ∀ v, ReadAs E t j v → ∀ p ∈ pre, ¬ Equivalent (E.lt t) p v) ∧
          js.Pairwise fun j j' => ∀ v v', ReadAs E t j v → ReadAs E t j' v' → ¬ Equivalent (E.lt t) v v'))) := by
  induction js generalizing i pre acc with
  | nil => exact ((Haz.setIndex _).map _).congr (by simp)
  | cons j js ih =>
    have hit : ∀ s a s', pull E n t j (E.defInit t) s = .ok a s' →
        Haz nul ((if a.hasIndet then M.ub
          else if (insertUniq (E.lt t) a acc).2 then Pure.pure (insertUniq (E.lt t) a acc).1
          else reportDuplicateUnchecked >>= fun _ => (Pure.pure (insertUniq (E.lt t) a acc).1 : PM _)) >>= fun b =>
            forIdx (setItem E (pull E n) t) js (i + 1) b)
        ((∃ j ∈ js, Hazard E nul t j) ∨ (∃ j' ∈ j :: js, ∃ v, ReadAs E t j' v ∧ v.hasIndet = true) ∨
          (nul = true ∧ ¬ ((∀ j' ∈ j :: js, ∀ v, ReadAs E t j' v → ∀ p ∈ pre, ¬ Equivalent (E.lt t) p v) ∧
            (j :: js).Pairwise fun j j' => ∀ v v', ReadAs E t j v → ReadAs E t j' v' → ¬ Equivalent (E.lt t) v v'))) := by
      intro s v s' hm
      have hv : ReadAs E t j v := ⟨n, _, _, hm⟩
      have hind : (∃ w, ReadAs E t j w ∧ w.hasIndet = true) ↔ v.hasIndet = true :=
        ⟨fun ⟨w, h1, h2⟩ => by rw [ReadAs.unique h1 hv] at h2; exact h2, fun h => ⟨v, hv, h⟩⟩
      cases hxi : v.hasIndet with
      | true => exact fun s hs => .inr (.inl ⟨j, List.mem_cons_self, v, hv, hxi⟩)
      | false =>
        simp only [Bool.false_eq_true, if_false]
        have hS := hO t (v :: pre) (by
          intro x hx
          rcases List.mem_cons.1 hx with rfl | hx
          · exact ⟨hxi, j, hv⟩
          · exact hpre x hx)
        obtain ⟨s1, s2, s3⟩ := SetInv.step hS hI (fun x hx => List.mem_cons_of_mem _ hx) (List.mem_cons_self)
        have hpre' : ∀ x ∈ pre ++ [v], x.hasIndet = false ∧ ∃ j, ReadAs E t j x := by
          intro x hx
          rcases List.mem_append.1 hx with hx | hx
          · exact hpre x hx
          · rw [List.mem_singleton.1 hx]; exact ⟨hxi, j, hv⟩
        have hrest := ih (fun j' hj' => hs j' (List.mem_cons_of_mem _ hj')) (i + 1) (pre ++ [v]) _ hpre' s3
        by_cases hd : ∃ z ∈ pre, Equivalent (E.lt t) z v
        · have hno : ¬ ((∀ j' ∈ j :: js, ∀ v, ReadAs E t j' v → ∀ p ∈ pre, ¬ Equivalent (E.lt t) p v) ∧
              (j :: js).Pairwise fun j j' => ∀ v v', ReadAs E t j v → ReadAs E t j' v' → ¬ Equivalent (E.lt t) v v') := by
            rintro ⟨h, -⟩
            obtain ⟨z, hz, he⟩ := hd
            exact h j List.mem_cons_self v hv z hz he
          rw [s1 hd] at hrest ⊢
          simp only [Bool.false_eq_true, if_false]
          rw [M.bind_assoc']
          cases nul with
          | true =>
            intro s hs
            cases s with
            | none => exact .inr (.inr ⟨rfl, hno⟩)
            | some st => cases hs
          | false =>
            have hr : Haz false reportDuplicateUnchecked False := by
              intro s hs
              cases s with
              | none => cases hs
              | some st => exact Haz.report .unexpectedDuplicate .array .array (fun h => h) (some st) hs
            refine (hr.bind fun _ => ?_ : Haz false _ (False ∨ _)).congr (by rw [false_or])
            rw [M.pure_bind']
            refine hrest.congr ?_
            simp only [Bool.false_eq_true, false_and, or_false, List.mem_cons, exists_eq_or_imp, hind, hxi, false_or]
        · rw [s2 hd]
          simp only [if_true]
          rw [M.pure_bind']
          refine hrest.congr ?_
          have hiff : ((∀ j' ∈ j :: js, ∀ v, ReadAs E t j' v → ∀ p ∈ pre, ¬ Equivalent (E.lt t) p v) ∧
              (j :: js).Pairwise fun j j' => ∀ v v', ReadAs E t j v → ReadAs E t j' v' → ¬ Equivalent (E.lt t) v v') ↔
              ((∀ j ∈ js, ∀ w, ReadAs E t j w → ∀ p ∈ pre ++ [v], ¬ Equivalent (E.lt t) p w) ∧
              js.Pairwise fun j j' => ∀ v v', ReadAs E t j v → ReadAs E t j' v' → ¬ Equivalent (E.lt t) v v') := by
            rw [List.forall_mem_cons, List.pairwise_cons]
            constructor
            · rintro ⟨⟨a3, a4⟩, a5, a6⟩
              refine ⟨fun j' hj' w hw p hp => ?_, a6⟩
              rcases List.mem_append.1 hp with hp | hp
              · exact a4 j' hj' w hw p hp
              · rw [List.mem_singleton.1 hp]; exact a5 j' hj' v w hv hw
            · rintro ⟨a3, a6⟩
              refine ⟨⟨?_, ?_⟩, ?_, a6⟩
              · intro w hw p hp he
                rw [ReadAs.unique hw hv] at he
                exact hd ⟨p, hp, he⟩
              · exact fun j' hj' w hw p hp => a3 j' hj' w hw p (List.mem_append_left _ hp)
              · intro j' hj' w w' hw hw'
                rw [ReadAs.unique hw hv]
                exact a3 j' hj' w' hw' v (by simp)
          rw [hiff]
          simp only [List.mem_cons, exists_eq_or_imp, hind, hxi, Bool.false_eq_true, false_or]
    intro s hs0
    have hset : forIdx (setItem E (pull E n) t) (j :: js) i acc = (setIndex i >>= fun _ =>
        pull E n t j (E.defInit t) >>= fun v =>
        (if v.hasIndet then M.ub
          else if (insertUniq (E.lt t) v acc).2 then Pure.pure (insertUniq (E.lt t) v acc).1
          else reportDuplicateUnchecked >>= fun _ => (Pure.pure (insertUniq (E.lt t) v acc).1 : PM _)) >>= fun b =>
            forIdx (setItem E (pull E n) t) js (i + 1) b) := by
      show (setIndex i >>= fun _ => (pull E n t j (E.defInit t) >>= fun v => _) >>= fun b => _) = _
      congr 1
      funext _
      rw [M.bind_assoc']
    rw [hset]
    have := (Haz.setIndex (nul := nul) i).bind fun _ => (hs j List.mem_cons_self (E.defInit t)).bind'
      (f := fun v => (if v.hasIndet then M.ub
          else if (insertUniq (E.lt t) v acc).2 then Pure.pure (insertUniq (E.lt t) v acc).1
          else reportDuplicateUnchecked >>= fun _ => (Pure.pure (insertUniq (E.lt t) v acc).1 : PM _)) >>= fun b =>
            forIdx (setItem E (pull E n) t) js (i + 1) b) fun a s s' h => hit s a s' h
    refine (this.congr ?_) s hs0
    simp only [false_or, List.mem_cons, exists_eq_or_imp, or_assoc]

section
variable {E : Env} {nul : Bool} {self : Ty → Json → Val → PM Val}

theorem haz_map {t : Ty} (ms : List (Key × Json)) (hs : ∀ k j, (k, j) ∈ ms → ∀ v, Haz nul (self t j v) (Hazard E nul t j))
    (kvs : List (Val × Val)) : Haz nul (pullMapEntries E self t ms kvs) (∃ k j, (k, j) ∈ ms ∧ Hazard E nul t j) := by
  induction ms generalizing kvs with
  | nil => exact Haz.pure _ (by simp)
  | cons m ms ih =>
    obtain ⟨k, j⟩ := m
    refine ((hs k j List.mem_cons_self _).bind fun _ => ih (fun k' j' h => hs k' j' (List.mem_cons_of_mem _ h)) _).congr ?_
    constructor
    · rintro (h | ⟨k', j', h1, h2⟩)
      · exact ⟨k, j, List.mem_cons_self, h⟩
      · exact ⟨k', j', List.mem_cons_of_mem _ h1, h2⟩
    · rintro ⟨k', j', h1, h2⟩
      rcases List.mem_cons.1 h1 with h | h
      · cases h; exact .inl h2
      · exact .inr ⟨k', j', h, h2⟩

theorem haz_multimapItems {t : Ty} (key : Str) (js : List Json)
    (hs : ∀ j ∈ js, ∀ v, Haz nul (self t j v) (Hazard E nul t j))
    (kvs : List (Val × Val)) : Haz nul (pullMultimapItems E self t key js kvs) (∃ j ∈ js, Hazard E nul t j) := by
  induction js generalizing kvs with
  | nil => exact Haz.pure _ (by simp)
  | cons j js ih =>
    exact ((hs j List.mem_cons_self _).bind fun _ => ih (fun j' h => hs j' (List.mem_cons_of_mem _ h)) _).congr (by simp)

/-- the values a member holds for a multimap -/
def multiValues : Json → List Json
  | .arr js => js
  | j => [j]

theorem haz_multimap {t : Ty} (ms : List (Key × Json))
    (hs : ∀ k j, (k, j) ∈ ms → ∀ j' ∈ multiValues j, ∀ v, Haz nul (self t j' v) (Hazard E nul t j'))
    (kvs : List (Val × Val)) : Haz nul (pullMultimapEntries E self t ms kvs)
      (∃ k j, (k, j) ∈ ms ∧ ∃ j' ∈ multiValues j, Hazard E nul t j') := by
  induction ms generalizing kvs with
  | nil => exact Haz.pure _ (by simp)
  | cons m ms ih =>
    obtain ⟨k, j⟩ := m
    have h1 := haz_multimapItems (cstrOf k.bytes) (multiValues j) (hs k j List.mem_cons_self) kvs
    have he : pullMultimapEntries E self t ((k, j) :: ms) kvs =
        (pullMultimapItems E self t (cstrOf k.bytes) (multiValues j) kvs >>= fun kvs => pullMultimapEntries E self t ms kvs) := by
      cases j <;> rfl
    rw [he]
    refine (h1.bind fun _ => ih (fun k' j' h => hs k' j' (List.mem_cons_of_mem _ h)) _).congr ?_
    constructor
    · rintro (h | ⟨k', j', h1, h2⟩)
      · exact ⟨k, j, List.mem_cons_self, h⟩
      · exact ⟨k', j', List.mem_cons_of_mem _ h1, h2⟩
    · rintro ⟨k', j', h1, h2⟩
      rcases List.mem_cons.1 h1 with h | h
      · cases h; exact .inl h2
      · exact .inr ⟨k', j', h, h2⟩

theorem haz_tuple (ts : List Ty) (js : List Json) (vs : List Val) (hl : js.length = ts.length)
    (hs : ∀ t, ∀ j ∈ js, ∀ v, Haz nul (self t j v) (Hazard E nul t j)) : Haz nul (pullTuple self ts js vs)
      (∃ (i : Nat) (t : Ty) (j : Json), ts[i]? = some t ∧ js[i]? = some j ∧ Hazard E nul t j) := by
  induction ts generalizing js vs with
  | nil =>
    cases js with
    | nil => cases vs with
      | nil => exact Haz.pure _ (by simp)
      | cons v vs => exact Haz.stuck
    | cons j js => cases hl
  | cons t ts ih =>
    cases js with
    | nil => cases hl
    | cons j js => cases vs with
      | nil => exact Haz.stuck
      | cons v vs =>
        simp only [pullTuple]
        refine ((hs t j List.mem_cons_self v).bind fun _ =>
          (Haz.map _ (ih js vs (by simpa using hl) fun t' j' h => hs t' j' (List.mem_cons_of_mem _ h)))).congr ?_
        constructor
        · rintro (h | ⟨i, t', j', h1, h2, h3⟩)
          · exact ⟨0, t, j, rfl, rfl, h⟩
          · exact ⟨i + 1, t', j', by simpa using h1, by simpa using h2, h3⟩
        · rintro ⟨i, t', j', h1, h2, h3⟩
          cases i with
          | zero => simp at h1 h2; subst h1; subst h2; exact .inl h3
          | succ i => exact .inr ⟨i, t', j', by simpa using h1, by simpa using h2, h3⟩

theorem haz_bases (bs : List ClassId) (ms : List (Key × Json)) (v : Val)
    (hs : ∀ t v, Haz nul (self t (.obj ms) v) (Hazard E nul t (.obj ms))) :
    Haz nul (pullBases self bs ms v) (∃ b ∈ bs, Hazard E nul (.cls b) (.obj ms)) := by
  induction bs generalizing v with
  | nil => exact Haz.pure _ (by simp)
  | cons b bs ih => exact ((hs _ _).bind fun _ => ih _).congr (by simp)

theorem haz_fields (fs : List Field) (ms : List (Key × Json)) (st : Store)
    (hs : ∀ name j, firstNamed name ms = some j → ∀ t v, Haz nul (self t j v) (Hazard E nul t j)) :
    Haz nul (pullFields self fs ms st) (∃ f ∈ fs, ∃ j, firstNamed f.name ms = some j ∧ Hazard E nul f.ty j) := by
  induction fs generalizing st with
  | nil => exact Haz.pure _ (by simp)
  | cons f fs ih =>
    have h1 : Haz nul (pullField self f ms st) (∃ j, firstNamed f.name ms = some j ∧ Hazard E nul f.ty j) := by
      unfold pullField
      rw [findMember_eq]
      cases hf : firstNamed f.name ms with
      | none => exact Haz.pure _ (by simp)
      | some j =>
        cases hg : st.get? f.key with
        | none => exact Haz.stuck
        | some v => exact (Haz.map _ (Haz.withMember _ (hs f.name j hf f.ty v))).congr (by simp)
    exact (h1.bind fun _ => ih _).congr (by simp)

theorem haz_time (parse : Str → Option Int) (j : Json) (v : Val) : Haz nul (pullTime parse j v) False := by
  unfold pullTime pullTimeStr
  have hp : ∀ s, Haz nul (match parse s with
      | some i => (Pure.pure (Val.tick i) : PM Val)
      | none => report .conversionError .string .string >>= fun _ => Pure.pure v) False := by
    intro s
    cases parse s with
    | some i => exact Haz.pure _ (fun h => h)
    | none => exact (Haz.report _ _ _ (fun h => h)).map _
  cases j with
  | str s => rw [M.pure_bind']; exact hp _
  | _ => exact (((Haz.report (P := False) _ _ _ (fun h => h)).map _).bind fun s => hp s).congr (by simp)

end

theorem StoredNumbers.named {ms : List (Key × Json)} {name : Str} {j : Json} (h : StoredNumbers (.obj ms))
    (hj : firstNamed name ms = some j) : StoredNumbers j := by
  cases h with
  | obj h =>
    simp only [firstNamed, Option.map_eq_some_iff] at hj
    obtain ⟨⟨k, j'⟩, h1, rfl⟩ := hj
    exact h k _ (List.mem_of_find?_eq_some h1)

theorem haz_pull (E : Env) (hO : OrderedItems E) (nul : Bool) (n : Nat) (t : Ty) (j : Json) (v : Val) (hj : StoredNumbers j) :
    Haz nul (pull E n t j v) (Hazard E nul t j) := by
  induction n generalizing t j v with
  | zero => exact fun _ _ => trivial
  | succ n ih =>
    show Haz nul (pullStep E (pull E n) t j v) _
    have mis : ∀ e j v t, ¬ Hazard E nul t j → Haz nul (mismatch e j v) (Hazard E nul t j) := fun e j v t h => Haz.mismatch e j v h
    cases t with
    | bool =>
      cases j <;> first | exact Haz.pure _ (fun h => by cases h) | exact mis _ _ _ _ (fun h => by cases h)
    | int it =>
      have hn : ∀ m : Num, StoredNumbers (.num m) → (it = .i32 ∨ it = .u32 ∨ it = .i64 ∨ it = .u64) →
          Haz nul (numToInt it m >>= fun i => Pure.pure (Val.int i)) (Hazard E nul (.int it) (.num m)) := by
        intro m hm hit
        refine (Haz.map _ (haz_numToInt it hit m hm)).congr ⟨.int hit, fun h => ?_⟩
        cases h with
        | int _ h => exact h
        | int8 h => rcases hit with rfl | rfl | rfl | rfl <;> simp at h
      have hn' : ∀ m : Num, StoredNumbers (.num m) → (it = .i8 ∨ it = .u8) →
          Haz nul (numToInt .i32 m >>= fun i => Pure.pure (Val.int (it.wrap i))) (Hazard E nul (.int it) (.num m)) := by
        intro m hm hit
        refine (Haz.map _ (haz_numToInt .i32 (.inl rfl) m hm)).congr ⟨.int8 hit, fun h => ?_⟩
        cases h with
        | int h => rcases hit with rfl | rfl <;> simp at h
        | int8 _ h => exact h
      cases it <;> cases j <;>
        first
        | exact hn _ hj (by simp)
        | exact hn' _ hj (by simp)
        | exact Haz.stuck
        | exact mis _ _ _ _ (fun h => by cases h)
    | f32 => cases j <;> first | exact Haz.pure _ (fun h => by cases h) | exact mis _ _ _ _ (fun h => by cases h)
    | f64 => cases j <;> first | exact Haz.pure _ (fun h => by cases h) | exact mis _ _ _ _ (fun h => by cases h)
    | enum u =>
      simp only [pullStep]
      cases he : enumNum (!u.signed) j with
      | some i => exact Haz.pure _ (fun h => by cases h)
      | none => exact mis _ _ _ _ (fun h => by cases h)
    | str => cases j <;> first | exact Haz.pure _ (fun h => by cases h) | exact mis _ _ _ _ (fun h => by cases h)
    | cstr => cases j <;> first | exact Haz.pure _ (fun h => by cases h) | exact mis _ _ _ _ (fun h => by cases h)
    | sview => cases j <;> first | exact Haz.pure _ (fun h => by cases h) | exact mis _ _ _ _ (fun h => by cases h)
    | vec t' =>
      cases j with
      | arr js =>
        cases hj with
        | arr hj =>
        refine (Haz.map _ (Haz.forIdx js 0 [] fun j hj' b => Haz.map _ (ih t' j _ (hj j hj')))).congr ?_
        exact ⟨fun ⟨j, h1, h2⟩ => .vec h1 h2, fun h => by cases h with | vec h1 h2 => exact ⟨_, h1, h2⟩⟩
      | _ => exact mis _ _ _ _ (fun h => by cases h)
    | set hashed multi t' =>
      cases j with
      | arr js =>
        cases hj with
        | arr hj =>
        cases multi with
        | true => exact Haz.map _ (haz_multiset js hashed fun j hj' v => ih t' j v (hj j hj'))
        | false =>
          refine (Haz.map _ (haz_set hO js (fun j hj' v => ih t' j v (hj j hj')) 0 [] [] (by simp) ⟨.nil, by
            intro y; simp [FirstOfItsKind]⟩)).congr ?_
          constructor
          · rintro (⟨j, h1, h2⟩ | ⟨j, h1, v, h2, h3⟩ | ⟨h1, h2⟩)
            · exact .setItem h1 h2
            · exact .setIndet h1 h2 h3
            · exact .setDuplicate h1 fun h => h2 ⟨by simp, h⟩
          · intro h
            cases h with
            | setItem h1 h2 => exact .inl ⟨_, h1, h2⟩
            | setIndet h1 h2 h3 => exact .inr (.inl ⟨_, h1, _, h2, h3⟩)
            | setDuplicate h1 h2 => exact .inr (.inr ⟨h1, fun h => h2 h.2⟩)
      | _ => exact mis _ _ _ _ (fun h => by cases h)
    | map hashed multi k t' =>
      cases k with
      | str =>
        cases j with
        | obj ms =>
          cases hj with
          | obj hj =>
          cases v with
          | map kvs =>
            cases multi with
            | true =>
              refine (Haz.map _ (haz_multimap ms (fun k j h j' hj' v => ih t' j' v ?_) kvs)).congr ?_
              · have := hj k j h
                cases j with
                | arr js => cases this with | arr this => exact this j' hj'
                | _ => rw [List.mem_singleton.1 hj']; exact this
              · constructor
                · rintro ⟨k, j, h1, j', h2, h3⟩
                  cases j with
                  | arr js => exact .multimapArr h1 h2 h3
                  | _ => cases List.mem_singleton.1 h2; exact .multimap h1 (by simp [Json.jtype]) h3
                · intro h
                  cases h with
                  | multimapArr h1 h2 h3 => exact ⟨_, _, h1, _, h2, h3⟩
                  | @multimap _ _ _ k j h1 h2 h3 =>
                    refine ⟨k, j, h1, j, ?_, h3⟩
                    cases j <;> simp [Json.jtype, multiValues] at h2 ⊢
            | false =>
              refine (Haz.map _ (haz_map ms (fun k j h v => ih t' j v (hj k j h)) kvs)).congr ?_
              exact ⟨fun ⟨k, j, h1, h2⟩ => .map h1 h2, fun h => by cases h with | map h1 h2 => exact ⟨_, _, h1, h2⟩⟩
          | _ => exact Haz.stuck
        | _ => exact mis _ _ _ _ (fun h => by cases h)
      | _ => exact Haz.stuck
    | pair a b =>
      cases j with
      | arr js =>
        cases hj with
        | arr hj =>
        simp only [pullStep]
        by_cases hl : js.length = 2
        · rw [if_neg (by simpa using hl)]
          cases v with
          | tup vs =>
            refine (Haz.map _ (haz_tuple [a, b] js vs hl fun t j h v => ih t j v (hj j h))).congr ?_
            match js, hl with
            | [x, y], _ =>
              constructor
              · rintro ⟨i, t, j, h1, h2, h3⟩
                match i with
                | 0 => simp at h1 h2; subst h1; subst h2; exact .fst h3
                | 1 => simp at h1 h2; subst h1; subst h2; exact .snd h3
                | i + 2 => simp at h1
              · intro h
                cases h with
                | fst h => exact ⟨0, a, x, rfl, rfl, h⟩
                | snd h => exact ⟨1, b, y, rfl, rfl, h⟩
          | _ => exact Haz.stuck
        · rw [if_pos hl]
          exact (Haz.map _ (Haz.report (P := False) _ _ _ (fun h => h))).congr
            ⟨fun h => h.elim, fun h => by cases h <;> exact hl rfl⟩
      | _ => exact mis _ _ _ _ (fun h => by cases h)
    | tuple ts =>
      cases j with
      | arr js =>
        cases hj with
        | arr hj =>
        simp only [pullStep]
        by_cases hl : js.length = ts.length
        · rw [if_neg (by simpa using hl)]
          cases v with
          | tup vs =>
            refine (Haz.map _ (haz_tuple ts js vs hl fun t j h v => ih t j v (hj j h))).congr ?_
            exact ⟨fun ⟨i, t, j, h1, h2, h3⟩ => .tuple hl h1 h2 h3,
              fun h => by cases h with | tuple _ h1 h2 h3 => exact ⟨_, _, _, h1, h2, h3⟩⟩
          | _ => exact Haz.stuck
        · rw [if_pos hl]
          exact (Haz.map _ (Haz.report (P := False) _ _ _ (fun h => h))).congr
            ⟨fun h => h.elim, fun h => by cases h; contradiction⟩
      | _ => exact mis _ _ _ _ (fun h => by cases h)
    | opt t' =>
      cases j <;> first
        | exact Haz.pure _ (fun h => by cases h; contradiction)
        | exact (Haz.map _ (ih t' _ _ hj)).congr ⟨.opt (by simp), fun h => by cases h; assumption⟩
    | uptr t' =>
      cases j <;> first
        | exact Haz.pure _ (fun h => by cases h; contradiction)
        | exact (Haz.map _ (ih t' _ _ hj)).congr ⟨.uptr (by simp), fun h => by cases h; assumption⟩
    | sptr t' =>
      cases j <;> first
        | exact Haz.pure _ (fun h => by cases h; contradiction)
        | exact (Haz.map _ (ih t' _ _ hj)).congr ⟨.sptr (by simp), fun h => by cases h; assumption⟩
    | variant ts =>
      cases j with
      | obj ms =>
        have bad : ∀ k a b, ¬ Hazard E nul (.variant ts) (.obj ms) →
            Haz nul (report k a b >>= fun _ => (Pure.pure v : PM Val)) (Hazard E nul (.variant ts) (.obj ms)) :=
          fun k a b h => (Haz.map (fun _ => v) (Haz.report k a b h))
        simp only [pullStep, findMember_eq]
        cases hi : firstNamed (lit "index") ms with
        | none =>
          refine bad _ _ _ (fun h => ?_)
          cases h with
          | variant h => rw [hi] at h; cases h
        | some ji =>
          cases hd : firstNamed (lit "data") ms with
          | none =>
            refine bad _ _ _ (fun h => ?_)
            cases h with
            | variant _ _ h => rw [hd] at h; cases h
          | some jd =>
            dsimp only
            have huint : ∀ i : Nat, ji = .num (.int i) → i < 2 ^ 64 → uint64? ji = some i := by
              rintro i rfl h
              have : IntTy.inRange .u64 (i : Int) = true := by
                simp only [IntTy.inRange, IntTy.lo, IntTy.hi, IntTy.card, IntTy.bytes, IntTy.signed]
                simp; omega
              simp [uint64?, this]
            cases hu : uint64? ji with
            | none =>
              refine bad _ _ _ (fun h => ?_)
              cases h with
              | variant h h' => rw [hi] at h; cases h; rw [huint _ rfl h'] at hu; cases hu
            | some i =>
              have hji := uint64_some hu
              obtain ⟨rfl, hlt⟩ := hji
              dsimp only
              have hidx : ∀ i' : Nat, (Json.num (.int i)) = .num (.int i') → i' = i := fun i' h => numInt_inj h
              cases ht : ts[i]? with
              | none =>
                refine bad _ _ _ (fun h => ?_)
                cases h with
                | variant h _ _ h' => rw [hi] at h; rw [hidx _ (Option.some.inj h), ht] at h'; cases h'
              | some t' =>
                have hcl : t' ≠ .mono → (Hazard E nul t' jd ↔ Hazard E nul (.variant ts) (.obj ms)) := by
                  intro hm
                  constructor
                  · exact fun h => .variant hi hlt hd ht hm h
                  · intro h
                    cases h with
                    | variant h _ h2 h' _ hc =>
                      rw [hi] at h; rw [hidx _ (Option.some.inj h), ht] at h'
                      rw [hd] at h2; cases h'; cases h2; exact hc
                have hno : t' = .mono → ¬ Hazard E nul (.variant ts) (.obj ms) := by
                  rintro rfl h
                  cases h with
                  | variant h _ h2 h' hm hc =>
                    rw [hi] at h; rw [hidx _ (Option.some.inj h), ht] at h'; cases h'; exact hm rfl
                cases t' <;> first
                  | exact Haz.pure _ (hno rfl)
                  | exact (Haz.map _ (ih _ jd _ (hj.named hd))).congr (hcl (by simp))
      | _ => exact mis _ _ _ _ (fun h => by cases h)
    | mono => exact Haz.stuck
    | cls c =>
      simp only [pullStep]
      cases hc : E.cls c with
      | none => exact Haz.stuck
      | some ci =>
        dsimp only
        by_cases hp : ci.json.pullable = false
        · rw [if_pos hp]; exact Haz.stuck
        · rw [if_neg hp]
          cases j with
          | obj ms =>
            refine ((haz_bases ci.json.bases ms v fun t v => ih t _ v hj).bind
              (Q := ∃ f ∈ ci.json.pullFields, ∃ j, firstNamed f.name ms = some j ∧ Hazard E nul f.ty j) fun v => ?_).congr ?_
            · cases v with
              | obj st =>
                have := haz_fields ci.json.pullFields ms st fun name j h t v => ih t j v (hj.named h)
                dsimp only
                by_cases hr : ci.json.setsRecord = true
                · rw [if_pos hr]; exact Haz.map _ (Haz.withRecord _ this)
                · rw [if_neg hr]; exact Haz.map _ this
              | _ => exact Haz.stuck
            · constructor
              · rintro (⟨b, h1, h2⟩ | ⟨f, h1, j, h2, h3⟩)
                · exact .base hc h1 h2
                · exact .member hc h1 h2 h3
              · intro h
                cases h with
                | base h h1 h2 => rw [hc] at h; cases h; exact .inl ⟨_, h1, h2⟩
                | member h h1 h2 h3 => rw [hc] at h; cases h; exact .inr ⟨_, h1, _, h2, h3⟩
          | _ => exact mis _ _ _ _ (fun h => by cases h)
    | dateTime => exact (haz_time _ _ _).congr ⟨fun h => h.elim, fun h => by cases h⟩
    | timeSpan => exact (haz_time _ _ _).congr ⟨fun h => h.elim, fun h => by cases h⟩

mutual
theorem hasIndet_holds : ∀ v : Val, v.hasIndet = true → HoldsUninitialised v
  | .indet, _ => .scalar
  | .some v, h => .optional (hasIndet_holds v (by simpa [Val.hasIndet] using h))
  | .tup vs, h => by
    obtain ⟨v, hv, hh⟩ := hasIndetL_holds vs (by simpa [Val.hasIndet] using h)
    exact .component hv hh
  | .alt i v, h => .alternative (hasIndet_holds v (by simpa [Val.hasIndet] using h))
  | .obj fs, h => by
    obtain ⟨k, v, hv, hh⟩ := hasIndetF_holds fs (by simpa [Val.hasIndet] using h)
    exact .member hv hh
theorem hasIndetL_holds : ∀ vs : List Val, Val.hasIndetL vs = true → ∃ v, v ∈ vs ∧ HoldsUninitialised v
  | v :: vs, h => by
    simp only [Val.hasIndetL, Bool.or_eq_true] at h
    rcases h with h | h
    · exact ⟨v, List.mem_cons_self, hasIndet_holds v h⟩
    · obtain ⟨w, h1, h2⟩ := hasIndetL_holds vs h
      exact ⟨w, List.mem_cons_of_mem _ h1, h2⟩
theorem hasIndetF_holds : ∀ fs : List (FieldKey × Val), Val.hasIndetF fs = true → ∃ k v, (k, v) ∈ fs ∧ HoldsUninitialised v
  | (k, v) :: fs, h => by
    simp only [Val.hasIndetF, Bool.or_eq_true] at h
    rcases h with h | h
    · exact ⟨k, v, List.mem_cons_self, hasIndet_holds v h⟩
    · obtain ⟨k', w, h1, h2⟩ := hasIndetF_holds fs h
      exact ⟨k', w, List.mem_cons_of_mem _ h1, h2⟩
end

theorem hasIndetL_mem {vs : List Val} {v : Val} (h : v ∈ vs) (hv : v.hasIndet = true) : Val.hasIndetL vs = true := by
  induction vs with
  | nil => cases h
  | cons w ws ih =>
    rw [Val.hasIndetL, Bool.or_eq_true]
    rcases List.mem_cons.1 h with rfl | h
    · exact .inl hv
    · exact .inr (ih h)

theorem hasIndetF_mem {fs : List (FieldKey × Val)} {k : FieldKey} {v : Val} (h : (k, v) ∈ fs) (hv : v.hasIndet = true) :
    Val.hasIndetF fs = true := by
  induction fs with
  | nil => cases h
  | cons w ws ih =>
    obtain ⟨k', w⟩ := w
    rw [Val.hasIndetF, Bool.or_eq_true]
    rcases List.mem_cons.1 h with h | h
    · cases h; exact .inl hv
    · exact .inr (ih h)

/-- C55 (uninitialised elements): the objects whose insertion into a set is undefined behaviour are those which contain an
uninitialised scalar. -/
theorem C55_uninitialised (v : Val) : v.hasIndet = true ↔ HoldsUninitialised v := by
  refine ⟨hasIndet_holds v, fun h => ?_⟩
  induction h with
  | scalar => rfl
  | optional _ ih => rw [Val.hasIndet, ih]
  | component hm _ ih => rw [Val.hasIndet]; exact hasIndetL_mem hm ih
  | alternative _ ih => rw [Val.hasIndet, ih]
  | member hm _ ih => rw [Val.hasIndet]; exact hasIndetF_mem hm ih

/-- C55: with or without errors object, a deserialisation which does not throw has undefined behaviour iff the document has
one of the listed hazards for the type; previous content of the object, the error context and the fatal error kinds do not
matter. -/
theorem C55_undefined_behaviour_exactly (E : Env) (hO : OrderedItems E) (n : Nat) (t : Ty) (j : Json) (hj : StoredNumbers j)
    (v : Val) (s : Option ErrSt) :
    (pull E n t j v s = .ub → Hazard E s.isNone t j) ∧
    (∀ v' s', pull E n t j v s = .ok v' s' → ¬ Hazard E s.isNone t j) := by
  have h := haz_pull E hO s.isNone n t j v hj s rfl
  refine ⟨fun hp => ?_, fun v' s' hp => ?_⟩ <;> rw [hp] at h
  · exact h
  · exact h.2

/-! ### Non-vacuity: the three kinds of hazards, and a document without any -/

namespace HazardDemo
open ConformDemo Demo

-- a number too big for `int`
example : pull env 1 (.int .i32) (.num (.int 3000000000)) (.int 0) (some .init) = .ub ∧
    Hazard env false (.int .i32) (.num (.int 3000000000)) :=
  ⟨rfl, .int (.inl rfl) (by simp [Unrepresentable, intRange])⟩

-- an item of the wrong kind in an array read into a set: the declared but never assigned element is inserted
example : pull env 2 (.set false false (.int .i32)) (.arr [.null]) (.list []) none = .ub ∧
    Hazard env true (.set false false (.int .i32)) (.arr [.null]) :=
  ⟨rfl, .setIndet List.mem_cons_self ⟨1, none, none, rfl⟩ rfl⟩

-- equivalent items: without errors object the null pointer is used, with errors object the error is reported
theorem dup : ¬ ([Json.num (.int 1), .num (.int 1)].Pairwise fun j j' => ∀ v v', ReadAs env (.int .i32) j v →
    ReadAs env (.int .i32) j' v' → ¬ Equivalent (env.lt (.int .i32)) v v') := by
  intro h2
  rw [List.pairwise_cons] at h2
  exact h2.1 _ List.mem_cons_self (.int 1) (.int 1) ⟨1, none, none, rfl⟩ ⟨1, none, none, rfl⟩ ⟨rfl, rfl⟩
example : pull env 2 (.set false false (.int .i32)) (.arr [.num (.int 1), .num (.int 1)]) (.list []) none = .ub ∧
    Hazard env true (.set false false (.int .i32)) (.arr [.num (.int 1), .num (.int 1)]) := ⟨rfl, .setDuplicate rfl dup⟩

-- with errors object the same document is no hazard
theorem noHaz : ¬ Hazard env false (.set false false (.int .i32)) (.arr [.num (.int 1), .num (.int 1)]) := by
  have hj : StoredNumbers (.arr [.num (.int 1), .num (.int 1)]) := by
    refine .arr fun j hj => ?_
    simp only [List.mem_cons, List.not_mem_nil, or_false, or_self] at hj
    subst hj
    exact .int (by decide) (by decide)
  have h := (C55_undefined_behaviour_exactly env ordered 2 (.set false false (.int .i32)) _ hj (.list []) (some .init)).2
  intro hz
  have : ∃ v' s', pull env 2 (.set false false (.int .i32)) (.arr [.num (.int 1), .num (.int 1)]) (.list []) (some .init) = .ok v' s' :=
    ⟨_, _, rfl⟩
  obtain ⟨v', s', hp⟩ := this
  exact h v' s' hp hz

end HazardDemo

end Verif
