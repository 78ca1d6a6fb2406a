import Verif.Lemmas.PullX
import Verif.Spec.JsonExceptions

/-!
# The states `pullX` leaves are those of the specification
-/

namespace Verif

theorem holding_exc {α : Type} {q : Val} {m : PM α} {s e q' s'} (h : holding q m s = .exc (e, q') s') : q' = q := by
  simp only [holding] at h
  cases hm : m s <;> rw [hm] at h <;> cases h
  rfl

theorem within_exc {α : Type} {g : Val → Val} {m : XM α} {s e q s'} (h : within g m s = .exc (e, q) s') :
    ∃ q0, m s = .exc (e, q0) s' ∧ q = g q0 := by
  simp only [within] at h
  cases hm : m s with
  | exc e0 s0 => obtain ⟨e0, q0⟩ := e0; rw [hm] at h; cases h; exact ⟨q0, rfl, rfl⟩
  | _ => rw [hm] at h; cases h

theorem within_ok {α : Type} {g : Val → Val} {m : XM α} {s a s'} : within g m s = .ok a s' ↔ m s = .ok a s' := by
  simp only [within]
  cases m s with
  | exc e0 s0 => obtain ⟨e0, q0⟩ := e0; simp
  | _ => simp

theorem ctx_setIndex (i : Nat) (s : Option ErrSt) : ctx (setIndex i) s = .ok () (s.map fun st => { st with index := i }) := by
  cases s <;> rfl

theorem withMemberX_exc {α : Type} {name : Str} {m : XM α} {s e s'} (h : withMemberX name m s = .exc e s') : ∃ s1, m s1 = .exc e s' := by
  simp only [withMemberX] at h
  rcases M.bind_eq_exc.1 h with h | ⟨p, s1, h1, h⟩
  · cases h
  · rcases M.bind_eq_exc.1 h with h | ⟨u, s2, h2, h⟩
    · cases h
    · rcases M.bind_eq_exc.1 h with h | ⟨a, s3, h3, h⟩
      · exact ⟨_, h⟩
      · rcases M.bind_eq_exc.1 h with h | ⟨u, s4, h4, h⟩ <;> cases h

theorem withMemberX_ok {α : Type} {name : Str} {m : XM α} {s a s'} (h : withMemberX name m s = .ok a s') : ∃ s1 s2, m s1 = .ok a s2 := by
  simp only [withMemberX] at h
  obtain ⟨p, s1, h1, h⟩ := M.bind_eq_ok.1 h
  obtain ⟨u, s2, h2, h⟩ := M.bind_eq_ok.1 h
  obtain ⟨a', s3, h3, h⟩ := M.bind_eq_ok.1 h
  obtain ⟨u, s4, h4, h⟩ := M.bind_eq_ok.1 h
  cases h
  exact ⟨_, _, h3⟩

theorem withRecordX_exc {α : Type} {name : Str} {m : XM α} {s e s'} (h : withRecordX name m s = .exc e s') : ∃ s1, m s1 = .exc e s' := by
  simp only [withRecordX] at h
  rcases M.bind_eq_exc.1 h with h | ⟨p, s1, h1, h⟩
  · cases h
  · rcases M.bind_eq_exc.1 h with h | ⟨u, s2, h2, h⟩
    · cases h
    · rcases M.bind_eq_exc.1 h with h | ⟨a, s3, h3, h⟩
      · exact ⟨_, h⟩
      · rcases M.bind_eq_exc.1 h with h | ⟨u, s4, h4, h⟩ <;> cases h

/-- the items before the one which throws -/
theorem forIdxX_exc {β : Type} {f : Json → β → XM β} {js : List Json} {i : Nat} {b : β} {s e s'} (h : forIdxX f js i b s = .exc e s') :
    ∃ done j rest b1 s1 s2, js = done ++ j :: rest ∧ forIdxX f done i b s = .ok b1 s1 ∧ f j b1 s2 = .exc e s' := by
  induction js generalizing i b s with
  | nil =>
    simp only [forIdxX, M.bind_apply, ctx_setIndex] at h
    cases h
  | cons j js ih =>
    simp only [forIdxX, M.bind_apply, ctx_setIndex] at h
    cases hf : f j b (s.map fun st => { st with index := i }) with
    | exc e0 s0 =>
      rw [hf] at h
      cases h
      exact ⟨[], j, js, b, _, _, rfl, by simp only [forIdxX, M.bind_apply, ctx_setIndex]; rfl, hf⟩
    | ok b1 s1 =>
      rw [hf] at h
      obtain ⟨done, j', rest, b2, s2, s3, rfl, h1, h2⟩ := ih h
      refine ⟨j :: done, j', rest, b2, s2, s3, rfl, ?_, h2⟩
      simp only [forIdxX, M.bind_apply, ctx_setIndex]
      rw [hf]
      exact h1
    | _ => rw [hf] at h; cases h

theorem pullX_ok {E : Env} {n : Nat} {t : Ty} {j : Json} {p v : Val} {s s'} (h : pullX E n t j p s = .ok v s') : Gives E t j p v := by
  refine ⟨n, s, s', ?_⟩
  rw [← forget_pullX]
  simp only [forget, h]

theorem insertUniq_false (lt : Val → Val → Bool) (x : Val) (l : List Val) (h : (insertUniq lt x l).2 = false) :
    (insertUniq lt x l).1 = l ∧ ∃ y ∈ l, lt x y = false ∧ lt y x = false := by
  induction l with
  | nil => cases h
  | cons y l ih =>
    unfold insertUniq at h ⊢
    by_cases h1 : lt x y = true
    · rw [if_pos h1] at h; cases h
    · rw [if_neg h1] at h ⊢
      by_cases h2 : lt y x = true
      · rw [if_pos h2] at h ⊢
        obtain ⟨h3, z, h4, h5⟩ := ih h
        exact ⟨by simp only [h3], z, List.mem_cons_of_mem _ h4, h5⟩
      · rw [if_neg h2]
        exact ⟨rfl, y, List.mem_cons_self, by simpa using h1, by simpa using h2⟩

/-- what is shown about reading parts -/
def LeftBy (E : Env) (self : Ty → Json → Val → XM Val) : Prop :=
  ∀ t j p s e q s', self t j p s = .exc (e, q) s' → Left E t j p q

section
variable {E : Env} {n : Nat} (hs : LeftBy E (pullX E n))
include hs

theorem left_map {t : Ty} {ms : List (Key × Json)} {kvs : List (Val × Val)} {s e q s'}
    (h : pullMapEntriesX E (pullX E n) t ms kvs s = .exc (e, q) s') :
    ∃ done k j rest kvs1 s1 q0, ms = done ++ (k, j) :: rest ∧ pullMapEntriesX E (pullX E n) t done kvs s = .ok kvs1 s1 ∧
      Left E t j ((mapFind (E.lt .str) (.str (cstrOf k.bytes)) kvs1).getD (E.valInit t)) q0 ∧
      q = .map (mapSet (E.lt .str) (.str (cstrOf k.bytes)) q0 kvs1) := by
  induction ms generalizing kvs s with
  | nil => cases h
  | cons m ms ih =>
    obtain ⟨k, j⟩ := m
    simp only [pullMapEntriesX] at h
    rcases M.bind_eq_exc.1 h with h | ⟨v, s1, h1, h⟩
    · obtain ⟨q0, hx, rfl⟩ := within_exc h
      exact ⟨[], k, j, ms, kvs, s, q0, rfl, rfl, hs _ _ _ _ _ _ _ hx, rfl⟩
    · obtain ⟨done, k', j', rest, kvs1, s2, q0, rfl, h2, h3, h4⟩ := ih h
      refine ⟨(k, j) :: done, k', j', rest, kvs1, s2, q0, rfl, ?_, h3, h4⟩
      simp only [pullMapEntriesX]
      rw [M.bind_ok h1]
      exact h2

theorem left_multimapItems {t : Ty} {key : Str} {js : List Json} {kvs : List (Val × Val)} {s e q s'}
    (h : pullMultimapItemsX E (pullX E n) t key js kvs s = .exc (e, q) s') :
    ∃ done j rest kvs1 s1 q0, js = done ++ j :: rest ∧ pullMultimapItemsX E (pullX E n) t key done kvs s = .ok kvs1 s1 ∧
      Left E t j (E.valInit t) q0 ∧ q = .map (mapInsertMulti (E.lt .str) (.str key) q0 kvs1) := by
  induction js generalizing kvs s with
  | nil => cases h
  | cons j js ih =>
    simp only [pullMultimapItemsX] at h
    rcases M.bind_eq_exc.1 h with h | ⟨v, s1, h1, h⟩
    · obtain ⟨q0, hx, rfl⟩ := within_exc h
      exact ⟨[], j, js, kvs, s, q0, rfl, rfl, hs _ _ _ _ _ _ _ hx, rfl⟩
    · obtain ⟨done, j', rest, kvs1, s2, q0, rfl, h2, h3, h4⟩ := ih h
      refine ⟨j :: done, j', rest, kvs1, s2, q0, rfl, ?_, h3, h4⟩
      simp only [pullMultimapItemsX]
      rw [M.bind_ok h1]
      exact h2

theorem left_multimap {t : Ty} {ms : List (Key × Json)} {kvs : List (Val × Val)} {s e q s'}
    (h : pullMultimapEntriesX E (pullX E n) t ms kvs s = .exc (e, q) s') :
    ∃ done k j rest kvs1 s1 q0, ms = done ++ (k, j) :: rest ∧
      ((∀ js, j ≠ .arr js) ∧ pullMultimapEntriesX E (pullX E n) t done kvs s = .ok kvs1 s1 ∧ Left E t j (E.valInit t) q0 ∨
        ∃ jdone j' jrest, j = .arr (jdone ++ j' :: jrest) ∧
          pullMultimapEntriesX E (pullX E n) t (done ++ [(k, .arr jdone)]) kvs s = .ok kvs1 s1 ∧ Left E t j' (E.valInit t) q0) ∧
      q = .map (mapInsertMulti (E.lt .str) (.str (cstrOf k.bytes)) q0 kvs1) := by
  induction ms generalizing kvs s with
  | nil => cases h
  | cons m ms ih =>
    obtain ⟨k, j⟩ := m
    simp only [pullMultimapEntriesX] at h
    rcases M.bind_eq_exc.1 h with h | ⟨v, s1, h1, h⟩
    · obtain ⟨done, j', rest, kvs1, s2, q0, hj, h2, h3, rfl⟩ := left_multimapItems hs h
      refine ⟨[], k, j, ms, kvs1, s2, q0, rfl, ?_, rfl⟩
      have hone : (∀ js, j ≠ .arr js) → [j] = done ++ j' :: rest → (∀ js, j ≠ .arr js) ∧
          pullMultimapEntriesX E (pullX E n) t [] kvs s = .ok kvs1 s2 ∧ Left E t j (E.valInit t) q0 := by
        intro hn hj
        cases done with
        | nil => cases hj; exact ⟨hn, h2, h3⟩
        | cons a l => simp at hj
      cases j with
      | arr js =>
        refine .inr ⟨done, j', rest, by rw [← hj], ?_, h3⟩
        show (pullMultimapItemsX E (pullX E n) t (cstrOf k.bytes) done kvs >>= fun kvs => pure kvs) s = _
        rw [M.bind_ok h2]
        rfl
      | _ => exact .inl (hone (by simp) hj)
    · obtain ⟨done, k', j', rest, kvs1, s2, q0, rfl, h2, h3⟩ := ih h
      refine ⟨(k, j) :: done, k', j', rest, kvs1, s2, q0, rfl, ?_, h3⟩
      rcases h2 with ⟨h4, h5, h6⟩ | ⟨jd, jj, jr, h4, h5, h6⟩
      · refine .inl ⟨h4, ?_, h6⟩
        simp only [pullMultimapEntriesX]
        rw [M.bind_ok h1]
        exact h5
      · refine .inr ⟨jd, jj, jr, h4, ?_, h6⟩
        simp only [List.cons_append, pullMultimapEntriesX]
        rw [M.bind_ok h1]
        exact h5

theorem left_tuple {done : List Val} {ts : List Ty} {js : List Json} {vs : List Val} {s e q s'}
    (h : pullTupleX (pullX E n) done ts js vs s = .exc (e, q) s') :
    ∃ ts1 t ts2 js1 j js2 vs1 x vs2 vs' q0 s1, ts = ts1 ++ t :: ts2 ∧ js = js1 ++ j :: js2 ∧ vs = vs1 ++ x :: vs2 ∧
      ts1.length = js1.length ∧ ts1.length = vs1.length ∧ (∀ d, pullTupleX (pullX E n) d ts1 js1 vs1 s = .ok vs' s1) ∧
      Left E t j x q0 ∧ q = .tup (done ++ vs' ++ q0 :: vs2) := by
  induction ts generalizing done js vs s with
  | nil => cases js <;> cases vs <;> cases h
  | cons t ts ih =>
    cases js with
    | nil => cases vs <;> cases h
    | cons j js =>
      cases vs with
      | nil => cases h
      | cons v vs =>
        simp only [pullTupleX] at h
        rcases M.bind_eq_exc.1 h with h | ⟨v1, s1, h1, h⟩
        · obtain ⟨q0, hx, rfl⟩ := within_exc h
          exact ⟨[], t, ts, [], j, js, [], v, vs, [], q0, s, rfl, rfl, rfl, rfl, rfl, fun _ => rfl, hs _ _ _ _ _ _ _ hx, by simp⟩
        · rcases M.bind_eq_exc.1 h with h | ⟨v2, s2, h2, h⟩
          · obtain ⟨ts1, t', ts2, js1, j', js2, vs1, x, vs2, vs', q0, s2, rfl, rfl, rfl, hl1, hl2, h2, h3, rfl⟩ := ih h
            refine ⟨t :: ts1, t', ts2, j :: js1, j', js2, v :: vs1, x, vs2, v1 :: vs', q0, s2, rfl, rfl, rfl, by simp [hl1], by simp [hl2],
              fun d => ?_, h3, by simp⟩
            simp only [pullTupleX]
            rw [M.bind_ok (within_ok.2 (within_ok.1 h1)), M.bind_ok (h2 _)]
            rfl
          · cases h

theorem left_bases {bs : List ClassId} {ms : List (Key × Json)} {p : Val} {s e q s'}
    (h : pullBasesX (pullX E n) bs ms p s = .exc (e, q) s') :
    ∃ bs1 b bs2 v, bs = bs1 ++ b :: bs2 ∧ BasesRead E ms bs1 p v ∧ Left E (.cls b) (.obj ms) v q := by
  induction bs generalizing p s with
  | nil => cases h
  | cons b bs ih =>
    simp only [pullBasesX] at h
    rcases M.bind_eq_exc.1 h with h | ⟨v1, s1, h1, h⟩
    · exact ⟨[], b, bs, p, rfl, .nil _, hs _ _ _ _ _ _ _ h⟩
    · obtain ⟨bs1, b', bs2, v, rfl, h2, h3⟩ := ih h
      exact ⟨b :: bs1, b', bs2, v, rfl, .cons (pullX_ok h1) h2, h3⟩

omit hs in
theorem basesRead_of {bs : List ClassId} {ms : List (Key × Json)} {p v : Val} {s s'} (h : pullBasesX (pullX E n) bs ms p s = .ok v s') :
    BasesRead E ms bs p v := by
  induction bs generalizing p s with
  | nil => cases h; exact .nil _
  | cons b bs ih =>
    simp only [pullBasesX] at h
    obtain ⟨v1, s1, h1, h⟩ := M.bind_eq_ok.1 h
    exact .cons (pullX_ok h1) (ih h)

theorem left_fields {fs : List Field} {ms : List (Key × Json)} {st : Store} {s e q s'}
    (h : pullFieldsX (pullX E n) fs ms st s = .exc (e, q) s') :
    ∃ fs1 f fs2, ∃ st1 : Store, ∃ j x q0, fs = fs1 ++ f :: fs2 ∧ MembersRead E ms fs1 st st1 ∧ findMember f.name ms = some j ∧
      st1.get? f.key = some x ∧ Left E f.ty j x q0 ∧ q = .obj (st1.set f.key q0) := by
  induction fs generalizing st s with
  | nil => cases h
  | cons f fs ih =>
    simp only [pullFieldsX] at h
    rcases M.bind_eq_exc.1 h with h | ⟨st1, s1, h1, h⟩
    · unfold pullFieldX at h
      cases hm : findMember f.name ms with
      | none => rw [hm] at h; cases h
      | some j =>
        rw [hm] at h
        dsimp only at h
        cases hg : st.get? f.key with
        | none => rw [hg] at h; cases h
        | some x =>
          rw [hg] at h
          dsimp only at h
          rcases M.bind_eq_exc.1 h with h | ⟨v, s1, h1, h⟩
          · obtain ⟨s1, h⟩ := withMemberX_exc h
            obtain ⟨q0, hx, rfl⟩ := within_exc h
            exact ⟨[], f, fs, st, j, x, q0, rfl, .nil _, hm, hg, hs _ _ _ _ _ _ _ hx, rfl⟩
          · cases h
    · obtain ⟨fs1, f', fs2, st2, j, x, q0, rfl, h2, h3, h4, h5, h6⟩ := ih h
      refine ⟨f :: fs1, f', fs2, st2, j, x, q0, rfl, ?_, h3, h4, h5, h6⟩
      unfold pullFieldX at h1
      cases hm : findMember f.name ms with
      | none => rw [hm] at h1; cases h1; exact .absent hm h2
      | some j1 =>
        rw [hm] at h1
        dsimp only at h1
        cases hg : st.get? f.key with
        | none => rw [hg] at h1; cases h1
        | some x1 =>
          rw [hg] at h1
          dsimp only at h1
          obtain ⟨v, s2, h1, h7⟩ := M.bind_eq_ok.1 h1
          cases h7
          obtain ⟨s3, s4, h1⟩ := withMemberX_ok h1
          exact .present hm hg (pullX_ok (within_ok.1 h1)) h2

theorem left_step : LeftBy E (pullX E (n + 1)) := by
  intro t j p s e q s' h
  have hmm : ∀ {α : Type} (m : PM α) p, holding p m s = .exc (e, q) s' → ¬ Opens t j → Left E t j p q := by
    intro α m p h ho
    cases holding_exc h
    exact .same _ ho
  have hnew : ∀ t' (g : Val → Val), ((within g (pullX E n t' j (E.valInit t')) >>= fun v => pure (g v)) : XM Val) s = .exc (e, q) s' →
      ∃ q0, Left E t' j (E.valInit t') q0 ∧ q = g q0 := by
    intro t' g h
    rcases M.bind_eq_exc.1 h with h | ⟨v, s1, h1, h⟩
    · obtain ⟨q0, hx, rfl⟩ := within_exc h
      exact ⟨q0, hs _ _ _ _ _ _ _ hx, rfl⟩
    · cases h
  cases t with
  | vec t =>
    cases j with
    | arr js =>
      rcases M.bind_eq_exc.1 (show (forIdxX (vecItemX E (pullX E n) t) js 0 [] >>= fun vs => pure (Val.list vs) : XM Val) s = _ from h)
        with h | ⟨v, s1, h1, h⟩
      · obtain ⟨done, j, rest, vs, s1, s2, rfl, h1, h2⟩ := forIdxX_exc h
        simp only [vecItemX] at h2
        rcases M.bind_eq_exc.1 h2 with h2 | ⟨v, s1, h1, h2⟩
        · obtain ⟨q0, hx, rfl⟩ := within_exc h2
          refine .vec (pullX_ok (n := n + 1) (s := s) (s' := s1) ?_) (hs _ _ _ _ _ _ _ hx)
          show (forIdxX (vecItemX E (pullX E n) t) done 0 [] >>= fun vs => pure (Val.list vs) : XM Val) s = _
          rw [M.bind_ok h1]
          rfl
        · cases h2
      · cases h
    | _ => exact hmm _ _ h (by simp [Opens])
  | set hd m t =>
    cases j with
    | arr js =>
      rcases M.bind_eq_exc.1 (show (forIdxX (if m then multisetItemX E (pullX E n) t else setItemX E (pullX E n) t) js 0 [] >>=
        fun vs => pure (Val.list vs) : XM Val) s = _ from h) with h | ⟨v, s1, h1, h⟩
      · obtain ⟨done, j, rest, vs, s1, s2, rfl, h1, h2⟩ := forIdxX_exc h
        have hg : Gives E (.set hd m t) (.arr done) p (.list vs) := by
          refine pullX_ok (n := n + 1) (s := s) (s' := s1) ?_
          show (forIdxX (if m then multisetItemX E (pullX E n) t else setItemX E (pullX E n) t) done 0 [] >>=
            fun vs => pure (Val.list vs) : XM Val) s = _
          rw [M.bind_ok h1]
          rfl
        cases m with
        | true =>
          simp only [if_true, multisetItemX] at h2
          rcases M.bind_eq_exc.1 h2 with h2 | ⟨v, s1, h1, h2⟩
          · obtain ⟨q0, hx, rfl⟩ := within_exc h2
            exact .set hg (hs _ _ _ _ _ _ _ hx)
          · split at h2 <;> cases h2
        | false =>
          simp only [Bool.false_eq_true, if_false, setItemX] at h2
          rcases M.bind_eq_exc.1 h2 with h2 | ⟨v, s1, h1, h2⟩
          · obtain ⟨q0, hx, rfl⟩ := within_exc h2
            exact .set hg (hs _ _ _ _ _ _ _ hx)
          · split at h2
            · cases h2
            · split at h2
              · cases h2
              · rename_i hu
                rcases M.bind_eq_exc.1 h2 with h2 | ⟨u, s2, h3, h2⟩
                · cases holding_exc h2
                  have hdup := insertUniq_false (E.lt t) v vs (by simpa using hu)
                  rw [hdup.1]
                  exact .duplicate hg (pullX_ok (within_ok.1 h1)) hdup.2
                · cases h2
      · cases h
    | _ => exact hmm _ _ h (by simp [Opens])
  | map hd m k t =>
    cases k with
    | str =>
      cases j with
      | obj ms =>
        cases p with
        | map kvs =>
          rcases M.bind_eq_exc.1 (show ((if m then pullMultimapEntriesX E (pullX E n) t ms kvs else pullMapEntriesX E (pullX E n) t ms kvs) >>=
            fun kvs => pure (Val.map kvs) : XM Val) s = _ from h) with h | ⟨v, s1, h1, h⟩
          · cases m with
            | true =>
              obtain ⟨done, k, j, rest, kvs1, s1, q0, rfl, h1 | ⟨jd, j', jr, rfl, h1⟩, rfl⟩ := left_multimap hs h
              · refine .multimap h1.1 (pullX_ok (n := n + 1) (s := s) (s' := s1) ?_) h1.2.2
                show (pullMultimapEntriesX E (pullX E n) t done kvs >>= fun kvs => pure (Val.map kvs) : XM Val) s = _
                rw [M.bind_ok h1.2.1]
                rfl
              · refine .multimapArr (pullX_ok (n := n + 1) (s := s) (s' := s1) ?_) h1.2
                show (pullMultimapEntriesX E (pullX E n) t (done ++ [(k, .arr jd)]) kvs >>= fun kvs => pure (Val.map kvs) : XM Val) s = _
                rw [M.bind_ok h1.1]
                rfl
            | false =>
              obtain ⟨done, k, j, rest, kvs1, s1, q0, rfl, h1, h2, rfl⟩ := left_map hs h
              refine .map (pullX_ok (n := n + 1) (s := s) (s' := s1) ?_) h2
              show (pullMapEntriesX E (pullX E n) t done kvs >>= fun kvs => pure (Val.map kvs) : XM Val) s = _
              rw [M.bind_ok h1]
              rfl
          · cases h
        | _ => cases h
      | _ => exact hmm _ _ h (by simp [Opens])
    | _ => simp only [pullX, pullXStep, pullStep, holding, M.stuck_apply] at h; cases h
  | pair a b =>
    cases j with
    | arr js =>
      simp only [pullX, pullXStep] at h
      by_cases hl : js.length = 2
      · rw [if_neg (by simpa using hl)] at h
        cases p with
        | tup vs =>
          rcases M.bind_eq_exc.1 h with h | ⟨v, s1, h1, h⟩
          · obtain ⟨ts1, t, ts2, js1, j, js2, vs1, x, vs2, vs', q0, s1, h1, rfl, rfl, hl1, hl2, h2, h3, rfl⟩ := left_tuple hs h
            have hp := h2 []
            match ts1, h1, js1, hl1, vs1, hl2, hp with
            | [], h1, [], _, [], _, hp =>
              cases h1
              cases hp
              match js2, hl with
              | [j'], _ => exact .fst h3
            | [t1], h1, [j1], _, [v1], _, hp =>
              cases h1
              simp only [pullTupleX] at hp
              obtain ⟨x', s2, h4, hp⟩ := M.bind_eq_ok.1 hp
              cases hp
              match js2, hl with
              | [], _ => exact .snd (pullX_ok (within_ok.1 h4)) h3
            | t1 :: t2 :: l, h1, _, _, _, _, _ => simp at h1
          · cases h
        | _ => cases h
      · rw [if_pos hl] at h
        exact hmm _ _ h (by simpa [Opens] using hl)
    | _ => exact hmm _ _ h (by simp [Opens])
  | tuple ts =>
    cases j with
    | arr js =>
      simp only [pullX, pullXStep] at h
      by_cases hl : js.length = ts.length
      · rw [if_neg (by simpa using hl)] at h
        cases p with
        | tup vs =>
          rcases M.bind_eq_exc.1 h with h | ⟨v, s1, h1, h⟩
          · obtain ⟨ts1, t, ts2, js1, j, js2, vs1, x, vs2, vs', q0, s1, rfl, rfl, rfl, hl1, hl2, h2, h3, rfl⟩ := left_tuple hs h
            refine .tuple hl1.symm hl2.symm (by simp at hl; omega) (pullX_ok (n := n + 1) (s := s) (s' := s1) ?_) h3
            simp only [pullX, pullXStep]
            rw [if_neg (by simp [hl1]), M.bind_ok (h2 _)]
            rfl
          · cases h
        | _ => cases h
      · rw [if_pos hl] at h
        exact hmm _ _ h (by simpa [Opens] using hl)
    | _ => exact hmm _ _ h (by simp [Opens])
  | uptr t =>
    cases j <;> first
      | (cases h; done)
      | (obtain ⟨q0, h1, rfl⟩ := hnew t .ptr h; exact .uptr _ (by simp) h1)
  | sptr t =>
    cases j <;> first
      | (cases h; done)
      | (obtain ⟨q0, h1, rfl⟩ := hnew t .ptr h; exact .sptr _ (by simp) h1)
  | opt t =>
    cases j <;> first
      | (cases h; done)
      | (obtain ⟨q0, h1, rfl⟩ := hnew t .some h; exact .opt _ (by simp) h1)
  | variant ts =>
    cases j with
    | obj ms =>
      have hrep : ∀ (k : ErrKind) a b p, k.flag = 0 → ¬ (holding p (do report k a b; pure p : PM Val)) s = .exc (e, q) s' := by
        intro k a b p hk h
        simp only [holding, M.bind_apply] at h
        cases s with
        | none => cases h
        | some st =>
          simp only [report, hk] at h
          simp at h
      simp only [pullX, pullXStep] at h
      cases hi : findMember (lit "index") ms with
      | none => rw [hi] at h; exact (hrep _ _ _ _ rfl h).elim
      | some ji =>
        cases hd : findMember (lit "data") ms with
        | none => rw [hi, hd] at h; exact (hrep _ _ _ _ rfl h).elim
        | some jd =>
          rw [hi, hd] at h
          dsimp only at h
          cases hu : uint64? ji with
          | none => rw [hu] at h; exact (hrep _ _ _ _ rfl h).elim
          | some i =>
            rw [hu] at h
            dsimp only at h
            cases ht : ts[i]? with
            | none => rw [ht] at h; exact (hrep _ _ _ _ rfl h).elim
            | some t' =>
              rw [ht] at h
              have hji : ji = .num (.int i) ∧ i < 2 ^ 64 := by
                cases ji with
                | num x =>
                  cases x with
                  | int z =>
                    simp only [uint64?] at hu
                    split at hu
                    · rename_i hz
                      cases hu
                      simp [IntTy.inRange, IntTy.lo, IntTy.hi, IntTy.signed] at hz
                      have h0 : IntTy.card .u64 = 2 ^ 64 := rfl
                      rw [h0] at hz
                      refine ⟨?_, by omega⟩
                      simp
                      have := hz.1
                      omega
                    · cases hu
                  | _ => cases hu
                | _ => cases hu
              obtain ⟨rfl, hi64⟩ := hji
              have hsub : t' ≠ .mono → (within (Val.alt i) (pullX E n t' jd (E.valInit t')) >>= fun v => pure (Val.alt i v) : XM Val) s = .exc (e, q) s' →
                  Left E (.variant ts) (.obj ms) p q := by
                intro hnm h
                rcases M.bind_eq_exc.1 h with h | ⟨v, s1, h1, h⟩
                · obtain ⟨q0, hx, rfl⟩ := within_exc h
                  exact .variant p hi hi64 hd ht hnm (hs _ _ _ _ _ _ _ hx)
                · cases h
              cases t' <;> first
                | exact hsub (by simp) h
                | (cases h; done)
    | _ => exact hmm _ _ h (by simp [Opens])
  | cls c =>
    simp only [pullX, pullXStep] at h
    cases hc : E.cls c with
    | none => rw [hc] at h; cases h
    | some ci =>
      rw [hc] at h
      dsimp only at h
      by_cases hpl : ci.json.pullable = false
      · rw [if_pos hpl] at h; cases h
      · rw [if_neg hpl] at h
        cases j with
        | obj ms =>
          rcases M.bind_eq_exc.1 h with h | ⟨v, s1, h1, h⟩
          · obtain ⟨bs1, b, bs2, v, hb, h1, h2⟩ := left_bases hs h
            exact .base hc hb h1 h2
          · have hbr := basesRead_of h1
            cases v with
            | obj st =>
              dsimp only at h
              rcases M.bind_eq_exc.1 h with h | ⟨v, s2, h2, h⟩
              · have : ∃ s, pullFieldsX (pullX E n) ci.json.pullFields ms st s = .exc (e, q) s' := by
                  by_cases hr : ci.json.setsRecord = true
                  · rw [if_pos hr] at h; exact withRecordX_exc h
                  · rw [if_neg hr] at h; exact ⟨_, h⟩
                obtain ⟨s2, h2⟩ := this
                obtain ⟨fs1, f, fs2, st1, j, x, q0, hf, h3, h4, h5, h6, rfl⟩ := left_fields hs h2
                exact .member hc hf hbr h3 h4 h5 h6
              · cases h
            | _ => cases h
        | _ => exact hmm _ _ h (by simp [Opens])
  | mono => cases h
  | _ => exact hmm _ _ h (by simp [Opens])

end

theorem left_pullX (E : Env) (n : Nat) : LeftBy E (pullX E n) := by
  induction n with
  | zero => intro t j p s e q s' h; cases h
  | succ n ih => exact left_step ih

end Verif
