import Verif.Spec.SameData
import Verif.Lemmas.BinRetry
import Verif.Lemmas.JsonRetry
import Verif.Lemmas.ReadXMono
import Verif.Lemmas.BinConv
import Verif.Props.BinaryRetry
import Verif.Props.BinaryReload
import Verif.Props.BinaryExceptions
import Verif.Props.BinaryFraming

/-!
# C93: trying again with the same, now complete, data
-/

namespace Verif

/-! ## Truncated input -/

/-- `c` is `s` before the remaining input has arrived -/
def Earlier (c s : RSt) : Prop := ∃ cut rest : Str, s.inp = cut ++ rest ∧ c = s.withInput cut

theorem Earlier.ok {α : Type} {m : RM α} (hm : Framed α m) {c s c1 s1 : RSt} {a a' : α} (h : Earlier c s) (h1 : m s = .ok a s1)
    (h2 : m c = .ok a' c1) : a' = a ∧ Earlier c1 s1 := by
  obtain ⟨cut, rest, h3, rfl⟩ := h
  obtain ⟨used, h4, h5, -⟩ := hm _ _ _ h2
  have h6 := h5 (c1.inp ++ rest)
  have h7 : (s.withInput cut).withInput (used ++ (c1.inp ++ rest)) = s := by
    have h4 : cut = used ++ c1.inp := h4
    cases s
    simp only [RSt.withInput] at *
    simp [h3, h4]
  rw [h7, h1] at h6
  cases h6
  exact ⟨rfl, c1.inp, rest, rfl, rfl⟩

/-! ## Insertion -/

section
variable {lt : Val → Val → Bool} (hlt : ∀ vs, WeakOrderOn lt vs)
include hlt

theorem lt_irr (x : Val) : lt x x = false := (hlt [x]).irrefl x (by simp)
theorem lt_tr {x y z : Val} : lt x y = true → lt y z = true → lt x z = true := (hlt [x, y, z]).trans x (by simp) y (by simp) z (by simp)
theorem lt_ntr {x y z : Val} : lt x y = false → lt y z = false → lt x z = false :=
  (hlt [x, y, z]).negTrans x (by simp) y (by simp) z (by simp)
theorem lt_asym {x y : Val} (h : lt x y = true) : lt y x = false := by
  cases h' : lt y x with
  | false => rfl
  | true => have := lt_tr hlt h h'; rw [lt_irr hlt] at this; cases this

/-- inserting `x` into `acc` has no effect -/
theorem insert_same (x : Val) (acc : List Val) : (insertUniq lt x (insertUniq lt x acc).1).1 = (insertUniq lt x acc).1 := by
  induction acc with
  | nil => simp [insertUniq, lt_irr hlt]
  | cons y ys ih =>
    simp only [insertUniq]
    split
    · simp [insertUniq, lt_irr hlt]
    · split
      · simp [insertUniq, *]
      · simp [insertUniq, *]

theorem insert_keeps (x y : Val) (acc : List Val) (h : (insertUniq lt x acc).1 = acc) :
    (insertUniq lt x (insertUniq lt y acc).1).1 = (insertUniq lt y acc).1 := by
  induction acc with
  | nil => simp [insertUniq] at h
  | cons a as ih =>
    simp only [insertUniq] at h
    split at h
    · exact absurd (congrArg List.length h) (by simp)
    · rename_i h1
      rw [Bool.not_eq_true] at h1
      simp only [insertUniq]
      split at h
      · rename_i h2
        simp only [List.cons.injEq, true_and] at h
        split
        · rename_i h3
          have h4 := lt_tr hlt h3 h2
          simp [insertUniq, lt_asym hlt h4, h4, h1, h2, h]
        · split
          · simp [insertUniq, h1, h2, ih h]
          · simp [insertUniq, h1, h2, h]
      · rename_i h2
        rw [Bool.not_eq_true] at h2
        split
        · rename_i h3
          have h4 : lt y x = true := by
            cases h4 : lt y x with
            | true => rfl
            | false => rw [lt_ntr hlt h4 h1] at h3; cases h3
          simp [insertUniq, lt_asym hlt h4, h4, h1, h2]
        · split
          · simp [insertUniq, h1, h2]
          · simp [insertUniq, h1, h2]

theorem emplace_same (k v : Val) (acc : List (Val × Val)) (v' : Val) :
    mapEmplace lt k v' (mapEmplace lt k v acc) = mapEmplace lt k v acc := by
  induction acc with
  | nil => simp [mapEmplace, lt_irr hlt]
  | cons y ys ih =>
    obtain ⟨k', w⟩ := y
    simp only [mapEmplace]
    split
    · simp [mapEmplace, lt_irr hlt]
    · split
      · simp [mapEmplace, *]
      · simp [mapEmplace, *]

theorem emplace_keeps (k v k' v' : Val) (acc : List (Val × Val)) (h : mapEmplace lt k v acc = acc) :
    mapEmplace lt k v (mapEmplace lt k' v' acc) = mapEmplace lt k' v' acc := by
  induction acc with
  | nil => simp [mapEmplace] at h
  | cons a as ih =>
    obtain ⟨a, b⟩ := a
    simp only [mapEmplace] at h
    split at h
    · exact absurd (congrArg List.length h) (by simp)
    · rename_i h1
      rw [Bool.not_eq_true] at h1
      simp only [mapEmplace]
      split at h
      · rename_i h2
        simp only [List.cons.injEq, true_and] at h
        split
        · rename_i h3
          have h4 := lt_tr hlt h3 h2
          simp [mapEmplace, lt_asym hlt h4, h4, h1, h2, h]
        · split
          · simp [mapEmplace, h1, h2, ih h]
          · simp [mapEmplace, h1, h2, h]
      · rename_i h2
        rw [Bool.not_eq_true] at h2
        split
        · rename_i h3
          have h4 : lt k' k = true := by
            cases h4 : lt k' k with
            | true => rfl
            | false => rw [lt_ntr hlt h4 h1] at h3; cases h3
          simp [mapEmplace, lt_asym hlt h4, h4, h1, h2]
        · split
          · simp [mapEmplace, h1, h2]
          · simp [mapEmplace, h1, h2]

end

/-! ## Reading again -/

/-- reading the same data again has no effect; reading it again after the attempt to read a part of it is like reading it for the first time -/
def Resumes (E : Env) (n : Nat) (t : Ty) : Prop := ∀ w p s v s1, read E n w t p s = .ok v s1 →
  read E n w t v s = .ok v s1 ∧ ∀ c e q s', Earlier c s → readX E n w t p c = .exc (e, q) s' → read E n w t q s = .ok v s1

section
variable {E : Env} {n : Nat}

theorem readX_ok {w : Nat} {t : Ty} {p : Val} {c c1 : RSt} {v : Val} : readX E n w t p c = .ok v c1 ↔ read E n w t p c = .ok v c1 :=
  (readX_agrees E n w t p).ok_iff

theorem framed_read (w : Nat) (t : Ty) (p : Val) : Framed Val (read E n w t p) := framed_closed.read E n w t p

theorem resumes_elems {t : Ty} (ht : Resumes E n t) (ps vs : List Val) (s s1 : RSt) (h : readElems (read E n) t ps s = .ok vs s1) :
    (readElems (read E n) t vs s = .ok vs s1 ∧ vs.length = ps.length) ∧
    ∀ c done e q s', Earlier c s → readElemsX (readX E n) t done ps c = .exc (e, q) s' →
      ∃ qs, q = .list (done ++ qs) ∧ qs.length = ps.length ∧ readElems (read E n) t qs s = .ok vs s1 := by
  induction ps generalizing s vs with
  | nil =>
    cases h
    exact ⟨⟨rfl, rfl⟩, fun c done e q s' _ h => by cases h⟩
  | cons p ps ih =>
    obtain ⟨v, s2, h1, h2⟩ := M.bind_eq_ok.1 h
    obtain ⟨vs', s3, h3, h4⟩ := M.bind_eq_ok.1 h2
    cases h4
    obtain ⟨⟨i1, i2⟩, i3⟩ := ih _ _ h3
    obtain ⟨t1, t2⟩ := ht _ _ _ _ _ h1
    refine ⟨⟨?_, by simp [i2]⟩, ?_⟩
    · exact M.bind_eq_ok.2 ⟨_, _, t1, M.bind_eq_ok.2 ⟨_, _, i1, rfl⟩⟩
    · intro c done e q s' hc hx
      rcases M.bind_eq_exc.1 hx with hx | ⟨v', c1, hx1, hx2⟩
      · obtain ⟨q0, hy, rfl⟩ := withinR_exc hx
        refine ⟨q0 :: ps, rfl, rfl, ?_⟩
        exact M.bind_eq_ok.2 ⟨_, _, t2 _ _ _ _ hc hy, M.bind_eq_ok.2 ⟨_, _, h3, rfl⟩⟩
      · obtain ⟨rfl, hc1⟩ := hc.ok (framed_read _ _ _) h1 (readX_ok.1 (withinR_ok.1 hx1))
        rcases M.bind_eq_exc.1 hx2 with hx2 | ⟨_, _, _, hx2⟩
        · obtain ⟨qs, rfl, l, hq⟩ := i3 _ _ _ _ _ hc1 hx2
          refine ⟨v' :: qs, by simp, by simp [l], ?_⟩
          exact M.bind_eq_ok.2 ⟨_, _, t1, M.bind_eq_ok.2 ⟨_, _, hq, rfl⟩⟩
        · cases hx2

theorem resumes_setItems {t : Ty} (hlt : ∀ vs, WeakOrderOn (E.lt t) vs) (k : Nat) (acc vs : List Val) (s s1 : RSt)
    (h : readSetItems E (read E n) false t k acc s = .ok vs s1) :
    (readSetItems E (read E n) false t k vs s = .ok vs s1 ∧
      ∀ x, (insertUniq (E.lt t) x acc).1 = acc → (insertUniq (E.lt t) x vs).1 = vs) ∧
    ∀ c e q s', Earlier c s → readSetItemsX E (readX E n) false t k acc c = .exc (e, q) s' →
      ∃ acc', q = .list acc' ∧ readSetItems E (read E n) false t k acc' s = .ok vs s1 ∧
        ∀ x, (insertUniq (E.lt t) x acc).1 = acc → (insertUniq (E.lt t) x acc').1 = acc' := by
  induction k generalizing s acc with
  | zero =>
    cases h
    exact ⟨⟨rfl, fun _ h => h⟩, fun c e q s' _ h => by cases h⟩
  | succ k ih =>
    have h0 := h
    obtain ⟨v, s2, h1, h2⟩ := M.bind_eq_ok.1 h
    split at h2
    · cases h2
    · rename_i hv
      simp only [Bool.false_eq_true, if_false] at h2
      obtain ⟨⟨i1, i2⟩, i3⟩ := ih _ _ h2
      have again : ∀ acc', (insertUniq (E.lt t) v acc').1 = acc' → readSetItems E (read E n) false t k acc' s2 = .ok vs s1 →
          readSetItems E (read E n) false t (k + 1) acc' s = .ok vs s1 := by
        intro acc' ha hr
        refine M.bind_eq_ok.2 ⟨_, _, h1, ?_⟩
        simp only [hv, Bool.false_eq_true, if_false, ha]
        exact hr
      refine ⟨⟨again vs (i2 v (insert_same hlt v acc)) i1, fun x hx => i2 x (insert_keeps hlt x v acc hx)⟩, ?_⟩
      intro c e q s' hc hx
      rcases M.bind_eq_exc.1 hx with hx | ⟨v', c1, hx1, hx2⟩
      · obtain ⟨q0, hy, rfl⟩ := withinR_exc hx
        exact ⟨acc, rfl, h0, fun _ h => h⟩
      · obtain ⟨rfl, hc1⟩ := hc.ok (framed_read _ _ _) h1 (readX_ok.1 (withinR_ok.1 hx1))
        simp only [hv, Bool.false_eq_true, if_false] at hx2
        obtain ⟨acc', rfl, hr, hk⟩ := i3 _ _ _ _ hc1 hx2
        exact ⟨acc', rfl, again acc' (hk _ (insert_same hlt _ acc)) hr, fun x hx => hk x (insert_keeps hlt x _ acc hx)⟩

theorem resumes_mapItems {kt t : Ty} (hlt : ∀ vs, WeakOrderOn (E.lt kt) vs) (k : Nat) (acc kvs : List (Val × Val)) (s s1 : RSt)
    (h : readMapItems E (read E n) false kt t k acc s = .ok kvs s1) :
    (readMapItems E (read E n) false kt t k kvs s = .ok kvs s1 ∧
      ∀ x y, mapEmplace (E.lt kt) x y acc = acc → mapEmplace (E.lt kt) x y kvs = kvs) ∧
    ∀ c e q s', Earlier c s → readMapItemsX E (readX E n) false kt t k acc c = .exc (e, q) s' →
      ∃ acc', q = .map acc' ∧ readMapItems E (read E n) false kt t k acc' s = .ok kvs s1 ∧
        ∀ x y, mapEmplace (E.lt kt) x y acc = acc → mapEmplace (E.lt kt) x y acc' = acc' := by
  induction k generalizing s acc with
  | zero =>
    cases h
    exact ⟨⟨rfl, fun _ _ h => h⟩, fun c e q s' _ h => by cases h⟩
  | succ k ih =>
    have h0 := h
    obtain ⟨v, s2, h1, h2⟩ := M.bind_eq_ok.1 h
    split at h2
    · rename_i a b
      split at h2
      · cases h2
      · rename_i hv
        simp only [Bool.false_eq_true, if_false] at h2
        obtain ⟨⟨i1, i2⟩, i3⟩ := ih _ _ h2
        have again : ∀ acc', mapEmplace (E.lt kt) a b acc' = acc' → readMapItems E (read E n) false kt t k acc' s2 = .ok kvs s1 →
            readMapItems E (read E n) false kt t (k + 1) acc' s = .ok kvs s1 := by
          intro acc' ha hr
          refine M.bind_eq_ok.2 ⟨_, _, h1, ?_⟩
          simp only [hv, Bool.false_eq_true, if_false, ha]
          exact hr
        refine ⟨⟨again kvs (i2 _ _ (emplace_same hlt a b acc b)) i1, fun x y hx => i2 x y (emplace_keeps hlt x y a b acc hx)⟩, ?_⟩
        intro c e q s' hc hx
        rcases M.bind_eq_exc.1 hx with hx | ⟨v', c1, hx1, hx2⟩
        · obtain ⟨q0, hy, rfl⟩ := withinR_exc hx
          exact ⟨acc, rfl, h0, fun _ _ h => h⟩
        · obtain ⟨rfl, hc1⟩ := hc.ok (framed_read _ _ _) h1 (readX_ok.1 (withinR_ok.1 hx1))
          simp only [hv, Bool.false_eq_true, if_false] at hx2
          obtain ⟨acc', rfl, hr, hk⟩ := i3 _ _ _ _ hc1 hx2
          exact ⟨acc', rfl, again acc' (hk _ _ (emplace_same hlt a b acc b)) hr, fun x y hx => hk x y (emplace_keeps hlt x y a b acc hx)⟩
    · cases h2

theorem set_get_self (st : Store) (k : FieldKey) (v : Val) (h : st.get? k = some v) : st.set k v = st := by
  induction st with
  | nil => rfl
  | cons x st ih =>
    obtain ⟨k', v'⟩ := x
    simp only [Store.set]
    split
    · rename_i he
      subst he
      simp [Store.get?] at h
      rw [h]
    · rename_i he
      congr 1
      apply ih
      simpa [Store.get?, List.lookup_cons, beq_eq_false_iff_ne.2 (Ne.symm he)] using h

/-! ## Objects -/

/-- the object after members have been assigned -/
def setAll (st : Store) (ups : List (FieldKey × Val)) : Store := ups.foldl (fun st u => st.set u.1 u.2) st

/-- the members have these values -/
def Has (st : Store) (ups : List (FieldKey × Val)) : Prop := ∀ u ∈ ups, st.get? u.1 = some u.2

theorem set_comm (st : Store) {k k' : FieldKey} (h : k ≠ k') (v v' : Val) : (st.set k v).set k' v' = (st.set k' v').set k v := by
  induction st with
  | nil => rfl
  | cons x st ih =>
    obtain ⟨a, b⟩ := x
    by_cases h1 : a = k
    · subst h1
      simp [Store.set, h]
    · by_cases h2 : a = k'
      · subst h2
        simp [Store.set, h1]
      · simp [Store.set, h1, h2, ih]

theorem setAll_append (st : Store) (a b : List (FieldKey × Val)) : setAll st (a ++ b) = setAll (setAll st a) b := by simp [setAll]

theorem get?_setAll_ne (ups : List (FieldKey × Val)) (st : Store) {k : FieldKey} (h : k ∉ ups.map Prod.fst) : (setAll st ups).get? k = st.get? k := by
  induction ups generalizing st with
  | nil => rfl
  | cons u ups ih =>
    simp only [List.map_cons, List.mem_cons, not_or] at h
    exact (ih _ h.2).trans (get?_set_ne _ _ h.1)

theorem setAll_self (ups : List (FieldKey × Val)) (st : Store) (h : Has st ups) : setAll st ups = st := by
  induction ups generalizing st with
  | nil => rfl
  | cons u ups ih =>
    have : st.set u.1 u.2 = st := set_get_self _ _ _ (h u List.mem_cons_self)
    simp only [setAll, List.foldl_cons, this]
    exact ih st fun x hx => h x (List.mem_cons_of_mem _ hx)

theorem setAll_set (ups : List (FieldKey × Val)) (st : Store) (k : FieldKey) (v : Val) (h : k ∈ ups.map Prod.fst) :
    setAll (st.set k v) ups = setAll st ups := by
  induction ups generalizing st with
  | nil => simp at h
  | cons u ups ih =>
    simp only [setAll, List.foldl_cons]
    by_cases hk : u.1 = k
    · rw [← hk, set_set]
    · rw [set_comm _ (Ne.symm hk)]
      simp only [List.map_cons, List.mem_cons] at h
      exact ih _ (h.resolve_left (Ne.symm hk))

theorem setAll_absorb (a b : List (FieldKey × Val)) (st : Store) (h : ∀ k ∈ a.map Prod.fst, k ∈ b.map Prod.fst) :
    setAll (setAll st a) b = setAll st b := by
  induction a generalizing st with
  | nil => rfl
  | cons u a ih =>
    have h1 := ih (st.set u.1 u.2) fun k hk => h k (by simp only [List.map_cons, List.mem_cons]; exact .inr hk)
    exact h1.trans (setAll_set b st _ _ (h _ (by simp)))

/-- different members which exist and are among `K` -/
structure Updates (K : FieldKey → Prop) (st : Store) (keys : List FieldKey) : Prop where
  nodup : keys.Nodup
  among : ∀ k ∈ keys, K k
  exist : ∀ k ∈ keys, ∃ x, st.get? k = some x

theorem Updates.prefix {K : FieldKey → Prop} {st : Store} {a b : List FieldKey} (h : Updates K st b) (hab : a <+: b) : Updates K st a :=
  ⟨h.nodup.sublist hab.sublist, fun k hk => h.among k (hab.subset hk), fun k hk => h.exist k (hab.subset hk)⟩

theorem has_setAll {K : FieldKey → Prop} (ups : List (FieldKey × Val)) (st : Store) (h : Updates K st (ups.map Prod.fst)) : Has (setAll st ups) ups := by
  induction ups generalizing st with
  | nil => intro u hu; cases hu
  | cons u ups ih =>
    have hn := h.nodup
    simp only [List.map_cons, List.nodup_cons] at hn
    obtain ⟨x, hx⟩ := h.exist u.1 (by simp)
    have hU : Updates K (st.set u.1 u.2) (ups.map Prod.fst) := by
      refine ⟨hn.2, fun k hk => h.among k (by simp only [List.map_cons, List.mem_cons]; exact .inr hk), fun k hk => ?_⟩
      obtain ⟨y, hy⟩ := h.exist k (by simp only [List.map_cons, List.mem_cons]; exact .inr hk)
      refine ⟨y, ?_⟩
      have hne : k ≠ u.1 := fun e => hn.1 (by rw [← e]; exact hk)
      rw [get?_set_ne _ _ hne, hy]
    intro u' hu'
    rcases List.mem_cons.1 hu' with rfl | hu'
    · have := get?_setAll_ne ups (st.set u'.1 u'.2) hn.1
      exact this.trans (get?_set_eq _ hx)
    · exact ih _ hU u' hu'

/-- A part of an object (the members `K`) is read by `m`; `x` is the same with what is left when it throws.
* members are assigned (each at most once),
* if they have these values already, nothing changes,
* the values depend only on the members `K` and
* if the input was incomplete, some of the members have been assigned and reading again assigns all of them. -/
def Patches (K : FieldKey → Prop) (m : Store → RM Val) (x : Store → XR Val) : Prop := ∀ st s v s1, m st s = .ok v s1 →
  ∃ ups, Updates K st (ups.map Prod.fst) ∧ v = .obj (setAll st ups) ∧
    (∀ st', Has st' ups → m st' s = .ok (.obj st') s1) ∧
    (∀ st' : Store, (∀ k, K k → st'.get? k = st.get? k) → m st' s = .ok (.obj (setAll st' ups)) s1) ∧
    ∀ c e q s', Earlier c s → x st c = .exc (e, q) s' → ∃ ups', q = .obj (setAll st ups') ∧ ups'.map Prod.fst <+: ups.map Prod.fst ∧
      ∀ st' : Store, Has st' ups' → (∀ k, K k → k ∉ ups'.map Prod.fst → st'.get? k = st.get? k) → m st' s = .ok (.obj (setAll st' ups)) s1

/-- nothing is read -/
theorem patches_none {m : Store → RM Val} {x : Store → XR Val} (hm : ∀ st s, m st s = .ok (.obj st) s) (hx : ∀ st s e s', x st s ≠ .exc e s') :
    Patches (fun _ => False) m x := by
  intro st s v s1 h
  rw [hm] at h
  cases h
  exact ⟨[], ⟨by simp, by simp, by simp⟩, rfl, fun st' _ => hm _ _, fun st' _ => hm _ _, fun c e q s' _ h => absurd h (hx _ _ _ _)⟩

theorem patches_weaken {K K' : FieldKey → Prop} {m : Store → RM Val} {x : Store → XR Val} (h : Patches K m x) (hK : ∀ k, K k → K' k) :
    Patches K' m x := by
  intro st s v s1 hm
  obtain ⟨ups, h1, h2, h3, h4, h5⟩ := h st s v s1 hm
  refine ⟨ups, ⟨h1.nodup, fun k hk => hK k (h1.among k hk), h1.exist⟩, h2, h3, fun st' h => h4 st' fun k hk => h k (hK k hk), ?_⟩
  intro c e q s' hc hx
  obtain ⟨ups', h6, h7, h8⟩ := h5 c e q s' hc hx
  exact ⟨ups', h6, h7, fun st' h h' => h8 st' h fun k hk => h' k (hK k hk)⟩

/-- one after the other -/
theorem patches_seq {K1 K2 : FieldKey → Prop} {m1 m2 m : Store → RM Val} {x1 x2 x : Store → XR Val} (h1 : Patches K1 m1 x1) (h2 : Patches K2 m2 x2)
    (hd : ∀ k, K1 k → ¬ K2 k) (hfr : ∀ st, Framed Val (m1 st))
    (hm : ∀ st s v s2, m st s = .ok v s2 ↔ ∃ st1 s1, m1 st s = .ok (.obj st1) s1 ∧ m2 st1 s1 = .ok v s2)
    (hx : ∀ st s e q s', x st s = .exc (e, q) s' → x1 st s = .exc (e, q) s' ∨ ∃ st1 s1, m1 st s = .ok (.obj st1) s1 ∧ x2 st1 s1 = .exc (e, q) s') :
    Patches (fun k => K1 k ∨ K2 k) m x := by
  intro st s v s2 h
  obtain ⟨st1, s1, e1, e2⟩ := (hm _ _ _ _).1 h
  obtain ⟨u1, a1, a2, a3, a4, a5⟩ := h1 _ _ _ _ e1
  obtain ⟨u2, b1, b2, b3, b4, b5⟩ := h2 _ _ _ _ e2
  cases a2
  have n21 : ∀ k ∈ u2.map Prod.fst, k ∉ u1.map Prod.fst := fun k hk hk' => hd k (a1.among k hk') (b1.among k hk)
  have outside : ∀ (st : Store) {k}, K2 k → (setAll st u1).get? k = st.get? k := fun st k hk =>
    get?_setAll_ne _ _ fun hk' => hd k (a1.among k hk') hk
  have comb : ∀ st' : Store, m1 st' s = .ok (.obj (setAll st' u1)) s1 → (∀ k, K2 k → st'.get? k = st.get? k) →
      m st' s = .ok (.obj (setAll st' (u1 ++ u2))) s2 := by
    intro st' e3 hk
    refine (hm _ _ _ _).2 ⟨_, _, e3, ?_⟩
    rw [setAll_append]
    exact b4 _ fun k hk2 => by rw [outside _ hk2, outside _ hk2, hk k hk2]
  refine ⟨u1 ++ u2, ⟨?_, ?_, ?_⟩, by rw [b2, setAll_append], ?_, ?_, ?_⟩
  · rw [List.map_append]
    exact List.nodup_append.2 ⟨a1.nodup, b1.nodup, fun a ha b hb e => n21 b hb (e ▸ ha)⟩
  · intro k hk
    rw [List.map_append, List.mem_append] at hk
    exact hk.imp (a1.among k) (b1.among k)
  · intro k hk
    rw [List.map_append, List.mem_append] at hk
    rcases hk with hk | hk
    · exact a1.exist k hk
    · obtain ⟨y, hy⟩ := b1.exist k hk
      exact ⟨y, by rw [← hy, outside _ (b1.among k hk)]⟩
  · intro st' hh
    have hh1 : Has st' u1 := fun u hu => hh u (List.mem_append_left _ hu)
    have hh2 : Has st' u2 := fun u hu => hh u (List.mem_append_right _ hu)
    exact (hm _ _ _ _).2 ⟨_, _, a3 _ hh1, b3 _ hh2⟩
  · intro st' hk
    exact comb st' (a4 st' fun k h => hk k (.inl h)) fun k h => hk k (.inr h)
  · intro c e q s' hc hxx
    rcases hx _ _ _ _ _ hxx with hx1 | ⟨st3, c1, hx1, hx2⟩
    · obtain ⟨ups', c2, c3, c4⟩ := a5 _ _ _ _ hc hx1
      refine ⟨ups', c2, c3.trans (by rw [List.map_append]; exact List.prefix_append _ _), fun st' hh hk => ?_⟩
      refine comb st' (c4 st' hh fun k h h' => hk k (.inl h) h') fun k h => hk k (.inr h) fun h' => ?_
      exact hd k (a1.among k (c3.subset h')) h
    · obtain ⟨he, hc1⟩ := hc.ok (hfr _) e1 hx1
      cases he
      obtain ⟨ups', c2, c3, c4⟩ := b5 _ _ _ _ hc1 hx2
      refine ⟨u1 ++ ups', by rw [c2, setAll_append], ?_, fun st' hh hk => ?_⟩
      · rw [List.map_append, List.map_append]
        exact (List.prefix_append_right_inj _).2 c3
      · have hh1 : Has st' u1 := fun u hu => hh u (List.mem_append_left _ hu)
        have hh2 : Has st' ups' := fun u hu => hh u (List.mem_append_right _ hu)
        refine (hm _ _ _ _).2 ⟨_, _, a3 _ hh1, ?_⟩
        rw [setAll_append, setAll_self _ _ hh1]
        refine c4 st' hh2 fun k h h' => ?_
        rw [outside _ h]
        refine hk k (.inr h) fun h3 => ?_
        rw [List.map_append, List.mem_append] at h3
        exact h3.elim (fun h3 => hd k (a1.among k h3) h) h'

/-- members -/
theorem patches_fields {E : Env} {n w : Nat} (fs : List (Guard × Field)) (hnd : (fs.map fun gf => gf.2.key).Nodup) (hf : ∀ gf ∈ fs, Resumes E n gf.2.ty) :
    Patches (· ∈ fs.map fun gf => gf.2.key) (fun st => readFields (read E n) w fs st >>= fun st => pure (.obj st))
      (fun st => readFieldsX (readX E n) w fs st >>= fun st => pure (.obj st)) := by
  induction fs with
  | nil => exact patches_weaken (patches_none (fun st s => rfl) (fun st s e s' h => by cases h)) (fun _ h => h.elim)
  | cons gf fs ih =>
    obtain ⟨g, f⟩ := gf
    simp only [List.map_cons, List.nodup_cons] at hnd
    have hrest := ih hnd.2 fun gf h => hf gf (List.mem_cons_of_mem _ h)
    by_cases hg : g.holds w = true
    · have hone : Patches (· = f.key)
          (fun st => match Store.get? st f.key with | none => M.stuck | some p => do let v ← read E n w f.ty p; pure (.obj (st.set f.key v)))
          (fun st => match Store.get? st f.key with
            | none => M.stuck
            | some p => do let v ← withinR (fun q => .obj (st.set f.key q)) (readX E n w f.ty p); pure (.obj (st.set f.key v))) := by
        intro st s v s1 h
        dsimp only at h
        cases hp : st.get? f.key with
        | none => rw [hp] at h; cases h
        | some p =>
          rw [hp] at h
          obtain ⟨y, s2, h1, h2⟩ := M.bind_eq_ok.1 h
          cases h2
          obtain ⟨t1, t2⟩ := hf (g, f) List.mem_cons_self _ _ _ _ _ h1
          have mk : ∀ (st' : Store) p', st'.get? f.key = some p' → read E n w f.ty p' s = .ok y s1 →
              (match Store.get? st' f.key with | none => (M.stuck : RM Val) | some p => do let v ← read E n w f.ty p; pure (.obj (st'.set f.key v))) s =
                .ok (.obj (setAll st' [(f.key, y)])) s1 := by
            intro st' p' h3 h4
            rw [h3]
            exact M.bind_eq_ok.2 ⟨_, _, h4, rfl⟩
          refine ⟨[(f.key, y)], ⟨by simp, by simp, by simp [hp]⟩, rfl, fun st' hh => ?_, fun st' hk => ?_, ?_⟩
          · have := mk st' y (hh (f.key, y) (by simp)) t1
            rw [setAll_self _ _ hh] at this
            exact this
          · exact mk st' p ((hk _ rfl).trans hp) h1
          · intro c e q s' hc hx
            dsimp only at hx
            rw [hp] at hx
            rcases M.bind_eq_exc.1 hx with hx | ⟨_, _, _, hx⟩
            · obtain ⟨q0, hy, rfl⟩ := withinR_exc hx
              refine ⟨[(f.key, q0)], rfl, by simp, fun st' hh _ => ?_⟩
              exact mk st' q0 (hh (f.key, q0) (by simp)) (t2 _ _ _ _ hc hy)
            · cases hx
      refine patches_weaken (patches_seq hone hrest (fun k hk h => hnd.1 (hk ▸ h)) ?_ ?_ ?_) ?_
      · intro st
        cases st.get? f.key with
        | none => exact framed_closed.stuck
        | some p => exact framed_closed.map _ _ (framed_read _ _ _)
      · intro st s v s2
        simp only [readFields, hg, if_true]
        cases st.get? f.key with
        | none =>
          constructor
          · intro h; cases h
          · rintro ⟨_, _, h, _⟩; cases h
        | some p =>
          constructor
          · intro h
            obtain ⟨st2, s3, h1, h2⟩ := M.bind_eq_ok.1 h
            obtain ⟨y, s4, h3, h4⟩ := M.bind_eq_ok.1 h1
            exact ⟨_, _, M.bind_eq_ok.2 ⟨_, _, h3, rfl⟩, M.bind_eq_ok.2 ⟨_, _, h4, h2⟩⟩
          · rintro ⟨st1, s1, h1, h2⟩
            obtain ⟨y, s4, h3, h4⟩ := M.bind_eq_ok.1 h1
            cases h4
            obtain ⟨st2, s3, h5, h6⟩ := M.bind_eq_ok.1 h2
            exact M.bind_eq_ok.2 ⟨_, _, M.bind_eq_ok.2 ⟨_, _, h3, h5⟩, h6⟩
      · intro st s e q s' h
        simp only [readFieldsX, hg, if_true] at h ⊢
        cases hp : st.get? f.key with
        | none => rw [hp] at h; cases h
        | some p =>
          rw [hp] at h
          rcases M.bind_eq_exc.1 h with h | ⟨_, _, _, h⟩
          · rcases M.bind_eq_exc.1 h with h | ⟨y, s1, h1, h2⟩
            · exact .inl (M.bind_eq_exc.2 (.inl h))
            · exact .inr ⟨_, _, M.bind_eq_ok.2 ⟨_, _, readX_ok.1 (withinR_ok.1 h1), rfl⟩, M.bind_eq_exc.2 (.inl h2)⟩
          · cases h
      · intro k hk
        simp only [List.map_cons, List.mem_cons]
        exact hk
    · have e1 : ∀ st, readFields (read E n) w ((g, f) :: fs) st = readFields (read E n) w fs st := fun st => by simp [readFields, hg]
      have e2 : ∀ st, readFieldsX (readX E n) w ((g, f) :: fs) st = readFieldsX (readX E n) w fs st := fun st => by simp [readFieldsX, hg]
      simp only [e1, e2]
      refine patches_weaken hrest fun k hk => ?_
      simp only [List.map_cons, List.mem_cons]
      exact .inr hk

/-- reading a part of an object of class `c` -/
def PatchesClass (E : Env) (n : Nat) (c : ClassId) : Prop := ∀ w,
  Patches (ReadKey E c) (fun st => read E n w (.cls c) (.obj st)) (fun st => readX E n w (.cls c) (.obj st))

/-- bases -/
theorem patches_bases {E : Env} {n w : Nat} (bs : List ClassId) (hb : ∀ b ∈ bs, PatchesClass E n b)
    (hd : bs.Pairwise fun a b => ∀ k, ReadKey E a k → ¬ ReadKey E b k) :
    Patches (fun k => ∃ b ∈ bs, ReadKey E b k) (fun st => readBases (read E n) w bs (.obj st)) (fun st => readBasesX (readX E n) w bs (.obj st)) := by
  induction bs with
  | nil => exact patches_weaken (patches_none (fun st s => rfl) (fun st s e s' h => by cases h)) (fun _ h => h.elim)
  | cons b bs ih =>
    rw [List.pairwise_cons] at hd
    have h1 := hb b List.mem_cons_self w
    refine patches_weaken (patches_seq h1 (ih (fun b h => hb b (List.mem_cons_of_mem _ h)) hd.2) ?_ (fun st => framed_read _ _ _) ?_ ?_) ?_
    · rintro k hk ⟨b', hb', hk'⟩
      exact hd.1 b' hb' k hk hk'
    · intro st s v s2
      constructor
      · intro h
        obtain ⟨v1, s1, h2, h3⟩ := M.bind_eq_ok.1 h
        obtain ⟨ups, -, rfl, -⟩ := h1 _ _ _ _ h2
        exact ⟨_, _, h2, h3⟩
      · rintro ⟨st1, s1, h2, h3⟩
        exact M.bind_eq_ok.2 ⟨_, _, h2, h3⟩
    · intro st s e q s' h
      rcases M.bind_eq_exc.1 h with h | ⟨v1, s1, h2, h3⟩
      · exact .inl h
      · have h2 := readX_ok.1 h2
        obtain ⟨ups, -, rfl, -⟩ := h1 _ _ _ _ h2
        exact .inr ⟨_, _, h2, h3⟩
    · rintro k (h | ⟨b', hb', h⟩)
      · exact ⟨b, List.mem_cons_self, h⟩
      · exact ⟨b', List.mem_cons_of_mem _ hb', h⟩

/-- the version is read before the members -/
theorem patches_version {K : FieldKey → Prop} {r : RM Nat} (hr : Framed Nat r) {m : Nat → Store → RM Val} {x : Nat → Store → XR Val}
    (h : ∀ ver, Patches K (m ver) (x ver)) : Patches K (fun st => r >>= fun ver => m ver st) (fun st => holdingR (.obj st) r >>= fun ver => x ver st) := by
  intro st s v s1 hm
  obtain ⟨ver, s2, h1, h2⟩ := M.bind_eq_ok.1 hm
  obtain ⟨ups, a1, a2, a3, a4, a5⟩ := h ver _ _ _ _ h2
  refine ⟨ups, a1, a2, fun st' hh => M.bind_eq_ok.2 ⟨_, _, h1, a3 _ hh⟩, fun st' hk => M.bind_eq_ok.2 ⟨_, _, h1, a4 _ hk⟩, ?_⟩
  intro c e q s' hc hx
  rcases M.bind_eq_exc.1 hx with hx | ⟨ver', c1, hx1, hx2⟩
  · obtain ⟨rfl, -⟩ := holdingR_exc hx
    exact ⟨[], rfl, by simp, fun st' _ hk => M.bind_eq_ok.2 ⟨_, _, h1, a4 _ fun k h => hk k h (by simp)⟩⟩
  · obtain ⟨rfl, hc1⟩ := hc.ok hr h1 (holdingR_ok.1 hx1)
    obtain ⟨ups', b1, b2, b3⟩ := a5 _ _ _ _ hc1 hx2
    exact ⟨ups', b1, b2, fun st' hh hk => M.bind_eq_ok.2 ⟨_, _, h1, b3 _ hh hk⟩⟩

/-- objects; only outcomes with the versions `P` are considered -/
theorem patches_readClass {E : Env} {n : Nat} {c : ClassId} {ci : ClassInfo} (hci : E.cls c = some ci)
    (hnd : (ci.bin.readFields.map fun gf => gf.2.key).Nodup)
    (hown : ∀ b ∈ ci.bin.bases, ∀ g f, HasField E b g f → ∀ gf ∈ ci.bin.readFields, f.key ≠ gf.2.key)
    (hbases : ci.bin.bases.Pairwise fun a b => ∀ g f g' f', HasField E a g f → HasField E b g' f' → f.key ≠ f'.key)
    (hb : ∀ b ∈ ci.bin.bases, PatchesClass E n b) (hf : ∀ gf ∈ ci.bin.readFields, Resumes E n gf.2.ty) (w : Nat) (P : Nat → Bool) :
    Patches (ReadKey E c) (fun st => readClass (read E n) ci w (.obj st) >>= fun r => if P r.2 then pure r.1 else M.stuck)
      (fun st => readClassX (readX E n) ci w (.obj st) >>= fun r => if P r.2 then pure r.1 else M.stuck) := by
  by_cases hrd : ci.bin.readable = false
  · intro st s v s1 h
    simp only [readClass, hrd, if_true] at h
    cases h
  · have h1 := patches_bases (w := w) _ hb (hbases.imp fun {a b} h k => by
      rintro ⟨g, f, h1, rfl⟩ ⟨g', f', h2, e⟩
      exact h g f g' f' h1 h2 e.symm)
    have hf : ∀ ver, Patches (· ∈ ci.bin.readFields.map fun gf => gf.2.key)
        (fun st => readFields (read E n) ver ci.bin.readFields st >>= fun st => if P ver then pure (.obj st) else M.stuck)
        (fun st => readFieldsX (readX E n) ver ci.bin.readFields st >>= fun st => if P ver then pure (.obj st) else M.stuck) := by
      intro ver
      cases hP : P ver with
      | true => exact patches_fields (w := ver) _ hnd hf
      | false =>
        intro st s v s1 h
        obtain ⟨_, _, _, h⟩ := M.bind_eq_ok.1 h
        cases h
    have h2 := patches_version (framed_closed.version ci w) hf
    refine patches_weaken (patches_seq h1 h2 ?_ ?_ ?_ ?_) ?_
    · rintro k ⟨b, hb, g, f, h, rfl⟩ hk
      obtain ⟨gf, h1, h2⟩ := List.mem_map.1 hk
      exact hown b hb g f h gf h1 h2.symm
    · exact fun st => framed_closed.bases (fun w t v => framed_read w t v) _ _ _
    · intro st s v s2
      simp only [readClass, hrd]
      constructor
      · intro h
        obtain ⟨r, s3, h3, h4⟩ := M.bind_eq_ok.1 h
        obtain ⟨v1, s4, h5, h6⟩ := M.bind_eq_ok.1 h3
        obtain ⟨ups, -, rfl, -⟩ := h1 _ _ _ _ h5
        obtain ⟨ver, s5, h7, h8⟩ := M.bind_eq_ok.1 h6
        obtain ⟨st2, s6, h9, h10⟩ := M.bind_eq_ok.1 h8
        cases h10
        exact ⟨_, _, h5, M.bind_eq_ok.2 ⟨_, _, h7, M.bind_eq_ok.2 ⟨_, _, h9, h4⟩⟩⟩
      · rintro ⟨st1, s3, h5, h6⟩
        obtain ⟨ver, s5, h7, h8⟩ := M.bind_eq_ok.1 h6
        obtain ⟨st2, s6, h9, h10⟩ := M.bind_eq_ok.1 h8
        refine M.bind_eq_ok.2 ⟨(.obj st2, ver), s6, M.bind_eq_ok.2 ⟨_, _, h5, ?_⟩, h10⟩
        exact M.bind_eq_ok.2 ⟨_, _, h7, M.bind_eq_ok.2 ⟨_, _, h9, rfl⟩⟩
    · intro st s e q s' h
      simp only [readClassX, hrd] at h
      rcases M.bind_eq_exc.1 h with h | ⟨r, _, _, h⟩
      · rcases M.bind_eq_exc.1 h with h | ⟨v1, s4, h5, h6⟩
        · exact .inl h
        · have h5 := (AgreesX.bases (fun w t p => readX_agrees E n w t p) w ci.bin.bases (.obj st)).ok_iff.1 h5
          obtain ⟨ups, -, rfl, -⟩ := h1 _ _ _ _ h5
          refine .inr ⟨_, _, h5, ?_⟩
          rcases M.bind_eq_exc.1 h6 with h6 | ⟨ver, s5, h7, h8⟩
          · exact M.bind_eq_exc.2 (.inl h6)
          · rcases M.bind_eq_exc.1 h8 with h8 | ⟨_, _, _, h8⟩
            · exact M.bind_eq_exc.2 (.inr ⟨_, _, h7, M.bind_eq_exc.2 (.inl h8)⟩)
            · cases h8
      · cases hP : P r.2 <;> rw [hP] at h <;> cases h
    · rintro k (⟨b, hb, g, f, h, rfl⟩ | hk)
      · exact ⟨g, f, .base hci hb h, rfl⟩
      · obtain ⟨gf, h1, h2⟩ := List.mem_map.1 hk
        exact ⟨gf.1, gf.2, .own hci h1, h2⟩

theorem read_cls_obj {E : Env} {n w : Nat} {c : ClassId} {p v : Val} {s s1 : RSt} (h : read E n w (.cls c) p s = .ok v s1) : ∃ st, p = .obj st := by
  induction n generalizing w c v s s1 with
  | zero => cases h
  | succ n ih =>
    simp only [read, readStep] at h
    cases hc : E.cls c with
    | none => rw [hc] at h; cases h
    | some ci =>
      rw [hc] at h
      obtain ⟨r, s2, h1, h2⟩ := M.bind_eq_ok.1 h
      unfold readClass at h1
      split at h1
      · cases h1
      · obtain ⟨v1, s3, h3, h4⟩ := M.bind_eq_ok.1 h1
        cases hb : ci.bin.bases with
        | nil =>
          rw [hb] at h3
          cases h3
          split at h4
          · exact ⟨_, rfl⟩
          · cases h4
        | cons b bs =>
          rw [hb] at h3
          obtain ⟨v2, s4, h5, h6⟩ := M.bind_eq_ok.1 h3
          exact ih h5

theorem readClass_obj {E : Env} {n w : Nat} {ci : ClassInfo} {p : Val} {r : Val × Nat} {s s1 : RSt}
    (h : readClass (read E n) ci w p s = .ok r s1) : ∃ st, p = .obj st := by
  unfold readClass at h
  split at h
  · cases h
  · obtain ⟨v1, s3, h3, h4⟩ := M.bind_eq_ok.1 h
    cases hb : ci.bin.bases with
    | nil =>
      rw [hb] at h3
      cases h3
      split at h4
      · exact ⟨_, rfl⟩
      · cases h4
    | cons b bs =>
      rw [hb] at h3
      obtain ⟨v2, s4, h5, h6⟩ := M.bind_eq_ok.1 h3
      exact read_cls_obj h5

theorem Patches.resumes {K : FieldKey → Prop} {m : Store → RM Val} {x : Store → XR Val} (hp : Patches K m x) {st : Store} {s s1 : RSt} {v : Val}
    (h : m st s = .ok v s1) : (∃ st1, v = .obj st1 ∧ m st1 s = .ok v s1) ∧
      ∀ c e q s', Earlier c s → x st c = .exc (e, q) s' → ∃ st2, q = .obj st2 ∧ m st2 s = .ok v s1 := by
  obtain ⟨ups, a1, rfl, a3, -, a5⟩ := hp st s v s1 h
  refine ⟨⟨_, rfl, a3 _ (has_setAll _ _ a1)⟩, fun d e q s' hd hx => ?_⟩
  obtain ⟨ups', rfl, b2, b3⟩ := a5 d e q s' hd hx
  have := b3 _ (has_setAll _ _ (a1.prefix b2)) fun k _ hk => get?_setAll_ne _ _ hk
  rw [setAll_absorb _ _ _ fun k hk => b2.subset hk] at this
  exact ⟨_, rfl, this⟩

theorem PatchesClass.resumes {E : Env} {n : Nat} {c : ClassId} (hc : PatchesClass E n c) : Resumes E n (.cls c) := by
  intro w p s v s1 h
  obtain ⟨st, rfl⟩ := read_cls_obj h
  obtain ⟨⟨st1, rfl, h1⟩, h2⟩ := (hc w).resumes h
  refine ⟨h1, fun d e q s' hd hx => ?_⟩
  obtain ⟨st2, rfl, h3⟩ := h2 d e q s' hd hx
  exact h3

end

theorem resize_self (vs : List Val) (d : Val) : resize vs vs.length d = vs := by simp [resize]

theorem resumes_both {E : Env} {S : Ty → Prop} (hS : ∀ t, S t → ResumableStep E S t) (n : Nat) :
    (∀ t, S t → Resumes E n t) ∧ ∀ c, S (.cls c) → PatchesClass E n c := by
  induction n with
  | zero => exact ⟨fun t _ w p s v s1 h => (by cases h), fun c _ w st s v s1 h => by cases h⟩
  | succ n ih =>
    have hcls : ∀ c, S (.cls c) → PatchesClass E (n + 1) c := by
      intro c hc
      cases hS _ hc with
      | replaced h => cases h
      | @cls _ ci h1 h2 h3 h4 h5 h6 =>
        intro w
        have := patches_readClass h1 h2 h3 h4 (fun b hb => ih.2 b (h5 b hb)) (fun gf hgf => ih.1 _ (h6 gf hgf)) w fun _ => true
        simp only [read, readX, readStep, readXStep, h1]
        exact this
    refine ⟨?_, hcls⟩
    replace ih := ih.1
    intro t ht w p s v s1 h
    cases hS t ht with
    | replaced hr =>
      have key : ∀ q, read E (n + 1) w t q s = .ok v s1 := fun q => by
        rw [← (retry_read E (n + 1)).1 w t p q (.replaced p q hr)]; exact h
      exact ⟨key v, fun c e q s' _ _ => key q⟩
    | @pair a b ha hb =>
      simp only [read, readStep] at h
      split at h
      · rename_i x y
        obtain ⟨x1, s2, h1, h2⟩ := M.bind_eq_ok.1 h
        obtain ⟨y1, s3, h3, h4⟩ := M.bind_eq_ok.1 h2
        cases h4
        obtain ⟨a1, a2⟩ := ih a ha _ _ _ _ _ h1
        obtain ⟨b1, b2⟩ := ih b hb _ _ _ _ _ h3
        have mk : ∀ x' y', read E n 0 a x' s = .ok x1 s2 → read E n 0 b y' s2 = .ok y1 s1 →
            read E (n + 1) w (.pair a b) (.tup [x', y']) s = .ok (.tup [x1, y1]) s1 := fun x' y' e1 e2 =>
          M.bind_eq_ok.2 ⟨_, _, e1, M.bind_eq_ok.2 ⟨_, _, e2, rfl⟩⟩
        refine ⟨mk _ _ a1 b1, fun c e q s' hc hx => ?_⟩
        simp only [readX, readXStep] at hx
        rcases M.bind_eq_exc.1 hx with hx | ⟨v', c1, hx1, hx2⟩
        · obtain ⟨q0, hy, rfl⟩ := withinR_exc hx
          exact mk _ _ (a2 _ _ _ _ hc hy) h3
        · obtain ⟨rfl, hc1⟩ := hc.ok (framed_read _ _ _) h1 (readX_ok.1 (withinR_ok.1 hx1))
          rcases M.bind_eq_exc.1 hx2 with hx2 | ⟨_, _, _, hx2⟩
          · obtain ⟨q0, hy, rfl⟩ := withinR_exc hx2
            exact mk _ _ a1 (b2 _ _ _ _ hc1 hy)
          · cases hx2
      · cases h
    | @vec t ht' =>
      simp only [read, readStep] at h
      split at h
      · rename_i ps
        obtain ⟨k, s2, h1, h2⟩ := M.bind_eq_ok.1 h
        split at h2
        · cases h2
        · rename_i hk
          obtain ⟨vs, s3, h3, h4⟩ := M.bind_eq_ok.1 h2
          cases h4
          have hl : (resize ps k (E.valInit t)).length = k := by simp [resize]; omega
          obtain ⟨⟨i1, i2⟩, i3⟩ := resumes_elems (ih t ht') _ _ _ _ h3
          rw [hl] at i2 i3
          have mk : ∀ qs : List Val, qs.length = k → readElems (read E n) t qs s2 = .ok vs s1 →
              read E (n + 1) w (.vec t) (.list qs) s = .ok (.list vs) s1 := by
            intro qs hq hr
            refine M.bind_eq_ok.2 ⟨_, _, h1, ?_⟩
            simp only [hk, if_false]
            refine M.bind_eq_ok.2 ⟨_, _, ?_, rfl⟩
            rw [← hq, resize_self]
            exact hr
          refine ⟨mk _ i2 i1, fun c e q s' hc hx => ?_⟩
          simp only [readX, readXStep] at hx
          rcases M.bind_eq_exc.1 hx with hx | ⟨v', c1, hx1, hx2⟩
          · obtain ⟨rfl, -⟩ := holdingR_exc hx
            exact h
          · obtain ⟨rfl, hc1⟩ := hc.ok framed_varint h1 (holdingR_ok.1 hx1)
            simp only [hk, if_false] at hx2
            rcases M.bind_eq_exc.1 hx2 with hx2 | ⟨_, _, _, hx2⟩
            · obtain ⟨qs, rfl, hq, hr⟩ := i3 _ _ _ _ _ hc1 hx2
              exact mk _ hq hr
            · cases hx2
      · cases h
    | @set hashed t _ hlt =>
      simp only [read, readStep] at h
      split at h
      · rename_i ps
        obtain ⟨k, s2, h1, h2⟩ := M.bind_eq_ok.1 h
        obtain ⟨vs, s3, h3, h4⟩ := M.bind_eq_ok.1 h2
        cases h4
        obtain ⟨⟨i1, -⟩, i3⟩ := resumes_setItems hlt _ _ _ _ _ h3
        have mk : ∀ qs : List Val, readSetItems E (read E n) false t k qs s2 = .ok vs s1 →
            read E (n + 1) w (.set hashed false t) (.list qs) s = .ok (.list vs) s1 := fun qs hr =>
          M.bind_eq_ok.2 ⟨_, _, h1, M.bind_eq_ok.2 ⟨_, _, hr, rfl⟩⟩
        refine ⟨mk _ i1, fun c e q s' hc hx => ?_⟩
        simp only [readX, readXStep] at hx
        rcases M.bind_eq_exc.1 hx with hx | ⟨v', c1, hx1, hx2⟩
        · obtain ⟨rfl, -⟩ := holdingR_exc hx
          exact h
        · obtain ⟨rfl, hc1⟩ := hc.ok framed_varint h1 (holdingR_ok.1 hx1)
          rcases M.bind_eq_exc.1 hx2 with hx2 | ⟨_, _, _, hx2⟩
          · obtain ⟨qs, rfl, hr, -⟩ := i3 _ _ _ _ hc1 hx2
            exact mk _ hr
          · cases hx2
      · cases h
    | @map hashed kt t _ _ hlt =>
      simp only [read, readStep] at h
      split at h
      · rename_i ps
        obtain ⟨k, s2, h1, h2⟩ := M.bind_eq_ok.1 h
        obtain ⟨vs, s3, h3, h4⟩ := M.bind_eq_ok.1 h2
        cases h4
        obtain ⟨⟨i1, -⟩, i3⟩ := resumes_mapItems hlt _ _ _ _ _ h3
        have mk : ∀ qs, readMapItems E (read E n) false kt t k qs s2 = .ok vs s1 →
            read E (n + 1) w (.map hashed false kt t) (.map qs) s = .ok (.map vs) s1 := fun qs hr =>
          M.bind_eq_ok.2 ⟨_, _, h1, M.bind_eq_ok.2 ⟨_, _, hr, rfl⟩⟩
        refine ⟨mk _ i1, fun c e q s' hc hx => ?_⟩
        simp only [readX, readXStep] at hx
        rcases M.bind_eq_exc.1 hx with hx | ⟨v', c1, hx1, hx2⟩
        · obtain ⟨rfl, -⟩ := holdingR_exc hx
          exact h
        · obtain ⟨rfl, hc1⟩ := hc.ok framed_varint h1 (holdingR_ok.1 hx1)
          rcases M.bind_eq_exc.1 hx2 with hx2 | ⟨_, _, _, hx2⟩
          · obtain ⟨qs, rfl, hr, -⟩ := i3 _ _ _ _ hc1 hx2
            exact mk _ hr
          · cases hx2
      · cases h
    | @cls c ci hci _ _ _ _ _ => exact (hcls c ht).resumes w p s v s1 h

theorem resumes_read {E : Env} {S : Ty → Prop} (hS : ∀ t, S t → ResumableStep E S t) (n : Nat) (t : Ty) (ht : S t) : Resumes E n t :=
  (resumes_both hS n).1 t ht

/-- Reading the same data again into the object which has been read changes nothing. -/
theorem C93_read_again {E : Env} {t : Ty} (ht : Resumable E t) {version : Nat} {p v : Val} {s s' : RSt} (h : BinReads E version t p s v s') :
    BinReads E version t v s v s' := by
  obtain ⟨S, h1, h2⟩ := ht
  obtain ⟨n, h⟩ := h
  exact ⟨n, (resumes_read h2 n t h1 _ _ _ _ _ h).1⟩

/-- If reading throws because only a part of the data has been there, reading the complete data into the same object (with a new
deserializer) gives the same object as reading it in the first place. -/
theorem C93_retry_with_complete_data {E : Env} {t : Ty} (ht : Resumable E t) {version : Nat} {p v : Val} {s s' : RSt}
    (h : BinReads E version t p s v s') {cut rest : Str} (hs : s.inp = cut ++ rest) {e : BExc} {q : Val} {s'' : RSt}
    (hx : BinThrows E version t p (s.withInput cut) e q s'') : BinReads E version t q s v s' := by
  obtain ⟨S, h1, h2⟩ := ht
  obtain ⟨n, h⟩ := h
  obtain ⟨m, hx⟩ := hx
  have h3 := read_mono (Nat.le_max_left n m) h (by simp)
  have h4 := readX_mono (Nat.le_max_right n m) hx (by simp)
  exact ⟨max n m, (resumes_read h2 _ t h1 _ _ _ _ _ h3).2 _ _ _ _ ⟨cut, rest, hs, rfl⟩ h4⟩

/-- Whatever part of the needed data is there, the first attempt throws and the second one is successful. -/
theorem C93_every_cut {E : Env} {t : Ty} (ht : Resumable E t) {version : Nat} {p v : Val} {s s' : RSt} (h : BinReads E version t p s v s')
    {cut rest : Str} (hs : s.inp = cut ++ rest) (hr : s'.inp.length < rest.length) :
    ∃ q s'', BinThrows E version t p (s.withInput cut) .eof q s'' ∧ BinReads E version t q s v s' := by
  have ⟨n, hn⟩ := h
  obtain ⟨s2, h2⟩ := C31_truncated_input_throws E n version t p v s s' hn cut rest hs hr
  obtain ⟨q, s3, h3⟩ := (C75_same_outcome E n version t p (s.withInput cut)).2.2.1 _ _ h2
  exact ⟨q, s3, ⟨n, h3⟩, C93_retry_with_complete_data ht h hs ⟨n, h3⟩⟩

/-- The object is `q` after any number of attempts to read it while the data `s.inp` has not been complete; it was `p` before. -/
inductive TooEarly (E : Env) (version : Nat) (t : Ty) (s : RSt) (p : Val) : Val → Prop
  | none : TooEarly E version t s p p
  | attempt {q cut rest e q' s'} : TooEarly E version t s p q → s.inp = cut ++ rest → BinThrows E version t q (s.withInput cut) e q' s' →
      TooEarly E version t s p q'

/-- However often it has been tried to read the object before the data was complete, it is finally read as if it had not been tried. -/
theorem C93_any_number_of_attempts {E : Env} {t : Ty} (ht : Resumable E t) {version : Nat} {p q v : Val} {s s' : RSt}
    (h : BinReads E version t p s v s') (hq : TooEarly E version t s p q) : BinReads E version t q s v s' := by
  induction hq with
  | none => exact h
  | attempt _ hs hx ih => exact C93_retry_with_complete_data ht ih hs hx

theorem readClass_mono {E : Env} {n m w : Nat} {ci : ClassInfo} {p : Val} {s : RSt} {r : Res BExc RSt (Val × Nat)} (hnm : n ≤ m)
    (h : readClass (read E n) ci w p s = r) (hr : r ≠ .fuel) : readClass (read E m) ci w p s = r := by
  rcases readClass_monoF E ci w p n m hnm s with h' | h'
  · exact absurd (h.symm.trans h') hr
  · exact (Eq.symm h').trans h

theorem readClassX_mono {E : Env} {n m w : Nat} {ci : ClassInfo} {p : Val} {s : RSt} {r : Res (BExc × Val) RSt (Val × Nat)} (hnm : n ≤ m)
    (h : readClassX (readX E n) ci w p s = r) (hr : r ≠ .fuel) : readClassX (readX E m) ci w p s = r := by
  rcases LeX.cls (fun w t p => readX_le E hnm w t p) ci w p s with h' | h'
  · exact absurd (h.symm.trans h') hr
  · rw [← h', h]

theorem restore_reads {E : Env} {n : Nat} {c : ClassId} {p v : Val} {ver : Nat} {inp : Str} {s : RSt}
    (h : restoreFromBinary E n c p inp = .ok (v, ver) s) : BinReads E 0 (.cls c) p (RSt.init inp) v s := by
  unfold restoreFromBinary at h
  cases hc : E.cls c with
  | none => rw [hc] at h; cases h
  | some ci =>
    rw [hc] at h
    refine ⟨n + 1, ?_⟩
    simp only [read, readStep, hc]
    exact M.bind_eq_ok.2 ⟨_, _, h, rfl⟩

/-- The same for `restoreFromBinary` including the version it returns. -/
theorem C93_restoreFromBinary {E : Env} {c : ClassId} (ht : Resumable E (.cls c)) {n m : Nat} {p q v : Val} {ver : Nat} {cut rest : Str}
    {e : BExc} {s s' : RSt} (h : restoreFromBinary E n c p (cut ++ rest) = .ok (v, ver) s) (hx : restoreFromBinaryX E m c p cut = .exc (e, q) s') :
    (∃ k, restoreFromBinary E k c q (cut ++ rest) = .ok (v, ver) s) ∧ ∃ k, restoreFromBinary E k c v (cut ++ rest) = .ok (v, ver) s := by
  obtain ⟨S, hS, hstep⟩ := ht
  cases hstep _ hS with
  | replaced h => cases h
  | @cls _ ci h1 h2 h3 h4 h5 h6 =>
    simp only [restoreFromBinary, restoreFromBinaryX, h1] at h hx ⊢
    have hk := readClass_mono (Nat.le_max_left n m) h (by simp)
    have hxk := readClassX_mono (Nat.le_max_right n m) hx (by simp)
    have hboth := resumes_both hstep (max n m)
    obtain ⟨st, rfl⟩ := readClass_obj hk
    have hP := patches_readClass h1 h2 h3 h4 (fun b hb => hboth.2 b (h5 b hb)) (fun gf hgf => hboth.1 _ (h6 gf hgf)) 0 fun k => decide (k = ver)
    have back : ∀ (st : Store) v, (readClass (read E (max n m)) ci 0 (.obj st) >>= fun r => if decide (r.2 = ver) = true then pure r.1 else M.stuck)
        (RSt.init (cut ++ rest)) = .ok v s → readClass (read E (max n m)) ci 0 (.obj st) (RSt.init (cut ++ rest)) = .ok (v, ver) s := by
      intro st v h
      obtain ⟨⟨v', ver'⟩, s2, h7, h8⟩ := M.bind_eq_ok.1 h
      by_cases hv : ver' = ver
      · simp only [hv, decide_true, if_true] at h8
        cases h8
        rw [h7, hv]
      · simp only [hv, decide_false, Bool.false_eq_true, if_false] at h8
        cases h8
    obtain ⟨⟨st1, rfl, h7⟩, h8⟩ := hP.resumes (st := st) (s := RSt.init (cut ++ rest)) (v := v) (s1 := s)
      (M.bind_eq_ok.2 ⟨_, _, hk, by simp [pure, M.pure]⟩)
    obtain ⟨st2, rfl, h9⟩ := h8 (RSt.init cut) e q s' ⟨cut, rest, rfl, rfl⟩ (M.bind_eq_exc.2 (.inl hxk))
    exact ⟨⟨_, back _ _ h9⟩, _, back _ _ h7⟩

/-! ## Examples -/

namespace SameDataDemo

open Demo

/-- strings are compared as usual, everything else is considered empty -/
def keyOf : Val → Str
  | .str x => x
  | _ => []

def env : Env := { Demo.env with lt := fun _ a b => Demo.strLt (keyOf a) (keyOf b) }

theorem ordered (t : Ty) (vs : List Val) : WeakOrderOn (env.lt t) vs := by
  have h := BinReloadDemo.weakOrder_stdLt (vs.map fun v => .str (keyOf v)) (.inr (.inl (by
    intro v hv
    obtain ⟨x, -, rfl⟩ := List.mem_map.1 hv
    exact ⟨_, rfl⟩)))
  have m : ∀ x ∈ vs, Val.str (keyOf x) ∈ vs.map fun v => Val.str (keyOf v) := fun x hx => List.mem_map.2 ⟨x, hx, rfl⟩
  exact ⟨fun x hx => h.irrefl _ (m x hx), fun x hx y hy z hz => h.trans _ (m x hx) _ (m y hy) _ (m z hz),
    fun x hx y hy z hz => h.negTrans _ (m x hx) _ (m y hy) _ (m z hz)⟩

/-- strings and integers consist of nothing else -/
theorem plain {t : Ty} (h : t = .str ∨ t = .int .i32) : WithoutSharedPtr env t := by
  intro t' ht u
  rcases h with rfl | rfl <;> cases ht <;> intro h <;> cases h

/-- `Base` has an integer and a map of strings to integers -/
theorem base_resumable : Resumable env (.cls 0) := by
  refine ⟨fun t => t = .cls 0 ∨ t = .int .i32 ∨ t = .map false false .str (.int .i32), .inl rfl, ?_⟩
  rintro t (rfl | rfl | rfl)
  · refine .cls (ci := base) rfl (by decide) (by simp [base]) (by simp [base]) (by simp [base]) ?_
    intro gf h
    simp only [base, List.mem_cons, List.not_mem_nil, or_false] at h
    rcases h with rfl | rfl
    · exact .inr (.inl rfl)
    · exact .inr (.inr rfl)
  · exact .replaced rfl
  · exact .map (plain (.inl rfl)) (plain (.inr rfl)) (ordered _)

/-- `Derived` is derived from `Base` and has a member which is only read for newer versions -/
theorem derived_resumable : Resumable env (.cls 1) := by
  refine ⟨fun t => t = .cls 1 ∨ t = .cls 0 ∨ t = .int .i32 ∨ t = .map false false .str (.int .i32) ∨ t = .vec .str ∨ t = .str, .inl rfl, ?_⟩
  rintro t (rfl | rfl | rfl | rfl | rfl | rfl)
  · refine .cls (ci := derived) rfl (by decide) ?_ (by simp [derived]) (by simp [derived]) ?_
    · intro b hb g f h gf hgf
      simp only [derived, List.mem_cons, List.not_mem_nil, or_false] at hb hgf
      subst hb hgf
      cases h with
      | own h1 h2 =>
        cases h1
        simp only [base, List.mem_cons, Prod.mk.injEq, List.not_mem_nil, or_false] at h2
        rcases h2 with ⟨-, rfl⟩ | ⟨-, rfl⟩ <;> decide
      | base h1 h2 h3 =>
        cases h1
        simp [Demo.base] at h2
    · intro gf h
      simp only [derived, List.mem_cons, List.not_mem_nil, or_false] at h
      subst h
      exact .inr (.inr (.inr (.inr (.inl rfl))))
  · refine .cls (ci := base) rfl (by decide) (by simp [base]) (by simp [base]) (by simp [base]) ?_
    intro gf h
    simp only [base, List.mem_cons, List.not_mem_nil, or_false] at h
    rcases h with rfl | rfl
    · exact .inr (.inr (.inl rfl))
    · exact .inr (.inr (.inr (.inl rfl)))
  · exact .replaced rfl
  · exact .map (plain (.inl rfl)) (plain (.inr rfl)) (ordered _)
  · exact .vec (.inr (.inr (.inr (.inr (.inr rfl)))))
  · exact .replaced rfl

/-- an integer and a map of two entries; the second entry is cut -/
def cut : Str := [0, 0, 1, 2, 0x82, 0x81, 0x6b, 0, 0, 0, 5, 0x81]
def rest : Str := [0x6c, 0, 0, 0, 6]

def result : Val := .obj [(fI.key, .int 258), (fM.key, .map [(.str (lit "k"), .int 5), (.str (lit "l"), .int 6)])]

/-- compares an outcome with an expected one -/
def isOk (r : Res BExc RSt (Val × Nat)) (v : Val) (ver : Nat) (s : RSt) : Bool :=
  match r with
  | .ok (v', ver') s' => v'.eqb v && decide (ver' = ver) && decide (s'.inp = s.inp) && decide (s'.table = s.table) && Val.eqbL s'.heap s.heap
  | _ => false

theorem ok_of_check {r : Res BExc RSt (Val × Nat)} {v : Val} {ver : Nat} {s : RSt} (h : isOk r v ver s = true) : r = .ok (v, ver) s := by
  unfold isOk at h
  split at h
  · rename_i v' ver' s'
    simp only [Bool.and_eq_true, decide_eq_true_eq] at h
    obtain ⟨⟨⟨⟨h1, h2⟩, h3⟩, h4⟩, h5⟩ := h
    have h5 := Val.eq_of_eqbL _ _ h5
    rw [h2, Val.eq_of_eqb _ _ h1]
    cases s'
    cases s
    simp_all
  · cases h

theorem complete : restoreFromBinary env 5 0 (.obj baseInit) (cut ++ rest) = .ok (result, 0) ⟨[], [], []⟩ := ok_of_check (by decide +kernel)
theorem incomplete : restoreFromBinaryX env 5 0 (.obj baseInit) cut =
    .exc (.eof, .obj [(fI.key, .int 258), (fM.key, .map [(.str (lit "k"), .int 5)])]) ⟨[], [], []⟩ := exc_of_check (by decide +kernel)

theorem reads : BinReads env 0 (.cls 0) (.obj baseInit) (RSt.init (cut ++ rest)) result ⟨[], [], []⟩ := restore_reads complete

example := C93_restoreFromBinary base_resumable complete incomplete
example := C93_read_again base_resumable reads
example := C93_retry_with_complete_data base_resumable reads (cut := cut) (rest := rest) rfl (restore_throws incomplete)
example := C93_every_cut base_resumable reads (cut := cut) (rest := rest) rfl (by decide)
example := C93_any_number_of_attempts base_resumable reads (.attempt (cut := cut) (rest := rest) .none rfl (restore_throws incomplete))

/-! An object of class `Derived` with version 3; the input ends within the second string of the member `s`. The object had an entry in its
map and three strings before. -/

def rest1 : Str := [0x63, 0x64]

def derivedResult : Val := .obj [(fI.key, .int 258), (fM.key, .map [(.str (lit "a"), .int 1), (.str (lit "k"), .int 5)]),
  (fS.key, .list [.str (lit "a"), .str (lit "bcd")]), (fK.key, .int 7)]

theorem complete1 : restoreFromBinary env 5 1 (.obj prior) (cutInput ++ rest1) = .ok (derivedResult, 3) ⟨[], [], []⟩ := ok_of_check (by decide +kernel)
theorem incomplete1 : restoreFromBinaryX env 5 1 (.obj prior) cutInput = .exc (.eof, .obj partialObj) ⟨[], [], []⟩ := exc_of_check (by decide +kernel)

example := C93_restoreFromBinary derived_resumable complete1 incomplete1
example := C93_any_number_of_attempts derived_resumable (restore_reads complete1)
  (.attempt (cut := cutInput) (rest := rest1) .none rfl (restore_throws incomplete1))

end SameDataDemo

end Verif
