import Verif.Spec.BinTypes
import Verif.Props.JsonRoundTrip

/-!
# Reading leaves no uninitialised scalar behind (`Covered`)
-/

namespace Verif

/-- members satisfying `P` may have been assigned, all members satisfying `A` have been -/
structure Touch (E : Env) (P A : Field → Prop) (st st' : Store) : Prop where
  keys : st'.map Prod.fst = st.map Prod.fst
  upd : ∀ k, st'.get? k = st.get? k ∨ ∃ f v, P f ∧ f.key = k ∧ st'.get? k = some v ∧ Covered E f.ty v ∧ v.hasIndet = false
  all : ∀ f, A f → ∃ v, st'.get? f.key = some v ∧ v.hasIndet = false

theorem Touch.refl {E : Env} {P A : Field → Prop} (st : Store) (hA : ∀ f, ¬ A f) : Touch E P A st st :=
  ⟨rfl, fun _ => Or.inl rfl, fun f hf => absurd hf (hA f)⟩

theorem Touch.trans {E : Env} {P A P' A' : Field → Prop} {a b c : Store} (h : Touch E P A a b) (h' : Touch E P' A' b c) :
    Touch E (fun f => P f ∨ P' f) (fun f => A f ∨ A' f) a c := by
  refine ⟨h'.keys.trans h.keys, fun k => ?_, fun f hf => ?_⟩
  · rcases h'.upd k with e | ⟨f, v, h1, h2, h3, h4, h5⟩
    · rcases h.upd k with e' | ⟨f, v, h1, h2, h3, h4, h5⟩
      · exact Or.inl (e.trans e')
      · exact Or.inr ⟨f, v, Or.inl h1, h2, e.trans h3, h4, h5⟩
    · exact Or.inr ⟨f, v, Or.inr h1, h2, h3, h4, h5⟩
  · rcases hf with hf | hf
    · obtain ⟨v, h1, h2⟩ := h.all f hf
      rcases h'.upd f.key with e | ⟨f', v', -, -, h5, -, h6⟩
      · exact ⟨v, e.trans h1, h2⟩
      · exact ⟨v', h5, h6⟩
    · exact h'.all f hf

theorem Touch.mono {E : Env} {P A P' A' : Field → Prop} {a b : Store} (h : Touch E P A a b) (hP : ∀ f, P f → P' f)
    (hA : ∀ f, A' f → A f) : Touch E P' A' a b :=
  ⟨h.keys, fun k => (h.upd k).imp id fun ⟨f, v, h1, h2⟩ => ⟨f, v, hP f h1, h2⟩, fun f hf => h.all f (hA f hf)⟩

theorem get?_eq_of_mem {st : Store} (h : (st.map Prod.fst).Nodup) {k : FieldKey} {v : Val} (hm : (k, v) ∈ st) : st.get? k = some v := by
  induction st with
  | nil => cases hm
  | cons x st ih =>
    obtain ⟨k', v'⟩ := x
    simp only [List.map_cons, List.nodup_cons] at h
    simp only [Store.get?, List.lookup]
    rcases List.mem_cons.1 hm with e | hm'
    · cases e
      simp
    · have : k ≠ k' := by
        rintro rfl
        exact h.1 (List.mem_map_of_mem (f := Prod.fst) hm')
      have : (k == k') = false := by simpa using this
      rw [this]
      exact ih h.2 hm'

theorem mem_of_get? {st : Store} {k : FieldKey} {v : Val} (h : st.get? k = some v) : (k, v) ∈ st := by
  induction st with
  | nil => cases h
  | cons x st ih =>
    obtain ⟨k', v'⟩ := x
    simp only [Store.get?, List.lookup] at h
    by_cases hk : k = k'
    · subst hk
      simp at h
      subst h
      exact List.mem_cons_self
    · have : (k == k') = false := by simpa using hk
      rw [this] at h
      exact List.mem_cons_of_mem _ (ih h)

theorem hasIndetF_false {st : Store} (h : ∀ k v, (k, v) ∈ st → v.hasIndet = false) : Val.hasIndetF st = false := by
  induction st with
  | nil => rfl
  | cons x st ih =>
    obtain ⟨k, v⟩ := x
    simp only [Val.hasIndetF, Bool.or_eq_false_iff]
    exact ⟨h k v List.mem_cons_self, ih fun k v hm => h k v (List.mem_cons_of_mem _ hm)⟩

section
variable {E : Env} (hkt : KeyTypes E)

/-- what is shown about a read -/
def CovRead (E : Env) (self : Nat → Ty → Val → RM Val) : Prop :=
  (∀ w t p s v s', self w t p s = .ok v s' → Covered E t p → Covered E t v ∧ v.hasIndet = false) ∧
  (∀ w c (st : Store) s v s', self w (.cls c) (.obj st) s = .ok v s' →
    (∀ g f p, HasField E c g f → st.get? f.key = some p → Covered E f.ty p) →
    ∃ st', v = .obj st' ∧ Touch E (fun f => ∃ g, HasField E c g f) (HasField E c ⟨0, 0⟩) st st')

variable {self : Nat → Ty → Val → RM Val} (hs : CovRead E self)
include hkt hs

theorem cov_bases {w : Nat} (bs : List ClassId) (st : Store) {s s' : RSt} {v : Val} (h : readBases self w bs (.obj st) s = .ok v s')
    (hp : ∀ b ∈ bs, ∀ g f p, HasField E b g f → st.get? f.key = some p → Covered E f.ty p) :
    ∃ st', v = .obj st' ∧ Touch E (fun f => ∃ b ∈ bs, ∃ g, HasField E b g f) (fun f => ∃ b ∈ bs, HasField E b ⟨0, 0⟩ f) st st' := by
  induction bs generalizing s st with
  | nil =>
    cases h
    exact ⟨st, rfl, Touch.refl _ (by simp)⟩
  | cons b bs ih =>
    simp only [readBases, M.bind_eq_ok] at h
    obtain ⟨v1, s1, h1, h2⟩ := h
    obtain ⟨st1, rfl, ht1⟩ := hs.2 w b st s v1 s1 h1 (hp b List.mem_cons_self)
    obtain ⟨st2, rfl, ht2⟩ := ih st1 h2 fun b' hb' g f p hf hg => by
      rcases ht1.upd f.key with e | ⟨f', v', ⟨g', h1⟩, h2, h3, h4, h5⟩
      · exact hp b' (List.mem_cons_of_mem _ hb') g f p hf (e.symm.trans hg)
      · rw [hkt b' g f b g' f' hf h1 h2.symm]
        rw [h3] at hg
        cases hg
        exact h4
    refine ⟨st2, rfl, (ht1.trans ht2).mono ?_ ?_⟩
    · rintro f (⟨g, hf⟩ | ⟨b', hb', g, hf⟩)
      · exact ⟨b, List.mem_cons_self, g, hf⟩
      · exact ⟨b', List.mem_cons_of_mem _ hb', g, hf⟩
    · rintro f ⟨b', hb', hf⟩
      rcases List.mem_cons.1 hb' with rfl | hb'
      · exact Or.inl hf
      · exact Or.inr ⟨b', hb', hf⟩

theorem cov_fields {c : ClassId} {w : Nat} (fs : List (Guard × Field)) (hfs : ∀ gf ∈ fs, HasField E c gf.1 gf.2) (st : Store) {s s' : RSt}
    {st' : Store} (h : readFields self w fs st s = .ok st' s')
    (hp : ∀ g f p, HasField E c g f → st.get? f.key = some p → Covered E f.ty p) :
    Touch E (fun f => ∃ g, (g, f) ∈ fs) (fun f => (⟨0, 0⟩, f) ∈ fs) st st' := by
  induction fs generalizing s st with
  | nil =>
    cases h
    exact Touch.refl _ (by simp)
  | cons gf fs ih =>
    obtain ⟨g, f⟩ := gf
    have hf0 : HasField E c g f := hfs (g, f) List.mem_cons_self
    simp only [readFields] at h
    split at h
    · cases hg : st.get? f.key with
      | none => rw [hg] at h; cases h
      | some p =>
        rw [hg] at h
        simp only [M.bind_eq_ok] at h
        obtain ⟨v, s1, h1, h2⟩ := h
        obtain ⟨hc, hi⟩ := hs.1 w f.ty p s v s1 h1 (hp g f p hf0 hg)
        have ht1 : Touch E (fun f' => f' = f) (fun f' => f' = f) st (st.set f.key v) := by
          refine ⟨set_keys _ _ _, fun k => ?_, ?_⟩
          · by_cases hk : k = f.key
            · subst hk
              exact Or.inr ⟨f, v, rfl, rfl, get?_set_eq st hg, hc, hi⟩
            · exact Or.inl (get?_set_ne _ _ hk)
          · rintro f' rfl
            exact ⟨v, get?_set_eq st hg, hi⟩
        have ht2 := ih (fun gf h => hfs gf (List.mem_cons_of_mem _ h)) _ h2 fun g' f' p' hf' hg' => by
          rcases ht1.upd f'.key with e | ⟨f'', v', rfl, h2, h3, h4, h5⟩
          · exact hp g' f' p' hf' (e.symm.trans hg')
          · rw [hkt c g' f' c g f'' hf' hf0 h2.symm]
            rw [h3] at hg'
            cases hg'
            exact h4
        refine (ht1.trans ht2).mono ?_ ?_
        · rintro f' (rfl | ⟨g', h⟩)
          · exact ⟨g, List.mem_cons_self⟩
          · exact ⟨g', List.mem_cons_of_mem _ h⟩
        · intro f' h
          rcases List.mem_cons.1 h with e | h
          · cases e
            exact Or.inl rfl
          · exact Or.inr h
    · rename_i hng
      refine (ih (fun gf h => hfs gf (List.mem_cons_of_mem _ h)) _ h hp).mono ?_ ?_
      · rintro f' ⟨g', h⟩
        exact ⟨g', List.mem_cons_of_mem _ h⟩
      · intro f' h
        rcases List.mem_cons.1 h with e | h
        · cases e
          exact absurd (by simp [Guard.holds]) hng
        · exact h

theorem cov_class {c : ClassId} {ci : ClassInfo} (hci : E.cls c = some ci) {w : Nat} {st : Store} {s s' : RSt} {r : Val × Nat}
    (h : readClass self ci w (.obj st) s = .ok r s')
    (hp : ∀ g f p, HasField E c g f → st.get? f.key = some p → Covered E f.ty p) :
    ∃ st', r.1 = .obj st' ∧ Touch E (fun f => ∃ g, HasField E c g f) (HasField E c ⟨0, 0⟩) st st' := by
  unfold readClass at h
  split at h
  · cases h
  · simp only [M.bind_eq_ok] at h
    obtain ⟨v, s1, h1, h2⟩ := h
    obtain ⟨st1, rfl, ht1⟩ := cov_bases hkt hs ci.bin.bases st h1 fun b hb g f p hf hg => hp g f p (.base hci hb hf) hg
    simp only [M.bind_eq_ok] at h2
    obtain ⟨ver, s2, -, st2, s3, h3, h4⟩ := h2
    cases h4
    have ht2 := cov_fields hkt hs (c := c) ci.bin.readFields (fun gf h => .own hci h) st1 h3 fun g f p hf hg => by
      rcases ht1.upd f.key with e | ⟨f', v', ⟨b, hb, g', h1⟩, h2, h3, h4, h5⟩
      · exact hp g f p hf (e.symm.trans hg)
      · rw [hkt c g f b g' f' hf h1 h2.symm]
        rw [h3] at hg
        cases hg
        exact h4
    refine ⟨st2, rfl, (ht1.trans ht2).mono ?_ ?_⟩
    · rintro f (⟨b, hb, g, hf⟩ | ⟨g, hf⟩)
      · exact ⟨g, .base hci hb hf⟩
      · exact ⟨g, .own hci hf⟩
    · intro f hf
      cases hf with
      | own h1 h2 =>
        rw [hci] at h1
        cases h1
        exact Or.inr h2
      | base h1 h2 h3 =>
        rw [hci] at h1
        cases h1
        exact Or.inl ⟨_, h2, h3⟩

omit hs in
theorem covered_cls_after {c : ClassId} {st st' : Store} (h : Covered E (.cls c) (.obj st))
    (ht : Touch E (fun f => ∃ g, HasField E c g f) (HasField E c ⟨0, 0⟩) st st') :
    Covered E (.cls c) (.obj st') ∧ (Val.obj st').hasIndet = false := by
  cases h with
  | leaf _ h => cases h
  | cls h1 h2 h3 =>
    have hno : ∀ k v, (k, v) ∈ st' → v.hasIndet = false := by
      intro k v hm
      have hg := get?_eq_of_mem (by rw [ht.keys]; exact h1) hm
      rcases ht.upd k with e | ⟨f, v', -, h5, h6, -, h7⟩
      · by_contra hi
        have : (k, v) ∈ st := by
          rw [hg] at e
          exact mem_of_get? e.symm
        obtain ⟨f, hf, rfl⟩ := h3 k v this (by simpa using hi)
        obtain ⟨v', h8, h9⟩ := ht.all f hf
        rw [hg] at h8
        cases h8
        exact hi h9
      · rw [hg] at h6
        cases h6
        exact h7
    refine ⟨.cls (by rw [ht.keys]; exact h1) (fun g f v hf hg => ?_) (fun k v hm hi => ?_), hasIndetF_false hno⟩
    · rcases ht.upd f.key with e | ⟨f', v', ⟨g', h4⟩, h5, h6, h7, -⟩
      · exact h2 g f v hf (e.symm.trans hg)
      · rw [hkt c g f c g' f' hf h4 h5.symm]
        rw [h6] at hg
        cases hg
        exact h7
    · rw [hno k v hm] at hi
      cases hi

theorem cov_step : CovRead E (readStep E self) := by
  have hcls : ∀ w c (st : Store) s v s', readStep E self w (.cls c) (.obj st) s = .ok v s' →
    (∀ g f p, HasField E c g f → st.get? f.key = some p → Covered E f.ty p) →
    ∃ st', v = .obj st' ∧ Touch E (fun f => ∃ g, HasField E c g f) (HasField E c ⟨0, 0⟩) st st' := by
    intro w c st s v s' h hp
    simp only [readStep] at h
    cases hci : E.cls c with
    | none => rw [hci] at h; cases h
    | some ci =>
      rw [hci] at h
      simp only [M.bind_eq_ok] at h
      obtain ⟨r, s1, h1, h2⟩ := h
      obtain ⟨st', h3, h4⟩ := cov_class hkt hs hci h1 hp
      cases h2
      exact ⟨st', h3, h4⟩
  refine ⟨fun w t p s v s' h hc => ?_, hcls⟩
  cases hc with
  | leaf p ho =>
    refine ⟨.leaf _ ho, ?_⟩
    cases t with
    | cstr | sview | opt _ | pair _ _ | tuple _ | variant _ | mono | cls _ => cases ho
    | bool | f32 | f64 | dateTime | timeSpan =>
      simp only [readStep, M.bind_eq_ok] at h
      obtain ⟨_, _, _, h⟩ := h
      cases h
      rfl
    | int it =>
      simp only [readStep] at h
      split at h
      · cases h
      · simp only [M.bind_eq_ok] at h
        obtain ⟨_, _, _, h⟩ := h
        cases h
        rfl
    | enum u =>
      simp only [readStep] at h
      exact (hs.1 _ _ _ _ _ _ h (.leaf _ rfl)).2
    | str =>
      simp only [readStep, M.bind_eq_ok] at h
      obtain ⟨_, _, _, h⟩ := h
      split at h
      · cases h
      · simp only [M.bind_eq_ok] at h
        obtain ⟨_, _, _, h⟩ := h
        cases h
        rfl
    | uptr t =>
      simp only [readStep, M.bind_eq_ok] at h
      obtain ⟨b, _, _, h⟩ := h
      split at h
      · simp only [M.bind_eq_ok] at h
        obtain ⟨_, _, _, h⟩ := h
        cases h
        rfl
      · cases h
        rfl
    | sptr t =>
      simp only [readStep, M.bind_eq_ok] at h
      obtain ⟨b, _, _, h⟩ := h
      split at h
      · cases h
        rfl
      · simp only [M.bind_eq_ok] at h
        obtain ⟨_, _, _, h⟩ := h
        split at h
        · simp only [M.bind_eq_ok] at h
          obtain ⟨_, _, _, _, _, _, _, _, _, h⟩ := h
          cases h
          rfl
        · simp only [M.bind_eq_ok] at h
          obtain ⟨_, _, _, h⟩ := h
          cases h
          rfl
    | vec t =>
      cases p <;> simp only [readStep] at h <;> try cases h
      simp only [M.bind_eq_ok] at h
      obtain ⟨_, _, _, h⟩ := h
      split at h
      · cases h
      · simp only [M.bind_eq_ok] at h
        obtain ⟨_, _, _, h⟩ := h
        cases h
        rfl
    | set a b t =>
      cases p <;> simp only [readStep] at h <;> try cases h
      simp only [M.bind_eq_ok] at h
      obtain ⟨_, _, _, _, _, _, h⟩ := h
      cases h
      rfl
    | map a b k t =>
      cases p <;> simp only [readStep] at h <;> try cases h
      simp only [M.bind_eq_ok] at h
      obtain ⟨_, _, _, _, _, _, h⟩ := h
      cases h
      rfl
  | @opt t p hc =>
    refine ⟨.opt _ hc, ?_⟩
    simp only [readStep, M.bind_eq_ok] at h
    obtain ⟨b, _, _, h⟩ := h
    split at h
    · simp only [M.bind_eq_ok] at h
      obtain ⟨v1, _, h1, h⟩ := h
      cases h
      simpa only [Val.hasIndet] using (hs.1 _ _ _ _ _ _ h1 hc).2
    · cases h
      rfl
  | @variant ts p hc =>
    refine ⟨.variant _ hc, ?_⟩
    simp only [readStep, M.bind_eq_ok] at h
    obtain ⟨i, s1, _, h⟩ := h
    cases ht : ts[i]? with
    | none => rw [ht] at h; cases h
    | some t' =>
      rw [ht] at h
      by_cases hne : t' = .mono
      · subst hne
        cases h
        rfl
      have h2 : (do let v ← self 0 t' (E.valInit t'); pure (Val.alt i v) : RM Val) s1 = .ok v s' := by
        cases t' <;> first | exact h | exact absurd rfl hne
      clear h
      rename' h2 => h
      rw [M.bind_eq_ok] at h
      obtain ⟨v1, _, h1, h⟩ := h
      cases h
      simpa only [Val.hasIndet] using (hs.1 _ _ _ _ _ _ h1 (hc t' (List.mem_of_getElem? ht) hne)).2
  | @pair a b x y h1 h2 =>
    simp only [readStep, M.bind_eq_ok] at h
    obtain ⟨x', _, h3, y', _, h4, h5⟩ := h
    cases h5
    have a1 := hs.1 _ _ _ _ _ _ h3 h1
    have a2 := hs.1 _ _ _ _ _ _ h4 h2
    exact ⟨.pair a1.1 a2.1, by simp [Val.hasIndet, Val.hasIndetL, a1.2, a2.2]⟩
  | @cls c st h1 h2 h3 =>
    obtain ⟨st', rfl, ht⟩ := hcls w c st s v s' h h2
    exact covered_cls_after hkt (.cls h1 h2 h3) ht

end

/-- after reading, no uninitialised scalar is left -/
theorem read_covered {E : Env} (hkt : KeyTypes E) (n : Nat) : CovRead E (read E n) := by
  induction n with
  | zero => exact ⟨fun w t p s v s' h => by simp [read] at h, fun w t p s v s' h => by simp [read] at h⟩
  | succ n ih => exact cov_step hkt ih

end Verif
