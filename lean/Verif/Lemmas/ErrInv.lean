import Verif.Spec.JsonErrors
import Verif.Lemmas.PullClosed

namespace Verif

theorem fatal_iff (f : BitVec 8) (k : ErrKind) : Fatal f k ↔ f &&& k.flag ≠ 0 := by
  have aux : ∀ f : BitVec 8, (f &&& 1 ≠ 0 ↔ f.getLsbD 0 = true) ∧ (f &&& 2 ≠ 0 ↔ f.getLsbD 1 = true) ∧
      (f &&& 4 ≠ 0 ↔ f.getLsbD 2 = true) ∧ (f &&& 8 ≠ 0 ↔ f.getLsbD 3 = true) := by decide
  obtain ⟨h0, h1, h2, h3⟩ := aux f
  cases k <;> simp [Fatal, fatalBit, ErrKind.flag] <;> simp_all

/-- What every `pull` does to the error object. -/
def ErrInv (α : Type) (m : PM α) : Prop :=
  (match m none with
    | .ok _ s => s = none
    | .exc _ _ => False
    | _ => True) ∧
  ∀ st, match m (some st) with
    | .ok _ s => ∃ st' new, s = some st' ∧ st'.errs = st.errs ++ new ∧ st'.throwOn = st.throwOn ∧
        st'.record = st.record ∧ st'.member = st.member ∧ (st'.index = st.index ∨ st'.index = noIndex) ∧
        ∀ e ∈ new, ¬ Fatal st.throwOn e.kind
    | .exc e s => ∃ st' new, s = some st' ∧ st'.errs = st.errs ++ (new ++ [e]) ∧ st'.throwOn = st.throwOn ∧
        (∀ e ∈ new, ¬ Fatal st.throwOn e.kind) ∧ Fatal st.throwOn e.kind
    | _ => True

theorem report_inv (k : ErrKind) (e a : JType) : ErrInv Unit (report k e a) := by
  refine ⟨by simp [report], fun st => ?_⟩
  by_cases hf : Fatal st.throwOn k
  · have h2 := (fatal_iff _ _).1 hf
    simp only [report]
    rw [if_pos h2]
    exact ⟨_, [], rfl, rfl, rfl, by simp, hf⟩
  · have h2 : ¬ (st.throwOn &&& k.flag ≠ 0) := fun h => hf ((fatal_iff _ _).2 h)
    simp only [report]
    rw [if_neg h2]
    exact ⟨_, [_], rfl, rfl, rfl, rfl, rfl, Or.inl rfl, by simpa [ErrSt.mk'] using hf⟩

/-- Sequencing, with an arbitrary condition on the index in the end. -/
theorem ErrInv.bind {α β : Type} (m : PM α) (f : α → PM β) (hm : ErrInv α m) (hf : ∀ a, ErrInv β (f a)) :
    ErrInv β (m >>= f) := by
  constructor
  · have h1 := hm.1
    rw [M.bind_apply]
    cases h : m none with
    | ok a s =>
      rw [h] at h1
      subst h1
      exact (hf a).1
    | exc e s => rw [h] at h1; exact h1.elim
    | _ => trivial
  · intro st
    have h1 := hm.2 st
    rw [M.bind_apply]
    cases h : m (some st) with
    | ok a s =>
      rw [h] at h1
      obtain ⟨st', new, rfl, he, ht, hr, hmem, hi, hnew⟩ := h1
      have h2 := (hf a).2 st'
      dsimp only
      cases hf' : f a (some st') with
      | ok b s2 =>
        rw [hf'] at h2
        obtain ⟨st2, new2, rfl, he2, ht2, hr2, hmem2, hi2, hnew2⟩ := h2
        refine ⟨st2, new ++ new2, rfl, by rw [he2, he, List.append_assoc], ht2.trans ht, hr2.trans hr,
          hmem2.trans hmem, ?_, ?_⟩
        · rcases hi2 with hi2 | hi2
          · rw [hi2]; exact hi
          · exact Or.inr hi2
        · intro e he
          rcases List.mem_append.1 he with he | he
          · exact hnew e he
          · rw [← ht]; exact hnew2 e he
      | exc e s2 =>
        rw [hf'] at h2
        obtain ⟨st2, new2, rfl, he2, ht2, hnew2, hfat⟩ := h2
        refine ⟨st2, new ++ new2, rfl, by simp [he2, he, List.append_assoc], ht2.trans ht, ?_, ht ▸ hfat⟩
        intro e he
        rcases List.mem_append.1 he with he | he
        · exact hnew e he
        · rw [← ht]; exact hnew2 e he
      | _ => trivial
    | exc e s => rw [h] at h1; exact h1
    | _ => trivial

theorem withMember_some {α : Type} (n : Str) (m : PM α) (st : ErrSt) :
    withMember n m (some st) = match m (some { st with member := some n }) with
      | .ok a s => .ok a (s.map fun st' => { st' with member := st.member })
      | r => r := by
  simp only [withMember, getMember, setMember, M.bind_apply, M.modify_apply, Option.map_some, Option.bind_some]
  cases m (some { st with member := some n }) <;> rfl

theorem withMember_none {α : Type} (n : Str) (m : PM α) :
    withMember n m none = match m none with
      | .ok a s => .ok a (s.map fun st' => { st' with member := none })
      | r => r := by
  simp only [withMember, getMember, setMember, M.bind_apply, M.modify_apply, Option.map_none, Option.bind_none]
  cases m none <;> rfl

theorem withRecord_some {α : Type} (n : Str) (m : PM α) (st : ErrSt) :
    withRecord n m (some st) = match m (some { st with record := some n }) with
      | .ok a s => .ok a (s.map fun st' => { st' with record := st.record })
      | r => r := by
  simp only [withRecord, getRecord, setRecord, M.bind_apply, M.modify_apply, Option.map_some, Option.bind_some]
  cases m (some { st with record := some n }) <;> rfl

theorem withRecord_none {α : Type} (n : Str) (m : PM α) :
    withRecord n m none = match m none with
      | .ok a s => .ok a (s.map fun st' => { st' with record := none })
      | r => r := by
  simp only [withRecord, getRecord, setRecord, M.bind_apply, M.modify_apply, Option.map_none, Option.bind_none]
  cases m none <;> rfl

theorem errInv_closed : Closed ErrInv where
  pure a := ⟨rfl, fun st => ⟨st, [], rfl, by simp, rfl, rfl, rfl, Or.inl rfl, by simp⟩⟩
  ub := ⟨trivial, fun _ => trivial⟩
  stuck := ⟨trivial, fun _ => trivial⟩
  fuel := ⟨trivial, fun _ => trivial⟩
  bind := ErrInv.bind
  report := report_inv
  dup := ⟨trivial, fun st => (report_inv .unexpectedDuplicate .array .array).2 st⟩
  member n m hm := by
    constructor
    · have h1 := hm.1
      rw [withMember_none]
      cases h : m none with
      | ok a s => rw [h] at h1; subst h1; rfl
      | exc e s => rw [h] at h1; exact h1.elim
      | _ => trivial
    · intro st
      have h1 := hm.2 { st with member := some n }
      rw [withMember_some]
      cases h : m (some { st with member := some n }) with
      | ok a s =>
        rw [h] at h1
        obtain ⟨st', new, rfl, he, ht, hr, hmem, hi, hnew⟩ := h1
        exact ⟨_, new, rfl, he, ht, hr, rfl, hi, hnew⟩
      | exc e s => rw [h] at h1; exact h1
      | _ => trivial
  record n m hm := by
    constructor
    · have h1 := hm.1
      rw [withRecord_none]
      cases h : m none with
      | ok a s => rw [h] at h1; subst h1; rfl
      | exc e s => rw [h] at h1; exact h1.elim
      | _ => trivial
    · intro st
      have h1 := hm.2 { st with record := some n }
      rw [withRecord_some]
      cases h : m (some { st with record := some n }) with
      | ok a s =>
        rw [h] at h1
        obtain ⟨st', new, rfl, he, ht, hr, hmem, hi, hnew⟩ := h1
        exact ⟨_, new, rfl, he, ht, rfl, hmem, hi, hnew⟩
      | exc e s => rw [h] at h1; exact h1
      | _ => trivial
  idx f hf js i b := by
    have key : ∀ js i b, (match forIdx f js i b none with
          | .ok _ s => s = none
          | .exc _ _ => False
          | _ => True) ∧
        ∀ st, match forIdx f js i b (some st) with
          | .ok _ s => ∃ st' new, s = some st' ∧ st'.errs = st.errs ++ new ∧ st'.throwOn = st.throwOn ∧
              st'.record = st.record ∧ st'.member = st.member ∧ st'.index = noIndex ∧
              ∀ e ∈ new, ¬ Fatal st.throwOn e.kind
          | .exc e s => ∃ st' new, s = some st' ∧ st'.errs = st.errs ++ (new ++ [e]) ∧ st'.throwOn = st.throwOn ∧
              (∀ e ∈ new, ¬ Fatal st.throwOn e.kind) ∧ Fatal st.throwOn e.kind
          | _ => True := by
      intro js
      induction js with
      | nil =>
        intro i b
        refine ⟨rfl, fun st => ⟨{ st with index := noIndex }, [], rfl, by simp, rfl, rfl, rfl, rfl, by simp⟩⟩
      | cons j js ih =>
        intro i b
        constructor
        · have h1 := (hf j b).1
          simp only [forIdx, setIndex, M.bind_apply, M.modify_apply, Option.map_none]
          cases h : f j b none with
          | ok a s => rw [h] at h1; subst h1; exact (ih (i+1) a).1
          | exc e s => rw [h] at h1; exact h1.elim
          | _ => trivial
        · intro st
          have h1 := (hf j b).2 { st with index := i }
          simp only [forIdx, setIndex, M.bind_apply, M.modify_apply, Option.map_some]
          cases h : f j b (some { st with index := i }) with
          | ok a s =>
            rw [h] at h1
            obtain ⟨st', new, rfl, he, ht, hr, hmem, -, hnew⟩ := h1
            have h2 := (ih (i+1) a).2 st'
            dsimp only at he ht hr hmem hnew ⊢
            cases hf' : forIdx f js (i+1) a (some st') with
            | ok b s2 =>
              rw [hf'] at h2
              obtain ⟨st2, new2, rfl, he2, ht2, hr2, hmem2, hi2, hnew2⟩ := h2
              refine ⟨st2, new ++ new2, rfl, by rw [he2, he, List.append_assoc], ht2.trans ht, hr2.trans hr,
                hmem2.trans hmem, hi2, ?_⟩
              intro e he
              rcases List.mem_append.1 he with he | he
              · exact hnew e he
              · rw [← ht]; exact hnew2 e he
            | exc e s2 =>
              rw [hf'] at h2
              obtain ⟨st2, new2, rfl, he2, ht2, hnew2, hfat⟩ := h2
              refine ⟨st2, new ++ new2, rfl, by simp [he2, he, List.append_assoc], ht2.trans ht, ?_, ht ▸ hfat⟩
              intro e he
              rcases List.mem_append.1 he with he | he
              · exact hnew e he
              · rw [← ht]; exact hnew2 e he
            | _ => trivial
          | exc e s => rw [h] at h1; exact h1
          | _ => trivial
    refine ⟨(key js i b).1, fun st => ?_⟩
    have := (key js i b).2 st
    cases h : forIdx f js i b (some st) with
    | ok a s =>
      rw [h] at this
      obtain ⟨st', new, h1, h2, h3, h4, h5, h6, h7⟩ := this
      exact ⟨st', new, h1, h2, h3, h4, h5, Or.inr h6, h7⟩
    | exc e s => rw [h] at this; exact this
    | _ => trivial

theorem pull_errInv (E : Env) (n : Nat) (t : Ty) (j : Json) (v : Val) : ErrInv Val (pull E n t j v) :=
  errInv_closed.pull n t j v

/-- Running with a null `errors` pointer versus running with an errors object nothing is fatal in. -/
def NullInv (α : Type) (m : PM α) : Prop :=
  ∀ st, NoneFatal st.throwOn →
    match m none with
    | .ok a s => s = none ∧ ∃ st', m (some st) = .ok a (some st') ∧ st'.throwOn = st.throwOn
    | .exc _ _ => False
    | .ub => True
    | .stuck => m (some st) = .stuck
    | .fuel => m (some st) = .fuel

theorem NullInv.bind {α β : Type} (m : PM α) (f : α → PM β) (hm : NullInv α m) (hf : ∀ a, NullInv β (f a)) :
    NullInv β (m >>= f) := by
  intro st hst
  have h1 := hm st hst
  rw [M.bind_apply]
  cases h : m none with
  | ok a s =>
    rw [h] at h1
    obtain ⟨rfl, st', h2, h3⟩ := h1
    have h4 := hf a st' (h3 ▸ hst)
    dsimp only
    rw [M.bind_apply, h2]
    dsimp only
    cases h5 : f a none with
    | ok b s =>
      rw [h5] at h4
      obtain ⟨rfl, st2, h6, h7⟩ := h4
      exact ⟨rfl, st2, h6, h7.trans h3⟩
    | exc e s => rw [h5] at h4; exact h4
    | ub => trivial
    | stuck => rw [h5] at h4; exact h4
    | fuel => rw [h5] at h4; exact h4
  | exc e s => rw [h] at h1; exact h1
  | ub => trivial
  | stuck => rw [h] at h1; dsimp only at h1 ⊢; rw [M.bind_apply, h1]
  | fuel => rw [h] at h1; dsimp only at h1 ⊢; rw [M.bind_apply, h1]

theorem report_none_fatal (k : ErrKind) (e a : JType) (st : ErrSt) (h : NoneFatal st.throwOn) :
    report k e a (some st) = .ok () (some (st.push (st.mk' k e a))) := by
  have h2 : ¬ (st.throwOn &&& k.flag ≠ 0) := fun h' => h k ((fatal_iff _ _).2 h')
  simp only [report, h2, if_false]

theorem setIndex_nullInv (i : Nat) : NullInv Unit (setIndex i) :=
  fun _ _ => ⟨rfl, _, rfl, rfl⟩

theorem nullInv_closed : Closed NullInv where
  pure a := fun st _ => ⟨rfl, st, rfl, rfl⟩
  ub := fun _ _ => trivial
  stuck := fun _ _ => rfl
  fuel := fun _ _ => rfl
  bind := NullInv.bind
  report k e a := fun st hst => ⟨rfl, _, report_none_fatal k e a st hst, rfl⟩
  dup := fun _ _ => trivial
  member n m hm := by
    intro st hst
    have h1 := hm { st with member := some n } hst
    rw [withMember_none, withMember_some]
    cases h : m none with
    | ok a s =>
      rw [h] at h1
      obtain ⟨rfl, st', h2, h3⟩ := h1
      rw [h2]
      exact ⟨rfl, _, rfl, h3⟩
    | exc e s => rw [h] at h1; exact h1
    | ub => trivial
    | stuck => rw [h] at h1; dsimp only at h1 ⊢; rw [h1]
    | fuel => rw [h] at h1; dsimp only at h1 ⊢; rw [h1]
  record n m hm := by
    intro st hst
    have h1 := hm { st with record := some n } hst
    rw [withRecord_none, withRecord_some]
    cases h : m none with
    | ok a s =>
      rw [h] at h1
      obtain ⟨rfl, st', h2, h3⟩ := h1
      rw [h2]
      exact ⟨rfl, _, rfl, h3⟩
    | exc e s => rw [h] at h1; exact h1
    | ub => trivial
    | stuck => rw [h] at h1; dsimp only at h1 ⊢; rw [h1]
    | fuel => rw [h] at h1; dsimp only at h1 ⊢; rw [h1]
  idx f hf js i b := by
    induction js generalizing i b with
    | nil =>
      exact NullInv.bind _ _ (setIndex_nullInv _) (fun _ st _ => ⟨rfl, st, rfl, rfl⟩)
    | cons j js ih =>
      exact NullInv.bind _ _ (setIndex_nullInv _) (fun _ => NullInv.bind _ _ (hf j b) (fun _ => ih _ _))

theorem pull_nullInv (E : Env) (n : Nat) (t : Ty) (j : Json) (v : Val) : NullInv Val (pull E n t j v) :=
  nullInv_closed.pull n t j v

end Verif
