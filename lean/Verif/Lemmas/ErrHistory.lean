import Mathlib.Data.List.Forall2
import Verif.Spec.ErrorHistory
import Verif.Lemmas.ErrInv

/-! # Two runs of `pull` with different errors objects; the context an exception leaves -/

namespace Verif

structure ErrSim (S s s0 : ErrSt) : Prop where
  throwOn : s.throwOn = s0.throwOn
  record : PartOfLocation (some (lit "[document]")) S.record s.record s0.record
  member : PartOfLocation none S.member s.member s0.member
  index : PartOfLocation (2 ^ 64 - 1) S.index s.index s0.index
  errs : ∃ es, s.errs = S.errs ++ es ∧ List.Forall₂ (SameFault S) es s0.errs

inductive SimRes (S : ErrSt) {α : Type} : Res Err (Option ErrSt) α → Res Err (Option ErrSt) α → Prop
  | ok {a s s0} : ErrSim S s s0 → SimRes S (.ok a (some s)) (.ok a (some s0))
  | exc {e e0 s s0} : SameFault S e e0 → ErrSim S s s0 → SimRes S (.exc e (some s)) (.exc e0 (some s0))
  | ub : SimRes S .ub .ub
  | stuck : SimRes S .stuck .stuck
  | fuel : SimRes S .fuel .fuel

def SimInv (S : ErrSt) (α : Type) (m : PM α) : Prop := ∀ s s0, ErrSim S s s0 → SimRes S (m (some s)) (m (some s0))

theorem SimInv.bind {S : ErrSt} {α β : Type} (m : PM α) (f : α → PM β) (hm : SimInv S α m) (hf : ∀ a, SimInv S β (f a)) :
    SimInv S β (m >>= f) := by
  intro s s0 h
  have h1 := hm s s0 h
  rw [M.bind_apply, M.bind_apply]
  generalize m (some s) = r at h1
  generalize m (some s0) = r0 at h1
  cases h1 with
  | ok h2 => exact hf _ _ _ h2
  | exc h2 h3 => exact .exc h2 h3
  | ub => exact .ub
  | stuck => exact .stuck
  | fuel => exact .fuel

theorem SimInv.report {S : ErrSt} (k : ErrKind) (x a : JType) : SimInv S Unit (report k x a) := by
  intro s s0 h
  have hf : SameFault S (s.mk' k x a) (s0.mk' k x a) := ⟨rfl, rfl, rfl, h.record, h.member, h.index⟩
  have hs : ErrSim S (s.push (s.mk' k x a)) (s0.push (s0.mk' k x a)) := by
    obtain ⟨es, h1, h2⟩ := h.errs
    refine ⟨h.throwOn, h.record, h.member, h.index, es ++ [s.mk' k x a], ?_, ?_⟩
    · simp [ErrSt.push, h1]
    · exact List.rel_append h2 (.cons hf .nil)
  simp only [Verif.report]
  rw [h.throwOn]
  split
  · exact .exc hf hs
  · exact .ok hs

theorem simInv_closed (S : ErrSt) : Closed (SimInv S) where
  pure a := fun s s0 h => .ok h
  ub := fun _ _ _ => .ub
  stuck := fun _ _ _ => .stuck
  fuel := fun _ _ _ => .fuel
  bind := SimInv.bind
  report := SimInv.report
  dup := fun s s0 h => SimInv.report .unexpectedDuplicate .array .array s s0 h
  member n m hm := by
    intro s s0 h
    have h1 := hm { s with member := some n } { s0 with member := some n }
      ⟨h.throwOn, h.record, Or.inl rfl, h.index, h.errs⟩
    rw [withMember_some, withMember_some]
    generalize m (some { s with member := some n }) = r at h1
    generalize m (some { s0 with member := some n }) = r0 at h1
    cases h1 with
    | ok h2 => exact .ok ⟨h2.throwOn, h2.record, h.member, h2.index, h2.errs⟩
    | exc h2 h3 => exact .exc h2 h3
    | ub => exact .ub
    | stuck => exact .stuck
    | fuel => exact .fuel
  record n m hm := by
    intro s s0 h
    have h1 := hm { s with record := some n } { s0 with record := some n }
      ⟨h.throwOn, Or.inl rfl, h.member, h.index, h.errs⟩
    rw [withRecord_some, withRecord_some]
    generalize m (some { s with record := some n }) = r at h1
    generalize m (some { s0 with record := some n }) = r0 at h1
    cases h1 with
    | ok h2 => exact .ok ⟨h2.throwOn, h.record, h2.member, h2.index, h2.errs⟩
    | exc h2 h3 => exact .exc h2 h3
    | ub => exact .ub
    | stuck => exact .stuck
    | fuel => exact .fuel
  idx f hf js := by
    have hi : ∀ i, SimInv S Unit (setIndex i) := fun i s s0 h =>
      .ok ⟨h.throwOn, h.record, h.member, Or.inl rfl, h.errs⟩
    induction js with
    | nil => exact fun i b => SimInv.bind _ _ (hi _) (fun _ s s0 h => .ok h)
    | cons j js ih => exact fun i b => SimInv.bind _ _ (hi _) (fun _ => SimInv.bind _ _ (hf j b) (fun b' => ih (i + 1) b'))

theorem pull_sim (S : ErrSt) (E : Env) (n : Nat) (t : Ty) (j : Json) (v : Val) : SimInv S Val (pull E n t j v) :=
  (simInv_closed S).pull n t j v

/-- An exception leaves the context at the place of the error. -/
def ThrowInv (α : Type) (m : PM α) : Prop :=
  ∀ s e s', m s = .exc e s' → ∃ st', s' = some st' ∧ st'.record = e.record ∧ st'.member = e.member ∧ st'.index = e.index

theorem ThrowInv.bind {α β : Type} (m : PM α) (f : α → PM β) (hm : ThrowInv α m) (hf : ∀ a, ThrowInv β (f a)) :
    ThrowInv β (m >>= f) := by
  intro s e s' h
  rcases M.bind_eq_exc.1 h with h | ⟨a, s1, -, h⟩
  · exact hm _ _ _ h
  · exact hf a _ _ _ h

theorem ThrowInv.report (k : ErrKind) (x a : JType) : ThrowInv Unit (report k x a) := by
  intro s e s' h
  cases s with
  | none => cases h
  | some st =>
    simp only [Verif.report] at h
    split at h
    · cases h; exact ⟨_, rfl, rfl, rfl, rfl⟩
    · cases h

theorem throwInv_closed : Closed ThrowInv where
  pure a := fun _ _ _ h => by cases h
  ub := fun _ _ _ h => by cases h
  stuck := fun _ _ _ h => by cases h
  fuel := fun _ _ _ h => by cases h
  bind := ThrowInv.bind
  report := ThrowInv.report
  dup := fun s e s' h => by
    cases s with
    | none => cases h
    | some st => exact ThrowInv.report .unexpectedDuplicate .array .array (some st) e s' h
  member n m hm := by
    refine ThrowInv.bind _ _ (fun _ _ _ h => by cases h) (fun _ => ThrowInv.bind _ _ (fun _ _ _ h => by cases h) (fun _ =>
      ThrowInv.bind _ _ hm (fun _ => ThrowInv.bind _ _ (fun _ _ _ h => by cases h) (fun _ _ _ _ h => by cases h))))
  record n m hm := by
    refine ThrowInv.bind _ _ (fun _ _ _ h => by cases h) (fun _ => ThrowInv.bind _ _ (fun _ _ _ h => by cases h) (fun _ =>
      ThrowInv.bind _ _ hm (fun _ => ThrowInv.bind _ _ (fun _ _ _ h => by cases h) (fun _ _ _ _ h => by cases h))))
  idx f hf js := by
    induction js with
    | nil => exact fun i b => ThrowInv.bind _ _ (fun _ _ _ h => by cases h) (fun _ _ _ _ h => by cases h)
    | cons j js ih =>
      exact fun i b => ThrowInv.bind _ _ (fun _ _ _ h => by cases h) (fun _ => ThrowInv.bind _ _ (hf j b) (fun b' => ih (i + 1) b'))

theorem pull_throwInv (E : Env) (n : Nat) (t : Ty) (j : Json) (v : Val) : ThrowInv Val (pull E n t j v) :=
  throwInv_closed.pull n t j v

/-! ## `fromJson` -/

/-- `fromJson` throws the parse error, or runs a computation with the properties of `pull` which does not depend on the errors
object. -/
theorem fromJson_runs (E : Env) (P : Parser) (n : Nat) (t : Ty) (text : Str) :
    (fromJson E P n t text = M.stuck) ∨ (∃ e, P text = .error e ∧ fromJson E P n t text = M.throw (.parse e)) ∨
    ∃ m : PM Val, fromJson E P n t text = liftP m ∧ (∀ S, SimInv S Val m) ∧ ThrowInv Val m ∧ ErrInv Val m := by
  have pl : ∀ {m : Nat} {t : Ty} {j : Json} {v : Val}, ∃ m' : PM Val, liftP (pull E m t j v) = liftP m' ∧
      (∀ S, SimInv S Val m') ∧ ThrowInv Val m' ∧ ErrInv Val m' :=
    ⟨_, rfl, fun S => pull_sim S E _ _ _ _, pull_throwInv E _ _ _ _, pull_errInv E _ _ _ _⟩
  have mm : ∀ {t : Ty} {j : Json}, ∃ m' : PM Val, topMismatch E t j = liftP m' ∧
      (∀ S, SimInv S Val m') ∧ ThrowInv Val m' ∧ ErrInv Val m' := by
    intro t j
    refine ⟨report .typeMismatch (jtypeOf t) j.jtype >>= fun _ => pure (E.valInit t), ?_,
      fun S => (simInv_closed S).bind _ _ ((simInv_closed S).report _ _ _) (fun _ => (simInv_closed S).pure _),
      throwInv_closed.bind _ _ (throwInv_closed.report _ _ _) (fun _ => throwInv_closed.pure _),
      errInv_closed.bind _ _ (errInv_closed.report _ _ _) (fun _ => errInv_closed.pure _)⟩
    funext s
    simp only [topMismatch, liftP, M.bind_apply]
    cases report .typeMismatch (jtypeOf t) j.jtype s <;> rfl
  have pr : ∀ {v : Val}, ∃ m' : PM Val, (Pure.pure v : AM Val) = liftP m' ∧
      (∀ S, SimInv S Val m') ∧ ThrowInv Val m' ∧ ErrInv Val m' := fun {v} =>
    ⟨Pure.pure v, rfl, fun S => (simInv_closed S).pure _, throwInv_closed.pure _, errInv_closed.pure _⟩
  cases hp : P text with
  | error e =>
    unfold fromJson
    split
    case h_9 => exact Or.inl rfl
    case h_4 =>
      split
      · exact Or.inr (Or.inl ⟨e, rfl, by simp only [parseDoc, hp]; rfl⟩)
      · exact Or.inl rfl
    all_goals exact Or.inr (Or.inl ⟨e, rfl, by simp only [parseDoc, hp]; rfl⟩)
  | ok doc =>
    unfold fromJson
    simp only [parseDoc, hp]
    split
    case h_9 => exact Or.inl rfl
    case h_4 =>
      split
      · refine Or.inr (Or.inr ?_)
        rw [M.pure_bind']
        split
        · split
          · exact pr
          · exact mm
        · exact mm
      · exact Or.inl rfl
    all_goals
      refine Or.inr (Or.inr ?_)
      rw [M.pure_bind']
      split
      all_goals first | exact pl | exact mm | exact pr | (split <;> first | exact pr | exact mm)

end Verif
