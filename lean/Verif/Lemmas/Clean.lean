import Verif.Lemmas.ErrInv

/-!
# Deserialisations which report nothing
-/

namespace Verif

/-- `m` returns `a`, reports no error and throws nothing, whatever the error object (or null) passed to it. The "current
index" of the error object may be reset. -/
def Clean {α : Type} (m : PM α) (a : α) : Prop :=
  m none = .ok a none ∧
  ∀ s : ErrSt, ∃ i, (i = s.index ∨ i = noIndex) ∧ m (some s) = .ok a (some { s with index := i })

theorem Clean.pure {α : Type} (a : α) : Clean (Pure.pure a : PM α) a :=
  ⟨rfl, fun s => ⟨s.index, .inl rfl, rfl⟩⟩

theorem Clean.bind {α β : Type} {m : PM α} {f : α → PM β} {a : α} {b : β} (h1 : Clean m a) (h2 : Clean (f a) b) :
    Clean (m >>= f) b := by
  refine ⟨by rw [M.bind_ok h1.1]; exact h2.1, fun s => ?_⟩
  obtain ⟨i, hi, e1⟩ := h1.2 s
  obtain ⟨i', hi', e2⟩ := h2.2 { s with index := i }
  refine ⟨i', ?_, by rw [M.bind_ok e1, e2]⟩
  rcases hi' with rfl | rfl
  · exact hi
  · exact .inr rfl

theorem Clean.withMember {α : Type} {m : PM α} {a : α} (n : Str) (h : Clean m a) : Clean (withMember n m) a := by
  refine ⟨?_, fun s => ?_⟩
  · rw [withMember_none, h.1]; rfl
  · rw [withMember_some]
    obtain ⟨i, hi, e⟩ := h.2 { s with member := some n }
    refine ⟨i, hi, ?_⟩
    rw [e]; rfl

theorem Clean.withRecord {α : Type} {m : PM α} {a : α} (n : Str) (h : Clean m a) : Clean (withRecord n m) a := by
  refine ⟨?_, fun s => ?_⟩
  · rw [withRecord_none, h.1]; rfl
  · rw [withRecord_some]
    obtain ⟨i, hi, e⟩ := h.2 { s with record := some n }
    refine ⟨i, hi, ?_⟩
    rw [e]; rfl

theorem forIdx_cons {β : Type} (f : Json → β → PM β) (j : Json) (js : List Json) (i : Nat) (b : β) (s : Option ErrSt) :
    forIdx f (j :: js) i b s = (f j b >>= fun b => forIdx f js (i + 1) b) (s.map fun st => { st with index := i }) := by
  cases s <;> rfl

theorem forIdx_nil {β : Type} (f : Json → β → PM β) (i : Nat) (b : β) (s : Option ErrSt) :
    forIdx f [] i b s = .ok b (s.map fun st => { st with index := noIndex }) := by
  cases s <;> rfl

end Verif
