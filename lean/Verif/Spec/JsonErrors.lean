import Verif.Model.Json

/-!
# Specification vocabulary for JSON error handling

Independent of how the model executes: which error kinds can be made fatal, and what "the list grew" means.
-/

namespace Verif

/-- Bit of the caller's `throwOn` mask by which an error kind is made fatal (public API: `ThrowOn::TypeMismatch = 1`,
`ArraySizeMismatch = 2`, `ConversionError = 4`, `UnexpectedDuplicate = 8`); there is none for the two variant errors. -/
def fatalBit : ErrKind → Option Nat
  | .typeMismatch => some 0
  | .arraySizeMismatch => some 1
  | .conversionError => some 2
  | .unexpectedDuplicate => some 3
  | .invalidVariantObject => none
  | .invalidVariantIndex => none

/-- The caller has asked errors of kind `k` to be fatal. -/
def Fatal (throwOn : BitVec 8) (k : ErrKind) : Prop := ∃ b, fatalBit k = some b ∧ throwOn.getLsbD b = true

instance (f : BitVec 8) (k : ErrKind) : Decidable (Fatal f k) :=
  match h : fatalBit k with
  | some b => if hb : f.getLsbD b = true then isTrue ⟨b, h, hb⟩
    else isFalse (fun ⟨_, h', hb'⟩ => hb (by rw [h] at h'; cases h'; exact hb'))
  | none => isFalse (fun ⟨_, h', _⟩ => by rw [h] at h'; cases h')

/-- `throwOn` masks under which nothing is fatal, e.g. `ThrowOn::None`. -/
def NoneFatal (throwOn : BitVec 8) : Prop := ∀ k, ¬ Fatal throwOn k

/-- the error an operation run in context `st` reports -/
def ErrAt (st : ErrSt) (k : ErrKind) (exp act : JType) (e : Err) : Prop :=
  e.kind = k ∧ e.expected = exp ∧ e.actual = act ∧ e.record = st.record ∧ e.member = st.member ∧ e.index = st.index

end Verif
