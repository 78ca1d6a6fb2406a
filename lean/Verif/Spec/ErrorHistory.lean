import Verif.Model.Api

/-!
# Specification: several calls sharing one errors object

A program passes the same `JsonDeserializationErrors` object to several calls of `fromJson`, possibly changing `throwOn` in
between, and catches what the calls throw.
-/

namespace Verif

/-- A call of `fromJson<ty>(text, &errors)`, made with `errors.throwOn` being `throwOn`. -/
structure JsonCall where
  ty : Ty
  text : Str
  throwOn : BitVec 8

/-- What the caller gets. -/
inductive CallOutcome where
  | returned (v : Val)
  | threw (e : ApiExc)

/-- The object as left by the constructor. -/
def newErrors : ErrSt := ⟨[], some (lit "[document]"), none, 2 ^ 64 - 1, 0⟩

/-- The current record, member and index are the initial ones (whatever errors have been reported already). -/
def InitialContext (st : ErrSt) : Prop := st.record = some (lit "[document]") ∧ st.member = none ∧ st.index = 2 ^ 64 - 1

/-- Outcome `o` of call `c` with the errors object in state `st` (apart from `throwOn`), leaving it in state `st'`. -/
inductive CallGives (E : Env) (P : Parser) (st : ErrSt) (c : JsonCall) : CallOutcome → ErrSt → Prop
  | returned {n v st'} : fromJson E P n c.ty c.text (some { st with throwOn := c.throwOn }) = .ok v (some st') →
      CallGives E P st c (.returned v) st'
  | threw {n e st'} : fromJson E P n c.ty c.text (some { st with throwOn := c.throwOn }) = .exc e (some st') →
      CallGives E P st c (.threw e) st'

/-- The calls made one after another, each with its outcome and the state of the errors object afterwards. -/
inductive CallHistory (E : Env) (P : Parser) : ErrSt → List (JsonCall × CallOutcome × ErrSt) → Prop
  | nil {st} : CallHistory E P st []
  | cons {st c o st' rest} : CallGives E P st c o st' → CallHistory E P st' rest → CallHistory E P st ((c, o, st') :: rest)

/-- the state of the errors object after the calls -/
def lastState (st : ErrSt) : List (JsonCall × CallOutcome × ErrSt) → ErrSt
  | [] => st
  | (_, _, st') :: rest => lastState st' rest

/-- A part of the location of an error is as with a new errors object, or (if it is the initial one there) as found in the
object used. -/
def PartOfLocation {α : Type} (initial found : α) (x x0 : α) : Prop := x = x0 ∨ (x0 = initial ∧ x = found)

/-- `e` (reported by a call which found the errors object in state `st`) and `e0` (reported by the same call with a new errors
object) are about the same fault. -/
def SameFault (st : ErrSt) (e e0 : Err) : Prop :=
  e.kind = e0.kind ∧ e.expected = e0.expected ∧ e.actual = e0.actual ∧
  PartOfLocation (some (lit "[document]")) st.record e.record e0.record ∧
  PartOfLocation none st.member e.member e0.member ∧
  PartOfLocation (2 ^ 64 - 1) st.index e.index e0.index

/-- same outcome; thrown errors are about the same fault -/
inductive SameCallOutcome (st : ErrSt) : CallOutcome → CallOutcome → Prop
  | returned {v} : SameCallOutcome st (.returned v) (.returned v)
  | parse {e} : SameCallOutcome st (.threw (.parse e)) (.threw (.parse e))
  | err {e e0} : SameFault st e e0 → SameCallOutcome st (.threw (.err e)) (.threw (.err e0))

/-- the call ended because of a fatal error (as opposed to returning or rejecting the text) -/
def EndsFatally : CallOutcome → Prop
  | .threw (.err _) => True
  | _ => False

end Verif
