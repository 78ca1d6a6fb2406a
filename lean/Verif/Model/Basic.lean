/-!
# Basic vocabulary of the model

Byte strings and the outcome monad shared by the JSON and the binary model.
-/

namespace Verif

/-- Raw bytes: `std::string`, `const char *` contents and streams. -/
abbrev Str := List UInt8

/-- ASCII literal as bytes (string literals occurring in the C++ code). -/
def lit (s : String) : Str := s.toList.map (fun c => UInt8.ofNat c.toNat)

/-- What a C-string reader (`strlen`, `std::string::operator=(const char *)`) sees of a buffer which is followed by a
terminating NUL: everything before the first NUL. -/
def cstrOf (s : Str) : Str := s.takeWhile (· ≠ 0)

/-- The outcome of running a piece of C++ code.
* `ok a s`: returned `a`, state `s`
* `exc e s`: threw `e`, leaving state `s`
* `ub`: the execution has undefined behaviour
* `stuck`: the instantiation does not compile or the value does not belong to the type (never a run-time outcome)
* `fuel`: the recursion budget of the model was exhausted (the execution is longer than the budget) -/
inductive Res (ε σ α : Type) where
  | ok (a : α) (s : σ)
  | exc (e : ε) (s : σ)
  | ub
  | stuck
  | fuel
deriving DecidableEq, Repr

/-- Computations with state `σ` and exceptions `ε`. -/
def M (ε σ α : Type) : Type := σ → Res ε σ α

namespace M

variable {ε σ α β : Type}

def pure (a : α) : M ε σ α := fun s => .ok a s

def bind (m : M ε σ α) (f : α → M ε σ β) : M ε σ β := fun s =>
  match m s with
  | .ok a s' => f a s'
  | .exc e s' => .exc e s'
  | .ub => .ub
  | .stuck => .stuck
  | .fuel => .fuel

instance : Monad (M ε σ) where
  pure := M.pure
  bind := M.bind

/-- `throw e;` -/
def throw (e : ε) : M ε σ α := fun s => .exc e s
/-- undefined behaviour -/
def ub : M ε σ α := fun _ => .ub
/-- does not compile / ill-typed -/
def stuck : M ε σ α := fun _ => .stuck
/-- recursion budget exhausted -/
def outOfFuel : M ε σ α := fun _ => .fuel

@[simp] theorem pure_apply (a : α) (s : σ) : (Pure.pure a : M ε σ α) s = .ok a s := rfl
@[simp] theorem pure_apply' (a : α) (s : σ) : (M.pure a : M ε σ α) s = .ok a s := rfl
theorem bind_apply (m : M ε σ α) (f : α → M ε σ β) (s : σ) :
    (m >>= f) s = match m s with
      | .ok a s' => f a s'
      | .exc e s' => .exc e s'
      | .ub => .ub
      | .stuck => .stuck
      | .fuel => .fuel := rfl
@[simp] theorem throw_apply (e : ε) (s : σ) : (M.throw e : M ε σ α) s = .exc e s := rfl
@[simp] theorem ub_apply (s : σ) : (M.ub : M ε σ α) s = .ub := rfl
@[simp] theorem stuck_apply (s : σ) : (M.stuck : M ε σ α) s = .stuck := rfl
@[simp] theorem outOfFuel_apply (s : σ) : (M.outOfFuel : M ε σ α) s = .fuel := rfl

theorem bind_ok {m : M ε σ α} {f : α → M ε σ β} {s s' : σ} {a : α} (h : m s = .ok a s') :
    (m >>= f) s = f a s' := by rw [bind_apply, h]
theorem bind_exc {m : M ε σ α} {f : α → M ε σ β} {s s' : σ} {e : ε} (h : m s = .exc e s') :
    (m >>= f) s = .exc e s' := by rw [bind_apply, h]
theorem bind_ub {m : M ε σ α} {f : α → M ε σ β} {s : σ} (h : m s = .ub) :
    (m >>= f) s = .ub := by rw [bind_apply, h]
theorem bind_stuck {m : M ε σ α} {f : α → M ε σ β} {s : σ} (h : m s = .stuck) :
    (m >>= f) s = .stuck := by rw [bind_apply, h]
theorem bind_fuel {m : M ε σ α} {f : α → M ε σ β} {s : σ} (h : m s = .fuel) :
    (m >>= f) s = .fuel := by rw [bind_apply, h]

/-- A sequence returned normally iff both parts did. -/
theorem bind_eq_ok {m : M ε σ α} {f : α → M ε σ β} {s s'' : σ} {b : β} :
    (m >>= f) s = .ok b s'' ↔ ∃ a s', m s = .ok a s' ∧ f a s' = .ok b s'' := by
  rw [bind_apply]
  cases h : m s <;> simp [and_assoc]

/-- A sequence threw iff one of the parts did. -/
theorem bind_eq_exc {m : M ε σ α} {f : α → M ε σ β} {s s'' : σ} {e : ε} :
    (m >>= f) s = .exc e s'' ↔
      m s = .exc e s'' ∨ ∃ a s', m s = .ok a s' ∧ f a s' = .exc e s'' := by
  rw [bind_apply]
  cases h : m s <;> simp [and_assoc]

theorem bind_eq_ub {m : M ε σ α} {f : α → M ε σ β} {s : σ} :
    (m >>= f) s = .ub ↔ m s = .ub ∨ ∃ a s', m s = .ok a s' ∧ f a s' = .ub := by
  rw [bind_apply]
  cases h : m s <;> simp [and_assoc]

theorem bind_eq_fuel {m : M ε σ α} {f : α → M ε σ β} {s : σ} :
    (m >>= f) s = .fuel ↔ m s = .fuel ∨ ∃ a s', m s = .ok a s' ∧ f a s' = .fuel := by
  rw [bind_apply]
  cases h : m s <;> simp [and_assoc]

theorem bind_eq_stuck {m : M ε σ α} {f : α → M ε σ β} {s : σ} :
    (m >>= f) s = .stuck ↔ m s = .stuck ∨ ∃ a s', m s = .ok a s' ∧ f a s' = .stuck := by
  rw [bind_apply]
  cases h : m s <;> simp [and_assoc]

theorem pure_bind' (a : α) (f : α → M ε σ β) : (Pure.pure a >>= f) = f a := rfl
theorem bind_pure' (m : M ε σ α) : (m >>= fun a => Pure.pure a) = m := by
  funext s; rw [bind_apply]; cases m s <;> rfl
theorem bind_assoc' {γ : Type} (m : M ε σ α) (f : α → M ε σ β) (g : β → M ε σ γ) :
    ((m >>= f) >>= g) = (m >>= fun a => f a >>= g) := by
  funext s; simp only [bind_apply]; cases m s <;> rfl

end M

/-- Read from / modify the state. -/
def M.get {ε σ : Type} : M ε σ σ := fun s => .ok s s
def M.modify {ε σ : Type} (f : σ → σ) : M ε σ Unit := fun s => .ok () (f s)

@[simp] theorem M.get_apply {ε σ : Type} (s : σ) : (M.get : M ε σ σ) s = .ok s s := rfl
@[simp] theorem M.modify_apply {ε σ : Type} (f : σ → σ) (s : σ) :
    (M.modify f : M ε σ Unit) s = .ok () (f s) := rfl

end Verif
