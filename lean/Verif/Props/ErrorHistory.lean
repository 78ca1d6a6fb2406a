import Verif.Lemmas.ErrHistory
import Verif.Demo

/-!
# C83: one errors object for several calls
-/

namespace Verif

/-- `liftP` of a computation which returned or threw -/
theorem liftP_returned {α : Type} {m : PM α} {s s' : Option ErrSt} {a : α} : liftP m s = .ok a s' ↔ m s = .ok a s' := by
  unfold liftP
  cases m s <;> simp

theorem liftP_threw {α : Type} {m : PM α} {s s' : Option ErrSt} {x : ApiExc} :
    liftP m s = .exc x s' ↔ ∃ e, x = .err e ∧ m s = .exc e s' := by
  unfold liftP
  cases m s <;> simp
  exact fun _ => eq_comm

theorem sim_start (st : ErrSt) (f : BitVec 8) : ErrSim st { st with throwOn := f } { newErrors with throwOn := f } :=
  ⟨rfl, Or.inr ⟨rfl, rfl⟩, Or.inr ⟨rfl, rfl⟩, Or.inr ⟨rfl, rfl⟩, [], (List.append_nil _).symm, .nil⟩

/-- C83: the outcome of a call does not depend on the errors the object contains already, nor on the context earlier calls have
left in it: the same call with a new errors object (and the same flags) returns the same object or throws an exception about the
same fault. The errors the call adds are those it would add to a new object, with the same kinds, types and locations, except
that where a part of the location would be the initial one it may be what the object contains. -/
theorem C83_same_as_with_new_object (E : Env) (P : Parser) {st : ErrSt} {c : JsonCall} {o : CallOutcome} {st' : ErrSt}
    (h : CallGives E P st c o st') :
    ∃ o0 st0 new, CallGives E P newErrors c o0 st0 ∧ SameCallOutcome st o o0 ∧
      st'.errs = st.errs ++ new ∧ List.Forall₂ (SameFault st) new st0.errs := by
  cases h with
  | @returned n v st' h =>
    rcases fromJson_runs E P n c.ty c.text with h1 | ⟨e, -, h1⟩ | ⟨m, h1, h2, -⟩
    · rw [h1] at h; cases h
    · rw [h1] at h; cases h
    · rw [h1] at h
      have h := liftP_returned.1 h
      have h3 := h2 st _ _ (sim_start st c.throwOn)
      rw [h] at h3
      generalize hr : m (some { newErrors with throwOn := c.throwOn }) = r at h3
      cases h3 with
      | ok h4 =>
        obtain ⟨es, h5, h6⟩ := h4.errs
        exact ⟨_, _, es, .returned (n := n) (by rw [h1]; exact liftP_returned.2 hr), .returned, h5, h6⟩
  | @threw n x st' h =>
    rcases fromJson_runs E P n c.ty c.text with h1 | ⟨e, -, h1⟩ | ⟨m, h1, h2, -⟩
    · rw [h1] at h; cases h
    · rw [h1] at h; cases h
      exact ⟨_, _, [], .threw (n := n) (by rw [h1]; rfl), .parse, (List.append_nil _).symm, .nil⟩
    · rw [h1] at h
      obtain ⟨e, rfl, h'⟩ := liftP_threw.1 h
      have h3 := h2 st _ _ (sim_start st c.throwOn)
      rw [h'] at h3
      generalize hr : m (some { newErrors with throwOn := c.throwOn }) = r at h3
      cases h3 with
      | exc h7 h4 =>
        obtain ⟨es, h5, h6⟩ := h4.errs
        exact ⟨_, _, es, .threw (n := n) (by rw [h1]; exact liftP_threw.2 ⟨_, rfl, hr⟩), .err h7, h5, h6⟩

/-- Conversely, whatever a call gives with a new errors object it gives with any other one. -/
theorem C83_same_with_any_object (E : Env) (P : Parser) {c : JsonCall} {o0 : CallOutcome} {st0 : ErrSt}
    (h : CallGives E P newErrors c o0 st0) (st : ErrSt) :
    ∃ o st' new, CallGives E P st c o st' ∧ SameCallOutcome st o o0 ∧
      st'.errs = st.errs ++ new ∧ List.Forall₂ (SameFault st) new st0.errs := by
  cases h with
  | @returned n v st' h =>
    rcases fromJson_runs E P n c.ty c.text with h1 | ⟨e, -, h1⟩ | ⟨m, h1, h2, -⟩
    · rw [h1] at h; cases h
    · rw [h1] at h; cases h
    · rw [h1] at h
      have h := liftP_returned.1 h
      have h3 := h2 st _ _ (sim_start st c.throwOn)
      rw [h] at h3
      generalize hr : m (some { st with throwOn := c.throwOn }) = r at h3
      cases h3 with
      | ok h4 =>
        obtain ⟨es, h5, h6⟩ := h4.errs
        exact ⟨_, _, es, .returned (n := n) (by rw [h1]; exact liftP_returned.2 hr), .returned, h5, h6⟩
  | @threw n x st' h =>
    rcases fromJson_runs E P n c.ty c.text with h1 | ⟨e, -, h1⟩ | ⟨m, h1, h2, -⟩
    · rw [h1] at h; cases h
    · rw [h1] at h; cases h
      exact ⟨_, { st with throwOn := c.throwOn }, [], .threw (n := n) (by rw [h1]; rfl), .parse, (List.append_nil _).symm, .nil⟩
    · rw [h1] at h
      obtain ⟨e, rfl, h'⟩ := liftP_threw.1 h
      have h3 := h2 st _ _ (sim_start st c.throwOn)
      rw [show m (some { newErrors with throwOn := c.throwOn }) = _ from h'] at h3
      generalize hr : m (some { st with throwOn := c.throwOn }) = r at h3
      cases h3 with
      | exc h7 h4 =>
        obtain ⟨es, h5, h6⟩ := h4.errs
        exact ⟨_, _, es, .threw (n := n) (by rw [h1]; exact liftP_threw.2 ⟨_, rfl, hr⟩), .err h7, h5, h6⟩

/-- C83: the context a call leaves. A call which returns or rejects the text leaves the record and the member as they were and
the index as it was or reset; a call which ends with a fatal error leaves all three where that error is located. -/
theorem C83_context_left (E : Env) (P : Parser) {st : ErrSt} {c : JsonCall} {o : CallOutcome} {st' : ErrSt}
    (h : CallGives E P st c o st') :
    (¬ EndsFatally o → st'.record = st.record ∧ st'.member = st.member ∧ (st'.index = st.index ∨ st'.index = 2 ^ 64 - 1)) ∧
    ∀ e, o = .threw (.err e) → st'.record = e.record ∧ st'.member = e.member ∧ st'.index = e.index := by
  cases h with
  | @returned n v st' h =>
    refine ⟨fun _ => ?_, fun e he => by cases he⟩
    rcases fromJson_runs E P n c.ty c.text with h1 | ⟨e, -, h1⟩ | ⟨m, h1, -, -, h2⟩
    · rw [h1] at h; cases h
    · rw [h1] at h; cases h
    · rw [h1] at h
      have h3 := h2.2 { st with throwOn := c.throwOn }
      rw [liftP_returned.1 h] at h3
      obtain ⟨st1, new, h4, -, -, h5, h6, h7, -⟩ := h3
      cases h4
      exact ⟨h5, h6, h7⟩
  | @threw n x st' h =>
    rcases fromJson_runs E P n c.ty c.text with h1 | ⟨e, -, h1⟩ | ⟨m, h1, -, h2, -⟩
    · rw [h1] at h; cases h
    · rw [h1] at h; cases h
      exact ⟨fun _ => ⟨rfl, rfl, Or.inl rfl⟩, fun e' he => by cases he⟩
    · rw [h1] at h
      obtain ⟨e, rfl, h'⟩ := liftP_threw.1 h
      refine ⟨fun hf => (hf trivial).elim, fun e' he => ?_⟩
      cases he
      obtain ⟨st1, h4, h5⟩ := h2 _ _ _ h'
      cases h4
      exact h5

theorem sameFault_initial {st : ErrSt} (hc : InitialContext st) {e e0 : Err} (h : SameFault st e e0) : e = e0 := by
  obtain ⟨h1, h2, h3, h4, h5, h6⟩ := h
  have part : ∀ {α : Type} {i x x0 : α}, PartOfLocation i i x x0 → x = x0 := by
    rintro α i x x0 (h | ⟨h, h'⟩)
    · exact h
    · rw [h, h']
  rw [hc.1] at h4
  rw [hc.2.1] at h5
  rw [hc.2.2] at h6
  have h4 := part h4
  have h5 := part h5
  have h6 := part h6
  cases e; cases e0; simp_all

/-- C83: as long as the context is the initial one (also if the caller has restored it), the outcome and the errors added are
exactly those with a new errors object. -/
theorem C83_initial_context (E : Env) (P : Parser) {st : ErrSt} {c : JsonCall} {o : CallOutcome} {st' : ErrSt}
    (hc : InitialContext st) (h : CallGives E P st c o st') :
    ∃ st0, CallGives E P newErrors c o st0 ∧ st'.errs = st.errs ++ st0.errs := by
  obtain ⟨o0, st0, new, h1, h2, h3, h4⟩ := C83_same_as_with_new_object E P h
  have h5 : new = st0.errs := by
    have : List.Forall₂ (· = ·) new st0.errs := h4.imp (fun _ _ => sameFault_initial hc)
    exact List.forall₂_eq_eq_eq ▸ this
  have h6 : o = o0 := by
    cases h2 with
    | returned => rfl
    | parse => rfl
    | err hs => rw [sameFault_initial hc hs]
  subst h5; subst h6
  exact ⟨st0, h1, h3⟩

/-- C83: after calls which returned or rejected the text, starting with an errors object with initial context: the context is
still the initial one, and the list consists of the errors which were there before followed by those of the calls in the order
in which they were made, each exactly as with an errors object of its own. -/
theorem C83_errors_of_all_calls (E : Env) (P : Parser) {st : ErrSt} {h : List (JsonCall × CallOutcome × ErrSt)}
    (hh : CallHistory E P st h) (hc : InitialContext st) (hf : ∀ x ∈ h, ¬ EndsFatally x.2.1) :
    InitialContext (lastState st h) ∧
    ∃ own : List ErrSt, own.length = h.length ∧
      (lastState st h).errs = st.errs ++ (own.map ErrSt.errs).flatten ∧
      ∀ (i : Nat) (x : JsonCall × CallOutcome × ErrSt) (st0 : ErrSt), h[i]? = some x → own[i]? = some st0 →
        CallGives E P newErrors x.1 x.2.1 st0 := by
  induction hh with
  | nil => exact ⟨hc, [], rfl, by simp [lastState], fun i x st0 h => by simp at h⟩
  | @cons st c o st' rest h1 h2 ih =>
    obtain ⟨h3, h4, h5⟩ := (C83_context_left E P h1).1 (hf _ (List.mem_cons_self ..))
    have hc' : InitialContext st' := ⟨h3.trans hc.1, h4.trans hc.2.1, by rcases h5 with h5 | h5; exacts [h5.trans hc.2.2, h5]⟩
    obtain ⟨h6, own, h7, h8, h9⟩ := ih hc' (fun x hx => hf x (List.mem_cons_of_mem _ hx))
    obtain ⟨st0, h10, h11⟩ := C83_initial_context E P hc h1
    refine ⟨h6, st0 :: own, by simp [h7], ?_, ?_⟩
    · show (lastState st' rest).errs = _
      rw [h8, h11]; simp
    · intro i x s hx hs
      cases i with
      | zero =>
        simp only [List.getElem?_cons_zero, Option.some.injEq] at hx hs
        subst hx; subst hs; exact h10
      | succ i =>
        simp only [List.getElem?_cons_succ] at hx hs
        exact h9 i x s hx hs

/-- C83, in general: the outcomes and the errors of any sequence of calls, in terms of the calls made with errors objects of
their own. -/
theorem C83_history (E : Env) (P : Parser) {st : ErrSt} {h : List (JsonCall × CallOutcome × ErrSt)}
    (hh : CallHistory E P st h) :
    ∃ news : List (List Err), news.length = h.length ∧ (lastState st h).errs = st.errs ++ news.flatten ∧
      ∀ (i : Nat) (x : JsonCall × CallOutcome × ErrSt) (new : List Err), h[i]? = some x → news[i]? = some new →
        ∃ o0 st0, CallGives E P newErrors x.1 o0 st0 ∧ SameCallOutcome (lastState st (h.take i)) x.2.1 o0 ∧
          List.Forall₂ (SameFault (lastState st (h.take i))) new st0.errs := by
  induction hh with
  | nil => exact ⟨[], rfl, by simp [lastState], fun i x new h => by simp at h⟩
  | @cons st c o st' rest h1 h2 ih =>
    obtain ⟨news, h7, h8, h9⟩ := ih
    obtain ⟨o0, st0, new, h3, h4, h5, h6⟩ := C83_same_as_with_new_object E P h1
    refine ⟨new :: news, by simp [h7], ?_, ?_⟩
    · show (lastState st' rest).errs = _
      rw [h8, h5]; simp
    · intro i x s hx hs
      cases i with
      | zero =>
        simp only [List.getElem?_cons_zero, Option.some.injEq] at hx hs
        subst hx; subst hs; exact ⟨o0, st0, h3, h4, h6⟩
      | succ i =>
        simp only [List.getElem?_cons_succ] at hx hs
        exact h9 i x s hx hs

/-- C83, limit: after a fatal error the context is not the initial one. A later call for a document which is not an object at
all reports the error as if it was located where the earlier one was, and that is so in every case. -/
theorem C83_limit_location_of_earlier_error (E : Env) (P : Parser) {st : ErrSt} {c : JsonCall} {e : Err} {st' : ErrSt}
    (h : CallGives E P st c (.threw (.err e)) st') {k : ClassId} {text : Str} {j : Json} (hp : P text = .ok j)
    (hj : j.jtype ≠ .object) :
    ∃ st'', CallGives E P st' ⟨.cls k, text, 0⟩ (.returned (E.valInit (.cls k))) st'' ∧
      st''.errs = st'.errs ++ [⟨.typeMismatch, .object, j.jtype, e.record, e.member, e.index⟩] := by
  obtain ⟨h1, h2, h3⟩ := (C83_context_left E P h).2 e rfl
  refine ⟨{ st' with throwOn := 0, errs := st'.errs ++ [⟨.typeMismatch, .object, j.jtype, e.record, e.member, e.index⟩] },
    .returned (n := 0) ?_, rfl⟩
  have : fromJson E P 0 (.cls k) text = topMismatch E (.cls k) j := by
    simp only [fromJson, parseDoc, hp]
    rw [M.pure_bind']
    split
    · exact absurd rfl hj
    · rfl
  rw [this]
  simp [topMismatch, liftP, M.bind_apply, report, ErrSt.push, ErrSt.mk', jtypeOf, h1, h2, h3]

/-! ## Examples -/

namespace HistoryDemo

open Demo (env)

def doc : Json := .obj [(⟨lit "i", .copied⟩, .str (lit "x")), (⟨lit "s", .copied⟩, .arr [.str (lit "a"), .num (.int 5)])]

/-- `}` is not valid, `{` stands for `doc`, everything else for `null` -/
def parser : Parser := fun s => if s = [125] then .error ⟨1, 0⟩ else if s = [123] then .ok doc else .ok .null

def eI : Err := ⟨.typeMismatch, .number, .string, some (lit "Base"), some (lit "i"), 2 ^ 64 - 1⟩
def eS : Err := ⟨.typeMismatch, .string, .number, some (lit "Derived"), some (lit "s"), 1⟩
def eTop : Err := ⟨.typeMismatch, .object, .null, some (lit "[document]"), none, 2 ^ 64 - 1⟩

def obj : Val := .obj [(Demo.fI.key, .indet), (Demo.fM.key, .map []), (Demo.fS.key, .list [.str (lit "a"), .str []]), (Demo.fK.key, .int 7)]
def st1 : ErrSt := ⟨[eI, eS], some (lit "[document]"), none, 2 ^ 64 - 1, 0⟩
def st2 : ErrSt := ⟨[eI, eS], some (lit "[document]"), none, 2 ^ 64 - 1, 1⟩
def st3 : ErrSt := ⟨[eI, eS, eTop], some (lit "[document]"), none, 2 ^ 64 - 1, 0⟩

/-- a call reporting two errors, one rejecting the text, one reporting an error for the document as a whole -/
def calls : List (JsonCall × CallOutcome × ErrSt) :=
  [(⟨.cls 1, [123], 0⟩, .returned obj, st1), (⟨.cls 1, [125], 1⟩, .threw (.parse ⟨1, 0⟩), st2),
   (⟨.cls 2, [110], 0⟩, .returned (.obj Demo.nodeInit), st3)]

theorem history : CallHistory env parser newErrors calls :=
  .cons (.returned (n := 6) rfl) (.cons (.threw (n := 6) rfl) (.cons (.returned (n := 6) rfl) .nil))

example := C83_errors_of_all_calls env parser history ⟨rfl, rfl, rfl⟩
  (by intro x hx; simp only [calls, List.mem_cons, List.not_mem_nil, or_false] at hx
      rcases hx with rfl | rfl | rfl <;> exact id)
example := C83_history env parser history

/-- the first call with type mismatches being fatal -/
def left : ErrSt := ⟨[eI], some (lit "Base"), some (lit "i"), 2 ^ 64 - 1, 1⟩
theorem throws : CallGives env parser newErrors ⟨.cls 1, [123], 1⟩ (.threw (.err eI)) left := .threw (n := 6) rfl

example : left.record = some (lit "Base") ∧ left.member = some (lit "i") ∧ left.index = 2 ^ 64 - 1 :=
  (C83_context_left env parser throws).2 eI rfl
example := C83_same_as_with_new_object env parser throws
example := C83_same_with_any_object env parser throws st3
example := C83_initial_context env parser (st := newErrors) ⟨rfl, rfl, rfl⟩ throws
/-- the next document is `null` and is reported as if it was the member `i` of `Base` -/
example := C83_limit_location_of_earlier_error env parser throws (k := 2) (text := [110]) (j := .null) rfl (by simp [Json.jtype])

end HistoryDemo

end Verif
