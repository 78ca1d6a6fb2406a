import Verif.Lemmas.ErrInv
import Verif.Spec.JsonTypes
import Verif.Demo

/-!
# JSON error handling: C04, C05, C06, C07, C08, C10, C20

`pull E n t j v s` runs deserialisation of the JSON value `j` into an object `v` of type `t`; `s` is the error object
(`none`: null pointer); `n` is an arbitrary recursion budget.
-/

namespace Verif

open Demo (env)

/-- C05: whether a deserialisation returns or throws, the errors present before are a prefix of the errors afterwards and
the caller's `throwOn` flags are unchanged. -/
theorem C05_errors_append_only (E : Env) (n : Nat) (t : Ty) (j : Json) (v : Val) (st : ErrSt) :
    (∀ v' s', pull E n t j v (some st) = .ok v' s' →
      ∃ st' new, s' = some st' ∧ st'.errs = st.errs ++ new ∧ st'.throwOn = st.throwOn) ∧
    (∀ e s', pull E n t j v (some st) = .exc e s' →
      ∃ st' new, s' = some st' ∧ st'.errs = st.errs ++ new ∧ st'.throwOn = st.throwOn) := by
  have h := (pull_errInv E n t j v).2 st
  constructor
  · intro v' s' hr
    rw [hr] at h
    obtain ⟨st', new, h1, h2, h3, -⟩ := h
    exact ⟨st', new, h1, h2, h3⟩
  · intro e s' hr
    rw [hr] at h
    obtain ⟨st', new, h1, h2, h3, -⟩ := h
    exact ⟨st', new ++ [e], h1, h2, h3⟩

/-- a document with two type errors and a nested array, for the examples below -/
def exDoc : Json := .obj [
  (⟨lit "i", .copied⟩, .str (lit "x")),
  (⟨lit "s", .copied⟩, .arr [.str (lit "a"), .num (.int 5)])]

example : pull env 6 (.cls 1) exDoc (.obj Demo.derivedInit) (some .init) =
    .ok (.obj (Demo.derivedInit.set Demo.fS.key (.list [.str (lit "a"), .str []])))
      (some { ErrSt.init with errs := [
        ⟨.typeMismatch, .number, .string, some (lit "Base"), some (lit "i"), noIndex⟩,
        ⟨.typeMismatch, .string, .number, some (lit "Derived"), some (lit "s"), 1⟩] }) := by rfl

/-- C06: after a deserialisation which returns, current record and member are the previous ones and the current index is
the previous one or has been reset to `noIndex`. -/
theorem C06_context_restored (E : Env) (n : Nat) (t : Ty) (j : Json) (v v' : Val) (st : ErrSt) (s' : Option ErrSt)
    (h : pull E n t j v (some st) = .ok v' s') :
    ∃ st', s' = some st' ∧ st'.record = st.record ∧ st'.member = st.member ∧
      (st'.index = st.index ∨ st'.index = noIndex) := by
  have h' := (pull_errInv E n t j v).2 st
  rw [h] at h'
  obtain ⟨st', new, h1, -, -, h4, h5, h6, -⟩ := h'
  exact ⟨st', h1, h4, h5, h6⟩

/-- C06, converse part: the index is in fact lost whenever an array is read (here: any array into any vector), and the
context is not restored when an error is thrown. -/
theorem C06_index_lost (E : Env) (n : Nat) (t : Ty) (js : List Json) (v v' : Val) (st : ErrSt) (s' : Option ErrSt)
    (h : pull E (n + 1) (.vec t) (.arr js) v (some st) = .ok v' s') :
    ∃ st', s' = some st' ∧ st'.index = noIndex := by
  have key : ∀ (js : List Json) i (vs vs' : List Val) s s'', forIdx (vecItem E (pull E n) t) js i vs s = .ok vs' s'' →
      ∀ st'', s'' = some st'' → st''.index = noIndex := by
    intro js
    induction js with
    | nil =>
      intro i vs vs' s s'' h st'' hs
      subst hs
      simp only [forIdx, setIndex, M.bind_apply, M.modify_apply, M.pure_apply] at h
      cases s with
      | none => cases h
      | some st => cases h; rfl
    | cons j js ih =>
      intro i vs vs' s s'' h st'' hs
      simp only [forIdx] at h
      obtain ⟨_, _, _, h⟩ := M.bind_eq_ok.1 h
      obtain ⟨_, _, _, h⟩ := M.bind_eq_ok.1 h
      exact ih _ _ _ _ _ h _ hs
  obtain ⟨st', hs, _⟩ := C06_context_restored E (n + 1) (.vec t) (.arr js) v v' st s' h
  refine ⟨st', hs, ?_⟩
  obtain ⟨vs, s2, h1, h2⟩ := M.bind_eq_ok.1 (show (forIdx (vecItem E (pull E n) t) js 0 [] >>= fun vs =>
    pure (Val.list vs)) (some st) = _ from h)
  cases h2
  exact key js 0 [] vs _ _ h1 st' hs

/-- inside the outer array the second item is reported without index because the first item was itself an array -/
example : pull env 6 (.set false false (.vec (.int .i32))) (.arr [.arr [.num (.int 1)], .arr [.num (.int 1)]]) (.list [])
      (some .init) =
    .ok (.list [.list [.int 1]])
      (some { ErrSt.init with errs := [⟨.unexpectedDuplicate, .array, .array, some (lit "[document]"), none, noIndex⟩] }) := by
  rfl

/-- C07: (a) with a null errors pointer nothing is thrown; (b) if an error is thrown it is of a kind flagged fatal, it is
the last reported error, and no error reported earlier during the call is of a fatal kind; (c) if nothing is thrown, no
reported error is of a fatal kind; (d) in particular nothing is thrown if no kind is flagged. -/
theorem C07_fatal_iff_flagged (E : Env) (n : Nat) (t : Ty) (j : Json) (v : Val) (st : ErrSt) :
    (∀ e s', pull E n t j v none ≠ .exc e s') ∧
    (∀ e s', pull E n t j v (some st) = .exc e s' →
      Fatal st.throwOn e.kind ∧
      ∃ st' new, s' = some st' ∧ st'.errs = st.errs ++ new ++ [e] ∧ ∀ e' ∈ new, ¬ Fatal st.throwOn e'.kind) ∧
    (∀ v' s', pull E n t j v (some st) = .ok v' s' →
      ∃ st' new, s' = some st' ∧ st'.errs = st.errs ++ new ∧ ∀ e' ∈ new, ¬ Fatal st.throwOn e'.kind) ∧
    (NoneFatal st.throwOn → ∀ e s', pull E n t j v (some st) ≠ .exc e s') := by
  have h0 := (pull_errInv E n t j v).1
  have h := (pull_errInv E n t j v).2 st
  have hb : ∀ e s', pull E n t j v (some st) = .exc e s' →
      Fatal st.throwOn e.kind ∧
      ∃ st' new, s' = some st' ∧ st'.errs = st.errs ++ new ++ [e] ∧ ∀ e' ∈ new, ¬ Fatal st.throwOn e'.kind := by
    intro e s' hr
    rw [hr] at h
    obtain ⟨st', new, h1, h2, h3, h4, h5⟩ := h
    exact ⟨h5, st', new, h1, by rw [h2, List.append_assoc], h4⟩
  refine ⟨?_, hb, ?_, ?_⟩
  · intro e s' hr
    rw [hr] at h0
    exact h0
  · intro v' s' hr
    rw [hr] at h
    obtain ⟨st', new, h1, h2, h3, h4, h5, h6, h7⟩ := h
    exact ⟨st', new, h1, h2, h7⟩
  · intro hn e s' hr
    exact hn _ (hb e s' hr).1

/-- the first error of `exDoc` is thrown when type mismatches are fatal; the member context remains set -/
example : pull env 6 (.cls 1) exDoc (.obj Demo.derivedInit) (some { ErrSt.init with throwOn := 1 }) =
    .exc ⟨.typeMismatch, .number, .string, some (lit "Base"), some (lit "i"), noIndex⟩
      (some { ErrSt.init with
        throwOn := 1, record := some (lit "Base"), member := some (lit "i"),
        errs := [⟨.typeMismatch, .number, .string, some (lit "Base"), some (lit "i"), noIndex⟩] }) := by rfl
/-- ... but not when only array size mismatches are fatal -/
example : Fatal 1 .typeMismatch ∧ ¬ Fatal 2 .typeMismatch ∧ NoneFatal 0 ∧ Fatal 255 .unexpectedDuplicate ∧
    ¬ Fatal 255 .invalidVariantIndex := by
  refine ⟨by decide, by decide, ?_, by decide, by decide⟩
  intro k; cases k <;> decide

/-- C08: if deserialisation with a null errors pointer returns a value, deserialisation with any errors object in which
nothing is fatal returns the same value; conversely, what is returned with an errors object is returned with a null
pointer, too, unless that execution is undefined (which is the case for duplicates in sets, see C09). -/
theorem C08_errors_do_not_change_result (E : Env) (n : Nat) (t : Ty) (j : Json) (v v' : Val) (st : ErrSt)
    (hst : NoneFatal st.throwOn) :
    (∀ s', pull E n t j v none = .ok v' s' → ∃ st', pull E n t j v (some st) = .ok v' (some st')) ∧
    (∀ s', pull E n t j v (some st) = .ok v' s' →
      pull E n t j v none = .ok v' none ∨ pull E n t j v none = .ub) := by
  have h := pull_nullInv E n t j v st hst
  constructor
  · intro s' hr
    rw [hr] at h
    obtain ⟨-, st', h1, -⟩ := h
    exact ⟨st', h1⟩
  · intro s' hr
    cases hn : pull E n t j v none with
    | ok a s =>
      rw [hn] at h
      obtain ⟨rfl, st', h1, -⟩ := h
      rw [hr] at h1
      cases h1
      exact Or.inl rfl
    | exc e s => rw [hn] at h; exact h.elim
    | ub => exact Or.inr rfl
    | stuck => rw [hn, hr] at h; cases h
    | fuel => rw [hn, hr] at h; cases h

example : NoneFatal ErrSt.init.throwOn ∧
    pull env 6 (.cls 1) exDoc (.obj Demo.derivedInit) none =
      .ok (.obj (Demo.derivedInit.set Demo.fS.key (.list [.str (lit "a"), .str []]))) none := by
  refine ⟨?_, by rfl⟩
  intro k; cases k <;> decide

/-! ## Type mismatches -/

/-- The type reported as expected: `acceptedType` with three exceptions. -/
def reportedType (t : Ty) : Option JType :=
  match t with
  | .pair _ _ => some .object
  | .tuple _ => some .object
  | .map _ true _ _ => some .array
  | t => acceptedType t

/-- Running `report` with and without errors object. -/
theorem report_spec (k : ErrKind) (exp act : JType) (st : ErrSt) :
    report k exp act none = .ok () none ∧
    ∃ e, ErrAt st k exp act e ∧
      report k exp act (some st) =
        if Fatal st.throwOn k then .exc e (some { st with errs := st.errs ++ [e] })
        else .ok () (some { st with errs := st.errs ++ [e] }) := by
  refine ⟨rfl, ⟨k, exp, act, st.record, st.member, st.index⟩, ⟨rfl, rfl, rfl, rfl, rfl, rfl⟩, ?_⟩
  by_cases h : Fatal st.throwOn k
  · rw [if_pos h]
    simp only [report]
    rw [if_pos ((fatal_iff _ _).1 h)]
    rfl
  · rw [if_neg h]
    simp only [report]
    rw [if_neg (fun h' => h ((fatal_iff _ _).2 h'))]
    rfl

/-- Reporting an error and returning the previous value. -/
theorem report_keep_spec (k : ErrKind) (exp act : JType) (v : Val) (st : ErrSt) :
    ((do report k exp act; pure v) : PM Val) none = .ok v none ∧
    ∃ e, ErrAt st k exp act e ∧
      ((do report k exp act; pure v) : PM Val) (some st) =
        if Fatal st.throwOn k then .exc e (some { st with errs := st.errs ++ [e] })
        else .ok v (some { st with errs := st.errs ++ [e] }) := by
  obtain ⟨h0, e, he, hr⟩ := report_spec k exp act st
  refine ⟨by rw [M.bind_apply, h0]; rfl, e, he, ?_⟩
  rw [M.bind_apply, hr]
  by_cases h : Fatal st.throwOn k
  · rw [if_pos h, if_pos h]
  · rw [if_neg h, if_neg h]; rfl

theorem mismatch_eq {E : Env} {n : Nat} {t : Ty} {j : Json} {v : Val} (hc : (acceptedType t).isSome)
    (hs : PullSupported E t) (hn : ¬ Accepts t j) :
    ∃ exp, reportedType t = some exp ∧
      pull E (n + 1) t j v = (do report .typeMismatch exp j.jtype; pure v : PM Val) := by
  have bad : ∀ {jt : JType}, acceptedType t = some jt → (∀ u, t ≠ .enum u) → j.jtype ≠ jt := by
    intro jt h hne e
    apply hn
    refine ⟨by rw [h, e], ?_⟩
    split
    · exact absurd rfl (hne _)
    · trivial
  cases t with
  | enum u =>
    refine ⟨.number, rfl, ?_⟩
    have : enumNum (!u.signed) j = none := by
      cases j with
      | num m =>
        cases m with
        | dbl d => rfl
        | int i =>
          have h1 : ¬ EnumNumber u.signed (.num (.int i)) := fun h => hn ⟨rfl, h⟩
          simp only [enumNum]
          cases hsg : u.signed <;> simp only [hsg, EnumNumber] at h1 <;>
            simp [IntTy.inRange, IntTy.lo, IntTy.hi, IntTy.card, IntTy.signed, IntTy.bytes] <;> simp_all
      | _ => rfl
    show pullStep _ _ _ _ _ = _
    simp only [pullStep, this]
    rfl
  | int it =>
    refine ⟨.number, rfl, ?_⟩
    have hb := bad (jt := .number) rfl (by simp)
    obtain ⟨h1, h2, h3⟩ := hs
    cases it <;> first | (exact absurd rfl h1) | (exact absurd rfl h2) | (exact absurd rfl h3) |
      (cases j <;> first | exact absurd rfl hb | rfl)
  | map h m k v' =>
    have hk : k = .str := hs
    subst hk
    have hb := bad (jt := .object) rfl (by simp)
    cases m with
    | true => exact ⟨.array, rfl, by cases j <;> first | exact absurd rfl hb | rfl⟩
    | false => exact ⟨.object, rfl, by cases j <;> first | exact absurd rfl hb | rfl⟩
  | cls c =>
    obtain ⟨ci, h1, h2⟩ := hs
    have hb := bad (jt := .object) rfl (by simp)
    refine ⟨.object, rfl, ?_⟩
    show pullStep _ _ _ _ _ = _
    simp only [pullStep, h1, h2, Bool.true_eq_false, if_false]
    cases j <;> first | exact absurd rfl hb | rfl
  | pair a b =>
    have hb := bad (jt := .array) rfl (by simp)
    exact ⟨.object, rfl, by cases j <;> first | exact absurd rfl hb | rfl⟩
  | tuple ts =>
    have hb := bad (jt := .array) rfl (by simp)
    exact ⟨.object, rfl, by cases j <;> first | exact absurd rfl hb | rfl⟩
  | opt _ => cases hc
  | uptr _ => cases hc
  | sptr _ => cases hc
  | mono => cases hc
  | dateTime => cases hc
  | timeSpan => cases hc
  | bool | f32 | f64 | str | cstr | sview | vec | set | variant =>
    refine ⟨_, rfl, ?_⟩
    have hb := bad rfl (by simp)
    cases j <;> first | exact absurd rfl hb | rfl

/-- C04: reading a JSON value of an unacceptable type leaves the object unchanged; with an errors object exactly one
TypeMismatch error naming the actual JSON type and the current context is appended; it is thrown iff type mismatches are
flagged fatal. -/
theorem C04_type_mismatch (E : Env) (n : Nat) (t : Ty) (j : Json) (v : Val) (st : ErrSt)
    (hc : (acceptedType t).isSome) (hs : PullSupported E t) (hn : ¬ Accepts t j) :
    pull E (n + 1) t j v none = .ok v none ∧
    ∃ e exp, ErrAt st .typeMismatch exp j.jtype e ∧
      pull E (n + 1) t j v (some st) =
        if Fatal st.throwOn .typeMismatch then .exc e (some { st with errs := st.errs ++ [e] })
        else .ok v (some { st with errs := st.errs ++ [e] }) := by
  obtain ⟨exp, -, he⟩ := mismatch_eq (n := n) (v := v) hc hs hn
  rw [he]
  obtain ⟨h1, e, h2, h3⟩ := report_keep_spec .typeMismatch exp j.jtype v st
  exact ⟨h1, e, exp, h2, h3⟩

example : (acceptedType (.cls 1)).isSome ∧ PullSupported env (.cls 1) ∧ ¬ Accepts (.cls 1) (.arr [exDoc]) :=
  ⟨rfl, ⟨_, rfl, rfl⟩, by simp [Accepts, acceptedType, Json.jtype]⟩
example : ¬ Accepts (.enum .u8) (.num (.int (-1))) ∧ Accepts (.enum .i8) (.num (.int (-1))) := by
  constructor
  · intro h; simpa [EnumNumber, IntTy.signed] using h.2
  · exact ⟨rfl, by simp [EnumNumber, IntTy.signed]⟩

/-- C20: the expected type of a TypeMismatch error is the JSON type the target accepts, except for `std::pair` and
`std::tuple`, for which `Object` is reported although arrays are accepted, and for multimaps, for which `Array` is reported
although objects are accepted. -/
theorem C20_expected_type (E : Env) (n : Nat) (t : Ty) (j : Json) (v v' : Val) (st st' : ErrSt)
    (hc : (acceptedType t).isSome) (hs : PullSupported E t) (hn : ¬ Accepts t j)
    (h : pull E (n + 1) t j v (some st) = .ok v' (some st')) :
    ∃ e, st'.errs = st.errs ++ [e] ∧
      (acceptedType t = some e.expected ↔
        ¬ ((∃ a b, t = .pair a b) ∨ (∃ ts, t = .tuple ts) ∨ (∃ h k u, t = .map h true k u))) ∧
      (((∃ a b, t = .pair a b) ∨ (∃ ts, t = .tuple ts)) → e.expected = .object ∧ acceptedType t = some .array) ∧
      ((∃ h k u, t = .map h true k u) → e.expected = .array ∧ acceptedType t = some .object) := by
  obtain ⟨exp, hexp, he⟩ := mismatch_eq (n := n) (v := v) hc hs hn
  rw [he] at h
  obtain ⟨-, e, h2, h3⟩ := report_keep_spec .typeMismatch exp j.jtype v st
  rw [h3] at h
  split at h
  · cases h
  · cases h
    refine ⟨e, rfl, ?_⟩
    rw [h2.2.1]
    cases t with
    | map hh m k u =>
      cases m
      · cases hexp; simp [acceptedType]
      · cases hexp; simp [acceptedType]
    | pair a b => cases hexp; simp [acceptedType]
    | tuple ts => cases hexp; simp [acceptedType]
    | opt _ => cases hc
    | uptr _ => cases hc
    | sptr _ => cases hc
    | mono => cases hc
    | dateTime => cases hc
    | timeSpan => cases hc
    | _ => cases hexp; simp [acceptedType]

example : pull env 3 (.pair .bool .bool) (.obj []) (.tup [.bool true, .bool true]) (some .init) =
    .ok (.tup [.bool true, .bool true])
      (some { ErrSt.init with errs := [⟨.typeMismatch, .object, .object, some (lit "[document]"), none, noIndex⟩] }) := by
  rfl

/-! ## Variants -/

/-- A JSON object which does not describe a value of a variant with `k` alternatives: no `index` or no `data` member, or
an `index` which is not an unsigned integer below `k`. -/
def BadVariantObject (k : Nat) (ms : List (Key × Json)) : Prop :=
  findMember (lit "index") ms = none ∨ findMember (lit "data") ms = none ∨
    ∃ ji, findMember (lit "index") ms = some ji ∧ ∀ i : Nat, i < k → ji ≠ .num (.int i)

/-- C10: reading a malformed variant object leaves the variant unchanged, appends exactly one InvalidVariantObject or
InvalidVariantIndex error in the current context and never throws, whatever is flagged fatal. -/
theorem C10_bad_variant_never_fatal (E : Env) (n : Nat) (ts : List Ty) (ms : List (Key × Json)) (v : Val) (st : ErrSt)
    (hbad : BadVariantObject ts.length ms) :
    pull E (n + 1) (.variant ts) (.obj ms) v none = .ok v none ∧
    ∃ e, (e.kind = .invalidVariantObject ∨ e.kind = .invalidVariantIndex) ∧
      e.record = st.record ∧ e.member = st.member ∧ e.index = st.index ∧
      (e.kind = .invalidVariantObject ↔
        (findMember (lit "index") ms = none ∨ findMember (lit "data") ms = none)) ∧
      pull E (n + 1) (.variant ts) (.obj ms) v (some st) = .ok v (some { st with errs := st.errs ++ [e] }) := by
  have run : ∀ k exp act, (k = .invalidVariantObject ∨ k = .invalidVariantIndex) →
      ((do report k exp act; pure v) : PM Val) none = .ok v none ∧
      ((do report k exp act; pure v) : PM Val) (some st) =
        .ok v (some { st with errs := st.errs ++ [⟨k, exp, act, st.record, st.member, st.index⟩] }) := by
    intro k exp act hk
    rcases hk with rfl | rfl <;> simp [M.bind_apply, report, ErrKind.flag, ErrSt.push, ErrSt.mk']
  cases hi : findMember (lit "index") ms with
  | none =>
    have := run .invalidVariantObject .object .object (Or.inl rfl)
    have he : pull E (n + 1) (.variant ts) (.obj ms) v = (do report .invalidVariantObject .object .object; pure v) := by
      show pullStep _ _ _ _ _ = _
      simp only [pullStep, hi]
    rw [he]
    exact ⟨this.1, _, Or.inl rfl, rfl, rfl, rfl, by simp, this.2⟩
  | some ji =>
    cases hd : findMember (lit "data") ms with
    | none =>
      have := run .invalidVariantObject .object .object (Or.inl rfl)
      have he : pull E (n + 1) (.variant ts) (.obj ms) v = (do report .invalidVariantObject .object .object; pure v) := by
        show pullStep _ _ _ _ _ = _
        simp only [pullStep, hi, hd]
      rw [he]
      exact ⟨this.1, _, Or.inl rfl, rfl, rfl, rfl, by simp, this.2⟩
    | some jd =>
      have hidx : ∀ i : Nat, i < ts.length → ji ≠ .num (.int i) := by
        rcases hbad with h | h | ⟨ji', h, hh⟩
        · rw [h] at hi; cases hi
        · rw [h] at hd; cases hd
        · rw [h] at hi; cases hi; exact hh
      cases hu : uint64? ji with
      | none =>
        have := run .invalidVariantIndex .number ji.jtype (Or.inr rfl)
        have he : pull E (n + 1) (.variant ts) (.obj ms) v =
            (do report .invalidVariantIndex .number ji.jtype; pure v) := by
          show pullStep _ _ _ _ _ = _
          simp only [pullStep, hi, hd, hu]
        rw [he]
        exact ⟨this.1, _, Or.inr rfl, rfl, rfl, rfl, by simp, this.2⟩
      | some i =>
        have hge : ts[i]? = none := by
          rw [List.getElem?_eq_none_iff]
          rcases Nat.lt_or_ge i ts.length with hlt | hge
          · exfalso
            apply hidx i hlt
            unfold uint64? at hu
            split at hu
            · split at hu
              · rename_i i' hr
                cases hu
                simp only [IntTy.inRange, IntTy.lo, IntTy.signed, Bool.and_eq_true, decide_eq_true_eq] at hr
                congr 2
                have := hr.1
                simp at this
                omega
              · cases hu
            · cases hu
          · exact hge
        have := run .invalidVariantIndex .number .number (Or.inr rfl)
        have he : pull E (n + 1) (.variant ts) (.obj ms) v =
            (do report .invalidVariantIndex .number .number; pure v) := by
          show pullStep _ _ _ _ _ = _
          simp only [pullStep, hi, hd, hu, hge]
        rw [he]
        exact ⟨this.1, _, Or.inr rfl, rfl, rfl, rfl, by simp, this.2⟩

example : BadVariantObject 2 [(⟨lit "index", .copied⟩, .num (.int 2)), (⟨lit "data", .copied⟩, .null)] := by
  refine Or.inr (Or.inr ⟨.num (.int 2), rfl, ?_⟩)
  intro i hi h
  injection h with h
  injection h with h
  omega

end Verif
