import Verif.Lemmas.Ieee
import Verif.Props.JsonErrors

/-!
# JSON: strings, numbers, nullables, time values: C02, C13, C14, C15, C25
-/

namespace Verif

open Demo (env)

/-! ## Strings -/

/-- `r` is what is left of `s` when it is cut before its first NUL byte (if any). -/
def CutAtNul (s r : Str) : Prop := 0 ∉ r ∧ (r = s ∨ ∃ rest, s = r ++ 0 :: rest)

theorem cstrOf_cut (s : Str) : CutAtNul s (cstrOf s) := by
  induction s with
  | nil => exact ⟨by simp [cstrOf], Or.inl rfl⟩
  | cons c s ih =>
    by_cases hc : c = 0
    · subst hc
      exact ⟨by simp [cstrOf], Or.inr ⟨s, by simp [cstrOf]⟩⟩
    · have hce : cstrOf (c :: s) = c :: cstrOf s := by simp [cstrOf, hc]
      rw [hce]
      obtain ⟨h1, h2⟩ := ih
      refine ⟨?_, ?_⟩
      · simp only [List.mem_cons, not_or]
        exact ⟨fun h => hc h.symm, h1⟩
      · rcases h2 with h2 | ⟨rest, h2⟩
        · exact Or.inl (by rw [h2])
        · refine Or.inr ⟨rest, ?_⟩
          rw [List.cons_append, ← h2]

theorem cut_unique {s r r' : Str} (h : CutAtNul s r) (h' : CutAtNul s r') : r = r' := by
  induction s generalizing r r' with
  | nil =>
    rcases h.2 with rfl | ⟨rest, hr⟩
    · rcases h'.2 with rfl | ⟨rest, hr⟩
      · rfl
      · simp at hr
    · simp at hr
  | cons c s ih =>
    by_cases hc : c = 0
    · subst hc
      have key : ∀ r, CutAtNul (0 :: s) r → r = [] := by
        intro r h
        rcases h.2 with hr | ⟨rest, hr⟩
        · exact absurd (hr ▸ List.mem_cons_self) h.1
        · cases r with
          | nil => rfl
          | cons a r =>
            rw [List.cons_append] at hr
            injection hr with h1 h2
            exact absurd (h1 ▸ List.mem_cons_self) h.1
      rw [key r h, key r' h']
    · have key : ∀ r, CutAtNul (c :: s) r → ∃ t, r = c :: t ∧ CutAtNul s t := by
        intro r h
        rcases h.2 with hr | ⟨rest, hr⟩
        · exact ⟨s, hr, fun hm => h.1 (hr ▸ List.mem_cons_of_mem _ hm), Or.inl rfl⟩
        · cases r with
          | nil =>
            rw [List.nil_append] at hr
            injection hr with h1 h2
            exact absurd h1 hc
          | cons a r =>
            rw [List.cons_append] at hr
            injection hr with h1 h2
            subst h1
            exact ⟨r, rfl, fun hm => h.1 (List.mem_cons_of_mem _ hm), Or.inr ⟨rest, h2⟩⟩
      obtain ⟨t, rfl, ht⟩ := key r h
      obtain ⟨t', rfl, ht'⟩ := key r' h'
      rw [ih ht ht']

theorem cstrOf_eq {s : Str} (h : 0 ∉ s) : cstrOf s = s :=
  cut_unique (cstrOf_cut s) ⟨h, Or.inl rfl⟩

/-- C02: whatever the previous content of the target is and whether or not there is an errors object, a `std::string`
written to a JSON value and read back is the original limited to its first `2^32 - 1` bytes and cut before the first NUL;
it is unchanged iff it is shorter than `2^32` bytes and contains no NUL. No error is reported. -/
theorem C02_string_roundtrip (E : Env) (H : Heap) (n : Nat) (s : Str) (prior : Val) (st : Option ErrSt) :
    ∃ j r, push E H (n + 1) .str (.str s) () = .ok j () ∧ pull E (n + 1) .str j prior st = .ok (.str r) st ∧
      CutAtNul (s.take (2 ^ 32 - 1)) r ∧ (r = s ↔ s.length < 2 ^ 32 ∧ 0 ∉ s) := by
  have hcl : rjString s = s.take (2 ^ 32 - 1) := by
    unfold rjString rapidJsonSize
    split
    · rfl
    · rw [List.take_of_length_le (Nat.le_refl _), List.take_of_length_le (by omega)]
  refine ⟨.str (rjString s), cstrOf (rjString s), rfl, rfl, ?_, ?_⟩
  · rw [hcl]; exact cstrOf_cut _
  · have hcut := cstrOf_cut (rjString s)
    constructor
    · intro h
      have h0 : 0 ∉ s := h ▸ hcut.1
      refine ⟨?_, h0⟩
      have h1 : (cstrOf (rjString s)).length ≤ (rjString s).length := by
        rcases hcut.2 with h | ⟨rest, h⟩
        · rw [h]; exact Nat.le_refl _
        · rw [h, List.length_append]
          rw [← h]; omega
      rw [h, hcl, List.length_take] at h1
      omega
    · rintro ⟨h1, h2⟩
      rw [hcl, List.take_of_length_le (by omega)]
      exact cstrOf_eq h2

/-- a string with an embedded NUL loses its tail -/
example : push env (fun _ => none) 1 .str (.str [65, 0, 66]) () = .ok (.str [65, 0, 66]) () ∧
    pull env 1 .str (.str [65, 0, 66]) (.str []) none = .ok (.str [65]) none := ⟨rfl, rfl⟩

/-! ## Integers -/

/-- C13: reading a JSON integer representable as `int` into an 8-bit integer stores the value congruent modulo 256 in the
range of the type, reports nothing, and preserves the number iff it is in range. -/
theorem C13_int8_wraps (E : Env) (n : Nat) (t : IntTy) (ht : t = .i8 ∨ t = .u8) (i : Int)
    (hi : -(2 ^ 31) ≤ i ∧ i < 2 ^ 31) (prior : Val) (st : Option ErrSt) :
    ∃ w, pull E (n + 1) (.int t) (.num (.int i)) prior st = .ok (.int w) st ∧
      (if t = .i8 then -128 ≤ w ∧ w < 128 else 0 ≤ w ∧ w < 256) ∧ w % 256 = i % 256 ∧
      (w = i ↔ if t = .i8 then -128 ≤ i ∧ i < 128 else 0 ≤ i ∧ i < 256) := by
  have hr : IntTy.inRange .i32 i = true := by
    simp [IntTy.inRange, IntTy.lo, IntTy.hi, IntTy.card, IntTy.signed, IntTy.bytes]
    omega
  refine ⟨t.wrap i, ?_, ?_⟩
  · rcases ht with rfl | rfl <;>
      · show pullStep _ _ _ _ _ _ = _
        simp only [pullStep, numToInt, hr, if_true, M.pure_bind']
        rfl
  · rcases ht with rfl | rfl <;>
      simp [IntTy.wrap, IntTy.lo, IntTy.card, IntTy.signed, IntTy.bytes] <;> omega

example : pull env 1 (.int .u8) (.num (.int 300)) (.int 0) (some .init) = .ok (.int 44) (some .init) := rfl

/-- The magnitude of a finite `double` in units of `2^-1074` (the smallest positive `double`). -/
def magScaled (b : BitVec 64) : Nat :=
  if Ieee.exp64 b = 0 then Ieee.man64 b else (2 ^ 52 + Ieee.man64 b) * 2 ^ (Ieee.exp64 b - 1)

/-- `k` is the `double` `b` rounded towards zero. -/
def IsTrunc (b : BitVec 64) (k : Int) : Prop :=
  (k = 0 ∨ (k < 0 ↔ Ieee.neg64 b = true)) ∧
    k.natAbs * 2 ^ 1074 ≤ magScaled b ∧ magScaled b < (k.natAbs + 1) * 2 ^ 1074

theorem trunc_isTrunc (b : BitVec 64) (k : Int) (h : Ieee.trunc b = some k) : IsTrunc b k := by
  unfold Ieee.trunc at h
  split at h
  · cases h
  · rename_i hfin
    injection h with h
    have hk : k.natAbs = Ieee.truncAbs b := by rw [← h]; split <;> simp
    refine ⟨?_, ?_⟩
    · by_cases h0 : Ieee.truncAbs b = 0
      · left; rw [← h, h0]; split <;> rfl
      · right
        rw [← h]
        cases hn : Ieee.neg64 b
        · simp
        · simp; omega
    · rw [hk]
      unfold Ieee.truncAbs magScaled
      by_cases he : Ieee.exp64 b = 0
      · simp only [he, if_true]
        rw [if_neg (by omega)]
        have e1 : (1075 - max 0 1 : Nat) = 1074 := by omega
        rw [e1]
        have hpos : 0 < 2 ^ 1074 := Nat.two_pow_pos _
        generalize 2 ^ 1074 = P at *
        have := Nat.div_add_mod (Ieee.man64 b) P
        have hmod := Nat.mod_lt (Ieee.man64 b) hpos
        constructor
        · rw [Nat.mul_comm]; omega
        · rw [Nat.add_mul, Nat.one_mul, Nat.mul_comm]; omega
      · simp only [he, if_false]
        generalize 2 ^ 52 + Ieee.man64 b = m
        by_cases h1 : 1075 ≤ Ieee.exp64 b
        · rw [if_pos h1]
          have : 2 ^ (Ieee.exp64 b - 1) = 2 ^ (Ieee.exp64 b - 1075) * 2 ^ 1074 := by
            rw [← Nat.pow_add]; congr 1; omega
          rw [this, ← Nat.mul_assoc]
          have hpos : 0 < 2 ^ 1074 := Nat.two_pow_pos _
          refine ⟨Nat.le_refl _, ?_⟩
          rw [Nat.add_mul, Nat.one_mul]
          generalize 2 ^ 1074 = P at *
          omega
        · rw [if_neg h1]
          have e1 : max (Ieee.exp64 b) 1 = Ieee.exp64 b := by omega
          rw [e1]
          have e2 : 2 ^ 1074 = 2 ^ (1075 - Ieee.exp64 b) * 2 ^ (Ieee.exp64 b - 1) := by
            rw [← Nat.pow_add]; congr 1; omega
          rw [e2]
          have hq : 0 < 2 ^ (Ieee.exp64 b - 1) := Nat.two_pow_pos _
          have hpos : 0 < 2 ^ (1075 - Ieee.exp64 b) := Nat.two_pow_pos _
          generalize 2 ^ (Ieee.exp64 b - 1) = Q at *
          generalize 2 ^ (1075 - Ieee.exp64 b) = P at *
          rw [← Nat.mul_assoc, ← Nat.mul_assoc]
          refine ⟨Nat.mul_le_mul_right _ (Nat.div_mul_le_self _ _), ?_⟩
          apply Nat.mul_lt_mul_of_pos_right _ hq
          rw [Nat.add_mul, Nat.one_mul]
          have := Nat.div_add_mod m P
          have hmod := Nat.mod_lt m hpos
          rw [Nat.mul_comm]; omega

theorem pull_int_eq (E : Env) (n : Nat) (t : IntTy) (ht : t = .i32 ∨ t = .u32 ∨ t = .i64 ∨ t = .u64) (m : Num)
    (prior : Val) (st : Option ErrSt) :
    pull E (n + 1) (.int t) (.num m) prior st = match numToInt t m st with
      | .ok i s => .ok (.int i) s
      | .exc e s => .exc e s
      | .ub => .ub
      | .stuck => .stuck
      | .fuel => .fuel := by
  rcases ht with rfl | rfl | rfl | rfl <;>
    · show (numToInt _ m >>= fun i => (pure (.int i) : PM Val)) st = _
      rw [M.bind_apply]
      cases numToInt _ m st <;> rfl

/-- Range of the integer types, spelled out. -/
def intRange : IntTy → Int × Int
  | .char | .i8 => (-128, 128)
  | .u8 => (0, 256)
  | .i16 => (-32768, 32768)
  | .u16 => (0, 65536)
  | .i32 => (-(2 ^ 31), 2 ^ 31)
  | .u32 => (0, 2 ^ 32)
  | .i64 => (-(2 ^ 63), 2 ^ 63)
  | .u64 => (0, 2 ^ 64)

theorem inRange_iff (t : IntTy) (i : Int) : t.inRange i = true ↔ (intRange t).1 ≤ i ∧ i < (intRange t).2 := by
  cases t <;> simp [IntTy.inRange, IntTy.lo, IntTy.hi, IntTy.card, IntTy.signed, IntTy.bytes, intRange]

/-- C14 (integers): reading a JSON integer (any number RapidJSON stores as integer) into a 32- or 64-bit integer stores
it if it is in range and is undefined behaviour otherwise; in neither case an error is reported or thrown. -/
theorem C14_int_out_of_range_is_ub (E : Env) (n : Nat) (t : IntTy) (ht : t = .i32 ∨ t = .u32 ∨ t = .i64 ∨ t = .u64)
    (i : Int) (hi : -(2 ^ 63) ≤ i ∧ i < 2 ^ 64) (prior : Val) (st : Option ErrSt) :
    ((intRange t).1 ≤ i ∧ i < (intRange t).2 →
      pull E (n + 1) (.int t) (.num (.int i)) prior st = .ok (.int i) st) ∧
    (¬ ((intRange t).1 ≤ i ∧ i < (intRange t).2) →
      pull E (n + 1) (.int t) (.num (.int i)) prior st = .ub) := by
  rw [pull_int_eq E n t ht, ← inRange_iff]
  constructor
  · intro h
    simp [numToInt, h]
  · intro h
    have habs : i.natAbs < 2 ^ 64 := by omega
    obtain ⟨a, h1, h2, h3⟩ := Ieee.trunc_ofInt i habs
    have hout : t.inRange (if i < 0 then -(a : Int) else a) = false := by
      rw [Bool.eq_false_iff]
      intro hr
      rw [inRange_iff] at h hr
      rcases Nat.lt_or_ge i.natAbs (2 ^ 53) with hs | hb
      · have := h2 hs
        apply h
        split at hr <;> omega
      · have h4 := h3 hb
        have h5 : i.natAbs < 2 ^ (i.natAbs.log2 + 1) := Nat.lt_log2_self
        rcases ht with rfl | rfl | rfl | rfl <;> simp only [intRange] at h hr
        · have : 2 ^ 53 ≤ a := Nat.le_trans (Nat.pow_le_pow_right (by decide)
            (by have := (Nat.le_log2 (by omega)).2 hb; omega)) h4
          split at hr <;> omega
        · have : 2 ^ 53 ≤ a := Nat.le_trans (Nat.pow_le_pow_right (by decide)
            (by have := (Nat.le_log2 (by omega)).2 hb; omega)) h4
          split at hr <;> omega
        · have h6 : 2 ^ 63 ≤ i.natAbs := by omega
          have : 2 ^ 63 ≤ a := Nat.le_trans (Nat.pow_le_pow_right (by decide)
            (by have := (Nat.le_log2 (by omega)).2 h6; omega)) h4
          split at hr <;> omega
        · have : 2 ^ 53 ≤ a := Nat.le_trans (Nat.pow_le_pow_right (by decide)
            (by have := (Nat.le_log2 (by omega)).2 hb; omega)) h4
          split at hr <;> omega
    simp [numToInt, h, castDouble, h1, hout]

example : pull env 1 (.int .u64) (.num (.int (-1))) (.int 0) (some .init) = .ub := rfl
example : pull env 1 (.int .i32) (.num (.int (2 ^ 31))) (.int 0) (some .init) = .ub := rfl

/-- C14 (fractional numbers): reading a finite `double` into a 32- or 64-bit integer stores it rounded towards zero if
that is in range; out-of-range, infinite and NaN numbers are undefined behaviour. -/
theorem C14_double_truncated (E : Env) (n : Nat) (t : IntTy) (ht : t = .i32 ∨ t = .u32 ∨ t = .i64 ∨ t = .u64)
    (d : BitVec 64) (prior : Val) (st : Option ErrSt) :
    (Ieee.isFinite d = true → ∃ k, IsTrunc d k ∧
      ((intRange t).1 ≤ k ∧ k < (intRange t).2 →
        pull E (n + 1) (.int t) (.num (.dbl d)) prior st = .ok (.int k) st) ∧
      (¬ ((intRange t).1 ≤ k ∧ k < (intRange t).2) → pull E (n + 1) (.int t) (.num (.dbl d)) prior st = .ub)) ∧
    (Ieee.isFinite d = false → pull E (n + 1) (.int t) (.num (.dbl d)) prior st = .ub) := by
  rw [pull_int_eq E n t ht]
  cases hd : Ieee.trunc d with
  | none =>
    have hfin : Ieee.isFinite d = false := by
      unfold Ieee.trunc at hd
      split at hd
      · simp [Ieee.isFinite, *]
      · cases hd
    refine ⟨fun h => absurd (h.symm.trans hfin) (by decide), fun _ => ?_⟩
    simp [numToInt, castDouble, hd]
  | some k =>
    have hfin : Ieee.isFinite d = true := by
      unfold Ieee.trunc at hd
      split at hd
      · cases hd
      · simp [Ieee.isFinite, *]
    refine ⟨fun _ => ⟨k, trunc_isTrunc d k hd, ?_, ?_⟩, fun h => absurd (h.symm.trans hfin) (by decide)⟩
    · intro h
      have := (inRange_iff t k).2 h
      simp [numToInt, castDouble, hd, this]
    · intro h
      have : t.inRange k = false := by
        rw [Bool.eq_false_iff]
        exact fun h' => h ((inRange_iff t k).1 h')
      simp [numToInt, castDouble, hd, this]

/-- -3.5 is read as -3 -/
example : pull env 1 (.int .i32) (.num (.dbl 0xc00c000000000000)) (.int 0) none = .ok (.int (-3)) none := rfl

/-! ## Nullables -/

/-- Values which are represented by JSON `null`. -/
inductive NullLike (H : Heap) : Ty → Val → Prop
  | optNone (t) : NullLike H (.opt t) .null
  | uptrNone (t) : NullLike H (.uptr t) .null
  | sptrNone (t) : NullLike H (.sptr t) .null
  | optSome {t v} : NullLike H t v → NullLike H (.opt t) (.some v)
  | uptrSome {t v} : NullLike H t v → NullLike H (.uptr t) (.ptr v)
  | sptrSome {t v} : NullLike H t v → NullLike H (.sptr t) (.ptr v)
  | uptrRef {t v a} : H a = some v → NullLike H t v → NullLike H (.uptr t) (.ref a)
  | sptrRef {t v a} : H a = some v → NullLike H t v → NullLike H (.sptr t) (.ref a)
  | cstr : NullLike H .cstr (.cstr none)
  | sview : NullLike H .sview (.cstr none)
  | valueless (ts) : NullLike H (.variant ts) .valueless

theorem bind_pure_eq_ok {ε σ α β : Type} {m : M ε σ α} {g : α → β} {s s' : σ} {b : β}
    (h : (m >>= fun a => (pure (g a) : M ε σ β)) s = .ok b s') : ∃ a, b = g a := by
  obtain ⟨a, s1, h1, h2⟩ := M.bind_eq_ok.1 h
  cases h2
  exact ⟨a, rfl⟩

theorem push_null_iff (E : Env) (H : Heap) (t : Ty) (v : Val) :
    (∃ n, push E H n t v () = .ok .null ()) ↔ NullLike H t v := by
  constructor
  · rintro ⟨n, h⟩
    induction n generalizing t v with
    | zero => cases h
    | succ n ih =>
      change pushStep E H (push E H n) t v () = _ at h
      cases t <;> cases v <;> try (first
        | (cases h; done)
        | (cases h; constructor; done)
        | (obtain ⟨a, ha⟩ := bind_pure_eq_ok h; cases ha; done)
        | (constructor; exact ih _ _ h; done))
      all_goals try (rename_i it i; cases it <;> first
        | (cases h; done)
        | (obtain ⟨a, ha⟩ := bind_pure_eq_ok h; cases ha; done))
      all_goals try (rename_i o; cases o <;> first
        | (cases h; done)
        | (cases h; constructor; done))
      case uptr.ref t a =>
        simp only [pushStep] at h
        cases ha : H a with
        | none => rw [ha] at h; cases h
        | some v => rw [ha] at h; exact .uptrRef ha (ih _ _ h)
      case sptr.ref t a =>
        simp only [pushStep] at h
        cases ha : H a with
        | none => rw [ha] at h; cases h
        | some v => rw [ha] at h; exact .sptrRef ha (ih _ _ h)
      case map.map hd m k t kvs =>
        cases m <;> cases k <;> first
          | (cases h; done)
          | (obtain ⟨a, ha⟩ := bind_pure_eq_ok h; cases ha; done)
      case variant.alt ts i v =>
        simp only [pushStep] at h
        cases ht : ts[i]? with
        | none => rw [ht] at h; cases h
        | some t =>
          rw [ht] at h
          cases t <;> first
            | (cases h; done)
            | (obtain ⟨a, ha⟩ := bind_pure_eq_ok h; cases ha; done)
      case cls.obj c st =>
        simp only [pushStep] at h
        cases hc : E.cls c with
        | none => rw [hc] at h; cases h
        | some ci =>
          rw [hc] at h
          obtain ⟨_, _, _, h⟩ := M.bind_eq_ok.1 h
          obtain ⟨a, ha⟩ := bind_pure_eq_ok h; cases ha
  · intro h
    induction h with
    | optNone | uptrNone | sptrNone | cstr | sview | valueless => exact ⟨1, rfl⟩
    | @optSome t v h ih =>
      obtain ⟨n, hn⟩ := ih
      cases v <;> first | exact ⟨n + 1, hn⟩
    | @uptrSome t v h ih => obtain ⟨n, hn⟩ := ih; exact ⟨n + 1, hn⟩
    | @sptrSome t v h ih => obtain ⟨n, hn⟩ := ih; exact ⟨n + 1, hn⟩
    | @uptrRef t v a ha h ih =>
      obtain ⟨n, hn⟩ := ih
      refine ⟨n + 1, ?_⟩
      show pushStep E H (push E H n) (.uptr t) (.ref a) () = _
      simp only [pushStep, ha]
      exact hn
    | @sptrRef t v a ha h ih =>
      obtain ⟨n, hn⟩ := ih
      refine ⟨n + 1, ?_⟩
      show pushStep E H (push E H n) (.sptr t) (.ref a) () = _
      simp only [pushStep, ha]
      exact hn

/-- C15: an object is serialised as JSON `null` exactly if it is an empty optional/smart pointer, an optional/smart pointer
to something serialised as `null`, a null C-string/string view or a valueless variant; reading `null` into an optional or
smart pointer yields the empty one without error. Hence an engaged optional (non-null pointer) whose content is serialised
as null comes back empty. -/
theorem C15_null_collapse (E : Env) (H : Heap) (t : Ty) :
    (∀ v, (∃ n, push E H n t v () = .ok .null ()) ↔ NullLike H t v) ∧
    (∀ n prior st, pull E (n + 1) (.opt t) .null prior st = .ok .null st ∧
      pull E (n + 1) (.uptr t) .null prior st = .ok .null st ∧
      pull E (n + 1) (.sptr t) .null prior st = .ok .null st) ∧
    (∀ v, NullLike H t v → ∀ prior st, ∃ n j, push E H n (.opt t) (.some v) () = .ok j () ∧
      pull E n (.opt t) j prior st = .ok .null st) := by
  refine ⟨push_null_iff E H t, fun n prior st => ⟨rfl, rfl, rfl⟩, fun v hv prior st => ?_⟩
  obtain ⟨n, hn⟩ := (push_null_iff E H _ _).2 (NullLike.optSome hv)
  cases n with
  | zero => cases hn
  | succ n => exact ⟨n + 1, .null, hn, rfl⟩

/-- `optional<optional<int>>` holding an empty optional comes back as empty outer optional -/
example : NullLike (fun _ => none) (.opt (.opt (.int .i32))) (.some .null) := .optSome (.optNone _)

/-! ## Time values -/

/-- C25 (strings): reading a `DateTime` (`TimeSpan`) from a string stores the parsed value if the string (up to its first
NUL) parses; otherwise the object keeps its value and exactly one ConversionError is reported, thrown iff flagged. -/
theorem C25_time_from_string (E : Env) (n : Nat) (t : Ty) (parse : Str → Option Int)
    (ht : (t = .dateTime ∧ parse = E.dtParse) ∨ (t = .timeSpan ∧ parse = E.tsParse)) (s r : Str) (hr : CutAtNul s r)
    (v : Val) (st : ErrSt) :
    (∀ i, parse r = some i → ∀ so, pull E (n + 1) t (.str s) v so = .ok (.tick i) so) ∧
    (parse r = none → pull E (n + 1) t (.str s) v none = .ok v none ∧
      ∃ e, ErrAt st .conversionError .string .string e ∧ pull E (n + 1) t (.str s) v (some st) =
        if Fatal st.throwOn .conversionError then .exc e (some { st with errs := st.errs ++ [e] })
        else .ok v (some { st with errs := st.errs ++ [e] })) := by
  have hcr : cstrOf s = r := cut_unique (cstrOf_cut s) hr
  have he : pull E (n + 1) t (.str s) v = pullTime parse (.str s) v := by
    rcases ht with ⟨rfl, rfl⟩ | ⟨rfl, rfl⟩ <;> rfl
  rw [he]
  constructor
  · intro i hi so
    simp only [pullTime, pullTimeStr, M.pure_bind', hcr, hi]
    rfl
  · intro hn
    simp only [pullTime, pullTimeStr, M.pure_bind', hcr, hn]
    exact report_keep_spec .conversionError .string .string v st

/-- C25 (other JSON types): reading a `DateTime` (`TimeSpan`) from anything but a string reports a TypeMismatch (thrown iff
flagged) and, if not thrown, goes on as if an empty string had been read: the object is overwritten if the empty string
parses, otherwise a ConversionError is reported in addition. -/
theorem C25_time_from_other (E : Env) (n : Nat) (t : Ty) (parse : Str → Option Int)
    (ht : (t = .dateTime ∧ parse = E.dtParse) ∨ (t = .timeSpan ∧ parse = E.tsParse)) (j : Json)
    (hj : ∀ s, j ≠ .str s) (v : Val) (st : ErrSt) :
    ∃ e e', ErrAt st .typeMismatch .string j.jtype e ∧ ErrAt st .conversionError .string .string e' ∧
      (Fatal st.throwOn .typeMismatch →
        pull E (n + 1) t j v (some st) = .exc e (some { st with errs := st.errs ++ [e] })) ∧
      (¬ Fatal st.throwOn .typeMismatch → ∀ i, parse [] = some i →
        pull E (n + 1) t j v (some st) = .ok (.tick i) (some { st with errs := st.errs ++ [e] })) ∧
      (¬ Fatal st.throwOn .typeMismatch → parse [] = none →
        pull E (n + 1) t j v (some st) =
          if Fatal st.throwOn .conversionError then .exc e' (some { st with errs := st.errs ++ [e, e'] })
          else .ok v (some { st with errs := st.errs ++ [e, e'] })) := by
  have he : pull E (n + 1) t j v = pullTime parse j v := by
    rcases ht with ⟨rfl, rfl⟩ | ⟨rfl, rfl⟩ <;> rfl
  rw [he]
  obtain ⟨-, e, h1, h2⟩ := report_spec .typeMismatch .string j.jtype st
  obtain ⟨-, e', h3, h4⟩ := report_keep_spec .conversionError .string .string v { st with errs := st.errs ++ [e] }
  have hs : pullTime parse j v (some st) =
      (match report .typeMismatch .string j.jtype (some st) with
        | .ok _ s => (match parse [] with
            | some i => (pure (.tick i) : PM Val)
            | none => do
              report .conversionError .string .string
              pure v) s
        | .exc e s => .exc e s
        | .ub => .ub
        | .stuck => .stuck
        | .fuel => .fuel) := by
    unfold pullTime
    have : pullTimeStr j = (do
        report .typeMismatch .string j.jtype
        pure [] : PM Str) := by
      cases j <;> first | exact absurd rfl (hj _) | rfl
    rw [this, M.bind_assoc', M.bind_apply]
    cases report .typeMismatch .string j.jtype (some st) <;> rfl
  refine ⟨e, e', h1, h3, ?_, ?_, ?_⟩
  · intro hf
    rw [hs, h2, if_pos hf]
  · intro hf i hi
    rw [hs, h2, if_neg hf]
    simp only [hi]
    rfl
  · intro hf hi
    rw [hs, h2, if_neg hf]
    simp only [hi]
    rw [h4]
    simp only [List.append_assoc, List.singleton_append]

example : env.dtParse [] = none ∧ env.dtParse [50] = some 1 := by decide

end Verif
