import Verif.Model.Api
import Verif.Model.Format
import Verif.Props.JsonErrors

/-!
# C21 (`fromJson` on malformed or unsuitable documents), C22 (error formatting)
-/

namespace Verif

open Demo (env)

/-! ## C21 -/

/-- Types `fromJson` can be instantiated with. -/
def TopSupported : Ty → Prop
  | .cls _ => True
  | .map _ _ _ _ => True
  | .vec _ => True
  | .bool => True
  | .int it => it = .i32 ∨ it = .u32 ∨ it = .i64 ∨ it = .u64
  | .f32 => True
  | .f64 => True
  | .str => True
  | _ => False

/-- Documents `fromJson` accepts for a type: objects for classes and maps, arrays for vectors, strings, booleans, integers
which are in the range of the requested type and, for floating-point types, numbers which have been parsed as `double`
(for `float`: the magnitude of which does not exceed 3.4028234e38). -/
def TopAccepts : Ty → Json → Prop
  | .cls _, j => ∃ ms, j = .obj ms
  | .map _ _ _ _, j => ∃ ms, j = .obj ms
  | .vec _, j => ∃ js, j = .arr js
  | .bool, j => ∃ b, j = .bool b
  | .int .i32, j => ∃ i : Int, j = .num (.int i) ∧ -2147483648 ≤ i ∧ i ≤ 2147483647
  | .int .u32, j => ∃ i : Int, j = .num (.int i) ∧ 0 ≤ i ∧ i ≤ 4294967295
  | .int .i64, j => ∃ i : Int, j = .num (.int i) ∧ -9223372036854775808 ≤ i ∧ i ≤ 9223372036854775807
  | .int .u64, j => ∃ i : Int, j = .num (.int i) ∧ 0 ≤ i ∧ i ≤ 18446744073709551615
  | .f32, j => ∃ d, j = .num (.dbl d) ∧ floatRange d = true
  | .f64, j => ∃ d, j = .num (.dbl d)
  | .str, j => ∃ s, j = .str s
  | _, _ => False

theorem fromJson_eq_bind (E : Env) (P : Parser) (n : Nat) (t : Ty) (ht : TopSupported t) :
    ∃ k : Json → AM Val, ∀ json, fromJson E P n t json = (parseDoc P json >>= k) := by
  cases t <;> simp only [TopSupported] at ht
  case int it =>
    rcases ht with rfl | rfl | rfl | rfl <;> exact ⟨_, fun json => rfl⟩
  all_goals exact ⟨_, fun json => rfl⟩

theorem liftP_exc {α : Type} {m : PM α} {s s' : Option ErrSt} {e : ApiExc} (h : liftP m s = .exc e s') : ∃ e', e = .err e' := by
  unfold liftP at h
  split at h <;> cases h
  exact ⟨_, rfl⟩

theorem topMismatch_exc {E : Env} {t : Ty} {j : Json} {s s' : Option ErrSt} {e : ApiExc}
    (h : topMismatch E t j s = .exc e s') : ∃ e', e = .err e' := by
  rcases M.bind_eq_exc.1 h with h | ⟨_, _, -, h⟩
  · exact liftP_exc h
  · cases h

/-- C21 (parse errors): `fromJson` throws the parse result if (and only if) the text cannot be parsed; nothing has been
reported then. -/
theorem C21_parse_error_thrown (E : Env) (P : Parser) (n : Nat) (t : Ty) (ht : TopSupported t) (json : Str)
    (s : Option ErrSt) :
    (∀ e, P json = .error e → fromJson E P n t json s = .exc (.parse e) s) ∧
    (∀ e s', fromJson E P n t json s = .exc (.parse e) s' → P json = .error e ∧ s' = s) := by
  constructor
  · intro e he
    obtain ⟨k, hk⟩ := fromJson_eq_bind E P n t ht
    rw [hk, M.bind_apply, parseDoc, he]
    rfl
  · intro e s' h
    cases hp : P json with
    | error e' =>
      obtain ⟨k, hk⟩ := fromJson_eq_bind E P n t ht
      rw [hk, M.bind_apply, parseDoc, hp] at h
      cases h
      exact ⟨rfl, rfl⟩
    | ok j =>
      exfalso
      have key : ∃ e', ApiExc.parse e = .err e' := by
        cases t <;> simp only [TopSupported] at ht
        case int it =>
          have hj : jsonInt it = true := by rcases ht with rfl | rfl | rfl | rfl <;> rfl
          simp only [fromJson, hj, if_true, parseDoc, hp, M.pure_bind'] at h
          revert h
          split
          · split
            · intro h; cases h
            · exact topMismatch_exc
          · exact topMismatch_exc
        all_goals
          simp only [fromJson, parseDoc, hp, M.pure_bind'] at h
          revert h
          split
          all_goals first
            | exact topMismatch_exc
            | exact liftP_exc
            | (intro h; cases h; done)
            | (split
               · intro h; cases h
               · exact topMismatch_exc)
      obtain ⟨e', h'⟩ := key
      cases h'

/-- C21 (unsuitable documents): if the document is not accepted for the type, exactly one type mismatch is reported in the
context the error object is in (thrown if fatal; nothing is reported to a null pointer), and a value-initialised object is
returned. -/
theorem C21_top_level_mismatch (E : Env) (P : Parser) (n : Nat) (t : Ty) (ht : TopSupported t) (json : Str) (j : Json)
    (hp : P json = .ok j) (hn : ¬ TopAccepts t j) (st : ErrSt) :
    fromJson E P n t json none = .ok (E.valInit t) none ∧
    ∃ e, ErrAt st .typeMismatch (jtypeOf t) j.jtype e ∧
      fromJson E P n t json (some st) =
        if Fatal st.throwOn .typeMismatch then .exc (.err e) (some { st with errs := st.errs ++ [e] })
        else .ok (E.valInit t) (some { st with errs := st.errs ++ [e] }) := by
  have key : fromJson E P n t json = topMismatch E t j := by
    cases t <;> simp only [TopSupported] at ht
    case int it =>
      have hj : jsonInt it = true := by rcases ht with rfl | rfl | rfl | rfl <;> rfl
      simp only [fromJson, hj, if_true, parseDoc, hp, M.pure_bind']
      split
      · rename_i i
        split
        · rename_i hr
          refine absurd ?_ hn
          rcases ht with rfl | rfl | rfl | rfl <;>
            (refine ⟨i, rfl, ?_⟩
             simp [IntTy.inRange, IntTy.lo, IntTy.hi, IntTy.card, IntTy.signed, IntTy.bytes] at hr
             omega)
        · rfl
      · rfl
    case f32 =>
      simp only [fromJson, parseDoc, hp, M.pure_bind']
      split
      · split
        · rename_i hr
          exact absurd ⟨_, rfl, hr⟩ hn
        · rfl
      · rfl
    all_goals
      simp only [fromJson, parseDoc, hp, M.pure_bind']
      split
      · exact absurd ⟨_, rfl⟩ hn
      · rfl
  rw [key]
  obtain ⟨h0, e, he, hr⟩ := report_spec .typeMismatch (jtypeOf t) j.jtype st
  refine ⟨?_, e, he, ?_⟩
  · simp only [topMismatch, M.bind_apply, liftP, h0]; rfl
  · simp only [topMismatch, M.bind_apply, liftP, hr]
    by_cases hf : Fatal st.throwOn .typeMismatch
    · simp only [if_pos hf]
    · simp only [if_neg hf]; rfl

/-- C21 (suitable documents): accepted scalars are returned exactly (strings up to the first NUL), objects and arrays are
pulled into a default-initialised object. -/
theorem C21_accepted (E : Env) (P : Parser) (n : Nat) (t : Ty) (ht : TopSupported t) (json : Str) (j : Json)
    (hp : P json = .ok j) (ha : TopAccepts t j) (s : Option ErrSt) :
    (∀ b, t = .bool → j = .bool b → fromJson E P n t json s = .ok (.bool b) s) ∧
    (∀ it i, t = .int it → j = .num (.int i) → fromJson E P n t json s = .ok (.int i) s) ∧
    (∀ d, t = .f64 → j = .num (.dbl d) → fromJson E P n t json s = .ok (.f64 d) s) ∧
    (∀ d, t = .f32 → j = .num (.dbl d) → fromJson E P n t json s = .ok (.f32 (Ieee.narrow d)) s) ∧
    (∀ x r, t = .str → j = .str x → r = x.takeWhile (· ≠ 0) → fromJson E P n t json s = .ok (.str r) s) ∧
    ((∃ c, t = .cls c) ∨ (∃ h m k v, t = .map h m k v) ∨ (∃ t', t = .vec t') →
      (∀ v s', fromJson E P n t json s = .ok v s' ↔ pull E n t j (E.defInit t) s = .ok v s') ∧
      (∀ e s', fromJson E P n t json s = .exc (.err e) s' ↔ pull E n t j (E.defInit t) s = .exc e s') ∧
      (fromJson E P n t json s = .ub ↔ pull E n t j (E.defInit t) s = .ub)) := by
  refine ⟨?_, ?_, ?_, ?_, ?_, ?_⟩
  · rintro b rfl rfl
    simp only [fromJson, parseDoc, hp, M.pure_bind', M.pure_apply]
  · rintro it i rfl rfl
    simp only [TopSupported] at ht
    have hj : jsonInt it = true ∧ it.inRange i = true := by
      rcases ht with rfl | rfl | rfl | rfl <;>
        (obtain ⟨i', hi, h1, h2⟩ := ha
         cases hi
         refine ⟨rfl, ?_⟩
         simp [IntTy.inRange, IntTy.lo, IntTy.hi, IntTy.card, IntTy.signed, IntTy.bytes]
         omega)
    simp only [fromJson, parseDoc, hp, M.pure_bind', M.pure_apply, hj.1, hj.2, if_true]
  · rintro d rfl rfl
    simp only [fromJson, parseDoc, hp, M.pure_bind', M.pure_apply]
  · rintro d rfl rfl
    obtain ⟨d', hd, hf⟩ := ha
    cases hd
    simp only [fromJson, parseDoc, hp, M.pure_bind', M.pure_apply, hf, if_true]
  · rintro x r rfl rfl rfl
    simp only [fromJson, parseDoc, hp, M.pure_bind', M.pure_apply]
    rfl
  · intro h
    have key : fromJson E P n t json = liftP (pull E n t j (E.defInit t)) := by
      rcases h with ⟨c, rfl⟩ | ⟨h, m, k, v, rfl⟩ | ⟨t', rfl⟩ <;>
        (obtain ⟨x, rfl⟩ := ha
         simp only [fromJson, parseDoc, hp, M.pure_bind'])
    rw [key]
    unfold liftP
    cases hr : pull E n t j (E.defInit t) s <;> simp

/-- C21 (C-strings): `fromJson(const char *)` only reads up to the first NUL. -/
theorem C21_c_string_overload (E : Env) (P : Parser) (n : Nat) (t : Ty) (text rest : Str) (h : 0 ∉ text) (s : Option ErrSt) :
    fromJsonCStr E P n t (text ++ 0 :: rest) s = fromJson E P n t text s ∧
    fromJsonStr E P n t text s = fromJson E P n t text s := by
  refine ⟨?_, rfl⟩
  have : cstrOf (text ++ 0 :: rest) = text := by
    induction text with
    | nil => rfl
    | cons x xs ih =>
      have hx : x ≠ 0 := fun h' => h (by simp [h'])
      simp only [cstrOf, List.cons_append, List.takeWhile_cons, hx, ne_eq, not_false_eq_true, decide_true, if_true]
      rw [show List.takeWhile (fun x => decide (x ≠ 0)) (xs ++ 0 :: rest) = xs from ih fun h' => h (by simp [h'])]
  rw [fromJsonCStr, this]

/-- a parser for the examples: `t` is an object, `5` a number, everything else is an error -/
def exParser : Parser := fun s =>
  if s = lit "5" then .ok (.num (.int 5))
  else if s = lit "{}" then .ok (.obj [])
  else .error ⟨1, 0⟩

example : fromJson env exParser 3 (.vec (.int .i32)) (lit "5") (some .init) =
    .ok (.list []) (some { ErrSt.init with errs := [⟨.typeMismatch, .array, .number, some (lit "[document]"), none, noIndex⟩] }) := by rfl
example : TopSupported (.vec (.int .i32)) ∧ ¬ TopAccepts (.vec (.int .i32)) (.num (.int 5)) :=
  ⟨trivial, fun ⟨_, h⟩ => by cases h⟩
/-- even a number is a mismatch for `double` if it has been parsed as integer -/
example : fromJson env exParser 3 .f64 (lit "5") (some .init) =
    .ok (.f64 0) (some { ErrSt.init with errs := [⟨.typeMismatch, .number, .number, some (lit "[document]"), none, noIndex⟩] }) := by rfl
example : fromJson env exParser 3 (.int .i32) (lit "5") none = .ok (.int 5) none := by rfl
example : fromJson env exParser 3 (.int .i32) (lit "nope") (some .init) = .exc (.parse ⟨1, 0⟩) (some .init) := by rfl

/-! ## C22 -/

/-- Where an error occurred, as far as known. -/
inductive Location where
  | document
  | record (r : Str)
  | recordMember (r m : Str)
  | recordIndex (r : Str) (i : Nat)
deriving DecidableEq

/-- The location of an error: nothing but "the document" is known without record; the member takes precedence over the
index. -/
def Err.location (e : Err) : Location :=
  match e.record with
  | none => .document
  | some r =>
    match e.member with
    | some m => .recordMember r m
    | none => if e.index = noIndex then .record r else .recordIndex r e.index

/-- No double quote in record and member name (true for C++ identifiers). -/
def QuoteFree (e : Err) : Prop := (∀ r, e.record = some r → quote ∉ r) ∧ ∀ m, e.member = some m → quote ∉ m

/-- text of the location -/
def locText : Location → Str
  | .document => lit " in document"
  | .record r => lit " within record \"" ++ (r ++ quote :: [])
  | .recordMember r m => lit " within record \"" ++ (r ++ quote :: (lit " and member \"" ++ (m ++ quote :: [])))
  | .recordIndex r i => lit " within record \"" ++ (r ++ quote :: (lit " and index \"" ++ (decimal i ++ quote :: [])))

theorem formatError_eq (e : Err) : formatError e = kindText e.kind ++ (locText e.location ++ additionalInfo e) := by
  have h1 : lit "\" and member \"" = quote :: lit " and member \"" := rfl
  have h2 : lit "\" and index \"" = quote :: lit " and index \"" := rfl
  unfold formatError Err.location
  cases e.record with
  | none => simp [locText, List.append_assoc]
  | some r =>
    cases e.member with
    | some m => simp only [locText, h1, List.append_assoc, List.cons_append, List.nil_append]
    | none =>
      dsimp only
      by_cases h : e.index = noIndex
      · simp only [h, ne_eq, not_true_eq_false, if_false, if_true, locText, List.append_assoc, List.cons_append, List.nil_append]
      · simp only [h, ne_eq, not_false_eq_true, if_true, if_false, locText, h2, List.append_assoc, List.cons_append, List.nil_append]

/-- splitting at the first quote is unambiguous -/
theorem split_quote {q : UInt8} {a b x y : Str} (h : a ++ q :: x = b ++ q :: y) (ha : q ∉ a) (hb : q ∉ b) : a = b ∧ x = y := by
  induction a generalizing b with
  | nil =>
    cases b with
    | nil => simp at h; exact ⟨rfl, h⟩
    | cons c b => simp at h; exact absurd (by simp [h.1]) hb
  | cons c a ih =>
    cases b with
    | nil => simp at h; exact absurd (by simp [h.1]) ha
    | cons d b =>
      simp only [List.cons_append, List.cons.injEq] at h
      obtain ⟨h1, h2⟩ := ih h.2 (fun h' => ha (by simp [h'])) (fun h' => hb (by simp [h']))
      exact ⟨by rw [h.1, h1], h2⟩

/-- value of decimal digits -/
def digitsVal (s : Str) : Nat := s.foldl (fun a d => a * 10 + (d.toNat - 48)) 0

theorem decimal_val (n : Nat) : digitsVal (decimal n) = n := by
  induction n using Nat.strongRecOn with
  | ind n ih =>
    rw [decimal]
    split
    · rename_i h
      simp [digitsVal, UInt8.toNat_ofNat]
      omega
    · rename_i h
      have := ih (n / 10) (by omega)
      simp only [digitsVal] at this
      simp only [digitsVal, List.foldl_append, this, List.foldl_cons, List.foldl_nil, UInt8.toNat_ofNat']
      omega

theorem decimal_digits (n : Nat) : ∀ d ∈ decimal n, 48 ≤ d.toNat ∧ d.toNat ≤ 57 := by
  induction n using Nat.strongRecOn with
  | ind n ih =>
    rw [decimal]
    split
    · rename_i h
      intro d hd
      simp at hd; subst hd
      simp [UInt8.toNat_ofNat]; omega
    · rename_i h
      intro d hd
      rcases List.mem_append.1 hd with hd | hd
      · exact ih (n / 10) (by omega) d hd
      · simp at hd; subst hd
        simp [UInt8.toNat_ofNat']; omega

theorem quote_not_mem_decimal (n : Nat) : quote ∉ decimal n := by
  intro h
  have := (decimal_digits n _ h).1
  revert this; decide

theorem locText_inj {e e' : Err} (hq : QuoteFree e) (hq' : QuoteFree e') {x y : Str}
    (h : locText e.location ++ x = locText e'.location ++ y) (hx : ∀ z, x ≠ 32 :: z) (hy : ∀ z, y ≠ 32 :: z) :
    e.location = e'.location ∧ x = y := by
  have hqr : ∀ e : Err, QuoteFree e → match e.location with
      | .document => True
      | .record r => quote ∉ r
      | .recordMember r m => quote ∉ r ∧ quote ∉ m
      | .recordIndex r i => quote ∉ r := by
    intro e hq
    unfold Err.location
    cases hr : e.record with
    | none => trivial
    | some r =>
      cases hm : e.member with
      | some m => exact ⟨hq.1 r hr, hq.2 m hm⟩
      | none =>
        dsimp only
        by_cases hi : e.index = noIndex
        · rw [if_pos hi]; exact hq.1 r hr
        · rw [if_neg hi]; exact hq.1 r hr
  have h1 := hqr e hq
  have h2 := hqr e' hq'
  revert h h1 h2
  generalize e.location = l
  generalize e'.location = l'
  intro h h1 h2
  have hdoc : ∀ (z z' : Str), lit " in document" ++ z ≠ lit " within record \"" ++ z' := by
    intro z z' h
    have := congrArg (fun s => s[1]?) h
    simp only [lit] at this
    revert this
    simp
  have hmi : ∀ (z z' : Str), lit " and member \"" ++ z ≠ lit " and index \"" ++ z' := by
    intro z z' h
    have := congrArg (fun s => s[5]?) h
    simp only [lit] at this
    revert this
    simp
  have hsm : ∀ z : Str, lit " and member \"" ++ z = 32 :: ((lit "and member \"") ++ z) := fun _ => rfl
  have hsi : ∀ z : Str, lit " and index \"" ++ z = 32 :: ((lit "and index \"") ++ z) := fun _ => rfl
  have e0 : quote :: x = [] ++ quote :: x := rfl
  cases l <;> cases l' <;>
    simp only [locText, List.append_assoc, List.cons_append, List.nil_append] at h
  · exact ⟨rfl, List.append_cancel_left h⟩
  · exact absurd h (hdoc _ _)
  · exact absurd h (hdoc _ _)
  · exact absurd h (hdoc _ _)
  · exact absurd h.symm (hdoc _ _)
  · obtain ⟨h3, h4⟩ := split_quote (List.append_cancel_left h) h1 h2
    exact ⟨by rw [h3], h4⟩
  · obtain ⟨h3, h4⟩ := split_quote (List.append_cancel_left h) h1 h2.1
    exact absurd (h4.trans (hsm _)) (hx _)
  · obtain ⟨h3, h4⟩ := split_quote (List.append_cancel_left h) h1 h2
    exact absurd (h4.trans (hsi _)) (hx _)
  · exact absurd h.symm (hdoc _ _)
  · obtain ⟨h3, h4⟩ := split_quote (List.append_cancel_left h) h1.1 h2
    exact absurd (h4.symm.trans (hsm _)) (hy _)
  · obtain ⟨h3, h4⟩ := split_quote (List.append_cancel_left h) h1.1 h2.1
    obtain ⟨h5, h6⟩ := split_quote (List.append_cancel_left h4) h1.2 h2.2
    exact ⟨by rw [h3, h5], h6⟩
  · obtain ⟨h3, h4⟩ := split_quote (List.append_cancel_left h) h1.1 h2
    exact absurd h4 (hmi _ _)
  · exact absurd h.symm (hdoc _ _)
  · obtain ⟨h3, h4⟩ := split_quote (List.append_cancel_left h) h1 h2
    exact absurd (h4.symm.trans (hsi _)) (hy _)
  · obtain ⟨h3, h4⟩ := split_quote (List.append_cancel_left h) h1 h2.1
    exact absurd h4.symm (hmi _ _)
  · obtain ⟨h3, h4⟩ := split_quote (List.append_cancel_left h) h1 h2
    obtain ⟨h5, h6⟩ := split_quote (List.append_cancel_left h4) (quote_not_mem_decimal _) (quote_not_mem_decimal _)
    have h7 := congrArg digitsVal h5
    rw [decimal_val, decimal_val] at h7
    exact ⟨by rw [h3, h7], h6⟩

theorem locText_space (l : Location) : ∃ z, locText l = 32 :: z := by
  cases l <;> exact ⟨_, rfl⟩

theorem kindText_inj {k k' : ErrKind} {z z' : Str} (h : kindText k ++ 32 :: z = kindText k' ++ 32 :: z') : k = k' := by
  have h0 := congrArg (fun s => s[0]?) h
  have h1 := congrArg (fun s => s[16]?) h
  revert h0 h1
  cases k <;> cases k' <;> simp [kindText, lit]

theorem additionalInfo_space (e : Err) : ∀ z, additionalInfo e ≠ 32 :: z := by
  intro z h
  unfold additionalInfo at h
  split at h
  · have := congrArg (fun s => s[0]?) h
    revert this
    simp [lit]
  · cases h

theorem jsonType_inj {a b : JType} (h : jsonTypeToString a = jsonTypeToString b) : a = b := by
  revert h
  cases a <;> cases b <;> simp [jsonTypeToString, lit]

theorem jsonType_quote (a : JType) : quote ∉ jsonTypeToString a := by
  cases a <;> decide

theorem additionalInfo_inj {e e' : Err} (hk : e.kind = e'.kind) :
    additionalInfo e = additionalInfo e' ↔ (e.kind = .typeMismatch → e.expected = e'.expected ∧ e.actual = e'.actual) := by
  unfold additionalInfo
  rw [← hk]
  cases hk' : e.kind with
  | typeMismatch =>
    simp only [forall_const]
    have h2 : lit "\", got \"" = quote :: lit ", got \"" := rfl
    rw [h2]
    constructor
    · intro h
      simp only [List.append_assoc, List.cons_append] at h
      obtain ⟨h3, h4⟩ := split_quote (List.append_cancel_left h) (jsonType_quote _) (jsonType_quote _)
      obtain ⟨h5, -⟩ := split_quote (List.append_cancel_left h4) (jsonType_quote _) (jsonType_quote _)
      exact ⟨jsonType_inj h3, jsonType_inj h5⟩
    · rintro ⟨h1, h2⟩
      rw [h1, h2]
  | _ => simp

/-- C22: two errors have the same message iff they are of the same kind, at the same location (record and member if known,
else record and index if known, else record, else just "the document") and, for type mismatches only, have the same
expected and actual type. In particular errors of distinct kinds never format alike. -/
theorem C22_message_determines_error (e e' : Err) (hq : QuoteFree e) (hq' : QuoteFree e') :
    formatError e = formatError e' ↔
      e.kind = e'.kind ∧ e.location = e'.location ∧
        (e.kind = .typeMismatch → e.expected = e'.expected ∧ e.actual = e'.actual) := by
  rw [formatError_eq, formatError_eq]
  constructor
  · intro h
    obtain ⟨z, hz⟩ := locText_space e.location
    obtain ⟨z', hz'⟩ := locText_space e'.location
    have hk : e.kind = e'.kind := by
      rw [hz, hz'] at h
      exact kindText_inj h
    rw [hk] at h
    obtain ⟨h1, h2⟩ := locText_inj hq hq' (List.append_cancel_left h) (additionalInfo_space e) (additionalInfo_space e')
    exact ⟨hk, h1, (additionalInfo_inj hk).1 h2⟩
  · rintro ⟨h1, h2, h3⟩
    rw [(additionalInfo_inj h1).2 h3, h1, h2]

/-- C22 (without assumption on the names): the kind can be told from the message. -/
theorem C22_kind_determined (e e' : Err) (h : formatError e = formatError e') : e.kind = e'.kind := by
  rw [formatError_eq, formatError_eq] at h
  obtain ⟨z, hz⟩ := locText_space e.location
  obtain ⟨z', hz'⟩ := locText_space e'.location
  rw [hz, hz'] at h
  exact kindText_inj h

/-- C22 (end of the message): type mismatches name the expected and the actual JSON type by their usual names. -/
theorem C22_mismatch_names_types (e : Err) (he : e.kind = .typeMismatch) :
    let name : JType → Str := fun
      | .null => lit "null"
      | .bool => lit "bool"
      | .number => lit "number"
      | .string => lit "string"
      | .array => lit "array"
      | .object => lit "object"
    ∃ a, formatError e = a ++ lit ": expected \"" ++ name e.expected ++ lit "\", got \"" ++ name e.actual ++ lit "\"" := by
  refine ⟨kindText e.kind ++ locText e.location, ?_⟩
  rw [formatError_eq]
  simp only [additionalInfo, he, List.append_assoc]
  cases e.expected <;> cases e.actual <;> rfl

example : formatError ⟨.typeMismatch, .bool, .string, some (lit "R"), none, 3⟩ =
    lit "type mismatch within record \"R\" and index \"3\": expected \"bool\", got \"string\"" := by decide +kernel

/-- C22 (content of the message): it starts with the name of the kind and contains record and member or
index name; any position within an array counts as index. -/
theorem C22_message_content (e : Err) :
    (∃ rest, formatError e = (match e.kind with
      | .typeMismatch => lit "type mismatch"
      | .arraySizeMismatch => lit "array size mismatch"
      | .conversionError => lit "conversion error"
      | .unexpectedDuplicate => lit "unexpected duplicate"
      | .invalidVariantObject => lit "invalid variant object"
      | .invalidVariantIndex => lit "invalid variant index") ++ rest) ∧
    (∀ r, e.record = some r → ∃ a b, formatError e = a ++ (quote :: r ++ [quote]) ++ b) ∧
    (∀ r m, e.record = some r → e.member = some m → ∃ a b, formatError e = a ++ (lit "member \"" ++ m ++ [quote]) ++ b) ∧
    (∀ r, e.record = some r → e.member = none → e.index < 2 ^ 64 - 1 →
      ∃ a b, formatError e = a ++ (lit "index \"" ++ decimal e.index ++ [quote]) ++ b) := by
  refine ⟨?_, ?_, ?_, ?_⟩
  · rw [formatError_eq]
    refine ⟨locText e.location ++ additionalInfo e, ?_⟩
    cases e.kind <;> rfl
  · intro r hr
    have hl : ∃ b, locText e.location = lit " within record " ++ ((quote :: r ++ [quote]) ++ b) := by
      have hw : lit " within record \"" = lit " within record " ++ [quote] := rfl
      unfold Err.location
      rw [hr]
      cases e.member with
      | some m => exact ⟨lit " and member \"" ++ (m ++ [quote]), by simp only [locText, hw, List.append_assoc, List.cons_append, List.nil_append]⟩
      | none =>
        dsimp only
        split
        · exact ⟨[], by simp only [locText, hw, List.append_assoc, List.cons_append, List.nil_append, List.append_nil]⟩
        · exact ⟨lit " and index \"" ++ (decimal e.index ++ [quote]), by simp only [locText, hw, List.append_assoc, List.cons_append, List.nil_append]⟩
    obtain ⟨b, hb⟩ := hl
    refine ⟨kindText e.kind ++ lit " within record ", b ++ additionalInfo e, ?_⟩
    rw [formatError_eq, hb]
    simp only [List.append_assoc]
  · intro r m hr hm
    have hw : lit " and member \"" = lit " and " ++ lit "member \"" := rfl
    refine ⟨kindText e.kind ++ (lit " within record \"" ++ (r ++ quote :: lit " and ")), additionalInfo e, ?_⟩
    rw [formatError_eq]
    simp only [Err.location, hr, hm, locText, hw, List.append_assoc, List.cons_append, List.nil_append]
  · intro r hr hm hi
    replace hi : e.index ≠ noIndex := fun h => by rw [h] at hi; exact absurd hi (by simp [noIndex])
    have hw : lit " and index \"" = lit " and " ++ lit "index \"" := rfl
    refine ⟨kindText e.kind ++ (lit " within record \"" ++ (r ++ quote :: lit " and ")), additionalInfo e, ?_⟩
    rw [formatError_eq]
    simp only [Err.location, hr, hm, if_neg hi, locText, hw, List.append_assoc, List.cons_append, List.nil_append]

/-- C22 (indices): the index in a message is the decimal representation. -/
theorem C22_decimal (n : Nat) :
    (∀ d ∈ decimal n, 48 ≤ d.toNat ∧ d.toNat ≤ 57) ∧ (decimal n).foldl (fun a d => a * 10 + (d.toNat - 48)) 0 = n ∧
    (∀ ds, decimal n = 48 :: ds → ds = []) := by
  refine ⟨decimal_digits n, decimal_val n, ?_⟩
  induction n using Nat.strongRecOn with
  | ind n ih =>
    intro ds h
    rw [decimal] at h
    split at h
    · simp at h; exact h.2.symm ▸ rfl
    · rename_i h10
      cases hd : decimal (n / 10) with
      | nil =>
        have := decimal_val (n / 10)
        rw [hd] at this
        simp [digitsVal] at this
        omega
      | cons x xs =>
        rw [hd] at h
        simp only [List.cons_append, List.cons.injEq] at h
        obtain ⟨rfl, h⟩ := h
        have hxs := ih (n / 10) (by omega) xs hd
        subst hxs
        have := decimal_val (n / 10)
        rw [hd] at this
        simp [digitsVal] at this
        omega

example : formatError ⟨.typeMismatch, .number, .string, some (lit "Foo"), some (lit "bar"), 3⟩ =
    lit "type mismatch within record \"Foo\" and member \"bar\": expected \"number\", got \"string\"" := by rfl
example : QuoteFree ⟨.typeMismatch, .number, .string, some (lit "Foo"), some (lit "bar"), 3⟩ :=
  ⟨fun r h => by cases h; decide, fun m h => by cases h; decide⟩
/-- a null record hides the member -/
example : formatError ⟨.conversionError, .string, .string, none, some (lit "bar"), 3⟩ = lit "conversion error in document" := by rfl
theorem decimal_42 : decimal 42 = lit "42" := by
  rw [decimal, decimal]; rfl

end Verif
