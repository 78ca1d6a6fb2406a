import Verif.Spec.JsonText

/-!
# Lemmas about the JSON text model: the parser accepts the grammar
-/

namespace Verif.JsonText

/-! ## Whitespace -/

theorem isWs_iff (c : UInt8) : isWs c = true ↔ c = 0x20 ∨ c = 0x09 ∨ c = 0x0a ∨ c = 0x0d := by
  simp only [isWs, Bool.or_eq_true, decide_eq_true_eq]
  constructor
  · rintro (((h | h) | h) | h) <;> simp [h]
  · rintro (h | h | h | h) <;> simp [h]

theorem skipWs_blank {b s : Str} (h : Blank b) : skipWs (b ++ s) = skipWs s := by
  induction b with
  | nil => rfl
  | cons c b ih =>
    have hc : isWs c = true := (isWs_iff c).2 (h c List.mem_cons_self)
    rw [List.cons_append, skipWs, List.dropWhile_cons_of_pos hc]
    exact ih fun c hc => h c (List.mem_cons_of_mem _ hc)

theorem skipWs_cons {c : UInt8} {s : Str} (h : isWs c = false) : skipWs (c :: s) = c :: s :=
  List.dropWhile_cons_of_neg (by simp [h])

theorem skipWs_nil : skipWs [] = [] := rfl

/-- what whitespace skipping does -/
theorem skipWs_spec (s : Str) : ∃ b, Blank b ∧ s = b ++ skipWs s ∧ isWs (peek (skipWs s)) = false := by
  induction s with
  | nil => exact ⟨[], (fun c hc => nomatch hc), rfl, rfl⟩
  | cons c s ih =>
    cases hc : isWs c with
    | true =>
      obtain ⟨b, h1, h2, h3⟩ := ih
      refine ⟨c :: b, ?_, ?_, ?_⟩
      · intro d hd
        rcases List.mem_cons.1 hd with rfl | hd
        · exact (isWs_iff d).1 hc
        · exact h1 d hd
      · rw [skipWs, List.dropWhile_cons_of_pos hc, List.cons_append]
        exact congrArg _ h2
      · rw [skipWs, List.dropWhile_cons_of_pos hc]
        exact h3
    | false =>
      rw [skipWs_cons hc]
      exact ⟨[], (fun c hc => nomatch hc), rfl, hc⟩

theorem skipWs_length (s : Str) : (skipWs s).length ≤ s.length := (List.dropWhile_sublist _).length_le

/-! ## Strings -/

theorem hexVal_iff (c : UInt8) (n : Nat) : hexVal c = some n ↔ Hex c n := by
  unfold hexVal Hex
  split
  · simp only [Option.some.injEq]; omega
  · split
    · simp only [Option.some.injEq]; omega
    · split
      · simp only [Option.some.injEq]; omega
      · simp only [reduceCtorEq, false_iff]; omega

theorem hex4_iff (s : Str) (n : Nat) (r : Str) : hex4 s = some (n, r) ↔ ∃ t, s = t ++ r ∧ Hex4 t n := by
  constructor
  · intro h
    unfold hex4 at h
    split at h
    · split at h
      · rename_i a b c d s _ _ _ _ na nb nc nd ha hb hc hd
        simp only [Option.some.injEq, Prod.mk.injEq] at h
        obtain ⟨rfl, rfl⟩ := h
        exact ⟨[a, b, c, d], rfl, a, b, c, d, na, nb, nc, nd, rfl, (hexVal_iff _ _).1 ha, (hexVal_iff _ _).1 hb,
          (hexVal_iff _ _).1 hc, (hexVal_iff _ _).1 hd, rfl⟩
      · cases h
    · cases h
  · rintro ⟨t, rfl, a, b, c, d, na, nb, nc, nd, rfl, ha, hb, hc, hd, rfl⟩
    simp [hex4, (hexVal_iff _ _).2 ha, (hexVal_iff _ _).2 hb, (hexVal_iff _ _).2 hc, (hexVal_iff _ _).2 hd]

theorem hex_lt {c : UInt8} {n : Nat} (h : Hex c n) : n < 16 := by rcases h with h | h <;> omega

theorem hex4_lt {t : Str} {n : Nat} (h : Hex4 t n) : n < 65536 := by
  obtain ⟨a, b, c, d, na, nb, nc, nd, -, ha, hb, hc, hd, rfl⟩ := h
  have := hex_lt ha; have := hex_lt hb; have := hex_lt hc; have := hex_lt hd
  omega

theorem hex4_length {t : Str} {n : Nat} (h : Hex4 t n) : t.length = 4 := by
  obtain ⟨a, b, c, d, na, nb, nc, nd, rfl, -⟩ := h
  rfl

theorem encode_eq (n : Nat) (h : n.isValidChar) : encode n = utf8 n := by
  have hv : (Char.ofNat n).val.toNat = n := by
    have : (Char.ofNat n).toNat = n := by
      simp [Char.ofNat, h, Char.ofNatAux, Char.toNat, UInt32.toNat]
    exact this
  have hlt : n < 1114112 := by rcases h with h | h <;> omega
  unfold encode String.utf8EncodeChar utf8
  simp only [hv]
  split
  · rfl
  · split
    · have e1 : n / 64 % 32 + 192 = 192 + n / 64 := by omega
      have e2 : n % 64 + 128 = 128 + n % 64 := by omega
      rw [e1, e2]
    · split
      · have e1 : n / 4096 % 16 + 224 = 224 + n / 4096 := by omega
        have e2 : n / 64 % 64 + 128 = 128 + n / 64 % 64 := by omega
        have e3 : n % 64 + 128 = 128 + n % 64 := by omega
        rw [e1, e2, e3]
      · have e1 : n / 262144 % 8 + 240 = 240 + n / 262144 := by omega
        have e2 : n / 4096 % 64 + 128 = 128 + n / 4096 % 64 := by omega
        have e3 : n / 64 % 64 + 128 = 128 + n / 64 % 64 := by omega
        have e4 : n % 64 + 128 = 128 + n % 64 := by omega
        rw [e1, e2, e3, e4]

theorem unescape_iff (e b : UInt8) : unescape e = some b ↔ (e, b) ∈ shortEscapes := by
  unfold unescape shortEscapes
  simp only [List.mem_cons, Prod.mk.injEq, List.not_mem_nil, or_false]
  constructor
  · intro h
    repeat' split at h
    all_goals first
      | (cases h; done)
      | (simp only [Option.some.injEq] at h; subst h; simp_all)
  · rintro (⟨rfl, rfl⟩ | ⟨rfl, rfl⟩ | ⟨rfl, rfl⟩ | ⟨rfl, rfl⟩ | ⟨rfl, rfl⟩ | ⟨rfl, rfl⟩ | ⟨rfl, rfl⟩ | ⟨rfl, rfl⟩) <;> decide

theorem scanUnicode_single {h : Str} {n : Nat} (hh : Hex4 h n) (hn : ¬(0xd800 ≤ n ∧ n ≤ 0xdfff)) (s : Str) :
    scanUnicode (h ++ s) = .ok (encode n, s) := by
  have := hex4_lt hh
  rw [encode_eq n (by unfold Nat.isValidChar; omega), scanUnicode, (hex4_iff _ n s).2 ⟨h, rfl, hh⟩]
  simp only [if_neg hn]

theorem scanUnicode_pair {h l : Str} {n m k : Nat} (hh : Hex4 h n) (hl : Hex4 l m) (h1 : 0xd800 ≤ n) (h2 : n ≤ 0xdbff)
    (h3 : 0xdc00 ≤ m) (h4 : m ≤ 0xdfff) (hk : k = 0x10000 + (n - 0xd800) * 0x400 + (m - 0xdc00)) (s : Str) :
    scanUnicode (h ++ 0x5c :: 0x75 :: (l ++ s)) = .ok (encode k, s) := by
  rw [encode_eq _ (by unfold Nat.isValidChar; omega), scanUnicode, (hex4_iff _ n _).2 ⟨h, rfl, hh⟩]
  have e1 : 0xd800 ≤ n ∧ n ≤ 0xdfff := by omega
  have e2 : (n - 0xd800) * 1024 + (m - 0xdc00) + 0x10000 = k := by omega
  simp only [if_pos e1, if_pos h2, (hex4_iff _ m s).2 ⟨l, rfl, hl⟩, if_pos (And.intro h3 h4), e2]

theorem not_lt_32 {c : UInt8} (h : 0x20 ≤ c.toNat) : ¬ c < 0x20 := by
  rw [UInt8.lt_iff_toNat_lt]
  exact Nat.not_lt.2 h

theorem scanString_chars {s t : Str} (h : Chars s t) : ∀ n acc rest, t.length < n →
    scanString n acc (t ++ 0x22 :: rest) = .ok (acc.reverse ++ s, rest) := by
  induction h with
  | nil =>
    intro n acc rest hn
    obtain ⟨n, rfl⟩ : ∃ m, n = m + 1 := ⟨n - 1, by simp at hn; omega⟩
    simp [scanString]
  | @plain c s t hc h1 h2 _ ih =>
    intro n acc rest hn
    obtain ⟨n, rfl⟩ : ∃ m, n = m + 1 := ⟨n - 1, by simp at hn; omega⟩
    have h0 : c ≠ 0 := by intro h; subst h; simp at hc
    simp only [List.length_cons] at hn
    simp only [List.cons_append, scanString, if_neg h2, if_neg h1, if_neg h0, if_neg (not_lt_32 hc),
      ih n (c :: acc) rest (by omega)]
    simp
  | @short e b s t he _ ih =>
    intro n acc rest hn
    obtain ⟨n, rfl⟩ : ∃ m, n = m + 1 := ⟨n - 1, by simp at hn; omega⟩
    simp only [List.length_cons] at hn
    simp only [List.cons_append, scanString, if_true, (unescape_iff e b).2 he, ih n (b :: acc) rest (by omega)]
    simp
  | @unicode h k s t hh hn' _ ih =>
    intro n acc rest hn
    obtain ⟨n, rfl⟩ : ∃ m, n = m + 1 := ⟨n - 1, by simp at hn; omega⟩
    simp only [List.length_cons, List.length_append] at hn
    have hu : unescape 0x75 = none := by decide
    simp only [List.cons_append, List.append_assoc, scanString, if_true, hu, scanUnicode_single hh hn', ih n _ rest (by omega)]
    simp
  | @surrogates h l k m cp s t hh hl h1 h2 h3 h4 h5 _ ih =>
    intro n acc rest hn
    obtain ⟨n, rfl⟩ : ∃ m, n = m + 1 := ⟨n - 1, by simp at hn; omega⟩
    simp only [List.length_cons, List.length_append] at hn
    have hu : unescape 0x75 = none := by decide
    have := scanUnicode_pair hh hl h1 h2 h3 h4 h5 (t ++ 0x22 :: rest)
    simp only [List.cons_append, List.append_assoc, scanString, if_true, hu, this, ih n _ rest (by omega)]
    simp

/-! ## Numbers -/

theorem isDigit_iff (c : UInt8) : isDigit c = true ↔ 0x30 ≤ c.toNat ∧ c.toNat ≤ 0x39 := by simp [isDigit]

theorem takeWhile_digits {ds r : Str} (h : ∀ c ∈ ds, 0x30 ≤ c.toNat ∧ c.toNat ≤ 0x39) (hr : isDigit (peek r) = false) :
    (ds ++ r).takeWhile isDigit = ds ∧ (ds ++ r).dropWhile isDigit = r := by
  induction ds with
  | nil =>
    cases r with
    | nil => simp
    | cons c r => simp only [peek] at hr; simp [hr]
  | cons c ds ih =>
    have hc := (isDigit_iff c).2 (h c List.mem_cons_self)
    have := ih fun c hc => h c (List.mem_cons_of_mem _ hc)
    simp [hc, this]

/-- what may follow a value: nothing which continues a number -/
def Follow (r : Str) : Prop := isDigit (peek r) = false ∧ peek r ≠ 0x2e ∧ peek r ≠ 0x65 ∧ peek r ≠ 0x45

theorem scanFrac_spec {f r : Str} (h : Frac f) (hr : isDigit (peek r) = false) (hr' : f = [] → peek r ≠ 0x2e) :
    scanFrac (f ++ r) = .ok (f, r) := by
  rcases h with rfl | ⟨ds, hd, rfl⟩
  · have := hr' rfl
    unfold scanFrac
    rw [List.nil_append]
    split
    · simp [peek] at this
    · rfl
  · have := takeWhile_digits hd.2 hr
    simp only [List.cons_append, scanFrac, this]
    rw [if_neg]
    simpa using hd.1

theorem scanExp_spec {e r : Str} (h : Exp e) (hr : isDigit (peek r) = false) (hr' : e = [] → peek r ≠ 0x65 ∧ peek r ≠ 0x45) :
    scanExp (e ++ r) = .ok (e, r) := by
  rcases h with rfl | ⟨c, sign, ds, hc, hs, hd, rfl⟩
  · have := hr' rfl
    rw [List.nil_append]
    cases r with
    | nil => rfl
    | cons c r =>
      simp only [peek] at this
      simp [scanExp, this]
  · have ht := takeWhile_digits hd.2 hr
    have hne : (ds.isEmpty = true) = False := by simpa using hd.1
    obtain ⟨d, ds', rfl⟩ : ∃ d ds', ds = d :: ds' := by
      cases ds with
      | nil => exact absurd rfl hd.1
      | cons d ds' => exact ⟨d, ds', rfl⟩
    have hdig := hd.2 d List.mem_cons_self
    have hd1 : d ≠ 0x2b := by rintro rfl; simp at hdig
    have hd2 : d ≠ 0x2d := by rintro rfl; simp at hdig
    have hsgn : scanSign (sign ++ (d :: ds' ++ r)) = (sign, d :: ds' ++ r) := by
      rcases hs with rfl | rfl | rfl
      · rw [List.nil_append, List.cons_append]
        unfold scanSign
        split
        · rename_i h; simp only [List.cons.injEq] at h; exact absurd h.1 hd1
        · rename_i h; simp only [List.cons.injEq] at h; exact absurd h.1 hd2
        · rfl
      · rfl
      · rfl
    rw [List.cons_append, List.append_assoc, scanExp, if_pos hc]
    simp only [hsgn, ht, hne, if_false]

theorem scanIntPart_spec {ds r : Str} (h : IntPart ds) (hr : isDigit (peek r) = false) :
    scanIntPart (ds ++ r) = .ok (ds, r) := by
  obtain ⟨⟨hne, hd⟩, hz⟩ := h
  have ht := takeWhile_digits hd hr
  cases ds with
  | nil => exact absurd rfl hne
  | cons d ds' =>
    have hdig := (isDigit_iff d).2 (hd d List.mem_cons_self)
    by_cases h0 : d = 0x30
    · subst h0
      have := hz _ rfl
      subst this
      simp [scanIntPart]
    · rw [List.cons_append] at ht
      rw [List.cons_append, scanIntPart, if_neg h0, if_pos hdig, ht.1, ht.2]

theorem peek_frac {f r : Str} (h : Frac f) (hr : isDigit (peek r) = false) : isDigit (peek (f ++ r)) = false := by
  rcases h with rfl | ⟨ds, hd, rfl⟩
  · exact hr
  · show isDigit 0x2e = false
    decide

theorem peek_exp {e r : Str} (h : Exp e) (hr : isDigit (peek r) = false) (h' : peek r ≠ 0x2e) :
    isDigit (peek (e ++ r)) = false ∧ peek (e ++ r) ≠ 0x2e := by
  rcases h with rfl | ⟨c, sign, ds, hc, hs, hd, rfl⟩
  · exact ⟨hr, h'⟩
  · rcases hc with rfl | rfl
    · exact ⟨(by decide : isDigit 0x65 = false), (by decide : (0x65 : UInt8) ≠ 0x2e)⟩
    · exact ⟨(by decide : isDigit 0x45 = false), (by decide : (0x45 : UInt8) ≠ 0x2e)⟩

theorem decVal_eq (ds : Str) : decVal ds = value ds := rfl

theorem intPart_head {ds : Str} (h : IntPart ds) (r : Str) : ∀ x, ds ++ r ≠ 0x2d :: x := by
  obtain ⟨⟨hne, hd⟩, _⟩ := h
  cases ds with
  | nil => exact absurd rfl hne
  | cons d ds =>
    intro x hx
    simp only [List.cons_append, List.cons.injEq] at hx
    have := hd d List.mem_cons_self
    rw [hx.1] at this
    simp at this

theorem scanNumber_parts (D : Dbl) {sign ds f e r : Str} (hs : sign = [] ∨ sign = [0x2d]) (h : IntPart ds) (hf : Frac f) (he : Exp e)
    (hr : Follow r) :
    scanNumber D (sign ++ (ds ++ (f ++ (e ++ r)))) =
      if f.isEmpty && e.isEmpty && decide (value ds < (if sign.isEmpty then 2 ^ 64 else 2 ^ 63 + 1)) then
        .ok (.int (if sign.isEmpty then value ds else -(value ds : Int)), r)
      else match D.parse (sign ++ ds ++ f ++ e) with
        | some d => .ok (.dbl d, r)
        | none => .error (.code 13) := by
  obtain ⟨r1, r2, r3⟩ := hr
  obtain ⟨p1, p2⟩ := peek_exp he r1 r2
  have q1 := scanIntPart_spec h (peek_frac hf p1)
  have q2 := scanFrac_spec hf p1 (fun _ => p2)
  have q3 := scanExp_spec he r1 (fun _ => r3)
  have hm : scanMinus (sign ++ (ds ++ (f ++ (e ++ r)))) = (sign, ds ++ (f ++ (e ++ r))) := by
    rcases hs with rfl | rfl
    · have hh := intPart_head h (f ++ (e ++ r))
      rw [List.nil_append]
      unfold scanMinus
      split
      · rename_i x hx; exact absurd hx (hh x)
      · rfl
    · rfl
  simp only [scanNumber, hm, q1, q2, q3]
  rfl

theorem scanNumber_spec (D : Dbl) {n : Num} {t r : Str} (h : NumText D n t) (hr : Follow r) :
    scanNumber D (t ++ r) = .ok (n, r) := by
  cases h with
  | int ds h1 h2 =>
    have := scanNumber_parts D (sign := []) (f := []) (e := []) (.inl rfl) h1 (.inl rfl) (.inl rfl) hr
    simp only [List.nil_append] at this
    rw [this]
    simp [h2]
  | neg ds h1 h2 =>
    have := scanNumber_parts D (sign := [0x2d]) (f := []) (e := []) (.inr rfl) h1 (.inl rfl) (.inl rfl) hr
    simp only [List.nil_append] at this
    rw [show (0x2d :: ds ++ r) = [0x2d] ++ (ds ++ r) from rfl, this]
    have : value ds < 2 ^ 63 + 1 := by omega
    simp [this]
  | dbl sign ds f e d hs h1 h2 h3 h4 h5 =>
    have := scanNumber_parts D hs h1 h2 h3 hr
    rw [show sign ++ ds ++ f ++ e ++ r = sign ++ (ds ++ (f ++ (e ++ r))) by simp [List.append_assoc], this, if_neg, h5]
    intro hc
    simp only [Bool.and_eq_true, List.isEmpty_iff, decide_eq_true_eq] at hc
    obtain ⟨⟨rfl, rfl⟩, hv⟩ := hc
    have := h4 rfl rfl
    by_cases hsn : sign = []
    · rw [if_pos hsn] at this hv
      omega
    · rw [if_neg hsn] at this hv
      omega

/-! ## Values -/

theorem scanLit_spec (l : Str) (j : Json) (r : Str) : scanLit l j (l ++ r) = .ok (j, r) := by
  have : l.isPrefixOf (l ++ r) = true := by simp
  simp [scanLit, this]

/-- first byte of a number -/
theorem num_head {D : Dbl} {n : Num} {t : Str} (h : NumText D n t) (r : Str) :
    peek (t ++ r) = 0x2d ∨ isDigit (peek (t ++ r)) = true := by
  have key : ∀ ds r, IntPart ds → isDigit (peek (ds ++ r)) = true := by
    intro ds r h
    cases ds with
    | nil => exact absurd rfl h.1.1
    | cons d ds => exact (isDigit_iff d).2 (h.1.2 d List.mem_cons_self)
  cases h with
  | int ds h => exact .inr (key _ _ h)
  | neg ds h => exact .inl rfl
  | dbl sign ds f e d hs h =>
    rcases hs with rfl | rfl
    · right
      simp only [List.nil_append, List.append_assoc]
      exact key _ _ h
    · exact .inl rfl

theorem num_head_ne {D : Dbl} {n : Num} {t : Str} (h : NumText D n t) (r : Str) (c : UInt8) (hc : c ≠ 0x2d)
    (hd : isDigit c = false) : peek (t ++ r) ≠ c := by
  intro he
  rcases num_head h r with h | h
  · exact hc (he.symm.trans h)
  · rw [he, hd] at h; cases h

/-- bytes a value can start with, roughly -/
def HeadOk (c : UInt8) : Prop :=
  isWs c = false ∧ c ≠ 0x5d ∧ c ≠ 0x7d ∧ c ≠ 0 ∧ c ≠ 0xef ∧ c ≠ 0xbb ∧ c ≠ 0xbf

instance (c : UInt8) : Decidable (HeadOk c) := inferInstanceAs (Decidable (_ ∧ _))

/-- first byte of a value -/
theorem text_head {D : Dbl} {j : Json} {t : Str} (h : Text D j t) (r : Str) : HeadOk (peek (t ++ r)) := by
  cases h with
  | null => exact (by decide : HeadOk 0x6e)
  | true => exact (by decide : HeadOk 0x74)
  | false => exact (by decide : HeadOk 0x66)
  | num h =>
    have := num_head_ne h r
    refine ⟨?_, this _ (by decide) (by decide), this _ (by decide) (by decide), this _ (by decide) (by decide),
      this _ (by decide) (by decide), this _ (by decide) (by decide), this _ (by decide) (by decide)⟩
    cases hw : isWs (peek (t ++ r)) with
    | false => rfl
    | true =>
      rcases (isWs_iff _).1 hw with h | h | h | h <;> exact absurd h (this _ (by decide) (by decide))
  | str h => obtain ⟨u, -, rfl⟩ := h; exact (by decide : HeadOk 0x22)
  | arrEmpty => exact (by decide : HeadOk 0x5b)
  | arr => exact (by decide : HeadOk 0x5b)
  | objEmpty => exact (by decide : HeadOk 0x7b)
  | obj => exact (by decide : HeadOk 0x7b)

theorem skipWs_text {D : Dbl} {j : Json} {t : Str} (h : Text D j t) {b : Str} (hb : Blank b) (r : Str) :
    skipWs (b ++ (t ++ r)) = t ++ r := by
  rw [skipWs_blank hb]
  have := (text_head h r).1
  cases ht : t ++ r with
  | nil => rfl
  | cons c s => rw [ht] at this; exact skipWs_cons this

theorem follow_cons {c : UInt8} (r : Str) (h : isDigit c = false) (h1 : c ≠ 0x2e) (h2 : c ≠ 0x65) (h3 : c ≠ 0x45) :
    Follow (c :: r) := ⟨h, h1, h2, h3⟩

theorem follow_blank {b r : Str} (hb : Blank b) (hr : Follow r) : Follow (b ++ r) := by
  cases b with
  | nil => exact hr
  | cons c b =>
    rcases hb c List.mem_cons_self with rfl | rfl | rfl | rfl <;>
      exact follow_cons _ (by decide) (by decide) (by decide) (by decide)

theorem skipWs_token {b : Str} (hb : Blank b) (c : UInt8) (r : Str) (hc : isWs c = false) : skipWs (b ++ c :: r) = c :: r := by
  rw [skipWs_blank hb, skipWs_cons hc]

theorem strText_length {s t : Str} (h : StrText s t) : 2 ≤ t.length := by
  obtain ⟨u, -, rfl⟩ := h
  simp

mutual
theorem scanValue_complete {D : Dbl} {j : Json} {t : Str} (h : Text D j t) (n : Nat) (r : Str) (hn : t.length < n) (hr : Follow r) :
    scanValue D n (t ++ r) = .ok (j, r) := by
  obtain ⟨n, rfl⟩ : ∃ m, n = m + 1 := ⟨n - 1, by omega⟩
  cases h with
  | null => simp only [scanValue]; exact scanLit_spec (lit "null") _ _
  | true => simp only [scanValue]; exact scanLit_spec (lit "true") _ _
  | false => simp only [scanValue]; exact scanLit_spec (lit "false") _ _
  | num h =>
    have hne := num_head_ne h r
    simp only [scanValue, if_neg (hne 0x6e (by decide) (by decide)), if_neg (hne 0x74 (by decide) (by decide)),
      if_neg (hne 0x66 (by decide) (by decide)), if_neg (hne 0x22 (by decide) (by decide)),
      if_neg (hne 0x7b (by decide) (by decide)), if_neg (hne 0x5b (by decide) (by decide)), scanNumber_spec D h hr]
  | str h =>
    obtain ⟨u, hu, rfl⟩ := h
    simp only [List.length_cons, List.length_append, List.length_nil] at hn
    have := scanString_chars hu n [] r (by omega)
    simp [scanValue, peek, this]
  | @arrEmpty b hb =>
    have := skipWs_token hb 0x5d r (by decide)
    simp [scanValue, peek, this]
  | @arr js t h =>
    simp only [List.length_cons, List.length_append, List.length_nil] at hn
    have h1 := scanItems_complete h n [] r (by omega)
    have h2 : peek (skipWs (t ++ 0x5d :: r)) ≠ 0x5d := by
      cases h with
      | one hb ht hb' =>
        simp only [List.append_assoc]
        rw [skipWs_text ht hb]; exact (text_head ht _).2.1
      | more hb ht hb' =>
        simp only [List.append_assoc]
        rw [skipWs_text ht hb]; exact (text_head ht _).2.1
    have h3 : peek (0x5b :: (t ++ [0x5d]) ++ r) = 0x5b := rfl
    have h4 : (0x5b :: (t ++ [0x5d]) ++ r : Str).tail = t ++ 0x5d :: r := by simp
    simp only [scanValue, h3, h4, if_neg h2, h1]
    rfl
  | @objEmpty b hb =>
    have := skipWs_token hb 0x7d r (by decide)
    simp [scanValue, peek, this]
  | @obj ms t h =>
    simp only [List.length_cons, List.length_append, List.length_nil] at hn
    have h1 := scanMembers_complete h n [] r (by omega)
    have h2 : peek (skipWs (t ++ 0x7d :: r)) ≠ 0x7d := by
      cases h with
      | one hb hk hb1 hb2 ht hb' =>
        obtain ⟨u, -, rfl⟩ := hk
        simp only [List.append_assoc, List.cons_append]
        rw [skipWs_token hb 0x22 _ (by decide)]; exact (by decide : (0x22 : UInt8) ≠ 0x7d)
      | more hb hk hb1 hb2 ht hb' =>
        obtain ⟨u, -, rfl⟩ := hk
        simp only [List.append_assoc, List.cons_append]
        rw [skipWs_token hb 0x22 _ (by decide)]; exact (by decide : (0x22 : UInt8) ≠ 0x7d)
    have h3 : peek (0x7b :: (t ++ [0x7d]) ++ r) = 0x7b := rfl
    have h4 : (0x7b :: (t ++ [0x7d]) ++ r : Str).tail = t ++ 0x7d :: r := by simp
    simp only [scanValue, h3, h4, if_neg h2, h1]
    rfl

theorem scanItems_complete {D : Dbl} {js : List Json} {t : Str} (h : Items D js t) (n : Nat) (acc : List Json) (r : Str)
    (hn : t.length + 1 < n) : scanItems D n acc (skipWs (t ++ 0x5d :: r)) = .ok (acc ++ js, r) := by
  obtain ⟨n, rfl⟩ : ∃ m, n = m + 1 := ⟨n - 1, by omega⟩
  cases h with
  | @one j t b b' hb ht hb' =>
    simp only [List.length_append] at hn
    have h1 := scanValue_complete ht n (b' ++ 0x5d :: r) (by omega)
      (follow_blank hb' (follow_cons _ (by decide) (by decide) (by decide) (by decide)))
    simp only [List.append_assoc]
    rw [skipWs_text ht hb]
    simp [scanItems, h1, skipWs_token hb' 0x5d r (by decide), peek]
  | @more j t b b' js u hb ht hb' hu =>
    simp only [List.length_append, List.length_cons] at hn
    have h1 := scanValue_complete ht n (b' ++ 0x2c :: (u ++ 0x5d :: r)) (by omega)
      (follow_blank hb' (follow_cons _ (by decide) (by decide) (by decide) (by decide)))
    have h2 := scanItems_complete hu n (acc ++ [j]) r (by omega)
    simp only [List.append_assoc, List.cons_append]
    rw [skipWs_text ht hb]
    simp [scanItems, h1, skipWs_token hb' 0x2c _ (by decide), peek, h2]

theorem scanMembers_complete {D : Dbl} {ms : List (Key × Json)} {t : Str} (h : Members D ms t) (n : Nat)
    (acc : List (Key × Json)) (r : Str) (hn : t.length + 1 < n) :
    scanMembers D n acc (skipWs (t ++ 0x7d :: r)) = .ok (acc ++ ms, r) := by
  obtain ⟨n, rfl⟩ : ∃ m, n = m + 1 := ⟨n - 1, by omega⟩
  cases h with
  | @one k kt j t b b1 b2 b' hb hk hb1 hb2 ht hb' =>
    obtain ⟨u, hu, rfl⟩ := hk
    simp only [List.length_append, List.length_cons, List.length_nil] at hn
    have h1 := scanValue_complete ht n (b' ++ 0x7d :: r) (by omega)
      (follow_blank hb' (follow_cons _ (by decide) (by decide) (by decide) (by decide)))
    simp only [List.append_assoc, List.cons_append, List.nil_append]
    rw [skipWs_token hb 0x22 _ (by decide)]
    have h2 := scanString_chars hu n [] (b1 ++ 0x3a :: (b2 ++ (t ++ (b' ++ 0x7d :: r)))) (by omega)
    simp [scanMembers, h2, skipWs_token hb1 0x3a _ (by decide), peek, skipWs_text ht hb2, h1,
      skipWs_token hb' 0x7d r (by decide)]
  | @more k kt j t b b1 b2 b' ms v hb hk hb1 hb2 ht hb' hv =>
    obtain ⟨u, hu, rfl⟩ := hk
    simp only [List.length_append, List.length_cons, List.length_nil] at hn
    have h1 := scanValue_complete ht n (b' ++ 0x2c :: (v ++ 0x7d :: r)) (by omega)
      (follow_blank hb' (follow_cons _ (by decide) (by decide) (by decide) (by decide)))
    simp only [List.append_assoc, List.cons_append, List.nil_append]
    rw [skipWs_token hb 0x22 _ (by decide)]
    have h2 := scanString_chars hu n [] (b1 ++ 0x3a :: (b2 ++ (t ++ (b' ++ 0x2c :: (v ++ 0x7d :: r))))) (by omega)
    have h3 := scanMembers_complete hv n (acc ++ [(⟨k, .copied⟩, j)]) r (by omega)
    simp [scanMembers, h2, skipWs_token hb1 0x3a _ (by decide), peek, skipWs_text ht hb2, h1,
      skipWs_token hb' 0x2c _ (by decide), h3]
end

end Verif.JsonText
