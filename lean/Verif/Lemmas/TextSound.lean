import Verif.Lemmas.Text

/-!
# Lemmas about the JSON text model: the parser accepts nothing but the grammar, and never runs out of fuel
-/

namespace Verif.JsonText

theorem scanUnicode_sound {s bs r : Str} (h : scanUnicode s = .ok (bs, r)) :
    (∃ t n, s = t ++ r ∧ Hex4 t n ∧ ¬(0xd800 ≤ n ∧ n ≤ 0xdfff) ∧ bs = encode n) ∨
    (∃ t u n m k, s = t ++ 0x5c :: 0x75 :: (u ++ r) ∧ Hex4 t n ∧ Hex4 u m ∧ 0xd800 ≤ n ∧ n ≤ 0xdbff ∧ 0xdc00 ≤ m ∧ m ≤ 0xdfff ∧
      k = 0x10000 + (n - 0xd800) * 0x400 + (m - 0xdc00) ∧ bs = encode k) := by
  unfold scanUnicode at h
  split at h
  · cases h
  · rename_i cp s' hh
    obtain ⟨t, rfl, ht⟩ := (hex4_iff _ _ _).1 hh
    split at h
    · rename_i hsur
      split at h
      · rename_i hhi
        split at h
        · split at h
          · cases h
          · rename_i cp2 s'' hh2
            obtain ⟨u, rfl, hu⟩ := (hex4_iff _ _ _).1 hh2
            split at h
            · rename_i hlo
              have hk : (cp - 0xd800) * 1024 + (cp2 - 0xdc00) + 0x10000 =
                  0x10000 + (cp - 0xd800) * 0x400 + (cp2 - 0xdc00) := by omega
              generalize (cp - 0xd800) * 1024 + (cp2 - 0xdc00) + 0x10000 = k at h hk
              simp only [Except.ok.injEq, Prod.mk.injEq] at h
              obtain ⟨h, rfl⟩ := h
              refine .inr ⟨t, u, cp, cp2, k, rfl, ht, hu, hsur.1, hhi, hlo.1, hlo.2, hk, ?_⟩
              rw [encode_eq _ (by unfold Nat.isValidChar; omega), h]
            · cases h
        · cases h
      · cases h
    · rename_i hsur
      cases h
      refine .inl ⟨t, cp, rfl, ht, hsur, ?_⟩
      have := hex4_lt ht
      rw [encode_eq _ (by unfold Nat.isValidChar; omega)]

theorem scanString_sound (n : Nat) : ∀ acc s v r, scanString n acc s = .ok (v, r) →
    ∃ u w, s = u ++ 0x22 :: r ∧ Chars w u ∧ v = acc.reverse ++ w := by
  induction n with
  | zero => intro acc s v r h; simp [scanString] at h
  | succ n ih =>
    intro acc s v r h
    cases s with
    | nil => simp [scanString] at h
    | cons c s =>
      simp only [scanString] at h
      split at h
      · rename_i hc
        subst hc
        cases s with
        | nil => simp at h
        | cons e s =>
          simp only at h
          split at h
          · rename_i b hb
            obtain ⟨u, w, rfl, hu, rfl⟩ := ih _ _ _ _ h
            exact ⟨0x5c :: e :: u, b :: w, by simp, .short e b ((unescape_iff _ _).1 hb) hu, by simp⟩
          · split at h
            · rename_i he
              subst he
              split at h
              · rename_i bs s' hs
                obtain ⟨u, w, rfl, hu, rfl⟩ := ih _ _ _ _ h
                rcases scanUnicode_sound hs with ⟨t, k, rfl, ht, hk, rfl⟩ | ⟨t, t', k, m, cp, rfl, ht, ht', h1, h2, h3, h4, h5, rfl⟩
                · exact ⟨_, _, by simp, .unicode t k ht hk hu, by simp⟩
                · exact ⟨_, _, by simp, .surrogates t t' k m cp ht ht' h1 h2 h3 h4 h5 hu,
                    by simp only [List.reverse_append, List.reverse_reverse, List.append_assoc]⟩
              · cases h
            · cases h
      · rename_i h1
        split at h
        · rename_i h2
          subst h2
          cases h
          exact ⟨[], [], rfl, .nil, by simp⟩
        · rename_i h2
          split at h
          · cases h
          · split at h
            · cases h
            · rename_i h3 h4
              obtain ⟨u, w, rfl, hu, rfl⟩ := ih _ _ _ _ h
              refine ⟨c :: u, c :: w, by simp, .plain c ?_ h2 h1 hu, by simp⟩
              rw [UInt8.lt_iff_toNat_lt] at h4
              exact Nat.not_lt.1 h4

theorem takeWhile_all (p : UInt8 → Bool) (s : Str) : ∀ c ∈ s.takeWhile p, p c = true := by
  induction s with
  | nil => intro c hc; cases hc
  | cons d s ih =>
    intro c hc
    rw [List.takeWhile_cons] at hc
    split at hc
    · rcases List.mem_cons.1 hc with rfl | hc
      · assumption
      · exact ih c hc
    · cases hc

theorem digits_takeWhile {s : Str} (h : (s.takeWhile isDigit).isEmpty = false) : Digits (s.takeWhile isDigit) :=
  ⟨by simpa using h, fun c hc => (isDigit_iff c).1 (takeWhile_all _ s c hc)⟩

theorem takeWhile_dropWhile (p : UInt8 → Bool) (s : Str) : s.takeWhile p ++ s.dropWhile p = s := List.takeWhile_append_dropWhile

theorem scanFrac_sound {s f r : Str} (h : scanFrac s = .ok (f, r)) : s = f ++ r ∧ Frac f := by
  unfold scanFrac at h
  split at h
  · rename_i s'
    simp only at h
    split at h
    · cases h
    · rename_i hd
      cases h
      refine ⟨?_, .inr ⟨_, digits_takeWhile (by simpa using hd), rfl⟩⟩
      rw [List.cons_append, takeWhile_dropWhile]
  · cases h
    exact ⟨rfl, .inl rfl⟩

theorem scanSign_sound (s : Str) : s = (scanSign s).1 ++ (scanSign s).2 ∧
    ((scanSign s).1 = [] ∨ (scanSign s).1 = [0x2b] ∨ (scanSign s).1 = [0x2d]) := by
  unfold scanSign
  split
  · exact ⟨rfl, .inr (.inl rfl)⟩
  · exact ⟨rfl, .inr (.inr rfl)⟩
  · exact ⟨rfl, .inl rfl⟩

theorem scanExp_sound {s e r : Str} (h : scanExp s = .ok (e, r)) : s = e ++ r ∧ Exp e := by
  unfold scanExp at h
  split at h
  · cases h; exact ⟨rfl, .inl rfl⟩
  · rename_i c s'
    split at h
    · rename_i hc
      have hs := scanSign_sound s'
      simp only at h
      split at h
      · cases h
      · rename_i hd
        cases h
        refine ⟨?_, .inr ⟨c, _, _, hc, hs.2, digits_takeWhile (by simpa using hd), rfl⟩⟩
        rw [List.cons_append, List.append_assoc, takeWhile_dropWhile, ← hs.1]
    · cases h; exact ⟨rfl, .inl rfl⟩

theorem scanIntPart_sound {s ds r : Str} (h : scanIntPart s = .ok (ds, r)) : s = ds ++ r ∧ IntPart ds := by
  unfold scanIntPart at h
  split at h
  · cases h
  · rename_i c s'
    split at h
    · rename_i hc
      subst hc
      cases h
      refine ⟨rfl, ⟨by simp, ?_⟩, ?_⟩
      · intro c hc
        simp only [List.mem_singleton] at hc
        subst hc
        decide
      · intro r hr
        simp only [List.cons.injEq, true_and] at hr
        exact hr.symm
    · rename_i hc
      split at h
      · rename_i hd
        cases h
        refine ⟨(takeWhile_dropWhile _ _).symm, digits_takeWhile ?_, ?_⟩
        · rw [List.takeWhile_cons, if_pos hd]; rfl
        · intro r hr
          rw [List.takeWhile_cons, if_pos hd] at hr
          simp only [List.cons.injEq] at hr
          exact absurd hr.1 hc
      · cases h

theorem scanNumber_sound {D : Dbl} {s r : Str} {n : Num} (h : scanNumber D s = .ok (n, r)) : ∃ t, s = t ++ r ∧ NumText D n t := by
  have key : s = (scanMinus s).1 ++ (scanMinus s).2 ∧ ((scanMinus s).1 = [] ∨ (scanMinus s).1 = [0x2d]) := by
    unfold scanMinus
    split
    · exact ⟨rfl, .inr rfl⟩
    · exact ⟨rfl, .inl rfl⟩
  obtain ⟨hs0, hs⟩ := key
  unfold scanNumber at h
  simp only at h
  generalize (scanMinus s).1 = sign at *
  generalize (scanMinus s).2 = s' at *
  subst hs0
  split at h
  · cases h
  rename_i ds s1 h1
  split at h
  · cases h
  rename_i f s2 h2
  split at h
  · cases h
  rename_i e s3 h3
  obtain ⟨rfl, i1⟩ := scanIntPart_sound h1
  obtain ⟨rfl, i2⟩ := scanFrac_sound h2
  obtain ⟨rfl, i3⟩ := scanExp_sound h3
  by_cases hc : (f.isEmpty && e.isEmpty && decide (decVal ds < (if sign.isEmpty then 2 ^ 64 else 2 ^ 63 + 1))) = true
  · rw [if_pos hc] at h
    cases h
    simp only [Bool.and_eq_true, List.isEmpty_iff, decide_eq_true_eq] at hc
    obtain ⟨⟨rfl, rfl⟩, hv⟩ := hc
    rcases hs with rfl | rfl
    · exact ⟨ds, by simp, .int ds i1 (by simpa [decVal_eq] using hv)⟩
    · refine ⟨0x2d :: ds, by simp, .neg ds i1 ?_⟩
      simp [decVal_eq] at hv
      omega
  · rw [if_neg hc] at h
    split at h
    · rename_i d hd
      cases h
      refine ⟨sign ++ ds ++ f ++ e, by simp, .dbl sign ds f e d hs i1 i2 i3 ?_ hd⟩
      rintro rfl rfl
      simp only [List.isEmpty_nil, Bool.true_and, decide_eq_true_eq, List.isEmpty_iff, decVal_eq] at hc
      split
      · rename_i hsn; rw [if_pos hsn] at hc; omega
      · rename_i hsn; rw [if_neg hsn] at hc; omega
    · cases h

theorem scanLit_sound {l : Str} {j j' : Json} {s r : Str} (h : scanLit l j s = .ok (j', r)) : s = l ++ r ∧ j' = j := by
  unfold scanLit at h
  split at h
  · rename_i hp
    cases h
    obtain ⟨x, rfl⟩ := List.isPrefixOf_iff_prefix.1 hp
    simp
  · cases h

theorem peek_eq {s : Str} {c : UInt8} (hc : c ≠ 0) (h : peek s = c) : s = c :: s.tail := by
  cases s with
  | nil => exact absurd h.symm hc
  | cons d s => simp only [peek] at h; rw [h]; rfl

theorem text_ne_nil {D : Dbl} {j : Json} {t : Str} (h : Text D j t) : t ≠ [] := by
  rintro rfl
  exact (text_head h []).2.2.2.1 rfl

theorem scan_sound (D : Dbl) (n : Nat) :
    (∀ s j r, scanValue D n s = .ok (j, r) → ∃ t, s = t ++ r ∧ Text D j t) ∧
    (∀ acc s js r, scanItems D n acc s = .ok (js, r) → ∃ t is, s = t ++ 0x5d :: r ∧ js = acc ++ is ∧ Items D is t) ∧
    (∀ acc s ms r, scanMembers D n acc s = .ok (ms, r) → ∃ t is, s = t ++ 0x7d :: r ∧ ms = acc ++ is ∧ Members D is t) := by
  induction n with
  | zero =>
    refine ⟨?_, ?_, ?_⟩
    · intro s j r h; simp [scanValue] at h
    · intro acc s j r h; simp [scanItems] at h
    · intro acc s j r h; simp [scanMembers] at h
  | succ n ih =>
    obtain ⟨ih1, ih2, ih3⟩ := ih
    refine ⟨?_, ?_, ?_⟩
    · intro s j r h
      simp only [scanValue] at h
      split at h
      · obtain ⟨h1, rfl⟩ := scanLit_sound h
        exact ⟨_, h1, .null⟩
      split at h
      · obtain ⟨h1, rfl⟩ := scanLit_sound h
        exact ⟨_, h1, .true⟩
      split at h
      · obtain ⟨h1, rfl⟩ := scanLit_sound h
        exact ⟨_, h1, .false⟩
      split at h
      · rename_i hp
        have hs := peek_eq (by decide) hp
        split at h
        · rename_i v s' hv
          cases h
          obtain ⟨u, w, h1, h2, h3⟩ := scanString_sound _ _ _ _ _ hv
          rw [List.reverse_nil, List.nil_append] at h3
          subst h3
          refine ⟨0x22 :: (u ++ [0x22]), ?_, .str ⟨u, h2, rfl⟩⟩
          conv => lhs; rw [hs, h1]
          simp
        · cases h
      split at h
      · rename_i hp
        have hs := peek_eq (by decide) hp
        obtain ⟨b, hb, hb', -⟩ := skipWs_spec s.tail
        split at h
        · rename_i hq
          have hq' := peek_eq (by decide) hq
          cases h
          refine ⟨0x7b :: (b ++ [0x7d]), ?_, .objEmpty hb⟩
          conv => lhs; rw [hs, hb', hq']
          simp
        · split at h
          · rename_i ms s' hms
            cases h
            obtain ⟨t, is, h1, h2, h3⟩ := ih3 _ _ _ _ hms
            rw [List.nil_append] at h2
            subst h2
            have h4 : Members D ms (b ++ t) := by
              cases h3 with
              | one x1 x2 x3 x4 x5 x6 =>
                rw [← List.append_assoc]
                exact .one (by intro c hc; rcases List.mem_append.1 hc with hc | hc; exact hb c hc; exact x1 c hc) x2 x3 x4 x5 x6
              | more x1 x2 x3 x4 x5 x6 x7 =>
                rw [← List.append_assoc]
                exact .more (by intro c hc; rcases List.mem_append.1 hc with hc | hc; exact hb c hc; exact x1 c hc) x2 x3 x4 x5 x6 x7
            refine ⟨0x7b :: ((b ++ t) ++ [0x7d]), ?_, .obj h4⟩
            conv => lhs; rw [hs, hb', h1]
            simp
          · cases h
      split at h
      · rename_i hp
        have hs := peek_eq (by decide) hp
        obtain ⟨b, hb, hb', -⟩ := skipWs_spec s.tail
        split at h
        · rename_i hq
          have hq' := peek_eq (by decide) hq
          cases h
          refine ⟨0x5b :: (b ++ [0x5d]), ?_, .arrEmpty hb⟩
          conv => lhs; rw [hs, hb', hq']
          simp
        · split at h
          · rename_i js s' hjs
            cases h
            obtain ⟨t, is, h1, h2, h3⟩ := ih2 _ _ _ _ hjs
            rw [List.nil_append] at h2
            subst h2
            have h4 : Items D js (b ++ t) := by
              cases h3 with
              | one x1 x2 x3 =>
                rw [← List.append_assoc]
                exact .one (by intro c hc; rcases List.mem_append.1 hc with hc | hc; exact hb c hc; exact x1 c hc) x2 x3
              | more x1 x2 x3 x4 =>
                rw [← List.append_assoc]
                exact .more (by intro c hc; rcases List.mem_append.1 hc with hc | hc; exact hb c hc; exact x1 c hc) x2 x3 x4
            refine ⟨0x5b :: ((b ++ t) ++ [0x5d]), ?_, .arr h4⟩
            conv => lhs; rw [hs, hb', h1]
            simp
          · cases h
      split at h
      · rename_i v s' hv
        cases h
        obtain ⟨t, h1, h2⟩ := scanNumber_sound hv
        exact ⟨t, h1, .num h2⟩
      · cases h
    · intro acc s js r h
      simp only [scanItems] at h
      split at h
      · cases h
      rename_i j s1 h1
      obtain ⟨t, rfl, ht⟩ := ih1 _ _ _ h1
      obtain ⟨b, hb, hb', -⟩ := skipWs_spec s1
      split at h
      · rename_i hp
        have hs := peek_eq (by decide) hp
        obtain ⟨b2, hb2, hb2', -⟩ := skipWs_spec (skipWs s1).tail
        obtain ⟨u, is, h2, rfl, h3⟩ := ih2 _ _ _ _ h
        have h4 : Items D is (b2 ++ u) := by
          cases h3 with
          | one x1 x2 x3 =>
            rw [← List.append_assoc]
            exact .one (by intro c hc; rcases List.mem_append.1 hc with hc | hc; exact hb2 c hc; exact x1 c hc) x2 x3
          | more x1 x2 x3 x4 =>
            rw [← List.append_assoc]
            exact .more (by intro c hc; rcases List.mem_append.1 hc with hc | hc; exact hb2 c hc; exact x1 c hc) x2 x3 x4
        refine ⟨[] ++ (t ++ (b ++ 0x2c :: (b2 ++ u))), j :: is, ?_, by simp, .more (fun c hc => nomatch hc) ht hb h4⟩
        conv => lhs; rw [hb', hs, hb2', h2]
        simp
      split at h
      · rename_i hp
        have hs := peek_eq (by decide) hp
        cases h
        refine ⟨[] ++ (t ++ b), [j], ?_, rfl, .one (fun c hc => nomatch hc) ht hb⟩
        conv => lhs; rw [hb', hs]
        simp
      · cases h
    · intro acc s ms r h
      simp only [scanMembers] at h
      split at h
      · cases h
      rename_i hp
      have hs := peek_eq (by decide) (Decidable.not_not.1 hp)
      split at h
      · cases h
      rename_i k s1 h1
      obtain ⟨u, w, e1, hu, e2⟩ := scanString_sound _ _ _ _ _ h1
      rw [List.reverse_nil, List.nil_append] at e2
      subst e2
      obtain ⟨b1, hb1, hb1', -⟩ := skipWs_spec s1
      split at h
      · cases h
      rename_i hp2
      have hs2 := peek_eq (by decide) (Decidable.not_not.1 hp2)
      split at h
      · cases h
      rename_i j s2 h2
      obtain ⟨b2, hb2, hb2', -⟩ := skipWs_spec (skipWs s1).tail
      obtain ⟨t, e3, ht⟩ := ih1 _ _ _ h2
      obtain ⟨b, hb, hb', -⟩ := skipWs_spec s2
      split at h
      · rename_i hp3
        have hs3 := peek_eq (by decide) hp3
        obtain ⟨b3, hb3, hb3', -⟩ := skipWs_spec (skipWs s2).tail
        obtain ⟨v, is, e4, rfl, h3⟩ := ih3 _ _ _ _ h
        have h4 : Members D is (b3 ++ v) := by
          cases h3 with
          | one x1 x2 x3 x4 x5 x6 =>
            rw [← List.append_assoc]
            exact .one (by intro c hc; rcases List.mem_append.1 hc with hc | hc; exact hb3 c hc; exact x1 c hc) x2 x3 x4 x5 x6
          | more x1 x2 x3 x4 x5 x6 x7 =>
            rw [← List.append_assoc]
            exact .more (by intro c hc; rcases List.mem_append.1 hc with hc | hc; exact hb3 c hc; exact x1 c hc) x2 x3 x4 x5 x6 x7
        refine ⟨_, _, ?_, by simp, .more (b := []) (fun c hc => nomatch hc) ⟨u, hu, rfl⟩ hb1 hb2 ht hb h4⟩
        conv => lhs; rw [hs, e1, hb1', hs2, hb2', e3, hb', hs3, hb3', e4]
        simp
      split at h
      · rename_i hp3
        have hs3 := peek_eq (by decide) hp3
        cases h
        refine ⟨_, _, ?_, rfl, .one (b := []) (fun c hc => nomatch hc) ⟨u, hu, rfl⟩ hb1 hb2 ht hb⟩
        conv => lhs; rw [hs, e1, hb1', hs2, hb2', e3, hb', hs3]
        simp
      · cases h

/-! ## Fuel -/

theorem scanUnicode_length {s bs r : Str} (h : scanUnicode s = .ok (bs, r)) : r.length < s.length := by
  rcases scanUnicode_sound h with ⟨t, n, rfl, ht, -⟩ | ⟨t, u, n, m, k, rfl, ht, -⟩
  · have := hex4_length ht
    simp; omega
  · have := hex4_length ht
    simp; omega

theorem scanUnicode_fuel (s : Str) : scanUnicode s ≠ .error .fuel := by
  unfold scanUnicode
  repeat' split
  all_goals simp

theorem scanString_fuel (n : Nat) : ∀ acc s, s.length < n → scanString n acc s ≠ .error .fuel := by
  induction n with
  | zero => intro acc s h; omega
  | succ n ih =>
    intro acc s hn
    cases s with
    | nil => simp [scanString]
    | cons c s =>
      simp only [List.length_cons] at hn
      simp only [scanString]
      split
      · cases s with
        | nil => simp
        | cons e s =>
          simp only [List.length_cons] at hn
          simp only
          split
          · exact ih _ _ (by omega)
          · split
            · split
              · rename_i hs
                exact ih _ _ (by have := scanUnicode_length hs; omega)
              · rename_i hs
                intro h
                cases h
                exact scanUnicode_fuel _ hs
            · simp
      · split
        · simp
        · split
          · simp
          · split
            · simp
            · exact ih _ _ (by omega)

theorem scanNumber_fuel (D : Dbl) (s : Str) : scanNumber D s ≠ .error .fuel := by
  have h1 : ∀ s, scanIntPart s ≠ .error .fuel := by
    intro s; unfold scanIntPart; repeat' split
    all_goals simp
  have h2 : ∀ s, scanFrac s ≠ .error .fuel := by
    intro s; unfold scanFrac; simp only; repeat' split
    all_goals simp
  have h3 : ∀ s, scanExp s ≠ .error .fuel := by
    intro s; unfold scanExp; simp only; repeat' split
    all_goals simp
  unfold scanNumber
  simp only
  split
  · rename_i h; intro e; cases e; exact h1 _ h
  split
  · rename_i h; intro e; cases e; exact h2 _ h
  split
  · rename_i h; intro e; cases e; exact h3 _ h
  rename_i ds s1 _ _ f s2 _ _ e s3 _
  by_cases hc : (f.isEmpty && e.isEmpty && decide (decVal ds < (if (scanMinus s).1.isEmpty then 2 ^ 64 else 2 ^ 63 + 1))) = true
  · rw [if_pos hc]; simp
  · rw [if_neg hc]; split <;> simp

theorem scanLit_fuel (l : Str) (j : Json) (s : Str) : scanLit l j s ≠ .error .fuel := by
  unfold scanLit; split <;> simp

theorem scan_fuel (D : Dbl) (n : Nat) :
    (∀ s, 2 * s.length < n → scanValue D n s ≠ .error .fuel) ∧
    (∀ acc s, 2 * s.length + 1 < n → scanItems D n acc s ≠ .error .fuel) ∧
    (∀ acc s, 2 * s.length + 1 < n → scanMembers D n acc s ≠ .error .fuel) := by
  induction n with
  | zero =>
    refine ⟨?_, ?_, ?_⟩
    · intro s h; omega
    · intro acc s h; omega
    · intro acc s h; omega
  | succ n ih =>
    obtain ⟨ih1, ih2, ih3⟩ := ih
    refine ⟨?_, ?_, ?_⟩
    · intro s hn
      simp only [scanValue]
      split
      · exact scanLit_fuel _ _ _
      split
      · exact scanLit_fuel _ _ _
      split
      · exact scanLit_fuel _ _ _
      split
      · rename_i hp
        have hs := congrArg List.length (peek_eq (by decide) hp)
        simp only [List.length_cons] at hs
        split
        · simp
        · rename_i he
          intro e; cases e
          exact scanString_fuel _ _ _ (by omega) he
      split
      · rename_i hp
        have hs := congrArg List.length (peek_eq (by decide) hp)
        simp only [List.length_cons] at hs
        have := skipWs_length s.tail
        split
        · simp
        split
        · simp
        · rename_i he
          intro e; cases e
          exact ih3 _ _ (by omega) he
      split
      · rename_i hp
        have hs := congrArg List.length (peek_eq (by decide) hp)
        simp only [List.length_cons] at hs
        have := skipWs_length s.tail
        split
        · simp
        split
        · simp
        · rename_i he
          intro e; cases e
          exact ih2 _ _ (by omega) he
      split
      · simp
      · rename_i he
        intro e; cases e
        exact scanNumber_fuel _ _ he
    · intro acc s hn
      simp only [scanItems]
      split
      · rename_i he
        intro e; cases e
        exact ih1 _ (by omega) he
      rename_i j s1 h1
      obtain ⟨t, rfl, ht⟩ := (scan_sound D n).1 _ _ _ h1
      have hne : 0 < t.length := List.length_pos_iff.2 (text_ne_nil ht)
      rw [List.length_append] at hn
      have l1 := skipWs_length s1
      have l2 := skipWs_length (skipWs s1).tail
      have l3 : (skipWs s1).tail.length ≤ (skipWs s1).length := by simp
      split
      · exact ih2 _ _ (by omega)
      split <;> simp
    · intro acc s hn
      simp only [scanMembers]
      split
      · simp
      rename_i hp
      have hs := congrArg List.length (peek_eq (by decide) (Decidable.not_not.1 hp))
      simp only [List.length_cons] at hs
      split
      · rename_i he
        intro e; cases e
        exact scanString_fuel _ _ _ (by omega) he
      rename_i k s1 h1
      obtain ⟨u, w, e1, hu, -⟩ := scanString_sound _ _ _ _ _ h1
      have e1 := congrArg List.length e1
      simp only [List.length_append, List.length_cons] at e1
      have l1 := skipWs_length s1
      have l2 := skipWs_length (skipWs s1).tail
      have l3 : (skipWs s1).tail.length ≤ (skipWs s1).length := by simp
      split
      · simp
      split
      · rename_i he
        intro e; cases e
        exact ih1 _ (by omega) he
      rename_i j s2 h2
      obtain ⟨t, e3, ht⟩ := (scan_sound D n).1 _ _ _ h2
      have e3 := congrArg List.length e3
      rw [List.length_append] at e3
      have m1 := skipWs_length s2
      have m2 := skipWs_length (skipWs s2).tail
      have m3 : (skipWs s2).tail.length ≤ (skipWs s2).length := by simp
      split
      · exact ih3 _ _ (by omega)
      split <;> simp

end Verif.JsonText
