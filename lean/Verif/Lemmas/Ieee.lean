import Verif.Model.Ieee

namespace Verif.Ieee

theorem roundShift_mul (q s : Nat) : roundShift (q * 2 ^ s) s = q := by
  unfold roundShift
  have hp : 0 < 2 ^ s := Nat.two_pow_pos s
  rw [Nat.mul_div_cancel _ hp, Nat.mul_mod_left]
  simp only [Nat.mul_zero]
  rw [if_neg]
  omega

theorem roundShift_ge (n s : Nat) : n / 2 ^ s ≤ roundShift n s := by
  unfold roundShift; dsimp only; split <;> omega

theorem roundShift_le (n s : Nat) : roundShift n s ≤ n / 2 ^ s + 1 := by
  unfold roundShift; dsimp only; split <;> omega

theorem toNat_ofNat64 (n : Nat) (h : n < 2 ^ 64) : (BitVec.ofNat 64 n).toNat = n := by
  simp [Nat.mod_eq_of_lt h]

theorem toNat_ofNat32 (n : Nat) (h : n < 2 ^ 32) : (BitVec.ofNat 32 n).toNat = n := by
  simp [Nat.mod_eq_of_lt h]

/-- fields of a `double` given by sign and magnitude bits -/
theorem fields64 (s : Bool) (e m : Nat) (he : e < 2 ^ 11) (hm : m < 2 ^ 52) :
    let b := BitVec.ofNat 64 ((if s then 2 ^ 63 else 0) + (e * 2 ^ 52 + m))
    exp64 b = e ∧ man64 b = m ∧ neg64 b = s := by
  intro b
  have hlt : (if s then 2 ^ 63 else 0) + (e * 2 ^ 52 + m) < 2 ^ 64 := by split <;> omega
  simp only [exp64, man64, neg64, b, toNat_ofNat64 _ hlt]
  refine ⟨?_, ?_, ?_⟩
  · split <;> omega
  · split <;> omega
  · cases s <;> simp <;> omega

theorem exp32_lt (b : BitVec 32) : exp32 b < 2 ^ 8 := Nat.mod_lt _ (by decide)
theorem man32_lt (b : BitVec 32) : man32 b < 2 ^ 23 := Nat.mod_lt _ (by decide)

theorem toNat32 (b : BitVec 32) :
    b.toNat = (if neg32 b then 2 ^ 31 else 0) + (exp32 b * 2 ^ 23 + man32 b) := by
  have := b.isLt
  unfold exp32 man32 neg32
  by_cases h : 2 ^ 31 ≤ b.toNat
  · simp only [h, decide_true, if_true]; omega
  · simp only [h, decide_false, Bool.false_eq_true, if_false]; omega

theorem log2_bounds (m : Nat) (h : m ≠ 0) : 2 ^ m.log2 ≤ m ∧ m < 2 ^ (m.log2 + 1) :=
  ⟨Nat.log2_self_le h, Nat.lt_log2_self⟩

theorem log2_lt_of_lt (m k : Nat) (h : m ≠ 0) (hk : m < 2 ^ k) : m.log2 < k := (Nat.log2_lt h).2 hk

/-- magnitude bits of a widened `float` which is not NaN, decomposed -/
theorem widen_fields (e m : Nat) (he : e < 2 ^ 8) (hm : m < 2 ^ 23) (hnan : ¬ (e = 255 ∧ m ≠ 0)) :
    ∃ e' m', e' < 2 ^ 11 ∧ m' < 2 ^ 52 ∧ widenAbs e m = e' * 2 ^ 52 + m' ∧ narrowAbs e' m' = e * 2 ^ 23 + m := by
  unfold widenAbs
  by_cases h255 : e = 255
  · have hm0 : m = 0 := by
      by_cases h : m = 0
      · exact h
      · exact absurd ⟨h255, h⟩ hnan
    subst h255 hm0
    exact ⟨2047, 0, by decide, by decide, by simp, by simp [narrowAbs]⟩
  · rw [if_neg h255]
    by_cases h0 : e = 0
    · subst h0
      rw [if_pos rfl]
      by_cases hm0 : m = 0
      · subst hm0
        exact ⟨0, 0, by decide, by decide, by simp, by simp [narrowAbs]⟩
      · rw [if_neg hm0]
        have hb := log2_bounds m hm0
        have hl := log2_lt_of_lt m 23 hm0 hm
        -- m * 2^(52-p) lies in [2^52, 2^53)
        have h1 : 2 ^ 52 ≤ m * 2 ^ (52 - m.log2) := by
          calc 2 ^ 52 = 2 ^ m.log2 * 2 ^ (52 - m.log2) := by rw [← Nat.pow_add]; congr 1; omega
            _ ≤ _ := Nat.mul_le_mul_right _ hb.1
        have h2 : m * 2 ^ (52 - m.log2) < 2 ^ 53 := by
          calc m * 2 ^ (52 - m.log2) < 2 ^ (m.log2 + 1) * 2 ^ (52 - m.log2) :=
                Nat.mul_lt_mul_of_pos_right hb.2 (Nat.two_pow_pos _)
            _ = 2 ^ 53 := by rw [← Nat.pow_add]; congr 1; omega
        refine ⟨m.log2 + 874, m * 2 ^ (52 - m.log2) - 2 ^ 52, by omega, by omega, by omega, ?_⟩
        unfold narrowAbs
        rw [if_neg (by omega), if_neg (by omega), if_neg (by omega)]
        have h3 : 2 ^ 52 + (m * 2 ^ (52 - m.log2) - 2 ^ 52) = m * 2 ^ (52 - m.log2) := by omega
        have h4 : 926 - (m.log2 + 874) = 52 - m.log2 := by omega
        rw [h3, h4, roundShift_mul]
        omega
    · rw [if_neg h0]
      refine ⟨e + 896, m * 2 ^ 29, by omega, by omega, rfl, ?_⟩
      unfold narrowAbs
      rw [if_neg (by omega), if_neg (by omega), if_pos (by omega)]
      have h3 : 2 ^ 52 + m * 2 ^ 29 = (2 ^ 23 + m) * 2 ^ 29 := by omega
      dsimp only
      rw [h3, roundShift_mul, if_neg (by omega)]
      omega

/-- Converting a `float` which is not NaN to `double` and back is exact. -/
theorem narrow_widen (b : BitVec 32) (h : isNaN32 b = false) : narrow (widen b) = b := by
  have hnan : ¬ (exp32 b = 255 ∧ man32 b ≠ 0) := by simpa [isNaN32] using h
  obtain ⟨e', m', he, hm, h1, h2⟩ := widen_fields (exp32 b) (man32 b) (exp32_lt b) (man32_lt b) hnan
  apply BitVec.eq_of_toNat_eq
  unfold narrow widen
  rw [h1]
  obtain ⟨f1, f2, f3⟩ := fields64 (neg32 b) e' m' he hm
  rw [f1, f2, f3, h2, toNat_ofNat32, ← toNat32]
  rw [← toNat32]
  exact b.isLt

/-- Shape of `ofInt i` for a non-zero 64-bit integer: sign, exponent and significand. -/
theorem natBits_fields (a : Nat) (h0 : a ≠ 0) (h : a < 2 ^ 64) :
    ∃ e m, e < 2047 ∧ m < 2 ^ 52 ∧ natBits a = e * 2 ^ 52 + m ∧ 1023 ≤ e ∧
      (a < 2 ^ 53 → ∃ p, e = p + 1023 ∧ p ≤ 52 ∧ 2 ^ 52 + m = a * 2 ^ (52 - p)) ∧
      (2 ^ 53 ≤ a → 1076 ≤ e ∧ 2 ^ a.log2 ≤ (2 ^ 52 + m) * 2 ^ (e - 1075)) := by
  have hb := log2_bounds a h0
  have hl := log2_lt_of_lt a 64 h0 h
  unfold natBits
  by_cases hp : a.log2 ≤ 52
  · rw [if_pos hp]
    have h1 : 2 ^ 52 ≤ a * 2 ^ (52 - a.log2) := by
      calc 2 ^ 52 = 2 ^ a.log2 * 2 ^ (52 - a.log2) := by rw [← Nat.pow_add]; congr 1; omega
        _ ≤ _ := Nat.mul_le_mul_right _ hb.1
    have h2 : a * 2 ^ (52 - a.log2) < 2 ^ 53 := by
      calc a * 2 ^ (52 - a.log2) < 2 ^ (a.log2 + 1) * 2 ^ (52 - a.log2) :=
            Nat.mul_lt_mul_of_pos_right hb.2 (Nat.two_pow_pos _)
        _ = 2 ^ 53 := by rw [← Nat.pow_add]; congr 1; omega
    refine ⟨a.log2 + 1023, a * 2 ^ (52 - a.log2) - 2 ^ 52, by omega, by omega, by omega, by omega, ?_, ?_⟩
    · intro _
      exact ⟨a.log2, rfl, hp, by omega⟩
    · intro h53
      exfalso
      have : a < 2 ^ 53 := Nat.lt_of_lt_of_le hb.2 (Nat.pow_le_pow_right (by decide) (by omega))
      omega
  · rw [if_neg hp]
    have hq1 : 2 ^ 52 ≤ a / 2 ^ (a.log2 - 52) := by
      rw [Nat.le_div_iff_mul_le (Nat.two_pow_pos _), ← Nat.pow_add]
      calc 2 ^ (52 + (a.log2 - 52)) = 2 ^ a.log2 := by congr 1; omega
        _ ≤ a := hb.1
    have hq2 : a / 2 ^ (a.log2 - 52) < 2 ^ 53 := by
      rw [Nat.div_lt_iff_lt_mul (Nat.two_pow_pos _), ← Nat.pow_add]
      calc a < 2 ^ (a.log2 + 1) := hb.2
        _ = 2 ^ (53 + (a.log2 - 52)) := by congr 1; omega
    have hr1 := roundShift_ge a (a.log2 - 52)
    have hr2 := roundShift_le a (a.log2 - 52)
    have hge : 2 ^ 53 ≤ a := Nat.le_trans (Nat.pow_le_pow_right (by decide) (by omega)) hb.1
    by_cases hc : roundShift a (a.log2 - 52) = 2 ^ 53
    · refine ⟨a.log2 + 1024, 0, by omega, by omega, by omega, by omega, ?_, ?_⟩
      · intro hlt; omega
      · intro _
        refine ⟨by omega, ?_⟩
        rw [Nat.add_zero, ← Nat.pow_add]
        exact Nat.pow_le_pow_right (by decide) (by omega)
    · refine ⟨a.log2 + 1023, roundShift a (a.log2 - 52) - 2 ^ 52, by omega, by omega, by omega, by omega, ?_, ?_⟩
      · intro hlt; omega
      · intro _
        refine ⟨by omega, ?_⟩
        have : 2 ^ a.log2 = 2 ^ 52 * 2 ^ (a.log2 + 1023 - 1075) := by
          rw [show a.log2 + 1023 - 1075 = a.log2 - 52 by omega, ← Nat.pow_add,
            show 52 + (a.log2 - 52) = a.log2 by omega]
        rw [this]
        exact Nat.mul_le_mul_right _ (by omega)

/-- Converting a 64-bit integer to `double` and truncating: exact below `2^53`, otherwise the magnitude stays at least the
power of two below it; the sign is kept. -/
theorem trunc_ofInt (i : Int) (h : i.natAbs < 2 ^ 64) :
    ∃ a : Nat, trunc (ofInt i) = some (if i < 0 then -(a : Int) else a) ∧
      (i.natAbs < 2 ^ 53 → a = i.natAbs) ∧ (2 ^ 53 ≤ i.natAbs → 2 ^ i.natAbs.log2 ≤ a) := by
  by_cases h0 : i = 0
  · subst h0
    exact ⟨0, by simp [trunc, ofInt, exp64, truncAbs, man64, neg64], fun _ => rfl, fun h => absurd h (by decide)⟩
  · have ha : i.natAbs ≠ 0 := by omega
    obtain ⟨e, m, he, hm, hbits, he2, hsmall, hbig⟩ := natBits_fields i.natAbs ha h
    have hof : ofInt i = BitVec.ofNat 64 ((if decide (i < 0) = true then 2 ^ 63 else 0) + (e * 2 ^ 52 + m)) := by
      unfold ofInt
      rw [if_neg h0, hbits]
      simp
    obtain ⟨f1, f2, f3⟩ := fields64 (decide (i < 0)) e m (by omega) hm
    rw [← hof] at f1 f2 f3
    refine ⟨truncAbs (ofInt i), ?_, ?_, ?_⟩
    · unfold trunc
      rw [f1, if_neg (by omega), f3]
      by_cases hi : i < 0 <;> simp [hi]
    · intro hs
      obtain ⟨p, rfl, hp, hm2⟩ := hsmall hs
      unfold truncAbs
      rw [f1, f2]
      simp only
      rw [if_neg (by omega : ¬ p + 1023 = 0), hm2]
      by_cases h1 : 1075 ≤ p + 1023
      · have : p = 52 := by omega
        subst this
        simp
      · rw [if_neg h1]
        have : 1075 - max (p + 1023) 1 = 52 - p := by omega
        rw [this, Nat.mul_div_cancel _ (Nat.two_pow_pos _)]
    · intro hb
      obtain ⟨h1, h2⟩ := hbig hb
      unfold truncAbs
      rw [f1, f2]
      simp only
      rw [if_neg (by omega : ¬ e = 0), if_pos (by omega)]
      exact h2

end Verif.Ieee
