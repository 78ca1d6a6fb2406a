import Verif.Spec.Floats
import Verif.Lemmas.Ieee
import Mathlib.Order.Monotone.Basic
import Mathlib.Tactic.Ring

namespace Verif.Fp
open Ieee

/-- magnitude denoted by exponent and fraction fields taken as one number (`p` bits of fraction) -/
def mag (p b : Nat) : Nat := if b / 2 ^ p = 0 then b % 2 ^ p else (2 ^ p + b % 2 ^ p) * 2 ^ (b / 2 ^ p - 1)

theorem mag_zero (p : Nat) : mag p 0 = 0 := by simp [mag]

theorem mag_fields {p e m : Nat} (hm : m < 2 ^ p) :
    mag p (e * 2 ^ p + m) = if e = 0 then m else (2 ^ p + m) * 2 ^ (e - 1) := by
  have h1 : (e * 2 ^ p + m) / 2 ^ p = e := by
    rw [Nat.mul_comm, Nat.mul_add_div (Nat.two_pow_pos p), Nat.div_eq_of_lt hm]; omega
  have h2 : (e * 2 ^ p + m) % 2 ^ p = m := by
    rw [Nat.mul_comm, Nat.mul_add_mod, Nat.mod_eq_of_lt hm]
  simp only [mag, h1, h2]

theorem mag_step (p b : Nat) : mag p (b + 1) = mag p b + 2 ^ (b / 2 ^ p - 1) := by
  obtain ⟨e, m, hm, rfl⟩ : ∃ e m, m < 2 ^ p ∧ b = e * 2 ^ p + m :=
    ⟨b / 2 ^ p, b % 2 ^ p, Nat.mod_lt _ (Nat.two_pow_pos p), by rw [Nat.mul_comm]; exact (Nat.div_add_mod ..).symm⟩
  have h1 : (e * 2 ^ p + m) / 2 ^ p = e := by
    rw [Nat.mul_comm, Nat.mul_add_div (Nat.two_pow_pos p), Nat.div_eq_of_lt hm]; omega
  rw [h1, mag_fields hm]
  by_cases hl : m + 1 < 2 ^ p
  · rw [Nat.add_assoc, mag_fields hl]
    by_cases he : e = 0
    · subst he; simp
    · rw [if_neg he, if_neg he, ← Nat.add_assoc, Nat.add_mul, Nat.one_mul]
  · have hm' : m + 1 = 2 ^ p := by omega
    have h2 : e * 2 ^ p + m + 1 = (e + 1) * 2 ^ p + 0 := by rw [Nat.add_assoc, hm']; ring
    rw [h2, mag_fields (Nat.two_pow_pos p), if_neg (by omega)]
    by_cases he : e = 0
    · subst he; simp; omega
    · obtain ⟨k, rfl⟩ : ∃ k, e = k + 1 := ⟨e - 1, by omega⟩
      rw [if_neg he]
      simp only [Nat.add_sub_cancel, Nat.add_zero]
      calc 2 ^ p * 2 ^ (k + 1) = (2 ^ p + 2 ^ p) * 2 ^ k := by ring
        _ = (2 ^ p + m + 1) * 2 ^ k := by rw [Nat.add_assoc, hm']
        _ = _ := by ring

theorem mag_mono (p : Nat) : StrictMono (mag p) := by
  refine strictMono_nat_of_lt_succ fun b => ?_
  rw [mag_step]
  have := Nat.two_pow_pos (b / 2 ^ p - 1)
  omega

/-- rounding on a grid -/
theorem grid {f : Nat → Nat} (hf : StrictMono f) {x lo rem s U r : Nat} (hx : x = f lo + rem * U) (hr : rem < 2 ^ s) (hU : 0 < U)
    (hg : f (lo + 1) = f lo + 2 ^ s * U)
    (hres : r = if 2 * rem > 2 ^ s ∨ (2 * rem = 2 ^ s ∧ lo % 2 = 1) then lo + 1 else lo) (b : Nat) :
    ((f r : Int) - x).natAbs ≤ ((f b : Int) - x).natAbs ∧
      (b ≠ r → ((f r : Int) - x).natAbs = ((f b : Int) - x).natAbs → r % 2 = 0) := by
  have hlt : rem * U < 2 ^ s * U := Nat.mul_lt_mul_of_pos_right hr hU
  have hb : b < lo ∧ f b < f lo ∨ b = lo ∨ b = lo + 1 ∨ lo + 1 < b ∧ f (lo + 1) < f b := by
    rcases Nat.lt_trichotomy b lo with h | h | h
    · exact .inl ⟨h, hf h⟩
    · exact .inr (.inl h)
    · rcases Nat.lt_or_ge (lo + 1) b with h' | h'
      · exact .inr (.inr (.inr ⟨h', hf h'⟩))
      · exact .inr (.inr (.inl (by omega)))
  have hup : (2 * rem > 2 ^ s → 2 * (rem * U) > 2 ^ s * U) ∧ (2 * rem = 2 ^ s → 2 * (rem * U) = 2 ^ s * U) ∧
      (2 * rem < 2 ^ s → 2 * (rem * U) < 2 ^ s * U) := by
    refine ⟨fun h => ?_, fun h => ?_, fun h => ?_⟩
    · rw [← Nat.mul_assoc]; exact Nat.mul_lt_mul_of_pos_right h hU
    · rw [← Nat.mul_assoc, h]
    · rw [← Nat.mul_assoc]; exact Nat.mul_lt_mul_of_pos_right h hU
  generalize rem * U = A at *
  generalize 2 ^ s * U = G at *
  generalize 2 ^ s = S at *
  split at hres
  · rename_i h
    subst hres
    have h2 : 2 * A > G ∨ (2 * A = G ∧ lo % 2 = 1) := by
      rcases h with h | ⟨h, h'⟩
      · exact .inl (hup.1 h)
      · exact .inr ⟨hup.2.1 h, h'⟩
    rcases hb with ⟨h3, h4⟩ | rfl | rfl | ⟨h3, h4⟩ <;> constructor <;> omega
  · rename_i h
    subst hres
    have h2 : 2 * A < G ∨ (2 * A = G ∧ r % 2 = 0) := by
      rcases Nat.lt_trichotomy (2 * rem) S with h' | h' | h'
      · exact .inl (hup.2.2 h')
      · exact .inr ⟨hup.2.1 h', by omega⟩
      · exact absurd (.inl h') h
    rcases hb with ⟨h3, h4⟩ | rfl | rfl | ⟨h3, h4⟩ <;> constructor <;> omega

/-- where the result of rounding on a grid reaches a bound with an odd predecessor -/
theorem grid_bound {f : Nat → Nat} (hf : StrictMono f) {x lo rem s U r B : Nat} (hx : x = f lo + rem * U) (hr : rem < 2 ^ s) (hU : 0 < U)
    (hg : f (lo + 1) = f lo + 2 ^ s * U)
    (hres : r = if 2 * rem > 2 ^ s ∨ (2 * rem = 2 ^ s ∧ lo % 2 = 1) then lo + 1 else lo) (hB : B % 2 = 1) :
    B + 1 ≤ r ↔ f B + f (B + 1) ≤ 2 * x := by
  have hlt : rem * U < 2 ^ s * U := Nat.mul_lt_mul_of_pos_right hr hU
  have hup : 2 ^ s ≤ 2 * rem ↔ 2 ^ s * U ≤ 2 * (rem * U) := by
    rw [← Nat.mul_assoc]
    exact ⟨fun h => Nat.mul_le_mul_right _ h, fun h => Nat.le_of_mul_le_mul_right h hU⟩
  rcases Nat.lt_trichotomy lo B with h | h | h
  · have h1 : f (lo + 1) ≤ f B := hf.monotone h
    have h2 : f B < f (B + 1) := hf (by omega)
    constructor
    · intro h3; split at hres <;> omega
    · intro h3; omega
  · subst h
    generalize rem * U = A at *
    generalize 2 ^ s * U = G at *
    generalize 2 ^ s = S at *
    constructor
    · intro h3; split at hres <;> omega
    · intro h3
      rw [if_pos (by omega)] at hres
      omega
  · have h1 : f (B + 1) ≤ f lo := hf.monotone h
    have h2 : f B < f (B + 1) := hf (by omega)
    constructor
    · intro _; omega
    · intro _; split at hres <;> omega

/-! ### the fields -/

theorem msb64 (b : BitVec 64) : sign64 b = neg64 b := by
  rw [sign64, neg64, BitVec.msb_eq_decide]
theorem msb32 (b : BitVec 32) : sign32 b = neg32 b := by
  rw [sign32, neg32, BitVec.msb_eq_decide]
theorem expo64_eq (b : BitVec 64) : expo64 b = exp64 b := by
  simp only [expo64, exp64, BitVec.extractLsb'_toNat, Nat.shiftRight_eq_div_pow]
theorem frac64_eq (b : BitVec 64) : frac64 b = man64 b := by
  simp only [frac64, man64, BitVec.extractLsb'_toNat, Nat.shiftRight_zero]
theorem expo32_eq (b : BitVec 32) : expo32 b = exp32 b := by
  simp only [expo32, exp32, BitVec.extractLsb'_toNat, Nat.shiftRight_eq_div_pow]
theorem frac32_eq (b : BitVec 32) : frac32 b = man32 b := by
  simp only [frac32, man32, BitVec.extractLsb'_toNat, Nat.shiftRight_zero]

def sgn (s : Bool) : Int := if s then -1 else 1

theorem value64_eq (b : BitVec 64) : value64 b = sgn (neg64 b) * (mag 52 (exp64 b * 2 ^ 52 + man64 b) : Nat) := by
  rw [value64, msb64, expo64_eq, frac64_eq, mag_fields (show man64 b < 2 ^ 52 from Nat.mod_lt _ (Nat.two_pow_pos _)), sgn]

/-- magnitudes of `float`s in multiples of 2^-1074 -/
def mag' (b : Nat) : Nat := mag 23 b * 2 ^ 925

theorem mag'_mono : StrictMono mag' := fun _ _ h => Nat.mul_lt_mul_of_pos_right (mag_mono 23 h) (Nat.two_pow_pos _)

theorem value32_eq (b : BitVec 32) : value32 b = sgn (neg32 b) * (mag' (exp32 b * 2 ^ 23 + man32 b) : Nat) := by
  rw [value32, msb32, expo32_eq, frac32_eq, mag', mag_fields (man32_lt b), sgn, Int.natCast_mul, ← Int.mul_assoc]
  congr 1

theorem nearest_signed {f : Nat → Nat} (f0 : f 0 = 0) {x r : Nat}
    (hgrid : ∀ b, ((f r : Int) - x).natAbs ≤ ((f b : Int) - x).natAbs ∧
      (b ≠ r → ((f r : Int) - x).natAbs = ((f b : Int) - x).natAbs → r % 2 = 0)) (sx sg : Bool) (b : Nat) :
    (sgn sx * (f r : Int) - sgn sx * x).natAbs ≤ (sgn sg * (f b : Int) - sgn sx * x).natAbs ∧
      (sgn sg * (f b : Int) ≠ sgn sx * (f r : Int) →
        (sgn sx * (f r : Int) - sgn sx * x).natAbs = (sgn sg * (f b : Int) - sgn sx * x).natAbs → r % 2 = 0) := by
  have h1 := hgrid b
  have h2 := hgrid 0
  rw [f0] at h2
  by_cases hr : r = 0
  · subst hr; rw [f0] at *
    refine ⟨?_, fun _ _ => rfl⟩
    cases sx <;> cases sg <;> simp only [sgn, if_true, if_false, Bool.false_eq_true] at * <;> omega
  · have h2' := h2.2 (Ne.symm hr)
    have h1' : f b ≠ f r → ((f r : Int) - x).natAbs = ((f b : Int) - x).natAbs → r % 2 = 0 := fun hne => h1.2 (fun he => hne (by rw [he]))
    generalize f r = F at *
    generalize f b = G at *
    have h3 := h1.1
    have h4 := h2.1
    clear h1 h2 hgrid
    cases sx <;> cases sg <;> simp only [sgn, if_true, if_false, Bool.false_eq_true] at * <;> constructor <;> omega

/-! ### `float` from `double` -/

theorem roundShift_eq (n s : Nat) : roundShift n s =
    if 2 * (n % 2 ^ s) > 2 ^ s ∨ (2 * (n % 2 ^ s) = 2 ^ s ∧ n / 2 ^ s % 2 = 1) then n / 2 ^ s + 1 else n / 2 ^ s := rfl

theorem pow_lemma (q k : Nat) : 2 ^ 29 * q * 2 ^ (k + 896) = q * 2 ^ k * 2 ^ 925 := by
  have h : (2 : Nat) ^ 925 = 2 ^ 29 * 2 ^ 896 := by rw [← Nat.pow_add]
  rw [h, Nat.pow_add]
  generalize (2 : Nat) ^ 896 = A
  generalize (2 : Nat) ^ 29 = B
  ring

theorem pow_lemma' (k : Nat) : 2 ^ k * 2 ^ 925 = 2 ^ 29 * 2 ^ (k + 896) := by
  have h : (2 : Nat) ^ 925 = 2 ^ 29 * 2 ^ 896 := by rw [← Nat.pow_add]
  rw [h, Nat.pow_add]
  generalize (2 : Nat) ^ 896 = A
  generalize (2 : Nat) ^ 29 = B
  ring

/-- the magnitude before overflow is considered -/
theorem narrow_grid {e m : Nat} (he : e < 2047) (hm : m < 2 ^ 52) : ∃ lo rem s U r,
    mag 52 (e * 2 ^ 52 + m) = mag' lo + rem * U ∧ rem < 2 ^ s ∧ 0 < U ∧ mag' (lo + 1) = mag' lo + 2 ^ s * U ∧
    (r = if 2 * rem > 2 ^ s ∨ (2 * rem = 2 ^ s ∧ lo % 2 = 1) then lo + 1 else lo) ∧
    narrowAbs e m = if 255 * 2 ^ 23 ≤ r then 255 * 2 ^ 23 else r := by
  have hstep : ∀ lo, mag' (lo + 1) = mag' lo + 2 ^ (lo / 2 ^ 23 - 1) * 2 ^ 925 := fun lo => by
    rw [mag', mag_step, Nat.add_mul]; rfl
  rw [mag_fields hm]
  by_cases h0 : e = 0
  · refine ⟨0, m, 925, 1, 0, ?_, ?_, by decide, ?_, ?_, ?_⟩
    · rw [if_pos h0, mag', mag_zero]; omega
    · exact Nat.lt_of_lt_of_le hm (Nat.pow_le_pow_right (by decide) (by decide))
    · rw [hstep]; simp
    · have : 2 * m < 2 ^ 925 := Nat.lt_of_lt_of_le (by omega : 2 * m < 2 ^ 53) (Nat.pow_le_pow_right (by decide) (by decide))
      rw [if_neg (by omega)]
    · rw [narrowAbs, if_neg (by omega), if_pos h0]; rfl
  · rw [if_neg h0]
    by_cases h1 : 897 ≤ e
    · obtain ⟨k, rfl⟩ : ∃ k, e = k + 897 := ⟨e - 897, by omega⟩
      have hq : 2 ^ 23 ≤ (2 ^ 52 + m) / 2 ^ 29 ∧ (2 ^ 52 + m) / 2 ^ 29 < 2 ^ 24 := by omega
      have hd := Nat.div_add_mod (2 ^ 52 + m) (2 ^ 29)
      have hr : (2 ^ 52 + m) % 2 ^ 29 < 2 ^ 29 := Nat.mod_lt _ (by decide)
      have hrs := roundShift_eq (2 ^ 52 + m) 29
      have hna : narrowAbs (k + 897) m = if 255 * 2 ^ 23 ≤ k * 2 ^ 23 + roundShift (2 ^ 52 + m) 29 then 255 * 2 ^ 23
          else k * 2 ^ 23 + roundShift (2 ^ 52 + m) 29 := by
        rw [narrowAbs, if_neg (by omega), if_neg (by omega), if_pos h1]
        simp only [Nat.add_sub_cancel]
      generalize (2 ^ 52 + m) % 2 ^ 29 = rem at *
      generalize (2 ^ 52 + m) / 2 ^ 29 = q at *
      have hlo : k * 2 ^ 23 + q = (k + 1) * 2 ^ 23 + (q - 2 ^ 23) := by omega
      have hmag : mag' (k * 2 ^ 23 + q) = q * 2 ^ k * 2 ^ 925 := by
        rw [mag', hlo, mag_fields (by omega), if_neg (by omega), show 2 ^ 23 + (q - 2 ^ 23) = q by omega, Nat.add_sub_cancel]
      refine ⟨k * 2 ^ 23 + q, rem, 29, 2 ^ (k + 896), _, ?_, hr, Nat.two_pow_pos _, ?_, rfl, ?_⟩
      · rw [hmag, ← hd]
        rw [show k + 897 - 1 = k + 896 by omega]
        rw [Nat.add_mul]
        rw [pow_lemma]
      · rw [hstep, show (k * 2 ^ 23 + q) / 2 ^ 23 - 1 = k by omega]
        rw [pow_lemma']
      · have hpar : (k * 2 ^ 23 + q) % 2 = q % 2 := by omega
        rw [hna, hrs, hpar]
        by_cases hc : 2 * rem > 2 ^ 29 ∨ 2 * rem = 2 ^ 29 ∧ q % 2 = 1
        · rw [if_pos hc, if_pos hc, Nat.add_assoc]
        · rw [if_neg hc, if_neg hc]
    · have hs : ∃ s k, s + k = 925 ∧ e = k + 1 ∧ 926 - e = s ∧ 30 ≤ s := ⟨926 - e, e - 1, by omega, by omega, rfl, by omega⟩
      obtain ⟨s, k, hsk, rfl, hes, hs⟩ := hs
      have hna : narrowAbs (k + 1) m = roundShift (2 ^ 52 + m) s := by
        rw [narrowAbs, if_neg (by omega), if_neg (by omega), if_neg h1, hes]
      have hd := Nat.div_add_mod (2 ^ 52 + m) (2 ^ s)
      have hr : (2 ^ 52 + m) % 2 ^ s < 2 ^ s := Nat.mod_lt _ (Nat.two_pow_pos _)
      have hrs := roundShift_eq (2 ^ 52 + m) s
      have hq : (2 ^ 52 + m) / 2 ^ s < 2 ^ 23 := by
        rw [Nat.div_lt_iff_lt_mul (Nat.two_pow_pos _)]
        calc 2 ^ 52 + m < 2 ^ 23 * 2 ^ 30 := by omega
          _ ≤ 2 ^ 23 * 2 ^ s := Nat.mul_le_mul_left _ (Nat.pow_le_pow_right (by decide) hs)
      generalize (2 ^ 52 + m) % 2 ^ s = rem at *
      generalize (2 ^ 52 + m) / 2 ^ s = q at *
      have hmag : mag' q = q * 2 ^ 925 := by
        have := mag_fields (e := 0) hq
        rw [Nat.zero_mul, Nat.zero_add, if_pos rfl] at this
        rw [mag', this]
      refine ⟨q, rem, s, 2 ^ k, _, ?_, hr, Nat.two_pow_pos _, ?_, rfl, ?_⟩
      · rw [hmag, ← hd, Nat.add_sub_cancel, ← hsk, Nat.pow_add]; ring
      · rw [hstep, show q / 2 ^ 23 - 1 = 0 by omega, ← hsk, Nat.pow_add]; ring
      · rw [hna, hrs]
        by_cases hc : 2 * rem > 2 ^ s ∨ 2 * rem = 2 ^ s ∧ q % 2 = 1
        · rw [if_pos hc, if_neg (by omega)]
        · rw [if_neg hc, if_neg (by omega)]

theorem narrow_fields (d : BitVec 64) {e m : Nat} (he : e < 2 ^ 8) (hm : m < 2 ^ 23) (h : narrowAbs (exp64 d) (man64 d) = e * 2 ^ 23 + m) :
    exp32 (narrow d) = e ∧ man32 (narrow d) = m ∧ neg32 (narrow d) = neg64 d := by
  unfold narrow
  rw [h]
  have hlt : (if neg64 d then 2 ^ 31 else 0) + (e * 2 ^ 23 + m) < 2 ^ 32 := by split <;> omega
  simp only [exp32, man32, neg32, toNat_ofNat32 _ hlt]
  refine ⟨?_, ?_, ?_⟩
  · split <;> omega
  · split <;> omega
  · cases neg64 d <;> simp <;> omega

theorem mag'_max : mag' (255 * 2 ^ 23 - 1) + mag' (255 * 2 ^ 23 - 1 + 1) = 2 * ((2 ^ 128 - 2 ^ 103) * 2 ^ 1074) := by
  have h1 : mag' (255 * 2 ^ 23 - 1) = (2 ^ 24 - 1) * 2 ^ 253 * 2 ^ 925 := by
    have := mag_fields (p := 23) (e := 254) (m := 2 ^ 23 - 1) (by decide)
    rw [if_neg (by decide)] at this
    rw [mag', show 255 * 2 ^ 23 - 1 = 254 * 2 ^ 23 + (2 ^ 23 - 1) by decide, this, show 2 ^ 23 + (2 ^ 23 - 1) = 2 ^ 24 - 1 by decide,
      show 254 - 1 = 253 by decide]
  have h2 : mag' (255 * 2 ^ 23 - 1 + 1) = 2 ^ 24 * 2 ^ 253 * 2 ^ 925 := by
    have := mag_fields (p := 23) (e := 255) (m := 0) (by decide)
    rw [if_neg (by decide)] at this
    rw [mag', show 255 * 2 ^ 23 - 1 + 1 = 255 * 2 ^ 23 + 0 by decide, this, show 255 - 1 = 1 + 253 by decide, Nat.pow_add 2 1,
      ← Nat.mul_assoc, show (2 ^ 23 + 0) * 2 ^ 1 = 2 ^ 24 by decide]
  have h3 : (2 : Nat) ^ 1074 = 2 ^ 149 * 2 ^ 925 := by rw [← Nat.pow_add]
  have h4 : (2 ^ 24 - 1) * 2 ^ 253 + 2 ^ 24 * 2 ^ 253 = 2 * ((2 ^ 128 - 2 ^ 103) * 2 ^ 149) := by decide
  rw [h1, h2, h3]
  generalize 2 ^ 925 = A
  rw [← Nat.add_mul, h4, Nat.mul_assoc, Nat.mul_assoc]

theorem value64_natAbs (b : BitVec 64) : (value64 b).natAbs = mag 52 (exp64 b * 2 ^ 52 + man64 b) := by
  rw [value64_eq]
  generalize mag 52 (exp64 b * 2 ^ 52 + man64 b) = X
  cases neg64 b <;> simp only [sgn, if_true, if_false, Bool.false_eq_true] <;> omega

theorem value64_neg {b : BitVec 64} (h : value64 b ≠ 0) : value64 b < 0 ↔ neg64 b = true := by
  rw [value64_eq] at *
  generalize mag 52 (exp64 b * 2 ^ 52 + man64 b) = X at *
  generalize neg64 b = sb at *
  cases sb <;> simp [sgn] at * <;> omega

/-- `static_cast<float>(d)` -/
theorem narrow_rounded {d : BitVec 64} (hd : Finite64 d) : Rounded32 (value64 d) (narrow d) ∧ sign32 (narrow d) = sign64 d := by
  have he : exp64 d < 2047 := by
    have h1 : exp64 d < 2 ^ 11 := Nat.mod_lt _ (by decide)
    rw [Finite64, expo64_eq] at hd
    omega
  have hm : man64 d < 2 ^ 52 := Nat.mod_lt _ (Nat.two_pow_pos _)
  obtain ⟨lo, rem, s, U, r, hx, hr, hU, hg, hres, hna⟩ := narrow_grid he hm
  have hbound := grid_bound mag'_mono (B := 255 * 2 ^ 23 - 1) hx hr hU hg hres (by decide)
  have hov : Overflows32 (value64 d) ↔ 255 * 2 ^ 23 ≤ r := by
    rw [Overflows32, value64_natAbs]
    rw [mag'_max] at hbound
    rw [show 255 * 2 ^ 23 = 255 * 2 ^ 23 - 1 + 1 by decide, hbound]
    generalize (2 ^ 128 - 2 ^ 103) * 2 ^ 1074 = K
    exact ⟨fun h => Nat.mul_le_mul_left 2 h, fun h => Nat.le_of_mul_le_mul_left h (by decide)⟩
  by_cases hc : 255 * 2 ^ 23 ≤ r
  · rw [if_pos hc] at hna
    obtain ⟨f1, f2, f3⟩ := narrow_fields d (e := 255) (m := 0) (by decide) (by decide) hna
    refine ⟨⟨fun _ => ⟨⟨by rw [expo32_eq, f1], by rw [frac32_eq, f2]⟩, ?_⟩, fun h => absurd (hov.2 hc) h⟩, by rw [msb32, msb64, f3]⟩
    rw [msb32, f3, value64_neg]
    intro h0
    have h1 := hov.2 hc
    rw [Overflows32, h0] at h1
    exact absurd h1 (Nat.not_le.2 (Nat.mul_pos (by decide) (Nat.two_pow_pos _)))
  · rw [if_neg hc] at hna
    have hdm : r = r / 2 ^ 23 * 2 ^ 23 + r % 2 ^ 23 := by omega
    obtain ⟨f1, f2, f3⟩ := narrow_fields d (e := r / 2 ^ 23) (m := r % 2 ^ 23) (by omega) (by omega) (hna.trans hdm)
    refine ⟨⟨fun h => absurd (hov.1 h) hc, fun _ => ⟨by rw [Finite32, expo32_eq, f1]; omega, fun g _ => ?_⟩⟩, by rw [msb32, msb64, f3]⟩
    have hn := nearest_signed (f := mag') (by rw [mag', mag_zero]; simp) (grid mag'_mono hx hr hU hg hres) (neg64 d) (neg32 g)
      (exp32 g * 2 ^ 23 + man32 g)
    rw [value64_eq, value32_eq (narrow d), value32_eq g, f1, f2, f3, ← hdm, frac32_eq, f2]
    exact ⟨hn.1, fun h1 h2 => by have := hn.2 h1 h2; omega⟩

/-- infinities and NaNs -/
theorem narrow_special (d : BitVec 64) : (Inf64 d → Inf32 (narrow d) ∧ sign32 (narrow d) = sign64 d) ∧ (NaN64 d → NaN32 (narrow d)) := by
  have hm : man64 d < 2 ^ 52 := Nat.mod_lt _ (Nat.two_pow_pos _)
  constructor
  · rintro ⟨h1, h2⟩
    rw [expo64_eq] at h1
    rw [frac64_eq] at h2
    obtain ⟨f1, f2, f3⟩ := narrow_fields d (e := 255) (m := 0) (by decide) (by decide) (by rw [h1, h2]; simp [narrowAbs])
    exact ⟨⟨by rw [expo32_eq, f1], by rw [frac32_eq, f2]⟩, by rw [msb32, msb64, f3]⟩
  · rintro ⟨h1, h2⟩
    rw [expo64_eq] at h1
    rw [frac64_eq] at h2
    have : ∃ m, m ≠ 0 ∧ m < 2 ^ 23 ∧ narrowAbs (exp64 d) (man64 d) = 255 * 2 ^ 23 + m := by
      rw [h1, narrowAbs, if_pos rfl, if_neg h2]
      split
      · exact ⟨_, by omega, by omega, rfl⟩
      · exact ⟨_, by omega, by omega, rfl⟩
    obtain ⟨m, h3, h4, h5⟩ := this
    obtain ⟨f1, f2, f3⟩ := narrow_fields d (e := 255) (by decide) h4 h5
    exact ⟨by rw [expo32_eq, f1], by rw [frac32_eq, f2]; exact h3⟩

/-! ### `double` from `float` -/

theorem widen_fields' (b : BitVec 32) {e m : Nat} (he : e < 2 ^ 11) (hm : m < 2 ^ 52) (h : widenAbs (exp32 b) (man32 b) = e * 2 ^ 52 + m) :
    exp64 (widen b) = e ∧ man64 (widen b) = m ∧ neg64 (widen b) = neg32 b := by
  unfold widen
  rw [h]
  exact fields64 (neg32 b) e m he hm

theorem pow_lemma3 (m k : Nat) : (2 ^ 52 + m * 2 ^ 29) * 2 ^ (k + 896) = (2 ^ 23 + m) * 2 ^ k * 2 ^ 925 := by
  have h : (2 : Nat) ^ 925 = 2 ^ 29 * 2 ^ 896 := by rw [← Nat.pow_add]
  rw [h, Nat.pow_add]
  generalize (2 : Nat) ^ 896 = A
  ring

theorem widen_exact {b : BitVec 32} (hb : Finite32 b) : Finite64 (widen b) ∧ value64 (widen b) = value32 b ∧ sign64 (widen b) = sign32 b := by
  rw [Finite32, expo32_eq] at hb
  have hm := man32_lt b
  have he := exp32_lt b
  have hx : ∃ e m, e < 2047 ∧ m < 2 ^ 52 ∧ widenAbs (exp32 b) (man32 b) = e * 2 ^ 52 + m ∧
      mag 52 (e * 2 ^ 52 + m) = mag' (exp32 b * 2 ^ 23 + man32 b) := by
    rw [widenAbs, if_neg hb, mag', mag_fields hm]
    by_cases h0 : exp32 b = 0
    · rw [if_pos h0, if_pos h0]
      by_cases h1 : man32 b = 0
      · rw [h1]
        exact ⟨0, 0, by decide, by decide, rfl, by rw [mag_fields (by decide)]; simp⟩
      · rw [if_neg h1]
        have hl := log2_lt_of_lt _ 23 h1 hm
        have hb2 := log2_bounds _ h1
        generalize (man32 b).log2 = L at *
        have h2 : 2 ^ 52 ≤ man32 b * 2 ^ (52 - L) := by
          calc 2 ^ 52 = 2 ^ L * 2 ^ (52 - L) := by rw [← Nat.pow_add]; congr 1; omega
            _ ≤ _ := Nat.mul_le_mul_right _ hb2.1
        have h3 : man32 b * 2 ^ (52 - L) < 2 ^ 53 := by
          calc man32 b * 2 ^ (52 - L) < 2 ^ (L + 1) * 2 ^ (52 - L) := Nat.mul_lt_mul_of_pos_right hb2.2 (Nat.two_pow_pos _)
            _ = 2 ^ 53 := by rw [← Nat.pow_add]; congr 1; omega
        refine ⟨L + 874, man32 b * 2 ^ (52 - L) - 2 ^ 52, by omega, by omega, by omega, ?_⟩
        rw [mag_fields (by omega), if_neg (by omega), show 2 ^ 52 + (man32 b * 2 ^ (52 - L) - 2 ^ 52) = man32 b * 2 ^ (52 - L) by omega,
          Nat.mul_assoc, ← Nat.pow_add, show 52 - L + (L + 874 - 1) = 925 by omega]
    · rw [if_neg h0, if_neg h0]
      obtain ⟨k, hk⟩ : ∃ k, exp32 b = k + 1 := ⟨exp32 b - 1, by omega⟩
      rw [hk]
      refine ⟨k + 897, man32 b * 2 ^ 29, by omega, by omega, by omega, ?_⟩
      rw [mag_fields (by omega), if_neg (by omega), show k + 897 - 1 = k + 896 by omega, Nat.add_sub_cancel, pow_lemma3]
  obtain ⟨e, m, he', hm', h1, h2⟩ := hx
  obtain ⟨f1, f2, f3⟩ := widen_fields' b (by omega) hm' h1
  refine ⟨?_, ?_, by rw [msb64, msb32, f3]⟩
  · rw [Finite64, expo64_eq, f1]; omega
  · rw [value64_eq, value32_eq, f1, f2, f3, h2]

theorem widen_special (b : BitVec 32) : (Inf32 b → Inf64 (widen b) ∧ sign64 (widen b) = sign32 b) ∧ (NaN32 b → NaN64 (widen b)) := by
  have hm := man32_lt b
  constructor
  · rintro ⟨h1, h2⟩
    rw [expo32_eq] at h1
    rw [frac32_eq] at h2
    obtain ⟨f1, f2, f3⟩ := widen_fields' b (e := 2047) (m := 0) (by decide) (by decide) (by rw [h1, h2]; simp [widenAbs])
    exact ⟨⟨by rw [expo64_eq, f1], by rw [frac64_eq, f2]⟩, by rw [msb32, msb64, f3]⟩
  · rintro ⟨h1, h2⟩
    rw [expo32_eq] at h1
    rw [frac32_eq] at h2
    have : ∃ m, m ≠ 0 ∧ m < 2 ^ 52 ∧ widenAbs (exp32 b) (man32 b) = 2047 * 2 ^ 52 + m := by
      rw [h1, widenAbs, if_pos rfl, if_neg h2]
      split
      · exact ⟨_, by omega, by omega, rfl⟩
      · exact ⟨_, by omega, by omega, rfl⟩
    obtain ⟨m, h3, h4, h5⟩ := this
    obtain ⟨f1, f2, f3⟩ := widen_fields' b (e := 2047) (by decide) h4 h5
    exact ⟨by rw [expo64_eq, f1], by rw [frac64_eq, f2]; exact h3⟩

/-! ### `double` from integers -/

theorem natBits_grid {a : Nat} (h0 : a ≠ 0) (h : a < 2 ^ 64) : ∃ lo rem s U,
    a * 2 ^ 1074 = mag 52 lo + rem * U ∧ rem < 2 ^ s ∧ 0 < U ∧ mag 52 (lo + 1) = mag 52 lo + 2 ^ s * U ∧
    (natBits a = if 2 * rem > 2 ^ s ∨ (2 * rem = 2 ^ s ∧ lo % 2 = 1) then lo + 1 else lo) ∧ (a < 2 ^ 53 → rem = 0) := by
  have hb := log2_bounds a h0
  have hl := log2_lt_of_lt a 64 h0 h
  have hnb : natBits a = if a.log2 ≤ 52 then (a.log2 + 1022) * 2 ^ 52 + a * 2 ^ (52 - a.log2)
      else (a.log2 + 1022) * 2 ^ 52 + roundShift a (a.log2 - 52) := by simp only [natBits]
  have hsmall : a < 2 ^ 53 → a.log2 ≤ 52 := fun h => by have := log2_lt_of_lt a 53 h0 h; omega
  generalize a.log2 = L at *
  have hmag : ∀ q, 2 ^ 52 ≤ q → q < 2 ^ 53 → mag 52 ((L + 1022) * 2 ^ 52 + q) = q * 2 ^ (L + 1022) ∧
      mag 52 ((L + 1022) * 2 ^ 52 + q + 1) = q * 2 ^ (L + 1022) + 2 ^ (L + 1022) := by
    intro q h1 h2
    have h3 : (L + 1022) * 2 ^ 52 + q = (L + 1023) * 2 ^ 52 + (q - 2 ^ 52) := by omega
    have h4 : mag 52 ((L + 1022) * 2 ^ 52 + q) = q * 2 ^ (L + 1022) := by
      have h5 := mag_fields (p := 52) (e := L + 1023) (m := q - 2 ^ 52) (by omega)
      rw [if_neg (by omega)] at h5
      have h6 : L + 1023 - 1 = L + 1022 := by omega
      have h7 : 2 ^ 52 + (q - 2 ^ 52) = q := Nat.add_sub_of_le h1
      rw [h6] at h5
      rw [h3, h5]
      exact congrArg (· * 2 ^ (L + 1022)) h7
    refine ⟨h4, ?_⟩
    rw [mag_step, h4, show ((L + 1022) * 2 ^ 52 + q) / 2 ^ 52 - 1 = L + 1022 by omega]
  by_cases hp : L ≤ 52
  · rw [if_pos hp] at hnb
    have h1 : 2 ^ 52 ≤ a * 2 ^ (52 - L) := by
      calc 2 ^ 52 = 2 ^ L * 2 ^ (52 - L) := by rw [← Nat.pow_add]; congr 1; omega
        _ ≤ _ := Nat.mul_le_mul_right _ hb.1
    have h2 : a * 2 ^ (52 - L) < 2 ^ 53 := by
      calc a * 2 ^ (52 - L) < 2 ^ (L + 1) * 2 ^ (52 - L) := Nat.mul_lt_mul_of_pos_right hb.2 (Nat.two_pow_pos _)
        _ = 2 ^ 53 := by rw [← Nat.pow_add]; congr 1; omega
    obtain ⟨h3, h4⟩ := hmag _ h1 h2
    refine ⟨(L + 1022) * 2 ^ 52 + a * 2 ^ (52 - L), 0, 0, 2 ^ (L + 1022), ?_, by decide, Nat.two_pow_pos _, ?_, ?_, fun _ => rfl⟩
    · rw [h3, Nat.mul_assoc, ← Nat.pow_add, show 52 - L + (L + 1022) = 1074 by omega]
      generalize 2 ^ 1074 = K
      omega
    · rw [h3, h4, Nat.pow_zero, Nat.one_mul]
    · rw [hnb, if_neg (by omega)]
  · rw [if_neg hp] at hnb
    obtain ⟨s, rfl⟩ : ∃ s, L = s + 52 := ⟨L - 52, by omega⟩
    rw [Nat.add_sub_cancel] at hnb
    have hq1 : 2 ^ 52 ≤ a / 2 ^ s := by
      rw [Nat.le_div_iff_mul_le (Nat.two_pow_pos _), ← Nat.pow_add, Nat.add_comm]
      exact hb.1
    have hq2 : a / 2 ^ s < 2 ^ 53 := by
      rw [Nat.div_lt_iff_lt_mul (Nat.two_pow_pos _), ← Nat.pow_add]
      calc a < 2 ^ (s + 52 + 1) := hb.2
        _ = 2 ^ (53 + s) := by congr 1; omega
    obtain ⟨h3, h4⟩ := hmag _ hq1 hq2
    have hd := Nat.div_add_mod a (2 ^ s)
    have hr : a % 2 ^ s < 2 ^ s := Nat.mod_lt _ (Nat.two_pow_pos _)
    rw [roundShift_eq] at hnb
    have hpow : 2 ^ (s + 52 + 1022) = 2 ^ s * 2 ^ 1074 := by rw [← Nat.pow_add]
    refine ⟨(s + 52 + 1022) * 2 ^ 52 + a / 2 ^ s, a % 2 ^ s, s, 2 ^ 1074, ?_, hr, Nat.two_pow_pos _, ?_, ?_, ?_⟩
    · rw [h3, hpow]
      generalize 2 ^ 1074 = K
      calc a * K = (2 ^ s * (a / 2 ^ s) + a % 2 ^ s) * K := by rw [hd]
        _ = _ := by ring
    · rw [h3, h4, hpow]
    · have hpar : ((s + 52 + 1022) * 2 ^ 52 + a / 2 ^ s) % 2 = a / 2 ^ s % 2 := by omega
      rw [hnb, hpar]
      by_cases hc : 2 * (a % 2 ^ s) > 2 ^ s ∨ 2 * (a % 2 ^ s) = 2 ^ s ∧ a / 2 ^ s % 2 = 1
      · rw [if_pos hc, if_pos hc]
        exact (Nat.add_assoc ..).symm
      · rw [if_neg hc, if_neg hc]
    · intro h; have := hsmall h; omega

theorem ofInt_fields {i : Int} (h : i.natAbs < 2 ^ 64) : ∃ e m, e < 2047 ∧ m < 2 ^ 52 ∧
    (if i = 0 then 0 else natBits i.natAbs) = e * 2 ^ 52 + m ∧ exp64 (ofInt i) = e ∧ man64 (ofInt i) = m ∧ neg64 (ofInt i) = decide (i < 0) := by
  by_cases h0 : i = 0
  · subst h0
    exact ⟨0, 0, by decide, by decide, by simp, by simp [ofInt, exp64], by simp [ofInt, man64], by simp [ofInt, neg64]⟩
  · obtain ⟨e, m, he, hm, hbits, -⟩ := natBits_fields i.natAbs (by omega) h
    have hof : ofInt i = BitVec.ofNat 64 ((if decide (i < 0) = true then 2 ^ 63 else 0) + (e * 2 ^ 52 + m)) := by
      unfold ofInt
      rw [if_neg h0, hbits]
      simp
    have hf := fields64 (decide (i < 0)) e m (by omega) hm
    simp only at hf
    rw [← hof] at hf
    exact ⟨e, m, he, hm, by rw [if_neg h0, hbits], hf⟩

theorem ofInt_nearest {i : Int} (hi : i.natAbs < 2 ^ 64) : Nearest64 (i * unit) (ofInt i) := by
  obtain ⟨e, m, he, hm, hb, f1, f2, f3⟩ := ofInt_fields hi
  have hgrid : ∀ b, ((mag 52 (e * 2 ^ 52 + m) : Int) - (i.natAbs * 2 ^ 1074 : Nat)).natAbs ≤
      ((mag 52 b : Int) - (i.natAbs * 2 ^ 1074 : Nat)).natAbs ∧
      (b ≠ e * 2 ^ 52 + m → ((mag 52 (e * 2 ^ 52 + m) : Int) - (i.natAbs * 2 ^ 1074 : Nat)).natAbs =
        ((mag 52 b : Int) - (i.natAbs * 2 ^ 1074 : Nat)).natAbs → (e * 2 ^ 52 + m) % 2 = 0) := by
    rw [← hb]
    by_cases h0 : i = 0
    · rw [if_pos h0, h0, Int.natAbs_zero, Nat.zero_mul, mag_zero]
      intro b
      exact ⟨by simp, fun _ _ => rfl⟩
    · rw [if_neg h0]
      obtain ⟨lo, rem, s, U, h1, h2, h3, h4, h5, -⟩ := natBits_grid (a := i.natAbs) (by omega) hi
      exact grid (mag_mono 52) h1 h2 h3 h4 h5
  refine ⟨by rw [Finite64, expo64_eq, f1]; omega, fun g _ => ?_⟩
  have hx : i * unit = sgn (decide (i < 0)) * (i.natAbs * 2 ^ 1074 : Nat) := by
    rw [unit, Int.natCast_mul, Int.natCast_pow, ← Int.mul_assoc]
    congr 1
    by_cases h : i < 0
    · simp only [h, sgn, decide_true, if_true]; omega
    · simp only [h, sgn, decide_false, if_false, Bool.false_eq_true]; omega
  have hn := nearest_signed (mag_zero 52) hgrid (decide (i < 0)) (neg64 g) (exp64 g * 2 ^ 52 + man64 g)
  rw [hx, value64_eq (ofInt i), value64_eq g, f1, f2, f3, frac64_eq, f2]
  exact ⟨hn.1, fun h1 h2 => by have := hn.2 h1 h2; omega⟩

theorem ofInt_exact {i : Int} (hi : i.natAbs < 2 ^ 53) : value64 (ofInt i) = i * unit := by
  obtain ⟨e, m, he, hm, hb, f1, f2, f3⟩ := ofInt_fields (i := i) (by omega)
  have hmag : mag 52 (e * 2 ^ 52 + m) = i.natAbs * 2 ^ 1074 := by
    rw [← hb]
    by_cases h0 : i = 0
    · rw [if_pos h0, h0, Int.natAbs_zero, Nat.zero_mul, mag_zero]
    · rw [if_neg h0]
      obtain ⟨lo, rem, s, U, h1, h2, h3, h4, h5, h6⟩ := natBits_grid (a := i.natAbs) (by omega) (by omega)
      have hr := h6 hi
      subst hr
      rw [h5, h1, if_neg]
      · simp
      · have := Nat.two_pow_pos s; omega
  rw [value64_eq, f1, f2, f3, hmag, unit, Int.natCast_mul, Int.natCast_pow, ← Int.mul_assoc]
  congr 1
  by_cases h : i < 0
  · simp only [h, sgn, decide_true, if_true]; omega
  · simp only [h, sgn, decide_false, if_false, Bool.false_eq_true]; omega

end Verif.Fp
