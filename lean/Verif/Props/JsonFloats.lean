import Verif.Lemmas.Fp
import Verif.Props.JsonApi

/-!
# C66: floating-point numbers are rounded correctly, and only once
-/

namespace Verif
open Fp

/-- C66 (double): reading a JSON number into a `double` yields the number if it has been parsed as `double`, and otherwise (it has
been parsed as 64-bit integer) the nearest `double`, which is the very same number up to 2^53. -/
theorem C66_double_from_number (E : Env) (n : Nat) (p : Val) (s : Option ErrSt) :
    (∀ d, pull E (n + 1) .f64 (.num (.dbl d)) p s = .ok (.f64 d) s) ∧
    (∀ i : Int, -(2 ^ 63) ≤ i → i < 2 ^ 64 → ∃ d, pull E (n + 1) .f64 (.num (.int i)) p s = .ok (.f64 d) s ∧
      Nearest64 (i * unit) d ∧ (i.natAbs < 2 ^ 53 → value64 d = i * unit)) :=
  ⟨fun _ => rfl, fun i h1 h2 => ⟨Ieee.ofInt i, rfl, ofInt_nearest (by omega), ofInt_exact⟩⟩

/-- C66 (float): reading a JSON number which has been parsed as `double` into a `float` rounds to the nearest `float`, ties to
even, infinity for those too big, and keeps the sign (also of zero). -/
theorem C66_float_from_double (E : Env) (n : Nat) (p : Val) (s : Option ErrSt) (d : BitVec 64) :
    ∃ f, pull E (n + 1) .f32 (.num (.dbl d)) p s = .ok (.f32 f) s ∧
      (Finite64 d → Rounded32 (value64 d) f ∧ sign32 f = sign64 d) ∧
      (Inf64 d → Inf32 f ∧ sign32 f = sign64 d) ∧ (NaN64 d → NaN32 f) :=
  ⟨Ieee.narrow d, rfl, narrow_rounded, (narrow_special d).1, (narrow_special d).2⟩

theorem nearest_unique_value {x : Int} {f : BitVec 32} (h : Nearest32 x f) {g : BitVec 32} (hg : Finite32 g) (hx : value32 g = x) :
    value32 f = x := by
  have := (h.2 g hg).1
  rw [hx] at this
  omega

/-- integers of 24 bits are `float`s -/
theorem small_int_float (i : Int) (hi : i.natAbs < 2 ^ 24) : ∃ g, Finite32 g ∧ value32 g = i * unit := by
  have hx : i * unit = sgn (decide (i < 0)) * (i.natAbs * 2 ^ 1074 : Nat) := by
    rw [unit, Int.natCast_mul, Int.natCast_pow, ← Int.mul_assoc]
    congr 1
    by_cases h : i < 0
    · simp only [h, sgn, decide_true, if_true]; omega
    · simp only [h, sgn, decide_false, if_false, Bool.false_eq_true]; omega
  have key : ∃ e m, e < 255 ∧ m < 2 ^ 23 ∧ mag' (e * 2 ^ 23 + m) = i.natAbs * 2 ^ 1074 := by
    by_cases h0 : i.natAbs = 0
    · refine ⟨0, 0, by decide, by decide, ?_⟩
      rw [h0, Nat.zero_mul, Nat.zero_mul, Nat.zero_add, mag', mag_zero, Nat.zero_mul]
    · have hb := Ieee.log2_bounds _ h0
      have hl := Ieee.log2_lt_of_lt _ 24 h0 hi
      generalize i.natAbs.log2 = L at *
      generalize i.natAbs = a at *
      have h1 : 2 ^ 23 ≤ a * 2 ^ (23 - L) := by
        calc 2 ^ 23 = 2 ^ L * 2 ^ (23 - L) := by rw [← Nat.pow_add]; congr 1; omega
          _ ≤ _ := Nat.mul_le_mul_right _ hb.1
      have h2 : a * 2 ^ (23 - L) < 2 ^ 24 := by
        calc a * 2 ^ (23 - L) < 2 ^ (L + 1) * 2 ^ (23 - L) := Nat.mul_lt_mul_of_pos_right hb.2 (Nat.two_pow_pos _)
          _ = 2 ^ 24 := by rw [← Nat.pow_add]; congr 1; omega
      refine ⟨L + 127, a * 2 ^ (23 - L) - 2 ^ 23, by omega, by omega, ?_⟩
      have h3 : 2 ^ 23 + (a * 2 ^ (23 - L) - 2 ^ 23) = a * 2 ^ (23 - L) := Nat.add_sub_of_le h1
      rw [mag', mag_fields (by omega), if_neg (by omega), h3, Nat.mul_assoc, Nat.mul_assoc, ← Nat.pow_add, ← Nat.pow_add,
        show 23 - L + (L + 127 - 1 + 925) = 1074 by omega]
  obtain ⟨e, m, he, hm, hv⟩ := key
  refine ⟨BitVec.ofNat 32 ((if decide (i < 0) then 2 ^ 31 else 0) + (e * 2 ^ 23 + m)), ?_⟩
  have hlt : (if decide (i < 0) then 2 ^ 31 else 0) + (e * 2 ^ 23 + m) < 2 ^ 32 := by split <;> omega
  have hf : Ieee.exp32 (BitVec.ofNat 32 ((if decide (i < 0) then 2 ^ 31 else 0) + (e * 2 ^ 23 + m))) = e ∧
      Ieee.man32 (BitVec.ofNat 32 ((if decide (i < 0) then 2 ^ 31 else 0) + (e * 2 ^ 23 + m))) = m ∧
      Ieee.neg32 (BitVec.ofNat 32 ((if decide (i < 0) then 2 ^ 31 else 0) + (e * 2 ^ 23 + m))) = decide (i < 0) := by
    simp only [Ieee.exp32, Ieee.man32, Ieee.neg32, Ieee.toNat_ofNat32 _ hlt]
    refine ⟨?_, ?_, ?_⟩
    · split <;> omega
    · split <;> omega
    · cases decide (i < 0) <;> simp <;> omega
  obtain ⟨f1, f2, f3⟩ := hf
  exact ⟨by rw [Finite32, expo32_eq, f1]; omega, by rw [value32_eq, f1, f2, f3, hv, hx]⟩

/-- 64-bit integers do not overflow -/
theorem ofInt_no_overflow {i : Int} (hi : i.natAbs < 2 ^ 64) : ¬ Overflows32 (value64 (Ieee.ofInt i)) := by
  intro h
  obtain ⟨e, m, he, hm, hb, f1, f2, f3⟩ := ofInt_fields hi
  rw [Overflows32, value64_natAbs, f1, f2, ← hb] at h
  by_cases h0 : i = 0
  · rw [if_pos h0, mag_zero] at h
    exact absurd h (Nat.not_le.2 (Nat.mul_pos (by decide) (Nat.two_pow_pos _)))
  · rw [if_neg h0] at h
    obtain ⟨lo, rem, s, U, h1, h2, h3, h4, h5, -⟩ := natBits_grid (a := i.natAbs) (by omega) hi
    have hg := (grid (mag_mono 52) h1 h2 h3 h4 h5 0).1
    rw [mag_zero] at hg
    have h6 : i.natAbs * 2 ^ 1074 < 2 ^ 64 * 2 ^ 1074 := Nat.mul_lt_mul_of_pos_right hi (Nat.two_pow_pos _)
    have h7 : 2 * (2 ^ 64 * 2 ^ 1074) ≤ (2 ^ 128 - 2 ^ 103) * 2 ^ 1074 := by
      rw [← Nat.mul_assoc]; exact Nat.mul_le_mul_right _ (by decide)
    generalize 2 ^ 64 * 2 ^ 1074 = A at *
    generalize (2 ^ 128 - 2 ^ 103) * 2 ^ 1074 = B at *
    generalize i.natAbs * 2 ^ 1074 = C at *
    omega

/-- C66 (float, integers): reading a JSON number which has been parsed as integer into a `float` converts it to the nearest
`double` and then to the `float` nearest to this one. Integers up to 2^24 are not changed. -/
theorem C66_float_from_integer (E : Env) (n : Nat) (p : Val) (s : Option ErrSt) (i : Int) (h1 : -(2 ^ 63) ≤ i) (h2 : i < 2 ^ 64) :
    ∃ d f, pull E (n + 1) .f32 (.num (.int i)) p s = .ok (.f32 f) s ∧ Nearest64 (i * unit) d ∧ Nearest32 (value64 d) f ∧
      (i.natAbs < 2 ^ 24 → value32 f = i * unit) := by
  have hi : i.natAbs < 2 ^ 64 := by omega
  have hd := ofInt_nearest hi
  have hf := (narrow_rounded hd.1).1.2 (ofInt_no_overflow hi)
  refine ⟨Ieee.ofInt i, Ieee.narrow (Ieee.ofInt i), rfl, hd, hf, fun h => ?_⟩
  rw [ofInt_exact (by omega)] at hf
  obtain ⟨g, hg, hv⟩ := small_int_float i h
  exact nearest_unique_value hf hg hv

/-- C66 (limit): so integers are rounded twice and might end up in a `float` which is not the nearest one: 2^60 + 2^36 + 1 becomes
2^60 although 2^60 + 2^37 is nearer. -/
theorem C66_integer_rounded_twice (E : Env) (n : Nat) (p : Val) (s : Option ErrSt) :
    ∃ f, pull E (n + 1) .f32 (.num (.int (2 ^ 60 + 2 ^ 36 + 1))) p s = .ok (.f32 f) s ∧ value32 f = 2 ^ 60 * unit ∧
      ¬ Nearest32 ((2 ^ 60 + 2 ^ 36 + 1) * unit) f := by
  have hu : unit = 2 ^ 149 * 2 ^ 925 := by rw [unit, ← Int.pow_add]
  have hf : value32 0x5d800000#32 = 2 ^ 60 * unit := by
    rw [value32, hu]
    have : (if sign32 0x5d800000#32 then (-1 : Int) else 1) *
        ((if expo32 0x5d800000#32 = 0 then frac32 0x5d800000#32 else (2 ^ 23 + frac32 0x5d800000#32) * 2 ^ (expo32 0x5d800000#32 - 1) : Nat) : Int)
        = 2 ^ 60 * 2 ^ 149 := by decide
    rw [this, Int.mul_assoc]
  have hg : value32 0x5d800001#32 = (2 ^ 60 + 2 ^ 37) * unit := by
    rw [value32, hu]
    have : (if sign32 0x5d800001#32 then (-1 : Int) else 1) *
        ((if expo32 0x5d800001#32 = 0 then frac32 0x5d800001#32 else (2 ^ 23 + frac32 0x5d800001#32) * 2 ^ (expo32 0x5d800001#32 - 1) : Nat) : Int)
        = (2 ^ 60 + 2 ^ 37) * 2 ^ 149 := by decide
    rw [this, Int.mul_assoc]
  have hn : Ieee.narrow (Ieee.ofInt (2 ^ 60 + 2 ^ 36 + 1)) = 0x5d800000#32 := by decide
  refine ⟨0x5d800000#32, ?_, hf, fun h => ?_⟩
  · rw [← hn]; rfl
  · have h1 := (h.2 0x5d800001#32 (by unfold Finite32; decide)).1
    rw [hf, hg] at h1
    have hpos : 0 < unit := by rw [unit]; exact Int.pow_pos (by decide)
    generalize unit = U at *
    omega

/-- C66 (writing): a `float` is written as the very same number, which is read as the same `float`. -/
theorem C66_float_written_exactly (E : Env) (H : Heap) (n : Nat) (f : BitVec 32) :
    ∃ d, push E H (n + 1) .f32 (.f32 f) () = .ok (.num (.dbl d)) () ∧
      (Finite32 f → Finite64 d ∧ value64 d = value32 f ∧ sign64 d = sign32 f) ∧
      (Inf32 f → Inf64 d ∧ sign64 d = sign32 f) ∧ (NaN32 f → NaN64 d) ∧
      (¬ NaN32 f → ∀ n p s, pull E (n + 1) .f32 (.num (.dbl d)) p s = .ok (.f32 f) s) := by
  refine ⟨Ieee.widen f, rfl, widen_exact, (widen_special f).1, (widen_special f).2, fun h n p s => ?_⟩
  have : Ieee.narrow (Ieee.widen f) = f := by
    refine Ieee.narrow_widen f ?_
    rw [NaN32, expo32_eq, frac32_eq] at h
    simpa [Ieee.isNaN32] using h
  show Res.ok (Val.f32 (Ieee.narrow (Ieee.widen f))) s = _
  rw [this]

/-! ### documents which are just a number -/

theorem and_mask (d : BitVec 64) : (d &&& 0x7FFFFFFFFFFFFFFF).toNat = Ieee.exp64 d * 2 ^ 52 + Ieee.man64 d := by
  rw [BitVec.toNat_and, show BitVec.toNat (0x7FFFFFFFFFFFFFFF : BitVec 64) = 2 ^ 63 - 1 from rfl, Nat.and_two_pow_sub_one_eq_mod]
  unfold Ieee.exp64 Ieee.man64
  omega

/-- the constant `3.4028234e38` -/
theorem float_limit : Nearest64 (34028234 * 10 ^ 31 * unit) 0x47efffffd586b834#64 := by
  refine ⟨by unfold Finite64; decide, fun g _ => ?_⟩
  have hx : (34028234 * 10 ^ 31 * 2 ^ 1074 : Nat) = mag 52 0x47efffffd586b834 + 7604146003156809023488 * 2 ^ 1074 := by
    have h := mag_fields (p := 52) (e := 1150) (m := 0xfffffd586b834) (by decide)
    rw [if_neg (by decide)] at h
    rw [show 0x47efffffd586b834 = 1150 * 2 ^ 52 + 0xfffffd586b834 by decide, h, show 1150 - 1 = 75 + 1074 by decide, Nat.pow_add 2 75,
      ← Nat.mul_assoc, ← Nat.add_mul]
    rw [show (2 ^ 52 + 0xfffffd586b834) * 2 ^ 75 + 7604146003156809023488 = 34028234 * 10 ^ 31 by decide]
  have hstep : mag 52 (0x47efffffd586b834 + 1) = mag 52 0x47efffffd586b834 + 2 ^ 75 * 2 ^ 1074 := by
    rw [mag_step, ← Nat.pow_add, show 0x47efffffd586b834 / 2 ^ 52 - 1 = 75 + 1074 by decide]
  have hgrid := grid (mag_mono 52) (s := 75) hx (by decide) (Nat.two_pow_pos _) hstep rfl
  rw [if_neg (by decide)] at hgrid
  have hn := nearest_signed (mag_zero 52) hgrid false (Ieee.neg64 g) (Ieee.exp64 g * 2 ^ 52 + Ieee.man64 g)
  have e1 : Ieee.neg64 0x47efffffd586b834#64 = false := by decide
  have e2 : Ieee.exp64 0x47efffffd586b834#64 * 2 ^ 52 + Ieee.man64 0x47efffffd586b834#64 = 0x47efffffd586b834 := by decide
  have e3 : 34028234 * 10 ^ 31 * unit = sgn false * (34028234 * 10 ^ 31 * 2 ^ 1074 : Nat) := by
    rw [unit, sgn, Int.natCast_mul, Int.natCast_pow]
    simp only [Bool.false_eq_true, if_false, Int.one_mul]
    rfl
  rw [value64_eq 0x47efffffd586b834#64, value64_eq g, e1, e2, e3]
  exact ⟨hn.1, fun h1 h2 => by have := hn.2 h1 h2; rw [frac64_eq]; decide⟩

theorem floatRange_iff (d : BitVec 64) : floatRange d = true ↔
    Finite64 d ∧ (value64 d).natAbs ≤ (value64 0x47efffffd586b834#64).natAbs := by
  rw [floatRange, decide_eq_true_iff, BitVec.le_def, and_mask, value64_natAbs, value64_natAbs, (mag_mono 52).le_iff_le, Finite64, expo64_eq]
  have e2 : Ieee.exp64 0x47efffffd586b834#64 * 2 ^ 52 + Ieee.man64 0x47efffffd586b834#64 = 0x47efffffd586b834 := by decide
  rw [e2]
  have hm : Ieee.man64 d < 2 ^ 52 := Nat.mod_lt _ (Nat.two_pow_pos _)
  have : BitVec.toNat (0x47efffffd586b834 : BitVec 64) = 0x47efffffd586b834 := by decide
  rw [this]
  omega

theorem limit_le : (value64 0x47efffffd586b834#64).natAbs < (2 ^ 128 - 2 ^ 103) * 2 ^ 1074 := by
  have e2 : Ieee.exp64 0x47efffffd586b834#64 * 2 ^ 52 + Ieee.man64 0x47efffffd586b834#64 = 1150 * 2 ^ 52 + 0xfffffd586b834 := by decide
  have e3 : (value64 0x47efffffd586b834#64).natAbs = ((2 ^ 52 + 0xfffffd586b834) * 2 ^ 75) * 2 ^ 1074 := by
    rw [value64_natAbs, e2, mag_fields (by decide), if_neg (by decide), show 1150 - 1 = 75 + 1074 by decide, Nat.pow_add 2 75 1074,
      ← Nat.mul_assoc]
  have h : (2 ^ 52 + 0xfffffd586b834) * 2 ^ 75 < 2 ^ 128 - 2 ^ 103 := by decide
  have hK : 0 < 2 ^ 1074 := Nat.two_pow_pos _
  have := Nat.mul_lt_mul_of_pos_right h hK
  rwa [e3]

/-- C66 (document): a document which is just a number is accepted for `float` iff the number has been parsed as `double` and does
not exceed the `double` nearest to 3.4028234e38; it is rounded to the nearest `float`. -/
theorem C66_float_document (E : Env) (P : Parser) (n : Nat) (text : Str) (d : BitVec 64) (hp : P text = .ok (.num (.dbl d)))
    (st : ErrSt) :
    Nearest64 (34028234 * 10 ^ 31 * unit) 0x47efffffd586b834#64 ∧
    (Finite64 d ∧ (value64 d).natAbs ≤ (value64 0x47efffffd586b834#64).natAbs →
      ∃ f, (∀ s, fromJson E P n .f32 text s = .ok (.f32 f) s) ∧ Nearest32 (value64 d) f ∧ sign32 f = sign64 d) ∧
    (¬ (Finite64 d ∧ (value64 d).natAbs ≤ (value64 0x47efffffd586b834#64).natAbs) →
      fromJson E P n .f32 text none = .ok (E.valInit .f32) none ∧
      ∃ e, ErrAt st .typeMismatch .number .number e ∧ fromJson E P n .f32 text (some st) =
        if Fatal st.throwOn .typeMismatch then .exc (.err e) (some { st with errs := st.errs ++ [e] })
        else .ok (E.valInit .f32) (some { st with errs := st.errs ++ [e] })) := by
  refine ⟨float_limit, fun h => ?_, fun h => ?_⟩
  · have hr := (floatRange_iff d).2 h
    have hn := narrow_rounded h.1
    refine ⟨Ieee.narrow d, fun s => ?_, hn.1.2 fun ho => ?_, hn.2⟩
    · exact (C21_accepted E P n .f32 trivial text _ hp ⟨d, rfl, hr⟩ s).2.2.2.1 d rfl rfl
    · have h1 := limit_le
      have h2 := h.2
      rw [Overflows32] at ho
      generalize (2 ^ 128 - 2 ^ 103) * 2 ^ 1074 = K at *
      generalize (value64 d).natAbs = A at *
      generalize (value64 0x47efffffd586b834#64).natAbs = B at *
      omega
  · refine C21_top_level_mismatch E P n .f32 trivial text _ hp ?_ st
    rintro ⟨d', h1, h2⟩
    cases h1
    exact h ((floatRange_iff d).1 h2)

/-- C66 (limit): the biggest `float` is written but not read again as a document of its own, as it exceeds that limit. -/
theorem C66_biggest_float_document_rejected (E : Env) (H : Heap) (P : Parser) (n : Nat) (text : Str) :
    ∃ f j, Finite32 f ∧ (∀ g, Finite32 g → value32 g ≤ value32 f) ∧ toJsonDocument E H n .f32 (.f32 f) () = .ok j () ∧
      (P text = .ok j → fromJson E P n .f32 text none = .ok (E.valInit .f32) none) := by
  have e1 : Ieee.neg32 0x7f7fffff#32 = false := by decide
  have e2 : Ieee.exp32 0x7f7fffff#32 * 2 ^ 23 + Ieee.man32 0x7f7fffff#32 = 255 * 2 ^ 23 - 1 := by decide
  refine ⟨0x7f7fffff#32, .num (.dbl (Ieee.widen 0x7f7fffff#32)), by unfold Finite32; decide, fun g hg => ?_, rfl, fun hp => ?_⟩
  · rw [Finite32, expo32_eq] at hg
    have h1 := Ieee.man32_lt g
    have h2 := Ieee.exp32_lt g
    have h3 : mag' (Ieee.exp32 g * 2 ^ 23 + Ieee.man32 g) ≤ mag' (255 * 2 ^ 23 - 1) := mag'_mono.monotone (by omega)
    rw [value32_eq, value32_eq, e1, e2]
    generalize mag' (Ieee.exp32 g * 2 ^ 23 + Ieee.man32 g) = A at *
    generalize mag' (255 * 2 ^ 23 - 1) = B at *
    cases Ieee.neg32 g <;> simp only [sgn, if_true, if_false, Bool.false_eq_true] <;> omega
  · refine (C21_top_level_mismatch E P n .f32 trivial text _ hp ?_ .init).1
    rintro ⟨d', h1, h2⟩
    cases h1
    exact absurd h2 (by decide)

/-! ### non-vacuity -/

/-- 0.1 (`double`) is rounded to the `float` 0x3dcccccd, whatever its neighbours -/
example : Finite64 0x3fb999999999999a#64 ∧ Ieee.narrow 0x3fb999999999999a#64 = 0x3dcccccd#32 ∧
    Nearest32 (value64 0x3fb999999999999a#64) 0x3dcccccd#32 := by
  have hf : Finite64 0x3fb999999999999a#64 := by unfold Finite64; decide
  have hn : Ieee.narrow 0x3fb999999999999a#64 = 0x3dcccccd#32 := by decide
  refine ⟨hf, hn, ?_⟩
  have := (narrow_rounded hf).1
  rw [hn] at this
  by_cases ho : Overflows32 (value64 0x3fb999999999999a#64)
  · exact absurd (this.1 ho).1.1 (by decide)
  · exact this.2 ho

/-- 2^128 is too big -/
example : ∃ f, ∀ (E : Env) n p s, pull E (n + 1) .f32 (.num (.dbl 0x47f0000000000000#64)) p s = .ok (.f32 f) s ∧ Inf32 f :=
  ⟨0x7f800000#32, fun _ _ _ _ => ⟨by rw [show (0x7f800000#32) = Ieee.narrow 0x47f0000000000000#64 by decide]; rfl, by unfold Inf32; decide⟩⟩

/-- 1 is 1 -/
example (E : Env) : ∃ d, pull E 1 .f64 (.num (.int 1)) .null none = .ok (.f64 d) none ∧ value64 d = 1 * unit := by
  obtain ⟨d, h1, -, h2⟩ := (C66_double_from_number E 0 .null none).2 1 (by decide) (by decide)
  exact ⟨d, h1, h2 (by decide)⟩

end Verif
