import Verif.Model.Basic

/-!
# Specification: numbers denoted by `float` and `double`, correct rounding

IEEE 754 binary32/binary64 by their bit fields. Every finite number of both formats is a multiple of 2^-1074, so values are given
as integers counting these multiples (`unit` of them make one).
-/

namespace Verif.Fp

/-- sign bit, exponent field and fraction field -/
def sign64 (b : BitVec 64) : Bool := b.msb
def expo64 (b : BitVec 64) : Nat := (b.extractLsb' 52 11).toNat
def frac64 (b : BitVec 64) : Nat := (b.extractLsb' 0 52).toNat
def sign32 (b : BitVec 32) : Bool := b.msb
def expo32 (b : BitVec 32) : Nat := (b.extractLsb' 23 8).toNat
def frac32 (b : BitVec 32) : Nat := (b.extractLsb' 0 23).toNat

/-- multiples of 2^-1074 which make 1 -/
def unit : Int := 2 ^ 1074

/-- the number denoted by a finite `double`: `± frac · 2^-1074` (subnormal) or `± (2^52 + frac) · 2^(expo - 1075)` -/
def value64 (b : BitVec 64) : Int :=
  (if sign64 b then -1 else 1) * (if expo64 b = 0 then frac64 b else (2 ^ 52 + frac64 b) * 2 ^ (expo64 b - 1))

/-- the number denoted by a finite `float`: `± frac · 2^-149` (subnormal) or `± (2^23 + frac) · 2^(expo - 150)` -/
def value32 (b : BitVec 32) : Int :=
  (if sign32 b then -1 else 1) * (if expo32 b = 0 then frac32 b else (2 ^ 23 + frac32 b) * 2 ^ (expo32 b - 1)) * 2 ^ 925

def Finite64 (b : BitVec 64) : Prop := expo64 b ≠ 2047
def Finite32 (b : BitVec 32) : Prop := expo32 b ≠ 255
def Inf64 (b : BitVec 64) : Prop := expo64 b = 2047 ∧ frac64 b = 0
def Inf32 (b : BitVec 32) : Prop := expo32 b = 255 ∧ frac32 b = 0
def NaN64 (b : BitVec 64) : Prop := expo64 b = 2047 ∧ frac64 b ≠ 0
def NaN32 (b : BitVec 32) : Prop := expo32 b = 255 ∧ frac32 b ≠ 0

/-- `f` is the `float` nearest to `x`, of two equally near ones the one with even fraction -/
def Nearest32 (x : Int) (f : BitVec 32) : Prop :=
  Finite32 f ∧ ∀ g, Finite32 g → (value32 f - x).natAbs ≤ (value32 g - x).natAbs ∧
    (value32 g ≠ value32 f → (value32 f - x).natAbs = (value32 g - x).natAbs → frac32 f % 2 = 0)

/-- `d` is the `double` nearest to `x`, of two equally near ones the one with even fraction -/
def Nearest64 (x : Int) (d : BitVec 64) : Prop :=
  Finite64 d ∧ ∀ g, Finite64 g → (value64 d - x).natAbs ≤ (value64 g - x).natAbs ∧
    (value64 g ≠ value64 d → (value64 d - x).natAbs = (value64 g - x).natAbs → frac64 d % 2 = 0)

/-- numbers which would be rounded to 2^128 or beyond if `float` had a bigger range of exponents: those at least half way
between the biggest `float` 2^128 - 2^104 and 2^128 -/
def Overflows32 (x : Int) : Prop := ((2 ^ 128 - 2 ^ 103) * 2 ^ 1074 : Nat) ≤ x.natAbs

/-- `f` is what IEEE 754 defines as the `float` for the number `x` (round to nearest, ties to even) -/
def Rounded32 (x : Int) (f : BitVec 32) : Prop := 
  (Overflows32 x → Inf32 f ∧ (sign32 f = true ↔ x < 0)) ∧ (¬ Overflows32 x → Nearest32 x f)

end Verif.Fp
