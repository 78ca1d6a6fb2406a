import Verif.Model.Basic

/-!
# IEEE 754 conversions

The conversions between integers, `float` and `double` the C++ code performs (`static_cast` and RapidJSON's `GetDouble`,
`SetFloat`), on bit patterns, with round-to-nearest-even. NaNs are quieted by conversions (as x86-64 does).
-/

namespace Verif.Ieee

/-- `n / 2^s` rounded to nearest, ties to even -/
def roundShift (n s : Nat) : Nat :=
  let q := n / 2 ^ s
  let r := n % 2 ^ s
  if 2 * r > 2 ^ s ∨ (2 * r = 2 ^ s ∧ q % 2 = 1) then q + 1 else q

/-- bits of the `double` nearest to the natural number `a < 2^64` (`a ≠ 0`); an overflow of the significand into the next
binade carries over into the exponent field -/
def natBits (a : Nat) : Nat :=
  let p := a.log2
  if p ≤ 52 then (p + 1022) * 2 ^ 52 + a * 2 ^ (52 - p)
  else (p + 1022) * 2 ^ 52 + roundShift a (p - 52)

/-- `static_cast<double>(i)` for 64-bit integers -/
def ofInt (i : Int) : BitVec 64 :=
  if i = 0 then 0
  else BitVec.ofNat 64 ((if i < 0 then 2 ^ 63 else 0) + natBits i.natAbs)

/-- biased exponent and significand field of a `double` -/
def exp64 (b : BitVec 64) : Nat := b.toNat / 2 ^ 52 % 2 ^ 11
def man64 (b : BitVec 64) : Nat := b.toNat % 2 ^ 52
def neg64 (b : BitVec 64) : Bool := decide (2 ^ 63 ≤ b.toNat)

/-- integral part of the magnitude of a finite `double` -/
def truncAbs (b : BitVec 64) : Nat :=
  let e := exp64 b
  let m := if e = 0 then man64 b else 2 ^ 52 + man64 b
  if 1075 ≤ e then m * 2 ^ (e - 1075) else m / 2 ^ (1075 - max e 1)

/-- a finite `double` truncated towards zero; `none` for infinities and NaN -/
def trunc (b : BitVec 64) : Option Int :=
  if exp64 b = 2047 then none
  else some (if neg64 b then -(truncAbs b : Int) else truncAbs b)

def isFinite (b : BitVec 64) : Bool := exp64 b ≠ 2047

def exp32 (b : BitVec 32) : Nat := b.toNat / 2 ^ 23 % 2 ^ 8
def man32 (b : BitVec 32) : Nat := b.toNat % 2 ^ 23
def neg32 (b : BitVec 32) : Bool := decide (2 ^ 31 ≤ b.toNat)

/-- a `float` NaN -/
def isNaN32 (b : BitVec 32) : Bool := exp32 b = 255 ∧ man32 b ≠ 0

/-- magnitude bits of `static_cast<double>(f)` -/
def widenAbs (e m : Nat) : Nat :=
  if e = 255 then 2047 * 2 ^ 52 + (if m = 0 then 0 else if m < 2 ^ 22 then m * 2 ^ 29 + 2 ^ 51 else m * 2 ^ 29)
  else if e = 0 then
    if m = 0 then 0 else (m.log2 + 873) * 2 ^ 52 + m * 2 ^ (52 - m.log2)
  else (e + 896) * 2 ^ 52 + m * 2 ^ 29

/-- `static_cast<double>(f)` -/
def widen (b : BitVec 32) : BitVec 64 :=
  BitVec.ofNat 64 ((if neg32 b then 2 ^ 63 else 0) + widenAbs (exp32 b) (man32 b))

/-- magnitude bits of `static_cast<float>(d)` -/
def narrowAbs (e m : Nat) : Nat :=
  if e = 2047 then 255 * 2 ^ 23 + (if m = 0 then 0 else if m / 2 ^ 29 < 2 ^ 22 then m / 2 ^ 29 + 2 ^ 22 else m / 2 ^ 29)
  else if e = 0 then 0
  else if 897 ≤ e then
    let r := (e - 897) * 2 ^ 23 + roundShift (2 ^ 52 + m) 29
    if 255 * 2 ^ 23 ≤ r then 255 * 2 ^ 23 else r
  else roundShift (2 ^ 52 + m) (926 - e)

/-- `static_cast<float>(d)` -/
def narrow (b : BitVec 64) : BitVec 32 :=
  BitVec.ofNat 32 ((if neg64 b then 2 ^ 31 else 0) + narrowAbs (exp64 b) (man64 b))

/-! Tests against known bit patterns (not proofs). -/
example : ofInt 1 = 0x3ff0000000000000 := by decide
example : ofInt (-3) = 0xc008000000000000 := by decide
example : ofInt (2 ^ 53 + 1) = 0x4340000000000000 := by decide
example : ofInt (2 ^ 64 - 1) = 0x43f0000000000000 := by decide
example : trunc 0xc00c000000000000 = some (-3) := by decide  -- -3.5
example : trunc 0x3fe0000000000000 = some 0 := by decide  -- 0.5
example : trunc 0x7ff0000000000000 = none := by decide
example : widen 0x40490fdb = 0x400921fb60000000 := by decide  -- pi
example : widen 1 = 0x36a0000000000000 := by decide  -- smallest subnormal
example : narrow 0x400921fb54442d18 = 0x40490fdb := by decide
example : narrow 0x7fefffffffffffff = 0x7f800000 := by decide
example : narrow 0x36a0000000000000 = 1 := by decide

end Verif.Ieee
