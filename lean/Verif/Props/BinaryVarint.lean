import Verif.Lemmas.Bytes
import Verif.Demo
import Mathlib.Tactic.Ring

/-!
# C26: variable-length integers
-/

namespace Verif

/-- **C26**: every integer below 2^56 is written in the minimal number of bytes and read back exactly, consuming exactly these
bytes, whatever follows. -/
theorem C26_varint_round_trip (x : Nat) (hx : x < 2 ^ 56) (ws : WSt) :
    ∃ bytes : Str, writeVarint x ws = .ok () { ws with out := ws.out ++ bytes } ∧
      1 ≤ bytes.length ∧ bytes.length ≤ 8 ∧ x < 2 ^ (7 * bytes.length) ∧
      (∀ m, 1 ≤ m → m < bytes.length → 2 ^ (7 * m) ≤ x) ∧
      ∀ (rs : RSt) (rest : Str), rs.inp = bytes ++ rest → readVarint rs = .ok x { rs with inp := rest } := by
  obtain ⟨L, hL⟩ := varintLen_isSome hx
  obtain ⟨h1, h2, h3, h4⟩ := varintLen_some hL
  refine ⟨beBytes L (x + 2 ^ (7 * L)), ?_, ?_, ?_, ?_, ?_, ?_⟩
  · simp [writeVarint, hL, emit]
  · rwa [beBytes_length]
  · rwa [beBytes_length]
  · rwa [beBytes_length]
  · intro m hm hm'
    rw [beBytes_length] at hm'
    exact (Nat.pow_le_pow_right (by decide) (by omega)).trans (h4 (by omega))
  · intro rs rest h
    have := readVarint_append h1 h2 h3 rest rs
    rwa [← h] at this

/-- **C26**: larger integers throw a `ConversionException` and nothing is written. -/
theorem C26_varint_too_large (x : Nat) (hx : 2 ^ 56 ≤ x) (ws : WSt) : writeVarint x ws = .exc .conv ws := by
  simp [writeVarint, varintLen_none.2 hx]

/-- **C26**: a first byte of zero throws a `ConversionException`. -/
theorem C26_varint_zero_byte (rest : Str) (rs : RSt) (h : rs.inp = 0 :: rest) : readVarint rs = .exc .conv rs := by
  unfold readVarint
  rw [M.bind_ok (a := 0) (s' := rs)]
  · rfl
  · simp [peekByte, h]

/-- **C26**: what is read from any other sequence of bytes. The position of the highest set bit of the first byte gives the
number of bytes `L`; the value is given by the bits behind it. If there are fewer bytes, reading throws. -/
theorem C26_varint_read_any (b : UInt8) (L : Nat) (hL : 1 ≤ L ∧ L ≤ 8) (hb : 2 ^ (8 - L) ≤ b.toNat ∧ b.toNat < 2 ^ (9 - L))
    (bs rest : Str) (rs : RSt) :
    (bs.length = L - 1 → rs.inp = b :: bs ++ rest →
      readVarint rs = .ok ((b.toNat - 2 ^ (8 - L)) * 256 ^ (L - 1) + ofBE bs) { rs with inp := rest }) ∧
    (bs.length < L - 1 → rs.inp = b :: bs → ∃ rs', readVarint rs = .exc .eof rs') := by
  have hp := prefixLen_eq hL.1 hL.2 hb.1 hb.2
  constructor
  · intro hl hi
    unfold readVarint
    have h1 : peekByte rs = .ok b.toNat rs := by simp [peekByte, hi]
    rw [M.bind_ok h1, if_neg (by omega), hp]
    have h2 : takeBytes L rs = .ok (b :: bs) { rs with inp := rest } := by
      have := takeBytes_append (b :: bs) rest rs L (by simp; omega)
      rwa [← hi] at this
    rw [M.bind_ok h2]
    have h3 : ofBE (b :: bs) = b.toNat * 256 ^ (L - 1) + ofBE bs := by
      rw [← hl]
      clear hi hl h2 h1
      induction bs using List.reverseRecOn with
      | nil => simp [ofBE]
      | append_singleton bs c ih =>
        rw [← List.cons_append, ofBE_snoc, ofBE_snoc, ih, List.length_append, List.length_singleton, Nat.pow_succ]
        ring
    have h4 : 2 ^ (7 * L) = 2 ^ (8 - L) * 256 ^ (L - 1) := by
      rw [show (256 : Nat) = 2 ^ 8 from rfl, ← Nat.pow_mul, ← Nat.pow_add]
      congr 1
      omega
    show Res.ok _ _ = _
    rw [h3, h4, Nat.sub_mul]
    congr 1
    have := Nat.mul_le_mul_right (256 ^ (L - 1)) hb.1
    omega
  · intro hl hi
    unfold readVarint
    have h1 : peekByte rs = .ok b.toNat rs := by simp [peekByte, hi]
    rw [M.bind_ok h1, if_neg (by omega), hp]
    refine ⟨{ rs with inp := [] }, ?_⟩
    rw [M.bind_exc]
    rw [takeBytes, if_neg]
    rw [hi, List.length_cons]
    omega

/-- **C26**: there is something to read a number from only if there is at least one byte. -/
theorem C26_varint_empty (rs : RSt) (h : rs.inp = []) : ∃ rs', readVarint rs = .exc .eof rs' := by
  refine ⟨rs, ?_⟩
  unfold readVarint
  rw [M.bind_exc]
  simp [peekByte, h]

-- concrete cases: 300 takes two bytes; 300 is also accepted in a non-minimal encoding of three bytes
example : writeVarint 300 ⟨[], []⟩ = .ok () ⟨[0x41, 0x2c], []⟩ := by decide
example : readVarint ⟨[0x41, 0x2c, 7], [], []⟩ = .ok 300 ⟨[7], [], []⟩ := rfl
example : readVarint ⟨[0x20, 0x01, 0x2c, 7], [], []⟩ = .ok 300 ⟨[7], [], []⟩ := rfl
example : (2 : Nat) ^ (8 - 2) ≤ (0x41 : UInt8).toNat ∧ (0x41 : UInt8).toNat < 2 ^ (9 - 2) := by decide

end Verif
