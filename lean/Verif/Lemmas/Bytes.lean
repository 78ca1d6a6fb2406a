import Mathlib.Tactic.NormNum
import Mathlib.Data.List.Induction
import Verif.Model.Bytes

/-!
# Bytes, big-endian numbers, variable-length integers
-/

namespace Verif

theorem beBytes_length (k x : Nat) : (beBytes k x).length = k := by
  induction k generalizing x with
  | zero => rfl
  | succ k ih => simp [beBytes, ih]

theorem ofBE_snoc (bs : Str) (b : UInt8) : ofBE (bs ++ [b]) = ofBE bs * 256 + b.toNat := by
  simp [ofBE, List.foldl_append]

theorem ofBE_nil : ofBE [] = 0 := rfl

theorem ofBE_beBytes (k x : Nat) : ofBE (beBytes k x) = x % 256 ^ k := by
  induction k generalizing x with
  | zero => simp [beBytes, ofBE, Nat.mod_one]
  | succ k ih =>
    rw [beBytes, ofBE_snoc, ih, UInt8.toNat_ofNat', show 256 ^ (k + 1) = 256 * 256 ^ k by rw [Nat.pow_succ, Nat.mul_comm], Nat.mod_mul]
    have : x % 256 % 2 ^ 8 = x % 256 := Nat.mod_eq_of_lt (Nat.mod_lt _ (by decide))
    rw [this]
    omega

theorem ofBE_lt (bs : Str) : ofBE bs < 256 ^ bs.length := by
  induction bs using List.reverseRecOn with
  | nil => simp [ofBE]
  | append_singleton bs b ih =>
    rw [ofBE_snoc, List.length_append, List.length_singleton, Nat.pow_succ]
    have := b.toNat_lt
    omega

theorem beBytes_ofBE (bs : Str) : beBytes bs.length (ofBE bs) = bs := by
  induction bs using List.reverseRecOn with
  | nil => rfl
  | append_singleton bs b ih =>
    rw [List.length_append, List.length_singleton, beBytes, ofBE_snoc]
    have hb := b.toNat_lt
    have h1 : (ofBE bs * 256 + b.toNat) / 256 = ofBE bs := by omega
    have h2 : (ofBE bs * 256 + b.toNat) % 256 = b.toNat := by omega
    rw [h1, h2, ih]
    simp

/-- most significant byte -/
theorem beBytes_cons (k x : Nat) : beBytes (k + 1) x = UInt8.ofNat (x / 256 ^ k % 256) :: beBytes k x := by
  induction k generalizing x with
  | zero => simp [beBytes]
  | succ k ih =>
    rw [beBytes, ih (x / 256), beBytes, List.cons_append, Nat.div_div_eq_div_mul, Nat.pow_succ, Nat.mul_comm (256 ^ k)]

theorem varintLen_some {x L : Nat} (h : varintLen x = some L) :
    1 ≤ L ∧ L ≤ 8 ∧ x < 2 ^ (7 * L) ∧ (1 < L → 2 ^ (7 * (L - 1)) ≤ x) := by
  unfold varintLen at h
  repeat' split at h
  all_goals simp only [Option.some.injEq, reduceCtorEq] at h
  all_goals subst h; norm_num at *; try omega

theorem varintLen_none {x : Nat} : varintLen x = none ↔ 2 ^ 56 ≤ x := by
  unfold varintLen
  repeat' split
  all_goals simp only [reduceCtorEq, false_iff, true_iff]
  all_goals norm_num at *; omega

theorem varintLen_isSome {x : Nat} (h : x < 2 ^ 56) : ∃ L, varintLen x = some L := by
  cases hL : varintLen x with
  | none => exact absurd (varintLen_none.1 hL) (by omega)
  | some L => exact ⟨L, rfl⟩

/-- a byte with `L - 1` leading zeros -/
theorem prefixLen_eq {L b : Nat} (h1 : 1 ≤ L) (h2 : L ≤ 8) (h3 : 2 ^ (8 - L) ≤ b) (h4 : b < 2 ^ (9 - L)) : prefixLen b = L := by
  have : L = 1 ∨ L = 2 ∨ L = 3 ∨ L = 4 ∨ L = 5 ∨ L = 6 ∨ L = 7 ∨ L = 8 := by omega
  unfold prefixLen
  rcases this with rfl | rfl | rfl | rfl | rfl | rfl | rfl | rfl <;> norm_num at h3 h4 <;> (repeat' split) <;> omega

theorem prefixLen_spec {b : Nat} (h : b < 256) (hb : b ≠ 0) :
    1 ≤ prefixLen b ∧ prefixLen b ≤ 8 ∧ 2 ^ (8 - prefixLen b) ≤ b ∧ b < 2 ^ (9 - prefixLen b) := by
  unfold prefixLen
  repeat' split
  all_goals norm_num
  all_goals omega

theorem prefixLen_zero {b : Nat} : prefixLen b > 8 ↔ b = 0 := by
  unfold prefixLen
  repeat' split
  all_goals omega

theorem prefixLen_pos (b : Nat) : 1 ≤ prefixLen b := by
  unfold prefixLen
  repeat' split
  all_goals omega

/-- the bytes of a variable-length integer -/
def varintBytes (x : Nat) : Str :=
  match varintLen x with
  | some L => beBytes L (x + 2 ^ (7 * L))
  | none => []

theorem varint_head {L x : Nat} (h1 : 1 ≤ L) (h2 : L ≤ 8) (hx : x < 2 ^ (7 * L)) :
    ∃ b bs, beBytes L (x + 2 ^ (7 * L)) = b :: bs ∧ prefixLen b.toNat = L := by
  obtain ⟨k, rfl⟩ : ∃ k, L = k + 1 := ⟨L - 1, by omega⟩
  refine ⟨_, _, beBytes_cons _ _, ?_⟩
  have hk : k = 0 ∨ k = 1 ∨ k = 2 ∨ k = 3 ∨ k = 4 ∨ k = 5 ∨ k = 6 ∨ k = 7 := by omega
  apply prefixLen_eq h1 h2 <;>
    rcases hk with rfl | rfl | rfl | rfl | rfl | rfl | rfl | rfl <;> norm_num at hx ⊢ <;> omega

theorem varint_value {L x : Nat} (hx : x < 2 ^ (7 * L)) (hL : 1 ≤ L) : ofBE (beBytes L (x + 2 ^ (7 * L))) - 2 ^ (7 * L) = x := by
  rw [ofBE_beBytes, Nat.mod_eq_of_lt]
  · omega
  · have h1 : (256 : Nat) ^ L = 2 ^ (7 * L) * 2 ^ L := by
      rw [← Nat.pow_add, show (256 : Nat) = 2 ^ 8 from rfl, ← Nat.pow_mul]; congr 1; omega
    have h2 : 2 ^ 1 ≤ 2 ^ L := Nat.pow_le_pow_right (by decide) hL
    rw [h1]
    calc x + 2 ^ (7 * L) < 2 ^ (7 * L) * 2 := by omega
      _ ≤ _ := Nat.mul_le_mul_left _ h2

theorem takeBytes_append (bs rest : Str) (s : RSt) (k : Nat) (hk : bs.length = k) :
    takeBytes k { s with inp := bs ++ rest } = .ok bs { s with inp := rest } := by
  subst hk
  simp [takeBytes]

theorem readVarint_append {L x : Nat} (h1 : 1 ≤ L) (h2 : L ≤ 8) (hx : x < 2 ^ (7 * L)) (rest : Str) (s : RSt) :
    readVarint { s with inp := beBytes L (x + 2 ^ (7 * L)) ++ rest } = .ok x { s with inp := rest } := by
  obtain ⟨b, bs, hb, hp⟩ := varint_head h1 h2 hx
  unfold readVarint
  rw [M.bind_ok (a := b.toNat) (s' := { s with inp := beBytes L (x + 2 ^ (7 * L)) ++ rest })]
  · rw [if_neg (by omega), hp, M.bind_ok (takeBytes_append _ _ _ _ (beBytes_length _ _)), varint_value hx h1]
    rfl
  · rw [hb]; rfl

theorem writeVarint_ok {x : Nat} {s s' : WSt} (h : writeVarint x s = .ok () s') :
    ∃ L, varintLen x = some L ∧ s' = { s with out := s.out ++ beBytes L (x + 2 ^ (7 * L)) } := by
  unfold writeVarint at h
  cases hL : varintLen x with
  | none => rw [hL] at h; cases h
  | some L =>
    rw [hL] at h
    cases h
    exact ⟨L, rfl, rfl⟩

end Verif
