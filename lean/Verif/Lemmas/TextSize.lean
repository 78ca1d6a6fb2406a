import Verif.Spec.OutputSize
import Verif.Spec.JsonCost
import Verif.Model.Text

/-!
# Lemmas: length of JSON text
-/

namespace Verif

theorem decimal_length {k n : Nat} (h : n < 10 ^ (k + 1)) : (decimal n).length ≤ k + 1 := by
  induction k generalizing n with
  | zero =>
    unfold decimal
    rw [if_pos (by simpa using h)]
    exact Nat.le_refl _
  | succ k ih =>
    unfold decimal
    split
    · simp
    · rw [List.length_append]
      have : n / 10 < 10 ^ (k + 1) := by
        rw [Nat.div_lt_iff_lt_mul (by omega)]
        rw [Nat.pow_succ] at h
        exact h
      have := ih this
      simp only [List.length_singleton]
      omega

theorem writeInt_length {i : Int} (h1 : -2 ^ 63 ≤ i) (h2 : i < 2 ^ 64) : (writeInt i).length ≤ 21 := by
  have := decimal_length (k := 19) (n := i.natAbs) (by omega)
  unfold writeInt
  split
  · simp only [List.length_cons]; omega
  · omega

theorem escapeByte_length (c : UInt8) : (escapeByte c).length ≤ 6 := by
  unfold escapeByte
  repeat' split
  all_goals simp

theorem writeString_length (s : Str) : (writeString s).length ≤ 6 * s.length + 2 := by
  have : (s.flatMap escapeByte).length ≤ 6 * s.length := by
    induction s with
    | nil => simp
    | cons c s ih =>
      rw [List.flatMap_cons, List.length_append, List.length_cons]
      have := escapeByte_length c
      omega
  unfold writeString
  simp only [List.length_cons, List.length_append, List.length_nil]
  omega

mutual
theorem printV_length (D : Dbl) (hD : ∀ d, (D.print d).length ≤ 25) (j : Json) (hj : j.IntsFit) :
    (printV D j).1.length + 1 ≤ 26 * j.volume := by
  cases j with
  | null => simp only [printV, Json.volume]; decide +kernel
  | bool b => cases b <;> simp only [printV, Json.volume] <;> decide +kernel
  | num m =>
    cases m with
    | int i =>
      have := writeInt_length hj.1 hj.2
      simp only [printV, Json.volume]
      omega
    | dbl d =>
      have := hD d
      simp only [printV, Json.volume]
      split
      · dsimp only; omega
      · simp
  | str s =>
    have := writeString_length s
    simp only [printV, Json.volume]
    omega
  | arr js =>
    have := printItems_length D hD js hj
    simp only [printV, Json.volume]
    split
    · simp only [List.length_cons, List.length_append, List.length_nil]; omega
    · simp only [List.length_cons]; omega
  | obj ms =>
    have := printMembers_length D hD ms hj
    simp only [printV, Json.volume]
    split
    · simp only [List.length_cons, List.length_append, List.length_nil]; omega
    · simp only [List.length_cons]; omega

theorem printItems_length (D : Dbl) (hD : ∀ d, (D.print d).length ≤ 25) (js : List Json) (hj : Json.IntsFitL js) :
    (printItems D js).1.length ≤ 26 * Json.volumeL js := by
  cases js with
  | nil => simp [printItems]
  | cons j js =>
    have h1 := printV_length D hD j hj.1
    have h2 := printItems_length D hD js hj.2
    simp only [printItems, Json.volumeL]
    split
    · dsimp only; omega
    · split
      · dsimp only; omega
      · simp only [List.length_append, List.length_cons]; omega

theorem printMembers_length (D : Dbl) (hD : ∀ d, (D.print d).length ≤ 25) (ms : List (Key × Json)) (hj : Json.IntsFitM ms) :
    (printMembers D ms).1.length ≤ 26 * Json.volumeM ms := by
  cases ms with
  | nil => simp [printMembers]
  | cons m ms =>
    obtain ⟨k, j⟩ := m
    have h1 := printV_length D hD j hj.1
    have h2 := printMembers_length D hD ms hj.2
    have h3 := writeString_length k.bytes
    simp only [printMembers, Json.volumeM]
    split
    · simp only [List.length_append, List.length_cons]; omega
    · split
      · simp only [List.length_append, List.length_cons]; omega
      · simp only [List.length_append, List.length_cons]; omega
end

end Verif
