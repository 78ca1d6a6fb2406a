import Verif.Model.Binary

/-!
# Comparing values (for examples only)
-/

namespace Verif

mutual
/-- structural comparison -/
def Val.eqb : Val → Val → Bool
  | .indet, .indet => true
  | .bool a, .bool b => decide (a = b)
  | .int a, .int b => decide (a = b)
  | .f32 a, .f32 b => decide (a = b)
  | .f64 a, .f64 b => decide (a = b)
  | .str a, .str b => decide (a = b)
  | .cstr a, .cstr b => decide (a = b)
  | .null, .null => true
  | .some a, .some b => a.eqb b
  | .ptr a, .ptr b => a.eqb b
  | .ref a, .ref b => decide (a = b)
  | .list a, .list b => Val.eqbL a b
  | .map a, .map b => Val.eqbKV a b
  | .tup a, .tup b => Val.eqbL a b
  | .alt i a, .alt j b => decide (i = j) && a.eqb b
  | .valueless, .valueless => true
  | .mono, .mono => true
  | .obj a, .obj b => Val.eqbF a b
  | .tick a, .tick b => decide (a = b)
  | _, _ => false
def Val.eqbL : List Val → List Val → Bool
  | [], [] => true
  | a :: as, b :: bs => a.eqb b && Val.eqbL as bs
  | _, _ => false
def Val.eqbKV : List (Val × Val) → List (Val × Val) → Bool
  | [], [] => true
  | (a, a') :: as, (b, b') :: bs => a.eqb b && a'.eqb b' && Val.eqbKV as bs
  | _, _ => false
def Val.eqbF : List (FieldKey × Val) → List (FieldKey × Val) → Bool
  | [], [] => true
  | (a, a') :: as, (b, b') :: bs => decide (a = b) && a'.eqb b' && Val.eqbF as bs
  | _, _ => false
end

mutual
theorem Val.eq_of_eqb (a b : Val) (h : a.eqb b = true) : a = b := by
  match a, b with
  | .indet, b => cases b <;> simp_all [Val.eqb]
  | .bool _, b => cases b <;> simp_all [Val.eqb]
  | .int _, b => cases b <;> simp_all [Val.eqb]
  | .f32 _, b => cases b <;> simp_all [Val.eqb]
  | .f64 _, b => cases b <;> simp_all [Val.eqb]
  | .str _, b => cases b <;> simp_all [Val.eqb]
  | .cstr _, b => cases b <;> simp_all [Val.eqb]
  | .null, b => cases b <;> simp_all [Val.eqb]
  | .ref _, b => cases b <;> simp_all [Val.eqb]
  | .valueless, b => cases b <;> simp_all [Val.eqb]
  | .mono, b => cases b <;> simp_all [Val.eqb]
  | .tick _, b => cases b <;> simp_all [Val.eqb]
  | .some a, .some b => rw [Val.eq_of_eqb a b (by simpa [Val.eqb] using h)]
  | .ptr a, .ptr b => rw [Val.eq_of_eqb a b (by simpa [Val.eqb] using h)]
  | .alt i a, .alt j b =>
    simp only [Val.eqb, Bool.and_eq_true, decide_eq_true_eq] at h
    rw [h.1, Val.eq_of_eqb a b h.2]
  | .list a, .list b => rw [Val.eq_of_eqbL a b (by simpa [Val.eqb] using h)]
  | .tup a, .tup b => rw [Val.eq_of_eqbL a b (by simpa [Val.eqb] using h)]
  | .map a, .map b => rw [Val.eq_of_eqbKV a b (by simpa [Val.eqb] using h)]
  | .obj a, .obj b => rw [Val.eq_of_eqbF a b (by simpa [Val.eqb] using h)]
  | .some a, .indet | .some a, .bool _ | .some a, .int _ | .some a, .f32 _ | .some a, .f64 _ | .some a, .str _ | .some a, .cstr _
  | .some a, .null | .some a, .ptr _ | .some a, .ref _ | .some a, .list _ | .some a, .map _ | .some a, .tup _ | .some a, .alt _ _
  | .some a, .valueless | .some a, .mono | .some a, .obj _ | .some a, .tick _ => simp [Val.eqb] at h
  | .ptr a, .indet | .ptr a, .bool _ | .ptr a, .int _ | .ptr a, .f32 _ | .ptr a, .f64 _ | .ptr a, .str _ | .ptr a, .cstr _
  | .ptr a, .null | .ptr a, .some _ | .ptr a, .ref _ | .ptr a, .list _ | .ptr a, .map _ | .ptr a, .tup _ | .ptr a, .alt _ _
  | .ptr a, .valueless | .ptr a, .mono | .ptr a, .obj _ | .ptr a, .tick _ => simp [Val.eqb] at h
  | .alt _ a, .indet | .alt _ a, .bool _ | .alt _ a, .int _ | .alt _ a, .f32 _ | .alt _ a, .f64 _ | .alt _ a, .str _ | .alt _ a, .cstr _
  | .alt _ a, .null | .alt _ a, .some _ | .alt _ a, .ref _ | .alt _ a, .list _ | .alt _ a, .map _ | .alt _ a, .tup _ | .alt _ a, .ptr _
  | .alt _ a, .valueless | .alt _ a, .mono | .alt _ a, .obj _ | .alt _ a, .tick _ => simp [Val.eqb] at h
  | .list a, .indet | .list a, .bool _ | .list a, .int _ | .list a, .f32 _ | .list a, .f64 _ | .list a, .str _ | .list a, .cstr _
  | .list a, .null | .list a, .some _ | .list a, .ref _ | .list a, .ptr _ | .list a, .map _ | .list a, .tup _ | .list a, .alt _ _
  | .list a, .valueless | .list a, .mono | .list a, .obj _ | .list a, .tick _ => simp [Val.eqb] at h
  | .map a, .indet | .map a, .bool _ | .map a, .int _ | .map a, .f32 _ | .map a, .f64 _ | .map a, .str _ | .map a, .cstr _
  | .map a, .null | .map a, .some _ | .map a, .ref _ | .map a, .ptr _ | .map a, .list _ | .map a, .tup _ | .map a, .alt _ _
  | .map a, .valueless | .map a, .mono | .map a, .obj _ | .map a, .tick _ => simp [Val.eqb] at h
  | .tup a, .indet | .tup a, .bool _ | .tup a, .int _ | .tup a, .f32 _ | .tup a, .f64 _ | .tup a, .str _ | .tup a, .cstr _
  | .tup a, .null | .tup a, .some _ | .tup a, .ref _ | .tup a, .ptr _ | .tup a, .list _ | .tup a, .map _ | .tup a, .alt _ _
  | .tup a, .valueless | .tup a, .mono | .tup a, .obj _ | .tup a, .tick _ => simp [Val.eqb] at h
  | .obj a, .indet | .obj a, .bool _ | .obj a, .int _ | .obj a, .f32 _ | .obj a, .f64 _ | .obj a, .str _ | .obj a, .cstr _
  | .obj a, .null | .obj a, .some _ | .obj a, .ref _ | .obj a, .ptr _ | .obj a, .list _ | .obj a, .map _ | .obj a, .alt _ _
  | .obj a, .valueless | .obj a, .mono | .obj a, .tup _ | .obj a, .tick _ => simp [Val.eqb] at h
theorem Val.eq_of_eqbL (a b : List Val) (h : Val.eqbL a b = true) : a = b := by
  match a, b with
  | [], [] => rfl
  | [], _ :: _ => simp [Val.eqbL] at h
  | _ :: _, [] => simp [Val.eqbL] at h
  | x :: xs, y :: ys =>
    simp only [Val.eqbL, Bool.and_eq_true] at h
    rw [Val.eq_of_eqb x y h.1, Val.eq_of_eqbL xs ys h.2]
theorem Val.eq_of_eqbKV (a b : List (Val × Val)) (h : Val.eqbKV a b = true) : a = b := by
  match a, b with
  | [], [] => rfl
  | [], _ :: _ => simp [Val.eqbKV] at h
  | _ :: _, [] => simp [Val.eqbKV] at h
  | (x, x') :: xs, (y, y') :: ys =>
    simp only [Val.eqbKV, Bool.and_eq_true] at h
    rw [Val.eq_of_eqb x y h.1.1, Val.eq_of_eqb x' y' h.1.2, Val.eq_of_eqbKV xs ys h.2]
theorem Val.eq_of_eqbF (a b : List (FieldKey × Val)) (h : Val.eqbF a b = true) : a = b := by
  match a, b with
  | [], [] => rfl
  | [], _ :: _ => simp [Val.eqbF] at h
  | _ :: _, [] => simp [Val.eqbF] at h
  | (x, x') :: xs, (y, y') :: ys =>
    simp only [Val.eqbF, Bool.and_eq_true, decide_eq_true_eq] at h
    rw [h.1.1, Val.eq_of_eqb x' y' h.1.2, Val.eq_of_eqbF xs ys h.2]
end

end Verif
