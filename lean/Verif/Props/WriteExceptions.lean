import Verif.Lemmas.BinTemplate
import Verif.Props.IterationOrder

/-!
# Using a serializer after an exception (C88)

Writing throws if a variant is valueless or a length does not fit. The exception leaves the data written so far in the stream and the
addresses of the objects in the serializer.
-/

namespace Verif

theorem IdBytes.unique {a : Nat} {b b' : Str} (h : IdBytes a b) (h' : IdBytes a b') : b = b' := by
  cases h with
  | @short k h1 h2 h3 h4 h5 =>
    cases h' with
    | @short k' g1 g2 g3 g4 g5 =>
      have : k = k' := by
        rcases Nat.lt_trichotomy k k' with hk | rfl | hk
        · have := g5 (by omega)
          have := Nat.pow_le_pow_right (n := 2) (by decide) (show 7 * k ≤ 7 * (k' - 1) by omega)
          omega
        · rfl
        · have := h5 (by omega)
          have := Nat.pow_le_pow_right (n := 2) (by decide) (show 7 * k' ≤ 7 * (k - 1) by omega)
          omega
      rw [this]
    | long g1 g2 => omega
  | long h1 h2 =>
    cases h' with
    | short g1 => omega
    | long => rfl

theorem Renders.unique {ρ : Nat → Nat} {ps : List Piece} {d d' : Str} (h : Renders ρ ps d) (h' : Renders ρ ps d') : d = d' := by
  induction h generalizing d' with
  | nil => cases h'; rfl
  | data bs _ ih =>
    cases h' with
    | data _ h' => rw [ih h']
  | first hi _ ih =>
    cases h' with
    | first hi' h' => rw [ih h', hi.unique hi']
  | again hi _ ih =>
    cases h' with
    | again hi' h' => rw [ih h', hi.unique hi']

mutual
theorem Val.rename_id : ∀ v : Val, v.rename id = v
  | .some v => by rw [Val.rename, Val.rename_id v]
  | .ptr v => by rw [Val.rename, Val.rename_id v]
  | .ref a => rfl
  | .list vs => by rw [Val.rename, Val.renameL_id vs]
  | .map kvs => by rw [Val.rename, Val.renameKV_id kvs]
  | .tup vs => by rw [Val.rename, Val.renameL_id vs]
  | .alt i v => by rw [Val.rename, Val.rename_id v]
  | .obj fs => by rw [Val.rename, Val.renameF_id fs]
  | .indet => rfl
  | .bool _ => rfl
  | .int _ => rfl
  | .f32 _ => rfl
  | .f64 _ => rfl
  | .str _ => rfl
  | .cstr _ => rfl
  | .null => rfl
  | .valueless => rfl
  | .mono => rfl
  | .tick _ => rfl
theorem Val.renameL_id : ∀ vs : List Val, Val.renameL id vs = vs
  | [] => rfl
  | v :: vs => by rw [Val.renameL, Val.rename_id v, Val.renameL_id vs]
theorem Val.renameKV_id : ∀ vs : List (Val × Val), Val.renameKV id vs = vs
  | [] => rfl
  | (k, v) :: vs => by rw [Val.renameKV, Val.rename_id k, Val.rename_id v, Val.renameKV_id vs]
theorem Val.renameF_id : ∀ vs : List (FieldKey × Val), Val.renameF id vs = vs
  | [] => rfl
  | (k, v) :: vs => by rw [Val.renameF, Val.rename_id v, Val.renameF_id vs]
end

/-- **C88** (values sharing nothing): whatever happened to the serializer before - state `s`, in particular after exceptions -, a value
none of the shared objects of which has been touched by it is written exactly like by a new serializer; what is in the stream before stays. -/
theorem C88_unrelated_values (E : Env) (hi : VisitsAll E) (H : Heap) (n w : Nat) (t : Ty) (v : Val) (s ws : WSt)
    (hv : ∀ a, Reachable H v a → (H a).isSome = true ∧ a < 2 ^ 64 ∧ a ∉ s.seen) (hw : write E H n w t v WSt.init = .ok () ws) :
    write E H n w t v s = .ok () ⟨s.out ++ ws.out, ws.seen ++ s.seen⟩ := by
  obtain ⟨ps, d, h1, h2, -, h4⟩ := write_tmpl (E := E) (H := H) (S := Reachable H v) (hashed := true) (fun a x ha hx b hb => .step ha hx hb)
    (fun a ha => (hv a ha).2.1) n w t v (fun _ _ h => by cases h) (fun _ => hi) (fun a ha => .direct ha) WSt.init ws (fun a h => by cases h) hw
  rw [show WSt.init.out = [] from rfl, List.nil_append] at h1
  obtain ⟨d', h5, h6⟩ := h4 ⟨E, H, id, s.seen, fun a ha => (hv a ha).2.2, fun _ => ⟨fun l => by rw [Val.renameL_id, Val.renameL_id], fun l => by
    rw [Val.renameKV_id, Val.renameKV_id]⟩, ⟨rfl, rfl, rfl, rfl, rfl, rfl, rfl⟩, (fun a ha => by
      obtain ⟨x, hx⟩ := Option.isSome_iff_exists.1 (hv a ha).1
      exact ⟨x, hx, by rw [Val.rename_id]; exact hx⟩), fun _ _ _ _ h => h, fun a ha => (hv a ha).2.1⟩ s.out
  have e := h2.unique h6
  subst e
  rw [h1]
  simpa only [Val.rename_id, WSt.init, List.map_nil, List.nil_append, List.map_id] using h5

/-- **C88** (values sharing nothing, reading): so such a value can be read back by a new deserializer starting at the position where the
value starts. -/
theorem C88_unrelated_values_restored (E : Env) (hi : VisitsAll E) (H : Heap) (HT : Nat → Option Ty) (n m vw vr : Nat) (t : Ty) (p v : Val)
    (s ws : WSt) (hv : ∀ a, Reachable H v a → (H a).isSome = true ∧ a < 2 ^ 64 ∧ a ∉ s.seen) (hw : write E H n vw t v WSt.init = .ok () ws)
    (hH : ∀ ρ, HeapRepr E H HT ρ) (hr : ∀ ρ, BRepr E HT ρ vw vr t p v) (hm : n ≤ m) (rest : Str) :
    ∃ s', write E H n vw t v s = .ok () s' ∧
      ∃ ρ v' rs, read E m vr t p (RSt.init (s'.out.drop s.out.length ++ rest)) = .ok v' rs ∧ rs.inp = rest ∧ GraphCopy H v rs.asHeap v' ρ := by
  refine ⟨_, C88_unrelated_values E hi H n vw t v s ws hv hw, ?_⟩
  rw [List.drop_left]
  exact C27_read_yields_what_was_written E H HT n m vw vr t p v ws hH hr hm hw rest

/-- **C88** (what an exception leaves): if writing a shared pointer throws, the serializer takes the object for written. -/
theorem C88_exception_marks_object (E : Env) (H : Heap) (n w : Nat) (t : Ty) (a : Nat) (s s' : WSt) (e : BExc) (ha : a < 2 ^ 64)
    (h : write E H n w (.sptr t) (.ref a) s = .exc e s') : a ∉ s.seen ∧ a ∈ s'.seen := by
  cases n with
  | zero => cases h
  | succ n =>
    have hn : a ∉ s.seen := by
      intro hs
      obtain ⟨bs, -, h2, -⟩ := C34_later_occurrence E H n w 0 t .null a ha s hs
      rw [h2] at h
      cases h
    refine ⟨hn, ?_⟩
    cases hx : H a with
    | some x =>
      obtain ⟨bs, -, h2, -⟩ := C34_first_occurrence E H n w 0 t .null x a ha s hn hx
      rw [h2] at h
      have := write_appends E H n 0 t x ⟨s.out ++ (if 2 ^ 55 ≤ a then 5 else 1) :: bs, a :: s.seen⟩
      rw [h] at this
      exact this.2.subset List.mem_cons_self
    | none =>
      exfalso
      have h : sharedWrite a M.ub s = .exc e s' := by
        simpa only [write, writeStep, hx, sharedWrite] using h
      obtain ⟨bs, -, hb⟩ := writeId_ok a ha { s with out := s.out ++ [UInt8.ofNat (sptrMode false (bigId a))] }
      unfold sharedWrite at h
      rw [M.bind_ok (a := false) (s' := s) (by simp [alreadyWritten, hn])] at h
      have h : (writeId a >>= fun _ => if false = true then pure () else do markWritten a; M.ub)
        { s with out := s.out ++ [UInt8.ofNat (sptrMode false (bigId a))] } = .exc e s' := h
      rw [M.bind_ok hb] at h
      cases h

/-- **C88** (limit: trying again): if writing a shared pointer has thrown, then writing a pointer to the same object with the same serializer
again - after having repaired the object and whether or not the stream has been reset (`H2`, `out2`) - succeeds but writes a reference only;
and unless the deserializer has read an object of that type and identifier elsewhere, reading this throws. -/
theorem C88_limit_trying_again (E : Env) (H : Heap) (n w : Nat) (t : Ty) (a : Nat) (s s' : WSt) (e : BExc) (ha : a < 2 ^ 64)
    (h : write E H n w (.sptr t) (.ref a) s = .exc e s') :
    ∃ d : Str, (∀ H2 m w2 t2 out2, write E H2 (m + 1) w2 (.sptr t2) (.ref a) ⟨out2, s'.seen⟩ = .ok () ⟨out2 ++ d, s'.seen⟩) ∧
      ∀ E2 m w2 t2 p rest (rs : RSt), rs.inp = d ++ rest → (∀ addr, rs.table.lookup a ≠ some (t2, addr)) →
        read E2 (m + 1) w2 (.sptr t2) p rs = .exc .conv { rs with inp := rest } := by
  have hm := (C88_exception_marks_object E H n w t a s s' e ha h).2
  obtain ⟨bs, hb, -, -⟩ := C34_later_occurrence E H 0 0 0 t .null a ha s' hm
  refine ⟨(if 2 ^ 55 ≤ a then 6 else 2) :: bs, fun H2 m w2 t2 out2 => ?_, fun E2 m w2 t2 p rest rs hi hl => ?_⟩
  · obtain ⟨bs', hb', h2, -⟩ := C34_later_occurrence E H2 m w2 0 t2 .null a ha ⟨out2, s'.seen⟩ hm
    rw [h2, hb.unique hb']
  · refine C33_bad_reference_throws E2 m w2 t2 p (if 2 ^ 55 ≤ a then 6 else 2) a bs rest rs ?_ ?_ ?_ hi hl
    · split <;> decide
    · split <;> decide
    · cases hb with
      | @short k h1 h2 h3 h4 h5 =>
        have hk : ¬ 2 ^ 55 ≤ a := by omega
        simp only [hk, if_false]
        rw [if_neg (by decide)]
        exact ⟨k, h2, h3, h4, rfl⟩
      | long h1 h2 =>
        simp only [h1, if_true]
        rw [if_pos (by decide)]
        exact ⟨beBytes_length _ _, (ofBE_beBytes8 h2).symm⟩

/-! ### examples -/

namespace WriteExceptionsDemo
open Demo OrderDemo

/-- a variant the content of which has been lost, then repaired, and another object -/
def broken : Heap := fun a => if a = 7 then some .valueless else if a = 8 then some (.alt 0 (.int 6)) else none
def repaired : Heap := fun a => if a = 7 then some (.alt 0 (.int 5)) else if a = 8 then some (.alt 0 (.int 6)) else none

def ptrTy : Ty := .sptr (.variant [.int .i32])

theorem thrown : write env broken 3 0 ptrTy (.ref 7) WSt.init = .exc .badVariant ⟨[1, 0x87, 255], [7]⟩ := by decide +kernel

/-- the stream has been emptied, the object has been repaired: a reference only -/
example : ∃ d : Str, write env repaired 3 0 ptrTy (.ref 7) ⟨[], [7]⟩ = .ok () ⟨d, [7]⟩ ∧
    read env 3 0 ptrTy .null (RSt.init d) = .exc .conv (RSt.init []) := by
  obtain ⟨d, h1, h2⟩ := C88_limit_trying_again env broken 3 0 _ 7 WSt.init _ _ (by decide) thrown
  exact ⟨d, h1 repaired 2 0 _ [], h2 env 2 0 _ .null [] (RSt.init d) (by simp [RSt.init]) (by simp [RSt.init])⟩

/-- a new serializer writes the object -/
example : write env repaired 4 0 ptrTy (.ref 7) WSt.init = .ok () ⟨[1, 0x87, 0, 0, 0, 0, 5], [7]⟩ := by decide +kernel

/-- another object is written as usual -/
example : write env broken 4 0 ptrTy (.ref 8) ⟨[1, 0x87, 255], [7]⟩ = .ok () ⟨[1, 0x87, 255, 1, 0x88, 0, 0, 0, 0, 6], [8, 7]⟩ := by
  refine C88_unrelated_values env all_env broken 4 0 ptrTy (.ref 8) ⟨[1, 0x87, 255], [7]⟩ ⟨[1, 0x88, 0, 0, 0, 0, 6], [8]⟩ ?_ (by decide +kernel)
  intro a ha
  have : a = 8 := by
    induction ha with
    | direct h => simpa [Val.refs] using h
    | step _ hx hb ih =>
      subst ih
      cases hx
      cases hb
  subst this
  exact ⟨rfl, by decide, by decide⟩

end WriteExceptionsDemo

end Verif
