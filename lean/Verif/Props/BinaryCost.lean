import Verif.Lemmas.BinCost
import Verif.Lemmas.BinConv
import Verif.Props.BinaryVarint
import Verif.Props.Streams

/-!
# C70: resources needed for reading binary data

The recursion budget of the model is the depth of nested `read` calls, so `… ≠ .fuel` says that this depth suffices.
-/

namespace Verif

/-- **C70** (call depth): reading an object never needs more nested calls than a constant of its type for each remaining byte of the
input (plus that constant), whatever the bytes are and whether or not reading is successful. `S` are the types of the objects which
are read. -/
theorem C70_call_depth (E : Env) (S : Ty → Prop) (hS : ClosedTypes E S) (H : ClassId → Nat) (hH : NestingDepth E H) (B : Nat)
    (hB : ∀ t, S t → t.nesting H ≤ B) (n version : Nat) (t : Ty) (ht : S t) (p : Val) (s : RSt)
    (hn : s.inp.length * (B + 1) + B < n) : read E n version t p s ≠ .fuel :=
  read_depth hS hH hB n s.inp.length version t p ht (by have := hB t ht; omega) s (Nat.le_refl _)

/-- **C70** (call depth) for `restoreFromBinary` and `fromBinary` -/
theorem C70_call_depth_restoreFromBinary (E : Env) (S : Ty → Prop) (hS : ClosedTypes E S) (H : ClassId → Nat)
    (hH : NestingDepth E H) (B : Nat) (hB : ∀ t, S t → t.nesting H ≤ B) (c : ClassId) (hc : S (.cls c)) (n : Nat) (inp : Str)
    (hn : inp.length * (B + 1) + B ≤ n) :
    (∀ p, restoreFromBinary E n c p inp ≠ .fuel) ∧ fromBinary E n c inp ≠ .fuel := by
  have key : ∀ p, restoreFromBinary E n c p inp ≠ .fuel := fun p h => by
    have := C70_call_depth E S hS H hH B hB (n + 1) 0 (.cls c) hc p (RSt.init inp)
      (Nat.lt_succ_of_le (by exact hn))
    apply this
    unfold restoreFromBinary at h
    change readStep E (read E n) 0 (.cls c) p _ = _
    simp only [readStep]
    cases hc : E.cls c with
    | none => rw [hc] at h; cases h
    | some ci =>
      rw [hc] at h
      exact M.bind_fuel (m := readClass (read E n) ci 0 p) h
  refine ⟨key, fun h => ?_⟩
  unfold fromBinary at h
  generalize hr : restoreFromBinary E n c (E.defInit (.cls c)) inp = r at h
  cases r <;> first | exact key _ hr | cases h

/-- **C70** (memory): if containers have only elements which take at least one byte, then what the read object and the shared objects
contain (bytes of strings, elements, owned objects) exceeds what the object contained before by at most `2 * C` per byte which has
been read, where `C` bounds the size of newly created objects. -/
theorem C70_memory (E : Env) (S : Ty → Prop) (hS : ClosedTypes E S) (C : Nat) (hC : NewObjectsUpTo E S C)
    (hE : ∀ t, S t → ∀ t' ∈ t.element, NeedsInput E t') (n version : Nat) (t : Ty) (ht : S t) (p v : Val) (s s' : RSt)
    (h : read E n version t p s = .ok v s') :
    s'.inp.length ≤ s.inp.length ∧
    Val.amountL s'.heap + v.amount ≤ Val.amountL s.heap + p.amount + 2 * C * (s.inp.length - s'.inp.length) := by
  have hl : s'.inp.length ≤ s.inp.length := by
    obtain ⟨used, hu, -⟩ := framed_closed.read E n version t p s v s' h
    rw [hu, List.length_append]
    omega
  have := read_cost hS hC hE n version t p ht s v s' h
  simp only [potential] at this
  refine ⟨hl, ?_⟩
  rw [Nat.mul_sub]
  have := Nat.mul_le_mul_left (2 * C) hl
  omega

/-- **C70** (memory) for `restoreFromBinary` and `fromBinary` -/
theorem C70_memory_restoreFromBinary (E : Env) (S : Ty → Prop) (hS : ClosedTypes E S) (C : Nat) (hC : NewObjectsUpTo E S C)
    (hE : ∀ t, S t → ∀ t' ∈ t.element, NeedsInput E t') (n : Nat) (c : ClassId) (hc : S (.cls c)) (inp : Str) :
    (∀ p v version s, restoreFromBinary E n c p inp = .ok (v, version) s →
      Val.amountL s.heap + v.amount ≤ p.amount + 2 * C * inp.length) ∧
    (∀ v s, fromBinary E n c inp = .ok v s → Val.amountL s.heap + v.amount ≤ C + 2 * C * inp.length) := by
  have key : ∀ p v version s, restoreFromBinary E n c p inp = .ok (v, version) s →
      Val.amountL s.heap + v.amount ≤ p.amount + 2 * C * inp.length := by
    intro p v version s h
    have hr : read E (n + 1) 0 (.cls c) p (RSt.init inp) = .ok v s := by
      unfold restoreFromBinary at h
      change readStep E (read E n) 0 (.cls c) p _ = _
      simp only [readStep]
      cases hc : E.cls c with
      | none => rw [hc] at h; cases h
      | some ci =>
        rw [hc] at h
        exact (M.bind_ok (m := readClass (read E n) ci 0 p) h).trans rfl
    have := (C70_memory E S hS C hC hE (n + 1) 0 (.cls c) hc p v _ s hr).2
    have h2 : 2 * C * ((RSt.init inp).inp.length - s.inp.length) ≤ 2 * C * inp.length :=
      Nat.mul_le_mul_left _ (Nat.sub_le _ _)
    have h3 : Val.amountL (RSt.init inp).heap = 0 := rfl
    omega
  refine ⟨key, fun v s h => ?_⟩
  unfold fromBinary at h
  generalize hr : restoreFromBinary E n c (E.defInit (.cls c)) inp = r at h
  cases r with
  | ok r s0 =>
    cases h
    have := key _ r.1 r.2 _ hr
    have := (hC (.cls c) hc).2
    omega
  | _ => cases h

/-! ## the bounds are attained -/

open Demo

/-- **C70** (limits): the depth is indeed proportional to the length of the input: reading a singly linked list of `k` items, which
takes `k + 1` bytes, needs more than `2 * k` nested calls (and one more suffices). Hence untrusted input can exhaust the stack. -/
theorem C70_depth_attained (n k : Nat) :
    restoreFromBinary listEnv n 0 (.obj [(fNext.key, .null)]) (List.replicate k 1 ++ [0]) = .fuel ↔ n ≤ 2 * k := by
  have hstep : ∀ n w inp, readClass (read listEnv n) item w (.obj [(fNext.key, .null)]) (RSt.init inp) =
      (do let v ← read listEnv n w (.uptr (.cls 0)) .null; pure (Val.obj [(fNext.key, v)], w)) (RSt.init inp) := by
    intro n w inp
    unfold readClass
    rw [if_neg (by simp [item])]
    refine (M.bind_ok (a := Val.obj [(fNext.key, .null)]) rfl).trans ?_
    refine (M.bind_ok (a := w) rfl).trans ?_
    change ((read listEnv n w (.uptr (.cls 0)) .null >>= fun v => pure ([(fNext.key, v)] : Store)) >>= fun st => pure (Val.obj st, w)) _ = _
    simp only [M.bind_apply]
    cases read listEnv n w (.uptr (.cls 0)) .null (RSt.init inp) <;> rfl
  have hu : ∀ k n w p, (n ≤ 2 * k → read listEnv n w (.uptr (.cls 0)) p (RSt.init (List.replicate k 1 ++ [0])) = .fuel) ∧
      (2 * k < n → ∃ v s, read listEnv n w (.uptr (.cls 0)) p (RSt.init (List.replicate k 1 ++ [0])) = .ok v s) := by
    intro k
    induction k with
    | zero =>
      intro n w p
      refine ⟨fun h => ?_, fun h => ?_⟩
      · obtain rfl : n = 0 := by omega
        rfl
      · obtain ⟨n, rfl⟩ : ∃ m, n = m + 1 := ⟨n - 1, by omega⟩
        exact ⟨.null, RSt.init [], rfl⟩
    | succ k ih =>
      intro n w p
      have hb : readBool (RSt.init (List.replicate (k + 1) 1 ++ [0])) = .ok true (RSt.init (List.replicate k 1 ++ [0])) := rfl
      have hcls : ∀ n, read listEnv (n + 1) 0 (.cls 0) (.obj [(fNext.key, .null)]) (RSt.init (List.replicate k 1 ++ [0])) =
          (do let v ← read listEnv n 0 (.uptr (.cls 0)) .null; pure (Val.obj [(fNext.key, v)])) (RSt.init (List.replicate k 1 ++ [0])) := by
        intro n
        change (readClass (read listEnv n) item 0 _ >>= fun r => pure r.1) _ = _
        rw [M.bind_apply, hstep]
        simp only [M.bind_apply]
        cases read listEnv n 0 (.uptr (.cls 0)) .null (RSt.init (List.replicate k 1 ++ [0])) <;> rfl
      have huptr : ∀ n, read listEnv (n + 1) w (.uptr (.cls 0)) p (RSt.init (List.replicate (k + 1) 1 ++ [0])) =
          (do let v ← read listEnv n 0 (.cls 0) (.obj [(fNext.key, .null)]); pure (Val.ptr v)) (RSt.init (List.replicate k 1 ++ [0])) := by
        intro n
        change (readBool >>= fun b => if b then _ else _) _ = _
        rw [M.bind_ok hb, if_pos rfl]
        rfl
      constructor
      · intro h
        match n, h with
        | 0, _ => rfl
        | 1, _ => rw [huptr]; exact M.bind_fuel rfl
        | n + 2, h =>
          rw [huptr]
          refine M.bind_fuel ?_
          rw [hcls]
          exact M.bind_fuel ((ih n 0 .null).1 (by omega))
      · intro h
        obtain ⟨n, rfl⟩ : ∃ m, n = m + 2 := ⟨n - 2, by omega⟩
        obtain ⟨v, s, hv⟩ := (ih n 0 .null).2 (by omega)
        refine ⟨.ptr (.obj [(fNext.key, v)]), s, ?_⟩
        rw [huptr]
        refine (M.bind_ok (a := Val.obj [(fNext.key, v)]) (s' := s) ?_).trans rfl
        rw [hcls]
        exact (M.bind_ok hv).trans rfl
  have hr : ∀ n, restoreFromBinary listEnv n 0 (.obj [(fNext.key, .null)]) (List.replicate k 1 ++ [0]) =
      readClass (read listEnv n) item 0 (.obj [(fNext.key, .null)]) (RSt.init (List.replicate k 1 ++ [0])) := fun _ => rfl
  rw [hr, hstep]
  constructor
  · intro h
    by_contra hn
    obtain ⟨v, s, hv⟩ := (hu k n 0 .null).2 (by omega)
    rw [M.bind_ok hv] at h
    cases h
  · intro h
    exact M.bind_fuel ((hu k n 0 .null).1 h)

namespace Demo

/-- `struct Nothing {};` -/
def nothing : ClassInfo where
  qname := lit "Nothing"
  json := ⟨[], [], [], true, true⟩
  bin := ⟨[], none, [], [], true⟩
  valInit := []
  defInit := []

def fCrowd : Field := ⟨1, lit "crowd", .vec (.cls 0)⟩

/-- `struct Crowd { std::vector<Nothing> crowd; };` -/
def crowd : ClassInfo where
  qname := lit "Crowd"
  json := ⟨[], [fCrowd], [fCrowd], true, true⟩
  bin := ⟨[], none, [(g0, fCrowd)], [(g0, fCrowd)], true⟩
  valInit := [(fCrowd.key, .list [])]
  defInit := [(fCrowd.key, .list [])]

def crowdEnv (maxLen : Nat) : Env :=
  { env with cls := fun c => if c = 0 then some nothing else if c = 1 then some crowd else none, maxLen := maxLen }

end Demo

/-- **C70** (limits): the assumption on elements is needed: at most 8 bytes suffice for a vector with any number of elements (up to
2^56 and what can be allocated) of a class without members. -/
theorem C70_memory_bomb (maxLen k n : Nat) (hk : k ≤ maxLen) (h56 : k < 2 ^ 56) :
    ∃ inp : Str, inp.length ≤ 8 ∧ ∃ v version s,
      restoreFromBinary (crowdEnv maxLen) (n + 2) 1 (.obj [(fCrowd.key, .list [])]) inp = .ok (v, version) s ∧
      v = .obj [(fCrowd.key, .list (List.replicate k (.obj [])))] ∧ k ≤ v.amount := by
  obtain ⟨L, hL⟩ := varintLen_isSome h56
  obtain ⟨h1, h2, h3, -⟩ := varintLen_some hL
  have hv := readVarint_append h1 h2 h3 [] (RSt.init [])
  refine ⟨beBytes L (k + 2 ^ (7 * L)), by rw [beBytes_length]; exact h2, .obj [(fCrowd.key, .list (List.replicate k (.obj [])))], 0,
    RSt.init [], ?_, rfl, ?_⟩
  · have he : ∀ k s, readElems (read (crowdEnv maxLen) (n + 1)) (.cls 0) (List.replicate k (.obj [])) s =
        .ok (List.replicate k (.obj [])) s := by
      intro k s
      induction k with
      | zero => rfl
      | succ k ih =>
        change (read (crowdEnv maxLen) (n + 1) 0 (.cls 0) (.obj []) >>= _) s = _
        refine (M.bind_ok (a := Val.obj []) (s' := s) rfl).trans ?_
        exact (M.bind_ok ih).trans rfl
    have hvec : read (crowdEnv maxLen) (n + 2) 0 (.vec (.cls 0)) (.list []) (RSt.init (beBytes L (k + 2 ^ (7 * L)))) =
        .ok (.list (List.replicate k (.obj []))) (RSt.init []) := by
      have hv' : readVarint (RSt.init (beBytes L (k + 2 ^ (7 * L)))) = .ok k (RSt.init []) := by
        simpa [RSt.init] using hv
      change (readVarint >>= fun n => _) _ = _
      rw [M.bind_ok hv', if_neg (by exact Nat.not_lt.2 hk)]
      refine (M.bind_ok (a := List.replicate k (Val.obj [])) (s' := RSt.init []) ?_).trans rfl
      have : resize [] k ((crowdEnv maxLen).valInit (.cls 0)) = List.replicate k (.obj []) := by
        simp only [resize, List.take_nil, List.nil_append, List.length_nil, Nat.sub_zero]
        rfl
      rw [this]
      exact he k _
    change readClass (read (crowdEnv maxLen) (n + 2)) crowd 0 _ _ = _
    unfold readClass
    rw [if_neg (by simp [crowd])]
    refine (M.bind_ok (a := Val.obj [(fCrowd.key, .list [])]) rfl).trans ?_
    refine (M.bind_ok (a := 0) rfl).trans ?_
    refine (M.bind_ok (a := ([(fCrowd.key, .list (List.replicate k (.obj [])))] : Store)) (s' := RSt.init []) ?_).trans rfl
    exact (M.bind_ok hvec).trans rfl
  · have : ∀ k, k ≤ Val.amountL (List.replicate k (.obj [])) := by
      intro k
      rw [amountL_replicate]
      exact Nat.le_mul_of_pos_right _ (by omega)
    have := this k
    simp only [Val.amount, Val.amountF] at *
    omega

/-! ### non-vacuity: all assumptions hold for the classes `Derived` and `Node` -/

namespace CostDemo

def types : List Ty :=
  [.cls 1, .cls 0, .cls 2, .sptr (.cls 2), .int .i32, .str, .vec .str, .map false false .str (.int .i32), .pair .str (.int .i32)]

def depth : ClassId → Nat
  | 1 => 2
  | _ => 1

theorem closed : ClosedTypes env (· ∈ types) := by
  intro t ht t' ht'
  simp only [types, List.mem_cons, List.not_mem_nil, or_false] at ht
  rcases ht with rfl | rfl | rfl | rfl | rfl | rfl | rfl | rfl | rfl <;>
    simp [binParts, env, base, derived, node, fI, fM, fS, fV, fN, types] at ht' ⊢ <;> (try rcases ht' with rfl | rfl) <;> simp_all

theorem nesting : NestingDepth env depth := by
  intro c ci h
  match c with
  | 0 => cases h; simp [base, depth, fI, fM, Ty.nesting]
  | 1 => cases h; simp [derived, depth, fS, Ty.nesting]
  | 2 => cases h; simp [node, depth, fV, fN, Ty.nesting]
  | _ + 3 => cases h

theorem nesting_le : ∀ t, t ∈ types → t.nesting depth ≤ 2 := by
  intro t ht
  simp only [types, List.mem_cons, List.not_mem_nil, or_false] at ht
  rcases ht with rfl | rfl | rfl | rfl | rfl | rfl | rfl | rfl | rfl <;> simp [Ty.nesting, depth]

theorem newObjects : NewObjectsUpTo env (· ∈ types) 3 := by
  intro t ht
  simp only [types, List.mem_cons, List.not_mem_nil, or_false] at ht
  rcases ht with rfl | rfl | rfl | rfl | rfl | rfl | rfl | rfl | rfl <;> decide

theorem elements : ∀ t, t ∈ types → ∀ t' ∈ t.element, NeedsInput env t' := by
  intro t ht t' ht'
  simp only [types, List.mem_cons, List.not_mem_nil, or_false] at ht
  rcases ht with rfl | rfl | rfl | rfl | rfl | rfl | rfl | rfl | rfl <;>
    simp only [Ty.element, List.mem_cons, List.not_mem_nil, or_false] at ht'
  · subst ht'; exact .str
  · subst ht'; exact .fst _ .str

/-- any bytes are read as `Derived` with at most `3 * bytes + 2` nested calls -/
example (inp : Str) : fromBinary env (inp.length * 3 + 2) 1 inp ≠ .fuel :=
  (C70_call_depth_restoreFromBinary env _ closed depth nesting 2 nesting_le 1 (by simp [types]) _ inp (Nat.le_refl _)).2

/-- and the result contains at most `3 + 6 * bytes` things -/
example (n : Nat) (inp : Str) (v : Val) (s : RSt) (h : fromBinary env n 1 inp = .ok v s) :
    Val.amountL s.heap + v.amount ≤ 3 + 6 * inp.length :=
  (C70_memory_restoreFromBinary env _ closed 3 newObjects elements n 1 (by simp [types]) inp).2 v s h

end CostDemo

end Verif
