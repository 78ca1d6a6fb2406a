import Verif.Lemmas.BinSize
import Verif.Lemmas.JsonSize
import Verif.Lemmas.TextSize
import Verif.Demo

/-!
# C78: size of the output
-/

namespace Verif

/-- **C78** (binary data): the number of bytes written is at most a constant per object plus the length of the strings. Shared objects
count once, however many pointers refer to them (cycles are no exception), and only as far as they can be reached. This also holds
if writing throws. Hypotheses: no class writes a member twice; iterating over a hashed container visits each element once. -/
theorem C78_binary_size (E : Env) (H : Heap) (K : Nat) (hW : WritesOnce E K) (hit : ∀ vs, (E.iter vs).Perm vs)
    (hitkv : ∀ kvs, (E.iterKV kvs).Perm kvs) (n version : Nat) (t : Ty) (v : Val) (objects : List Nat)
    (hobj : ∀ a, Reachable H v a → a ∈ objects) (ws : WSt) (u : Unit)
    (h : write E H n version t v WSt.init = .ok u ws ∨ ∃ e, write E H n version t v WSt.init = .exc e ws) :
    ws.out.length ≤ v.footprint K (fun _ => 0) + heapFootprint K H objects := by
  have h1 := (write_size (dom := objects) hW hit hitkv (P := Reachable H v)
    (fun a ha => ⟨hobj a ha, fun x hx b hb => .step ha hx hb⟩) n).1 version t v (fun a ha => .direct ha) WSt.init
  have h2 := pending_le K H objects WSt.init.seen
  have key : ws.out.length + pending K H objects ws.seen ≤ 0 + pending K H objects WSt.init.seen + v.footprint K (fun _ => 0) := by
    rcases h with h | ⟨e, h⟩
    · rw [h] at h1; exact h1
    · rw [h] at h1; exact h1
  omega

/-- **C78** (binary data, a session): the same for each further value written via the same serializer; objects written before do not
count again. -/
theorem C78_binary_size_session (E : Env) (H : Heap) (K : Nat) (hW : WritesOnce E K) (hit : ∀ vs, (E.iter vs).Perm vs)
    (hitkv : ∀ kvs, (E.iterKV kvs).Perm kvs) (n version : Nat) (t : Ty) (v : Val) (objects : List Nat)
    (ws ws' : WSt) (hobj : ∀ a, Reachable H v a → a ∈ ws.seen ∨ a ∈ objects)
    (h : write E H n version t v ws = .ok () ws') :
    ws'.out.length ≤ ws.out.length + v.footprint K (fun _ => 0) + heapFootprint K H objects := by
  have h1 := (write_size (dom := ws.seen ++ objects) hW hit hitkv (P := Reachable H v)
    (fun a ha => ⟨List.mem_append.2 (hobj a ha), fun x hx b hb => .step ha hx hb⟩) n).1 version t v (fun a ha => .direct ha) ws
  rw [h] at h1
  have h1 : ws'.out.length + pending K H (ws.seen ++ objects) ws'.seen ≤
    ws.out.length + pending K H (ws.seen ++ objects) ws.seen + v.footprint K (fun _ => 0) := h1
  have h2 : pending K H (ws.seen ++ objects) ws.seen ≤ heapFootprint K H objects := by
    have he : (ws.seen ++ objects).filter (fun a => decide (a ∉ ws.seen)) = objects.filter fun a => decide (a ∉ ws.seen) := by
      rw [List.filter_append, List.filter_eq_nil_iff.2 (fun a ha => by simpa using ha), List.nil_append]
    unfold pending
    rw [he]
    exact pending_le K H objects ws.seen
  omega

/-- **C78** (JSON documents): the size of a document (number of values, number and length of names, length of strings) is at most a
constant per object plus the length of the strings. Shared objects count wherever they are referred to: `B` is the size of
shared objects including those they refer to (it exists iff there are no cycles). -/
theorem C78_json_size (E : Env) (H : Heap) (K : Nat) (hW : PushesOnce E K) (hit : ∀ vs, (E.iter vs).Perm vs)
    (hitkv : ∀ kvs, (E.iterKV kvs).Perm kvs) (n : Nat) (t : Ty) (v : Val) (B : Nat → Nat)
    (hB : ∀ a x, Reachable H v a → H a = some x → x.footprint K B ≤ B a) (j : Json) (h : push E H n t v () = .ok j ()) :
    j.volume ≤ v.footprint K B :=
  (push_size hW hit hitkv (P := Reachable H v) (fun a ha x hx => ⟨hB a x ha hx, fun b hb => .step ha hx hb⟩) n).1 t v
    (fun a ha => .direct ha) j h

/-- **C78** (JSON text): the text has at most 26 bytes per value and per byte of names and strings (if doubles take at most 25
bytes, which is the maximum for RapidJSON). -/
theorem C78_text_size (D : Dbl) (hD : ∀ d, (D.print d).length ≤ 25) (j : Json) (hj : j.IntsFit) :
    (printDoc D j).length < 26 * j.volume := by
  have := printV_length D hD j hj
  unfold printDoc
  omega

/-! ## Limits -/

namespace SizeDemo

/-! ### objects referring to the same object twice -/

def fL : Field := ⟨0, lit "l", .sptr (.cls 0)⟩
def fR : Field := ⟨0, lit "r", .sptr (.cls 0)⟩

/-- `struct Fork { std::shared_ptr<Fork> l, r; }` -/
def fork : ClassInfo where
  qname := lit "Fork"
  json := ⟨[], [fL, fR], [fL, fR], true, true⟩
  bin := ⟨[], none, [(Demo.g0, fL), (Demo.g0, fR)], [(Demo.g0, fL), (Demo.g0, fR)], true⟩
  valInit := [(fL.key, .null), (fR.key, .null)]
  defInit := [(fL.key, .null), (fR.key, .null)]

def forkEnv : Env := { Demo.env with cls := fun c => if c = 0 then some fork else none, dtPrint := fun _ => [], tsPrint := fun _ => [] }

/-- objects 0 to `n`; both pointers of each object refer to the next one -/
def ladder (n : Nat) : Heap := fun a =>
  if a < n then some (.obj [(fL.key, .ref (a + 1)), (fR.key, .ref (a + 1))])
  else if a = n then some (.obj [(fL.key, .null), (fR.key, .null)])
  else none

theorem iter_perm (vs : List Val) : (forkEnv.iter vs).Perm vs := List.reverse_perm vs
theorem iterKV_perm (vs : List (Val × Val)) : (forkEnv.iterKV vs).Perm vs := List.reverse_perm vs

theorem fork_writesOnce : WritesOnce forkEnv 9 := by
  refine ⟨by decide, fun c ci hc => ?_⟩
  have hc0 : c = 0 := by
    by_contra h
    have : forkEnv.cls c = none := if_neg h
    rw [this] at hc
    cases hc
  subst hc0
  refine ⟨_, _, .cons (ci := fork) rfl .nil .nil, ?_, ?_⟩
  · decide +kernel
  · decide

theorem fork_pushesOnce : PushesOnce forkEnv 14 := by
  refine ⟨fun c ci hc => ?_, by decide, fun _ => ?_, fun _ => ?_⟩
  rotate_left
  · show 0 + 1 ≤ 14
    decide
  · show 0 + 1 ≤ 14
    decide
  have hc0 : c = 0 := by
    by_contra h
    have : forkEnv.cls c = none := if_neg h
    rw [this] at hc
    cases hc
  subst hc0
  refine ⟨_, .cons (ci := fork) rfl .nil .nil, ?_, ?_⟩
  · decide +kernel
  · decide +kernel

/-- the JSON document of object `n - k` -/
def ladderJson : Nat → Json
  | 0 => .obj [(⟨lit "l", .literal⟩, .null), (⟨lit "r", .literal⟩, .null)]
  | k + 1 => .obj [(⟨lit "l", .literal⟩, ladderJson k), (⟨lit "r", .literal⟩, ladderJson k)]

theorem ladderJson_volume (k : Nat) : 2 ^ k ≤ (ladderJson k).volume := by
  induction k with
  | zero => simp only [ladderJson, Json.volume]; omega
  | succ k ih =>
    simp only [ladderJson, Json.volume, Json.volumeM, Nat.pow_succ]
    omega

theorem ladder_push (n k : Nat) (hk : k ≤ n) (m : Nat) : push forkEnv (ladder n) (2 * k + 3 + m) (.sptr (.cls 0)) (.ref (n - k)) () = .ok (ladderJson k) () := by
  induction k with
  | zero =>
    have hH : ladder n (n - 0) = some (.obj [(fL.key, .null), (fR.key, .null)]) := by simp [ladder]
    have e : 2 * 0 + 3 + m = m + 1 + 1 + 1 := by omega
    rw [e]
    show (match ladder n (n - 0) with | some v => push forkEnv (ladder n) (m + 1 + 1) (.cls 0) v | none => M.ub) () = _
    rw [hH]
    rfl
  | succ k ih =>
    have hH : ladder n (n - (k + 1)) = some (.obj [(fL.key, .ref (n - k)), (fR.key, .ref (n - k))]) := by
      unfold ladder
      rw [if_pos (by omega)]
      have : n - (k + 1) + 1 = n - k := by omega
      rw [this]
    have e : 2 * (k + 1) + 3 + m = (2 * k + 3 + m) + 1 + 1 := by omega
    rw [e]
    show (match ladder n (n - (k + 1)) with | some v => push forkEnv (ladder n) (2 * k + 3 + m + 1) (.cls 0) v | none => M.ub) () = _
    rw [hH]
    have ih := ih (by omega)
    show (pushFields (push forkEnv (ladder n) (2 * k + 3 + m)) [fL, fR] [(fL.key, .ref (n - k)), (fR.key, .ref (n - k))] >>=
      fun ms' => (pure (.obj ([] ++ ms')) : SM Json)) () = _
    refine SM.map_ok_iff.2 ⟨[(⟨lit "l", .literal⟩, ladderJson k), (⟨lit "r", .literal⟩, ladderJson k)], ?_, rfl⟩
    refine pushFields_iff.2 (.cons ⟨rfl, _, rfl, ih⟩ (.cons ⟨rfl, _, ?_, ih⟩ .nil))
    have hne : (fR.key == fL.key) = false := by decide +kernel
    simp only [Store.get?, List.lookup, hne, beq_self_eq_true]

theorem writeId_ok (a : Nat) (s : WSt) : ∃ s', writeId a s = .ok () s' := by
  unfold writeId
  by_cases hb : bigId a = true
  · rw [if_pos hb]
    exact ⟨_, rfl⟩
  · rw [if_neg hb]
    have : a < 2 ^ 55 := by
      unfold bigId at hb
      simpa using hb
    unfold writeVarint
    cases hv : varintLen a with
    | none =>
      exfalso
      unfold varintLen at hv
      repeat' split at hv
      all_goals first | omega | cases hv
    | some L => exact ⟨_, rfl⟩

theorem ladder_write (n k : Nat) (hk : k ≤ n) (m : Nat) (w : Nat) (s : WSt) :
    ∃ s', write forkEnv (ladder n) (2 * k + 3 + m) w (.sptr (.cls 0)) (.ref (n - k)) s = .ok () s' := by
  have go : ∀ (a : Nat) (b : WM Unit) (s : WSt), (∀ s, ∃ s', b s = .ok () s') → ∃ s', sharedWrite a b s = .ok () s' := by
    intro a b s hb
    obtain ⟨s2, h2⟩ := writeId_ok a { s with out := s.out ++ [UInt8.ofNat (sptrMode (decide (a ∈ s.seen)) (bigId a))] }
    have e : sharedWrite a b s = (if decide (a ∈ s.seen) = true then (pure () : WM Unit) else (markWritten a >>= fun _ => b)) s2 := by
      unfold sharedWrite
      refine (M.bind_ok (m := alreadyWritten a) (a := decide (a ∈ s.seen)) (s' := s) rfl).trans ?_
      refine (M.bind_ok (m := writeByte _) (a := ()) rfl).trans ?_
      exact M.bind_ok h2
    rw [e]
    by_cases hs : a ∈ s.seen
    · rw [if_pos (by simpa using hs)]
      exact ⟨_, rfl⟩
    · rw [if_neg (by simpa using hs)]
      exact hb _
  induction k generalizing w s with
  | zero =>
    have hH : ladder n (n - 0) = some (.obj [(fL.key, .null), (fR.key, .null)]) := by simp [ladder]
    have e : 2 * 0 + 3 + m = m + 1 + 1 + 1 := by omega
    rw [e]
    refine go (n - 0) (match ladder n (n - 0) with | some v => write forkEnv (ladder n) (m + 1 + 1) 0 (.cls 0) v | none => M.ub) s fun s => ?_
    rw [hH]
    exact ⟨_, rfl⟩
  | succ k ih =>
    have hH : ladder n (n - (k + 1)) = some (.obj [(fL.key, .ref (n - k)), (fR.key, .ref (n - k))]) := by
      unfold ladder
      rw [if_pos (by omega)]
      have : n - (k + 1) + 1 = n - k := by omega
      rw [this]
    have e : 2 * (k + 1) + 3 + m = (2 * k + 3 + m) + 1 + 1 := by omega
    rw [e]
    refine go (n - (k + 1)) (match ladder n (n - (k + 1)) with | some v => write forkEnv (ladder n) (2 * k + 3 + m + 1) 0 (.cls 0) v | none => M.ub) s fun s => ?_
    rw [hH]
    obtain ⟨s1, h1⟩ := ih (by omega) 0 s
    obtain ⟨s2, h2⟩ := ih (by omega) 0 s1
    refine ⟨s2, ?_⟩
    refine (M.bind_ok (a := ()) (s' := s) rfl).trans ?_
    refine (M.bind_ok (a := ()) (s' := s) rfl).trans ?_
    show (write forkEnv (ladder n) (2 * k + 3 + m) 0 (.sptr (.cls 0)) (.ref (n - k)) >>= fun _ =>
      write forkEnv (ladder n) (2 * k + 3 + m) 0 (.sptr (.cls 0)) (.ref (n - k)) >>= fun _ => (pure () : WM Unit)) s = _
    refine (M.bind_ok h1).trans ?_
    exact (M.bind_ok h2).trans rfl

theorem ladder_reachable (n a : Nat) (h : Reachable (ladder n) (.ref 0) a) : a ≤ n := by
  induction h with
  | direct h =>
    simp only [Val.refs, List.mem_singleton] at h
    omega
  | step _ hx hb ih =>
    unfold ladder at hx
    split at hx
    · cases hx
      simp [Val.refs, Val.refsF] at hb
      omega
    · split at hx
      · cases hx
        simp [Val.refs, Val.refsF] at hb
      · cases hx

theorem heapFootprint_le (K : Nat) (H : Heap) (C : Nat) (l : List Nat) (h : ∀ a x, H a = some x → x.footprint K (fun _ => 0) ≤ C) :
    heapFootprint K H l ≤ l.length * C := by
  induction l with
  | nil => simp [heapFootprint]
  | cons a l ih =>
    simp only [heapFootprint, List.length_cons, Nat.add_mul, Nat.one_mul]
    cases hx : H a with
    | none => simp only; omega
    | some x => have := h a x hx; simp only; omega

/-! ### classes with an indirect base -/

def fNext : Field := ⟨0, lit "next", .uptr (.cls 2)⟩

/-- `struct Root { std::unique_ptr<Leaf> next; }` -/
def root : ClassInfo where
  qname := lit "Root"
  json := ⟨[], [fNext], [fNext], true, true⟩
  bin := ⟨[], none, [(Demo.g0, fNext)], [(Demo.g0, fNext)], true⟩
  valInit := [(fNext.key, .null)]
  defInit := [(fNext.key, .null)]

/-- `struct Middle : Root {}` -/
def middle : ClassInfo := { root with qname := lit "Middle", json := ⟨[0], [], [], true, true⟩, bin := ⟨[0], none, [], [], true⟩ }

/-- `struct Leaf : Middle {}`: the generated code calls the functions of both base classes (`C45_members_of_root_repeated`) -/
def leaf : ClassInfo := { root with qname := lit "Leaf", json := ⟨[0, 1], [], [], true, true⟩, bin := ⟨[0, 1], none, [], [], true⟩ }

def leafEnv : Env := { forkEnv with cls := fun c => if c = 0 then some root else if c = 1 then some middle else if c = 2 then some leaf else none }

/-- a list of `n + 1` objects owning each other -/
def chain : Nat → Val
  | 0 => .obj [(fNext.key, .null)]
  | n + 1 => .obj [(fNext.key, .ptr (chain n))]

def chainJson : Nat → Json
  | 0 => .obj [(⟨lit "next", .literal⟩, .null), (⟨lit "next", .literal⟩, .null)]
  | n + 1 => .obj [(⟨lit "next", .literal⟩, chainJson n), (⟨lit "next", .literal⟩, chainJson n)]

theorem chainJson_volume (n : Nat) : 2 ^ n ≤ (chainJson n).volume := by
  induction n with
  | zero => simp only [chainJson, Json.volume]; omega
  | succ k ih =>
    simp only [chainJson, Json.volume, Json.volumeM, Nat.pow_succ]
    omega

def chainBytes : Nat → Str
  | 0 => [0, 0]
  | n + 1 => (1 :: chainBytes n) ++ (1 :: chainBytes n)

theorem chainBytes_length (n : Nat) : 2 ^ n ≤ (chainBytes n).length := by
  induction n with
  | zero => decide
  | succ k ih =>
    simp only [chainBytes, List.length_append, List.length_cons, Nat.pow_succ]
    omega

theorem chain_footprint (K n : Nat) (B : Nat → Nat) : (chain n).footprint K B = 2 * K * (n + 1) := by
  induction n with
  | zero => simp only [chain, Val.footprint, Val.footprintF]; omega
  | succ n ih =>
    simp only [chain, Val.footprint, Val.footprintF, ih]
    rw [Nat.mul_add (2 * K) (n + 1) 1]
    omega

end SizeDemo

open SizeDemo

/-- **C78** (limit, JSON): a document may be exponentially bigger than the object graph if objects are referred to more than once:
`n + 1` objects, each referring to the next one twice, take at least 2^n values in a JSON document but less than `27 * (n + 2)` bytes
as binary data. -/
theorem C78_limit_shared_objects (n : Nat) :
    ∃ N, ∀ m, N ≤ m → ∃ j ws, push forkEnv (ladder n) m (.sptr (.cls 0)) (.ref 0) () = .ok j () ∧ 2 ^ n ≤ j.volume ∧
      write forkEnv (ladder n) m 0 (.sptr (.cls 0)) (.ref 0) WSt.init = .ok () ws ∧ ws.out.length < 27 * (n + 2) := by
  refine ⟨2 * n + 3, fun m hm => ?_⟩
  obtain ⟨m, rfl⟩ := Nat.exists_eq_add_of_le hm
  have h1 := ladder_push n n (Nat.le_refl n) m
  obtain ⟨ws, h2⟩ := ladder_write n n (Nat.le_refl n) m 0 WSt.init
  rw [Nat.sub_self] at h1 h2
  refine ⟨_, ws, h1, ladderJson_volume n, h2, ?_⟩
  have h3 := C78_binary_size forkEnv (ladder n) 9 fork_writesOnce iter_perm iterKV_perm _ 0 _ _ (List.range (n + 1))
    (fun a ha => List.mem_range.2 (by have := ladder_reachable n a ha; omega)) ws () (.inl h2)
  have h4 := heapFootprint_le 9 (ladder n) 27 (List.range (n + 1)) (fun a x hx => by
    unfold ladder at hx
    split at hx
    · cases hx
      simp [Val.footprint, Val.footprintF]
    · split at hx
      · cases hx
        simp [Val.footprint, Val.footprintF]
      · cases hx)
  rw [List.length_range] at h4
  simp only [Val.footprint] at h3
  omega

/-- **C78** (limit, classes with an indirect base, cf. C45): if a class is derived from a class which has a base class itself, the
members of the latter are written twice. So `n + 1` objects owning each other via such a member take at least 2^n bytes as binary data
and values as JSON document. -/
theorem C78_limit_indirect_bases (n : Nat) :
    (∀ K B, (chain n).footprint K B = 2 * K * (n + 1)) ∧
    ∃ N, ∀ m, N ≤ m → ∃ j ws, push leafEnv (fun _ => none) m (.cls 2) (chain n) () = .ok j () ∧ 2 ^ n ≤ j.volume ∧
      write leafEnv (fun _ => none) m 0 (.cls 2) (chain n) WSt.init = .ok () ws ∧ 2 ^ n ≤ ws.out.length := by
  refine ⟨fun K B => chain_footprint K n B, 4 * n + 6, fun m hm => ?_⟩
  obtain ⟨m, rfl⟩ := Nat.exists_eq_add_of_le hm
  have hj : ∀ n, push leafEnv (fun _ => none) (4 * n + 6 + m) (.cls 2) (chain n) () = .ok (chainJson n) () := by
    intro n
    induction n with
    | zero =>
      have e : 4 * 0 + 6 + m = m + 1 + 1 + 1 + 1 + 1 + 1 := by omega
      rw [e]
      rfl
    | succ n ih =>
      have e : 4 * (n + 1) + 6 + m = (4 * n + 6 + m) + 1 + 1 + 1 + 1 := by omega
      rw [e]
      have hp : ∀ r, push leafEnv (fun _ => none) (4 * n + 6 + m + r) (.cls 2) (chain n) () = .ok (chainJson n) () := fun r =>
        push_mono (Nat.le_add_right _ r) ih (by simp)
      have hu : ∀ r, push leafEnv (fun _ => none) (4 * n + 6 + m + 1 + r) (.uptr (.cls 2)) (.ptr (chain n)) () = .ok (chainJson n) () := fun r => by
        have e : 4 * n + 6 + m + 1 + r = (4 * n + 6 + m + r) + 1 := by omega
        rw [e]
        exact hp r
      have hr : ∀ r, push leafEnv (fun _ => none) (4 * n + 6 + m + 1 + 1 + r) (.cls 0) (chain (n + 1)) () =
          .ok (.obj [(⟨lit "next", .literal⟩, chainJson n)]) () := fun r => by
        have e : 4 * n + 6 + m + 1 + 1 + r = (4 * n + 6 + m + 1 + r) + 1 := by omega
        rw [e]
        show (pushFields (push leafEnv (fun _ => none) (4 * n + 6 + m + 1 + r)) [fNext] [(fNext.key, .ptr (chain n))] >>=
          fun ms' => (pure (.obj ([] ++ ms')) : SM Json)) () = _
        refine SM.map_ok_iff.2 ⟨[(⟨lit "next", .literal⟩, chainJson n)], ?_, rfl⟩
        exact pushFields_iff.2 (.cons ⟨rfl, _, rfl, hu r⟩ .nil)
      have hm : push leafEnv (fun _ => none) (4 * n + 6 + m + 1 + 1 + 1) (.cls 1) (chain (n + 1)) () =
          .ok (.obj [(⟨lit "next", .literal⟩, chainJson n)]) () := by
        show (pushBases (push leafEnv (fun _ => none) (4 * n + 6 + m + 1 + 1)) [0] (chain (n + 1)) >>=
          fun ms => (pushFields (push leafEnv (fun _ => none) (4 * n + 6 + m + 1 + 1)) [] _) >>= fun ms' => (pure (.obj (ms ++ ms')) : SM Json)) () = _
        refine SM.bind_ok_iff.2 ⟨[(⟨lit "next", .literal⟩, chainJson n)], ?_, ?_⟩
        · exact pushBases_iff.2 ⟨[[(⟨lit "next", .literal⟩, chainJson n)]], .cons (hr 0) .nil, rfl⟩
        · exact SM.map_ok_iff.2 ⟨[], rfl, rfl⟩
      show (pushBases (push leafEnv (fun _ => none) (4 * n + 6 + m + 1 + 1 + 1)) [0, 1] (chain (n + 1)) >>=
          fun ms => (pushFields (push leafEnv (fun _ => none) (4 * n + 6 + m + 1 + 1 + 1)) [] _) >>= fun ms' => (pure (.obj (ms ++ ms')) : SM Json)) () = _
      refine SM.bind_ok_iff.2 ⟨[(⟨lit "next", .literal⟩, chainJson n), (⟨lit "next", .literal⟩, chainJson n)], ?_, ?_⟩
      · exact pushBases_iff.2 ⟨[[(⟨lit "next", .literal⟩, chainJson n)], [(⟨lit "next", .literal⟩, chainJson n)]], .cons (hr 1) (.cons hm .nil), rfl⟩
      · exact SM.map_ok_iff.2 ⟨[], rfl, rfl⟩
  have hw : ∀ n k w (s : WSt), write leafEnv (fun _ => none) (4 * n + 6 + k) w (.cls 2) (chain n) s =
      .ok () { s with out := s.out ++ chainBytes n } := by
    intro n
    induction n with
    | zero =>
      intro k w s
      have e : 4 * 0 + 6 + k = k + 1 + 1 + 1 + 1 + 1 + 1 := by omega
      rw [e]
      have : s.out ++ chainBytes 0 = s.out ++ [0] ++ [0] := by simp [chainBytes]
      rw [this]
      rfl
    | succ n ih =>
      intro k w s
      have e : 4 * (n + 1) + 6 + k = (4 * n + 6 + k) + 1 + 1 + 1 + 1 := by omega
      rw [e]
      have hu : ∀ r w (s : WSt), write leafEnv (fun _ => none) (4 * n + 6 + k + 1 + r) w (.uptr (.cls 2)) (.ptr (chain n)) s =
          .ok () { s with out := s.out ++ 1 :: chainBytes n } := fun r w s => by
        have e : 4 * n + 6 + k + 1 + r = (4 * n + 6 + (k + r)) + 1 := by omega
        rw [e]
        refine (M.bind_ok (m := emit [1]) (a := ()) rfl).trans ?_
        rw [ih (k + r) 0]
        simp
      have hr : ∀ r w (s : WSt), write leafEnv (fun _ => none) (4 * n + 6 + k + 1 + 1 + r) w (.cls 0) (chain (n + 1)) s =
          .ok () { s with out := s.out ++ 1 :: chainBytes n } := fun r w s => by
        have e : 4 * n + 6 + k + 1 + 1 + r = (4 * n + 6 + k + 1 + r) + 1 := by omega
        rw [e]
        refine (M.bind_ok (a := ()) (s' := s) rfl).trans ?_
        refine (M.bind_ok (a := ()) (s' := s) rfl).trans ?_
        exact (M.bind_ok (hu r _ s)).trans rfl
      have hm : ∀ w (s : WSt), write leafEnv (fun _ => none) (4 * n + 6 + k + 1 + 1 + 1) w (.cls 1) (chain (n + 1)) s =
          .ok () { s with out := s.out ++ 1 :: chainBytes n } := fun w s => by
        refine (M.bind_ok ((M.bind_ok (hr 0 w s)).trans rfl)).trans ?_
        exact (M.bind_ok (a := ()) rfl).trans rfl
      refine (M.bind_ok (m := writeBases (write leafEnv (fun _ => none) (4 * n + 6 + k + 1 + 1 + 1)) w [0, 1] (chain (n + 1)))
        (a := ()) (s' := { s with out := s.out ++ chainBytes (n + 1) }) ?_).trans ?_
      · refine (M.bind_ok (hr 1 w s)).trans ?_
        refine (M.bind_ok (hm w _)).trans ?_
        simp [chainBytes]
        rfl
      · exact (M.bind_ok (a := ()) rfl).trans rfl
  refine ⟨_, _, hj n, chainJson_volume n, hw n m 0 WSt.init, ?_⟩
  have := chainBytes_length n
  simpa [WSt.init] using this

/-! ### examples -/

/-- The ladder's objects, and any number of pointers to them, take at most 27 bytes each (plus 17 for the list and 9 for each pointer). -/
example (n k fuel : Nat) (ws : WSt)
    (h : write forkEnv (ladder n) fuel 0 (.vec (.sptr (.cls 0))) (.list (List.replicate k (.ref 0))) WSt.init = .ok () ws) :
    ws.out.length ≤ 27 * (n + 1) + 9 * k + 9 := by
  have hreach : ∀ a, Reachable (ladder n) (.list (List.replicate k (.ref 0))) a → Reachable (ladder n) (.ref 0) a := by
    intro a ha
    clear h
    induction ha with
    | direct h =>
      refine .direct ?_
      simp only [Val.refs] at h ⊢
      induction k with
      | zero => cases h
      | succ k ih =>
        rw [List.replicate_succ] at h
        simp only [Val.refsL, Val.refs, List.mem_append] at h
        rcases h with h | h
        · exact h
        · exact ih h
    | step _ hx hb ih => exact .step ih hx hb
  have hfp : Val.footprintL 9 (fun _ => 0) (List.replicate k (.ref 0)) = 9 * k := by
    clear h hreach
    induction k with
    | zero => rfl
    | succ k ih => rw [List.replicate_succ]; simp only [Val.footprintL, Val.footprint, ih]; omega
  have h3 := C78_binary_size forkEnv (ladder n) 9 fork_writesOnce iter_perm iterKV_perm fuel 0 _ _ (List.range (n + 1))
    (fun a ha => List.mem_range.2 (by have := ladder_reachable n a (hreach a ha); omega)) ws () (.inl h)
  have h4 := heapFootprint_le 9 (ladder n) 27 (List.range (n + 1)) (fun a x hx => by
    unfold ladder at hx
    split at hx
    · cases hx
      simp [Val.footprint, Val.footprintF]
    · split at hx
      · cases hx
        simp [Val.footprint, Val.footprintF]
      · cases hx)
  rw [List.length_range] at h4
  simp only [Val.footprint, hfp] at h3
  omega

/-- The document of the ladder is as big as the objects counted per path: `B a` is the size of object `a` with everything it refers
to, i.e. `B n = 42` and `B a = 42 + 2 * B (a + 1)`. -/
example (j : Json) (fuel : Nat) (h : push forkEnv (ladder 3) fuel (.sptr (.cls 0)) (.ref 0) () = .ok j ()) : j.volume ≤ 14 + 42 * 15 :=
  C78_json_size forkEnv (ladder 3) 14 fork_pushesOnce iter_perm iterKV_perm fuel _ _ (fun a => 42 * (2 ^ (4 - a) - 1))
    (fun a x _ hx => by
      unfold ladder at hx
      split at hx
      · rename_i ha
        cases hx
        simp only [Val.footprint, Val.footprintF]
        obtain rfl | rfl | rfl : a = 0 ∨ a = 1 ∨ a = 2 := by omega
        all_goals decide
      · split at hx
        · rename_i ha
          subst ha
          cases hx
          simp only [Val.footprint, Val.footprintF]
          decide
        · cases hx) j h

/-- `WritesOnce` does not hold for the classes with an indirect base. -/
example (K : Nat) : ¬ WritesOnce leafEnv K := by
  rintro ⟨-, h⟩
  obtain ⟨ks, n, hm, hnd, -⟩ := h 2 leaf rfl
  cases hm with
  | cons hc h1 h2 =>
  cases hc
  cases h2
  cases h1 with
  | cons hc h1 h2 =>
  cases hc
  cases h1
  cases h2 with
  | cons hc h1 h2 =>
  cases hc
  cases h2
  cases h1 with
  | cons hc h1 h2 =>
  cases hc
  cases h1
  cases h2
  revert hnd
  decide +kernel

end Verif
