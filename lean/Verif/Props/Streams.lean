import Verif.Lemmas.Stream
import Verif.Props.BinaryFraming
import Verif.Props.BinaryRoundTrip
import Verif.Demo

/-!
# C68, C69: streams which do not throw and streams which fail

`restoreDefault` is `restoreFromBinary` reading from a C++ stream with default settings (no exceptions, only `fail()`), for an
arbitrary content of the variables filled by failing reads (`Leftover`). `toBinaryTo` is `toBinary` writing to a stream which may
fail at any point (`Sink`), with or without exceptions enabled.
-/

namespace Verif

/-- **C68**: reading succeeds from a stream with exceptions enabled iff it returns and leaves the stream good if they are not
enabled; the results are the same. -/
theorem C68_good_afterwards_iff_everything_read (E : Env) (L : Leftover) (n : Nat) (c : ClassId) (p : Val) (inp : Str)
    (r : Val × Nat) (s : RSt) :
    restoreFromBinary E n c p inp = .ok r s ↔ restoreDefault E L n c p inp = .ok r ⟨s, 0⟩ := by
  have h := (sim_restore E L n c p).1 (RSt.init inp)
  rw [reader_restore] at h
  unfold restoreDefault
  constructor
  · intro hr
    rw [hr] at h
    exact h
  · intro hr
    rw [hr] at h
    cases hx : restoreFromBinary E n c p inp with
    | ok r' s' =>
      rw [hx] at h
      cases h
      rfl
    | exc e s' =>
      rw [hx] at h
      simp only [SameUnlessEof] at h
      split at h
      · exact absurd rfl h
      · cases h
    | ub => rw [hx] at h; cases h
    | stuck => rw [hx] at h; cases h
    | fuel => rw [hx] at h; cases h

/-- **C68**: if reading would throw because the input ends too early (exceptions enabled), then without exceptions the stream is in
fail state whenever reading returns or throws something else. -/
theorem C68_truncated_leaves_failed_stream (E : Env) (L : Leftover) (n : Nat) (c : ClassId) (p : Val) (inp : Str) (s : RSt)
    (h : restoreFromBinary E n c p inp = .exc .eof s) :
    (∀ r s', restoreDefault E L n c p inp = .ok r s' → s'.failed ≠ 0) ∧
    (∀ e s', restoreDefault E L n c p inp = .exc e s' → s'.failed ≠ 0) := by
  have h' := (sim_restore E L n c p).1 (RSt.init inp)
  rw [reader_restore, h] at h'
  simp only [SameUnlessEof, if_true] at h'
  unfold restoreDefault
  refine ⟨fun r s' hr => ?_, fun e s' hr => ?_⟩
  · rw [hr] at h'
    exact h'
  · rw [hr] at h'
    exact h'

/-- **C68**: the exceptions thrown by the library itself (unknown version, bad length etc.) do not depend on the settings of the
stream. -/
theorem C68_same_exceptions (E : Env) (L : Leftover) (n : Nat) (c : ClassId) (p : Val) (inp : Str) (e : BExc) (s : RSt)
    (he : e ≠ .eof) :
    restoreFromBinary E n c p inp = .exc e s ↔ restoreDefault E L n c p inp = .exc e ⟨s, 0⟩ := by
  have h := (sim_restore E L n c p).1 (RSt.init inp)
  rw [reader_restore] at h
  unfold restoreDefault
  constructor
  · intro hr
    rw [hr] at h
    simpa [SameUnlessEof, he] using h
  · intro hr
    rw [hr] at h
    cases hx : restoreFromBinary E n c p inp with
    | ok r' s' => rw [hx] at h; cases h
    | exc e' s' =>
      rw [hx] at h
      simp only [SameUnlessEof] at h
      split at h
      · exact absurd rfl h
      · cases h
        rfl
    | ub => rw [hx] at h; cases h
    | stuck => rw [hx] at h; cases h
    | fuel => rw [hx] at h; cases h

/-- **C68**: undefined behaviour occurs without exceptions only if it occurs with exceptions as well or the input is truncated. -/
theorem C68_no_new_undefined_behaviour (E : Env) (L : Leftover) (n : Nat) (c : ClassId) (p : Val) (inp : Str)
    (h : restoreDefault E L n c p inp = .ub) :
    restoreFromBinary E n c p inp = .ub ∨ ∃ s, restoreFromBinary E n c p inp = .exc .eof s := by
  have h' := (sim_restore E L n c p).1 (RSt.init inp)
  unfold restoreDefault at h
  rw [reader_restore, h] at h'
  cases hx : restoreFromBinary E n c p inp with
  | ok r' s' => rw [hx] at h'; cases h'
  | exc e' s' =>
    rw [hx] at h'
    simp only [SameUnlessEof] at h'
    split at h'
    · rename_i he
      exact .inr ⟨s', by rw [he]⟩
    · cases h'
  | ub => exact .inl rfl
  | stuck => rw [hx] at h'; cases h'
  | fuel => rw [hx] at h'; cases h'

/-- **C68** (the check of the stream is necessary): reading a number past the end of the input never throws; what it yields is
whatever the buffer contains. -/
theorem C68_reading_past_the_end_is_silent (E : Env) (L : Leftover) (n version : Nat) (it : IntTy) (p : Val) (inp : Str)
    (hi : it ≠ .i8) (h : inp.length < it.bytes) :
    (defaultReader L).read E (n + 1) version (.int it) p ⟨RSt.init inp, 0⟩ =
      .ok (.int (it.wrap (ofBE (fit it.bytes (L.bytes 0 it.bytes))))) ⟨RSt.init [], 1⟩ := by
  have h' : ¬ it.bytes ≤ inp.length := by omega
  simp [Reader.read, Reader.step, hi, Reader.int, M.bind_apply, defaultReader, takeDefault, RSt.init, h']

namespace Demo

/-- `struct Item { std::unique_ptr<Item> next; }` -/
def fNext : Field := ⟨0, lit "next", .uptr (.cls 0)⟩

def item : ClassInfo where
  qname := lit "Item"
  json := ⟨[], [fNext], [fNext], true, true⟩
  bin := ⟨[], none, [(g0, fNext)], [(g0, fNext)], true⟩
  valInit := [(fNext.key, .null)]
  defInit := [(fNext.key, .null)]

def listEnv : Env := { env with cls := fun c => if c = 0 then some item else none }

end Demo

open Demo

theorem item_valInit : listEnv.valInit (.cls 0) = .obj [(fNext.key, .null)] := rfl

theorem item_read (L : Leftover) (hL : ∀ k, L.bytes k 1 = [1]) (n w : Nat) (p : Val) (k f : Nat) (hf : f ≠ 0 → k = 0) :
    (defaultReader L).read listEnv n w (.uptr (.cls 0)) p ⟨RSt.init (List.replicate k 1), f⟩ = .fuel ∧
    (defaultReader L).read listEnv n w (.cls 0) (.obj [(fNext.key, .null)]) ⟨RSt.init (List.replicate k 1), f⟩ = .fuel := by
  induction n generalizing w p k f with
  | zero => exact ⟨rfl, rfl⟩
  | succ n ih =>
    constructor
    · have hb : ∃ k' f', (f' ≠ 0 → k' = 0) ∧ (defaultReader L).bool ⟨RSt.init (List.replicate k 1), f⟩ =
          .ok true ⟨RSt.init (List.replicate k' 1), f'⟩ := by
        by_cases h : f = 0 ∧ k ≠ 0
        · obtain ⟨rfl, hk⟩ := h
          cases k with
          | zero => exact absurd rfl hk
          | succ k => exact ⟨k, 0, fun h => absurd rfl h, by
              simp [Reader.bool, Reader.byte, M.bind_apply, defaultReader, takeDefault, RSt.init, List.replicate_succ, ofBE]⟩
        · have hk : k = 0 := by
            by_contra hk
            exact hk (hf fun h0 => h ⟨h0, hk⟩)
          subst hk
          exact ⟨0, f + 1, fun _ => rfl, by
            simp [Reader.bool, Reader.byte, M.bind_apply, defaultReader, takeDefault, RSt.init, hL, fit, ofBE]⟩
      obtain ⟨k', f', hf', hb⟩ := hb
      simp only [Reader.read, Reader.step]
      rw [M.bind_ok hb, if_pos rfl]
      exact M.bind_fuel ((ih 0 .null k' f' hf').2)
    · refine M.bind_fuel (m := (defaultReader L).cls ((defaultReader L).read listEnv n) item w _) ?_
      unfold Reader.cls
      rw [if_neg (by simp [item])]
      refine (M.bind_ok (a := Val.obj [(fNext.key, .null)]) rfl).trans ?_
      refine (M.bind_ok (a := w) rfl).trans ?_
      refine M.bind_fuel ?_
      exact M.bind_fuel ((ih w .null k f hf).1)

/-- **C68** (truncated input may be fatal): reading a singly linked list (`struct Item { std::unique_ptr<Item> next; }`) of which
the last bytes are missing recurses without end if the stream does not throw and the buffer keeps the byte which was read last
(`true`); with exceptions enabled it throws. -/
theorem C68_truncated_list_recurses_forever (L : Leftover) (hL : ∀ k, L.bytes k 1 = [1]) (n k : Nat) :
    restoreDefault listEnv L n 0 (.obj [(fNext.key, .null)]) (List.replicate k 1) = .fuel := by
  have h := (item_read L hL (n + 1) 0 .null k 0 (fun h => absurd rfl h)).2
  rcases M.bind_eq_fuel.1 h with h | ⟨a, s', -, h⟩
  · exact h
  · cases h

/-- With exceptions enabled the truncated list throws; the list without the missing byte could be read. -/
example : (∃ s, restoreFromBinary listEnv 8 0 (.obj [(fNext.key, .null)]) (List.replicate 3 1) = .exc .eof s) ∧
    ∃ r s, restoreFromBinary listEnv 8 0 (.obj [(fNext.key, .null)]) (List.replicate 3 1 ++ [0]) = .ok r s := by
  constructor
  · exact ⟨_, rfl⟩
  · exact ⟨_, _, rfl⟩

/-- a leftover buffer as in the hypothesis -/
example : ∃ L : Leftover, ∀ k, L.bytes k 1 = [1] := ⟨⟨fun _ _ => [1], fun _ => 0⟩, fun _ => rfl⟩

/-! ## writing -/

/-- **C69**: `toBinary` to a stream which may fail at any point: either everything is written and the stream is good, or the stream
failed, contains the first bytes of what should have been written and – iff exceptions are enabled – `toBinary` throws. -/
theorem C69_everything_or_failure (E : Env) (H : Heap) (S : Sink) (throws : Bool) (n : Nat) (c : ClassId) (v : Val)
    (version : Nat) (ws : WSt) (h : toBinary E H n c v version = .ok () ws) :
    (∃ t, toBinaryTo E H S throws n c v version = .ok () t ∧ t.failed = false ∧ t.out = ws.out) ∨
    (∃ t, toBinaryTo E H S throws n c v version = (if throws then .exc .eof t else .ok () t) ∧ t.failed = true ∧
      t.out <+: ws.out) := by
  have h' := wsim_write E H S throws n version (.cls c) v _ _ (wmatch_self throws WSt.init)
  unfold toBinary at h
  rw [h] at h'
  unfold toBinaryTo
  obtain ⟨-, ⟨t, ht, -, hm⟩ | ⟨hth, t, ht, hf, hp⟩⟩ := h'
  · cases hf : t.failed with
    | false =>
      rw [hf] at hm
      exact .inl ⟨t, ht, hf, hm⟩
    | true =>
      rw [hf, if_pos rfl] at hm
      exact .inr ⟨t, by rw [hm.1] at ht ⊢; exact ht, hf, hm.2⟩
  · exact .inr ⟨t, by rw [hth] at ht ⊢; exact ht, hf, hp⟩

/-- **C69**: a stream which accepts everything gets exactly the bytes of `toBinary`. -/
theorem C69_accepting_stream_gets_everything (E : Env) (H : Heap) (throws : Bool) (n : Nat) (c : ClassId) (v : Val)
    (version : Nat) (ws : WSt) (h : toBinary E H n c v version = .ok () ws) :
    ∃ t, toBinaryTo E H (fun _ _ => none) throws n c v version = .ok () t ∧ t.failed = false ∧ t.out = ws.out := by
  have key : HRel (fun α (m : WM α) (m' : M BExc FWSt α) => ∀ s : WSt, m' ⟨s.out, s.seen, false⟩ =
      match m s with
      | .ok a s' => .ok a ⟨s'.out, s'.seen, false⟩
      | .exc e s' => .exc e ⟨s'.out, s'.seen, false⟩
      | .ub => .ub
      | .stuck => .stuck
      | .fuel => .fuel) :=
    { pure := fun _ _ => rfl
      throw := fun _ _ _ => rfl
      ub := fun _ => rfl
      stuck := fun _ => rfl
      fuel := fun _ => rfl
      bind := fun m m' f f' hm hf s => by
        have h1 := hm s
        cases hr : m s with
        | ok a s' => rw [hr] at h1; rw [M.bind_ok hr, M.bind_ok h1, hf]
        | exc e s' => rw [hr] at h1; rw [M.bind_exc hr, M.bind_exc h1]
        | ub => rw [hr] at h1; rw [M.bind_ub hr, M.bind_ub h1]
        | stuck => rw [hr] at h1; rw [M.bind_stuck hr, M.bind_stuck h1]
        | fuel => rw [hr] at h1; rw [M.bind_fuel hr, M.bind_fuel h1] }
  have h2 := key.wWrite (P := idealWriter) (Q := failingWriter (fun _ _ => none) throws) (E := E) (H := H)
    { emit := fun _ _ => rfl, written := fun _ _ => rfl, mark := fun _ _ => rfl } n version (.cls c) v WSt.init
  rw [writer_write] at h2
  unfold toBinary at h
  rw [h] at h2
  exact ⟨_, h2, rfl, rfl⟩

/-- **C69**: exceptions thrown by the library itself are not affected by failing streams which do not throw. -/
theorem C69_same_exceptions (E : Env) (H : Heap) (S : Sink) (n : Nat) (c : ClassId) (v : Val) (version : Nat) (e : BExc) (ws : WSt)
    (h : toBinary E H n c v version = .exc e ws) :
    ∃ t, toBinaryTo E H S false n c v version = .exc e t ∧ t.out <+: ws.out := by
  have h' := wsim_write E H S false n version (.cls c) v _ _ (wmatch_self false WSt.init)
  unfold toBinary at h
  rw [h] at h'
  unfold toBinaryTo
  obtain ⟨-, ⟨t, ht, -, hm⟩ | ⟨hth, -⟩⟩ := h'
  · refine ⟨t, ht, ?_⟩
    cases hf : t.failed with
    | false =>
      rw [hf] at hm
      rw [show t.out = ws.out from hm]
      exact List.prefix_refl _
    | true =>
      rw [hf] at hm
      exact hm.2
  · cases hth

/-- **C69** (crash points): no matter where writing an object fails, what has been written is never mistaken for a complete object:
reading it back throws unless all bytes have been written, in which case the object is restored. -/
theorem C69_partial_output_is_never_read_as_object (E : Env) (H : Heap) (HT : Nat → Option Ty) (S : Sink) (throws : Bool)
    (n m : Nat) (c : ClassId) (v : Val) (version : Nat) (ws : WSt) (hH : ∀ ρ, HeapRepr E H HT ρ)
    (hv : ∀ ρ, BRepr E HT ρ version 0 (.cls c) (E.defInit (.cls c)) v) (hm : n ≤ m + 1)
    (h : toBinary E H n c v version = .ok () ws) :
    ∃ t, (toBinaryTo E H S throws n c v version = .ok () t ∨ toBinaryTo E H S throws n c v version = .exc .eof t) ∧
      ((t.out = ws.out ∧ ∃ ρ v' rs, fromBinary E m c t.out = .ok v' rs ∧ rs.inp = [] ∧ GraphCopy H v rs.asHeap v' ρ) ∨
       (t.failed = true ∧ ∃ rs, fromBinary E m c t.out = .exc .eof rs)) := by
  obtain ⟨ρ, v', rs, hr, hi, hg⟩ := C27_toBinary_fromBinary E H HT n m c v version ws hH hv hm h []
  rw [List.append_nil] at hr
  have part : ∀ t : Str, t <+: ws.out → t ≠ ws.out → ∃ rs, fromBinary E m c t = .exc .eof rs := by
    intro t ⟨rest, ht⟩ hne
    unfold fromBinary at hr ⊢
    cases hx : restoreFromBinary E m c (E.defInit (.cls c)) ws.out with
    | ok r s =>
      rw [hx] at hr
      have hs : s = rs := by cases hr; rfl
      obtain ⟨s'', h''⟩ := C31_truncated_restore_throws E m c (E.defInit (.cls c)) r s ws.out t rest hx ht.symm (by
        rw [hs, hi]
        cases rest with
        | nil => exact absurd (by simpa using ht) hne
        | cons => simp)
      rw [h'']
      exact ⟨_, rfl⟩
    | exc e s => rw [hx] at hr; cases hr
    | ub => rw [hx] at hr; cases hr
    | stuck => rw [hx] at hr; cases hr
    | fuel => rw [hx] at hr; cases hr
  rcases C69_everything_or_failure E H S throws n c v version ws h with ⟨t, ht, -, ho⟩ | ⟨t, ht, hf, ho⟩
  · exact ⟨t, .inl ht, .inl ⟨ho, ρ, v', rs, by rw [ho]; exact hr, hi, hg⟩⟩
  · refine ⟨t, ?_, ?_⟩
    · cases throws
      · exact .inl ht
      · exact .inr ht
    · by_cases he : t.out = ws.out
      · exact .inl ⟨he, ρ, v', rs, by rw [he]; exact hr, hi, hg⟩
      · exact .inr ⟨hf, part t.out ho he⟩

/-- A stream with room for 6 bytes: the cyclic list of `Demo` (21 bytes) does not fit, `toBinary` returns without exception by
default. -/
example : (match toBinaryTo env cycHeap (fun out bs => if out.length + bs.length ≤ 6 then none else some (6 - out.length)) false
      10 2 (.obj [(fV.key, .int 1), (fN.key, .ref 2000)]) 0 with
    | .ok () t => some (t.out, t.failed)
    | _ => none) = some ([0, 0, 0, 1, 1, 0x47], true) := by decide +kernel

/-- With exceptions enabled it throws. -/
example : (match toBinaryTo env cycHeap (fun out bs => if out.length + bs.length ≤ 6 then none else some (6 - out.length)) true
      10 2 (.obj [(fV.key, .int 1), (fN.key, .ref 2000)]) 0 with
    | .exc e t => some (e, t.out, t.failed)
    | _ => none) = some (.eof, [0, 0, 0, 1, 1, 0x47], true) := by decide +kernel

/-- The node and heap satisfy the hypotheses of `C69_partial_output_is_never_read_as_object`, for every sink. -/
example (S : Sink) (throws : Bool) : ∃ ws t : Str,
    (∃ w, toBinary env cycHeap 10 2 (.obj [(fV.key, .int 1), (fN.key, .ref 2000)]) 0 = .ok () w ∧ w.out = ws) ∧
    (t = ws ∨ ∃ rs, fromBinary env 9 2 t = .exc .eof rs) := by
  have h : toBinary env cycHeap 10 2 (.obj [(fV.key, .int 1), (fN.key, .ref 2000)]) 0 =
      .ok () ⟨[0, 0, 0, 1, 1, 0x47, 0xD0, 0, 0, 0, 2, 1, 0x43, 0xE8, 0, 0, 0, 1, 2, 0x47, 0xD0], [1000, 2000]⟩ := by decide +kernel
  obtain ⟨t, -, h' | h'⟩ := C69_partial_output_is_never_read_as_object env cycHeap cycTypes S throws 10 9 2 _ 0 _ cycHeap_repr
    (fun ρ => node_repr ρ 0 0 _ _ _ (by decide) (by decide) rfl (by decide)) (by decide) h
  · exact ⟨_, t.out, ⟨_, h, rfl⟩, .inl h'.1⟩
  · exact ⟨_, t.out, ⟨_, h, rfl⟩, .inr h'.2⟩

/-- Reading the six bytes throws. -/
example : (match fromBinary env 9 2 [0, 0, 0, 1, 1, 0x47] with
    | .exc e _ => some e
    | _ => none) = some .eof := by decide +kernel

/-- Without exceptions, reading the six bytes returns an object if the buffer contains zeros: `fail()` has to be checked. -/
example : (match restoreDefault env ⟨fun _ _ => [], fun _ => 0⟩ 9 2 (env.defInit (.cls 2)) [0, 0, 0, 1, 1, 0x47] with
    | .ok r s => some (r.1.refs, s.failed)
    | _ => none) = some ([0], 3) := by decide +kernel

end Verif
