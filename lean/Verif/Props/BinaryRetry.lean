import Verif.Lemmas.BinRetry
import Verif.Props.BinaryExceptions

/-!
# C76: previous content of objects being read; trying again after an exception
-/

namespace Verif

/-- What is read does not depend on the previous content of the object as far as the previous content is replaced: the same object or
exception and the same state is the outcome, whatever the input is. -/
theorem C76_previous_content (E : Env) {t : Ty} {p q : Val} (h : SameOnceRead E t p q) :
    (∀ n version s, read E n version t p s = read E n version t q s) ∧
    (∀ c, t = .cls c → ∀ n inp, restoreFromBinary E n c p inp = restoreFromBinary E n c q inp) := by
  refine ⟨fun n w s => by rw [(retry_read E n).1 w t p q h], ?_⟩
  rintro c rfl n inp
  exact retry_restore n h inp

/-- Trying again: if reading throws, the object can be read again from any other input as if nothing had happened. -/
theorem C76_retry {E : Env} (hkt : KeyTypes E) {version : Nat} {t : Ty} {p q : Val} {s s' : RSt} {e : BExc} (hp : SameOnceRead E t p p)
    (h : BinThrows E version t p s e q s') :
    SameOnceRead E t p q ∧ ∀ n version s, read E n version t q s = read E n version t p s := by
  obtain ⟨n, h⟩ := h
  have hq := ((leaves_readX hkt n).1 version t p s).2 _ _ _ h p hp
  exact ⟨hq, fun m w s => ((C76_previous_content E hq).1 m w s).symm⟩

/-- The same for `restoreFromBinary`. -/
theorem C76_retry_restore {E : Env} (hkt : KeyTypes E) {c : ClassId} {n : Nat} {p q : Val} {inp : Str} {s' : RSt} {e : BExc}
    (hp : SameOnceRead E (.cls c) p p) (h : restoreFromBinaryX E n c p inp = .exc (e, q) s') (m : Nat) (inp' : Str) :
    restoreFromBinary E m c q inp' = restoreFromBinary E m c p inp' :=
  ((C76_previous_content E (C76_retry hkt hp (restore_throws h)).1).2 c rfl m inp').symm

/-- Reusing an object: if an object has been read, another one can be read into it as if it had not. -/
theorem C76_reuse {E : Env} (hkt : KeyTypes E) {version : Nat} {t : Ty} {p q : Val} {s s' : RSt} (hp : SameOnceRead E t p p)
    (h : BinReads E version t p s q s') :
    SameOnceRead E t p q ∧ ∀ n version s, read E n version t q s = read E n version t p s := by
  obtain ⟨n, h⟩ := h
  have h := (C75_same_outcome E n version t p s).1 q s' |>.2 h
  have hq := ((leaves_readX hkt n).1 version t p s).1 _ _ h p hp
  exact ⟨hq, fun m w s => ((C76_previous_content E hq).1 m w s).symm⟩

/-- Any number of attempts: `Attempts E t p q` if the object is `q` after objects have been read into it which was `p` before, some
successfully, some not. -/
inductive Attempts (E : Env) (t : Ty) (p : Val) : Val → Prop
  | none : Attempts E t p p
  | success {q version s q' s'} : Attempts E t p q → BinReads E version t q s q' s' → Attempts E t p q'
  | failure {q version s e q' s'} : Attempts E t p q → BinThrows E version t q s e q' s' → Attempts E t p q'

/-- However often something has been read into the object before, the next attempt has the same outcome. -/
theorem C76_any_history {E : Env} (hkt : KeyTypes E) {t : Ty} {p q : Val} (hp : SameOnceRead E t p p) (h : Attempts E t p q) :
    SameOnceRead E t p q ∧ ∀ n version s, read E n version t q s = read E n version t p s := by
  have hq : SameOnceRead E t p q := by
    induction h with
    | none => exact hp
    | @success q w s q' s' _ h ih =>
      obtain ⟨n, h⟩ := h
      exact ((leaves_readX hkt n).1 w t q s).1 _ _ ((C75_same_outcome E n w t q s).1 q' s' |>.2 h) p ih
    | @failure q w s e q' s' _ h ih =>
      obtain ⟨n, h⟩ := h
      exact ((leaves_readX hkt n).1 w t q s).2 _ _ _ h p ih
  exact ⟨hq, fun m w s => ((C76_previous_content E hq).1 m w s).symm⟩

end Verif

namespace Verif.Demo

/-- `Node` (an integer and a shared pointer) can be read into any other `Node` -/
theorem node_same (x y x' y' : Val) : SameOnceRead env (.cls 2) (.obj [(fV.key, x), (fN.key, y)]) (.obj [(fV.key, x'), (fN.key, y')]) := by
  have hf : ∀ g f, HasField env 2 g f → g = g0 ∧ (f = fV ∨ f = fN) := by
    intro g f h
    cases h with
    | own h1 h2 =>
      cases h1
      simp only [node, List.mem_cons, Prod.mk.injEq, List.not_mem_nil, or_false] at h2
      rcases h2 with ⟨h, h'⟩ | ⟨h, h'⟩
      · exact ⟨h, .inl h'⟩
      · exact ⟨h, .inr h'⟩
    | base h1 h2 h3 =>
      cases h1
      simp [node] at h2
  refine .cls rfl (show [fV.key, fN.key].Nodup by decide) (fun g f h w => by rw [(hf g f h).1]; rfl) (fun k hk => ?_) (fun g f a b h _ _ => ?_)
  · have hV : fV.key ≠ k := hk g0 fV (.own rfl (by simp [node]))
    have hN : fN.key ≠ k := hk g0 fN (.own rfl (by simp [node]))
    have hV' : (k == fV.key) = false := by simpa using fun e => hV e.symm
    have hN' : (k == fN.key) = false := by simpa using fun e => hN e.symm
    simp [Store.get?, List.lookup, hV', hN']
  · rcases (hf g f h).2 with rfl | rfl <;> exact .replaced _ _ rfl

/-- a vector of pairs of a string and a `Node` -/
def pairsTy : Ty := .vec (.pair .str (.cls 2))
def pairsOld : Val := .list [.tup [.str (lit "x"), .obj [(fV.key, .int 1), (fN.key, .null)]], .tup [.str (lit "y"), .obj [(fV.key, .int 2), (fN.key, .null)]]]

theorem pairs_same : SameOnceRead env pairsTy pairsOld pairsOld := by
  have h : ∀ v ∈ env.valInit (.pair .str (.cls 2)) :: [.tup [.str (lit "x"), .obj [(fV.key, .int 1), (fN.key, .null)]],
      .tup [.str (lit "y"), .obj [(fV.key, .int 2), (fN.key, .null)]]], ∃ a x y, v = .tup [a, .obj [(fV.key, x), (fN.key, y)]] := by
    intro v hv
    simp only [List.mem_cons, List.not_mem_nil, or_false] at hv
    rcases hv with rfl | rfl | rfl
    · exact ⟨_, _, _, rfl⟩
    · exact ⟨_, _, _, rfl⟩
    · exact ⟨_, _, _, rfl⟩
  refine .vec fun p hp q hq => ?_
  obtain ⟨a, x, y, rfl⟩ := h p hp
  obtain ⟨b, x', y', rfl⟩ := h q hq
  exact .pair (.replaced _ _ rfl) (node_same _ _ _ _)

/-- an attempt with input ending within the second element of three -/
theorem pairs_cut : BinThrows env 0 pairsTy pairsOld (RSt.init [0x83, 0x81, 0x61, 0, 0, 0, 5, 0, 0x81, 0x62, 0, 0]) .eof
    (.list [.tup [.str (lit "a"), .obj [(fV.key, .int 5), (fN.key, .null)]], .tup [.str (lit "b"), .obj [(fV.key, .int 2), (fN.key, .null)]],
      .tup [.str [], .obj [(fV.key, .int 0), (fN.key, .null)]]]) ⟨[], [], []⟩ :=
  ⟨6, exc_of_check (by decide +kernel)⟩

example := C76_retry keyTypes pairs_same pairs_cut
example := C76_any_history keyTypes pairs_same (.failure .none pairs_cut)
example : ∃ q s', restoreFromBinaryX env 5 2 (.obj nodeInit) [0, 0, 0, 5, 1] = .exc (.eof, q) s' :=
  ⟨.obj [(fV.key, .int 5), (fN.key, .null)], ⟨[], [], []⟩, exc_of_check (by decide +kernel)⟩
example (n : Nat) (inp : Str) := C76_retry_restore (n := 5) (inp := [0, 0, 0, 5, 1]) keyTypes (node_same (.int 0) .null (.int 0) .null)
  (e := .eof) (q := .obj [(fV.key, .int 5), (fN.key, .null)]) (s' := ⟨[], [], []⟩) (exc_of_check (by decide +kernel)) n inp

def isOk (r : Res BExc RSt (Val × Nat)) (v : Val) : Bool :=
  match r with
  | .ok a _ => a.1.eqb v
  | _ => false

/-- Sets are not covered: elements read by the failed attempt remain in the set after trying again (with other data). The two final
contents are `{1, 2}` and `{2}`. -/
theorem C76_limit_sets : ∃ (q : Val) (s' : RSt),
    BinThrows env 0 (.set false false .str) (.list []) (RSt.init [0x82, 0x81, 0x31]) .eof q s' ∧
    BinReads env 0 (.set false false .str) q (RSt.init [0x81, 0x81, 0x32]) (.list [.str [0x31], .str [0x32]]) ⟨[], [], []⟩ ∧
    BinReads env 0 (.set false false .str) (.list []) (RSt.init [0x81, 0x81, 0x32]) (.list [.str [0x32]]) ⟨[], [], []⟩ :=
  ⟨.list [.str [0x31]], ⟨[], [], []⟩, ⟨3, rfl⟩, ⟨3, rfl⟩, ⟨3, rfl⟩⟩

/-- Even with the same (now complete) data the elements of a multiset are there twice. -/
theorem C76_limit_multisets : ∃ (q : Val) (s' : RSt),
    BinThrows env 0 (.set false true .str) (.list []) (RSt.init [0x82, 0x81, 0x31]) .eof q s' ∧
    BinReads env 0 (.set false true .str) q (RSt.init [0x82, 0x81, 0x31, 0x81, 0x32]) (.list [.str [0x31], .str [0x31], .str [0x32]]) ⟨[], [], []⟩ ∧
    BinReads env 0 (.set false true .str) (.list []) (RSt.init [0x82, 0x81, 0x31, 0x81, 0x32]) (.list [.str [0x31], .str [0x32]]) ⟨[], [], []⟩ :=
  ⟨.list [.str [0x31]], ⟨[], [], []⟩, ⟨3, rfl⟩, ⟨3, rfl⟩, ⟨3, rfl⟩⟩

/-- Members which are not read for all versions are not covered: the first attempt (version 3) has read a string of `s` before it throws;
the second attempt succeeds with version 1 and leaves `s` as it is. -/
theorem C76_limit_versions : ∃ (q : Val) (s' : RSt) (v : Val), restoreFromBinaryX env 5 1 (.obj prior) cutInput = .exc (.eof, q) s' ∧
    isOk (restoreFromBinary env 5 1 q [0, 0, 0, 1, 0x80, 0x81]) v = true ∧
    isOk (restoreFromBinary env 5 1 (.obj prior) [0, 0, 0, 1, 0x80, 0x81]) v = false ∧
    (∃ st : Store, v = .obj st ∧ st.get? fS.key = some (.list [.str (lit "a"), .str (lit "y")])) :=
  ⟨_, _, .obj [(fI.key, .int 1), (fM.key, .map [(.str (lit "a"), .int 1), (.str (lit "k"), .int 5)]), (fS.key, .list [.str (lit "a"), .str (lit "y")]), (fK.key, .int 7)],
    cut_throws, by decide +kernel, by decide +kernel, _, rfl, rfl⟩

end Verif.Demo
