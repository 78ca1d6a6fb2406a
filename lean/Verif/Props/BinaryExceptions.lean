import Verif.Lemmas.ReadXSound
import Verif.Lemmas.ReadXHeap
import Verif.Lemmas.ValEq
import Verif.Spec.BinExceptions
import Verif.Props.BinaryRead
import Verif.Props.BinarySafety

/-!
# C75: the object being read from binary data when an exception is thrown
-/

namespace Verif

/-- The description of exceptions agrees with the model of `read`: the same values are returned and the same exceptions are thrown (with
the same input left, the same table of identifiers and the same number of shared objects); what is added is just the state of the object
being read and of the shared objects which are being read. -/
theorem C75_same_outcome (E : Env) (n version : Nat) (t : Ty) (p : Val) (s : RSt) :
    (∀ v s', readX E n version t p s = .ok v s' ↔ read E n version t p s = .ok v s') ∧
    (∀ e q s', readX E n version t p s = .exc (e, q) s' → ∃ s'' : RSt, read E n version t p s = .exc e s'' ∧ s''.inp = s'.inp ∧
      s''.table = s'.table ∧ s''.heap.length = s'.heap.length) ∧
    (∀ e s'', read E n version t p s = .exc e s'' → ∃ q s', readX E n version t p s = .exc (e, q) s') ∧
    (readX E n version t p s = .ub ↔ read E n version t p s = .ub) := by
  have h := readX_agrees E n version t p s
  cases h1 : readX E n version t p s <;> cases h2 : read E n version t p s <;> rw [h1, h2] at h <;> cases h
  · simp
  · rename_i h3 h4 h5
    refine ⟨by simp, fun e q s' h => ?_, fun e s'' h => ?_, by simp⟩
    · cases h
      exact ⟨_, rfl, h3.symm, h4.symm, h5.symm⟩
    · cases h
      exact ⟨_, _, rfl⟩
  all_goals simp

/-- Whenever reading throws, the object is still a valid object of its type and so are all shared objects of the session. Shared objects
which existed before are unchanged. -/
theorem C75_object_stays_valid {E : Env} (hkt : KeyTypes E) {version : Nat} {t : Ty} (ht : Readable E t) {p q : Val} {HT : List Ty}
    {s s' : RSt} {e : BExc} (hs : TypedSt E HT s) (hp : HasTy E HT t p) (h : BinThrows E version t p s e q s') :
    (∃ HT', HT <+: HT' ∧ TypedSt E HT' s' ∧ HasTy E HT' t q) ∧ s.heap <+: s'.heap := by
  obtain ⟨n, h⟩ := h
  refine ⟨?_, (readX_heapKept E n version t p s).2 _ _ h⟩
  have := (readX_sound hkt n).1 HT version t p s ht hs hp
  unfold SoundX at this
  rw [h] at this
  exact this

theorem restore_throws {E : Env} {n : Nat} {c : ClassId} {p q : Val} {inp : Str} {e : BExc} {s' : RSt}
    (h : restoreFromBinaryX E n c p inp = .exc (e, q) s') : BinThrows E 0 (.cls c) p (RSt.init inp) e q s' := by
  unfold restoreFromBinaryX at h
  cases hc : E.cls c with
  | none => rw [hc] at h; cases h
  | some ci =>
    rw [hc] at h
    refine ⟨n + 1, ?_⟩
    simp only [readX, readXStep, hc]
    exact M.bind_eq_exc.2 (.inl h)

/-- The same for `restoreFromBinary` (into an object without shared objects): it returns the same as before and throws the same, and if it
throws, the object is still valid. -/
theorem C75_restoreFromBinary {E : Env} (hkt : KeyTypes E) {c : ClassId} (ht : Readable E (.cls c)) (n : Nat) (p : Val)
    (hp : HasTy E [] (.cls c) p) (inp : Str) :
    (∀ r s', restoreFromBinaryX E n c p inp = .ok r s' ↔ restoreFromBinary E n c p inp = .ok r s') ∧
    (∀ e, (∃ s', restoreFromBinary E n c p inp = .exc e s') ↔ ∃ q s', restoreFromBinaryX E n c p inp = .exc (e, q) s') ∧
    (∀ e q s', restoreFromBinaryX E n c p inp = .exc (e, q) s' → BinThrows E 0 (.cls c) p (RSt.init inp) e q s' ∧
      ∃ HT', TypedSt E HT' s' ∧ HasTy E HT' (.cls c) q) := by
  have hstart : TypedSt E [] (RSt.init inp) := ⟨rfl, by simp [RSt.init], by simp⟩
  have hlast : ∀ e q s', restoreFromBinaryX E n c p inp = .exc (e, q) s' → BinThrows E 0 (.cls c) p (RSt.init inp) e q s' ∧
      ∃ HT', TypedSt E HT' s' ∧ HasTy E HT' (.cls c) q := by
    intro e q s' h
    have h' := restore_throws h
    obtain ⟨⟨HT', -, h1, h2⟩, -⟩ := C75_object_stays_valid hkt ht hstart hp h'
    exact ⟨h', HT', h1, h2⟩
  refine ⟨?_, ?_, hlast⟩
  · intro r s'
    unfold restoreFromBinaryX restoreFromBinary
    cases E.cls c with
    | none => simp
    | some ci => exact (AgreesX.cls (readX_agrees E n) ci 0 p).ok_iff
  · intro e
    unfold restoreFromBinaryX restoreFromBinary
    cases E.cls c with
    | none => simp
    | some ci =>
      have h := AgreesX.cls (readX_agrees E n) ci 0 p (RSt.init inp)
      dsimp only
      cases h1 : readClassX (readX E n) ci 0 p (RSt.init inp) <;> cases h2 : readClass (read E n) ci 0 p (RSt.init inp) <;>
        rw [h1, h2] at h <;> cases h
      · simp
      · constructor
        · rintro ⟨s', h⟩
          cases h
          exact ⟨_, _, rfl⟩
        · rintro ⟨q, s', h⟩
          cases h
          exact ⟨_, rfl⟩
      all_goals simp

/-! ## Which parts have been read -/

/-- Booleans, numbers, enums, strings and time values are unchanged if reading them throws (and so are the shared objects). -/
theorem C75_scalar (E : Env) {version : Nat} {t : Ty} (ht : AssignedAtOnce t = true) {p q : Val} {s s' : RSt} {e : BExc}
    (h : BinThrows E version t p s e q s') : q = p ∧ s'.heap = s.heap ∧ s'.table = s.table := by
  have key : ∀ {α : Type} (m : RM α), (∀ s e s', m s = .exc e s' → s'.heap = s.heap ∧ s'.table = s.table) → ∀ s s' e,
      holdingR p m s = .exc (e, q) s' → q = p ∧ s'.heap = s.heap ∧ s'.table = s.table := by
    intro α m hm s s' e h
    obtain ⟨h1, h2⟩ := holdingR_exc h
    exact ⟨h1, hm _ _ _ h2⟩
  have htake : ∀ k s e s', takeBytes k s = .exc e s' → s'.heap = s.heap ∧ s'.table = s.table := by
    intro k s e s' h
    unfold takeBytes at h
    split at h <;> cases h
    exact ⟨rfl, rfl⟩
  have htake' : ∀ k s a s', takeBytes k s = .ok a s' → s'.heap = s.heap ∧ s'.table = s.table := by
    intro k s a s' h
    unfold takeBytes at h
    split at h <;> cases h
    exact ⟨rfl, rfl⟩
  have hbyte : ∀ s e s', readByte s = .exc e s' → s'.heap = s.heap ∧ s'.table = s.table := by
    intro s e s' h
    rcases M.bind_eq_exc.1 h with h | ⟨a, s1, h1, h2⟩
    · exact htake _ _ _ _ h
    · cases h2
  have hpure : ∀ {α β : Type} (m : RM α) (f : α → β), (∀ s e s', m s = .exc e s' → s'.heap = s.heap ∧ s'.table = s.table) →
      ∀ s e s', (m >>= fun a => pure (f a)) s = .exc e s' → s'.heap = s.heap ∧ s'.table = s.table := by
    intro α β m f hm s e s' h
    rcases M.bind_eq_exc.1 h with h | ⟨a, s1, h1, h2⟩
    · exact hm _ _ _ h
    · cases h2
  have hint : ∀ it s e s', readInt it s = .exc e s' → s'.heap = s.heap ∧ s'.table = s.table := fun it =>
    hpure _ _ (htake _)
  have hvar : (∀ s e s', readVarint s = .exc e s' → s'.heap = s.heap ∧ s'.table = s.table) ∧
      ∀ s a s', readVarint s = .ok a s' → s'.heap = s.heap ∧ s'.table = s.table := by
    have hpeek : (∀ s e s', peekByte s = .exc e s' → s'.heap = s.heap ∧ s'.table = s.table) ∧
        ∀ s a s', peekByte s = .ok a s' → s' = s := by
      constructor <;> intro s e s' h <;> unfold peekByte at h <;> split at h <;> cases h
      · exact ⟨rfl, rfl⟩
      · rfl
    constructor
    · intro s e s' h
      rcases M.bind_eq_exc.1 h with h | ⟨a, s1, h1, h2⟩
      · exact hpeek.1 _ _ _ h
      · have := hpeek.2 _ _ _ h1
        subst this
        try dsimp only at h2
        split at h2
        · cases h2
          exact ⟨rfl, rfl⟩
        · exact hpure _ _ (htake _) _ _ _ h2
    · intro s a s' h
      obtain ⟨b, s1, h1, h2⟩ := M.bind_eq_ok.1 h
      have := hpeek.2 _ _ _ h1
      subst this
      try dsimp only at h2
      split at h2
      · cases h2
      · obtain ⟨c, s2, h3, h4⟩ := M.bind_eq_ok.1 h2
        cases h4
        exact htake' _ _ _ _ h3
  obtain ⟨n, h⟩ := h
  have hintX : ∀ n it p q s s', readX E n 0 (.int it) p s = .exc (e, q) s' → s'.heap = s.heap ∧ s'.table = s.table := by
    intro n it p q s s' h
    cases n with
    | zero => cases h
    | succ n =>
      have h2 := (holdingR_exc h).2
      simp only [readStep] at h2
      split at h2
      · cases h2
      · exact hpure _ _ (hint _) _ _ _ h2
  cases n with
  | zero => cases h
  | succ n =>
    cases t with
    | enum u =>
      obtain ⟨q0, h1, h2⟩ := withinR_exc h
      exact ⟨h2, hintX _ _ _ _ _ _ h1⟩
    | int it =>
      refine key _ ?_ _ _ _ h
      simp only [readStep]
      split
      · intro s e s' h; cases h
      · exact hpure _ _ (hint _)
    | bool => exact key _ (hpure _ _ (hpure _ _ hbyte)) _ _ _ h
    | f32 => exact key _ (hpure _ _ (htake _)) _ _ _ h
    | f64 => exact key _ (hpure _ _ (htake _)) _ _ _ h
    | dateTime => exact key _ (hpure _ _ (hint _)) _ _ _ h
    | timeSpan => exact key _ (hpure _ _ (hint _)) _ _ _ h
    | str =>
      refine key _ (fun s e s' h => ?_) _ _ _ h
      rcases M.bind_eq_exc.1 h with h | ⟨a, s1, h1, h2⟩
      · exact hvar.1 _ _ _ h
      · try dsimp only at h2
        have h3 := hvar.2 _ _ _ h1
        split at h2
        · cases h2
          exact h3
        · have h4 := hpure _ _ (htake _) _ _ _ h2
          exact ⟨h4.1.trans h3.1, h4.2.trans h3.2⟩
    | _ => cases ht

section
variable {E : Env} {n : Nat}

theorem readElemsX_exc {t : Ty} {done ps : List Val} {s s' : RSt} {e : BExc} {q : Val}
    (h : readElemsX (readX E n) t done ps s = .exc (e, q) s') :
    ∃ before p after vs x s1, ps = before ++ p :: after ∧ BinReadsEach E t before s vs s1 ∧ BinThrows E 0 t p s1 e x s' ∧
      q = .list (done ++ vs ++ x :: after) := by
  induction ps generalizing done s with
  | nil => cases h
  | cons p ps ih =>
    rcases M.bind_eq_exc.1 h with h | ⟨v, s1, h1, h2⟩
    · obtain ⟨x, h1, rfl⟩ := withinR_exc h
      exact ⟨[], p, ps, [], x, s, rfl, .nil s, ⟨n, h1⟩, by simp⟩
    · rcases M.bind_eq_exc.1 h2 with h2 | ⟨vs, s2, h3, h4⟩
      · obtain ⟨before, p', after, vs, x, s2, rfl, h3, h4, rfl⟩ := ih h2
        exact ⟨p :: before, p', after, v :: vs, x, s2, rfl, .cons ⟨n, (readX_agrees E n _ _ _).ok_iff.1 (withinR_ok.1 h1)⟩ h3, h4, by simp⟩
      · cases h4

theorem readSetItemsX_exc {multi : Bool} {t : Ty} {k : Nat} {acc : List Val} {s s' : RSt} {e : BExc} {q : Val}
    (h : readSetItemsX E (readX E n) multi t k acc s = .exc (e, q) s') :
    ∃ vs x s1, vs.length < k ∧ BinReadsEach E t (List.replicate vs.length (E.defInit t)) s vs s1 ∧ BinThrows E 0 t (E.defInit t) s1 e x s' ∧
      q = .list (vs.foldl (fun acc v => insertItem E multi t v acc) acc) := by
  induction k generalizing acc s with
  | zero => cases h
  | succ k ih =>
    rcases M.bind_eq_exc.1 h with h | ⟨v, s1, h1, h2⟩
    · obtain ⟨x, h1, rfl⟩ := withinR_exc h
      exact ⟨[], x, s, by simp, .nil s, ⟨n, h1⟩, rfl⟩
    · try dsimp only at h2
      split at h2
      · cases h2
      · obtain ⟨vs, x, s2, h3, h4, h5, rfl⟩ := ih h2
        exact ⟨v :: vs, x, s2, by simpa using h3, .cons ⟨n, (readX_agrees E n _ _ _).ok_iff.1 (withinR_ok.1 h1)⟩ h4, h5, rfl⟩

theorem readMapItemsX_exc {multi : Bool} {k t : Ty} {m : Nat} {acc : List (Val × Val)} {s s' : RSt} {e : BExc} {q : Val}
    (h : readMapItemsX E (readX E n) multi k t m acc s = .exc (e, q) s') :
    ∃ (kvs : List (Val × Val)) (x : Val) (s1 : RSt), kvs.length < m ∧
      BinReadsEach E (.pair k t) (List.replicate kvs.length (E.valInit (.pair k t))) s (kvs.map fun kv => .tup [kv.1, kv.2]) s1 ∧
      BinThrows E 0 (.pair k t) (E.valInit (.pair k t)) s1 e x s' ∧
      q = .map (kvs.foldl (fun acc kv => insertEntry E multi k kv.1 kv.2 acc) acc) := by
  induction m generalizing acc s with
  | zero => cases h
  | succ m ih =>
    rcases M.bind_eq_exc.1 h with h | ⟨v, s1, h1, h2⟩
    · obtain ⟨x, h1, rfl⟩ := withinR_exc h
      exact ⟨[], x, s, by simp, .nil s, ⟨n, h1⟩, rfl⟩
    · try dsimp only at h2
      split at h2
      · rename_i a b
        split at h2
        · cases h2
        · obtain ⟨vs, x, s2, h3, h4, h5, rfl⟩ := ih h2
          exact ⟨(a, b) :: vs, x, s2, by simpa using h3, .cons ⟨n, (readX_agrees E n _ _ _).ok_iff.1 (withinR_ok.1 h1)⟩ h4, h5, rfl⟩
      · cases h2

theorem readBasesX_exc {w : Nat} {bs : List ClassId} {p : Val} {s s' : RSt} {e : BExc} {q : Val}
    (h : readBasesX (readX E n) w bs p s = .exc (e, q) s') :
    ∃ before b after v s1, bs = before ++ b :: after ∧ BinReadsBases E w before p s v s1 ∧ BinThrows E w (.cls b) v s1 e q s' := by
  induction bs generalizing p s with
  | nil => cases h
  | cons b bs ih =>
    rcases M.bind_eq_exc.1 h with h | ⟨v, s1, h1, h2⟩
    · exact ⟨[], b, bs, p, s, rfl, .nil _ s, ⟨n, h⟩⟩
    · obtain ⟨before, b', after, v', s2, rfl, h3, h4⟩ := ih h2
      exact ⟨b :: before, b', after, v', s2, rfl, .cons ⟨n, (readX_agrees E n _ _ _).ok_iff.1 h1⟩ h3, h4⟩

theorem readBasesX_ok {w : Nat} {bs : List ClassId} {p : Val} {s s' : RSt} {q : Val}
    (h : readBasesX (readX E n) w bs p s = .ok q s') : BinReadsBases E w bs p s q s' := by
  induction bs generalizing p s with
  | nil => cases h; exact .nil _ _
  | cons b bs ih =>
    obtain ⟨v, s1, h1, h2⟩ := M.bind_eq_ok.1 h
    exact .cons ⟨n, (readX_agrees E n _ _ _).ok_iff.1 h1⟩ (ih h2)

theorem readFieldsX_exc {w : Nat} {fs : List (Guard × Field)} {st : Store} {s s' : RSt} {e : BExc} {q : Val}
    (h : readFieldsX (readX E n) w fs st s = .exc (e, q) s') :
    ∃ before f after st1 s1 p x, activeFields w fs = before ++ f :: after ∧ BinReadsMembers E w before st s st1 s1 ∧
      Store.get? st1 f.key = some p ∧ BinThrows E w f.ty p s1 e x s' ∧ q = .obj (Store.set st1 f.key x) := by
  induction fs generalizing st s with
  | nil => cases h
  | cons gf fs ih =>
    obtain ⟨g, f⟩ := gf
    simp only [readFieldsX] at h
    split at h
    · rename_i hg
      have hact : activeFields w ((g, f) :: fs) = f :: activeFields w fs := by simp [activeFields, hg]
      cases hp : st.get? f.key with
      | none => rw [hp] at h; cases h
      | some p =>
        rw [hp] at h
        rcases M.bind_eq_exc.1 h with h | ⟨v, s1, h1, h2⟩
        · obtain ⟨x, h1, rfl⟩ := withinR_exc h
          exact ⟨[], f, _, st, s, p, x, hact, .nil _ s, hp, ⟨n, h1⟩, rfl⟩
        · obtain ⟨before, f', after, st1, s2, p', x, h3, h4, h5, h6, rfl⟩ := ih h2
          exact ⟨f :: before, f', after, st1, s2, p', x, by rw [hact, h3]; rfl,
            .cons hp ⟨n, (readX_agrees E n _ _ _).ok_iff.1 (withinR_ok.1 h1)⟩ h4, h5, h6, rfl⟩
    · rename_i hg
      have hact : activeFields w ((g, f) :: fs) = activeFields w fs := by simp [activeFields, hg]
      rw [hact]
      exact ih h

end

/-- Sequences: either the length could not be read or is too big, then the sequence is unchanged. Or the sequence already has the length
announced by the input: elements before the one which could not be read have been read (into existing elements if there were some), that
one is partially read and the ones after it are as if the sequence has just been resized. -/
theorem C75_array (E : Env) {version : Nat} {t : Ty} {ps : List Val} {s s' : RSt} {e : BExc} {q : Val}
    (h : BinThrows E version (.vec t) (.list ps) s e q s') :
    (q = .list ps ∧ s'.heap = s.heap ∧ ∀ k s1, readVarint s = .ok k s1 → E.maxLen < k) ∨
    ∃ k s1 before p after vs x s2, readVarint s = .ok k s1 ∧ k ≤ E.maxLen ∧ priors E t ps k = before ++ p :: after ∧
      BinReadsEach E t before s1 vs s2 ∧ BinThrows E 0 t p s2 e x s' ∧ q = .list (vs ++ x :: after) := by
  obtain ⟨n, h⟩ := h
  cases n with
  | zero => cases h
  | succ n =>
    rcases M.bind_eq_exc.1 h with h | ⟨k, s1, h1, h2⟩
    · obtain ⟨rfl, h1⟩ := holdingR_exc h
      refine .inl ⟨rfl, ?_, fun k s1 h2 => by rw [h1] at h2; cases h2⟩
      have hv : ∀ s e s', readVarint s = .exc e s' → s'.heap = s.heap := by
        intro s e s' h
        have ho := (HeapKept.varint s).2 _ _ h
        have h2 := (C75_scalar E (version := 0) (t := .str) rfl (p := .null) (q := .null) (s := s) (s' := s') (e := e)
          ⟨1, by simp only [readX, readXStep, readStep, holdingR, M.bind_apply, h]⟩)
        exact h2.2.1
      exact hv _ _ _ h1
    · have h1' := holdingR_ok.1 h1
      try dsimp only at h2
      split at h2
      · rename_i hk
        cases h2
        refine .inl ⟨rfl, ?_, fun k' s2 h3 => by rw [h1'] at h3; cases h3; exact hk⟩
        have h2 := (C75_scalar E (version := 0) (t := .str) rfl (p := .null) (q := .null) (s := s) (s' := s') (e := .badAlloc)
          ⟨1, by simp only [readX, readXStep, readStep, holdingR, M.bind_apply, h1', if_pos hk]; rfl⟩)
        exact h2.2.1
      · rename_i hk
        rcases M.bind_eq_exc.1 h2 with h2 | ⟨vs, s2, h3, h4⟩
        · obtain ⟨before, p, after, vs, x, s2, h3, h4, h5, rfl⟩ := readElemsX_exc h2
          exact .inr ⟨k, s1, before, p, after, vs, x, s2, h1', Nat.not_lt.1 hk, by rw [← resize_eq]; exact h3, h4, h5, by simp⟩
        · cases h4

/-- Sets and multisets: the previous elements are kept (`insertItem` inserts like the container does); what is added are the elements read
completely before the one which could not be read. In particular there are no partially read elements. -/
theorem C75_set (E : Env) {version : Nat} {hashed multi : Bool} {t : Ty} {ps : List Val} {s s' : RSt} {e : BExc} {q : Val}
    (h : BinThrows E version (.set hashed multi t) (.list ps) s e q s') :
    (q = .list ps ∧ ∀ k s1, readVarint s ≠ .ok k s1) ∨
    ∃ k s1 vs x s2, readVarint s = .ok k s1 ∧ vs.length < k ∧ BinReadsEach E t (List.replicate vs.length (E.defInit t)) s1 vs s2 ∧
      BinThrows E 0 t (E.defInit t) s2 e x s' ∧ q = .list (vs.foldl (fun acc v => insertItem E multi t v acc) ps) := by
  obtain ⟨n, h⟩ := h
  cases n with
  | zero => cases h
  | succ n =>
    rcases M.bind_eq_exc.1 h with h | ⟨k, s1, h1, h2⟩
    · obtain ⟨rfl, h1⟩ := holdingR_exc h
      exact .inl ⟨rfl, fun k s1 h2 => by rw [h1] at h2; cases h2⟩
    · rcases M.bind_eq_exc.1 h2 with h2 | ⟨vs, s2, h3, h4⟩
      · obtain ⟨vs, x, s2, h3, h4, h5, rfl⟩ := readSetItemsX_exc h2
        exact .inr ⟨k, s1, vs, x, s2, holdingR_ok.1 h1, h3, h4, h5, rfl⟩
      · cases h4

/-- Maps and multimaps: likewise for the entries. -/
theorem C75_map (E : Env) {version : Nat} {hashed multi : Bool} {k t : Ty} {ps : List (Val × Val)} {s s' : RSt} {e : BExc} {q : Val}
    (h : BinThrows E version (.map hashed multi k t) (.map ps) s e q s') :
    (q = .map ps ∧ ∀ m s1, readVarint s ≠ .ok m s1) ∨
    ∃ (m : Nat) (s1 : RSt) (kvs : List (Val × Val)) (x : Val) (s2 : RSt), readVarint s = .ok m s1 ∧ kvs.length < m ∧
      BinReadsEach E (.pair k t) (List.replicate kvs.length (E.valInit (.pair k t))) s1 (kvs.map fun kv => .tup [kv.1, kv.2]) s2 ∧
      BinThrows E 0 (.pair k t) (E.valInit (.pair k t)) s2 e x s' ∧
      q = .map (kvs.foldl (fun acc kv => insertEntry E multi k kv.1 kv.2 acc) ps) := by
  obtain ⟨n, h⟩ := h
  cases n with
  | zero => cases h
  | succ n =>
    rcases M.bind_eq_exc.1 h with h | ⟨m, s1, h1, h2⟩
    · obtain ⟨rfl, h1⟩ := holdingR_exc h
      exact .inl ⟨rfl, fun m s1 h2 => by rw [h1] at h2; cases h2⟩
    · rcases M.bind_eq_exc.1 h2 with h2 | ⟨vs, s2, h3, h4⟩
      · obtain ⟨kvs, x, s2, h3, h4, h5, rfl⟩ := readMapItemsX_exc h2
        exact .inr ⟨m, s1, kvs, x, s2, holdingR_ok.1 h1, h3, h4, h5, rfl⟩
      · cases h4

/-- Unique pointers and optionals: unchanged if already the presence flag is missing. Otherwise the object referred to before is gone and
there is a new, partially read one. -/
theorem C75_pointer (E : Env) {version : Nat} {t : Ty} {p q : Val} {s s' : RSt} {e : BExc} :
    (BinThrows E version (.uptr t) p s e q s' →
      (q = p ∧ s.inp = []) ∨ ∃ s1 x, readBool s = .ok true s1 ∧ BinThrows E 0 t (E.valInit t) s1 e x s' ∧ q = .ptr x) ∧
    (BinThrows E version (.opt t) p s e q s' →
      (q = p ∧ s.inp = []) ∨ ∃ s1 x, readBool s = .ok true s1 ∧ BinThrows E 0 t (E.valInit t) s1 e x s' ∧ q = .some x) := by
  have hempty : ∀ s e s', readBool s = .exc e s' → s.inp = [] := by
    intro s e s' h
    rcases M.bind_eq_exc.1 h with h | ⟨a, s1, h1, h2⟩
    · rcases M.bind_eq_exc.1 h with h | ⟨a, s1, h1, h2⟩
      · unfold takeBytes at h
        split at h
        · cases h
        · rename_i hl
          cases hi : s.inp with
          | nil => rfl
          | cons b r => rw [hi] at hl; simp at hl
      · cases h2
    · cases h2
  constructor
  all_goals
    rintro ⟨n, h⟩
    cases n with
    | zero => cases h
    | succ n =>
      rcases M.bind_eq_exc.1 h with h | ⟨b, s1, h1, h2⟩
      · obtain ⟨rfl, h1⟩ := holdingR_exc h
        exact .inl ⟨rfl, hempty _ _ _ h1⟩
      · try dsimp only at h2
        cases b with
        | false => cases h2
        | true =>
          rcases M.bind_eq_exc.1 h2 with h2 | ⟨v, s2, h3, h4⟩
          · obtain ⟨x, h3, rfl⟩ := withinR_exc h2
            exact .inr ⟨s1, x, holdingR_ok.1 h1, ⟨n, h3⟩, rfl⟩
          · cases h4

/-- Shared pointers: unchanged, or referring to a new, partially read object. The shared objects existing before are unchanged, and if the
pointer is unchanged, no shared object has been created. -/
theorem C75_shared_pointer (E : Env) {version : Nat} {t : Ty} {p q : Val} {s s' : RSt} {e : BExc}
    (h : BinThrows E version (.sptr t) p s e q s') :
    s.heap <+: s'.heap ∧
    ((q = p ∧ s'.heap = s.heap ∧ s'.table = s.table) ∨
      ∃ id s1 s2 x, s1.heap = s.heap ++ [E.valInit t] ∧ s1.table = (id, t, s.heap.length) :: s.table ∧
        BinThrows E 0 t (E.valInit t) s1 e x s2 ∧ q = .ref s.heap.length ∧ s'.heap = s2.heap.set s.heap.length x ∧
        s'.heap[s.heap.length]? = some x) := by
  obtain ⟨n, h⟩ := h
  refine ⟨(readX_heapKept E n version _ p s).2 _ _ h, ?_⟩
  have htake : ∀ k s, (∀ e s', takeBytes k s = .exc e s' → s'.heap = s.heap ∧ s'.table = s.table) ∧
      ∀ a s', takeBytes k s = .ok a s' → s'.heap = s.heap ∧ s'.table = s.table := by
    intro k s
    constructor <;> intro e s' h <;> unfold takeBytes at h <;> split at h <;> cases h <;> exact ⟨rfl, rfl⟩
  have hbyte : ∀ s, (∀ e s', readByte s = .exc e s' → s'.heap = s.heap ∧ s'.table = s.table) ∧
      ∀ a s', readByte s = .ok a s' → s'.heap = s.heap ∧ s'.table = s.table := by
    intro s
    constructor
    · intro e s' h
      rcases M.bind_eq_exc.1 h with h | ⟨a, s1, h1, h2⟩
      · exact (htake _ _).1 _ _ h
      · cases h2
    · intro a s' h
      obtain ⟨b, s1, h1, h2⟩ := M.bind_eq_ok.1 h
      cases h2
      exact (htake _ _).2 _ _ h1
  have hvar : ∀ s, (∀ e s', readVarint s = .exc e s' → s'.heap = s.heap ∧ s'.table = s.table) ∧
      ∀ a s', readVarint s = .ok a s' → s'.heap = s.heap ∧ s'.table = s.table := by
    intro s
    have hpeek : (∀ e s', peekByte s = .exc e s' → s'.heap = s.heap ∧ s'.table = s.table) ∧ ∀ a s', peekByte s = .ok a s' → s' = s := by
      constructor <;> intro e s' h <;> unfold peekByte at h <;> split at h <;> cases h
      · exact ⟨rfl, rfl⟩
      · rfl
    constructor
    · intro e s' h
      rcases M.bind_eq_exc.1 h with h | ⟨a, s1, h1, h2⟩
      · exact hpeek.1 _ _ h
      · have := hpeek.2 _ _ h1
        subst this
        try dsimp only at h2
        split at h2
        · cases h2
          exact ⟨rfl, rfl⟩
        · rcases M.bind_eq_exc.1 h2 with h | ⟨a, s1, h1, h2⟩
          · exact (htake _ _).1 _ _ h
          · cases h2
    · intro a s' h
      obtain ⟨b, s1, h1, h2⟩ := M.bind_eq_ok.1 h
      have := hpeek.2 _ _ h1
      subst this
      try dsimp only at h2
      split at h2
      · cases h2
      · obtain ⟨c, s2, h3, h4⟩ := M.bind_eq_ok.1 h2
        cases h4
        exact (htake _ _).2 _ _ h3
  have hid : ∀ (c : Prop) [Decidable c] (s : RSt),
      (∀ e s', (if c then (do let bs ← takeBytes 8; pure (ofBE bs)) else readVarint : RM Nat) s = .exc e s' →
        s'.heap = s.heap ∧ s'.table = s.table) ∧
      ∀ a s', (if c then (do let bs ← takeBytes 8; pure (ofBE bs)) else readVarint : RM Nat) s = .ok a s' →
        s'.heap = s.heap ∧ s'.table = s.table := by
    intro c _ s
    split
    · constructor
      · intro e s' h
        rcases M.bind_eq_exc.1 h with h | ⟨a, s1, h1, h2⟩
        · exact (htake _ _).1 _ _ h
        · cases h2
      · intro a s' h
        obtain ⟨b, s1, h1, h2⟩ := M.bind_eq_ok.1 h
        cases h2
        exact (htake _ _).2 _ _ h1
    · exact hvar s
  cases n with
  | zero => cases h
  | succ n =>
    rcases M.bind_eq_exc.1 h with h | ⟨mode, s1, h1, h2⟩
    · obtain ⟨rfl, h1⟩ := holdingR_exc h
      exact .inl ⟨rfl, (hbyte _).1 _ _ h1⟩
    · have e1 := (hbyte _).2 _ _ (holdingR_ok.1 h1)
      try dsimp only at h2
      split at h2
      · cases h2
      · rcases M.bind_eq_exc.1 h2 with h2 | ⟨id, s2, h3, h4⟩
        · obtain ⟨rfl, h3⟩ := holdingR_exc h2
          have := (hid _ _).1 _ _ h3
          exact .inl ⟨rfl, this.1.trans e1.1, this.2.trans e1.2⟩
        · have e2 := (hid _ _).2 _ _ (holdingR_ok.1 h3)
          have hh : s2.heap = s.heap := e2.1.trans e1.1
          have ht : s2.table = s.table := e2.2.trans e1.2
          try dsimp only at h4
          split at h4
          · rcases M.bind_eq_exc.1 h4 with h4 | ⟨a, s3, h5, h6⟩
            · cases h4
            · cases h5
              rcases M.bind_eq_exc.1 h6 with h6 | ⟨v, s4, h7, h8⟩
              · obtain ⟨x, s0, h7, rfl, rfl⟩ := withinShared_exc h6
                have hk := (readX_heapKept E n 0 t (E.valInit t) _).2 _ _ h7
                have hlt : s2.heap.length < s0.heap.length := by
                  have := hk.length_le
                  simp at this
                  omega
                refine .inr ⟨id, _, s0, x, ?_, ?_, ⟨n, h7⟩, by rw [hh], by rw [hh], ?_⟩
                · simp [hh]
                · simp [hh, ht]
                · rw [← hh]
                  simp [hlt]
              · rcases M.bind_eq_exc.1 h8 with h8 | ⟨u, s5, h9, h10⟩
                · cases h8
                · cases h10
          · rcases M.bind_eq_exc.1 h4 with h4 | ⟨a, s3, h5, h6⟩
            · obtain ⟨rfl, h5⟩ := holdingR_exc h4
              unfold lookupShared at h5
              cases hl : s2.table.lookup id with
              | none => rw [hl] at h5; cases h5; exact .inl ⟨rfl, hh, ht⟩
              | some q =>
                rw [hl] at h5
                try dsimp only at h5
                split at h5 <;> cases h5
                exact .inl ⟨rfl, hh, ht⟩
            · cases h6

/-- Pairs: the part which could not be read is partially read; if it is the second, the first one has been read. -/
theorem C75_pair (E : Env) {version : Nat} {a b : Ty} {x y q : Val} {s s' : RSt} {e : BExc}
    (h : BinThrows E version (.pair a b) (.tup [x, y]) s e q s') :
    (∃ x', BinThrows E 0 a x s e x' s' ∧ q = .tup [x', y]) ∨
    ∃ x' s1 y', BinReads E 0 a x s x' s1 ∧ BinThrows E 0 b y s1 e y' s' ∧ q = .tup [x', y'] := by
  obtain ⟨n, h⟩ := h
  cases n with
  | zero => cases h
  | succ n =>
    rcases M.bind_eq_exc.1 h with h | ⟨x', s1, h1, h2⟩
    · obtain ⟨x', h1, rfl⟩ := withinR_exc h
      exact .inl ⟨x', ⟨n, h1⟩, rfl⟩
    · rcases M.bind_eq_exc.1 h2 with h2 | ⟨y', s2, h3, h4⟩
      · obtain ⟨y', h3, rfl⟩ := withinR_exc h2
        exact .inr ⟨x', s1, y', ⟨n, (readX_agrees E n _ _ _).ok_iff.1 (withinR_ok.1 h1)⟩, ⟨n, h3⟩, rfl⟩
      · cases h4

/-- Variants: unchanged if the index is missing or invalid; otherwise the variant holds a new, partially read value of the alternative. -/
theorem C75_variant (E : Env) {version : Nat} {ts : List Ty} {p q : Val} {s s' : RSt} {e : BExc}
    (h : BinThrows E version (.variant ts) p s e q s') :
    (q = p ∧ ∀ i s1, readByte s = .ok i s1 → ts.length ≤ i) ∨
    ∃ i t s1 x, readByte s = .ok i s1 ∧ ts[i]? = some t ∧ BinThrows E 0 t (E.valInit t) s1 e x s' ∧ q = .alt i x := by
  obtain ⟨n, h⟩ := h
  cases n with
  | zero => cases h
  | succ n =>
    rcases M.bind_eq_exc.1 h with h | ⟨i, s1, h1, h2⟩
    · obtain ⟨rfl, h1⟩ := holdingR_exc h
      exact .inl ⟨rfl, fun i s1 h2 => by rw [h1] at h2; cases h2⟩
    · have h1' := holdingR_ok.1 h1
      cases hti : ts[i]? with
      | none =>
        simp only [hti] at h2
        cases h2
        exact .inl ⟨rfl, fun i' s2 h3 => by rw [h1'] at h3; cases h3; exact List.getElem?_eq_none_iff.1 hti⟩
      | some t =>
        simp only [hti] at h2
        have key : (do let v ← withinR (.alt i) (readX E n 0 t (E.valInit t)); pure (Val.alt i v) : XR Val) s1 = .exc (e, q) s' →
            ∃ i t s1 x, readByte s = .ok i s1 ∧ ts[i]? = some t ∧ BinThrows E 0 t (E.valInit t) s1 e x s' ∧ q = .alt i x := by
          intro h
          rcases M.bind_eq_exc.1 h with h | ⟨v, s2, h3, h4⟩
          · obtain ⟨x, h3, rfl⟩ := withinR_exc h
            exact ⟨i, t, s1, x, h1', hti, ⟨n, h3⟩, rfl⟩
          · cases h4
        cases t <;> first | exact .inr (key h2) | cases h2

/-- Objects of classes are read in this order: the base classes, the version (if the class is versioned), the members which belong to the
version. An exception means that (1) one of the bases could not be read, (2) the version is missing or unsupported, or (3) one of the
members could not be read. What comes before has been read completely; what comes after has not been touched. -/
theorem C75_class (E : Env) {version : Nat} {c : ClassId} {p q : Val} {s s' : RSt} {e : BExc} (h : BinThrows E version (.cls c) p s e q s') :
    ∃ ci, E.cls c = some ci ∧
      ((∃ before b after v s1, ci.bin.bases = before ++ b :: after ∧ BinReadsBases E version before p s v s1 ∧
          BinThrows E version (.cls b) v s1 e q s') ∨
        (∃ s1, BinReadsBases E version ci.bin.bases p s q s1 ∧ readVersion ci version s1 = .exc e s') ∨
        ∃ st s1 ver s2 before f after st1 s3 x y, BinReadsBases E version ci.bin.bases p s (.obj st) s1 ∧ readVersion ci version s1 = .ok ver s2 ∧
          activeFields ver ci.bin.readFields = before ++ f :: after ∧ BinReadsMembers E ver before st s2 st1 s3 ∧
          Store.get? st1 f.key = some x ∧ BinThrows E ver f.ty x s3 e y s' ∧ q = .obj (Store.set st1 f.key y)) := by
  obtain ⟨n, h⟩ := h
  cases n with
  | zero => cases h
  | succ n =>
    simp only [readX, readXStep] at h
    cases hc : E.cls c with
    | none => rw [hc] at h; cases h
    | some ci =>
      rw [hc] at h
      refine ⟨ci, rfl, ?_⟩
      rcases M.bind_eq_exc.1 h with h | ⟨r, s1, h1, h2⟩
      · unfold readClassX at h
        split at h
        · cases h
        · rcases M.bind_eq_exc.1 h with h | ⟨v, s1, h1, h2⟩
          · exact .inl (readBasesX_exc h)
          · have hb := readBasesX_ok h1
            cases v with
            | obj st =>
              rcases M.bind_eq_exc.1 h2 with h2 | ⟨ver, s2, h3, h4⟩
              · obtain ⟨rfl, h3⟩ := holdingR_exc h2
                exact .inr (.inl ⟨s1, hb, h3⟩)
              · rcases M.bind_eq_exc.1 h4 with h4 | ⟨st', s3, h5, h6⟩
                · obtain ⟨before, f, after, st1, s3, x, y, h5, h6, h7, h8, rfl⟩ := readFieldsX_exc h4
                  exact .inr (.inr ⟨st, s1, ver, s2, before, f, after, st1, s3, x, y, hb, holdingR_ok.1 h3, h5, h6, h7, h8, rfl⟩)
                · cases h6
            | _ => cases h2
      · cases h2

/-! ## Members which are not read -/

/-- the same object except for members `K` -/
def SameExcept (K : FieldKey → Prop) (st : Store) (q : Val) : Prop :=
  ∃ st' : Store, q = .obj st' ∧ ∀ k, ¬ K k → st'.get? k = st.get? k

/-- members which are possibly read -/
def ReadKey (E : Env) (c : ClassId) (k : FieldKey) : Prop := ∃ g f, HasField E c g f ∧ f.key = k

section
variable {E : Env} {n : Nat} (ih : ∀ w c (st : Store) s,
  (∀ v s', readX E n w (.cls c) (.obj st) s = .ok v s' → SameExcept (ReadKey E c) st v) ∧
  (∀ e q s', readX E n w (.cls c) (.obj st) s = .exc (e, q) s' → SameExcept (ReadKey E c) st q))
include ih

theorem untouched_bases {K : FieldKey → Prop} (w : Nat) (bs : List ClassId) (hK : ∀ b ∈ bs, ∀ k, ReadKey E b k → K k) (st : Store) (s : RSt) :
    (∀ v s', readBasesX (readX E n) w bs (.obj st) s = .ok v s' → SameExcept K st v) ∧
    (∀ e q s', readBasesX (readX E n) w bs (.obj st) s = .exc (e, q) s' → SameExcept K st q) := by
  have weak : ∀ {b} {st : Store} {q : Val}, (∀ k, ReadKey E b k → K k) → SameExcept (ReadKey E b) st q → SameExcept K st q := by
    rintro b st q h ⟨st', rfl, h1⟩
    exact ⟨st', rfl, fun k hk => h1 k fun h' => hk (h k h')⟩
  have trans : ∀ {st st' : Store} {q : Val}, SameExcept K st (.obj st') → SameExcept K st' q → SameExcept K st q := by
    rintro st st' q ⟨_, h, h1⟩ ⟨st2, rfl, h2⟩
    cases h
    exact ⟨st2, rfl, fun k hk => (h2 k hk).trans (h1 k hk)⟩
  induction bs generalizing st s with
  | nil =>
    refine ⟨fun v s' h => ?_, fun e q s' h => ?_⟩
    · cases h
      exact ⟨st, rfl, fun _ _ => rfl⟩
    · cases h
  | cons b bs ihb =>
    have hb := hK b List.mem_cons_self
    have hbs : ∀ b ∈ bs, ∀ k, ReadKey E b k → K k := fun b hb => hK b (List.mem_cons_of_mem _ hb)
    refine ⟨fun v s' h => ?_, fun e q s' h => ?_⟩
    · obtain ⟨v1, s1, h1, h2⟩ := M.bind_eq_ok.1 h
      have h3 := weak hb ((ih w b st s).1 _ _ h1)
      obtain ⟨st1, rfl, -⟩ := id h3
      exact trans h3 ((ihb hbs st1 s1).1 _ _ h2)
    · rcases M.bind_eq_exc.1 h with h | ⟨v1, s1, h1, h2⟩
      · exact weak hb ((ih w b st s).2 _ _ _ h)
      · have h3 := weak hb ((ih w b st s).1 _ _ h1)
        obtain ⟨st1, rfl, -⟩ := id h3
        exact trans h3 ((ihb hbs st1 s1).2 _ _ _ h2)

omit ih in
theorem untouched_fields {K : FieldKey → Prop} (w : Nat) (fs : List (Guard × Field)) (hK : ∀ gf ∈ fs, K gf.2.key) (st : Store) (s : RSt) :
    (∀ st' s', readFieldsX (readX E n) w fs st s = .ok st' s' → SameExcept K st (.obj st')) ∧
    (∀ e q s', readFieldsX (readX E n) w fs st s = .exc (e, q) s' → SameExcept K st q) := by
  induction fs generalizing st s with
  | nil =>
    refine ⟨fun v s' h => ?_, fun e q s' h => ?_⟩
    · cases h
      exact ⟨st, rfl, fun _ _ => rfl⟩
    · cases h
  | cons gf fs ihf =>
    obtain ⟨g, f⟩ := gf
    have hf := hK _ List.mem_cons_self
    have hfs : ∀ gf ∈ fs, K gf.2.key := fun gf h => hK gf (List.mem_cons_of_mem _ h)
    have hset : ∀ (v : Val) {q : Val}, SameExcept K (st.set f.key v) q → SameExcept K st q := by
      rintro v q ⟨st', rfl, h⟩
      exact ⟨st', rfl, fun k hk => (h k hk).trans (get?_set_ne _ _ fun e => hk (e ▸ hf))⟩
    simp only [readFieldsX]
    split
    · cases hp : st.get? f.key with
      | none => exact ⟨fun v s' h => (by cases h), fun e q s' h => (by cases h)⟩
      | some p =>
        refine ⟨fun v s' h => ?_, fun e q s' h => ?_⟩
        · obtain ⟨v1, s1, h1, h2⟩ := M.bind_eq_ok.1 h
          exact hset v1 ((ihf hfs _ _).1 _ _ h2)
        · rcases M.bind_eq_exc.1 h with h | ⟨v1, s1, h1, h2⟩
          · obtain ⟨x, h1, rfl⟩ := withinR_exc h
            exact hset x ⟨_, rfl, fun _ _ => rfl⟩
          · exact hset v1 ((ihf hfs _ _).2 _ _ _ h2)
    · exact ihf hfs st s

end

theorem untouched (E : Env) (n w : Nat) (c : ClassId) (st : Store) (s : RSt) :
    (∀ v s', readX E n w (.cls c) (.obj st) s = .ok v s' → SameExcept (ReadKey E c) st v) ∧
    (∀ e q s', readX E n w (.cls c) (.obj st) s = .exc (e, q) s' → SameExcept (ReadKey E c) st q) := by
  induction n generalizing w c st s with
  | zero => exact ⟨fun v s' h => (by cases h), fun e q s' h => (by cases h)⟩
  | succ n ih =>
    simp only [readX, readXStep]
    cases hc : E.cls c with
    | none => exact ⟨fun v s' h => (by cases h), fun e q s' h => (by cases h)⟩
    | some ci =>
      have hb := untouched_bases ih (K := ReadKey E c) w ci.bin.bases
        (fun b hb k hk => by obtain ⟨g, f, h1, h2⟩ := hk; exact ⟨g, f, .base hc hb h1, h2⟩) st
      have hf := untouched_fields (E := E) (n := n) (K := ReadKey E c) (fs := ci.bin.readFields)
        (hK := fun gf h => ⟨gf.1, gf.2, .own hc h, rfl⟩)
      have trans : ∀ {st st' : Store} {q : Val}, SameExcept (ReadKey E c) st (.obj st') → SameExcept (ReadKey E c) st' q →
          SameExcept (ReadKey E c) st q := by
        rintro st st' q ⟨_, h, h1⟩ ⟨st2, rfl, h2⟩
        cases h
        exact ⟨st2, rfl, fun k hk => (h2 k hk).trans (h1 k hk)⟩
      refine ⟨fun v s' h => ?_, fun e q s' h => ?_⟩
      · obtain ⟨r, s1, h1, h2⟩ := M.bind_eq_ok.1 h
        cases h2
        unfold readClassX at h1
        split at h1
        · cases h1
        · obtain ⟨v1, s1, h3, h4⟩ := M.bind_eq_ok.1 h1
          have h5 := (hb s).1 _ _ h3
          obtain ⟨st1, rfl, -⟩ := id h5
          obtain ⟨ver, s2, h6, h7⟩ := M.bind_eq_ok.1 h4
          obtain ⟨st2, s3, h8, h9⟩ := M.bind_eq_ok.1 h7
          cases h9
          exact trans h5 ((hf _ _ _).1 _ _ h8)
      · rcases M.bind_eq_exc.1 h with h1 | ⟨v1, s1, h1, h2⟩
        · unfold readClassX at h1
          split at h1
          · cases h1
          · rcases M.bind_eq_exc.1 h1 with h3 | ⟨v1, s1, h3, h4⟩
            · exact (hb s).2 _ _ _ h3
            · have h5 := (hb s).1 _ _ h3
              obtain ⟨st1, rfl, -⟩ := id h5
              rcases M.bind_eq_exc.1 h4 with h6 | ⟨ver, s2, h6, h7⟩
              · obtain ⟨rfl, -⟩ := holdingR_exc h6
                exact h5
              · rcases M.bind_eq_exc.1 h7 with h8 | ⟨st2, s3, h8, h9⟩
                · exact trans h5 ((hf _ _ _).2 _ _ _ h8)
                · cases h9
        · cases h2

/-- Members of the object which are never read (e.g. members of a class which is not a base, or constants) have not been touched, whether
reading the object succeeds or throws. -/
theorem C75_other_members (E : Env) {version : Nat} {c : ClassId} {st : Store} {s s' : RSt} {e : BExc} {q : Val}
    (h : BinThrows E version (.cls c) (.obj st) s e q s') :
    ∃ st' : Store, q = .obj st' ∧ ∀ k, (∀ g f, HasField E c g f → f.key ≠ k) → st'.get? k = st.get? k := by
  obtain ⟨n, h⟩ := h
  obtain ⟨st', h1, h2⟩ := (untouched E n version c st s).2 _ _ _ h
  exact ⟨st', h1, fun k hk => h2 k fun ⟨g, f, h3, h4⟩ => hk g f h3 h4⟩

end Verif

namespace Verif.Demo

/-- compares an outcome with an expected exception -/
def isExc {α : Type} (r : Res (BExc × Val) RSt α) (e : BExc) (q : Val) (s : RSt) : Bool :=
  match r with
  | .exc (e', q') s' => decide (e' = e) && q'.eqb q && decide (s'.inp = s.inp) && decide (s'.table = s.table) && Val.eqbL s'.heap s.heap
  | _ => false

theorem exc_of_check {α : Type} {r : Res (BExc × Val) RSt α} {e : BExc} {q : Val} {s : RSt} (h : isExc r e q s = true) : r = .exc (e, q) s := by
  unfold isExc at h
  split at h
  · rename_i e' q' s'
    simp only [Bool.and_eq_true, decide_eq_true_eq] at h
    obtain ⟨⟨⟨⟨h1, h2⟩, h3⟩, h4⟩, h5⟩ := h
    have h5 := Val.eq_of_eqbL _ _ h5
    rw [h1, Val.eq_of_eqb _ _ h2]
    cases s'
    cases s
    simp_all
  · cases h

/-! Reading an object of class `Derived` from input which ends within the second string of the member `s` -/

/-- the object before -/
def prior : Store := [(fI.key, .int 1), (fM.key, .map [(.str (lit "a"), .int 1)]), (fS.key, .list [.str (lit "x"), .str (lit "y"), .str (lit "z")]), (fK.key, .int 7)]

/-- the object after the exception: `i` has been read, an entry has been added to `m`, `s` has been truncated to the announced length and
its first string has been read; the constant `k` is untouched. -/
def partialObj : Store := [(fI.key, .int 258), (fM.key, .map [(.str (lit "a"), .int 1), (.str (lit "k"), .int 5)]), (fS.key, .list [.str (lit "a"), .str (lit "y")]), (fK.key, .int 7)]

def cutInput : Str := [0, 0, 1, 2, 0x81, 0x81, 0x6b, 0, 0, 0, 5, 0x83, 0x82, 0x81, 0x61, 0x83, 0x62]

theorem cut_throws : restoreFromBinaryX env 5 1 (.obj prior) cutInput = .exc (.eof, .obj partialObj) ⟨[], [], []⟩ :=
  exc_of_check (by decide +kernel)

theorem prior_typed : HasTy env [] (.cls 1) (.obj prior) := by
  have hf : ∀ g f, HasField env 1 g f → f = fI ∨ f = fM ∨ f = fS := by
    intro g f h
    cases h with
    | own h1 h2 =>
      cases h1
      simp only [derived, List.mem_singleton, Prod.mk.injEq] at h2
      exact .inr (.inr h2.2)
    | base h1 h2 h3 =>
      cases h1
      simp only [derived, List.mem_singleton] at h2
      subst h2
      cases h3 with
      | own h4 h5 =>
        cases h4
        simp only [base, List.mem_cons, Prod.mk.injEq, List.not_mem_nil, or_false] at h5
        rcases h5 with h | h
        · exact .inl h.2
        · exact .inr (.inl h.2)
      | base h4 h5 =>
        cases h4
        simp [base] at h5
  refine .cls (fun g f h => ?_) (fun g f v h hv => ?_)
  · rcases hf g f h with rfl | rfl | rfl <;> decide +kernel
  · rcases hf g f h with rfl | rfl | rfl <;> cases hv
    · exact .int _ _ (by decide) (by decide)
    · refine .map (fun q hq => ?_) (fun q hq => ?_) <;> cases List.mem_singleton.1 hq
      · exact .str _
      · exact .int _ _ (by decide) (by decide)
    · refine .vec fun v hv => ?_
      simp only [List.mem_cons, List.not_mem_nil, or_false] at hv
      rcases hv with rfl | rfl | rfl <;> exact .str _

example : ∃ HT' s', TypedSt env HT' s' ∧ HasTy env HT' (.cls 1) (.obj partialObj) := by
  obtain ⟨HT', h1, h2⟩ := ((C75_restoreFromBinary keyTypes (readable (by simp [demoTy])) 5 _ prior_typed cutInput).2.2 _ _ _ cut_throws).2
  exact ⟨HT', _, h1, h2⟩

example := C75_class env (restore_throws cut_throws)
example := C75_other_members env (restore_throws cut_throws)

/-- within the vector: as described by `C75_array`, the sequence has the announced length already -/
example : BinThrows env 3 (.vec .str) (.list [.str (lit "x"), .str (lit "y"), .str (lit "z")]) (RSt.init [0x82, 0x81, 0x61, 0x83, 0x62]) .eof
    (.list [.str (lit "a"), .str (lit "y")]) ⟨[], [], []⟩ := ⟨3, rfl⟩
example := C75_array env (version := 3) (t := .str) (ps := [.str (lit "x"), .str (lit "y"), .str (lit "z")])
  (s := RSt.init [0x82, 0x81, 0x61, 0x83, 0x62]) ⟨3, rfl⟩

/-- a set keeps its elements and the ones which have been read completely -/
example : BinThrows env 0 (.set false false .str) (.list [.str (lit "x")]) (RSt.init [0x83, 0x81, 0x79, 0x81, 0x61, 0x83, 0x62]) .eof
    (.list [.str (lit "a"), .str (lit "x"), .str (lit "y")]) ⟨[], [], []⟩ := ⟨3, rfl⟩
example := C75_set env (hashed := false) (multi := false) (t := .str) (ps := [.str (lit "x")])
  (s := RSt.init [0x83, 0x81, 0x79, 0x81, 0x61, 0x83, 0x62]) (version := 0) ⟨3, rfl⟩
example := C75_map env (hashed := false) (multi := false) (k := .str) (t := .bool) (ps := [(.str (lit "x"), .bool true)])
  (s := RSt.init [0x82, 0x81, 0x79, 1, 0x81, 0x61]) (version := 0) ⟨4, rfl⟩

/-- a linked list the second node of which is incomplete: both nodes exist (objects 0 and 1) -/
theorem cut_list : BinThrows env 0 (.sptr (.cls 2)) .null (RSt.init [1, 0x81, 0, 0, 0, 5, 1, 0x82, 0, 0, 0, 6]) .eof (.ref 0)
    ⟨[], [(2, .cls 2, 1), (1, .cls 2, 0)], [.obj [(fV.key, .int 5), (fN.key, .ref 1)], .obj [(fV.key, .int 6), (fN.key, .null)]]⟩ :=
  ⟨6, exc_of_check (by decide +kernel)⟩
example := C75_shared_pointer env cut_list
example := C75_object_stays_valid keyTypes (readable (by simp [demoTy])) (HT := []) ⟨rfl, by simp [RSt.init], by simp⟩ (.sptrNone _) cut_list
example := (C75_pointer env (version := 0) (t := .pair .str .bool) (p := .null) (s := RSt.init [1, 0x81, 0x61])).1 ⟨4, rfl⟩
example := C75_pair env (version := 0) (a := .str) (b := .bool) (x := .str (lit "p")) (y := .bool true) (s := RSt.init [0x81, 0x61]) ⟨3, rfl⟩
example := C75_variant env (version := 0) (ts := [.bool, .str]) (p := .alt 0 (.bool true)) (s := RSt.init [1, 0x82, 0x61]) ⟨3, rfl⟩
example := C75_scalar env (version := 0) (t := .str) rfl (p := .str (lit "p")) (s := RSt.init [0x82, 0x61]) ⟨1, rfl⟩

end Verif.Demo
