import Verif.Lemmas.BinClosed
import Verif.Lemmas.Bytes
import Verif.Demo

/-!
# C30, C31: framing and truncation
-/

namespace Verif

/-- Reading from session state `s` with remaining input `inp` -/
def RSt.withInput (s : RSt) (inp : Str) : RSt := { s with inp := inp }

/-- If it succeeds, it consumes a prefix `used` of the input, does the same for any other continuation, and throws on every
strict prefix of `used`. -/
def Framed (α : Type) (m : RM α) : Prop := ∀ s a s', m s = .ok a s' → ∃ used : Str, s.inp = used ++ s'.inp ∧
  (∀ rest, m (s.withInput (used ++ rest)) = .ok a (s'.withInput rest)) ∧
  (∀ cut rest, used = cut ++ rest → rest ≠ [] → ∃ s'', m (s.withInput cut) = .exc .eof s'')

theorem framed_take (k : Nat) : Framed Str (takeBytes k) := by
  intro s a s' h
  unfold takeBytes at h
  split at h
  · rename_i hk
    cases h
    refine ⟨s.inp.take k, by simp, ?_, ?_⟩
    · intro rest
      exact takeBytes_append _ rest s k (by simp [hk])
    · intro cut rest hc hr
      have hl : (s.inp.take k).length = k := by simp [hk]
      have := List.length_pos_iff.2 hr
      rw [hc, List.length_append] at hl
      refine ⟨s.withInput [], ?_⟩
      rw [takeBytes, if_neg]
      · rfl
      · simp [RSt.withInput]
        omega
  · cases h

theorem framed_varint : Framed Nat readVarint := by
  intro s a s' h
  unfold readVarint at h
  rw [M.bind_eq_ok] at h
  obtain ⟨b, s1, h1, h2⟩ := h
  cases hi : s.inp with
  | nil => rw [peekByte, hi] at h1; cases h1
  | cons c cs =>
    rw [peekByte, hi] at h1
    cases h1
    split at h2
    · cases h2
    · rename_i hp
      have hpeek : ∀ rest : Str, readVarint (s.withInput (c :: rest)) =
          (takeBytes (prefixLen c.toNat) >>= fun bs => Pure.pure (ofBE bs - 2 ^ (7 * prefixLen c.toNat)))
            (s.withInput (c :: rest)) := by
        intro rest
        unfold readVarint
        have h0 : peekByte (s.withInput (c :: rest)) = .ok c.toNat (s.withInput (c :: rest)) := rfl
        rw [M.bind_ok h0, if_neg hp]
      rw [M.bind_eq_ok] at h2
      obtain ⟨bs, s2, h3, h4⟩ := h2
      cases h4
      obtain ⟨used, hu, hu2, hu3⟩ := framed_take _ _ _ _ h3
      have hpos := prefixLen_pos c.toNat
      have hne : ∃ used', used = c :: used' := by
        cases used with
        | nil =>
          exfalso
          unfold takeBytes at h3
          split at h3
          · rename_i hk
            cases h3
            have := congrArg List.length hu
            simp at this
            omega
          · cases h3
        | cons c' used' =>
          rw [hi, List.cons_append] at hu
          cases hu
          exact ⟨_, rfl⟩
      obtain ⟨used', rfl⟩ := hne
      refine ⟨c :: used', by rw [← hi]; exact hu, ?_, ?_⟩
      · intro rest
        rw [List.cons_append, hpeek, M.bind_ok (by rw [← List.cons_append]; exact hu2 rest)]
        rfl
      · intro cut rest hc hr
        cases cut with
        | nil => exact ⟨s.withInput [], by rw [readVarint, M.bind_exc]; rfl⟩
        | cons c' cut' =>
          have : c' = c := by cases hc; rfl
          subst this
          obtain ⟨s'', hs''⟩ := hu3 _ _ hc hr
          exact ⟨s'', by rw [hpeek, M.bind_exc hs'']⟩

theorem framed_state {α : Type} {m : RM α}
    (h : ∀ s a s', m s = .ok a s' → s'.inp = s.inp ∧ ∀ i, m (s.withInput i) = .ok a (s'.withInput i)) : Framed α m := by
  intro s a s' hm
  obtain ⟨h1, h2⟩ := h s a s' hm
  refine ⟨[], by simp [h1], fun rest => h2 rest, ?_⟩
  intro cut rest hc hr
  exact absurd (List.append_eq_nil_iff.1 hc.symm).2 hr

theorem framed_closed : RClosed Framed where
  pure a := framed_state (by rintro s a' s' h; cases h; exact ⟨rfl, fun _ => rfl⟩)
  ub := by intro α s a s' h; cases h
  stuck := by intro α s a s' h; cases h
  fuel := by intro α s a s' h; cases h
  throw e := by intro s a s' h; cases h
  bind m f hm hf := by
    intro s b s'' h
    rw [M.bind_eq_ok] at h
    obtain ⟨a, s', h1, h2⟩ := h
    obtain ⟨u1, e1, c1, t1⟩ := hm _ _ _ h1
    obtain ⟨u2, e2, c2, t2⟩ := hf a _ _ _ h2
    refine ⟨u1 ++ u2, by rw [e1, e2, List.append_assoc], ?_, ?_⟩
    · intro rest
      rw [List.append_assoc, M.bind_ok (c1 _)]
      exact c2 rest
    · intro cut rest hc hr
      rcases List.append_eq_append_iff.1 hc with ⟨d, hd1, hd2⟩ | ⟨d, hd1, hd2⟩
      · -- cut behind `u1`
        obtain ⟨s3, h3⟩ := t2 d rest hd2 hr
        refine ⟨s3, ?_⟩
        rw [hd1, M.bind_ok (c1 _)]
        exact h3
      · by_cases hd : d = []
        · subst hd
          obtain ⟨s3, h3⟩ := t2 [] rest (by simpa using hd2.symm) hr
          refine ⟨s3, ?_⟩
          have hcut : cut = u1 ++ [] := by simpa using hd1.symm
          rw [hcut, M.bind_ok (c1 _)]
          exact h3
        · obtain ⟨s3, h3⟩ := t1 cut d hd1 hd
          exact ⟨s3, by rw [M.bind_exc h3]⟩
  take := framed_take
  varint := framed_varint
  alloc id t v := framed_state (by rintro s a s' h; cases h; exact ⟨rfl, fun _ => rfl⟩)
  store a v := framed_state (by rintro s a s' h; cases h; exact ⟨rfl, fun _ => rfl⟩)
  lookup id t := framed_state (by
    rintro s a s' h
    simp only [lookupShared, RSt.withInput] at h ⊢
    cases hl : s.table.lookup id with
    | none => rw [hl] at h; cases h
    | some q =>
      obtain ⟨t', a'⟩ := q
      rw [hl] at h
      dsimp only at h ⊢
      split at h
      · rename_i ht
        cases h
        exact ⟨rfl, fun _ => by rw [if_pos ht]⟩
      · cases h)

/-- **C30**: a successful read of any type into any object consumes a prefix of the stream; the value read, that prefix and
the state of the session afterwards do not depend on what follows. -/
theorem C30_read_consumes_prefix (E : Env) (n version : Nat) (t : Ty) (p v : Val) (s s' : RSt)
    (h : read E n version t p s = .ok v s') :
    ∃ used : Str, s.inp = used ++ s'.inp ∧
      ∀ rest, read E n version t p (s.withInput (used ++ rest)) = .ok v (s'.withInput rest) := by
  obtain ⟨used, h1, h2, -⟩ := framed_closed.read E n version t p s v s' h
  exact ⟨used, h1, h2⟩

/-- **C31**: reading from a strict prefix of what a successful read would consume throws. -/
theorem C31_truncated_input_throws (E : Env) (n version : Nat) (t : Ty) (p v : Val) (s s' : RSt)
    (h : read E n version t p s = .ok v s') (cut rest : Str) (hc : s.inp = cut ++ rest) (hr : s'.inp.length < rest.length) :
    ∃ s'', read E n version t p (s.withInput cut) = .exc .eof s'' := by
  obtain ⟨used, h1, -, h3⟩ := framed_closed.read E n version t p s v s' h
  rw [h1] at hc
  rcases List.append_eq_append_iff.1 hc with ⟨d, hd1, hd2⟩ | ⟨d, hd1, hd2⟩
  · rw [hd2, List.length_append] at hr
    omega
  · refine h3 cut d hd1 ?_
    rintro rfl
    rw [List.nil_append] at hd2
    rw [hd2] at hr
    omega

/-- **C31**: the same for `restoreFromBinary`: cutting off the stream anywhere within the bytes of the object throws. -/
theorem C31_truncated_restore_throws (E : Env) (n : Nat) (c : ClassId) (p : Val) (r : Val × Nat) (s' : RSt) (inp cut rest : Str)
    (h : restoreFromBinary E n c p inp = .ok r s') (hc : inp = cut ++ rest) (hr : s'.inp.length < rest.length) :
    ∃ s'', restoreFromBinary E n c p cut = .exc .eof s'' := by
  unfold restoreFromBinary at h ⊢
  cases hci : E.cls c with
  | none => rw [hci] at h; cases h
  | some ci =>
    rw [hci] at h
    dsimp only at h ⊢
    obtain ⟨used, h1, -, h3⟩ := framed_closed.restore E n 0 ci p _ _ _ h
    have h1 : inp = used ++ s'.inp := h1
    rw [h1] at hc
    rcases List.append_eq_append_iff.1 hc with ⟨d, hd1, hd2⟩ | ⟨d, hd1, hd2⟩
    · rw [hd2, List.length_append] at hr
      omega
    · refine h3 cut d hd1 ?_
      rintro rfl
      rw [List.nil_append] at hd2
      rw [hd2] at hr
      omega

end Verif
