import Verif.Spec.BinPointers
import Verif.Props.BinaryRoundTrip

/-!
# C29 (occurrences), C33 (checks), C34: shared pointers in the binary format
-/

namespace Verif

theorem writeId_ok (a : Nat) (ha : a < 2 ^ 64) (ws : WSt) :
    ∃ bs, IdBytes a bs ∧ writeId a ws = .ok () { ws with out := ws.out ++ bs } := by
  unfold writeId bigId
  by_cases h : 2 ^ 55 ≤ a
  · rw [if_pos (by simpa using h)]
    exact ⟨_, .long h ha, rfl⟩
  · rw [if_neg (by simpa using h)]
    obtain ⟨L, hL⟩ := varintLen_isSome (x := a) (by omega)
    obtain ⟨h1, h2, h3, h4⟩ := varintLen_some hL
    exact ⟨_, .short (by omega) h1 h2 h3 h4, by simp [writeVarint, hL, emit]⟩

theorem readId_ok {a : Nat} {bs : Str} (h : IdBytes a bs) (mode : Nat) (hm : mode &&& 4 ≠ 0 ↔ 2 ^ 55 ≤ a) (rs : RSt) (rest : Str)
    (hi : rs.inp = bs ++ rest) :
    (if mode &&& 4 ≠ 0 then (do let bs ← takeBytes 8; pure (ofBE bs)) else readVarint : RM Nat) rs = .ok a { rs with inp := rest } := by
  cases h with
  | short h1 h2 h3 h4 h5 =>
    rw [if_neg (by rw [hm]; omega)]
    have := readVarint_append h2 h3 h4 rest rs
    rwa [← hi] at this
  | long h1 h2 =>
    rw [if_pos (hm.2 h1)]
    have := takeBytes_append (beBytes 8 a) rest rs 8 (beBytes_length _ _)
    rw [← hi] at this
    rw [M.bind_ok this, ofBE_beBytes8 h2]
    rfl

theorem readByte_cons (b : UInt8) (rest : Str) (rs : RSt) (hi : rs.inp = b :: rest) :
    readByte rs = .ok b.toNat { rs with inp := rest } := by
  have := takeBytes_append [b] rest rs 1 rfl
  rw [List.singleton_append, ← hi] at this
  unfold readByte
  rw [M.bind_ok this]
  simp [ofBE]

/-- flags of the byte in front of an identifier -/
theorem mode_flags (a : Nat) (written : Bool) :
    sptrMode written (bigId a) = (if written then 2 else 1) + (if 2 ^ 55 ≤ a then 4 else 0) := by
  unfold sptrMode bigId
  by_cases h : 2 ^ 55 ≤ a
  · rw [decide_eq_true h, if_pos h]
    cases written <;> rfl
  · rw [decide_eq_false h, if_neg h]
    cases written <;> rfl

/-- **C34**, **C29**: a pointer to an object already written in the session is written as one byte (2, or 6 for addresses of at
least 2^55) and the address (variable-length, or 8 bytes); nothing else is written, the object's content is not even looked
at, and this never throws. Reading these bytes yields the object the identifier refers to in the reading session. -/
theorem C34_later_occurrence (E : Env) (H : Heap) (n version version' : Nat) (t : Ty) (p : Val) (a : Nat) (ha : a < 2 ^ 64) (ws : WSt)
    (hs : a ∈ ws.seen) :
    ∃ bs : Str, IdBytes a bs ∧
      write E H (n + 1) version (.sptr t) (.ref a) ws =
        .ok () { ws with out := ws.out ++ (if 2 ^ 55 ≤ a then 6 else 2) :: bs } ∧
      ∀ (rs : RSt) (rest : Str) (addr : Nat), rs.inp = (if 2 ^ 55 ≤ a then 6 else 2) :: bs ++ rest →
        rs.table.lookup a = some (t, addr) → read E (n + 1) version' (.sptr t) p rs = .ok (.ref addr) { rs with inp := rest } := by
  obtain ⟨bs, hb, hw⟩ := writeId_ok a ha { ws with out := ws.out ++ [UInt8.ofNat (sptrMode true (bigId a))] }
  have hmode : UInt8.ofNat (sptrMode true (bigId a)) = if 2 ^ 55 ≤ a then 6 else 2 := by
    rw [mode_flags]; by_cases h : 2 ^ 55 ≤ a <;> simp only [h, if_true, if_false] <;> rfl
  refine ⟨bs, hb, ?_, fun rs rest addr hi hl => ?_⟩
  · simp only [write, writeStep]
    have h0 : alreadyWritten a ws = .ok true ws := by simp [alreadyWritten, hs]
    have h1 : writeByte (sptrMode true (bigId a)) ws = .ok () { ws with out := ws.out ++ [UInt8.ofNat (sptrMode true (bigId a))] } := rfl
    rw [M.bind_ok h0, M.bind_ok h1, M.bind_ok hw, if_pos rfl, hmode]
    simp
  · simp only [read, readStep]
    have h0 := readByte_cons _ _ rs (by rw [hi, List.cons_append])
    rw [M.bind_ok h0]
    have e1 : (if 2 ^ 55 ≤ a then 6 else 2 : UInt8).toNat = if 2 ^ 55 ≤ a then 6 else 2 := by split <;> rfl
    rw [e1, if_neg (by split <;> decide)]
    have h1 := readId_ok hb (if 2 ^ 55 ≤ a then 6 else 2) (by split <;> simp_all) { rs with inp := bs ++ rest } rest rfl
    rw [M.bind_ok h1, if_neg (by split <;> decide)]
    have h2 : lookupShared a t { rs with inp := rest } = .ok addr { rs with inp := rest } := by
      simp [lookupShared, hl]
    rw [M.bind_ok h2]
    rfl

/-- **C34**, **C29**: a pointer to an object not yet written is written as one byte (1, or 5), the address and the object's
content; the address is recorded before the content is written (so pointers back to it within the content are later
occurrences). Reading the byte and the address creates an object under that identifier before reading its content. -/
theorem C34_first_occurrence (E : Env) (H : Heap) (n version version' : Nat) (t : Ty) (p x : Val) (a : Nat) (ha : a < 2 ^ 64) (ws : WSt)
    (hs : a ∉ ws.seen) (hx : H a = some x) :
    ∃ bs : Str, IdBytes a bs ∧
      write E H (n + 1) version (.sptr t) (.ref a) ws =
        write E H n 0 t x ⟨ws.out ++ (if 2 ^ 55 ≤ a then 5 else 1) :: bs, a :: ws.seen⟩ ∧
      ∀ (rs : RSt) (rest : Str), rs.inp = (if 2 ^ 55 ≤ a then 5 else 1) :: bs ++ rest →
        read E (n + 1) version' (.sptr t) p rs =
          (do
            let v ← read E n 0 t (E.valInit t)
            storeShared rs.heap.length v
            pure (Val.ref rs.heap.length) : RM Val) ⟨rest, (a, t, rs.heap.length) :: rs.table, rs.heap ++ [E.valInit t]⟩ := by
  obtain ⟨bs, hb, hw⟩ := writeId_ok a ha { ws with out := ws.out ++ [UInt8.ofNat (sptrMode false (bigId a))] }
  have hmode : UInt8.ofNat (sptrMode false (bigId a)) = if 2 ^ 55 ≤ a then 5 else 1 := by
    rw [mode_flags]; by_cases h : 2 ^ 55 ≤ a <;> simp only [h, if_true, if_false] <;> rfl
  refine ⟨bs, hb, ?_, fun rs rest hi => ?_⟩
  · simp only [write, writeStep]
    have h0 : alreadyWritten a ws = .ok false ws := by simp [alreadyWritten, hs]
    have h1 : writeByte (sptrMode false (bigId a)) ws = .ok () { ws with out := ws.out ++ [UInt8.ofNat (sptrMode false (bigId a))] } := rfl
    have h2 : ∀ ws', markWritten a ws' = .ok () { ws' with seen := a :: ws'.seen } := fun _ => rfl
    rw [M.bind_ok h0, M.bind_ok h1, M.bind_ok hw, if_neg (by simp), M.bind_ok (h2 _), hx, hmode]
    simp
  · simp only [read, readStep]
    have h0 := readByte_cons _ _ rs (by rw [hi, List.cons_append])
    rw [M.bind_ok h0]
    have e1 : (if 2 ^ 55 ≤ a then 5 else 1 : UInt8).toNat = if 2 ^ 55 ≤ a then 5 else 1 := by split <;> rfl
    rw [e1, if_neg (by split <;> decide)]
    have h1 := readId_ok hb (if 2 ^ 55 ≤ a then 5 else 1) (by split <;> simp_all) { rs with inp := bs ++ rest } rest rfl
    rw [M.bind_ok h1, if_pos (by split <;> decide)]
    have h2 : allocShared a t (E.valInit t) { rs with inp := rest } =
      .ok rs.heap.length ⟨rest, (a, t, rs.heap.length) :: rs.table, rs.heap ++ [E.valInit t]⟩ := rfl
    rw [M.bind_ok h2]

/-- **C34**: the null pointer is written as a single zero byte and read back. -/
theorem C34_null (E : Env) (H : Heap) (n version version' : Nat) (t : Ty) (p : Val) (ws : WSt) :
    write E H (n + 1) version (.sptr t) .null ws = .ok () { ws with out := ws.out ++ [0] } ∧
    ∀ (rs : RSt) (rest : Str), rs.inp = 0 :: rest → read E (n + 1) version' (.sptr t) p rs = .ok .null { rs with inp := rest } := by
  refine ⟨rfl, fun rs rest hi => ?_⟩
  simp only [read, readStep]
  have h0 := readByte_cons _ _ rs hi
  rw [M.bind_ok h0, if_pos (by rfl)]
  rfl

/-- **C33**: a reference (any flag byte other than 0 with low bits other than 1) to an identifier which has not been defined
with the pointer type in question (but not at all, or with another type) throws a `ConversionException`. -/
theorem C33_bad_reference_throws (E : Env) (n version : Nat) (t : Ty) (p : Val) (b : UInt8) (a : Nat) (bs rest : Str) (rs : RSt)
    (h0 : b ≠ 0) (h1 : b.toNat &&& 3 ≠ 1) (hb : if b.toNat &&& 4 ≠ 0 then bs.length = 8 ∧ a = ofBE bs else
      ∃ k, 1 ≤ k ∧ k ≤ 8 ∧ a < 2 ^ (7 * k) ∧ bs = beBytes k (a + 2 ^ (7 * k)))
    (hi : rs.inp = b :: bs ++ rest) (hl : ∀ addr, rs.table.lookup a ≠ some (t, addr)) :
    read E (n + 1) version (.sptr t) p rs = .exc .conv { rs with inp := rest } := by
  simp only [read, readStep]
  have e0 := readByte_cons _ _ rs (by rw [hi, List.cons_append])
  have hb0 : b.toNat ≠ 0 := by
    intro h
    exact h0 (UInt8.toNat_inj.1 h)
  rw [M.bind_ok e0, if_neg hb0]
  have e1 : (if b.toNat &&& 4 ≠ 0 then (do let bs ← takeBytes 8; pure (ofBE bs)) else readVarint : RM Nat) { rs with inp := bs ++ rest } =
      .ok a { rs with inp := rest } := by
    by_cases hf : b.toNat &&& 4 ≠ 0
    · rw [if_pos hf] at hb ⊢
      have := takeBytes_append bs rest rs 8 hb.1
      rw [M.bind_ok this, hb.2]
      rfl
    · rw [if_neg hf] at hb ⊢
      obtain ⟨k, k1, k2, k3, rfl⟩ := hb
      exact readVarint_append k1 k2 k3 rest rs
  rw [M.bind_ok e1, if_neg h1]
  rw [M.bind_exc]
  unfold lookupShared
  cases hh : rs.table.lookup a with
  | none => rfl
  | some q =>
    obtain ⟨t', a'⟩ := q
    simp only
    rw [if_neg]
    rintro rfl
    exact hl a' hh

-- non-vacuity: a reference to identifier 5 defined as a `Node`, requested as pointer to `int` or not defined at all
example : read Demo.env 3 0 (.sptr (.int .i32)) .null ⟨[2, 0x85], [(5, .cls 2, 0)], [.obj []]⟩ =
    .exc .conv ⟨[], [(5, .cls 2, 0)], [.obj []]⟩ :=
  C33_bad_reference_throws Demo.env 2 0 _ .null 2 5 [0x85] [] ⟨[2, 0x85], [(5, .cls 2, 0)], [.obj []]⟩ (by decide) (by decide)
    (by rw [if_neg (by decide)]; exact ⟨1, by decide, by decide, by decide, by decide⟩) rfl (by intro a h; simp at h)
example : IdBytes (2 ^ 63 + 5) [0x80, 0, 0, 0, 0, 0, 0, 5] := .long (by decide) (by decide)
example : IdBytes 300 [0x41, 0x2c] := .short (k := 2) (by decide) (by decide) (by decide) (by decide) (by decide)

end Verif
