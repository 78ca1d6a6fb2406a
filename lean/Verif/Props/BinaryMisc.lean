import Verif.Lemmas.BinWClosed
import Verif.Props.BinaryPointers

/-!
# C35 (variants), C42 (time values) in the binary format
-/

namespace Verif

/-! ## C35: variants -/

/-- **C35**: whatever the value and whatever has been written before, what a variant writes begins with one byte, the index of its
alternative; the rest is what the alternative itself writes (nothing in case of `std::monostate`). -/
theorem C35_first_byte_is_index (E : Env) (H : Heap) (n version : Nat) (ts : List Ty) (i : Nat) (v : Val) (ws ws' : WSt)
    (h : write E H (n + 1) version (.variant ts) (.alt i v) ws = .ok () ws') :
    ∃ t, ts[i]? = some t ∧ (∃ rest, ws'.out = ws.out ++ UInt8.ofNat i :: rest) ∧
      (t = .mono → ws'.out = ws.out ++ [UInt8.ofNat i]) ∧
      (t ≠ .mono → write E H n 0 t v { ws with out := ws.out ++ [UInt8.ofNat i] } = .ok () ws') := by
  simp only [write, writeStep] at h
  cases ht : ts[i]? with
  | none => rw [ht] at h; cases h
  | some t =>
    rw [ht] at h
    refine ⟨t, rfl, ?_⟩
    by_cases hm : t = .mono
    · subst hm
      cases h
      exact ⟨⟨[], rfl⟩, fun _ => rfl, fun h => absurd rfl h⟩
    · have h' : (writeByte i >>= fun _ => write E H n 0 t v) ws = .ok () ws' := by
        cases t <;> first | exact h | exact absurd rfl hm
      rw [M.bind_ok (show writeByte i ws = .ok () { ws with out := ws.out ++ [UInt8.ofNat i] } from rfl)] at h'
      refine ⟨?_, fun e => absurd e hm, fun _ => h'⟩
      obtain ⟨rest, hr⟩ := ((write_appends E H n 0 t v).ok h').1
      exact ⟨rest, by rw [← hr]; simp⟩

/-- **C35**: the first byte selects the alternative: if reading succeeds it is an index of the variant's alternatives, the result
holds the alternative of this index and nothing else can be the result. -/
theorem C35_index_selects_alternative (E : Env) (n version : Nat) (ts : List Ty) (p v : Val) (rs rs' : RSt)
    (h : read E (n + 1) version (.variant ts) p rs = .ok v rs') :
    ∃ b rest t x, rs.inp = b :: rest ∧ ts[b.toNat]? = some t ∧ v = .alt b.toNat x ∧
      (t = .mono → x = .mono ∧ rs' = { rs with inp := rest }) ∧
      (t ≠ .mono → read E n 0 t (E.valInit t) { rs with inp := rest } = .ok x rs') := by
  simp only [read, readStep] at h
  cases hi : rs.inp with
  | nil =>
    have : readByte rs = .exc .eof { rs with inp := [] } := by simp [readByte, M.bind_apply, takeBytes, hi]
    rw [M.bind_exc this] at h
    cases h
  | cons b rest =>
    rw [M.bind_ok (readByte_cons b rest rs hi)] at h
    cases ht : ts[b.toNat]? with
    | none => rw [ht] at h; cases h
    | some t =>
      rw [ht] at h
      by_cases hm : t = .mono
      · subst hm
        cases h
        exact ⟨b, rest, .mono, .mono, rfl, ht, rfl, fun _ => ⟨rfl, rfl⟩, fun h => absurd rfl h⟩
      · have h' : (read E n 0 t (E.valInit t) >>= fun v => (pure (.alt b.toNat v) : RM Val)) { rs with inp := rest } = .ok v rs' := by
          cases t <;> first | exact h | exact absurd rfl hm
        rw [M.bind_eq_ok] at h'
        obtain ⟨x, s1, h1, h2⟩ := h'
        cases h2
        exact ⟨b, rest, t, x, rfl, ht, rfl, fun e => absurd e hm, fun _ => h1⟩

/-- **C35**: every index which is not an index of an alternative throws `ConversionException` (having consumed only this byte). -/
theorem C35_unknown_index_throws (E : Env) (n version : Nat) (ts : List Ty) (p : Val) (rs : RSt) (b : UInt8) (rest : Str)
    (hi : rs.inp = b :: rest) (hb : ts.length ≤ b.toNat) :
    read E (n + 1) version (.variant ts) p rs = .exc .conv { rs with inp := rest } := by
  simp only [read, readStep]
  rw [M.bind_ok (readByte_cons b rest rs hi), List.getElem?_eq_none hb]
  rfl

/-- **C35**: a valueless variant writes 0xFF and then throws. -/
theorem C35_valueless_throws (E : Env) (H : Heap) (n version : Nat) (ts : List Ty) (ws : WSt) :
    write E H (n + 1) version (.variant ts) .valueless ws = .exc .badVariant { ws with out := ws.out ++ [0xff] } := rfl

/-- The bytes of a valueless variant are rejected when read (by variants of at most 255 alternatives). -/
theorem C35_valueless_bytes_rejected (E : Env) (H : Heap) (n n' version version' : Nat) (ts : List Ty) (hl : ts.length ≤ 255) (p : Val) :
    ∃ ws rs, write E H (n + 1) version (.variant ts) .valueless WSt.init = .exc .badVariant ws ∧
      read E (n' + 1) version' (.variant ts) p (RSt.init ws.out) = .exc .conv rs :=
  ⟨_, _, rfl, C35_unknown_index_throws E n' version' ts p _ 0xff [] rfl hl⟩

-- a variant<monostate, int, string> holding "ab" resp. "monostate"
example : ∃ ws, write Demo.env (fun _ => none) 3 0 (.variant [.mono, .int .i32, .str]) (.alt 2 (.str [97, 98])) ⟨[7], []⟩ = .ok () ws ∧
    ws.out = [7, 2, 0x82, 97, 98] := ⟨_, rfl, by decide⟩
example : ∃ rs, read Demo.env 3 0 (.variant [.mono, .int .i32, .str]) .null ⟨[0, 9], [], []⟩ = .ok (.alt 0 .mono) rs ∧ rs.inp = [9] :=
  ⟨_, rfl, rfl⟩
example : read Demo.env 3 0 (.variant [.mono, .int .i32, .str]) .null ⟨[3, 9], [], []⟩ = .exc .conv ⟨[9], [], []⟩ :=
  C35_unknown_index_throws Demo.env 2 0 _ _ ⟨[3, 9], [], []⟩ 3 [9] rfl (by decide)

/-! ## C42: DateTime, TimeSpan -/

/-- **C42**: a `DateTime` (unsigned tick count) is written as exactly eight bytes, the tick count most significant byte first, and
reading them - from wherever, whatever follows - yields the same `DateTime`. -/
theorem C42_dateTime_round_trip (E : Env) (H : Heap) (n n' version version' : Nat) (i : Int) (h0 : 0 ≤ i) (h1 : i < 2 ^ 64) (p : Val)
    (ws : WSt) (rs : RSt) (rest : Str) :
    ∃ bs : Str, bs.length = 8 ∧ (ofBE bs : Int) = i ∧
      write E H (n + 1) version .dateTime (.tick i) ws = .ok () { ws with out := ws.out ++ bs } ∧
      read E (n' + 1) version' .dateTime p { rs with inp := bs ++ rest } = .ok (.tick i) { rs with inp := rest } := by
  have hv : (ofBE (intBytes 8 i) : Int) = i := by
    unfold intBytes
    rw [ofBE_beBytes]
    norm_num
    omega
  refine ⟨intBytes 8 i, beBytes_length _ _, hv, rfl, ?_⟩
  simp only [read, readStep, readInt]
  rw [M.bind_assoc', M.bind_ok (takeBytes_append (intBytes 8 i) rest rs IntTy.u64.bytes (beBytes_length _ _)), hv]
  have : IntTy.wrap .u64 i = i := by
    simp only [IntTy.wrap, IntTy.lo, IntTy.card, IntTy.signed, IntTy.bytes]
    norm_num
    omega
  rw [this]
  rfl

/-- **C42**: a `TimeSpan` (signed tick count) is written as exactly eight bytes, the two's complement of the tick count most
significant byte first, and reading them yields the same `TimeSpan`. -/
theorem C42_timeSpan_round_trip (E : Env) (H : Heap) (n n' version version' : Nat) (i : Int) (h0 : -2 ^ 63 ≤ i) (h1 : i < 2 ^ 63) (p : Val)
    (ws : WSt) (rs : RSt) (rest : Str) :
    ∃ bs : Str, bs.length = 8 ∧ (ofBE bs : Int) = (if i < 0 then i + 2 ^ 64 else i) ∧
      write E H (n + 1) version .timeSpan (.tick i) ws = .ok () { ws with out := ws.out ++ bs } ∧
      read E (n' + 1) version' .timeSpan p { rs with inp := bs ++ rest } = .ok (.tick i) { rs with inp := rest } := by
  have hv : (ofBE (intBytes 8 i) : Int) = (if i < 0 then i + 2 ^ 64 else i) := by
    unfold intBytes
    rw [ofBE_beBytes]
    norm_num at h0 h1 ⊢
    split <;> omega
  refine ⟨intBytes 8 i, beBytes_length _ _, hv, rfl, ?_⟩
  simp only [read, readStep, readInt]
  rw [M.bind_assoc', M.bind_ok (takeBytes_append (intBytes 8 i) rest rs IntTy.i64.bytes (beBytes_length _ _)), hv]
  have : IntTy.wrap .i64 (if i < 0 then i + 2 ^ 64 else i) = i := by
    simp only [IntTy.wrap, IntTy.lo, IntTy.card, IntTy.signed, IntTy.bytes]
    norm_num at h0 h1 ⊢
    split <;> omega
  rw [this]
  rfl

-- e.g. TimeSpan(-1): eight times 0xFF
example : ∃ ws, write Demo.env (fun _ => none) 1 0 .timeSpan (.tick (-1)) WSt.init = .ok () ws ∧ ws.out = List.replicate 8 0xff :=
  ⟨_, rfl, by decide⟩
example : (-2 : Int) ^ 63 ≤ -1 ∧ (-1 : Int) < 2 ^ 63 := by decide

end Verif
