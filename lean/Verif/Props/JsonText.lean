import Verif.Lemmas.TextSound
import Verif.Lemmas.Own
import Verif.Props.JsonApi
import Verif.Props.JsonRoundTrip

/-!
# C52: JSON texts
-/

namespace Verif
open JsonText

/-! ## the parser accepts exactly the JSON texts -/

theorem skipBom_spec (s : Str) : ∃ bom, s = bom ++ skipBom s ∧ bom.Sublist [0xef, 0xbb, 0xbf] := by
  have step : ∀ (c : UInt8) (s : Str), c ≠ 0 → ∃ b, s = b ++ (if peek s = c then s.tail else s) ∧ b.Sublist [c] := by
    intro c s hc
    by_cases h : peek s = c
    · rw [if_pos h]
      exact ⟨[c], peek_eq hc h, List.Sublist.refl _⟩
    · rw [if_neg h]; exact ⟨[], rfl, List.nil_sublist _⟩
  obtain ⟨b1, h1, g1⟩ := step 0xef s (by decide)
  obtain ⟨b2, h2, g2⟩ := step 0xbb (if peek s = 0xef then s.tail else s) (by decide)
  obtain ⟨b3, h3, g3⟩ := step 0xbf (if peek (if peek s = 0xef then s.tail else s) = 0xbb then
    (if peek s = 0xef then s.tail else s).tail else (if peek s = 0xef then s.tail else s)) (by decide)
  refine ⟨b1 ++ (b2 ++ b3), ?_, ?_⟩
  · simp only [skipBom, List.append_assoc]
    rw [← h3, ← h2, ← h1]
  · exact g1.append (g2.append g3)

theorem skipBom_bom {bom s : Str} (h : bom.Sublist [0xef, 0xbb, 0xbf]) (h1 : peek s ≠ 0xef) (h2 : peek s ≠ 0xbb) (h3 : peek s ≠ 0xbf) :
    skipBom (bom ++ s) = s := by
  have hm : bom = [] ∨ bom = [0xef] ∨ bom = [0xbb] ∨ bom = [0xef, 0xbb] ∨ bom = [0xbf] ∨ bom = [0xef, 0xbf] ∨ bom = [0xbb, 0xbf] ∨
      bom = [0xef, 0xbb, 0xbf] := by
    cases h with
    | cons _ h =>
      cases h with
      | cons _ h =>
        cases h with
        | cons _ h => cases h; simp
        | cons_cons _ h => cases h; simp
      | cons_cons _ h =>
        cases h with
        | cons _ h => cases h; simp
        | cons_cons _ h => cases h; simp
    | cons_cons _ h =>
      cases h with
      | cons _ h =>
        cases h with
        | cons _ h => cases h; simp
        | cons_cons _ h => cases h; simp
      | cons_cons _ h =>
        cases h with
        | cons _ h => cases h; simp
        | cons_cons _ h => cases h; simp
  have pc : ∀ (c : UInt8) (s : Str), peek (c :: s) = c := fun _ _ => rfl
  rcases hm with rfl | rfl | rfl | rfl | rfl | rfl | rfl | rfl <;> simp [skipBom, pc, h1, h2, h3]

theorem follow_nil : Follow [] := ⟨by decide, by decide, by decide, by decide⟩

/-- C52 (accepted texts): the parser accepts exactly the texts of RFC 8259 consisting of one value surrounded by whitespace,
optionally preceded by bytes of a byte order mark and followed by NUL and anything; the result is the denoted document. -/
theorem C52_accepts_exactly (D : Dbl) (s : Str) (j : Json) :
    textParser D s = .ok j ↔ ∃ bom b t b' tail, s = bom ++ (b ++ (t ++ (b' ++ tail))) ∧ bom.Sublist [0xef, 0xbb, 0xbf] ∧
      Blank b ∧ Text D j t ∧ Blank b' ∧ (tail = [] ∨ ∃ r, tail = 0 :: r) := by
  have hT : textParser D s = .ok j ↔ scanDoc D s = .ok j := by
    unfold textParser
    cases scanDoc D s with
    | ok j' => simp
    | error e => cases e <;> simp
  rw [hT]
  constructor
  · intro h
    obtain ⟨bom, hb1, hb2⟩ := skipBom_spec s
    obtain ⟨b, hb, hs, -⟩ := skipWs_spec (skipBom s)
    simp only [scanDoc] at h
    split at h
    · cases h
    · cases hv : scanValue D (2 * (skipWs (skipBom s)).length + 1) (skipWs (skipBom s)) with
      | error e => rw [hv] at h; cases h
      | ok p =>
        obtain ⟨j', r⟩ := p
        rw [hv] at h
        simp only at h
        split at h
        · rename_i hz
          cases h
          obtain ⟨t, ht, hT⟩ := (scan_sound D _).1 _ _ _ hv
          obtain ⟨b', hb', hr, -⟩ := skipWs_spec r
          refine ⟨bom, b, t, b', skipWs r, ?_, hb2, hb, hT, hb', ?_⟩
          · rw [← hr, ← ht, ← hs, ← hb1]
          · cases he : skipWs r with
            | nil => exact .inl rfl
            | cons c x => rw [he] at hz; simp only [peek] at hz; subst hz; exact .inr ⟨x, rfl⟩
        · cases h
  · rintro ⟨bom, b, t, b', tail, rfl, hbom, hb, hT, hb', htail⟩
    have hhead := text_head hT (b' ++ tail)
    have hne : ∀ c : UInt8, c ≠ 0x20 → c ≠ 0x09 → c ≠ 0x0a → c ≠ 0x0d → peek (t ++ (b' ++ tail)) ≠ c →
        peek (b ++ (t ++ (b' ++ tail))) ≠ c := by
      intro c h1 h2 h3 h4 h5
      cases b with
      | nil => exact h5
      | cons x b =>
        simp only [List.cons_append, peek]
        rintro rfl
        rcases hb x List.mem_cons_self with h | h | h | h
        · exact h1 h
        · exact h2 h
        · exact h3 h
        · exact h4 h
    have hbm : skipBom (bom ++ (b ++ (t ++ (b' ++ tail)))) = b ++ (t ++ (b' ++ tail)) :=
      skipBom_bom hbom
        (hne _ (by decide) (by decide) (by decide) (by decide) hhead.2.2.2.2.1)
        (hne _ (by decide) (by decide) (by decide) (by decide) hhead.2.2.2.2.2.1)
        (hne _ (by decide) (by decide) (by decide) (by decide) hhead.2.2.2.2.2.2)
    have hpk : peek tail = 0 := by rcases htail with rfl | ⟨r, rfl⟩ <;> rfl
    have hsk : skipWs tail = tail := by
      rcases htail with rfl | ⟨r, rfl⟩
      · rfl
      · exact skipWs_cons (by decide)
    have hf : Follow tail := by
      rcases htail with rfl | ⟨r, rfl⟩
      · exact follow_nil
      · exact follow_cons _ (by decide) (by decide) (by decide) (by decide)
    simp only [scanDoc, hbm, skipWs_text hT hb, if_neg hhead.2.2.2.1]
    rw [scanValue_complete hT _ (b' ++ tail) (by simp only [List.length_append]; omega) (follow_blank hb' hf)]
    simp only [skipWs_blank hb', hsk, hpk, if_true]

/-- C52: all other texts are rejected with an error code of RapidJSON (the recursion budget of the model always suffices). -/
theorem C52_rejects (D : Dbl) (s : Str) : scanDoc D s ≠ .error .fuel := by
  simp only [scanDoc]
  split
  · simp
  · have := (scan_fuel D (2 * (skipWs (skipBom s)).length + 1)).1 (skipWs (skipBom s)) (by omega)
    cases hv : scanValue D (2 * (skipWs (skipBom s)).length + 1) (skipWs (skipBom s)) with
    | error e => intro h; simp only [Except.error.injEq] at h; subst h; exact this hv
    | ok p => simp only; split <;> simp

/-- C52 (no ambiguity): a text denotes at most one document. -/
theorem C52_unambiguous (D : Dbl) (t : Str) (j j' : Json) (h : Text D j t) (h' : Text D j' t) : j = j' := by
  have h1 := scanValue_complete h (t.length + 1) [] (by omega) follow_nil
  have h2 := scanValue_complete h' (t.length + 1) [] (by omega) follow_nil
  rw [h1] at h2
  cases h2
  rfl

/-! ## the writer -/

theorem chars_append {s t s' t' : Str} (h : Chars s t) (h' : Chars s' t') : Chars (s ++ s') (t ++ t') := by
  induction h with
  | nil => exact h'
  | plain c h1 h2 h3 _ ih => exact .plain c h1 h2 h3 ih
  | short e b h1 _ ih => exact .short e b h1 ih
  | unicode h n h1 h2 _ ih => simpa [List.append_assoc] using Chars.unicode h n h1 h2 ih
  | surrogates h l n m k h1 h2 h3 h4 h5 h6 h7 _ ih => simpa [List.append_assoc] using Chars.surrogates h l n m k h1 h2 h3 h4 h5 h6 h7 ih

theorem hexDigit_hex (n : Nat) (h : n < 16) : Hex (hexDigit n) n := by
  unfold hexDigit
  split
  · left; refine ⟨by omega, ?_⟩; rw [UInt8.toNat_ofNat']; omega
  · right; refine ⟨by omega, by omega, .inl ?_⟩; rw [UInt8.toNat_ofNat']; omega

theorem escapeByte_chars (c : UInt8) : Chars [c] (escapeByte c) := by
  unfold escapeByte
  split
  · rename_i h; subst h; exact .short 0x22 0x22 (by decide) .nil
  split
  · rename_i h; subst h; exact .short 0x5c 0x5c (by decide) .nil
  split
  · rename_i h; subst h; exact .short 0x62 0x08 (by decide) .nil
  split
  · rename_i h; subst h; exact .short 0x66 0x0c (by decide) .nil
  split
  · rename_i h; subst h; exact .short 0x6e 0x0a (by decide) .nil
  split
  · rename_i h; subst h; exact .short 0x72 0x0d (by decide) .nil
  split
  · rename_i h; subst h; exact .short 0x74 0x09 (by decide) .nil
  split
  · rename_i h
    have hc : c.toNat < 32 := by simpa [UInt8.lt_iff_toNat_lt] using h
    have h4 : Hex4 [0x30, 0x30, hexDigit (c.toNat / 16), hexDigit (c.toNat % 16)] c.toNat :=
      ⟨_, _, _, _, 0, 0, c.toNat / 16, c.toNat % 16, rfl, .inl ⟨by decide, by decide⟩, .inl ⟨by decide, by decide⟩,
        hexDigit_hex _ (by omega), hexDigit_hex _ (by omega), by omega⟩
    have he : encode c.toNat = [c] := by
      rw [encode_eq _ (.inl (by omega)), utf8, if_pos (by omega)]
      simp
    have := Chars.unicode _ _ h4 (by omega) .nil
    rw [he] at this
    exact this
  · rename_i h1 h2 _ _ _ _ _ h
    refine .plain c ?_ h1 h2 .nil
    simpa [UInt8.lt_iff_toNat_lt] using h

theorem writeString_text (s : Str) : StrText s (writeString s) := by
  refine ⟨s.flatMap escapeByte, ?_, rfl⟩
  induction s with
  | nil => exact .nil
  | cons c s ih => exact chars_append (escapeByte_chars c) ih

theorem decimal_intPart (n : Nat) : IntPart (decimal n) := by
  refine ⟨⟨?_, decimal_digits n⟩, ?_⟩
  · rw [decimal]; split <;> simp
  · have key : ∀ n r, 0 < n → decimal n ≠ 0x30 :: r := by
      intro n
      induction n using Nat.strongRecOn with
      | ind n ih =>
        intro r hn
        rw [decimal]
        split
        · intro h
          simp only [List.cons.injEq] at h
          have := congrArg UInt8.toNat h.1
          rw [UInt8.toNat_ofNat'] at this
          simp at this
          omega
        · intro h
          rw [List.append_eq_cons_iff] at h
          rcases h with ⟨h, -⟩ | ⟨r', h, -⟩
          · rw [decimal] at h; split at h <;> simp at h
          · exact ih (n / 10) (by omega) r' (by omega) h
    intro r h
    by_cases hn : 0 < n
    · exact absurd h (key n r hn)
    · have : n = 0 := by omega
      subst this
      rw [decimal] at h
      simp only [List.cons.injEq, if_pos (by omega : 0 < 10)] at h
      exact h.2.symm

theorem writeInt_text (D : Dbl) (i : Int) (h1 : -2 ^ 63 ≤ i) (h2 : i < 2 ^ 64) : NumText D (.int i) (writeInt i) := by
  have hv : value (decimal i.natAbs) = i.natAbs := decimal_val _
  unfold writeInt
  split
  · have := NumText.neg (D := D) (decimal i.natAbs) (decimal_intPart _) (by rw [hv]; omega)
    rw [hv] at this
    have he : (-(i.natAbs : Int)) = i := by omega
    rw [he] at this
    exact this
  · have := NumText.int (D := D) (decimal i.natAbs) (decimal_intPart _) (by rw [hv]; omega)
    rw [hv] at this
    have he : (i.natAbs : Int) = i := by omega
    rw [he] at this
    exact this

theorem blank_nil : Blank [] := by intro c h; cases h

mutual
theorem printV_text {D : Dbl} (j : Json) (h : ∀ n ∈ numbers j, Printable D n) :
    ∃ t, printV D j = (t, true) ∧ Text D (own j) t := by
  cases j with
  | null => exact ⟨_, rfl, .null⟩
  | bool b => cases b
              · exact ⟨_, rfl, .false⟩
              · exact ⟨_, rfl, .true⟩
  | num n =>
    have hp := h n (by simp [numbers])
    cases n with
    | int i => exact ⟨_, rfl, .num (writeInt_text D i hp.1 hp.2)⟩
    | dbl d => exact ⟨D.print d, by simp [printV, hp.1], .num hp.2⟩
  | str s => exact ⟨_, rfl, .str (writeString_text s)⟩
  | arr js =>
    cases js with
    | nil => exact ⟨_, rfl, .arrEmpty blank_nil⟩
    | cons j js =>
      obtain ⟨t, h1, h2⟩ := printItems_text (j :: js) (by simp) (by simpa [numbers] using h)
      exact ⟨_, by simp [printV, h1], .arr h2⟩
  | obj ms =>
    cases ms with
    | nil => exact ⟨_, rfl, .objEmpty blank_nil⟩
    | cons m ms =>
      obtain ⟨t, h1, h2⟩ := printMembers_text (m :: ms) (by simp) (by simpa [numbers] using h)
      exact ⟨_, by simp [printV, h1], .obj h2⟩

theorem printItems_text {D : Dbl} (js : List Json) (hne : js ≠ []) (h : ∀ n ∈ numbersItems js, Printable D n) :
    ∃ t, printItems D js = (t, true) ∧ Items D (ownItems js) t := by
  cases js with
  | nil => exact absurd rfl hne
  | cons j js =>
    simp only [numbersItems, List.mem_append] at h
    obtain ⟨t, h1, h2⟩ := printV_text j fun n hn => h n (.inl hn)
    cases js with
    | nil =>
      refine ⟨t, by simp [printItems, h1], ?_⟩
      simpa [ownItems] using Items.one blank_nil h2 blank_nil
    | cons j' js =>
      obtain ⟨u, h3, h4⟩ := printItems_text (j' :: js) (by simp) fun n hn => h n (.inr hn)
      refine ⟨t ++ 0x2c :: u, by rw [printItems]; simp [h1, h3], ?_⟩
      simpa [ownItems] using Items.more blank_nil h2 blank_nil h4

theorem printMembers_text {D : Dbl} (ms : List (Key × Json)) (hne : ms ≠ []) (h : ∀ n ∈ numbersMembers ms, Printable D n) :
    ∃ t, printMembers D ms = (t, true) ∧ Members D (ownMembers ms) t := by
  cases ms with
  | nil => exact absurd rfl hne
  | cons m ms =>
    obtain ⟨k, j⟩ := m
    simp only [numbersMembers, List.mem_append] at h
    obtain ⟨t, h1, h2⟩ := printV_text j fun n hn => h n (.inl hn)
    cases ms with
    | nil =>
      refine ⟨writeString k.bytes ++ 0x3a :: t, by simp [printMembers, h1], ?_⟩
      simpa [ownMembers] using Members.one blank_nil (writeString_text k.bytes) blank_nil blank_nil h2 blank_nil
    | cons m' ms =>
      obtain ⟨u, h3, h4⟩ := printMembers_text (m' :: ms) (by simp) fun n hn => h n (.inr hn)
      refine ⟨writeString k.bytes ++ 0x3a :: (t ++ 0x2c :: u), by rw [printMembers]; simp [h1, h3], ?_⟩
      simpa [ownMembers] using Members.more blank_nil (writeString_text k.bytes) blank_nil blank_nil h2 blank_nil h4
end

/-- C52 (what is written is JSON): the text of a document all numbers of which are printable is a JSON text denoting that
document (with all names owned by it). -/
theorem C52_printed_is_json (D : Dbl) (j : Json) (h : ∀ n ∈ numbers j, Printable D n) : Text D (own j) (printDoc D j) := by
  obtain ⟨t, h1, h2⟩ := printV_text j h
  rw [printDoc, h1]
  exact h2

/-- C52 (round trip): parsing the text of a document yields the same document, with all names owned by it. -/
theorem C52_round_trip (D : Dbl) (j : Json) (h : ∀ n ∈ numbers j, Printable D n) :
    textParser D (printDoc D j) = .ok (own j) :=
  (C52_accepts_exactly D _ _).2 ⟨[], [], printDoc D j, [], [], by simp, List.nil_sublist _, blank_nil, C52_printed_is_json D j h,
    blank_nil, .inl rfl⟩

/-- C52: documents with the same text are the same (apart from where names are stored). -/
theorem C52_text_determines_document (D : Dbl) (j j' : Json) (h : ∀ n ∈ numbers j, Printable D n)
    (h' : ∀ n ∈ numbers j', Printable D n) (he : printDoc D j = printDoc D j') : own j = own j' := by
  have h1 := C52_round_trip D j h
  have h2 := C52_round_trip D j' h'
  rw [he, h2] at h1
  exact (Except.ok.inj h1).symm

/-! ## non-finite numbers -/

theorem bad_split {D : Dbl} {ns : List Num} (h : ∀ n ∈ ns, Printable D n ∨ NonFinite n) :
    (∀ n ∈ ns, Printable D n) ∨ ∃ n ∈ ns, NonFinite n := by
  by_cases hx : ∃ n ∈ ns, NonFinite n
  · exact .inr hx
  · left
    intro n hn
    rcases h n hn with h | h
    · exact h
    · exact absurd ⟨n, hn, h⟩ hx

mutual
/-- if there is a non-finite number, writing fails and whatever is written so far does not parse -/
theorem printV_cut {D : Dbl} (j : Json) (h : ∀ n ∈ numbers j, Printable D n ∨ NonFinite n) (hx : ∃ n ∈ numbers j, NonFinite n) :
    ∃ t, printV D j = (t, false) ∧ (t = [] ∨ HeadOk (peek t)) ∧
      ∀ n, 2 * t.length < n → ∃ e, scanValue D n t = .error e := by
  cases j with
  | null => obtain ⟨n, hn, -⟩ := hx; simp [numbers] at hn
  | bool b => obtain ⟨n, hn, -⟩ := hx; simp [numbers] at hn
  | str s => obtain ⟨n, hn, -⟩ := hx; simp [numbers] at hn
  | num n =>
    obtain ⟨n', hn, hx⟩ := hx
    simp only [numbers, List.mem_cons, List.not_mem_nil, or_false] at hn
    subst hn
    cases n' with
    | int i => exact hx.elim
    | dbl d =>
      refine ⟨[], ?_, .inl rfl, ?_⟩
      · have : Ieee.isFinite d = false := hx
        simp [printV, this]
      · intro n hn
        obtain ⟨n, rfl⟩ : ∃ m, n = m + 1 := ⟨n - 1, by omega⟩
        exact ⟨_, rfl⟩
  | arr js =>
    obtain ⟨t, h1, h2, h3⟩ := printItems_cut js (by simpa [numbers] using h) (by simpa [numbers] using hx)
    refine ⟨0x5b :: t, by simp [printV, h1], .inr (by decide : HeadOk 0x5b), ?_⟩
    intro n hn
    simp only [List.length_cons] at hn
    obtain ⟨n, rfl⟩ : ∃ m, n = m + 1 := ⟨n - 1, by omega⟩
    have hw : skipWs t = t ∧ peek t ≠ 0x5d := by
      rcases h2 with rfl | h2
      · exact ⟨rfl, by decide⟩
      · refine ⟨?_, h2.2.1⟩
        cases t with
        | nil => rfl
        | cons c t => exact skipWs_cons h2.1
    obtain ⟨e, he⟩ := h3 n [] (by omega)
    refine ⟨e, ?_⟩
    have pc : peek (0x5b :: t) = 0x5b := rfl
    simp [scanValue, pc, hw.1, hw.2, he]
  | obj ms =>
    obtain ⟨t, h1, h2, h3⟩ := printMembers_cut ms (by simpa [numbers] using h) (by simpa [numbers] using hx)
    refine ⟨0x7b :: t, by simp [printV, h1], .inr (by decide : HeadOk 0x7b), ?_⟩
    intro n hn
    simp only [List.length_cons] at hn
    obtain ⟨n, rfl⟩ : ∃ m, n = m + 1 := ⟨n - 1, by omega⟩
    obtain ⟨t, rfl⟩ := h2
    obtain ⟨e, he⟩ := h3 n [] (by omega)
    refine ⟨e, ?_⟩
    have h4 : skipWs (0x22 :: t) = 0x22 :: t := skipWs_cons (by decide)
    simp [scanValue, peek, h4, he]

theorem printItems_cut {D : Dbl} (js : List Json) (h : ∀ n ∈ numbersItems js, Printable D n ∨ NonFinite n)
    (hx : ∃ n ∈ numbersItems js, NonFinite n) :
    ∃ t, printItems D js = (t, false) ∧ (t = [] ∨ HeadOk (peek t)) ∧
      ∀ n acc, 2 * t.length + 1 < n → ∃ e, scanItems D n acc t = .error e := by
  cases js with
  | nil => obtain ⟨n, hn, -⟩ := hx; simp [numbersItems] at hn
  | cons j js =>
    simp only [numbersItems, List.mem_append] at h hx
    rcases bad_split fun n hn => h n (.inl hn) with hg | hb
    · -- the first one is fine
      obtain ⟨t, h1, h2⟩ := printV_text j hg
      have hx' : ∃ n ∈ numbersItems js, NonFinite n := by
        obtain ⟨n, hn | hn, hf⟩ := hx
        · have := hg n hn
          cases n with
          | int i => exact hf.elim
          | dbl d => exact absurd (this.1.symm.trans hf) (by simp)
        · exact ⟨n, hn, hf⟩
      obtain ⟨u, h3, h4, h5⟩ := printItems_cut js (fun n hn => h n (.inr hn)) hx'
      have hjs : js.isEmpty = false := by
        cases js with
        | nil => obtain ⟨n, hn, -⟩ := hx'; simp [numbersItems] at hn
        | cons => rfl
      refine ⟨t ++ 0x2c :: u, by rw [printItems]; simp only [h1, h3, hjs]; rfl, .inr (text_head h2 _), ?_⟩
      intro n acc hn
      simp only [List.length_append, List.length_cons] at hn
      obtain ⟨n, rfl⟩ : ∃ m, n = m + 1 := ⟨n - 1, by omega⟩
      have h6 := scanValue_complete h2 n (0x2c :: u) (by omega) (follow_cons _ (by decide) (by decide) (by decide) (by decide))
      have h7 : skipWs (0x2c :: u) = 0x2c :: u := skipWs_cons (by decide)
      have h8 : skipWs u = u := by
        rcases h4 with rfl | h4
        · rfl
        · cases u with
          | nil => rfl
          | cons c u => exact skipWs_cons h4.1
      obtain ⟨e, he⟩ := h5 n (acc ++ [own j]) (by omega)
      exact ⟨e, by simp [scanItems, h6, h7, peek, h8, he]⟩
    · obtain ⟨t, h1, h2, h3⟩ := printV_cut j (fun n hn => h n (.inl hn)) hb
      refine ⟨t, by rw [printItems]; simp [h1], h2, ?_⟩
      intro n acc hn
      obtain ⟨n, rfl⟩ : ∃ m, n = m + 1 := ⟨n - 1, by omega⟩
      obtain ⟨e, he⟩ := h3 n (by omega)
      exact ⟨e, by simp [scanItems, he]⟩

theorem printMembers_cut {D : Dbl} (ms : List (Key × Json)) (h : ∀ n ∈ numbersMembers ms, Printable D n ∨ NonFinite n)
    (hx : ∃ n ∈ numbersMembers ms, NonFinite n) :
    ∃ t, printMembers D ms = (t, false) ∧ (∃ u, t = 0x22 :: u) ∧
      ∀ n acc, 2 * t.length + 1 < n → ∃ e, scanMembers D n acc t = .error e := by
  cases ms with
  | nil => obtain ⟨n, hn, -⟩ := hx; simp [numbersMembers] at hn
  | cons m ms =>
    obtain ⟨k, j⟩ := m
    simp only [numbersMembers, List.mem_append] at h hx
    obtain ⟨ku, hku, hke⟩ := writeString_text k.bytes
    rcases bad_split fun n hn => h n (.inl hn) with hg | hb
    · -- the first one is fine
      obtain ⟨t, h1, h2⟩ := printV_text j hg
      have hx' : ∃ n ∈ numbersMembers ms, NonFinite n := by
        obtain ⟨n, hn | hn, hf⟩ := hx
        · have := hg n hn
          cases n with
          | int i => exact hf.elim
          | dbl d => exact absurd (this.1.symm.trans hf) (by simp)
        · exact ⟨n, hn, hf⟩
      obtain ⟨u, h3, h4, h5⟩ := printMembers_cut ms (fun n hn => h n (.inr hn)) hx'
      have hms : ms.isEmpty = false := by
        cases ms with
        | nil => obtain ⟨n, hn, -⟩ := hx'; simp [numbersMembers] at hn
        | cons => rfl
      refine ⟨writeString k.bytes ++ 0x3a :: t ++ 0x2c :: u, by rw [printMembers]; simp only [h1, h3, hms]; rfl, ?_, ?_⟩
      · rw [hke]; exact ⟨_, rfl⟩
      intro n acc hn
      rw [hke] at hn ⊢
      simp only [List.length_append, List.length_cons, List.length_nil] at hn
      obtain ⟨n, rfl⟩ : ∃ m, n = m + 1 := ⟨n - 1, by omega⟩
      have h6 := scanValue_complete h2 n (0x2c :: u) (by omega) (follow_cons _ (by decide) (by decide) (by decide) (by decide))
      have h7 : skipWs (0x2c :: u) = 0x2c :: u := skipWs_cons (by decide)
      have h8 : skipWs u = u := by obtain ⟨u, rfl⟩ := h4; exact skipWs_cons (by decide)
      have h9 := scanString_chars hku n [] (0x3a :: (t ++ 0x2c :: u)) (by omega)
      have h10 : skipWs (0x3a :: (t ++ 0x2c :: u)) = 0x3a :: (t ++ 0x2c :: u) := skipWs_cons (by decide)
      have h11 := skipWs_text h2 blank_nil (0x2c :: u)
      simp only [List.nil_append] at h11
      obtain ⟨e, he⟩ := h5 n (acc ++ [(⟨k.bytes, .copied⟩, own j)]) (by omega)
      refine ⟨e, ?_⟩
      simp only [List.append_assoc, List.cons_append, List.nil_append]
      simp [scanMembers, peek, h9, h10, h11, h6, h7, h8, he]
    · obtain ⟨t, h1, h2, h3⟩ := printV_cut j (fun n hn => h n (.inl hn)) hb
      refine ⟨writeString k.bytes ++ 0x3a :: t, by rw [printMembers]; simp [h1], by rw [hke]; exact ⟨_, rfl⟩, ?_⟩
      intro n acc hn
      rw [hke] at hn ⊢
      simp only [List.length_append, List.length_cons, List.length_nil] at hn
      obtain ⟨n, rfl⟩ : ∃ m, n = m + 1 := ⟨n - 1, by omega⟩
      have h9 := scanString_chars hku n [] (0x3a :: t) (by omega)
      have h10 : skipWs (0x3a :: t) = 0x3a :: t := skipWs_cons (by decide)
      have h11 : skipWs t = t := by
        rcases h2 with rfl | h2
        · rfl
        · cases t with
          | nil => rfl
          | cons c t => exact skipWs_cons h2.1
      obtain ⟨e, he⟩ := h3 n (by omega)
      refine ⟨e, ?_⟩
      simp only [List.append_assoc, List.cons_append, List.nil_append]
      simp [scanMembers, peek, h9, h10, h11, he]
end


/-- C52 (non-finite numbers): the text of a document containing a number which is not finite does not parse. -/
theorem C52_nonfinite_does_not_parse (D : Dbl) (j : Json) (h : ∀ n ∈ numbers j, Printable D n ∨ NonFinite n)
    (hx : ∃ n ∈ numbers j, NonFinite n) : ∃ e, textParser D (printDoc D j) = .error e := by
  cases hr : textParser D (printDoc D j) with
  | error e => exact ⟨e, rfl⟩
  | ok j' =>
    exfalso
    obtain ⟨t, h1, h2, h3⟩ := printV_cut j h hx
    have hs : scanDoc D t = .ok j' := by
      simp only [textParser, printDoc, h1] at hr
      cases hd : scanDoc D t with
      | ok j'' => rw [hd] at hr; cases hr; rfl
      | error e => rw [hd] at hr; cases e <;> cases hr
    have hb : skipBom t = t := by
      rcases h2 with rfl | h2
      · rfl
      · exact skipBom_bom (bom := []) (List.nil_sublist _) h2.2.2.2.2.1 h2.2.2.2.2.2.1 h2.2.2.2.2.2.2
    have hw : skipWs t = t := by
      rcases h2 with rfl | h2
      · rfl
      · cases t with
        | nil => rfl
        | cons c t => exact skipWs_cons h2.1
    simp only [scanDoc, hb, hw] at hs
    split at hs
    · cases hs
    · obtain ⟨e, he⟩ := h3 (2 * t.length + 1) (by omega)
      rw [he] at hs
      cases hs

mutual
theorem printV_patch {D : Dbl} (x : BitVec 64) (hx : Ieee.isFinite x = true) (j : Json) :
    (printV D j = printV D (patch x j) ∧ (printV D j).2 = true) ∨
    ((printV D j).2 = false ∧ (printV D j).1 ++ D.print x <+: (printV D (patch x j)).1 ∧ (printV D (patch x j)).2 = true) := by
  cases j with
  | null => left; exact ⟨rfl, rfl⟩
  | bool b => left; cases b <;> exact ⟨rfl, rfl⟩
  | str s => left; exact ⟨rfl, rfl⟩
  | num n =>
    cases n with
    | int i => left; exact ⟨rfl, rfl⟩
    | dbl d =>
      cases hd : Ieee.isFinite d with
      | true => left; simp [printV, patch, hd]
      | false => right; simp [printV, patch, hd, hx]
  | arr js =>
    rcases printItems_patch (D := D) x hx js with ⟨h, h'⟩ | ⟨h1, h2, h3⟩
    · left
      simp only [printV, patch, ← h, h']
      exact ⟨trivial, rfl⟩
    · right
      refine ⟨by simp [printV, h1], ?_, by simp [printV, patch, h3]⟩
      simp only [printV, patch, h1, h3]
      obtain ⟨r, hr⟩ := h2
      exact ⟨r ++ [0x5d], by simp [← hr]⟩
  | obj ms =>
    rcases printMembers_patch (D := D) x hx ms with ⟨h, h'⟩ | ⟨h1, h2, h3⟩
    · left
      simp only [printV, patch, ← h, h']
      exact ⟨trivial, rfl⟩
    · right
      refine ⟨by simp [printV, h1], ?_, by simp [printV, patch, h3]⟩
      simp only [printV, patch, h1, h3]
      obtain ⟨r, hr⟩ := h2
      exact ⟨r ++ [0x7d], by simp [← hr]⟩

theorem printItems_patch {D : Dbl} (x : BitVec 64) (hx : Ieee.isFinite x = true) (js : List Json) :
    (printItems D js = printItems D (patchItems x js) ∧ (printItems D js).2 = true) ∨
    ((printItems D js).2 = false ∧ (printItems D js).1 ++ D.print x <+: (printItems D (patchItems x js)).1 ∧
      (printItems D (patchItems x js)).2 = true) := by
  cases js with
  | nil => left; exact ⟨rfl, rfl⟩
  | cons j js =>
    have he : (patchItems x js).isEmpty = js.isEmpty := by cases js <;> rfl
    rcases printV_patch (D := D) x hx j with ⟨h, h'⟩ | ⟨h1, h2, h3⟩
    · cases hjs : js.isEmpty with
      | true =>
        left
        simp only [printItems, patchItems, ← h, h', he, hjs]
        exact ⟨rfl, rfl⟩
      | false =>
        rcases printItems_patch (D := D) x hx js with ⟨g, g'⟩ | ⟨g1, g2, g3⟩
        · left
          simp only [printItems, patchItems, ← h, h', he, hjs, ← g, g']
          exact ⟨trivial, rfl⟩
        · right
          simp only [printItems, patchItems, ← h, h', he, hjs, g1, g3]
          refine ⟨rfl, ?_, rfl⟩
          obtain ⟨r, hr⟩ := g2
          exact ⟨r, by simp [← hr]⟩
    · right
      simp only [printItems, patchItems, h1, h3, he]
      refine ⟨rfl, ?_, ?_⟩
      · refine h2.trans ?_
        cases hjs : js.isEmpty with
        | true => exact List.prefix_refl _
        | false => exact List.prefix_append _ _
      · cases hjs : js.isEmpty with
        | true => rfl
        | false =>
          have : (printItems D (patchItems x js)).2 = true := by
            rcases printItems_patch (D := D) x hx js with ⟨g, g'⟩ | ⟨g1, g2, g3⟩
            · rw [← g]; exact g'
            · exact g3
          simpa using this

theorem printMembers_patch {D : Dbl} (x : BitVec 64) (hx : Ieee.isFinite x = true) (ms : List (Key × Json)) :
    (printMembers D ms = printMembers D (patchMembers x ms) ∧ (printMembers D ms).2 = true) ∨
    ((printMembers D ms).2 = false ∧ (printMembers D ms).1 ++ D.print x <+: (printMembers D (patchMembers x ms)).1 ∧
      (printMembers D (patchMembers x ms)).2 = true) := by
  cases ms with
  | nil => left; exact ⟨rfl, rfl⟩
  | cons m ms =>
    obtain ⟨k, j⟩ := m
    have he : (patchMembers x ms).isEmpty = ms.isEmpty := by rcases ms with _ | ⟨⟨k, j⟩, ms⟩ <;> rfl
    rcases printV_patch (D := D) x hx j with ⟨h, h'⟩ | ⟨h1, h2, h3⟩
    · cases hms : ms.isEmpty with
      | true =>
        left
        simp only [printMembers, patchMembers, ← h, h', he, hms]
        exact ⟨rfl, rfl⟩
      | false =>
        rcases printMembers_patch (D := D) x hx ms with ⟨g, g'⟩ | ⟨g1, g2, g3⟩
        · left
          simp only [printMembers, patchMembers, ← h, h', he, hms, ← g, g']
          exact ⟨trivial, rfl⟩
        · right
          simp only [printMembers, patchMembers, ← h, h', he, hms, g1, g3]
          refine ⟨rfl, ?_, rfl⟩
          obtain ⟨r, hr⟩ := g2
          exact ⟨r, by simp [← hr]⟩
    · right
      simp only [printMembers, patchMembers, h1, h3, he]
      refine ⟨rfl, ?_, ?_⟩
      · have h4 : writeString k.bytes ++ 0x3a :: (printV D j).1 ++ D.print x <+:
            writeString k.bytes ++ 0x3a :: (printV D (patch x j)).1 := by
          obtain ⟨r, hr⟩ := h2
          exact ⟨r, by simp [← hr]⟩
        refine h4.trans ?_
        cases hms : ms.isEmpty with
        | true => exact List.prefix_refl _
        | false => exact List.prefix_append _ _
      · cases hms : ms.isEmpty with
        | true => rfl
        | false =>
          have : (printMembers D (patchMembers x ms)).2 = true := by
            rcases printMembers_patch (D := D) x hx ms with ⟨g, g'⟩ | ⟨g1, g2, g3⟩
            · rw [← g]; exact g'
            · exact g3
          simpa using this
end

mutual
theorem printV_nonfinite {D : Dbl} (j : Json) (hx : ∃ n ∈ numbers j, NonFinite n) : (printV D j).2 = false := by
  cases j with
  | null => obtain ⟨n, hn, -⟩ := hx; simp [numbers] at hn
  | bool b => obtain ⟨n, hn, -⟩ := hx; simp [numbers] at hn
  | str s => obtain ⟨n, hn, -⟩ := hx; simp [numbers] at hn
  | num n =>
    obtain ⟨n', hn, hx⟩ := hx
    simp only [numbers, List.mem_cons, List.not_mem_nil, or_false] at hn
    subst hn
    cases n' with
    | int i => exact hx.elim
    | dbl d => simp [printV, show Ieee.isFinite d = false from hx]
  | arr js => simp [printV, printItems_nonfinite js (by simpa [numbers] using hx)]
  | obj ms => simp [printV, printMembers_nonfinite ms (by simpa [numbers] using hx)]
theorem printItems_nonfinite {D : Dbl} (js : List Json) (hx : ∃ n ∈ numbersItems js, NonFinite n) : (printItems D js).2 = false := by
  cases js with
  | nil => obtain ⟨n, hn, -⟩ := hx; simp [numbersItems] at hn
  | cons j js =>
    obtain ⟨n, hn, hx⟩ := hx
    simp only [numbersItems, List.mem_append] at hn
    simp only [printItems]
    rcases hn with hn | hn
    · simp [printV_nonfinite (D := D) j ⟨n, hn, hx⟩]
    · have h1 := printItems_nonfinite (D := D) js ⟨n, hn, hx⟩
      have h2 : js.isEmpty = false := by
        cases js with
        | nil => simp [numbersItems] at hn
        | cons => rfl
      cases h3 : (printV D j).2 <;> simp [h1, h2]
theorem printMembers_nonfinite {D : Dbl} (ms : List (Key × Json)) (hx : ∃ n ∈ numbersMembers ms, NonFinite n) :
    (printMembers D ms).2 = false := by
  cases ms with
  | nil => obtain ⟨n, hn, -⟩ := hx; simp [numbersMembers] at hn
  | cons m ms =>
    obtain ⟨k, j⟩ := m
    obtain ⟨n, hn, hx⟩ := hx
    simp only [numbersMembers, List.mem_append] at hn
    simp only [printMembers]
    rcases hn with hn | hn
    · simp [printV_nonfinite (D := D) j ⟨n, hn, hx⟩]
    · have h1 := printMembers_nonfinite (D := D) ms ⟨n, hn, hx⟩
      have h2 : ms.isEmpty = false := by
        cases ms with
        | nil => simp [numbersMembers] at hn
        | cons => rfl
      cases h3 : (printV D j).2 <;> simp [h1, h2]
end

/-- C52 (cut off): the text of a document containing a number which is not finite ends where the first such number would
have been written: for any finite number `x`, it is followed by `x` in the text of the document with these numbers replaced by
`x`. -/
theorem C52_nonfinite_cut_off (D : Dbl) (j : Json) (hx : ∃ n ∈ numbers j, NonFinite n) (x : BitVec 64)
    (hf : Ieee.isFinite x = true) : printDoc D j ++ D.print x <+: printDoc D (patch x j) := by
  rcases printV_patch (D := D) x hf j with ⟨h, h'⟩ | ⟨h1, h2, h3⟩
  · rw [printV_nonfinite j hx] at h'; cases h'
  · exact h2

/-! ## control characters -/

theorem decimal_printable (n : Nat) : ∀ c ∈ decimal n, 0x20 ≤ c.toNat := fun c hc => by
  have := decimal_digits n c hc; omega

theorem escapeByte_printable (b : UInt8) : ∀ c ∈ escapeByte b, 0x20 ≤ c.toNat := by
  have h : ∀ n, n < 16 → 0x20 ≤ (hexDigit n).toNat := by decide
  have hb : b.toNat < 256 := b.toNat_lt
  intro c hc
  unfold escapeByte at hc
  have two : ∀ a : UInt8, 0x20 ≤ a.toNat → c ∈ [0x5c, a] → 0x20 ≤ c.toNat := by
    intro a ha hc
    simp only [List.mem_cons, List.not_mem_nil, or_false] at hc
    rcases hc with rfl | rfl
    · decide
    · exact ha
  iterate 7
    split at hc
    · exact two _ (by decide) hc
  split at hc
  · rename_i hlt
    have : b.toNat < 32 := by simpa [UInt8.lt_iff_toNat_lt] using hlt
    simp only [List.mem_cons, List.not_mem_nil, or_false] at hc
    rcases hc with rfl | rfl | rfl | rfl | rfl | rfl
    · decide
    · decide
    · decide
    · decide
    · exact h _ (by omega)
    · exact h _ (by omega)
  · rename_i hlt
    simp only [List.mem_cons, List.not_mem_nil, or_false] at hc
    subst hc
    simpa [UInt8.lt_iff_toNat_lt] using hlt

theorem writeString_printable (s : Str) : ∀ c ∈ writeString s, 0x20 ≤ c.toNat := by
  intro c hc
  simp only [writeString, List.mem_cons, List.mem_append, List.mem_flatMap, List.not_mem_nil, or_false] at hc
  rcases hc with rfl | ⟨b, -, h⟩ | rfl
  · decide
  · exact escapeByte_printable b c h
  · decide

mutual
theorem printV_printable {D : Dbl} (hD : ∀ d, ∀ c ∈ D.print d, 0x20 ≤ c.toNat) (j : Json) : ∀ c ∈ (printV D j).1, 0x20 ≤ c.toNat := by
  intro c hc
  cases j with
  | null => exact (by decide : ∀ c ∈ lit "null", 0x20 ≤ c.toNat) c hc
  | bool b =>
    cases b
    · exact (by decide : ∀ c ∈ lit "false", 0x20 ≤ c.toNat) c hc
    · exact (by decide : ∀ c ∈ lit "true", 0x20 ≤ c.toNat) c hc
  | str s => exact writeString_printable s c hc
  | num n =>
    cases n with
    | int i =>
      simp only [printV, writeInt] at hc
      split at hc
      · rcases List.mem_cons.1 hc with rfl | h
        · decide
        · exact decimal_printable _ c h
      · exact decimal_printable _ c hc
    | dbl d =>
      simp only [printV] at hc
      split at hc
      · exact hD d c hc
      · cases hc
  | arr js =>
    have ih := printItems_printable hD js
    simp only [printV] at hc
    split at hc
    · simp only [List.mem_cons, List.mem_append, List.not_mem_nil, or_false] at hc
      rcases hc with rfl | h | rfl
      · decide
      · exact ih c h
      · decide
    · rcases List.mem_cons.1 hc with rfl | h
      · decide
      · exact ih c h
  | obj ms =>
    have ih := printMembers_printable hD ms
    simp only [printV] at hc
    split at hc
    · simp only [List.mem_cons, List.mem_append, List.not_mem_nil, or_false] at hc
      rcases hc with rfl | h | rfl
      · decide
      · exact ih c h
      · decide
    · rcases List.mem_cons.1 hc with rfl | h
      · decide
      · exact ih c h
theorem printItems_printable {D : Dbl} (hD : ∀ d, ∀ c ∈ D.print d, 0x20 ≤ c.toNat) (js : List Json) :
    ∀ c ∈ (printItems D js).1, 0x20 ≤ c.toNat := by
  intro c hc
  cases js with
  | nil => cases hc
  | cons j js =>
    have h1 := printV_printable hD j
    have h2 := printItems_printable hD js
    simp only [printItems] at hc
    split at hc
    · exact h1 c hc
    · split at hc
      · exact h1 c hc
      · simp only [List.mem_cons, List.mem_append] at hc
        rcases hc with h | rfl | h
        · exact h1 c h
        · decide
        · exact h2 c h
theorem printMembers_printable {D : Dbl} (hD : ∀ d, ∀ c ∈ D.print d, 0x20 ≤ c.toNat) (ms : List (Key × Json)) :
    ∀ c ∈ (printMembers D ms).1, 0x20 ≤ c.toNat := by
  intro c hc
  cases ms with
  | nil => cases hc
  | cons m ms =>
    obtain ⟨k, j⟩ := m
    have h0 := writeString_printable k.bytes
    have h1 := printV_printable hD j
    have h2 := printMembers_printable hD ms
    simp only [printMembers] at hc
    have h3 : ∀ c ∈ writeString k.bytes ++ 0x3a :: (printV D j).1, 0x20 ≤ c.toNat := by
      intro c hc
      simp only [List.mem_cons, List.mem_append] at hc
      rcases hc with h | rfl | h
      · exact h0 c h
      · decide
      · exact h1 c h
    split at hc
    · exact h3 c hc
    · split at hc
      · exact h3 c hc
      · rw [List.mem_append, List.mem_cons] at hc
        rcases hc with h | rfl | h
        · exact h3 c h
        · decide
        · exact h2 c h
end

/-- C52 (control characters): no document contains characters below 0x20 when printed; in particular the text contains no
line breaks and no NUL. -/
theorem C52_no_control_characters (D : Dbl) (hD : ∀ d, ∀ c ∈ D.print d, 0x20 ≤ c.toNat) (j : Json) :
    ∀ c ∈ printDoc D j, 0x20 ≤ c.toNat := printV_printable hD j

/-! ## values through text -/

theorem push_shape {E : Env} {H : Heap} {n : Nat} {t : Ty} {v : Val} {j : Json} (h : push E H n t v () = .ok j ())
    (ht : (∃ c, t = .cls c) ∨ (∃ h m k v, t = .map h m k v) ∨ (∃ t', t = .vec t')) : TopAccepts t j := by
  cases n with
  | zero => cases h
  | succ n =>
    change pushStep E H (push E H n) t v () = _ at h
    unfold pushStep at h
    split at h
    all_goals try (rcases ht with ⟨c, hc⟩ | ⟨hashed, multi, k, t', hc⟩ | ⟨t', hc⟩ <;> cases hc; done)
    · cases h
    · obtain ⟨ms', -, rfl⟩ := SM.map_ok_iff.1 h
      exact ⟨_, rfl⟩
    · obtain ⟨ms', -, rfl⟩ := SM.map_ok_iff.1 h
      exact ⟨_, rfl⟩
    · obtain ⟨ms', -, rfl⟩ := SM.map_ok_iff.1 h
      exact ⟨_, rfl⟩
    · generalize E.cls _ = o at h
      cases o with
      | none => cases h
      | some ci =>
        obtain ⟨ms, -, h⟩ := SM.bind_ok_iff.1 h
        obtain ⟨ms', -, rfl⟩ := SM.map_ok_iff.1 h
        exact ⟨_, rfl⟩
    · cases h

theorem own_shape {t : Ty} {j : Json} (ht : (∃ c, t = .cls c) ∨ (∃ h m k v, t = .map h m k v) ∨ (∃ t', t = .vec t'))
    (h : TopAccepts t j) : TopAccepts t (own j) := by
  rcases ht with ⟨c, rfl⟩ | ⟨hashed, multi, k, t', rfl⟩ | ⟨t', rfl⟩ <;> obtain ⟨ms, rfl⟩ := h <;> exact ⟨_, rfl⟩

/-- C52/C01 (text round trip): a value of a class, map or vector type which is representable (with a default-initialised
object as prior content) and whose document has printable numbers only is restored by `fromJson(toJson(v))`, without errors. -/
theorem C52_value_round_trip (E : Env) (H : Heap) (hE : StrTotal E) (D : Dbl) (t : Ty) (v : Val)
    (ht : (∃ c, t = .cls c) ∨ (∃ h m k v, t = .map h m k v) ∨ (∃ t', t = .vec t'))
    (hr : JRepr E H t (E.defInit t) v)
    (hn : ∀ n j, push E H n t v () = .ok j () → ∀ x ∈ numbers j, Printable D x) :
    ∃ (N : Nat) (text : Str), ∀ n, N ≤ n →
      toJson E H D n t v () = .ok text () ∧
      fromJson E (textParser D) n t text none = .ok v none ∧
      ∀ s : ErrSt, ∃ i, (i = s.index ∨ i = noIndex) ∧ fromJson E (textParser D) n t text (some s) = .ok v (some { s with index := i }) := by
  obtain ⟨N, j, h⟩ := C01_json_document_round_trip E H hE t _ v hr
  have hp := C52_round_trip D j (hn N j (h N (Nat.le_refl _)).1)
  refine ⟨N, printDoc D j, fun n hn => ?_⟩
  obtain ⟨h1, h2, h3⟩ := h n hn
  have hts : TopSupported t := by
    rcases ht with ⟨c, rfl⟩ | ⟨h, m, k, v, rfl⟩ | ⟨t', rfl⟩ <;> trivial
  have hshape : TopAccepts t (own j) := own_shape ht (push_shape h1 ht)
  have hdoc : toJsonDocument E H n t v () = .ok j () := by
    rcases ht with ⟨c, rfl⟩ | ⟨h, m, k, v, rfl⟩ | ⟨t', rfl⟩ <;> exact h1
  refine ⟨?_, ?_, ?_⟩
  · exact SM.bind_ok_iff.2 ⟨j, hdoc, rfl⟩
  · have := ((C21_accepted E (textParser D) n t hts (printDoc D j) (own j) hp hshape none).2.2.2.2.2 ht).1 v none
    rw [this, pull_own]
    exact h2
  · intro s
    obtain ⟨i, hi, h3⟩ := h3 s
    refine ⟨i, hi, ?_⟩
    have := ((C21_accepted E (textParser D) n t hts (printDoc D j) (own j) hp hshape (some s)).2.2.2.2.2 ht).1 v
      (some { s with index := i })
    rw [this, pull_own]
    exact h3

theorem numbersItems_mem {js : List Json} {x : Num} : x ∈ numbersItems js ↔ ∃ j ∈ js, x ∈ numbers j := by
  induction js with
  | nil => simp [numbersItems]
  | cons j js ih => simp [numbersItems, ih]

theorem numbersMembers_mem {ms : List (Key × Json)} {x : Num} : x ∈ numbersMembers ms ↔ ∃ m ∈ ms, x ∈ numbers m.2 := by
  induction ms with
  | nil => simp [numbersMembers]
  | cons m ms ih => obtain ⟨k, j⟩ := m; simp only [numbersMembers, List.mem_append, ih, List.mem_cons, exists_eq_or_imp]

theorem appendToMember_numbers {name : Str} {j : Json} {ms : List (Key × Json)} {x : Num}
    (h : x ∈ numbersMembers (appendToMember name j ms)) : x ∈ numbersMembers ms ∨ x ∈ numbers j := by
  induction ms with
  | nil => exact .inl h
  | cons m ms ih =>
    obtain ⟨k, j'⟩ := m
    simp only [appendToMember] at h
    split at h
    · split at h
      · rename_i js
        simp only [numbersMembers, numbers, List.mem_append, numbersItems_mem, List.mem_cons, List.not_mem_nil, or_false] at h ⊢
        rcases h with ⟨j'', h1 | rfl, h2⟩ | h
        · exact .inl (.inl ⟨j'', h1, h2⟩)
        · exact .inr h2
        · exact .inl (.inr h)
      · exact .inl h
    · simp only [numbersMembers, List.mem_append] at h ⊢
      rcases h with h | h
      · exact .inl (.inl h)
      · rcases ih h with h | h
        · exact .inl (.inr h)
        · exact .inr h

theorem addToGroup_numbers {name : Str} {j : Json} {ms : List (Key × Json)} {x : Num}
    (h : x ∈ numbersMembers (addToGroup name j ms)) : x ∈ numbersMembers ms ∨ x ∈ numbers j := by
  unfold addToGroup at h
  split at h
  · exact appendToMember_numbers h
  · rw [numbersMembers_mem] at h
    obtain ⟨m, hm, h⟩ := h
    rcases List.mem_append.1 hm with hm | hm
    · exact .inl (numbersMembers_mem.2 ⟨m, hm, h⟩)
    · simp only [List.mem_cons, List.not_mem_nil, or_false] at hm
      subst hm
      simp only [numbers, numbersItems, List.append_nil] at h
      exact .inr h

theorem pushMultimapEntries_numbers {self : Ty → Val → SM Json} {t : Ty} {kvs : List (Val × Val)} {ms ms' : List (Key × Json)}
    (h : pushMultimapEntries self t kvs ms () = .ok ms' ()) {x : Num} (hx : x ∈ numbersMembers ms') :
    x ∈ numbersMembers ms ∨ ∃ q ∈ kvs, ∃ j, self t q.2 () = .ok j () ∧ x ∈ numbers j := by
  induction kvs generalizing ms with
  | nil => cases h; exact .inl hx
  | cons q kvs ih =>
    obtain ⟨k, v⟩ := q
    cases k <;> try cases h
    simp only [pushMultimapEntries] at h
    obtain ⟨j, h1, h2⟩ := SM.bind_ok_iff.1 h
    rcases ih h2 with h3 | ⟨q, hq, j', h3, h4⟩
    · rcases addToGroup_numbers h3 with h3 | h3
      · exact .inl h3
      · exact .inr ⟨_, List.mem_cons_self, j, h1, h3⟩
    · exact .inr ⟨q, List.mem_cons_of_mem _ hq, j', h3, h4⟩

/-- `Inside H x v`: the value `x` is `v`, or is contained in `v`, or in an object `v` refers to. -/
inductive Inside (H : Heap) (x : Val) : Val → Prop
  | refl : Inside H x x
  | some {v} : Inside H x v → Inside H x (.some v)
  | ptr {v} : Inside H x v → Inside H x (.ptr v)
  | ref {a v} : H a = some v → Inside H x v → Inside H x (.ref a)
  | list {v vs} : v ∈ vs → Inside H x v → Inside H x (.list vs)
  | map {q kvs} : q ∈ kvs → Inside H x q.2 → Inside H x (.map kvs)
  | tup {v vs} : v ∈ vs → Inside H x v → Inside H x (.tup vs)
  | alt {i v} : Inside H x v → Inside H x (.alt i v)
  | obj {q st} : q ∈ st → Inside H x q.2 → Inside H x (.obj st)

/-- The numbers within a value survive conversion to text. -/
structure FitsText (D : Dbl) (H : Heap) (v : Val) : Prop where
  int : ∀ i, Inside H (.int i) v → -2 ^ 63 ≤ i ∧ i < 2 ^ 64
  f32 : ∀ b, Inside H (.f32 b) v → Printable D (.dbl (Ieee.widen b))
  f64 : ∀ b, Inside H (.f64 b) v → Printable D (.dbl b)
  index : ∀ i w, Inside H (.alt i w) v → i < 2 ^ 64

theorem FitsText.sub {D : Dbl} {H : Heap} {v w : Val} (h : FitsText D H v) (hp : ∀ x, Inside H x w → Inside H x v) : FitsText D H w :=
  ⟨fun i hi => h.int i (hp _ hi), fun b hb => h.f32 b (hp _ hb), fun b hb => h.f64 b (hp _ hb), fun i x hi => h.index i x (hp _ hi)⟩

theorem lookup_mem {st : Store} {k : FieldKey} {v : Val} (h : st.get? k = some v) : (k, v) ∈ st := by
  induction st with
  | nil => cases h
  | cons q st ih =>
    obtain ⟨k', v'⟩ := q
    simp only [Store.get?, List.lookup] at h
    split at h
    · rename_i he
      cases h
      have : k = k' := by simpa using he
      subst this
      exact List.mem_cons_self
    · exact List.mem_cons_of_mem _ (ih h)

theorem push_numbers {D : Dbl} {E : Env} {H : Heap} (ho : ∀ hashed vs, ∀ x ∈ E.order hashed vs, x ∈ vs)
    (hkv : ∀ hashed kvs, ∀ x ∈ E.orderKV hashed kvs, x ∈ kvs) (n : Nat) :
    ∀ t v j, push E H n t v () = .ok j () → FitsText D H v → ∀ x ∈ numbers j, Printable D x := by
  induction n with
  | zero => intro t v j h; cases h
  | succ n ih =>
    intro t v j h hf x hx
    change pushStep E H (push E H n) t v () = _ at h
    have elems : ∀ t vs js, (∀ v ∈ vs, FitsText D H v) → pushElems (push E H n) t vs () = .ok js () →
        ∀ x ∈ numbersItems js, Printable D x := by
      intro t vs js hvs h x hx
      obtain ⟨j, hj, hx⟩ := numbersItems_mem.1 hx
      obtain ⟨v, hv, h1⟩ := forall₂_mem_right (pushElems_iff.1 h) hj
      exact ih _ _ _ h1 (hvs v hv) x hx
    have tuple : ∀ ts vs js, (∀ v ∈ vs, FitsText D H v) → pushTuple (push E H n) ts vs () = .ok js () →
        ∀ x ∈ numbersItems js, Printable D x := by
      intro ts vs js hvs h x hx
      obtain ⟨j, hj, hx⟩ := numbersItems_mem.1 hx
      obtain ⟨tv, hv, h1⟩ := forall₂_mem_right (pushTuple_iff.1 h).2 hj
      exact ih _ _ _ h1 (hvs _ (List.of_mem_zip hv).2) x hx
    unfold pushStep at h
    split at h
    · cases h
    all_goals try (cases h; simp [numbers] at hx; done)
    all_goals try (cases h; simp only [numbers, List.mem_cons, List.not_mem_nil, or_false] at hx; subst hx; first | exact hf.int _ .refl | exact hf.f32 _ .refl | exact hf.f64 _ .refl)
    · obtain ⟨js, h1, rfl⟩ := SM.map_ok_iff.1 h
      exact elems _ _ _ (fun v hv => hf.sub fun x hx => .list hv hx) h1 x (by simpa [numbers] using hx)
    · obtain ⟨js, h1, rfl⟩ := SM.map_ok_iff.1 h
      exact elems _ _ _ (fun v hv => hf.sub fun x hx => .list (ho _ _ _ hv) hx) h1 x (by simpa [numbers] using hx)
    · obtain ⟨ms, h1, rfl⟩ := SM.map_ok_iff.1 h
      simp only [numbers] at hx
      obtain ⟨m, hm, hx⟩ := numbersMembers_mem.1 hx
      obtain ⟨q, hq, k, -, -, h2⟩ := forall₂_mem_right (pushMapEntries_iff.1 h1) hm
      exact ih _ _ _ h2 (hf.sub fun x hx => .map (hkv _ _ _ hq) hx) x hx
    · obtain ⟨ms, h1, rfl⟩ := SM.map_ok_iff.1 h
      simp only [numbers] at hx
      rcases pushMultimapEntries_numbers h1 hx with hx | ⟨q, hq, j, h2, hx⟩
      · cases hx
      · exact ih _ _ _ h2 (hf.sub fun x hx => .map (hkv _ _ _ hq) hx) x hx
    · obtain ⟨js, h1, rfl⟩ := SM.map_ok_iff.1 h
      exact tuple _ _ _ (fun v hv => hf.sub fun x hx => .tup hv hx) h1 x (by simpa [numbers] using hx)
    · obtain ⟨js, h1, rfl⟩ := SM.map_ok_iff.1 h
      exact tuple _ _ _ (fun v hv => hf.sub fun x hx => .tup hv hx) h1 x (by simpa [numbers] using hx)
    · exact ih _ _ _ h (hf.sub fun x hx => .some hx) x hx
    · exact ih _ _ _ h (hf.sub fun x hx => .ptr hx) x hx
    · exact ih _ _ _ h (hf.sub fun x hx => .ptr hx) x hx
    · generalize hH : H _ = o at h
      cases o with
      | none => cases h
      | some w => exact ih _ _ _ h (hf.sub fun x hx => .ref hH hx) x hx
    · generalize hH : H _ = o at h
      cases o with
      | none => cases h
      | some w => exact ih _ _ _ h (hf.sub fun x hx => .ref hH hx) x hx
    · have hi := hf.index _ _ .refl
      rename_i ts i w
      have hidx : Printable D (.int i) := ⟨by omega, by omega⟩
      cases hts : ts[i]? with
      | none => simp only [hts] at h; cases h
      | some t' =>
        by_cases hm : t' = .mono
        · subst hm
          simp only [hts] at h
          cases h
          simp only [numbers, numbersMembers, List.append_nil, List.mem_cons, List.not_mem_nil, or_false] at hx
          subst hx
          exact hidx
        · have h' : (push E H n t' w >>= fun j => (pure (.obj [(⟨lit "index", .literal⟩, .num (.int i)), (⟨lit "data", .literal⟩, j)]) : SM Json)) () =
              .ok j () := by
            rw [← h, hts]
            cases t' <;> first | rfl | exact absurd rfl hm
          obtain ⟨j, h1, rfl⟩ := SM.map_ok_iff.1 h'
          simp only [numbers, numbersMembers, List.append_nil, List.mem_append, List.mem_cons, List.not_mem_nil, or_false] at hx
          rcases hx with rfl | hx
          · exact hidx
          · exact ih _ _ _ h1 (hf.sub fun x hx => .alt hx) x hx
    · generalize E.cls _ = o at h
      cases o with
      | none => cases h
      | some ci =>
        obtain ⟨ms, h1, h⟩ := SM.bind_ok_iff.1 h
        obtain ⟨ms', h2, rfl⟩ := SM.map_ok_iff.1 h
        simp only [numbers] at hx
        obtain ⟨m, hm, hxm⟩ := numbersMembers_mem.1 hx
        rcases List.mem_append.1 hm with hm | hm
        · obtain ⟨mss, h3, rfl⟩ := pushBases_iff.1 h1
          obtain ⟨ms, hms, hm⟩ := List.mem_flatten.1 hm
          obtain ⟨b, hb, h4⟩ := forall₂_mem_right h3 hms
          exact ih _ _ _ h4 hf x (by simp only [numbers]; exact numbersMembers_mem.2 ⟨m, hm, hxm⟩)
        · obtain ⟨f, -, -, v, hv, h4⟩ := forall₂_mem_right (pushFields_iff.1 h2) hm
          exact ih _ _ _ h4 (hf.sub fun x hx => .obj (lookup_mem hv) hx) x hxm
    · cases h

/-- C52/C01 (text round trip, condition on the value): the same if all integers within the value are 64-bit integers (all C++
integers are) and all floating-point numbers within it are finite and survive the conversions between `double` and text. -/
theorem C52_value_round_trip_numbers (E : Env) (H : Heap) (hE : StrTotal E) (D : Dbl) (t : Ty) (v : Val)
    (ho : ∀ hashed vs, ∀ x ∈ E.order hashed vs, x ∈ vs) (hkv : ∀ hashed kvs, ∀ x ∈ E.orderKV hashed kvs, x ∈ kvs)
    (ht : (∃ c, t = .cls c) ∨ (∃ h m k v, t = .map h m k v) ∨ (∃ t', t = .vec t'))
    (hr : JRepr E H t (E.defInit t) v) (hf : FitsText D H v) :
    ∃ (N : Nat) (text : Str), ∀ n, N ≤ n →
      toJson E H D n t v () = .ok text () ∧
      fromJson E (textParser D) n t text none = .ok v none ∧
      ∀ s : ErrSt, ∃ i, (i = s.index ∨ i = noIndex) ∧ fromJson E (textParser D) n t text (some s) = .ok v (some { s with index := i }) :=
  C52_value_round_trip E H hE D t v ht hr fun n j h => push_numbers ho hkv n t v j h hf

/-- C52 (scalars): numbers, booleans and strings survive `fromJson(toJson(v))`. -/
theorem C52_scalar_round_trip (E : Env) (H : Heap) (D : Dbl) (n : Nat) (s : Option ErrSt) :
    (∀ b, ∃ text, toJson E H D n .bool (.bool b) () = .ok text () ∧ fromJson E (textParser D) n .bool text s = .ok (.bool b) s) ∧
    (∀ it i, (it = .i32 ∨ it = .u32 ∨ it = .i64 ∨ it = .u64) → it.lo ≤ i → i < it.hi →
      ∃ text, toJson E H D n (.int it) (.int i) () = .ok text () ∧ fromJson E (textParser D) n (.int it) text s = .ok (.int i) s) ∧
    (∀ b, Printable D (.dbl b) →
      ∃ text, toJson E H D n .f64 (.f64 b) () = .ok text () ∧ fromJson E (textParser D) n .f64 text s = .ok (.f64 b) s) ∧
    (∀ x, PlainStr x →
      ∃ text, toJson E H D n .str (.str x) () = .ok text () ∧ fromJson E (textParser D) n .str text s = .ok (.str x) s) := by
  have key : ∀ t v j, TopSupported t → toJsonDocument E H n t v () = .ok j () → (∀ x ∈ numbers j, Printable D x) → own j = j →
      toJson E H D n t v () = .ok (printDoc D j) () ∧ textParser D (printDoc D j) = .ok j := by
    intro t v j _ h hn ho
    refine ⟨SM.bind_ok_iff.2 ⟨j, h, rfl⟩, ?_⟩
    have := C52_round_trip D j hn
    rwa [ho] at this
  refine ⟨?_, ?_, ?_, ?_⟩
  · intro b
    obtain ⟨h1, h2⟩ := key .bool (.bool b) (.bool b) trivial rfl (by simp [numbers]) rfl
    exact ⟨_, h1, (C21_accepted E _ n .bool trivial _ _ h2 ⟨b, rfl⟩ s).1 b rfl rfl⟩
  · intro it i hit hlo hhi
    have hdoc : toJsonDocument E H n (.int it) (.int i) () = .ok (.num (.int i)) () := by
      rcases hit with rfl | rfl | rfl | rfl <;> rfl
    have hacc : TopAccepts (.int it) (.num (.int i)) ∧ -2 ^ 63 ≤ i ∧ i < 2 ^ 64 := by
      rcases hit with rfl | rfl | rfl | rfl <;>
        simp [IntTy.hi, IntTy.card, IntTy.lo, IntTy.signed, IntTy.bytes] at hlo hhi <;>
        exact ⟨⟨i, rfl, by omega, by omega⟩, by omega, by omega⟩
    obtain ⟨h1, h2⟩ := key (.int it) (.int i) (.num (.int i)) hit hdoc
      (by intro x hx; simp only [numbers, List.mem_cons, List.not_mem_nil, or_false] at hx; subst hx; exact hacc.2) rfl
    exact ⟨_, h1, (C21_accepted E _ n (.int it) hit _ _ h2 hacc.1 s).2.1 it i rfl rfl⟩
  · intro b hb
    obtain ⟨h1, h2⟩ := key .f64 (.f64 b) (.num (.dbl b)) trivial rfl
      (by intro x hx; simp only [numbers, List.mem_cons, List.not_mem_nil, or_false] at hx; subst hx; exact hb) rfl
    exact ⟨_, h1, (C21_accepted E _ n .f64 trivial _ _ h2 ⟨b, rfl⟩ s).2.2.1 b rfl rfl⟩
  · intro x hx
    have hd : toJsonDocument E H n .str (.str x) () = .ok (.str x) () := by
      simp only [toJsonDocument]
      rw [Nat.mod_eq_of_lt hx.2, List.take_of_length_le (Nat.le_refl _)]
      rfl
    obtain ⟨h1, h2⟩ := key .str (.str x) (.str x) trivial hd (by simp [numbers]) rfl
    refine ⟨_, h1, (C21_accepted E _ n .str trivial _ _ h2 ⟨x, rfl⟩ s).2.2.2.2.1 x x rfl rfl ?_⟩
    exact (plain_cstrOf hx).symm

/-! ### non-vacuity -/

namespace TextDemo
open RoundTripDemo Demo

/-- some conversions between numbers and text which are inverse to each other -/
def dbl : Dbl where
  print d := 0x31 :: 0x2e :: decimal d.toNat
  parse s := some (BitVec.ofNat 64 (value (s.drop 2)))

theorem dbl_ok (d : BitVec 64) (h : Ieee.isFinite d = true) : Printable dbl (.dbl d) := by
  refine ⟨h, ?_⟩
  have h1 : IntPart [0x31] := ⟨⟨by simp, by decide⟩, by intro r h; cases h⟩
  have h2 := NumText.dbl (D := dbl) [] [0x31] (0x2e :: decimal d.toNat) [] d (.inl rfl) h1
    (.inr ⟨_, (decimal_intPart _).1, rfl⟩) (.inl rfl) (by intro h; cases h) (by
      simp only [dbl, List.nil_append, List.append_nil, List.cons_append, List.drop_succ_cons, List.drop_zero]
      have : value (decimal d.toNat) = d.toNat := decimal_val _
      rw [this]
      simp)
  rw [List.append_nil] at h2
  exact h2

/-- a document with numbers, strings with special characters and nested containers -/
def doc : Json := .obj [(⟨lit "a\"b", .literal⟩, .arr [.num (.int (-42)), .num (.dbl 0x3ff0000000000000), .null]),
  (⟨[], .borrowed⟩, .str [0, 10, 200])]

example : ∀ n ∈ numbers doc, Printable dbl n := by
  intro n hn
  simp only [doc, numbers, numbersMembers, numbersItems, List.append_nil, List.nil_append, List.cons_append, List.mem_cons, List.not_mem_nil, or_false] at hn
  rcases hn with rfl | rfl
  · exact ⟨by decide, by decide⟩
  · exact dbl_ok _ (by decide)

theorem print_cut : printDoc dbl (.arr [.num (.int 1), .num (.dbl 0x7ff0000000000000), .null]) = [0x5b, 0x31, 0x2c] := by
  have h : Ieee.isFinite 0x7ff0000000000000#64 = false := by decide
  have h1 : decimal 1 = [0x31] := by rw [decimal]; rfl
  simp [printDoc, printV, printItems, h, writeInt, h1]

/-- a document with a number which is not finite is cut off -/
example : (∀ n ∈ numbers (.arr [.num (.int 1), .num (.dbl 0x7ff0000000000000), .null]), Printable dbl n ∨ NonFinite n) ∧
    (∃ n ∈ numbers (.arr [.num (.int 1), .num (.dbl 0x7ff0000000000000), .null]), NonFinite n) ∧
    textParser dbl (printDoc dbl (.arr [.num (.int 1), .num (.dbl 0x7ff0000000000000), .null])) = .error ⟨3, 0⟩ := by
  refine ⟨?_, ⟨.dbl 0x7ff0000000000000, by simp [numbers, numbersItems], by unfold NonFinite; decide⟩, ?_⟩
  · intro n hn
    simp only [numbers, numbersItems, List.append_nil, List.nil_append, List.cons_append, List.mem_cons, List.not_mem_nil, or_false] at hn
    rcases hn with rfl | rfl
    · exact .inl ⟨by decide, by decide⟩
    · right; unfold NonFinite; decide
  · rw [print_cut]; rfl

/-- a text with a byte order mark, whitespace, escapes and a surrogate pair: EF BB BF, then
`[ "\u00e4\ud83d\uDE00\/" , { } ]`, a line break, NUL and garbage -/
example : textParser dbl [0xef, 0xbb, 0xbf, 0x20, 0x5b, 0x20, 0x22, 0x5c, 0x75, 0x30, 0x30, 0x65, 0x34, 0x5c, 0x75, 0x64, 0x38, 0x33, 0x64,
      0x5c, 0x75, 0x44, 0x45, 0x30, 0x30, 0x5c, 0x2f, 0x22, 0x20, 0x2c, 0x7b, 0x20, 0x7d, 0x5d, 0x0a, 0x00, 0x41] =
    .ok (.arr [.str [0xc3, 0xa4, 0xf0, 0x9f, 0x98, 0x80, 0x2f], .obj []]) := by rfl

theorem order_ok (hashed : Bool) (vs : List Val) : ∀ x ∈ env.order hashed vs, x ∈ vs := by
  intro x hx
  cases hashed
  · exact hx
  · exact List.mem_reverse.1 hx

theorem orderKV_ok (hashed : Bool) (vs : List (Val × Val)) : ∀ x ∈ env.orderKV hashed vs, x ∈ vs := by
  intro x hx
  cases hashed
  · exact hx
  · exact List.mem_reverse.1 hx

theorem inside_int {H : Heap} {x : Val} {i : Int} (h : Inside H x (.int i)) : x = .int i := by cases h; rfl
theorem inside_str {H : Heap} {x : Val} {s : Str} (h : Inside H x (.str s)) : x = .str s := by cases h; rfl

/-- the scalars within the demo object -/
theorem inside_value {x : Val} (h : Inside (fun _ => none) x (.obj value)) :
    (∃ i : Int, -100 ≤ i ∧ i < 100 ∧ x = .int i) ∨ (∃ s, x = .str s) ∨ (∃ vs, x = .list vs) ∨ (∃ kvs, x = .map kvs) ∨
      ∃ st, x = .obj st := by
  cases h with
  | refl => exact .inr (.inr (.inr (.inr ⟨_, rfl⟩)))
  | obj hq h =>
    simp only [RoundTripDemo.value, List.mem_cons, List.not_mem_nil, or_false] at hq
    rcases hq with rfl | rfl | rfl | rfl
    · exact .inl ⟨_, by decide, by decide, inside_int h⟩
    · cases h with
      | refl => exact .inr (.inr (.inr (.inl ⟨_, rfl⟩)))
      | map hq h =>
        simp only [List.mem_cons, List.not_mem_nil, or_false] at hq
        rcases hq with rfl | rfl
        · exact .inl ⟨_, by decide, by decide, inside_int h⟩
        · exact .inl ⟨_, by decide, by decide, inside_int h⟩
    · cases h with
      | refl => exact .inr (.inr (.inl ⟨_, rfl⟩))
      | list hq h =>
        simp only [List.mem_cons, List.not_mem_nil, or_false] at hq
        rcases hq with rfl | rfl <;> exact .inr (.inl ⟨_, inside_str h⟩)
    · exact .inl ⟨_, by decide, by decide, inside_int h⟩

theorem fits : FitsText dbl (fun _ => none) (.obj value) where
  int i h := by
    rcases inside_value h with ⟨j, h1, h2, h3⟩ | ⟨_, h⟩ | ⟨_, h⟩ | ⟨_, h⟩ | ⟨_, h⟩
    · cases h3; omega
    all_goals cases h
  f32 b h := by rcases inside_value h with ⟨j, h1, h2, h3⟩ | ⟨_, h⟩ | ⟨_, h⟩ | ⟨_, h⟩ | ⟨_, h⟩ <;> first | cases h3 | cases h
  f64 b h := by rcases inside_value h with ⟨j, h1, h2, h3⟩ | ⟨_, h⟩ | ⟨_, h⟩ | ⟨_, h⟩ | ⟨_, h⟩ <;> first | cases h3 | cases h
  index i w h := by rcases inside_value h with ⟨j, h1, h2, h3⟩ | ⟨_, h⟩ | ⟨_, h⟩ | ⟨_, h⟩ | ⟨_, h⟩ <;> first | cases h3 | cases h

/-- an object of a derived class survives being written to text and read again -/
example : ∃ (N : Nat) (text : Str), ∀ n, N ≤ n →
    toJson env (fun _ => none) dbl n (.cls 1) (.obj value) () = .ok text () ∧
    fromJson env (textParser dbl) n (.cls 1) text none = .ok (.obj value) none := by
  obtain ⟨N, text, h⟩ := C52_value_round_trip_numbers env (fun _ => none) demo_strTotal dbl (.cls 1) (.obj value) order_ok orderKV_ok (.inl ⟨1, rfl⟩)
    (repr_with .indet) fits
  exact ⟨N, text, fun n hn => ⟨(h n hn).1, (h n hn).2.1⟩⟩

end TextDemo

end Verif
