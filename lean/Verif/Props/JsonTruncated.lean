import Verif.Props.JsonText

/-!
# C64: truncated JSON texts are never accepted
-/

namespace Verif
open JsonText

/-- what follows a value which is not a number does not matter for the parser -/
theorem scanValue_closed {D : Dbl} {j : Json} {t : Str} (h : Text D j t) (hj : ∀ x, j ≠ .num x) (n : Nat) (r : Str)
    (hn : t.length < n) : scanValue D n (t ++ r) = .ok (j, r) := by
  obtain ⟨n, rfl⟩ : ∃ m, n = m + 1 := ⟨n - 1, by omega⟩
  cases h with
  | null => simp only [scanValue]; exact scanLit_spec (lit "null") _ _
  | true => simp only [scanValue]; exact scanLit_spec (lit "true") _ _
  | false => simp only [scanValue]; exact scanLit_spec (lit "false") _ _
  | num h => exact absurd rfl (hj _)
  | str h =>
    obtain ⟨u, hu, rfl⟩ := h
    simp only [List.length_cons, List.length_append, List.length_nil] at hn
    have := scanString_chars hu n [] r (by omega)
    simp [scanValue, peek, this]
  | @arrEmpty b hb =>
    have := skipWs_token hb 0x5d r (by decide)
    simp [scanValue, peek, this]
  | @arr js t h =>
    simp only [List.length_cons, List.length_append, List.length_nil] at hn
    have h1 := scanItems_complete h n [] r (by omega)
    have h2 : peek (skipWs (t ++ 0x5d :: r)) ≠ 0x5d := by
      cases h with
      | one hb ht hb' =>
        simp only [List.append_assoc]
        rw [skipWs_text ht hb]; exact (text_head ht _).2.1
      | more hb ht hb' =>
        simp only [List.append_assoc]
        rw [skipWs_text ht hb]; exact (text_head ht _).2.1
    have h3 : peek (0x5b :: (t ++ [0x5d]) ++ r) = 0x5b := rfl
    have h4 : (0x5b :: (t ++ [0x5d]) ++ r : Str).tail = t ++ 0x5d :: r := by simp
    simp only [scanValue, h3, h4, if_neg h2, h1]
    rfl
  | @objEmpty b hb =>
    have := skipWs_token hb 0x7d r (by decide)
    simp [scanValue, peek, this]
  | @obj ms t h =>
    simp only [List.length_cons, List.length_append, List.length_nil] at hn
    have h1 := scanMembers_complete h n [] r (by omega)
    have h2 : peek (skipWs (t ++ 0x7d :: r)) ≠ 0x7d := by
      cases h with
      | one hb hk hb1 hb2 ht hb' =>
        obtain ⟨u, -, rfl⟩ := hk
        simp only [List.append_assoc, List.cons_append]
        rw [skipWs_token hb 0x22 _ (by decide)]; exact (by decide : (0x22 : UInt8) ≠ 0x7d)
      | more hb hk hb1 hb2 ht hb' =>
        obtain ⟨u, -, rfl⟩ := hk
        simp only [List.append_assoc, List.cons_append]
        rw [skipWs_token hb 0x22 _ (by decide)]; exact (by decide : (0x22 : UInt8) ≠ 0x7d)
    have h3 : peek (0x7b :: (t ++ [0x7d]) ++ r) = 0x7b := rfl
    have h4 : (0x7b :: (t ++ [0x7d]) ++ r : Str).tail = t ++ 0x7d :: r := by simp
    simp only [scanValue, h3, h4, if_neg h2, h1]
    rfl

/-- the first character of a text tells whether it is a number -/
theorem text_num_head {D : Dbl} {j : Json} {t : Str} (h : Text D j t) (r : Str) :
    (peek (t ++ r) = 0x2d ∨ isDigit (peek (t ++ r)) = true) ↔ ∃ x, j = .num x := by
  constructor
  · intro hp
    cases h with
    | num h => exact ⟨_, rfl⟩
    | null => exact absurd hp (by decide : ¬ ((0x6e : UInt8) = 0x2d ∨ isDigit 0x6e = true))
    | true => exact absurd hp (by decide : ¬ ((0x74 : UInt8) = 0x2d ∨ isDigit 0x74 = true))
    | false => exact absurd hp (by decide : ¬ ((0x66 : UInt8) = 0x2d ∨ isDigit 0x66 = true))
    | str h => obtain ⟨u, -, rfl⟩ := h; exact absurd hp (by decide : ¬ ((0x22 : UInt8) = 0x2d ∨ isDigit 0x22 = true))
    | arrEmpty => exact absurd hp (by decide : ¬ ((0x5b : UInt8) = 0x2d ∨ isDigit 0x5b = true))
    | arr => exact absurd hp (by decide : ¬ ((0x5b : UInt8) = 0x2d ∨ isDigit 0x5b = true))
    | objEmpty => exact absurd hp (by decide : ¬ ((0x7b : UInt8) = 0x2d ∨ isDigit 0x7b = true))
    | obj => exact absurd hp (by decide : ¬ ((0x7b : UInt8) = 0x2d ∨ isDigit 0x7b = true))
  · rintro ⟨x, rfl⟩
    cases h with
    | num h => exact num_head h r

theorem text_ne_nil {D : Dbl} {j : Json} {t : Str} (h : Text D j t) : t ≠ [] := by
  rintro rfl
  have := text_head h []
  exact this.2.2.2.1 rfl

/-- the texts of values which are not numbers are prefix-free -/
theorem text_prefix_free {D : Dbl} {j j' : Json} {t t' : Str} (h : Text D j t) (h' : Text D j' t') (hj : ∀ x, j ≠ .num x)
    (hp : t' <+: t) : t' = t ∧ j' = j := by
  obtain ⟨r, rfl⟩ := hp
  have hj' : ∀ x, j' ≠ .num x := by
    rintro x rfl
    have h1 := (text_num_head h' r).2 ⟨x, rfl⟩
    have h2 := (text_num_head h []).1 (by simpa using h1)
    obtain ⟨y, rfl⟩ := h2
    exact hj y rfl
  have h1 := scanValue_closed h' hj' ((t' ++ r).length + 1) r (by simp only [List.length_append]; omega)
  have h2 := scanValue_closed h hj ((t' ++ r).length + 1) [] (by omega)
  rw [List.append_nil, h1] at h2
  cases h2
  exact ⟨by simp, rfl⟩

/-- C64: a JSON text of anything but a number which has been cut off anywhere is rejected by the parser. -/
theorem C64_truncated_text_rejected (D : Dbl) (j : Json) (t : Str) (h : Text D j t) (hj : ∀ x, j ≠ .num x) (cut : Str)
    (hp : cut <+: t) (hne : cut ≠ t) : ∃ e, textParser D cut = .error e := by
  cases hr : textParser D cut with
  | error e => exact ⟨e, rfl⟩
  | ok j' =>
    exfalso
    obtain ⟨bom, b, t', b', tail, rfl, hbom, hb, hT, -, -⟩ := (C52_accepts_exactly D cut j').1 hr
    obtain ⟨r, hr'⟩ := hp
    have hd := text_head h []
    rw [List.append_nil] at hd
    -- neither a byte order mark nor whitespace at the beginning
    have hb0 : bom = [] := by
      cases bom with
      | nil => rfl
      | cons c bom =>
        have hc : c ∈ [(0xef : UInt8), 0xbb, 0xbf] := hbom.subset List.mem_cons_self
        rw [← hr'] at hd
        simp only [List.cons_append, peek] at hd
        simp only [List.mem_cons, List.not_mem_nil, or_false] at hc
        rcases hc with rfl | rfl | rfl
        · exact absurd rfl hd.2.2.2.2.1
        · exact absurd rfl hd.2.2.2.2.2.1
        · exact absurd rfl hd.2.2.2.2.2.2
    subst hb0
    have hb1 : b = [] := by
      cases b with
      | nil => rfl
      | cons c b =>
        rw [← hr'] at hd
        simp only [List.nil_append, List.cons_append, peek] at hd
        rcases hb c List.mem_cons_self with rfl | rfl | rfl | rfl <;> exact absurd hd.1 (by decide)
    subst hb1
    simp only [List.nil_append] at hr' hne
    have hpre : t' <+: t := ⟨b' ++ tail ++ r, by rw [← hr']; simp [List.append_assoc]⟩
    obtain ⟨rfl, rfl⟩ := text_prefix_free h hT hj hpre
    have : b' ++ tail ++ r = [] := by
      have h1 : t' ++ (b' ++ tail ++ r) = t' ++ [] := by rw [List.append_nil]; conv => rhs; rw [← hr']
                                                         simp [List.append_assoc]
      exact List.append_cancel_left h1
    simp only [List.append_eq_nil_iff] at this
    obtain ⟨⟨rfl, rfl⟩, rfl⟩ := this
    simp at hne

/-! ## what `toJson` returns -/

mutual
theorem patch_numbers {D : Dbl} {x : BitVec 64} (hx : Printable D (.dbl x)) (j : Json)
    (h : ∀ n ∈ numbers j, Printable D n ∨ NonFinite n) : ∀ n ∈ numbers (patch x j), Printable D n := by
  intro n hn
  cases j with
  | null => simp [patch, numbers] at hn
  | bool => simp [patch, numbers] at hn
  | str => simp [patch, numbers] at hn
  | num m =>
    have hm := h m (by simp [numbers])
    cases m with
    | int i =>
      simp only [patch, numbers, List.mem_cons, List.not_mem_nil, or_false] at hn
      subst hn
      rcases hm with hm | hm
      · exact hm
      · exact hm.elim
    | dbl d =>
      simp only [patch, numbers, List.mem_cons, List.not_mem_nil, or_false] at hn
      subst hn
      rcases hm with hm | hm
      · rw [hm.1]; exact hm
      · have : Ieee.isFinite d = false := hm
        rw [this]; exact hx
  | arr js => exact patchItems_numbers hx js (by simpa [numbers] using h) n (by simpa [patch, numbers] using hn)
  | obj ms => exact patchMembers_numbers hx ms (by simpa [numbers] using h) n (by simpa [patch, numbers] using hn)
theorem patchItems_numbers {D : Dbl} {x : BitVec 64} (hx : Printable D (.dbl x)) (js : List Json)
    (h : ∀ n ∈ numbersItems js, Printable D n ∨ NonFinite n) : ∀ n ∈ numbersItems (patchItems x js), Printable D n := by
  intro n hn
  cases js with
  | nil => simp [patchItems, numbersItems] at hn
  | cons j js =>
    simp only [numbersItems, List.mem_append] at h
    simp only [patchItems, numbersItems, List.mem_append] at hn
    rcases hn with hn | hn
    · exact patch_numbers hx j (fun n hn => h n (.inl hn)) n hn
    · exact patchItems_numbers hx js (fun n hn => h n (.inr hn)) n hn
theorem patchMembers_numbers {D : Dbl} {x : BitVec 64} (hx : Printable D (.dbl x)) (ms : List (Key × Json))
    (h : ∀ n ∈ numbersMembers ms, Printable D n ∨ NonFinite n) : ∀ n ∈ numbersMembers (patchMembers x ms), Printable D n := by
  intro n hn
  cases ms with
  | nil => simp [patchMembers, numbersMembers] at hn
  | cons m ms =>
    obtain ⟨k, j⟩ := m
    simp only [numbersMembers, List.mem_append] at h
    simp only [patchMembers, numbersMembers, List.mem_append] at hn
    rcases hn with hn | hn
    · exact patch_numbers hx j (fun n hn => h n (.inl hn)) n hn
    · exact patchMembers_numbers hx ms (fun n hn => h n (.inr hn)) n hn
end

theorem numText_ne_nil {D : Dbl} {x : Num} {t : Str} (h : NumText D x t) : t ≠ [] := text_ne_nil (Text.num h)

/-- C64: the printed text of a document which is not a number, or any part of it up to some point, is rejected unless it is
complete – and complete only if all numbers are finite. -/
theorem C64_truncated_document_rejected (D : Dbl) (j : Json) (hj : ∀ x, j ≠ .num x)
    (h : ∀ n ∈ numbers j, Printable D n ∨ NonFinite n) (hx : ∃ x, Printable D (.dbl x)) (cut : Str)
    (hp : cut <+: printDoc D j) (hc : cut ≠ printDoc D j ∨ ∃ n ∈ numbers j, NonFinite n) :
    ∃ e, textParser D cut = .error e := by
  obtain ⟨x, hx⟩ := hx
  have hown : ∀ j, (∀ x, j ≠ Json.num x) → ∀ x, own j ≠ .num x := by
    intro j hj x he
    cases j <;> simp [own] at he
    exact hj _ rfl
  rcases bad_split h with hg | hb
  · refine C64_truncated_text_rejected D (own j) _ (C52_printed_is_json D j hg) (hown j hj) cut hp ?_
    rcases hc with hc | ⟨n, hn, hf⟩
    · exact hc
    · have := hg n hn
      cases n with
      | int i => exact hf.elim
      | dbl d => exact absurd (this.1.symm.trans hf) (by simp)
  · obtain ⟨r, hr⟩ := C52_nonfinite_cut_off D j hb x hx.1
    obtain ⟨r', hr'⟩ := hp
    have hpj : ∀ y, patch x j ≠ .num y := by
      intro y he
      cases j with
      | num n => exact hj n rfl
      | _ => simp [patch] at he
    refine C64_truncated_text_rejected D (own (patch x j)) _ (C52_printed_is_json D _ (patch_numbers hx j h)) (hown _ hpj) cut
      ⟨r' ++ D.print x ++ r, by rw [← hr, ← hr']; simp [List.append_assoc]⟩ ?_
    intro he
    rw [← hr, ← hr'] at he
    have : cut ++ [] = cut ++ (r' ++ D.print x ++ r) := by rw [List.append_nil]; simpa [List.append_assoc] using he
    have := List.append_cancel_left this
    have h0 := numText_ne_nil hx.2
    simp only [List.nil_eq, List.append_eq_nil_iff] at this
    exact h0 this.1.2

/-- C64: the text `toJson` returned for an object, a map or an array, cut off anywhere (e.g. because writing the file has been
interrupted), is never accepted by `fromJson`, whatever the requested type: a parse error is thrown and nothing is reported.
This includes the complete text if it contains a number which is not finite. -/
theorem C64_truncated_toJson_throws (E : Env) (H : Heap) (D : Dbl) (n : Nat) (t : Ty) (v : Val) (j : Json)
    (ht : (∃ c, t = .cls c) ∨ (∃ h m k v, t = .map h m k v) ∨ (∃ t', t = .vec t'))
    (hd : toJsonDocument E H n t v () = .ok j ())
    (h : ∀ n ∈ numbers j, Printable D n ∨ NonFinite n) (hx : ∃ x, Printable D (.dbl x))
    (text cut : Str) (htext : toJson E H D n t v () = .ok text ()) (hp : cut <+: text)
    (hc : cut ≠ text ∨ ∃ n ∈ numbers j, NonFinite n)
    (m : Nat) (t' : Ty) (ht' : TopSupported t') (s : Option ErrSt) :
    ∃ e, fromJson E (textParser D) m t' cut s = .exc (.parse e) s := by
  have hpush : push E H n t v () = .ok j () := by
    rcases ht with ⟨c, rfl⟩ | ⟨h, m, k, v, rfl⟩ | ⟨t', rfl⟩ <;> exact hd
  have hj : ∀ x, j ≠ .num x := by
    rintro x rfl
    have := push_shape hpush ht
    rcases ht with ⟨c, rfl⟩ | ⟨h, m, k, v, rfl⟩ | ⟨t', rfl⟩ <;> (obtain ⟨_, h⟩ := this; cases h)
  have htx : text = printDoc D j := by
    simp only [toJson] at htext
    obtain ⟨j', h1, h2⟩ := SM.bind_ok_iff.1 htext
    rw [hd] at h1
    cases h1
    cases h2
    rfl
  subst htx
  obtain ⟨e, he⟩ := C64_truncated_document_rejected D j hj h hx cut hp hc
  exact ⟨e, (C21_parse_error_thrown E (textParser D) m t' ht' cut s).1 e he⟩

/-! ## numbers -/

/-- C64 (limit): numbers are an exception, they have no end: the text of an integer without its last digit is the integer
divided by ten. -/
theorem C64_truncated_number_accepted (D : Dbl) (i : Nat) (h1 : 10 ≤ i) (h2 : i < 2 ^ 64) :
    ∃ cut c, printDoc D (.num (.int i)) = cut ++ [c] ∧ textParser D cut = .ok (.num (.int (i / 10 : Nat))) := by
  have hw : ∀ k : Nat, writeInt (k : Int) = decimal k := by
    intro k
    simp [writeInt]
  refine ⟨writeInt (i / 10 : Nat), UInt8.ofNat (48 + i % 10), ?_, ?_⟩
  · show writeInt (i : Int) = _
    rw [hw, hw, decimal, if_neg (by omega)]
  · refine (C52_accepts_exactly D _ _).2 ⟨[], [], writeInt (i / 10 : Nat), [], [], by simp, List.nil_sublist _, blank_nil, ?_,
      blank_nil, .inl rfl⟩
    refine .num (writeInt_text D _ ?_ ?_)
    · omega
    · omega

/-! ## examples -/

namespace TruncatedDemo
open TextDemo Demo

/-- a vector of integers -/
theorem doc_ok : toJsonDocument env (fun _ => none) 3 (.vec (.int .i32)) (.list [.int 12, .int (-7)]) () =
    .ok (.arr [.num (.int 12), .num (.int (-7))]) () := rfl

theorem text_ok : printDoc dbl (.arr [.num (.int 12), .num (.int (-7))]) = lit "[12,-7]" := by
  have h1 : decimal 12 = [0x31, 0x32] := by rw [decimal, if_neg (by decide), decimal]; rfl
  have h2 : decimal 7 = [0x37] := by rw [decimal]; rfl
  have h3 : lit "[12,-7]" = [0x5b, 0x31, 0x32, 0x2c, 0x2d, 0x37, 0x5d] := by decide
  rw [h3]
  simp [printDoc, printV, printItems, writeInt, h1, h2]

/-- the text cut off in the middle of the first number: the hypotheses of `C64_truncated_toJson_throws` hold, and the error is
"missing a comma or closing bracket" -/
example : toJson env (fun _ => none) dbl 3 (.vec (.int .i32)) (.list [.int 12, .int (-7)]) () = .ok (lit "[12,-7]") () ∧
    lit "[1" <+: lit "[12,-7]" ∧ lit "[1" ≠ lit "[12,-7]" ∧
    (∀ n ∈ numbers (.arr [.num (.int 12), .num (.int (-7))]), Printable dbl n ∨ NonFinite n) ∧ (∃ x, Printable dbl (.dbl x)) ∧
    fromJson env (textParser dbl) 5 (.vec (.int .i32)) (lit "[1") none = .exc (.parse ⟨7, 0⟩) none := by
  refine ⟨?_, by decide, by decide, ?_, ⟨0, dbl_ok 0 (by decide)⟩, by rfl⟩
  · exact SM.bind_ok_iff.2 ⟨_, doc_ok, by rw [text_ok]; rfl⟩
  · intro n hn
    simp only [numbers, numbersItems, List.append_nil, List.cons_append, List.nil_append, List.mem_cons, List.not_mem_nil, or_false] at hn
    rcases hn with rfl | rfl <;> exact .inl ⟨by decide, by decide⟩

/-- a number cut off -/
example : ∃ cut c, printDoc dbl (.num (.int 1234)) = cut ++ [c] ∧ textParser dbl cut = .ok (.num (.int 123)) :=
  C64_truncated_number_accepted dbl 1234 (by decide) (by decide)

end TruncatedDemo

end Verif
