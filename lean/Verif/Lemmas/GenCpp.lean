import Verif.Spec.GenCpp
import Verif.Lemmas.GenBlocks

/-!
# Code generator: reading the generated text (tokens)
-/

namespace Verif.Gen.Cpp

set_option maxRecDepth 100000

/-! ## Characters to tokens -/

theorem run_append (a b : Str) : ∀ st, run st (a ++ b) = (run st a).bind fun r => (run r.2 b).map fun r' => (r.1 ++ r'.1, r'.2) := by
  induction a with
  | nil => intro st; simp [run]
  | cons c a ih =>
    intro st
    rw [List.cons_append, run, run]
    cases step st c with
    | none => rfl
    | some r =>
      simp only [Option.bind_some]
      rw [ih r.2]
      cases run r.2 a with
      | none => rfl
      | some r' => 
        simp only [Option.bind_some, Option.map_some]
        cases run r'.2 b <;> simp

/-- the text `s` read from state `st` consists of the tokens `ts` -/
def Lx (st : Lex) (s : Str) (ts : List Tok) : Prop := run st s = some (ts, .start)

theorem Lx.pre {st a ts1 st1 b ts2} (h : run st a = some (ts1, st1)) (h' : Lx st1 b ts2) : Lx st (a ++ b) (ts1 ++ ts2) := by
  unfold Lx at *
  rw [run_append, h]; simp [h']

theorem Lx.app {a b ts1 ts2} (h : Lx .start a ts1) (h' : Lx .start b ts2) : Lx .start (a ++ b) (ts1 ++ ts2) := .pre h h'

theorem Lx.nil : Lx .start [] [] := rfl

/-- starts with something which is not part of a word -/
def NW : Str → Bool
  | [] => false
  | c :: _ => !isWordChar c

theorem word_not_special (c : UInt8) (h : isWordChar c = true) : ¬ (c = 0x3a ∨ c = 0x3e) ∧ c ≠ 0x3d ∧ c ≠ 0x3a ∧ c ≠ 0x22 ∧
    c ≠ 0x5c ∧ c ≠ 0x0a ∧ c ≠ 0x2f ∧ c ≠ 0x26 ∧ c ≠ 0x20 ∧ c ≠ 0x09 ∧ c ≠ 0x3e := by
  have hn : ∀ d : UInt8, isWordChar d = false → c ≠ d := fun d hd he => by rw [he, hd] at h; cases h
  exact ⟨fun h => h.elim (hn _ (by decide)) (hn _ (by decide)), hn _ (by decide), hn _ (by decide), hn _ (by decide), hn _ (by decide),
    hn _ (by decide), hn _ (by decide), hn _ (by decide), hn _ (by decide), hn _ (by decide), hn _ (by decide)⟩

theorem space_not_word (c : UInt8) (h : isWordChar c = true) : ¬ (c = 0x20 ∨ c = 0x09 ∨ c = 0x0a) := by
  have := word_not_special c h
  rintro (h | h | h) <;> simp_all

theorem begin_word {c : UInt8} (h : isWordChar c = true) : begin c = some ([], .word [c]) := by
  unfold begin
  rw [if_neg (space_not_word c h), if_pos h]

theorem run_word (w : Str) (h : ∀ c ∈ w, isWordChar c = true) : ∀ u s, run (.word u) (w ++ s) = run (.word (u ++ w)) s := by
  induction w with
  | nil => intro u s; simp
  | cons c w ih =>
    intro u s
    rw [List.cons_append, run, step, if_pos (h c (by simp))]
    simp only [Option.bind_some]
    rw [ih (fun x hx => h x (by simp [hx]))]
    simp

theorem andThen_run (f : List Tok) (c : UInt8) (s : Str) (st : Lex) (h : step st c = andThen f c) :
    run st (c :: s) = (run .start (c :: s)).map fun r => (f ++ r.1, r.2) := by
  rw [run, run, h, andThen]
  rw [show step .start c = begin c from rfl]
  cases begin c with
  | none => rfl
  | some r => 
    simp only [Option.map_some, Option.bind_some]
    cases run r.2 s <;> simp

theorem run_word_end {w s} (hs : NW s = true) : run (.word w) s = (run .start s).map fun r => (.word w :: r.1, r.2) := by
  cases s with
  | nil => simp [NW] at hs
  | cons c s =>
    have hs : isWordChar c = false := by simpa [NW] using hs
    exact andThen_run [.word w] c s _ (by rw [step, if_neg (by simp [hs])])

theorem run_ident {w : Str} (hw : Identifier w) (s : Str) : run .start (w ++ s) = run (.word w) s := by
  obtain ⟨h0, h⟩ := hw
  cases w with
  | nil => exact absurd rfl h0
  | cons c w =>
    rw [List.cons_append, run, step, begin_word (h c (by simp))]
    simp only [Option.bind_some, List.nil_append]
    rw [run_word w (fun x hx => h x (by simp [hx]))]
    cases h' : run (.word ([c] ++ w)) s <;> simp_all

theorem Lx.word {w s ts} (hw : Identifier w) (hs : NW s = true) (h : Lx .start s ts) : Lx .start (w ++ s) (.word w :: ts) := by
  unfold Lx at *
  rw [run_ident hw, run_word_end hs, h]; rfl

/-- the tokens of a qualified name -/
def pathToks : List Str → List Tok
  | [] => []
  | [w] => [.word w]
  | w :: ws => .word w :: scope :: pathToks ws

theorem Lx.path {ws s ts} (hws : ∀ w ∈ ws, Identifier w) (h0 : ws ≠ []) (hs : NW s = true) (h : Lx .start s ts) :
    Lx .start (pathText ws ++ s) (pathToks ws ++ ts) := by
  induction ws with
  | nil => exact absurd rfl h0
  | cons w ws ih =>
    cases ws with
    | nil => exact .word (hws w (by simp)) hs h
    | cons w' ws =>
      have ih := ih (fun x hx => hws x (by simp [hx])) (by simp)
      rw [show pathText (w :: w' :: ws) = w ++ lit "::" ++ pathText (w' :: ws) from rfl, List.append_assoc, List.append_assoc]
      exact .word (hws w (by simp)) (by rfl) (.pre (ts1 := [scope]) (by decide +kernel) ih)

theorem pathText_head {ws} (hws : ∀ w ∈ ws, Identifier w) (h0 : ws ≠ []) : ∃ c s, pathText ws = c :: s ∧ isWordChar c = true := by
  cases ws with
  | nil => exact absurd rfl h0
  | cons w ws =>
    obtain ⟨hw, hc⟩ := hws w (by simp)
    cases w with
    | nil => exact absurd rfl hw
    | cons c w =>
      cases ws with
      | nil => exact ⟨c, w, rfl, hc c (by simp)⟩
      | cons w' ws => exact ⟨c, _, rfl, hc c (by simp)⟩

/-- a qualified name after `<::` -/
theorem Lx.pathLt {ws s ts} (hws : ∀ w ∈ ws, Identifier w) (h0 : ws ≠ []) (hs : NW s = true) (h : Lx .start s ts) :
    Lx .ltScope (pathText ws ++ s) ([.sym (lit "<"), scope] ++ (pathToks ws ++ ts)) := by
  have := Lx.path hws h0 hs h
  unfold Lx at *
  obtain ⟨c, r, hc, hw⟩ := pathText_head hws h0
  rw [hc, List.cons_append] at this ⊢
  rw [andThen_run [.sym (lit "<"), scope] c _ .ltScope (by rw [step, if_neg (word_not_special c hw).1]), this]
  rfl

/-- what may be in a string literal -/
def Plain (s : Str) : Prop := ∀ c ∈ s, c ≠ 0x22 ∧ c ≠ 0x5c ∧ c ≠ 0x0a

theorem run_str (s : Str) (h : Plain s) : ∀ u r, run (.str u) (s ++ r) = run (.str (u ++ s)) r := by
  induction s with
  | nil => intro u r; simp
  | cons c s ih =>
    intro u r
    obtain ⟨h1, h2, h3⟩ := h c (by simp)
    rw [List.cons_append, run, step, if_neg h1, if_neg (by rintro (h | h); exact h2 h; exact h3 h)]
    simp only [Option.bind_some]
    rw [ih (fun x hx => h x (by simp [hx]))]
    simp

theorem Lx.str {s r ts} (hs : Plain s) (hr : r.head? = some 0x22) (h : Lx .start r.tail ts) : Lx (.str []) (s ++ r) (.str s :: ts) := by
  cases r with
  | nil => cases hr
  | cons c r =>
  simp only [List.head?_cons, Option.some.injEq] at hr
  subst hr
  simp only [List.tail_cons] at h
  unfold Lx at *
  rw [run_str s hs, run, step, if_pos rfl]
  simp [h]

theorem run_comment (s : Str) (h : Plain s) (r : Str) : run .comment (s ++ r) = run .comment r := by
  induction s with
  | nil => rfl
  | cons c s ih =>
    rw [List.cons_append, run, step, if_neg (h c (by simp)).2.2]
    simp only [Option.bind_some]
    rw [ih (fun x hx => h x (by simp [hx]))]
    simp

theorem Lx.comment {s r ts} (hs : Plain s) (h : Lx .comment r ts) : Lx .comment (s ++ r) ts := by
  unfold Lx at *; rw [run_comment s hs, h]

theorem Identifier.plain {s} (h : Identifier s) : Plain s := fun c hc => let w := (word_not_special c (h.2 c hc)).2.2.2; ⟨w.1, w.2.1, w.2.2.1⟩

theorem Plain.append {a b} (h : Plain a) (h' : Plain b) : Plain (a ++ b) := fun c hc =>
  (List.mem_append.1 hc).elim (h c) (h' c)

theorem pathText_plain {ws} (hws : ∀ w ∈ ws, Identifier w) : Plain (pathText ws) := by
  induction ws with
  | nil => intro c hc; cases hc
  | cons w ws ih =>
    have ih := ih fun x hx => hws x (by simp [hx])
    cases ws with
    | nil => exact (hws w (by simp)).plain
    | cons w' ws =>
      exact ((hws w (by simp)).plain.append (by unfold Plain; decide)).append ih

/-! ### Types -/

theorem run_type_start {s : Str} (h : ∃ c cs, isWordChar c = true ∧ (s = c :: cs ∨ s = lit "::" ++ c :: cs)) :
    run .lt s = (run .start s).map fun r => (.sym (lit "<") :: r.1, r.2) := by
  obtain ⟨c, cs, hc, rfl | rfl⟩ := h
  · refine andThen_run [.sym (lit "<")] c cs .lt ?_
    rw [step, if_neg (word_not_special c hc).2.1, if_neg (word_not_special c hc).2.2.1]
  · rw [run_append, run_append, show run .lt (lit "::") = some ([], .ltScope) by decide +kernel,
      show run .start (lit "::") = some ([scope], .start) by decide +kernel]
    simp only [Option.bind_some]
    rw [andThen_run [.sym (lit "<"), scope] c cs .ltScope (by rw [step, if_neg (word_not_special c hc).1])]
    cases run .start (c :: cs) <;> simp

theorem begin_gt : begin 0x3e = some ([], .gt) := by decide

theorem step_word {st c r} (hc : isWordChar c = true) (h : step st c = some r) :
    (∃ w, r.2 = .word w) ∨ (∃ w, r.2 = .str w) ∨ r.2 = .comment := by
  have hw := word_not_special c hc
  have hb := begin_word hc
  cases st <;> simp [step, andThen, hb, hc, hw] at h <;> subst h <;> simp

theorem step_gt {st r} (h : step st 0x3e = some r) :
    r.2 = .gt ∨ r.2 = .start ∨ (∃ w, r.2 = .str w) ∨ r.2 = .comment := by
  have hb := begin_gt
  have hw : isWordChar 0x3e = false := by decide
  cases st <;> simp [step, andThen, hb, hw] at h <;> subst h <;> simp

theorem run_snoc (s : Str) (c : UInt8) (st : Lex) : run st (s ++ [c]) = (run st s).bind fun r => (step r.2 c).map fun r' => (r.1 ++ r'.1, r'.2) := by
  rw [run_append]
  cases run st s with
  | none => rfl
  | some r =>
    simp only [Option.bind_some, run]
    cases step r.2 c <;> simp

theorem Lx.type {s ts r ts'} (ht : TypeText s ts) (hr : r.head? = some 0x3e) (h : Lx .start r ts') :
    Lx .lt (s ++ r) (.sym (lit "<") :: (ts ++ ts')) := by
  cases r with
  | nil => cases hr
  | cons c r =>
  simp only [List.head?_cons, Option.some.injEq] at hr
  subst hr
  obtain ⟨h1, -, h3, cs, c, h4, h5⟩ := ht
  unfold Lx at *
  rw [run_append, run_type_start h3]
  unfold lex at h1
  cases hr : run .start s with
  | none => rw [hr] at h1; cases h1
  | some p =>
    obtain ⟨ts1, st1⟩ := p
    rw [hr] at h1
    simp only [Option.bind_some, Option.map_eq_some_iff] at h1
    obtain ⟨f, hf, rfl⟩ := h1
    have hst : (∃ w, st1 = .word w) ∨ st1 = .start ∨ st1 = .gt := by
      rw [h4, run_snoc] at hr
      simp only [Option.bind_eq_some_iff, Option.map_eq_some_iff, Prod.mk.injEq] at hr
      obtain ⟨a, _, b, hb, _, hb2⟩ := hr
      rcases h5 with h5 | rfl
      · rcases step_word h5 hb with h | ⟨w, h⟩ | h
        · rw [hb2] at h; exact .inl h
        · rw [hb2] at h; subst h; simp [finish] at hf
        · rw [hb2] at h; subst h; simp [finish] at hf
      · rcases step_gt hb with h | h | ⟨w, h⟩ | h
        · rw [hb2] at h; exact .inr (.inr h)
        · rw [hb2] at h; exact .inr (.inl h)
        · rw [hb2] at h; subst h; simp [finish] at hf
        · rw [hb2] at h; subst h; simp [finish] at hf
    have : run st1 (0x3e :: r) = (run .start (0x3e :: r)).map fun r => (f ++ r.1, r.2) := by
      rcases hst with ⟨w, rfl⟩ | rfl | rfl
      · simp only [finish, Option.some.injEq] at hf; subst hf
        exact run_word_end (by rfl)
      · simp only [finish, Option.some.injEq] at hf; subst hf
        cases run .start (0x3e :: r) <;> simp
      · simp only [finish, Option.some.injEq] at hf; subst hf
        exact andThen_run _ _ _ _ (by simp [step])
    simp only [Option.map_some, Option.bind_some, this, h]
    simp

/-! ### Names -/

/-- tokens of a name or type -/
def toks (s : Str) : List Tok := (lex s).getD []

theorem TypeText.toks {s ts} (h : TypeText s ts) : toks s = ts := by simp [Cpp.toks, h.1]

theorem lex_path {ws} (hws : ∀ w ∈ ws, Identifier w) (h0 : ws ≠ []) : lex (pathText ws) = some (pathToks ws) := by
  have : ∃ ts w, run .start (pathText ws) = some (ts, .word w) ∧ ts ++ [.word w] = pathToks ws := by
    induction ws with
    | nil => exact absurd rfl h0
    | cons w ws ih =>
      cases ws with
      | nil =>
        refine ⟨[], w, ?_, rfl⟩
        have := run_ident (hws w (by simp)) []
        simpa [pathText, run] using this
      | cons w' ws =>
        obtain ⟨ts, u, h, h'⟩ := ih (fun x hx => hws x (by simp [hx])) (by simp)
        refine ⟨.word w :: scope :: ts, u, ?_, by simp [pathToks, h']⟩
        rw [show pathText (w :: w' :: ws) = w ++ (lit "::" ++ pathText (w' :: ws)) by simp [pathText], run_ident (hws w (by simp)),
          run_word_end (by rfl), run_append, show run .start (lit "::") = some ([scope], .start) by decide +kernel]
        simp [h]
  obtain ⟨ts, w, h, h'⟩ := this
  unfold lex
  rw [h]
  simp [finish, h']

theorem QualifiedName.path {q} (h : QualifiedName q) : ∃ ws, ws ≠ [] ∧ (∀ w ∈ ws, Identifier w) ∧ q = pathText ws ∧ toks q = pathToks ws := by
  obtain ⟨ws, h0, h, rfl⟩ := h
  exact ⟨ws, h0, h, rfl, by rw [toks, lex_path h h0]; rfl⟩

theorem Lx.name {q s ts} (hq : QualifiedName q) (hs : NW s = true) (h : Lx .start s ts) : Lx .start (q ++ s) (toks q ++ ts) := by
  obtain ⟨ws, h0, hw, rfl, e⟩ := hq.path
  rw [e]; exact .path hw h0 hs h

theorem Lx.nameLt {q s ts} (hq : QualifiedName q) (hs : NW s = true) (h : Lx .start s ts) :
    Lx .ltScope (q ++ s) ([.sym (lit "<"), scope] ++ (toks q ++ ts)) := by
  obtain ⟨ws, h0, hw, rfl, e⟩ := hq.path
  rw [e]; exact .pathLt hw h0 hs h

theorem QualifiedName.plain {q} (h : QualifiedName q) : Plain q := by
  obtain ⟨ws, h0, hw, rfl, e⟩ := h.path
  exact pathText_plain hw

/-! ### Numbers -/

theorem natText_eq (n : Nat) : natText n = (Nat.toDigits 10 n).map fun c => UInt8.ofNat c.toNat := by
  simp [natText, lit, toString, Nat.repr]

theorem digit_char : ∀ d < 10, (UInt8.ofNat (Nat.digitChar d).toNat).toNat = 0x30 + d := by decide

theorem natText_step (n : Nat) : natText n = if n < 10 then [UInt8.ofNat (Nat.digitChar n).toNat]
    else natText (n / 10) ++ [UInt8.ofNat (Nat.digitChar (n % 10)).toNat] := by
  rw [natText_eq, natText_eq]
  split
  · rename_i h; rw [Nat.toDigits_of_lt_base h]; rfl
  · rename_i h
    rw [Nat.toDigits_of_base_le (by decide) (by omega)]; simp

theorem natText_spec (n : Nat) : (natText n ≠ [] ∧ ∀ c ∈ natText n, 0x30 ≤ c.toNat ∧ c.toNat ≤ 0x39) ∧
    (natText n).foldl (fun n c => 10 * n + (c.toNat - 0x30)) 0 = n := by
  induction n using Nat.strongRecOn with
  | ind n ih =>
    rw [natText_step]
    split
    · rename_i h
      have := digit_char n h
      refine ⟨⟨by simp, ?_⟩, ?_⟩
      · simp only [List.mem_singleton, forall_eq]; omega
      · simp only [List.foldl_cons, List.foldl_nil]; omega
    · rename_i h
      obtain ⟨⟨h1, h2⟩, h3⟩ := ih (n / 10) (by omega)
      have := digit_char (n % 10) (by omega)
      refine ⟨⟨by simp, ?_⟩, ?_⟩
      · intro c hc
        rcases List.mem_append.1 hc with hc | hc
        · exact h2 c hc
        · simp only [List.mem_singleton] at hc; subst hc; omega
      · rw [List.foldl_append, h3]
        simp only [List.foldl_cons, List.foldl_nil]; omega

theorem natText_ident (n : Nat) : Identifier (natText n) := by
  obtain ⟨⟨h1, h2⟩, -⟩ := natText_spec n
  refine ⟨h1, fun c hc => ?_⟩
  have := h2 c hc
  simp [isWordChar, this]

theorem decimal_natText (n : Nat) : decimal (natText n) = some n := by
  obtain ⟨⟨h1, h2⟩, h3⟩ := natText_spec n
  unfold decimal
  rw [if_neg, h3]
  simp only [h1, List.any_eq_true, Bool.or_eq_true, decide_eq_true_eq, false_or, not_exists, not_and]
  intro c hc
  have := h2 c hc
  omega

end Verif.Gen.Cpp
