import Verif.Lemmas.GenCppItems

/-!
# Code generator: reading the generated text (statements, functions)
-/

namespace Verif.Gen.Cpp

set_option maxRecDepth 100000

theorem render_all (is : List Item) (h : ∀ i ∈ is, Item.CppOk i) : Lx .start (renderAll is) (is.flatMap itemToks) := by
  induction is with
  | nil => exact .nil
  | cons i is ih =>
    rw [renderAll_cons, List.flatMap_cons]
    exact (render_toks i (h i (by simp))).app (ih fun j hj => h j (by simp [hj]))

/-! ## Tokens to statements -/

/-- belongs to a statement -/
def inner (t : Tok) : Bool := if t = semi ∨ t = opn ∨ t = cls then false else true

abbrev Inner (ts : List Tok) : Prop := ∀ t ∈ ts, inner t = true

theorem parse_inner (ts : List Tok) (h : Inner ts) : ∀ r rest, parseFrom r (ts ++ rest) = parseFrom ⟨r.cur ++ ts, r.open_⟩ rest := by
  induction ts with
  | nil => intro r rest; simp
  | cons t ts ih =>
    intro r rest
    have ht := h t (by simp)
    have hn : ¬ (t = semi ∨ t = opn ∨ t = cls) := by
      intro hn; rw [inner, if_pos hn] at ht; cases ht
    have ht : t ≠ .sym (lit ";") ∧ t ≠ .sym (lit "{") ∧ t ≠ .sym (lit "}") :=
      ⟨fun h => hn (.inl h), fun h => hn (.inr (.inl h)), fun h => hn (.inr (.inr h))⟩
    rw [List.cons_append, parseFrom, parseTok, if_neg ht.1, if_neg ht.2.1, if_neg ht.2.2]
    simp only [Option.bind_some]
    rw [ih (fun x hx => h x (by simp [hx]))]
    simp

theorem parse_stmt {ts} (h : Inner ts) (hd ss up rest) :
    parseFrom ⟨[], (hd, ss) :: up⟩ (ts ++ semi :: rest) = parseFrom ⟨[], (hd, ss ++ [.simple ts]) :: up⟩ rest := by
  rw [parse_inner ts h, parseFrom, parseTok, if_pos (show semi = Tok.sym (lit ";") from rfl)]; rfl

theorem opn_ne : opn ≠ semi := by decide
theorem cls_ne : cls ≠ semi ∧ cls ≠ opn := by decide

theorem parse_open {ts} (h : Inner ts) (o rest) :
    parseFrom ⟨[], o⟩ (ts ++ opn :: rest) = parseFrom ⟨[], (ts, []) :: o⟩ rest := by
  rw [parse_inner ts h, parseFrom, parseTok, if_neg (show ¬ opn = Tok.sym (lit ";") from opn_ne), if_pos (show opn = Tok.sym (lit "{") from rfl)]; rfl

theorem parse_close (hd ss hd' ss' up rest) : parseFrom ⟨[], (hd, ss) :: (hd', ss') :: up⟩ (cls :: rest) =
    parseFrom ⟨[], (hd', ss' ++ [.block hd ss]) :: up⟩ rest := by
  rw [parseFrom, parseTok, if_neg (show ¬ cls = Tok.sym (lit ";") from cls_ne.1),
    if_neg (show ¬ cls = Tok.sym (lit "{") from cls_ne.2), if_pos (show cls = Tok.sym (lit "}") from rfl)]; rfl

/-- the tokens `ts` are the statements `ss'` -/
def Parses (ts : List Tok) (ss' : List Stmt) : Prop :=
  ∀ hd ss up rest, parseFrom ⟨[], (hd, ss) :: up⟩ (ts ++ rest) = parseFrom ⟨[], (hd, ss ++ ss') :: up⟩ rest

theorem Parses.nil : Parses [] [] := by intro hd ss up rest; simp

theorem Parses.app {a b sa sb} (h : Parses a sa) (h' : Parses b sb) : Parses (a ++ b) (sa ++ sb) := by
  intro hd ss up rest
  rw [List.append_assoc, h, h', List.append_assoc]

theorem Parses.simple {ts} (h : Inner ts) : Parses (ts ++ [semi]) [.simple ts] := by
  intro hd ss up rest
  rw [List.append_assoc]; exact parse_stmt h hd ss up rest

theorem Parses.block {h ts ss'} (hh : Inner h) (hb : Parses ts ss') : Parses (h ++ (opn :: (ts ++ [cls]))) [.block h ss'] := by
  intro hd ss up rest
  simp only [List.append_assoc, List.cons_append, List.nil_append]
  rw [parse_open hh, hb, parse_close]; rfl

theorem Inner.append {a b} (h : Inner a) (h' : Inner b) : Inner (a ++ b) := fun t ht =>
  (List.mem_append.1 ht).elim (h t) (h' t)

theorem Inner.cons {a b} (h : inner a = true) (h' : Inner b) : Inner (a :: b) := fun t ht =>
  (List.mem_cons.1 ht).elim (fun e => e ▸ h) (h' t)

theorem Inner.word {w b} (h' : Inner b) : Inner (.word w :: b) := .cons (by simp [inner, semi, opn, cls]) h'
theorem Inner.str {w b} (h' : Inner b) : Inner (.str w :: b) := .cons (by simp [inner, semi, opn, cls]) h'
theorem Inner.nil : Inner [] := fun t ht => nomatch ht

theorem pathToks_inner (ws : List Str) : Inner (pathToks ws) := by
  induction ws with
  | nil => exact .nil
  | cons w ws ih =>
    cases ws with
    | nil => exact .word .nil
    | cons w' ws => exact .word (.cons (by decide) ih)

theorem name_inner {q} (h : QualifiedName q) : Inner (toks q) := by
  obtain ⟨ws, -, -, -, e⟩ := h.path
  rw [e]; exact pathToks_inner ws

theorem type_inner {q} (h : ∃ ts, TypeText q ts) : Inner (toks q) := by
  obtain ⟨ts, h⟩ := h
  rw [h.toks]
  intro t ht
  have := h.2.1 t ht
  rw [inner, if_neg]
  rintro (h | h | h)
  · exact this.1 h
  · exact this.2.1 h
  · exact this.2.2 h

/-- closed lists of tokens -/
local macro "inn!" : tactic => `(tactic| (simp only [reduceCode]; decide +kernel))

theorem base_inner {b q r} (hb : Inner (code b)) (hr : Inner (code r)) (h : QualifiedName q) : Inner (baseToks b q r) :=
  hb.append (.cons (by decide) ((name_inner h).append hr))

theorem member_inner {b n r} (hb : Inner (code b)) (hr : Inner (code r)) : Inner (memberToks b n r) :=
  hb.append (.word (.cons (by decide) (.str hr)))

theorem field_inner {b n} (hb : Inner (code b)) : Inner (fieldToks b n) := hb.append (.word (by inn!))

/-- the statements of a piece which is neither beginning nor end of a block -/
def itemStmts : Item → List Stmt
  | .pushBase q => [.simple (baseToks "push(static_cast<const" q "&>(reflectable), value, allocator)")]
  | .pullBase q => [.simple (baseToks "pull(static_cast<" q "&>(reflectable), value, errors)")]
  | .writeBase q => [.simple (baseToks "serializer.write(static_cast<const" q "&>(customObject), version)")]
  | .readBase q => [.simple (baseToks "deserializer.read(static_cast<" q "&>(customObject), version)")]
  | .pushMember n => [.simple (memberToks "push(reflectable." n ", value, allocator)")]
  | .pullMember n => [.simple (memberToks "pull(reflectable." n ", value, errors)")]
  | .writeMember n => [.simple (fieldToks "serializer.write(customObject." n)]
  | .readMember n => [.simple (fieldToks "deserializer.read(customObject." n)]
  | .pushVoid => [.simple (code "(void)reflectable"), .simple (code "(void)value"), .simple (code "(void)allocator")]
  | .pullVoid => [.simple (code "(void)reflectable"), .simple (code "(void)value")]
  | .writeVoid => [.simple (code "(void)serializer"), .simple (code "(void)customObject"), .simple (code "(void)version")]
  | .readVoid => [.simple (code "(void)deserializer"), .simple (code "(void)customObject")]
  | .pullSetRecord q => [.simple (code "const char *previousRecord = nullptr"),
      .block (code "if (errors)") [.simple (code "previousRecord = errors->currentRecord"), .simple (recordToks q)]]
  | .pullRestore => [.block (code "if (errors)") [.simple (code "errors->currentRecord = previousRecord")]]
  | .writeVersion t => [.simple (usingToks t),
      .block (code "if constexpr (V::enabled)") [.simple (code "serializer.writeVariableLengthUIntBE(V::applyDefault(version))")]]
  | .readVersion t q => [.simple (usingToks t), .block (code "if constexpr (V::enabled)") [.simple (assertToks q)]]
  | .readReturn => [.simple (code "return version")]
  | _ => []

/-- pieces in a function which are neither beginning nor end of a block -/
def flat (i : Item) : Bool := i.inBody && i.plain

theorem Parses.cast {a b s} (h : Parses a s) (e : b = a) : Parses b s := e ▸ h

/-- equality of lists of tokens -/
local macro "toks!" : tactic => `(tactic| simp only [itemToks, usingToks, recordToks, assertToks,
  scope, semi, opn, cls, reduceCode, reduceLit, List.cons_append, List.nil_append, List.append_assoc])

theorem using_inner {t} (h : ∃ ts, TypeText t ts) : Inner (usingToks t) :=
  Inner.append (by inn!) ((type_inner h).append (.cons (by decide) .nil))

theorem parse_item (i : Item) (h : Item.CppOk i) (hf : flat i = true) : Parses (itemToks i) (itemStmts i) := by
  cases i with
  | nsOpen _ => cases hf
  | nsClose _ => cases hf
  | classComment _ => cases hf
  | pushOpen _ _ => cases hf
  | pullOpen _ _ => cases hf
  | writeOpen _ _ => cases hf
  | readOpen _ _ => cases hf
  | ifVersion _ _ => cases hf
  | endIf => cases hf
  | funEnd => cases hf
  | funEndBlank => cases hf
  | pushComment => exact .nil
  | writeComment => exact .nil
  | readComment => exact .nil
  | padding => exact .nil
  | pushBase q => exact .simple (base_inner (by inn!) (by inn!) h)
  | pullBase q => exact .simple (base_inner (by inn!) (by inn!) h)
  | writeBase q => exact .simple (base_inner (by inn!) (by inn!) h)
  | readBase q => exact .simple (base_inner (by inn!) (by inn!) h)
  | pushMember q => exact .simple (member_inner (by inn!) (by inn!))
  | pullMember q => exact .simple (member_inner (by inn!) (by inn!))
  | writeMember q => exact .simple (field_inner (by inn!))
  | readMember q => exact .simple (field_inner (by inn!))
  | readReturn => exact .simple (by inn!)
  | pushVoid =>
    exact .cast (((Parses.simple (ts := code "(void)reflectable") (by inn!)).app (.simple (ts := code "(void)value") (by inn!))).app
      (.simple (ts := code "(void)allocator") (by inn!))) (by toks!)
  | pullVoid =>
    exact .cast ((Parses.simple (ts := code "(void)reflectable") (by inn!)).app (.simple (ts := code "(void)value") (by inn!))) (by toks!)
  | writeVoid =>
    exact .cast (((Parses.simple (ts := code "(void)serializer") (by inn!)).app (.simple (ts := code "(void)customObject") (by inn!))).app
      (.simple (ts := code "(void)version") (by inn!))) (by toks!)
  | readVoid =>
    exact .cast ((Parses.simple (ts := code "(void)deserializer") (by inn!)).app (.simple (ts := code "(void)customObject") (by inn!))) (by toks!)
  | pullRestore =>
    exact .cast (.block (h := code "if (errors)") (by inn!) (.simple (ts := code "errors->currentRecord = previousRecord") (by inn!))) (by toks!)
  | pullSetRecord q =>
    exact .cast (Parses.app (.simple (ts := code "const char *previousRecord = nullptr") (by inn!)) (.block (h := code "if (errors)") (by inn!)
      (Parses.app (.simple (ts := code "previousRecord = errors->currentRecord") (by inn!))
        (.simple (ts := recordToks q) (Inner.append (by inn!) (.str .nil)))))) (by toks!)
  | writeVersion t =>
    exact .cast (Parses.app (.simple (ts := usingToks t) (using_inner h)) (.block (h := code "if constexpr (V::enabled)") (by inn!)
      (.simple (ts := code "serializer.writeVariableLengthUIntBE(V::applyDefault(version))") (by inn!)))) (by toks!)
  | readVersion t q =>
    exact .cast (Parses.app (.simple (ts := usingToks t) (using_inner h.1)) (.block (h := code "if constexpr (V::enabled)") (by inn!)
      (.simple (ts := assertToks q) (Inner.append (by inn!) (.str (.cons (by decide) .nil)))))) (by toks!)

end Verif.Gen.Cpp
