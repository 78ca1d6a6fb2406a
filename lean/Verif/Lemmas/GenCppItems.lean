import Verif.Lemmas.GenCpp
import Verif.Lemmas.Lit

/-!
# Code generator: tokens and statements of the pieces of generated text
-/

namespace Verif.Gen.Cpp

set_option maxRecDepth 100000

/-- the names in a piece are C++ names, conditions are not empty -/
def Item.CppOk : Item → Prop
  | .nsOpen n | .nsClose n => Identifier n
  | .classComment q | .pushBase q | .pullBase q | .writeBase q | .readBase q | .pullSetRecord q => QualifiedName q
  | .pushMember n | .pullMember n | .writeMember n | .readMember n => Identifier n
  | .pushOpen v q | .pullOpen v q | .writeOpen v q | .readOpen v q => (v = [] ∨ Identifier v) ∧ QualifiedName q
  | .writeVersion t => ∃ ts, TypeText t ts
  | .readVersion t q => (∃ ts, TypeText t ts) ∧ QualifiedName q
  | .ifVersion a u => a ≠ 0 ∨ u ≠ 0
  | _ => True

/-- a call for a base class up to and including the class -/
def baseToks (before : String) (q : Str) (rest : String) : List Tok := code before ++ scope :: (toks q ++ code rest)

def memberToks (before : String) (n : Str) (rest : String) : List Tok :=
  code before ++ .word n :: .sym (lit ",") :: .str n :: code rest

def fieldToks (before : String) (n : Str) : List Tok := code before ++ .word n :: code ", version)"

def visToks (v : Str) : List Tok := if v = [] then [] else [.word v]

def headToks (k : FnKind) (v q : Str) : List Tok :=
  code "template <>" ++ (visToks v ++ (signature k ++ (scope :: toks q ++ .sym (lit ">") :: params k (scope :: toks q))))

def condToks (a u : Nat) : List Tok :=
  if a = 0 then code "if (version <=" ++ [.word (natText u), .sym (lit ")")]
  else if u = 0 then code "if (version >=" ++ [.word (natText a), .sym (lit ")")]
  else code "if (version >=" ++ .word (natText a) :: (code "&& version <=" ++ [.word (natText u), .sym (lit ")")])

def semi : Tok := .sym (lit ";")
def opn : Tok := .sym (lit "{")
def cls : Tok := .sym (lit "}")

def usingToks (t : Str) : List Tok := code "using V = Versioning<" ++ (toks t ++ [.sym (lit ">")])

def recordToks (q : Str) : List Tok := code "errors->currentRecord =" ++ [.str q]

def assertToks (q : Str) : List Tok := code "V::assertVersion(version = deserializer.readVariableLengthUIntBE()," ++ [.str q, .sym (lit ")")]

/-- the tokens of a piece -/
def itemToks : Item → List Tok
  | .nsOpen ns => code "namespace ReflectiveRapidJSON" ++ opn :: (code "namespace" ++ [.word ns, opn])
  | .nsClose _ => [cls, cls]
  | .classComment _ | .pushComment | .writeComment | .readComment | .padding => []
  | .pushOpen v q => headToks .push v q ++ [opn]
  | .pullOpen v q => headToks .pull v q ++ [opn]
  | .writeOpen v q => headToks .write v q ++ [opn]
  | .readOpen v q => headToks .read v q ++ [opn]
  | .pushBase q => baseToks "push(static_cast<const" q "&>(reflectable), value, allocator)" ++ [semi]
  | .pullBase q => baseToks "pull(static_cast<" q "&>(reflectable), value, errors)" ++ [semi]
  | .writeBase q => baseToks "serializer.write(static_cast<const" q "&>(customObject), version)" ++ [semi]
  | .readBase q => baseToks "deserializer.read(static_cast<" q "&>(customObject), version)" ++ [semi]
  | .pushMember n => memberToks "push(reflectable." n ", value, allocator)" ++ [semi]
  | .pullMember n => memberToks "pull(reflectable." n ", value, errors)" ++ [semi]
  | .writeMember n => fieldToks "serializer.write(customObject." n ++ [semi]
  | .readMember n => fieldToks "deserializer.read(customObject." n ++ [semi]
  | .pushVoid => code "(void)reflectable;(void)value;(void)allocator;"
  | .pullVoid => code "(void)reflectable;(void)value;"
  | .writeVoid => code "(void)serializer;(void)customObject;(void)version;"
  | .readVoid => code "(void)deserializer;(void)customObject;"
  | .pullSetRecord q => code "const char *previousRecord = nullptr; if (errors) { previousRecord = errors->currentRecord;" ++
      (recordToks q ++ [semi, cls])
  | .pullRestore => code "if (errors) { errors->currentRecord = previousRecord; }"
  | .writeVersion t => usingToks t ++
      (code "; if constexpr (V::enabled) { serializer.writeVariableLengthUIntBE(V::applyDefault(version)); }")
  | .readVersion t q => usingToks t ++ (code "; if constexpr (V::enabled) {" ++ (assertToks q ++ [semi, cls]))
  | .readReturn => code "return version" ++ [semi]
  | .ifVersion a u => condToks a u ++ [opn]
  | .endIf | .funEnd | .funEndBlank => [cls]

theorem Lx.fin {st s} (ts : List Tok) (h : run st s = some (ts, .start)) : Lx st s ts := h

theorem Lx.cast {st s ts ts'} (h : Lx st s ts) (e : ts = ts') : Lx st s ts' := e ▸ h

theorem code_eq {s : String} {bytes : Str} {ts : List Tok} (h : lit s = bytes) (h' : decide (lex bytes = some ts) = true) : code s = ts := by
  rw [code, h, of_decide_eq_true h']; rfl

open Lean Meta in
/-- replaces `code "…"` by the list of the tokens (checked by the kernel) -/
simproc_decl reduceCode (code _) := fun e => do
  let_expr code s := e | return .continue
  let .lit (.strVal str) := s | return .continue
  let tok (t : Tok) : MetaM Expr := do
    let l (w : Str) : MetaM Expr := bytesExpr (w.map UInt8.toNat)
    match t with
    | .word w => return mkApp (mkConst ``Tok.word) (← l w)
    | .str w => return mkApp (mkConst ``Tok.str) (← l w)
    | .sym w => return mkApp (mkConst ``Tok.sym) (← l w)
  let res ← mkListLit (mkConst ``Tok) (← (code str).mapM fun t => (tok t : Simp.SimpM Expr))
  let litS := mkApp (mkConst ``lit) s
  let (bytes, prf) ← litExpr litS str
  let prf := mkAppN (mkConst ``code_eq) #[s, bytes, res, prf, mkApp2 (mkConst ``Eq.refl [1]) (mkConst ``Bool) (mkConst ``Bool.true)]
  return .done { expr := res, proof? := some prf }

theorem NW.app {a b : Str} (h : NW a = true) : NW (a ++ b) = true := by
  cases a with
  | nil => cases h
  | cons c a => exact h

theorem head_app {a b : Str} {c : UInt8} (h : a.head? = some c) : (a ++ b).head? = some c := by
  cases a with
  | nil => cases h
  | cons d a => exact h

/-- what a text starts with -/
local macro "hd!" : tactic => `(tactic| first
  | (simp only [reduceLit]; decide +kernel)
  | exact NW.app (by simp only [reduceLit]; decide +kernel)
  | exact head_app (by simp only [reduceLit]; decide +kernel))
/-- a literal, then the rest -/
local macro "L!" s:str ", " t:term:51 : term => `(Lx.pre (ts1 := code $s) (by simp only [reduceLit, reduceCode]; decide +kernel) $t)
/-- a literal with nothing left, then the rest -/
local macro "S!" s:str ", " t:term:51 : term =>
  `(Lx.pre (ts1 := code $s) (st1 := .start) (by simp only [reduceLit, reduceCode]; decide +kernel) $t)
/-- a literal at the end -/
local macro "E!" s:str : term => `(Lx.fin (code $s) (by simp only [reduceLit, reduceCode, List.tail_cons]; decide +kernel))

/-- equality of lists of tokens -/
local macro "toks!" : tactic => `(tactic| simp only [itemToks, headToks, baseToks, memberToks, fieldToks, usingToks, recordToks, assertToks,
  params, signature, scope, semi, opn, cls, reduceCode, reduceLit, List.cons_append, List.nil_append, List.append_assoc])

theorem Lx.vis {v s ts} (hv : v = [] ∨ Identifier v) (hs : NW s = true) (h : Lx .start s ts) : Lx .start (v ++ s) (visToks v ++ ts) := by
  rcases hv with rfl | hv
  · exact h
  · have := Lx.word hv hs h
    simpa [visToks, hv.1] using this

theorem toks_nsOpen (ns : Str) (h : Item.CppOk (.nsOpen ns)) : Lx .start (Item.render (.nsOpen ns)) (itemToks (.nsOpen ns)) := by
  simp only [Item.render, List.append_assoc]
  refine Lx.cast (L! "namespace ReflectiveRapidJSON { namespace", .word h (by hd!) (E! "{")) (by toks!)

theorem toks_nsClose (ns : Str) (h : Item.CppOk (.nsClose ns)) : Lx .start (Item.render (.nsClose ns)) (itemToks (.nsClose ns)) := by
  simp only [Item.render, List.append_assoc]
  refine Lx.cast (L! "}", .comment (Identifier.plain h) (E! "}")) (by toks!)

theorem toks_classComment (q : Str) (h : Item.CppOk (.classComment q)) : Lx .start (Item.render (.classComment q)) (itemToks (.classComment q)) := by
  simp only [Item.render, List.append_assoc]
  refine Lx.cast (L! "", .comment (QualifiedName.plain h) (E! "")) (by toks!)

theorem toks_pushOpen (v q : Str) (h : Item.CppOk (.pushOpen v q)) : Lx .start (Item.render (.pushOpen v q)) (itemToks (.pushOpen v q)) := by
  simp only [Item.render, List.append_assoc]
  refine Lx.cast (L! "template <>", .vis h.1 (by hd!) (L! "void push", .nameLt h.2 (by hd!) (L! ">(const ::",
    .name h.2 (by hd!) (E! "&reflectable, ::RAPIDJSON_NAMESPACE::Value::Object &value, ::RAPIDJSON_NAMESPACE::Document::AllocatorType &allocator) {")))) (by toks!)

theorem toks_pushBase (q : Str) (h : Item.CppOk (.pushBase q)) : Lx .start (Item.render (.pushBase q)) (itemToks (.pushBase q)) := by
  simp only [Item.render, List.append_assoc]
  refine Lx.cast (L! "push(static_cast<const ::", .name h (by hd!) (E! "&>(reflectable), value, allocator);")) (by toks!)

theorem toks_pushMember (n : Str) (h : Item.CppOk (.pushMember n)) : Lx .start (Item.render (.pushMember n)) (itemToks (.pushMember n)) := by
  simp only [Item.render, List.append_assoc]
  refine Lx.cast (L! "push(reflectable.", .word h (by hd!) (L! ",", .str (Identifier.plain h) (by hd!) (E! ", value, allocator);"))) (by toks!)

theorem toks_pullOpen (v q : Str) (h : Item.CppOk (.pullOpen v q)) : Lx .start (Item.render (.pullOpen v q)) (itemToks (.pullOpen v q)) := by
  simp only [Item.render, List.append_assoc]
  refine Lx.cast (L! "template <>", .vis h.1 (by hd!) (L! "void pull", .nameLt h.2 (by hd!) (L! ">(::", .name h.2 (by hd!) (E! "&reflectable, const ::RAPIDJSON_NAMESPACE::GenericValue<::RAPIDJSON_NAMESPACE::UTF8<char>>::ConstObject &value, JsonDeserializationErrors *errors) {")))) (by toks!)

theorem toks_pullBase (q : Str) (h : Item.CppOk (.pullBase q)) : Lx .start (Item.render (.pullBase q)) (itemToks (.pullBase q)) := by
  simp only [Item.render, List.append_assoc]
  refine Lx.cast (L! "pull(static_cast", .nameLt h (by hd!) (E! "&>(reflectable), value, errors);")) (by toks!)

theorem toks_pullMember (n : Str) (h : Item.CppOk (.pullMember n)) : Lx .start (Item.render (.pullMember n)) (itemToks (.pullMember n)) := by
  simp only [Item.render, List.append_assoc]
  refine Lx.cast (L! "pull(reflectable.", .word h (by hd!) (L! ",", .str (Identifier.plain h) (by hd!) (E! ", value, errors);"))) (by toks!)

theorem toks_pullSetRecord (q : Str) (h : Item.CppOk (.pullSetRecord q)) : Lx .start (Item.render (.pullSetRecord q)) (itemToks (.pullSetRecord q)) := by
  simp only [Item.render, List.append_assoc]
  refine Lx.cast (L! "const char *previousRecord = nullptr; if (errors) { previousRecord = errors->currentRecord; errors->currentRecord =", .str (QualifiedName.plain h) (by hd!) (E! ";}")) (by toks!)

theorem toks_writeOpen (v q : Str) (h : Item.CppOk (.writeOpen v q)) : Lx .start (Item.render (.writeOpen v q)) (itemToks (.writeOpen v q)) := by
  simp only [Item.render, List.append_assoc]
  refine Lx.cast (L! "template <>", .vis h.1 (by hd!) (L! "void writeCustomType", .nameLt h.2 (by hd!) (L! ">(BinarySerializer &serializer, const ::", .name h.2 (by hd!) (E! "&customObject, BinaryVersion version) {")))) (by toks!)

theorem toks_readOpen (v q : Str) (h : Item.CppOk (.readOpen v q)) : Lx .start (Item.render (.readOpen v q)) (itemToks (.readOpen v q)) := by
  simp only [Item.render, List.append_assoc]
  refine Lx.cast (L! "template <>", .vis h.1 (by hd!) (L! "BinaryVersion readCustomType", .nameLt h.2 (by hd!) (L! ">(BinaryDeserializer &deserializer, ::", .name h.2 (by hd!) (E! "&customObject, BinaryVersion version) {")))) (by toks!)

theorem toks_writeBase (q : Str) (h : Item.CppOk (.writeBase q)) : Lx .start (Item.render (.writeBase q)) (itemToks (.writeBase q)) := by
  simp only [Item.render, List.append_assoc]
  refine Lx.cast (L! "serializer.write(static_cast<const ::", .name h (by hd!) (E! "&>(customObject), version);")) (by toks!)

theorem toks_readBase (q : Str) (h : Item.CppOk (.readBase q)) : Lx .start (Item.render (.readBase q)) (itemToks (.readBase q)) := by
  simp only [Item.render, List.append_assoc]
  refine Lx.cast (L! "deserializer.read(static_cast", .nameLt h (by hd!) (E! "&>(customObject), version);")) (by toks!)

theorem toks_writeMember (n : Str) (h : Item.CppOk (.writeMember n)) : Lx .start (Item.render (.writeMember n)) (itemToks (.writeMember n)) := by
  simp only [Item.render, List.append_assoc]
  refine Lx.cast (L! "serializer.write(customObject.", .word h (by hd!) (E! ", version);")) (by toks!)

theorem toks_readMember (n : Str) (h : Item.CppOk (.readMember n)) : Lx .start (Item.render (.readMember n)) (itemToks (.readMember n)) := by
  simp only [Item.render, List.append_assoc]
  refine Lx.cast (L! "deserializer.read(customObject.", .word h (by hd!) (E! ", version);")) (by toks!)

theorem toks_pushComment : Lx .start (Item.render (.pushComment)) (itemToks (.pushComment)) := by
  refine Lx.cast (Lx.fin (code "") (by simp only [Item.render, reduceLit, reduceCode]; decide +kernel)) (by toks!)

theorem toks_writeComment : Lx .start (Item.render (.writeComment)) (itemToks (.writeComment)) := by
  refine Lx.cast (Lx.fin (code "") (by simp only [Item.render, reduceLit, reduceCode]; decide +kernel)) (by toks!)

theorem toks_readComment : Lx .start (Item.render (.readComment)) (itemToks (.readComment)) := by
  refine Lx.cast (Lx.fin (code "") (by simp only [Item.render, reduceLit, reduceCode]; decide +kernel)) (by toks!)

theorem toks_padding : Lx .start (Item.render (.padding)) (itemToks (.padding)) := by
  refine Lx.cast (Lx.fin (code "") (by simp only [Item.render, reduceLit, reduceCode]; decide +kernel)) (by toks!)

theorem toks_pushVoid : Lx .start (Item.render (.pushVoid)) (itemToks (.pushVoid)) := by
  refine Lx.cast (Lx.fin (code "(void)reflectable;(void)value;(void)allocator;") (by simp only [Item.render, reduceLit, reduceCode]; decide +kernel)) (by toks!)

theorem toks_pullVoid : Lx .start (Item.render (.pullVoid)) (itemToks (.pullVoid)) := by
  refine Lx.cast (Lx.fin (code "(void)reflectable;(void)value;") (by simp only [Item.render, reduceLit, reduceCode]; decide +kernel)) (by toks!)

theorem toks_writeVoid : Lx .start (Item.render (.writeVoid)) (itemToks (.writeVoid)) := by
  refine Lx.cast (Lx.fin (code "(void)serializer;(void)customObject;(void)version;") (by simp only [Item.render, reduceLit, reduceCode]; decide +kernel)) (by toks!)

theorem toks_readVoid : Lx .start (Item.render (.readVoid)) (itemToks (.readVoid)) := by
  refine Lx.cast (Lx.fin (code "(void)deserializer;(void)customObject;") (by simp only [Item.render, reduceLit, reduceCode]; decide +kernel)) (by toks!)

theorem toks_pullRestore : Lx .start (Item.render (.pullRestore)) (itemToks (.pullRestore)) := by
  refine Lx.cast (Lx.fin (code "if (errors) { errors->currentRecord = previousRecord; }") (by simp only [Item.render, reduceLit, reduceCode]; decide +kernel)) (by toks!)

theorem toks_readReturn : Lx .start (Item.render (.readReturn)) (itemToks (.readReturn)) := by
  refine Lx.cast (Lx.fin (code "return version;") (by simp only [Item.render, reduceLit, reduceCode]; decide +kernel)) (by toks!)

theorem toks_endIf : Lx .start (Item.render (.endIf)) (itemToks (.endIf)) := by
  refine Lx.cast (Lx.fin (code "}") (by simp only [Item.render, reduceLit, reduceCode]; decide +kernel)) (by toks!)

theorem toks_funEnd : Lx .start (Item.render (.funEnd)) (itemToks (.funEnd)) := by
  refine Lx.cast (Lx.fin (code "}") (by simp only [Item.render, reduceLit, reduceCode]; decide +kernel)) (by toks!)

theorem toks_funEndBlank : Lx .start (Item.render (.funEndBlank)) (itemToks (.funEndBlank)) := by
  refine Lx.cast (Lx.fin (code "}") (by simp only [Item.render, reduceLit, reduceCode]; decide +kernel)) (by toks!)

theorem toks_writeVersion (t : Str) (h : Item.CppOk (.writeVersion t)) : Lx .start (Item.render (.writeVersion t)) (itemToks (.writeVersion t)) := by
  simp only [Item.render, List.append_assoc]
  obtain ⟨ts, ht⟩ := h
  refine Lx.cast (L! "using V = Versioning", .type ht (by hd!) (E! ">; if constexpr (V::enabled) { serializer.writeVariableLengthUIntBE(V::applyDefault(version)); }")) (by rw [← ht.toks]; toks!)

theorem toks_readVersion (t q : Str) (h : Item.CppOk (.readVersion t q)) : Lx .start (Item.render (.readVersion t q)) (itemToks (.readVersion t q)) := by
  simp only [Item.render, List.append_assoc]
  obtain ⟨⟨ts, ht⟩, hq⟩ := h
  refine Lx.cast (L! "using V = Versioning", .type ht (by hd!) (L! ">; if constexpr (V::enabled) { V::assertVersion(version = deserializer.readVariableLengthUIntBE(),",
    .str (QualifiedName.plain hq) (by hd!) (E! ");}"))) (by rw [← ht.toks]; toks!)

theorem toks_ifVersion (a u : Nat) (h : Item.CppOk (.ifVersion a u)) : Lx .start (Item.render (.ifVersion a u)) (itemToks (.ifVersion a u)) := by
  simp only [Item.render, conditionText, itemToks, condToks]
  by_cases ha : a = 0
  · have hu : u ≠ 0 := (h : a ≠ 0 ∨ u ≠ 0).resolve_left fun h => h ha
    simp only [ha, hu, ne_eq, not_true_eq_false, ↓reduceIte, not_false_eq_true, List.nil_append, List.append_assoc]
    refine Lx.cast (S! "if (", L! "version <=", .word (natText_ident u) (by hd!) (E! ") {")) (by toks!)
  · by_cases hu : u = 0
    · simp only [ha, hu, ne_eq, not_true_eq_false, ↓reduceIte, not_false_eq_true, List.nil_append, List.append_assoc]
      refine Lx.cast (S! "if (", L! "version >=", .word (natText_ident a) (by hd!) (E! ") {")) (by toks!)
    · simp only [ha, hu, ne_eq, ↓reduceIte, not_false_eq_true, List.append_assoc]
      refine Lx.cast (S! "if (", L! "version >=", .word (natText_ident a) (by hd!) (S! "&&", L! "version <=", .word (natText_ident u) (by hd!) (E! ") {"))) (by toks!)

theorem render_toks (i : Item) (h : Item.CppOk i) : Lx .start i.render (itemToks i) := by
  cases i with
  | nsOpen ns => exact toks_nsOpen ns h
  | nsClose ns => exact toks_nsClose ns h
  | classComment q => exact toks_classComment q h
  | pushOpen v q => exact toks_pushOpen v q h
  | pushBase q => exact toks_pushBase q h
  | pushMember n => exact toks_pushMember n h
  | pullOpen v q => exact toks_pullOpen v q h
  | pullBase q => exact toks_pullBase q h
  | pullMember n => exact toks_pullMember n h
  | pullSetRecord q => exact toks_pullSetRecord q h
  | writeOpen v q => exact toks_writeOpen v q h
  | readOpen v q => exact toks_readOpen v q h
  | writeBase q => exact toks_writeBase q h
  | readBase q => exact toks_readBase q h
  | writeMember n => exact toks_writeMember n h
  | readMember n => exact toks_readMember n h
  | pushComment => exact toks_pushComment
  | writeComment => exact toks_writeComment
  | readComment => exact toks_readComment
  | padding => exact toks_padding
  | pushVoid => exact toks_pushVoid
  | pullVoid => exact toks_pullVoid
  | writeVoid => exact toks_writeVoid
  | readVoid => exact toks_readVoid
  | pullRestore => exact toks_pullRestore
  | readReturn => exact toks_readReturn
  | endIf => exact toks_endIf
  | funEnd => exact toks_funEnd
  | funEndBlank => exact toks_funEndBlank
  | writeVersion t => exact toks_writeVersion t h
  | readVersion t q => exact toks_readVersion t q h
  | ifVersion a u => exact toks_ifVersion a u h

end Verif.Gen.Cpp
