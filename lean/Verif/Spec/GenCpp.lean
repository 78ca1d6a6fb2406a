import Verif.Spec.Generator

/-!
# Specification: reading generated text as C++ code

A reader for the subset of C++ the generated code is written in, independent of how the text is produced: characters are
turned into tokens (`lex`), tokens into statements and blocks (`parse`), those into functions with the calls made by them
(`readCode`). Names which are not globally qualified (not starting with `::`) are looked up in the enclosing namespaces of the
generated code, so what they refer to depends on which other declarations exist; this is left open (`lookup`).
-/

namespace Verif.Gen.Cpp

/-! ## Tokens -/

inductive Tok where
  /-- identifiers, keywords and numbers -/
  | word (w : Str)
  /-- string literals (without escape sequences) -/
  | str (s : Str)
  /-- operators and punctuation -/
  | sym (s : Str)
deriving Repr, DecidableEq, Inhabited

/-- letters, digits and underscore -/
def isWordChar (c : UInt8) : Bool :=
  (0x30 ≤ c.toNat && c.toNat ≤ 0x39) || (0x41 ≤ c.toNat && c.toNat ≤ 0x5a) || (0x61 ≤ c.toNat && c.toNat ≤ 0x7a) || c.toNat == 0x5f

/-- what has been read of a token so far -/
inductive Lex where
  | start
  | word (w : Str)
  | str (s : Str)
  | comment
  | slash
  | colon
  | minus
  | amp
  | lt
  | ltColon
  | ltScope
  | gt
deriving Repr, DecidableEq, Inhabited

/-- first character of a token -/
def begin (c : UInt8) : Option (List Tok × Lex) :=
  if c = 0x20 ∨ c = 0x09 ∨ c = 0x0a then some ([], .start)
  else if isWordChar c then some ([], .word [c])
  else match c.toNat with
    | 0x22 => some ([], .str [])
    | 0x2f => some ([], .slash)
    | 0x3a => some ([], .colon)
    | 0x2d => some ([], .minus)
    | 0x26 => some ([], .amp)
    | 0x3c => some ([], .lt)
    | 0x3e => some ([], .gt)
    | 0x28 | 0x29 | 0x7b | 0x7d | 0x3b | 0x2c | 0x2e | 0x2a | 0x3d => some ([.sym [c]], .start)   -- ( ) { } ; , . * =
    | _ => none

/-- the token(s) `ts` end before the character `c` -/
def andThen (ts : List Tok) (c : UInt8) : Option (List Tok × Lex) := (begin c).map fun r => (ts ++ r.1, r.2)

def scope : Tok := .sym (lit "::")

/-- one character: the tokens completed and what has been read of the next one -/
def step : Lex → UInt8 → Option (List Tok × Lex)
  | .start, c => begin c
  | .word w, c => if isWordChar c then some ([], .word (w ++ [c])) else andThen [.word w] c
  | .str s, c => if c = 0x22 then some ([.str s], .start) else if c = 0x5c ∨ c = 0x0a then none else some ([], .str (s ++ [c]))
  | .comment, c => some ([], if c = 0x0a then .start else .comment)
  | .slash, c => if c = 0x2f then some ([], .comment) else none
  | .colon, c => if c = 0x3a then some ([scope], .start) else andThen [.sym (lit ":")] c
  | .minus, c => if c = 0x3e then some ([.sym (lit "->")], .start) else none
  | .amp, c => if c = 0x26 then some ([.sym (lit "&&")], .start) else andThen [.sym (lit "&")] c
  | .lt, c =>
    if c = 0x3d then some ([.sym (lit "<=")], .start) else if c = 0x3a then some ([], .ltColon) else andThen [.sym (lit "<")] c
  -- `<:` is another spelling of `[`, except that `<::` is `<` followed by `::` unless `:` or `>` comes next (C++11)
  | .ltColon, c => if c = 0x3a then some ([], .ltScope) else none
  | .ltScope, c => if c = 0x3a ∨ c = 0x3e then none else andThen [.sym (lit "<"), scope] c
  | .gt, c => if c = 0x3d then some ([.sym (lit ">=")], .start) else andThen [.sym (lit ">")] c

def run : Lex → Str → Option (List Tok × Lex)
  | st, [] => some ([], st)
  | st, c :: cs => (step st c).bind fun r => (run r.2 cs).map fun r' => (r.1 ++ r'.1, r'.2)

/-- the end of the text -/
def finish : Lex → Option (List Tok)
  | .start => some []
  | .word w => some [.word w]
  | .colon => some [.sym (lit ":")]
  | .amp => some [.sym (lit "&")]
  | .lt => some [.sym (lit "<")]
  | .ltScope => some [.sym (lit "<"), scope]
  | .gt => some [.sym (lit ">")]
  | _ => none

/-- the tokens of a text -/
def lex (s : Str) : Option (List Tok) := (run .start s).bind fun r => (finish r.2).map (r.1 ++ ·)

/-- the tokens of a piece of code -/
def code (s : String) : List Tok := (lex (lit s)).getD []

/-! ## Statements and blocks -/

inductive Stmt where
  /-- something ending with a semicolon -/
  | simple (ts : List Tok)
  /-- something followed by statements in braces -/
  | block (head : List Tok) (body : List Stmt)
deriving Repr, Inhabited

/-- what has been read of the current statement, and the enclosing blocks (innermost first): head and statements -/
structure Reading where
  cur : List Tok
  open_ : List (List Tok × List Stmt)

def parseTok (r : Reading) (t : Tok) : Option Reading :=
  if t = .sym (lit ";") then
    match r.open_ with
    | (h, ss) :: up => some ⟨[], (h, ss ++ [.simple r.cur]) :: up⟩
    | [] => none
  else if t = .sym (lit "{") then some ⟨[], (r.cur, []) :: r.open_⟩
  else if t = .sym (lit "}") then
    match r.cur, r.open_ with
    | [], (h, ss) :: (h', ss') :: up => some ⟨[], (h', ss' ++ [.block h ss]) :: up⟩
    | _, _ => none
  else some ⟨r.cur ++ [t], r.open_⟩

def parseFrom : Reading → List Tok → Option Reading
  | r, [] => some r
  | r, t :: ts => (parseTok r t).bind fun r' => parseFrom r' ts

/-- the statements and blocks of a file -/
def parse (ts : List Tok) : Option (List Stmt) :=
  match parseFrom ⟨[], [([], [])]⟩ ts with
  | some ⟨[], [(_, ss)]⟩ => some ss
  | _ => none

/-! ## Names -/

/-- the tokens after `p` -/
def after (p ts : List Tok) : Option (List Tok) := if p.isPrefixOf ts then some (ts.drop p.length) else none

/-- a possibly qualified name (without leading `::`) and what follows -/
def takePath : List Tok → List Str × List Tok
  | .word w :: .sym s :: rest => if .sym s = scope then (w :: (takePath rest).1, (takePath rest).2) else ([w], .sym s :: rest)
  | .word w :: rest => ([w], rest)
  | ts => ([], ts)

/-- the text of a qualified name -/
def pathText : List Str → Str
  | [] => []
  | [w] => w
  | w :: ws => w ++ lit "::" ++ pathText ws

/-- The class referred to by the name the tokens start with: that of the given name if globally qualified, otherwise up to name
lookup. -/
def className (lookup : List Str → Str) (ts : List Tok) : Option (Str × List Tok) :=
  match after [scope] ts with
  | some ts => if (takePath ts).1 = [] then none else some (pathText (takePath ts).1, (takePath ts).2)
  | none => if (takePath ts).1 = [] then none else some (lookup (takePath ts).1, (takePath ts).2)

/-! ## What functions do -/

/-- condition on the version: `version >= lower && version <= upper` -/
structure Cond where
  lower : Nat
  upper : Option Nat
deriving Repr, DecidableEq, Inhabited

def Cond.Holds (c : Cond) (version : Nat) : Prop := c.lower ≤ version ∧ ∀ u, c.upper = some u → version ≤ u

instance (c : Cond) (v : Nat) : Decidable (c.Holds v) :=
  match h : c.upper with
  | none => if h1 : c.lower ≤ v then isTrue ⟨h1, by simp [h]⟩ else isFalse fun hh => h1 hh.1
  | some u => if h1 : c.lower ≤ v ∧ v ≤ u then isTrue ⟨h1.1, by simp [h, h1.2]⟩
    else isFalse fun hh => h1 ⟨hh.1, hh.2 u h⟩

def always : Cond := ⟨0, none⟩

inductive Act where
  /-- (de)serialization of the object as an object of a base class -/
  | base (cls : Str)
  /-- (de)serialization of a member as member of a JSON object with the specified name -/
  | member (name key : Str)
  /-- binary (de)serialization of a member -/
  | field (name : Str)
  /-- `V` stands for the versioning of the specified type from now on -/
  | versioning (type : List Tok)
  /-- if `V` is enabled: the version is written, defaulting to the version of `V` -/
  | writeVersion
  /-- if `V` is enabled: the version is read and checked, reporting the specified class if not supported -/
  | readVersion (cls : Str)
  /-- if there is an error list, its current record is saved and set to the specified class -/
  | setRecord (cls : Str)
  /-- if there is an error list, its current record is set to the saved one -/
  | restoreRecord
  /-- the current version is returned -/
  | returnVersion
deriving Repr, DecidableEq, Inhabited

/-- decimal number -/
def decimal (s : Str) : Option Nat :=
  if s = [] ∨ s.any (fun c => c.toNat < 0x30 || 0x39 < c.toNat) then none
  else some (s.foldl (fun n c => 10 * n + (c.toNat - 0x30)) 0)

/-- a call with the object (converted to a base class) as first or only object -/
def asBase (lookup : List Str → Str) (begin_ : String) (rest : String) (ts : List Tok) : Option (List Act) := do
  let (c, ts) ← className lookup (← after (code begin_) ts)
  if ts = code rest then some [.base c] else none

/-- `call(object.member, "key", …)` -/
def asMember (begin_ : String) (rest : String) (ts : List Tok) : Option (List Act) :=
  match after (code begin_) ts with
  | some (.word n :: c :: .str k :: ts) => if c = .sym (lit ",") ∧ ts = code rest then some [.member n k] else none
  | _ => none

/-- `call(object.member, version)` -/
def asField (begin_ : String) (ts : List Tok) : Option (List Act) :=
  match after (code begin_) ts with
  | some (.word n :: ts) => if ts = code ", version)" then some [.field n] else none
  | _ => none

/-- `(void)parameter` -/
def asVoid (ts : List Tok) : Option (List Act) :=
  match after (code "(void)") ts with
  | some [.word _] => some []
  | _ => none

/-- `using V = Versioning<type>` -/
def asUsing (ts : List Tok) : Option (List Act) :=
  match after (code "using V = Versioning<") ts with
  | some ts => if ts.getLast? = some (.sym (lit ">")) then some [.versioning ts.dropLast] else none
  | none => none

/-- one of several forms -/
def oneOf : List (Option (List Act)) → Option (List Act)
  | [] => none
  | some a :: _ => some a
  | none :: rest => oneOf rest

/-- a statement of the specified kind of function which ends with a semicolon -/
def simpleStmt (lookup : List Str → Str) (k : FnKind) (ts : List Tok) : Option (List Act) :=
  match k with
  | .push => oneOf [
      asBase lookup "push(static_cast<const" "&>(reflectable), value, allocator)" ts,
      asMember "push(reflectable." ", value, allocator)" ts,
      asVoid ts]
  | .pull => oneOf [
      asBase lookup "pull(static_cast<" "&>(reflectable), value, errors)" ts,
      asMember "pull(reflectable." ", value, errors)" ts,
      if ts = code "const char *previousRecord = nullptr" then some [] else none,
      asVoid ts]
  | .write => oneOf [
      asBase lookup "serializer.write(static_cast<const" "&>(customObject), version)" ts,
      asField "serializer.write(customObject." ts,
      asUsing ts,
      asVoid ts]
  | .read => oneOf [
      asBase lookup "deserializer.read(static_cast<" "&>(customObject), version)" ts,
      asField "deserializer.read(customObject." ts,
      asUsing ts,
      if ts = code "return version" then some [.returnVersion] else none,
      asVoid ts]

/-- the record an error list's current record is set to after saving the previous one -/
def asSetRecord : List Stmt → Option (List Act)
  | [.simple a, .simple b] =>
    if a = code "previousRecord = errors->currentRecord" then
      match after (code "errors->currentRecord =") b with
      | some [.str q] => some [.setRecord q]
      | _ => none
    else none
  | _ => none

def asRestoreRecord : List Stmt → Option (List Act)
  | [.simple a] => if a = code "errors->currentRecord = previousRecord" then some [.restoreRecord] else none
  | _ => none

def asVersion (k : FnKind) : List Stmt → Option (List Act)
  | [.simple a] => match k with
    | .write => if a = code "serializer.writeVariableLengthUIntBE(V::applyDefault(version))" then some [.writeVersion] else none
    | .read =>
      match after (code "V::assertVersion(version = deserializer.readVariableLengthUIntBE(),") a with
      | some [.str q, p] => if p = .sym (lit ")") then some [.readVersion q] else none
      | _ => none
    | _ => none
  | _ => none

/-- `if (version >= lower && version <= upper)` -/
def asCond (ts : List Tok) : Option Cond :=
  match after (code "if (version >=") ts with
  | some [.word a, p] => if p = .sym (lit ")") then (decimal a).map fun a => ⟨a, none⟩ else none
  | some (.word a :: ts) =>
    match after (code "&& version <=") ts with
    | some [.word u, p] => if p = .sym (lit ")") then (decimal a).bind fun a => (decimal u).map fun u => ⟨a, some u⟩ else none
    | _ => none
  | some _ => none
  | none =>
    match after (code "if (version <=") ts with
    | some [.word u, p] => if p = .sym (lit ")") then (decimal u).map fun u => ⟨0, some u⟩ else none
    | _ => none

/-- all statements are simple ones -/
def simpleStmts (lookup : List Str → Str) (k : FnKind) : List Stmt → Option (List Act)
  | [] => some []
  | .simple ts :: ss => (simpleStmt lookup k ts).bind fun a => (simpleStmts lookup k ss).map (a ++ ·)
  | .block _ _ :: _ => none

/-- what a statement of the specified kind of function does, and under which condition -/
def stmt (lookup : List Str → Str) (k : FnKind) : Stmt → Option (List (Cond × Act))
  | .simple ts => (simpleStmt lookup k ts).map fun as => as.map fun a => (always, a)
  | .block head body =>
    if head = code "if (errors)" ∧ k = .pull then
      (oneOf [asSetRecord body, asRestoreRecord body]).map fun as => as.map fun a => (always, a)
    else if head = code "if constexpr (V::enabled)" then (asVersion k body).map fun as => as.map fun a => (always, a)
    else (asCond head).bind fun c => (simpleStmts lookup k body).map fun as => as.map fun a => (c, a)

def stmts (lookup : List Str → Str) (k : FnKind) : List Stmt → Option (List (Cond × Act))
  | [] => some []
  | s :: ss => (stmt lookup k s).bind fun a => (stmts lookup k ss).map (a ++ ·)

/-! ## Functions -/

/-- A specialization of one of the reflectors' function templates. -/
structure Def where
  kind : FnKind
  cls : Str
  acts : List (Cond × Act)
deriving Repr, DecidableEq, Inhabited

/-- `template <> VISIBILITY` -/
def afterTemplate (sig : List Tok) (head : List Tok) : Option (List Tok) :=
  match after (code "template <>") head with
  | some ts => match after sig ts with
    | some ts => some ts
    | none => match ts with
      | .word _ :: ts => after sig ts
      | _ => none
  | none => none

/-- the parameter list of a specialization for the class the tokens `q` refer to -/
def params (k : FnKind) (q : List Tok) : List Tok :=
  match k with
  | .push => code "(const" ++ q ++ code "&reflectable, ::RAPIDJSON_NAMESPACE::Value::Object &value, ::RAPIDJSON_NAMESPACE::Document::AllocatorType &allocator)"
  | .pull => code "(" ++ q ++ code "&reflectable, const ::RAPIDJSON_NAMESPACE::GenericValue<::RAPIDJSON_NAMESPACE::UTF8<char>>::ConstObject &value, JsonDeserializationErrors *errors)"
  | .write => code "(BinarySerializer &serializer, const" ++ q ++ code "&customObject, BinaryVersion version)"
  | .read => code "(BinaryDeserializer &deserializer," ++ q ++ code "&customObject, BinaryVersion version)"

/-- return type and name -/
def signature : FnKind → List Tok
  | .push => code "void push <"
  | .pull => code "void pull <"
  | .write => code "void writeCustomType <"
  | .read => code "BinaryVersion readCustomType <"

/-- the class a function is a specialization for: template argument and parameter are the same -/
def fnHead (lookup : List Str → Str) (k : FnKind) (head : List Tok) : Option Str := do
  let ts ← afterTemplate (signature k) head
  let (c, rest) ← className lookup ts
  if rest = .sym (lit ">") :: params k (ts.take (ts.length - rest.length)) then some c else none

def fnDef (lookup : List Str → Str) (k : FnKind) (head : List Tok) (body : List Stmt) : Option Def :=
  (fnHead lookup k head).bind fun c => (stmts lookup k body).map fun acts => ⟨k, c, acts⟩

/-- the definitions of functions of the specified kinds -/
def fnDefs (lookup : List Str → Str) (kinds : List FnKind) : List Stmt → Option (List Def)
  | [] => some []
  | .block head body :: ss =>
    match kinds.filterMap fun k => fnDef lookup k head body with
    | [d] => (fnDefs lookup kinds ss).map (d :: ·)
    | _ => none
  | .simple _ :: _ => none

/-- The functions defined by a file consisting of the specified namespace within the namespace of the library. -/
def readCode (lookup : List Str → Str) (ns : String) (kinds : List FnKind) (text : Str) : Option (List Def) :=
  match (lex text).bind parse with
  | some [.block a [.block b defs]] =>
    if a = code "namespace ReflectiveRapidJSON" ∧ b = code "namespace" ++ code ns then fnDefs lookup kinds defs else none
  | _ => none

/-! ## Names which may occur -/

/-- an identifier -/
def Identifier (s : Str) : Prop := s ≠ [] ∧ ∀ c ∈ s, isWordChar c = true

/-- a qualified name -/
def QualifiedName (s : Str) : Prop := ∃ ws : List Str, ws ≠ [] ∧ (∀ w ∈ ws, Identifier w) ∧ s = pathText ws

/-- The text of a type: has the specified tokens none of which belongs to the structure of statements, starts with `::` or an
identifier and ends with `>` or an identifier. -/
def TypeText (s : Str) (ts : List Tok) : Prop :=
  lex s = some ts ∧ (∀ t ∈ ts, t ≠ .sym (lit ";") ∧ t ≠ .sym (lit "{") ∧ t ≠ .sym (lit "}")) ∧
  (∃ c cs, isWordChar c = true ∧ (s = c :: cs ∨ s = lit "::" ++ c :: cs)) ∧
  (∃ cs c, s = cs ++ [c] ∧ (isWordChar c = true ∨ c = 0x3e))

/-- The names occurring in the code generated for the wanted classes are C++ names (there are no names for e.g. local classes
and unnamed bit-fields). -/
structure CppNames (cfg : Config) (tu : TU) : Prop where
  visibility : ∀ v, cfg.visibility = some v → v = [] ∨ Identifier v
  classes : ∀ n ∈ wanted cfg tu, QualifiedName (tu.cls n.cls).qname
  members : ∀ n ∈ wanted cfg tu, ∀ f, Member.field f ∈ (tu.cls n.cls).members → Identifier f.name
  types : ∀ n ∈ wanted cfg tu, ∀ b ∈ (tu.cls n.cls).bases, b.Serializable cfg tu → ∃ ts, TypeText b.typeName ts

end Verif.Gen.Cpp
