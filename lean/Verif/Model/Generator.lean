import Verif.Model.Env

/-!
# The code generators

Input: the declarations of a translation unit in the order in which the visitor passes them to the generator
(generator/visitor.cpp 25-29, generator/codefactory.cpp 69-74). Output: the generated text, as a list of pieces with their
exact wording (`Item.render`).

Not modelled: clang itself (parsing, `RecursiveASTVisitor`); `isOnlyIncluded` is given per declaration (the source manager
is always set when `generate` runs, generator/frontendaction.cpp 22).
-/

namespace Verif.Gen

/-! ## The part of clang's AST which is looked at -/

/-- A `FieldDecl` (non-static data member): `getName()`, type, `getType().isConstant()`, `getAccess() == AS_public`
(used in jsonserializationcodegenerator.cpp 122-127, 156-164; binaryserializationcodegenerator.cpp 270-280, 341-353). -/
structure FieldD where
  name : Str
  ty : Ty
  isConst : Bool
  isPublic : Bool
deriving Repr, Inhabited

/-- A declaration within a class in source order (`decls()`, binaryserializationcodegenerator.cpp 263, 329): data member,
static data member (`Decl::Kind::Var`) with the integer literals found when traversing it, or anything else. -/
inductive Member where
  | field (f : FieldD)
  | var (name : Str) (literals : List Nat)
  | other
deriving Repr, Inhabited

/-- A `FriendDecl`: whether it is a function, and its qualified name (jsonserializationcodegenerator.cpp 89-96). -/
structure Friend where
  isFunction : Bool
  qname : Str
deriving Repr, Inhabited

/-- A `CXXBaseSpecifier`: the class (none if the type is dependent), the fully qualified name of the type as printed by
serializationcodegenerator.cpp 98-104 and the value of `Versioning<type>::maxSupported` (0 if not versioned;
lib/versioning.h 27-45). -/
structure BaseSpec where
  cls : Option ClassId
  typeName : Str
  version : Nat
deriving Repr, Inhabited

/-- A class; declarations referring to the same class (same canonical declaration) share this information. -/
structure Class where
  qname : Str
  hasDefinition : Bool
  bases : List BaseSpec
  members : List Member
  friends : List Friend
  hasDefaultCtor : Bool
deriving Repr, Inhabited

/-- A template argument: a type (a class or something else) or not a type. -/
inductive TArg where
  | type (record : Option ClassId)
  | nonType
deriving Repr, DecidableEq, Inhabited

/-- A `CXXRecordDecl` or `ClassTemplateSpecializationDecl` (then `specArgs` is present): which class is declared, whether
this declaration is the (complete) definition, whether it is located in another file than the main file. -/
structure Node where
  cls : ClassId
  complete : Bool
  onlyIncluded : Bool
  specArgs : Option (List TArg)
deriving Repr, DecidableEq, Inhabited

inductive Decl where
  | record (n : Node)
  | other
deriving Repr, DecidableEq, Inhabited

/-- A translation unit: the classes and the visited declarations. -/
structure TU where
  cls : ClassId → Class
  decls : List Decl

/-- Parameters of a serialization generator: `m_qualifiedNameOfRecords`, `m_qualifiedNameOfAdaptionRecords`
(jsonserializationcodegenerator.cpp 33-34, binaryserializationcodegenerator.cpp 37-38), `--json-classes`/`--binary-classes`
and `--json-visibility`/`--binary-visibility` (…generator.cpp `Options`). -/
structure Config where
  recordsName : Str
  adaptionName : Str
  additional : Option (List Str)
  visibility : Option Str
deriving Repr, Inhabited

/-- jsonserializationcodegenerator.cpp 33-34 with lib/json/serializable.h 33, lib/json/reflector.h 42 -/
def jsonConfig (additional : Option (List Str)) (visibility : Option Str) : Config :=
  ⟨lit "ReflectiveRapidJSON::JsonSerializable", lit "ReflectiveRapidJSON::AdaptedJsonSerializable", additional, visibility⟩

/-- binaryserializationcodegenerator.cpp 37-38 with lib/binary/serializable.h 28, lib/binary/reflector.h 35 -/
def binaryConfig (additional : Option (List Str)) (visibility : Option Str) : Config :=
  ⟨lit "ReflectiveRapidJSON::BinarySerializable", lit "ReflectiveRapidJSON::AdaptedBinarySerializable", additional, visibility⟩

/-! ## Finding the relevant classes -/

/-- `m_records`, `m_adaptionRecords` (serializationcodegenerator.h 48-49); an adaption record consists of the qualified name
of the adapted class and the specialization. -/
structure Collected where
  records : List Node := []
  adaptions : List (Str × Node) := []

/-- `SerializationCodeGenerator::addDeclaration` (serializationcodegenerator.cpp 29-69). -/
def addDeclaration (cfg : Config) (tu : TU) (st : Collected) : Decl → Collected
  | .other => st
  | .record n =>
    -- 35-37: skip forward declarations
    if !(tu.cls n.cls).hasDefinition then st
    else match n.specArgs with
      | some args =>
        -- 43
        if (tu.cls n.cls).qname = cfg.adaptionName then
          -- 46-53: exactly one type argument which is a class
          match args with
          | [.type (some c)] => { st with adaptions := st.adaptions ++ [((tu.cls c).qname, n)] }
          | _ => st
        else { st with records := st.records ++ [n] }
      | none => { st with records := st.records ++ [n] }

/-- the visitor passes all declarations (visitor.cpp 25-29, codefactory.cpp 69-74) -/
def collect (cfg : Config) (tu : TU) : Collected := tu.decls.foldl (addDeclaration cfg tu) {}

/-- serializationcodegenerator.h 21 -/
inductive IsRelevant where
  | yes | no | maybe
deriving Repr, DecidableEq, Inhabited

/-- `CodeGenerator::inheritsFromInstantiationOf` (codegenerator.cpp 50-59). -/
def inheritsFromInstantiationOf (tu : TU) (bases : List BaseSpec) (templateClass : Str) : Option BaseSpec :=
  bases.find? fun b => match b.cls with
    | some c => (tu.cls c).qname = templateClass
    | none => false

/-- `SerializationCodeGenerator::RelevantClass` (serializationcodegenerator.h 22-29). The base specifier is kept instead of
its printed name only. -/
structure Relevant where
  node : Node
  isRelevant : IsRelevant := .maybe
  relevantBase : Option BaseSpec := none

/-- `SerializationCodeGenerator::computeRelevantClass` (serializationcodegenerator.cpp 71-109). -/
def computeRelevantBase (cfg : Config) (tu : TU) (adaptions : List (Str × Node)) (r : Relevant) : Relevant :=
  -- 74-77
  if !r.node.complete then { r with isRelevant := .no }
  -- 80-89
  else if adaptions.any fun a => !a.2.onlyIncluded && a.1 == (tu.cls r.node.cls).qname then { r with isRelevant := .yes }
  -- 92-95
  else if r.node.onlyIncluded then { r with isRelevant := .no }
  -- 98-108
  else match inheritsFromInstantiationOf tu (tu.cls r.node.cls).bases cfg.recordsName with
    | some b => { r with isRelevant := .yes, relevantBase := some b }
    | none => r

/-- `JsonSerializationCodeGenerator::computeRelevantClass` (jsonserializationcodegenerator.cpp 40-57) and
`BinarySerializationCodeGenerator::computeRelevantClass` (binaryserializationcodegenerator.cpp 45-62). -/
def computeRelevant (cfg : Config) (tu : TU) (adaptions : List (Str × Node)) (r : Relevant) : Relevant :=
  let r := computeRelevantBase cfg tu adaptions r
  if r.isRelevant ≠ .maybe then r
  else match cfg.additional with
    | none => r
    | some names => if names.any fun n => n == (tu.cls r.node.cls).qname then { r with isRelevant := .yes } else r

/-- `SerializationCodeGenerator::findRelevantClasses` (serializationcodegenerator.cpp 111-122). -/
def findRelevantClasses (cfg : Config) (tu : TU) : List Relevant :=
  let st := collect cfg tu
  st.records.filterMap fun n =>
    let r := computeRelevant cfg tu st.adaptions { node := n }
    if r.isRelevant ≠ .yes then none else some r

/-- clang's `CXXRecordDecl::isDerivedFrom` with a depth limit -/
def derivedN (tu : TU) : Nat → ClassId → ClassId → Bool
  | 0, _, _ => false
  | n + 1, c, d => (tu.cls c).bases.any fun b => match b.cls with
    | some e => e == d || derivedN tu n e d
    | none => false

/-- clang's `CXXRecordDecl::isDerivedFrom`: search for a base class, direct or not. Bases are defined before the derived
class, so ids given in the order of definition (`TU.WellFormed`) bound the depth. -/
def isDerivedFrom (tu : TU) (c d : ClassId) : Bool := derivedN tu c c d

/-- `SerializationCodeGenerator::findRelevantBaseClasses` (serializationcodegenerator.cpp 124-134). Comparing classes is
comparing record pointers as relevant records are the definitions. -/
def findRelevantBaseClasses (tu : TU) (r : Relevant) (all : List Relevant) : List Relevant :=
  all.filter fun o => r.node.cls != o.node.cls && isDerivedFrom tu r.node.cls o.node.cls

/-! ## Output -/

/-- Pieces of the generated text. -/
inductive Item where
  | nsOpen (ns : Str)
  | nsClose (ns : Str)
  | classComment (qname : Str)
  -- JSON
  | pushOpen (visibility qname : Str)
  | pushBase (qname : Str)
  | pushComment
  | pushMember (name : Str)
  | pushVoid
  | pullOpen (visibility qname : Str)
  | pullBase (qname : Str)
  | pullSetRecord (qname : Str)
  | pullMember (name : Str)
  | pullVoid
  | pullRestore
  -- binary
  | writeOpen (visibility qname : Str)
  | writeBase (qname : Str)
  | writeVersion (typeName : Str)
  | writeComment
  | writeMember (name : Str)
  | writeVoid
  | readOpen (visibility qname : Str)
  | readBase (qname : Str)
  | readVersion (typeName qname : Str)
  | readComment
  | readMember (name : Str)
  | readVoid
  | readReturn
  | ifVersion (asOf untilV : Nat)
  | endIf
  | padding
  -- end of a function: `}\n` or `}\n\n`
  | funEnd
  | funEndBlank
deriving Repr, DecidableEq, Inhabited

/-- decimal digits as printed by `operator<<` -/
def natText (n : Nat) : Str := lit (toString n)

/-- The condition printed by `MemberTracking::writeVersionCondition` (binaryserializationcodegenerator.cpp 167-178). -/
def conditionText (asOf untilV : Nat) : Str :=
  (if asOf ≠ 0 then lit "version >= " ++ natText asOf ++ (if untilV ≠ 0 then lit " && " else []) else [])
    ++ (if untilV ≠ 0 then lit "version <= " ++ natText untilV else [])

/-- The exact text of a piece. -/
def Item.render : Item → Str
  -- jsonserializationcodegenerator.cpp 74-75, binaryserializationcodegenerator.cpp 207-208
  | .nsOpen ns => lit "namespace ReflectiveRapidJSON {\nnamespace " ++ ns ++ lit " {\n\n"
  -- jsonserializationcodegenerator.cpp 179-180, binaryserializationcodegenerator.cpp 361-362
  | .nsClose ns => lit "} // namespace " ++ ns ++ lit "\n} // namespace ReflectiveRapidJSON\n"
  -- 112, 245
  | .classComment q => lit "// define code for (de)serializing " ++ q ++ lit " objects\n"
  -- jsonserializationcodegenerator.cpp 115-117
  | .pushOpen vis q => lit "template <> " ++ vis ++ lit " void push<::" ++ q ++ lit ">(const ::" ++ q
      ++ lit " &reflectable, ::RAPIDJSON_NAMESPACE::Value::Object &value, ::RAPIDJSON_NAMESPACE::Document::AllocatorType &allocator)\n{\n    // push base classes\n"
  -- 119
  | .pushBase q => lit "    push(static_cast<const ::" ++ q ++ lit " &>(reflectable), value, allocator);\n"
  -- 121
  | .pushComment => lit "    // push members\n"
  -- 125
  | .pushMember n => lit "    push(reflectable." ++ n ++ lit ", \"" ++ n ++ lit "\", value, allocator);\n"
  -- 130
  | .pushVoid => lit "    (void)reflectable;\n    (void)value;\n    (void)allocator;\n"
  -- 140-144
  | .pullOpen vis q => lit "template <> " ++ vis ++ lit " void pull<::" ++ q ++ lit ">(::" ++ q
      ++ lit " &reflectable, const ::RAPIDJSON_NAMESPACE::GenericValue<::RAPIDJSON_NAMESPACE::UTF8<char>>::ConstObject &value, JsonDeserializationErrors *errors)\n{\n    // pull base classes\n"
  -- 146
  | .pullBase q => lit "    pull(static_cast<::" ++ q ++ lit " &>(reflectable), value, errors);\n"
  -- 148-156
  | .pullSetRecord q => lit "    // set error context for current record\n    const char *previousRecord = nullptr;\n    if (errors) {\n        previousRecord = errors->currentRecord;\n        errors->currentRecord = \""
      ++ q ++ lit "\";\n    }\n    // pull members\n"
  -- 164
  | .pullMember n => lit "    pull(reflectable." ++ n ++ lit ", \"" ++ n ++ lit "\", value, errors);\n"
  -- 169
  | .pullVoid => lit "    (void)reflectable;\n    (void)value;\n"
  -- 171-174
  | .pullRestore => lit "    // restore error context for previous record\n    if (errors) {\n        errors->currentRecord = previousRecord;\n    }\n"
  -- binaryserializationcodegenerator.cpp 248-250
  | .writeOpen vis q => lit "template <> " ++ vis ++ lit " void writeCustomType<::" ++ q
      ++ lit ">(BinarySerializer &serializer, const ::" ++ q ++ lit " &customObject, BinaryVersion version)\n{\n    // write base classes\n"
  -- 252
  | .writeBase q => lit "    serializer.write(static_cast<const ::" ++ q ++ lit " &>(customObject), version);\n"
  -- 254-262
  | .writeVersion t => lit "    // write version\n    using V = Versioning<" ++ t
      ++ lit ">;\n    if constexpr (V::enabled) {\n        serializer.writeVariableLengthUIntBE(V::applyDefault(version));\n    }\n"
  -- 263
  | .writeComment => lit "    // write members\n"
  -- 292
  | .writeMember n => lit "    serializer.write(customObject." ++ n ++ lit ", version);\n"
  -- 297
  | .writeVoid => lit "    (void)serializer;\n    (void)customObject;\n    \n(void)version;"
  -- 308-310
  | .readOpen vis q => lit "template <> " ++ vis ++ lit " BinaryVersion readCustomType<::" ++ q
      ++ lit ">(BinaryDeserializer &deserializer, ::" ++ q ++ lit " &customObject, BinaryVersion version)\n{\n    // read base classes\n"
  -- 312
  | .readBase q => lit "    deserializer.read(static_cast<::" ++ q ++ lit " &>(customObject), version);\n"
  -- 314-324
  | .readVersion t q => lit "    // read version\n    using V = Versioning<" ++ t
      ++ lit ">;\n    if constexpr (V::enabled) {\n        V::assertVersion(version = deserializer.readVariableLengthUIntBE(), \"" ++ q ++ lit "\");\n    }\n"
  -- 325
  | .readComment => lit "    // read members\n"
  -- 348
  | .readMember n => lit "    deserializer.read(customObject." ++ n ++ lit ", version);\n"
  -- 354
  | .readVoid => lit "    (void)deserializer;\n    (void)customObject;\n"
  -- 356
  | .readReturn => lit "    return version;\n"
  -- 168-178
  | .ifVersion a u => lit "    if (" ++ conditionText a u ++ lit ") {\n"
  -- 152
  | .endIf => lit "    }\n"
  -- 188
  | .padding => lit "    "
  -- 132, 299 / 175, 357
  | .funEnd => lit "}\n"
  | .funEndBlank => lit "}\n\n"

/-- the text of a sequence of pieces -/
def renderAll (is : List Item) : Str := is.flatMap Item.render

/-- `friends()` loop: private members are considered if one of the friend functions has the given name
(jsonserializationcodegenerator.cpp 88-106, binaryserializationcodegenerator.cpp 221-239). Leaving the loop early once both
functions have been found has no further effect. -/
def befriends (c : Class) (fn : Str) : Bool := c.friends.any fun f => f.isFunction && f.qname == fn

/-- `fields()`: the data members in declaration order (clang: `decls()` filtered by kind) -/
def Class.fields (c : Class) : List FieldD := c.members.filterMap fun
  | .field f => some f
  | _ => none

/-! ### JSON -/

/-- One iteration of the loop over the relevant classes in `JsonSerializationCodeGenerator::generate`
(jsonserializationcodegenerator.cpp 85-176). -/
def jsonClass (cfg : Config) (tu : TU) (all : List Relevant) (r : Relevant) : List Item :=
  let c := tu.cls r.node.cls
  let vis := cfg.visibility.getD []
  let pushPrivate := befriends c (lit "ReflectiveRapidJSON::JsonReflector::push")
  let pullPrivate := befriends c (lit "ReflectiveRapidJSON::JsonReflector::pull")
  let bases := (findRelevantBaseClasses tu r all).map fun b => (tu.cls b.node.cls).qname
  let pushed := (c.fields.filter fun f => pushPrivate || f.isPublic).map FieldD.name
  let pulled := ((c.fields.filter fun f => !f.isConst).filter fun f => pullPrivate || f.isPublic).map FieldD.name
  -- 112-132
  [.classComment c.qname, .pushOpen vis c.qname] ++ bases.map .pushBase ++ [.pushComment] ++ pushed.map .pushMember
    ++ (if bases.isEmpty && pushed.isEmpty then [.pushVoid] else []) ++ [.funEnd]
    -- 135-137
    ++ (if !c.hasDefaultCtor then [] else
      -- 140-175
      [.pullOpen vis c.qname] ++ bases.map .pullBase ++ [.pullSetRecord c.qname] ++ pulled.map .pullMember
        ++ (if bases.isEmpty && pulled.isEmpty then [.pullVoid] else []) ++ [.pullRestore, .funEndBlank])

/-- `JsonSerializationCodeGenerator::generate` (jsonserializationcodegenerator.cpp 62-181). -/
def generateJson (cfg : Config) (tu : TU) : List Item :=
  let rs := findRelevantClasses cfg tu
  if rs.isEmpty then []
  else [.nsOpen (lit "JsonReflector")] ++ rs.flatMap (jsonClass cfg tu rs) ++ [.nsClose (lit "JsonReflector")]

/-! ### Binary -/

/-- `RetrieveIntegerLiteralFromDeclaratorDecl` (binaryserializationcodegenerator.cpp 65-100): the first integer literal with
at most 64 bits. -/
def retrieveLiteral (literals : List Nat) : Option Nat := literals.find? fun n => n < 2 ^ 64

/-- `startsStrRefWith` -/
def startsWith (s p : Str) : Bool := p.isPrefixOf s

/-- `MemberTracking` (binaryserializationcodegenerator.cpp 103-112) -/
structure Tracking where
  membersWritten : Bool := false
  withinCondition : Bool := false
  asOf : Nat := 0
  lastAsOf : Nat := 0
  untilV : Nat := 0
  lastUntil : Nat := 0
deriving Repr, Inhabited

/-- `MemberTracking::checkForVersionMarker` for a static member variable (binaryserializationcodegenerator.cpp 118-145). -/
def checkForVersionMarker (mt : Tracking) (name : Str) (literals : List Nat) : Tracking :=
  let isAsOf := startsWith name (lit "rrjAsOfVersion")
  if isAsOf || startsWith name (lit "rrjUntilVersion") then
    match retrieveLiteral literals with
    | some v =>
      if isAsOf then
        if v > mt.untilV then { mt with asOf := v, untilV := 0 } else { mt with asOf := v }
      else
        if v < mt.asOf then { mt with untilV := v, asOf := 0 } else { mt with untilV := v }
    | none => mt
  else mt

/-- `MemberTracking::concludeCondition` (binaryserializationcodegenerator.cpp 147-155) -/
def concludeCondition (mt : Tracking) : List Item := if mt.withinCondition then [.endIf] else []

/-- `MemberTracking::writeVersionCondition` (binaryserializationcodegenerator.cpp 157-181) -/
def writeVersionCondition (mt : Tracking) : List Item × Tracking :=
  if mt.asOf = mt.lastAsOf ∧ mt.untilV = mt.lastUntil then ([], mt)
  else
    let within := mt.asOf ≠ 0 ∨ mt.untilV ≠ 0
    (concludeCondition mt ++ (if within then [.ifVersion mt.asOf mt.untilV] else []),
      { mt with lastAsOf := mt.asOf, lastUntil := mt.untilV, withinCondition := decide within })

/-- `MemberTracking::writeExtraPadding` (binaryserializationcodegenerator.cpp 183-190) -/
def writeExtraPadding (mt : Tracking) : List Item := if mt.withinCondition then [.padding] else []

/-- The loop over `decls()` emitting `serializer.write(…)` (binaryserializationcodegenerator.cpp 264-294). -/
def writeLoop (writePrivate : Bool) : Tracking → List Member → List Item × Tracking
  | mt, [] => ([], mt)
  | mt, .var name literals :: ms => writeLoop writePrivate (checkForVersionMarker mt name literals) ms
  | mt, .other :: ms => writeLoop writePrivate mt ms
  | mt, .field f :: ms =>
    if f.isConst then writeLoop writePrivate mt ms
    else if !writePrivate && !f.isPublic then writeLoop writePrivate mt ms
    else
      let (cond, mt) := writeVersionCondition mt
      let (rest, mt') := writeLoop writePrivate { mt with membersWritten := true } ms
      (cond ++ writeExtraPadding mt ++ [.writeMember f.name] ++ rest, mt')

/-- The loop over `decls()` emitting `deserializer.read(…)` (binaryserializationcodegenerator.cpp 326-351): the version
condition is emitted before checking the access of the member. -/
def readLoop (readPrivate : Bool) : Tracking → List Member → List Item × Tracking
  | mt, [] => ([], mt)
  | mt, .var name literals :: ms => readLoop readPrivate (checkForVersionMarker mt name literals) ms
  | mt, .other :: ms => readLoop readPrivate mt ms
  | mt, .field f :: ms =>
    if f.isConst then readLoop readPrivate mt ms
    else
      let (cond, mt) := writeVersionCondition mt
      if readPrivate || f.isPublic then
        let (rest, mt') := readLoop readPrivate { mt with membersWritten := true } ms
        (cond ++ writeExtraPadding mt ++ [.readMember f.name] ++ rest, mt')
      else
        let (rest, mt') := readLoop readPrivate mt ms
        (cond ++ writeExtraPadding mt ++ rest, mt')

/-- One iteration of the loop over the relevant classes in `BinarySerializationCodeGenerator::generate`
(binaryserializationcodegenerator.cpp 218-358). -/
def binaryClass (cfg : Config) (tu : TU) (all : List Relevant) (r : Relevant) : List Item :=
  let c := tu.cls r.node.cls
  let vis := cfg.visibility.getD []
  let writePrivate := befriends c (lit "ReflectiveRapidJSON::BinaryReflector::writeCustomType")
  let readPrivate := befriends c (lit "ReflectiveRapidJSON::BinaryReflector::readCustomType")
  let bases := (findRelevantBaseClasses tu r all).map fun b => (tu.cls b.node.cls).qname
  let w := writeLoop writePrivate {} c.members
  let rd := readLoop readPrivate {} c.members
  let relevantBase := (r.relevantBase.map BaseSpec.typeName).getD []
  -- 245-299
  [.classComment c.qname, .writeOpen vis c.qname] ++ bases.map .writeBase
    ++ (if relevantBase.isEmpty then [] else [.writeVersion relevantBase]) ++ [.writeComment]
    ++ w.1 ++ concludeCondition w.2
    ++ (if bases.isEmpty && !w.2.membersWritten then [.writeVoid] else []) ++ [.funEnd]
    -- 302-304
    ++ (if !c.hasDefaultCtor then [] else
      -- 307-357
      [.readOpen vis c.qname] ++ bases.map .readBase
        ++ (if relevantBase.isEmpty then [] else [.readVersion relevantBase c.qname]) ++ [.readComment]
        ++ rd.1 ++ concludeCondition rd.2
        ++ (if bases.isEmpty && !rd.2.membersWritten then [.readVoid] else []) ++ [.readReturn, .funEndBlank])

/-- `BinarySerializationCodeGenerator::generate` (binaryserializationcodegenerator.cpp 195-363). -/
def generateBinary (cfg : Config) (tu : TU) : List Item :=
  let rs := findRelevantClasses cfg tu
  if rs.isEmpty then []
  else [.nsOpen (lit "BinaryReflector")] ++ rs.flatMap (binaryClass cfg tu rs) ++ [.nsClose (lit "BinaryReflector")]

end Verif.Gen
