import Verif.Model.Cli

/-!
# The CMake function `add_reflection_generator_invocation` (lib/cmake/modules/ReflectionGenerator.cmake)

Lines 70-225 of the module. CMake itself is not part of the repository; what is used of it is described by the definitions
`elements`, `isOff`, `GenEx.eval`, `nameWE`, `parse` (after CMake's documentation of lists, `if`, generator expressions,
`get_filename_component` and `cmake_parse_arguments`). Simplifications: list elements contain neither escaped semicolons nor square
brackets; CMake is at least version 3.15 (lines 71-78 are for older versions, line 1 requires 3.17); the names of output lists are not
names of variables used by the function itself; the detection of the generator and of Clang's resource directory (lines 1-68) gives the
`Settings`. `VERBATIM` passes each argument as it is, and since `COMMAND_EXPAND_LISTS` is not used, the text a generator expression
evaluates to is one argument (lines 204-210).
-/

namespace Verif.CMake

/-- the elements of a list (a string with semicolons); empty ones are dropped -/
def elements (v : Str) : List Str := (Cli.split v).filter fun p => !p.isEmpty

/-- `list(JOIN …)` -/
def joinWith (glue : Str) (l : List Str) : Str := List.intercalate glue l

/-- upper-case letters of ASCII characters -/
def upper (s : Str) : Str := s.map fun c => if 0x61 ≤ c ∧ c ≤ 0x7a then c - 0x20 else c

def offConstants : List Str := [[], lit "0", lit "FALSE", lit "OFF", lit "N", lit "NO", lit "IGNORE", lit "NOTFOUND"]

/-- values regarded as false by `if(<variable>)` and `$<BOOL:…>` -/
def isOff (v : Str) : Bool := offConstants.contains (upper v) || (lit "-NOTFOUND").isSuffixOf v

/-- generator expressions as far as they occur in the module -/
inductive GenEx where
  /-- plain text -/
  | text (s : Str)
  /-- `$<TARGET_PROPERTY:target,name>` -/
  | property (target name : Str)
  /-- `$<FILTER:e,EXCLUDE,^$>` -/
  | filter (e : GenEx)
  /-- `$<$<BOOL:c>:e>` -/
  | ifBool (c e : GenEx)
  /-- `$<JOIN:e,glue>` -/
  | join (e : GenEx) (glue : Str)
  | cat (a b : GenEx)

/-- evaluation; `props target name` is the value of the property -/
def GenEx.eval (props : Str → Str → Str) : GenEx → Str
  | .text s => s
  | .property t n => props t n
  | .filter e => joinWith [0x3b] (elements (e.eval props))
  | .ifBool c e => if isOff (c.eval props) then [] else e.eval props
  | .join e glue => joinWith glue (elements (e.eval props))
  | .cat a b => a.eval props ++ b.eval props

/-- What the module determines when it is included and what CMake provides. -/
structure Settings where
  /-- `REFLECTION_GENERATOR_EXECUTABLE` (9-31) -/
  executable : Str
  /-- `REFLECTION_GENERATOR_CLANG_RESOURCE_DIR` (33-57) -/
  resourceDir : Str
  /-- `REFLECTION_GENERATOR_INCLUDE_DIRECTORIES` (60-63) -/
  includeDirs : List Str
  /-- `REFLECTION_GENERATOR_TRIPLE` (65-68) -/
  triple : Str
  /-- `CMAKE_CROSSCOMPILING` -/
  crossCompiling : Bool
  /-- `CMAKE_CURRENT_BINARY_DIR` -/
  binaryDir : Str
  isDirectory : Str → Bool
  isTarget : Str → Bool

/-! ## Arguments (90-100) -/

def optionKeywords : List Str := [lit "ERROR_RESILIENT"]
/-- line 91; `BINARY_VISBILITY` is spelled this way -/
def singleKeywords : List Str := [lit "OUTPUT_DIRECTORY", lit "JSON_VISIBILITY", lit "BINARY_VISBILITY"]
def multiKeywords : List Str := [lit "INPUT_FILES", lit "GENERATORS", lit "OUTPUT_LISTS", lit "CLANG_OPTIONS", lit "CLANG_OPTIONS_FROM_TARGETS",
  lit "CLANG_OPTIONS_FROM_DEPENDENCIES", lit "JSON_CLASSES"]

/-- the variables set by `cmake_parse_arguments` -/
structure Parsed where
  options : List Str
  single : Str → Str
  multi : Str → List Str

def Parsed.empty : Parsed := ⟨[], fun _ => [], fun _ => []⟩

/-- to what an argument which is not a keyword belongs -/
inductive Current where
  | nothing
  | single (k : Str)
  | multi (k : Str)

/-- `cmake_parse_arguments` -/
def parseLoop (cur : Current) (p : Parsed) : List Str → Parsed
  | [] => p
  | a :: as =>
    if optionKeywords.contains a then parseLoop .nothing { p with options := a :: p.options } as
    else if singleKeywords.contains a then parseLoop (.single a) p as
    else if multiKeywords.contains a then parseLoop (.multi a) p as
    else match cur with
      | .nothing => parseLoop .nothing p as
      | .single k => parseLoop .nothing { p with single := fun k' => if k' = k then a else p.single k' } as
      | .multi k => parseLoop cur { p with multi := fun k' => if k' = k then p.multi k ++ [a] else p.multi k' } as

def parse (args : List Str) : Parsed := parseLoop .nothing .empty args

/-! ## Options passed to Clang (108-174) -/

/-- `_reflective_rapidjson_set_prop` (70-84) -/
def setProp (target name : Str) : GenEx := .filter (.property target name)

/-- `$<$<BOOL:${PROP}>:$<JOIN:${PROP},$<SEMICOLON>>>` (148, 150, 166) and with a prefix, e.g.
`$<$<BOOL:${PROP}>:-D$<JOIN:${PROP},$<SEMICOLON>-D>>` (153, 156, 169, 172) -/
def propOption (pre target name : Str) : GenEx :=
  .ifBool (setProp target name) (.cat (.text pre) (.join (setProp target name) ([0x3b] ++ pre)))

/-- 140-156 -/
def targetOptions (t : Str) : List GenEx :=
  [.ifBool (.property t (lit "CXX_STANDARD")) (.cat (.text (lit "-std=c++")) (.property t (lit "CXX_STANDARD"))),
    propOption [] t (lit "COMPILE_FLAGS"), propOption [] t (lit "COMPILE_OPTIONS"), propOption (lit "-D") t (lit "COMPILE_DEFINITIONS"),
    propOption (lit "-I") t (lit "INCLUDE_DIRECTORIES")]

/-- 161-172 -/
def dependencyOptions (S : Settings) (t : Str) : List GenEx :=
  if S.isTarget t then
    [propOption [] t (lit "INTERFACE_COMPILE_OPTIONS"), propOption (lit "-D") t (lit "INTERFACE_COMPILE_DEFINITIONS"),
      propOption (lit "-I") t (lit "INTERFACE_INCLUDE_DIRECTORIES")]
  else []

/-- 108-174; `none` for `FATAL_ERROR` (126-128) -/
def clangOptions (S : Settings) (p : Parsed) : Option (List GenEx) :=
  if S.includeDirs.all S.isDirectory then
    some ((p.multi (lit "CLANG_OPTIONS")).map .text
      ++ [.text (lit "-resource-dir"), .text S.resourceDir]
      ++ (if isOff S.triple then [] else
        [.text (lit "-target"), .text S.triple, .text (lit "-Xclang"), .text (lit "-triple"), .text (lit "-Xclang"), .text S.triple])
      ++ S.includeDirs.flatMap (fun d => [.text (lit "-I"), .text d])
      ++ (if S.crossCompiling then [.text (lit "-nostdinc")] else [])
      ++ (p.multi (lit "CLANG_OPTIONS_FROM_TARGETS")).flatMap targetOptions
      ++ (p.multi (lit "CLANG_OPTIONS_FROM_DEPENDENCIES")).flatMap (dependencyOptions S))
  else none

/-! ## Commands (176-224) -/

/-- `get_filename_component(… NAME_WE)`: what follows the last slash, up to the first dot -/
def nameWE (file : Str) : Str := ((file.reverse.takeWhile (· != 0x2f)).reverse).takeWhile (· != 0x2e)

/-- 103-106 -/
def outputDirectory (S : Settings) (p : Parsed) : Str :=
  if isOff (p.single (lit "OUTPUT_DIRECTORY")) then S.binaryDir ++ lit "/reflection" else p.single (lit "OUTPUT_DIRECTORY")

/-- 179-180 -/
def outputFile (S : Settings) (p : Parsed) (input : Str) : Str := outputDirectory S p ++ lit "/" ++ nameWE input ++ lit ".h"

/-- 184-203 -/
def cliArguments (S : Settings) (p : Parsed) (opts : List GenEx) (input : Str) : List GenEx :=
  [.text (lit "--output-file"), .text (outputFile S p input), .text (lit "--input-file"), .text input, .text (lit "--generators")]
    ++ (p.multi (lit "GENERATORS")).map .text
    ++ [.text (lit "--clang-opt")] ++ opts
    ++ [.text (lit "--json-classes")] ++ (p.multi (lit "JSON_CLASSES")).map .text
    ++ (if isOff (p.single (lit "JSON_VISIBILITY")) then [] else [.text (lit "--json-visibility"), .text (p.single (lit "JSON_VISIBILITY"))])
    ++ (if isOff (p.single (lit "BINARY_VISBILITY")) then [] else [.text (lit "--binary-visibility"), .text (p.single (lit "BINARY_VISBILITY"))])
    ++ (if p.options.contains (lit "ERROR_RESILIENT") then [.text (lit "--error-resilient")] else [])

/-- a custom command (204-210) -/
structure Command where
  output : Str
  arguments : List GenEx
  dependsOn : Str

/-- CMake variables: `vars v` is the list stored in `v` -/
abbrev Vars := Str → List Str

/-- 216-223 -/
def appendOutput (lists : List Str) (output : Str) (vars : Vars) : Vars :=
  lists.foldl (fun vars l => fun v => if v = l then vars l ++ [output] else vars v) vars

/-- 176-224 -/
def addCommands (S : Settings) (p : Parsed) (opts : List GenEx) : List Str → Vars → List Command × Vars
  | [], vars => ([], vars)
  | i :: is, vars =>
    let out := outputFile S p i
    let r := addCommands S p opts is (appendOutput (p.multi (lit "OUTPUT_LISTS")) out vars)
    (⟨out, cliArguments S p opts i, i⟩ :: r.1, r.2)

/-- `add_reflection_generator_invocation(args…)` (88-225): the commands added and the variables of the caller afterwards; `none` for
`FATAL_ERROR` -/
def addInvocation (S : Settings) (args : List Str) (vars : Vars) : Option (List Command × Vars) :=
  let p := parse args
  (clangOptions S p).map fun opts => addCommands S p opts (p.multi (lit "INPUT_FILES")) vars

/-! ## Running a command -/

/-- the options of the tool (generator/main.cpp 29-52, jsonserializationcodegenerator.cpp 20-27, binaryserializationcodegenerator.cpp 24-31) -/
def cliOptions : List Str := [lit "--output-file", lit "--input-file", lit "--generators", lit "--clang-opt", lit "--log-clang-opt",
  lit "--error-resilient", lit "--json-classes", lit "--json-visibility", lit "--binary-classes", lit "--binary-visibility"]

/-- What c++utilities' argument parser (not part of the repository) makes of command lines of this shape: the values of an option are
what follows up to the next option. -/
def valuesOf (name : Str) (args : List Str) : Option (List Str) :=
  match args.dropWhile (· != name) with
  | [] => none
  | _ :: rest => some (rest.takeWhile fun a => !cliOptions.contains a)

/-- the parsed arguments of the tool -/
def toArgs (executable : Str) (args : List Str) : Cli.Args where
  executable := executable
  inputFiles := (valuesOf (lit "--input-file") args).getD []
  outputFile := (valuesOf (lit "--output-file") args).bind List.head?
  generators := valuesOf (lit "--generators") args
  clangOpt := valuesOf (lit "--clang-opt") args
  errorResilient := (valuesOf (lit "--error-resilient") args).isSome
  json := Gen.jsonConfig (valuesOf (lit "--json-classes") args) ((valuesOf (lit "--json-visibility") args).bind List.head?)
  binary := Gen.binaryConfig (valuesOf (lit "--binary-classes") args) ((valuesOf (lit "--binary-visibility") args).bind List.head?)

/-- running the command -/
def Command.run (S : Settings) (props : Str → Str → Str) (clang : List Str → Cli.ClangResult) (c : Command) (w : Cli.World) : Cli.Outcome :=
  Cli.main clang (toArgs S.executable (c.arguments.map (GenEx.eval props))) w

end Verif.CMake
