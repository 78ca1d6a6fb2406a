import Verif.Model.Generator
import Verif.Model.Diag

/-!
# The command line tool

`main` (generator/main.cpp 58-141) starting from the parsed arguments, and `CodeFactory` (generator/codefactory.cpp).

Not modelled: argument parsing itself (c++utilities' `ArgumentParser`; its results are the fields of `Args`), messages
printed to stderr, and I/O errors while writing to an already opened output file. Clang is a parameter: what it makes of its
command line.
-/

namespace Verif.Cli
open Verif.Gen

/-- The parsed arguments (main.cpp 29-56); `none` if an option is absent. `--json-classes`, `--json-visibility`,
`--binary-classes` and `--binary-visibility` are the parameters of the configurations. -/
structure Args where
  executable : Str
  inputFiles : List Str
  outputFile : Option Str
  generators : Option (List Str)
  clangOpt : Option (List Str)
  errorResilient : Bool
  json : Config
  binary : Config

/-- What clang makes of a command line: no job (the invocation fails before any file is read), or the declarations and the
diagnostics of the translation unit. -/
inductive ClangResult where
  | noJob
  | unit (tu : TU) (diags : List Diag.Diagnostic)

/-- Files (name to contents), which files can be opened for writing, and what was printed to stdout. -/
structure World where
  files : Str → Option Str
  canOpen : Str → Bool
  stdout : Str

/-- `splitStringSimple(value, ";")` as used in main.cpp 77: the parts between the delimiters (whether a trailing empty part
is returned makes no difference since empty parts are dropped in 79). `cur` is the current part, reversed. -/
def splitLoop (cur : Str) : Str → List Str
  | [] => [cur.reverse]
  | c :: cs => if c = 0x3b then cur.reverse :: splitLoop [] cs else splitLoop (c :: cur) cs

def split (value : Str) : List Str := splitLoop [] value

/-- main.cpp 71-84 -/
def clangOptions (a : Args) : List Str :=
  match a.clangOpt with
  | none => []
  | some values => values.flatMap fun v => (split v).filter fun p => !p.isEmpty

/-- `CodeFactory::makeClangArgs` (codefactory.cpp 53-63; `PROJECT_VARNAME_UPPER` is set in generator/CMakeLists.txt from the
project's name). The flags are stored in a static variable; a process has only one factory (main.cpp 93). -/
def makeClangArgs (a : Args) : List Str :=
  [a.executable, lit "-x", lit "c++", lit "-Wno-pragma-once-outside-header", lit "-std=c++14", lit "-fsyntax-only",
    lit "-DREFLECTIVE_RAPIDJSON_GENERATOR"] ++ clangOptions a ++ a.inputFiles

/-- a code generator with its options -/
inductive Generator where
  | json (cfg : Config)
  | binary (cfg : Config)

/-- `generatorsByName.at(name)` (main.cpp 99-102, 108); `none` for `std::out_of_range` -/
def generatorByName (a : Args) (name : Str) : Option Generator :=
  if name = lit "json" then some (.json a.json)
  else if name = lit "binary" then some (.binary a.binary)
  else none

/-- main.cpp 95-122: adding the generators to the factory; `none` for `return -5` -/
def addGenerators (a : Args) : Option (List Generator) :=
  match a.generators with
  | none => some [.json a.json]
  | some names => loop [] names
where
  loop (added : List Generator) : List Str → Option (List Generator)
    | [] => some added
    | n :: ns =>
      match generatorByName a n with
      | none => none
      | some g => loop (added ++ [g]) ns

/-- what `generator->generate(os)` writes (codefactory.cpp 69-74, 79-85: every generator gets every declaration) -/
def Generator.text (tu : TU) : Generator → Str
  | .json cfg => renderAll (generateJson cfg tu)
  | .binary cfg => renderAll (generateBinary cfg tu)

/-- `CodeFactory::generate` (codefactory.cpp 79-85) -/
def generate (gs : List Generator) (tu : TU) : Str :=
  gs.foldl (fun os g => os ++ g.text tu) []

/-- writing to the output stream (opened in binary mode, so bytes are written as they are) -/
def World.write (w : World) (out : Option Str) (s : Str) : World :=
  match out with
  | none => { w with stdout := w.stdout ++ s }
  | some f => { w with files := fun g => if g = f then some ((w.files f).getD [] ++ s) else w.files g }

/-- Result of the process: status, the world afterwards, and the command line passed to clang if it was invoked. -/
structure Outcome where
  status : Int
  world : World
  clangArgs : Option (List Str)

/-- main.cpp 58-141 -/
def main (clang : List Str → ClangResult) (a : Args) (w : World) : Outcome :=
  -- 59-69
  let opened : Option World :=
    match a.outputFile with
    | none => some w
    | some f => if w.canOpen f then some { w with files := fun g => if g = f then some [] else w.files g } else none
  match opened with
  -- 130-139
  | none => ⟨-4, w, none⟩
  | some w =>
    match addGenerators a with
    -- 109-116
    | none => ⟨-5, w, none⟩
    | some gs =>
      -- 125: codefactory.cpp 90-98; consumer.cpp 32-36: code is generated when the translation unit has been read
      match clang (makeClangArgs a) with
      | .noJob => ⟨-2, w, some (makeClangArgs a)⟩
      | .unit tu diags =>
        let w := w.write a.outputFile (generate gs tu)
        ⟨if Diag.succeeded a.errorResilient diags then 0 else -2, w, some (makeClangArgs a)⟩

end Verif.Cli
