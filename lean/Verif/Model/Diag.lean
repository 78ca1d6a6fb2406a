import Verif.Model.Basic

/-!
# Diagnostics of the code generator

`DiagConsumer` (generator/consumer.h 39-75, generator/consumer.cpp 43-88), the diagnostic client installed by
`FrontendAction::CreateASTConsumer` (generator/frontendaction.cpp 20-32).

Input: the diagnostics clang passes to the client, in that order. Not modelled: which diagnostics clang produces (including
that it passes no diagnostics on after a fatal one), and the settings other than the error flag which
`DiagnosticsEngine::Reset` clears.
-/

namespace Verif.Diag

/-- `clang::DiagnosticsEngine::Level`, in ascending order -/
inductive Level where
  | ignored | note | remark | warning | error | fatal
deriving DecidableEq, Repr, Inhabited

/-- position within the enumeration (the comparison `>=` in consumer.cpp 68 is done on these numbers) -/
def Level.rank : Level → Nat
  | .ignored => 0 | .note => 1 | .remark => 2 | .warning => 3 | .error => 4 | .fatal => 5

/-- A diagnostic: its level and the category of its id (consumer.cpp 65-66). -/
structure Diagnostic where
  level : Level
  category : Nat
deriving DecidableEq, Repr, Inhabited

/-- State of the diagnostic consumer and of what it affects: `m_realErrorCount` (consumer.h 53); `NumErrors`, `NumWarnings`
of its base class `clang::DiagnosticConsumer` (all `unsigned int`); what was passed to `m_proxy`; the engine's flag
`ErrorOccurred`. -/
structure State where
  realErrorCount : BitVec 32
  numErrors : BitVec 32
  numWarnings : BitVec 32
  forwarded : List Diagnostic
  errorOccurred : Bool
deriving DecidableEq, Repr, Inhabited

/-- constructor (consumer.h 57-62) of a fresh consumer -/
def State.init : State := ⟨0, 0, 0, [], false⟩

/-- Passing a diagnostic to the client: the engine sets its flag, then calls `DiagConsumer::HandleDiagnostic`
(consumer.cpp 62-88). -/
def handle (resilient : Bool) (s : State) (d : Diagnostic) : State :=
  -- the engine, before calling the client
  let s := if Level.error.rank ≤ d.level.rank then { s with errorOccurred := true } else s
  -- 64-78
  let (s, level, shouldReset) :=
    if resilient && decide (Level.error.rank ≤ d.level.rank) then
      if d.category = 2 then (s, Level.warning, s.realErrorCount == 0)
      else ({ s with realErrorCount := s.realErrorCount + 1 }, d.level, false)
    else (s, d.level, false)
  -- 80: clang::DiagnosticConsumer::HandleDiagnostic
  let s :=
    if Level.error.rank ≤ level.rank then { s with numErrors := s.numErrors + 1 }
    else if level = .warning then { s with numWarnings := s.numWarnings + 1 }
    else s
  -- 81
  let s := { s with forwarded := s.forwarded ++ [{ d with level := level }] }
  -- 83-86
  if shouldReset then { s with errorOccurred := false } else s

/-- all diagnostics of a run -/
def handleAll (resilient : Bool) (ds : List Diagnostic) : State := ds.foldl (handle resilient) .init

/-- Whether the run is reported as success: clang's `CompilerInstance::ExecuteAction` returns whether the client counted no
errors; this is what `invocation.run()` (generator/codefactory.cpp 97) returns. -/
def succeeded (resilient : Bool) (ds : List Diagnostic) : Bool := (handleAll resilient ds).numErrors == 0

end Verif.Diag
