import Verif.Props.JsonErrors
import Verif.Props.JsonScalars
import Verif.Props.JsonGraph
import Verif.Props.JsonNames
import Verif.Props.JsonObjects
import Verif.Props.JsonMaps
import Verif.Props.JsonSets
import Verif.Props.JsonApi
import Verif.Props.JsonConform
import Verif.Props.JsonRoundTrip
import Verif.Props.BinaryVarint
import Verif.Props.BinaryFraming
import Verif.Props.BinaryRoundTrip
import Verif.Props.BinaryPointers
import Verif.Props.BinarySafety
import Verif.Props.BinaryOnce
import Verif.Props.BinaryMisc
import Verif.Props.BinaryContainers
import Verif.Props.BinaryVersions
import Verif.Props.BinaryVersionLimits
import Verif.Props.Generator
import Verif.Props.GeneratorExamples
import Verif.Props.GeneratorLink
import Verif.Props.GeneratorLinkExists
import Verif.Model.Diag
import Verif.Model.Cli
import Verif.Props.Diagnostics
import Verif.Props.CommandLine
import Verif.Model.Text
import Verif.Spec.JsonText
import Verif.Lemmas.Text
import Verif.Lemmas.TextSound
import Verif.Lemmas.Own
import Verif.Props.JsonText
import Verif.Spec.JsonHazards
import Verif.Props.JsonHazards
import Verif.Spec.JsonObjectTypes
import Verif.Props.JsonSafety
import Verif.Props.JsonTextSafety
import Verif.Spec.JsonForm
import Verif.Props.JsonForm
import Verif.Spec.JsonFaults
import Verif.Lemmas.Faults
import Verif.Props.JsonFaults
import Verif.Lemmas.Lit
import Verif.Spec.GenCpp
import Verif.Lemmas.GenCpp
import Verif.Lemmas.GenCppItems
import Verif.Lemmas.GenCppCode
import Verif.Lemmas.GenCppActs
import Verif.Lemmas.GenCppFns
import Verif.Lemmas.GenCppDefs
import Verif.Props.GeneratorText
import Verif.Spec.BinForm
import Verif.Props.BinaryForm
import Verif.Spec.BinRead
import Verif.Props.BinaryRead
import Verif.Model.Dispatch
import Verif.Spec.Dispatch
import Verif.Lemmas.Dispatch
import Verif.Props.Dispatch
import Verif.Model.Hana
import Verif.Spec.Hana
import Verif.Lemmas.HanaRel
import Verif.Props.Hana
import Verif.Props.JsonTruncated
import Verif.Spec.JsonReload
import Verif.Props.JsonReload
import Verif.Spec.Floats
import Verif.Lemmas.Fp
import Verif.Props.JsonFloats
import Verif.Spec.BinReload
import Verif.Lemmas.BinReload
import Verif.Props.BinaryReload
import Verif.Props.BinaryReloadLimits
import Verif.Model.Stream
import Verif.Lemmas.Stream
import Verif.Props.Streams
import Verif.Spec.BinCost
import Verif.Lemmas.BinCost
import Verif.Props.BinaryCost
import Verif.Spec.Evolution
import Verif.Lemmas.Evolution
import Verif.Props.Evolution
import Verif.Spec.JsonEvolution
import Verif.Spec.JsonCost
import Verif.Lemmas.JsonEvolution
import Verif.Lemmas.JsonCost
import Verif.Props.JsonEvolution
import Verif.Props.JsonCost
import Verif.Model.PullX
import Verif.Lemmas.PullX
import Verif.Spec.JsonExceptions
import Verif.Lemmas.PullLeft
import Verif.Lemmas.LeftTyped
import Verif.Lemmas.JsonRetry
import Verif.Props.JsonExceptions
import Verif.Model.ReadX
import Verif.Lemmas.ReadX
import Verif.Lemmas.ReadXSound
import Verif.Lemmas.ReadXHeap
import Verif.Lemmas.ValEq
import Verif.Spec.BinExceptions
import Verif.Props.BinaryExceptions
import Verif.Spec.BinRetry
import Verif.Lemmas.BinRetry
import Verif.Props.BinaryRetry
import Verif.Model.CMake
import Verif.Spec.CMake
import Verif.Lemmas.CMake
import Verif.Props.CMake
import Verif.Props.RepoTests
import Verif.Props.RepoTestsJson
import Verif.Props.RepoTestsGen
import Verif.Spec.OutputSize
import Verif.Lemmas.BinSize
import Verif.Lemmas.JsonSize
import Verif.Lemmas.TextSize
import Verif.Props.OutputSize
import Verif.Spec.Sessions
import Verif.Props.Sessions
import Verif.Spec.Ownership
import Verif.Props.Ownership
import Verif.Spec.GenLocality
import Verif.Props.GenLocality
import Verif.Spec.Formats
import Verif.Lemmas.PushRename
import Verif.Props.Formats
import Verif.Props.ErrorHistory
import Verif.Props.RapidJsonLevel
import Verif.Props.JsonSameNames
import Verif.Props.IterationOrder
import Verif.Props.Reproducible
import Verif.Props.WriteExceptions
import Verif.Props.DeserializerReuse
import Verif.Props.TypeChange
import Verif.Props.BinTypeChange
import Verif.Props.OutputAsKey
import Verif.Spec.SameData
import Verif.Lemmas.ReadXMono
import Verif.Props.SameData
import Verif.Props.CrashRecovery
import Verif.Props.JsonLines
import Verif.Props.Layers
