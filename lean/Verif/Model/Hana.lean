import Verif.Model.Api
import Verif.Model.Binary

/-!
# Reflection via Boost.Hana (lib/json/reflector-boosthana.h, lib/binary/reflector-boosthana.h)

Instead of generating code one can adapt a class via `BOOST_HANA_DEFINE_STRUCT`/`BOOST_HANA_ADAPT_STRUCT`. The generic
functions visit the adapted members (`boost::hana::keys`) in the order in which they are listed. Explicit specialisations
(generated code) take precedence over these templates, so both ways can be used within one program.
-/

namespace Verif

/-- The generic `push` and `pull` (lib/json/reflector-boosthana.h 29-46) for the adapted members `keys`: base classes are not
considered, `errors->currentRecord` is not set. -/
def hanaJson (keys : List Field) : JsonCode where
  bases := []
  pushFields := keys
  pullFields := keys
  pullable := true
  setsRecord := false

/-- The generic `writeCustomType` and `readCustomType` (lib/binary/reflector-boosthana.h 27-40): base classes are not
considered, no version is written or read, all members are read and written independently of the version. (Simplification: the
result of `readCustomType` is 0 but the version passed in the model; `restoreFromBinary` passes 0.) -/
def hanaBinary (keys : List Field) : BinCode where
  bases := []
  version := none
  writeFields := keys.map fun f => (⟨0, 0⟩, f)
  readFields := keys.map fun f => (⟨0, 0⟩, f)
  readable := true

/-- A program in which the classes `c` with `keys c = some ks` are adapted, listing the members `ks`, and not (de)serialised
via generated code. -/
def viaHana (E : Env) (keys : ClassId → Option (List Field)) : Env :=
  { E with
    cls := fun c => (E.cls c).map fun ci =>
      match keys c with
      | some ks => { ci with json := hanaJson ks, bin := hanaBinary ks }
      | none => ci }

end Verif
