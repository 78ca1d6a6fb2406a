import Verif.Spec.BinRepr
import Verif.Model.Json

/-!
# Specification vocabulary: how much data an object graph is
-/

namespace Verif

mutual
/-- Size of a value when each (sub)object counts `K` and strings additionally count their length. A shared object additionally
counts `B` (of its address) wherever a pointer refers to it. -/
def Val.footprint (K : Nat) (B : Nat → Nat) : Val → Nat
  | .str s => K + s.length
  | .cstr (Option.some s) => K + s.length
  | .some v => K + v.footprint K B
  | .ptr v => K + v.footprint K B
  | .ref a => K + B a
  | .list vs => K + Val.footprintL K B vs
  | .map kvs => K + Val.footprintKV K B kvs
  | .tup vs => K + Val.footprintL K B vs
  | .alt _ v => K + v.footprint K B
  | .obj fs => K + Val.footprintF K B fs
  | _ => K
def Val.footprintL (K : Nat) (B : Nat → Nat) : List Val → Nat
  | [] => 0
  | v :: vs => v.footprint K B + Val.footprintL K B vs
def Val.footprintKV (K : Nat) (B : Nat → Nat) : List (Val × Val) → Nat
  | [] => 0
  | (k, v) :: kvs => k.footprint K B + v.footprint K B + Val.footprintKV K B kvs
def Val.footprintF (K : Nat) (B : Nat → Nat) : List (FieldKey × Val) → Nat
  | [] => 0
  | (_, v) :: fs => v.footprint K B + Val.footprintF K B fs
end

/-- the objects with the given addresses, each counted once; references count as themselves only -/
def heapFootprint (K : Nat) (H : Heap) : List Nat → Nat
  | [] => 0
  | a :: as => (match H a with | some v => v.footprint K (fun _ => 0) | none => 0) + heapFootprint K H as

/-- `WrittenMembers E cs ks n`: when writing (the parts of an object belonging to) the classes `cs`, the members `ks` are written
unless excluded by version conditions, and at most `n` version numbers. -/
inductive WrittenMembers (E : Env) : List ClassId → List FieldKey → Nat → Prop
  | nil : WrittenMembers E [] [] 0
  | cons {c ci cs ks ks' n n'} : E.cls c = some ci → WrittenMembers E ci.bin.bases ks n → WrittenMembers E cs ks' n' →
      WrittenMembers E (c :: cs) (ks ++ ci.bin.writeFields.map (fun gf => gf.2.key) ++ ks')
        (n + (if ci.bin.version.isSome then 1 else 0) + n')

/-- No class writes a member twice (e.g. because a base class is listed besides a class derived from it) and `K` is enough for the
bytes needed for an object besides its parts and the content of strings: 9 for the mode and identifier of a shared pointer, 8 for
numbers and lengths and for each version. -/
def WritesOnce (E : Env) (K : Nat) : Prop :=
  9 ≤ K ∧ ∀ c ci, E.cls c = some ci → ∃ ks n, WrittenMembers E [c] ks n ∧ ks.Nodup ∧ 8 * n ≤ K

/-- `PushedMembers E cs fs`: the members `fs` are added to the JSON object for (the parts of an object belonging to) the classes
`cs`. -/
inductive PushedMembers (E : Env) : List ClassId → List Field → Prop
  | nil : PushedMembers E [] []
  | cons {c ci cs fs fs'} : E.cls c = some ci → PushedMembers E ci.json.bases fs → PushedMembers E cs fs' →
      PushedMembers E (c :: cs) (fs ++ ci.json.pushFields ++ fs')

/-- size of the member names -/
def namesSize : List Field → Nat
  | [] => 0
  | f :: fs => f.name.length + 1 + namesSize fs

/-- No class pushes a member twice and `K` is enough for what an object needs in a JSON document besides its parts and the content
of strings: the names of its members, "index" and "data" of variants, dates. -/
def PushesOnce (E : Env) (K : Nat) : Prop :=
  (∀ c ci, E.cls c = some ci → ∃ fs, PushedMembers E [c] fs ∧ (fs.map Field.key).Nodup ∧ namesSize fs + 1 ≤ K) ∧
  14 ≤ K ∧ (∀ i, (E.dtPrint i).length + 1 ≤ K) ∧ ∀ i, (E.tsPrint i).length + 1 ≤ K

mutual
/-- All integers in the document are 64-bit integers. -/
def Json.IntsFit : Json → Prop
  | .num (.int i) => -2 ^ 63 ≤ i ∧ i < 2 ^ 64
  | .arr js => Json.IntsFitL js
  | .obj ms => Json.IntsFitM ms
  | _ => True
def Json.IntsFitL : List Json → Prop
  | [] => True
  | j :: js => j.IntsFit ∧ Json.IntsFitL js
def Json.IntsFitM : List (Key × Json) → Prop
  | [] => True
  | (_, j) :: ms => j.IntsFit ∧ Json.IntsFitM ms
end

end Verif
