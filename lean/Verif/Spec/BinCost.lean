import Verif.Model.Binary

/-!
# Specification vocabulary: resources needed for reading binary data
-/

namespace Verif

/-- types of the objects which are read in order to read an object of type `t` -/
def binParts (E : Env) : Ty → List Ty
  | .enum u => [.int u]
  | .opt t | .uptr t | .sptr t | .vec t | .set _ _ t => [t]
  | .map _ _ k t => [.pair k t]
  | .pair a b => [a, b]
  | .variant ts => ts
  | .cls c =>
    match E.cls c with
    | some ci => ci.bin.bases.map Ty.cls ++ ci.bin.readFields.map (fun gf => gf.2.ty)
    | none => []
  | _ => []

/-- `S` contains with each type the types of the parts. -/
def ClosedTypes (E : Env) (S : Ty → Prop) : Prop := ∀ t, S t → ∀ t' ∈ binParts E t, S t'

/-- how deeply classes, pairs and enumerations are nested by value (i.e. not via pointers, containers etc.) in `t`, given the
nesting depth of classes -/
def Ty.nesting (H : ClassId → Nat) : Ty → Nat
  | .enum _ => 1
  | .pair a b => max (a.nesting H) (b.nesting H) + 1
  | .cls c => H c
  | _ => 0

/-- `H` is the nesting depth of classes (or a bound of it). -/
def NestingDepth (E : Env) (H : ClassId → Nat) : Prop :=
  ∀ c ci, E.cls c = some ci → (∀ b ∈ ci.bin.bases, H b < H c) ∧ ∀ gf ∈ ci.bin.readFields, gf.2.ty.nesting H < H c

/-- Objects of the type take at least one byte. -/
inductive NeedsInput (E : Env) : Ty → Prop
  | bool : NeedsInput E .bool
  | int (it) : NeedsInput E (.int it)
  | f32 : NeedsInput E .f32
  | f64 : NeedsInput E .f64
  | enum (u) : NeedsInput E (.enum u)
  | str : NeedsInput E .str
  | dateTime : NeedsInput E .dateTime
  | timeSpan : NeedsInput E .timeSpan
  | opt (t) : NeedsInput E (.opt t)
  | uptr (t) : NeedsInput E (.uptr t)
  | sptr (t) : NeedsInput E (.sptr t)
  | vec (t) : NeedsInput E (.vec t)
  | set (h m t) : NeedsInput E (.set h m t)
  | map (h m k t) : NeedsInput E (.map h m k t)
  | variant (ts) : NeedsInput E (.variant ts)
  | fst {a} (b) : NeedsInput E a → NeedsInput E (.pair a b)
  | snd (a) {b} : NeedsInput E b → NeedsInput E (.pair a b)
  | versioned {c ci m} : E.cls c = some ci → ci.bin.version = some m → NeedsInput E (.cls c)
  | base {c ci b} : E.cls c = some ci → b ∈ ci.bin.bases → NeedsInput E (.cls b) → NeedsInput E (.cls c)
  | member {c ci gf} : E.cls c = some ci → gf ∈ ci.bin.readFields → (∀ version, gf.1.holds version = true) →
      NeedsInput E gf.2.ty → NeedsInput E (.cls c)

/-- elements of containers of the type -/
def Ty.element : Ty → List Ty
  | .vec t | .set _ _ t => [t]
  | .map _ _ k t => [.pair k t]
  | _ => []

mutual
/-- Number of bytes of strings, elements of containers and tuples, and objects owned by optionals and pointers within a value. -/
def Val.amount : Val → Nat
  | .str s => s.length
  | .some v => v.amount + 1
  | .ptr v => v.amount + 1
  | .list vs => Val.amountL vs
  | .map kvs => Val.amountKV kvs
  | .tup vs => Val.amountL vs
  | .alt _ v => v.amount
  | .obj fs => Val.amountF fs
  | _ => 0
/-- each element counts as one, plus its content -/
def Val.amountL : List Val → Nat
  | [] => 0
  | v :: vs => v.amount + 1 + Val.amountL vs
def Val.amountKV : List (Val × Val) → Nat
  | [] => 0
  | (k, v) :: kvs => k.amount + v.amount + 1 + Val.amountKV kvs
def Val.amountF : List (FieldKey × Val) → Nat
  | [] => 0
  | (_, v) :: fs => v.amount + Val.amountF fs
end

/-- `C` bounds the size of new objects of all types in `S` (including the object itself). -/
def NewObjectsUpTo (E : Env) (S : Ty → Prop) (C : Nat) : Prop :=
  ∀ t, S t → (E.valInit t).amount + 1 ≤ C ∧ (E.defInit t).amount + 1 ≤ C

end Verif
