import Verif.Model.Binary

/-!
# Specification: the binary representation of C++ objects

The format as a table (`contents`): what an object of some type consists of, in terms of bytes and further objects. `Layout`
puts the bytes one after another, where the content of objects shared via `std::shared_ptr` is put at their first occurrence.
-/

namespace Verif

/-- the `k` bytes of a number, most significant first -/
def bigEndian (k x : Nat) : Str := (List.range k).map fun i => UInt8.ofNat (x / 256 ^ (k - 1 - i))

/-- the `k` bytes of a two's complement number, most significant first -/
def twosComplement (k : Nat) (i : Int) : Str := bigEndian k (i % 2 ^ (8 * k)).toNat

/-- What something consists of. -/
inductive BinPart where
  | bytes (bs : Str)
  /-- an object, written with the specified version -/
  | value (version : Nat) (t : Ty) (v : Val)
  /-- the object shared via `std::shared_ptr` at the specified address -/
  | shared (t : Ty) (a : Nat)
  /-- can not be represented: an exception is thrown -/
  | throws (e : BExc)
  /-- a scalar which has not been initialised -/
  | uninitialised
  /-- not a valid object of a supported type -/
  | unsupported

/-- An unsigned number of variable length: seven bits of the number per byte, the number of bytes being indicated by the number
of leading zeros of the first byte. At most eight bytes are possible. -/
def varUInt (x : Nat) : BinPart :=
  if x < 2 ^ 56 then .bytes (bigEndian (x.log2 / 7 + 1) (2 ^ (7 * (x.log2 / 7 + 1)) + x)) else .throws .conv

/-- The identifier of a shared object is its address: of variable length if below 2^55, otherwise eight bytes. -/
def idBytes (a : Nat) : Str :=
  if a < 2 ^ 55 then bigEndian (a.log2 / 7 + 1) (2 ^ (7 * (a.log2 / 7 + 1)) + a) else bigEndian 8 a

/-- a data member -/
def memberPart (version : Nat) (st : Store) (f : Field) : BinPart :=
  match st.get? f.key with
  | some v => .value version f.ty v
  | none => .unsupported

/-- Bases, then the version if the class is versioned, then the members of the version. The version defaults to the class'
version. -/
def classParts (ci : ClassInfo) (version : Nat) (st : Store) : List BinPart :=
  let own := match ci.bin.version with
    | none => version
    | some d => if version = 0 then d else version
  (ci.bin.bases.map fun b => BinPart.value version (.cls b) (.obj st)) ++
  (if ci.bin.version.isSome then [varUInt own] else []) ++
  ((ci.bin.writeFields.filter fun gf => gf.1.holds own).map fun gf => memberPart own st gf.2)

/-- the table -/
def contents (E : Env) (version : Nat) : Ty → Val → List BinPart
  | _, .indet => [.uninitialised]
  | .bool, .bool b => [.bytes [if b then 1 else 0]]
  | .int it, .int i => if it = .i8 then [.unsupported] else [.bytes (twosComplement it.bytes i)]
  | .f32, .f32 b => [.bytes (bigEndian 4 b.toNat)]
  | .f64, .f64 b => [.bytes (bigEndian 8 b.toNat)]
  | .str, .str s => [varUInt s.length, .bytes s]
  | .enum u, .int i => [.value 0 (.int u) (.int i)]
  | .pair a b, .tup [x, y] => [.value 0 a x, .value 0 b y]
  | .uptr _, .null => [.bytes [0]]
  | .uptr t, .ptr v => [.bytes [1], .value 0 t v]
  | .opt _, .null => [.bytes [0]]
  | .opt t, .some v => [.bytes [1], .value 0 t v]
  | .sptr _, .null => [.bytes [0]]
  | .sptr t, .ref a => [.shared t a]
  | .vec t, .list vs => varUInt vs.length :: vs.map (.value 0 t)
  | .set hashed _ t, .list vs => varUInt vs.length :: (E.order hashed vs).map (.value 0 t)
  | .map hashed _ k t, .map kvs => varUInt kvs.length :: (E.orderKV hashed kvs).map fun e => .value 0 (.pair k t) (.tup [e.1, e.2])
  | .variant _, .valueless => [.bytes [255], .throws .badVariant]
  | .variant ts, .alt i v =>
    match ts[i]? with
    | none => [.unsupported]
    | some t => .bytes [UInt8.ofNat i] :: (if t = .mono then [] else [.value 0 t v])
  | .cls c, .obj st =>
    match E.cls c with
    | none => [.unsupported]
    | some ci => classParts ci version st
  | .dateTime, .tick i => [.bytes (twosComplement 8 i)]
  | .timeSpan, .tick i => [.bytes (twosComplement 8 i)]
  | _, _ => [.unsupported]

/-- how writing ends -/
inductive Ending where
  /-- everything has been written; the shared objects written so far -/
  | written (seen : List Nat)
  /-- an exception has been thrown -/
  | thrown (e : BExc)
  /-- undefined behaviour -/
  | undefined
deriving DecidableEq, Repr

/-- `Layout E H ps seen bs r`: the bytes of the parts `ps` are `bs` if the objects `seen` have been written before; `H a` is the
object at address `a`. -/
inductive Layout (E : Env) (H : Heap) : List BinPart → List Nat → Str → Ending → Prop
  | done (seen) : Layout E H [] seen [] (.written seen)
  | bytes {bs ps seen out r} : Layout E H ps seen out r → Layout E H (.bytes bs :: ps) seen (bs ++ out) r
  | value {version t v ps seen out r} : Layout E H (contents E version t v ++ ps) seen out r →
      Layout E H (.value version t v :: ps) seen out r
  -- first occurrence: the content follows
  | first {t a v ps seen out r} : a ∉ seen → H a = some v → Layout E H (.value 0 t v :: ps) (a :: seen) out r →
      Layout E H (.shared t a :: ps) seen ([if a < 2 ^ 55 then 1 else 5] ++ idBytes a ++ out) r
  | again {t a ps seen out r} : a ∈ seen → Layout E H ps seen out r →
      Layout E H (.shared t a :: ps) seen ([if a < 2 ^ 55 then 2 else 6] ++ idBytes a ++ out) r
  | throws {e ps seen} : Layout E H (.throws e :: ps) seen [] (.thrown e)
  | uninitialised {ps seen} : Layout E H (.uninitialised :: ps) seen [] .undefined
  | dangling {t a ps seen} : a ∉ seen → H a = none →
      Layout E H (.shared t a :: ps) seen ([if a < 2 ^ 55 then 1 else 5] ++ idBytes a) .undefined

/-- `f` is a member which is written (if the version is within `g`) when writing an object of class `c`, be it a member of `c` or of
a base class. -/
inductive HasWrittenField (E : Env) : ClassId → Field → Prop
  | own {c ci g f} : E.cls c = some ci → (g, f) ∈ ci.bin.writeFields → HasWrittenField E c f
  | base {c ci b f} : E.cls c = some ci → b ∈ ci.bin.bases → HasWrittenField E b f → HasWrittenField E c f

/-- the class itself and its bases -/
inductive HasWrittenClass (E : Env) : ClassId → ClassId → Prop
  | self (c) : HasWrittenClass E c c
  | base {c ci b d} : E.cls c = some ci → b ∈ ci.bin.bases → HasWrittenClass E b d → HasWrittenClass E c d

/-- `Writable E HT strict t v`: `v` is a valid object of the supported type `t`; `HT` are the types of the shared objects. `strict`:
scalars are initialised, variants are not valueless, lengths and versions are below 2^56. -/
inductive Writable (E : Env) (HT : Nat → Option Ty) (strict : Bool) : Ty → Val → Prop
  | noBool : strict = false → Writable E HT strict .bool .indet
  | noInt (it) : strict = false → Writable E HT strict (.int it) .indet
  | noF32 : strict = false → Writable E HT strict .f32 .indet
  | noF64 : strict = false → Writable E HT strict .f64 .indet
  | noEnum (u) : strict = false → Writable E HT strict (.enum u) .indet
  | bool (b) : Writable E HT strict .bool (.bool b)
  | int (it : IntTy) (i) : it ≠ .i8 → Writable E HT strict (.int it) (.int i)
  | f32 (b) : Writable E HT strict .f32 (.f32 b)
  | f64 (b) : Writable E HT strict .f64 (.f64 b)
  | enum (u : IntTy) (i) : u ≠ .i8 → Writable E HT strict (.enum u) (.int i)
  | str (s) : (strict = true → s.length < 2 ^ 56) → Writable E HT strict .str (.str s)
  | dateTime (i) : Writable E HT strict .dateTime (.tick i)
  | timeSpan (i) : Writable E HT strict .timeSpan (.tick i)
  | optNone (t) : Writable E HT strict (.opt t) .null
  | uptrNone (t) : Writable E HT strict (.uptr t) .null
  | sptrNone (t) : Writable E HT strict (.sptr t) .null
  | optSome {t v} : Writable E HT strict t v → Writable E HT strict (.opt t) (.some v)
  | uptrSome {t v} : Writable E HT strict t v → Writable E HT strict (.uptr t) (.ptr v)
  | sptrSome {t a} : HT a = some t → Writable E HT strict (.sptr t) (.ref a)
  | vec {t vs} : (strict = true → vs.length < 2 ^ 56) → (∀ v ∈ vs, Writable E HT strict t v) → Writable E HT strict (.vec t) (.list vs)
  | set {hashed multi t vs} {it : List Val} : (strict = true → vs.length < 2 ^ 56) → it = E.order hashed vs →
      (∀ v ∈ it, Writable E HT strict t v) → Writable E HT strict (.set hashed multi t) (.list vs)
  | map {hashed multi k t kvs} {it : List (Val × Val)} : (strict = true → kvs.length < 2 ^ 56) → it = E.orderKV hashed kvs →
      (∀ e ∈ it, Writable E HT strict k e.1) → (∀ e ∈ it, Writable E HT strict t e.2) →
      Writable E HT strict (.map hashed multi k t) (.map kvs)
  | pair {a b v w} : Writable E HT strict a v → Writable E HT strict b w → Writable E HT strict (.pair a b) (.tup [v, w])
  | valueless (ts) : strict = false → Writable E HT strict (.variant ts) .valueless
  | mono {ts : List Ty} {i : Nat} {v} : ts[i]? = some .mono → Writable E HT strict (.variant ts) (.alt i v)
  | variant {ts : List Ty} {i : Nat} {t v} : ts[i]? = some t → t ≠ .mono → Writable E HT strict t v →
      Writable E HT strict (.variant ts) (.alt i v)
  | cls {c} {st : Store} (w : Field → Val) :
      (∀ d, HasWrittenClass E c d → ∃ ci, E.cls d = some ci ∧ (strict = true → ∀ m, ci.bin.version = some m → m < 2 ^ 56)) →
      (∀ f, HasWrittenField E c f → st.get? f.key = some (w f)) →
      (∀ f, HasWrittenField E c f → Writable E HT strict f.ty (w f)) → Writable E HT strict (.cls c) (.obj st)

end Verif
