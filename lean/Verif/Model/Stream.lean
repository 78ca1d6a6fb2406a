import Verif.Model.Binary

/-!
# Reading from and writing to streams which fail

`Model/Bytes.lean` and `Model/Binary.lean` assume that exceptions are enabled for input streams (`stream.exceptions(failbit |
badbit)`) and that output streams accept everything. By default C++ streams do *not* throw: a failing `read`/`write` sets a flag
(`stream.fail()`), extracts what is left resp. writes a part only, and all further calls do nothing. The (de)serializer does not
look at the flag. Here the same `read` and `write` overloads are defined on top of arbitrary implementations of the primitive
operations on the stream (`Reader`, `Writer`); `Lemmas/Stream.lean` shows that the definitions in `Model/Binary.lean` are the
instance for throwing streams. The instances for the other streams follow.
-/

namespace Verif

/-! ## reading -/

/-- What `BinaryDeserializer` needs: reading bytes (`BinaryReader::readByte`, `readUInt64BE`, `readString` etc.), variable-length
integers (`BinaryReader::readVariableLengthUIntBE`) and the table of pointers (lib/binary/reflector.h 93). -/
structure Reader (σ : Type) where
  bytes : Nat → M BExc σ Str
  varint : M BExc σ Nat
  alloc : Nat → Ty → Val → M BExc σ Nat
  store : Nat → Val → M BExc σ Unit
  find : Nat → Ty → M BExc σ Nat

namespace Reader

variable {σ : Type} (R : Reader σ)

/-- `readByte` -/
def byte : M BExc σ Nat := do
  let b ← R.bytes 1
  pure (ofBE b)

/-- `readBool` -/
def bool : M BExc σ Bool := do
  let b ← R.byte
  pure (b ≠ 0)

/-- `readUInt16BE` etc. -/
def int (t : IntTy) : M BExc σ Int := do
  let bs ← R.bytes t.bytes
  pure (t.wrap (ofBE bs))

section
variable (E : Env) (self : Nat → Ty → Val → M BExc σ Val)

/-- elements of a sequence (lib/binary/reflector.h 178-181) -/
def elems (t : Ty) : List Val → M BExc σ (List Val)
  | [] => pure []
  | p :: ps => do
    let v ← self 0 t p
    let vs ← elems t ps
    pure (v :: vs)

/-- loop of sets (lib/binary/reflector.h 200-204) -/
def setItems (multi : Bool) (t : Ty) : Nat → List Val → M BExc σ (List Val)
  | 0, acc => pure acc
  | k + 1, acc => do
    let v ← self 0 t (E.defInit t)
    if v.hasIndet then M.ub
    else setItems multi t k (if multi then insertMulti (E.lt t) v acc else (insertUniq (E.lt t) v acc).1)

/-- loop of maps (lib/binary/reflector.h 187-191) -/
def mapItems (multi : Bool) (k t : Ty) : Nat → List (Val × Val) → M BExc σ (List (Val × Val))
  | 0, acc => pure acc
  | n + 1, acc => do
    let v ← self 0 (.pair k t) (E.valInit (.pair k t))
    match v with
    | .tup [a, b] =>
      if a.hasIndet || b.hasIndet then M.ub
      else mapItems multi k t n (if multi then mapInsertMulti (E.lt k) a b acc else mapEmplace (E.lt k) a b acc)
    | _ => M.stuck

/-- base classes (binaryserializationcodegenerator.cpp 309-311) -/
def bases (version : Nat) : List ClassId → Val → M BExc σ Val
  | [], v => pure v
  | b :: bs, v => do
    let v ← self version (.cls b) v
    bases version bs v

/-- members (binaryserializationcodegenerator.cpp 323-348) -/
def fields (version : Nat) : List (Guard × Field) → Store → M BExc σ Store
  | [], st => pure st
  | (g, f) :: fs, st =>
    if g.holds version then
      match st.get? f.key with
      | none => M.stuck
      | some p => do
        let v ← self version f.ty p
        fields version fs (st.set f.key v)
    else fields version fs st

/-- version (binaryserializationcodegenerator.cpp 312-321, lib/versioning.h 54-59) -/
def version (ci : ClassInfo) (version : Nat) : M BExc σ Nat :=
  match ci.bin.version with
  | none => pure version
  | some m => do
    let v ← R.varint
    if v ≤ m then pure v else M.throw (.version v m ci.qname)

/-- `readCustomType` (binaryserializationcodegenerator.cpp 304-354) -/
def cls (ci : ClassInfo) (version : Nat) (p : Val) : M BExc σ (Val × Nat) :=
  if ci.bin.readable = false then M.stuck
  else do
    let v ← bases self version ci.bin.bases p
    match v with
    | .obj st => do
      let version ← R.version ci version
      let st ← fields self version ci.bin.readFields st
      pure (.obj st, version)
    | _ => M.stuck

end

/-- All `read` overloads (lib/binary/reflector.h 126-250), see `readStep`. -/
def step (E : Env) (self : Nat → Ty → Val → M BExc σ Val) (version : Nat) (t : Ty) (p : Val) : M BExc σ Val :=
  match t with
  | .bool => do
    let b ← R.bool
    pure (.bool b)
  | .int it =>
    if it = .i8 then M.stuck
    else do
      let i ← R.int it
      pure (.int i)
  | .f32 => do
    let bs ← R.bytes 4
    pure (.f32 (BitVec.ofNat 32 (ofBE bs)))
  | .f64 => do
    let bs ← R.bytes 8
    pure (.f64 (BitVec.ofNat 64 (ofBE bs)))
  | .str => do
    let n ← R.varint
    if n > E.maxLen then M.throw .badAlloc
    else do
      let bs ← R.bytes n
      pure (.str bs)
  | .enum u => self 0 (.int u) .indet
  | .pair a b =>
    match p with
    | .tup [x, y] => do
      let x ← self 0 a x
      let y ← self 0 b y
      pure (.tup [x, y])
    | _ => M.stuck
  | .uptr t' => do
    let b ← R.bool
    if b then do
      let v ← self 0 t' (E.valInit t')
      pure (.ptr v)
    else pure .null
  | .opt t' => do
    let b ← R.bool
    if b then do
      let v ← self 0 t' (E.valInit t')
      pure (.some v)
    else pure .null
  | .sptr t' => do
    let mode ← R.byte
    if mode = 0 then pure .null
    else do
      let id ← (if mode &&& 4 ≠ 0 then (do let bs ← R.bytes 8; pure (ofBE bs)) else R.varint)
      if mode &&& 3 = 1 then do
        let addr ← R.alloc id t' (E.valInit t')
        let v ← self 0 t' (E.valInit t')
        R.store addr v
        pure (.ref addr)
      else do
        let addr ← R.find id t'
        pure (.ref addr)
  | .vec t' =>
    match p with
    | .list vs => do
      let n ← R.varint
      if n > E.maxLen then M.throw .badAlloc
      else do
        let vs ← elems self t' (resize vs n (E.valInit t'))
        pure (.list vs)
    | _ => M.stuck
  | .set _ multi t' =>
    match p with
    | .list vs => do
      let n ← R.varint
      let vs ← setItems E self multi t' n vs
      pure (.list vs)
    | _ => M.stuck
  | .map _ multi k t' =>
    match p with
    | .map kvs => do
      let n ← R.varint
      let kvs ← mapItems E self multi k t' n kvs
      pure (.map kvs)
    | _ => M.stuck
  | .variant ts => do
    let i ← R.byte
    match ts[i]? with
    | none => M.throw .conv
    | some .mono => pure (.alt i .mono)
    | some t' => do
      let v ← self 0 t' (E.valInit t')
      pure (.alt i v)
  | .cls c =>
    match E.cls c with
    | none => M.stuck
    | some ci => do
      let r ← R.cls self ci version p
      pure r.1
  | .dateTime => do
    let i ← R.int .u64
    pure (.tick i)
  | .timeSpan => do
    let i ← R.int .i64
    pure (.tick i)
  | _ => M.stuck

/-- `BinaryDeserializer::read` with recursion budget -/
def read (E : Env) : Nat → Nat → Ty → Val → M BExc σ Val
  | 0 => fun _ _ _ => M.outOfFuel
  | n + 1 => R.step E (read E n)

/-- `restoreFromBinary` (lib/binary/serializable.h 41-44) -/
def restore (E : Env) (n : Nat) (c : ClassId) (p : Val) : M BExc σ (Val × Nat) :=
  match E.cls c with
  | none => M.stuck
  | some ci => R.cls (R.read E n) ci 0 p

end Reader

/-- streams with exceptions enabled -/
def throwingReader : Reader RSt := ⟨takeBytes, readVarint, allocShared, storeShared, lookupShared⟩

/-- State of a `BinaryDeserializer` reading from a stream which does not throw: as `RSt`, plus the number of `read` calls which
failed (`stream.fail()` iff it is not zero). -/
structure FSt where
  st : RSt
  failed : Nat

/-- What the variables filled by failing reads contain: bytes of the previous content of `BinaryReader::m_buffer` or zeros. Which
ones depends on the number of bytes which were still available and on what has been read before; to be on the safe side, an
arbitrary function of the number of the failing call (and the number of bytes requested). -/
structure Leftover where
  bytes : Nat → Nat → Str
  varint : Nat → Nat

/-- exactly `k` bytes -/
def fit (k : Nat) (bs : Str) : Str := bs.take k ++ List.replicate (k - (bs.take k).length) 0

/-- `m_stream->read(buffer, k)`: if there are not enough bytes (or a call failed before) the rest of the input is consumed. -/
def takeDefault (L : Leftover) (k : Nat) : M BExc FSt Str := fun s =>
  if s.failed = 0 ∧ k ≤ s.st.inp.length then .ok (s.st.inp.take k) ⟨{ s.st with inp := s.st.inp.drop k }, 0⟩
  else .ok (fit k (L.bytes s.failed k)) ⟨{ s.st with inp := [] }, s.failed + 1⟩

/-- `readVariableLengthUIntBE` -/
def varintDefault (L : Leftover) : M BExc FSt Nat := fun s =>
  match s.failed, s.st.inp with
  | 0, b :: bs =>
    if prefixLen b.toNat > 8 then .exc .conv s
    else if prefixLen b.toNat ≤ (b :: bs).length then
      .ok (ofBE ((b :: bs).take (prefixLen b.toNat)) - 2 ^ (7 * prefixLen b.toNat))
        ⟨{ s.st with inp := (b :: bs).drop (prefixLen b.toNat) }, 0⟩
    else .ok (L.varint s.failed) ⟨{ s.st with inp := [] }, s.failed + 1⟩
  | _, _ => .ok (L.varint s.failed) ⟨{ s.st with inp := [] }, s.failed + 1⟩

/-- an operation which does not use the stream -/
def onTable {α : Type} (m : RM α) : M BExc FSt α := fun s =>
  match m s.st with
  | .ok a st => .ok a ⟨st, s.failed⟩
  | .exc e st => .exc e ⟨st, s.failed⟩
  | .ub => .ub
  | .stuck => .stuck
  | .fuel => .fuel

/-- streams as they are by default -/
def defaultReader (L : Leftover) : Reader FSt :=
  ⟨takeDefault L, varintDefault L, fun id t v => onTable (allocShared id t v), fun a v => onTable (storeShared a v),
    fun id t => onTable (lookupShared id t)⟩

/-- `restoreFromBinary(inputStream)` (lib/binary/serializable.h 41-44) with a stream as it is by default: content of the object and
returned version -/
def restoreDefault (E : Env) (L : Leftover) (n : Nat) (c : ClassId) (p : Val) (inp : Str) : Res BExc FSt (Val × Nat) :=
  (defaultReader L).restore E n c p ⟨RSt.init inp, 0⟩

/-! ## writing -/

/-- What `BinarySerializer` needs: writing bytes and the table of pointers (lib/binary/reflector.h 118). -/
structure Writer (σ : Type) where
  emit : Str → M BExc σ Unit
  written : Nat → M BExc σ Bool
  mark : Nat → M BExc σ Unit

namespace Writer

variable {σ : Type} (W : Writer σ)

/-- `writeVariableLengthUIntBE` -/
def varint (x : Nat) : M BExc σ Unit :=
  match varintLen x with
  | some L => W.emit (beBytes L (x + 2 ^ (7 * L)))
  | none => M.throw .conv

/-- identifiers (lib/binary/reflector.h 286-290) -/
def id (id : Nat) : M BExc σ Unit := if bigId id then W.emit (beBytes 8 id) else W.varint id

section
variable (self : Nat → Ty → Val → M BExc σ Unit)

/-- elements (lib/binary/reflector.h 297-304) -/
def elems (t : Ty) : List Val → M BExc σ Unit
  | [] => pure ()
  | v :: vs => do
    self 0 t v
    elems t vs

/-- entries of maps (lib/binary/reflector.h 257-261, 297-304) -/
def entries (k t : Ty) : List (Val × Val) → M BExc σ Unit
  | [] => pure ()
  | (a, b) :: kvs => do
    self 0 (.pair k t) (.tup [a, b])
    entries k t kvs

/-- base classes (binaryserializationcodegenerator.cpp 248-251) -/
def bases (version : Nat) : List ClassId → Val → M BExc σ Unit
  | [], _ => pure ()
  | b :: bs, v => do
    self version (.cls b) v
    bases version bs v

/-- members (binaryserializationcodegenerator.cpp 263-292) -/
def fields (version : Nat) : List (Guard × Field) → Store → M BExc σ Unit
  | [], _ => pure ()
  | (g, f) :: fs, st =>
    if g.holds version then
      match st.get? f.key with
      | none => M.stuck
      | some v => do
        self version f.ty v
        fields version fs st
    else fields version fs st

/-- version (binaryserializationcodegenerator.cpp 252-260) -/
def version (cur : Option Nat) (version : Nat) : M BExc σ Unit :=
  match cur with
  | none => pure ()
  | some _ => W.varint (effVersion cur version)

/-- `writeCustomType` (binaryserializationcodegenerator.cpp 243-297) -/
def cls (ci : ClassInfo) (version : Nat) (st : Store) : M BExc σ Unit := do
  bases self version ci.bin.bases (.obj st)
  W.version ci.bin.version version
  fields self (effVersion ci.bin.version version) ci.bin.writeFields st

end

/-- All `write` overloads (lib/binary/reflector.h 257-336), see `writeStep`. -/
def step (E : Env) (H : Heap) (self : Nat → Ty → Val → M BExc σ Unit) (version : Nat) (t : Ty) (v : Val) : M BExc σ Unit :=
  match t, v with
  | _, .indet => M.ub
  | .bool, .bool b => W.emit [if b then 1 else 0]
  | .int it, .int i => if it = .i8 then M.stuck else W.emit (intBytes it.bytes i)
  | .f32, .f32 b => W.emit (beBytes 4 b.toNat)
  | .f64, .f64 b => W.emit (beBytes 8 b.toNat)
  | .str, .str s => do
    W.varint s.length
    W.emit s
  | .enum u, .int i => self 0 (.int u) (.int i)
  | .pair a b, .tup [x, y] => do
    self 0 a x
    self 0 b y
  | .uptr _, .null => W.emit [0]
  | .uptr t', .ptr v => do
    W.emit [1]
    self 0 t' v
  | .opt _, .null => W.emit [0]
  | .opt t', .some v => do
    W.emit [1]
    self 0 t' v
  | .sptr _, .null => W.emit [0]
  | .sptr t', .ref a => do
    let written ← W.written a
    W.emit [UInt8.ofNat (sptrMode written (bigId a))]
    W.id a
    if written then pure ()
    else do
      W.mark a
      match H a with
      | some v => self 0 t' v
      | none => M.ub
  | .vec t', .list vs => do
    W.varint vs.length
    elems self t' vs
  | .set hashed _ t', .list vs => do
    W.varint vs.length
    elems self t' (E.order hashed vs)
  | .map hashed _ k t', .map kvs => do
    W.varint kvs.length
    entries self k t' (E.orderKV hashed kvs)
  | .variant _, .valueless => do
    W.emit [255]
    M.throw .badVariant
  | .variant ts, .alt i v =>
    match ts[i]? with
    | none => M.stuck
    | some .mono => W.emit [UInt8.ofNat i]
    | some t' => do
      W.emit [UInt8.ofNat i]
      self 0 t' v
  | .cls c, .obj st =>
    match E.cls c with
    | none => M.stuck
    | some ci => W.cls self ci version st
  | .dateTime, .tick i => W.emit (intBytes 8 i)
  | .timeSpan, .tick i => W.emit (intBytes 8 i)
  | _, _ => M.stuck

/-- `BinarySerializer::write` with recursion budget -/
def write (E : Env) (H : Heap) : Nat → Nat → Ty → Val → M BExc σ Unit
  | 0 => fun _ _ _ => M.outOfFuel
  | n + 1 => W.step E H (write E H n)

end Writer

/-- streams accepting everything -/
def idealWriter : Writer WSt := ⟨emit, alreadyWritten, markWritten⟩

/-- State of a `BinarySerializer` writing to a stream which might fail: the bytes which made it, the table of pointers and
`stream.fail()`. -/
structure FWSt where
  out : Str
  seen : List Nat
  failed : Bool
deriving DecidableEq

/-- What a stream does when bytes are written after others have been written: it takes all of them (`none`) or fails after having
taken some of them (at most all). Buffering is not modelled, i.e. the failure happens in the call of `write` (and not later, when
the buffer is flushed). -/
abbrev Sink := Str → Str → Option Nat

/-- `m_stream->write(buffer, n)` with exceptions enabled (`throws`) or not -/
def emitTo (S : Sink) (throws : Bool) (bs : Str) : M BExc FWSt Unit := fun s =>
  if s.failed then (if throws then .exc .eof s else .ok () s)
  else
    match S s.out bs with
    | none => .ok () { s with out := s.out ++ bs }
    | some k =>
      if throws then .exc .eof { s with out := s.out ++ bs.take k, failed := true }
      else .ok () { s with out := s.out ++ bs.take k, failed := true }

/-- streams which might fail -/
def failingWriter (S : Sink) (throws : Bool) : Writer FWSt :=
  ⟨emitTo S throws, fun id s => .ok (decide (id ∈ s.seen)) s, fun id s => .ok () { s with seen := id :: s.seen }⟩

/-- `toBinary(outputStream, version)` (lib/binary/serializable.h 36-39) with a stream which might fail -/
def toBinaryTo (E : Env) (H : Heap) (S : Sink) (throws : Bool) (n : Nat) (c : ClassId) (v : Val) (version : Nat) :
    Res BExc FWSt Unit :=
  (failingWriter S throws).write E H n version (.cls c) v ⟨[], [], false⟩

end Verif
