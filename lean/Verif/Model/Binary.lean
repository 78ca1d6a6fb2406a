import Verif.Model.Bytes
import Verif.Model.Push

/-!
# Binary (de)serialisation: lib/binary/reflector.h and the generated `writeCustomType`/`readCustomType`

`self version t v` are calls of `BinarySerializer::write(v, version)` / `BinaryDeserializer::read(v, version)`. Calls without
version argument use the default 0 (reflector.h 90, 115); for built-in types the version is dropped (241-245, 327-331).

Not modelled (outcome `stuck`): types without support (8-bit signed integers, tuples, C-strings, `std::string_view`). Smart
pointers other than `std::shared_ptr` own their object exclusively, so it is represented inside the pointer. Shared objects are
identified by their address.
-/

namespace Verif

/-- Effective version when writing: `V::applyDefault(version)` if versioned (lib/versioning.h 44-50), else the given one. -/
def effVersion (cur : Option Nat) (version : Nat) : Nat :=
  match cur with
  | none => version
  | some d => if version = 0 then d else version

section
variable (self : Nat → Ty → Val → WM Unit)

/-- `for (const auto &element : iteratable) write(element);` (reflector.h 297-304) -/
def writeElems (t : Ty) : List Val → WM Unit
  | [] => pure ()
  | v :: vs => do
    self 0 t v
    writeElems t vs

/-- the elements of a map are pairs (reflector.h 257-261, 297-304) -/
def writeEntries (k t : Ty) : List (Val × Val) → WM Unit
  | [] => pure ()
  | (a, b) :: kvs => do
    self 0 (.pair k t) (.tup [a, b])
    writeEntries k t kvs

/-- `serializer.write(static_cast<const Base &>(customObject), version);` for all bases
(generator/binaryserializationcodegenerator.cpp 248-251) -/
def writeBases (version : Nat) : List ClassId → Val → WM Unit
  | [], _ => pure ()
  | b :: bs, v => do
    self version (.cls b) v
    writeBases version bs v

/-- `if (version >= a && version <= u) { serializer.write(customObject.m, version); }` for all members
(binaryserializationcodegenerator.cpp 263-292) -/
def writeFields (version : Nat) : List (Guard × Field) → Store → WM Unit
  | [], _ => pure ()
  | (g, f) :: fs, st =>
    if g.holds version then
      match st.get? f.key with
      | none => M.stuck
      | some v => do
        self version f.ty v
        writeFields version fs st
    else writeFields version fs st

/-- `writeVariableLengthUIntBE(V::applyDefault(version))` if versioned (binaryserializationcodegenerator.cpp 252-260) -/
def writeVersion (cur : Option Nat) (version : Nat) : WM Unit :=
  match cur with
  | none => pure ()
  | some _ => writeVarint (effVersion cur version)

/-- `writeCustomType` (binaryserializationcodegenerator.cpp 243-297) -/
def writeClass (ci : ClassInfo) (version : Nat) (st : Store) : WM Unit := do
  writeBases self version ci.bin.bases (.obj st)
  writeVersion ci.bin.version version
  writeFields self (effVersion ci.bin.version version) ci.bin.writeFields st

end

/-- `id >= 0x80000000000000` (reflector.h 279) -/
def bigId (id : Nat) : Bool := decide (2 ^ 55 ≤ id)

/-- mode byte of a shared pointer (reflector.h 280-285) -/
def sptrMode (written big : Bool) : Nat :=
  if written then (if big then 6 else 2) else (if big then 5 else 1)

/-- `writeUInt64BE(id)` or `writeVariableLengthUIntBE(id)` (reflector.h 286-290) -/
def writeId (id : Nat) : WM Unit := if bigId id then emit (beBytes 8 id) else writeVarint id

/-- `auto &alreadyWritten = m_pointer[id];` -/
def alreadyWritten (id : Nat) : WM Bool := fun s => .ok (decide (id ∈ s.seen)) s

/-- `alreadyWritten = true;` -/
def markWritten (id : Nat) : WM Unit := M.modify fun s => { s with seen := id :: s.seen }

/-- All `write` overloads. -/
def writeStep (E : Env) (H : Heap) (self : Nat → Ty → Val → WM Unit) (version : Nat) (t : Ty) (v : Val) : WM Unit :=
  match t, v with
  -- reading an uninitialised scalar
  | _, .indet => M.ub
  -- BinaryWriter::write for bool, char, integers and floating point numbers
  | .bool, .bool b => emit [if b then 1 else 0]
  | .int it, .int i => if it = .i8 then M.stuck else emit (intBytes it.bytes i)
  | .f32, .f32 b => emit (beBytes 4 b.toNat)
  | .f64, .f64 b => emit (beBytes 8 b.toNat)
  -- std::string: length and bytes
  | .str, .str s => do
    writeVarint s.length
    emit s
  -- enum (reflector.h 306-309)
  | .enum u, .int i => self 0 (.int u) (.int i)
  -- pair (257-261)
  | .pair a b, .tup [x, y] => do
    self 0 a x
    self 0 b y
  -- unique_ptr and optional (263-270)
  | .uptr _, .null => emit [0]
  | .uptr t', .ptr v => do
    emit [1]
    self 0 t' v
  | .opt _, .null => emit [0]
  | .opt t', .some v => do
    emit [1]
    self 0 t' v
  -- shared_ptr (272-295)
  | .sptr _, .null => writeByte 0
  | .sptr t', .ref a => do
    let written ← alreadyWritten a
    writeByte (sptrMode written (bigId a))
    writeId a
    if written then pure ()
    else do
      markWritten a
      match H a with
      | some v => self 0 t' v
      | none => M.ub
  -- iteratable types (297-304)
  | .vec t', .list vs => do
    writeVarint vs.length
    writeElems self t' vs
  | .set hashed _ t', .list vs => do
    writeVarint vs.length
    writeElems self t' (E.order hashed vs)
  | .map hashed _ k t', .map kvs => do
    writeVarint kvs.length
    writeEntries self k t' (E.orderKV hashed kvs)
  -- variant (311-325): index() of a valueless variant is variant_npos
  | .variant _, .valueless => do
    writeByte 255
    M.throw .badVariant
  | .variant ts, .alt i v =>
    match ts[i]? with
    | none => M.stuck
    | some .mono => writeByte i
    | some t' => do
      writeByte i
      self 0 t' v
  -- custom types (333-336)
  | .cls c, .obj st =>
    match E.cls c with
    | none => M.stuck
    | some ci => writeClass self ci version st
  -- DateTime, TimeSpan (lib/binary/reflector-chronoutilities.h 26-31, 42-47)
  | .dateTime, .tick i => emit (intBytes 8 i)
  | .timeSpan, .tick i => emit (intBytes 8 i)
  | _, _ => M.stuck

/-- `BinarySerializer::write` with recursion budget. -/
def write (E : Env) (H : Heap) : Nat → Nat → Ty → Val → WM Unit
  | 0 => fun _ _ _ => M.outOfFuel
  | n + 1 => writeStep E H (write E H n)

/-! ## reading -/

section
variable (E : Env) (self : Nat → Ty → Val → RM Val)

/-- `for (auto &element : iteratable) read(element);` (reflector.h 178-181): elements are read in place -/
def readElems (t : Ty) : List Val → RM (List Val)
  | [] => pure []
  | p :: ps => do
    let v ← self 0 t p
    let vs ← readElems t ps
    pure (v :: vs)

/-- loop of sets (reflector.h 200-204): `value_type value; read(value); iteratable.emplace(std::move(value));` -/
def readSetItems (multi : Bool) (t : Ty) : Nat → List Val → RM (List Val)
  | 0, acc => pure acc
  | k + 1, acc => do
    let v ← self 0 t (E.defInit t)
    if v.hasIndet then M.ub
    else readSetItems multi t k (if multi then insertMulti (E.lt t) v acc else (insertUniq (E.lt t) v acc).1)

/-- loop of maps (reflector.h 187-191): `std::pair<K, V> value; read(value); iteratable.emplace(std::move(value));` -/
def readMapItems (multi : Bool) (k t : Ty) : Nat → List (Val × Val) → RM (List (Val × Val))
  | 0, acc => pure acc
  | n + 1, acc => do
    let v ← self 0 (.pair k t) (E.valInit (.pair k t))
    match v with
    | .tup [a, b] =>
      if a.hasIndet || b.hasIndet then M.ub
      else readMapItems multi k t n (if multi then mapInsertMulti (E.lt k) a b acc else mapEmplace (E.lt k) a b acc)
    | _ => M.stuck

/-- `deserializer.read(static_cast<Base &>(customObject), version);` (binaryserializationcodegenerator.cpp 309-311) -/
def readBases (version : Nat) : List ClassId → Val → RM Val
  | [], v => pure v
  | b :: bs, v => do
    let v ← self version (.cls b) v
    readBases version bs v

/-- members (binaryserializationcodegenerator.cpp 323-348) -/
def readFields (version : Nat) : List (Guard × Field) → Store → RM Store
  | [], st => pure st
  | (g, f) :: fs, st =>
    if g.holds version then
      match st.get? f.key with
      | none => M.stuck
      | some p => do
        let v ← self version f.ty p
        readFields version fs (st.set f.key v)
    else readFields version fs st

/-- `V::assertVersion(version = deserializer.readVariableLengthUIntBE(), "name");` if versioned
(binaryserializationcodegenerator.cpp 312-321, lib/versioning.h 54-59) -/
def readVersion (ci : ClassInfo) (version : Nat) : RM Nat :=
  match ci.bin.version with
  | none => pure version
  | some m => do
    let v ← readVarint
    if v ≤ m then pure v else M.throw (.version v m ci.qname)

/-- `readCustomType` (binaryserializationcodegenerator.cpp 304-354): the object and the returned version -/
def readClass (ci : ClassInfo) (version : Nat) (p : Val) : RM (Val × Nat) :=
  if ci.bin.readable = false then M.stuck
  else do
    let v ← readBases self version ci.bin.bases p
    match v with
    | .obj st => do
      let version ← readVersion ci version
      let st ← readFields self version ci.bin.readFields st
      pure (.obj st, version)
    | _ => M.stuck

end

/-- `m_pointer[id] = pointer = std::make_shared<T>();` (reflector.h 153): the new object's address -/
def allocShared (id : Nat) (t : Ty) (init : Val) : RM Nat := fun s =>
  .ok s.heap.length { s with table := (id, t, s.heap.length) :: s.table, heap := s.heap ++ [init] }

/-- the object has been read into -/
def storeShared (addr : Nat) (v : Val) : RM Unit := M.modify fun s => { s with heap := s.heap.set addr v }

/-- `std::any_cast<std::shared_ptr<T>>(m_pointer[id])` (reflector.h 158-163): `m_pointer[id]` is empty if the identifier is
unknown -/
def lookupShared (id : Nat) (t : Ty) : RM Nat := fun s =>
  match s.table.lookup id with
  | some (t', a) => if t' = t then .ok a s else .exc .conv s
  | none => .exc .conv s

/-- `std::vector::resize`: new elements are value-initialised -/
def resize (vs : List Val) (n : Nat) (init : Val) : List Val := vs.take n ++ List.replicate (n - vs.length) init

/-- All `read` overloads; `p` is the previous content of the object. -/
def readStep (E : Env) (self : Nat → Ty → Val → RM Val) (version : Nat) (t : Ty) (p : Val) : RM Val :=
  match t with
  -- BinaryReader::read for bool, char, integers and floating point numbers
  | .bool => do
    let b ← readBool
    pure (.bool b)
  | .int it =>
    if it = .i8 then M.stuck
    else do
      let i ← readInt it
      pure (.int i)
  | .f32 => do
    let bs ← takeBytes 4
    pure (.f32 (BitVec.ofNat 32 (ofBE bs)))
  | .f64 => do
    let bs ← takeBytes 8
    pure (.f64 (BitVec.ofNat 64 (ofBE bs)))
  -- std::string
  | .str => do
    let n ← readVarint
    if n > E.maxLen then M.throw .badAlloc
    else do
      let bs ← takeBytes n
      pure (.str bs)
  -- enum (reflector.h 207-212)
  | .enum u => self 0 (.int u) .indet
  -- pair (126-130)
  | .pair a b =>
    match p with
    | .tup [x, y] => do
      let x ← self 0 a x
      let y ← self 0 b y
      pure (.tup [x, y])
    | _ => M.stuck
  -- unique_ptr (132-140)
  | .uptr t' => do
    let b ← readBool
    if b then do
      let v ← self 0 t' (E.valInit t')
      pure (.ptr v)
    else pure .null
  -- optional (166-173)
  | .opt t' => do
    let b ← readBool
    if b then do
      let v ← self 0 t' (E.valInit t')
      pure (.some v)
    else pure .null
  -- shared_ptr (142-164)
  | .sptr t' => do
    let mode ← readByte
    if mode = 0 then pure .null
    else do
      let id ← (if mode &&& 4 ≠ 0 then (do let bs ← takeBytes 8; pure (ofBE bs)) else readVarint)
      if mode &&& 3 = 1 then do
        let addr ← allocShared id t' (E.valInit t')
        let v ← self 0 t' (E.valInit t')
        storeShared addr v
        pure (.ref addr)
      else do
        let addr ← lookupShared id t'
        pure (.ref addr)
  -- resizable arrays (175-182)
  | .vec t' =>
    match p with
    | .list vs => do
      let n ← readVarint
      if n > E.maxLen then M.throw .badAlloc
      else do
        let vs ← readElems self t' (resize vs n (E.valInit t'))
        pure (.list vs)
    | _ => M.stuck
  -- sets (194-205): previous elements are kept
  | .set _ multi t' =>
    match p with
    | .list vs => do
      let n ← readVarint
      let vs ← readSetItems E self multi t' n vs
      pure (.list vs)
    | _ => M.stuck
  -- maps (184-192): previous entries are kept
  | .map _ multi k t' =>
    match p with
    | .map kvs => do
      let n ← readVarint
      let kvs ← readMapItems E self multi k t' n kvs
      pure (.map kvs)
    | _ => M.stuck
  -- variant (214-239)
  | .variant ts => do
    let i ← readByte
    match ts[i]? with
    | none => M.throw .conv
    | some .mono => pure (.alt i .mono)
    | some t' => do
      let v ← self 0 t' (E.valInit t')
      pure (.alt i v)
  -- custom types (247-250)
  | .cls c =>
    match E.cls c with
    | none => M.stuck
    | some ci => do
      let r ← readClass self ci version p
      pure r.1
  -- DateTime, TimeSpan (lib/binary/reflector-chronoutilities.h 18-24, 34-40)
  | .dateTime => do
    let i ← readInt .u64
    pure (.tick i)
  | .timeSpan => do
    let i ← readInt .i64
    pure (.tick i)
  | _ => M.stuck

/-- `BinaryDeserializer::read` with recursion budget. -/
def read (E : Env) : Nat → Nat → Ty → Val → RM Val
  | 0 => fun _ _ _ => M.outOfFuel
  | n + 1 => readStep E (read E n)

/-! ## `BinarySerializable` (lib/binary/serializable.h 36-51) -/

/-- state of a new `BinarySerializer` on an empty stream -/
def WSt.init : WSt := ⟨[], []⟩

/-- state of a new `BinaryDeserializer` -/
def RSt.init (inp : Str) : RSt := ⟨inp, [], []⟩

/-- `toBinary(outputStream, version)` -/
def toBinary (E : Env) (H : Heap) (n : Nat) (c : ClassId) (v : Val) (version : Nat) : Res BExc WSt Unit :=
  write E H n version (.cls c) v WSt.init

/-- `restoreFromBinary(inputStream)`: content of the object and returned version -/
def restoreFromBinary (E : Env) (n : Nat) (c : ClassId) (p : Val) (inp : Str) : Res BExc RSt (Val × Nat) :=
  match E.cls c with
  | none => .stuck
  | some ci => readClass (read E n) ci 0 p (RSt.init inp)

/-- `fromBinary(inputStream)`: `Type object; object.restoreFromBinary(inputStream); return object;`
(`lib/binary/serializable.h` 46-51). In C++ this function compiles only for classes declared with
`BinarySerializable<T>` (version 0) because it casts to that base; for versioned classes the definition
describes what a caller writes by hand via `restoreFromBinary`. -/
def fromBinary (E : Env) (n : Nat) (c : ClassId) (inp : Str) : Res BExc RSt Val :=
  match restoreFromBinary E n c (E.defInit (.cls c)) inp with
  | .ok r s => .ok r.1 s
  | .exc e s => .exc e s
  | .ub => .ub
  | .stuck => .stuck
  | .fuel => .fuel

end Verif
