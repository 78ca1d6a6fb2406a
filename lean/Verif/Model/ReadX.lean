import Verif.Model.Binary
import Verif.Model.PullX

/-!
# The object being read from binary data when an exception is thrown

`Model/Binary.lean` gives the object only if the function returns. Here exceptions additionally carry what the object passed to `read` has
become by the time it is thrown; shared objects which are incompletely read by then are in the heap (lib/binary/reflector.h 126-250).
-/

namespace Verif

/-- Computations of the deserialiser; what is thrown comes with the state of the object being read. -/
abbrev XR := M (BExc × Val) RSt

/-- `m` does not touch the object, which is in state `q` meanwhile. -/
def holdingR {α : Type} (q : Val) (m : RM α) : XR α := fun s =>
  match m s with
  | .ok a s => .ok a s
  | .exc e s => .exc (e, q) s
  | .ub => .ub
  | .stuck => .stuck
  | .fuel => .fuel

/-- `m` reads a part of the object, which is in state `g q` if the part is in state `q`. -/
def withinR {α : Type} (g : Val → Val) (m : XR α) : XR α := fun s =>
  match m s with
  | .ok a s => .ok a s
  | .exc (e, q) s => .exc (e, g q) s
  | .ub => .ub
  | .stuck => .stuck
  | .fuel => .fuel

/-- `m` reads the shared object at `addr` (in place). -/
def withinShared {α : Type} (addr : Nat) (m : XR α) : XR α := fun s =>
  match m s with
  | .ok a s => .ok a s
  | .exc (e, q) s => .exc (e, .ref addr) { s with heap := s.heap.set addr q }
  | .ub => .ub
  | .stuck => .stuck
  | .fuel => .fuel

section
variable (E : Env) (self : Nat → Ty → Val → XR Val)

/-- elements are read in place (reflector.h 178-181); `done` are the ones which have been read -/
def readElemsX (t : Ty) : List Val → List Val → XR (List Val)
  | _, [] => pure []
  | done, p :: ps => do
    let v ← withinR (fun q => .list (done ++ q :: ps)) (self 0 t p)
    let vs ← readElemsX t (done ++ [v]) ps
    pure (v :: vs)

/-- `value_type value; read(value); iteratable.emplace(std::move(value));`: the element being read is a separate object
(reflector.h 200-204) -/
def readSetItemsX (multi : Bool) (t : Ty) : Nat → List Val → XR (List Val)
  | 0, acc => pure acc
  | k + 1, acc => do
    let v ← withinR (fun _ => .list acc) (self 0 t (E.defInit t))
    if v.hasIndet then M.ub
    else readSetItemsX multi t k (if multi then insertMulti (E.lt t) v acc else (insertUniq (E.lt t) v acc).1)

/-- likewise for maps (reflector.h 187-191) -/
def readMapItemsX (multi : Bool) (k t : Ty) : Nat → List (Val × Val) → XR (List (Val × Val))
  | 0, acc => pure acc
  | n + 1, acc => do
    let v ← withinR (fun _ => .map acc) (self 0 (.pair k t) (E.valInit (.pair k t)))
    match v with
    | .tup [a, b] =>
      if a.hasIndet || b.hasIndet then M.ub
      else readMapItemsX multi k t n (if multi then mapInsertMulti (E.lt k) a b acc else mapEmplace (E.lt k) a b acc)
    | _ => M.stuck

/-- bases are parts of the same object (binaryserializationcodegenerator.cpp 309-311) -/
def readBasesX (version : Nat) : List ClassId → Val → XR Val
  | [], v => pure v
  | b :: bs, v => do
    let v ← self version (.cls b) v
    readBasesX version bs v

/-- members are read in place (binaryserializationcodegenerator.cpp 323-348) -/
def readFieldsX (version : Nat) : List (Guard × Field) → Store → XR Store
  | [], st => pure st
  | (g, f) :: fs, st =>
    if g.holds version then
      match st.get? f.key with
      | none => M.stuck
      | some p => do
        let v ← withinR (fun q => .obj (st.set f.key q)) (self version f.ty p)
        readFieldsX version fs (st.set f.key v)
    else readFieldsX version fs st

/-- `readCustomType` (binaryserializationcodegenerator.cpp 304-354) -/
def readClassX (ci : ClassInfo) (version : Nat) (p : Val) : XR (Val × Nat) :=
  if ci.bin.readable = false then M.stuck
  else do
    let v ← readBasesX self version ci.bin.bases p
    match v with
    | .obj st => do
      let version ← holdingR (.obj st) (readVersion ci version)
      let st ← readFieldsX self version ci.bin.readFields st
      pure (.obj st, version)
    | _ => M.stuck

end

/-- All `read` overloads; `p` is the previous content of the object. Scalars, strings and time values are assigned after they have been
read completely; `resize` leaves the container alone if it throws. -/
def readXStep (E : Env) (self : Nat → Ty → Val → XR Val) (version : Nat) (t : Ty) (p : Val) : XR Val :=
  match t with
  -- enum (reflector.h 207-212): read into a separate variable
  | .enum u => withinR (fun _ => p) (self 0 (.int u) .indet)
  -- pair (126-130)
  | .pair a b =>
    match p with
    | .tup [x, y] => do
      let x ← withinR (fun q => .tup [q, y]) (self 0 a x)
      let y ← withinR (fun q => .tup [x, q]) (self 0 b y)
      pure (.tup [x, y])
    | _ => M.stuck
  -- unique_ptr (132-140): the new object is assigned before being read
  | .uptr t' => do
    let b ← holdingR p readBool
    if b then do
      let v ← withinR .ptr (self 0 t' (E.valInit t'))
      pure (.ptr v)
    else pure .null
  -- optional (166-173): likewise
  | .opt t' => do
    let b ← holdingR p readBool
    if b then do
      let v ← withinR .some (self 0 t' (E.valInit t'))
      pure (.some v)
    else pure .null
  -- shared_ptr (142-164): likewise
  | .sptr t' => do
    let mode ← holdingR p readByte
    if mode = 0 then pure .null
    else do
      let id ← holdingR p (if mode &&& 4 ≠ 0 then (do let bs ← takeBytes 8; pure (ofBE bs)) else readVarint)
      if mode &&& 3 = 1 then do
        let addr ← holdingR p (allocShared id t' (E.valInit t'))
        let v ← withinShared addr (self 0 t' (E.valInit t'))
        holdingR p (storeShared addr v)
        pure (.ref addr)
      else do
        let addr ← holdingR p (lookupShared id t')
        pure (.ref addr)
  -- resizable arrays (175-182)
  | .vec t' =>
    match p with
    | .list vs => do
      let n ← holdingR p readVarint
      if n > E.maxLen then M.throw (.badAlloc, p)
      else do
        let vs ← readElemsX self t' [] (resize vs n (E.valInit t'))
        pure (.list vs)
    | _ => M.stuck
  -- sets (194-205)
  | .set _ multi t' =>
    match p with
    | .list vs => do
      let n ← holdingR p readVarint
      let vs ← readSetItemsX E self multi t' n vs
      pure (.list vs)
    | _ => M.stuck
  -- maps (184-192)
  | .map _ multi k t' =>
    match p with
    | .map kvs => do
      let n ← holdingR p readVarint
      let kvs ← readMapItemsX E self multi k t' n kvs
      pure (.map kvs)
    | _ => M.stuck
  -- variant (214-239): the new value is created before being read
  | .variant ts => do
    let i ← holdingR p readByte
    match ts[i]? with
    | none => M.throw (.conv, p)
    | some .mono => pure (.alt i .mono)
    | some t' => do
      let v ← withinR (.alt i) (self 0 t' (E.valInit t'))
      pure (.alt i v)
  -- custom types (247-250)
  | .cls c =>
    match E.cls c with
    | none => M.stuck
    | some ci => do
      let r ← readClassX self ci version p
      pure r.1
  -- types without parts
  | t => holdingR p (readStep E (fun _ _ _ => M.stuck) version t p)

/-- `BinaryDeserializer::read` with recursion budget. -/
def readX (E : Env) : Nat → Nat → Ty → Val → XR Val
  | 0 => fun _ _ _ => M.outOfFuel
  | n + 1 => readXStep E (readX E n)

/-- `restoreFromBinary(inputStream)` (lib/binary/serializable.h 41-44) -/
def restoreFromBinaryX (E : Env) (n : Nat) (c : ClassId) (p : Val) (inp : Str) : Res (BExc × Val) RSt (Val × Nat) :=
  match E.cls c with
  | none => .stuck
  | some ci => readClassX (readX E n) ci 0 p (RSt.init inp)

end Verif
