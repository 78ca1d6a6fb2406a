import Verif.Model.Push

/-!
# JSON deserialisation: `JsonReflector::pull` (lib/json/reflector.h 526-1012)

A `pull` overload mutates its argument; in the model it takes the previous object and returns the new one.
Overloads taking `ConstObject`/`ConstArray` are identified with those taking the `Value` they were obtained from.
-/

namespace Verif

/-- `errors->currentMember = ...` / `errors->currentRecord = ...` (guarded by `if (errors)`) -/
def setMember (m : Option Str) : PM Unit := M.modify (Option.map fun st => { st with member := m })
def setRecord (r : Option Str) : PM Unit := M.modify (Option.map fun st => { st with record := r })
/-- `previousMember = errors->currentMember` / `previousRecord = errors->currentRecord` -/
def getMember : PM (Option Str) := fun s => .ok (s.bind ErrSt.member) s
def getRecord : PM (Option Str) := fun s => .ok (s.bind ErrSt.record) s

/-- Run `m` with `errors->currentMember` set to `name`; the previous one is restored only if `m` does not throw
(reflector.h 982-996). -/
def withMember {α : Type} (name : Str) (m : PM α) : PM α := do
  let prev ← getMember
  setMember (some name)
  let r ← m
  setMember prev
  pure r

/-- Run `m` with `errors->currentRecord` set to `name` (generator/jsonserializationcodegenerator.cpp 148-174). -/
def withRecord {α : Type} (name : Str) (m : PM α) : PM α := do
  let prev ← getRecord
  setRecord (some name)
  let r ← m
  setRecord prev
  pure r

/-- `static_cast<T>(double)`: undefined unless the truncated value is representable -/
def castDouble (t : IntTy) (d : BitVec 64) : PM Int :=
  match Ieee.trunc d with
  | some k => if t.inRange k then pure k else M.ub
  | none => M.ub

/-- `value.Is<T>() ? value.Get<T>() : static_cast<T>(value.GetDouble())` for integral `T` (reflector.h 543) -/
def numToInt (t : IntTy) : Num → PM Int
  | .int i => if t.inRange i then pure i else castDouble t (Ieee.ofInt i)
  | .dbl d => castDouble t d

/-- `value.GetDouble()` -/
def numToDouble : Num → BitVec 64
  | .int i => Ieee.ofInt i
  | .dbl d => d

/-- integer targets of the JSON `pull` which RapidJSON supports directly -/
def jsonInt : IntTy → Bool
  | .i32 | .u32 | .i64 | .u64 => true
  | _ => false

/-- `Is<std::uint64_t>()` / `Is<std::int64_t>()` -/
def enumNum (unsigned : Bool) : Json → Option Int
  | .num (.int i) =>
    if unsigned then (if IntTy.inRange .u64 i then some i else none)
    else (if IntTy.inRange .i64 i then some i else none)
  | _ => none

/-- `IsUint64()`/`GetUint64()` -/
def uint64? : Json → Option Nat
  | .num (.int i) => if IntTy.inRange .u64 i then some i.toNat else none
  | _ => none

/-- Loop over the items of an array with error context (reflector.h 668-682, 695-710, 723-740): `currentIndex` is set to
the position before each item and to `noIndex` at the end. -/
def forIdx {β : Type} (f : Json → β → PM β) : List Json → Nat → β → PM β
  | [], _, b => do
    setIndex noIndex
    pure b
  | j :: js, i, b => do
    setIndex i
    let b ← f j b
    forIdx f js (i + 1) b

section
variable (E : Env) (self : Ty → Json → Val → PM Val)

/-- body of the array loop: `reflectable.emplace_back(); pull(reflectable.back(), item, errors);` -/
def vecItem (t : Ty) (j : Json) (vs : List Val) : PM (List Val) := do
  let v ← self t j (E.valInit t)
  pure (vs ++ [v])

/-- body of the multiset loop: `value_type itemObj; pull(itemObj, ...); reflectable.emplace(std::move(itemObj));` -/
def multisetItem (t : Ty) (j : Json) (vs : List Val) : PM (List Val) := do
  let v ← self t j (E.defInit t)
  if v.hasIndet then M.ub else pure (insertMulti (E.lt t) v vs)

/-- body of the set loop; the result of a failing `emplace` is reported without null check -/
def setItem (t : Ty) (j : Json) (vs : List Val) : PM (List Val) := do
  let v ← self t j (E.defInit t)
  if v.hasIndet then M.ub
  else
    let r := insertUniq (E.lt t) v vs
    if r.2 then pure r.1
    else do
      reportDuplicateUnchecked
      pure r.1

/-- loop over the members for a map: `pull(reflectable[i->name.GetString()], i->value, errors)` (reflector.h 756-758) -/
def pullMapEntries (t : Ty) : List (Key × Json) → List (Val × Val) → PM (List (Val × Val))
  | [], kvs => pure kvs
  | (k, j) :: ms, kvs => do
    let key := Val.str (cstrOf k.bytes)
    let v ← self t j ((mapFind (E.lt .str) key kvs).getD (E.valInit t))
    pullMapEntries t ms (mapSet (E.lt .str) key v kvs)

/-- insert one value into a multimap (reflector.h 775-776, 781-782) -/
def pullMultimapItems (t : Ty) (key : Str) : List Json → List (Val × Val) → PM (List (Val × Val))
  | [], kvs => pure kvs
  | j :: js, kvs => do
    let v ← self t j (E.valInit t)
    pullMultimapItems t key js (mapInsertMulti (E.lt .str) (.str key) v kvs)

/-- loop over the members for a multimap (reflector.h 773-785) -/
def pullMultimapEntries (t : Ty) : List (Key × Json) → List (Val × Val) → PM (List (Val × Val))
  | [], kvs => pure kvs
  | (k, j) :: ms, kvs => do
    let kvs ← pullMultimapItems E self t (cstrOf k.bytes) (match j with | .arr js => js | j => [j]) kvs
    pullMultimapEntries t ms kvs

/-- `TuplePullHelper` (reflector.h 794-810) -/
def pullTuple : List Ty → List Json → List Val → PM (List Val)
  | [], [], [] => pure []
  | t :: ts, j :: js, v :: vs => do
    let v ← self t j v
    let vs ← pullTuple ts js vs
    pure (v :: vs)
  | _, _, _ => M.stuck

/-- `pull(static_cast<Base &>(reflectable), value, errors)` for all bases (jsonserializationcodegenerator.cpp 143-146) -/
def pullBases : List ClassId → List (Key × Json) → Val → PM Val
  | [], _, v => pure v
  | b :: bs, ms, v => do
    let v ← self (.cls b) (.obj ms) v
    pullBases bs ms v

/-- `pull(reflectable.m, "m", value, errors)`: pull a member if present (reflector.h 973-997) -/
def pullField (f : Field) (ms : List (Key × Json)) (st : Store) : PM Store :=
  match findMember f.name ms with
  | none => pure st
  | some j =>
    match st.get? f.key with
    | none => M.stuck
    | some v => do
      let v' ← withMember f.name (self f.ty j v)
      pure (st.set f.key v')

def pullFields : List Field → List (Key × Json) → Store → PM Store
  | [], _, st => pure st
  | f :: fs, ms, st => do
    let st ← pullField self f ms st
    pullFields fs ms st

end

/-- `errors->reportTypeMismatch<T>(value.GetType())` if `errors`, then `return` leaving the target as it is -/
def mismatch (exp : JType) (j : Json) (v : Val) : PM Val := do
  report .typeMismatch exp j.jtype
  pure v

/-- `std::string str; JsonReflector::pull(str, value, errors);` (lib/json/reflector-chronoutilities.h 43-44, 60-61;
reflector.h 597-608) -/
def pullTimeStr (j : Json) : PM Str :=
  match j with
  | .str s => pure (cstrOf s)
  | j => do
    report .typeMismatch .string j.jtype
    pure []

/-- `pull<CppUtilities::DateTime/TimeSpan>` (lib/json/reflector-chronoutilities.h 40-68): the string is pulled into an
empty `std::string`, which is parsed no matter whether pulling it reported an error. -/
def pullTime (parse : Str → Option Int) (j : Json) (v : Val) : PM Val := do
  let s ← pullTimeStr j
  match parse s with
  | some i => pure (.tick i)
  | none => do
    report .conversionError .string .string
    pure v

/-- All `pull` overloads for a source `Value`. -/
def pullStep (E : Env) (self : Ty → Json → Val → PM Val) (t : Ty) (j : Json) (v : Val) : PM Val :=
  match t with
  -- bool (reflector.h 563-574)
  | .bool =>
    match j with
    | .bool b => pure (.bool b)
    | j => mismatch (jtypeOf .bool) j v
  -- integer (531-544), 8-bit integer via int (549-558)
  | .int it =>
    match it with
    | .i8 | .u8 =>
      match j with
      | .num n => do
        let i ← numToInt .i32 n
        pure (.int (it.wrap i))
      | j => mismatch (jtypeOf (.int .i32)) j v
    | _ =>
      if jsonInt it then
        match j with
        | .num n => do
          let i ← numToInt it n
          pure (.int i)
        | j => mismatch (jtypeOf (.int it)) j v
      else M.stuck
  -- float (531-544): Get<float>() and the cast of GetDouble() both narrow the double value
  | .f32 =>
    match j with
    | .num n => pure (.f32 (Ieee.narrow (numToDouble n)))
    | j => mismatch (jtypeOf .f32) j v
  | .f64 =>
    match j with
    | .num n => pure (.f64 (numToDouble n))
    | j => mismatch (jtypeOf .f64) j v
  -- enum (580-592)
  | .enum u =>
    match enumNum (!u.signed) j with
    | some i => pure (.int (u.wrap i))
    | none => mismatch (jtypeOf (.int .u64)) j v
  -- std::string (597-608)
  | .str =>
    match j with
    | .str s => pure (.str (cstrOf s))
    | j => mismatch (jtypeOf .str) j v
  -- const char *, std::string_view (614-624): only checked
  | .cstr =>
    match j with
    | .str _ => pure v
    | j => mismatch (jtypeOf .str) j v
  | .sview =>
    match j with
    | .str _ => pure v
    | j => mismatch (jtypeOf .str) j v
  -- array (629-683)
  | .vec t' =>
    match j with
    | .arr js => do
      let vs ← forIdx (vecItem E self t') js 0 []
      pure (.list vs)
    | j => mismatch (jtypeOf (.vec t')) j v
  -- multiset (688-711), set (716-741)
  | .set hashed multi t' =>
    match j with
    | .arr js => do
      let vs ← forIdx (if multi then multisetItem E self t' else setItem E self t') js 0 []
      pure (.list vs)
    | j => mismatch (jtypeOf (.set hashed multi t')) j v
  -- map (746-759), multimap (764-786); previous entries are kept
  | .map hashed multi .str t' =>
    match j with
    | .obj ms =>
      match v with
      | .map kvs => do
        let kvs ← (if multi then pullMultimapEntries E self t' ms kvs else pullMapEntries E self t' ms kvs)
        pure (.map kvs)
      | _ => M.stuck
    | j => mismatch (jtypeOf (.map hashed multi .str t')) j v
  | .map _ _ _ _ => M.stuck
  -- pair (836-855)
  | .pair a b =>
    match j with
    | .arr js =>
      if js.length ≠ 2 then do
        report .arraySizeMismatch .array .array
        pure v
      else
        match v with
        | .tup vs => do
          let vs ← pullTuple self [a, b] js vs
          pure (.tup vs)
        | _ => M.stuck
    | j => mismatch (jtypeOf (.pair a b)) j v
  -- tuple (794-831)
  | .tuple ts =>
    match j with
    | .arr js =>
      if js.length ≠ ts.length then do
        report .arraySizeMismatch .array .array
        pure v
      else
        match v with
        | .tup vs => do
          let vs ← pullTuple self ts js vs
          pure (.tup vs)
        | _ => M.stuck
    | j => mismatch (jtypeOf (.tuple ts)) j v
  -- unique_ptr (860-869), shared_ptr (874-883): a new object is made and pulled into
  | .uptr t' =>
    match j with
    | .null => pure .null
    | j => do
      let v ← self t' j (E.valInit t')
      pure (.ptr v)
  | .sptr t' =>
    match j with
    | .null => pure .null
    | j => do
      let v ← self t' j (E.valInit t')
      pure (.ptr v)
  -- optional (888-896)
  | .opt t' =>
    match j with
    | .null => pure .null
    | j => do
      let v ← self t' j (E.valInit t')
      pure (.some v)
  -- variant (899-956)
  | .variant ts =>
    match j with
    | .obj ms =>
      match findMember (lit "index") ms, findMember (lit "data") ms with
      | some ji, some jd =>
        match uint64? ji with
        | none => do
          report .invalidVariantIndex .number ji.jtype
          pure v
        | some i =>
          match ts[i]? with
          | none => do
            report .invalidVariantIndex .number .number
            pure v
          | some .mono => pure (.alt i .mono)
          | some t' => do
            let v ← self t' jd (E.valInit t')
            pure (.alt i v)
      | _, _ => do
        report .invalidVariantObject .object .object
        pure v
    | j => mismatch (jtypeOf (.variant ts)) j v
  -- std::monostate itself has no pull
  | .mono => M.stuck
  -- custom types (1002-1012) and class code (jsonserializationcodegenerator.cpp 139-175)
  | .cls c =>
    match E.cls c with
    | none => M.stuck
    | some ci =>
      if ci.json.pullable = false then M.stuck
      else
        match j with
        | .obj ms => do
          let v ← pullBases self ci.json.bases ms v
          match v with
          | .obj st => do
            let st ← (if ci.json.setsRecord then withRecord ci.qname (pullFields self ci.json.pullFields ms st)
              else pullFields self ci.json.pullFields ms st)
            pure (.obj st)
          | _ => M.stuck
        | j => mismatch (jtypeOf (.cls c)) j v
  | .dateTime => pullTime E.dtParse j v
  | .timeSpan => pullTime E.tsParse j v

/-- `JsonReflector::pull` with recursion budget. -/
def pull (E : Env) : Nat → Ty → Json → Val → PM Val
  | 0 => fun _ _ _ => M.outOfFuel
  | n + 1 => pullStep E (pull E n)

end Verif
