import Verif.Model.Pull

/-!
# The object being read when an exception is thrown

`Model/Pull.lean` gives the object only if the function returns. Here exceptions additionally carry what the object passed to `pull` has
become by the time it is thrown (lib/json/reflector.h 526-1012).
-/

namespace Verif

/-- Computations of the deserialisation functions; what is thrown comes with the state of the object being read. -/
abbrev XM := M (Err × Val) (Option ErrSt)

/-- `m` does not touch the object, which is in state `q` meanwhile. -/
def holding {α : Type} (q : Val) (m : PM α) : XM α := fun s =>
  match m s with
  | .ok a s => .ok a s
  | .exc e s => .exc (e, q) s
  | .ub => .ub
  | .stuck => .stuck
  | .fuel => .fuel

/-- `m` reads a part of the object, which is in state `g q` if the part is in state `q`. -/
def within {α : Type} (g : Val → Val) (m : XM α) : XM α := fun s =>
  match m s with
  | .ok a s => .ok a s
  | .exc (e, q) s => .exc (e, g q) s
  | .ub => .ub
  | .stuck => .stuck
  | .fuel => .fuel

/-- setting the context of errors (which never throws) -/
def ctx {α : Type} (m : PM α) : XM α := holding .null m

/-- see `withMember` -/
def withMemberX {α : Type} (name : Str) (m : XM α) : XM α := do
  let prev ← ctx getMember
  ctx (setMember (some name))
  let r ← m
  ctx (setMember prev)
  pure r

/-- see `withRecord` -/
def withRecordX {α : Type} (name : Str) (m : XM α) : XM α := do
  let prev ← ctx getRecord
  ctx (setRecord (some name))
  let r ← m
  ctx (setRecord prev)
  pure r

/-- see `forIdx` -/
def forIdxX {β : Type} (f : Json → β → XM β) : List Json → Nat → β → XM β
  | [], _, b => do
    ctx (setIndex noIndex)
    pure b
  | j :: js, i, b => do
    ctx (setIndex i)
    let b ← f j b
    forIdxX f js (i + 1) b

section
variable (E : Env) (self : Ty → Json → Val → XM Val)

/-- `reflectable.emplace_back(); pull(reflectable.back(), item, errors);`: the element read last is part of the array already
(reflector.h 675-676). -/
def vecItemX (t : Ty) (j : Json) (vs : List Val) : XM (List Val) := do
  let v ← within (fun q => .list (vs ++ [q])) (self t j (E.valInit t))
  pure (vs ++ [v])

/-- `value_type itemObj; pull(itemObj, ...); reflectable.emplace(std::move(itemObj));`: the element read last is a separate object
(reflector.h 702-704). -/
def multisetItemX (t : Ty) (j : Json) (vs : List Val) : XM (List Val) := do
  let v ← within (fun _ => .list vs) (self t j (E.defInit t))
  if v.hasIndet then M.ub else pure (insertMulti (E.lt t) v vs)

/-- likewise for sets; an error for duplicates is reported after inserting (reflector.h 730-734) -/
def setItemX (t : Ty) (j : Json) (vs : List Val) : XM (List Val) := do
  let v ← within (fun _ => .list vs) (self t j (E.defInit t))
  if v.hasIndet then M.ub
  else
    let r := insertUniq (E.lt t) v vs
    if r.2 then pure r.1
    else do
      holding (.list r.1) reportDuplicateUnchecked
      pure r.1

/-- `pull(reflectable[i->name.GetString()], i->value, errors)`: the entry exists already when its value is read (reflector.h 756-758). -/
def pullMapEntriesX (t : Ty) : List (Key × Json) → List (Val × Val) → XM (List (Val × Val))
  | [], kvs => pure kvs
  | (k, j) :: ms, kvs => do
    let key := Val.str (cstrOf k.bytes)
    let v ← within (fun q => .map (mapSet (E.lt .str) key q kvs)) (self t j ((mapFind (E.lt .str) key kvs).getD (E.valInit t)))
    pullMapEntriesX t ms (mapSet (E.lt .str) key v kvs)

/-- `insertedIterator = reflectable.insert(...); pull(insertedIterator->second, ...)` (reflector.h 775-776, 781-782) -/
def pullMultimapItemsX (t : Ty) (key : Str) : List Json → List (Val × Val) → XM (List (Val × Val))
  | [], kvs => pure kvs
  | j :: js, kvs => do
    let v ← within (fun q => .map (mapInsertMulti (E.lt .str) (.str key) q kvs)) (self t j (E.valInit t))
    pullMultimapItemsX t key js (mapInsertMulti (E.lt .str) (.str key) v kvs)

/-- reflector.h 773-785 -/
def pullMultimapEntriesX (t : Ty) : List (Key × Json) → List (Val × Val) → XM (List (Val × Val))
  | [], kvs => pure kvs
  | (k, j) :: ms, kvs => do
    let kvs ← pullMultimapItemsX E self t (cstrOf k.bytes) (match j with | .arr js => js | j => [j]) kvs
    pullMultimapEntriesX t ms kvs

/-- `TuplePullHelper` (reflector.h 794-810): components are read in place; `done` are the ones which have been read. -/
def pullTupleX : List Val → List Ty → List Json → List Val → XM (List Val)
  | _, [], [], [] => pure []
  | done, t :: ts, j :: js, v :: vs => do
    let v ← within (fun q => .tup (done ++ q :: vs)) (self t j v)
    let vs ← pullTupleX (done ++ [v]) ts js vs
    pure (v :: vs)
  | _, _, _, _ => M.stuck

/-- bases are parts of the same object (jsonserializationcodegenerator.cpp 143-146) -/
def pullBasesX : List ClassId → List (Key × Json) → Val → XM Val
  | [], _, v => pure v
  | b :: bs, ms, v => do
    let v ← self (.cls b) (.obj ms) v
    pullBasesX bs ms v

/-- members are read in place (reflector.h 973-997) -/
def pullFieldX (f : Field) (ms : List (Key × Json)) (st : Store) : XM Store :=
  match findMember f.name ms with
  | none => pure st
  | some j =>
    match st.get? f.key with
    | none => M.stuck
    | some v => do
      let v' ← withMemberX f.name (within (fun q => .obj (st.set f.key q)) (self f.ty j v))
      pure (st.set f.key v')

def pullFieldsX : List Field → List (Key × Json) → Store → XM Store
  | [], _, st => pure st
  | f :: fs, ms, st => do
    let st ← pullFieldX self f ms st
    pullFieldsX fs ms st

end

/-- All `pull` overloads. The overloads for types without parts assign the object at the very end if at all; the ones for containers,
tuples, variants and classes check the type of the JSON value before changing the object. -/
def pullXStep (E : Env) (self : Ty → Json → Val → XM Val) (t : Ty) (j : Json) (v : Val) : XM Val :=
  match t with
  -- array (629-683): cleared before reading the elements
  | .vec t' =>
    match j with
    | .arr js => do
      let vs ← forIdxX (vecItemX E self t') js 0 []
      pure (.list vs)
    | j => holding v (mismatch (jtypeOf (.vec t')) j v)
  -- multiset (688-711), set (716-741): cleared before reading the elements
  | .set hashed multi t' =>
    match j with
    | .arr js => do
      let vs ← forIdxX (if multi then multisetItemX E self t' else setItemX E self t') js 0 []
      pure (.list vs)
    | j => holding v (mismatch (jtypeOf (.set hashed multi t')) j v)
  -- map (746-759), multimap (764-786)
  | .map hashed multi .str t' =>
    match j with
    | .obj ms =>
      match v with
      | .map kvs => do
        let kvs ← (if multi then pullMultimapEntriesX E self t' ms kvs else pullMapEntriesX E self t' ms kvs)
        pure (.map kvs)
      | _ => M.stuck
    | j => holding v (mismatch (jtypeOf (.map hashed multi .str t')) j v)
  -- pair (836-855)
  | .pair a b =>
    match j with
    | .arr js =>
      if js.length ≠ 2 then holding v do
        report .arraySizeMismatch .array .array
        pure v
      else
        match v with
        | .tup vs => do
          let vs ← pullTupleX self [] [a, b] js vs
          pure (.tup vs)
        | _ => M.stuck
    | j => holding v (mismatch (jtypeOf (.pair a b)) j v)
  -- tuple (794-831)
  | .tuple ts =>
    match j with
    | .arr js =>
      if js.length ≠ ts.length then holding v do
        report .arraySizeMismatch .array .array
        pure v
      else
        match v with
        | .tup vs => do
          let vs ← pullTupleX self [] ts js vs
          pure (.tup vs)
        | _ => M.stuck
    | j => holding v (mismatch (jtypeOf (.tuple ts)) j v)
  -- unique_ptr (860-869), shared_ptr (874-883), optional (888-896): the new object is assigned before being read
  | .uptr t' =>
    match j with
    | .null => pure .null
    | j => do
      let v ← within .ptr (self t' j (E.valInit t'))
      pure (.ptr v)
  | .sptr t' =>
    match j with
    | .null => pure .null
    | j => do
      let v ← within .ptr (self t' j (E.valInit t'))
      pure (.ptr v)
  | .opt t' =>
    match j with
    | .null => pure .null
    | j => do
      let v ← within .some (self t' j (E.valInit t'))
      pure (.some v)
  -- variant (899-956): likewise
  | .variant ts =>
    match j with
    | .obj ms =>
      match findMember (lit "index") ms, findMember (lit "data") ms with
      | some ji, some jd =>
        match uint64? ji with
        | none => holding v do
          report .invalidVariantIndex .number ji.jtype
          pure v
        | some i =>
          match ts[i]? with
          | none => holding v do
            report .invalidVariantIndex .number .number
            pure v
          | some .mono => pure (.alt i .mono)
          | some t' => do
            let v ← within (.alt i) (self t' jd (E.valInit t'))
            pure (.alt i v)
      | _, _ => holding v do
        report .invalidVariantObject .object .object
        pure v
    | j => holding v (mismatch (jtypeOf (.variant ts)) j v)
  -- classes (1002-1012; jsonserializationcodegenerator.cpp 139-175)
  | .cls c =>
    match E.cls c with
    | none => M.stuck
    | some ci =>
      if ci.json.pullable = false then M.stuck
      else
        match j with
        | .obj ms => do
          let v ← pullBasesX self ci.json.bases ms v
          match v with
          | .obj st => do
            let st ← (if ci.json.setsRecord then withRecordX ci.qname (pullFieldsX self ci.json.pullFields ms st)
              else pullFieldsX self ci.json.pullFields ms st)
            pure (.obj st)
          | _ => M.stuck
        | j => holding v (mismatch (jtypeOf (.cls c)) j v)
  -- types without parts (531-624; reflector-chronoutilities.h 40-68)
  | t => holding v (pullStep E (fun _ _ _ => M.stuck) t j v)

/-- `JsonReflector::pull` with recursion budget. -/
def pullX (E : Env) : Nat → Ty → Json → Val → XM Val
  | 0 => fun _ _ _ => M.outOfFuel
  | n + 1 => pullXStep E (pullX E n)

end Verif
