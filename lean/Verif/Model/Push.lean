import Verif.Model.Json

/-!
# JSON serialisation: `JsonReflector::push` (lib/json/reflector.h 136-410)

`push` never throws and has no state (allocation failure is not modelled), so it runs in `SM`. `H` is the heap
`std::shared_ptr`s refer into. Recursive calls of the overload set are calls of `self`.
-/

namespace Verif

abbrev SM := M Empty Unit

/-- Heap of objects owned by smart pointers. -/
abbrev Heap := Nat → Option Val

/-- `rapidJsonSize` (reflector.h 53-57): the number of bytes of a string handed to RapidJSON. -/
def rapidJsonSize (n : Nat) : Nat := if n > 2 ^ 32 - 1 then 2 ^ 32 - 1 else n

/-- `value.SetString(s.data(), rapidJsonSize(s.size()), allocator)` (reflector.h 199, 211) -/
def rjString (s : Str) : Str := s.take (rapidJsonSize s.length)

/-- `StringRef(const char *)`: RapidJSON determines the length via its `StrLen` which returns a 32-bit size. -/
def rjStrRef (s : Str) : Str := (cstrOf s).take ((cstrOf s).length % 2 ^ 32)

/-- `FindMember(name)`: first member with that name. -/
def findMember (name : Str) : List (Key × Json) → Option Json
  | [] => none
  | (k, j) :: ms => if k.bytes = name then some j else findMember name ms

/-- `existingMember->value.GetArray().PushBack(...)` on the first member named `name` -/
def appendToMember (name : Str) (j : Json) : List (Key × Json) → List (Key × Json)
  | [] => []
  | (k, j') :: ms =>
    if k.bytes = name then
      match j' with
      | .arr js => (k, .arr (js ++ [j])) :: ms
      | _ => (k, j') :: ms
    else (k, j') :: appendToMember name j ms

/-- Body of the loop over a multimap (reflector.h 260-272). -/
def addToGroup (name : Str) (j : Json) (ms : List (Key × Json)) : List (Key × Json) :=
  match findMember name ms with
  | some (.arr _) => appendToMember name j ms
  | _ => ms ++ [(⟨name, .borrowed⟩, .arr [j])]

section
variable (self : Ty → Val → SM Json)

/-- `for (const auto &item : reflectable) push(item, array, allocator);` (reflector.h 217-239, 368-385) -/
def pushElems (t : Ty) : List Val → SM (List Json)
  | [] => pure []
  | v :: vs => do
    let j ← self t v
    let js ← pushElems t vs
    pure (j :: js)

/-- `TuplePushHelper` (reflector.h 280-306) -/
def pushTuple : List Ty → List Val → SM (List Json)
  | [], [] => pure []
  | t :: ts, v :: vs => do
    let j ← self t v
    let js ← pushTuple ts vs
    pure (j :: js)
  | _, _ => M.stuck

/-- loop over the entries of a `std::(unordered_)map` (reflector.h 249-251): the name is `StringRef(item.first.data())` -/
def pushMapEntries (t : Ty) : List (Val × Val) → SM (List (Key × Json))
  | [] => pure []
  | (.str k, v) :: kvs => do
    let j ← self t v
    let ms ← pushMapEntries t kvs
    pure ((⟨rjStrRef k, .borrowed⟩, j) :: ms)
  | _ => M.stuck

/-- loop over the entries of a `std::(unordered_)multimap` (reflector.h 260-272) -/
def pushMultimapEntries (t : Ty) : List (Val × Val) → List (Key × Json) → SM (List (Key × Json))
  | [], ms => pure ms
  | (.str k, v) :: kvs, ms => do
    let j ← self t v
    pushMultimapEntries t kvs (addToGroup (rjString k) j ms)
  | _, _ => M.stuck

/-- `push(static_cast<const Base &>(reflectable), value, allocator)` for all bases, adding to the same object
(generator/jsonserializationcodegenerator.cpp 115-121). Appending to the object is expressed by concatenation. -/
def pushBases : List ClassId → Val → SM (List (Key × Json))
  | [], _ => pure []
  | b :: bs, v => do
    let j ← self (.cls b) v
    match j with
    | .obj ms => do
      let ms' ← pushBases bs v
      pure (ms ++ ms')
    | _ => M.stuck

/-- `push(reflectable.m, "m", value, allocator)` for all members (jsonserializationcodegenerator.cpp 122-128,
reflector.h 390-410) -/
def pushFields : List Field → Store → SM (List (Key × Json))
  | [], _ => pure []
  | f :: fs, st =>
    match st.get? f.key with
    | none => M.stuck
    | some v => do
      let j ← self f.ty v
      let ms ← pushFields fs st
      pure ((⟨f.name, .literal⟩, j) :: ms)

end

/-- All `push` overloads for a target `Value`. -/
def pushStep (E : Env) (H : Heap) (self : Ty → Val → SM Json) (t : Ty) (v : Val) : SM Json :=
  match t, v with
  -- reading an uninitialised scalar
  | _, .indet => M.ub
  -- integer/float/boolean: value.Set(reflectable) (reflector.h 151-158); 8-bit via int (163-167)
  | .bool, .bool b => pure (.bool b)
  | .int .i8, .int i => pure (.num (.int i))
  | .int .u8, .int i => pure (.num (.int i))
  | .int .i32, .int i => pure (.num (.int i))
  | .int .u32, .int i => pure (.num (.int i))
  | .int .i64, .int i => pure (.num (.int i))
  | .int .u64, .int i => pure (.num (.int i))
  | .f32, .f32 b => pure (.num (.dbl (Ieee.widen b)))
  | .f64, .f64 b => pure (.num (.dbl b))
  -- enum (reflector.h 172-177): cast to (u)int64_t
  | .enum _, .int i => pure (.num (.int i))
  -- const char * (reflector.h 182-190)
  | .cstr, .cstr none => pure .null
  | .cstr, .cstr (some s) => pure (.str (rjStrRef s))
  -- std::string_view (reflector.h 195-203)
  | .sview, .cstr none => pure .null
  | .sview, .cstr (some s) => pure (.str (rjString s))
  -- std::string (reflector.h 208-212)
  | .str, .str s => pure (.str (rjString s))
  -- arrays and sets (reflector.h 217-239)
  | .vec t, .list vs => do
    let js ← pushElems self t vs
    pure (.arr js)
  | .set hashed _ t, .list vs => do
    let js ← pushElems self t (E.order hashed vs)
    pure (.arr js)
  -- maps (reflector.h 244-252)
  | .map hashed false .str t, .map kvs => do
    let ms ← pushMapEntries self t (E.orderKV hashed kvs)
    pure (.obj ms)
  -- multimaps (reflector.h 257-273)
  | .map hashed true .str t, .map kvs => do
    let ms ← pushMultimapEntries self t (E.orderKV hashed kvs) []
    pure (.obj ms)
  -- pair (reflector.h 311-319), tuple (297-306)
  | .pair a b, .tup vs => do
    let js ← pushTuple self [a, b] vs
    pure (.arr js)
  | .tuple ts, .tup vs => do
    let js ← pushTuple self ts vs
    pure (.arr js)
  -- smart pointers and optionals (reflector.h 324-334)
  | .opt _, .null => pure .null
  | .uptr _, .null => pure .null
  | .sptr _, .null => pure .null
  | .opt t, .some v => self t v
  | .uptr t, .ptr v => self t v
  | .sptr t, .ptr v => self t v
  -- (an object may be represented inside its pointer or in the heap)
  | .uptr t, .ref a =>
    match H a with
    | some v => self t v
    | none => M.ub
  | .sptr t, .ref a =>
    match H a with
    | some v => self t v
    | none => M.ub
  -- variant (reflector.h 339-363)
  | .variant _, .valueless => pure .null
  | .variant ts, .alt i v =>
    match ts[i]? with
    | none => M.stuck
    | some .mono =>
      pure (.obj [(⟨lit "index", .literal⟩, .num (.int i)), (⟨lit "data", .literal⟩, .null)])
    | some t => do
      let j ← self t v
      pure (.obj [(⟨lit "index", .literal⟩, .num (.int i)), (⟨lit "data", .literal⟩, j)])
  -- custom types: value.SetObject() and class code (reflector.h 140-146)
  | .cls c, .obj st =>
    match E.cls c with
    | none => M.stuck
    | some ci => do
      let ms ← pushBases self ci.json.bases (.obj st)
      let ms' ← pushFields self ci.json.pushFields st
      pure (.obj (ms ++ ms'))
  -- DateTime, TimeSpan (lib/json/reflector-chronoutilities.h 22-36)
  | .dateTime, .tick i => pure (.str (rjString (E.dtPrint i)))
  | .timeSpan, .tick i => pure (.str (rjString (E.tsPrint i)))
  | _, _ => M.stuck

/-- `JsonReflector::push` with recursion budget. -/
def push (E : Env) (H : Heap) : Nat → Ty → Val → SM Json
  | 0 => fun _ _ => M.outOfFuel
  | n + 1 => pushStep E H (push E H n)

end Verif
