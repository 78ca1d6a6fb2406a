import Verif.Model.Pull

/-!
# The RapidJSON-level functions: writing into and reading from existing arrays and objects

lib/json/reflector.h 101-135, 140-410: the overloads of `push` which add to a `Value::Array` or `Value::Object` the caller (or
another overload) provides, transcribed with the array or object being passed through all calls. `Model/Push.lean` models the same
overloads as functions returning the part which is added. Reading: `pull` of a named member (973-997) and from an iterator
(961-966).
-/

namespace Verif

abbrev ObjMembers := List (Key × Json)

/-- `existingMember->value` is modified through the `Array` obtained from it: the first member of that name -/
def setMemberValue (name : Str) (j : Json) : ObjMembers → ObjMembers
  | [] => []
  | (k, j') :: ms => if k.bytes = name then (k, j) :: ms else (k, j') :: setMemberValue name j ms

section
variable (E : Env) (H : Heap) (V : Ty → Val → SM Json) (O : ClassId → Val → ObjMembers → SM ObjMembers)

/-- `push(reflectable, array, allocator)`: for serializable classes (reflector.h 368-375) and other types (380-386) -/
def pushItem (t : Ty) (v : Val) (js : List Json) : SM (List Json) :=
  match t with
  | .cls c => do
    let ms ← O c v []
    pure (js ++ [.obj ms])
  | t => do
    let j ← V t v
    pure (js ++ [j])

/-- `push(reflectable, name, object, allocator)`: for serializable classes (reflector.h 391-399) and other types (404-410); `k` is
`StringRef(name)` -/
def pushNamed (t : Ty) (v : Val) (k : Key) (ms : ObjMembers) : SM ObjMembers :=
  match t with
  | .cls c => do
    let ms' ← O c v []
    pure (ms ++ [(k, .obj ms')])
  | t => do
    let j ← V t v
    pure (ms ++ [(k, j)])

/-- `for (const auto &item : reflectable) push(item, array, allocator);` (reflector.h 223-225, 236-238) -/
def pushItems (t : Ty) : List Val → List Json → SM (List Json)
  | [], js => pure js
  | v :: vs, js => do
    let js ← pushItem V O t v js
    pushItems t vs js

/-- `TuplePushHelper` (reflector.h 280-292), `push` of the components of a pair (317-318) -/
def pushComponents : List Ty → List Val → List Json → SM (List Json)
  | [], [], js => pure js
  | t :: ts, v :: vs, js => do
    let js ← pushItem V O t v js
    pushComponents ts vs js
  | _, _, _ => M.stuck

/-- loop over the entries of a map (reflector.h 249-251) -/
def pushEntries (t : Ty) : List (Val × Val) → ObjMembers → SM ObjMembers
  | [], ms => pure ms
  | (.str k, v) :: kvs, ms => do
    let ms ← pushNamed V O t v ⟨rjStrRef k, .borrowed⟩ ms
    pushEntries t kvs ms
  | _, _ => M.stuck

/-- loop over the entries of a multimap (reflector.h 260-272) -/
def pushGroups (t : Ty) : List (Val × Val) → ObjMembers → SM ObjMembers
  | [], ms => pure ms
  | (.str k, v) :: kvs, ms =>
    match findMember (rjString k) ms with
    | some (.arr js) => do
      let js ← pushItem V O t v js
      pushGroups t kvs (setMemberValue (rjString k) (.arr js) ms)
    | _ => do
      let js ← pushItem V O t v []
      pushGroups t kvs (ms ++ [(⟨rjString k, .borrowed⟩, .arr js)])
  | _, _ => M.stuck

/-- generated code: `push(static_cast<const Base &>(reflectable), value, allocator);` for all bases
(jsonserializationcodegenerator.cpp 115-121) -/
def pushIntoBases : List ClassId → Val → ObjMembers → SM ObjMembers
  | [], _, ms => pure ms
  | b :: bs, v, ms => do
    let ms ← O b v ms
    pushIntoBases bs v ms

/-- generated code: `push(reflectable.m, "m", value, allocator);` for all members (jsonserializationcodegenerator.cpp 122-128) -/
def pushIntoFields : List Field → Store → ObjMembers → SM ObjMembers
  | [], _, ms => pure ms
  | f :: fs, st, ms =>
    match st.get? f.key with
    | none => M.stuck
    | some v => do
      let ms ← pushNamed V O f.ty v ⟨f.name, .literal⟩ ms
      pushIntoFields fs st ms

/-- `push(reflectable, object, allocator)` for a class: the generated function (jsonserializationcodegenerator.cpp 107-129) -/
def pushObjectStep (c : ClassId) (v : Val) (ms : ObjMembers) : SM ObjMembers :=
  match v with
  | .indet => M.ub
  | .obj st =>
    match E.cls c with
    | none => M.stuck
    | some ci => do
      let ms ← pushIntoBases O ci.json.bases (.obj st) ms
      pushIntoFields V O ci.json.pushFields st ms
  | _ => M.stuck

/-- `push(reflectable, value, allocator)` (reflector.h 140-363); whatever `value` contained is replaced. `O'` is the function for
adding a class's members to an object on the same level as this function. Types without parts are as in `pushStep`. -/
def pushValueStep (O' : ClassId → Val → ObjMembers → SM ObjMembers) (t : Ty) (v : Val) : SM Json :=
  match t, v with
  | _, .indet => M.ub
  | .vec t, .list vs => do
    let js ← pushItems V O t vs []
    pure (.arr js)
  | .set hashed _ t, .list vs => do
    let js ← pushItems V O t (E.order hashed vs) []
    pure (.arr js)
  | .map hashed false .str t, .map kvs => do
    let ms ← pushEntries V O t (E.orderKV hashed kvs) []
    pure (.obj ms)
  | .map hashed true .str t, .map kvs => do
    let ms ← pushGroups V O t (E.orderKV hashed kvs) []
    pure (.obj ms)
  | .pair a b, .tup vs => do
    let js ← pushComponents V O [a, b] vs []
    pure (.arr js)
  | .tuple ts, .tup vs => do
    let js ← pushComponents V O ts vs []
    pure (.arr js)
  | .cls c, v => do
    let ms ← O' c v []
    pure (.obj ms)
  | t, v => pushStep E H V t v

end

/-- The overloads for values and for objects, with recursion budget. -/
def pushInto (E : Env) (H : Heap) : Nat → (Ty → Val → SM Json) × (ClassId → Val → ObjMembers → SM ObjMembers)
  | 0 => (fun _ _ => M.outOfFuel, fun _ _ _ => M.outOfFuel)
  | n + 1 =>
    let V := (pushInto E H n).1
    let O := (pushInto E H n).2
    let O' := pushObjectStep E V O
    (pushValueStep E H V O O', O')

/-! ## What a caller uses -/

/-- `JsonReflector::push(reflectable, value, allocator)` with `value` containing `old` -/
def pushToValue (E : Env) (H : Heap) (n : Nat) (t : Ty) (v : Val) (_old : Json) : SM Json := (pushInto E H n).1 t v

/-- `JsonReflector::push(reflectable, array, allocator)` -/
def pushToArray (E : Env) (H : Heap) (n : Nat) (t : Ty) (v : Val) (js : List Json) : SM (List Json) :=
  pushItem (pushInto E H n).1 (pushInto E H n).2 t v js

/-- `JsonReflector::push(reflectable, name, object, allocator)` -/
def pushAsMember (E : Env) (H : Heap) (n : Nat) (t : Ty) (v : Val) (name : Str) (ms : ObjMembers) : SM ObjMembers :=
  pushNamed (pushInto E H n).1 (pushInto E H n).2 t v ⟨rjStrRef name, .borrowed⟩ ms

/-- `JsonReflector::push(reflectable, object, allocator)` for a class -/
def pushToObject (E : Env) (H : Heap) (n : Nat) (c : ClassId) (v : Val) (ms : ObjMembers) : SM ObjMembers := (pushInto E H n).2 c v ms

/-- `JsonReflector::pull(reflectable, name, object, errors)` (reflector.h 973-997); `FindMember(const char *)` uses the length
determined by `StrLen` -/
def pullNamed (E : Env) (n : Nat) (t : Ty) (name : Str) (ms : ObjMembers) (v : Val) : PM Val :=
  match findMember (rjStrRef name) ms with
  | none => pure v
  | some j => withMember name (pull E n t j v)

/-- `JsonReflector::pull(reflectable, iterator, errors)` (reflector.h 961-966); the iterator is represented by the items from its
position on; dereferencing the end is undefined -/
def pullNext (E : Env) (n : Nat) (t : Ty) (js : List Json) (v : Val) : PM (Val × List Json) :=
  match js with
  | [] => M.ub
  | j :: js => do
    let v ← pull E n t j v
    pure (v, js)

end Verif
