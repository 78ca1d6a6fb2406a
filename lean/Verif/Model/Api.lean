import Verif.Model.Pull

/-!
# High-level JSON functions (lib/json/reflector.h 62-81, 1014-1185; lib/json/serializable.h)

The parser (`rapidjson::Document::Parse`) is a parameter here.
-/

namespace Verif

/-- `rapidjson::ParseResult` of a failing parse: error code and offset. -/
structure ParseErr where
  code : Nat
  offset : Nat
deriving DecidableEq, Repr, Inhabited

/-- What `fromJson` can throw. -/
inductive ApiExc where
  | parse (e : ParseErr)
  | err (e : Err)
deriving DecidableEq, Repr

abbrev AM := M ApiExc (Option ErrSt)

/-- a call of `pull` or a report function -/
def liftP {α : Type} (m : PM α) : AM α := fun s =>
  match m s with
  | .ok a s => .ok a s
  | .exc e s => .exc (.err e) s
  | .ub => .ub
  | .stuck => .stuck
  | .fuel => .fuel

/-- `rapidjson::Document::Parse` -/
abbrev Parser := Str → Except ParseErr Json

/-- `parseJsonDocFromString` (reflector.h 73-81) -/
def parseDoc (P : Parser) (json : Str) : AM Json :=
  match P json with
  | .ok j => pure j
  | .error e => M.throw (.parse e)

/-- `if (errors) errors->reportTypeMismatch<Type>(doc.GetType()); return Type();` (reflector.h 1102-1107, 1121-1126,
1138-1143, 1155-1160) -/
def topMismatch (E : Env) (t : Ty) (j : Json) : AM Val := do
  liftP (report .typeMismatch (jtypeOf t) j.jtype)
  pure (E.valInit t)

/-- `IsFloat()` for a number stored as `double`: `-3.4028234e38 <= d && d <= 3.4028234e38` (rapidjson/document.h,
external) -/
def floatRange (d : BitVec 64) : Bool := (d &&& 0x7FFFFFFFFFFFFFFF) ≤ (0x47efffffd586b834 : BitVec 64)

/-- `fromJson(const char *json, std::size_t jsonSize, JsonDeserializationErrors *errors)` (reflector.h 1098-1165). Types
for which none of the overloads is enabled (or which RapidJSON's `Is`/`Get` do not support) yield `stuck`. -/
def fromJson (E : Env) (P : Parser) (n : Nat) (t : Ty) (json : Str) : AM Val :=
  match t with
  -- custom types and maps (1098-1112)
  | .cls c => do
    let doc ← parseDoc P json
    match doc with
    | .obj ms => liftP (pull E n (.cls c) (.obj ms) (E.defInit (.cls c)))
    | j => topMismatch E (.cls c) j
  | .map hashed multi k v => do
    let doc ← parseDoc P json
    match doc with
    | .obj ms => liftP (pull E n (.map hashed multi k v) (.obj ms) (E.defInit (.map hashed multi k v)))
    | j => topMismatch E (.map hashed multi k v) j
  -- numbers and booleans (1117-1129)
  | .bool => do
    let doc ← parseDoc P json
    match doc with
    | .bool b => pure (.bool b)
    | j => topMismatch E .bool j
  | .int it =>
    if jsonInt it then do
      let doc ← parseDoc P json
      match doc with
      | .num (.int i) => if it.inRange i then pure (.int i) else topMismatch E (.int it) doc
      | j => topMismatch E (.int it) j
    else M.stuck
  | .f32 => do
    let doc ← parseDoc P json
    match doc with
    | .num (.dbl d) => if floatRange d then pure (.f32 (Ieee.narrow d)) else topMismatch E .f32 doc
    | j => topMismatch E .f32 j
  | .f64 => do
    let doc ← parseDoc P json
    match doc with
    | .num (.dbl d) => pure (.f64 d)
    | j => topMismatch E .f64 j
  -- std::string (1134-1146): converted from the const char * returned by GetString()
  | .str => do
    let doc ← parseDoc P json
    match doc with
    | .str s => pure (.str (cstrOf s))
    | j => topMismatch E .str j
  -- arrays (1151-1165); sets are excluded by IsArray (lib/traits.h 50-52)
  | .vec t' => do
    let doc ← parseDoc P json
    match doc with
    | .arr js => liftP (pull E n (.vec t') (.arr js) (E.defInit (.vec t')))
    | j => topMismatch E (.vec t') j
  | _ => M.stuck

/-- `fromJson(const char *json, errors)`: `strlen` determines the length (reflector.h 1170-1173, serializable.h 79-82).
`buf` is the memory at `json` which contains a NUL. -/
def fromJsonCStr (E : Env) (P : Parser) (n : Nat) (t : Ty) (buf : Str) : AM Val := fromJson E P n t (cstrOf buf)

/-- `fromJson(const std::string &json, errors)` (reflector.h 1178-1181, serializable.h 87-90) -/
def fromJsonStr (E : Env) (P : Parser) (n : Nat) (t : Ty) (json : Str) : AM Val := fromJson E P n t json

/-- `toJsonDocument` (reflector.h 1019-1079): custom types, maps and arrays are pushed; numbers and booleans are set
directly; strings are set without limiting their length, so RapidJSON's 32-bit size wraps around. For `std::string` and C-strings
the template argument must be given explicitly; `std::string_view`s are handled by the overload for arrays and therefore pushed
(the overload for them can not be called, see `C62_toJsonDocument_explicit_iff`). -/
def toJsonDocument (E : Env) (H : Heap) (n : Nat) (t : Ty) (v : Val) : SM Json :=
  match t, v with
  | .cls c, v => push E H n (.cls c) v
  | .map hashed multi k t', v => push E H n (.map hashed multi k t') v
  | .vec t', v => push E H n (.vec t') v
  | .bool, .bool b => pure (.bool b)
  | .int .i32, .int i => pure (.num (.int i))
  | .int .u32, .int i => pure (.num (.int i))
  | .int .i64, .int i => pure (.num (.int i))
  | .int .u64, .int i => pure (.num (.int i))
  | .f32, .f32 b => pure (.num (.dbl (Ieee.widen b)))
  | .f64, .f64 b => pure (.num (.dbl b))
  | .str, .str s => pure (.str (s.take (s.length % 2 ^ 32)))
  | .cstr, .cstr (some s) => pure (.str (rjStrRef s))
  | .cstr, .cstr none => M.ub
  | .sview, v => push E H n .sview v
  -- reading an uninitialised scalar
  | .bool, .indet => M.ub
  | .int .i32, .indet => M.ub
  | .int .u32, .indet => M.ub
  | .int .i64, .indet => M.ub
  | .int .u64, .indet => M.ub
  | .f32, .indet => M.ub
  | .f64, .indet => M.ub
  | .str, .indet => M.ub
  | .cstr, .indet => M.ub
  | _, _ => M.stuck

end Verif
