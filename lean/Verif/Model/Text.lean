import Verif.Model.Api
import Verif.Model.Format

/-!
# JSON text

`serializeJsonDocToString` and `parseJsonDocFromString` (lib/json/reflector.h 62-81): RapidJSON's `Writer` and `Reader` with
default flags (rapidjson/writer.h, rapidjson/reader.h; external, modelled from its documented behaviour).

Simplifications: the conversions between `double` and decimal text are parameters (`Dbl`); the parser's recursion depth and
string lengths are not limited; offsets of parse errors are not computed.
-/

namespace Verif

/-- The conversions between `double` and text: `internal::dtoa` for finite numbers, and the number a text with a fraction,
with an exponent or out of the range of 64-bit integers is converted to (`none` if it is too big). -/
structure Dbl where
  print : BitVec 64 → Str
  parse : Str → Option (BitVec 64)

/-! ## Writer -/

def hexDigit (n : Nat) : UInt8 := if n < 10 then UInt8.ofNat (48 + n) else UInt8.ofNat (55 + n)

/-- `Writer::WriteString`: the escape table and `\u00XX` for other control characters; all other bytes are copied (no
encoding validation) -/
def escapeByte (c : UInt8) : Str :=
  if c = 0x22 then [0x5c, 0x22]
  else if c = 0x5c then [0x5c, 0x5c]
  else if c = 0x08 then [0x5c, 0x62]
  else if c = 0x0c then [0x5c, 0x66]
  else if c = 0x0a then [0x5c, 0x6e]
  else if c = 0x0d then [0x5c, 0x72]
  else if c = 0x09 then [0x5c, 0x74]
  else if c < 0x20 then [0x5c, 0x75, 0x30, 0x30, hexDigit (c.toNat / 16), hexDigit (c.toNat % 16)]
  else [c]

def writeString (s : Str) : Str := 0x22 :: (s.flatMap escapeByte ++ [0x22])

/-- `Writer::WriteInt`, `WriteUint`, `WriteInt64`, `WriteUint64` -/
def writeInt (i : Int) : Str := if i < 0 then 0x2d :: decimal i.natAbs else decimal i.natAbs

mutual
/-- `Value::Accept(writer)`: the text written so far and whether all handlers returned `true`. `Writer::Double` returns
`false` without writing anything if the number is not finite; `Accept` returns immediately then. Commas and colons have been
written before the value (`Writer::Prefix`). -/
def printV (D : Dbl) : Json → Str × Bool
  | .null => (lit "null", true)
  | .bool true => (lit "true", true)
  | .bool false => (lit "false", true)
  | .num (.int i) => (writeInt i, true)
  | .num (.dbl d) => if Ieee.isFinite d then (D.print d, true) else ([], false)
  | .str s => (writeString s, true)
  | .arr js =>
    let (s, ok) := printItems D js
    if ok then (0x5b :: (s ++ [0x5d]), true) else (0x5b :: s, false)
  | .obj ms =>
    let (s, ok) := printMembers D ms
    if ok then (0x7b :: (s ++ [0x7d]), true) else (0x7b :: s, false)

/-- the elements of an array, separated by commas -/
def printItems (D : Dbl) : List Json → Str × Bool
  | [] => ([], true)
  | j :: js =>
    let (s, ok) := printV D j
    if !ok then (s, false)
    else if js.isEmpty then (s, true)
    else
      let (s', ok') := printItems D js
      (s ++ 0x2c :: s', ok')

/-- the members of an object: name, colon, value; separated by commas -/
def printMembers (D : Dbl) : List (Key × Json) → Str × Bool
  | [] => ([], true)
  | (k, j) :: ms =>
    let (s, ok) := printV D j
    let s := writeString k.bytes ++ 0x3a :: s
    if !ok then (s, false)
    else if ms.isEmpty then (s, true)
    else
      let (s', ok') := printMembers D ms
      (s ++ 0x2c :: s', ok')
end

/-- `serializeJsonDocToString` (reflector.h 62-68): the result of `Accept` is ignored -/
def printDoc (D : Dbl) (j : Json) : Str := (printV D j).1

/-! ## Reader -/

/-- error of the parser: RapidJSON's `ParseErrorCode`, or the recursion budget of the model was exhausted -/
inductive TextErr where
  | code (n : Nat)
  | fuel
deriving DecidableEq, Repr

abbrev Scan (α : Type) := Except TextErr (α × Str)

/-- `Stream::Peek()`: NUL at the end -/
def peek : Str → UInt8
  | [] => 0
  | c :: _ => c

/-- `SkipWhitespace` -/
def isWs (c : UInt8) : Bool := c = 0x20 || c = 0x0a || c = 0x0d || c = 0x09
def skipWs (s : Str) : Str := s.dropWhile isWs

/-- `ParseNull`, `ParseTrue`, `ParseFalse`: the rest of the literal is consumed byte by byte -/
def scanLit (l : Str) (j : Json) (s : Str) : Scan Json :=
  if l.isPrefixOf s then .ok (j, s.drop l.length) else .error (.code 3)

/-- one digit of `ParseHex4` -/
def hexVal (c : UInt8) : Option Nat :=
  if 48 ≤ c.toNat ∧ c.toNat ≤ 57 then some (c.toNat - 48)
  else if 65 ≤ c.toNat ∧ c.toNat ≤ 70 then some (c.toNat - 55)
  else if 97 ≤ c.toNat ∧ c.toNat ≤ 102 then some (c.toNat - 87)
  else none

/-- `ParseHex4` -/
def hex4 : Str → Option (Nat × Str)
  | a :: b :: c :: d :: s =>
    match hexVal a, hexVal b, hexVal c, hexVal d with
    | some a, some b, some c, some d => some (a * 4096 + b * 256 + c * 16 + d, s)
    | _, _, _, _ => none
  | _ => none

/-- `UTF8<>::Encode` -/
def utf8 (n : Nat) : Str :=
  if n ≤ 0x7f then [UInt8.ofNat n]
  else if n ≤ 0x7ff then [UInt8.ofNat (0xc0 + n / 64), UInt8.ofNat (0x80 + n % 64)]
  else if n ≤ 0xffff then [UInt8.ofNat (0xe0 + n / 4096), UInt8.ofNat (0x80 + n / 64 % 64), UInt8.ofNat (0x80 + n % 64)]
  else [UInt8.ofNat (0xf0 + n / 262144), UInt8.ofNat (0x80 + n / 4096 % 64), UInt8.ofNat (0x80 + n / 64 % 64),
    UInt8.ofNat (0x80 + n % 64)]

/-- the escape table of `ParseStringToStream` -/
def unescape (c : UInt8) : Option UInt8 :=
  if c = 0x22 then some 0x22
  else if c = 0x2f then some 0x2f
  else if c = 0x5c then some 0x5c
  else if c = 0x62 then some 0x08
  else if c = 0x66 then some 0x0c
  else if c = 0x6e then some 0x0a
  else if c = 0x72 then some 0x0d
  else if c = 0x74 then some 0x09
  else none

/-- `\u` escapes of `ParseStringToStream`; `s` is what follows the `u` -/
def scanUnicode (s : Str) : Scan Str :=
  match hex4 s with
  | none => .error (.code 8)
  | some (cp, s) =>
    if 0xd800 ≤ cp ∧ cp ≤ 0xdfff then
      -- only a high surrogate followed by a low surrogate is valid
      if cp ≤ 0xdbff then
        match s with
        | 0x5c :: 0x75 :: s =>
          match hex4 s with
          | none => .error (.code 8)
          | some (cp2, s) =>
            if 0xdc00 ≤ cp2 ∧ cp2 ≤ 0xdfff then .ok (utf8 ((cp - 0xd800) * 1024 + (cp2 - 0xdc00) + 0x10000), s)
            else .error (.code 9)
        | _ => .error (.code 9)
      else .error (.code 9)
    else .ok (utf8 cp, s)

/-- `ParseStringToStream`; `acc` is the content so far, reversed -/
def scanString : Nat → Str → Str → Scan Str
  | 0, _, _ => .error .fuel
  | _ + 1, _, [] => .error (.code 11)
  | n + 1, acc, c :: s =>
    if c = 0x5c then
      match s with
      | [] => .error (.code 10)
      | e :: s =>
        match unescape e with
        | some b => scanString n (b :: acc) s
        | none =>
          if e = 0x75 then
            match scanUnicode s with
            | .ok (bs, s) => scanString n (bs.reverse ++ acc) s
            | .error e => .error e
          else .error (.code 10)
    else if c = 0x22 then .ok (acc.reverse, s)
    else if c = 0 then .error (.code 11)
    else if c < 0x20 then .error (.code 12)
    else scanString n (c :: acc) s

def isDigit (c : UInt8) : Bool := 48 ≤ c.toNat && c.toNat ≤ 57

/-- value of a sequence of digits -/
def decVal (ds : Str) : Nat := ds.foldl (fun n c => n * 10 + (c.toNat - 48)) 0

/-- fraction in `ParseNumber`: the text consumed -/
def scanFrac (s : Str) : Scan Str :=
  match s with
  | 0x2e :: s =>
    let ds := s.takeWhile isDigit
    if ds.isEmpty then .error (.code 14) else .ok (0x2e :: ds, s.dropWhile isDigit)
  | s => .ok ([], s)

/-- optional sign of the exponent -/
def scanSign : Str → Str × Str
  | 0x2b :: s => ([0x2b], s)
  | 0x2d :: s => ([0x2d], s)
  | s => ([], s)

/-- exponent in `ParseNumber`: the text consumed -/
def scanExp (s : Str) : Scan Str :=
  match s with
  | [] => .ok ([], [])
  | e :: s =>
    if e = 0x65 ∨ e = 0x45 then
      let (sign, s) := scanSign s
      let ds := s.takeWhile isDigit
      if ds.isEmpty then .error (.code 15) else .ok (e :: (sign ++ ds), s.dropWhile isDigit)
    else .ok ([], e :: s)

/-- integer part in `ParseNumber`: a single zero, or digits not starting with zero -/
def scanIntPart (s : Str) : Scan Str :=
  match s with
  | [] => .error (.code 3)
  | c :: s' =>
    if c = 0x30 then .ok ([c], s')
    else if isDigit c then .ok (s.takeWhile isDigit, s.dropWhile isDigit)
    else .error (.code 3)

/-- optional minus sign -/
def scanMinus : Str → Str × Str
  | 0x2d :: s => ([0x2d], s)
  | s => ([], s)

/-- `ParseNumber`: numbers without fraction and exponent are integers if they fit into 64 bits -/
def scanNumber (D : Dbl) (s : Str) : Scan Num :=
  let minus := (scanMinus s).1
  match scanIntPart (scanMinus s).2 with
  | .error e => .error e
  | .ok (ds, s) =>
    match scanFrac s with
    | .error e => .error e
    | .ok (frac, s) =>
      match scanExp s with
      | .error e => .error e
      | .ok (exp, s) =>
        if frac.isEmpty && exp.isEmpty && decide (decVal ds < (if minus.isEmpty then 2 ^ 64 else 2 ^ 63 + 1)) then
          .ok (.int (if minus.isEmpty then decVal ds else -(decVal ds : Int)), s)
        else
          match D.parse (minus ++ ds ++ frac ++ exp) with
          | some d => .ok (.dbl d, s)
          | none => .error (.code 13)

mutual
/-- `ParseValue` -/
def scanValue (D : Dbl) : Nat → Str → Scan Json
  | 0, _ => .error .fuel
  | n + 1, s =>
    if peek s = 0x6e then scanLit (lit "null") .null s
    else if peek s = 0x74 then scanLit (lit "true") (.bool true) s
    else if peek s = 0x66 then scanLit (lit "false") (.bool false) s
    else if peek s = 0x22 then
      match scanString n [] s.tail with
      | .ok (v, s) => .ok (.str v, s)
      | .error e => .error e
    else if peek s = 0x7b then
      -- ParseObject
      let s := skipWs s.tail
      if peek s = 0x7d then .ok (.obj [], s.tail)
      else match scanMembers D n [] s with
        | .ok (ms, s) => .ok (.obj ms, s)
        | .error e => .error e
    else if peek s = 0x5b then
      -- ParseArray
      let s := skipWs s.tail
      if peek s = 0x5d then .ok (.arr [], s.tail)
      else match scanItems D n [] s with
        | .ok (js, s) => .ok (.arr js, s)
        | .error e => .error e
    else match scanNumber D s with
      | .ok (v, s) => .ok (.num v, s)
      | .error e => .error e

/-- the loop of `ParseArray` -/
def scanItems (D : Dbl) : Nat → List Json → Str → Scan (List Json)
  | 0, _, _ => .error .fuel
  | n + 1, acc, s =>
    match scanValue D n s with
    | .error e => .error e
    | .ok (j, s) =>
      let s := skipWs s
      if peek s = 0x2c then scanItems D n (acc ++ [j]) (skipWs s.tail)
      else if peek s = 0x5d then .ok (acc ++ [j], s.tail)
      else .error (.code 7)

/-- the loop of `ParseObject`; names are copied into the document -/
def scanMembers (D : Dbl) : Nat → List (Key × Json) → Str → Scan (List (Key × Json))
  | 0, _, _ => .error .fuel
  | n + 1, acc, s =>
    if peek s ≠ 0x22 then .error (.code 4)
    else match scanString n [] s.tail with
    | .error e => .error e
    | .ok (k, s) =>
      let s := skipWs s
      if peek s ≠ 0x3a then .error (.code 5)
      else match scanValue D n (skipWs s.tail) with
      | .error e => .error e
      | .ok (j, s) =>
        let s := skipWs s
        if peek s = 0x2c then scanMembers D n (acc ++ [(⟨k, .copied⟩, j)]) (skipWs s.tail)
        else if peek s = 0x7d then .ok (acc ++ [(⟨k, .copied⟩, j)], s.tail)
        else .error (.code 6)
end

/-- `EncodedInputStream<UTF8<>, MemoryStream>`: each byte of a byte order mark is skipped if present -/
def skipBom (s : Str) : Str :=
  let s := if peek s = 0xef then s.tail else s
  let s := if peek s = 0xbb then s.tail else s
  if peek s = 0xbf then s.tail else s

/-- `Document::Parse(json, jsonSize)`: a single value surrounded by whitespace; NUL is taken for the end -/
def scanDoc (D : Dbl) (json : Str) : Except TextErr Json :=
  let s := skipWs (skipBom json)
  if peek s = 0 then .error (.code 1)
  else match scanValue D (2 * s.length + 1) s with
    | .error e => .error e
    | .ok (j, s) => if peek (skipWs s) = 0 then .ok j else .error (.code 2)

/-- the parser used by `parseJsonDocFromString` (reflector.h 73-81) -/
def textParser (D : Dbl) : Parser := fun json =>
  match scanDoc D json with
  | .ok j => .ok j
  | .error (.code n) => .error ⟨n, 0⟩
  | .error .fuel => .error ⟨0, 0⟩

/-- `toJson` (reflector.h 1084-1091) -/
def toJson (E : Env) (H : Heap) (D : Dbl) (n : Nat) (t : Ty) (v : Val) : SM Str := do
  let j ← toJsonDocument E H n t v
  pure (printDoc D j)

end Verif
