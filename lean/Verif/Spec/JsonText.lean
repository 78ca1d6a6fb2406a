import Verif.Model.Json
import Verif.Model.Text

/-!
# The grammar of JSON texts (RFC 8259)

`Text D j t`: the bytes `t` are a JSON text (without surrounding whitespace) denoting the document `j`. Of the model only
the type of documents and the (external) conversion `D.parse` of numbers which do not fit into a 64-bit integer are used.
-/

namespace Verif.JsonText

/-- whitespace -/
def Blank (s : Str) : Prop := ∀ c ∈ s, c = 0x20 ∨ c = 0x09 ∨ c = 0x0a ∨ c = 0x0d

/-- a hexadecimal digit and its value -/
def Hex (c : UInt8) (n : Nat) : Prop :=
  (n < 10 ∧ c.toNat = 48 + n) ∨ (10 ≤ n ∧ n < 16 ∧ (c.toNat = 55 + n ∨ c.toNat = 87 + n))

/-- four hexadecimal digits and their value -/
def Hex4 (t : Str) (n : Nat) : Prop :=
  ∃ a b c d na nb nc nd, t = [a, b, c, d] ∧ Hex a na ∧ Hex b nb ∧ Hex c nc ∧ Hex d nd ∧
    n = na * 4096 + nb * 256 + nc * 16 + nd

/-- short escapes: the character after the backslash and what it denotes -/
def shortEscapes : List (UInt8 × UInt8) :=
  [(0x22, 0x22), (0x5c, 0x5c), (0x2f, 0x2f), (0x62, 0x08), (0x66, 0x0c), (0x6e, 0x0a), (0x72, 0x0d), (0x74, 0x09)]

/-- UTF-8 encoding of a code point -/
def encode (n : Nat) : Str := String.utf8EncodeChar (Char.ofNat n)

/-- What is between the quotation marks: content and text. Bytes from 0x80 on stand for themselves (UTF-8 is not checked). -/
inductive Chars : Str → Str → Prop
  | nil : Chars [] []
  | plain (c : UInt8) {s t : Str} : 0x20 ≤ c.toNat → c ≠ 0x22 → c ≠ 0x5c → Chars s t → Chars (c :: s) (c :: t)
  | short (e b : UInt8) {s t : Str} : (e, b) ∈ shortEscapes → Chars s t → Chars (b :: s) (0x5c :: e :: t)
  | unicode (h : Str) (n : Nat) {s t : Str} : Hex4 h n → ¬(0xd800 ≤ n ∧ n ≤ 0xdfff) → Chars s t →
      Chars (encode n ++ s) (0x5c :: 0x75 :: (h ++ t))
  | surrogates (h l : Str) (n m k : Nat) {s t : Str} : Hex4 h n → Hex4 l m → 0xd800 ≤ n → n ≤ 0xdbff → 0xdc00 ≤ m →
      m ≤ 0xdfff → k = 0x10000 + (n - 0xd800) * 0x400 + (m - 0xdc00) → Chars s t →
      Chars (encode k ++ s) (0x5c :: 0x75 :: (h ++ 0x5c :: 0x75 :: (l ++ t)))

/-- a string: content and text -/
def StrText (s t : Str) : Prop := ∃ u, Chars s u ∧ t = 0x22 :: (u ++ [0x22])

/-- a non-empty sequence of digits -/
def Digits (ds : Str) : Prop := ds ≠ [] ∧ ∀ c ∈ ds, 0x30 ≤ c.toNat ∧ c.toNat ≤ 0x39

/-- its value -/
def value (ds : Str) : Nat := ds.foldl (fun n c => n * 10 + (c.toNat - 0x30)) 0

/-- the integer part of a number: no leading zeros -/
def IntPart (ds : Str) : Prop := Digits ds ∧ ∀ r, ds = 0x30 :: r → r = []

/-- an optional fraction -/
def Frac (f : Str) : Prop := f = [] ∨ ∃ ds, Digits ds ∧ f = 0x2e :: ds

/-- an optional exponent -/
def Exp (e : Str) : Prop :=
  e = [] ∨ ∃ c sign ds, (c = 0x65 ∨ c = 0x45) ∧ (sign = [] ∨ sign = [0x2b] ∨ sign = [0x2d]) ∧ Digits ds ∧
    e = c :: (sign ++ ds)

/-- Numbers: without fraction and exponent they are integers if they fit into a signed or unsigned 64-bit integer, all others
are converted to `double`. -/
inductive NumText (D : Dbl) : Num → Str → Prop
  | int (ds : Str) : IntPart ds → value ds < 2 ^ 64 → NumText D (.int (value ds)) ds
  | neg (ds : Str) : IntPart ds → value ds ≤ 2 ^ 63 → NumText D (.int (-(value ds : Int))) (0x2d :: ds)
  | dbl (sign ds f e : Str) (d : BitVec 64) : (sign = [] ∨ sign = [0x2d]) → IntPart ds → Frac f → Exp e →
      (f = [] → e = [] → if sign = [] then 2 ^ 64 ≤ value ds else 2 ^ 63 < value ds) →
      D.parse (sign ++ ds ++ f ++ e) = some d → NumText D (.dbl d) (sign ++ ds ++ f ++ e)

mutual
/-- values -/
inductive Text (D : Dbl) : Json → Str → Prop
  | null : Text D .null (lit "null")
  | true : Text D (.bool true) (lit "true")
  | false : Text D (.bool false) (lit "false")
  | num {n t} : NumText D n t → Text D (.num n) t
  | str {s t} : StrText s t → Text D (.str s) t
  | arrEmpty {b} : Blank b → Text D (.arr []) (0x5b :: (b ++ [0x5d]))
  | arr {js t} : Items D js t → Text D (.arr js) (0x5b :: (t ++ [0x5d]))
  | objEmpty {b} : Blank b → Text D (.obj []) (0x7b :: (b ++ [0x7d]))
  | obj {ms t} : Members D ms t → Text D (.obj ms) (0x7b :: (t ++ [0x7d]))

/-- the elements of an array -/
inductive Items (D : Dbl) : List Json → Str → Prop
  | one {j t b b'} : Blank b → Text D j t → Blank b' → Items D [j] (b ++ (t ++ b'))
  | more {j t b b' js u} : Blank b → Text D j t → Blank b' → Items D js u → Items D (j :: js) (b ++ (t ++ (b' ++ 0x2c :: u)))

/-- the members of an object; names are owned by the document -/
inductive Members (D : Dbl) : List (Key × Json) → Str → Prop
  | one {k kt j t b b1 b2 b'} : Blank b → StrText k kt → Blank b1 → Blank b2 → Text D j t → Blank b' →
      Members D [(⟨k, .copied⟩, j)] (b ++ (kt ++ (b1 ++ 0x3a :: (b2 ++ (t ++ b')))))
  | more {k kt j t b b1 b2 b' ms u} : Blank b → StrText k kt → Blank b1 → Blank b2 → Text D j t → Blank b' → Members D ms u →
      Members D ((⟨k, .copied⟩, j) :: ms) (b ++ (kt ++ (b1 ++ 0x3a :: (b2 ++ (t ++ (b' ++ 0x2c :: u))))))
end

/-! ## Documents -/

mutual
/-- all numbers of a document -/
def numbers : Json → List Num
  | .num n => [n]
  | .arr js => numbersItems js
  | .obj ms => numbersMembers ms
  | _ => []
def numbersItems : List Json → List Num
  | [] => []
  | j :: js => numbers j ++ numbersItems js
def numbersMembers : List (Key × Json) → List Num
  | [] => []
  | (_, j) :: ms => numbers j ++ numbersMembers ms
end

/-- not a number or infinite -/
def NonFinite : Num → Prop
  | .int _ => False
  | .dbl d => Ieee.isFinite d = false

/-- Numbers which survive printing and parsing: integers of 64 bits (RapidJSON does not store other ones), and finite ones
for which the external conversions are inverse: the printed text is a JSON number, distinguishable from an integer, and is
converted back to the same number. -/
def Printable (D : Dbl) : Num → Prop
  | .int i => -2 ^ 63 ≤ i ∧ i < 2 ^ 64
  | .dbl d => Ieee.isFinite d = true ∧ NumText D (.dbl d) (D.print d)

mutual
/-- the document with all non-finite numbers replaced by `x` -/
def patch (x : BitVec 64) : Json → Json
  | .num (.dbl d) => .num (.dbl (if Ieee.isFinite d then d else x))
  | .arr js => .arr (patchItems x js)
  | .obj ms => .obj (patchMembers x ms)
  | j => j
def patchItems (x : BitVec 64) : List Json → List Json
  | [] => []
  | j :: js => patch x j :: patchItems x js
def patchMembers (x : BitVec 64) : List (Key × Json) → List (Key × Json)
  | [] => []
  | (k, j) :: ms => (k, patch x j) :: patchMembers x ms
end

end Verif.JsonText
