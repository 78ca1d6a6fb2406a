import Verif.Model.Env

/-!
# Bytes, big-endian integers and variable-length integers

Models the parts of `CppUtilities::BinaryWriter`/`BinaryReader` (external library c++utilities, io/binarywriter.h,
io/binaryreader.h) which lib/binary/reflector.h uses. Assumption: exceptions are enabled for the streams (as the library
requires), so that reading past the end throws instead of yielding garbage.
-/

namespace Verif

/-- What (de)serialisation can throw:
* `conv`: `CppUtilities::ConversionException`
* `eof`: `std::ios_base::failure` because of reading past the end (or, in `Model/Stream.lean`, because a stream fails when writing)
* `badAlloc`: `std::bad_alloc`/`std::length_error` when resizing a string or container
* `badVariant`: `std::bad_variant_access` (by `std::visit`)
* `version`: `VersionNotSupported{presentVersion, maxVersion, record}` (lib/versioning.h 36-38) -/
inductive BExc where
  | conv
  | eof
  | badAlloc
  | badVariant
  | version (present max : Nat) (record : Str)
deriving DecidableEq, Repr, Inhabited

/-- `k` bytes of `x`, most significant first (`BE::getBytes`) -/
def beBytes : Nat → Nat → Str
  | 0, _ => []
  | k + 1, x => beBytes k (x / 256) ++ [UInt8.ofNat (x % 256)]

/-- the number with the given bytes, most significant first (`BE::toUInt64` etc.) -/
def ofBE (bs : Str) : Nat := bs.foldl (fun a b => a * 256 + b.toNat) 0

/-! ## writing -/

/-- State of a `BinarySerializer`: the bytes written to the stream and the identifiers for which `m_pointer[id]` is `true`
(lib/binary/reflector.h 118). -/
structure WSt where
  out : Str
  seen : List Nat
deriving DecidableEq, Repr, Inhabited

abbrev WM := M BExc WSt

/-- write bytes to the stream -/
def emit (bs : Str) : WM Unit := M.modify fun s => { s with out := s.out ++ bs }

/-- `writeByte` -/
def writeByte (b : Nat) : WM Unit := emit [UInt8.ofNat b]

/-- Length of the encoding of a variable-length integer: the smallest `L` with `x < 2^(7L)` if that is at most 8. -/
def varintLen (x : Nat) : Option Nat :=
  if x < 2 ^ 7 then some 1
  else if x < 2 ^ 14 then some 2
  else if x < 2 ^ 21 then some 3
  else if x < 2 ^ 28 then some 4
  else if x < 2 ^ 35 then some 5
  else if x < 2 ^ 42 then some 6
  else if x < 2 ^ 49 then some 7
  else if x < 2 ^ 56 then some 8
  else none

/-- `BinaryWriter::writeVariableLengthUIntBE`: `L` bytes of `x | 2^(7L)` -/
def writeVarint (x : Nat) : WM Unit :=
  match varintLen x with
  | some L => emit (beBytes L (x + 2 ^ (7 * L)))
  | none => M.throw .conv

/-- integer of `k` bytes (`BinaryWriter::writeUInt16BE` etc.): two's complement -/
def intBytes (k : Nat) (i : Int) : Str := beBytes k (i % 2 ^ (8 * k)).toNat

/-! ## reading -/

/-- State of a `BinaryDeserializer`: remaining input, `m_pointer` (identifier, pointee type, object; lib/binary/reflector.h
93) and the objects allocated for shared pointers so far (an object is identified by its index). -/
structure RSt where
  inp : Str
  table : List (Nat × Ty × Nat)
  heap : List Val
deriving Repr, Inhabited

abbrev RM := M BExc RSt

/-- read `k` bytes from the stream -/
def takeBytes (k : Nat) : RM Str := fun s =>
  if k ≤ s.inp.length then .ok (s.inp.take k) { s with inp := s.inp.drop k } else .exc .eof { s with inp := [] }

/-- `readByte` -/
def readByte : RM Nat := do
  let b ← takeBytes 1
  pure (ofBE b)

/-- `readBool` -/
def readBool : RM Bool := do
  let b ← readByte
  pure (b ≠ 0)

/-- number of leading zero bits of a byte plus one -/
def prefixLen (b : Nat) : Nat :=
  if b ≥ 128 then 1 else if b ≥ 64 then 2 else if b ≥ 32 then 3 else if b ≥ 16 then 4
  else if b ≥ 8 then 5 else if b ≥ 4 then 6 else if b ≥ 2 then 7 else if b ≥ 1 then 8 else 9

/-- `m_stream->peek()` -/
def peekByte : RM Nat := fun s =>
  match s.inp with
  | [] => .exc .eof s
  | b :: _ => .ok b.toNat s

/-- `BinaryReader::readVariableLengthUIntBE`: the length is determined from the leading zeros of the first byte, the marker bit
is removed -/
def readVarint : RM Nat := do
  let b ← peekByte
  if prefixLen b > 8 then M.throw .conv
  else do
    let bs ← takeBytes (prefixLen b)
    pure (ofBE bs - 2 ^ (7 * prefixLen b))

/-- integer of type `t` (`BinaryReader::readUInt16BE` etc.) -/
def readInt (t : IntTy) : RM Int := do
  let bs ← takeBytes t.bytes
  pure (t.wrap (ofBE bs))

end Verif
