import Verif.Model.Basic

/-!
# C++ types and values

The reflector functions are templates; a type argument is a `Ty`, an object of that type is a `Val`.
-/

namespace Verif

/-- Integral types. `char` is the plain (signed on the modelled platform, x86-64) character type. -/
inductive IntTy where
  | char | i8 | u8 | i16 | u16 | i32 | u32 | i64 | u64
deriving DecidableEq, Repr, Inhabited

namespace IntTy

/-- number of bytes -/
def bytes : IntTy → Nat
  | char | i8 | u8 => 1
  | i16 | u16 => 2
  | i32 | u32 => 4
  | i64 | u64 => 8

/-- `std::is_signed` -/
def signed : IntTy → Bool
  | char | i8 | i16 | i32 | i64 => true
  | u8 | u16 | u32 | u64 => false

/-- number of distinct values -/
def card (t : IntTy) : Int := 2 ^ (8 * t.bytes)

/-- `std::numeric_limits<T>::min()` -/
def lo (t : IntTy) : Int := if t.signed then -(2 ^ (8 * t.bytes - 1)) else 0

/-- one past `std::numeric_limits<T>::max()` -/
def hi (t : IntTy) : Int := t.lo + t.card

def inRange (t : IntTy) (i : Int) : Bool := t.lo ≤ i && i < t.hi

/-- `static_cast<T>(i)` for an integer `i`: the value of `T` congruent to `i` modulo the cardinality of `T`. -/
def wrap (t : IntTy) (i : Int) : Int := (i - t.lo) % t.card + t.lo

end IntTy

/-- Identifies a class (a clang record). -/
abbrev ClassId := Nat

/-- C++ types supported by the reflectors.
* `set hashed multi`: `std::set`, `std::unordered_set`, `std::multiset`, `std::unordered_multiset`
* `map hashed multi`: `std::map`, `std::unordered_map`, `std::multimap`, `std::unordered_multimap`
* `vec`: `std::vector`, `std::list`, `std::deque`
* `mono`: `std::monostate` (only as variant alternative)
* `cls`: a reflected class, the code of which is given by the environment
* `dateTime`, `timeSpan`: `CppUtilities::DateTime`, `CppUtilities::TimeSpan` -/
inductive Ty where
  | bool
  | int (t : IntTy)
  | f32
  | f64
  | enum (u : IntTy)
  | str
  | cstr
  | sview
  | opt (t : Ty)
  | uptr (t : Ty)
  | sptr (t : Ty)
  | vec (t : Ty)
  | set (hashed multi : Bool) (t : Ty)
  | map (hashed multi : Bool) (k v : Ty)
  | pair (a b : Ty)
  | tuple (ts : List Ty)
  | variant (ts : List Ty)
  | mono
  | cls (c : ClassId)
  | dateTime
  | timeSpan
deriving Repr, Inhabited

mutual
/-- Equality test of types (`typeid` comparison in `std::any_cast`). -/
def Ty.beq : Ty → Ty → Bool
  | .bool, .bool => true
  | .int a, .int b => a == b
  | .f32, .f32 => true
  | .f64, .f64 => true
  | .enum a, .enum b => a == b
  | .str, .str => true
  | .cstr, .cstr => true
  | .sview, .sview => true
  | .opt a, .opt b => a.beq b
  | .uptr a, .uptr b => a.beq b
  | .sptr a, .sptr b => a.beq b
  | .vec a, .vec b => a.beq b
  | .set h m a, .set h' m' b => h == h' && m == m' && a.beq b
  | .map h m a c, .map h' m' b d => h == h' && m == m' && a.beq b && c.beq d
  | .pair a c, .pair b d => a.beq b && c.beq d
  | .tuple a, .tuple b => Ty.beqL a b
  | .variant a, .variant b => Ty.beqL a b
  | .mono, .mono => true
  | .cls a, .cls b => a == b
  | .dateTime, .dateTime => true
  | .timeSpan, .timeSpan => true
  | _, _ => false
def Ty.beqL : List Ty → List Ty → Bool
  | [], [] => true
  | a :: as, b :: bs => a.beq b && Ty.beqL as bs
  | _, _ => false
end

mutual
theorem Ty.beq_iff (a b : Ty) : a.beq b = true ↔ a = b := by
  cases a <;> cases b <;>
    simp [Ty.beq, Ty.beq_iff, Ty.beqL_iff, and_assoc]
theorem Ty.beqL_iff (a b : List Ty) : Ty.beqL a b = true ↔ a = b := by
  cases a <;> cases b <;> simp [Ty.beqL, Ty.beq_iff, Ty.beqL_iff]
end

instance : DecidableEq Ty := fun a b =>
  if h : a.beq b = true then isTrue ((Ty.beq_iff a b).1 h)
  else isFalse (fun e => h ((Ty.beq_iff a b).2 e))

/-- A data member is identified by the class declaring it and its name. An object stores the members of all its base
class subobjects next to its own ones, so a cast to a base class is the identity on stores. (Simplification: a base class
occurring twice non-virtually - "diamond" - is not representable.) -/
abbrev FieldKey := ClassId × Str

/-- Objects.
* `indet`: an uninitialised scalar
* `cstr`: `const char *` or `std::string_view`; `none` for a null pointer / null `data()`
* `null`: empty `std::optional`, `std::unique_ptr`, `std::shared_ptr`
* `some`: engaged `std::optional`; `ptr`: non-null owning pointer; `ref`: smart pointer to a heap object
* `list`: elements of a sequence or set; `map`: entries of a map. Ordered containers store the elements in their order;
  hashed containers are represented by the same canonical sorted list (their iteration order is `Env.iter`).
* `alt i v`: variant holding alternative `i`; `valueless`: `valueless_by_exception()`
* `obj`: class object; `tick`: tick count of `DateTime`/`TimeSpan` -/
inductive Val where
  | indet
  | bool (b : Bool)
  | int (i : Int)
  | f32 (b : BitVec 32)
  | f64 (b : BitVec 64)
  | str (s : Str)
  | cstr (s : Option Str)
  | null
  | some (v : Val)
  | ptr (v : Val)
  | ref (a : Nat)
  | list (vs : List Val)
  | map (kvs : List (Val × Val))
  | tup (vs : List Val)
  | alt (i : Nat) (v : Val)
  | valueless
  | mono
  | obj (fs : List (FieldKey × Val))
  | tick (i : Int)
deriving Repr, Inhabited

/-- The members of an object. -/
abbrev Store := List (FieldKey × Val)

namespace Store
/-- value of a member -/
def get? (s : Store) (k : FieldKey) : Option Val := List.lookup k s
/-- assign to a member -/
def set (s : Store) (k : FieldKey) (v : Val) : Store :=
  match s with
  | [] => []
  | (k', v') :: s => if k' = k then (k', v) :: s else (k', v') :: set s k v
end Store

mutual
/-- Whether moving/copying the object reads an uninitialised scalar. Pointers and containers do not read their elements
when moved. -/
def Val.hasIndet : Val → Bool
  | .indet => true
  | .some v => v.hasIndet
  | .tup vs => Val.hasIndetL vs
  | .alt _ v => v.hasIndet
  | .obj fs => Val.hasIndetF fs
  | _ => false
def Val.hasIndetL : List Val → Bool
  | [] => false
  | v :: vs => v.hasIndet || Val.hasIndetL vs
def Val.hasIndetF : List (FieldKey × Val) → Bool
  | [] => false
  | (_, v) :: vs => v.hasIndet || Val.hasIndetF vs
end

end Verif
