import Verif.Spec.BinForm

/-!
# Specification: what is read from which bytes

`Decodes` specifies the bytes which are accepted when reading an object and the object which results, `Rejects` specifies the
input for which reading fails, and how. Both are in terms of the bytes only; reading is not mentioned. In contrast to writing
(`Spec/BinForm.lean`) there are several possible encodings of one object: numbers of variable length do not have to be minimal,
any non-zero byte means `true` and the flags of shared pointers might be combined at will.
-/

namespace Verif

/-- What is known about shared objects: the identifiers defined so far (with the type of the object and its position in `objects`)
and the objects. -/
structure Session where
  defined : List (Nat × Ty × Nat)
  objects : List Val

/-- a number of variable length: one to eight bytes, not necessarily as few as possible -/
inductive Number : Str → Nat → Prop
  | mk (k n : Nat) : 1 ≤ k → k ≤ 8 → n < 2 ^ (7 * k) → Number (bigEndian k (2 ^ (7 * k) + n)) n

/-- input not starting with a number of variable length: it ends before or the first byte is zero -/
inductive NoNumber : Str → BExc → Prop
  | nothing : NoNumber [] .eof
  | zero (bs) : NoNumber (0 :: bs) .conv
  | short (b : UInt8) (bs) : b ≠ 0 → (b :: bs).length < 8 - b.toNat.log2 → NoNumber (b :: bs) .eof

/-- flags of a non-null shared pointer: the identifier has eight bytes -/
def longId (mode : UInt8) : Prop := mode.toNat / 4 % 2 = 1

/-- flags of a non-null shared pointer: the object follows -/
def definesObject (mode : UInt8) : Prop := mode.toNat % 4 = 1

/-- the identifier of a shared object -/
inductive Identifier (mode : UInt8) : Str → Nat → Prop
  | long (a) : longId mode → a < 2 ^ 64 → Identifier mode (bigEndian 8 a) a
  | short {bs a} : ¬ longId mode → Number bs a → Identifier mode bs a

/-- input not starting with an identifier -/
inductive NoIdentifier (mode : UInt8) : Str → BExc → Prop
  | long {inp : Str} : longId mode → inp.length < 8 → NoIdentifier mode inp .eof
  | short {inp e} : ¬ longId mode → NoNumber inp e → NoIdentifier mode inp e

/-- What is to be read. -/
inductive Job where
  /-- an object which has the content `prior` so far; `version` is passed to the reading function -/
  | object (version : Nat) (t : Ty) (prior : Val)
  /-- the elements of a sequence, which have the content `priors` so far -/
  | elements (t : Ty) (priors : List Val)
  /-- `n` elements to be inserted into a set -/
  | setItems (multi : Bool) (t : Ty) (n : Nat) (sofar : List Val)
  /-- `n` entries to be inserted into a map -/
  | mapItems (multi : Bool) (k t : Ty) (n : Nat) (sofar : List (Val × Val))
  /-- the base class parts of an object -/
  | bases (version : Nat) (bs : List ClassId) (prior : Val)
  /-- the members of an object -/
  | members (version : Nat) (fs : List Field) (prior : Store)

/-- the members which belong to a version -/
def membersOf (ci : ClassInfo) (version : Nat) : List Field :=
  (ci.bin.readFields.filter fun gf => gf.1.holds version).map Prod.snd

/-- previous content of the `n` elements of a sequence of which some exist: others are value-initialised -/
def priors (E : Env) (t : Ty) (vs : List Val) (n : Nat) : List Val :=
  (List.range n).map fun i => vs[i]?.getD (E.valInit t)

/-- insertion into a set or multiset -/
def insertItem (E : Env) (multi : Bool) (t : Ty) (v : Val) (vs : List Val) : List Val :=
  if multi then insertMulti (E.lt t) v vs else (insertUniq (E.lt t) v vs).1

/-- insertion into a map or multimap -/
def insertEntry (E : Env) (multi : Bool) (k : Ty) (a b : Val) (kvs : List (Val × Val)) : List (Val × Val) :=
  if multi then mapInsertMulti (E.lt k) a b kvs else mapEmplace (E.lt k) a b kvs

/-- `Decodes E job s bs v s'`: the bytes `bs` are read as `v`; `s` and `s'` is what is known about shared objects before and
after. -/
inductive Decodes (E : Env) : Job → Session → Str → Val → Session → Prop
  | bool {ver p s} (b : UInt8) : Decodes E (.object ver .bool p) s [b] (.bool (b ≠ 0)) s
  | int {ver p s} (it : IntTy) (i : Int) : it ≠ .i8 → it.lo ≤ i → i < it.hi →
      Decodes E (.object ver (.int it) p) s (twosComplement it.bytes i) (.int i) s
  | f32 {ver p s} (b : BitVec 32) : Decodes E (.object ver .f32 p) s (bigEndian 4 b.toNat) (.f32 b) s
  | f64 {ver p s} (b : BitVec 64) : Decodes E (.object ver .f64 p) s (bigEndian 8 b.toNat) (.f64 b) s
  | dateTime {ver p s} (i : Int) : 0 ≤ i → i < 2 ^ 64 → Decodes E (.object ver .dateTime p) s (twosComplement 8 i) (.tick i) s
  | timeSpan {ver p s} (i : Int) : -2 ^ 63 ≤ i → i < 2 ^ 63 → Decodes E (.object ver .timeSpan p) s (twosComplement 8 i) (.tick i) s
  | str {ver p s bs} (x : Str) : Number bs x.length → x.length ≤ E.maxLen → Decodes E (.object ver .str p) s (bs ++ x) (.str x) s
  | enum {ver p s bs v s'} (u : IntTy) : Decodes E (.object 0 (.int u) .indet) s bs v s' →
      Decodes E (.object ver (.enum u) p) s bs v s'
  | pair {ver a b x y s bs v s1 bs' w s'} : Decodes E (.object 0 a x) s bs v s1 → Decodes E (.object 0 b y) s1 bs' w s' →
      Decodes E (.object ver (.pair a b) (.tup [x, y])) s (bs ++ bs') (.tup [v, w]) s'
  | uptrNull {ver t p s} : Decodes E (.object ver (.uptr t) p) s [0] .null s
  | uptr {ver t p s b bs v s'} : b ≠ 0 → Decodes E (.object 0 t (E.valInit t)) s bs v s' →
      Decodes E (.object ver (.uptr t) p) s (b :: bs) (.ptr v) s'
  | optNull {ver t p s} : Decodes E (.object ver (.opt t) p) s [0] .null s
  | opt {ver t p s b bs v s'} : b ≠ 0 → Decodes E (.object 0 t (E.valInit t)) s bs v s' →
      Decodes E (.object ver (.opt t) p) s (b :: bs) (.some v) s'
  | sptrNull {ver t p s} : Decodes E (.object ver (.sptr t) p) s [0] .null s
  -- the identifier denotes the new object from now on, even while reading the object itself
  | sptrNew {ver t p s mode ids id bs v s'} : mode ≠ 0 → definesObject mode → Identifier mode ids id →
      Decodes E (.object 0 t (E.valInit t)) ⟨(id, t, s.objects.length) :: s.defined, s.objects ++ [E.valInit t]⟩ bs v s' →
      Decodes E (.object ver (.sptr t) p) s (mode :: ids ++ bs) (.ref s.objects.length) ⟨s'.defined, s'.objects.set s.objects.length v⟩
  | sptrRef {ver t p s mode ids id a} : mode ≠ 0 → ¬ definesObject mode → Identifier mode ids id →
      s.defined.lookup id = some (t, a) → Decodes E (.object ver (.sptr t) p) s (mode :: ids) (.ref a) s
  | vec {ver t vs s bs n bs' r s'} : Number bs n → n ≤ E.maxLen → Decodes E (.elements t (priors E t vs n)) s bs' r s' →
      Decodes E (.object ver (.vec t) (.list vs)) s (bs ++ bs') r s'
  | set {ver hashed multi t vs s bs n bs' r s'} : Number bs n → Decodes E (.setItems multi t n vs) s bs' r s' →
      Decodes E (.object ver (.set hashed multi t) (.list vs)) s (bs ++ bs') r s'
  | map {ver hashed multi k t kvs s bs n bs' r s'} : Number bs n → Decodes E (.mapItems multi k t n kvs) s bs' r s' →
      Decodes E (.object ver (.map hashed multi k t) (.map kvs)) s (bs ++ bs') r s'
  | mono {ver p s} {ts : List Ty} {i : UInt8} : ts[i.toNat]? = some .mono →
      Decodes E (.object ver (.variant ts) p) s [i] (.alt i.toNat .mono) s
  | variant {ver p s} {ts : List Ty} {i : UInt8} {t bs v s'} : ts[i.toNat]? = some t → t ≠ .mono →
      Decodes E (.object 0 t (E.valInit t)) s bs v s' →
      Decodes E (.object ver (.variant ts) p) s (i :: bs) (.alt i.toNat v) s'
  -- a class without version: the bases, then the members
  | plain {ver c ci p s bs st s1 bs' r s'} : E.cls c = some ci → ci.bin.readable = true → ci.bin.version = none →
      Decodes E (.bases ver ci.bin.bases p) s bs (.obj st) s1 → Decodes E (.members ver (membersOf ci ver) st) s1 bs' r s' →
      Decodes E (.object ver (.cls c) p) s (bs ++ bs') r s'
  -- a class with a version: the bases, then the version, then the members of this version
  | versioned {ver c ci m p s bs st s1 bs1 n bs' r s'} : E.cls c = some ci → ci.bin.readable = true → ci.bin.version = some m →
      Decodes E (.bases ver ci.bin.bases p) s bs (.obj st) s1 → Number bs1 n → n ≤ m →
      Decodes E (.members n (membersOf ci n) st) s1 bs' r s' →
      Decodes E (.object ver (.cls c) p) s (bs ++ bs1 ++ bs') r s'
  | noElements {t s} : Decodes E (.elements t []) s [] (.list []) s
  | elements {t p ps s bs v s1 bs' vs s'} : Decodes E (.object 0 t p) s bs v s1 → Decodes E (.elements t ps) s1 bs' (.list vs) s' →
      Decodes E (.elements t (p :: ps)) s (bs ++ bs') (.list (v :: vs)) s'
  | noSetItems {multi t vs s} : Decodes E (.setItems multi t 0 vs) s [] (.list vs) s
  | setItems {multi t n vs s bs v s1 bs' r s'} : Decodes E (.object 0 t (E.defInit t)) s bs v s1 → v.hasIndet = false →
      Decodes E (.setItems multi t n (insertItem E multi t v vs)) s1 bs' r s' →
      Decodes E (.setItems multi t (n + 1) vs) s (bs ++ bs') r s'
  | noMapItems {multi k t kvs s} : Decodes E (.mapItems multi k t 0 kvs) s [] (.map kvs) s
  | mapItems {multi k t n kvs s bs a b s1 bs' r s'} :
      Decodes E (.object 0 (.pair k t) (E.valInit (.pair k t))) s bs (.tup [a, b]) s1 → a.hasIndet = false → b.hasIndet = false →
      Decodes E (.mapItems multi k t n (insertEntry E multi k a b kvs)) s1 bs' r s' →
      Decodes E (.mapItems multi k t (n + 1) kvs) s (bs ++ bs') r s'
  | noBases {ver p s} : Decodes E (.bases ver [] p) s [] p s
  | bases {ver c cs p s bs v s1 bs' r s'} : Decodes E (.object ver (.cls c) p) s bs v s1 → Decodes E (.bases ver cs v) s1 bs' r s' →
      Decodes E (.bases ver (c :: cs) p) s (bs ++ bs') r s'
  | noMembers {ver st s} : Decodes E (.members ver [] st) s [] (.obj st) s
  | members {ver} {f : Field} {fs} {st : Store} {p s bs v s1 bs' r s'} : st.get? f.key = some p →
      Decodes E (.object ver f.ty p) s bs v s1 → Decodes E (.members ver fs (st.set f.key v)) s1 bs' r s' →
      Decodes E (.members ver (f :: fs) st) s (bs ++ bs') r s'

/-- how reading fails -/
inductive Failure where
  | thrown (e : BExc)
  | undefined
deriving DecidableEq, Repr

/-- types of objects with a fixed number of bytes -/
def fixedSize : Ty → Option Nat
  | .bool => some 1
  | .int it => if it = .i8 then none else some it.bytes
  | .f32 => some 4
  | .f64 => some 8
  | .dateTime => some 8
  | .timeSpan => some 8
  | _ => none

/-- pointers, optionals and variants start with a byte -/
def hasFlagByte : Ty → Bool
  | .uptr _ | .opt _ | .sptr _ | .variant _ => true
  | _ => false

/-- Strings and containers (for sequences etc.: the prior content must be one) start with their length. -/
def hasLength : Ty → Val → Bool
  | .str, _ => true
  | .vec _, .list _ => true
  | .set _ _ _, .list _ => true
  | .map _ _ _ _, .map _ => true
  | _, _ => false

/-- strings and sequences are resized before being read, which can fail -/
def isResized : Ty → Val → Bool
  | .str, _ => true
  | .vec _, .list _ => true
  | _, _ => false

/-- `Rejects E job s inp f`: if the input is `inp`, reading fails as specified by `f`. -/
inductive Rejects (E : Env) : Job → Session → Str → Failure → Prop
  | fixed {ver t p s k} {inp : Str} : fixedSize t = some k → inp.length < k → Rejects E (.object ver t p) s inp (.thrown .eof)
  | noFlag {ver t p s} : hasFlagByte t = true → Rejects E (.object ver t p) s [] (.thrown .eof)
  | noLength {ver t p s inp e} : hasLength t p = true → NoNumber inp e → Rejects E (.object ver t p) s inp (.thrown e)
  | tooLong {ver t p s bs n rest} : isResized t p = true → Number bs n → E.maxLen < n →
      Rejects E (.object ver t p) s (bs ++ rest) (.thrown .badAlloc)
  | shortStr {ver p s bs n} {rest : Str} : Number bs n → n ≤ E.maxLen → rest.length < n →
      Rejects E (.object ver .str p) s (bs ++ rest) (.thrown .eof)
  | enum {ver u p s inp f} : Rejects E (.object 0 (.int u) .indet) s inp f → Rejects E (.object ver (.enum u) p) s inp f
  | fst {ver a b x y s inp f} : Rejects E (.object 0 a x) s inp f → Rejects E (.object ver (.pair a b) (.tup [x, y])) s inp f
  | snd {ver a b x y s bs v s1 inp f} : Decodes E (.object 0 a x) s bs v s1 → Rejects E (.object 0 b y) s1 inp f →
      Rejects E (.object ver (.pair a b) (.tup [x, y])) s (bs ++ inp) f
  | uptr {ver t p s b inp f} : b ≠ 0 → Rejects E (.object 0 t (E.valInit t)) s inp f →
      Rejects E (.object ver (.uptr t) p) s (b :: inp) f
  | opt {ver t p s b inp f} : b ≠ 0 → Rejects E (.object 0 t (E.valInit t)) s inp f →
      Rejects E (.object ver (.opt t) p) s (b :: inp) f
  | noId {ver t p s mode inp e} : mode ≠ 0 → NoIdentifier mode inp e → Rejects E (.object ver (.sptr t) p) s (mode :: inp) (.thrown e)
  | sptrNew {ver t p s mode ids id inp f} : mode ≠ 0 → definesObject mode → Identifier mode ids id →
      Rejects E (.object 0 t (E.valInit t)) ⟨(id, t, s.objects.length) :: s.defined, s.objects ++ [E.valInit t]⟩ inp f →
      Rejects E (.object ver (.sptr t) p) s (mode :: ids ++ inp) f
  -- a reference to something which has not been defined with this type
  | badRef {ver t p s mode ids id rest} : mode ≠ 0 → ¬ definesObject mode → Identifier mode ids id →
      (∀ a, s.defined.lookup id ≠ some (t, a)) → Rejects E (.object ver (.sptr t) p) s (mode :: ids ++ rest) (.thrown .conv)
  | vec {ver t vs s bs n inp f} : Number bs n → n ≤ E.maxLen → Rejects E (.elements t (priors E t vs n)) s inp f →
      Rejects E (.object ver (.vec t) (.list vs)) s (bs ++ inp) f
  | set {ver hashed multi t vs s bs n inp f} : Number bs n → Rejects E (.setItems multi t n vs) s inp f →
      Rejects E (.object ver (.set hashed multi t) (.list vs)) s (bs ++ inp) f
  | map {ver hashed multi k t kvs s bs n inp f} : Number bs n → Rejects E (.mapItems multi k t n kvs) s inp f →
      Rejects E (.object ver (.map hashed multi k t) (.map kvs)) s (bs ++ inp) f
  | noAlternative {ver p s} {ts : List Ty} {i : UInt8} {rest} : ts.length ≤ i.toNat →
      Rejects E (.object ver (.variant ts) p) s (i :: rest) (.thrown .conv)
  | variant {ver p s} {ts : List Ty} {i : UInt8} {t inp f} : ts[i.toNat]? = some t → t ≠ .mono →
      Rejects E (.object 0 t (E.valInit t)) s inp f → Rejects E (.object ver (.variant ts) p) s (i :: inp) f
  | inBases {ver c ci p s inp f} : E.cls c = some ci → ci.bin.readable = true → Rejects E (.bases ver ci.bin.bases p) s inp f →
      Rejects E (.object ver (.cls c) p) s inp f
  | noVersion {ver c ci m p s bs st s1 inp e} : E.cls c = some ci → ci.bin.readable = true → ci.bin.version = some m →
      Decodes E (.bases ver ci.bin.bases p) s bs (.obj st) s1 → NoNumber inp e →
      Rejects E (.object ver (.cls c) p) s (bs ++ inp) (.thrown e)
  | badVersion {ver c ci m p s bs st s1 bs1 n rest} : E.cls c = some ci → ci.bin.readable = true → ci.bin.version = some m →
      Decodes E (.bases ver ci.bin.bases p) s bs (.obj st) s1 → Number bs1 n → m < n →
      Rejects E (.object ver (.cls c) p) s (bs ++ bs1 ++ rest) (.thrown (.version n m ci.qname))
  | inPlain {ver c ci p s bs st s1 inp f} : E.cls c = some ci → ci.bin.readable = true → ci.bin.version = none →
      Decodes E (.bases ver ci.bin.bases p) s bs (.obj st) s1 → Rejects E (.members ver (membersOf ci ver) st) s1 inp f →
      Rejects E (.object ver (.cls c) p) s (bs ++ inp) f
  | inVersioned {ver c ci m p s bs st s1 bs1 n inp f} : E.cls c = some ci → ci.bin.readable = true → ci.bin.version = some m →
      Decodes E (.bases ver ci.bin.bases p) s bs (.obj st) s1 → Number bs1 n → n ≤ m →
      Rejects E (.members n (membersOf ci n) st) s1 inp f →
      Rejects E (.object ver (.cls c) p) s (bs ++ bs1 ++ inp) f
  | element {t p ps s inp f} : Rejects E (.object 0 t p) s inp f → Rejects E (.elements t (p :: ps)) s inp f
  | elements {t p ps s bs v s1 inp f} : Decodes E (.object 0 t p) s bs v s1 → Rejects E (.elements t ps) s1 inp f →
      Rejects E (.elements t (p :: ps)) s (bs ++ inp) f
  | setItem {multi t n vs s inp f} : Rejects E (.object 0 t (E.defInit t)) s inp f → Rejects E (.setItems multi t (n + 1) vs) s inp f
  -- an uninitialised scalar is copied
  | setIndet {multi t n vs s bs v s1 rest} : Decodes E (.object 0 t (E.defInit t)) s bs v s1 → v.hasIndet = true →
      Rejects E (.setItems multi t (n + 1) vs) s (bs ++ rest) .undefined
  | setItems {multi t n vs s bs v s1 inp f} : Decodes E (.object 0 t (E.defInit t)) s bs v s1 → v.hasIndet = false →
      Rejects E (.setItems multi t n (insertItem E multi t v vs)) s1 inp f → Rejects E (.setItems multi t (n + 1) vs) s (bs ++ inp) f
  | mapItem {multi k t n kvs s inp f} : Rejects E (.object 0 (.pair k t) (E.valInit (.pair k t))) s inp f →
      Rejects E (.mapItems multi k t (n + 1) kvs) s inp f
  | mapIndet {multi k t n kvs s bs a b s1 rest} :
      Decodes E (.object 0 (.pair k t) (E.valInit (.pair k t))) s bs (.tup [a, b]) s1 → (a.hasIndet || b.hasIndet) = true →
      Rejects E (.mapItems multi k t (n + 1) kvs) s (bs ++ rest) .undefined
  | mapItems {multi k t n kvs s bs a b s1 inp f} :
      Decodes E (.object 0 (.pair k t) (E.valInit (.pair k t))) s bs (.tup [a, b]) s1 → a.hasIndet = false → b.hasIndet = false →
      Rejects E (.mapItems multi k t n (insertEntry E multi k a b kvs)) s1 inp f →
      Rejects E (.mapItems multi k t (n + 1) kvs) s (bs ++ inp) f
  | base {ver c cs p s inp f} : Rejects E (.object ver (.cls c) p) s inp f → Rejects E (.bases ver (c :: cs) p) s inp f
  | bases {ver c cs p s bs v s1 inp f} : Decodes E (.object ver (.cls c) p) s bs v s1 → Rejects E (.bases ver cs v) s1 inp f →
      Rejects E (.bases ver (c :: cs) p) s (bs ++ inp) f
  | member {ver} {f : Field} {fs} {st : Store} {p s inp x} : st.get? f.key = some p → Rejects E (.object ver f.ty p) s inp x →
      Rejects E (.members ver (f :: fs) st) s inp x
  | members {ver} {f : Field} {fs} {st : Store} {p s bs v s1 inp x} : st.get? f.key = some p →
      Decodes E (.object ver f.ty p) s bs v s1 → Rejects E (.members ver fs (st.set f.key v)) s1 inp x →
      Rejects E (.members ver (f :: fs) st) s (bs ++ inp) x

end Verif
