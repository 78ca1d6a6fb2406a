import Verif.Lemmas.BinSound
import Verif.Props.BinaryPointers

/-!
# C32, C33: deserialising arbitrary bytes is safe

`Readable E t` (Spec/BinTypes.lean): all types involved are supported, the constructors of the classes involved yield valid
objects and elements of sets and maps are completely initialised by reading them. `BinRanked E rk`: no class contains itself.
`KeyTypes E`: a member has one type. These are facts about the C++ types, there is no condition on the input.
-/

namespace Verif

/-- the outcome `r` of a deserialisation is a valid object of type `t` or an exception; in both cases the deserialiser (with
all shared objects created so far) is in a consistent state -/
def SafeOutcome (E : Env) (HT : List Ty) (t : Ty) (r : Res BExc RSt Val) : Prop :=
  (∃ v s' HT', r = .ok v s' ∧ HT <+: HT' ∧ TypedSt E HT' s' ∧ HasTy E HT' t v) ∨
  (∃ e s' HT', r = .exc e s' ∧ HT <+: HT' ∧ TypedSt E HT' s')

theorem safe_of_sound {E : Env} {HT : List Ty} {t : Ty} {m : RM Val} {s : RSt} (h : Sound E HT m s fun HT' v => HasTy E HT' t v)
    (hn : m s ≠ .fuel) : SafeOutcome E HT t (m s) := by
  unfold Sound at h
  cases hr : m s with
  | ok v s' =>
    rw [hr] at h
    obtain ⟨HT', h1, h2, h3⟩ := h
    exact Or.inl ⟨v, s', HT', rfl, h1, h2, h3⟩
  | exc e s' =>
    rw [hr] at h
    obtain ⟨HT', h1, h2⟩ := h
    exact Or.inr ⟨e, s', HT', rfl, h1, h2⟩
  | ub => rw [hr] at h; exact h.elim
  | stuck => rw [hr] at h; exact h.elim
  | fuel => exact absurd hr hn

/-- **C32**: reading an object of any supported type from any bytes, within any session, terminates with a valid object or an
exception. In particular there is no undefined behaviour. (`N` bounds the recursion depth; the outcome does not depend on the
recursion budget beyond.) -/
theorem C32_read_any_bytes {E : Env} {rk : ClassId → Nat} (hrk : BinRanked E rk) (hkt : KeyTypes E) {t : Ty} (ht : Readable E t)
    (version : Nat) (p : Val) (HT : List Ty) (s : RSt) (hs : TypedSt E HT s) (hp : HasTy E HT t p) :
    ∃ N r, (∀ n, N ≤ n → read E n version t p s = r) ∧ SafeOutcome E HT t r := by
  obtain ⟨N, hN⟩ := read_conv hrk version t p s
  refine ⟨N, read E N version t p s, fun n hn => ?_, safe_of_sound ((read_sound hkt N).1 HT version t p s ht hs hp) (hN N (Nat.le_refl _))⟩
  exact (read_monoF E version t p).stable (hN N (Nat.le_refl _)) hn

theorem typedSt_init (E : Env) (inp : Str) : TypedSt E [] (RSt.init inp) :=
  ⟨rfl, fun _ _ _ h => by simp [RSt.init] at h, fun a t v h => by simp at h⟩

/-- **C32** for `fromBinary`: for every byte sequence the result is a new valid object of the class or an exception. -/
theorem C32_fromBinary_any_bytes {E : Env} {rk : ClassId → Nat} (hrk : BinRanked E rk) (hkt : KeyTypes E) {c : ClassId}
    (ht : Readable E (.cls c)) (inp : Str) :
    ∃ N r, (∀ n, N ≤ n → fromBinary E n c inp = r) ∧ SafeOutcome E [] (.cls c) r := by
  obtain ⟨N, r, h1, h2⟩ := C32_read_any_bytes hrk hkt ht 0 (E.defInit (.cls c)) [] (RSt.init inp) (typedSt_init E inp) (hasTy_defInit _ ht)
  refine ⟨N, r, fun n hn => ?_, h2⟩
  rw [← h1 (n + 1) (by omega)]
  obtain ⟨ci, hci, -⟩ := ht _ (.refl _)
  simp only [fromBinary, restoreFromBinary, hci, read, readStep, M.bind_apply]
  cases readClass (read E n) ci 0 (E.defInit (.cls c)) (RSt.init inp) <;> rfl

/-- **C32** for `restoreFromBinary` into any valid object (having no shared objects): a valid object of the class and the version
read, or an exception. -/
theorem C32_restoreFromBinary_any_bytes {E : Env} {rk : ClassId → Nat} (hrk : BinRanked E rk) (hkt : KeyTypes E) {c : ClassId}
    (ht : Readable E (.cls c)) (p : Val) (hp : HasTy E [] (.cls c) p) (inp : Str) :
    ∃ N, (∃ v w s' HT, (∀ n, N ≤ n → restoreFromBinary E n c p inp = .ok (v, w) s') ∧ TypedSt E HT s' ∧ HasTy E HT (.cls c) v) ∨
      (∃ e s' HT, (∀ n, N ≤ n → restoreFromBinary E n c p inp = .exc e s') ∧ TypedSt E HT s') := by
  obtain ⟨ci, hci, -⟩ := ht _ (.refl _)
  cases hp with
  | @cls _ st hp1 hp2 =>
  have hp : HasTy E [] (.cls c) (.obj st) := .cls hp1 hp2
  have hconv : Conv (fun n => readClass (read E n) ci 0 (.obj st)) (RSt.init inp) :=
    conv_class (L := inp.length) (fun w b _ p s _ => read_conv hrk w _ p s) (fun w f _ p s _ => read_conv hrk w _ p s) _ _ (Nat.le_refl _)
  obtain ⟨N, hN⟩ := hconv
  refine ⟨N, ?_⟩
  have hst : ∀ n, N ≤ n → restoreFromBinary E n c (.obj st) inp = readClass (read E N) ci 0 (.obj st) (RSt.init inp) := by
    intro n hn
    simp only [restoreFromBinary, hci]
    exact (readClass_monoF E ci 0 (.obj st)).stable (hN N (Nat.le_refl _)) hn
  have hsound := sound_class hkt (read_sound hkt N) hci ht (w := 0) (st := st) (typedSt_init E inp) hp
  unfold Sound at hsound
  have hnf := hN N (Nat.le_refl _)
  cases hr : readClass (read E N) ci 0 (.obj st) (RSt.init inp) with
  | ok r s' =>
    rw [hr] at hsound
    obtain ⟨HT, -, h2, st', h3, h4⟩ := hsound
    refine Or.inl ⟨r.1, r.2, s', HT, fun n hn => ?_, h2, by rw [h3]; exact h4 c hp⟩
    rw [hst n hn, hr]
  | exc e s' =>
    rw [hr] at hsound
    obtain ⟨HT, -, h2⟩ := hsound
    exact Or.inr ⟨e, s', HT, fun n hn => by rw [hst n hn, hr], h2⟩
  | ub => rw [hr] at hsound; exact hsound.elim
  | stuck => rw [hr] at hsound; exact hsound.elim
  | fuel => exact absurd hr hnf

/-- **C32**: if an object is completely covered by what is read (`Covered`), reading it initialises it completely. -/
theorem C32_initialised {E : Env} (hkt : KeyTypes E) {t : Ty} {p : Val} (hc : Covered E t p) (n version : Nat) (s s' : RSt) (v : Val)
    (h : read E n version t p s = .ok v s') : v.hasIndet = false :=
  ((read_covered hkt n).1 version t p s v s' h hc).2

/-- **C33**: a shared pointer obtained by deserialisation - be it a new object or a reference to one defined earlier in the
session - refers to a valid object of the pointee type; identifiers keep referring to objects of the type they were defined
with. -/
theorem C33_pointer_type_safe {E : Env} (hkt : KeyTypes E) {t : Ty} (ht : Readable E t) (n version : Nat) (p : Val) (HT : List Ty)
    (s s' : RSt) (a : Nat) (hs : TypedSt E HT s) (hp : HasTy E HT (.sptr t) p) (h : read E n version (.sptr t) p s = .ok (.ref a) s') :
    ∃ HT' x, HT <+: HT' ∧ TypedSt E HT' s' ∧ HT'[a]? = some t ∧ s'.heap[a]? = some x ∧ HasTy E HT' t x := by
  have hr : Readable E (.sptr t) := by
    intro t' h
    cases h with
    | refl => trivial
    | sptr h => exact ht _ h
  have := (read_sound hkt n).1 HT version (.sptr t) p s hr hs hp
  unfold Sound at this
  rw [h] at this
  obtain ⟨HT', h1, h2, h3⟩ := this
  cases h3 with
  | sptrSome ha =>
    have hlt : a < s'.heap.length := by rw [← h2.len]; exact (List.getElem?_eq_some_iff.1 ha).1
    exact ⟨HT', s'.heap[a], h1, h2, ha, List.getElem?_eq_getElem hlt, h2.heap a t _ ha (List.getElem?_eq_getElem hlt)⟩

/-- **C33**: a successful reference yields exactly the object its identifier was defined as in this session, with the very same
pointee type, and changes no object and no definition. -/
theorem C33_reference_resolves (E : Env) (n version : Nat) (t : Ty) (p v : Val) (b : UInt8) (rest : Str) (s s' : RSt)
    (hi : s.inp = b :: rest) (h0 : b ≠ 0) (h1 : b.toNat &&& 3 ≠ 1) (h : read E n version (.sptr t) p s = .ok v s') :
    ∃ id a, (id, t, a) ∈ s.table ∧ v = .ref a ∧ s'.heap = s.heap ∧ s'.table = s.table := by
  cases n with
  | zero => cases h
  | succ n =>
  simp only [read, readStep] at h
  rw [M.bind_ok (readByte_cons _ _ s hi), if_neg (show b.toNat ≠ 0 from fun h => h0 (UInt8.toNat_inj.1 h)), M.bind_eq_ok] at h
  obtain ⟨id, s1, h2, h3⟩ := h
  rw [if_neg h1, M.bind_eq_ok] at h3
  obtain ⟨a, s2, h4, h5⟩ := h3
  cases h5
  have hsame : s1.heap = s.heap ∧ s1.table = s.table := by
    have htake : ∀ k (x y : RSt) bs, takeBytes k x = .ok bs y → y.heap = x.heap ∧ y.table = x.table := by
      intro k x y bs h
      unfold takeBytes at h
      split at h <;> cases h
      exact ⟨rfl, rfl⟩
    split at h2
    · rw [M.bind_eq_ok] at h2
      obtain ⟨bs, s3, h6, h7⟩ := h2
      cases h7
      have := htake _ _ _ _ h6
      exact this
    · unfold readVarint at h2
      rw [M.bind_eq_ok] at h2
      obtain ⟨b', s3, h6, h7⟩ := h2
      have : s3 = { s with inp := rest } := by
        unfold peekByte at h6
        split at h6 <;> cases h6
        rfl
      subst this
      split at h7
      · cases h7
      · rw [M.bind_eq_ok] at h7
        obtain ⟨bs, s4, h8, h9⟩ := h7
        cases h9
        have := htake _ _ _ _ h8
        exact this
  unfold lookupShared at h4
  cases hl : s1.table.lookup id with
  | none => rw [hl] at h4; cases h4
  | some q =>
    obtain ⟨t', a'⟩ := q
    rw [hl] at h4
    simp only at h4
    split at h4
    · rename_i ht'
      cases h4
      subst ht'
      exact ⟨id, a, hsame.2 ▸ mem_of_lookup hl, rfl, hsame⟩
    · cases h4

/-! ### The hypotheses are met by the demo classes -/

theorem needs_closed {E : Env} (S : Ty → Prop) (hopt : ∀ t, S (.opt t) → S t) (huptr : ∀ t, S (.uptr t) → S t)
    (hsptr : ∀ t, S (.sptr t) → S t) (hvec : ∀ t, S (.vec t) → S t) (hset : ∀ h m t, S (.set h m t) → S t)
    (hmap : ∀ h m k t, S (.map h m k t) → S k ∧ S t) (hpair : ∀ a b, S (.pair a b) → S a ∧ S b)
    (hvar : ∀ ts, S (.variant ts) → ∀ t ∈ ts, S t)
    (hcls : ∀ c ci, E.cls c = some ci → S (.cls c) → (∀ b ∈ ci.bin.bases, S (.cls b)) ∧ ∀ gf ∈ ci.bin.readFields, S gf.2.ty)
    {t t' : Ty} (h : Needs E t t') (ht : S t) : S t' := by
  induction h with
  | refl => exact ht
  | opt _ ih => exact ih (hopt _ ht)
  | uptr _ ih => exact ih (huptr _ ht)
  | sptr _ ih => exact ih (hsptr _ ht)
  | vec _ ih => exact ih (hvec _ ht)
  | set _ ih => exact ih (hset _ _ _ ht)
  | mapKey _ ih => exact ih (hmap _ _ _ _ ht).1
  | mapVal _ ih => exact ih (hmap _ _ _ _ ht).2
  | fst _ ih => exact ih (hpair _ _ ht).1
  | snd _ ih => exact ih (hpair _ _ ht).2
  | alt h1 _ _ ih => exact ih (hvar _ ht _ h1)
  | base h1 h2 _ ih => exact ih ((hcls _ _ h1 ht).1 _ h2)
  | field h1 h2 _ ih => exact ih ((hcls _ _ h1 ht).2 _ h2)

namespace Demo

theorem env_cls {c : ClassId} {ci : ClassInfo} (h : env.cls c = some ci) :
    (c = 0 ∧ ci = base) ∨ (c = 1 ∧ ci = derived) ∨ (c = 2 ∧ ci = node) := by
  match c, h with
  | 0, h => cases h; simp
  | 1, h => cases h; simp
  | 2, h => cases h; simp

theorem binRanked : BinRanked env id := by
  intro c ci h
  rcases env_cls h with ⟨rfl, rfl⟩ | ⟨rfl, rfl⟩ | ⟨rfl, rfl⟩ <;> decide

theorem hasField {c : ClassId} {g : Guard} {f : Field} (h : HasField env c g f) :
    (f = fI ∨ f = fM) ∧ (c = 0 ∨ c = 1) ∨ f = fS ∧ c = 1 ∨ (f = fV ∨ f = fN) ∧ c = 2 := by
  induction h with
  | own h1 h2 =>
    rcases env_cls h1 with ⟨rfl, rfl⟩ | ⟨rfl, rfl⟩ | ⟨rfl, rfl⟩ <;>
      simp only [base, derived, node, List.mem_cons, List.not_mem_nil, Prod.mk.injEq, or_false] at h2 <;> tauto
  | base h1 h2 h3 ih =>
    rcases env_cls h1 with ⟨rfl, rfl⟩ | ⟨rfl, rfl⟩ | ⟨rfl, rfl⟩ <;> simp [base, derived, node] at h2
    subst h2
    rcases ih with ⟨h, -⟩ | ⟨-, h⟩ | ⟨-, h⟩
    · exact Or.inl ⟨h, Or.inr rfl⟩
    · cases h
    · cases h

theorem keyTypes : KeyTypes env := by
  intro c g f c' g' f' h h' hk
  rcases hasField h with ⟨rfl | rfl, -⟩ | ⟨rfl, -⟩ | ⟨rfl | rfl, -⟩ <;>
    rcases hasField h' with ⟨rfl | rfl, -⟩ | ⟨rfl, -⟩ | ⟨rfl | rfl, -⟩ <;> first | rfl | (exfalso; revert hk; decide)

theorem typed_base (st : Store) (HT : List Ty) (i : Val) (hi : HasTy env HT (.int .i32) i) (m : List (Val × Val))
    (hm : HasTy env HT fM.ty (.map m)) (h1 : st.get? fI.key = some i) (h2 : st.get? fM.key = some (.map m)) :
    HasTy env HT (.cls 0) (.obj st) := by
  refine .cls (fun g f hf => ?_) (fun g f v hf hg => ?_)
  · rcases hasField hf with ⟨rfl | rfl, -⟩ | ⟨-, h⟩ | ⟨-, h⟩
    · simp [h1]
    · simp [h2]
    · cases h
    · cases h
  · rcases hasField hf with ⟨rfl | rfl, -⟩ | ⟨-, h⟩ | ⟨-, h⟩
    · rw [h1] at hg; cases hg; exact hi
    · rw [h2] at hg; cases hg; exact hm
    · cases h
    · cases h

theorem typed_derived (st : Store) (HT : List Ty) (i : Val) (hi : HasTy env HT (.int .i32) i)
    (h1 : st.get? fI.key = some i) (h2 : st.get? fM.key = some (.map [])) (h3 : st.get? fS.key = some (.list [])) :
    HasTy env HT (.cls 1) (.obj st) := by
  refine .cls (fun g f hf => ?_) (fun g f v hf hg => ?_)
  · rcases hasField hf with ⟨rfl | rfl, -⟩ | ⟨rfl, -⟩ | ⟨-, h⟩
    · simp [h1]
    · simp [h2]
    · simp [h3]
    · cases h
  · rcases hasField hf with ⟨rfl | rfl, -⟩ | ⟨rfl, -⟩ | ⟨-, h⟩
    · rw [h1] at hg; cases hg; exact hi
    · rw [h2] at hg; cases hg; exact .map (by simp) (by simp)
    · rw [h3] at hg; cases hg; exact .vec (by simp)
    · cases h

theorem typed_node (st : Store) (HT : List Ty) (i : Val) (hi : HasTy env HT (.int .i32) i)
    (h1 : st.get? fV.key = some i) (h2 : st.get? fN.key = some .null) : HasTy env HT (.cls 2) (.obj st) := by
  refine .cls (fun g f hf => ?_) (fun g f v hf hg => ?_)
  · rcases hasField hf with ⟨-, h | h⟩ | ⟨-, h⟩ | ⟨rfl | rfl, -⟩
    · cases h
    · cases h
    · cases h
    · simp [h1]
    · simp [h2]
  · rcases hasField hf with ⟨-, h | h⟩ | ⟨-, h⟩ | ⟨rfl | rfl, -⟩
    · cases h
    · cases h
    · cases h
    · rw [h1] at hg; cases hg; exact hi
    · rw [h2] at hg; cases hg; exact .sptrNone _

/-- types involved in the demo classes, plus a set of nodes -/
def demoTy (t : Ty) : Prop :=
  t = .cls 0 ∨ t = .cls 1 ∨ t = .cls 2 ∨ t = .int .i32 ∨ t = .str ∨ t = .vec .str ∨ t = .sptr (.cls 2) ∨
    t = .map false false .str (.int .i32) ∨ t = .set false false (.cls 2)

theorem readable {t : Ty} (ht : demoTy t) : Readable env t := by
  intro t' h
  have : demoTy t' := by
    refine needs_closed demoTy ?_ ?_ ?_ ?_ ?_ ?_ ?_ ?_ ?_ h ht
    all_goals simp only [demoTy]
    · intro t h; simp at h
    · intro t h; simp at h
    · intro t h; simp at h; simp [h]
    · intro t h; simp at h; simp [h]
    · intro a b t h; simp at h; simp [h]
    · intro a b k t h; simp at h; simp [h]
    · intro a b h; simp at h
    · intro ts h; simp at h
    · intro c ci h _
      rcases env_cls h with ⟨rfl, rfl⟩ | ⟨rfl, rfl⟩ | ⟨rfl, rfl⟩ <;>
        simp [base, derived, node, fI, fM, fS, fV, fN]
  rcases this with rfl | rfl | rfl | rfl | rfl | rfl | rfl | rfl | rfl
  · exact ⟨base, rfl, rfl, typed_base _ _ (.int 0) (.int _ _ (by decide) (by decide)) [] (.map (by simp) (by simp)) rfl rfl,
      typed_base _ _ .indet (.noInt _) [] (.map (by simp) (by simp)) rfl rfl⟩
  · exact ⟨derived, rfl, rfl, typed_derived _ _ (.int 0) (.int _ _ (by decide) (by decide)) rfl rfl rfl,
      typed_derived _ _ .indet (.noInt _) rfl rfl rfl⟩
  · exact ⟨node, rfl, rfl, typed_node _ _ (.int 0) (.int _ _ (by decide) (by decide)) rfl rfl,
      typed_node _ _ .indet (.noInt _) rfl rfl⟩
  · simp [LocallyOk]
  · trivial
  · trivial
  · trivial
  · exact ⟨.leaf _ rfl, .leaf _ rfl⟩
  · refine .cls (by decide +kernel) (fun g f v hf hg => ?_) (fun k v hm hi => ?_)
    · rcases hasField hf with ⟨-, h | h⟩ | ⟨-, h⟩ | ⟨rfl | rfl, -⟩
      · cases h
      · cases h
      · cases h
      · exact .leaf _ rfl
      · exact .leaf _ rfl
    · simp only [env, node, List.mem_cons, List.not_mem_nil, or_false, Prod.mk.injEq] at hm
      rcases hm with ⟨rfl, rfl⟩ | ⟨rfl, rfl⟩
      · exact ⟨fV, .own (ci := node) rfl (by simp [node, g0]), rfl⟩
      · cases hi

-- deserialising any bytes as versioned derived class, recursive node, shared pointer or set
example (inp : Str) : ∃ N r, (∀ n, N ≤ n → fromBinary env n 1 inp = r) ∧ SafeOutcome env [] (.cls 1) r :=
  C32_fromBinary_any_bytes binRanked keyTypes (readable (by simp [demoTy])) inp
example (inp : Str) : ∃ N r, (∀ n, N ≤ n → fromBinary env n 2 inp = r) ∧ SafeOutcome env [] (.cls 2) r :=
  C32_fromBinary_any_bytes binRanked keyTypes (readable (by simp [demoTy])) inp
example (inp : Str) : ∃ N r, (∀ n, N ≤ n → read env n 0 (.set false false (.cls 2)) (.list []) (RSt.init inp) = r) ∧
    SafeOutcome env [] (.set false false (.cls 2)) r :=
  C32_read_any_bytes binRanked keyTypes (readable (by simp [demoTy])) 0 _ [] _ (typedSt_init _ _) (.set (by simp))

end Demo

/-! ### The condition on sets is needed -/

namespace Demo

/-- class 9 `struct { int x /* as of version 1 */; }` with `x` uninitialised by default -/
def guardedEnv : Env :=
  { env with cls := fun c => if c = 9 then some {
      qname := lit "G"
      json := ⟨[], [], [], true, true⟩
      bin := ⟨[], none, [(⟨1, 0⟩, ⟨9, [120], .int .i32⟩)], [(⟨1, 0⟩, ⟨9, [120], .int .i32⟩)], true⟩
      valInit := [((9, [120]), .int 0)]
      defInit := [((9, [120]), .indet)] } else none }

end Demo

/-- **C32** (limit): reading a `std::set` of a class with an uninitialised member which the version at hand does not include moves
the uninitialised member - undefined behaviour for a one-byte input. -/
theorem C32_uninitialised_set_element :
    ∀ n, 2 ≤ n → read Demo.guardedEnv n 0 (.set false false (.cls 9)) (.list []) (RSt.init [0x81]) = .ub := by
  intro n hn
  obtain ⟨n, rfl⟩ := Nat.exists_eq_add_of_le' hn
  rfl

end Verif
