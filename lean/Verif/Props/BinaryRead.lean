import Mathlib.Tactic.Ring
import Verif.Spec.BinRead
import Verif.Lemmas.BinPair
import Verif.Lemmas.BinSound
import Verif.Props.BinaryForm
import Verif.Props.BinarySafety

/-!
# C61: which bytes are read as which objects
-/

namespace Verif

/-! ## Numbers -/

theorem bigEndian_length (k x : Nat) : (bigEndian k x).length = k := by simp [bigEndian]

theorem bigEndian_ofBE (bs : Str) : bigEndian bs.length (ofBE bs) = bs := by rw [← beBytes_eq, beBytes_ofBE]

theorem prefixLen_log2 {b : UInt8} (hb : b ≠ 0) : prefixLen b.toNat = 8 - b.toNat.log2 := by
  have h0 : b.toNat ≠ 0 := fun h => hb (UInt8.toNat_inj.1 h)
  obtain ⟨h1, h2, h3, h4⟩ := prefixLen_spec b.toNat_lt h0
  have h5 := (Nat.le_log2 h0).2 h3
  have h6 := (Nat.log2_lt h0).2 h4
  omega

theorem longId_iff (mode : UInt8) : mode.toNat &&& 4 ≠ 0 ↔ longId mode := by
  have : ∀ m, m < 256 → (m &&& 4 ≠ 0 ↔ m / 4 % 2 = 1) := by decide +kernel
  exact this _ mode.toNat_lt

theorem defines_iff (mode : UInt8) : mode.toNat &&& 3 = 1 ↔ definesObject mode := by
  have : ∀ m, m < 256 → (m &&& 3 = 1 ↔ m % 4 = 1) := by decide +kernel
  exact this _ mode.toNat_lt

theorem ofBE_cons (b : UInt8) (bs : Str) : ofBE (b :: bs) = b.toNat * 256 ^ bs.length + ofBE bs := by
  induction bs using List.reverseRecOn with
  | nil => simp [ofBE]
  | append_singleton bs c ih =>
    rw [← List.cons_append, ofBE_snoc, ofBE_snoc, ih, List.length_append, List.length_singleton, Nat.pow_succ]
    ring

theorem number_of {b : UInt8} {bs : Str} {L : Nat} (h1 : 1 ≤ L) (h2 : L ≤ 8) (h3 : 2 ^ (8 - L) ≤ b.toNat) (h4 : b.toNat < 2 ^ (9 - L))
    (hl : (b :: bs).length = L) : Number (b :: bs) (ofBE (b :: bs) - 2 ^ (7 * L)) := by
  have hbs : bs.length = L - 1 := by simp at hl; omega
  have h5 : 2 ^ (7 * L) = 2 ^ (8 - L) * 256 ^ (L - 1) := by
    rw [show (256 : Nat) = 2 ^ 8 from rfl, ← Nat.pow_mul, ← Nat.pow_add]
    congr 1
    omega
  have h6 : 2 ^ (9 - L) * 256 ^ (L - 1) = 2 ^ (7 * L) + 2 ^ (7 * L) := by
    rw [h5, show 9 - L = 8 - L + 1 by omega, Nat.pow_succ]; ring
  have h7 : ofBE bs < 256 ^ (L - 1) := hbs ▸ ofBE_lt bs
  have h8 := Nat.mul_le_mul_right (256 ^ (L - 1)) h3
  have h9 := Nat.mul_le_mul_right (256 ^ (L - 1)) (show b.toNat + 1 ≤ _ from h4)
  have h10 := ofBE_cons b bs
  rw [hbs] at h10
  rw [Nat.add_mul] at h9
  have h11 : 2 ^ (7 * L) ≤ ofBE (b :: bs) := by rw [h10, h5]; omega
  have := Number.mk L (ofBE (b :: bs) - 2 ^ (7 * L)) h1 h2 (by omega)
  have he : bigEndian L (ofBE (b :: bs)) = b :: bs := hl ▸ bigEndian_ofBE (b :: bs)
  rwa [Nat.add_sub_cancel' h11, he] at this

/-! ## Whatever happens is specified -/

/-- shared objects known in a state -/
def RSt.sess (s : RSt) : Session := ⟨s.table, s.heap⟩
/-- state with given input -/
def Session.st (s : Session) (inp : Str) : RSt := ⟨inp, s.defined, s.objects⟩

@[simp] theorem Session.sess_st (s : Session) (inp : Str) : (s.st inp).sess = s := rfl

/-- `m` does what `D` (success) and `R` (failure) specify -/
def Does {α : Type} (m : RM α) (D : Session → Str → α → Session → Prop) (R : Session → Str → Failure → Prop) : Prop :=
  ∀ s inp, match m (s.st inp) with
    | .ok a s' => ∃ bs, inp = bs ++ s'.inp ∧ D s bs a s'.sess
    | .exc e _ => R s inp (.thrown e)
    | .ub => R s inp .undefined
    | _ => True

section
variable {α β : Type} {D : Session → Str → α → Session → Prop} {R : Session → Str → Failure → Prop}

theorem Does.mono {m : RM α} {D' : Session → Str → α → Session → Prop} {R' : Session → Str → Failure → Prop} (h : Does m D R)
    (hD : ∀ s bs a s', D s bs a s' → D' s bs a s') (hR : ∀ s inp f, R s inp f → R' s inp f) : Does m D' R' := by
  intro s inp
  have := h s inp
  cases hr : m (s.st inp) with
  | ok a s' => rw [hr] at this; obtain ⟨bs, e, h⟩ := this; exact ⟨bs, e, hD _ _ _ _ h⟩
  | exc e s' => rw [hr] at this; exact hR _ _ _ this
  | ub => rw [hr] at this; exact hR _ _ _ this
  | stuck => trivial
  | fuel => trivial

theorem Does.bindOf {m : RM α} {f : α → RM β} {D' : α → Session → Str → β → Session → Prop} {R' : α → Session → Str → Failure → Prop}
    (h : Does m D R) (h' : ∀ a s bs s1, D s bs a s1 → Does (f a) (D' a) (R' a)) :
    Does (m >>= f) (fun s bs b s' => ∃ bs1 bs2 a s1, bs = bs1 ++ bs2 ∧ D s bs1 a s1 ∧ D' a s1 bs2 b s')
      (fun s inp x => R s inp x ∨ ∃ bs1 rest a s1, inp = bs1 ++ rest ∧ D s bs1 a s1 ∧ R' a s1 rest x) := by
  intro s inp
  have h1 := h s inp
  rw [M.bind_apply]
  cases hr : m (s.st inp) with
  | ok a s1 =>
    rw [hr] at h1
    obtain ⟨bs, e, h1⟩ := h1
    have h2 := h' a _ _ _ h1 s1.sess s1.inp
    change match f a s1 with | .ok a s' => _ | .exc e _ => _ | .ub => _ | _ => True at h2
    dsimp only
    cases hr2 : f a s1 with
    | ok b s2 =>
      rw [hr2] at h2
      obtain ⟨bs', e', h2⟩ := h2
      exact ⟨bs ++ bs', by rw [e, e', List.append_assoc], _, _, _, _, rfl, h1, h2⟩
    | exc x s2 => rw [hr2] at h2; exact .inr ⟨_, _, _, _, e, h1, h2⟩
    | ub => rw [hr2] at h2; exact .inr ⟨_, _, _, _, e, h1, h2⟩
    | stuck => trivial
    | fuel => trivial
  | exc e s1 => rw [hr] at h1; exact .inl h1
  | ub => rw [hr] at h1; exact .inl h1
  | stuck => trivial
  | fuel => trivial

theorem Does.bind {m : RM α} {f : α → RM β} {D' : α → Session → Str → β → Session → Prop} {R' : α → Session → Str → Failure → Prop}
    (h : Does m D R) (h' : ∀ a, Does (f a) (D' a) (R' a)) :
    Does (m >>= f) (fun s bs b s' => ∃ bs1 bs2 a s1, bs = bs1 ++ bs2 ∧ D s bs1 a s1 ∧ D' a s1 bs2 b s')
      (fun s inp x => R s inp x ∨ ∃ bs1 rest a s1, inp = bs1 ++ rest ∧ D s bs1 a s1 ∧ R' a s1 rest x) :=
  h.bindOf fun a _ _ _ _ => h' a

theorem Does.pure (a : α) : Does (pure a : RM α) (fun s bs b s' => bs = [] ∧ b = a ∧ s' = s) (fun _ _ _ => False) :=
  fun _ _ => ⟨[], rfl, rfl, rfl, rfl⟩

theorem Does.map {m : RM α} (g : α → β) (h : Does m D R) :
    Does (m >>= fun a => Pure.pure (g a)) (fun s bs b s' => ∃ a, b = g a ∧ D s bs a s') R := by
  refine (h.bind fun a => Does.pure (g a)).mono ?_ ?_
  · rintro s bs b s' ⟨bs1, bs2, a, s1, rfl, h1, rfl, rfl, rfl⟩
    exact ⟨a, rfl, by rwa [List.append_nil]⟩
  · rintro s inp x (h | ⟨_, _, _, _, _, _, h⟩)
    · exact h
    · exact h.elim

theorem Does.throw (e : BExc) : Does (M.throw e : RM α) (fun _ _ _ _ => False) (fun _ _ f => f = .thrown e) := fun _ _ => rfl
theorem Does.ub : Does (M.ub : RM α) (fun _ _ _ _ => False) (fun _ _ f => f = .undefined) := fun _ _ => rfl
theorem Does.stuck : Does (M.stuck : RM α) D R := fun _ _ => trivial

end

theorem does_take (k : Nat) : Does (takeBytes k) (fun s bs a s' => a = bs ∧ bs.length = k ∧ s' = s)
    (fun _ inp f => inp.length < k ∧ f = .thrown .eof) := by
  intro s inp
  unfold takeBytes
  by_cases h : k ≤ inp.length
  · rw [if_pos (show k ≤ (s.st inp).inp.length from h)]
    exact ⟨inp.take k, (List.take_append_drop k inp).symm, rfl, by simp [h], rfl⟩
  · rw [if_neg (show ¬ k ≤ (s.st inp).inp.length from h)]
    exact ⟨by omega, rfl⟩

theorem does_byte : Does readByte (fun s bs a s' => ∃ b : UInt8, bs = [b] ∧ a = b.toNat ∧ s' = s)
    (fun _ inp f => inp = [] ∧ f = .thrown .eof) := by
  refine ((does_take 1).map ofBE).mono ?_ ?_
  · rintro s bs a s' ⟨_, rfl, rfl, hl, rfl⟩
    obtain ⟨b, rfl⟩ := List.length_eq_one_iff.1 hl
    exact ⟨b, rfl, by simp [ofBE], rfl⟩
  · rintro s inp f ⟨h, rfl⟩
    exact ⟨List.length_eq_zero_iff.1 (by omega), rfl⟩

theorem does_bool : Does readBool (fun s bs a s' => ∃ b : UInt8, bs = [b] ∧ a = decide (b ≠ 0) ∧ s' = s)
    (fun _ inp f => inp = [] ∧ f = .thrown .eof) := by
  refine (does_byte.map fun b => decide (b ≠ 0)).mono ?_ fun _ _ _ h => h
  rintro s bs a s' ⟨_, rfl, b, rfl, rfl, rfl⟩
  refine ⟨b, rfl, ?_, rfl⟩
  have : b.toNat ≠ 0 ↔ b ≠ 0 := not_congr ⟨fun h => UInt8.toNat_inj.1 h, fun h => by rw [h]; rfl⟩
  simp only [this]

theorem does_varint : Does readVarint (fun s bs n s' => Number bs n ∧ s' = s) (fun _ inp f => ∃ e, f = .thrown e ∧ NoNumber inp e) := by
  intro s inp
  unfold readVarint
  rw [M.bind_apply]
  cases inp with
  | nil => exact ⟨_, rfl, .nothing⟩
  | cons b bs =>
    simp only [peekByte, Session.st]
    by_cases hb : b = 0
    · subst hb; exact ⟨_, rfl, .zero _⟩
    · have h0 : b.toNat ≠ 0 := fun h => hb (UInt8.toNat_inj.1 h)
      obtain ⟨h1, h2, h3, h4⟩ := prefixLen_spec b.toNat_lt h0
      rw [if_neg (by omega), M.bind_apply, takeBytes]
      by_cases hl : prefixLen b.toNat ≤ (b :: bs).length
      · simp only [hl, ↓reduceIte]
        refine ⟨(b :: bs).take (prefixLen b.toNat), (List.take_append_drop _ _).symm, ?_, rfl⟩
        have hl' : ((b :: bs).take (prefixLen b.toNat)).length = prefixLen b.toNat := by rw [List.length_take]; omega
        obtain ⟨k, hk⟩ : ∃ k, prefixLen b.toNat = k + 1 := ⟨prefixLen b.toNat - 1, by omega⟩
        rw [hk, List.take_succ_cons] at hl' ⊢
        rw [hk] at h1 h2 h3 h4
        exact number_of h1 h2 h3 h4 hl'
      · simp only [hl, ↓reduceIte]
        exact ⟨_, rfl, .short b bs hb (by rw [← prefixLen_log2 hb]; omega)⟩

theorem does_ident (mode : UInt8) :
    Does (if mode.toNat &&& 4 ≠ 0 then (do let bs ← takeBytes 8; pure (ofBE bs)) else readVarint : RM Nat)
      (fun s bs a s' => Identifier mode bs a ∧ s' = s) (fun _ inp f => ∃ e, f = .thrown e ∧ NoIdentifier mode inp e) := by
  by_cases h : mode.toNat &&& 4 ≠ 0
  · rw [if_pos h]
    have h := (longId_iff mode).1 h
    refine ((does_take 8).map ofBE).mono ?_ ?_
    · rintro s bs _ s' ⟨_, rfl, hb, hl, rfl⟩
      rw [hb]
      refine ⟨?_, rfl⟩
      have := Identifier.long (mode := mode) (ofBE bs) h (by have := ofBE_lt bs; rw [hl] at this; exact this)
      rwa [← hl, bigEndian_ofBE] at this
    · rintro s inp f ⟨hl, rfl⟩
      exact ⟨_, rfl, .long h hl⟩
  · rw [if_neg h]
    have h : ¬ longId mode := fun h' => h ((longId_iff mode).2 h')
    refine does_varint.mono ?_ ?_
    · rintro s bs a s' ⟨h', rfl⟩; exact ⟨.short h h', rfl⟩
    · rintro s inp f ⟨e, rfl, h'⟩; exact ⟨e, rfl, .short h h'⟩

theorem twosComplement_wrap (it : IntTy) (bs : Str) (hl : bs.length = it.bytes) : twosComplement it.bytes (it.wrap (ofBE bs)) = bs := by
  unfold twosComplement
  have h1 : it.wrap (ofBE bs) % 2 ^ (8 * it.bytes) = (ofBE bs : Int) % 2 ^ (8 * it.bytes) := by
    unfold IntTy.wrap IntTy.card
    rw [Int.add_emod, Int.emod_emod_of_dvd _ (dvd_refl _), ← Int.add_emod, Int.sub_add_cancel]
  have h2 : ofBE bs < 2 ^ (8 * it.bytes) := by
    have := ofBE_lt bs
    rwa [hl, show (256 : Nat) = 2 ^ 8 from rfl, ← Nat.pow_mul] at this
  have h3 : (ofBE bs : Int) % 2 ^ (8 * it.bytes) = (ofBE bs : Int) :=
    Int.emod_eq_of_lt (Int.natCast_nonneg _) (by exact_mod_cast h2)
  rw [h1, h3, Int.toNat_natCast, ← hl, bigEndian_ofBE]

theorem does_int (it : IntTy) : Does (readInt it)
    (fun s bs i s' => it.lo ≤ i ∧ i < it.hi ∧ bs = twosComplement it.bytes i ∧ s' = s)
    (fun _ inp f => inp.length < it.bytes ∧ f = .thrown .eof) := by
  refine ((does_take it.bytes).map fun bs => it.wrap (ofBE bs)).mono ?_ fun _ _ _ h => h
  rintro s bs i s' ⟨_, rfl, rfl, hl, rfl⟩
  exact ⟨(wrap_bounds _ _).1, (wrap_bounds _ _).2, (twosComplement_wrap it _ hl).symm, rfl⟩

section
variable (E : Env) (self : Nat → Ty → Val → RM Val)

/-- reading members irrespective of version conditions -/
def readMembers (version : Nat) : List Field → Store → RM Store
  | [], st => pure st
  | f :: fs, st =>
    match st.get? f.key with
    | none => M.stuck
    | some p => do
      let v ← self version f.ty p
      readMembers version fs (st.set f.key v)

theorem readFields_eq (version : Nat) (fs : List (Guard × Field)) (st : Store) :
    readFields self version fs st = readMembers self version ((fs.filter fun gf => gf.1.holds version).map Prod.snd) st := by
  induction fs generalizing st with
  | nil => rfl
  | cons gf fs ih =>
    obtain ⟨g, f⟩ := gf
    rw [readFields]
    by_cases hg : g.holds version = true
    · rw [if_pos hg, List.filter_cons_of_pos (by simpa using hg), List.map_cons, readMembers]
      cases st.get? f.key with
      | none => rfl
      | some p => simp only [ih]
    · rw [if_neg hg, List.filter_cons_of_neg (by simpa using hg), ih]

theorem resize_eq (t : Ty) (vs : List Val) (n : Nat) : resize vs n (E.valInit t) = priors E t vs n := by
  unfold resize priors
  apply List.ext_getElem
  · simp; omega
  · intro i h1 h2
    simp only [List.length_append, List.length_take, List.length_replicate] at h1
    by_cases hi : i < vs.length
    · rw [List.getElem_append_left (by rw [List.length_take]; omega)]
      simp [hi]
    · rw [List.getElem_append_right (by rw [List.length_take]; omega)]
      simp [Nat.le_of_not_lt hi]

/-- the code for a job -/
def runJob : Job → RM Val
  | .object version t p => self version t p
  | .elements t ps => do let vs ← readElems self t ps; pure (.list vs)
  | .setItems multi t n acc => do let vs ← readSetItems E self multi t n acc; pure (.list vs)
  | .mapItems multi k t n acc => do let kvs ← readMapItems E self multi k t n acc; pure (.map kvs)
  | .bases version bs p => readBases self version bs p
  | .members version fs st => do let st ← readMembers self version fs st; pure (.obj st)

variable {E self}
/-- all objects are read as specified -/
def SelfDoes (E : Env) (self : Nat → Ty → Val → RM Val) : Prop :=
  ∀ version t p, Does (self version t p) (Decodes E (.object version t p)) (Rejects E (.object version t p))

variable (hs : SelfDoes E self)
include hs

theorem does_elems (t : Ty) (ps : List Val) : Does (readElems self t ps) (fun s bs vs s' => Decodes E (.elements t ps) s bs (.list vs) s')
    (Rejects E (.elements t ps)) := by
  induction ps with
  | nil =>
    refine (Does.pure _).mono ?_ fun _ _ _ h => h.elim
    rintro s bs vs s' ⟨rfl, rfl, rfl⟩
    exact .noElements
  | cons p ps ih =>
    rw [readElems]
    refine ((hs 0 t p).bind fun v => ih.map _).mono ?_ ?_
    · rintro s bs vs s' ⟨bs1, bs2, v, s1, rfl, h1, vs', rfl, h2⟩
      exact .elements h1 h2
    · rintro s inp f (h | ⟨bs1, rest, v, s1, rfl, h1, h2⟩)
      · exact .element h
      · exact .elements h1 h2

theorem does_setItems (multi : Bool) (t : Ty) (n : Nat) (acc : List Val) :
    Does (readSetItems E self multi t n acc) (fun s bs vs s' => Decodes E (.setItems multi t n acc) s bs (.list vs) s')
      (Rejects E (.setItems multi t n acc)) := by
  induction n generalizing acc with
  | zero =>
    refine (Does.pure _).mono ?_ fun _ _ _ h => h.elim
    rintro s bs vs s' ⟨rfl, rfl, rfl⟩
    exact .noSetItems
  | succ n ih =>
    rw [readSetItems]
    refine ((hs 0 t (E.defInit t)).bind (D' := fun v s bs vs s' => v.hasIndet = false ∧ Decodes E (.setItems multi t n (insertItem E multi t v acc)) s bs (.list vs) s')
      (R' := fun v s inp f => (v.hasIndet = true ∧ f = .undefined) ∨ (v.hasIndet = false ∧ Rejects E (.setItems multi t n (insertItem E multi t v acc)) s inp f))
      fun v => ?_).mono ?_ ?_
    · cases hv : v.hasIndet with
      | true => exact Does.ub.mono (fun _ _ _ _ h => h.elim) fun _ _ _ h => .inl ⟨rfl, h⟩
      | false => exact (ih _).mono (fun _ _ _ _ h => ⟨rfl, h⟩) fun _ _ _ h => .inr ⟨rfl, h⟩
    · rintro s bs vs s' ⟨bs1, bs2, v, s1, rfl, h1, hv, h2⟩
      exact .setItems h1 hv h2
    · rintro s inp f (h | ⟨bs1, rest, v, s1, rfl, h1, ⟨hv, rfl⟩ | ⟨hv, h2⟩⟩)
      · exact .setItem h
      · exact .setIndet h1 hv
      · exact .setItems h1 hv h2

theorem does_mapItems (multi : Bool) (k t : Ty) (n : Nat) (acc : List (Val × Val)) :
    Does (readMapItems E self multi k t n acc) (fun s bs vs s' => Decodes E (.mapItems multi k t n acc) s bs (.map vs) s')
      (Rejects E (.mapItems multi k t n acc)) := by
  induction n generalizing acc with
  | zero =>
    refine (Does.pure _).mono ?_ fun _ _ _ h => h.elim
    rintro s bs vs s' ⟨rfl, rfl, rfl⟩
    exact .noMapItems
  | succ n ih =>
    rw [readMapItems]
    refine ((hs 0 (.pair k t) (E.valInit (.pair k t))).bind
      (D' := fun v s bs vs s' => ∃ a b, v = .tup [a, b] ∧ a.hasIndet = false ∧ b.hasIndet = false ∧
        Decodes E (.mapItems multi k t n (insertEntry E multi k a b acc)) s bs (.map vs) s')
      (R' := fun v s inp f => ∃ a b, v = .tup [a, b] ∧ (((a.hasIndet || b.hasIndet) = true ∧ f = .undefined) ∨
        (a.hasIndet = false ∧ b.hasIndet = false ∧ Rejects E (.mapItems multi k t n (insertEntry E multi k a b acc)) s inp f)))
      fun v => ?_).mono ?_ ?_
    · split
      · rename_i a b
        cases hv : (a.hasIndet || b.hasIndet) with
        | true => exact Does.ub.mono (fun _ _ _ _ h => h.elim) fun _ _ _ h => ⟨a, b, rfl, .inl ⟨hv, h⟩⟩
        | false =>
          obtain ⟨ha, hb⟩ := Bool.or_eq_false_iff.1 hv
          exact (ih _).mono (fun _ _ _ _ h => ⟨a, b, rfl, ha, hb, h⟩) fun _ _ _ h => ⟨a, b, rfl, .inr ⟨ha, hb, h⟩⟩
      · exact Does.stuck
    · rintro s bs vs s' ⟨bs1, bs2, v, s1, rfl, h1, a, b, rfl, ha, hb, h2⟩
      exact .mapItems h1 ha hb h2
    · rintro s inp f (h | ⟨bs1, rest, v, s1, rfl, h1, a, b, rfl, ⟨hv, rfl⟩ | ⟨ha, hb, h2⟩⟩)
      · exact .mapItem h
      · exact .mapIndet h1 hv
      · exact .mapItems h1 ha hb h2

theorem does_bases (version : Nat) (cs : List ClassId) (p : Val) :
    Does (readBases self version cs p) (Decodes E (.bases version cs p)) (Rejects E (.bases version cs p)) := by
  induction cs generalizing p with
  | nil =>
    refine (Does.pure _).mono ?_ fun _ _ _ h => h.elim
    rintro s bs vs s' ⟨rfl, rfl, rfl⟩
    exact .noBases
  | cons c cs ih =>
    rw [readBases]
    refine ((hs version (.cls c) p).bind fun v => ih v).mono ?_ ?_
    · rintro s bs vs s' ⟨bs1, bs2, v, s1, rfl, h1, h2⟩
      exact .bases h1 h2
    · rintro s inp f (h | ⟨bs1, rest, v, s1, rfl, h1, h2⟩)
      · exact .base h
      · exact .bases h1 h2

theorem does_members (version : Nat) (fs : List Field) (st : Store) :
    Does (readMembers self version fs st) (fun s bs st' s' => Decodes E (.members version fs st) s bs (.obj st') s')
      (Rejects E (.members version fs st)) := by
  induction fs generalizing st with
  | nil =>
    refine (Does.pure _).mono ?_ fun _ _ _ h => h.elim
    rintro s bs vs s' ⟨rfl, rfl, rfl⟩
    exact .noMembers
  | cons f fs ih =>
    rw [readMembers]
    cases hp : st.get? f.key with
    | none => exact Does.stuck
    | some p =>
      refine ((hs version f.ty p).bind fun v => ih (st.set f.key v)).mono ?_ ?_
      · rintro s bs vs s' ⟨bs1, bs2, v, s1, rfl, h1, h2⟩
        exact .members hp h1 h2
      · rintro s inp x (h | ⟨bs1, rest, v, s1, rfl, h1, h2⟩)
        · exact .member hp h
        · exact .members hp h1 h2

theorem does_class (c : ClassId) (ci : ClassInfo) (hc : E.cls c = some ci) (version : Nat) (p : Val) :
    Does (readClass self ci version p) (fun s bs r s' => Decodes E (.object version (.cls c) p) s bs r.1 s')
      (Rejects E (.object version (.cls c) p)) := by
  unfold readClass
  cases hr : ci.bin.readable with
  | false => exact Does.stuck
  | true =>
    rw [if_neg (by simp)]
    cases hv : ci.bin.version with
    | none =>
      refine ((does_bases hs version ci.bin.bases p).bind
        (D' := fun v s bs r s' => ∃ st, v = .obj st ∧ Decodes E (.members version (membersOf ci version) st) s bs r.1 s')
        (R' := fun v s inp f => ∃ st, v = .obj st ∧ Rejects E (.members version (membersOf ci version) st) s inp f)
        fun v => ?_).mono ?_ ?_
      · split
        · rename_i st
          unfold readVersion
          simp only [hv, M.pure_bind', readFields_eq]
          refine ((does_members hs version (membersOf ci version) st).map fun st => (Val.obj st, version)).mono ?_ ?_
          · rintro s bs r s' ⟨st', rfl, h⟩; exact ⟨st, rfl, h⟩
          · exact fun _ _ _ h => ⟨st, rfl, h⟩
        · exact Does.stuck
      · rintro s bs r s' ⟨bs1, bs2, v, s1, rfl, h1, st, rfl, h2⟩
        exact .plain hc hr hv h1 h2
      · rintro s inp x (h | ⟨bs1, rest, v, s1, rfl, h1, st, rfl, h2⟩)
        · exact .inBases hc hr h
        · exact .inPlain hc hr hv h1 h2
    | some m =>
      refine ((does_bases hs version ci.bin.bases p).bind
        (D' := fun v s bs r s' => ∃ st bs1 bs2 n, v = .obj st ∧ bs = bs1 ++ bs2 ∧ Number bs1 n ∧ n ≤ m ∧
          Decodes E (.members n (membersOf ci n) st) s bs2 r.1 s')
        (R' := fun v s inp f => ∃ st, v = .obj st ∧ ((∃ e, f = .thrown e ∧ NoNumber inp e) ∨ (∃ bs1 rest n, inp = bs1 ++ rest ∧ Number bs1 n ∧
          ((m < n ∧ f = .thrown (.version n m ci.qname)) ∨ (n ≤ m ∧ Rejects E (.members n (membersOf ci n) st) s rest f)))))
        fun v => ?_).mono ?_ ?_
      · split
        · rename_i st
          unfold readVersion
          simp only [hv, readFields_eq]
          have hver : Does (do let v ← readVarint; if v ≤ m then pure v else M.throw (.version v m ci.qname) : RM Nat)
              (fun s bs n s' => Number bs n ∧ n ≤ m ∧ s' = s)
              (fun _ inp f => (∃ e, f = .thrown e ∧ NoNumber inp e) ∨ (∃ bs1 rest n, inp = bs1 ++ rest ∧ Number bs1 n ∧
                m < n ∧ f = .thrown (.version n m ci.qname))) := by
            refine (does_varint.bind (D' := fun n s bs n' s' => n ≤ m ∧ bs = [] ∧ n' = n ∧ s' = s)
              (R' := fun n _ _ f => m < n ∧ f = .thrown (.version n m ci.qname)) fun n => ?_).mono ?_ ?_
            · split
              · rename_i h; exact (Does.pure n).mono (fun _ _ _ _ h' => ⟨h, h'⟩) fun _ _ _ h' => h'.elim
              · rename_i h; exact (Does.throw _).mono (fun _ _ _ _ h' => h'.elim) fun _ _ _ h' => ⟨by omega, h'⟩
            · rintro s bs n s' ⟨bs1, bs2, n', s1, rfl, ⟨h1, rfl⟩, h2, rfl, rfl, rfl⟩
              exact ⟨by rwa [List.append_nil], h2, rfl⟩
            · rintro s inp f (h | ⟨bs1, rest, n, s1, rfl, ⟨h1, rfl⟩, h2, rfl⟩)
              · exact .inl h
              · exact .inr ⟨_, _, _, rfl, h1, h2, rfl⟩
          refine (hver.bind fun n => (does_members hs n (membersOf ci n) st).map fun st => (Val.obj st, n)).mono ?_ ?_
          · rintro s bs r s' ⟨bs1, bs2, n, s1, rfl, ⟨h1, h2, rfl⟩, st', rfl, h⟩
            exact ⟨st, _, _, n, rfl, rfl, h1, h2, h⟩
          · rintro s inp f ((h | ⟨bs1, rest, n, rfl, h1, h2⟩) | ⟨bs1, rest, n, s1, rfl, ⟨h1, h2, rfl⟩, h⟩)
            · exact ⟨st, rfl, .inl h⟩
            · exact ⟨st, rfl, .inr ⟨_, _, _, rfl, h1, .inl h2⟩⟩
            · exact ⟨st, rfl, .inr ⟨_, _, _, rfl, h1, .inr ⟨h2, h⟩⟩⟩
        · exact Does.stuck
      · rintro s bs r s' ⟨bs0, _, v, s1, rfl, h1, st, bs1, bs2, n, rfl, rfl, h2, h3, h4⟩
        rw [← List.append_assoc]
        exact .versioned hc hr hv h1 h2 h3 h4
      · rintro s inp x (h | ⟨bs0, rest, v, s1, rfl, h1, st, rfl, ⟨e, rfl, h2⟩ | ⟨bs1, rest, n, rfl, h2, ⟨h3, rfl⟩ | ⟨h3, h4⟩⟩⟩)
        · exact .inBases hc hr h
        · exact .noVersion hc hr hv h1 h2
        · rw [← List.append_assoc]; exact .badVersion hc hr hv h1 h2 h3
        · rw [← List.append_assoc]; exact .inVersioned hc hr hv h1 h2 h3 h4

theorem does_step (version : Nat) (t : Ty) (p : Val) :
    Does (readStep E self version t p) (Decodes E (.object version t p)) (Rejects E (.object version t p)) := by
  unfold readStep
  cases t with
  | bool =>
    refine (does_bool.map _).mono ?_ ?_
    · rintro s bs v s' ⟨_, rfl, b, rfl, rfl, rfl⟩; exact .bool b
    · rintro s inp f ⟨rfl, rfl⟩; exact .fixed (k := 1) rfl (by simp)
  | int it =>
    dsimp only
    split
    · exact Does.stuck
    · rename_i hit
      refine ((does_int it).map _).mono ?_ ?_
      · rintro s bs v s' ⟨i, rfl, h1, h2, rfl, rfl⟩; exact .int it i hit h1 h2
      · rintro s inp f ⟨h, rfl⟩; exact .fixed (k := it.bytes) (by simp [fixedSize, hit]) h
  | f32 =>
    refine ((does_take 4).map _).mono ?_ ?_
    · rintro s bs v s' ⟨x, rfl, rfl, hl, rfl⟩
      have h := Decodes.f32 (E := E) (ver := version) (p := p) (s := s') (BitVec.ofNat 32 (ofBE x))
      have hx := ofBE_lt x
      rw [hl] at hx
      rwa [BitVec.toNat_ofNat, Nat.mod_eq_of_lt (by exact hx), ← hl, bigEndian_ofBE] at h
    · rintro s inp f ⟨h, rfl⟩; exact .fixed (k := 4) rfl h
  | f64 =>
    refine ((does_take 8).map _).mono ?_ ?_
    · rintro s bs v s' ⟨x, rfl, rfl, hl, rfl⟩
      have h := Decodes.f64 (E := E) (ver := version) (p := p) (s := s') (BitVec.ofNat 64 (ofBE x))
      have hx := ofBE_lt x
      rw [hl] at hx
      rwa [BitVec.toNat_ofNat, Nat.mod_eq_of_lt (by exact hx), ← hl, bigEndian_ofBE] at h
    · rintro s inp f ⟨h, rfl⟩; exact .fixed (k := 8) rfl h
  | dateTime =>
    refine ((does_int .u64).map _).mono ?_ ?_
    · rintro s bs v s' ⟨i, rfl, h1, h2, rfl, rfl⟩; exact .dateTime i h1 h2
    · rintro s inp f ⟨h, rfl⟩; exact .fixed (k := 8) rfl h
  | timeSpan =>
    refine ((does_int .i64).map _).mono ?_ ?_
    · rintro s bs v s' ⟨i, rfl, h1, h2, rfl, rfl⟩; exact .timeSpan i h1 h2
    · rintro s inp f ⟨h, rfl⟩; exact .fixed (k := 8) rfl h
  | str =>
    refine (does_varint.bind (D' := fun n s bs v s' => n ≤ E.maxLen ∧ bs.length = n ∧ v = .str bs ∧ s' = s)
      (R' := fun n s inp f => (E.maxLen < n ∧ f = .thrown .badAlloc) ∨ (n ≤ E.maxLen ∧ inp.length < n ∧ f = .thrown .eof))
      fun n => ?_).mono ?_ ?_
    · split
      · rename_i h; exact (Does.throw _).mono (fun _ _ _ _ h => h.elim) fun _ _ _ h' => .inl ⟨h, h'⟩
      · rename_i h
        refine ((does_take n).map _).mono ?_ ?_
        · rintro s bs v s' ⟨_, rfl, rfl, hl, rfl⟩; exact ⟨by omega, hl, rfl, rfl⟩
        · exact fun _ _ _ h' => .inr ⟨by omega, h'⟩
    · rintro s bs v s' ⟨bs1, bs2, n, s1, rfl, ⟨h1, rfl⟩, h2, rfl, rfl, rfl⟩
      exact .str bs2 h1 h2
    · rintro s inp f (⟨e, rfl, h⟩ | ⟨bs1, rest, n, s1, rfl, ⟨h1, rfl⟩, ⟨h2, rfl⟩ | ⟨h2, h3, rfl⟩⟩)
      · exact .noLength rfl h
      · exact .tooLong rfl h1 h2
      · exact .shortStr h1 h2 h3
  | enum u =>
    exact (hs 0 (.int u) .indet).mono (fun _ _ _ _ h => .enum u h) (fun _ _ _ h => .enum h)
  | pair a b =>
    dsimp only
    split
    · rename_i x y
      refine ((hs 0 a x).bind fun v => (hs 0 b y).map _).mono ?_ ?_
      · rintro s bs r s' ⟨bs1, bs2, v, s1, rfl, h1, w, rfl, h2⟩; exact .pair h1 h2
      · rintro s inp f (h | ⟨bs1, rest, v, s1, rfl, h1, h2⟩)
        · exact .fst h
        · exact .snd h1 h2
    · exact Does.stuck
  | uptr t =>
    refine (does_bool.bind (D' := fun b s bs v s' => (b = true ∧ ∃ x, v = .ptr x ∧ Decodes E (.object 0 t (E.valInit t)) s bs x s') ∨
        (b = false ∧ bs = [] ∧ v = .null ∧ s' = s))
      (R' := fun b s inp f => b = true ∧ Rejects E (.object 0 t (E.valInit t)) s inp f) fun b => ?_).mono ?_ ?_
    · cases b with
      | true => exact ((hs 0 t (E.valInit t)).map _).mono (fun _ _ _ _ h => .inl ⟨rfl, h⟩) fun _ _ _ h => ⟨rfl, h⟩
      | false => exact (Does.pure _).mono (fun _ _ _ _ h => .inr ⟨rfl, h⟩) fun _ _ _ h => h.elim
    · rintro s bs v s' ⟨_, bs2, b, s1, rfl, ⟨c, rfl, rfl, rfl⟩, ⟨hb, x, rfl, h⟩ | ⟨hb, rfl, rfl, rfl⟩⟩
      · exact .uptr (of_decide_eq_true hb) h
      · rw [not_not.1 (of_decide_eq_false hb)]; exact .uptrNull
    · rintro s inp f (⟨rfl, rfl⟩ | ⟨_, rest, b, s1, rfl, ⟨c, rfl, rfl, rfl⟩, hb, h⟩)
      · exact .noFlag rfl
      · exact .uptr (of_decide_eq_true hb) h
  | opt t =>
    refine (does_bool.bind (D' := fun b s bs v s' => (b = true ∧ ∃ x, v = .some x ∧ Decodes E (.object 0 t (E.valInit t)) s bs x s') ∨
        (b = false ∧ bs = [] ∧ v = .null ∧ s' = s))
      (R' := fun b s inp f => b = true ∧ Rejects E (.object 0 t (E.valInit t)) s inp f) fun b => ?_).mono ?_ ?_
    · cases b with
      | true => exact ((hs 0 t (E.valInit t)).map _).mono (fun _ _ _ _ h => .inl ⟨rfl, h⟩) fun _ _ _ h => ⟨rfl, h⟩
      | false => exact (Does.pure _).mono (fun _ _ _ _ h => .inr ⟨rfl, h⟩) fun _ _ _ h => h.elim
    · rintro s bs v s' ⟨_, bs2, b, s1, rfl, ⟨c, rfl, rfl, rfl⟩, ⟨hb, x, rfl, h⟩ | ⟨hb, rfl, rfl, rfl⟩⟩
      · exact .opt (of_decide_eq_true hb) h
      · rw [not_not.1 (of_decide_eq_false hb)]; exact .optNull
    · rintro s inp f (⟨rfl, rfl⟩ | ⟨_, rest, b, s1, rfl, ⟨c, rfl, rfl, rfl⟩, hb, h⟩)
      · exact .noFlag rfl
      · exact .opt (of_decide_eq_true hb) h
  | sptr t =>
    refine (does_byte.bindOf (D' := fun mode s bs v s' => (mode = 0 ∧ bs = [] ∧ v = .null ∧ s' = s) ∨
        (mode ≠ 0 ∧ ∀ m : UInt8, mode = m.toNat → Decodes E (.object version (.sptr t) p) s (m :: bs) v s'))
      (R' := fun mode s inp f => mode ≠ 0 ∧ ∀ m : UInt8, mode = m.toNat → Rejects E (.object version (.sptr t) p) s (m :: inp) f)
      fun mode _ _ _ hmode => ?_).mono ?_ ?_
    · obtain ⟨m, -, rfl, -⟩ := hmode
      split
      · rename_i h; exact (Does.pure _).mono (fun _ _ _ _ h' => .inl ⟨h, h'⟩) fun _ _ _ h => h.elim
      · rename_i h0
        have hm0 : m ≠ 0 := fun h => h0 (by rw [h]; rfl)
        refine ((does_ident m).bind (D' := fun id s bs v s' =>
            (definesObject m ∧ ∃ x s1, Decodes E (.object 0 t (E.valInit t))
              ⟨(id, t, s.objects.length) :: s.defined, s.objects ++ [E.valInit t]⟩ bs x s1 ∧
              v = .ref s.objects.length ∧ s' = ⟨s1.defined, s1.objects.set s.objects.length x⟩) ∨
            (¬ definesObject m ∧ bs = [] ∧ ∃ a, v = .ref a ∧ s.defined.lookup id = some (t, a) ∧ s' = s))
          (R' := fun id s inp f => (definesObject m ∧ Rejects E (.object 0 t (E.valInit t))
              ⟨(id, t, s.objects.length) :: s.defined, s.objects ++ [E.valInit t]⟩ inp f) ∨
            (¬ definesObject m ∧ (∀ a, s.defined.lookup id ≠ some (t, a)) ∧ f = .thrown .conv)) fun id => ?_).mono ?_ ?_
        · by_cases hd : m.toNat &&& 3 = 1
          · rw [if_pos hd]
            have hd := (defines_iff m).1 hd
            intro s inp
            have h := hs 0 t (E.valInit t) ⟨(id, t, s.objects.length) :: s.defined, s.objects ++ [E.valInit t]⟩ inp
            simp only [M.bind_apply, allocShared, Session.st] at h ⊢
            cases hr : self 0 t (E.valInit t) ⟨inp, (id, t, s.objects.length) :: s.defined, s.objects ++ [E.valInit t]⟩ with
            | ok x s1 =>
              rw [hr] at h
              obtain ⟨bs, e, h⟩ := h
              exact ⟨bs, e, .inl ⟨hd, x, s1.sess, h, rfl, rfl⟩⟩
            | exc e s1 => rw [hr] at h; exact .inl ⟨hd, h⟩
            | ub => rw [hr] at h; exact .inl ⟨hd, h⟩
            | stuck => trivial
            | fuel => trivial
          · rw [if_neg hd]
            have hd : ¬ definesObject m := fun h => hd ((defines_iff m).2 h)
            intro s inp
            simp only [M.bind_apply, lookupShared, Session.st]
            cases hl : s.defined.lookup id with
            | none => exact .inr ⟨hd, by simp, rfl⟩
            | some ta =>
              obtain ⟨t', a⟩ := ta
              dsimp only
              by_cases ht : t' = t
              · rw [if_pos ht]
                exact ⟨[], rfl, .inr ⟨hd, rfl, a, rfl, by rw [ht], rfl⟩⟩
              · rw [if_neg ht]
                refine .inr ⟨hd, ?_, rfl⟩
                intro a' h
                cases h
                exact ht rfl
        · rintro s bs v s' ⟨ids, bs2, id, s1, rfl, ⟨hid, rfl⟩, ⟨hd, x, s2, h, rfl, rfl⟩ | ⟨hd, rfl, a, rfl, hl, rfl⟩⟩
          · refine .inr ⟨h0, fun m' hm' => ?_⟩
            rw [← UInt8.toNat_inj.1 hm']
            exact .sptrNew hm0 hd hid h
          · refine .inr ⟨h0, fun m' hm' => ?_⟩
            rw [← UInt8.toNat_inj.1 hm', List.append_nil]
            exact .sptrRef hm0 hd hid hl
        · rintro s inp f (⟨e, rfl, h⟩ | ⟨ids, rest, id, s1, rfl, ⟨hid, rfl⟩, ⟨hd, h⟩ | ⟨hd, hl, rfl⟩⟩)
          · refine ⟨h0, fun m' hm' => ?_⟩
            rw [← UInt8.toNat_inj.1 hm']
            exact .noId hm0 h
          · refine ⟨h0, fun m' hm' => ?_⟩
            rw [← UInt8.toNat_inj.1 hm']
            exact .sptrNew hm0 hd hid h
          · refine ⟨h0, fun m' hm' => ?_⟩
            rw [← UInt8.toNat_inj.1 hm']
            exact .badRef hm0 hd hid hl
    · rintro s bs v s' ⟨_, bs2, b, s1, rfl, ⟨c, rfl, rfl, rfl⟩, ⟨hb, rfl, rfl, rfl⟩ | ⟨hb, h⟩⟩
      · rw [show c = 0 from UInt8.toNat_inj.1 hb]; exact .sptrNull
      · exact h c rfl
    · rintro s inp f (⟨rfl, rfl⟩ | ⟨_, rest, b, s1, rfl, ⟨c, rfl, rfl, rfl⟩, hb, h⟩)
      · exact .noFlag rfl
      · exact h c rfl
  | vec t =>
    dsimp only
    split
    · rename_i vs
      refine (does_varint.bind (D' := fun n s bs v s' => n ≤ E.maxLen ∧ Decodes E (.elements t (priors E t vs n)) s bs v s')
        (R' := fun n s inp f => (E.maxLen < n ∧ f = .thrown .badAlloc) ∨ (n ≤ E.maxLen ∧ Rejects E (.elements t (priors E t vs n)) s inp f))
        fun n => ?_).mono ?_ ?_
      · split
        · rename_i h; exact (Does.throw _).mono (fun _ _ _ _ h => h.elim) fun _ _ _ h' => .inl ⟨h, h'⟩
        · rename_i h
          rw [resize_eq]
          refine ((does_elems hs t _).map _).mono ?_ ?_
          · rintro s bs v s' ⟨_, rfl, h'⟩; exact ⟨by omega, h'⟩
          · exact fun _ _ _ h' => .inr ⟨by omega, h'⟩
      · rintro s bs v s' ⟨bs1, bs2, n, s1, rfl, ⟨h1, rfl⟩, h2, h3⟩
        exact .vec h1 h2 h3
      · rintro s inp f (⟨e, rfl, h⟩ | ⟨bs1, rest, n, s1, rfl, ⟨h1, rfl⟩, ⟨h2, rfl⟩ | ⟨h2, h3⟩⟩)
        · exact .noLength rfl h
        · exact .tooLong rfl h1 h2
        · exact .vec h1 h2 h3
    · exact Does.stuck
  | set hashed multi t =>
    dsimp only
    split
    · rename_i vs
      refine (does_varint.bind fun n => (does_setItems hs multi t n vs).map _).mono ?_ ?_
      · rintro s bs v s' ⟨bs1, bs2, n, s1, rfl, ⟨h1, rfl⟩, _, rfl, h2⟩
        exact .set h1 h2
      · rintro s inp f (⟨e, rfl, h⟩ | ⟨bs1, rest, n, s1, rfl, ⟨h1, rfl⟩, h2⟩)
        · exact .noLength rfl h
        · exact .set h1 h2
    · exact Does.stuck
  | map hashed multi k t =>
    dsimp only
    split
    · rename_i vs
      refine (does_varint.bind fun n => (does_mapItems hs multi k t n vs).map _).mono ?_ ?_
      · rintro s bs v s' ⟨bs1, bs2, n, s1, rfl, ⟨h1, rfl⟩, _, rfl, h2⟩
        exact .map h1 h2
      · rintro s inp f (⟨e, rfl, h⟩ | ⟨bs1, rest, n, s1, rfl, ⟨h1, rfl⟩, h2⟩)
        · exact .noLength rfl h
        · exact .map h1 h2
    · exact Does.stuck
  | variant ts =>
    refine (does_byte.bind (D' := fun i s bs v s' => ∃ t, ts[i]? = some t ∧ ((t = .mono ∧ bs = [] ∧ v = .alt i .mono ∧ s' = s) ∨
        (t ≠ .mono ∧ ∃ x, v = .alt i x ∧ Decodes E (.object 0 t (E.valInit t)) s bs x s')))
      (R' := fun i s inp f => (ts.length ≤ i ∧ f = .thrown .conv) ∨
        ∃ t, ts[i]? = some t ∧ t ≠ .mono ∧ Rejects E (.object 0 t (E.valInit t)) s inp f) fun i => ?_).mono ?_ ?_
    · split
      · rename_i h
        exact (Does.throw _).mono (fun _ _ _ _ h => h.elim) fun _ _ _ h' => .inl ⟨List.getElem?_eq_none_iff.1 h, h'⟩
      · rename_i h
        exact (Does.pure _).mono (fun _ _ _ _ h' => ⟨_, h, .inl ⟨rfl, h'⟩⟩) fun _ _ _ h' => h'.elim
      · rename_i t h hm
        exact ((hs 0 t (E.valInit t)).map _).mono (fun _ _ _ _ h' => ⟨_, hm, .inr ⟨h, h'⟩⟩) fun _ _ _ h' => .inr ⟨_, hm, h, h'⟩
    · rintro s bs v s' ⟨_, bs2, i, s1, rfl, ⟨b, rfl, rfl, rfl⟩, t, ht, ⟨rfl, rfl, rfl, rfl⟩ | ⟨hm, x, rfl, h⟩⟩
      · exact .mono ht
      · exact .variant ht hm h
    · rintro s inp f (⟨rfl, rfl⟩ | ⟨_, rest, i, s1, rfl, ⟨b, rfl, rfl, rfl⟩, ⟨h, rfl⟩ | ⟨t, ht, hm, h⟩⟩)
      · exact .noFlag rfl
      · exact .noAlternative h
      · exact .variant ht hm h
  | cls c =>
    dsimp only
    cases hc : E.cls c with
    | none => exact Does.stuck
    | some ci =>
      refine ((does_class hs c ci hc version p).map _).mono ?_ fun _ _ _ h => h
      rintro s bs v s' ⟨r, rfl, h⟩; exact h
  | cstr => exact Does.stuck
  | sview => exact Does.stuck
  | tuple ts => exact Does.stuck
  | mono => exact Does.stuck

end

theorem read_does (E : Env) (n : Nat) : SelfDoes E (read E n) := by
  induction n with
  | zero => exact fun _ _ _ _ _ => trivial
  | succ n ih => exact fun version t p => does_step ih version t p

/-! ## Whatever is specified happens -/

theorem rdByte_cons (s : Session) (b : UInt8) (rest : Str) : readByte (s.st (b :: rest)) = .ok b.toNat (s.st rest) := by
  unfold readByte
  rw [M.bind_apply]
  simp [takeBytes, Session.st, ofBE]

theorem rdByte_nil (s : Session) : readByte (s.st []) = .exc .eof (s.st []) := rfl

theorem rdBool_cons (s : Session) (b : UInt8) (rest : Str) : readBool (s.st (b :: rest)) = .ok (decide (b ≠ 0)) (s.st rest) := by
  unfold readBool
  rw [M.bind_ok (rdByte_cons s b rest)]
  have : b.toNat ≠ 0 ↔ b ≠ 0 := not_congr ⟨fun h => UInt8.toNat_inj.1 h, fun h => by rw [h]; rfl⟩
  simp only [M.pure_apply, this]

theorem rdBool_nil (s : Session) : readBool (s.st []) = .exc .eof (s.st []) := rfl

theorem take_ok (s : Session) (bs rest : Str) (k : Nat) (hk : bs.length = k) : takeBytes k (s.st (bs ++ rest)) = .ok bs (s.st rest) :=
  takeBytes_append bs rest (s.st (bs ++ rest)) k hk

theorem take_short (s : Session) (inp : Str) (k : Nat) (hk : inp.length < k) : takeBytes k (s.st inp) = .exc .eof (s.st []) := by
  unfold takeBytes
  rw [if_neg (show ¬ k ≤ (s.st inp).inp.length from Nat.not_le_of_lt hk)]; rfl

theorem readVarint_number {bs : Str} {n : Nat} (h : Number bs n) (s : Session) (rest : Str) :
    readVarint (s.st (bs ++ rest)) = .ok n (s.st rest) := by
  obtain ⟨k, n, h1, h2, h3⟩ := h
  rw [← beBytes_eq, Nat.add_comm]
  exact readVarint_append h1 h2 h3 rest (s.st rest)

theorem readVarint_noNumber {inp : Str} {e : BExc} (h : NoNumber inp e) (s : Session) : ∃ s', readVarint (s.st inp) = .exc e s' := by
  cases h with
  | nothing => exact ⟨_, rfl⟩
  | zero bs => exact ⟨_, rfl⟩
  | short b bs hb hl =>
    unfold readVarint
    rw [M.bind_ok (show peekByte (s.st (b :: bs)) = .ok b.toNat (s.st (b :: bs)) from rfl), prefixLen_log2 hb, if_neg (by omega), M.bind_exc (take_short _ _ _ hl)]
    exact ⟨_, rfl⟩

theorem rdId_ok {mode : UInt8} {ids : Str} {id : Nat} (h : Identifier mode ids id) (s : Session) (rest : Str) :
    (if mode.toNat &&& 4 ≠ 0 then (do let bs ← takeBytes 8; pure (ofBE bs)) else readVarint : RM Nat) (s.st (ids ++ rest)) = .ok id (s.st rest) := by
  cases h with
  | long _ hm ha =>
    rw [if_pos ((longId_iff mode).2 hm), M.bind_ok (take_ok s _ rest 8 (bigEndian_length _ _)), ← beBytes_eq, ofBE_beBytes,
      Nat.mod_eq_of_lt (by exact ha)]
    rfl
  | short hm hn => rw [if_neg fun h => hm ((longId_iff mode).1 h)]; exact readVarint_number hn s rest

theorem rdId_bad {mode : UInt8} {inp : Str} {e : BExc} (h : NoIdentifier mode inp e) (s : Session) :
    ∃ s', (if mode.toNat &&& 4 ≠ 0 then (do let bs ← takeBytes 8; pure (ofBE bs)) else readVarint : RM Nat) (s.st inp) = .exc e s' := by
  cases h with
  | long hm ha => rw [if_pos ((longId_iff mode).2 hm), M.bind_exc (take_short s _ 8 ha)]; exact ⟨_, rfl⟩
  | short hm hn => rw [if_neg fun h => hm ((longId_iff mode).1 h)]; exact readVarint_noNumber hn s

theorem rdInt_ok (it : IntTy) (i : Int) (h1 : it.lo ≤ i) (h2 : i < it.hi) (s : Session) (rest : Str) :
    readInt it (s.st (twosComplement it.bytes i ++ rest)) = .ok i (s.st rest) := by
  unfold readInt
  rw [M.bind_ok (take_ok s (twosComplement it.bytes i) rest _ (bigEndian_length _ _))]
  have h : twosComplement it.bytes i = intBytes it.bytes i := by unfold twosComplement intBytes; rw [beBytes_eq]
  rw [h, ofBE_intBytes, wrap_emod, wrap_id _ _ h1 h2]
  rfl

section
variable (E : Env)

/-- from some recursion budget on, the code for the job does this -/
def Comes (j : Job) (s : Session) (bs : Str) (v : Val) (s' : Session) : Prop :=
  ∃ N, ∀ n, N ≤ n → ∀ rest, runJob E (read E n) j (s.st (bs ++ rest)) = .ok v (s'.st rest)

variable {E}

theorem Comes.obj {version : Nat} {t : Ty} {p : Val} {s s' : Session} {bs : Str} {v : Val} {N : Nat}
    (h : ∀ n, N ≤ n → ∀ rest, readStep E (read E n) version t p (s.st (bs ++ rest)) = .ok v (s'.st rest)) :
    Comes E (.object version t p) s bs v s' :=
  ⟨N + 1, fun n hn rest => by
    obtain ⟨m, rfl⟩ : ∃ m, n = m + 1 := ⟨n - 1, by omega⟩
    exact h m (by omega) rest⟩

theorem Comes.of_decodes {j : Job} {s : Session} {bs : Str} {v : Val} {s' : Session} (h : Decodes E j s bs v s') : Comes E j s bs v s' := by
  induction h with
  | bool b =>
    refine .obj (N := 0) fun n _ rest => ?_
    rw [readStep, List.singleton_append, M.bind_ok (rdBool_cons _ _ _)]; rfl
  | int it i h0 h1 h2 =>
    refine .obj (N := 0) fun n _ rest => ?_
    rw [readStep, if_neg h0, M.bind_ok (rdInt_ok it i h1 h2 _ _)]; rfl
  | f32 b =>
    refine .obj (N := 0) fun n _ rest => ?_
    rw [readStep, M.bind_ok (take_ok _ _ _ _ (bigEndian_length _ _)), ← beBytes_eq, ofBE_beBytes, Nat.mod_eq_of_lt (by exact b.isLt)]
    simp
  | f64 b =>
    refine .obj (N := 0) fun n _ rest => ?_
    rw [readStep, M.bind_ok (take_ok _ _ _ _ (bigEndian_length _ _)), ← beBytes_eq, ofBE_beBytes, Nat.mod_eq_of_lt (by exact b.isLt)]
    simp
  | dateTime i h1 h2 =>
    refine .obj (N := 0) fun n _ rest => ?_
    rw [readStep, M.bind_ok (show readInt .u64 (Session.st _ (twosComplement 8 i ++ rest)) = .ok i (Session.st _ rest) from rdInt_ok .u64 i h1 h2 _ _)]; rfl
  | timeSpan i h1 h2 =>
    refine .obj (N := 0) fun n _ rest => ?_
    rw [readStep, M.bind_ok (show readInt .i64 (Session.st _ (twosComplement 8 i ++ rest)) = .ok i (Session.st _ rest) from rdInt_ok .i64 i h1 h2 _ _)]; rfl
  | str x h1 h2 =>
    refine .obj (N := 0) fun n _ rest => ?_
    rw [readStep, List.append_assoc, M.bind_ok (readVarint_number h1 _ _), if_neg (by omega), M.bind_ok (take_ok _ _ _ _ rfl)]; rfl
  | enum u _ ih =>
    obtain ⟨N, ih⟩ := ih
    refine .obj (N := N) fun n hn rest => ?_
    rw [readStep]; exact ih n hn rest
  | pair _ _ ih1 ih2 =>
    obtain ⟨N1, ih1⟩ := ih1
    obtain ⟨N2, ih2⟩ := ih2
    refine .obj (N := max N1 N2) fun n hn rest => ?_
    have h1 := ih1 n (by omega)
    have h2 := ih2 n (by omega) rest
    simp only [runJob] at h1 h2
    rw [readStep, List.append_assoc, M.bind_ok (h1 _), M.bind_ok h2]; rfl
  | uptrNull =>
    refine .obj (N := 0) fun n _ rest => ?_
    rw [readStep, List.singleton_append, M.bind_ok (rdBool_cons _ _ _)]; rfl
  | optNull =>
    refine .obj (N := 0) fun n _ rest => ?_
    rw [readStep, List.singleton_append, M.bind_ok (rdBool_cons _ _ _)]; rfl
  | uptr hb _ ih =>
    obtain ⟨N, ih⟩ := ih
    refine .obj (N := N) fun n hn rest => ?_
    have h1 := ih n hn rest
    simp only [runJob] at h1
    rw [readStep, List.cons_append, M.bind_ok (rdBool_cons _ _ _), decide_eq_true hb, if_pos rfl, M.bind_ok h1]; rfl
  | opt hb _ ih =>
    obtain ⟨N, ih⟩ := ih
    refine .obj (N := N) fun n hn rest => ?_
    have h1 := ih n hn rest
    simp only [runJob] at h1
    rw [readStep, List.cons_append, M.bind_ok (rdBool_cons _ _ _), decide_eq_true hb, if_pos rfl, M.bind_ok h1]; rfl
  | sptrNull =>
    refine .obj (N := 0) fun n _ rest => ?_
    rw [readStep, List.singleton_append, M.bind_ok (rdByte_cons _ _ _)]; rfl
  | @sptrNew ver t p s mode ids id bs v s' hm hd hid _ ih =>
    obtain ⟨N, ih⟩ := ih
    refine .obj (N := N) fun n hn rest => ?_
    have h1 := ih n hn rest
    simp only [runJob] at h1
    have hm : mode.toNat ≠ 0 := fun h => hm (UInt8.toNat_inj.1 h)
    rw [readStep, List.cons_append, List.cons_append, List.append_assoc, M.bind_ok (rdByte_cons _ _ _), if_neg hm, M.bind_ok (rdId_ok hid _ _),
      if_pos ((defines_iff mode).2 hd), 
      M.bind_ok (show allocShared id t (E.valInit t) (s.st (bs ++ rest)) = .ok s.objects.length
        ((⟨(id, t, s.objects.length) :: s.defined, s.objects ++ [E.valInit t]⟩ : Session).st (bs ++ rest)) from rfl), M.bind_ok h1]
    rfl
  | @sptrRef ver t p s mode ids id a hm hd hid hl =>
    refine .obj (N := 0) fun n _ rest => ?_
    have hm : mode.toNat ≠ 0 := fun h => hm (UInt8.toNat_inj.1 h)
    rw [readStep, List.cons_append, M.bind_ok (rdByte_cons _ _ _), if_neg hm, M.bind_ok (rdId_ok hid _ _),
      if_neg fun h => hd ((defines_iff mode).1 h), M.bind_ok (a := a) (s' := s.st rest)]
    · rfl
    · simp only [lookupShared, Session.st, hl, ↓reduceIte]
  | vec h1 h2 _ ih =>
    obtain ⟨N, ih⟩ := ih
    refine .obj (N := N) fun n hn rest => ?_
    have h := ih n hn rest
    simp only [runJob] at h
    rw [readStep, List.append_assoc, M.bind_ok (readVarint_number h1 _ _), if_neg (by omega), resize_eq]
    exact h
  | set h1 _ ih =>
    obtain ⟨N, ih⟩ := ih
    refine .obj (N := N) fun n hn rest => ?_
    have h := ih n hn rest
    simp only [runJob] at h
    rw [readStep, List.append_assoc, M.bind_ok (readVarint_number h1 _ _)]
    exact h
  | map h1 _ ih =>
    obtain ⟨N, ih⟩ := ih
    refine .obj (N := N) fun n hn rest => ?_
    have h := ih n hn rest
    simp only [runJob] at h
    rw [readStep, List.append_assoc, M.bind_ok (readVarint_number h1 _ _)]
    exact h
  | mono h =>
    refine .obj (N := 0) fun n _ rest => ?_
    rw [readStep, List.singleton_append, M.bind_ok (rdByte_cons _ _ _)]
    simp only [h]; rfl
  | @variant ver p s ts i t bs v s' h hm _ ih =>
    obtain ⟨N, ih⟩ := ih
    refine .obj (N := N) fun n hn rest => ?_
    have h1 := ih n hn rest
    simp only [runJob] at h1
    rw [readStep, List.cons_append, M.bind_ok (rdByte_cons _ _ _), h]
    cases t <;> first | exact absurd rfl hm | (dsimp only; rw [M.bind_ok h1]; rfl)
  | @plain ver c ci p s bs st s1 bs' r s' hc hr hv _ _ ih1 ih2 =>
    obtain ⟨N1, ih1⟩ := ih1
    obtain ⟨N2, ih2⟩ := ih2
    refine .obj (N := max N1 N2) fun n hn rest => ?_
    have h1 := ih1 n (by omega)
    have h2 := ih2 n (by omega) rest
    simp only [runJob] at h1 h2
    obtain ⟨st', s2, h2, h3⟩ := M.bind_eq_ok.1 h2
    cases h3
    unfold membersOf at h2
    simp only [readStep, hc, readClass, hr]
    rw [if_neg (by simp), List.append_assoc, M.bind_assoc', M.bind_ok (h1 _)]
    simp only [readVersion, hv, M.pure_bind', readFields_eq]
    rw [M.bind_assoc', M.bind_ok h2]; rfl
  | @versioned ver c ci m p s bs st s1 bs1 k bs' r s' hc hr hv _ hn hk _ ih1 ih2 =>
    obtain ⟨N1, ih1⟩ := ih1
    obtain ⟨N2, ih2⟩ := ih2
    refine .obj (N := max N1 N2) fun n hn' rest => ?_
    have h1 := ih1 n (by omega)
    have h2 := ih2 n (by omega) rest
    simp only [runJob] at h1 h2
    obtain ⟨st', s2, h2, h3⟩ := M.bind_eq_ok.1 h2
    cases h3
    unfold membersOf at h2
    simp only [readStep, hc, readClass, hr]
    rw [if_neg (by simp), List.append_assoc, List.append_assoc, M.bind_assoc', M.bind_ok (h1 _)]
    simp only [readVersion, hv, readFields_eq]
    rw [M.bind_assoc', M.bind_assoc', M.bind_ok (readVarint_number hn _ _), if_pos hk, M.pure_bind', M.bind_assoc', M.bind_ok h2]; rfl
  | noElements => exact ⟨0, fun _ _ _ => rfl⟩
  | elements _ _ ih1 ih2 =>
    obtain ⟨N1, ih1⟩ := ih1
    obtain ⟨N2, ih2⟩ := ih2
    refine ⟨max N1 N2, fun n hn rest => ?_⟩
    have h1 := ih1 n (by omega)
    have h2 := ih2 n (by omega) rest
    simp only [runJob] at h1 h2 ⊢
    obtain ⟨vs, s2, h2, h3⟩ := M.bind_eq_ok.1 h2
    cases h3
    rw [readElems, List.append_assoc, M.bind_assoc', M.bind_ok (h1 _), M.bind_assoc', M.bind_ok h2]; rfl
  | noSetItems => exact ⟨0, fun _ _ _ => rfl⟩
  | setItems _ hv _ ih1 ih2 =>
    obtain ⟨N1, ih1⟩ := ih1
    obtain ⟨N2, ih2⟩ := ih2
    refine ⟨max N1 N2, fun n hn rest => ?_⟩
    have h1 := ih1 n (by omega)
    have h2 := ih2 n (by omega) rest
    simp only [runJob] at h1 h2 ⊢
    rw [readSetItems, List.append_assoc, M.bind_assoc', M.bind_ok (h1 _), if_neg (by simp [hv])]
    exact h2
  | noMapItems => exact ⟨0, fun _ _ _ => rfl⟩
  | mapItems _ ha hb _ ih1 ih2 =>
    obtain ⟨N1, ih1⟩ := ih1
    obtain ⟨N2, ih2⟩ := ih2
    refine ⟨max N1 N2, fun n hn rest => ?_⟩
    have h1 := ih1 n (by omega)
    have h2 := ih2 n (by omega) rest
    simp only [runJob] at h1 h2 ⊢
    rw [readMapItems, List.append_assoc, M.bind_assoc', M.bind_ok (h1 _)]
    simp only [ha, hb, Bool.or_false, Bool.false_eq_true, ↓reduceIte]
    exact h2
  | noBases => exact ⟨0, fun _ _ _ => rfl⟩
  | bases _ _ ih1 ih2 =>
    obtain ⟨N1, ih1⟩ := ih1
    obtain ⟨N2, ih2⟩ := ih2
    refine ⟨max N1 N2, fun n hn rest => ?_⟩
    have h1 := ih1 n (by omega)
    have h2 := ih2 n (by omega) rest
    simp only [runJob] at h1 h2 ⊢
    rw [readBases, List.append_assoc, M.bind_ok (h1 _)]
    exact h2
  | noMembers => exact ⟨0, fun _ _ _ => rfl⟩
  | members hp _ _ ih1 ih2 =>
    obtain ⟨N1, ih1⟩ := ih1
    obtain ⟨N2, ih2⟩ := ih2
    refine ⟨max N1 N2, fun n hn rest => ?_⟩
    have h1 := ih1 n (by omega)
    have h2 := ih2 n (by omega) rest
    simp only [runJob] at h1 h2 ⊢
    simp only [readMembers, hp, List.append_assoc]
    rw [M.bind_assoc', M.bind_ok (h1 _)]
    exact h2

/-- the outcome is the failure `f` -/
def FailsAs {α : Type} (f : Failure) (r : Res BExc RSt α) : Prop :=
  match f with
  | .thrown e => ∃ s', r = .exc e s'
  | .undefined => r = .ub

theorem FailsAs.bind {α β : Type} {f : Failure} {m : RM α} {g : α → RM β} {s : RSt} (h : FailsAs f (m s)) : FailsAs f ((m >>= g) s) := by
  cases f with
  | thrown e => obtain ⟨s', h⟩ := h; exact ⟨s', M.bind_exc h⟩
  | undefined => exact M.bind_ub h

theorem FailsAs.unbind {α β : Type} {f : Failure} {m : RM α} {g : α → β} {s : RSt}
    (h : FailsAs f ((m >>= fun a => (pure (g a) : RM β)) s)) : FailsAs f (m s) := by
  cases f with
  | thrown e =>
    obtain ⟨s', h⟩ := h
    rcases M.bind_eq_exc.1 h with h | ⟨_, _, _, h⟩
    · exact ⟨s', h⟩
    · cases h
  | undefined =>
    rcases M.bind_eq_ub.1 h with h | ⟨_, _, _, h⟩
    · exact h
    · cases h

/-- from some recursion budget on, the code for the job fails -/
def Fails (E : Env) (j : Job) (s : Session) (inp : Str) (f : Failure) : Prop :=
  ∃ N, ∀ n, N ≤ n → FailsAs f (runJob E (read E n) j (s.st inp))

theorem Fails.obj {version : Nat} {t : Ty} {p : Val} {s : Session} {inp : Str} {f : Failure} {N : Nat}
    (h : ∀ n, N ≤ n → FailsAs f (readStep E (read E n) version t p (s.st inp))) : Fails E (.object version t p) s inp f :=
  ⟨N + 1, fun n hn => by
    obtain ⟨m, rfl⟩ : ∃ m, n = m + 1 := ⟨n - 1, by omega⟩
    exact h m (by omega)⟩

theorem Fails.of_rejects {j : Job} {s : Session} {inp : Str} {f : Failure} (h : Rejects E j s inp f) : Fails E j s inp f := by
  induction h with
  | @fixed ver t p s k inp hk hl =>
    refine .obj (N := 0) fun n _ => ?_
    have hb : ∀ g : Str → RM Val, ∃ s', (takeBytes k >>= g) (s.st inp) = .exc .eof s' := fun g => ⟨_, M.bind_exc (take_short s inp k hl)⟩
    have hi : ∀ it : IntTy, it.bytes = k → ∀ g : Int → RM Val, ∃ s', (readInt it >>= g) (s.st inp) = .exc .eof s' := by
      intro it hit g
      refine ⟨_, M.bind_exc (s' := s.st []) ?_⟩
      unfold readInt
      rw [hit, M.bind_exc (take_short s inp k hl)]
    cases t with
    | bool =>
      cases hk
      have : inp = [] := List.length_eq_zero_iff.1 (by omega)
      subst this
      exact ⟨_, rfl⟩
    | int it =>
      simp only [fixedSize] at hk
      split at hk
      · cases hk
      · rename_i h0
        cases hk
        rw [readStep, if_neg h0]
        exact hi it rfl _
    | f32 => cases hk; exact hb _
    | f64 => cases hk; exact hb _
    | dateTime => cases hk; exact hi .u64 rfl _
    | timeSpan => cases hk; exact hi .i64 rfl _
    | _ => cases hk
  | @noFlag ver t p s ht =>
    refine .obj (N := 0) fun n _ => ?_
    cases t with
    | uptr => exact ⟨_, rfl⟩
    | opt => exact ⟨_, rfl⟩
    | sptr => exact ⟨_, rfl⟩
    | variant => exact ⟨_, rfl⟩
    | _ => cases ht
  | @noLength ver t p s inp e ht hn =>
    refine .obj (N := 0) fun n _ => ?_
    obtain ⟨s', h⟩ := readVarint_noNumber hn s
    have hb : ∀ g : Nat → RM Val, ∃ s', (readVarint >>= g) (s.st inp) = .exc e s' := fun g => ⟨_, M.bind_exc h⟩
    cases t with
    | str => exact hb _
    | vec => cases p <;> first | exact hb _ | cases ht
    | set => cases p <;> first | exact hb _ | cases ht
    | map => cases p <;> first | exact hb _ | cases ht
    | _ => cases ht
  | @tooLong ver t p s bs k rest ht hn hk =>
    refine .obj (N := 0) fun n _ => ?_
    have h := readVarint_number hn s rest
    have hb : ∀ g : Nat → RM Val, ∃ s', (readVarint >>= fun n => if n > E.maxLen then M.throw .badAlloc else g n) (s.st (bs ++ rest)) = .exc .badAlloc s' :=
      fun g => ⟨s.st rest, by rw [M.bind_ok h, if_pos hk]; rfl⟩
    cases t with
    | str => exact hb _
    | vec => cases p <;> first | exact hb _ | cases ht
    | _ => cases ht
  | @shortStr ver p s bs k rest hn hk hl =>
    refine .obj (N := 0) fun n _ => ?_
    rw [readStep, M.bind_ok (readVarint_number hn s rest), if_neg (by omega), M.bind_exc (take_short s rest k hl)]
    exact ⟨_, rfl⟩
  | enum _ ih =>
    obtain ⟨N, ih⟩ := ih
    exact .obj (N := N) fun n hn => ih n hn
  | fst _ ih =>
    obtain ⟨N, ih⟩ := ih
    refine .obj (N := N) fun n hn => ?_
    rw [readStep]
    exact (ih n hn).bind
  | snd h1 _ ih =>
    obtain ⟨N1, h1⟩ := Comes.of_decodes h1
    obtain ⟨N, ih⟩ := ih
    refine .obj (N := max N1 N) fun n hn => ?_
    have h1 := h1 n (by omega)
    simp only [runJob] at h1
    rw [readStep, M.bind_ok (h1 _)]
    exact (ih n (by omega)).bind
  | uptr hb _ ih =>
    obtain ⟨N, ih⟩ := ih
    refine .obj (N := N) fun n hn => ?_
    rw [readStep, M.bind_ok (rdBool_cons _ _ _), decide_eq_true hb, if_pos rfl]
    exact (ih n hn).bind
  | opt hb _ ih =>
    obtain ⟨N, ih⟩ := ih
    refine .obj (N := N) fun n hn => ?_
    rw [readStep, M.bind_ok (rdBool_cons _ _ _), decide_eq_true hb, if_pos rfl]
    exact (ih n hn).bind
  | @noId ver t p s mode inp e hm hid =>
    refine .obj (N := 0) fun n _ => ?_
    have hm : mode.toNat ≠ 0 := fun h => hm (UInt8.toNat_inj.1 h)
    obtain ⟨s', h⟩ := rdId_bad hid s
    rw [readStep, M.bind_ok (rdByte_cons _ _ _), if_neg hm, M.bind_exc h]
    exact ⟨_, rfl⟩
  | @sptrNew ver t p s mode ids id inp f hm hd hid _ ih =>
    obtain ⟨N, ih⟩ := ih
    refine .obj (N := N) fun n hn => ?_
    have hm : mode.toNat ≠ 0 := fun h => hm (UInt8.toNat_inj.1 h)
    rw [readStep, List.cons_append, M.bind_ok (rdByte_cons _ _ _), if_neg hm, M.bind_ok (rdId_ok hid _ _),
      if_pos ((defines_iff mode).2 hd), M.bind_ok (show allocShared id t (E.valInit t) (s.st inp) = .ok s.objects.length
        ((⟨(id, t, s.objects.length) :: s.defined, s.objects ++ [E.valInit t]⟩ : Session).st inp) from rfl)]
    exact (ih n hn).bind
  | @badRef ver t p s mode ids id rest hm hd hid hl =>
    refine .obj (N := 0) fun n _ => ?_
    have hm : mode.toNat ≠ 0 := fun h => hm (UInt8.toNat_inj.1 h)
    have h : lookupShared id t (s.st rest) = .exc .conv (s.st rest) := by
      simp only [lookupShared, Session.st]
      cases hlk : s.defined.lookup id with
      | none => rfl
      | some ta =>
        obtain ⟨t', a⟩ := ta
        dsimp only
        rw [if_neg]
        rintro rfl
        exact hl a hlk
    rw [readStep, List.cons_append, M.bind_ok (rdByte_cons _ _ _), if_neg hm, M.bind_ok (rdId_ok hid _ _),
      if_neg fun h => hd ((defines_iff mode).1 h), M.bind_exc h]
    exact ⟨_, rfl⟩
  | vec h1 h2 _ ih =>
    obtain ⟨N, ih⟩ := ih
    refine .obj (N := N) fun n hn => ?_
    rw [readStep, M.bind_ok (readVarint_number h1 _ _), if_neg (by omega), resize_eq]
    exact ih n hn
  | set h1 _ ih =>
    obtain ⟨N, ih⟩ := ih
    refine .obj (N := N) fun n hn => ?_
    rw [readStep, M.bind_ok (readVarint_number h1 _ _)]
    exact ih n hn
  | map h1 _ ih =>
    obtain ⟨N, ih⟩ := ih
    refine .obj (N := N) fun n hn => ?_
    rw [readStep, M.bind_ok (readVarint_number h1 _ _)]
    exact ih n hn
  | noAlternative h =>
    refine .obj (N := 0) fun n _ => ?_
    rw [readStep, M.bind_ok (rdByte_cons _ _ _), List.getElem?_eq_none_iff.2 h]
    exact ⟨_, rfl⟩
  | @variant ver p s ts i t inp f h hm _ ih =>
    obtain ⟨N, ih⟩ := ih
    refine .obj (N := N) fun n hn => ?_
    have h1 := ih n hn
    rw [readStep, M.bind_ok (rdByte_cons _ _ _), h]
    cases t <;> first | exact absurd rfl hm | exact h1.bind
  | @inBases ver c ci p s inp f hc hr _ ih =>
    obtain ⟨N, ih⟩ := ih
    refine .obj (N := N) fun n hn => ?_
    simp only [readStep, hc, readClass, hr]
    rw [if_neg (by simp), M.bind_assoc']
    exact (ih n hn).bind
  | @noVersion ver c ci m p s bs st s1 inp e hc hr hv h1 hn =>
    obtain ⟨N1, h1⟩ := Comes.of_decodes h1
    refine .obj (N := N1) fun n hn' => ?_
    have h1 := h1 n (by omega)
    simp only [runJob] at h1
    obtain ⟨s', h⟩ := readVarint_noNumber hn s1
    simp only [readStep, hc, readClass, hr]
    rw [if_neg (by simp), M.bind_assoc', M.bind_ok (h1 _)]
    simp only [readVersion, hv]
    rw [M.bind_assoc', M.bind_assoc', M.bind_exc h]
    exact ⟨_, rfl⟩
  | @badVersion ver c ci m p s bs st s1 bs1 k rest hc hr hv h1 hn hk =>
    obtain ⟨N1, h1⟩ := Comes.of_decodes h1
    refine .obj (N := N1) fun n hn' => ?_
    have h1 := h1 n (by omega)
    simp only [runJob] at h1
    simp only [readStep, hc, readClass, hr]
    rw [if_neg (by simp), List.append_assoc, M.bind_assoc', M.bind_ok (h1 _)]
    simp only [readVersion, hv]
    rw [M.bind_assoc', M.bind_assoc', M.bind_ok (readVarint_number hn _ _), if_neg (by omega)]
    exact ⟨_, rfl⟩
  | @inPlain ver c ci p s bs st s1 inp f hc hr hv h1 _ ih =>
    obtain ⟨N1, h1⟩ := Comes.of_decodes h1
    obtain ⟨N, ih⟩ := ih
    refine .obj (N := max N1 N) fun n hn => ?_
    have h1 := h1 n (by omega)
    simp only [runJob] at h1
    have h2 := FailsAs.unbind (ih n (by omega))
    unfold membersOf at h2
    simp only [readStep, hc, readClass, hr]
    rw [if_neg (by simp), M.bind_assoc', M.bind_ok (h1 _)]
    simp only [readVersion, hv, M.pure_bind', readFields_eq]
    rw [M.bind_assoc']
    exact h2.bind
  | @inVersioned ver c ci m p s bs st s1 bs1 k inp f hc hr hv h1 hn hk _ ih =>
    obtain ⟨N1, h1⟩ := Comes.of_decodes h1
    obtain ⟨N, ih⟩ := ih
    refine .obj (N := max N1 N) fun n hn' => ?_
    have h1 := h1 n (by omega)
    simp only [runJob] at h1
    have h2 := FailsAs.unbind (ih n (by omega))
    unfold membersOf at h2
    simp only [readStep, hc, readClass, hr]
    rw [if_neg (by simp), List.append_assoc, M.bind_assoc', M.bind_ok (h1 _)]
    simp only [readVersion, hv, readFields_eq]
    rw [M.bind_assoc', M.bind_assoc', M.bind_ok (readVarint_number hn _ _), if_pos hk, M.pure_bind', M.bind_assoc']
    exact h2.bind
  | element _ ih =>
    obtain ⟨N, ih⟩ := ih
    refine ⟨N, fun n hn => ?_⟩
    have h := ih n hn
    simp only [runJob, readElems] at h ⊢
    rw [M.bind_assoc']
    exact h.bind
  | elements h1 _ ih =>
    obtain ⟨N1, h1⟩ := Comes.of_decodes h1
    obtain ⟨N, ih⟩ := ih
    refine ⟨max N1 N, fun n hn => ?_⟩
    have h1 := h1 n (by omega)
    have h := FailsAs.unbind (ih n (by omega))
    simp only [runJob, readElems] at h1 h ⊢
    rw [M.bind_assoc', M.bind_ok (h1 _), M.bind_assoc']
    exact h.bind
  | setItem _ ih =>
    obtain ⟨N, ih⟩ := ih
    refine ⟨N, fun n hn => ?_⟩
    have h := ih n hn
    simp only [runJob, readSetItems] at h ⊢
    rw [M.bind_assoc']
    exact h.bind
  | setIndet h1 hv =>
    obtain ⟨N1, h1⟩ := Comes.of_decodes h1
    refine ⟨N1, fun n hn => ?_⟩
    have h1 := h1 n (by omega)
    simp only [runJob, readSetItems] at h1 ⊢
    rw [M.bind_assoc', M.bind_ok (h1 _), if_pos hv]
    rfl
  | setItems h1 hv _ ih =>
    obtain ⟨N1, h1⟩ := Comes.of_decodes h1
    obtain ⟨N, ih⟩ := ih
    refine ⟨max N1 N, fun n hn => ?_⟩
    have h1 := h1 n (by omega)
    have h := ih n (by omega)
    simp only [runJob, readSetItems] at h1 h ⊢
    rw [M.bind_assoc', M.bind_ok (h1 _), if_neg (by simp [hv])]
    exact h
  | mapItem _ ih =>
    obtain ⟨N, ih⟩ := ih
    refine ⟨N, fun n hn => ?_⟩
    have h := ih n hn
    simp only [runJob, readMapItems] at h ⊢
    rw [M.bind_assoc']
    exact h.bind
  | mapIndet h1 hv =>
    obtain ⟨N1, h1⟩ := Comes.of_decodes h1
    refine ⟨N1, fun n hn => ?_⟩
    have h1 := h1 n (by omega)
    simp only [runJob, readMapItems] at h1 ⊢
    rw [M.bind_assoc', M.bind_ok (h1 _)]
    simp only [hv, ↓reduceIte]
    rfl
  | mapItems h1 ha hb _ ih =>
    obtain ⟨N1, h1⟩ := Comes.of_decodes h1
    obtain ⟨N, ih⟩ := ih
    refine ⟨max N1 N, fun n hn => ?_⟩
    have h1 := h1 n (by omega)
    have h := ih n (by omega)
    simp only [runJob, readMapItems] at h1 h ⊢
    rw [M.bind_assoc', M.bind_ok (h1 _)]
    simp only [ha, hb, Bool.or_false, Bool.false_eq_true, ↓reduceIte]
    exact h
  | base _ ih =>
    obtain ⟨N, ih⟩ := ih
    refine ⟨N, fun n hn => ?_⟩
    have h := ih n hn
    simp only [runJob, readBases] at h ⊢
    exact h.bind
  | bases h1 _ ih =>
    obtain ⟨N1, h1⟩ := Comes.of_decodes h1
    obtain ⟨N, ih⟩ := ih
    refine ⟨max N1 N, fun n hn => ?_⟩
    have h1 := h1 n (by omega)
    have h := ih n (by omega)
    simp only [runJob, readBases] at h1 h ⊢
    rw [M.bind_ok (h1 _)]
    exact h
  | member hp _ ih =>
    obtain ⟨N, ih⟩ := ih
    refine ⟨N, fun n hn => ?_⟩
    have h := ih n hn
    simp only [runJob, readMembers, hp] at h ⊢
    rw [M.bind_assoc']
    exact h.bind
  | members hp h1 _ ih =>
    obtain ⟨N1, h1⟩ := Comes.of_decodes h1
    obtain ⟨N, ih⟩ := ih
    refine ⟨max N1 N, fun n hn => ?_⟩
    have h1 := h1 n (by omega)
    have h := ih n (by omega)
    simp only [runJob, readMembers, hp] at h1 h ⊢
    rw [M.bind_assoc', M.bind_ok (h1 _)]
    exact h

end

/-! ## Results -/

/-- **C61**: reading succeeds with `v`, consuming `bytes` of the input, iff `bytes` is an encoding of `v`. -/
theorem C61_accepted (E : Env) (version : Nat) (t : Ty) (prior v : Val) (s s' : Session) (bytes rest : Str) :
    (∃ n, read E n version t prior ⟨bytes ++ rest, s.defined, s.objects⟩ = .ok v ⟨rest, s'.defined, s'.objects⟩) ↔
      Decodes E (.object version t prior) s bytes v s' := by
  constructor
  · rintro ⟨n, h⟩
    have hd := read_does E n version t prior s (bytes ++ rest)
    rw [show read E n version t prior (s.st (bytes ++ rest)) = .ok v (s'.st rest) from h] at hd
    obtain ⟨bs, e, hd⟩ := hd
    rw [List.append_cancel_right (show bytes ++ rest = bs ++ rest from e)]
    exact hd
  · intro h
    obtain ⟨N, h⟩ := Comes.of_decodes h
    exact ⟨N, h N (Nat.le_refl _) rest⟩

/-- **C61**: nothing else is read, i.e. whenever reading succeeds, a prefix of the input has been consumed. -/
theorem C61_consumes_prefix (E : Env) (n version : Nat) (t : Ty) (prior v : Val) (s s' : RSt)
    (h : read E n version t prior s = .ok v s') : ∃ bytes, s.inp = bytes ++ s'.inp := by
  have hd := read_does E n version t prior s.sess s.inp
  rw [show read E n version t prior (s.sess.st s.inp) = .ok v s' from h] at hd
  obtain ⟨bs, e, -⟩ := hd
  exact ⟨bs, e⟩

/-- **C61**: reading throws `e` iff the input is rejected with `e`. -/
theorem C61_rejected (E : Env) (version : Nat) (t : Ty) (prior : Val) (s : Session) (inp : Str) (e : BExc) :
    (∃ n s', read E n version t prior ⟨inp, s.defined, s.objects⟩ = .exc e s') ↔
      Rejects E (.object version t prior) s inp (.thrown e) := by
  constructor
  · rintro ⟨n, s', h⟩
    have hd := read_does E n version t prior s inp
    rwa [show read E n version t prior (s.st inp) = .exc e s' from h] at hd
  · intro h
    obtain ⟨N, h⟩ := Fails.of_rejects h
    obtain ⟨s', h⟩ := h N (Nat.le_refl _)
    exact ⟨N, s', h⟩

/-- **C61**: reading has undefined behaviour iff an uninitialised scalar is moved into a set or map. -/
theorem C61_undefined (E : Env) (version : Nat) (t : Ty) (prior : Val) (s : Session) (inp : Str) :
    (∃ n, read E n version t prior ⟨inp, s.defined, s.objects⟩ = .ub) ↔
      Rejects E (.object version t prior) s inp .undefined := by
  constructor
  · rintro ⟨n, h⟩
    have hd := read_does E n version t prior s inp
    rwa [show read E n version t prior (s.st inp) = .ub from h] at hd
  · intro h
    obtain ⟨N, h⟩ := Fails.of_rejects h
    exact ⟨N, h N (Nat.le_refl _)⟩

/-- **C61**: there is at most one outcome: an input starts with at most one encoding, which is not rejected as well, and there is
one way of being rejected. -/
theorem C61_unambiguous (E : Env) (version : Nat) (t : Ty) (prior : Val) (s : Session) (inp : Str) :
    (∀ bs v s1 rest bs' v' s1' rest', Decodes E (.object version t prior) s bs v s1 → inp = bs ++ rest →
      Decodes E (.object version t prior) s bs' v' s1' → inp = bs' ++ rest' → bs = bs' ∧ v = v' ∧ s1 = s1') ∧
    (∀ bs v s1 rest f, Decodes E (.object version t prior) s bs v s1 → inp = bs ++ rest →
      ¬ Rejects E (.object version t prior) s inp f) ∧
    (∀ f f', Rejects E (.object version t prior) s inp f → Rejects E (.object version t prior) s inp f' → f = f') := by
  refine ⟨?_, ?_, ?_⟩
  · rintro bs v s1 rest bs' v' s1' rest' h rfl h' e
    obtain ⟨N, h⟩ := Comes.of_decodes h
    obtain ⟨N', h'⟩ := Comes.of_decodes h'
    have h := h (max N N') (by omega) rest
    have h' := h' (max N N') (by omega) rest'
    rw [← e, h] at h'
    injection h' with h1 h2
    have h3 : rest = rest' := congrArg RSt.inp h2
    subst h3
    exact ⟨List.append_cancel_right e, h1, congrArg RSt.sess h2⟩
  · rintro bs v s1 rest f h rfl h'
    obtain ⟨N, h⟩ := Comes.of_decodes h
    obtain ⟨N', h'⟩ := Fails.of_rejects h'
    have h := h (max N N') (by omega) rest
    have h' := h' (max N N') (by omega)
    rw [h] at h'
    cases f with
    | thrown e => obtain ⟨_, h'⟩ := h'; cases h'
    | undefined => cases h'
  · intro f f' h h'
    obtain ⟨N, h⟩ := Fails.of_rejects h
    obtain ⟨N', h'⟩ := Fails.of_rejects h'
    have h := h (max N N') (by omega)
    have h' := h' (max N N') (by omega)
    cases f with
    | thrown e =>
      obtain ⟨_, h⟩ := h
      rw [h] at h'
      cases f' with
      | thrown e' => obtain ⟨_, h'⟩ := h'; cases h'; rfl
      | undefined => cases h'
    | undefined =>
      rw [show _ = _ from h] at h'
      cases f' with
      | thrown e' => obtain ⟨_, h'⟩ := h'; cases h'
      | undefined => rfl

/-- **C61**: there is an outcome: for supported types every input starts with an encoding or is rejected with an exception. -/
theorem C61_total {E : Env} {rk : ClassId → Nat} (hrk : BinRanked E rk) (hkt : KeyTypes E) {t : Ty} (ht : Readable E t)
    (version : Nat) (prior : Val) (HT : List Ty) (s : Session) (inp : Str) (hs : TypedSt E HT ⟨inp, s.defined, s.objects⟩)
    (hp : HasTy E HT t prior) :
    (∃ bs rest v s', inp = bs ++ rest ∧ Decodes E (.object version t prior) s bs v s') ∨
      (∃ e, Rejects E (.object version t prior) s inp (.thrown e)) := by
  obtain ⟨N, r, h, hr⟩ := C32_read_any_bytes hrk hkt ht version prior HT ⟨inp, s.defined, s.objects⟩ hs hp
  have h := h N (Nat.le_refl _)
  cases r with
  | ok v s1 =>
    obtain ⟨bs, e⟩ := C61_consumes_prefix E N version t prior v _ _ h
    rw [show inp = bs ++ s1.inp from e] at h
    exact .inl ⟨bs, s1.inp, v, ⟨s1.table, s1.heap⟩, e, (C61_accepted E version t prior v s ⟨s1.table, s1.heap⟩ bs s1.inp).1 ⟨N, h⟩⟩
  | exc e s1 => exact .inr ⟨e, (C61_rejected E version t prior s inp e).1 ⟨N, s1, h⟩⟩
  | ub => simp [SafeOutcome] at hr
  | stuck => simp [SafeOutcome] at hr
  | fuel => simp [SafeOutcome] at hr

/-- **C61** for `fromBinary`. -/
theorem C61_fromBinary (E : Env) (c : ClassId) (v : Val) (s' : Session) (bytes rest : Str) :
    (∃ n, fromBinary E n c (bytes ++ rest) = .ok v ⟨rest, s'.defined, s'.objects⟩) ↔
      Decodes E (.object 0 (.cls c) (E.defInit (.cls c))) ⟨[], []⟩ bytes v s' := by
  have key : ∀ n, fromBinary E n c (bytes ++ rest) = read E (n + 1) 0 (.cls c) (E.defInit (.cls c)) ⟨bytes ++ rest, [], []⟩ := by
    intro n
    unfold fromBinary restoreFromBinary
    rw [Verif.read, readStep]
    cases E.cls c with
    | none => rfl
    | some ci =>
      simp only [RSt.init, M.bind_apply]
      cases readClass (Verif.read E n) ci 0 (E.defInit (.cls c)) ⟨bytes ++ rest, [], []⟩ <;> rfl
  rw [← C61_accepted E 0 (.cls c) (E.defInit (.cls c)) v ⟨[], []⟩ s' bytes rest]
  constructor
  · rintro ⟨n, h⟩
    exact ⟨n + 1, (key n).symm.trans h⟩
  · rintro ⟨n, h⟩
    exact ⟨n, (key n).trans (read_mono (Nat.le_succ n) h (by simp))⟩

/-! ## Concrete cases -/

/-- a pair of shared pointers: an object with a non-minimal identifier and unusual flags (0xF9: definition, short identifier), and
a reference to it (flags 3: neither definition nor long identifier) -/
example : Decodes Demo.env (.object 0 (.pair (.sptr .bool) (.sptr .bool)) (.tup [.null, .null])) ⟨[], []⟩ [0xf9, 0x40, 0x05, 7, 3, 0x85]
    (.tup [.ref 0, .ref 0]) ⟨[(5, .bool, 0)], [.bool true]⟩ :=
  (C61_accepted _ _ _ _ _ ⟨[], []⟩ ⟨_, _⟩ _ []).1 ⟨10, rfl⟩

/-- the same by the rules -/
example : Decodes Demo.env (.object 0 (.pair (.sptr .bool) (.sptr .bool)) (.tup [.null, .null])) ⟨[], []⟩ [0xf9, 0x40, 0x05, 7, 3, 0x85]
    (.tup [.ref 0, .ref 0]) ⟨[(5, .bool, 0)], [.bool true]⟩ := by
  have h1 : Number [0x40, 0x05] 5 := Number.mk 2 5 (by decide) (by decide) (by decide)
  have h2 : Number [0x85] 5 := Number.mk 1 5 (by decide) (by decide) (by decide)
  have d1 := Decodes.sptrNew (E := Demo.env) (ver := 0) (p := .null) (t := .bool) (s := ⟨[], []⟩) (mode := 0xf9) (by decide) (by unfold definesObject; decide)
    (.short (by unfold longId; decide) h1) (.bool 7)
  have d2 := Decodes.sptrRef (E := Demo.env) (ver := 0) (p := .null) (t := .bool) (s := ⟨[(5, .bool, 0)], [.bool true]⟩) (mode := 3) (a := 0)
    (by decide) (by unfold definesObject; decide) (.short (by unfold longId; decide) h2) rfl
  exact Decodes.pair d1 d2

/-- a version which is not supported, after the (unversioned) base -/
example : Rejects Demo.env (.object 0 (.cls 1) (Demo.env.defInit (.cls 1))) ⟨[], []⟩ [0, 0, 0, 1, 0x80, 0xff, 0x80]
    (.thrown (.version 127 3 (lit "Derived"))) := (C61_rejected _ _ _ _ ⟨[], []⟩ _ _).1 ⟨10, _, rfl⟩

/-- input ending within a nested object -/
example : Rejects Demo.env (.object 0 (.cls 2) (Demo.env.defInit (.cls 2))) ⟨[], []⟩ [0, 0, 0, 1, 1, 0x81, 0, 0] (.thrown .eof) :=
  (C61_rejected _ _ _ _ ⟨[], []⟩ _ _).1 ⟨10, _, rfl⟩

/-- every input is accepted or rejected -/
example (inp : Str) :
    (∃ bs rest v s', inp = bs ++ rest ∧ Decodes Demo.env (.object 0 (.cls 2) (Demo.env.defInit (.cls 2))) ⟨[], []⟩ bs v s') ∨
      (∃ e, Rejects Demo.env (.object 0 (.cls 2) (Demo.env.defInit (.cls 2))) ⟨[], []⟩ inp (.thrown e)) :=
  C61_total Demo.binRanked Demo.keyTypes (Demo.readable (by simp [Demo.demoTy])) 0 _ [] ⟨[], []⟩ inp (typedSt_init _ _)
    (Demo.typed_node _ _ .indet (.noInt _) rfl rfl)

end Verif
