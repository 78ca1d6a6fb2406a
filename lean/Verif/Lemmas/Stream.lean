import Verif.Model.Stream
import Verif.Lemmas.BinRel

/-!
# Relating (de)serialisation on different kinds of streams

A relation between computations on two kinds of streams which is closed under sequencing and holds for the primitive operations
holds for everything `BinaryDeserializer`/`BinarySerializer` do.
-/

namespace Verif

/-- closed under sequencing and the ways to leave a function which do not involve the stream -/
structure HRel {σ τ : Type} (ρ : ∀ α : Type, M BExc σ α → M BExc τ α → Prop) : Prop where
  pure : ∀ {α : Type} (a : α), ρ α (Pure.pure a) (Pure.pure a)
  bind : ∀ {α β : Type} (m : M BExc σ α) (m' : M BExc τ α) (f : α → M BExc σ β) (f' : α → M BExc τ β),
    ρ α m m' → (∀ a, ρ β (f a) (f' a)) → ρ β (m >>= f) (m' >>= f')
  throw : ∀ {α : Type} (e : BExc), e ≠ .eof → ρ α (M.throw e) (M.throw e)
  ub : ∀ {α : Type}, ρ α M.ub M.ub
  stuck : ∀ {α : Type}, ρ α M.stuck M.stuck
  fuel : ∀ {α : Type}, ρ α M.outOfFuel M.outOfFuel

/-- the primitive operations of two readers are related -/
structure ReaderRel {σ τ : Type} (ρ : ∀ α : Type, M BExc σ α → M BExc τ α → Prop) (P : Reader σ) (Q : Reader τ) : Prop where
  bytes : ∀ k, ρ _ (P.bytes k) (Q.bytes k)
  varint : ρ _ P.varint Q.varint
  alloc : ∀ i t v, ρ _ (P.alloc i t v) (Q.alloc i t v)
  store : ∀ a v, ρ _ (P.store a v) (Q.store a v)
  find : ∀ i t, ρ _ (P.find i t) (Q.find i t)

section
variable {σ τ : Type} {ρ : ∀ α : Type, M BExc σ α → M BExc τ α → Prop} {P : Reader σ} {Q : Reader τ} {E : Env}
  {self : Nat → Ty → Val → M BExc σ Val} {self' : Nat → Ty → Val → M BExc τ Val}

theorem HRel.map (h : HRel ρ) {α β : Type} {m : M BExc σ α} {m' : M BExc τ α} (f : α → β) (hm : ρ _ m m') :
    ρ _ (m >>= fun a => Pure.pure (f a)) (m' >>= fun a => Pure.pure (f a)) := h.bind _ _ _ _ hm fun _ => h.pure _

theorem HRel.rByte (h : HRel ρ) (hq : ReaderRel ρ P Q) : ρ _ P.byte Q.byte := h.map _ (hq.bytes 1)
theorem HRel.rBool (h : HRel ρ) (hq : ReaderRel ρ P Q) : ρ _ P.bool Q.bool := h.map _ (h.rByte hq)
theorem HRel.rInt (h : HRel ρ) (hq : ReaderRel ρ P Q) (t : IntTy) : ρ _ (P.int t) (Q.int t) := h.map _ (hq.bytes _)

theorem HRel.rElems (h : HRel ρ) (hs : ∀ w t v, ρ _ (self w t v) (self' w t v)) (t : Ty) (vs : List Val) :
    ρ _ (Reader.elems self t vs) (Reader.elems self' t vs) := by
  induction vs with
  | nil => exact h.pure _
  | cons v vs ih => exact h.bind _ _ _ _ (hs _ _ _) fun _ => h.map _ ih

theorem HRel.rSetItems (h : HRel ρ) (hs : ∀ w t v, ρ _ (self w t v) (self' w t v)) (multi : Bool) (t : Ty) (k : Nat)
    (acc : List Val) : ρ _ (Reader.setItems E self multi t k acc) (Reader.setItems E self' multi t k acc) := by
  induction k generalizing acc with
  | zero => exact h.pure _
  | succ k ih =>
    refine h.bind _ _ _ _ (hs _ _ _) fun v => ?_
    split
    · exact h.ub
    · exact ih _

theorem HRel.rMapItems (h : HRel ρ) (hs : ∀ w t v, ρ _ (self w t v) (self' w t v)) (multi : Bool) (kt t : Ty) (k : Nat)
    (acc : List (Val × Val)) : ρ _ (Reader.mapItems E self multi kt t k acc) (Reader.mapItems E self' multi kt t k acc) := by
  induction k generalizing acc with
  | zero => exact h.pure _
  | succ k ih =>
    refine h.bind _ _ _ _ (hs _ _ _) fun v => ?_
    split
    · split
      · exact h.ub
      · exact ih _
    · exact h.stuck

theorem HRel.rBases (h : HRel ρ) (hs : ∀ w t v, ρ _ (self w t v) (self' w t v)) (version : Nat) (bs : List ClassId) (v : Val) :
    ρ _ (Reader.bases self version bs v) (Reader.bases self' version bs v) := by
  induction bs generalizing v with
  | nil => exact h.pure _
  | cons b bs ih => exact h.bind _ _ _ _ (hs _ _ _) fun _ => ih _

theorem HRel.rFields (h : HRel ρ) (hs : ∀ w t v, ρ _ (self w t v) (self' w t v)) (version : Nat) (fs : List (Guard × Field))
    (st : Store) : ρ _ (Reader.fields self version fs st) (Reader.fields self' version fs st) := by
  induction fs generalizing st with
  | nil => exact h.pure _
  | cons f fs ih =>
    obtain ⟨g, f⟩ := f
    simp only [Reader.fields]
    split
    · split
      · exact h.stuck
      · exact h.bind _ _ _ _ (hs _ _ _) fun _ => ih _
    · exact ih _

theorem HRel.rVersion (h : HRel ρ) (hq : ReaderRel ρ P Q) (ci : ClassInfo) (version : Nat) :
    ρ _ (P.version ci version) (Q.version ci version) := by
  unfold Reader.version
  split
  · exact h.pure _
  · refine h.bind _ _ _ _ hq.varint fun v => ?_
    split
    · exact h.pure _
    · exact h.throw _ (by simp)

theorem HRel.rCls (h : HRel ρ) (hq : ReaderRel ρ P Q) (hs : ∀ w t v, ρ _ (self w t v) (self' w t v)) (ci : ClassInfo)
    (version : Nat) (p : Val) : ρ _ (P.cls self ci version p) (Q.cls self' ci version p) := by
  unfold Reader.cls
  split
  · exact h.stuck
  · refine h.bind _ _ _ _ (h.rBases hs _ _ _) fun v => ?_
    split
    · exact h.bind _ _ _ _ (h.rVersion hq _ _) fun _ => h.map _ (h.rFields hs _ _ _)
    · exact h.stuck

theorem HRel.rStep (h : HRel ρ) (hq : ReaderRel ρ P Q) (hs : ∀ w t v, ρ _ (self w t v) (self' w t v)) (version : Nat) (t : Ty)
    (p : Val) : ρ _ (P.step E self version t p) (Q.step E self' version t p) := by
  unfold Reader.step
  split
  · exact h.map _ (h.rBool hq)
  · split
    · exact h.stuck
    · exact h.map _ (h.rInt hq _)
  · exact h.map _ (hq.bytes _)
  · exact h.map _ (hq.bytes _)
  · refine h.bind _ _ _ _ hq.varint fun n => ?_
    split
    · exact h.throw _ (by simp)
    · exact h.map _ (hq.bytes _)
  · exact hs _ _ _
  · split
    · exact h.bind _ _ _ _ (hs _ _ _) fun _ => h.map _ (hs _ _ _)
    · exact h.stuck
  · refine h.bind _ _ _ _ (h.rBool hq) fun b => ?_
    split
    · exact h.map _ (hs _ _ _)
    · exact h.pure _
  · refine h.bind _ _ _ _ (h.rBool hq) fun b => ?_
    split
    · exact h.map _ (hs _ _ _)
    · exact h.pure _
  · refine h.bind _ _ _ _ (h.rByte hq) fun b => ?_
    split
    · exact h.pure _
    · refine h.bind _ _ _ _ ?_ fun id => ?_
      · split
        · exact h.map _ (hq.bytes _)
        · exact hq.varint
      · split
        · refine h.bind _ _ _ _ (hq.alloc _ _ _) fun a => h.bind _ _ _ _ (hs _ _ _) fun v => ?_
          exact h.bind _ _ _ _ (hq.store _ _) fun _ => h.pure _
        · exact h.map _ (hq.find _ _)
  · split
    · refine h.bind _ _ _ _ hq.varint fun n => ?_
      split
      · exact h.throw _ (by simp)
      · exact h.map _ (h.rElems hs _ _)
    · exact h.stuck
  · split
    · exact h.bind _ _ _ _ hq.varint fun n => h.map _ (h.rSetItems hs _ _ _ _)
    · exact h.stuck
  · split
    · exact h.bind _ _ _ _ hq.varint fun n => h.map _ (h.rMapItems hs _ _ _ _ _)
    · exact h.stuck
  · refine h.bind _ _ _ _ (h.rByte hq) fun i => ?_
    split
    · exact h.throw _ (by simp)
    · exact h.pure _
    · exact h.map _ (hs _ _ _)
  · split
    · exact h.stuck
    · exact h.map _ (h.rCls hq hs _ _ _)
  · exact h.map _ (h.rInt hq _)
  · exact h.map _ (h.rInt hq _)
  · exact h.stuck

theorem HRel.rRead (h : HRel ρ) (hq : ReaderRel ρ P Q) (n version : Nat) (t : Ty) (p : Val) :
    ρ _ (P.read E n version t p) (Q.read E n version t p) := by
  induction n generalizing version t p with
  | zero => exact h.fuel
  | succ n ih => exact h.rStep hq ih version t p

theorem HRel.rRestore (h : HRel ρ) (hq : ReaderRel ρ P Q) (n : Nat) (c : ClassId) (p : Val) :
    ρ _ (P.restore E n c p) (Q.restore E n c p) := by
  unfold Reader.restore
  split
  · exact h.stuck
  · exact h.rCls hq (fun w t v => h.rRead hq n w t v) _ _ _

end

/-! ## `Model/Binary.lean` is the instance for throwing streams -/

section
variable (E : Env) (self : Nat → Ty → Val → RM Val)

theorem reader_elems (t : Ty) (vs : List Val) : Reader.elems self t vs = readElems self t vs := by
  induction vs with
  | nil => rfl
  | cons v vs ih => simp only [Reader.elems, readElems, ih]

theorem reader_setItems (multi : Bool) (t : Ty) (k : Nat) (acc : List Val) :
    Reader.setItems E self multi t k acc = readSetItems E self multi t k acc := by
  induction k generalizing acc with
  | zero => rfl
  | succ k ih => simp only [Reader.setItems, readSetItems, ih]

theorem reader_mapItems (multi : Bool) (kt t : Ty) (k : Nat) (acc : List (Val × Val)) :
    Reader.mapItems E self multi kt t k acc = readMapItems E self multi kt t k acc := by
  induction k generalizing acc with
  | zero => rfl
  | succ k ih =>
    simp only [Reader.mapItems, readMapItems, ih]
    rfl

theorem reader_bases (version : Nat) (bs : List ClassId) (v : Val) :
    Reader.bases self version bs v = readBases self version bs v := by
  induction bs generalizing v with
  | nil => rfl
  | cons b bs ih => simp only [Reader.bases, readBases, ih]

theorem reader_fields (version : Nat) (fs : List (Guard × Field)) (st : Store) :
    Reader.fields self version fs st = readFields self version fs st := by
  induction fs generalizing st with
  | nil => rfl
  | cons f fs ih =>
    obtain ⟨g, f⟩ := f
    simp only [Reader.fields, readFields, ih]
    rfl

theorem reader_cls (ci : ClassInfo) (version : Nat) (p : Val) :
    throwingReader.cls self ci version p = readClass self ci version p := by
  unfold Reader.cls readClass
  simp only [reader_bases, reader_fields]
  rfl

theorem reader_step (version : Nat) (t : Ty) (p : Val) :
    throwingReader.step E self version t p = readStep E self version t p := by
  cases t <;> simp only [Reader.step, readStep, reader_elems, reader_setItems, reader_mapItems, reader_cls] <;> rfl

end

theorem reader_read (E : Env) (n : Nat) : throwingReader.read E n = read E n := by
  induction n with
  | zero => rfl
  | succ n ih =>
    funext version t p
    simp only [Reader.read, read, ih, reader_step]

theorem reader_restore (E : Env) (n : Nat) (c : ClassId) (p : Val) (inp : Str) :
    throwingReader.restore E n c p (RSt.init inp) = restoreFromBinary E n c p inp := by
  unfold Reader.restore restoreFromBinary
  cases E.cls c with
  | none => rfl
  | some ci => simp only [reader_read, reader_cls]

/-! ## writing -/

/-- the primitive operations of two writers are related -/
structure WriterRel {σ τ : Type} (ρ : ∀ α : Type, M BExc σ α → M BExc τ α → Prop) (P : Writer σ) (Q : Writer τ) : Prop where
  emit : ∀ bs, ρ _ (P.emit bs) (Q.emit bs)
  written : ∀ i, ρ _ (P.written i) (Q.written i)
  mark : ∀ i, ρ _ (P.mark i) (Q.mark i)

section
variable {σ τ : Type} {ρ : ∀ α : Type, M BExc σ α → M BExc τ α → Prop} {P : Writer σ} {Q : Writer τ} {E : Env} {H : Heap}
  {self : Nat → Ty → Val → M BExc σ Unit} {self' : Nat → Ty → Val → M BExc τ Unit}

theorem HRel.wVarint (h : HRel ρ) (hq : WriterRel ρ P Q) (x : Nat) : ρ _ (P.varint x) (Q.varint x) := by
  unfold Writer.varint
  split
  · exact hq.emit _
  · exact h.throw _ (by simp)

theorem HRel.wId (h : HRel ρ) (hq : WriterRel ρ P Q) (x : Nat) : ρ _ (P.id x) (Q.id x) := by
  unfold Writer.id
  split
  · exact hq.emit _
  · exact h.wVarint hq _

theorem HRel.wElems (h : HRel ρ) (hs : ∀ w t v, ρ _ (self w t v) (self' w t v)) (t : Ty) (vs : List Val) :
    ρ _ (Writer.elems self t vs) (Writer.elems self' t vs) := by
  induction vs with
  | nil => exact h.pure _
  | cons v vs ih => exact h.bind _ _ _ _ (hs _ _ _) fun _ => ih

theorem HRel.wEntries (h : HRel ρ) (hs : ∀ w t v, ρ _ (self w t v) (self' w t v)) (k t : Ty) (kvs : List (Val × Val)) :
    ρ _ (Writer.entries self k t kvs) (Writer.entries self' k t kvs) := by
  induction kvs with
  | nil => exact h.pure _
  | cons v vs ih => exact h.bind _ _ _ _ (hs _ _ _) fun _ => ih

theorem HRel.wBases (h : HRel ρ) (hs : ∀ w t v, ρ _ (self w t v) (self' w t v)) (version : Nat) (bs : List ClassId) (v : Val) :
    ρ _ (Writer.bases self version bs v) (Writer.bases self' version bs v) := by
  induction bs with
  | nil => exact h.pure _
  | cons b bs ih => exact h.bind _ _ _ _ (hs _ _ _) fun _ => ih

theorem HRel.wFields (h : HRel ρ) (hs : ∀ w t v, ρ _ (self w t v) (self' w t v)) (version : Nat) (fs : List (Guard × Field))
    (st : Store) : ρ _ (Writer.fields self version fs st) (Writer.fields self' version fs st) := by
  induction fs with
  | nil => exact h.pure _
  | cons f fs ih =>
    obtain ⟨g, f⟩ := f
    simp only [Writer.fields]
    split
    · split
      · exact h.stuck
      · exact h.bind _ _ _ _ (hs _ _ _) fun _ => ih
    · exact ih

theorem HRel.wVersion (h : HRel ρ) (hq : WriterRel ρ P Q) (c : Option Nat) (version : Nat) :
    ρ _ (P.version c version) (Q.version c version) := by
  unfold Writer.version
  split
  · exact h.pure _
  · exact h.wVarint hq _

theorem HRel.wCls (h : HRel ρ) (hq : WriterRel ρ P Q) (hs : ∀ w t v, ρ _ (self w t v) (self' w t v)) (ci : ClassInfo)
    (version : Nat) (st : Store) : ρ _ (P.cls self ci version st) (Q.cls self' ci version st) := by
  refine h.bind _ _ _ _ (h.wBases hs _ _ _) fun _ => h.bind _ _ _ _ (h.wVersion hq _ _) fun _ => h.wFields hs _ _ _

theorem HRel.wStep (h : HRel ρ) (hq : WriterRel ρ P Q) (hs : ∀ w t v, ρ _ (self w t v) (self' w t v)) (version : Nat) (t : Ty)
    (v : Val) : ρ _ (P.step E H self version t v) (Q.step E H self' version t v) := by
  have he := hq.emit
  have hv := h.wVarint hq
  unfold Writer.step
  split
  · exact h.ub
  · exact he _
  · split
    · exact h.stuck
    · exact he _
  · exact he _
  · exact he _
  · exact h.bind _ _ _ _ (hv _) fun _ => he _
  · exact hs _ _ _
  · exact h.bind _ _ _ _ (hs _ _ _) fun _ => hs _ _ _
  · exact he _
  · exact h.bind _ _ _ _ (he _) fun _ => hs _ _ _
  · exact he _
  · exact h.bind _ _ _ _ (he _) fun _ => hs _ _ _
  · exact he _
  · refine h.bind _ _ _ _ (hq.written _) fun w => ?_
    refine h.bind _ _ _ _ (he _) fun _ => h.bind _ _ _ _ (h.wId hq _) fun _ => ?_
    split
    · exact h.pure _
    · refine h.bind _ _ _ _ (hq.mark _) fun _ => ?_
      split
      · exact hs _ _ _
      · exact h.ub
  · exact h.bind _ _ _ _ (hv _) fun _ => h.wElems hs _ _
  · exact h.bind _ _ _ _ (hv _) fun _ => h.wElems hs _ _
  · exact h.bind _ _ _ _ (hv _) fun _ => h.wEntries hs _ _ _
  · exact h.bind _ _ _ _ (he _) fun _ => h.throw _ (by simp)
  · split
    · exact h.stuck
    · exact he _
    · exact h.bind _ _ _ _ (he _) fun _ => hs _ _ _
  · split
    · exact h.stuck
    · exact h.wCls hq hs _ _ _
  · exact he _
  · exact he _
  · exact h.stuck

theorem HRel.wWrite (h : HRel ρ) (hq : WriterRel ρ P Q) (n version : Nat) (t : Ty) (v : Val) :
    ρ _ (P.write E H n version t v) (Q.write E H n version t v) := by
  induction n generalizing version t v with
  | zero => exact h.fuel
  | succ n ih => exact h.wStep hq ih version t v

end

section
variable (E : Env) (H : Heap) (self : Nat → Ty → Val → WM Unit)

theorem writer_elems (t : Ty) (vs : List Val) : Writer.elems self t vs = writeElems self t vs := by
  induction vs with
  | nil => rfl
  | cons v vs ih => simp only [Writer.elems, writeElems, ih]

theorem writer_entries (k t : Ty) (kvs : List (Val × Val)) : Writer.entries self k t kvs = writeEntries self k t kvs := by
  induction kvs with
  | nil => rfl
  | cons v vs ih => simp only [Writer.entries, writeEntries, ih]

theorem writer_bases (version : Nat) (bs : List ClassId) (v : Val) :
    Writer.bases self version bs v = writeBases self version bs v := by
  induction bs with
  | nil => rfl
  | cons b bs ih => simp only [Writer.bases, writeBases, ih]

theorem writer_fields (version : Nat) (fs : List (Guard × Field)) (st : Store) :
    Writer.fields self version fs st = writeFields self version fs st := by
  induction fs with
  | nil => rfl
  | cons f fs ih =>
    obtain ⟨g, f⟩ := f
    simp only [Writer.fields, writeFields, ih]
    rfl

theorem writer_cls (ci : ClassInfo) (version : Nat) (st : Store) :
    idealWriter.cls self ci version st = writeClass self ci version st := by
  unfold Writer.cls writeClass
  simp only [writer_bases, writer_fields]
  rfl

theorem writer_step (version : Nat) (t : Ty) (v : Val) :
    idealWriter.step E H self version t v = writeStep E H self version t v := by
  unfold Writer.step writeStep
  simp only [writer_elems, writer_entries, writer_cls]
  rfl

end

theorem writer_write (E : Env) (H : Heap) (n : Nat) : idealWriter.write E H n = write E H n := by
  induction n with
  | zero => rfl
  | succ n ih =>
    funext version t p
    simp only [Writer.write, write, ih, writer_step]

/-! ## reading from streams which do not throw -/

/-- the stream failed -/
def Bad {α : Type} : Res BExc FSt α → Prop
  | .ok _ s => s.failed ≠ 0
  | .exc _ s => s.failed ≠ 0
  | _ => True

/-- the same outcome with a good stream if nothing was missing, otherwise a failed stream -/
def SameUnlessEof {α : Type} : Res BExc RSt α → Res BExc FSt α → Prop
  | .ok a s, r => r = .ok a ⟨s, 0⟩
  | .exc e s, r => if e = .eof then Bad r else r = .exc e ⟨s, 0⟩
  | .ub, r => r = .ub
  | .stuck, r => r = .stuck
  | .fuel, r => r = .fuel

def Sim (α : Type) (m : RM α) (m' : M BExc FSt α) : Prop :=
  (∀ s, SameUnlessEof (m s) (m' ⟨s, 0⟩)) ∧ ∀ s, s.failed ≠ 0 → Bad (m' s)

theorem Bad.bind {α β : Type} {m : M BExc FSt α} {f : α → M BExc FSt β} {s : FSt} (h : Bad (m s))
    (hf : ∀ a t, t.failed ≠ 0 → Bad (f a t)) : Bad ((m >>= f) s) := by
  rw [M.bind_apply]
  cases hm : m s with
  | ok a t =>
    rw [hm] at h
    exact hf a t h
  | exc e t =>
    rw [hm] at h
    exact h
  | _ => trivial

theorem sim_hrel : HRel Sim where
  pure a := ⟨fun _ => rfl, fun _ h => h⟩
  throw e he := ⟨fun s => by simp [SameUnlessEof, he], fun _ h => h⟩
  ub := ⟨fun _ => rfl, fun _ _ => trivial⟩
  stuck := ⟨fun _ => rfl, fun _ _ => trivial⟩
  fuel := ⟨fun _ => rfl, fun _ _ => trivial⟩
  bind m m' f f' hm hf := by
    refine ⟨fun s => ?_, fun s hs => Bad.bind (hm.2 s hs) fun a t ht => (hf a).2 t ht⟩
    have h := hm.1 s
    cases hr : m s with
    | ok a s' =>
      rw [hr] at h
      rw [M.bind_ok hr, M.bind_ok h]
      exact (hf a).1 s'
    | exc e s' =>
      rw [hr] at h
      rw [M.bind_exc hr]
      simp only [SameUnlessEof] at h ⊢
      split
      · rename_i he
        rw [if_pos he] at h
        exact Bad.bind h fun a t ht => (hf a).2 t ht
      · rename_i he
        rw [if_neg he] at h
        exact M.bind_exc h
    | ub =>
      rw [hr] at h
      rw [M.bind_ub hr]
      exact M.bind_ub h
    | stuck =>
      rw [hr] at h
      rw [M.bind_stuck hr]
      exact M.bind_stuck h
    | fuel =>
      rw [hr] at h
      rw [M.bind_fuel hr]
      exact M.bind_fuel h

theorem sim_onTable {α : Type} (m : RM α) (h : ∀ s s', m s ≠ .exc .eof s') : Sim α m (onTable m) := by
  refine ⟨fun s => ?_, fun s hs => ?_⟩
  · unfold onTable
    cases hr : m s with
    | exc e s' =>
      have he : e ≠ .eof := fun he => h s s' (he ▸ hr)
      simp [SameUnlessEof, he]
    | _ => rfl
  · unfold onTable
    cases hr : m s.st <;> simp [Bad, hs]

theorem sim_takeDefault (L : Leftover) (k : Nat) : Sim _ (takeBytes k) (takeDefault L k) := by
  refine ⟨fun s => ?_, fun s hs => ?_⟩
  · unfold takeBytes takeDefault
    by_cases hk : k ≤ s.inp.length
    · simp [hk, SameUnlessEof]
    · simp [hk, SameUnlessEof, Bad]
  · simp [takeDefault, hs, Bad]

theorem sim_varintDefault (L : Leftover) : Sim _ readVarint (varintDefault L) := by
  refine ⟨fun s => ?_, fun s hs => ?_⟩
  · obtain ⟨inp, table, heap⟩ := s
    cases inp with
    | nil => simp [readVarint, M.bind_apply, peekByte, varintDefault, SameUnlessEof, Bad]
    | cons b bs =>
      simp only [readVarint, M.bind_apply, peekByte, varintDefault]
      by_cases h8 : prefixLen b.toNat > 8
      · rw [if_pos h8, if_pos h8]
        rfl
      · rw [if_neg h8, if_neg h8]
        by_cases hk : prefixLen b.toNat ≤ (b :: bs).length
        · rw [if_pos hk]
          simp only [M.bind_apply, takeBytes, if_pos hk]
          rfl
        · rw [if_neg hk]
          simp only [M.bind_apply, takeBytes, if_neg hk]
          simp [SameUnlessEof, Bad]
  · obtain ⟨st, f⟩ := s
    cases f with
    | zero => exact absurd rfl hs
    | succ f => simp [varintDefault, Bad]

theorem sim_reader (L : Leftover) : ReaderRel Sim throwingReader (defaultReader L) where
  bytes k := sim_takeDefault L k
  varint := sim_varintDefault L
  alloc i t v := sim_onTable _ fun s s' h => by cases h
  store a v := sim_onTable _ fun s s' h => by cases h
  find i t := sim_onTable _ fun s s' h => by
    replace h : lookupShared i t s = .exc .eof s' := h
    unfold lookupShared at h
    split at h
    · split at h <;> cases h
    · cases h

theorem sim_read (E : Env) (L : Leftover) (n version : Nat) (t : Ty) (p : Val) :
    Sim _ (read E n version t p) ((defaultReader L).read E n version t p) := by
  rw [← reader_read]
  exact sim_hrel.rRead (sim_reader L) n version t p

theorem sim_restore (E : Env) (L : Leftover) (n : Nat) (c : ClassId) (p : Val) :
    Sim _ (throwingReader.restore E n c p) ((defaultReader L).restore E n c p) :=
  sim_hrel.rRestore (sim_reader L) n c p

/-! ## writing to streams which fail -/

/-- The stream is good and has everything or it failed (and exceptions are off) and has the first part. -/
def WMatch (throws : Bool) (s : WSt) (t : FWSt) : Prop :=
  t.seen = s.seen ∧ if t.failed then throws = false ∧ t.out <+: s.out else t.out = s.out

/-- an exception because the stream failed, having the first part of what should have been written -/
def WThrown {α : Type} (throws : Bool) (out : Str) (r : Res BExc FWSt α) : Prop :=
  throws = true ∧ ∃ t, r = .exc .eof t ∧ t.failed = true ∧ t.out <+: out

def WSame {α : Type} (throws : Bool) (out : Str) : Res BExc WSt α → Res BExc FWSt α → Prop
  | .ok a s', r => out <+: s'.out ∧ ((∃ t', r = .ok a t' ∧ WMatch throws s' t') ∨ WThrown throws s'.out r)
  | .exc e s', r => out <+: s'.out ∧ ((∃ t', r = .exc e t' ∧ WMatch throws s' t') ∨ WThrown throws s'.out r)
  | .ub, r => r = .ub ∨ ∃ o, WThrown throws o r
  | .stuck, r => r = .stuck ∨ ∃ o, WThrown throws o r
  | .fuel, r => r = .fuel ∨ ∃ o, WThrown throws o r

def WSim (throws : Bool) (α : Type) (m : WM α) (m' : M BExc FWSt α) : Prop :=
  ∀ s t, WMatch throws s t → WSame throws s.out (m s) (m' t)

theorem WThrown.bind {α β : Type} {throws : Bool} {o : Str} {m : M BExc FWSt α} {f : α → M BExc FWSt β} {t : FWSt}
    (h : WThrown throws o (m t)) : WThrown throws o ((m >>= f) t) := by
  obtain ⟨h1, t', h2, h3⟩ := h
  exact ⟨h1, t', M.bind_exc h2, h3⟩

theorem WThrown.mono {α : Type} {throws : Bool} {o o' : Str} {r : Res BExc FWSt α} (h : WThrown throws o r) (ho : o <+: o') :
    WThrown throws o' r := by
  obtain ⟨h1, t', h2, h3, h4⟩ := h
  exact ⟨h1, t', h2, h3, h4.trans ho⟩

theorem WSame.thrown {α : Type} {throws : Bool} {o o' : Str} {r : Res BExc WSt α} {r' : Res BExc FWSt α}
    (h : WThrown throws o r') (ho : o' <+: o) (hr : (∀ a s', r = .ok a s' → o <+: s'.out) ∧ ∀ e s', r = .exc e s' → o <+: s'.out) :
    WSame throws o' r r' := by
  cases r with
  | ok a s' => exact ⟨ho.trans (hr.1 a s' rfl), .inr (h.mono (hr.1 a s' rfl))⟩
  | exc e s' => exact ⟨ho.trans (hr.2 e s' rfl), .inr (h.mono (hr.2 e s' rfl))⟩
  | ub => exact .inr ⟨_, h⟩
  | stuck => exact .inr ⟨_, h⟩
  | fuel => exact .inr ⟨_, h⟩

theorem WSame.weaken {α : Type} {throws : Bool} {o o' : Str} {r : Res BExc WSt α} {r' : Res BExc FWSt α}
    (h : WSame throws o r r') (ho : o' <+: o) : WSame throws o' r r' := by
  cases r with
  | ok a s' => exact ⟨ho.trans h.1, h.2⟩
  | exc e s' => exact ⟨ho.trans h.1, h.2⟩
  | _ => exact h

theorem wmatch_self (throws : Bool) (s : WSt) : WMatch throws s ⟨s.out, s.seen, false⟩ := ⟨rfl, rfl⟩

theorem wsim_hrel (throws : Bool) : HRel (WSim throws) where
  pure a := fun s t h => ⟨List.prefix_refl _, .inl ⟨t, rfl, h⟩⟩
  throw e _ := fun s t h => ⟨List.prefix_refl _, .inl ⟨t, rfl, h⟩⟩
  ub := fun _ _ _ => .inl rfl
  stuck := fun _ _ _ => .inl rfl
  fuel := fun _ _ _ => .inl rfl
  bind m m' f f' hm hf := by
    intro s t h
    have h1 := hm s t h
    cases hr : m s with
    | ok a s' =>
      rw [hr] at h1
      rw [M.bind_ok hr]
      obtain ⟨ho, ⟨t', ht', hmt⟩ | hth⟩ := h1
      · rw [M.bind_ok ht']
        exact (hf a s' t' hmt).weaken ho
      · have hx := hf a s' _ (wmatch_self throws s')
        refine WSame.thrown hth.bind ho ⟨fun b s'' hb => ?_, fun e s'' hb => ?_⟩
        · rw [hb] at hx
          exact hx.1
        · rw [hb] at hx
          exact hx.1
    | exc e s' =>
      rw [hr] at h1
      rw [M.bind_exc hr]
      obtain ⟨ho, ⟨t', ht', hmt⟩ | hth⟩ := h1
      · exact ⟨ho, .inl ⟨t', M.bind_exc ht', hmt⟩⟩
      · exact ⟨ho, .inr hth.bind⟩
    | ub =>
      rw [hr] at h1
      rw [M.bind_ub hr]
      rcases h1 with h1 | ⟨o, h1⟩
      · exact .inl (M.bind_ub h1)
      · exact .inr ⟨o, h1.bind⟩
    | stuck =>
      rw [hr] at h1
      rw [M.bind_stuck hr]
      rcases h1 with h1 | ⟨o, h1⟩
      · exact .inl (M.bind_stuck h1)
      · exact .inr ⟨o, h1.bind⟩
    | fuel =>
      rw [hr] at h1
      rw [M.bind_fuel hr]
      rcases h1 with h1 | ⟨o, h1⟩
      · exact .inl (M.bind_fuel h1)
      · exact .inr ⟨o, h1.bind⟩

theorem wsim_emit (S : Sink) (throws : Bool) (bs : Str) : WSim throws _ (emit bs) (emitTo S throws bs) := by
  intro s t ⟨hseen, h⟩
  refine ⟨List.prefix_append _ _, ?_⟩
  unfold emitTo
  cases hf : t.failed with
  | true =>
    rw [hf, if_pos rfl] at h
    simp only [h.1, if_true]
    exact .inl ⟨t, rfl, hseen, by rw [hf, if_pos rfl]; exact ⟨rfl, h.2.trans (List.prefix_append _ _)⟩⟩
  | false =>
    simp only [hf, Bool.false_eq_true, if_false] at h ⊢
    cases hS : S t.out bs with
    | none => exact .inl ⟨_, rfl, hseen, by simp [h]⟩
    | some k =>
      have hp : t.out ++ bs.take k <+: s.out ++ bs := by
        rw [h]
        exact (List.prefix_append_right_inj _).2 (List.take_prefix _ _)
      cases throws with
      | false => exact .inl ⟨_, rfl, hseen, by simpa using hp⟩
      | true => exact .inr ⟨rfl, _, rfl, rfl, hp⟩

theorem wsim_writer (S : Sink) (throws : Bool) : WriterRel (WSim throws) idealWriter (failingWriter S throws) where
  emit bs := wsim_emit S throws bs
  written i := fun s t h => ⟨List.prefix_refl _, .inl ⟨t, by simp [failingWriter, h.1], h⟩⟩
  mark i := fun s t h => ⟨List.prefix_refl _, .inl ⟨_, rfl, by simp [h.1], h.2⟩⟩

theorem wsim_write (E : Env) (H : Heap) (S : Sink) (throws : Bool) (n version : Nat) (t : Ty) (v : Val) :
    WSim throws _ (write E H n version t v) ((failingWriter S throws).write E H n version t v) := by
  rw [← writer_write]
  exact (wsim_hrel throws).wWrite (wsim_writer S throws) n version t v

end Verif
