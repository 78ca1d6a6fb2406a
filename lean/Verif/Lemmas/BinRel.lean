import Verif.Model.Binary
import Verif.Lemmas.Rel

/-!
# Recursion budget monotonicity of the binary (de)serialiser
-/

namespace Verif

/-! primitive operations never run out of budget -/

theorem emit_nf (bs : Str) (s : WSt) : emit bs s ≠ .fuel := by simp [emit]
theorem writeVarint_nf (x : Nat) (s : WSt) : writeVarint x s ≠ .fuel := by
  unfold writeVarint
  cases varintLen x <;> simp [emit]
theorem writeByte_nf (x : Nat) (s : WSt) : writeByte x s ≠ .fuel := emit_nf _ _
theorem writeId_nf (x : Nat) (s : WSt) : writeId x s ≠ .fuel := by
  unfold writeId
  split
  · exact emit_nf _ _
  · exact writeVarint_nf _ _
theorem takeBytes_nf (k : Nat) (s : RSt) : takeBytes k s ≠ .fuel := by unfold takeBytes; split <;> simp
theorem peekByte_nf (s : RSt) : peekByte s ≠ .fuel := by unfold peekByte; split <;> simp
theorem readByte_nf (s : RSt) : readByte s ≠ .fuel := bind_nf (takeBytes_nf _) (fun _ _ => by simp) s
theorem readBool_nf (s : RSt) : readBool s ≠ .fuel := bind_nf readByte_nf (fun _ _ => by simp) s
theorem readInt_nf (t : IntTy) (s : RSt) : readInt t s ≠ .fuel := bind_nf (takeBytes_nf _) (fun _ _ => by simp) s
theorem readVarint_nf (s : RSt) : readVarint s ≠ .fuel := by
  refine bind_nf peekByte_nf (fun b s => ?_) s
  split
  · simp
  · exact bind_nf (takeBytes_nf _) (fun _ _ => by simp) s
theorem readId_nf (c : Prop) [Decidable c] (s : RSt) :
    (if c then (do let bs ← takeBytes 8; pure (ofBE bs)) else readVarint : RM Nat) s ≠ .fuel := by
  split
  · exact bind_nf (takeBytes_nf _) (fun _ _ => by simp) s
  · exact readVarint_nf s
theorem lookupShared_nf (id : Nat) (t : Ty) (s : RSt) : lookupShared id t s ≠ .fuel := by
  unfold lookupShared
  split
  · split <;> simp
  · simp
theorem readVersion_nf (ci : ClassInfo) (version : Nat) (s : RSt) : readVersion ci version s ≠ .fuel := by
  unfold readVersion
  cases ci.bin.version with
  | none => simp
  | some m =>
    refine bind_nf readVarint_nf (fun v s => ?_) s
    split <;> simp

theorem writeVersion_nf (c : Option Nat) (version : Nat) (s : WSt) : writeVersion c version s ≠ .fuel := by
  cases c with
  | none => simp [writeVersion]
  | some m => exact writeVarint_nf _ _

section
variable {E : Env} {H : Heap} {self self' : Nat → Ty → Val → WM Unit} {R : ∀ α : Type, WM α → WM α → Prop} (h : Rel2 R)
  (hs : ∀ w t v, R _ (self w t v) (self' w t v))
include h hs

theorem Rel2.writeElems (t : Ty) (vs : List Val) : R _ (writeElems self t vs) (writeElems self' t vs) := by
  induction vs with
  | nil => exact h.pure _
  | cons v vs ih => exact h.bind _ _ _ _ (hs _ _ _) fun _ => ih

theorem Rel2.writeEntries (k t : Ty) (kvs : List (Val × Val)) :
    R _ (writeEntries self k t kvs) (writeEntries self' k t kvs) := by
  induction kvs with
  | nil => exact h.pure _
  | cons v vs ih => exact h.bind _ _ _ _ (hs _ _ _) fun _ => ih

theorem Rel2.writeBases (version : Nat) (bs : List ClassId) (v : Val) :
    R _ (writeBases self version bs v) (writeBases self' version bs v) := by
  induction bs with
  | nil => exact h.pure _
  | cons b bs ih => exact h.bind _ _ _ _ (hs _ _ _) fun _ => ih

theorem Rel2.writeFields (version : Nat) (fs : List (Guard × Field)) (st : Store) :
    R _ (writeFields self version fs st) (writeFields self' version fs st) := by
  induction fs with
  | nil => exact h.pure _
  | cons f fs ih =>
    obtain ⟨g, f⟩ := f
    simp only [Verif.writeFields]
    split
    · split
      · exact h.stuck
      · exact h.bind _ _ _ _ (hs _ _ _) fun _ => ih
    · exact ih

theorem Rel2.writeClass (ci : ClassInfo) (version : Nat) (st : Store) :
    R _ (writeClass self ci version st) (writeClass self' ci version st) := by
  refine h.bind _ _ _ _ (h.writeBases hs _ _ _) fun _ => h.bind _ _ _ _ (h.refl _ (writeVersion_nf _ _)) fun _ => h.writeFields hs _ _ _

theorem Rel2.writeStep (version : Nat) (t : Ty) (v : Val) :
    R _ (writeStep E H self version t v) (writeStep E H self' version t v) := by
  have he : ∀ bs, R _ (emit bs) (emit bs) := fun bs => h.refl _ (emit_nf bs)
  have hv : ∀ x, R _ (writeVarint x) (writeVarint x) := fun x => h.refl _ (writeVarint_nf x)
  have hb : ∀ x, R _ (writeByte x) (writeByte x) := fun x => h.refl _ (writeByte_nf x)
  unfold Verif.writeStep
  split
  · exact h.ub
  · exact he _
  · split
    · exact h.stuck
    · exact he _
  · exact he _
  · exact he _
  · exact h.bind _ _ _ _ (hv _) fun _ => he _
  · exact hs _ _ _
  · exact h.bind _ _ _ _ (hs _ _ _) fun _ => hs _ _ _
  · exact he _
  · exact h.bind _ _ _ _ (he _) fun _ => hs _ _ _
  · exact he _
  · exact h.bind _ _ _ _ (he _) fun _ => hs _ _ _
  · exact hb _
  · refine h.bind _ _ _ _ (h.refl _ fun s => by simp [alreadyWritten]) fun w => ?_
    refine h.bind _ _ _ _ (hb _) fun _ => h.bind _ _ _ _ (h.refl _ (writeId_nf _)) fun _ => ?_
    split
    · exact h.pure _
    · refine h.bind _ _ _ _ (h.refl _ fun s => by simp [markWritten]) fun _ => ?_
      split
      · exact hs _ _ _
      · exact h.ub
  · exact h.bind _ _ _ _ (hv _) fun _ => h.writeElems hs _ _
  · exact h.bind _ _ _ _ (hv _) fun _ => h.writeElems hs _ _
  · exact h.bind _ _ _ _ (hv _) fun _ => h.writeEntries hs _ _ _
  · exact h.bind _ _ _ _ (hb _) fun _ => h.throw _
  · split
    · exact h.stuck
    · exact hb _
    · exact h.bind _ _ _ _ (hb _) fun _ => hs _ _ _
  · split
    · exact h.stuck
    · exact h.writeClass hs _ _ _
  · exact he _
  · exact he _
  · exact h.stuck

end

theorem write_le (E : Env) (H : Heap) {n m : Nat} (hnm : n ≤ m) (w : Nat) (t : Ty) (v : Val) :
    Le Unit (write E H n w t v) (write E H m w t v) := by
  induction n generalizing m w t v with
  | zero => exact fun _ => Or.inl rfl
  | succ n ih =>
    cases m with
    | zero => omega
    | succ m => exact rel2_le.writeStep (fun w t v => ih (by omega) w t v) w t v

/-- A larger budget does not change the outcome of a `write` which did not run out of budget. -/
theorem write_mono {E : Env} {H : Heap} {n m w : Nat} {t : Ty} {v : Val} {s : WSt} {r : Res BExc WSt Unit} (hnm : n ≤ m)
    (h : write E H n w t v s = r) (hr : r ≠ .fuel) : write E H m w t v s = r := by
  rcases write_le E H hnm w t v s with h' | h'
  · exact absurd (h.symm.trans h') hr
  · rw [← h', h]

section
variable {E : Env} {self self' : Nat → Ty → Val → RM Val} {R : ∀ α : Type, RM α → RM α → Prop} (h : Rel2 R)
  (hs : ∀ w t v, R _ (self w t v) (self' w t v))
include h hs

theorem Rel2.readElems (t : Ty) (vs : List Val) : R _ (readElems self t vs) (readElems self' t vs) := by
  induction vs with
  | nil => exact h.pure _
  | cons v vs ih => exact h.bind _ _ _ _ (hs _ _ _) fun _ => h.map _ ih

theorem Rel2.readSetItems (multi : Bool) (t : Ty) (k : Nat) (acc : List Val) :
    R _ (readSetItems E self multi t k acc) (readSetItems E self' multi t k acc) := by
  induction k generalizing acc with
  | zero => exact h.pure _
  | succ k ih =>
    refine h.bind _ _ _ _ (hs _ _ _) fun v => ?_
    split
    · exact h.ub
    · exact ih _

theorem Rel2.readMapItems (multi : Bool) (kt t : Ty) (k : Nat) (acc : List (Val × Val)) :
    R _ (readMapItems E self multi kt t k acc) (readMapItems E self' multi kt t k acc) := by
  induction k generalizing acc with
  | zero => exact h.pure _
  | succ k ih =>
    refine h.bind _ _ _ _ (hs _ _ _) fun v => ?_
    split
    · split
      · exact h.ub
      · exact ih _
    · exact h.stuck

theorem Rel2.readBases (version : Nat) (bs : List ClassId) (v : Val) :
    R _ (readBases self version bs v) (readBases self' version bs v) := by
  induction bs generalizing v with
  | nil => exact h.pure _
  | cons b bs ih => exact h.bind _ _ _ _ (hs _ _ _) fun _ => ih _

theorem Rel2.readFields (version : Nat) (fs : List (Guard × Field)) (st : Store) :
    R _ (readFields self version fs st) (readFields self' version fs st) := by
  induction fs generalizing st with
  | nil => exact h.pure _
  | cons f fs ih =>
    obtain ⟨g, f⟩ := f
    simp only [Verif.readFields]
    split
    · split
      · exact h.stuck
      · exact h.bind _ _ _ _ (hs _ _ _) fun _ => ih _
    · exact ih _

theorem Rel2.readClass (ci : ClassInfo) (version : Nat) (p : Val) :
    R _ (readClass self ci version p) (readClass self' ci version p) := by
  unfold Verif.readClass
  split
  · exact h.stuck
  · refine h.bind _ _ _ _ (h.readBases hs _ _ _) fun v => ?_
    split
    · exact h.bind _ _ _ _ (h.refl _ (readVersion_nf _ _)) fun _ => h.map _ (h.readFields hs _ _ _)
    · exact h.stuck

theorem Rel2.readStep (version : Nat) (t : Ty) (p : Val) :
    R _ (readStep E self version t p) (readStep E self' version t p) := by
  have ht : ∀ k, R _ (takeBytes k) (takeBytes k) := fun k => h.refl _ (takeBytes_nf k)
  have hv : R _ readVarint readVarint := h.refl _ readVarint_nf
  have hb : R _ readByte readByte := h.refl _ readByte_nf
  have hbool : R _ readBool readBool := h.refl _ readBool_nf
  unfold Verif.readStep
  split
  · exact h.map _ hbool
  · split
    · exact h.stuck
    · exact h.map _ (h.refl _ (readInt_nf _))
  · exact h.map _ (ht _)
  · exact h.map _ (ht _)
  · refine h.bind _ _ _ _ hv fun n => ?_
    split
    · exact h.throw _
    · exact h.map _ (ht _)
  · exact hs _ _ _
  · split
    · exact h.bind _ _ _ _ (hs _ _ _) fun _ => h.map _ (hs _ _ _)
    · exact h.stuck
  · refine h.bind _ _ _ _ hbool fun b => ?_
    split
    · exact h.map _ (hs _ _ _)
    · exact h.pure _
  · refine h.bind _ _ _ _ hbool fun b => ?_
    split
    · exact h.map _ (hs _ _ _)
    · exact h.pure _
  · refine h.bind _ _ _ _ hb fun b => ?_
    split
    · exact h.pure _
    · refine h.bind _ _ _ _ (h.refl _ (readId_nf _)) fun id => ?_
      split
      · refine h.bind _ _ _ _ (h.refl _ fun s => by simp [allocShared]) fun a => h.bind _ _ _ _ (hs _ _ _) fun v => ?_
        exact h.bind _ _ _ _ (h.refl _ fun s => by simp [storeShared]) fun _ => h.pure _
      · exact h.map _ (h.refl _ (lookupShared_nf _ _))
  · split
    · refine h.bind _ _ _ _ hv fun n => ?_
      split
      · exact h.throw _
      · exact h.map _ (h.readElems hs _ _)
    · exact h.stuck
  · split
    · exact h.bind _ _ _ _ hv fun n => h.map _ (h.readSetItems hs _ _ _ _)
    · exact h.stuck
  · split
    · exact h.bind _ _ _ _ hv fun n => h.map _ (h.readMapItems hs _ _ _ _ _)
    · exact h.stuck
  · refine h.bind _ _ _ _ hb fun i => ?_
    split
    · exact h.throw _
    · exact h.pure _
    · exact h.map _ (hs _ _ _)
  · split
    · exact h.stuck
    · exact h.map _ (h.readClass hs _ _ _)
  · exact h.map _ (h.refl _ (readInt_nf _))
  · exact h.map _ (h.refl _ (readInt_nf _))
  · exact h.stuck

end

theorem read_le (E : Env) {n m : Nat} (hnm : n ≤ m) (w : Nat) (t : Ty) (p : Val) :
    Le Val (read E n w t p) (read E m w t p) := by
  induction n generalizing m w t p with
  | zero => exact fun _ => Or.inl rfl
  | succ n ih =>
    cases m with
    | zero => omega
    | succ m => exact rel2_le.readStep (fun w t v => ih (by omega) w t v) w t p

/-- A larger budget does not change the outcome of a `read` which did not run out of budget. -/
theorem read_mono {E : Env} {n m w : Nat} {t : Ty} {p : Val} {s : RSt} {r : Res BExc RSt Val} (hnm : n ≤ m)
    (h : read E n w t p s = r) (hr : r ≠ .fuel) : read E m w t p s = r := by
  rcases read_le E hnm w t p s with h' | h'
  · exact absurd (h.symm.trans h') hr
  · rw [← h', h]

end Verif
