import Verif.Model.Binary

/-!
# A proof principle for `read`

A property of computations which holds for the primitive operations and is preserved by sequencing holds for `read` on all
types and targets.
-/

namespace Verif

structure RClosed (I : (α : Type) → RM α → Prop) : Prop where
  pure : ∀ {α : Type} (a : α), I α (Pure.pure a)
  ub : ∀ {α : Type}, I α M.ub
  stuck : ∀ {α : Type}, I α M.stuck
  fuel : ∀ {α : Type}, I α M.outOfFuel
  throw : ∀ {α : Type} (e : BExc), I α (M.throw e)
  bind : ∀ {α β : Type} (m : RM α) (f : α → RM β), I α m → (∀ a, I β (f a)) → I β (m >>= f)
  take : ∀ k, I Str (takeBytes k)
  varint : I Nat readVarint
  alloc : ∀ id t v, I Nat (allocShared id t v)
  store : ∀ a v, I Unit (storeShared a v)
  lookup : ∀ id t, I Nat (lookupShared id t)

namespace RClosed

variable {I : (α : Type) → RM α → Prop} (h : RClosed I) {E : Env} {self : Nat → Ty → Val → RM Val}
include h

theorem map {α β : Type} (m : RM α) (g : α → β) (hm : I α m) : I β (m >>= fun a => Pure.pure (g a)) :=
  h.bind _ _ hm fun _ => h.pure _

theorem byte : I Nat readByte := h.map _ _ (h.take _)
theorem bool : I Bool readBool := h.map _ _ h.byte
theorem int (t : IntTy) : I Int (readInt t) := h.map _ _ (h.take _)
theorem ident (c : Prop) [Decidable c] :
    I Nat (if c then (do let bs ← takeBytes 8; Pure.pure (ofBE bs)) else readVarint) := by
  split
  · exact h.map _ _ (h.take _)
  · exact h.varint
theorem version (ci : ClassInfo) (version : Nat) : I Nat (readVersion ci version) := by
  unfold readVersion
  split
  · exact h.pure _
  · refine h.bind _ _ h.varint fun v => ?_
    split
    · exact h.pure _
    · exact h.throw _

variable (hs : ∀ w t v, I Val (self w t v))
include hs

theorem elems (t : Ty) (vs : List Val) : I _ (readElems self t vs) := by
  induction vs with
  | nil => exact h.pure _
  | cons v vs ih => exact h.bind _ _ (hs _ _ _) fun _ => h.map _ _ ih

theorem setItems (multi : Bool) (t : Ty) (k : Nat) (acc : List Val) : I _ (readSetItems E self multi t k acc) := by
  induction k generalizing acc with
  | zero => exact h.pure _
  | succ k ih =>
    refine h.bind _ _ (hs _ _ _) fun v => ?_
    split
    · exact h.ub
    · exact ih _

theorem mapItems (multi : Bool) (kt t : Ty) (k : Nat) (acc : List (Val × Val)) :
    I _ (readMapItems E self multi kt t k acc) := by
  induction k generalizing acc with
  | zero => exact h.pure _
  | succ k ih =>
    refine h.bind _ _ (hs _ _ _) fun v => ?_
    split
    · split
      · exact h.ub
      · exact ih _
    · exact h.stuck

theorem bases (version : Nat) (bs : List ClassId) (v : Val) : I _ (readBases self version bs v) := by
  induction bs generalizing v with
  | nil => exact h.pure _
  | cons b bs ih => exact h.bind _ _ (hs _ _ _) fun _ => ih _

theorem fields (version : Nat) (fs : List (Guard × Field)) (st : Store) : I _ (readFields self version fs st) := by
  induction fs generalizing st with
  | nil => exact h.pure _
  | cons f fs ih =>
    obtain ⟨g, f⟩ := f
    simp only [Verif.readFields]
    split
    · split
      · exact h.stuck
      · exact h.bind _ _ (hs _ _ _) fun _ => ih _
    · exact ih _

theorem cls (ci : ClassInfo) (version : Nat) (p : Val) : I _ (readClass self ci version p) := by
  unfold Verif.readClass
  split
  · exact h.stuck
  · refine h.bind _ _ (h.bases hs _ _ _) fun v => ?_
    split
    · exact h.bind _ _ (h.version _ _) fun _ => h.map _ _ (h.fields hs _ _ _)
    · exact h.stuck

theorem step (version : Nat) (t : Ty) (p : Val) : I _ (readStep E self version t p) := by
  unfold Verif.readStep
  split
  · exact h.map _ _ h.bool
  · split
    · exact h.stuck
    · exact h.map _ _ (h.int _)
  · exact h.map _ _ (h.take _)
  · exact h.map _ _ (h.take _)
  · refine h.bind _ _ h.varint fun n => ?_
    split
    · exact h.throw _
    · exact h.map _ _ (h.take _)
  · exact hs _ _ _
  · split
    · exact h.bind _ _ (hs _ _ _) fun _ => h.map _ _ (hs _ _ _)
    · exact h.stuck
  · refine h.bind _ _ h.bool fun b => ?_
    split
    · exact h.map _ _ (hs _ _ _)
    · exact h.pure _
  · refine h.bind _ _ h.bool fun b => ?_
    split
    · exact h.map _ _ (hs _ _ _)
    · exact h.pure _
  · refine h.bind _ _ h.byte fun b => ?_
    split
    · exact h.pure _
    · refine h.bind _ _ (h.ident _) fun id => ?_
      split
      · refine h.bind _ _ (h.alloc _ _ _) fun a => h.bind _ _ (hs _ _ _) fun v => ?_
        exact h.bind _ _ (h.store _ _) fun _ => h.pure _
      · exact h.map _ _ (h.lookup _ _)
  · split
    · refine h.bind _ _ h.varint fun n => ?_
      split
      · exact h.throw _
      · exact h.map _ _ (h.elems hs _ _)
    · exact h.stuck
  · split
    · exact h.bind _ _ h.varint fun n => h.map _ _ (h.setItems hs _ _ _ _)
    · exact h.stuck
  · split
    · exact h.bind _ _ h.varint fun n => h.map _ _ (h.mapItems hs _ _ _ _ _)
    · exact h.stuck
  · refine h.bind _ _ h.byte fun i => ?_
    split
    · exact h.throw _
    · exact h.pure _
    · exact h.map _ _ (hs _ _ _)
  · split
    · exact h.stuck
    · exact h.map _ _ (h.cls hs _ _ _)
  · exact h.map _ _ (h.int _)
  · exact h.map _ _ (h.int _)
  · exact h.stuck

end RClosed

theorem RClosed.read {I : (α : Type) → RM α → Prop} (h : RClosed I) (E : Env) (n w : Nat) (t : Ty) (p : Val) :
    I Val (read E n w t p) := by
  induction n generalizing w t p with
  | zero => exact h.fuel
  | succ n ih => exact h.step (fun w t v => ih w t v) w t p

theorem RClosed.restore {I : (α : Type) → RM α → Prop} (h : RClosed I) (E : Env) (n w : Nat) (ci : ClassInfo) (p : Val) :
    I _ (readClass (Verif.read E n) ci w p) := h.cls (fun w t v => h.read E n w t v) ci w p

end Verif
