import Verif.Model.Binary

/-!
# A proof principle for `write`

A relation between computations which holds for the primitive operations and is preserved by sequencing holds between the
`write`s of a value on two heaps.
-/

namespace Verif

/-- writing a non-null shared pointer (the corresponding part of `writeStep`), given what writes the object's content -/
def sharedWrite (a : Nat) (body : WM Unit) : WM Unit := do
  let written ← alreadyWritten a
  writeByte (sptrMode written (bigId a))
  writeId a
  if written then pure ()
  else do
    markWritten a
    body

/-- `Good` is known to hold for what writes the content of shared objects. -/
structure WClosed3 (H H' : Heap) (Good : WM Unit → Prop) (R : (α : Type) → WM α → WM α → Prop) : Prop where
  pure : ∀ {α : Type} (a : α), R α (Pure.pure a) (Pure.pure a)
  ub : ∀ {α : Type}, R α M.ub M.ub
  stuck : ∀ {α : Type}, R α M.stuck M.stuck
  fuel : ∀ {α : Type}, R α M.outOfFuel M.outOfFuel
  throw : ∀ {α : Type} (e : BExc), R α (M.throw e) (M.throw e)
  bind : ∀ {α β : Type} (m m' : WM α) (f f' : α → WM β), R α m m' → (∀ a, R β (f a) (f' a)) → R β (m >>= f) (m' >>= f')
  emit : ∀ bs, R Unit (emit bs) (emit bs)
  shared : ∀ a b b', Good b → (H a = H' a → R Unit b b') → R Unit (sharedWrite a b) (sharedWrite a b')

namespace WClosed3

variable {H H' : Heap} {Good : WM Unit → Prop} {R : (α : Type) → WM α → WM α → Prop} (h : WClosed3 H H' Good R) {E : Env} {self self' : Nat → Ty → Val → WM Unit}
include h

theorem byte (b : Nat) : R Unit (writeByte b) (writeByte b) := h.emit _
theorem varint (x : Nat) : R Unit (writeVarint x) (writeVarint x) := by
  unfold writeVarint
  split
  · exact h.emit _
  · exact h.throw _
theorem version (c : Option Nat) (w : Nat) : R Unit (writeVersion c w) (writeVersion c w) := by
  unfold writeVersion
  split
  · exact h.pure _
  · exact h.varint _

variable (hs : ∀ w t v, R Unit (self w t v) (self' w t v))
include hs

theorem elems (t : Ty) (vs : List Val) : R _ (writeElems self t vs) (writeElems self' t vs) := by
  induction vs with
  | nil => exact h.pure _
  | cons v vs ih => exact h.bind _ _ _ _ (hs _ _ _) fun _ => ih

theorem entries (k t : Ty) (kvs : List (Val × Val)) : R _ (writeEntries self k t kvs) (writeEntries self' k t kvs) := by
  induction kvs with
  | nil => exact h.pure _
  | cons v vs ih => exact h.bind _ _ _ _ (hs _ _ _) fun _ => ih

theorem bases (version : Nat) (bs : List ClassId) (v : Val) : R _ (writeBases self version bs v) (writeBases self' version bs v) := by
  induction bs with
  | nil => exact h.pure _
  | cons b bs ih => exact h.bind _ _ _ _ (hs _ _ _) fun _ => ih

theorem fields (version : Nat) (fs : List (Guard × Field)) (st : Store) :
    R _ (writeFields self version fs st) (writeFields self' version fs st) := by
  induction fs with
  | nil => exact h.pure _
  | cons f fs ih =>
    obtain ⟨g, f⟩ := f
    simp only [Verif.writeFields]
    split
    · split
      · exact h.stuck
      · exact h.bind _ _ _ _ (hs _ _ _) fun _ => ih
    · exact ih

theorem cls (ci : ClassInfo) (version : Nat) (st : Store) : R _ (writeClass self ci version st) (writeClass self' ci version st) :=
  h.bind _ _ _ _ (h.bases hs _ _ _) fun _ => h.bind _ _ _ _ (h.version _ _) fun _ => h.fields hs _ _ _

theorem step (hg : ∀ w t v, Good (self w t v)) (hu : Good M.ub) (version : Nat) (t : Ty) (v : Val) : R _ (writeStep E H self version t v) (writeStep E H' self' version t v) := by
  unfold Verif.writeStep
  split
  · exact h.ub
  · exact h.emit _
  · split
    · exact h.stuck
    · exact h.emit _
  · exact h.emit _
  · exact h.emit _
  · exact h.bind _ _ _ _ (h.varint _) fun _ => h.emit _
  · exact hs _ _ _
  · exact h.bind _ _ _ _ (hs _ _ _) fun _ => hs _ _ _
  · exact h.emit _
  · exact h.bind _ _ _ _ (h.emit _) fun _ => hs _ _ _
  · exact h.emit _
  · exact h.bind _ _ _ _ (h.emit _) fun _ => hs _ _ _
  · exact h.byte _
  · refine h.shared _ _ _ ?_ fun e => ?_
    · split
      · exact hg _ _ _
      · exact hu
    rw [e]
    split
    · exact hs _ _ _
    · exact h.ub
  · exact h.bind _ _ _ _ (h.varint _) fun _ => h.elems hs _ _
  · exact h.bind _ _ _ _ (h.varint _) fun _ => h.elems hs _ _
  · exact h.bind _ _ _ _ (h.varint _) fun _ => h.entries hs _ _ _
  · exact h.bind _ _ _ _ (h.byte _) fun _ => h.throw _
  · split
    · exact h.stuck
    · exact h.byte _
    · exact h.bind _ _ _ _ (h.byte _) fun _ => hs _ _ _
  · split
    · exact h.stuck
    · exact h.cls hs _ _ _
  · exact h.emit _
  · exact h.emit _
  · exact h.stuck

end WClosed3

theorem WClosed3.write {H H' : Heap} {Good : WM Unit → Prop} {R : (α : Type) → WM α → WM α → Prop} (h : WClosed3 H H' Good R) (E : Env)
    (hu : Good M.ub) (n : Nat) (hg : ∀ m, m < n → ∀ w t v, Good (write E H m w t v)) (w : Nat) (t : Ty) (v : Val) :
    R Unit (write E H n w t v) (write E H' n w t v) := by
  induction n generalizing w t v with
  | zero => exact h.fuel
  | succ n ih =>
    exact h.step (fun w t v => ih (fun m hm => hg m (Nat.lt_succ_of_lt hm)) w t v) (fun w t v => hg n (Nat.lt_succ_self n) w t v) hu w t v

structure WClosed2 (H H' : Heap) (R : (α : Type) → WM α → WM α → Prop) : Prop where
  pure : ∀ {α : Type} (a : α), R α (Pure.pure a) (Pure.pure a)
  ub : ∀ {α : Type}, R α M.ub M.ub
  stuck : ∀ {α : Type}, R α M.stuck M.stuck
  fuel : ∀ {α : Type}, R α M.outOfFuel M.outOfFuel
  throw : ∀ {α : Type} (e : BExc), R α (M.throw e) (M.throw e)
  bind : ∀ {α β : Type} (m m' : WM α) (f f' : α → WM β), R α m m' → (∀ a, R β (f a) (f' a)) → R β (m >>= f) (m' >>= f')
  emit : ∀ bs, R Unit (emit bs) (emit bs)
  shared : ∀ a b b', (H a = H' a → R Unit b b') → R Unit (sharedWrite a b) (sharedWrite a b')

theorem WClosed2.to3 {H H' : Heap} {R : (α : Type) → WM α → WM α → Prop} (h : WClosed2 H H' R) : WClosed3 H H' (fun _ => True) R :=
  { h with shared := fun a b b' _ hb => h.shared a b b' hb }

theorem WClosed2.write {H H' : Heap} {R : (α : Type) → WM α → WM α → Prop} (h : WClosed2 H H' R) (E : Env) (n w : Nat) (t : Ty) (v : Val) :
    R Unit (write E H n w t v) (write E H' n w t v) :=
  h.to3.write E trivial n (fun _ _ _ _ _ => trivial) w t v

/-! ### writing only appends -/

/-- writing only appends to the output and to the list of objects already written -/
def Appends (α : Type) (m : WM α) : Prop :=
  ∀ s, match m s with
    | .ok _ s' => s.out <+: s'.out ∧ s.seen <:+ s'.seen
    | .exc _ s' => s.out <+: s'.out ∧ s.seen <:+ s'.seen
    | _ => True

theorem Appends.bind {α β : Type} {m : WM α} {f : α → WM β} (hm : Appends α m) (hf : ∀ a, Appends β (f a)) : Appends β (m >>= f) := by
  intro s
  have h1 := hm s
  rw [M.bind_apply]
  cases hr : m s with
  | ok a s' =>
    rw [hr] at h1
    have h2 := hf a s'
    simp only
    cases hr2 : f a s' with
    | ok b s2 => rw [hr2] at h2; exact ⟨h1.1.trans h2.1, h1.2.trans h2.2⟩
    | exc e s2 => rw [hr2] at h2; exact ⟨h1.1.trans h2.1, h1.2.trans h2.2⟩
    | ub => trivial
    | stuck => trivial
    | fuel => trivial
  | exc e s' => rw [hr] at h1; exact h1
  | ub => trivial
  | stuck => trivial
  | fuel => trivial

theorem Appends.pure {α : Type} (a : α) : Appends α (Pure.pure a) := fun _ => ⟨List.prefix_refl _, List.suffix_refl _⟩
theorem Appends.throw {α : Type} (e : BExc) : Appends α (M.throw e) := fun _ => ⟨List.prefix_refl _, List.suffix_refl _⟩
theorem Appends.emit (bs : Str) : Appends Unit (Verif.emit bs) := fun _ => ⟨List.prefix_append _ _, List.suffix_refl _⟩
theorem Appends.varint (x : Nat) : Appends Unit (writeVarint x) := by
  unfold writeVarint
  split
  · exact .emit _
  · exact .throw _
theorem Appends.ident (x : Nat) : Appends Unit (writeId x) := by
  unfold writeId
  split
  · exact .emit _
  · exact .varint _
theorem Appends.shared (a : Nat) {b : WM Unit} (hb : Appends Unit b) : Appends Unit (sharedWrite a b) := by
  refine Appends.bind (fun _ => ⟨List.prefix_refl _, List.suffix_refl _⟩) fun w => .bind (.emit _) fun _ => .bind (.ident _) fun _ => ?_
  split
  · exact .pure _
  · exact Appends.bind (fun s => ⟨List.prefix_refl _, List.suffix_cons _ _⟩) fun _ => hb

theorem appends_closed (H : Heap) : WClosed2 H H fun α m _ => Appends α m where
  pure := .pure
  ub _ := trivial
  stuck _ := trivial
  fuel _ := trivial
  throw := .throw
  bind _ _ _ _ := .bind
  emit := .emit
  shared a _ _ hb := .shared a (hb rfl)

theorem Appends.ok {α : Type} {m : WM α} (h : Appends α m) {s s' : WSt} {a : α} (he : m s = .ok a s') :
    s.out <+: s'.out ∧ s.seen <:+ s'.seen := by
  have := h s
  rw [he] at this
  exact this

theorem write_appends (E : Env) (H : Heap) (n w : Nat) (t : Ty) (v : Val) : Appends Unit (write E H n w t v) :=
  (appends_closed H).write E n w t v

end Verif
