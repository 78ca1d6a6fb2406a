import Verif.Lemmas.ReadX

/-!
# Reading does not change shared objects which exist already
-/

namespace Verif

/-- the shared objects existing before still exist with the same content -/
def HeapKept {ε α : Type} (m : M ε RSt α) : Prop := ∀ s,
  (∀ a s', m s = .ok a s' → s.heap <+: s'.heap) ∧ (∀ e s', m s = .exc e s' → s.heap <+: s'.heap)

namespace HeapKept
variable {ε α β : Type}

theorem pure (a : α) : HeapKept (Pure.pure a : M ε RSt α) := fun s => ⟨fun b s' h => by cases h; exact List.prefix_refl _, fun e s' h => by cases h⟩
theorem throw (e : ε) : HeapKept (M.throw e : M ε RSt α) := fun s => ⟨fun b s' h => (by cases h), fun e s' h => by cases h; exact List.prefix_refl _⟩
theorem ub : HeapKept (M.ub : M ε RSt α) := fun s => ⟨fun b s' h => (by cases h), fun e s' h => (by cases h)⟩
theorem stuck : HeapKept (M.stuck : M ε RSt α) := fun s => ⟨fun b s' h => (by cases h), fun e s' h => (by cases h)⟩

theorem bind {m : M ε RSt α} {f : α → M ε RSt β} (hm : HeapKept m) (hf : ∀ a, HeapKept (f a)) : HeapKept (m >>= f) := by
  intro s
  refine ⟨fun b s' h => ?_, fun e s' h => ?_⟩
  · obtain ⟨a, s1, h1, h2⟩ := M.bind_eq_ok.1 h
    exact ((hm s).1 _ _ h1).trans ((hf a s1).1 _ _ h2)
  · rcases M.bind_eq_exc.1 h with h | ⟨a, s1, h1, h2⟩
    · exact (hm s).2 _ _ h
    · exact ((hm s).1 _ _ h1).trans ((hf a s1).2 _ _ h2)

theorem ite {c : Prop} [Decidable c] {m n : M ε RSt α} (h1 : HeapKept m) (h2 : HeapKept n) : HeapKept (if c then m else n) := by
  split
  · exact h1
  · exact h2

theorem holding {m : RM α} (q : Val) (h : HeapKept m) : HeapKept (holdingR q m) := by
  intro s
  refine ⟨fun a s' e => (h s).1 _ _ (holdingR_ok.1 e), fun e s' h' => ?_⟩
  obtain ⟨e, q'⟩ := e
  exact (h s).2 _ _ (holdingR_exc h').2

theorem within {m : XR α} (g : Val → Val) (h : HeapKept m) : HeapKept (withinR g m) := by
  intro s
  refine ⟨fun a s' e => (h s).1 _ _ (withinR_ok.1 e), fun e s' h' => ?_⟩
  obtain ⟨e, q'⟩ := e
  obtain ⟨q0, h1, -⟩ := withinR_exc h'
  exact (h s).2 _ _ h1

theorem take (k : Nat) : HeapKept (takeBytes k) := by
  intro s
  unfold takeBytes
  refine ⟨fun a s' h => ?_, fun e s' h => ?_⟩ <;> split at h <;> cases h <;> exact List.prefix_refl _

theorem byte : HeapKept readByte := (take _).bind fun _ => pure _
theorem bool : HeapKept readBool := byte.bind fun _ => pure _
theorem int (t : IntTy) : HeapKept (readInt t) := (take _).bind fun _ => pure _
theorem peek : HeapKept peekByte := by
  intro s
  unfold peekByte
  refine ⟨fun a s' h => ?_, fun e s' h => ?_⟩ <;> split at h <;> cases h <;> exact List.prefix_refl _
theorem varint : HeapKept readVarint := by
  unfold readVarint
  exact peek.bind fun _ => .ite (throw _) ((take _).bind fun _ => pure _)
theorem version (ci : ClassInfo) (w : Nat) : HeapKept (readVersion ci w) := by
  unfold readVersion
  split
  · exact pure _
  · exact varint.bind fun _ => .ite (pure _) (throw _)
theorem lookup (id : Nat) (t : Ty) : HeapKept (lookupShared id t) := by
  intro s
  unfold lookupShared
  refine ⟨fun a s' h => ?_, fun e s' h => ?_⟩
  · cases hl : s.table.lookup id with
    | none => rw [hl] at h; cases h
    | some q => rw [hl] at h; dsimp only at h; split at h <;> cases h; exact List.prefix_refl _
  · cases hl : s.table.lookup id with
    | none => rw [hl] at h; cases h; exact List.prefix_refl _
    | some q => rw [hl] at h; dsimp only at h; split at h <;> cases h; exact List.prefix_refl _

theorem prefix_set {l l' : List Val} {x v : Val} (h : l ++ [x] <+: l') : l <+: l'.set l.length v := by
  obtain ⟨r, rfl⟩ := h
  refine ⟨v :: r, ?_⟩
  simp

variable {E : Env} {self : Nat → Ty → Val → XR Val} (hs : ∀ w t p, HeapKept (self w t p))
include hs

theorem elems (t : Ty) (done ps : List Val) : HeapKept (readElemsX self t done ps) := by
  induction ps generalizing done with
  | nil => exact pure _
  | cons p ps ih => exact ((hs _ _ _).within _).bind fun v => (ih _).bind fun vs => pure _

theorem setItems (multi : Bool) (t : Ty) (k : Nat) (acc : List Val) : HeapKept (readSetItemsX E self multi t k acc) := by
  induction k generalizing acc with
  | zero => exact pure _
  | succ k ih => exact ((hs _ _ _).within _).bind fun v => .ite ub (ih _)

theorem mapItems (multi : Bool) (k t : Ty) (n : Nat) (acc : List (Val × Val)) : HeapKept (readMapItemsX E self multi k t n acc) := by
  induction n generalizing acc with
  | zero => exact pure _
  | succ n ih =>
    refine ((hs _ _ _).within _).bind fun v => ?_
    split
    · exact .ite ub (ih _)
    · exact stuck

theorem bases (w : Nat) (bs : List ClassId) (v : Val) : HeapKept (readBasesX self w bs v) := by
  induction bs generalizing v with
  | nil => exact pure _
  | cons b bs ih => exact (hs _ _ _).bind fun v => ih v

theorem fields (w : Nat) (fs : List (Guard × Field)) (st : Store) : HeapKept (readFieldsX self w fs st) := by
  induction fs generalizing st with
  | nil => exact pure _
  | cons gf fs ih =>
    obtain ⟨g, f⟩ := gf
    simp only [readFieldsX]
    refine .ite ?_ (ih _)
    cases st.get? f.key with
    | none => exact stuck
    | some p => exact ((hs _ _ _).within _).bind fun v => ih _

theorem cls (ci : ClassInfo) (w : Nat) (p : Val) : HeapKept (readClassX self ci w p) := by
  refine .ite stuck ((bases hs _ _ _).bind fun v => ?_)
  cases v with
  | obj st => exact (holding _ (version _ _)).bind fun w => (fields hs _ _ _).bind fun st => pure _
  | _ => exact stuck

theorem shared (id : Nat) (t : Ty) (p v : Val) : HeapKept (do
    let addr ← holdingR p (allocShared id t v)
    let v ← withinShared addr (self 0 t v)
    holdingR p (storeShared addr v)
    Pure.pure (.ref addr) : XR Val) := by
  intro s
  have hk := hs 0 t v { s with table := (id, t, s.heap.length) :: s.table, heap := s.heap ++ [v] }
  refine ⟨fun a s' h => ?_, fun e s' h => ?_⟩
  · obtain ⟨a1, s1, h1, h2⟩ := M.bind_eq_ok.1 h
    cases h1
    obtain ⟨v1, s2, h3, h4⟩ := M.bind_eq_ok.1 h2
    obtain ⟨u, s3, h5, h6⟩ := M.bind_eq_ok.1 h4
    cases h5
    cases h6
    refine prefix_set (hk.1 v1 s2 ?_)
    unfold withinShared at h3
    cases hm : self 0 t v { s with table := (id, t, s.heap.length) :: s.table, heap := s.heap ++ [v] } <;> rw [hm] at h3 <;> cases h3
    rfl
  · rcases M.bind_eq_exc.1 h with h | ⟨a, s1, h1, h2⟩
    · cases h
    · cases h1
      rcases M.bind_eq_exc.1 h2 with h2 | ⟨a, s2, h3, h4⟩
      · obtain ⟨e, q⟩ := e
        obtain ⟨q0, s0, h5, -, rfl⟩ := withinShared_exc h2
        exact prefix_set (hk.2 _ _ h5)
      · rcases M.bind_eq_exc.1 h4 with h4 | ⟨a, s2, h3, h4⟩
        · cases h4
        · cases h4

theorem step (w : Nat) (t : Ty) (p : Val) : HeapKept (readXStep E self w t p) := by
  cases t with
  | enum u => exact (hs _ _ _).within _
  | pair a b =>
    simp only [readXStep]
    split
    · exact ((hs _ _ _).within _).bind fun x => ((hs _ _ _).within _).bind fun y => pure _
    · exact stuck
  | uptr t => exact (holding _ bool).bind fun b => .ite (((hs _ _ _).within _).bind fun v => pure _) (pure _)
  | opt t => exact (holding _ bool).bind fun b => .ite (((hs _ _ _).within _).bind fun v => pure _) (pure _)
  | sptr t =>
    refine (holding _ byte).bind fun mode => .ite (pure _)
      ((holding _ (.ite ((take _).bind fun _ => pure _) varint)).bind fun id => .ite (shared hs _ _ _ _) ?_)
    exact (holding _ (lookup _ _)).bind fun a => pure _
  | vec t =>
    cases p with
    | list vs => exact (holding _ varint).bind fun k => .ite (throw _) ((elems hs _ _ _).bind fun vs => pure _)
    | _ => exact stuck
  | set h m t =>
    cases p with
    | list vs => exact (holding _ varint).bind fun k => (setItems hs _ _ _ _).bind fun vs => pure _
    | _ => exact stuck
  | map h m k t =>
    cases p with
    | map vs => exact (holding _ varint).bind fun _ => (mapItems hs _ _ _ _ _).bind fun vs => pure _
    | _ => exact stuck
  | variant ts =>
    refine (holding _ byte).bind fun i => ?_
    cases hti : ts[i]? with
    | none => exact throw _
    | some t =>
      have : HeapKept (do let v ← withinR (.alt i) (self 0 t (E.valInit t)); Pure.pure (Val.alt i v) : XR Val) :=
        ((hs _ _ _).within _).bind fun v => pure _
      cases t <;> first | exact this | exact pure _
  | cls c =>
    simp only [readXStep]
    cases hc : E.cls c with
    | none => exact stuck
    | some ci => exact (HeapKept.cls hs _ _ _).bind fun r => pure _
  | bool => exact holding _ (bool.bind fun _ => pure _)
  | int it => exact holding _ (.ite stuck ((int _).bind fun _ => pure _))
  | f32 => exact holding _ ((take _).bind fun _ => pure _)
  | f64 => exact holding _ ((take _).bind fun _ => pure _)
  | str => exact holding _ (varint.bind fun _ => .ite (throw _) ((take _).bind fun _ => pure _))
  | dateTime => exact holding _ ((int _).bind fun _ => pure _)
  | timeSpan => exact holding _ ((int _).bind fun _ => pure _)
  | cstr | sview | tuple | mono => exact holding p stuck

end HeapKept

theorem readX_heapKept (E : Env) (n w : Nat) (t : Ty) (p : Val) : HeapKept (readX E n w t p) := by
  induction n generalizing w t p with
  | zero => exact fun s => ⟨fun b s' h => (by cases h), fun e s' h => (by cases h)⟩
  | succ n ih => exact HeapKept.step ih w t p

end Verif
