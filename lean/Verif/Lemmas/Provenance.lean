import Verif.Spec.Ownership
import Verif.Lemmas.ReadXHeap
import Verif.Lemmas.BinPair
import Verif.Lemmas.BinSound
import Verif.Lemmas.BinCover

/-!
# Where the shared pointers of an object come from after reading
-/

namespace Verif

section
variable (old : Nat → Prop) (base : Nat)

/-- one of the old addresses or the address of an object created since there were `base` objects -/
def OwnAddr (s : RSt) (a : Nat) : Prop := old a ∨ (base ≤ a ∧ a < s.heap.length)

structure OwnSt (s : RSt) : Prop where
  len : base ≤ s.heap.length
  table : ∀ e ∈ s.table, OwnAddr old base s e.2.2
  heap : ∀ i v, base ≤ i → s.heap[i]? = some v → ∀ a ∈ v.refs, OwnAddr old base s a

/-- The addresses `R` in the result (`X` in the exception) are ones of `P` or own addresses. -/
def Prov {ε α : Type} (P : Nat → Prop) (m : M ε RSt α) (R : α → Nat → Prop) (X : ε → Nat → Prop) : Prop :=
  ∀ s, OwnSt old base s →
    (∀ r s', m s = .ok r s' → OwnSt old base s' ∧ s.heap.length ≤ s'.heap.length ∧ ∀ a, R r a → P a ∨ OwnAddr old base s' a) ∧
    (∀ e s', m s = .exc e s' → OwnSt old base s' ∧ s.heap.length ≤ s'.heap.length ∧ ∀ a, X e a → P a ∨ OwnAddr old base s' a)
end

variable {old : Nat → Prop} {base : Nat} {α β : Type}

theorem OwnAddr.mono {s s' : RSt} {a : Nat} (h : OwnAddr old base s a) (hl : s.heap.length ≤ s'.heap.length) : OwnAddr old base s' a := by
  rcases h with h | h
  · exact .inl h
  · exact .inr ⟨h.1, by omega⟩

/-- refers to, as a predicate -/
abbrev Refs (v : Val) : Nat → Prop := fun a => a ∈ v.refs
abbrev RefsX (e : BExc × Val) : Nat → Prop := fun a => a ∈ e.2.refs

namespace Prov

theorem pure {P : Nat → Prop} {R : α → Nat → Prop} {X : BExc × Val → Nat → Prop} (r : α) (h : ∀ a, R r a → P a) :
    Prov old base P (Pure.pure r : XR α) R X :=
  fun s hs => ⟨fun r' s' e => (by cases e; exact ⟨hs, Nat.le_refl _, fun a ha => .inl (h a ha)⟩), fun _ _ e => (by cases e)⟩

theorem throw {P : Nat → Prop} {R : α → Nat → Prop} (e : BExc) (q : Val) (h : ∀ a ∈ q.refs, P a) :
    Prov old base P (M.throw (e, q) : XR α) R RefsX :=
  fun s hs => ⟨fun r' s' e => (by cases e), fun _ _ e => (by cases e; exact ⟨hs, Nat.le_refl _, fun a ha => .inl (h a ha)⟩)⟩

theorem ub {P : Nat → Prop} {R : α → Nat → Prop} : Prov old base P (M.ub : XR α) R RefsX :=
  fun _ _ => ⟨fun _ _ e => (by cases e), fun _ _ e => (by cases e)⟩
theorem stuck {P : Nat → Prop} {R : α → Nat → Prop} : Prov old base P (M.stuck : XR α) R RefsX :=
  fun _ _ => ⟨fun _ _ e => (by cases e), fun _ _ e => (by cases e)⟩

theorem bind {ε : Type} {P : Nat → Prop} {m : M ε RSt α} {f : α → M ε RSt β} {R : α → Nat → Prop} {R' : β → Nat → Prop} {X : ε → Nat → Prop}
    (hm : Prov old base P m R X) (hf : ∀ r, Prov old base (fun a => P a ∨ R r a) (f r) R' X) : Prov old base P (m >>= f) R' X := by
  intro s hs
  obtain ⟨h1, h2⟩ := hm s hs
  refine ⟨fun b s' h => ?_, fun e s' h => ?_⟩
  · obtain ⟨r, s1, e1, e2⟩ := M.bind_eq_ok.1 h
    obtain ⟨g1, g2, g3⟩ := h1 r s1 e1
    obtain ⟨k1, k2, k3⟩ := (hf r s1 g1).1 b s' e2
    refine ⟨k1, by omega, fun a ha => ?_⟩
    rcases k3 a ha with (ha | ha) | ha
    · exact .inl ha
    · exact (g3 a ha).imp_right fun h => h.mono k2
    · exact .inr ha
  · rcases M.bind_eq_exc.1 h with h | ⟨r, s1, e1, e2⟩
    · exact h2 e s' h
    · obtain ⟨g1, g2, g3⟩ := h1 r s1 e1
      obtain ⟨k1, k2, k3⟩ := (hf r s1 g1).2 e s' e2
      refine ⟨k1, by omega, fun a ha => ?_⟩
      rcases k3 a ha with (ha | ha) | ha
      · exact .inl ha
      · exact (g3 a ha).imp_right fun h => h.mono k2
      · exact .inr ha

theorem ite {ε : Type} {P : Nat → Prop} {c : Prop} [Decidable c] {m n : M ε RSt α} {R : α → Nat → Prop} {X : ε → Nat → Prop}
    (h1 : Prov old base P m R X) (h2 : Prov old base P n R X) : Prov old base P (if c then m else n) R X := by
  split
  · exact h1
  · exact h2

theorem within {P : Nat → Prop} {m : XR α} {R : α → Nat → Prop} {g : Val → Val} (h : Prov old base P m R RefsX)
    (hg : ∀ q, ∀ a ∈ (g q).refs, a ∈ q.refs ∨ P a) : Prov old base P (withinR g m) R RefsX := by
  intro s hs
  obtain ⟨h1, h2⟩ := h s hs
  refine ⟨fun r s' e => h1 r s' (withinR_ok.1 e), fun e s' h' => ?_⟩
  obtain ⟨e, q'⟩ := e
  obtain ⟨q0, e1, rfl⟩ := withinR_exc h'
  obtain ⟨g1, g2, g3⟩ := h2 _ _ e1
  exact ⟨g1, g2, fun a ha => (hg q0 a ha).elim (g3 a) .inl⟩

/-- neither the table nor the objects are changed -/
def Quiet (m : RM α) : Prop := ∀ s, (∀ r s', m s = .ok r s' → s'.heap = s.heap ∧ s'.table = s.table) ∧
  (∀ e s', m s = .exc e s' → s'.heap = s.heap ∧ s'.table = s.table)

theorem quiet_pure (a : α) : Quiet (Pure.pure a) := fun s => ⟨fun r s' h => by cases h; exact ⟨rfl, rfl⟩, fun e s' h => by cases h⟩
theorem quiet_throw (e : BExc) : Quiet (M.throw e : RM α) := fun s => ⟨fun r s' h => (by cases h), fun e s' h => by cases h; exact ⟨rfl, rfl⟩⟩
theorem quiet_stuck : Quiet (M.stuck : RM α) := fun s => ⟨fun r s' h => (by cases h), fun e s' h => (by cases h)⟩
theorem quiet_bind {m : RM α} {f : α → RM β} (hm : Quiet m) (hf : ∀ a, Quiet (f a)) : Quiet (m >>= f) := by
  intro s
  refine ⟨fun b s' h => ?_, fun e s' h => ?_⟩
  · obtain ⟨r, s1, e1, e2⟩ := M.bind_eq_ok.1 h
    have g1 := (hm s).1 _ _ e1
    have g2 := (hf r s1).1 _ _ e2
    exact ⟨g2.1.trans g1.1, g2.2.trans g1.2⟩
  · rcases M.bind_eq_exc.1 h with h | ⟨r, s1, e1, e2⟩
    · exact (hm s).2 _ _ h
    · have g1 := (hm s).1 _ _ e1
      have g2 := (hf r s1).2 _ _ e2
      exact ⟨g2.1.trans g1.1, g2.2.trans g1.2⟩
theorem quiet_ite {c : Prop} [Decidable c] {m n : RM α} (h1 : Quiet m) (h2 : Quiet n) : Quiet (if c then m else n) := by
  split
  · exact h1
  · exact h2
theorem quiet_take (k : Nat) : Quiet (takeBytes k) := by
  intro s
  unfold takeBytes
  refine ⟨fun a s' h => ?_, fun e s' h => ?_⟩ <;> split at h <;> cases h <;> exact ⟨rfl, rfl⟩
theorem quiet_byte : Quiet readByte := quiet_bind (quiet_take _) fun _ => quiet_pure _
theorem quiet_bool : Quiet readBool := quiet_bind quiet_byte fun _ => quiet_pure _
theorem quiet_int (t : IntTy) : Quiet (readInt t) := quiet_bind (quiet_take _) fun _ => quiet_pure _
theorem quiet_peek : Quiet peekByte := by
  intro s
  unfold peekByte
  refine ⟨fun a s' h => ?_, fun e s' h => ?_⟩ <;> split at h <;> cases h <;> exact ⟨rfl, rfl⟩
theorem quiet_varint : Quiet readVarint := by
  unfold readVarint
  exact quiet_bind quiet_peek fun _ => quiet_ite (quiet_throw _) (quiet_bind (quiet_take _) fun _ => quiet_pure _)
theorem quiet_version (ci : ClassInfo) (w : Nat) : Quiet (readVersion ci w) := by
  unfold readVersion
  split
  · exact quiet_pure _
  · exact quiet_bind quiet_varint fun _ => quiet_ite (quiet_pure _) (quiet_throw _)

theorem OwnSt_congr {s s' : RSt} (hs : OwnSt old base s) (hh : s'.heap = s.heap) (ht : s'.table = s.table) : OwnSt old base s' := by
  obtain ⟨i, t, h⟩ := s
  obtain ⟨i', t', h'⟩ := s'
  cases hh
  cases ht
  exact ⟨hs.len, hs.table, hs.heap⟩

theorem holding {P : Nat → Prop} {m : RM α} {R : α → Nat → Prop} (q : Val) (hm : Quiet m) (hq : ∀ a ∈ q.refs, P a) (hR : ∀ s r s', m s = .ok r s' → ∀ a, ¬ R r a) :
    Prov old base P (holdingR q m) R RefsX := by
  intro s hs
  refine ⟨fun r s' e => ?_, fun e s' h' => ?_⟩
  · have e := holdingR_ok.1 e
    obtain ⟨g1, g2⟩ := (hm s).1 _ _ e
    exact ⟨OwnSt_congr hs g1 g2, by rw [g1], fun a ha => absurd ha (hR _ _ _ e a)⟩
  · obtain ⟨e, q'⟩ := e
    obtain ⟨rfl, e1⟩ := holdingR_exc h'
    obtain ⟨g1, g2⟩ := (hm s).2 _ _ e1
    exact ⟨OwnSt_congr hs g1 g2, by rw [g1], fun a ha => .inl (hq a ha)⟩

/-- nothing -/
abbrev none' (_ : α) : Nat → Prop := fun _ => False

theorem hold {P : Nat → Prop} {m : RM α} (q : Val) (hm : Quiet m) (hq : ∀ a ∈ q.refs, P a) : Prov old base P (holdingR q m) none' RefsX :=
  holding q hm hq fun _ _ _ _ _ h => h

/-- values without shared pointers -/
theorem scalar {P : Nat → Prop} {m : RM α} (q : Val) (g : α → Val) (hm : Quiet m) (hq : ∀ a ∈ q.refs, P a) (hg : ∀ r, (g r).refs = []) :
    Prov old base P (holdingR q (m >>= fun r => Pure.pure (g r))) Refs RefsX := by
  refine holding q (quiet_bind hm fun _ => quiet_pure _) hq fun s r s' h a ha => ?_
  obtain ⟨r0, s1, e1, e2⟩ := M.bind_eq_ok.1 h
  cases e2
  rw [Refs, hg] at ha
  cases ha

variable {E : Env} {self : Nat → Ty → Val → XR Val} (hE : ∀ t, (E.valInit t).refs = [] ∧ (E.defInit t).refs = [])
  (hs : ∀ w t p (P : Nat → Prop), (∀ a ∈ p.refs, P a) → Prov old base P (self w t p) Refs RefsX)
include hs

theorem elems (t : Ty) (done ps : List Val) (P : Nat → Prop) (hd : ∀ a ∈ Val.refsL done, P a) (hp : ∀ a ∈ Val.refsL ps, P a) :
    Prov old base P (readElemsX self t done ps) (fun vs a => a ∈ Val.refsL vs) RefsX := by
  induction ps generalizing done P with
  | nil => exact pure _ fun a ha => (by cases ha)
  | cons p ps ih =>
    simp only [Val.refsL, List.mem_append] at hp
    refine bind (R := Refs) ?_ fun v => bind (ih _ _ ?_ ?_) fun vs => pure _ ?_
    · refine within (hs _ _ _ _ fun a ha => hp a (.inl ha)) fun q a ha => ?_
      simp only [Val.refs, Val.mem_refsL, List.mem_append, List.mem_cons] at ha
      obtain ⟨x, hx, ha⟩ := ha
      rcases hx with hx | rfl | hx
      · exact .inr (hd a (Val.mem_refsL.2 ⟨x, hx, ha⟩))
      · exact .inl ha
      · exact .inr (hp a (.inr (Val.mem_refsL.2 ⟨x, hx, ha⟩)))
    · intro a ha
      simp only [Val.mem_refsL, List.mem_append, List.mem_cons, List.not_mem_nil, or_false] at ha
      obtain ⟨x, hx | rfl, ha⟩ := ha
      · exact .inl (hd a (Val.mem_refsL.2 ⟨x, hx, ha⟩))
      · exact .inr ha
    · intro a ha
      exact .inl (hp a (.inr ha))
    · intro a ha
      simp only [Val.refsL, List.mem_append] at ha
      exact ha.elim (fun h => .inl (.inr h)) .inr

theorem bases (w : Nat) (bs : List ClassId) (v : Val) (P : Nat → Prop) (hp : ∀ a ∈ v.refs, P a) :
    Prov old base P (readBasesX self w bs v) Refs RefsX := by
  induction bs generalizing v P with
  | nil => exact pure _ hp
  | cons b bs ih => exact bind (hs _ _ _ _ hp) fun v => ih v _ fun a ha => .inr ha

omit hs in
theorem refs_set {st : Store} {k : FieldKey} {q : Val} {a : Nat} (h : a ∈ Val.refsF (st.set k q)) : a ∈ q.refs ∨ a ∈ Val.refsF st := by
  induction st with
  | nil => cases h
  | cons e st ih =>
    obtain ⟨k', v'⟩ := e
    simp only [Store.set] at h
    by_cases hk : k' = k
    · rw [if_pos hk] at h
      simp only [Val.refsF, List.mem_append] at h ⊢
      exact h.imp_right .inr
    · rw [if_neg hk] at h
      simp only [Val.refsF, List.mem_append] at h ⊢
      rcases h with h | h
      · exact .inr (.inl h)
      · exact (ih h).imp_right .inr

theorem fields (w : Nat) (fs : List (Guard × Field)) (st : Store) (P : Nat → Prop) (hp : ∀ a ∈ Val.refsF st, P a) :
    Prov old base P (readFieldsX self w fs st) (fun st a => a ∈ Val.refsF st) RefsX := by
  induction fs generalizing st P with
  | nil => exact pure _ hp
  | cons gf fs ih =>
    obtain ⟨g, f⟩ := gf
    simp only [readFieldsX]
    refine ite ?_ (ih _ _ hp)
    cases hg : st.get? f.key with
    | none => exact stuck
    | some p =>
      refine bind (R := Refs) (within (hs _ _ _ _ fun a ha => hp a ?_) fun q a ha => ?_) fun v => ih _ _ fun a ha => ?_
      · exact Val.mem_refsF.2 ⟨_, mem_of_get? hg, ha⟩
      · exact (refs_set ha).imp_right (hp a)
      · exact (refs_set ha).symm.imp_left (hp a)

theorem cls (ci : ClassInfo) (w : Nat) (p : Val) (P : Nat → Prop) (hp : ∀ a ∈ p.refs, P a) :
    Prov old base P (readClassX self ci w p) (fun r => Refs r.1) RefsX := by
  refine ite stuck (bind (bases hs _ _ _ _ hp) fun v => ?_)
  cases v with
  | obj st =>
    refine bind (hold _ (quiet_version _ _) fun a ha => .inr ha) fun w => bind (fields hs _ _ _ _ fun a ha => .inl (.inr ha)) fun st => pure _ ?_
    exact fun a ha => .inr ha
  | _ => exact stuck

include hE

theorem setItems (multi : Bool) (t : Ty) (k : Nat) (acc : List Val) (P : Nat → Prop) (hp : ∀ a ∈ Val.refsL acc, P a) :
    Prov old base P (readSetItemsX E self multi t k acc) (fun vs a => a ∈ Val.refsL vs) RefsX := by
  induction k generalizing acc P with
  | zero => exact pure _ hp
  | succ k ih =>
    refine bind (R := Refs) (within (hs _ _ _ _ fun a ha => ?_) fun q a ha => .inr (hp a ha)) fun v => ite ub (ih _ _ fun a ha => ?_)
    · rw [(hE t).2] at ha
      cases ha
    · obtain ⟨x, hx, hxa⟩ := Val.mem_refsL.1 ha
      have : x = v ∨ x ∈ acc := by
        cases multi with
        | true => exact insertMulti_mem _ _ _ _ hx
        | false => exact insertUniq_mem _ _ _ _ hx
      rcases this with rfl | hx
      · exact .inr hxa
      · exact .inl (hp a (Val.mem_refsL.2 ⟨x, hx, hxa⟩))

theorem mapItems (multi : Bool) (k t : Ty) (n : Nat) (acc : List (Val × Val)) (P : Nat → Prop) (hp : ∀ a ∈ Val.refsKV acc, P a) :
    Prov old base P (readMapItemsX E self multi k t n acc) (fun vs a => a ∈ Val.refsKV vs) RefsX := by
  induction n generalizing acc P with
  | zero => exact pure _ hp
  | succ n ih =>
    refine bind (R := Refs) (within (hs _ _ _ _ fun a ha => ?_) fun q a ha => .inr (hp a ha)) fun v => ?_
    · rw [(hE _).1] at ha
      cases ha
    split
    · rename_i x y
      refine ite ub (ih _ _ fun a ha => ?_)
      obtain ⟨q, hq, ha⟩ := Val.mem_refsKV.1 ha
      have : a ∈ x.refs ∨ a ∈ y.refs ∨ q ∈ acc := by
        cases multi with
        | true =>
          rcases mapInsertMulti_mem _ _ _ _ _ hq with rfl | h
          · exact ha.elim .inl fun h => .inr (.inl h)
          · exact .inr (.inr h)
        | false =>
          rcases mapEmplace_mem _ _ _ _ _ hq with rfl | h
          · exact ha.elim .inl fun h => .inr (.inl h)
          · exact .inr (.inr h)
      rcases this with h | h | h
      · refine .inr ?_
        simp [Refs, Val.refs, Val.refsL, h]
      · refine .inr ?_
        simp [Refs, Val.refs, Val.refsL, h]
      · exact .inl (hp a (Val.mem_refsKV.2 ⟨q, h, ha⟩))
    · exact stuck

omit hE in
theorem shared (id : Nat) (t : Ty) (p v : Val) (hv : v.refs = []) (P : Nat → Prop) : Prov old base P (do
    let addr ← holdingR p (allocShared id t v)
    let v ← withinShared addr (self 0 t v)
    holdingR p (storeShared addr v)
    Pure.pure (.ref addr) : XR Val) Refs RefsX := by
  intro s hst
  have hlen := hst.len
  let s1 : RSt := { s with table := (id, t, s.heap.length) :: s.table, heap := s.heap ++ [v] }
  have hl1 : s1.heap.length = s.heap.length + 1 := by simp [s1]
  have hst1 : OwnSt old base s1 := by
    refine ⟨by omega, ?_, ?_⟩
    · intro e he
      rcases List.mem_cons.1 he with rfl | he
      · exact .inr ⟨hlen, by rw [hl1]; exact Nat.lt_succ_self _⟩
      · exact (hst.table e he).mono (by omega)
    · intro i x hi hx a ha
      by_cases hi2 : i < s.heap.length
      · refine (hst.heap i x hi ?_ a ha).mono (by omega)
        rw [← hx]
        exact (List.getElem?_append_left hi2).symm
      · have hx' : (s.heap ++ [v])[i]? = some x := hx
        rw [List.getElem?_append_right (by omega)] at hx'
        have : x ∈ [v] := List.mem_of_getElem? hx'
        rw [List.mem_singleton] at this
        subst this
        rw [hv] at ha
        cases ha
  have hk := hs 0 t v (fun _ => False) (fun a ha => by rw [hv] at ha; cases ha) s1 hst1
  have hset : ∀ (s2 : RSt) (x : Val), OwnSt old base s2 → s1.heap.length ≤ s2.heap.length → (∀ a ∈ x.refs, OwnAddr old base s2 a) →
      OwnSt old base { s2 with heap := s2.heap.set s.heap.length x } ∧
      s.heap.length ≤ ({ s2 with heap := s2.heap.set s.heap.length x } : RSt).heap.length ∧
      OwnAddr old base { s2 with heap := s2.heap.set s.heap.length x } s.heap.length := by
    intro s2 x h2 hl hx
    have hl2 : ({ s2 with heap := s2.heap.set s.heap.length x } : RSt).heap.length = s2.heap.length := List.length_set
    refine ⟨⟨by rw [hl2]; exact h2.len, fun e he => (h2.table e he).mono (by rw [hl2]), ?_⟩, by omega, .inr ⟨hlen, by omega⟩⟩
    intro i y hi hy a ha
    have hy : (s2.heap.set s.heap.length x)[i]? = some y := hy
    rw [List.getElem?_set] at hy
    split at hy
    · split at hy
      · cases hy
        exact (hx a ha).mono (by rw [hl2])
      · cases hy
    · exact (h2.heap i y hi hy a ha).mono (by rw [hl2])
  refine ⟨fun a s' h => ?_, fun e s' h => ?_⟩
  · obtain ⟨a1, s1', h1, h2⟩ := M.bind_eq_ok.1 h
    cases h1
    obtain ⟨v1, s2, h3, h4⟩ := M.bind_eq_ok.1 h2
    obtain ⟨u, s3, h5, h6⟩ := M.bind_eq_ok.1 h4
    cases h5
    cases h6
    have h7 : self 0 t v s1 = .ok v1 s2 := by
      unfold withinShared at h3
      cases hm : self 0 t v s1 <;> (have hm' := hm; simp only [s1] at hm'; rw [hm'] at h3; cases h3)
      rfl
    obtain ⟨k1, k2, k3⟩ := hk.1 _ _ h7
    obtain ⟨q1, q2, q3⟩ := hset s2 v1 k1 k2 fun a ha => (k3 a ha).resolve_left fun h => h
    refine ⟨q1, q2, fun a ha => ?_⟩
    simp only [Refs, Val.refs, List.mem_singleton] at ha
    subst ha
    exact .inr q3
  · rcases M.bind_eq_exc.1 h with h | ⟨a, s1', h1, h2⟩
    · cases h
    · cases h1
      rcases M.bind_eq_exc.1 h2 with h2 | ⟨a, s2, h3, h4⟩
      · obtain ⟨e, q⟩ := e
        obtain ⟨q0, s0, h5, rfl, rfl⟩ := withinShared_exc h2
        obtain ⟨k1, k2, k3⟩ := hk.2 _ _ h5
        obtain ⟨q1, q2, q3⟩ := hset s0 q0 k1 k2 fun a ha => (k3 a ha).resolve_left fun h => h
        refine ⟨q1, q2, fun a ha => ?_⟩
        simp only [RefsX, Val.refs, List.mem_singleton] at ha
        subst ha
        exact .inr q3
      · rcases M.bind_eq_exc.1 h4 with h4 | ⟨a, s2, h3, h4⟩
        · cases h4
        · cases h4

omit hs hE in
theorem lookup (id : Nat) (t : Ty) (p : Val) (P : Nat → Prop) (hp : ∀ a ∈ p.refs, P a) :
    Prov old base P (holdingR p (lookupShared id t)) (fun a b => b = a) RefsX := by
  intro s hst
  refine ⟨fun a s' h => ?_, fun e s' h => ?_⟩
  · have h := holdingR_ok.1 h
    unfold lookupShared at h
    cases hl : s.table.lookup id with
    | none => rw [hl] at h; cases h
    | some q =>
      rw [hl] at h
      dsimp only at h
      split at h <;> cases h
      refine ⟨hst, Nat.le_refl _, fun b hb => ?_⟩
      subst hb
      have := hst.table (id, q) (List.lookup_eq_some_iff.1 hl |> fun ⟨l1, l2, h1, _⟩ => by rw [h1]; simp)
      exact .inr this
  · obtain ⟨e, q'⟩ := e
    obtain ⟨rfl, h2⟩ := holdingR_exc h
    unfold lookupShared at h2
    have : s' = s := by
      cases hl : s.table.lookup id with
      | none => rw [hl] at h2; cases h2; rfl
      | some q => rw [hl] at h2; dsimp only at h2; split at h2 <;> cases h2; rfl
    subst this
    exact ⟨hst, Nat.le_refl _, fun a ha => .inl (hp a ha)⟩

theorem step (w : Nat) (t : Ty) (p : Val) (P : Nat → Prop) (hp : ∀ a ∈ p.refs, P a) : Prov old base P (readXStep E self w t p) Refs RefsX := by
  have hi : ∀ t (Q : Nat → Prop), ∀ a ∈ (E.valInit t).refs, Q a := by
    intro t Q a ha
    rw [(hE t).1] at ha
    cases ha
  cases t with
  | enum u => exact within (hs _ _ _ _ fun a ha => (by cases ha)) fun q a ha => .inr (hp a ha)
  | pair ta tb =>
    simp only [readXStep]
    split
    · rename_i x y
      simp only [Val.refs, Val.refsL, List.mem_append, List.not_mem_nil, or_false] at hp
      refine bind (R := Refs) (within (hs _ _ _ _ fun a ha => hp a (.inl ha)) fun q a ha => ?_) fun x' =>
        bind (R := Refs) (within (hs _ _ _ _ fun a ha => .inl (hp a (.inr ha))) fun q a ha => ?_) fun y' => pure _ fun a ha => ?_
      · simp only [Val.refs, Val.refsL, List.mem_append, List.not_mem_nil, or_false] at ha
        exact ha.imp_right fun h => hp a (.inr h)
      · simp only [Val.refs, Val.refsL, List.mem_append, List.not_mem_nil, or_false] at ha
        exact ha.symm.imp_right fun h => .inr h
      · simp only [Refs, Val.refs, Val.refsL, List.mem_append, List.not_mem_nil, or_false] at ha
        exact ha.elim (fun h => .inl (.inr h)) .inr
    · exact stuck
  | uptr t =>
    exact bind (hold _ quiet_bool hp) fun b => ite (bind (R := Refs) (within (hs _ _ _ _ (hi _ _)) fun q a ha => .inl ha) fun v =>
      pure _ fun a ha => .inr ha) (pure _ fun a ha => (by cases ha))
  | opt t =>
    exact bind (hold _ quiet_bool hp) fun b => ite (bind (R := Refs) (within (hs _ _ _ _ (hi _ _)) fun q a ha => .inl ha) fun v =>
      pure _ fun a ha => .inr ha) (pure _ fun a ha => (by cases ha))
  | sptr t =>
    refine bind (hold _ quiet_byte hp) fun mode => ite (pure _ fun a ha => (by cases ha))
      (bind (hold _ (quiet_ite (quiet_bind (quiet_take _) fun _ => quiet_pure _) quiet_varint) fun a ha => .inl (hp a ha)) fun id =>
        ite (shared hs _ _ _ _ (hE t).1 _) ?_)
    refine bind (lookup _ _ _ _ fun a ha => .inl (.inl (hp a ha))) fun b => pure _ fun a ha => ?_
    simp only [Refs, Val.refs, List.mem_singleton] at ha
    exact .inr ha
  | vec t =>
    cases p with
    | list vs =>
      refine bind (hold _ quiet_varint hp) fun k => ite (throw _ _ fun a ha => .inl (hp a ha))
        (bind (elems hs _ _ _ _ (fun a ha => (by cases ha)) fun a ha => ?_) fun vs => pure _ fun a ha => .inr ha)
      obtain ⟨x, hx, ha⟩ := Val.mem_refsL.1 ha
      unfold resize at hx
      rcases List.mem_append.1 hx with hx | hx
      · exact .inl (hp a (Val.mem_refsL.2 ⟨x, List.mem_of_mem_take hx, ha⟩))
      · rw [(List.mem_replicate.1 hx).2] at ha
        exact hi _ (fun _ => _) a ha
    | _ => exact stuck
  | set h m t =>
    cases p with
    | list vs =>
      exact bind (hold _ quiet_varint hp) fun k => bind (setItems hE hs _ _ _ _ _ fun a ha => .inl (hp a ha)) fun vs => pure _ fun a ha => .inr ha
    | _ => exact stuck
  | map h m k t =>
    cases p with
    | map vs =>
      exact bind (hold _ quiet_varint hp) fun k => bind (mapItems hE hs _ _ _ _ _ _ fun a ha => .inl (hp a ha)) fun vs => pure _ fun a ha => .inr ha
    | _ => exact stuck
  | variant ts =>
    refine bind (hold _ quiet_byte hp) fun i => ?_
    cases hti : ts[i]? with
    | none => exact throw _ _ fun a ha => .inl (hp a ha)
    | some t =>
      have : ∀ P : Nat → Prop, Prov old base P (do let v ← withinR (.alt i) (self 0 t (E.valInit t)); Pure.pure (Val.alt i v) : XR Val) Refs RefsX :=
        fun P => bind (R := Refs) (within (hs _ _ _ _ (hi _ _)) fun q a ha => .inl ha) fun v => pure _ fun a ha => .inr ha
      cases t <;> first | exact this _ | exact pure _ fun a ha => (by cases ha)
  | cls c =>
    simp only [readXStep]
    cases hc : E.cls c with
    | none => exact stuck
    | some ci => exact bind (Prov.cls hs _ _ _ _ hp) fun r => pure _ fun a ha => .inr ha
  | bool => exact scalar _ _ quiet_bool hp fun _ => rfl
  | int it =>
    refine holding _ (quiet_ite quiet_stuck (quiet_bind (quiet_int _) fun _ => quiet_pure _)) hp fun s r s' h a ha => ?_
    have h : (if it = .i8 then M.stuck else do let i ← readInt it; Pure.pure (.int i) : RM Val) s = .ok r s' := h
    by_cases hit : it = .i8
    · rw [if_pos hit] at h
      cases h
    · rw [if_neg hit] at h
      obtain ⟨r0, s1, e1, e2⟩ := M.bind_eq_ok.1 h
      cases e2
      cases ha
  | f32 => exact scalar _ _ (quiet_take _) hp fun _ => rfl
  | f64 => exact scalar _ _ (quiet_take _) hp fun _ => rfl
  | str =>
    refine holding _ (quiet_bind quiet_varint fun _ => quiet_ite (quiet_throw _) (quiet_bind (quiet_take _) fun _ => quiet_pure _)) hp
      fun s r s' h a ha => ?_
    obtain ⟨k, s1, e1, h⟩ := M.bind_eq_ok.1 h
    split at h
    · cases h
    · obtain ⟨r0, s1, e1, e2⟩ := M.bind_eq_ok.1 h
      cases e2
      cases ha
  | dateTime => exact scalar _ _ (quiet_int _) hp fun _ => rfl
  | timeSpan => exact scalar _ _ (quiet_int _) hp fun _ => rfl
  | cstr | sview | tuple | mono => exact holding p quiet_stuck hp fun s r s' h => (by cases h)

end Prov

mutual
theorem valInit_refs {E : Env} (hE : NoSharedByDefault E) : ∀ t, (E.valInit t).refs = []
  | .bool | .int _ | .f32 | .f64 | .enum _ | .str | .cstr | .sview | .opt _ | .uptr _ | .sptr _ | .vec _ | .set _ _ _ | .map _ _ _ _ | .mono
  | .dateTime | .timeSpan => by simp [Env.valInit, Val.refs, Val.refsL, Val.refsKV]
  | .pair a b => by simp [Env.valInit, Val.refs, Val.refsL, valInit_refs hE a, valInit_refs hE b]
  | .tuple ts => by simp [Env.valInit, Val.refs, valInitL_refs hE ts]
  | .variant ts => by simp [Env.valInit, Val.refs, valInitHead_refs hE ts]
  | .cls c => by
    simp only [Env.valInit]
    cases hc : E.cls c with
    | none => simp [Val.refs]
    | some ci => simp [Val.refs, (hE c ci hc).1]
theorem valInitL_refs {E : Env} (hE : NoSharedByDefault E) : ∀ ts, Val.refsL (E.valInitL ts) = []
  | [] => by simp [Env.valInitL, Val.refsL]
  | t :: ts => by simp [Env.valInitL, Val.refsL, valInit_refs hE t, valInitL_refs hE ts]
theorem valInitHead_refs {E : Env} (hE : NoSharedByDefault E) : ∀ ts, (E.valInitHead ts).refs = []
  | [] => by simp [Env.valInitHead, Val.refs]
  | t :: ts => by simp [Env.valInitHead, valInit_refs hE t]
end

theorem defInit_refs {E : Env} (hE : NoSharedByDefault E) (t : Ty) : (E.defInit t).refs = [] := by
  have h := valInit_refs hE t
  cases t <;> simp only [Env.defInit] <;> first | exact h | rfl | skip
  rename_i c
  cases hc : E.cls c with
  | none => simp [Val.refs]
  | some ci => simp [Val.refs, (hE c ci hc).2]

theorem readX_prov (old : Nat → Prop) (base : Nat) (E : Env) (hE : ∀ t, (E.valInit t).refs = [] ∧ (E.defInit t).refs = []) (n w : Nat) (t : Ty) (p : Val)
    (P : Nat → Prop) (hp : ∀ a ∈ p.refs, P a) : Prov old base P (readX E n w t p) Refs RefsX := by
  induction n generalizing w t p P with
  | zero => exact fun s _ => ⟨fun b s' h => (by cases h), fun e s' h => (by cases h)⟩
  | succ n ih => exact Prov.step hE ih w t p P hp

end Verif
