import Verif.Lemmas.BinRel
import Verif.Props.BinaryFraming
import Verif.Spec.BinTypes

/-!
# Termination of reading
-/

namespace Verif

/-- the computation finishes if the recursion budget is large enough -/
def Conv {ε σ α : Type} (F : Nat → M ε σ α) (s : σ) : Prop := ∃ n, ∀ m, n ≤ m → F m s ≠ .fuel

/-- a larger budget does not change the outcome -/
def Mono {ε σ α : Type} (F : Nat → M ε σ α) : Prop := ∀ n m, n ≤ m → Le α (F n) (F m)

section
variable {ε σ α β : Type}

theorem Mono.stable {F : Nat → M ε σ α} (hF : Mono F) {n m : Nat} {s : σ} (h : F n s ≠ .fuel) (hnm : n ≤ m) : F m s = F n s := by
  rcases hF n m hnm s with h' | h'
  · exact absurd h' h
  · exact h'.symm

theorem Conv.bind {F : Nat → M ε σ α} {G : Nat → α → M ε σ β} (hF : Mono F) {s : σ}
    (h1 : Conv F s) (h2 : ∀ n a s', F n s = .ok a s' → Conv (fun n => G n a) s') : Conv (fun n => F n >>= fun a => G n a) s := by
  obtain ⟨n, hn⟩ := h1
  cases hr : F n s with
  | ok a s' =>
    obtain ⟨m, hm⟩ := h2 n a s' hr
    refine ⟨max n m, fun k hk => ?_⟩
    have e : F k s = .ok a s' := by rw [hF.stable (hn n (Nat.le_refl _)) (by omega), hr]
    have e2 : (F k >>= fun a => G k a) s = G k a s' := M.bind_ok e
    intro hf
    exact hm k (by omega) (e2.symm.trans hf)
  | exc e s' =>
    refine ⟨n, fun k hk hf => ?_⟩
    have e1 : F k s = .exc e s' := by rw [hF.stable (hn n (Nat.le_refl _)) hk, hr]
    have e2 : (F k >>= fun a => G k a) s = .exc e s' := M.bind_exc e1
    cases e2.symm.trans hf
  | ub =>
    refine ⟨n, fun k hk hf => ?_⟩
    have e1 : F k s = .ub := by rw [hF.stable (hn n (Nat.le_refl _)) hk, hr]
    have e2 : (F k >>= fun a => G k a) s = .ub := M.bind_ub e1
    cases e2.symm.trans hf
  | stuck =>
    refine ⟨n, fun k hk hf => ?_⟩
    have e1 : F k s = .stuck := by rw [hF.stable (hn n (Nat.le_refl _)) hk, hr]
    have e2 : (F k >>= fun a => G k a) s = .stuck := M.bind_stuck e1
    cases e2.symm.trans hf
  | fuel => exact absurd hr (hn n (Nat.le_refl _))

theorem Conv.const {m : M ε σ α} {s : σ} (h : m s ≠ .fuel) : Conv (fun _ => m) s := ⟨0, fun _ _ => h⟩
theorem Conv.pure {a : α} {s : σ} : Conv (fun _ => (Pure.pure a : M ε σ α)) s := Conv.const (by simp)
theorem Mono.const (m : M ε σ α) : Mono (fun _ => m) := fun _ _ _ _ => Or.inr rfl
theorem Conv.map {F : Nat → M ε σ α} (hF : Mono F) {s : σ} (h : Conv F s) (g : α → β) :
    Conv (fun n => F n >>= fun a => (Pure.pure (g a) : M ε σ β)) s :=
  h.bind (G := fun _ a => Pure.pure (g a)) hF fun _ _ _ _ => Conv.pure

/-- sequencing after something which does not depend on the budget -/
theorem Conv.bindConst {m : M ε σ α} {G : Nat → α → M ε σ β} {s : σ} (h : m s ≠ .fuel)
    (h2 : ∀ a s', m s = .ok a s' → Conv (fun n => G n a) s') : Conv (fun n => m >>= fun a => G n a) s :=
  Conv.bind (F := fun _ => m) (Mono.const m) (Conv.const h) fun _ a s' => h2 a s'

end

theorem read_monoF (E : Env) (w : Nat) (t : Ty) (p : Val) : Mono (fun n => read E n w t p) := fun _ _ h => read_le E h w t p

section
variable (E : Env)

theorem readElems_monoF (t : Ty) (ps : List Val) : Mono (fun n => readElems (read E n) t ps) :=
  fun _ _ h => rel2_le.readElems (fun w t v => read_le E h w t v) t ps
theorem readSetItems_monoF (multi : Bool) (t : Ty) (k : Nat) (acc : List Val) :
    Mono (fun n => readSetItems E (read E n) multi t k acc) :=
  fun _ _ h => rel2_le.readSetItems (fun w t v => read_le E h w t v) multi t k acc
theorem readMapItems_monoF (multi : Bool) (kt t : Ty) (k : Nat) (acc : List (Val × Val)) :
    Mono (fun n => readMapItems E (read E n) multi kt t k acc) :=
  fun _ _ h => rel2_le.readMapItems (fun w t v => read_le E h w t v) multi kt t k acc
theorem readBases_monoF (w : Nat) (bs : List ClassId) (p : Val) : Mono (fun n => readBases (read E n) w bs p) :=
  fun _ _ h => rel2_le.readBases (fun w t v => read_le E h w t v) w bs p
theorem readFields_monoF (w : Nat) (fs : List (Guard × Field)) (p : Store) : Mono (fun n => readFields (read E n) w fs p) :=
  fun _ _ h => rel2_le.readFields (fun w t v => read_le E h w t v) w fs p
theorem readClass_monoF (ci : ClassInfo) (w : Nat) (p : Val) : Mono (fun n => readClass (read E n) ci w p) :=
  fun _ _ h => rel2_le.readClass (fun w t v => read_le E h w t v) ci w p

end

theorem Framed.le {α : Type} {m : RM α} (h : Framed α m) {s s' : RSt} {a : α} (he : m s = .ok a s') : s'.inp.length ≤ s.inp.length := by
  obtain ⟨used, h1, -⟩ := h s a s' he
  rw [h1]
  simp

theorem takeBytes_lt {k : Nat} {s s' : RSt} {a : Str} (h : takeBytes k s = .ok a s') : s'.inp.length + k = s.inp.length := by
  unfold takeBytes at h
  split at h
  · cases h
    simp
    omega
  · cases h

theorem readByte_lt {s s' : RSt} {a : Nat} (h : readByte s = .ok a s') : s'.inp.length < s.inp.length := by
  unfold readByte at h
  rw [M.bind_eq_ok] at h
  obtain ⟨b, s1, h1, h2⟩ := h
  cases h2
  have := takeBytes_lt h1
  omega

theorem readBool_lt {s s' : RSt} {a : Bool} (h : readBool s = .ok a s') : s'.inp.length < s.inp.length := by
  unfold readBool at h
  rw [M.bind_eq_ok] at h
  obtain ⟨b, s1, h1, h2⟩ := h
  cases h2
  exact readByte_lt h1

theorem readVarint_lt {s s' : RSt} {a : Nat} (h : readVarint s = .ok a s') : s'.inp.length < s.inp.length := by
  unfold readVarint at h
  rw [M.bind_eq_ok] at h
  obtain ⟨b, s1, h1, h2⟩ := h
  have : s1 = s := by
    unfold peekByte at h1
    split at h1 <;> cases h1
    rfl
  subst this
  split at h2
  · cases h2
  · rw [M.bind_eq_ok] at h2
    obtain ⟨c, s2, h2, h3⟩ := h2
    cases h3
    have := takeBytes_lt h2
    have := prefixLen_pos b
    omega

section
variable {E : Env} {L : Nat}

theorem conv_elems {t : Ty} (hc : ∀ p s, s.inp.length ≤ L → Conv (fun n => read E n 0 t p) s) (ps : List Val) (s : RSt)
    (hs : s.inp.length ≤ L) : Conv (fun n => readElems (read E n) t ps) s := by
  induction ps generalizing s with
  | nil => exact Conv.pure
  | cons p ps ih =>
    refine Conv.bind (G := fun n v => readElems (read E n) t ps >>= fun vs => Pure.pure (v :: vs)) (read_monoF E 0 t p) (hc p s hs)
      fun n a s' h => ?_
    exact Conv.map (readElems_monoF E t ps) (ih s' ((framed_closed.read E n 0 t p).le h |>.trans hs)) _

theorem conv_setItems {t : Ty} (hc : ∀ p s, s.inp.length ≤ L → Conv (fun n => read E n 0 t p) s) (multi : Bool) (k : Nat)
    (acc : List Val) (s : RSt) (hs : s.inp.length ≤ L) : Conv (fun n => readSetItems E (read E n) multi t k acc) s := by
  induction k generalizing s acc with
  | zero => exact Conv.pure
  | succ k ih =>
    refine Conv.bind (G := fun n v => if v.hasIndet then M.ub else readSetItems E (read E n) multi t k
      (if multi then insertMulti (E.lt t) v acc else (insertUniq (E.lt t) v acc).1)) (read_monoF E 0 t _) (hc _ s hs) fun n a s' h => ?_
    split
    · exact Conv.const (by simp)
    · exact ih _ s' ((framed_closed.read E n 0 t _).le h |>.trans hs)

theorem conv_mapItems {kt t : Ty} (hc : ∀ p s, s.inp.length ≤ L → Conv (fun n => read E n 0 (.pair kt t) p) s) (multi : Bool) (k : Nat)
    (acc : List (Val × Val)) (s : RSt) (hs : s.inp.length ≤ L) : Conv (fun n => readMapItems E (read E n) multi kt t k acc) s := by
  induction k generalizing s acc with
  | zero => exact Conv.pure
  | succ k ih =>
    refine Conv.bind (G := fun n v => match v with
        | .tup [a, b] =>
          if a.hasIndet || b.hasIndet then M.ub
          else readMapItems E (read E n) multi kt t k (if multi then mapInsertMulti (E.lt kt) a b acc else mapEmplace (E.lt kt) a b acc)
        | _ => M.stuck) (read_monoF E 0 (.pair kt t) _) (hc _ s hs) fun n a s' h => ?_
    split
    · split
      · exact Conv.const (by simp)
      · exact ih _ s' ((framed_closed.read E n 0 _ _).le h |>.trans hs)
    · exact Conv.const (by simp)

theorem conv_bases {w : Nat} (bs : List ClassId) (hc : ∀ b ∈ bs, ∀ p s, s.inp.length ≤ L → Conv (fun n => read E n w (.cls b) p) s)
    (p : Val) (s : RSt) (hs : s.inp.length ≤ L) : Conv (fun n => readBases (read E n) w bs p) s := by
  induction bs generalizing s p with
  | nil => exact Conv.pure
  | cons b bs ih =>
    refine Conv.bind (G := fun n v => readBases (read E n) w bs v) (read_monoF E w (.cls b) p) (hc b List.mem_cons_self p s hs) fun n a s' h => ?_
    exact ih (fun b hb => hc b (List.mem_cons_of_mem _ hb)) a s' ((framed_closed.read E n _ _ _).le h |>.trans hs)

theorem conv_fields {w : Nat} (fs : List (Guard × Field)) (hc : ∀ f ∈ fs, ∀ p s, s.inp.length ≤ L → Conv (fun n => read E n w f.2.ty p) s)
    (st : Store) (s : RSt) (hs : s.inp.length ≤ L) : Conv (fun n => readFields (read E n) w fs st) s := by
  induction fs generalizing s st with
  | nil => exact Conv.pure
  | cons gf fs ih =>
    obtain ⟨g, f⟩ := gf
    have ih' := ih fun f hf => hc f (List.mem_cons_of_mem _ hf)
    simp only [readFields]
    split
    · split
      · exact Conv.const (by simp)
      · rename_i p _
        refine Conv.bind (G := fun n v => readFields (read E n) w fs (st.set f.key v)) (read_monoF E w f.ty p)
          (hc (g, f) List.mem_cons_self p s hs) fun n a s' h => ?_
        exact ih' _ s' ((framed_closed.read E n _ _ _).le h |>.trans hs)
    · exact ih' _ s hs

theorem conv_class {ci : ClassInfo} {w : Nat}
    (hb : ∀ w, ∀ b ∈ ci.bin.bases, ∀ p s, s.inp.length ≤ L → Conv (fun n => read E n w (.cls b) p) s)
    (hf : ∀ w, ∀ f ∈ ci.bin.readFields, ∀ p s, s.inp.length ≤ L → Conv (fun n => read E n w f.2.ty p) s)
    (p : Val) (s : RSt) (hs : s.inp.length ≤ L) : Conv (fun n => readClass (read E n) ci w p) s := by
  unfold readClass
  split
  · exact Conv.const (by simp)
  · refine Conv.bind (F := fun n => readBases (read E n) w ci.bin.bases p) (G := fun n v => match v with
      | Val.obj st => do
        let version ← readVersion ci w
        let st ← readFields (read E n) version ci.bin.readFields st
        pure (Val.obj st, version)
      | _ => M.stuck) (readBases_monoF E _ _ _) (conv_bases _ (hb w) p s hs) fun n a s' h => ?_
    have hs' := (framed_closed.bases (fun w t v => framed_closed.read E n w t v) _ _ _).le h |>.trans hs
    split
    · rename_i st
      refine Conv.bindConst (G := fun n version => do
        let st ← readFields (read E n) version ci.bin.readFields st
        pure (Val.obj st, version)) (readVersion_nf _ _ _) fun v s'' h' => ?_
      refine Conv.map (readFields_monoF E _ _ _) (conv_fields _ (hf v) _ s'' ?_) _
      exact (framed_closed.version ci w).le h' |>.trans hs'
    · exact Conv.const (by simp)

/-- all types, if every shorter input is handled and the classes contained by value are handled -/
theorem conv_step {w : Nat} {t : Ty} {p : Val} {s : RSt} (hs : s.inp.length ≤ L)
    (hlt : ∀ s', s'.inp.length < L → ∀ w t p, Conv (fun n => read E n w t p) s')
    (hpair : ∀ a b, t = .pair a b → ∀ s, s.inp.length ≤ L → ∀ w p, Conv (fun n => read E n w a p) s ∧ Conv (fun n => read E n w b p) s)
    (hcls : ∀ c ci, t = .cls c → E.cls c = some ci → Conv (fun n => readClass (read E n) ci w p) s) :
    Conv (fun n => readStep E (read E n) w t p) s := by
  have hlt' : ∀ s', s'.inp.length < s.inp.length → ∀ w t p, Conv (fun n => read E n w t p) s' := fun s' h => hlt s' (by omega)
  unfold readStep
  split
  · exact Conv.const (bind_nf readBool_nf (fun _ _ => by simp) s)
  · split
    · exact Conv.const (by simp)
    · exact Conv.const (bind_nf (readInt_nf _) (fun _ _ => by simp) s)
  · exact Conv.const (bind_nf (takeBytes_nf _) (fun _ _ => by simp) s)
  · exact Conv.const (bind_nf (takeBytes_nf _) (fun _ _ => by simp) s)
  · refine Conv.const (bind_nf readVarint_nf (fun k s => ?_) s)
    split
    · simp
    · exact bind_nf (takeBytes_nf _) (fun _ _ => by simp) s
  · -- enum
    rename_i u
    refine ⟨1, fun m hm => ?_⟩
    obtain ⟨m, rfl⟩ := Nat.exists_eq_add_of_le' hm
    simp only [read, readStep]
    split
    · simp
    · exact bind_nf (readInt_nf _) (fun _ _ => by simp) s
  · rename_i a b
    split
    · rename_i x y
      refine Conv.bind (F := fun n => read E n 0 a x) (G := fun n x => do
        let y ← read E n 0 b y
        pure (Val.tup [x, y])) (read_monoF E _ _ _)
        (hpair a b rfl s hs 0 x).1 fun n v s' h => ?_
      exact Conv.map (read_monoF E _ _ _) (hpair a b rfl s' ((framed_closed.read E n _ _ _).le h |>.trans hs) 0 y).2 _
    · exact Conv.const (by simp)
  · rename_i t'
    refine Conv.bindConst (G := fun n b => if b then do
        let v ← read E n 0 t' (E.valInit t')
        pure (Val.ptr v)
      else pure Val.null) (readBool_nf s) fun b s' h => ?_
    split
    · exact Conv.map (read_monoF E _ _ _) (hlt' s' (readBool_lt h) _ _ _) _
    · exact Conv.const (by simp)
  · rename_i t'
    refine Conv.bindConst (G := fun n b => if b then do
        let v ← read E n 0 t' (E.valInit t')
        pure (Val.some v)
      else pure Val.null) (readBool_nf s) fun b s' h => ?_
    split
    · exact Conv.map (read_monoF E _ _ _) (hlt' s' (readBool_lt h) _ _ _) _
    · exact Conv.const (by simp)
  · rename_i t'
    refine Conv.bindConst (G := fun n mode => if mode = 0 then pure Val.null else do
      let id ← (if mode &&& 4 ≠ 0 then (do let bs ← takeBytes 8; pure (ofBE bs)) else readVarint)
      if mode &&& 3 = 1 then do
        let addr ← allocShared id t' (E.valInit t')
        let v ← read E n 0 t' (E.valInit t')
        storeShared addr v
        pure (Val.ref addr)
      else do
        let addr ← lookupShared id t'
        pure (Val.ref addr)) (readByte_nf s) fun mode s1 h1 => ?_
    split
    · exact Conv.const (by simp)
    · refine Conv.bindConst (G := fun n id => if mode &&& 3 = 1 then do
        let addr ← allocShared id t' (E.valInit t')
        let v ← read E n 0 t' (E.valInit t')
        storeShared addr v
        pure (Val.ref addr)
      else do
        let addr ← lookupShared id t'
        pure (Val.ref addr)) (readId_nf _ s1) fun id s2 h2 => ?_
      have hle : s2.inp.length ≤ s1.inp.length := (framed_closed.ident _).le h2
      have := readByte_lt h1
      split
      · refine Conv.bindConst (G := fun n addr => do
          let v ← read E n 0 t' (E.valInit t')
          storeShared addr v
          pure (Val.ref addr)) (by simp [allocShared]) fun addr s3 h3 => ?_
        have : s3.inp.length = s2.inp.length := by cases h3; rfl
        refine Conv.bind (G := fun _ v => storeShared addr v >>= fun _ => pure (Val.ref addr)) (read_monoF E _ _ _)
          (hlt' s3 (by omega) _ _ _) fun n v s4 h4 => ?_
        exact Conv.const (by simp [storeShared, M.bind_apply])
      · refine Conv.const (bind_nf (lookupShared_nf _ _) (fun _ _ => by simp) s2)
  · rename_i t'
    split
    · rename_i vs
      refine Conv.bindConst (G := fun n k => if k > E.maxLen then M.throw BExc.badAlloc else do
        let vs ← readElems (read E n) t' (resize vs k (E.valInit t'))
        pure (Val.list vs)) (readVarint_nf s) fun b s' h => ?_
      split
      · exact Conv.const (by simp)
      · have := readVarint_lt h
        exact Conv.map (readElems_monoF E _ _) (conv_elems (fun p s'' h' => hlt' s'' (by omega) _ _ _) _ s' (Nat.le_refl _)) _
    · exact Conv.const (by simp)
  · rename_i multi t'
    split
    · rename_i vs
      refine Conv.bindConst (G := fun n k => do
        let vs ← readSetItems E (read E n) multi t' k vs
        pure (Val.list vs)) (readVarint_nf s) fun b s' h => ?_
      have := readVarint_lt h
      exact Conv.map (readSetItems_monoF E _ _ _ _) (conv_setItems (fun p s'' h' => hlt' s'' (by omega) _ _ _) _ _ _ s' (Nat.le_refl _)) _
    · exact Conv.const (by simp)
  · rename_i multi k t'
    split
    · rename_i kvs
      refine Conv.bindConst (G := fun n m => do
        let vs ← readMapItems E (read E n) multi k t' m kvs
        pure (Val.map vs)) (readVarint_nf s) fun b s' h => ?_
      have := readVarint_lt h
      exact Conv.map (readMapItems_monoF E _ _ _ _ _) (conv_mapItems (fun p s'' h' => hlt' s'' (by omega) _ _ _) _ _ _ s' (Nat.le_refl _)) _
    · exact Conv.const (by simp)
  · rename_i ts
    refine Conv.bindConst (G := fun n i => match ts[i]? with
      | none => M.throw BExc.conv
      | some Ty.mono => pure (Val.alt i Val.mono)
      | some t' => do
        let v ← read E n 0 t' (E.valInit t')
        pure (Val.alt i v)) (readByte_nf s) fun b s' h => ?_
    split
    · exact Conv.const (by simp)
    · exact Conv.const (by simp)
    · exact Conv.map (read_monoF E _ _ _) (hlt' s' (readByte_lt h) _ _ _) _
  · rename_i c
    split
    · exact Conv.const (by simp)
    · rename_i ci hci
      exact Conv.map (readClass_monoF E _ _ _) (hcls c ci rfl hci) _
  · exact Conv.const (bind_nf (readInt_nf _) (fun _ _ => by simp) s)
  · exact Conv.const (bind_nf (readInt_nf _) (fun _ _ => by simp) s)
  · exact Conv.const (by simp)

end

/-- Reading always terminates: with a large enough recursion budget the outcome is a value, an exception, ... -/
theorem read_conv {E : Env} {rk : ClassId → Nat} (hrk : BinRanked E rk) (w : Nat) (t : Ty) (p : Val) (s : RSt) :
    Conv (fun n => read E n w t p) s := by
  suffices h : ∀ (L r k : Nat) (s : RSt), s.inp.length ≤ L → ∀ w t p, (∀ d ∈ t.direct, rk d < r) → sizeOf t ≤ k →
      Conv (fun n => read E n w t p) s by
    have : ∃ r, ∀ d ∈ t.direct, rk d < r := by
      refine ⟨((t.direct.map rk).foldr max 0) + 1, fun d hd => ?_⟩
      have : ∀ l : List Nat, ∀ x ∈ l, x ≤ l.foldr max 0 := by
        intro l
        induction l with
        | nil => simp
        | cons y l ih =>
          intro x hx
          rcases List.mem_cons.1 hx with rfl | hx
          · simp
          · have := ih x hx
            simp only [List.foldr_cons]
            omega
      have := this _ _ (List.mem_map_of_mem (f := rk) hd)
      omega
    obtain ⟨r, hr⟩ := this
    exact h _ r _ s (Nat.le_refl _) w t p hr (Nat.le_refl _)
  intro L
  induction L using Nat.strongRecOn with
  | _ L ihL =>
  intro r
  induction r using Nat.strongRecOn with
  | _ r ihr =>
  intro k
  induction k with
  | zero => intro s hs w t p hd hk; cases t <;> simp at hk
  | succ k ihk =>
    intro s hs w t p hd hk
    have hall : ∀ s', s'.inp.length < L → ∀ w t p, Conv (fun n => read E n w t p) s' := by
      intro s' hs' w t p
      have : ∃ r, ∀ d ∈ t.direct, rk d < r := by
        generalize t.direct = l
        induction l with
        | nil => exact ⟨0, by simp⟩
        | cons x l ih =>
          obtain ⟨r, hr⟩ := ih
          refine ⟨max r (rk x + 1), fun d hd => ?_⟩
          rcases List.mem_cons.1 hd with rfl | hd
          · omega
          · have := hr d hd
            omega
      obtain ⟨r, hr⟩ := this
      exact ihL _ hs' r _ s' (Nat.le_refl _) w t p hr (Nat.le_refl _)
    have hstep : Conv (fun n => readStep E (read E n) w t p) s := by
      refine conv_step hs hall ?_ ?_
      · rintro a b rfl s1 hs1 w p
        simp only [Ty.direct, List.mem_append] at hd
        simp only [Ty.pair.sizeOf_spec] at hk
        exact ⟨ihk s1 hs1 w a p (fun d h => hd d (Or.inl h)) (by omega), ihk s1 hs1 w b p (fun d h => hd d (Or.inr h)) (by omega)⟩
      · rintro c ci rfl hci
        have hc : rk c < r := hd c (by simp [Ty.direct])
        obtain ⟨h1, h2⟩ := hrk c ci hci
        refine conv_class (fun w b hb p s hs => ?_) (fun w f hf p s hs => ?_) p s hs
        · exact ihr (rk c) hc _ s hs w _ p (by simpa [Ty.direct] using h1 b hb) (Nat.le_refl _)
        · exact ihr (rk c) hc _ s hs w _ p (h2 f hf) (Nat.le_refl _)
    obtain ⟨n, hn⟩ := hstep
    refine ⟨n + 1, fun m hm => ?_⟩
    obtain ⟨m, rfl⟩ := Nat.exists_eq_add_of_le' (show 1 ≤ m by omega)
    exact hn m (by omega)

end Verif
