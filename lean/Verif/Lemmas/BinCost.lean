import Verif.Lemmas.BinConv
import Verif.Spec.BinCost

/-!
# Recursion depth and memory needed for reading binary data
-/

namespace Verif

/-! ## recursion depth -/

/-- does not run out of budget if at most `L` bytes are left -/
def NFL (L : Nat) {α : Type} (m : RM α) : Prop := ∀ s, s.inp.length ≤ L → m s ≠ .fuel

section
variable {L : Nat} {α β : Type}

theorem NFL.bind {m : RM α} {f : α → RM β} (hm : NFL L m) (hl : Framed α m) (hf : ∀ a, NFL L (f a)) : NFL L (m >>= f) := by
  intro s hs h
  rcases M.bind_eq_fuel.1 h with h | ⟨a, s', h1, h2⟩
  · exact hm s hs h
  · exact hf a s' ((hl.le h1).trans hs) h2

/-- after something which consumes input -/
theorem NFL.bindLt {m : RM α} {f : α → RM β} (hm : ∀ s, m s ≠ .fuel) (hl : ∀ s a s', m s = .ok a s' → s'.inp.length < s.inp.length)
    (hf : ∀ L', L' < L → ∀ a, NFL L' (f a)) : NFL L (m >>= f) := by
  intro s hs h
  rcases M.bind_eq_fuel.1 h with h | ⟨a, s', h1, h2⟩
  · exact hm s h
  · have := hl s a s' h1
    exact hf (L - 1) (by omega) a s' (by omega) h2

theorem NFL.const {m : RM α} (h : ∀ s, m s ≠ .fuel) : NFL L m := fun s _ => h s
theorem NFL.map {m : RM α} (hm : NFL L m) (g : α → β) : NFL L (m >>= fun a => pure (g a)) := by
  intro s hs h
  rcases M.bind_eq_fuel.1 h with h | ⟨a, s', h1, h2⟩
  · exact hm s hs h
  · cases h2

end

section
variable {E : Env} {L : Nat} {self : Nat → Ty → Val → RM Val} (hfr : ∀ w t p, Framed Val (self w t p))
include hfr

theorem nfl_elems {t : Ty} (h : ∀ p, NFL L (self 0 t p)) (ps : List Val) : NFL L (readElems self t ps) := by
  induction ps with
  | nil => exact NFL.const (by simp [readElems])
  | cons p ps ih => exact (h p).bind (hfr _ _ _) fun _ => ih.map _

theorem nfl_setItems {t : Ty} (h : ∀ p, NFL L (self 0 t p)) (multi : Bool) (k : Nat) (acc : List Val) :
    NFL L (readSetItems E self multi t k acc) := by
  induction k generalizing acc with
  | zero => exact NFL.const (by simp [readSetItems])
  | succ k ih =>
    refine (h _).bind (hfr _ _ _) fun v => ?_
    split
    · exact NFL.const (by simp)
    · exact ih _

theorem nfl_mapItems {kt t : Ty} (h : ∀ p, NFL L (self 0 (.pair kt t) p)) (multi : Bool) (k : Nat) (acc : List (Val × Val)) :
    NFL L (readMapItems E self multi kt t k acc) := by
  induction k generalizing acc with
  | zero => exact NFL.const (by simp [readMapItems])
  | succ k ih =>
    refine (h _).bind (hfr _ _ _) fun v => ?_
    split
    · split
      · exact NFL.const (by simp)
      · exact ih _
    · exact NFL.const (by simp)

theorem nfl_bases {w : Nat} (bs : List ClassId) (h : ∀ b ∈ bs, ∀ p, NFL L (self w (.cls b) p)) (p : Val) :
    NFL L (readBases self w bs p) := by
  induction bs generalizing p with
  | nil => exact NFL.const (by simp [readBases])
  | cons b bs ih =>
    exact (h b List.mem_cons_self p).bind (hfr _ _ _) fun _ => ih (fun b hb => h b (List.mem_cons_of_mem _ hb)) _

theorem nfl_fields {w : Nat} (fs : List (Guard × Field)) (h : ∀ gf ∈ fs, ∀ p, NFL L (self w gf.2.ty p)) (st : Store) :
    NFL L (readFields self w fs st) := by
  induction fs generalizing st with
  | nil => exact NFL.const (by simp [readFields])
  | cons gf fs ih =>
    obtain ⟨g, f⟩ := gf
    have ih' := ih fun gf hgf => h gf (List.mem_cons_of_mem _ hgf)
    simp only [readFields]
    split
    · split
      · exact NFL.const (by simp)
      · exact (h (g, f) List.mem_cons_self _).bind (hfr _ _ _) fun _ => ih' _
    · exact ih' _

theorem nfl_class {ci : ClassInfo} {w : Nat} (hb : ∀ b ∈ ci.bin.bases, ∀ p, NFL L (self w (.cls b) p))
    (hf : ∀ w, ∀ gf ∈ ci.bin.readFields, ∀ p, NFL L (self w gf.2.ty p)) (p : Val) : NFL L (readClass self ci w p) := by
  unfold readClass
  split
  · exact NFL.const (by simp)
  · refine (nfl_bases hfr _ hb p).bind (framed_closed.bases (fun w t v => hfr w t v) _ _ _) fun v => ?_
    split
    · refine (NFL.const (readVersion_nf _ _)).bind (framed_closed.version _ _) fun v => ?_
      exact (nfl_fields hfr _ (hf v) _).map _
    · exact NFL.const (by simp)

end

theorem read_depth {E : Env} {S : Ty → Prop} (hS : ClosedTypes E S) {H : ClassId → Nat} (hH : NestingDepth E H) {B : Nat}
    (hB : ∀ t, S t → t.nesting H ≤ B) (n : Nat) : ∀ (L w : Nat) (t : Ty) (p : Val), S t → L * (B + 1) + t.nesting H < n →
      NFL L (read E n w t p) := by
  induction n with
  | zero => intro L w t p _ h; omega
  | succ n ih =>
    intro L w t p ht hn
    have hfr := fun w t p => framed_closed.read E n w t p
    -- parts read after at least one byte
    have hlater : ∀ L', L' < L → ∀ w t', t' ∈ binParts E t → ∀ p, NFL L' (read E n w t' p) := by
      intro L' hL w t' ht' p
      refine ih L' w t' p (hS t ht t' ht') ?_
      have h1 := hB t' (hS t ht t' ht')
      have h2 : (L' + 1) * (B + 1) ≤ L * (B + 1) := Nat.mul_le_mul_right _ hL
      rw [Nat.add_mul, Nat.one_mul] at h2
      omega
    -- parts nested by value
    have hnow : ∀ w t', t' ∈ binParts E t → t'.nesting H < t.nesting H → ∀ p, NFL L (read E n w t' p) := by
      intro w t' ht' h p
      exact ih L w t' p (hS t ht t' ht') (by omega)
    show NFL L (readStep E (read E n) w t p)
    unfold readStep
    split
    · exact NFL.const (bind_nf readBool_nf fun _ _ => by simp)
    · split
      · exact NFL.const (by simp)
      · exact NFL.const (bind_nf (readInt_nf _) fun _ _ => by simp)
    · exact NFL.const (bind_nf (takeBytes_nf _) fun _ _ => by simp)
    · exact NFL.const (bind_nf (takeBytes_nf _) fun _ _ => by simp)
    · refine NFL.const (bind_nf readVarint_nf fun k s => ?_)
      split
      · simp
      · exact bind_nf (takeBytes_nf _) (fun _ _ => by simp) s
    · exact hnow _ _ (by simp [binParts]) (by simp [Ty.nesting]) _
    · rename_i a b
      split
      · refine (hnow _ a (by simp [binParts]) (by simp [Ty.nesting]; omega) _).bind (hfr _ _ _) fun _ => ?_
        exact (hnow _ b (by simp [binParts]) (by simp [Ty.nesting]; omega) _).map _
      · exact NFL.const (by simp)
    · refine NFL.bindLt readBool_nf (fun _ _ _ => readBool_lt) fun L' hL b => ?_
      split
      · exact (hlater L' hL _ _ (by simp [binParts]) _).map _
      · exact NFL.const (by simp)
    · refine NFL.bindLt readBool_nf (fun _ _ _ => readBool_lt) fun L' hL b => ?_
      split
      · exact (hlater L' hL _ _ (by simp [binParts]) _).map _
      · exact NFL.const (by simp)
    · refine NFL.bindLt readByte_nf (fun _ _ _ => readByte_lt) fun L' hL mode => ?_
      split
      · exact NFL.const (by simp)
      · refine (NFL.const (readId_nf _)).bind (framed_closed.ident _) fun id => ?_
        split
        · refine (NFL.const (by simp [allocShared])).bind (framed_closed.alloc _ _ _) fun addr => ?_
          refine (hlater L' hL _ _ (by simp [binParts]) _).bind (hfr _ _ _) fun v => ?_
          exact NFL.const (by simp [storeShared, M.bind_apply])
        · exact NFL.const (bind_nf (lookupShared_nf _ _) fun _ _ => by simp)
    · split
      · refine NFL.bindLt readVarint_nf (fun _ _ _ => readVarint_lt) fun L' hL k => ?_
        split
        · exact NFL.const (by simp)
        · exact (nfl_elems hfr (hlater L' hL _ _ (by simp [binParts])) _).map _
      · exact NFL.const (by simp)
    · split
      · refine NFL.bindLt readVarint_nf (fun _ _ _ => readVarint_lt) fun L' hL k => ?_
        exact (nfl_setItems hfr (hlater L' hL _ _ (by simp [binParts])) _ _ _).map _
      · exact NFL.const (by simp)
    · split
      · refine NFL.bindLt readVarint_nf (fun _ _ _ => readVarint_lt) fun L' hL k => ?_
        exact (nfl_mapItems hfr (hlater L' hL _ _ (by simp [binParts])) _ _ _).map _
      · exact NFL.const (by simp)
    · rename_i ts
      refine NFL.bindLt readByte_nf (fun _ _ _ => readByte_lt) fun L' hL i => ?_
      split
      · exact NFL.const (by simp)
      · exact NFL.const (by simp)
      · rename_i t' _ hi
        exact (hlater L' hL _ t' (by simpa [binParts] using List.mem_of_getElem? hi) _).map _
    · rename_i c
      split
      · exact NFL.const (by simp)
      · rename_i ci hci
        obtain ⟨h1, h2⟩ := hH c ci hci
        refine (nfl_class hfr (fun b hb p => hnow _ (.cls b) ?_ (h1 b hb) p) (fun w gf hgf p => hnow _ _ ?_ (h2 gf hgf) p) p).map _
        · simp only [binParts, hci, List.mem_append, List.mem_map]
          exact .inl ⟨b, hb, rfl⟩
        · simp only [binParts, hci, List.mem_append, List.mem_map]
          exact .inr ⟨gf, hgf, rfl⟩
    · exact NFL.const (bind_nf (readInt_nf _) fun _ _ => by simp)
    · exact NFL.const (bind_nf (readInt_nf _) fun _ _ => by simp)
    · exact NFL.const (by simp)

/-! ## memory -/

/-- objects allocated so far plus what the remaining input is good for -/
def potential (K : Nat) (s : RSt) : Nat := Val.amountL s.heap + K * s.inp.length

/-- if `m` returns, the potential decreases by at least `c` (of the result), apart from `k` -/
def Cost (K : Nat) {α : Type} (m : RM α) (k : Nat) (c : α → Nat) : Prop :=
  ∀ s a s', m s = .ok a s' → potential K s' + c a ≤ potential K s + k

section
variable {K : Nat} {α β : Type}

theorem Cost.bind {m : RM α} {f : α → RM β} {k : Nat} {c : α → Nat} {d : β → Nat} (hm : Cost K m k c)
    (hf : ∀ a, Cost K (f a) (c a) d) : Cost K (m >>= f) k d := by
  intro s b s'' h
  obtain ⟨a, s', h1, h2⟩ := M.bind_eq_ok.1 h
  have := hm s a s' h1
  have := hf a s' b s'' h2
  omega

theorem Cost.weaken {m : RM α} {k k' : Nat} {c c' : α → Nat} (hm : Cost K m k c) (h : ∀ a, c' a + k ≤ c a + k') : Cost K m k' c' := by
  intro s a s' he
  have := hm s a s' he
  have := h a
  omega

theorem Cost.pure {a : α} {k : Nat} {c : α → Nat} (h : c a ≤ k) : Cost K (Pure.pure a) k c := by
  intro s b s' he
  cases he
  omega

theorem Cost.throw {e : BExc} {k : Nat} {c : α → Nat} : Cost K (M.throw e) k c := by intro s b s' he; cases he
theorem Cost.ub {k : Nat} {c : α → Nat} : Cost K M.ub k c := by intro s b s' he; cases he
theorem Cost.stuck {k : Nat} {c : α → Nat} : Cost K M.stuck k c := by intro s b s' he; cases he
theorem Cost.fuel {k : Nat} {c : α → Nat} : Cost K M.outOfFuel k c := by intro s b s' he; cases he

theorem Cost.map {m : RM α} {g : α → β} {k : Nat} {c : α → Nat} {d : β → Nat} (hm : Cost K m k c) (h : ∀ a, d (g a) ≤ c a) :
    Cost K (m >>= fun a => Pure.pure (g a)) k d := hm.bind fun a => Cost.pure (h a)

end

theorem cost_take (K k : Nat) : Cost K (takeBytes k) 0 (fun bs => K * bs.length) := by
  intro s a s' h
  have hl := takeBytes_lt h
  unfold takeBytes at h
  split at h
  · cases h
    have : (s.inp.take k).length = k := by simp; omega
    simp only [potential] at *
    rw [this, ← hl, Nat.mul_add]
    omega
  · cases h

theorem takeBytes_length {k : Nat} {s s' : RSt} {a : Str} (h : takeBytes k s = .ok a s') : a.length = k := by
  unfold takeBytes at h
  split at h
  · cases h
    simp
    omega
  · cases h

theorem cost_take' (K k : Nat) : Cost K (takeBytes k) 0 (fun _ => K * k) := by
  intro s a s' h
  have := cost_take K k s a s' h
  simp only [takeBytes_length h] at this
  exact this

theorem cost_byte (K : Nat) : Cost K readByte 0 (fun _ => K) := (cost_take' K 1).map fun _ => by simp
theorem cost_bool (K : Nat) : Cost K readBool 0 (fun _ => K) := (cost_byte K).map fun _ => Nat.le_refl _

theorem cost_lt {K : Nat} {α : Type} {m : RM α} (hl : ∀ s a s', m s = .ok a s' → s'.inp.length < s.inp.length)
    (hh : ∀ s a s', m s = .ok a s' → s'.heap = s.heap) : Cost K m 0 (fun _ => K) := by
  intro s a s' h
  have h1 := hl s a s' h
  have h2 : K * (s'.inp.length + 1) ≤ K * s.inp.length := Nat.mul_le_mul_left _ h1
  rw [Nat.mul_add, Nat.mul_one] at h2
  simp only [potential, hh s a s' h]
  omega

theorem readVarint_heap {s s' : RSt} {a : Nat} (h : readVarint s = .ok a s') : s'.heap = s.heap := by
  unfold readVarint at h
  obtain ⟨b, s1, h1, h2⟩ := M.bind_eq_ok.1 h
  have : s1 = s := by
    unfold peekByte at h1
    split at h1 <;> cases h1
    rfl
  subst this
  split at h2
  · cases h2
  · obtain ⟨c, s2, h2, h3⟩ := M.bind_eq_ok.1 h2
    cases h3
    unfold takeBytes at h2
    split at h2 <;> cases h2
    rfl

theorem cost_varint (K : Nat) : Cost K readVarint 0 (fun _ => K) :=
  cost_lt (fun _ _ _ => readVarint_lt) fun _ _ _ => readVarint_heap

theorem cost_int (K : Nat) (it : IntTy) : Cost K (readInt it) 0 (fun _ => K) := by
  have hb : 1 ≤ it.bytes := by cases it <;> decide
  refine (cost_take' K it.bytes).map fun _ => ?_
  have := Nat.mul_le_mul_left K hb
  omega

theorem cost_id (K : Nat) (c : Prop) [Decidable c] :
    Cost K (if c then (do let bs ← takeBytes 8; pure (ofBE bs)) else readVarint : RM Nat) 0 (fun _ => K) := by
  split
  · exact (cost_take' K 8).map fun _ => by omega
  · exact cost_varint K

theorem amountL_append (a b : List Val) : Val.amountL (a ++ b) = Val.amountL a + Val.amountL b := by
  induction a with
  | nil => simp [Val.amountL]
  | cons v a ih => simp only [List.cons_append, Val.amountL, ih]; omega

theorem cost_alloc (K id : Nat) (t : Ty) (v : Val) : Cost K (allocShared id t v) (v.amount + 1) (fun _ => 0) := by
  intro s a s' h
  cases h
  simp only [potential, amountL_append, Val.amountL]
  omega

theorem amountL_set (l : List Val) (a : Nat) (v : Val) : Val.amountL (l.set a v) ≤ Val.amountL l + v.amount := by
  induction l generalizing a with
  | nil => simp [Val.amountL]
  | cons x l ih =>
    cases a with
    | zero => simp only [List.set_cons_zero, Val.amountL]; omega
    | succ a =>
      have := ih a
      simp only [List.set_cons_succ, Val.amountL]
      omega

theorem cost_store (K a : Nat) (v : Val) : Cost K (storeShared a v) v.amount (fun _ => 0) := by
  intro s u s' h
  cases h
  have := amountL_set s.heap a v
  simp only [potential]
  omega

theorem cost_lookup (K id : Nat) (t : Ty) : Cost K (lookupShared id t) 0 (fun _ => 0) := by
  intro s a s' h
  unfold lookupShared at h
  split at h
  · split at h
    · cases h
      simp
    · cases h
  · cases h

/-! containers -/

theorem amountL_insertMulti (lt : Val → Val → Bool) (x : Val) (vs : List Val) :
    Val.amountL (insertMulti lt x vs) = x.amount + 1 + Val.amountL vs := by
  induction vs with
  | nil => rfl
  | cons y ys ih =>
    simp only [insertMulti]
    split
    · simp only [Val.amountL]
    · simp only [Val.amountL, ih]; omega

theorem amountL_insertUniq (lt : Val → Val → Bool) (x : Val) (vs : List Val) :
    Val.amountL (insertUniq lt x vs).1 ≤ x.amount + 1 + Val.amountL vs := by
  induction vs with
  | nil => exact Nat.le_refl _
  | cons y ys ih =>
    simp only [insertUniq]
    split
    · simp only [Val.amountL]; omega
    · split
      · simp only [Val.amountL]; omega
      · simp only [Val.amountL]; omega

theorem amountKV_mapInsertMulti (lt : Val → Val → Bool) (k x : Val) (kvs : List (Val × Val)) :
    Val.amountKV (mapInsertMulti lt k x kvs) = k.amount + x.amount + 1 + Val.amountKV kvs := by
  induction kvs with
  | nil => rfl
  | cons y ys ih =>
    obtain ⟨k', v'⟩ := y
    simp only [mapInsertMulti]
    split
    · simp only [Val.amountKV]
    · simp only [Val.amountKV, ih]; omega

theorem amountKV_mapEmplace (lt : Val → Val → Bool) (k x : Val) (kvs : List (Val × Val)) :
    Val.amountKV (mapEmplace lt k x kvs) ≤ k.amount + x.amount + 1 + Val.amountKV kvs := by
  induction kvs with
  | nil => exact Nat.le_refl _
  | cons y ys ih =>
    obtain ⟨k', v'⟩ := y
    simp only [mapEmplace]
    split
    · simp only [Val.amountKV]; omega
    · split
      · simp only [Val.amountKV]; omega
      · simp only [Val.amountKV]; omega

theorem amountL_replicate (n : Nat) (v : Val) : Val.amountL (List.replicate n v) = n * (v.amount + 1) := by
  induction n with
  | zero => simp [Val.amountL]
  | succ n ih => simp only [List.replicate_succ, Val.amountL, ih, Nat.add_mul]; omega

theorem amountL_take (n : Nat) (vs : List Val) : Val.amountL (vs.take n) ≤ Val.amountL vs := by
  induction vs generalizing n with
  | nil => simp [Val.amountL]
  | cons v vs ih =>
    cases n with
    | zero => simp [Val.amountL]
    | succ n =>
      have := ih n
      simp only [List.take_succ_cons, Val.amountL]
      omega

theorem resize_length (vs : List Val) (n : Nat) (v : Val) : (resize vs n v).length = n := by
  simp only [resize, List.length_append, List.length_take, List.length_replicate]
  omega

theorem amountL_resize {C : Nat} (vs : List Val) (n : Nat) (v : Val) (h : v.amount + 1 ≤ C) :
    Val.amountL (resize vs n v) ≤ Val.amountL vs + n * C := by
  unfold resize
  rw [amountL_append, amountL_replicate]
  have h1 := amountL_take n vs
  have h2 : (n - vs.length) * (v.amount + 1) ≤ n * C := Nat.mul_le_mul (by omega) h
  omega

theorem amountF_set (st : Store) (k : FieldKey) (p v : Val) (h : st.get? k = some p) :
    Val.amountF (st.set k v) + p.amount = Val.amountF st + v.amount := by
  induction st with
  | nil => cases h
  | cons x st ih =>
    obtain ⟨k', v'⟩ := x
    simp only [Store.get?, List.lookup_cons] at h
    simp only [Store.set]
    by_cases hk : k' = k
    · subst hk
      simp only [beq_self_eq_true] at h
      cases h
      simp only [if_true, Val.amountF]
      omega
    · have hk' : (k == k') = false := by simpa using fun h => hk h.symm
      rw [hk'] at h
      have := ih h
      rw [if_neg hk]
      simp only [Val.amountF]
      omega

section
variable {E : Env} {K C : Nat} {self : Nat → Ty → Val → RM Val}

theorem cost_elems {t : Ty} (h : ∀ p, Cost K (self 0 t p) p.amount (fun v => v.amount + C)) (ps : List Val) :
    Cost K (readElems self t ps) (Val.amountL ps) (fun vs => Val.amountL vs + C * ps.length) := by
  induction ps with
  | nil => exact Cost.pure (by simp [Val.amountL])
  | cons p ps ih =>
    have h0 : Cost K (self 0 t p) (Val.amountL (p :: ps)) (fun v => v.amount + C + 1 + Val.amountL ps) :=
      (h p).weaken fun v => by simp only [Val.amountL]; omega
    refine h0.bind fun v => ?_
    have h1 : Cost K (readElems self t ps) (v.amount + C + 1 + Val.amountL ps)
        (fun vs => v.amount + C + 1 + (Val.amountL vs + C * ps.length)) := ih.weaken fun vs => by omega
    refine h1.map fun vs => ?_
    simp only [Val.amountL, List.length_cons, Nat.mul_add]
    omega

theorem cost_setItems {t : Ty} (h : Cost K (self 0 t (E.defInit t)) (E.defInit t).amount (fun v => v.amount + C))
    (hC : (E.defInit t).amount + 1 ≤ C) (multi : Bool) (n : Nat) (acc : List Val) :
    Cost K (readSetItems E self multi t n acc) (Val.amountL acc) Val.amountL := by
  induction n generalizing acc with
  | zero => exact Cost.pure (Nat.le_refl _)
  | succ n ih =>
    have h0 : Cost K (self 0 t (E.defInit t)) (Val.amountL acc) (fun v => v.amount + 1 + Val.amountL acc) :=
      h.weaken fun v => by omega
    refine h0.bind fun v => ?_
    split
    · exact Cost.ub
    · refine (ih _).weaken fun a => ?_
      have h1 := amountL_insertMulti (E.lt t) v acc
      have h2 := amountL_insertUniq (E.lt t) v acc
      cases multi
      · simp only [Bool.false_eq_true, if_false]; omega
      · simp only [if_true]; omega

theorem cost_mapItems {k t : Ty} (h : Cost K (self 0 (.pair k t) (E.valInit (.pair k t))) (E.valInit (.pair k t)).amount
      (fun v => v.amount + C)) (hC : (E.valInit (.pair k t)).amount + 1 ≤ C) (multi : Bool) (n : Nat) (acc : List (Val × Val)) :
    Cost K (readMapItems E self multi k t n acc) (Val.amountKV acc) Val.amountKV := by
  induction n generalizing acc with
  | zero => exact Cost.pure (Nat.le_refl _)
  | succ n ih =>
    have h0 : Cost K (self 0 (.pair k t) (E.valInit (.pair k t))) (Val.amountKV acc) (fun v => v.amount + 1 + Val.amountKV acc) :=
      h.weaken fun v => by omega
    refine h0.bind fun v => ?_
    split
    · rename_i a b
      split
      · exact Cost.ub
      · refine (ih _).weaken fun _ => ?_
        have h1 := amountKV_mapInsertMulti (E.lt k) a b acc
        have h2 := amountKV_mapEmplace (E.lt k) a b acc
        simp only [Val.amount, Val.amountL]
        cases multi
        · simp only [Bool.false_eq_true, if_false]; omega
        · simp only [if_true]; omega
    · exact Cost.stuck

variable {gain : Ty → Nat} {S : Ty → Prop}

/-- bases: the gain of any of them -/
theorem cost_bases (h : ∀ w t p, S t → Cost K (self w t p) p.amount (fun v => v.amount + gain t)) (w : Nat) (bs : List ClassId)
    (hS : ∀ b ∈ bs, S (.cls b)) (p : Val) (g : Nat) (hg : g = 0 ∨ ∃ b ∈ bs, g ≤ gain (.cls b)) :
    Cost K (readBases self w bs p) p.amount (fun v => v.amount + g) := by
  induction bs generalizing p g with
  | nil =>
    rcases hg with rfl | ⟨b, hb, -⟩
    · exact Cost.pure (by simp)
    · cases hb
  | cons b bs ih =>
    have ih := ih fun b hb => hS b (List.mem_cons_of_mem _ hb)
    by_cases hb : g ≤ gain (.cls b)
    · refine ((h w (.cls b) p (hS b List.mem_cons_self)).weaken (c' := fun v => v.amount + g) fun v => by omega).bind fun v => ?_
      exact (ih v 0 (.inl rfl)).weaken fun _ => by omega
    · refine ((h w (.cls b) p (hS b List.mem_cons_self)).weaken (c' := fun v => v.amount) fun v => by omega).bind fun v => ?_
      refine ih v g ?_
      rcases hg with hg | ⟨b', hb', hg⟩
      · exact .inl hg
      · rcases List.mem_cons.1 hb' with rfl | hb'
        · exact absurd hg hb
        · exact .inr ⟨b', hb', hg⟩

theorem cost_fields (h : ∀ w t p, S t → Cost K (self w t p) p.amount (fun v => v.amount + gain t)) (w : Nat)
    (fs : List (Guard × Field)) (hS : ∀ gf ∈ fs, S gf.2.ty) (st : Store) (g : Nat) (hg : g = 0 ∨ ∃ gf ∈ fs, gf.1.holds w = true ∧ g ≤ gain gf.2.ty) :
    Cost K (readFields self w fs st) (Val.amountF st) (fun st' => Val.amountF st' + g) := by
  induction fs generalizing st g with
  | nil =>
    rcases hg with rfl | ⟨b, hb, -⟩
    · exact Cost.pure (by simp)
    · cases hb
  | cons gf fs ih =>
    obtain ⟨gd, f⟩ := gf
    have ih := ih fun gf hgf => hS gf (List.mem_cons_of_mem _ hgf)
    simp only [readFields]
    split
    · rename_i hw
      split
      · exact Cost.stuck
      · rename_i p hp
        by_cases hb : g ≤ gain f.ty
        · refine ((h w f.ty p (hS (gd, f) List.mem_cons_self)).weaken (c' := fun v => Val.amountF (st.set f.key v) + g) fun v => ?_).bind fun v => ?_
          · have := amountF_set st f.key p v hp
            omega
          · exact (ih _ 0 (.inl rfl)).weaken fun _ => by omega
        · refine ((h w f.ty p (hS (gd, f) List.mem_cons_self)).weaken (c' := fun v => Val.amountF (st.set f.key v)) fun v => ?_).bind fun v => ?_
          · have := amountF_set st f.key p v hp
            omega
          · refine ih _ g ?_
            rcases hg with hg | ⟨gf, hgf, h1, hg⟩
            · exact .inl hg
            · rcases List.mem_cons.1 hgf with rfl | hgf
              · exact absurd hg hb
              · exact .inr ⟨gf, hgf, h1, hg⟩
    · rename_i hw
      refine ih _ g ?_
      rcases hg with hg | ⟨gf, hgf, h1, hg⟩
      · exact .inl hg
      · rcases List.mem_cons.1 hgf with rfl | hgf
        · exact absurd h1 hw
        · exact .inr ⟨gf, hgf, h1, hg⟩

theorem cost_version (ci : ClassInfo) (w : Nat) : Cost K (readVersion ci w) 0 (fun _ => if ci.bin.version = none then 0 else K) := by
  unfold readVersion
  cases hv : ci.bin.version with
  | none => exact Cost.pure (by simp)
  | some m =>
    simp only [reduceCtorEq, if_false]
    refine (cost_varint K).bind fun v => ?_
    split
    · exact Cost.pure (Nat.le_refl _)
    · exact Cost.throw

theorem cost_class (h : ∀ w t p, S t → Cost K (self w t p) p.amount (fun v => v.amount + gain t)) (ci : ClassInfo)
    (hSb : ∀ b ∈ ci.bin.bases, S (.cls b)) (hSf : ∀ gf ∈ ci.bin.readFields, S gf.2.ty) (w : Nat) (p : Val)
    (g : Nat) (hK : g ≤ K)
    (hg : g = 0 ∨ ci.bin.version ≠ none ∨ (∃ b ∈ ci.bin.bases, g ≤ gain (.cls b)) ∨
      ∃ gf ∈ ci.bin.readFields, (∀ w, gf.1.holds w = true) ∧ g ≤ gain gf.2.ty) :
    Cost K (readClass self ci w p) p.amount (fun r => r.1.amount + g) := by
  unfold readClass
  split
  · exact Cost.stuck
  · have finish : ∀ g1 g2 g3, (g1 = 0 ∨ ∃ b ∈ ci.bin.bases, g1 ≤ gain (.cls b)) → (g2 = 0 ∨ (ci.bin.version ≠ none ∧ g2 ≤ K)) →
        (g3 = 0 ∨ ∃ gf ∈ ci.bin.readFields, (∀ w, gf.1.holds w = true) ∧ g3 ≤ gain gf.2.ty) → g ≤ g1 + g2 + g3 →
        Cost K (do
          let v ← readBases self w ci.bin.bases p
          match v with
          | .obj st => do
            let version ← readVersion ci w
            let st ← readFields self version ci.bin.readFields st
            pure (.obj st, version)
          | _ => M.stuck) p.amount (fun r : Val × Nat => r.1.amount + g) := by
      intro g1 g2 g3 h1 h2 h3 hle
      refine (cost_bases h w ci.bin.bases hSb p g1 h1).bind fun v => ?_
      split
      · rename_i st
        refine ((cost_version ci w).weaken (c' := fun _ => Val.amountF st + g1 + g2) (k' := (Val.obj st).amount + g1)
          fun _ => ?_).bind fun v => ?_
        · simp only [Val.amount]
          rcases h2 with rfl | ⟨h2, h2'⟩
          · omega
          · rw [if_neg h2]
            omega
        · have hf := cost_fields h v ci.bin.readFields hSf st g3 (h3.imp id fun ⟨gf, h1, h2, h3⟩ => ⟨gf, h1, h2 v, h3⟩)
          refine (hf.weaken (c' := fun st' => Val.amountF st' + g1 + g2 + g3) (k' := Val.amountF st + g1 + g2)
            fun _ => by omega).map fun st' => ?_
          simp only [Val.amount]
          omega
      · exact Cost.stuck
    rcases hg with rfl | hg | hg | hg
    · exact finish 0 0 0 (.inl rfl) (.inl rfl) (.inl rfl) (by omega)
    · exact finish 0 g 0 (.inl rfl) (.inr ⟨hg, hK⟩) (.inl rfl) (by omega)
    · exact finish g 0 0 (.inr hg) (.inl rfl) (.inl rfl) (by omega)
    · exact finish 0 0 g (.inl rfl) (.inl rfl) (.inr hg) (by omega)

end

open Classical in
/-- what is gained by reading objects of types which take at least one byte -/
noncomputable def gainOf (E : Env) (C : Nat) (t : Ty) : Nat := if NeedsInput E t then C else 0

theorem gainOf_le (E : Env) (C : Nat) (t : Ty) : gainOf E C t ≤ C := by
  unfold gainOf
  split <;> omega

theorem gainOf_eq {E : Env} {C : Nat} {t : Ty} (h : NeedsInput E t) : gainOf E C t = C := if_pos h

theorem read_cost {E : Env} {S : Ty → Prop} (hS : ClosedTypes E S) {C : Nat} (hC : NewObjectsUpTo E S C)
    (hE : ∀ t, S t → ∀ t' ∈ t.element, NeedsInput E t') (n : Nat) : ∀ (w : Nat) (t : Ty) (p : Val), S t →
      Cost (2 * C) (read E n w t p) p.amount (fun v => v.amount + gainOf E C t) := by
  induction n with
  | zero => intro w t p _; exact Cost.fuel
  | succ n ih =>
    intro w t p ht
    have hC1 : 1 ≤ C := by have := (hC t ht).1; omega
    have hp : ∀ t' ∈ binParts E t, S t' := hS t ht
    have hg := gainOf_le E C t
    -- a new object is read into
    have hnew : ∀ t' ∈ binParts E t, Cost (2 * C) (read E n 0 t' (E.valInit t')) C (fun v => v.amount + 1) := fun t' ht' => by
      refine (ih 0 t' _ (hp t' ht')).weaken fun v => ?_
      have := (hC t' (hp t' ht')).1
      omega
    have one : ∀ {α : Type} {m : RM α} {x : Nat}, C ≤ x → Cost (2 * C) m 0 (fun _ => x) → ∀ f : α → Val, (∀ a, (f a).amount = 0) →
        Cost (2 * C) (m >>= fun a => Pure.pure (f a)) p.amount (fun v => v.amount + gainOf E C t) := by
      intro α m x hx hm f hf
      refine (hm.weaken (c' := fun _ => C) (k' := p.amount) fun _ => by omega).map fun a => ?_
      rw [hf a]
      omega
    show Cost (2 * C) (readStep E (read E n) w t p) _ _
    unfold readStep
    split
    · exact one (by omega) (cost_bool _) _ fun _ => rfl
    · split
      · exact Cost.stuck
      · exact one (by omega) (cost_int _ _) _ fun _ => rfl
    · exact one (by omega) (cost_take' _ 4) _ fun _ => rfl
    · exact one (by omega) (cost_take' _ 8) _ fun _ => rfl
    · -- strings
      refine ((cost_varint _).weaken (c' := fun _ => 2 * C) (k' := p.amount) fun _ => by omega).bind fun k => ?_
      split
      · exact Cost.throw
      · refine ((cost_take _ k).weaken (c' := fun bs => bs.length + C) (k' := 2 * C) fun bs => ?_).map fun bs => ?_
        · have : 1 * bs.length ≤ 2 * C * bs.length := Nat.mul_le_mul_right _ (by omega)
          omega
        · simp only [Val.amount]
          omega
    · -- enums
      rename_i u
      refine (ih 0 (.int u) .indet (hp _ (by simp [binParts]))).weaken fun v => ?_
      rw [gainOf_eq (NeedsInput.int u)]
      simp only [Val.amount]
      omega
    · -- pairs
      rename_i a b
      split
      · rename_i x y
        have hx := ih 0 a x (hp _ (by simp [binParts]))
        have hy := ih 0 b y (hp _ (by simp [binParts]))
        have hab : gainOf E C (.pair a b) ≤ gainOf E C a + gainOf E C b := by
          by_cases h : NeedsInput E (.pair a b)
          · cases h with
            | fst _ h => rw [gainOf_eq h]; omega
            | snd _ h => rw [gainOf_eq h]; omega
          · unfold gainOf
            rw [if_neg h]
            omega
        refine (hx.weaken (c' := fun v => v.amount + gainOf E C a + y.amount + 2) (k' := (Val.tup [x, y]).amount) fun v => ?_).bind
          fun v => ?_
        · simp only [Val.amount, Val.amountL]
          omega
        · refine (hy.weaken (c' := fun u => v.amount + gainOf E C a + u.amount + gainOf E C b + 2) fun u => by omega).map fun u => ?_
          simp only [Val.amount, Val.amountL]
          omega
      · exact Cost.stuck
    · -- unique_ptr
      rename_i t'
      refine ((cost_bool _).weaken (c' := fun _ => 2 * C) (k' := p.amount) fun _ => by omega).bind fun b => ?_
      split
      · refine ((hnew t' (by simp [binParts])).weaken (c' := fun v => v.amount + 1 + C) fun v => by omega).map fun v => ?_
        simp only [Val.amount]
        omega
      · exact Cost.pure (by simp only [Val.amount]; omega)
    · -- optional
      rename_i t'
      refine ((cost_bool _).weaken (c' := fun _ => 2 * C) (k' := p.amount) fun _ => by omega).bind fun b => ?_
      split
      · refine ((hnew t' (by simp [binParts])).weaken (c' := fun v => v.amount + 1 + C) fun v => by omega).map fun v => ?_
        simp only [Val.amount]
        omega
      · exact Cost.pure (by simp only [Val.amount]; omega)
    · -- shared_ptr
      rename_i t'
      refine ((cost_byte _).weaken (c' := fun _ => 2 * C) (k' := p.amount) fun _ => by omega).bind fun mode => ?_
      split
      · exact Cost.pure (by simp only [Val.amount]; omega)
      · refine ((cost_id _ _).weaken (c' := fun _ => 4 * C) (k' := 2 * C) fun _ => by omega).bind fun id => ?_
        split
        · have h1 := (hC t' (hp t' (by simp [binParts]))).1
          refine ((cost_alloc _ id t' (E.valInit t')).weaken (c' := fun _ => 3 * C) (k' := 4 * C) fun _ => by omega).bind fun addr => ?_
          refine ((hnew t' (by simp [binParts])).weaken (c' := fun v => v.amount + 2 * C) (k' := 3 * C) fun _ => by omega).bind
            fun v => ?_
          refine ((cost_store _ addr v).weaken (c' := fun _ => 2 * C) (k' := v.amount + 2 * C) fun _ => by omega).bind fun _ => ?_
          exact Cost.pure (by simp only [Val.amount]; omega)
        · refine ((cost_lookup _ id t').weaken (c' := fun _ => 4 * C) (k' := 4 * C) fun _ => by omega).map fun _ => ?_
          simp only [Val.amount]
          omega
    · -- vector
      rename_i t'
      split
      · rename_i vs
        refine ((cost_varint _).weaken (c' := fun _ => Val.amountL vs + 2 * C) (k' := (Val.list vs).amount)
          fun _ => by simp only [Val.amount]; omega).bind fun k => ?_
        split
        · exact Cost.throw
        · have hst := hp t' (by simp [binParts])
          have he := cost_elems (K := 2 * C) (C := C) (self := read E n) (t := t')
            (fun q => (ih 0 t' q hst).weaken fun v => by rw [gainOf_eq (hE _ ht t' (by simp [Ty.element]))])
            (resize vs k (E.valInit t'))
          have hr := amountL_resize vs k (E.valInit t') (hC t' hst).1
          refine (he.weaken (c' := fun vs' => Val.amountL vs' + 2 * C) fun vs' => ?_).map fun vs' => ?_
          · rw [resize_length, Nat.mul_comm C k]
            omega
          · simp only [Val.amount]
            omega
      · exact Cost.stuck
    · -- set
      rename_i h multi t'
      split
      · rename_i vs
        have hst := hp t' (by simp [binParts])
        refine ((cost_varint _).weaken (c' := fun _ => Val.amountL vs + 2 * C) (k' := (Val.list vs).amount)
          fun _ => by simp only [Val.amount]; omega).bind fun k => ?_
        have he := cost_setItems (E := E) (K := 2 * C) (C := C) (self := read E n) (t := t')
          ((ih 0 t' (E.defInit t') hst).weaken fun v => by rw [gainOf_eq (hE _ ht t' (by simp [Ty.element]))]) (hC t' hst).2 multi k vs
        refine (he.weaken (c' := fun vs' => Val.amountL vs' + 2 * C) fun vs' => by omega).map fun vs' => ?_
        simp only [Val.amount]
        omega
      · exact Cost.stuck
    · -- map
      rename_i h multi k' t'
      split
      · rename_i kvs
        have hst := hp (.pair k' t') (by simp [binParts])
        refine ((cost_varint _).weaken (c' := fun _ => Val.amountKV kvs + 2 * C) (k' := (Val.map kvs).amount)
          fun _ => by simp only [Val.amount]; omega).bind fun k => ?_
        have he := cost_mapItems (E := E) (K := 2 * C) (C := C) (self := read E n) (k := k') (t := t')
          ((ih 0 _ (E.valInit (.pair k' t')) hst).weaken fun v => by rw [gainOf_eq (hE _ ht _ (by simp [Ty.element]))])
          (hC _ hst).1 multi k kvs
        refine (he.weaken (c' := fun vs' => Val.amountKV vs' + 2 * C) fun vs' => by omega).map fun vs' => ?_
        simp only [Val.amount]
        omega
      · exact Cost.stuck
    · -- variant
      rename_i ts
      refine ((cost_byte _).weaken (c' := fun _ => 2 * C) (k' := p.amount) fun _ => by omega).bind fun i => ?_
      split
      · exact Cost.throw
      · exact Cost.pure (by simp only [Val.amount]; omega)
      · rename_i t' _ hi
        refine ((hnew t' (by simpa [binParts] using List.mem_of_getElem? hi)).weaken (c' := fun v => v.amount + 1 + C)
          fun v => by omega).map fun v => ?_
        simp only [Val.amount]
        omega
    · -- classes
      rename_i c
      split
      · exact Cost.stuck
      · rename_i ci hci
        have hSb : ∀ b ∈ ci.bin.bases, S (.cls b) := fun b hb => hp _ (by
          simp only [binParts, hci, List.mem_append, List.mem_map]
          exact .inl ⟨b, hb, rfl⟩)
        have hSf : ∀ gf ∈ ci.bin.readFields, S gf.2.ty := fun gf hgf => hp _ (by
          simp only [binParts, hci, List.mem_append, List.mem_map]
          exact .inr ⟨gf, hgf, rfl⟩)
        refine (cost_class (gain := gainOf E C) (S := S) ih ci hSb hSf w p (gainOf E C (.cls c)) (by omega) ?_).map
          fun r => Nat.le_refl _
        by_cases h : NeedsInput E (.cls c)
        · cases h with
          | versioned h1 h2 =>
            rw [hci] at h1
            cases h1
            exact .inr (.inl (by rw [h2]; simp))
          | base h1 hb hn =>
            rw [hci] at h1
            cases h1
            exact .inr (.inr (.inl ⟨_, hb, by rw [gainOf_eq hn]; exact gainOf_le _ _ _⟩))
          | member h1 hgf hh hn =>
            rw [hci] at h1
            cases h1
            exact .inr (.inr (.inr ⟨_, hgf, hh, by rw [gainOf_eq hn]; exact gainOf_le _ _ _⟩))
        · exact .inl (if_neg h)
    · exact one (by omega) (cost_int _ _) _ fun _ => rfl
    · exact one (by omega) (cost_int _ _) _ fun _ => rfl
    · exact Cost.stuck

end Verif
