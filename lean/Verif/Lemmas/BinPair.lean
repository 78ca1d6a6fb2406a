import Verif.Spec.BinRepr
import Verif.Lemmas.BinRel
import Verif.Lemmas.Bytes

/-!
# Running a writer and the corresponding reader in lockstep
-/

namespace Verif

/-! ## renaming -/

theorem Val.renameL_eq (ρ : Nat → Nat) (vs : List Val) : Val.renameL ρ vs = vs.map (Val.rename ρ) := by
  induction vs with
  | nil => rfl
  | cons v vs ih => simp [Val.renameL, ih]

theorem Val.renameKV_eq (ρ : Nat → Nat) (kvs : List (Val × Val)) :
    Val.renameKV ρ kvs = kvs.map fun q => (q.1.rename ρ, q.2.rename ρ) := by
  induction kvs with
  | nil => rfl
  | cons v vs ih => obtain ⟨k, v⟩ := v; simp [Val.renameKV, ih]

theorem Val.renameF_eq (ρ : Nat → Nat) (fs : List (FieldKey × Val)) :
    Val.renameF ρ fs = fs.map fun q => (q.1, q.2.rename ρ) := by
  induction fs with
  | nil => rfl
  | cons v vs ih => obtain ⟨k, v⟩ := v; simp [Val.renameF, ih]

theorem Val.mem_refsL {a : Nat} {vs : List Val} : a ∈ Val.refsL vs ↔ ∃ v ∈ vs, a ∈ v.refs := by
  induction vs with
  | nil => simp [Val.refsL]
  | cons v vs ih => simp [Val.refsL, ih]

theorem Val.mem_refsKV {a : Nat} {kvs : List (Val × Val)} : a ∈ Val.refsKV kvs ↔ ∃ q ∈ kvs, a ∈ q.1.refs ∨ a ∈ q.2.refs := by
  induction kvs with
  | nil => simp [Val.refsKV]
  | cons v vs ih => obtain ⟨k, v⟩ := v; simp [Val.refsKV, ih, or_assoc]

theorem Val.mem_refsF {a : Nat} {fs : List (FieldKey × Val)} : a ∈ Val.refsF fs ↔ ∃ q ∈ fs, a ∈ q.2.refs := by
  induction fs with
  | nil => simp [Val.refsF]
  | cons v vs ih => obtain ⟨k, v⟩ := v; simp [Val.refsF, ih]

mutual
/-- a value without pointers is not affected by renaming -/
theorem Val.rename_of_noRef (ρ : Nat → Nat) : ∀ v : Val, v.refs = [] → v.rename ρ = v
  | .some v, h => by rw [Val.rename, Val.rename_of_noRef ρ v h]
  | .ptr v, h => by rw [Val.rename, Val.rename_of_noRef ρ v h]
  | .ref a, h => by cases h
  | .list vs, h => by rw [Val.rename, Val.renameL_of_noRef ρ vs h]
  | .map kvs, h => by rw [Val.rename, Val.renameKV_of_noRef ρ kvs h]
  | .tup vs, h => by rw [Val.rename, Val.renameL_of_noRef ρ vs h]
  | .alt i v, h => by rw [Val.rename, Val.rename_of_noRef ρ v h]
  | .obj fs, h => by rw [Val.rename, Val.renameF_of_noRef ρ fs h]
  | .indet, _ => rfl
  | .bool _, _ => rfl
  | .int _, _ => rfl
  | .f32 _, _ => rfl
  | .f64 _, _ => rfl
  | .str _, _ => rfl
  | .cstr _, _ => rfl
  | .null, _ => rfl
  | .valueless, _ => rfl
  | .mono, _ => rfl
  | .tick _, _ => rfl
theorem Val.renameL_of_noRef (ρ : Nat → Nat) : ∀ vs : List Val, Val.refsL vs = [] → Val.renameL ρ vs = vs
  | [], _ => rfl
  | v :: vs, h => by
    rw [Val.refsL, List.append_eq_nil_iff] at h
    rw [Val.renameL, Val.rename_of_noRef ρ v h.1, Val.renameL_of_noRef ρ vs h.2]
theorem Val.renameKV_of_noRef (ρ : Nat → Nat) : ∀ vs : List (Val × Val), Val.refsKV vs = [] → Val.renameKV ρ vs = vs
  | [], _ => rfl
  | (k, v) :: vs, h => by
    rw [Val.refsKV, List.append_eq_nil_iff, List.append_eq_nil_iff] at h
    rw [Val.renameKV, Val.rename_of_noRef ρ k h.1.1, Val.rename_of_noRef ρ v h.1.2, Val.renameKV_of_noRef ρ vs h.2]
theorem Val.renameF_of_noRef (ρ : Nat → Nat) : ∀ vs : List (FieldKey × Val), Val.refsF vs = [] → Val.renameF ρ vs = vs
  | [], _ => rfl
  | (k, v) :: vs, h => by
    rw [Val.refsF, List.append_eq_nil_iff] at h
    rw [Val.renameF, Val.rename_of_noRef ρ v h.1, Val.renameF_of_noRef ρ vs h.2]
end

mutual
theorem Val.hasIndet_rename (ρ : Nat → Nat) : ∀ v : Val, (v.rename ρ).hasIndet = v.hasIndet
  | .some v => by rw [Val.rename, Val.hasIndet, Val.hasIndet, Val.hasIndet_rename ρ v]
  | .ptr v => rfl
  | .ref a => rfl
  | .list vs => rfl
  | .map kvs => rfl
  | .tup vs => by rw [Val.rename, Val.hasIndet, Val.hasIndet, Val.hasIndetL_rename ρ vs]
  | .alt i v => by rw [Val.rename, Val.hasIndet, Val.hasIndet, Val.hasIndet_rename ρ v]
  | .obj fs => by rw [Val.rename, Val.hasIndet, Val.hasIndet, Val.hasIndetF_rename ρ fs]
  | .indet => rfl
  | .bool _ => rfl
  | .int _ => rfl
  | .f32 _ => rfl
  | .f64 _ => rfl
  | .str _ => rfl
  | .cstr _ => rfl
  | .null => rfl
  | .valueless => rfl
  | .mono => rfl
  | .tick _ => rfl
theorem Val.hasIndetL_rename (ρ : Nat → Nat) : ∀ vs : List Val, Val.hasIndetL (Val.renameL ρ vs) = Val.hasIndetL vs
  | [] => rfl
  | v :: vs => by
    rw [Val.renameL, Val.hasIndetL, Val.hasIndetL, Val.hasIndet_rename ρ v, Val.hasIndetL_rename ρ vs]
theorem Val.hasIndetF_rename (ρ : Nat → Nat) : ∀ vs : List (FieldKey × Val), Val.hasIndetF (Val.renameF ρ vs) = Val.hasIndetF vs
  | [] => rfl
  | (k, v) :: vs => by
    rw [Val.renameF, Val.hasIndetF, Val.hasIndetF, Val.hasIndet_rename ρ v, Val.hasIndetF_rename ρ vs]
end

/-! ## correspondence of sessions -/

/-- The reader knows the objects the writer has written; they have been numbered in order of their first occurrence, starting with `base`
(the number of objects the reader has created before). -/
structure Corr (base : Nat) (HT : Nat → Option Ty) (seen : List Nat) (rs : RSt) : Prop where
  nodup : seen.Nodup
  len : rs.heap.length = base + seen.length
  typed : ∀ a ∈ seen, ∃ t, HT a = some t ∧ rs.table.lookup a = some (t, base + seen.reverse.idxOf a)

/-- `ρ` maps the objects written so far to their number. -/
def Agrees (base : Nat) (ρ : Nat → Nat) (seen : List Nat) : Prop := ∀ a ∈ seen, ρ a = base + seen.reverse.idxOf a

theorem Agrees.suffix {base : Nat} {ρ : Nat → Nat} {s s' : List Nat} (hs : s <:+ s') (h : Agrees base ρ s') : Agrees base ρ s := by
  obtain ⟨d, rfl⟩ := hs
  intro a ha
  rw [h a (by simp [ha]), List.reverse_append, List.idxOf_append_of_mem (by simpa using ha)]

theorem Agrees.inj {base : Nat} {ρ : Nat → Nat} {s : List Nat} (h : Agrees base ρ s) {a b : Nat} (ha : a ∈ s) (hb : b ∈ s)
    (hab : ρ a = ρ b) : a = b := by
  rw [h a ha, h b hb] at hab
  exact (List.idxOf_inj (by simpa using ha)).1 (Nat.add_left_cancel hab)

theorem Agrees.lt {base : Nat} {ρ : Nat → Nat} {s : List Nat} (h : Agrees base ρ s) {a : Nat} (ha : a ∈ s) : ρ a < base + s.length := by
  rw [h a ha]
  refine Nat.add_lt_add_left ?_ _
  simpa using List.idxOf_lt_length_iff.2 (show a ∈ s.reverse by simpa using ha)

section
variable (H : Heap) (HT : Nat → Option Ty) (ρ : Nat → Nat)

/-- If the writer `w` succeeds then the reader `r` run on its output (followed by anything) yields `a` and consumes exactly that
output; objects newly written are restored; `refs` have been written. -/
def Pair {α : Type} (w : WM Unit) (r : RM α) (a : α) (refs : Nat → Prop) : Prop :=
  ∀ ws ws', w ws = .ok () ws' → ws.seen <:+ ws'.seen ∧ ∃ bytes, ws'.out = ws.out ++ bytes ∧
    (∀ {base : Nat}, Agrees base ρ ws'.seen → ∀ rs rest, rs.inp = bytes ++ rest → Corr base HT ws.seen rs →
      (∀ b, refs b → b ∈ ws'.seen) ∧
      ∃ rs', r rs = .ok a rs' ∧ rs'.inp = rest ∧ Corr base HT ws'.seen rs' ∧
        (∀ i, i < rs.heap.length → rs'.heap[i]? = rs.heap[i]?) ∧
        (∀ b ∈ ws'.seen, b ∉ ws.seen → ∃ v, H b = some v ∧ rs'.heap[ρ b]? = some (v.rename ρ) ∧
          ∀ c ∈ v.refs, c ∈ ws'.seen))

end

variable {H : Heap} {HT : Nat → Option Ty} {ρ : Nat → Nat}

theorem Pair.mono {α : Type} {w : WM Unit} {r : RM α} {a : α} {R R' : Nat → Prop} (h : Pair H HT ρ w r a R)
    (hr : ∀ b, R' b → R b) : Pair H HT ρ w r a R' := by
  intro ws ws' hw
  obtain ⟨h1, bytes, h2, h3⟩ := h ws ws' hw
  refine ⟨h1, bytes, h2, fun ha rs rest hi hc => ?_⟩
  obtain ⟨h4, h5⟩ := h3 ha rs rest hi hc
  exact ⟨fun b hb => h4 b (hr b hb), h5⟩

theorem Pair.pure {α : Type} (a : α) : Pair H HT ρ (Pure.pure ()) (Pure.pure a) a (fun _ => False) := by
  intro ws ws' hw
  cases hw
  refine ⟨List.suffix_rfl, [], by simp, fun _ rs rest hi hc => ⟨fun _ h => h.elim, rs, rfl, by simpa using hi, hc, ?_, ?_⟩⟩
  · exact fun _ _ => rfl
  · exact fun b h1 h2 => absurd h1 h2

theorem Pair.bind {α β : Type} {w1 w2 : WM Unit} {r1 : RM α} {r2 : α → RM β} {a : α} {b : β} {R1 R2 : Nat → Prop}
    (h1 : Pair H HT ρ w1 r1 a R1) (h2 : Pair H HT ρ w2 (r2 a) b R2) :
    Pair H HT ρ (w1 >>= fun _ => w2) (r1 >>= r2) b (fun x => R1 x ∨ R2 x) := by
  intro ws ws'' hw
  rw [M.bind_eq_ok] at hw
  obtain ⟨⟨⟩, ws', hw1, hw2⟩ := hw
  obtain ⟨s1, b1, o1, c1⟩ := h1 _ _ hw1
  obtain ⟨s2, b2, o2, c2⟩ := h2 _ _ hw2
  refine ⟨s1.trans s2, b1 ++ b2, by rw [o2, o1, List.append_assoc], fun ha rs rest hi hc => ?_⟩
  obtain ⟨e1, rs', e2, e3, e4, e5, e6⟩ := c1 (ha.suffix s2) rs (b2 ++ rest) (by rw [hi, List.append_assoc]) hc
  obtain ⟨f1, rs'', f2, f3, f4, f5, f6⟩ := c2 ha rs' rest e3 e4
  have hlen : rs.heap.length ≤ rs'.heap.length := by rw [hc.len, e4.len]; have := s1.length_le; omega
  refine ⟨?_, rs'', by rw [M.bind_ok e2]; exact f2, f3, f4, fun i hi => ?_, fun x hx hx' => ?_⟩
  · rintro x (hx | hx)
    · exact s2.subset (e1 x hx)
    · exact f1 x hx
  · rw [f5 i (by omega), e5 i hi]
  · by_cases hm : x ∈ ws'.seen
    · obtain ⟨v, g1, g2, g3⟩ := e6 x hm hx'
      refine ⟨v, g1, ?_, fun c hc => s2.subset (g3 c hc)⟩
      rw [f5 _ ?_, g2]
      rw [e4.len]
      exact (ha.suffix s2).lt hm
    · exact f6 x hx hm

theorem Pair.map {α β : Type} {w : WM Unit} {r : RM α} {a : α} (g : α → β) {R : Nat → Prop} (h : Pair H HT ρ w r a R) :
    Pair H HT ρ w (r >>= fun a => Pure.pure (g a)) (g a) R := by
  have := Pair.bind (r2 := fun a => Pure.pure (g a)) h (Pair.pure (H := H) (HT := HT) (ρ := ρ) (g a))
  have e : (w >>= fun _ => (Pure.pure () : WM Unit)) = w := M.bind_pure' w
  rw [e] at this
  exact this.mono fun b hb => .inl hb

/-- both sides only handle bytes -/
theorem Pair.bytes {α : Type} {w : WM Unit} {r : RM α} {a : α}
    (h : ∀ ws ws', w ws = .ok () ws' → ∃ bytes, ws' = { ws with out := ws.out ++ bytes } ∧
      ∀ (rs : RSt) rest, r { rs with inp := bytes ++ rest } = .ok a { rs with inp := rest }) :
    Pair H HT ρ w r a (fun _ => False) := by
  intro ws ws' hw
  obtain ⟨bytes, rfl, hr⟩ := h ws ws' hw
  refine ⟨List.suffix_rfl, bytes, rfl, fun _ rs rest hi hc => ⟨fun _ h => h.elim, { rs with inp := rest }, ?_, rfl, ?_, ?_, ?_⟩⟩
  · have := hr rs rest
    rwa [← hi] at this
  · exact ⟨hc.nodup, hc.len, hc.typed⟩
  · exact fun _ _ => rfl
  · exact fun b h1 h2 => absurd h1 h2

/-- the writer fails -/
theorem Pair.fail {α : Type} {w : WM Unit} {r : RM α} {a : α} {R : Nat → Prop} (h : ∀ ws ws', w ws ≠ .ok () ws') :
    Pair H HT ρ w r a R := fun ws ws' hw => absurd hw (h ws ws')

theorem Pair.emit {k : Nat} (bs : Str) (hk : bs.length = k) : Pair H HT ρ (Verif.emit bs) (takeBytes k) bs (fun _ => False) :=
  Pair.bytes fun ws ws' hw => by
    cases hw
    exact ⟨bs, rfl, fun rs rest => takeBytes_append bs rest rs k hk⟩

theorem Pair.varint (x : Nat) : Pair H HT ρ (writeVarint x) readVarint x (fun _ => False) :=
  Pair.bytes fun ws ws' hw => by
    obtain ⟨L, hL, rfl⟩ := writeVarint_ok hw
    obtain ⟨h1, h2, h3, -⟩ := varintLen_some hL
    exact ⟨_, rfl, fun rs rest => readVarint_append h1 h2 h3 rest rs⟩

theorem Pair.byte (x : Nat) (hx : x < 256) : Pair H HT ρ (writeByte x) readByte x (fun _ => False) := by
  have := Pair.map (fun b => ofBE b) (Pair.emit (H := H) (HT := HT) (ρ := ρ) (k := 1) [UInt8.ofNat x] rfl)
  have e : ofBE [UInt8.ofNat x] = x := by
    simp [ofBE]
    omega
  rw [e] at this
  exact this

theorem Pair.boolByte (b : Bool) : Pair H HT ρ (Verif.emit [if b then 1 else 0]) readBool b (fun _ => False) := by
  have := Pair.map (fun b => decide (b ≠ 0)) (Pair.map (fun b => ofBE b)
    (Pair.emit (H := H) (HT := HT) (ρ := ρ) (k := 1) [if b then 1 else 0] rfl))
  cases b <;> exact this

theorem ofBE_intBytes (k : Nat) (i : Int) : (ofBE (intBytes k i) : Int) = i % 2 ^ (8 * k) := by
  rw [intBytes, ofBE_beBytes]
  have hpos : (0 : Int) < 2 ^ (8 * k) := by positivity
  have h0 := Int.emod_nonneg i (_root_.ne_of_gt hpos)
  have h1 := Int.emod_lt_of_pos i hpos
  have h2 : (256 : Nat) ^ k = 2 ^ (8 * k) := by rw [show (256 : Nat) = 2 ^ 8 from rfl, ← Nat.pow_mul]
  have h3 : (i % 2 ^ (8 * k)).toNat < 256 ^ k := by
    rw [h2]
    have : ((i % 2 ^ (8 * k)).toNat : Int) < ((2 ^ (8 * k) : Nat) : Int) := by
      rw [Int.toNat_of_nonneg h0]; exact_mod_cast h1
    exact_mod_cast this
  rw [Nat.mod_eq_of_lt h3, Int.toNat_of_nonneg h0]

theorem wrap_emod (it : IntTy) (i : Int) : it.wrap (i % 2 ^ (8 * it.bytes)) = it.wrap i := by
  unfold IntTy.wrap
  have : it.card = 2 ^ (8 * it.bytes) := rfl
  rw [this, Int.sub_emod, Int.emod_emod_of_dvd _ (dvd_refl _), ← Int.sub_emod]

theorem Pair.int (it : IntTy) (i : Int) (h1 : it.lo ≤ i) (h2 : i < it.hi) :
    Pair H HT ρ (Verif.emit (intBytes it.bytes i)) (readInt it) i (fun _ => False) := by
  have := Pair.map (fun bs => it.wrap (ofBE bs))
    (Pair.emit (H := H) (HT := HT) (ρ := ρ) (k := it.bytes) (intBytes it.bytes i) (beBytes_length _ _))
  rw [ofBE_intBytes, wrap_emod, wrap_id _ _ h1 h2] at this
  exact this

end Verif
