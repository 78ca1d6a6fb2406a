import Verif.Spec.OutputSize
import Verif.Lemmas.BinWClosed
import Verif.Lemmas.Bytes

/-!
# Lemmas: size of binary data
-/

namespace Verif

theorem beBytes_len (k x : Nat) : (beBytes k x).length = k := by
  induction k generalizing x with
  | zero => rfl
  | succ k ih => simp [beBytes, ih]

theorem varintLen_le {x L : Nat} (h : varintLen x = some L) : L ≤ 8 := by
  unfold varintLen at h
  repeat' split at h
  all_goals cases h
  all_goals decide

theorem writeId_seen {a : Nat} {s s' : WSt} {u : Unit} (h : writeId a s = .ok u s') : s'.seen = s.seen := by
  unfold writeId at h
  by_cases hb : bigId a = true
  · rw [if_pos hb] at h
    cases h
    rfl
  · rw [if_neg hb] at h
    unfold writeVarint at h
    cases hv : varintLen a with
    | none => rw [hv] at h; cases h
    | some L => rw [hv] at h; cases h; rfl

/-- what the objects not yet written may still contribute -/
def pending (K : Nat) (H : Heap) (dom seen : List Nat) : Nat := heapFootprint K H (dom.filter fun a => decide (a ∉ seen))

theorem pending_le (K : Nat) (H : Heap) (dom seen : List Nat) : pending K H dom seen ≤ heapFootprint K H dom := by
  unfold pending
  induction dom with
  | nil => exact Nat.le_refl _
  | cons a dom ih =>
    by_cases ha : a ∈ seen
    · rw [List.filter_cons_of_neg (by simp [ha])]
      simp only [heapFootprint]
      omega
    · rw [List.filter_cons_of_pos (by simp [ha])]
      simp only [heapFootprint]
      omega

theorem pending_mono (K : Nat) (H : Heap) (dom seen : List Nat) (a : Nat) : pending K H dom (a :: seen) ≤ pending K H dom seen := by
  unfold pending
  induction dom with
  | nil => exact Nat.le_refl _
  | cons d dom ih =>
    by_cases hd : d ∈ seen
    · rw [List.filter_cons_of_neg (by simp [hd]), List.filter_cons_of_neg (by simp [hd])]
      exact ih
    · rw [List.filter_cons_of_pos (p := fun x => decide (x ∉ seen)) (by simp [hd])]
      by_cases hda : d = a
      · rw [List.filter_cons_of_neg (by simp [hda])]
        simp only [heapFootprint]
        omega
      · rw [List.filter_cons_of_pos (by simp [hd, hda])]
        simp only [heapFootprint]
        omega

theorem pending_mark {K : Nat} {H : Heap} {dom seen : List Nat} {a : Nat} {v : Val} (ha : a ∈ dom) (hn : a ∉ seen) (hv : H a = some v) :
    pending K H dom (a :: seen) + v.footprint K (fun _ => 0) ≤ pending K H dom seen := by
  induction dom with
  | nil => cases ha
  | cons d dom ih =>
    have hm := pending_mono K H dom seen a
    unfold pending at ih hm ⊢
    by_cases hda : d = a
    · subst hda
      rw [List.filter_cons_of_neg (by simp), List.filter_cons_of_pos (by simpa using hn)]
      simp only [heapFootprint, hv]
      omega
    · have ih' := ih ((List.mem_cons.1 ha).resolve_left (Ne.symm hda))
      by_cases hd : d ∈ seen
      · rw [List.filter_cons_of_neg (by simp [hd]), List.filter_cons_of_neg (by simp [hd])]
        exact ih'
      · rw [List.filter_cons_of_pos (by simp [hd, hda]), List.filter_cons_of_pos (by simp [hd])]
        simp only [heapFootprint]
        omega

/-- at most `x` bytes, including what may still be written for other objects -/
def OutUpTo (K : Nat) (H : Heap) (dom : List Nat) (x : Nat) {α : Type} : Res BExc WSt α → Prop
  | .ok _ s' => s'.out.length + pending K H dom s'.seen ≤ x
  | .exc _ s' => s'.out.length + pending K H dom s'.seen ≤ x
  | _ => True

theorem OutUpTo.mono {K : Nat} {H : Heap} {dom : List Nat} {x y : Nat} {α : Type} {r : Res BExc WSt α} (h : OutUpTo K H dom x r) (hxy : x ≤ y) :
    OutUpTo K H dom y r := by
  cases r with
  | ok a s => exact Nat.le_trans h hxy
  | exc e s => exact Nat.le_trans h hxy
  | ub => trivial
  | stuck => trivial
  | fuel => trivial

theorem OutUpTo.bind {K : Nat} {H : Heap} {dom : List Nat} {x y : Nat} {α β : Type} {m : WM α} {f : α → WM β} {s : WSt}
    (h : OutUpTo K H dom x (m s)) (hxy : x ≤ y) (hf : ∀ a s', m s = .ok a s' → OutUpTo K H dom y (f a s')) :
    OutUpTo K H dom y ((m >>= f) s) := by
  rw [M.bind_apply]
  cases hr : m s with
  | ok a s' => exact hf a s' hr
  | exc e s' => rw [hr] at h; exact Nat.le_trans h hxy
  | ub => trivial
  | stuck => trivial
  | fuel => trivial

/-- `m` writes at most `B` bytes, besides what objects contribute which are written for the first time -/
def WritesUpTo (K : Nat) (H : Heap) (dom : List Nat) (B : Nat) {α : Type} (m : WM α) : Prop :=
  ∀ s, OutUpTo K H dom (s.out.length + pending K H dom s.seen + B) (m s)

namespace WritesUpTo

variable {K : Nat} {H : Heap} {dom : List Nat}

theorem mono {α : Type} {m : WM α} {B B' : Nat} (h : WritesUpTo K H dom B m) (hB : B ≤ B') : WritesUpTo K H dom B' m :=
  fun s => (h s).mono (by omega)

theorem bind {α β : Type} {m : WM α} {f : α → WM β} {B B' : Nat} (hm : WritesUpTo K H dom B m) (hf : ∀ a, WritesUpTo K H dom B' (f a)) :
    WritesUpTo K H dom (B + B') (m >>= f) := fun s =>
  (hm s).bind (by omega) fun a s' h => by
    have h1 := hm s
    rw [h] at h1
    have h1 : s'.out.length + pending K H dom s'.seen ≤ s.out.length + pending K H dom s.seen + B := h1
    exact (hf a s').mono (by omega)

theorem pure {α : Type} (a : α) (B : Nat) : WritesUpTo K H dom B (Pure.pure a : WM α) := fun s => by
  show s.out.length + _ ≤ _
  omega
theorem throw {α : Type} (e : BExc) (B : Nat) : WritesUpTo K H dom B (M.throw e : WM α) := fun s => by
  show s.out.length + _ ≤ _
  omega
theorem ub {α : Type} (B : Nat) : WritesUpTo K H dom B (M.ub : WM α) := fun _ => trivial
theorem stuck {α : Type} (B : Nat) : WritesUpTo K H dom B (M.stuck : WM α) := fun _ => trivial
theorem emit {bs : Str} {B : Nat} (h : bs.length ≤ B) : WritesUpTo K H dom B (Verif.emit bs) := fun s => by
  show (s.out ++ bs).length + _ ≤ _
  rw [List.length_append]
  simp only
  omega
theorem byte (b : Nat) : WritesUpTo K H dom 1 (writeByte b) := emit (Nat.le_refl _)
theorem varint (x : Nat) : WritesUpTo K H dom 8 (writeVarint x) := by
  unfold writeVarint
  split
  · rename_i L h
    exact emit (by rw [beBytes_len]; exact varintLen_le h)
  · exact throw _ _
theorem ident (x : Nat) : WritesUpTo K H dom 8 (writeId x) := by
  unfold writeId
  split
  · exact emit (by rw [beBytes_len])
  · exact varint _
theorem version (c : Option Nat) (w : Nat) : WritesUpTo K H dom (8 * if c.isSome then 1 else 0) (writeVersion c w) := by
  cases c with
  | none => exact pure _ _
  | some m => exact varint _

theorem mark {a : Nat} {v : Val} {m : WM Unit} (ha : a ∈ dom) (hv : H a = some v) (hm : WritesUpTo K H dom (v.footprint K fun _ => 0) m)
    (s : WSt) (hn : a ∉ s.seen) :
    OutUpTo K H dom (s.out.length + pending K H dom s.seen) ((markWritten a >>= fun _ => m) s) := by
  have h1 : OutUpTo K H dom (s.out.length + pending K H dom (a :: s.seen) + v.footprint K fun _ => 0) (m { s with seen := a :: s.seen }) :=
    hm { s with seen := a :: s.seen }
  have h2 := pending_mark (K := K) ha hn hv
  exact h1.mono (by omega)

theorem shared {a : Nat} {b : WM Unit} (hK : 9 ≤ K) (ha : a ∈ dom)
    (hb : ∀ v, H a = some v → WritesUpTo K H dom (v.footprint K fun _ => 0) b) (hu : H a = none → b = M.ub) :
    WritesUpTo K H dom K (sharedWrite a b) := by
  intro s
  unfold sharedWrite
  refine OutUpTo.bind (x := s.out.length + pending K H dom s.seen) (Nat.le_refl _) (by omega) fun w s1 hw => ?_
  cases hw
  have h0 := byte (K := K) (H := H) (dom := dom) (sptrMode (decide (a ∈ s.seen)) (bigId a)) s
  refine h0.bind (by omega) fun u s1 hr1 => ?_
  rw [hr1] at h0
  have h0 : s1.out.length + pending K H dom s1.seen ≤ s.out.length + pending K H dom s.seen + 1 := h0
  have h1 := ident (K := K) (H := H) (dom := dom) a s1
  refine h1.bind (by omega) fun u s' hr => ?_
  rw [hr] at h1
  have h1 : s'.out.length + pending K H dom s'.seen ≤ s1.out.length + pending K H dom s1.seen + 8 := h1
  have hseen : s'.seen = s.seen := by
    rw [writeId_seen hr]
    cases hr1
    rfl
  by_cases hs : a ∈ s.seen
  · simp only [hs, decide_true, if_true]
    show s'.out.length + pending K H dom s'.seen ≤ _
    omega
  · simp only [hs, decide_false]
    cases hv : H a with
    | none =>
      rw [hu hv]
      trivial
    | some v => exact (mark ha hv (hb v hv) s' (by rw [hseen]; exact hs)).mono (by omega)

end WritesUpTo

/-! ### sums -/

theorem footprintL_perm (K : Nat) (B : Nat → Nat) {vs ws : List Val} (h : vs.Perm ws) : Val.footprintL K B vs = Val.footprintL K B ws := by
  induction h with
  | nil => rfl
  | cons a _ ih => simp only [Val.footprintL, ih]
  | swap a b _ => simp only [Val.footprintL]; omega
  | trans _ _ ih1 ih2 => exact ih1.trans ih2

theorem footprintKV_perm (K : Nat) (B : Nat → Nat) {vs ws : List (Val × Val)} (h : vs.Perm ws) :
    Val.footprintKV K B vs = Val.footprintKV K B ws := by
  induction h with
  | nil => rfl
  | cons a _ ih => simp only [Val.footprintKV, ih]
  | swap a b _ => simp only [Val.footprintKV]; omega
  | trans _ _ ih1 ih2 => exact ih1.trans ih2

/-- size of the given members -/
def membersSize (K : Nat) (B : Nat → Nat) (st : Store) : List FieldKey → Nat
  | [] => 0
  | k :: ks => (match st.get? k with | some v => v.footprint K B | none => 0) + membersSize K B st ks

theorem membersSize_append (K : Nat) (B : Nat → Nat) (st : Store) (ks ks' : List FieldKey) :
    membersSize K B st (ks ++ ks') = membersSize K B st ks + membersSize K B st ks' := by
  induction ks with
  | nil => simp [membersSize]
  | cons k ks ih => simp only [List.cons_append, membersSize, ih]; omega

theorem membersSize_skip {K : Nat} {B : Nat → Nat} {k : FieldKey} {v : Val} {st : Store} {ks : List FieldKey} (h : k ∉ ks) :
    membersSize K B ((k, v) :: st) ks = membersSize K B st ks := by
  induction ks with
  | nil => rfl
  | cons k' ks ih =>
    have hne : (k' == k) = false := by
      apply beq_false_of_ne
      rintro rfl
      exact h List.mem_cons_self
    simp only [membersSize, ih fun hm => h (List.mem_cons_of_mem _ hm), Store.get?, List.lookup, hne]

theorem membersSize_le (K : Nat) (B : Nat → Nat) (st : Store) (ks : List FieldKey) (h : ks.Nodup) :
    membersSize K B st ks ≤ Val.footprintF K B st := by
  induction st generalizing ks with
  | nil =>
    have : membersSize K B [] ks = 0 := by
      clear h
      induction ks with
      | nil => rfl
      | cons k ks ih => simp only [membersSize, Store.get?, List.lookup, ih]
    omega
  | cons x st ih =>
    obtain ⟨k, v⟩ := x
    simp only [Val.footprintF]
    by_cases hk : k ∈ ks
    · obtain ⟨l, r, rfl⟩ := List.append_of_mem hk
      have hp : (l ++ k :: r).Perm (k :: (l ++ r)) := List.perm_middle
      have hnd := hp.nodup_iff.1 h
      rw [List.nodup_cons] at hnd
      have hl : k ∉ l := fun hm => hnd.1 (List.mem_append_left _ hm)
      have hr : k ∉ r := fun hm => hnd.1 (List.mem_append_right _ hm)
      have h1 := ih _ hnd.2
      rw [membersSize_append] at h1 ⊢
      rw [membersSize_skip hl]
      simp only [membersSize, Store.get?, List.lookup, beq_self_eq_true]
      rw [membersSize_skip hr]
      omega
    · rw [membersSize_skip hk]
      have := ih ks h
      omega

theorem refs_get? {st : Store} {k : FieldKey} {v : Val} (h : st.get? k = some v) {a : Nat} (ha : a ∈ v.refs) : a ∈ (Val.obj st).refs := by
  simp only [Val.refs]
  induction st with
  | nil => cases h
  | cons x st ih =>
    obtain ⟨k', v'⟩ := x
    simp only [Store.get?, List.lookup] at h
    simp only [Val.refsF, List.mem_append]
    split at h
    · cases h
      exact Or.inl ha
    · exact Or.inr (ih h)

theorem refsL_mem {vs : List Val} {v : Val} (h : v ∈ vs) {a : Nat} (ha : a ∈ v.refs) : a ∈ Val.refsL vs := by
  induction vs with
  | nil => cases h
  | cons w vs ih =>
    simp only [Val.refsL, List.mem_append]
    rcases List.mem_cons.1 h with rfl | h
    · exact Or.inl ha
    · exact Or.inr (ih h)

theorem refsKV_mem {kvs : List (Val × Val)} {q : Val × Val} (h : q ∈ kvs) {a : Nat} (ha : a ∈ q.1.refs ∨ a ∈ q.2.refs) : a ∈ Val.refsKV kvs := by
  induction kvs with
  | nil => cases h
  | cons w vs ih =>
    obtain ⟨k, v⟩ := w
    simp only [Val.refsKV, List.mem_append]
    rcases List.mem_cons.1 h with rfl | h
    · exact Or.inl ha
    · exact Or.inr (ih h)

section
variable {E : Env} {H : Heap} {K : Nat} {dom : List Nat}

local notation "fp" => Val.footprint K (fun _ => 0)

theorem size_elems {self : Nat → Ty → Val → WM Unit} {t : Ty} (vs : List Val) (hs : ∀ v ∈ vs, WritesUpTo K H dom (fp v) (self 0 t v)) :
    WritesUpTo K H dom (Val.footprintL K (fun _ => 0) vs) (writeElems self t vs) := by
  induction vs with
  | nil => exact .pure _ _
  | cons v vs ih => exact (hs v List.mem_cons_self).bind fun _ => ih fun v hv => hs v (List.mem_cons_of_mem _ hv)

theorem size_entries {self : Nat → Ty → Val → WM Unit} {k t : Ty} (kvs : List (Val × Val))
    (hs : ∀ q ∈ kvs, WritesUpTo K H dom (fp q.1 + fp q.2) (self 0 (.pair k t) (.tup [q.1, q.2]))) :
    WritesUpTo K H dom (Val.footprintKV K (fun _ => 0) kvs) (writeEntries self k t kvs) := by
  induction kvs with
  | nil => exact .pure _ _
  | cons v vs ih => exact (hs v List.mem_cons_self).bind fun _ => ih fun v hv => hs v (List.mem_cons_of_mem _ hv)

theorem size_fields {self : Nat → Ty → Val → WM Unit} {w : Nat} {st : Store} (fs : List (Guard × Field))
    (hs : ∀ t k v, st.get? k = some v → WritesUpTo K H dom (fp v) (self w t v)) :
    WritesUpTo K H dom (membersSize K (fun _ => 0) st (fs.map fun gf => gf.2.key)) (writeFields self w fs st) := by
  induction fs with
  | nil => exact .pure _ _
  | cons gf fs ih =>
    obtain ⟨g, f⟩ := gf
    simp only [writeFields, List.map_cons, membersSize]
    by_cases hg : g.holds w = true
    · rw [if_pos hg]
      cases hv : st.get? f.key with
      | none => exact .stuck _
      | some v => exact (hs _ _ v hv).bind fun _ => ih
    · rw [if_neg hg]
      exact ih.mono (Nat.le_add_left _ _)

theorem size_bases {self : Nat → Ty → Val → WM Unit} {w : Nat} {st : Store} {cs : List ClassId} {ks : List FieldKey} {n : Nat}
    (hm : WrittenMembers E cs ks n)
    (hs : ∀ c ks n, WrittenMembers E [c] ks n → WritesUpTo K H dom (8 * n + membersSize K (fun _ => 0) st ks) (self w (.cls c) (.obj st))) :
    WritesUpTo K H dom (8 * n + membersSize K (fun _ => 0) st ks) (writeBases self w cs (.obj st)) := by
  induction hm with
  | nil => exact .pure _ _
  | @cons c ci cs ks1 ks2 n1 n2 hc h1 h2 ih1 ih2 =>
    have hone : WrittenMembers E [c] (ks1 ++ ci.bin.writeFields.map (fun gf => gf.2.key) ++ []) (n1 + (if ci.bin.version.isSome then 1 else 0) + 0) :=
      .cons hc h1 .nil
    refine ((hs c _ _ hone).bind fun _ => ih2).mono ?_
    simp only [membersSize_append, membersSize]
    omega

/-- The number of bytes written is bounded by the size of the value and of the objects written for the first time. -/
theorem write_size (hW : WritesOnce E K) (hit : ∀ vs, (E.iter vs).Perm vs) (hitkv : ∀ kvs, (E.iterKV kvs).Perm kvs)
    {P : Nat → Prop} (hdom : ∀ a, P a → a ∈ dom ∧ ∀ x, H a = some x → ∀ b ∈ x.refs, P b) (n : Nat) :
    (∀ w t v, (∀ a ∈ v.refs, P a) → WritesUpTo K H dom (fp v) (write E H n w t v)) ∧
    (∀ x y w t t', (∀ a ∈ (Val.tup [x, y]).refs, P a) → WritesUpTo K H dom (fp x + fp y) (write E H n w (.pair t t') (.tup [x, y]))) ∧
    (∀ w c st ks m, (∀ a ∈ (Val.obj st).refs, P a) → WrittenMembers E [c] ks m →
      WritesUpTo K H dom (8 * m + membersSize K (fun _ => 0) st ks) (write E H n w (.cls c) (.obj st))) := by
  obtain ⟨hK, hW⟩ := hW
  induction n with
  | zero => exact ⟨fun _ _ _ _ _ => trivial, fun _ _ _ _ _ _ _ => trivial, fun _ _ _ _ _ _ _ _ => trivial⟩
  | succ n ih =>
    obtain ⟨ih1, ihp, ih2⟩ := ih
    have hcls : ∀ w c st ks m, (∀ a ∈ (Val.obj st).refs, P a) → WrittenMembers E [c] ks m →
        WritesUpTo K H dom (8 * m + membersSize K (fun _ => 0) st ks) (write E H (n + 1) w (.cls c) (.obj st)) := by
      intro w c st ks m hr hm
      cases hm with
      | @cons _ ci _ ks1 ks2 n1 n2 hc h1 h2 =>
      cases h2
      show WritesUpTo K H dom _ (match E.cls c with | none => M.stuck | some ci => writeClass (write E H n) ci w st)
      rw [hc]
      refine ((size_bases h1 fun c ks m hm => ih2 w c st ks m hr hm).bind fun _ => (WritesUpTo.version _ _).bind fun _ =>
        size_fields _ fun t k v hv => ih1 _ t v fun a ha => hr a (refs_get? hv ha)).mono ?_
      simp only [membersSize_append, membersSize]
      omega
    have hpair : ∀ x y w t t', (∀ a ∈ (Val.tup [x, y]).refs, P a) →
        WritesUpTo K H dom (fp x + fp y) (write E H (n + 1) w (.pair t t') (.tup [x, y])) := by
      intro x y w t t' hr
      exact (ih1 0 t x fun a ha => hr a (by simp [Val.refs, Val.refsL, ha])).bind fun _ =>
        ih1 0 t' y fun a ha => hr a (by simp [Val.refs, Val.refsL, ha])
    refine ⟨fun w t v hr => ?_, hpair, hcls⟩
    by_cases hcl : ∃ c st, t = .cls c ∧ v = .obj st
    · obtain ⟨c, st, rfl, rfl⟩ := hcl
      cases hc : E.cls c with
      | none =>
        show WritesUpTo K H dom _ (match E.cls c with | none => M.stuck | some ci => writeClass (write E H n) ci w st)
        rw [hc]
        exact .stuck _
      | some ci =>
        obtain ⟨ks, m, hm, hnd, hmK⟩ := hW c ci hc
        refine (hcls w c st ks m hr hm).mono ?_
        have := membersSize_le K (fun _ => 0) st ks hnd
        simp only [Val.footprint]
        omega
    · show WritesUpTo K H dom _ (writeStep E H (write E H n) w t v)
      unfold writeStep
      split
      · exact .ub _
      · exact .emit (by simp only [Val.footprint, List.length_singleton]; omega)
      · split
        · exact .stuck _
        · rename_i it i _
          refine .emit ?_
          rw [intBytes, beBytes_len]
          simp only [Val.footprint]
          have : it.bytes ≤ 8 := by cases it <;> decide
          omega
      · refine .emit ?_
        rw [beBytes_len]
        simp only [Val.footprint]
        omega
      · refine .emit ?_
        rw [beBytes_len]
        simp only [Val.footprint]
        omega
      · rename_i s
        refine ((WritesUpTo.varint _).bind fun _ => WritesUpTo.emit (Nat.le_refl s.length)).mono ?_
        simp only [Val.footprint]
        omega
      · exact ih1 _ _ _ hr
      · rename_i a b x y
        refine (hpair x y w a b hr).mono ?_
        simp only [Val.footprint, Val.footprintL]
        omega
      · exact .emit (by simp only [Val.footprint, List.length_singleton]; omega)
      · rename_i t' v'
        refine ((WritesUpTo.emit (Nat.le_refl _)).bind fun _ => ih1 0 t' v' hr).mono ?_
        simp only [Val.footprint, List.length_singleton]
        omega
      · exact .emit (by simp only [Val.footprint, List.length_singleton]; omega)
      · rename_i t' v'
        refine ((WritesUpTo.emit (Nat.le_refl _)).bind fun _ => ih1 0 t' v' hr).mono ?_
        simp only [Val.footprint, List.length_singleton]
        omega
      · exact (WritesUpTo.byte _).mono (by simp only [Val.footprint]; omega)
      · rename_i t' a
        have ha : P a := hr a (by simp [Val.refs])
        refine (WritesUpTo.shared (b := match H a with | some v => write E H n 0 t' v | none => M.ub) hK (hdom a ha).1 ?_ ?_).mono
          (by simp only [Val.footprint]; omega)
        · intro v hv
          simp only [hv]
          exact ih1 0 t' v ((hdom a ha).2 v hv)
        · intro hv
          simp only [hv]
      · rename_i t' vs
        refine ((WritesUpTo.varint _).bind fun _ => size_elems vs fun v hv => ih1 0 t' v fun a ha => hr a (refsL_mem hv ha)).mono ?_
        simp only [Val.footprint]
        omega
      · rename_i hashed _ t' vs
        have hp : (E.order hashed vs).Perm vs := by
          unfold Env.order
          split
          · exact hit vs
          · exact .refl _
        refine ((WritesUpTo.varint _).bind fun _ => size_elems _ fun v hv => ih1 0 t' v fun a ha =>
          hr a (refsL_mem (hp.mem_iff.1 hv) ha)).mono ?_
        rw [footprintL_perm K _ hp]
        simp only [Val.footprint]
        omega
      · rename_i hashed _ k t' kvs
        have hp : (E.orderKV hashed kvs).Perm kvs := by
          unfold Env.orderKV
          split
          · exact hitkv kvs
          · exact .refl _
        refine ((WritesUpTo.varint _).bind fun _ => size_entries _ fun q hq => ihp q.1 q.2 0 k t' fun a ha =>
          hr a (refsKV_mem (hp.mem_iff.1 hq) ?_)).mono ?_
        · simpa [Val.refs, Val.refsL] using ha
        · rw [footprintKV_perm K _ hp]
          simp only [Val.footprint]
          omega
      · exact ((WritesUpTo.byte _).bind fun _ => WritesUpTo.throw _ 0).mono (by simp only [Val.footprint]; omega)
      · rename_i ts i v'
        split
        · exact .stuck _
        · exact (WritesUpTo.byte _).mono (by simp only [Val.footprint]; omega)
        · rename_i t' _ _
          refine ((WritesUpTo.byte _).bind fun _ => ih1 0 t' v' hr).mono ?_
          simp only [Val.footprint]
          omega
      · rename_i c st
        exact absurd ⟨c, st, rfl, rfl⟩ hcl
      · refine .emit ?_
        rw [intBytes, beBytes_len]
        simp only [Val.footprint]
        omega
      · refine .emit ?_
        rw [intBytes, beBytes_len]
        simp only [Val.footprint]
        omega
      · exact .stuck _

end

end Verif
