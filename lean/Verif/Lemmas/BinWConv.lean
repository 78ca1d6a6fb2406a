import Verif.Lemmas.BinConv
import Verif.Lemmas.BinWClosed

/-!
# Termination of writing
-/

namespace Verif

section
variable (E : Env) (H : Heap)

theorem write_monoF (w : Nat) (t : Ty) (v : Val) : Mono (fun n => write E H n w t v) := fun _ _ h => write_le E H h w t v
theorem writeBases_monoF (w : Nat) (bs : List ClassId) (v : Val) : Mono (fun n => writeBases (write E H n) w bs v) :=
  fun _ _ h => rel2_le.writeBases (fun w t v => write_le E H h w t v) w bs v

end

/-- number of objects not yet written, among those with addresses in `dom` -/
def unseen (dom : List Nat) (ws : WSt) : Nat := (dom.filter fun a => decide (a ∉ ws.seen)).length

theorem unseen_le {dom : List Nat} {ws ws' : WSt} (h : ws.seen <:+ ws'.seen) : unseen dom ws' ≤ unseen dom ws := by
  unfold unseen
  rw [← List.countP_eq_length_filter, ← List.countP_eq_length_filter]
  refine List.countP_mono_left fun a _ ha => ?_
  simp only [decide_eq_true_eq] at ha ⊢
  exact fun hm => ha (h.subset hm)

theorem unseen_lt {dom : List Nat} {ws : WSt} {a : Nat} {out : Str} (ha : a ∈ dom) (hn : a ∉ ws.seen) : unseen dom ⟨out, a :: ws.seen⟩ < unseen dom ws := by
  unfold unseen
  simp only
  induction dom with
  | nil => cases ha
  | cons d dom ih =>
    have hle : (dom.filter fun x => decide (x ∉ a :: ws.seen)).length ≤ (dom.filter fun x => decide (x ∉ ws.seen)).length :=
      unseen_le (dom := dom) (ws := ws) (ws' := ⟨out, a :: ws.seen⟩) (List.suffix_cons _ _)
    by_cases hd : d = a
    · subst hd
      rw [List.filter_cons_of_neg (by simp), List.filter_cons_of_pos (by simpa using hn), List.length_cons]
      omega
    · have ih' := ih ((List.mem_cons.1 ha).resolve_left (Ne.symm hd))
      by_cases hs : d ∈ ws.seen
      · rw [List.filter_cons_of_neg (by simp [hs]), List.filter_cons_of_neg (by simp [hs])]
        exact ih'
      · rw [List.filter_cons_of_pos (by simp [hs, hd]), List.filter_cons_of_pos (by simp [hs])]
        simp only [List.length_cons]
        omega

/-- tie-breaker for steps which keep the value -/
def Ty.wrank (rk : ClassId → Nat) : Ty → Nat
  | .enum _ => 1
  | .map _ _ _ _ => 1
  | .cls c => rk c + 1
  | _ => 0

theorem sizeOf_get? {st : Store} {k : FieldKey} {v : Val} (h : st.get? k = some v) : sizeOf v < sizeOf (Val.obj st) := by
  induction st with
  | nil => cases h
  | cons x st ih =>
    obtain ⟨k', v'⟩ := x
    simp only [Store.get?, List.lookup] at h
    simp only [Val.obj.sizeOf_spec, List.cons.sizeOf_spec, Prod.mk.sizeOf_spec] at ih ⊢
    split at h
    · cases h
      omega
    · have := ih h
      omega

section
variable {E : Env} {H : Heap}

theorem wconv_elems {t : Ty} (vs : List Val) {P : WSt → Prop} (hP : ∀ s s' : WSt, s.seen <:+ s'.seen → P s → P s')
    (hc : ∀ v ∈ vs, ∀ s, P s → Conv (fun n => write E H n 0 t v) s) (s : WSt) (hs : P s) :
    Conv (fun n => writeElems (write E H n) t vs) s := by
  induction vs generalizing s with
  | nil => exact Conv.pure
  | cons v vs ih =>
    refine Conv.bind (G := fun n _ => writeElems (write E H n) t vs) (write_monoF E H 0 t v) (hc v List.mem_cons_self s hs) fun n a s' h => ?_
    exact ih (fun v hv => hc v (List.mem_cons_of_mem _ hv)) s' (hP _ _ ((write_appends E H n 0 t v).ok h).2 hs)

theorem wconv_entries {k t : Ty} (kvs : List (Val × Val)) {P : WSt → Prop} (hP : ∀ s s' : WSt, s.seen <:+ s'.seen → P s → P s')
    (hc : ∀ q ∈ kvs, ∀ s, P s → Conv (fun n => write E H n 0 (.pair k t) (.tup [q.1, q.2])) s) (s : WSt) (hs : P s) :
    Conv (fun n => writeEntries (write E H n) k t kvs) s := by
  induction kvs generalizing s with
  | nil => exact Conv.pure
  | cons v vs ih =>
    refine Conv.bind (G := fun n _ => writeEntries (write E H n) k t vs) (write_monoF E H 0 _ _) (hc v List.mem_cons_self s hs) fun n a s' h => ?_
    exact ih (fun v hv => hc v (List.mem_cons_of_mem _ hv)) s' (hP _ _ ((write_appends E H n 0 _ _).ok h).2 hs)

theorem wconv_bases {w : Nat} (bs : List ClassId) (v : Val) {P : WSt → Prop} (hP : ∀ s s' : WSt, s.seen <:+ s'.seen → P s → P s')
    (hc : ∀ b ∈ bs, ∀ s, P s → Conv (fun n => write E H n w (.cls b) v) s) (s : WSt) (hs : P s) :
    Conv (fun n => writeBases (write E H n) w bs v) s := by
  induction bs generalizing s with
  | nil => exact Conv.pure
  | cons b bs ih =>
    refine Conv.bind (G := fun n _ => writeBases (write E H n) w bs v) (write_monoF E H _ _ _) (hc b List.mem_cons_self s hs) fun n a s' h => ?_
    exact ih (fun v hv => hc v (List.mem_cons_of_mem _ hv)) s' (hP _ _ ((write_appends E H n _ _ _).ok h).2 hs)

theorem wconv_fields {w : Nat} (fs : List (Guard × Field)) (st : Store) {P : WSt → Prop} (hP : ∀ s s' : WSt, s.seen <:+ s'.seen → P s → P s')
    (hc : ∀ f ∈ fs, ∀ v, st.get? f.2.key = some v → ∀ s, P s → Conv (fun n => write E H n w f.2.ty v) s) (s : WSt) (hs : P s) :
    Conv (fun n => writeFields (write E H n) w fs st) s := by
  induction fs generalizing s with
  | nil => exact Conv.pure
  | cons gf fs ih =>
    obtain ⟨g, f⟩ := gf
    have ih' := ih fun f hf => hc f (List.mem_cons_of_mem _ hf)
    simp only [writeFields]
    split
    · split
      · exact Conv.const (by simp)
      · rename_i v hv
        refine Conv.bind (G := fun n _ => writeFields (write E H n) w fs st) (write_monoF E H _ _ _)
          (hc (g, f) List.mem_cons_self v hv s hs) fun n a s' h => ?_
        exact ih' s' (hP _ _ ((write_appends E H n _ _ _).ok h).2 hs)
    · exact ih' s hs

theorem appends_seen {α : Type} {m : WM α} {s s' : WSt} {a : α} (h : Appends α m) (he : m s = .ok a s') : s.seen <:+ s'.seen := (h.ok he).2

/-- writing terminates -/
theorem write_conv {rk : ClassId → Nat} (hrk : ∀ c ci, E.cls c = some ci → ∀ b ∈ ci.bin.bases, rk b < rk c)
    (hit : ∀ vs, ∀ v ∈ E.iter vs, v ∈ vs) (hitkv : ∀ kvs, ∀ q ∈ E.iterKV kvs, q ∈ kvs)
    {dom : List Nat} (hdom : ∀ a v, H a = some v → a ∈ dom) (w : Nat) (t : Ty) (v : Val) (s : WSt) :
    Conv (fun n => write E H n w t v) s := by
  suffices h : ∀ (u z r : Nat) (w : Nat) (t : Ty) (v : Val) (s : WSt), unseen dom s ≤ u → sizeOf v ≤ z → t.wrank rk ≤ r →
      Conv (fun n => write E H n w t v) s from h _ _ _ w t v s (Nat.le_refl _) (Nat.le_refl _) (Nat.le_refl _)
  intro u
  induction u using Nat.strongRecOn with
  | _ u ihu =>
  intro z
  induction z using Nat.strongRecOn with
  | _ z ihz =>
  intro r
  induction r using Nat.strongRecOn with
  | _ r ihr =>
  intro w t v s hu hz hr
  have hP : ∀ s s' : WSt, s.seen <:+ s'.seen → unseen dom s ≤ u → unseen dom s' ≤ u := fun s s' h h1 => (unseen_le h).trans h1
  have hsub : ∀ w t' v', sizeOf v' < sizeOf v → ∀ s, unseen dom s ≤ u → Conv (fun n => write E H n w t' v') s :=
    fun w t' v' h s hs => ihz (sizeOf v') (by omega) _ w t' v' s hs (Nat.le_refl _) (Nat.le_refl _)
  have hrank : ∀ w t' v', sizeOf v' ≤ sizeOf v → t'.wrank rk < t.wrank rk → ∀ s, unseen dom s ≤ u → Conv (fun n => write E H n w t' v') s :=
    fun w t' v' h1 h2 s hs => ihr (t'.wrank rk) (by omega) w t' v' s hs (by omega) (Nat.le_refl _)
  have hlist : ∀ (vs : List Val) v', v' ∈ vs → sizeOf v' < sizeOf (Val.list vs) := by
    intro vs v' h
    have := List.sizeOf_lt_of_mem h
    simp only [Val.list.sizeOf_spec]
    omega
  have hstep : Conv (fun n => writeStep E H (write E H n) w t v) s := by
    unfold writeStep
    split
    · exact Conv.const (by simp)
    · exact Conv.const (emit_nf _ _)
    · split
      · exact Conv.const (by simp)
      · exact Conv.const (emit_nf _ _)
    · exact Conv.const (emit_nf _ _)
    · exact Conv.const (emit_nf _ _)
    · exact Conv.const (bind_nf (writeVarint_nf _) (fun _ => emit_nf _) s)
    · exact hrank _ _ _ (Nat.le_refl _) (by simp [Ty.wrank]) s hu
    · rename_i a b x y
      refine Conv.bind (G := fun n _ => write E H n 0 b y) (write_monoF E H _ _ _) (hsub 0 a x (by simp; omega) s hu) fun n _ s' h => ?_
      exact hsub 0 b y (by simp; omega) s' (hP _ _ ((write_appends E H n _ _ _).ok h).2 hu)
    · exact Conv.const (emit_nf _ _)
    · rename_i t' v'
      refine Conv.bindConst (G := fun n _ => write E H n 0 t' v') (emit_nf _ _) fun _ s' h => ?_
      exact hsub 0 t' v' (by simp) s' (hP _ _ (appends_seen (.emit _) h) hu)
    · exact Conv.const (emit_nf _ _)
    · rename_i t' v'
      refine Conv.bindConst (G := fun n _ => write E H n 0 t' v') (emit_nf _ _) fun _ s' h => ?_
      exact hsub 0 t' v' (by simp) s' (hP _ _ (appends_seen (.emit _) h) hu)
    · exact Conv.const (writeByte_nf _ _)
    · -- shared pointer
      rename_i t' a
      refine Conv.bindConst (G := fun n written => do
        writeByte (sptrMode written (bigId a))
        writeId a
        if written then pure ()
        else do
          markWritten a
          match H a with
          | some v => write E H n 0 t' v
          | none => M.ub) (by simp [alreadyWritten]) fun written s1 h1 => ?_
      have e1 : s1 = s ∧ written = decide (a ∈ s.seen) := by
        cases h1
        exact ⟨rfl, rfl⟩
      obtain ⟨rfl, rfl⟩ := e1
      refine Conv.bindConst (G := fun n _ => do
        writeId a
        if decide (a ∈ s1.seen) then pure ()
        else do
          markWritten a
          match H a with
          | some v => write E H n 0 t' v
          | none => M.ub) (writeByte_nf _ _) fun _ s2 h2 => ?_
      refine Conv.bindConst (G := fun n _ =>
        if decide (a ∈ s1.seen) then pure ()
        else do
          markWritten a
          match H a with
          | some v => write E H n 0 t' v
          | none => M.ub) (writeId_nf _ _) fun _ s3 h3 => ?_
      by_cases ha : a ∈ s1.seen
      · simp only [ha, decide_true, if_true]
        exact Conv.pure
      · simp only [ha, decide_false]
        refine Conv.bindConst (G := fun n _ => match H a with
          | some v => write E H n 0 t' v
          | none => M.ub) (by simp [markWritten]) fun _ s4 h4 => ?_
        cases hx : H a with
        | none => exact Conv.const (by simp)
        | some x =>
          have hs2 : s2.seen = s1.seen := by cases h2; rfl
          have hs3 : s3.seen = s2.seen := by
            unfold writeId at h3
            split at h3
            · cases h3
              rfl
            · obtain ⟨L, -, rfl⟩ := writeVarint_ok h3
              rfl
          have hs4 : s4 = ⟨s3.out, a :: s1.seen⟩ := by
            cases h4
            show (⟨s3.out, a :: s3.seen⟩ : WSt) = _
            rw [hs3, hs2]
          have hlt : unseen dom s4 < unseen dom s1 := by
            rw [hs4]
            exact unseen_lt (hdom a x hx) ha
          exact ihu (unseen dom s4) (by omega) _ _ 0 t' x s4 (Nat.le_refl _) (Nat.le_refl _) (Nat.le_refl _)
    · rename_i t' vs
      refine Conv.bindConst (G := fun n _ => writeElems (write E H n) t' vs) (writeVarint_nf _ _) fun _ s' h => ?_
      exact wconv_elems vs hP (fun v' hv' s hs => hsub 0 t' v' (hlist _ _ hv') s hs) s' (hP _ _ (appends_seen (.varint _) h) hu)
    · rename_i hashed multi t' vs
      refine Conv.bindConst (G := fun n _ => writeElems (write E H n) t' (E.order hashed vs)) (writeVarint_nf _ _) fun _ s' h => ?_
      refine wconv_elems _ hP (fun v' hv' s hs => hsub 0 t' v' (hlist _ _ ?_) s hs) s' (hP _ _ (appends_seen (.varint _) h) hu)
      unfold Env.order at hv'
      split at hv'
      · exact hit _ _ hv'
      · exact hv'
    · rename_i hashed multi k t' kvs
      refine Conv.bindConst (G := fun n _ => writeEntries (write E H n) k t' (E.orderKV hashed kvs)) (writeVarint_nf _ _) fun _ s' h => ?_
      refine wconv_entries _ hP (fun q hq s hs => hrank 0 _ _ ?_ (by simp [Ty.wrank]) s hs) s' (hP _ _ (appends_seen (.varint _) h) hu)
      have hq' : q ∈ kvs := by
        unfold Env.orderKV at hq
        split at hq
        · exact hitkv _ _ hq
        · exact hq
      have h1 : sizeOf q + 2 ≤ sizeOf kvs := by
        clear hq h hz hsub hrank hr
        induction kvs with
        | nil => cases hq'
        | cons y kvs ih =>
          rw [List.cons.sizeOf_spec]
          rcases List.mem_cons.1 hq' with rfl | h
          · have : 1 ≤ sizeOf kvs := by cases kvs <;> simp <;> omega
            omega
          · have := ih h
            omega
      have h2 : sizeOf q = 1 + sizeOf q.1 + sizeOf q.2 := by
        obtain ⟨a, b⟩ := q
        rfl
      simp
      omega
    · exact Conv.const (bind_nf (writeByte_nf _) (fun _ _ => by simp) s)
    · rename_i ts i v'
      split
      · exact Conv.const (by simp)
      · exact Conv.const (writeByte_nf _ _)
      · rename_i t' _ _
        refine Conv.bindConst (G := fun n _ => write E H n 0 t' v') (writeByte_nf _ _) fun _ s' h => ?_
        exact hsub 0 t' v' (by simp) s' (hP _ _ (appends_seen (.emit _) h) hu)
    · rename_i c st
      split
      · exact Conv.const (by simp)
      · rename_i ci hci
        unfold writeClass
        refine Conv.bind (G := fun n _ => do
          writeVersion ci.bin.version w
          writeFields (write E H n) (effVersion ci.bin.version w) ci.bin.writeFields st) (writeBases_monoF E H _ _ _)
          (wconv_bases ci.bin.bases _ hP (fun b hb s hs => hrank w (.cls b) _ (Nat.le_refl _) ?_ s hs) s hu) fun n _ s1 h1 => ?_
        · have := hrk c ci hci b hb
          simp only [Ty.wrank]
          omega
        · have hu1 := hP _ _ (appends_seen ((appends_closed H).to3.bases (self' := write E H n) (fun w t v => write_appends E H n w t v) _ _ _) h1) hu
          refine Conv.bindConst (G := fun n _ => writeFields (write E H n) (effVersion ci.bin.version w) ci.bin.writeFields st)
            (writeVersion_nf _ _ _) fun _ s2 h2 => ?_
          refine wconv_fields _ _ hP (fun f _ v' hv' s hs => hsub _ _ v' (sizeOf_get? hv') s hs) s2
            (hP _ _ (appends_seen ((appends_closed H).to3.version _ _) h2) hu1)
    · exact Conv.const (emit_nf _ _)
    · exact Conv.const (emit_nf _ _)
    · exact Conv.const (by simp)
  obtain ⟨n, hn⟩ := hstep
  refine ⟨n + 1, fun m hm => ?_⟩
  obtain ⟨m, rfl⟩ := Nat.exists_eq_add_of_le' (show 1 ≤ m by omega)
  exact hn m (by omega)

end

end Verif
