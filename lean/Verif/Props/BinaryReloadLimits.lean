import Verif.Props.BinaryReload
import Verif.Props.BinaryVersions
import Verif.Props.JsonSets

/-!
# C67 (limits): which members survive saving and loading when versions change
-/

namespace Verif

open Demo (env)

section
variable {E : Env} {H : Heap}

theorem writeFields_agree (self : Nat → Ty → Val → WM Unit) (w : Nat) (fs : List (Guard × Field)) (st st' : Store)
    (h : ∀ f ∈ activeFields w fs, st.get? f.key = st'.get? f.key) : writeFields self w fs st = writeFields self w fs st' := by
  induction fs with
  | nil => rfl
  | cons gf fs ih =>
    obtain ⟨g, f⟩ := gf
    unfold activeFields at ih h
    rw [List.filter_cons] at h
    by_cases hg : g.holds w = true
    · rw [if_pos hg, List.map_cons] at h
      rw [writeFields, writeFields, if_pos hg, if_pos hg, h f (.head _), ih fun f hf => h f (.tail _ hf)]
    · rw [if_neg hg] at h
      rw [writeFields, writeFields, if_neg hg, if_neg hg, ih h]

theorem writeBases_agree (self : Nat → Ty → Val → WM Unit) (w : Nat) (bs : List ClassId) (v v' : Val)
    (h : ∀ b ∈ bs, self w (.cls b) v = self w (.cls b) v') : writeBases self w bs v = writeBases self w bs v' := by
  induction bs with
  | nil => rfl
  | cons b bs ih => rw [writeBases, writeBases, h b (.head _), ih fun b hb => h b (.tail _ hb)]

theorem write_agree (n w : Nat) (c : ClassId) (st st' : Store)
    (h : ∀ eff f, Saved E w c eff f → st.get? f.key = st'.get? f.key) :
    write E H n w (.cls c) (.obj st) = write E H n w (.cls c) (.obj st') := by
  induction n generalizing c with
  | zero => rfl
  | succ n ih =>
    cases hc : E.cls c with
    | none => simp only [write, writeStep, hc]
    | some ci =>
      simp only [write, writeStep, hc, writeClass]
      rw [writeBases_agree _ _ _ _ (.obj st') fun b hb => ih b fun eff f hf => h eff f (.base hc hb hf),
        writeFields_agree _ _ _ st st' fun f hf => ?_]
      cases hv : ci.bin.version with
      | none => rw [hv] at hf; exact h _ f (.own hc hv hf)
      | some m => rw [hv] at hf; exact h _ f (.ownVersioned _ hc hv rfl hf)

theorem readFields_kept (self : Nat → Ty → Val → RM Val) (w : Nat) (fs : List (Guard × Field)) (st st' : Store) (s s' : RSt)
    (h : readFields self w fs st s = .ok st' s') (key : FieldKey) (hk : ∀ f ∈ activeFields w fs, f.key ≠ key) :
    st'.get? key = st.get? key := by
  induction fs generalizing st s with
  | nil => cases h; rfl
  | cons gf fs ih =>
    obtain ⟨g, f⟩ := gf
    unfold activeFields at ih hk
    rw [List.filter_cons] at hk
    by_cases hg : g.holds w = true
    · rw [if_pos hg, List.map_cons] at hk
      rw [readFields, if_pos hg] at h
      cases hp : st.get? f.key with
      | none => rw [hp] at h; cases h
      | some p =>
        rw [hp] at h
        obtain ⟨v, s1, -, h2⟩ := M.bind_eq_ok.1 h
        rw [ih _ _ h2 fun f hf => hk f (.tail _ hf), get?_set_ne _ _ (Ne.symm (hk f (.head _)))]
    · rw [if_neg hg] at hk
      rw [readFields, if_neg hg] at h
      exact ih _ _ h hk

theorem readBases_kept (self : Nat → Ty → Val → RM Val) (w : Nat) (bs : List ClassId) (key : FieldKey)
    (hs : ∀ b ∈ bs, ∀ (st : Store) v s s', self w (.cls b) (.obj st) s = .ok v s' → ∃ st' : Store, v = .obj st' ∧ st'.get? key = st.get? key)
    (st : Store) (v : Val) (s s' : RSt) (h : readBases self w bs (.obj st) s = .ok v s') :
    ∃ st' : Store, v = .obj st' ∧ st'.get? key = st.get? key := by
  induction bs generalizing st s with
  | nil => cases h; exact ⟨st, rfl, rfl⟩
  | cons b bs ih =>
    obtain ⟨v1, s1, h1, h2⟩ := M.bind_eq_ok.1 h
    obtain ⟨st1, rfl, e1⟩ := hs b (.head _) st v1 s s1 h1
    obtain ⟨st2, rfl, e2⟩ := ih (fun b hb => hs b (.tail _ hb)) st1 s1 h2
    exact ⟨st2, rfl, e2.trans e1⟩

theorem readClass_kept (self : Nat → Ty → Val → RM Val) (ci : ClassInfo) (w : Nat) (key : FieldKey)
    (hs : ∀ b ∈ ci.bin.bases, ∀ (st : Store) v s s', self w (.cls b) (.obj st) s = .ok v s' →
      ∃ st' : Store, v = .obj st' ∧ st'.get? key = st.get? key)
    (st : Store) (v : Val) (x : Nat) (s s' : RSt) (h : readClass self ci w (.obj st) s = .ok (v, x) s')
    (hk : ∀ f ∈ activeFields x ci.bin.readFields, f.key ≠ key) : ∃ st' : Store, v = .obj st' ∧ st'.get? key = st.get? key := by
  rw [readClass] at h
  split at h
  · cases h
  · obtain ⟨v1, s1, h1, h2⟩ := M.bind_eq_ok.1 h
    obtain ⟨st1, rfl, e1⟩ := readBases_kept self w _ key hs st v1 s s1 h1
    obtain ⟨x', s2, -, h3⟩ := M.bind_eq_ok.1 h2
    obtain ⟨st2, s3, h4, h5⟩ := M.bind_eq_ok.1 h3
    cases h5
    exact ⟨st2, rfl, (readFields_kept self _ _ _ _ _ _ h4 key hk).trans e1⟩

theorem activeFields_sub {w : Nat} {fs : List (Guard × Field)} {f : Field} (h : f ∈ activeFields w fs) : ∃ g, (g, f) ∈ fs := by
  unfold activeFields at h
  obtain ⟨gf, h1, rfl⟩ := List.mem_map.1 h
  exact ⟨gf.1, (List.mem_filter.1 h1).1⟩

theorem read_kept (n w : Nat) (c : ClassId) (key : FieldKey) (hk : ∀ f, Loadable E c f → f.key ≠ key) (st : Store) (v : Val) (s s' : RSt)
    (h : read E n w (.cls c) (.obj st) s = .ok v s') : ∃ st' : Store, v = .obj st' ∧ st'.get? key = st.get? key := by
  induction n generalizing w c st v s s' with
  | zero => cases h
  | succ n ih =>
    cases hc : E.cls c with
    | none => simp only [read, readStep, hc] at h; cases h
    | some ci =>
      simp only [read, readStep, hc] at h
      obtain ⟨⟨v1, x⟩, s1, h1, h2⟩ := M.bind_eq_ok.1 h
      cases h2
      refine readClass_kept _ ci w key (fun b hb st v s s' h => ih w b (fun f hf => hk f (.base hc hb hf)) st v s s' h) st _ x s _ h1 ?_
      intro f hf
      obtain ⟨g, hg⟩ := activeFields_sub hf
      exact hk f (.own hc hg)

theorem writesMembers_each {n w : Nat} {st : Store} {fs : List Field} {s s' : WSt} (h : WritesMembers E H n w st fs s s') :
    ∀ f ∈ fs, ∃ v s1 s2, st.get? f.key = some v ∧ write E H n w f.ty v s1 = .ok () s2 := by
  induction h with
  | nil => intro f hf; cases hf
  | cons h1 h2 _ ih =>
    intro f hf
    rcases List.mem_cons.1 hf with rfl | hf
    · exact ⟨_, _, _, h1, h2⟩
    · exact ih f hf

theorem writesBases_each {n w : Nat} {v : Val} {bs : List ClassId} {s s' : WSt} (h : WritesBases E H n w v bs s s') :
    ∀ b ∈ bs, ∃ s1 s2, write E H n w (.cls b) v s1 = .ok () s2 := by
  induction h with
  | nil => intro f hf; cases hf
  | cons h1 _ ih =>
    intro f hf
    rcases List.mem_cons.1 hf with rfl | hf
    · exact ⟨_, _, h1⟩
    · exact ih f hf

end

/-- **C67** (limit, members which are not saved): what is written for an object does not depend on members which do not belong to the
version in effect. So after loading and saving an object of an old version, such members are lost: objects differing in them only
yield the same stream. -/
theorem C67_unsaved_members_lost (E : Env) (H : Heap) (n w : Nat) (c : ClassId) (st st' : Store)
    (h : ∀ eff f, Saved E w c eff f → st.get? f.key = st'.get? f.key) :
    toBinary E H n c (.obj st) w = toBinary E H n c (.obj st') w := by
  have := write_agree (H := H) n w c st st' h
  unfold toBinary
  rw [this]

/-- **C67** (limit, members which are not loaded): a member which does not belong to the version `x` of the stream (and is not a
member of a base class) is left as it was. -/
theorem C67_missing_members_untouched (E : Env) (n : Nat) (c : ClassId) (ci : ClassInfo) (hc : E.cls c = some ci) (st : Store)
    (inp : Str) (v : Val) (x : Nat) (rs : RSt) (h : restoreFromBinary E n c (.obj st) inp = .ok (v, x) rs) (key : FieldKey)
    (hk : ∀ f ∈ activeFields x ci.bin.readFields, f.key ≠ key) (hb : ∀ b ∈ ci.bin.bases, ∀ f, Loadable E b f → f.key ≠ key) :
    ∃ st' : Store, v = .obj st' ∧ st'.get? key = st.get? key := by
  simp only [restoreFromBinary, hc] at h
  exact readClass_kept _ ci 0 key (fun b hb' st v s s' h => read_kept n 0 b key (hb b hb') st v s s' h) st v x _ _ h hk

/-- **C67** (limit): an object can not be written if one of the members to be saved is an uninitialised scalar. -/
theorem C67_uninitialised_member_not_saved (E : Env) (H : Heap) (n w : Nat) (c : ClassId) (eff : Nat) (f : Field) (st : Store)
    (hf : Saved E w c eff f) (hs : Scalar f.ty) (hu : st.get? f.key = some .indet) (s s' : WSt) :
    write E H n w (.cls c) (.obj st) s ≠ .ok () s' := by
  have own : ∀ {n eff s s'} {fs : List Field}, f ∈ fs → WritesMembers E H n eff st fs s s' → False := by
    intro n eff s s' fs hf h
    obtain ⟨v, s1, s2, h1, h2⟩ := writesMembers_each h f hf
    rw [hu] at h1
    cases h1
    cases n with
    | zero => cases h2
    | succ n =>
      generalize f.ty = t at hs h2
      rcases hs with rfl | ⟨it, rfl⟩ | rfl | rfl | ⟨u, rfl⟩ <;> cases h2
  induction hf generalizing n s s' with
  | own hc hv hf =>
    intro h
    cases n with
    | zero => cases h
    | succ n =>
      obtain ⟨s1, -, h1⟩ := (C39_layout_of_unversioned_class E H n _ _ _ st s s' hc hv).1 h
      exact own hf h1
  | ownVersioned eff hc hv he hf =>
    intro h
    cases n with
    | zero => cases h
    | succ n =>
      obtain ⟨s1, L, -, -, h1⟩ := (C39_layout_of_versioned_class E H n _ _ _ _ st s s' hc hv).1 h
      exact own (he ▸ hf) h1
  | @base c ci b eff f hc hb _ ih =>
    intro h
    cases n with
    | zero => cases h
    | succ n =>
      have : ∃ s1, WritesBases E H n w (.obj st) ci.bin.bases s s1 := by
        cases hv : ci.bin.version with
        | none =>
          obtain ⟨s1, h1, -⟩ := (C39_layout_of_unversioned_class E H n _ _ _ st s s' hc hv).1 h
          exact ⟨s1, h1⟩
        | some m =>
          obtain ⟨s1, L, h1, -⟩ := (C39_layout_of_versioned_class E H n _ _ _ _ st s s' hc hv).1 h
          exact ⟨s1, h1⟩
      obtain ⟨s1, h1⟩ := this
      obtain ⟨s2, s3, h2⟩ := writesBases_each h1 b hb
      exact ih n hs hu s2 s3 own h2

/-! ### Examples -/

namespace BinReloadDemo

open Demo

/-- the member `i` (until version 1) does not matter when writing the current version (3) ... -/
example (n : Nat) (a b : Val) (m : List (Val × Val)) :
    toBinary retired (fun _ => none) n 0 (.obj [(fI.key, a), (fM.key, .map m)]) 0 =
      toBinary retired (fun _ => none) n 0 (.obj [(fI.key, b), (fM.key, .map m)]) 0 := by
  apply C67_unsaved_members_lost
  intro eff f hf
  cases hf with
  | own hc hv => cases hc; cases hv
  | ownVersioned _ hc hv he hf =>
    cases hc; cases hv; subst he
    have : f = fM := by simpa [activeFields, Guard.holds, g0] using hf
    subst this
    rfl
  | base hc hb => cases hc; cases hb

/-- ... and `i` (as of version 2) is not touched when reading a stream of version 1: it is still uninitialised, so the object can
not be saved. -/
example (n : Nat) (m : List (Val × Val)) (inp : Str) (v : Val) (rs : RSt) (k : Nat) (H : Heap) (s s' : WSt)
    (h : restoreFromBinary added n 0 (.obj [(fI.key, .indet), (fM.key, .map m)]) inp = .ok (v, 1) rs) :
    write added H k 0 (.cls 0) v s ≠ .ok () s' := by
  obtain ⟨st', rfl, h2⟩ := C67_missing_members_untouched added n 0 _ rfl _ inp v 1 rs h fI.key
    (by
      intro f hf
      have : f = fM := by simpa [activeFields, Guard.holds, g0] using hf
      subst this
      decide)
    (by intro b hb; cases hb)
  exact C67_uninitialised_member_not_saved added H k 0 0 3 fI st' (.ownVersioned 3 rfl rfl rfl (by decide)) (.inr (.inl ⟨_, rfl⟩)) h2 s s'

end BinReloadDemo

end Verif
