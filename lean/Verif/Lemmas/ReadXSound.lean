import Verif.Lemmas.ReadX

/-!
# Objects stay valid if reading them from binary data throws
-/

namespace Verif

/-- outcome of a deserialisation step: consistent state and `Q`, or an exception with consistent state and `P` of the object being read -/
def SoundX {α : Type} (E : Env) (HT : List Ty) (m : XR α) (s : RSt) (P : List Ty → Val → Prop) (Q : List Ty → α → Prop) : Prop :=
  match m s with
  | .ok a s' => ∃ HT', HT <+: HT' ∧ TypedSt E HT' s' ∧ Q HT' a
  | .exc (_, q) s' => ∃ HT', HT <+: HT' ∧ TypedSt E HT' s' ∧ P HT' q
  | _ => True

section
variable {α β : Type} {E : Env} {HT : List Ty} {s : RSt} {P P' : List Ty → Val → Prop}

theorem SoundX.bind {m : XR α} {f : α → XR β} {Q : List Ty → α → Prop} {Q' : List Ty → β → Prop} (h : SoundX E HT m s P Q)
    (hf : ∀ HT' a s', HT <+: HT' → TypedSt E HT' s' → Q HT' a → SoundX E HT' (f a) s' P Q') : SoundX E HT (m >>= f) s P Q' := by
  unfold SoundX at h ⊢
  cases hr : m s with
  | ok a s' =>
    rw [hr] at h
    obtain ⟨HT', h1, h2, h3⟩ := h
    have := hf HT' a s' h1 h2 h3
    unfold SoundX at this
    rw [M.bind_ok hr]
    cases hr' : f a s' with
    | ok b s2 =>
      rw [hr'] at this
      obtain ⟨HT2, h4, h5⟩ := this
      exact ⟨HT2, h1.trans h4, h5⟩
    | exc e s2 =>
      obtain ⟨e, q⟩ := e
      rw [hr'] at this
      obtain ⟨HT2, h4, h5⟩ := this
      exact ⟨HT2, h1.trans h4, h5⟩
    | ub => trivial
    | stuck => trivial
    | fuel => trivial
  | exc e s' => obtain ⟨e, q⟩ := e; rw [hr] at h; rw [M.bind_exc hr]; exact h
  | ub => rw [M.bind_apply, hr]; trivial
  | stuck => rw [M.bind_apply, hr]; trivial
  | fuel => rw [M.bind_apply, hr]; trivial

theorem SoundX.pure {a : α} {Q : List Ty → α → Prop} (hs : TypedSt E HT s) (h : Q HT a) : SoundX E HT (Pure.pure a) s P Q :=
  ⟨HT, List.prefix_refl _, hs, h⟩

theorem SoundX.throw {e : BExc} {q : Val} {Q : List Ty → α → Prop} (hs : TypedSt E HT s) (h : P HT q) :
    SoundX E HT (M.throw (e, q)) s P Q :=
  ⟨HT, List.prefix_refl _, hs, h⟩

theorem SoundX.ub {Q : List Ty → α → Prop} : SoundX E HT M.ub s P Q := trivial
theorem SoundX.stuck {Q : List Ty → α → Prop} : SoundX E HT M.stuck s P Q := trivial

theorem SoundX.weaken {m : XR α} {Q Q' : List Ty → α → Prop} (h : SoundX E HT m s P Q)
    (hP : ∀ HT' q, HT <+: HT' → P HT' q → P' HT' q)
    (hQ : ∀ HT' a, HT <+: HT' → Q HT' a → Q' HT' a) : SoundX E HT m s P' Q' := by
  unfold SoundX at h ⊢
  cases hr : m s with
  | ok a s' => rw [hr] at h; obtain ⟨HT', h1, h2, h3⟩ := h; exact ⟨HT', h1, h2, hQ _ _ h1 h3⟩
  | exc e s' => obtain ⟨e, q⟩ := e; rw [hr] at h; obtain ⟨HT', h1, h2, h3⟩ := h; exact ⟨HT', h1, h2, hP _ _ h1 h3⟩
  | _ => trivial

theorem SoundX.holding {m : RM α} {q : Val} {Q : List Ty → α → Prop} (h : Sound E HT m s Q) (hP : ∀ HT', HT <+: HT' → P HT' q) :
    SoundX E HT (holdingR q m) s P Q := by
  unfold Sound at h
  unfold SoundX holdingR
  cases hr : m s with
  | ok a s' => rw [hr] at h; exact h
  | exc e s' => rw [hr] at h; obtain ⟨HT', h1, h2⟩ := h; exact ⟨HT', h1, h2, hP _ h1⟩
  | _ => trivial

theorem SoundX.within {m : XR α} {g : Val → Val} {Q : List Ty → α → Prop} (h : SoundX E HT m s P Q)
    (hP : ∀ HT' q, HT <+: HT' → P HT' q → P' HT' (g q)) : SoundX E HT (withinR g m) s P' Q := by
  unfold SoundX at h ⊢
  unfold withinR
  cases hr : m s with
  | ok a s' => rw [hr] at h; exact h
  | exc e s' => obtain ⟨e, q⟩ := e; rw [hr] at h; obtain ⟨HT', h1, h2, h3⟩ := h; exact ⟨HT', h1, h2, hP _ _ h1 h3⟩
  | _ => trivial

/-- assigning a shared object keeps the state consistent -/
theorem TypedSt.store {t : Ty} {a : Nat} {v : Val} (h : TypedSt E HT s) (ha : HT[a]? = some t) (hv : HasTy E HT t v) :
    TypedSt E HT { s with heap := s.heap.set a v } := by
  refine ⟨by simp [h.len], h.table, fun b t' v' h1 h2 => ?_⟩
  by_cases hb : b = a
  · subst hb
    rw [ha] at h1
    cases h1
    have hlt : b < s.heap.length := by rw [← h.len]; exact (List.getElem?_eq_some_iff.1 ha).1
    simp only [List.getElem?_set_self hlt, Option.some.injEq] at h2
    subst h2
    exact hv
  · simp only [List.getElem?_set_ne (Ne.symm hb)] at h2
    exact h.heap b t' v' h1 h2

/-- creating a shared object keeps the state consistent -/
theorem Sound.alloc {t : Ty} {v : Val} (id : Nat) (h : TypedSt E HT s) (hv : ∀ HT, HasTy E HT t v) :
    Sound E HT (allocShared id t v) s fun HT' a => HT'[a]? = some t := by
  refine ⟨HT ++ [t], List.prefix_append _ _, ⟨?_, ?_, ?_⟩, ?_⟩
  · simp [h.len]
  · intro id' t' a hm
    rcases List.mem_cons.1 hm with e | hm
    · cases e
      rw [← h.len]
      simp
    · have := h.table id' t' a hm
      rw [List.getElem?_append_left, this]
      exact (List.getElem?_eq_some_iff.1 this).1
  · intro a t' v h1 h2
    by_cases ha : a < HT.length
    · rw [List.getElem?_append_left ha] at h1
      rw [List.getElem?_append_left (by rw [← h.len]; exact ha)] at h2
      exact (h.heap a t' v h1 h2).mono_heap (List.prefix_append _ _)
    · have hb : a < (HT ++ [t]).length := (List.getElem?_eq_some_iff.1 h1).1
      simp at hb
      have : a = HT.length := by omega
      subst this
      simp at h1
      subst h1
      rw [h.len] at h2
      simp at h2
      subst h2
      exact hv _
  · rw [← h.len]
    simp

theorem Sound.lookup {t : Ty} (id : Nat) (h : TypedSt E HT s) :
    Sound E HT (lookupShared id t) s fun HT' a => HT'[a]? = some t := by
  unfold Sound lookupShared
  cases hl : s.table.lookup id with
  | none => exact ⟨HT, List.prefix_refl _, h⟩
  | some q =>
    obtain ⟨t', a⟩ := q
    by_cases ht : t' = t
    · subst ht
      simp only [if_true]
      exact ⟨HT, List.prefix_refl _, h, h.table id t' a (mem_of_lookup hl)⟩
    · simp only [if_neg ht]
      exact ⟨HT, List.prefix_refl _, h⟩

end

theorem getElem?_of_prefix {α : Type} {l l' : List α} (h : l <+: l') {i : Nat} {a : α} (hi : l[i]? = some a) : l'[i]? = some a := by
  obtain ⟨r, rfl⟩ := h
  rw [List.getElem?_append_left, hi]
  exact (List.getElem?_eq_some_iff.1 hi).1

/-- the members of `st` are replaced by valid ones -/
def StillObj (E : Env) (HT : List Ty) (st : Store) (HT' : List Ty) (q : Val) : Prop :=
  ∃ st', q = .obj st' ∧ ∀ c', HasTy E HT (.cls c') (.obj st) → HasTy E HT' (.cls c') (.obj st')

/-- what is shown about a read -/
def SoundReadX (E : Env) (self : Nat → Ty → Val → XR Val) : Prop :=
  (∀ HT w t p s, Readable E t → TypedSt E HT s → HasTy E HT t p →
    SoundX E HT (self w t p) s (fun HT' q => HasTy E HT' t q) fun HT' v => HasTy E HT' t v) ∧
  (∀ HT w c (st : Store) s, Readable E (.cls c) → TypedSt E HT s → HasTy E HT (.cls c) (.obj st) →
    SoundX E HT (self w (.cls c) (.obj st)) s (StillObj E HT st) (StillObj E HT st))

section
variable {E : Env} (hkt : KeyTypes E) {self : Nat → Ty → Val → XR Val} (hs : SoundReadX E self)
include hs

theorem soundX_elems {t : Ty} (ht : Readable E t) (done ps : List Val) {HT : List Ty} {s : RSt} (hst : TypedSt E HT s)
    (hd : ∀ p ∈ done, HasTy E HT t p) (hp : ∀ p ∈ ps, HasTy E HT t p) :
    SoundX E HT (readElemsX self t done ps) s (fun HT' q => HasTy E HT' (.vec t) q) fun HT' vs => ∀ v ∈ vs, HasTy E HT' t v := by
  induction ps generalizing HT s done with
  | nil => exact .pure hst (by simp)
  | cons p ps ih =>
    refine ((hs.1 HT 0 t p s ht hst (hp p List.mem_cons_self)).within fun HT1 q hle hq => ?_).bind fun HT1 v s1 hle hst1 hv => ?_
    · refine .vec fun x hx => ?_
      rcases List.mem_append.1 hx with hx | hx
      · exact (hd x hx).mono_heap hle
      · rcases List.mem_cons.1 hx with rfl | hx
        · exact hq
        · exact (hp x (List.mem_cons_of_mem _ hx)).mono_heap hle
    · refine (ih (done ++ [v]) hst1 (fun x hx => ?_) fun q hq => (hp q (List.mem_cons_of_mem _ hq)).mono_heap hle).bind
        fun HT2 vs s2 hle2 hst2 hvs => ?_
      · rcases List.mem_append.1 hx with hx | hx
        · exact (hd x hx).mono_heap hle
        · rw [List.mem_singleton.1 hx]
          exact hv
      · refine .pure hst2 fun x hx => ?_
        rcases List.mem_cons.1 hx with rfl | hx
        · exact hv.mono_heap hle2
        · exact hvs x hx

theorem soundX_setItems {t : Ty} (ht : Readable E t) (hashed multi : Bool) (k : Nat) (acc : List Val) {HT : List Ty}
    {s : RSt} (hst : TypedSt E HT s) (ha : ∀ p ∈ acc, HasTy E HT t p) :
    SoundX E HT (readSetItemsX E self multi t k acc) s (fun HT' q => HasTy E HT' (.set hashed multi t) q)
      fun HT' vs => ∀ v ∈ vs, HasTy E HT' t v := by
  induction k generalizing HT s acc with
  | zero => exact .pure hst ha
  | succ k ih =>
    refine ((hs.1 HT 0 t _ s ht hst (hasTy_defInit t ht)).within fun HT1 q hle hq => .set fun x hx => (ha x hx).mono_heap hle).bind
      fun HT1 v s1 hle hst1 hv => ?_
    split
    · exact .ub
    · refine ih _ hst1 fun x hx => ?_
      have : x = v ∨ x ∈ acc := by
        cases multi
        · exact insertUniq_mem _ _ _ _ (by simpa using hx)
        · exact insertMulti_mem _ _ _ _ (by simpa using hx)
      rcases this with rfl | h
      · exact hv
      · exact (ha x h).mono_heap hle

theorem soundX_mapItems {kt t : Ty} (hk : Readable E kt) (ht : Readable E t) (hashed multi : Bool) (k : Nat) (acc : List (Val × Val))
    {HT : List Ty} {s : RSt} (hst : TypedSt E HT s) (ha1 : ∀ p ∈ acc, HasTy E HT kt p.1) (ha2 : ∀ p ∈ acc, HasTy E HT t p.2) :
    SoundX E HT (readMapItemsX E self multi kt t k acc) s (fun HT' q => HasTy E HT' (.map hashed multi kt t) q)
      fun HT' vs => (∀ v ∈ vs, HasTy E HT' kt v.1) ∧ (∀ v ∈ vs, HasTy E HT' t v.2) := by
  have hpr : Readable E (.pair kt t) := by
    intro t' h
    cases h with
    | refl => trivial
    | fst h => exact hk _ h
    | snd h => exact ht _ h
  induction k generalizing HT s acc with
  | zero => exact .pure hst ⟨ha1, ha2⟩
  | succ k ih =>
    refine ((hs.1 HT 0 (.pair kt t) _ s hpr hst (hasTy_valInit _ (Or.inl hpr))).within fun HT1 q hle hq =>
      .map (fun x hx => (ha1 x hx).mono_heap hle) (fun x hx => (ha2 x hx).mono_heap hle)).bind fun HT1 v s1 hle hst1 hv => ?_
    cases hv with
    | @pair _ _ x y hx hy =>
    dsimp only
    split
    · exact .ub
    · have hmem : ∀ q ∈ (if multi then mapInsertMulti (E.lt kt) x y acc else mapEmplace (E.lt kt) x y acc), q = (x, y) ∨ q ∈ acc := by
        intro q hq
        cases multi
        · exact mapEmplace_mem _ _ _ _ _ (by simpa using hq)
        · exact mapInsertMulti_mem _ _ _ _ _ (by simpa using hq)
      refine ih _ hst1 (fun q hq => ?_) (fun q hq => ?_)
      · rcases hmem q hq with rfl | h
        · exact hx
        · exact (ha1 q h).mono_heap hle
      · rcases hmem q hq with rfl | h
        · exact hy
        · exact (ha2 q h).mono_heap hle

theorem soundX_bases {w : Nat} (bs : List ClassId) (hr : ∀ b ∈ bs, Readable E (.cls b)) (st : Store) {HT : List Ty} {s : RSt}
    (hst : TypedSt E HT s) (hp : ∀ b ∈ bs, HasTy E HT (.cls b) (.obj st)) :
    SoundX E HT (readBasesX self w bs (.obj st)) s (StillObj E HT st) (StillObj E HT st) := by
  induction bs generalizing HT s st with
  | nil => exact .pure hst ⟨st, rfl, fun _ h => h⟩
  | cons b bs ih =>
    refine (hs.2 HT w b st s (hr b List.mem_cons_self) hst (hp b List.mem_cons_self)).bind fun HT1 v s1 hle hst1 hv => ?_
    obtain ⟨st1, rfl, h1⟩ := hv
    refine (ih (fun b hb => hr b (List.mem_cons_of_mem _ hb)) st1 hst1 fun b hb => h1 b (hp b (List.mem_cons_of_mem _ hb))).weaken ?_ ?_ <;>
    · rintro HT2 v - ⟨st2, rfl, h2⟩
      exact ⟨st2, rfl, fun c' h => h2 c' (h1 c' h)⟩

include hkt

theorem soundX_fields {c : ClassId} {w : Nat} (fs : List (Guard × Field)) (hr : ∀ gf ∈ fs, Readable E gf.2.ty)
    (hfs : ∀ gf ∈ fs, HasField E c gf.1 gf.2) (st : Store) {HT : List Ty} {s : RSt} (hst : TypedSt E HT s)
    (hp : HasTy E HT (.cls c) (.obj st)) :
    SoundX E HT (readFieldsX self w fs st) s (StillObj E HT st) fun HT' st' => StillObj E HT st HT' (.obj st') := by
  induction fs generalizing HT s st with
  | nil => exact .pure hst ⟨st, rfl, fun _ h => h⟩
  | cons gf fs ih =>
    obtain ⟨g, f⟩ := gf
    have hf0 : HasField E c g f := hfs (g, f) List.mem_cons_self
    have hr' : ∀ gf ∈ fs, Readable E gf.2.ty := fun gf h => hr gf (List.mem_cons_of_mem _ h)
    have hfs' : ∀ gf ∈ fs, HasField E c gf.1 gf.2 := fun gf h => hfs gf (List.mem_cons_of_mem _ h)
    simp only [readFieldsX]
    split
    · cases hp with
      | cls hp1 hp2 =>
      have hsome := hp1 g f hf0
      cases hg : st.get? f.key with
      | none => rw [hg] at hsome; cases hsome
      | some p =>
        dsimp only
        have key : ∀ HT1 v, HT <+: HT1 → HasTy E HT1 f.ty v →
            ∀ c', HasTy E HT (.cls c') (.obj st) → HasTy E HT1 (.cls c') (.obj (st.set f.key v)) := by
          intro HT1 v hle hv c' h
          cases h with
          | cls h1 h2 =>
            refine .cls (fun g' f' hf' => ?_) (fun g' f' v' hf' hg' => ?_)
            · by_cases hk : f'.key = f.key
              · rw [hk, get?_set_eq st hg]
                rfl
              · rw [get?_set_ne _ _ hk]
                exact h1 g' f' hf'
            · by_cases hk : f'.key = f.key
              · rw [hk, get?_set_eq st hg] at hg'
                cases hg'
                rw [hkt c' g' f' c g f hf' hf0 hk]
                exact hv
              · rw [get?_set_ne _ _ hk] at hg'
                exact (h2 g' f' v' hf' hg').mono_heap hle
        refine ((hs.1 HT w f.ty p s (hr (g, f) List.mem_cons_self) hst (hp2 g f p hf0 hg)).within fun HT1 q hle hq =>
          ⟨_, rfl, key HT1 q hle hq⟩).bind fun HT1 v s1 hle hst1 hv => ?_
        have hk := key HT1 v hle hv
        refine (ih hr' hfs' (st.set f.key v) hst1 (hk c (.cls hp1 hp2))).weaken ?_ ?_
        · rintro HT2 q - ⟨st2, rfl, h⟩
          exact ⟨st2, rfl, fun c' hc' => h c' (hk c' hc')⟩
        · rintro HT2 q - ⟨st2, e, h⟩
          exact ⟨st2, e, fun c' hc' => h c' (hk c' hc')⟩
    · exact ih hr' hfs' st hst hp

theorem soundX_class {c : ClassId} {ci : ClassInfo} (hci : E.cls c = some ci) (hr : Readable E (.cls c)) {w : Nat} {st : Store}
    {HT : List Ty} {s : RSt} (hst : TypedSt E HT s) (hp : HasTy E HT (.cls c) (.obj st)) :
    SoundX E HT (readClassX self ci w (.obj st)) s (StillObj E HT st) fun HT' r => StillObj E HT st HT' r.1 := by
  have hpb : ∀ b ∈ ci.bin.bases, HasTy E HT (.cls b) (.obj st) := by
    intro b hb
    cases hp with
    | cls h3 h4 => exact .cls (fun g f hf => h3 g f (.base hci hb hf)) (fun g f v hf => h4 g f v (.base hci hb hf))
  unfold readClassX
  split
  · exact .stuck
  refine (soundX_bases hs ci.bin.bases (fun b hb t' h => hr t' (.base hci hb h)) st hst hpb).bind
    fun HT1 v s1 hle hst1 hv => ?_
  obtain ⟨st1, rfl, hv⟩ := hv
  refine (SoundX.holding (Sound.version ci w hst1) fun HT2 hle2 => ⟨st1, rfl, fun c' h => (hv c' h).mono_heap hle2⟩).bind
    fun HT2 ver s2 hle2 hst2 _ => ?_
  refine ((soundX_fields hkt hs (c := c) ci.bin.readFields (fun gf h t' ht => hr t' (.field hci h ht)) (fun gf h => .own hci h) st1 hst2
    ((hv c hp).mono_heap hle2)).weaken ?_ fun _ _ _ h => h).bind fun HT3 st3 s3 _ hst3 h3 => ?_
  · rintro HT3 q - ⟨st3, rfl, h3⟩
    exact ⟨st3, rfl, fun c' hc' => h3 c' ((hv c' hc').mono_heap hle2)⟩
  · obtain ⟨st3', e, h3⟩ := h3
    exact .pure hst3 ⟨st3', e, fun c' hc' => h3 c' ((hv c' hc').mono_heap hle2)⟩

theorem soundX_step : SoundReadX E (readXStep E self) := by
  have hcls : ∀ HT w c (st : Store) s, Readable E (.cls c) → TypedSt E HT s → HasTy E HT (.cls c) (.obj st) →
      SoundX E HT (readXStep E self w (.cls c) (.obj st)) s (StillObj E HT st) (StillObj E HT st) := by
    intro HT w c st s hr hst hp
    obtain ⟨ci, hci, -⟩ := hr _ (.refl _)
    simp only [readXStep, hci]
    refine (soundX_class hkt hs hci hr hst hp).bind fun HT1 r s1 _ hst1 h => ?_
    exact .pure hst1 h
  refine ⟨fun HT w t p s hr hst hp => ?_, hcls⟩
  have hloc := hr _ (.refl _)
  have hnew : ∀ {HT : List Ty} (t : Ty) {s : RSt}, Readable E t → TypedSt E HT s →
      SoundX E HT (self 0 t (E.valInit t)) s (fun HT' v => HasTy E HT' t v) fun HT' v => HasTy E HT' t v :=
    fun t _ ht hst => hs.1 _ 0 t _ _ ht hst (hasTy_valInit t (Or.inl ht))
  cases t with
  | bool =>
    exact .holding ((Sound.bool hst).bind fun _ b _ _ _ h _ => .pure h (.bool b)) fun HT' hle => hp.mono_heap hle
  | int it =>
    refine .holding ?_ fun HT' hle => hp.mono_heap hle
    simp only [readStep]
    rw [if_neg hloc]
    exact (Sound.int it hst).bind fun _ i _ _ _ h hi => .pure h (.int it i hi.1 hi.2)
  | f32 => exact .holding ((Sound.take 4 hst).bind fun _ b _ _ _ h _ => .pure h (.f32 _)) fun HT' hle => hp.mono_heap hle
  | f64 => exact .holding ((Sound.take 8 hst).bind fun _ b _ _ _ h _ => .pure h (.f64 _)) fun HT' hle => hp.mono_heap hle
  | enum u =>
    simp only [readXStep]
    refine ((hs.1 HT 0 (.int u) .indet s (fun t' h => ?_) hst (.noInt u)).within fun HT' q hle _ => hp.mono_heap hle).weaken
      (fun _ _ _ h => h) fun HT' v _ h => ?_
    · cases h with
      | refl => exact hloc
    · cases h with
      | noInt => exact .noEnum u
      | int _ i h1 h2 => exact .enum u i h1 h2
  | str =>
    refine .holding ?_ fun HT' hle => hp.mono_heap hle
    refine (Sound.varint hst).bind fun HT1 k s1 _ _ hst1 _ => ?_
    split
    · exact .throw hst1
    · exact (Sound.take _ hst1).bind fun _ b _ _ _ h _ => .pure h (.str _)
  | cstr | sview | tuple _ | mono => exact absurd hloc (by simp [LocallyOk])
  | opt t =>
    have ht : Readable E t := fun t' h => hr t' (.opt h)
    refine (SoundX.holding (Sound.bool hst) fun _ hle => hp.mono_heap hle).bind fun HT1 b s1 _ hst1 _ => ?_
    split
    · exact ((hnew t ht hst1).within fun _ q _ hq => .optSome hq).bind fun _ v _ _ h hv => .pure h (.optSome hv)
    · exact .pure hst1 (.optNone t)
  | uptr t =>
    have ht : Readable E t := fun t' h => hr t' (.uptr h)
    refine (SoundX.holding (Sound.bool hst) fun _ hle => hp.mono_heap hle).bind fun HT1 b s1 _ hst1 _ => ?_
    split
    · exact ((hnew t ht hst1).within fun _ q _ hq => .uptrSome hq).bind fun _ v _ _ h hv => .pure h (.uptrSome hv)
    · exact .pure hst1 (.uptrNone t)
  | sptr t =>
    have ht : Readable E t := fun t' h => hr t' (.sptr h)
    refine (SoundX.holding (Sound.byte hst) fun _ hle => hp.mono_heap hle).bind fun HT1 mode s1 hle1 hst1 _ => ?_
    split
    · exact .pure hst1 (.sptrNone t)
    · refine (SoundX.holding (Sound.ident _ hst1) fun _ hle => hp.mono_heap (hle1.trans hle)).bind fun HT2 id s2 hle2 hst2 _ => ?_
      split
      · refine (SoundX.holding (Sound.alloc id hst2 fun HT => hasTy_valInit t (Or.inl ht))
          fun _ hle => hp.mono_heap ((hle1.trans hle2).trans hle)).bind fun HT3 a s3 _ hst3 ha => ?_
        have hsh : SoundX E HT3 (withinShared a (self 0 t (E.valInit t))) s3 (fun HT' q => HasTy E HT' (.sptr t) q)
            fun HT' v => HT'[a]? = some t ∧ HasTy E HT' t v := by
          have h := hnew t ht hst3
          unfold SoundX at h ⊢
          unfold withinShared
          cases hr : self 0 t (E.valInit t) s3 with
          | ok v s4 =>
            rw [hr] at h
            obtain ⟨HT4, h1, h2, h3⟩ := h
            exact ⟨HT4, h1, h2, getElem?_of_prefix h1 ha, h3⟩
          | exc e s4 =>
            obtain ⟨e, q⟩ := e
            rw [hr] at h
            obtain ⟨HT4, h1, h2, h3⟩ := h
            exact ⟨HT4, h1, h2.store (getElem?_of_prefix h1 ha) h3, .sptrSome (getElem?_of_prefix h1 ha)⟩
          | _ => trivial
        refine hsh.bind fun HT4 v s4 hle4 hst4 hv => ?_
        obtain ⟨ha', hv⟩ := hv
        have hstore : Sound E HT4 (storeShared a v) s4 fun HT' _ => HT'[a]? = some t :=
          ⟨HT4, List.prefix_refl _, hst4.store ha' hv, ha'⟩
        have hstx : SoundX E HT4 (holdingR p (storeShared a v)) s4 (fun HT' q => HasTy E HT' (.sptr t) q) fun HT' _ => HT'[a]? = some t :=
          ⟨HT4, List.prefix_refl _, hst4.store ha' hv, ha'⟩
        exact hstx.bind fun HT5 _ s5 _ hst5 h5 => .pure hst5 (.sptrSome h5)
      · exact (SoundX.holding (Sound.lookup id hst2) fun _ hle => hp.mono_heap ((hle1.trans hle2).trans hle)).bind
          fun HT5 a s5 _ hst5 h5 => .pure hst5 (.sptrSome h5)
  | vec t =>
    have ht : Readable E t := fun t' h => hr t' (.vec h)
    cases hp with
    | @vec _ vs hvs =>
    refine (SoundX.holding (Sound.varint hst) fun _ hle => (HasTy.vec hvs).mono_heap hle).bind fun HT1 k s1 hle hst1 _ => ?_
    split
    · exact .throw hst1 ((HasTy.vec hvs).mono_heap hle)
    · refine (soundX_elems hs ht [] _ hst1 (by simp) fun q hq => ?_).bind fun _ v _ _ h hv => .pure h (.vec hv)
      unfold resize at hq
      rcases List.mem_append.1 hq with h | h
      · exact (hvs q (List.mem_of_mem_take h)).mono_heap hle
      · rw [(List.mem_replicate.1 h).2]
        exact hasTy_valInit t (Or.inl ht)
  | set hashed multi t =>
    have ht : Readable E t := fun t' h => hr t' (.set h)
    cases hp with
    | @set _ _ _ vs hvs =>
    refine (SoundX.holding (Sound.varint hst) fun _ hle => (HasTy.set hvs).mono_heap hle).bind fun HT1 k s1 hle hst1 _ => ?_
    exact (soundX_setItems hs ht hashed multi k vs hst1 fun q hq => (hvs q hq).mono_heap hle).bind
      fun _ v _ _ h hv => .pure h (.set hv)
  | map hashed multi k t =>
    have hk : Readable E k := fun t' h => hr t' (.mapKey h)
    have ht : Readable E t := fun t' h => hr t' (.mapVal h)
    cases hp with
    | @map _ _ _ _ kvs h1 h2 =>
    refine (SoundX.holding (Sound.varint hst) fun _ hle => (HasTy.map h1 h2).mono_heap hle).bind fun HT1 m s1 hle hst1 _ => ?_
    exact (soundX_mapItems hs hk ht hashed multi m kvs hst1 (fun q hq => (h1 q hq).mono_heap hle)
      fun q hq => (h2 q hq).mono_heap hle).bind fun _ v _ _ h hv => .pure h (.map hv.1 hv.2)
  | pair a b =>
    cases hp with
    | @pair _ _ x y hx hy =>
    refine ((hs.1 HT 0 a x s (fun t' h => hr t' (.fst h)) hst hx).within fun _ q hle hq => .pair hq (hy.mono_heap hle)).bind
      fun HT1 x' s1 hle hst1 hx' => ?_
    refine ((hs.1 HT1 0 b y s1 (fun t' h => hr t' (.snd h)) hst1 (hy.mono_heap hle)).within fun _ q hle hq =>
      .pair (hx'.mono_heap hle) hq).bind fun HT2 y' s2 hle2 hst2 hy' => ?_
    exact .pure hst2 (.pair (hx'.mono_heap hle2) hy')
  | variant ts =>
    refine (SoundX.holding (Sound.byte hst) fun _ hle => hp.mono_heap hle).bind fun HT1 i s1 hle hst1 _ => ?_
    cases hti : ts[i]? with
    | none => exact .throw hst1 (hp.mono_heap hle)
    | some t =>
      by_cases hm : t = .mono
      · subst hm
        exact .pure hst1 (.variant hti .mono)
      · have ht : Readable E t := fun t' h => hr t' (.alt (List.mem_of_getElem? hti) hm h)
        have : SoundX E HT1 (do let v ← withinR (.alt i) (self 0 t (E.valInit t)); Pure.pure (Val.alt i v) : XR Val) s1
            (fun HT' v => HasTy E HT' (.variant ts) v) fun HT' v => HasTy E HT' (.variant ts) v :=
          ((hnew t ht hst1).within fun _ q _ hq => .variant hti hq).bind fun _ v _ _ h hv => .pure h (.variant hti hv)
        cases t <;> first | exact this | exact absurd rfl hm
  | cls c =>
    cases hp with
    | @cls _ st h1 h2 =>
    refine (hcls HT w c st s hr hst (.cls h1 h2)).weaken ?_ ?_ <;>
    · rintro HT' v - ⟨st', rfl, h⟩
      exact h c (.cls h1 h2)
  | dateTime =>
    refine .holding ?_ fun HT' hle => hp.mono_heap hle
    refine (Sound.int .u64 hst).bind fun _ i _ _ _ h hi => .pure h (.dateTime i ?_ ?_)
    · simpa [IntTy.lo, IntTy.signed] using hi.1
    · simpa [IntTy.lo, IntTy.hi, IntTy.signed, IntTy.card, IntTy.bytes] using hi.2
  | timeSpan =>
    refine .holding ?_ fun HT' hle => hp.mono_heap hle
    refine (Sound.int .i64 hst).bind fun _ i _ _ _ h hi => .pure h (.timeSpan i ?_ ?_)
    · simpa [IntTy.lo, IntTy.signed, IntTy.bytes] using hi.1
    · simpa [IntTy.lo, IntTy.hi, IntTy.signed, IntTy.card, IntTy.bytes] using hi.2

end

theorem readX_sound {E : Env} (hkt : KeyTypes E) (n : Nat) : SoundReadX E (readX E n) := by
  induction n with
  | zero =>
    refine ⟨fun HT w t p s _ _ _ => ?_, fun HT w c st s _ _ _ => ?_⟩ <;> simp [SoundX, readX]
  | succ n ih => exact soundX_step hkt ih

end Verif
