import Verif.Lemmas.BinCover
import Verif.Lemmas.BinConv
import Verif.Lemmas.Containers

/-!
# Deserialisation is type safe and free of undefined behaviour
-/

namespace Verif

theorem HasTy.mono_heap {E : Env} {HT HT' : List Ty} (h : HT <+: HT') {t : Ty} {v : Val} (hv : HasTy E HT t v) : HasTy E HT' t v := by
  induction hv with
  | sptrSome ha =>
    obtain ⟨r, rfl⟩ := h
    refine .sptrSome ?_
    rw [List.getElem?_append_left, ha]
    exact (List.getElem?_eq_some_iff.1 ha).1
  | cls h1 _ ih => exact .cls h1 ih
  | _ => constructor <;> assumption

/-- outcome of a deserialisation step: consistent state and `Q`, or an exception with consistent state -/
def Sound {α : Type} (E : Env) (HT : List Ty) (m : RM α) (s : RSt) (Q : List Ty → α → Prop) : Prop :=
  match m s with
  | .ok a s' => ∃ HT', HT <+: HT' ∧ TypedSt E HT' s' ∧ Q HT' a
  | .exc _ s' => ∃ HT', HT <+: HT' ∧ TypedSt E HT' s'
  | .fuel => True
  | .ub => False
  | .stuck => False

section
variable {α β : Type} {E : Env} {HT : List Ty} {s : RSt}

theorem Sound.bind {m : RM α} {f : α → RM β} {Q : List Ty → α → Prop} {Q' : List Ty → β → Prop} (h : Sound E HT m s Q)
    (hf : ∀ HT' a s', HT <+: HT' → m s = .ok a s' → TypedSt E HT' s' → Q HT' a → Sound E HT' (f a) s' Q') :
    Sound E HT (m >>= f) s Q' := by
  unfold Sound at h ⊢
  cases hr : m s with
  | ok a s' =>
    rw [hr] at h
    obtain ⟨HT', h1, h2, h3⟩ := h
    have := hf HT' a s' h1 hr h2 h3
    unfold Sound at this
    rw [M.bind_ok hr]
    cases hr' : f a s' with
    | ok b s2 =>
      rw [hr'] at this
      obtain ⟨HT2, h4, h5⟩ := this
      exact ⟨HT2, h1.trans h4, h5⟩
    | exc e s2 =>
      rw [hr'] at this
      obtain ⟨HT2, h4, h5⟩ := this
      exact ⟨HT2, h1.trans h4, h5⟩
    | ub => rw [hr'] at this; exact this
    | stuck => rw [hr'] at this; exact this
    | fuel => trivial
  | exc e s' => rw [hr] at h; rw [M.bind_exc hr]; exact h
  | ub => rw [hr] at h; exact h.elim
  | stuck => rw [hr] at h; exact h.elim
  | fuel => rw [M.bind_fuel hr]; trivial

theorem Sound.pure {a : α} {Q : List Ty → α → Prop} (hs : TypedSt E HT s) (h : Q HT a) : Sound E HT (Pure.pure a) s Q :=
  ⟨HT, List.prefix_refl _, hs, h⟩

theorem Sound.throw {e : BExc} {Q : List Ty → α → Prop} (hs : TypedSt E HT s) : Sound E HT (M.throw e) s Q :=
  ⟨HT, List.prefix_refl _, hs⟩

theorem Sound.weaken {m : RM α} {Q Q' : List Ty → α → Prop} (h : Sound E HT m s Q)
    (hQ : ∀ HT' a, HT <+: HT' → Q HT' a → Q' HT' a) : Sound E HT m s Q' := by
  unfold Sound at h ⊢
  cases hr : m s <;> rw [hr] at h
  · obtain ⟨HT', h1, h2, h3⟩ := h
    exact ⟨HT', h1, h2, hQ _ _ h1 h3⟩
  all_goals exact h

theorem TypedSt.withInput {inp : Str} (h : TypedSt E HT s) : TypedSt E HT { s with inp := inp } := ⟨h.len, h.table, h.heap⟩

theorem Sound.take (k : Nat) (hs : TypedSt E HT s) : Sound E HT (takeBytes k) s fun _ _ => True := by
  unfold Sound takeBytes
  split
  · rename_i h
    split at h
    · cases h
      exact ⟨HT, List.prefix_refl _, hs.withInput, trivial⟩
    · cases h
  · rename_i h
    split at h
    · cases h
    · cases h
      exact ⟨HT, List.prefix_refl _, hs.withInput⟩
  all_goals (rename_i h; first | trivial | (split at h <;> cases h))

theorem Sound.byte (hs : TypedSt E HT s) : Sound E HT readByte s fun _ _ => True :=
  (Sound.take 1 hs).bind fun _ _ _ _ _ h _ => .pure h trivial
theorem Sound.bool (hs : TypedSt E HT s) : Sound E HT readBool s fun _ _ => True :=
  (Sound.byte hs).bind fun _ _ _ _ _ h _ => .pure h trivial

theorem wrap_bounds (t : IntTy) (i : Int) : t.lo ≤ t.wrap i ∧ t.wrap i < t.hi := by
  have hc : 0 < t.card := by unfold IntTy.card; positivity
  have h1 := Int.emod_nonneg (i - t.lo) (_root_.ne_of_gt hc)
  have h2 := Int.emod_lt_of_pos (i - t.lo) hc
  unfold IntTy.wrap IntTy.hi
  omega

theorem Sound.int (t : IntTy) (hs : TypedSt E HT s) : Sound E HT (readInt t) s fun _ i => t.lo ≤ i ∧ i < t.hi :=
  (Sound.take _ hs).bind fun _ _ _ _ _ h _ => .pure h (wrap_bounds _ _)

theorem Sound.varint (hs : TypedSt E HT s) : Sound E HT readVarint s fun _ _ => True := by
  unfold readVarint
  have hp : Sound E HT peekByte s fun _ _ => True := by
    unfold Sound peekByte
    split
    · rename_i h
      split at h <;> cases h
      exact ⟨HT, List.prefix_refl _, hs, trivial⟩
    · rename_i h
      split at h <;> cases h
      exact ⟨HT, List.prefix_refl _, hs⟩
    all_goals (rename_i h; first | trivial | (split at h <;> cases h))
  refine hp.bind fun HT' b s' _ _ hs' _ => ?_
  split
  · exact .throw hs'
  · exact (Sound.take _ hs').bind fun _ _ _ _ _ h _ => .pure h trivial

theorem Sound.ident (c : Prop) [Decidable c] (hs : TypedSt E HT s) :
    Sound E HT (if c then (do let bs ← takeBytes 8; Pure.pure (ofBE bs)) else readVarint) s fun _ _ => True := by
  split
  · exact (Sound.take _ hs).bind fun _ _ _ _ _ h _ => .pure h trivial
  · exact .varint hs

theorem Sound.version (ci : ClassInfo) (w : Nat) (hs : TypedSt E HT s) : Sound E HT (readVersion ci w) s fun _ _ => True := by
  unfold readVersion
  split
  · exact .pure hs trivial
  · refine (Sound.varint hs).bind fun HT' v s' _ _ hs' _ => ?_
    split
    · exact .pure hs' trivial
    · exact .throw hs'

/-! ### initial objects -/

theorem hasTyNil_valInit (t : Ty) (h : Readable E t ∨ t = .mono) : HasTy E [] t (E.valInit t) := by
    match t with
    | .bool => exact .bool _
    | .int it => exact .int _ _ (by cases it <;> decide) (by cases it <;> decide)
    | .f32 => exact .f32 _
    | .f64 => exact .f64 _
    | .enum u => exact .enum _ _ (by cases u <;> decide) (by cases u <;> decide)
    | .str => exact .str _
    | .dateTime => exact .dateTime _ (by decide) (by decide)
    | .timeSpan => exact .timeSpan _ (by decide) (by decide)
    | .opt t => exact .optNone t
    | .uptr t => exact .uptrNone t
    | .sptr t => exact .sptrNone t
    | .vec t => exact .vec (by simp)
    | .set _ _ t => exact .set (by simp)
    | .map _ _ k t => exact .map (by simp) (by simp)
    | .mono => exact .mono
    | .cstr | .sview | .tuple _ => exact absurd (h.resolve_right (by simp) _ (.refl _)) (by simp [LocallyOk])
    | .pair a b =>
      have h' := h.resolve_right (by simp)
      exact .pair ((hasTyNil_valInit a (Or.inl fun t' ht => h' t' (.fst ht))))
        ((hasTyNil_valInit b (Or.inl fun t' ht => h' t' (.snd ht))))
    | .variant [] => exact absurd (h.resolve_right (by simp) _ (.refl _)) (by simp [LocallyOk])
    | .variant (t :: ts) =>
      have h' := h.resolve_right (by simp)
      refine .variant (t := t) rfl (hasTyNil_valInit t ?_)
      by_cases hm : t = .mono
      · exact Or.inr hm
      · exact Or.inl fun t' ht => h' t' (.alt List.mem_cons_self hm ht)
    | .cls c =>
      have h' := h.resolve_right (by simp)
      obtain ⟨ci, h1, -, h2, -⟩ := h' _ (.refl _)
      simp only [Env.valInit, h1]
      exact h2

theorem hasTy_valInit (t : Ty) (h : Readable E t ∨ t = .mono) : HasTy E HT t (E.valInit t) :=
  (hasTyNil_valInit t h).mono_heap List.nil_prefix

theorem hasTy_defInit (t : Ty) (h : Readable E t) : HasTy E HT t (E.defInit t) := by
  cases t with
  | bool => exact .noBool
  | int it => exact .noInt _
  | f32 => exact .noF32
  | f64 => exact .noF64
  | enum u => exact .noEnum _
  | cstr => exact absurd (h _ (.refl _)) (by simp [LocallyOk])
  | cls c =>
    obtain ⟨ci, h1, -, -, h2⟩ := h _ (.refl _)
    simp only [Env.defInit, h1]
    exact h2.mono_heap (List.nil_prefix)
  | _ => exact hasTy_valInit _ (Or.inl h)

end

/-! ### reading -/

/-- what is shown about a read -/
def SoundRead (E : Env) (self : Nat → Ty → Val → RM Val) : Prop :=
  (∀ HT w t p s, Readable E t → TypedSt E HT s → HasTy E HT t p → Sound E HT (self w t p) s fun HT' v => HasTy E HT' t v) ∧
  (∀ HT w c (st : Store) s, Readable E (.cls c) → TypedSt E HT s → HasTy E HT (.cls c) (.obj st) →
    Sound E HT (self w (.cls c) (.obj st)) s fun HT' v =>
      ∃ st', v = .obj st' ∧ ∀ c', HasTy E HT (.cls c') (.obj st) → HasTy E HT' (.cls c') (.obj st'))

theorem mem_of_lookup {β : Type} {l : List (Nat × β)} {k : Nat} {v : β} (h : l.lookup k = some v) : (k, v) ∈ l := by
  induction l with
  | nil => cases h
  | cons x l ih =>
    obtain ⟨k', v'⟩ := x
    simp only [List.lookup] at h
    by_cases hk : k = k'
    · subst hk
      simp at h
      subst h
      exact List.mem_cons_self
    · have : (k == k') = false := by simpa using hk
      rw [this] at h
      exact List.mem_cons_of_mem _ (ih h)

theorem insertUniq_mem (lt : Val → Val → Bool) (x : Val) (l : List Val) (v : Val) (h : v ∈ (insertUniq lt x l).1) : v = x ∨ v ∈ l := by
  induction l with
  | nil => simpa [insertUniq] using h
  | cons y l ih =>
    unfold insertUniq at h
    split at h
    · simpa using h
    · split at h
      · rcases List.mem_cons.1 h with rfl | h
        · simp
        · rcases ih h with h | h
          · exact Or.inl h
          · exact Or.inr (List.mem_cons_of_mem _ h)
      · exact Or.inr h

theorem insertMulti_mem (lt : Val → Val → Bool) (x : Val) (l : List Val) (v : Val) (h : v ∈ insertMulti lt x l) : v = x ∨ v ∈ l := by
  rw [insertMulti_eq] at h
  simpa using (insM_perm (lt := lt) (key := id) x l).subset h

theorem mapEmplace_mem (lt : Val → Val → Bool) (k v : Val) (l : List (Val × Val)) (q : Val × Val) (h : q ∈ mapEmplace lt k v l) :
    q = (k, v) ∨ q ∈ l := by
  induction l with
  | nil => simpa [mapEmplace] using h
  | cons y l ih =>
    unfold mapEmplace at h
    split at h
    · simpa using h
    · split at h
      · rcases List.mem_cons.1 h with rfl | h
        · simp
        · rcases ih h with h | h
          · exact Or.inl h
          · exact Or.inr (List.mem_cons_of_mem _ h)
      · exact Or.inr h

theorem mapInsertMulti_mem (lt : Val → Val → Bool) (k v : Val) (l : List (Val × Val)) (q : Val × Val) (h : q ∈ mapInsertMulti lt k v l) :
    q = (k, v) ∨ q ∈ l := by
  rw [mapInsertMulti_eq] at h
  simpa using (insM_perm (lt := lt) (key := Prod.fst) (k, v) l).subset h

section
variable {E : Env} (hkt : KeyTypes E) {self : Nat → Ty → Val → RM Val} (hs : SoundRead E self) (hcov : CovRead E self)
include hs

theorem sound_elems {t : Ty} (ht : Readable E t) (ps : List Val) {HT : List Ty} {s : RSt} (hst : TypedSt E HT s)
    (hp : ∀ p ∈ ps, HasTy E HT t p) : Sound E HT (readElems self t ps) s fun HT' vs => ∀ v ∈ vs, HasTy E HT' t v := by
  induction ps generalizing HT s with
  | nil => exact .pure hst (by simp)
  | cons p ps ih =>
    refine (hs.1 HT 0 t p s ht hst (hp p List.mem_cons_self)).bind fun HT1 v s1 hle _ hst1 hv => ?_
    refine (ih hst1 fun q hq => (hp q (List.mem_cons_of_mem _ hq)).mono_heap hle).bind fun HT2 vs s2 hle2 _ hst2 hvs => ?_
    refine .pure hst2 fun x hx => ?_
    rcases List.mem_cons.1 hx with rfl | hx
    · exact hv.mono_heap hle2
    · exact hvs x hx

include hcov

theorem sound_setItems {t : Ty} (ht : Readable E t) (hc : Covered E t (E.defInit t)) (multi : Bool) (k : Nat) (acc : List Val) {HT : List Ty}
    {s : RSt} (hst : TypedSt E HT s) (ha : ∀ p ∈ acc, HasTy E HT t p) :
    Sound E HT (readSetItems E self multi t k acc) s fun HT' vs => ∀ v ∈ vs, HasTy E HT' t v := by
  induction k generalizing HT s acc with
  | zero => exact .pure hst ha
  | succ k ih =>
    refine (hs.1 HT 0 t _ s ht hst (hasTy_defInit t ht)).bind fun HT1 v s1 hle he hst1 hv => ?_
    rw [(hcov.1 _ _ _ _ _ _ he hc).2]
    refine ih _ hst1 fun x hx => ?_
    have : x = v ∨ x ∈ acc := by
      cases multi
      · exact insertUniq_mem _ _ _ _ (by simpa using hx)
      · exact insertMulti_mem _ _ _ _ (by simpa using hx)
    rcases this with rfl | h
    · exact hv
    · exact (ha x h).mono_heap hle

theorem sound_mapItems {kt t : Ty} (hk : Readable E kt) (ht : Readable E t) (hck : Covered E kt (E.valInit kt))
    (hct : Covered E t (E.valInit t)) (multi : Bool) (k : Nat) (acc : List (Val × Val)) {HT : List Ty}
    {s : RSt} (hst : TypedSt E HT s) (ha1 : ∀ p ∈ acc, HasTy E HT kt p.1) (ha2 : ∀ p ∈ acc, HasTy E HT t p.2) :
    Sound E HT (readMapItems E self multi kt t k acc) s
      fun HT' vs => (∀ v ∈ vs, HasTy E HT' kt v.1) ∧ (∀ v ∈ vs, HasTy E HT' t v.2) := by
  have hpr : Readable E (.pair kt t) := by
    intro t' h
    cases h with
    | refl => trivial
    | fst h => exact hk _ h
    | snd h => exact ht _ h
  induction k generalizing HT s acc with
  | zero => exact .pure hst ⟨ha1, ha2⟩
  | succ k ih =>
    refine (hs.1 HT 0 (.pair kt t) _ s hpr hst (hasTy_valInit _ (Or.inl hpr))).bind fun HT1 v s1 hle he hst1 hv => ?_
    have hni := (hcov.1 _ _ _ _ _ _ he (.pair hck hct)).2
    cases hv with
    | @pair _ _ x y hx hy =>
    simp only [Val.hasIndet, Val.hasIndetL, Bool.or_false] at hni
    simp only [hni]
    have hmem : ∀ q ∈ (if multi then mapInsertMulti (E.lt kt) x y acc else mapEmplace (E.lt kt) x y acc), q = (x, y) ∨ q ∈ acc := by
      intro q hq
      cases multi
      · exact mapEmplace_mem _ _ _ _ _ (by simpa using hq)
      · exact mapInsertMulti_mem _ _ _ _ _ (by simpa using hq)
    refine ih _ hst1 (fun q hq => ?_) (fun q hq => ?_)
    · rcases hmem q hq with rfl | h
      · exact hx
      · exact (ha1 q h).mono_heap hle
    · rcases hmem q hq with rfl | h
      · exact hy
      · exact (ha2 q h).mono_heap hle

omit hcov

theorem sound_bases {w : Nat} (bs : List ClassId) (hr : ∀ b ∈ bs, Readable E (.cls b)) (st : Store) {HT : List Ty} {s : RSt}
    (hst : TypedSt E HT s) (hp : ∀ b ∈ bs, HasTy E HT (.cls b) (.obj st)) :
    Sound E HT (readBases self w bs (.obj st)) s fun HT' v =>
      ∃ st', v = .obj st' ∧ ∀ c', HasTy E HT (.cls c') (.obj st) → HasTy E HT' (.cls c') (.obj st') := by
  induction bs generalizing HT s st with
  | nil => exact .pure hst ⟨st, rfl, fun _ h => h⟩
  | cons b bs ih =>
    refine (hs.2 HT w b st s (hr b List.mem_cons_self) hst (hp b List.mem_cons_self)).bind fun HT1 v s1 hle _ hst1 hv => ?_
    obtain ⟨st1, rfl, h1⟩ := hv
    refine (ih (fun b hb => hr b (List.mem_cons_of_mem _ hb)) st1 hst1 fun b hb => h1 b (hp b (List.mem_cons_of_mem _ hb))).weaken ?_
    rintro HT2 v - ⟨st2, rfl, h2⟩
    exact ⟨st2, rfl, fun c' h => h2 c' (h1 c' h)⟩

include hkt

theorem sound_fields {c : ClassId} {w : Nat} (fs : List (Guard × Field)) (hr : ∀ gf ∈ fs, Readable E gf.2.ty)
    (hfs : ∀ gf ∈ fs, HasField E c gf.1 gf.2) (st : Store) {HT : List Ty} {s : RSt} (hst : TypedSt E HT s)
    (hp : HasTy E HT (.cls c) (.obj st)) :
    Sound E HT (readFields self w fs st) s fun HT' st' =>
      ∀ c', HasTy E HT (.cls c') (.obj st) → HasTy E HT' (.cls c') (.obj st') := by
  induction fs generalizing HT s st with
  | nil => exact .pure hst fun _ h => h
  | cons gf fs ih =>
    obtain ⟨g, f⟩ := gf
    have hf0 : HasField E c g f := hfs (g, f) List.mem_cons_self
    have hr' : ∀ gf ∈ fs, Readable E gf.2.ty := fun gf h => hr gf (List.mem_cons_of_mem _ h)
    have hfs' : ∀ gf ∈ fs, HasField E c gf.1 gf.2 := fun gf h => hfs gf (List.mem_cons_of_mem _ h)
    simp only [readFields]
    split
    · cases hp with
      | cls hp1 hp2 =>
      have hsome := hp1 g f hf0
      cases hg : st.get? f.key with
      | none => rw [hg] at hsome; cases hsome
      | some p =>
        dsimp only
        refine (hs.1 HT w f.ty p s (hr (g, f) List.mem_cons_self) hst (hp2 g f p hf0 hg)).bind fun HT1 v s1 hle _ hst1 hv => ?_
        have key : ∀ c', HasTy E HT (.cls c') (.obj st) → HasTy E HT1 (.cls c') (.obj (st.set f.key v)) := by
          intro c' h
          cases h with
          | cls h1 h2 =>
            refine .cls (fun g' f' hf' => ?_) (fun g' f' v' hf' hg' => ?_)
            · by_cases hk : f'.key = f.key
              · rw [hk, get?_set_eq st hg]
                rfl
              · rw [get?_set_ne _ _ hk]
                exact h1 g' f' hf'
            · by_cases hk : f'.key = f.key
              · rw [hk, get?_set_eq st hg] at hg'
                cases hg'
                rw [hkt c' g' f' c g f hf' hf0 hk]
                exact hv
              · rw [get?_set_ne _ _ hk] at hg'
                exact (h2 g' f' v' hf' hg').mono_heap hle
        exact (ih hr' hfs' (st.set f.key v) hst1 (key c (.cls hp1 hp2))).weaken fun HT2 st2 _ h c' hc' => h c' (key c' hc')
    · exact ih hr' hfs' st hst hp

theorem sound_class {c : ClassId} {ci : ClassInfo} (hci : E.cls c = some ci) (hr : Readable E (.cls c)) {w : Nat} {st : Store}
    {HT : List Ty} {s : RSt} (hst : TypedSt E HT s) (hp : HasTy E HT (.cls c) (.obj st)) :
    Sound E HT (readClass self ci w (.obj st)) s fun HT' r =>
      ∃ st', r.1 = .obj st' ∧ ∀ c', HasTy E HT (.cls c') (.obj st) → HasTy E HT' (.cls c') (.obj st') := by
  obtain ⟨ci', h1, h2, -⟩ := hr _ (.refl _)
  rw [hci] at h1
  cases h1
  have hpb : ∀ b ∈ ci.bin.bases, HasTy E HT (.cls b) (.obj st) := by
    intro b hb
    cases hp with
    | cls h3 h4 => exact .cls (fun g f hf => h3 g f (.base hci hb hf)) (fun g f v hf => h4 g f v (.base hci hb hf))
  unfold readClass
  rw [if_neg (by simp [h2])]
  refine (sound_bases hs ci.bin.bases (fun b hb t' h => hr t' (.base hci hb h)) st hst hpb).bind
    fun HT1 v s1 hle _ hst1 hv => ?_
  obtain ⟨st1, rfl, hv⟩ := hv
  refine (Sound.version ci w hst1).bind fun HT2 ver s2 hle2 _ hst2 _ => ?_
  refine (sound_fields hkt hs (c := c) ci.bin.readFields (fun gf h t' ht => hr t' (.field hci h ht)) (fun gf h => .own hci h) st1 hst2
    ((hv c hp).mono_heap hle2)).bind fun HT3 st3 s3 _ _ hst3 h3 => ?_
  exact .pure hst3 ⟨st3, rfl, fun c' hc' => h3 c' ((hv c' hc').mono_heap hle2)⟩

include hcov

theorem sound_step : SoundRead E (readStep E self) := by
  have hcls : ∀ HT w c (st : Store) s, Readable E (.cls c) → TypedSt E HT s → HasTy E HT (.cls c) (.obj st) →
      Sound E HT (readStep E self w (.cls c) (.obj st)) s fun HT' v =>
        ∃ st', v = .obj st' ∧ ∀ c', HasTy E HT (.cls c') (.obj st) → HasTy E HT' (.cls c') (.obj st') := by
    intro HT w c st s hr hst hp
    obtain ⟨ci, hci, -⟩ := hr _ (.refl _)
    simp only [readStep, hci]
    refine (sound_class hkt hs hci hr hst hp).bind fun HT1 r s1 _ _ hst1 h => ?_
    exact .pure hst1 h
  refine ⟨fun HT w t p s hr hst hp => ?_, hcls⟩
  have hloc := hr _ (.refl _)
  have hnew : ∀ {HT : List Ty} (t : Ty) {s : RSt}, Readable E t → TypedSt E HT s →
      Sound E HT (self 0 t (E.valInit t)) s fun HT' v => HasTy E HT' t v :=
    fun t _ ht hst => hs.1 _ 0 t _ _ ht hst (hasTy_valInit t (Or.inl ht))
  cases t with
  | bool => exact (Sound.bool hst).bind fun _ b _ _ _ h _ => .pure h (.bool b)
  | int it =>
    simp only [readStep]
    rw [if_neg hloc]
    exact (Sound.int it hst).bind fun _ i _ _ _ h hi => .pure h (.int it i hi.1 hi.2)
  | f32 => exact (Sound.take 4 hst).bind fun _ b _ _ _ h _ => .pure h (.f32 _)
  | f64 => exact (Sound.take 8 hst).bind fun _ b _ _ _ h _ => .pure h (.f64 _)
  | enum u =>
    simp only [readStep]
    refine (hs.1 HT 0 (.int u) .indet s (fun t' h => ?_) hst (.noInt u)).weaken fun HT' v _ h => ?_
    · cases h with
      | refl => exact hloc
    · cases h with
      | noInt => exact .noEnum u
      | int _ i h1 h2 => exact .enum u i h1 h2
  | str =>
    refine (Sound.varint hst).bind fun HT1 k s1 _ _ hst1 _ => ?_
    split
    · exact .throw hst1
    · exact (Sound.take _ hst1).bind fun _ b _ _ _ h _ => .pure h (.str _)
  | cstr | sview | tuple _ | mono => exact absurd hloc (by simp [LocallyOk])
  | opt t =>
    have ht : Readable E t := fun t' h => hr t' (.opt h)
    refine (Sound.bool hst).bind fun HT1 b s1 _ _ hst1 _ => ?_
    split
    · exact (hnew t ht hst1).bind fun _ v _ _ _ h hv => .pure h (.optSome hv)
    · exact .pure hst1 (.optNone t)
  | uptr t =>
    have ht : Readable E t := fun t' h => hr t' (.uptr h)
    refine (Sound.bool hst).bind fun HT1 b s1 _ _ hst1 _ => ?_
    split
    · exact (hnew t ht hst1).bind fun _ v _ _ _ h hv => .pure h (.uptrSome hv)
    · exact .pure hst1 (.uptrNone t)
  | sptr t =>
    have ht : Readable E t := fun t' h => hr t' (.sptr h)
    refine (Sound.byte hst).bind fun HT1 mode s1 _ _ hst1 _ => ?_
    split
    · exact .pure hst1 (.sptrNone t)
    · refine (Sound.ident _ hst1).bind fun HT2 id s2 _ _ hst2 _ => ?_
      split
      · -- new object
        have halloc : Sound E HT2 (allocShared id t (E.valInit t)) s2 fun HT' a => HT'[a]? = some t := by
          refine ⟨HT2 ++ [t], List.prefix_append _ _, ⟨?_, ?_, ?_⟩, ?_⟩
          · simp [hst2.len]
          · intro id' t' a h
            rcases List.mem_cons.1 h with e | h
            · cases e
              rw [← hst2.len]
              simp
            · have := hst2.table id' t' a h
              rw [List.getElem?_append_left, this]
              exact (List.getElem?_eq_some_iff.1 this).1
          · intro a t' v h1 h2
            by_cases ha : a < HT2.length
            · rw [List.getElem?_append_left ha] at h1
              rw [List.getElem?_append_left (by rw [← hst2.len]; exact ha)] at h2
              exact (hst2.heap a t' v h1 h2).mono_heap (List.prefix_append _ _)
            · have hb : a < (HT2 ++ [t]).length := (List.getElem?_eq_some_iff.1 h1).1
              simp at hb
              have : a = HT2.length := by omega
              subst this
              simp at h1
              subst h1
              rw [hst2.len] at h2
              simp at h2
              subst h2
              exact hasTy_valInit t (Or.inl ht)
          · rw [← hst2.len]
            simp
        refine halloc.bind fun HT3 a s3 _ _ hst3 ha => ?_
        refine (hnew t ht hst3).bind fun HT4 v s4 hle _ hst4 hv => ?_
        have ha' : HT4[a]? = some t := by
          obtain ⟨r, rfl⟩ := hle
          rw [List.getElem?_append_left, ha]
          exact (List.getElem?_eq_some_iff.1 ha).1
        have hstore : Sound E HT4 (storeShared a v) s4 fun HT' _ => HT'[a]? = some t := by
          refine ⟨HT4, List.prefix_refl _, ⟨?_, hst4.table, ?_⟩, ha'⟩
          · simp [hst4.len]
          · intro b t' v' h1 h2
            by_cases hb : b = a
            · subst hb
              rw [ha'] at h1
              cases h1
              have hlt : b < s4.heap.length := by rw [← hst4.len]; exact (List.getElem?_eq_some_iff.1 ha').1
              simp only [List.getElem?_set_self hlt, Option.some.injEq] at h2
              subst h2
              exact hv
            · simp only [List.getElem?_set_ne (Ne.symm hb)] at h2
              exact hst4.heap b t' v' h1 h2
        exact hstore.bind fun HT5 _ s5 _ _ hst5 h5 => .pure hst5 (.sptrSome h5)
      · have hlook : Sound E HT2 (lookupShared id t) s2 fun HT' a => HT'[a]? = some t := by
          unfold Sound lookupShared
          cases hl : s2.table.lookup id with
          | none => exact ⟨HT2, List.prefix_refl _, hst2⟩
          | some q =>
            obtain ⟨t', a⟩ := q
            simp only
            split
            · rename_i h
              split at h
              · rename_i ht'
                cases h
                subst ht'
                exact ⟨HT2, List.prefix_refl _, hst2, hst2.table id t' a (mem_of_lookup hl)⟩
              · cases h
            · rename_i h
              split at h
              · cases h
              · cases h
                exact ⟨HT2, List.prefix_refl _, hst2⟩
            all_goals (rename_i h; first | trivial | (split at h <;> cases h))
        exact hlook.bind fun HT5 a s5 _ _ hst5 h5 => .pure hst5 (.sptrSome h5)
  | vec t =>
    have ht : Readable E t := fun t' h => hr t' (.vec h)
    cases hp with
    | @vec _ vs hvs =>
    refine (Sound.varint hst).bind fun HT1 k s1 hle _ hst1 _ => ?_
    split
    · exact .throw hst1
    · refine (sound_elems hs ht _ hst1 fun q hq => ?_).bind fun _ v _ _ _ h hv => .pure h (.vec hv)
      unfold resize at hq
      rcases List.mem_append.1 hq with h | h
      · exact (hvs q (List.mem_of_mem_take h)).mono_heap hle
      · rw [(List.mem_replicate.1 h).2]
        exact hasTy_valInit t (Or.inl ht)
  | set hashed multi t =>
    have ht : Readable E t := fun t' h => hr t' (.set h)
    cases hp with
    | @set _ _ _ vs hvs =>
    refine (Sound.varint hst).bind fun HT1 k s1 hle _ hst1 _ => ?_
    exact (sound_setItems hs hcov ht hloc multi k vs hst1 fun q hq => (hvs q hq).mono_heap hle).bind
      fun _ v _ _ _ h hv => .pure h (.set hv)
  | map hashed multi k t =>
    have hk : Readable E k := fun t' h => hr t' (.mapKey h)
    have ht : Readable E t := fun t' h => hr t' (.mapVal h)
    cases hp with
    | @map _ _ _ _ kvs h1 h2 =>
    refine (Sound.varint hst).bind fun HT1 m s1 hle _ hst1 _ => ?_
    exact (sound_mapItems hs hcov hk ht hloc.1 hloc.2 multi m kvs hst1 (fun q hq => (h1 q hq).mono_heap hle)
      fun q hq => (h2 q hq).mono_heap hle).bind fun _ v _ _ _ h hv => .pure h (.map hv.1 hv.2)
  | pair a b =>
    cases hp with
    | @pair _ _ x y hx hy =>
    refine (hs.1 HT 0 a x s (fun t' h => hr t' (.fst h)) hst hx).bind fun HT1 x' s1 hle _ hst1 hx' => ?_
    refine (hs.1 HT1 0 b y s1 (fun t' h => hr t' (.snd h)) hst1 (hy.mono_heap hle)).bind fun HT2 y' s2 hle2 _ hst2 hy' => ?_
    exact .pure hst2 (.pair (hx'.mono_heap hle2) hy')
  | variant ts =>
    refine (Sound.byte hst).bind fun HT1 i s1 _ _ hst1 _ => ?_
    cases hti : ts[i]? with
    | none => exact .throw hst1
    | some t =>
      by_cases hm : t = .mono
      · subst hm
        exact .pure hst1 (.variant hti .mono)
      · have ht : Readable E t := fun t' h => hr t' (.alt (List.mem_of_getElem? hti) hm h)
        have : Sound E HT1 (do let v ← self 0 t (E.valInit t); Pure.pure (Val.alt i v) : RM Val) s1
            fun HT' v => HasTy E HT' (.variant ts) v :=
          (hnew t ht hst1).bind fun _ v _ _ _ h hv => .pure h (.variant hti hv)
        cases t <;> first | exact this | exact absurd rfl hm
  | cls c =>
    cases hp with
    | @cls _ st h1 h2 =>
    refine (hcls HT w c st s hr hst (.cls h1 h2)).weaken ?_
    rintro HT' v - ⟨st', rfl, h⟩
    exact h c (.cls h1 h2)
  | dateTime =>
    refine (Sound.int .u64 hst).bind fun _ i _ _ _ h hi => .pure h (.dateTime i ?_ ?_)
    · simpa [IntTy.lo, IntTy.signed] using hi.1
    · simpa [IntTy.lo, IntTy.hi, IntTy.signed, IntTy.card, IntTy.bytes] using hi.2
  | timeSpan =>
    refine (Sound.int .i64 hst).bind fun _ i _ _ _ h hi => .pure h (.timeSpan i ?_ ?_)
    · simpa [IntTy.lo, IntTy.signed, IntTy.bytes] using hi.1
    · simpa [IntTy.lo, IntTy.hi, IntTy.signed, IntTy.card, IntTy.bytes] using hi.2

end

theorem read_sound {E : Env} (hkt : KeyTypes E) (n : Nat) : SoundRead E (read E n) := by
  induction n with
  | zero =>
    refine ⟨fun HT w t p s _ _ _ => ?_, fun HT w c st s _ _ _ => ?_⟩ <;> simp [Sound, read]
  | succ n ih => exact sound_step hkt ih (read_covered hkt n)

end Verif
