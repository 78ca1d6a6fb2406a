import Verif.Spec.JsonObjectTypes
import Verif.Props.JsonHazards
import Verif.Props.JsonGraph
import Verif.Props.JsonErrors
import Verif.Lemmas.BinSound

/-!
# C56: reading any document yields a valid object, an error or one of the listed hazards
-/

namespace Verif

open Demo (env)

/-- `m` is a valid program and if it returns, the result satisfies `Q`. -/
def Snd {α : Type} (m : PM α) (Q : α → Prop) : Prop :=
  ∀ s, match m s with
    | .ok a _ => Q a
    | .stuck => False
    | _ => True

namespace Snd
variable {α β : Type}

theorem pure {a : α} {Q : α → Prop} (h : Q a) : Snd (Pure.pure a : PM α) Q := fun _ => h
theorem ub {Q : α → Prop} : Snd (M.ub : PM α) Q := fun _ => trivial

theorem weaken {m : PM α} {Q R : α → Prop} (h : Snd m Q) (hQ : ∀ a, Q a → R a) : Snd m R := by
  intro s
  have := h s
  cases hm : m s <;> rw [hm] at this <;> first | exact hQ _ this | trivial | exact this.elim

theorem bind {m : PM α} {f : α → PM β} {Q : α → Prop} {R : β → Prop} (hm : Snd m Q) (hf : ∀ a, Q a → Snd (f a) R) :
    Snd (m >>= f) R := by
  intro s
  have h1 := hm s
  rw [M.bind_apply]
  cases h : m s with
  | ok a s' => rw [h] at h1; exact hf a h1 s'
  | stuck => rw [h] at h1; exact h1.elim
  | _ => trivial

theorem map {m : PM α} {g : α → β} {Q : α → Prop} {R : β → Prop} (hm : Snd m Q) (hf : ∀ a, Q a → R (g a)) :
    Snd (m >>= fun a => Pure.pure (g a)) R := hm.bind fun a h => pure (hf a h)

theorem report (k : ErrKind) (a b : JType) : Snd (report k a b) fun _ => True := by
  intro s
  cases s with
  | none => trivial
  | some st =>
    simp only [Verif.report]
    by_cases h : st.throwOn &&& k.flag ≠ 0
    · rw [if_pos h]; trivial
    · rw [if_neg h]; trivial

theorem setIndex (i : Nat) : Snd (setIndex i) fun _ => True := by
  intro s; cases s <;> trivial

theorem withMember {m : PM α} {Q : α → Prop} (n : Str) (h : Snd m Q) : Snd (withMember n m) Q := by
  intro s
  cases s with
  | none =>
    have h1 := h none
    rw [withMember_none]
    cases hm : m none <;> rw [hm] at h1 <;> first | exact h1 | trivial
  | some st =>
    have h1 := h (some { st with member := some n })
    rw [withMember_some]
    cases hm : m (some { st with member := some n }) <;> rw [hm] at h1 <;> first | exact h1 | trivial

theorem withRecord {m : PM α} {Q : α → Prop} (n : Str) (h : Snd m Q) : Snd (withRecord n m) Q := by
  intro s
  cases s with
  | none =>
    have h1 := h none
    rw [withRecord_none]
    cases hm : m none <;> rw [hm] at h1 <;> first | exact h1 | trivial
  | some st =>
    have h1 := h (some { st with record := some n })
    rw [withRecord_some]
    cases hm : m (some { st with record := some n }) <;> rw [hm] at h1 <;> first | exact h1 | trivial

theorem forIdx {f : Json → β → PM β} {Q : β → Prop} (js : List Json) (i : Nat) (b : β) (hb : Q b)
    (h : ∀ j ∈ js, ∀ b, Q b → Snd (f j b) Q) : Snd (forIdx f js i b) Q := by
  induction js generalizing i b with
  | nil => exact (setIndex _).map fun _ _ => hb
  | cons j js ih =>
    exact (setIndex i).bind fun _ _ => (h j List.mem_cons_self b hb).bind fun b' hb' =>
      ih (i + 1) b' hb' fun j' hj' => h j' (List.mem_cons_of_mem _ hj')

theorem numToInt (t : IntTy) (n : Num) : Snd (numToInt t n) fun i => (intRange t).1 ≤ i ∧ i < (intRange t).2 := by
  have hc : ∀ d, Snd (castDouble t d) fun i => (intRange t).1 ≤ i ∧ i < (intRange t).2 := by
    intro d
    unfold castDouble
    split
    · split
      · rename_i h; exact pure ((inRange_iff _ _).1 h)
      · exact ub
    · exact ub
  cases n with
  | int i =>
    simp only [Verif.numToInt]
    split
    · rename_i h; exact pure ((inRange_iff _ _).1 h)
    · exact hc _
  | dbl d => exact hc _

end Snd

theorem wrap_intRange (t : IntTy) (i : Int) : (intRange t).1 ≤ t.wrap i ∧ t.wrap i < (intRange t).2 := by
  have := wrap_bounds t i
  rw [← inRange_iff]
  simp [IntTy.inRange, this.1, this.2]

section
variable {E : Env}

theorem JsonReadable.opt {t : Ty} (h : JsonReadable E (.opt t)) : JsonReadable E t := fun t' ht => h t' (.opt ht)
theorem JsonReadable.uptr {t : Ty} (h : JsonReadable E (.uptr t)) : JsonReadable E t := fun t' ht => h t' (.uptr ht)
theorem JsonReadable.sptr {t : Ty} (h : JsonReadable E (.sptr t)) : JsonReadable E t := fun t' ht => h t' (.sptr ht)
theorem JsonReadable.vec {t : Ty} (h : JsonReadable E (.vec t)) : JsonReadable E t := fun t' ht => h t' (.vec ht)
theorem JsonReadable.set {a b : Bool} {t : Ty} (h : JsonReadable E (.set a b t)) : JsonReadable E t := fun t' ht => h t' (.set ht)
theorem JsonReadable.map {a b : Bool} {k t : Ty} (h : JsonReadable E (.map a b k t)) : JsonReadable E t :=
  fun t' ht => h t' (.mapVal ht)
theorem JsonReadable.elem {ts : List Ty} {t : Ty} (h : JsonReadable E (.tuple ts)) (ht : t ∈ ts) : JsonReadable E t :=
  fun t' ht' => h t' (.elem ht ht')
theorem JsonReadable.alt {ts : List Ty} {t : Ty} (h : JsonReadable E (.variant ts)) (ht : t ∈ ts) (hm : t ≠ .mono) :
    JsonReadable E t := fun t' ht' => h t' (.alt ht hm ht')

mutual
theorem jsonTyped_valInit (t : Ty) (h : JsonReadable E t ∨ t = .mono) : JsonTyped E t (E.valInit t) := by
  match t with
  | .bool => exact .bool _
  | .int it => exact .int _ _ (by cases it <;> simp [intRange]) (by cases it <;> simp [intRange])
  | .f32 => exact .f32 _
  | .f64 => exact .f64 _
  | .enum u => exact .enum _ _ (by cases u <;> simp [intRange]) (by cases u <;> simp [intRange])
  | .str => exact .str _
  | .cstr => exact .cstr _
  | .sview => exact .sview _
  | .opt _ => exact .optNone _
  | .uptr _ => exact .uptrNone _
  | .sptr _ => exact .sptrNone _
  | .vec _ => exact .vec (by simp)
  | .set _ _ _ => exact .set (by simp)
  | .map _ _ _ _ => exact .map (by simp) (by simp)
  | .pair a b =>
    have h : JsonReadable E (.pair a b) := by simpa using h
    exact .pair (jsonTyped_valInit a (.inl fun t' ht => h t' (.fst ht))) (jsonTyped_valInit b (.inl fun t' ht => h t' (.snd ht)))
  | .tuple ts =>
    have h : JsonReadable E (.tuple ts) := by simpa using h
    have := jsonTyped_valInitL ts fun t ht => .inl (h.elem ht)
    exact .tuple this.1 this.2
  | .variant ts =>
    have h : JsonReadable E (.variant ts) := by simpa using h
    match ts with
    | [] => exact absurd rfl (h _ (.refl _))
    | t :: ts =>
      have : JsonTyped E t (E.valInit t) := jsonTyped_valInit t (by
        by_cases hm : t = .mono
        · exact .inr hm
        · exact .inl (h.alt List.mem_cons_self hm))
      exact .variant (i := 0) rfl this
  | .mono => exact .mono
  | .cls c =>
    have h : JsonReadable E (.cls c) := by simpa using h
    obtain ⟨ci, h1, -, h2, -⟩ := h _ (.refl _)
    simp only [Env.valInit, h1]
    exact h2
  | .dateTime => exact .dateTime _
  | .timeSpan => exact .timeSpan _
theorem jsonTyped_valInitL (ts : List Ty) (h : ∀ t ∈ ts, JsonReadable E t ∨ t = .mono) :
    (E.valInitL ts).length = ts.length ∧
      ∀ (i : Nat) t v, ts[i]? = some t → (E.valInitL ts)[i]? = some v → JsonTyped E t v := by
  match ts with
  | [] => exact ⟨rfl, by simp⟩
  | t :: ts =>
    have h1 := jsonTyped_valInit t (h t List.mem_cons_self)
    have h2 := jsonTyped_valInitL ts fun t ht => h t (List.mem_cons_of_mem _ ht)
    refine ⟨by simp [Env.valInitL, h2.1], fun i t' v ht' hv => ?_⟩
    cases i with
    | zero => simp [Env.valInitL] at ht' hv; subst ht'; subst hv; exact h1
    | succ i => simp [Env.valInitL] at ht' hv; exact h2.2 i t' v ht' hv
end

theorem jsonTyped_defInit (t : Ty) (h : JsonReadable E t) : JsonTyped E t (E.defInit t) := by
  cases t with
  | bool => exact .noBool
  | int it => exact .noInt _
  | f32 => exact .noF32
  | f64 => exact .noF64
  | enum u => exact .noEnum _
  | cstr => exact .noCstr
  | cls c =>
    obtain ⟨ci, h1, -, -, h2⟩ := h _ (.refl _)
    simp only [Env.defInit, h1]
    exact h2
  | _ => exact jsonTyped_valInit _ (Or.inl h)

/-- what is shown about a `pull` -/
def SoundPull (E : Env) (self : Ty → Json → Val → PM Val) : Prop :=
  (∀ t j p, JsonReadable E t → JsonTyped E t p → Snd (self t j p) fun v => JsonTyped E t v) ∧
  (∀ c j (st : Store), JsonReadable E (.cls c) → JsonTyped E (.cls c) (.obj st) →
    Snd (self (.cls c) j (.obj st)) fun v =>
      ∃ st', v = .obj st' ∧ ∀ c', JsonTyped E (.cls c') (.obj st) → JsonTyped E (.cls c') (.obj st'))

theorem snd_mismatch (e : JType) (j : Json) {v : Val} {Q : Val → Prop} (h : Q v) : Snd (mismatch e j v) Q :=
  (Snd.report _ _ _).map fun _ _ => h

theorem mapSet_mem (lt : Val → Val → Bool) (k v : Val) (l : List (Val × Val)) (q : Val × Val) (h : q ∈ mapSet lt k v l) :
    q = (k, v) ∨ (∃ k', q = (k', v) ∧ ∃ v', (k', v') ∈ l) ∨ q ∈ l := by
  induction l with
  | nil => simp [mapSet] at h; exact .inl h
  | cons y l ih =>
    obtain ⟨k', v'⟩ := y
    unfold mapSet at h
    split at h
    · rcases List.mem_cons.1 h with h | h
      · exact .inl h
      · exact .inr (.inr h)
    · split at h
      · rcases List.mem_cons.1 h with h | h
        · exact .inr (.inr (by rw [h]; exact List.mem_cons_self))
        · rcases ih h with h | ⟨k'', h1, v'', h2⟩ | h
          · exact .inl h
          · exact .inr (.inl ⟨k'', h1, v'', List.mem_cons_of_mem _ h2⟩)
          · exact .inr (.inr (List.mem_cons_of_mem _ h))
      · rcases List.mem_cons.1 h with h | h
        · exact .inr (.inl ⟨k', h, v', List.mem_cons_self⟩)
        · exact .inr (.inr (List.mem_cons_of_mem _ h))

theorem mapFind_mem (lt : Val → Val → Bool) (k v : Val) (l : List (Val × Val)) (h : mapFind lt k l = some v) :
    ∃ k', (k', v) ∈ l := by
  induction l with
  | nil => cases h
  | cons y l ih =>
    obtain ⟨k', v'⟩ := y
    unfold mapFind at h
    split at h
    · cases h
    · split at h
      · obtain ⟨k'', h'⟩ := ih h; exact ⟨k'', List.mem_cons_of_mem _ h'⟩
      · cases h; exact ⟨k', List.mem_cons_self⟩

variable {self : Ty → Json → Val → PM Val} (hkt : JsonKeyTypes E) (hs : SoundPull E self)
include hs

theorem snd_vec {t : Ty} (ht : JsonReadable E t) (js : List Json) :
    Snd (forIdx (vecItem E self t) js 0 []) fun vs => ∀ v ∈ vs, JsonTyped E t v := by
  refine Snd.forIdx js 0 [] (by simp) fun j _ vs hvs => ?_
  refine (hs.1 t j _ ht (jsonTyped_valInit t (.inl ht))).map fun v hv x hx => ?_
  rcases List.mem_append.1 hx with h | h
  · exact hvs x h
  · rw [List.mem_singleton.1 h]; exact hv

theorem snd_set {t : Ty} (ht : JsonReadable E t) (multi : Bool) (js : List Json) :
    Snd (forIdx (if multi then multisetItem E self t else setItem E self t) js 0 []) fun vs => ∀ v ∈ vs, JsonTyped E t v := by
  refine Snd.forIdx js 0 [] (by simp) fun j _ vs hvs => ?_
  cases multi with
  | true =>
    refine (hs.1 t j _ ht (jsonTyped_defInit t ht)).bind fun v hv => ?_
    split
    · exact Snd.ub
    · refine Snd.pure fun x hx => ?_
      rcases insertMulti_mem _ _ _ _ hx with h | h
      · rw [h]; exact hv
      · exact hvs x h
  | false =>
    refine (hs.1 t j _ ht (jsonTyped_defInit t ht)).bind fun v hv => ?_
    have hmem : ∀ x ∈ (insertUniq (E.lt t) v vs).1, JsonTyped E t x := by
      intro x hx
      rcases insertUniq_mem _ _ _ _ hx with h | h
      · rw [h]; exact hv
      · exact hvs x h
    split
    · exact Snd.ub
    · dsimp only
      split
      · exact Snd.pure hmem
      · refine Snd.map (Q := fun _ => True) ?_ fun _ _ => hmem
        intro s
        cases s with
        | none => trivial
        | some st => exact Snd.report .unexpectedDuplicate .array .array (some st)

theorem snd_map {t : Ty} (ht : JsonReadable E t) (ms : List (Key × Json)) (kvs : List (Val × Val))
    (h : ∀ q ∈ kvs, JsonTyped E .str q.1 ∧ JsonTyped E t q.2) :
    Snd (pullMapEntries E self t ms kvs) fun kvs => ∀ q ∈ kvs, JsonTyped E .str q.1 ∧ JsonTyped E t q.2 := by
  induction ms generalizing kvs with
  | nil => exact Snd.pure h
  | cons m ms ih =>
    obtain ⟨k, j⟩ := m
    refine (hs.1 t j _ ht ?_).bind fun v hv => ih _ ?_
    · cases hf : mapFind (E.lt .str) (Val.str (cstrOf k.bytes)) kvs with
      | none => exact jsonTyped_valInit t (.inl ht)
      | some v =>
        obtain ⟨k', hk⟩ := mapFind_mem _ _ _ _ hf
        exact (h _ hk).2
    · intro q hq
      rcases mapSet_mem _ _ _ _ _ hq with rfl | ⟨k', rfl, v', h'⟩ | h'
      · exact ⟨.str _, hv⟩
      · exact ⟨(h _ h').1, hv⟩
      · exact h q h'

theorem snd_multimapItems {t : Ty} (ht : JsonReadable E t) (key : Str) (js : List Json) (kvs : List (Val × Val))
    (h : ∀ q ∈ kvs, JsonTyped E .str q.1 ∧ JsonTyped E t q.2) :
    Snd (pullMultimapItems E self t key js kvs) fun kvs => ∀ q ∈ kvs, JsonTyped E .str q.1 ∧ JsonTyped E t q.2 := by
  induction js generalizing kvs with
  | nil => exact Snd.pure h
  | cons j js ih =>
    refine (hs.1 t j _ ht (jsonTyped_valInit t (.inl ht))).bind fun v hv => ih _ fun q hq => ?_
    rcases mapInsertMulti_mem _ _ _ _ _ hq with rfl | h'
    · exact ⟨.str _, hv⟩
    · exact h q h'

theorem snd_multimap {t : Ty} (ht : JsonReadable E t) (ms : List (Key × Json)) (kvs : List (Val × Val))
    (h : ∀ q ∈ kvs, JsonTyped E .str q.1 ∧ JsonTyped E t q.2) :
    Snd (pullMultimapEntries E self t ms kvs) fun kvs => ∀ q ∈ kvs, JsonTyped E .str q.1 ∧ JsonTyped E t q.2 := by
  induction ms generalizing kvs with
  | nil => exact Snd.pure h
  | cons m ms ih =>
    obtain ⟨k, j⟩ := m
    exact (snd_multimapItems hs ht _ _ kvs h).bind fun kvs' h' => ih kvs' h'

theorem snd_tuple (ts : List Ty) (ht : ∀ t ∈ ts, JsonReadable E t) (js : List Json) (vs : List Val) (hj : js.length = ts.length)
    (hv : vs.length = ts.length) (h : ∀ (i : Nat) t v, ts[i]? = some t → vs[i]? = some v → JsonTyped E t v) :
    Snd (pullTuple self ts js vs) fun vs => vs.length = ts.length ∧
      ∀ (i : Nat) t v, ts[i]? = some t → vs[i]? = some v → JsonTyped E t v := by
  induction ts generalizing js vs with
  | nil =>
    cases js with
    | cons => cases hj
    | nil => cases vs with
      | cons => cases hv
      | nil => exact Snd.pure ⟨rfl, by simp⟩
  | cons t ts ih =>
    cases js with
    | nil => cases hj
    | cons j js => cases vs with
      | nil => cases hv
      | cons v vs =>
        refine (hs.1 t j v (ht t List.mem_cons_self) (h 0 t v rfl rfl)).bind fun v' hv' => ?_
        refine (ih (fun t h => ht t (List.mem_cons_of_mem _ h)) js vs (by simpa using hj) (by simpa using hv)
          fun i t' v' h1 h2 => h (i + 1) t' v' (by simpa using h1) (by simpa using h2)).map fun vs' h' => ?_
        refine ⟨by simp [h'.1], fun i t' x h1 h2 => ?_⟩
        cases i with
        | zero => simp at h1 h2; subst h1; subst h2; exact hv'
        | succ i => exact h'.2 i t' x (by simpa using h1) (by simpa using h2)

theorem snd_bases (bs : List ClassId) (hr : ∀ b ∈ bs, JsonReadable E (.cls b)) (ms : List (Key × Json)) (st : Store)
    (hp : ∀ b ∈ bs, JsonTyped E (.cls b) (.obj st)) :
    Snd (pullBases self bs ms (.obj st)) fun v =>
      ∃ st', v = .obj st' ∧ ∀ c', JsonTyped E (.cls c') (.obj st) → JsonTyped E (.cls c') (.obj st') := by
  induction bs generalizing st with
  | nil => exact Snd.pure ⟨st, rfl, fun _ h => h⟩
  | cons b bs ih =>
    refine (hs.2 b _ st (hr b List.mem_cons_self) (hp b List.mem_cons_self)).bind fun v hv => ?_
    obtain ⟨st1, rfl, h1⟩ := hv
    refine (ih (fun b hb => hr b (List.mem_cons_of_mem _ hb)) st1 fun b hb => h1 b (hp b (List.mem_cons_of_mem _ hb))).weaken ?_
    rintro v ⟨st2, rfl, h2⟩
    exact ⟨st2, rfl, fun c' h => h2 c' (h1 c' h)⟩

include hkt

theorem snd_fields {c : ClassId} (fs : List Field) (hr : ∀ f ∈ fs, JsonReadable E f.ty) (hfs : ∀ f ∈ fs, Reads E c f)
    (ms : List (Key × Json)) (st : Store) (hp : JsonTyped E (.cls c) (.obj st)) :
    Snd (pullFields self fs ms st) fun st' => ∀ c', JsonTyped E (.cls c') (.obj st) → JsonTyped E (.cls c') (.obj st') := by
  induction fs generalizing st with
  | nil => exact Snd.pure fun _ h => h
  | cons f fs ih =>
    have hf0 := hfs f List.mem_cons_self
    have h1 : Snd (pullField self f ms st) fun st' => ∀ c', JsonTyped E (.cls c') (.obj st) → JsonTyped E (.cls c') (.obj st') := by
      unfold pullField
      cases findMember f.name ms with
      | none => exact Snd.pure fun _ h => h
      | some j =>
        dsimp only
        cases hp with
        | cls hp1 hp2 =>
        have hsome := hp1 f hf0
        cases hg : st.get? f.key with
        | none => rw [hg] at hsome; cases hsome
        | some p =>
          dsimp only
          refine (Snd.withMember f.name (hs.1 f.ty j p (hr f List.mem_cons_self) (hp2 f p hf0 hg))).map fun v hv c' h => ?_
          cases h with
          | cls h1 h2 =>
            refine .cls (fun f' hf' => ?_) (fun f' v' hf' hg' => ?_)
            · by_cases hk : f'.key = f.key
              · rw [hk, get?_set_eq st hg]; rfl
              · rw [get?_set_ne _ _ hk]; exact h1 f' hf'
            · by_cases hk : f'.key = f.key
              · rw [hk, get?_set_eq st hg] at hg'
                cases hg'
                rw [hkt c' f' c f hf' hf0 hk]
                exact hv
              · rw [get?_set_ne _ _ hk] at hg'
                exact h2 f' v' hf' hg'
    refine h1.bind fun st1 hst1 => ?_
    exact (ih (fun f h => hr f (List.mem_cons_of_mem _ h)) (fun f h => hfs f (List.mem_cons_of_mem _ h)) st1 (hst1 c hp)).weaken
      fun st2 h c' hc' => h c' (hst1 c' hc')

theorem snd_step : SoundPull E (pullStep E self) := by
  have hcls : ∀ c j (st : Store), JsonReadable E (.cls c) → JsonTyped E (.cls c) (.obj st) →
      Snd (pullStep E self (.cls c) j (.obj st)) fun v =>
        ∃ st', v = .obj st' ∧ ∀ c', JsonTyped E (.cls c') (.obj st) → JsonTyped E (.cls c') (.obj st') := by
    intro c j st hr hp
    obtain ⟨ci, hci, hpl, -⟩ := hr _ (.refl _)
    simp only [pullStep, hci, hpl]
    cases j with
    | obj ms =>
      have hpb : ∀ b ∈ ci.json.bases, JsonTyped E (.cls b) (.obj st) := by
        intro b hb
        cases hp with
        | cls h3 h4 => exact .cls (fun f hf => h3 f (.base hci hb hf)) (fun f v hf => h4 f v (.base hci hb hf))
      refine (snd_bases hs ci.json.bases (fun b hb t' h => hr t' (.base hci hb h)) ms st hpb).bind fun v hv => ?_
      obtain ⟨st1, rfl, hv⟩ := hv
      have := snd_fields hkt hs (c := c) ci.json.pullFields (fun f h t' ht => hr t' (.field hci h ht)) (fun f h => .own hci h)
        ms st1 (hv c hp)
      dsimp only
      by_cases hrec : ci.json.setsRecord = true
      · rw [if_pos hrec]
        exact (Snd.withRecord _ this).map fun st2 h2 => ⟨st2, rfl, fun c' hc' => h2 c' (hv c' hc')⟩
      · rw [if_neg hrec]
        exact this.map fun st2 h2 => ⟨st2, rfl, fun c' hc' => h2 c' (hv c' hc')⟩
    | _ => exact snd_mismatch _ _ ⟨st, rfl, fun _ h => h⟩
  refine ⟨fun t j p hr hp => ?_, hcls⟩
  have hloc := hr _ (.refl _)
  have hnew : ∀ t, JsonReadable E t → Snd (self t j (E.valInit t)) fun v => JsonTyped E t v :=
    fun t ht => hs.1 t j _ ht (jsonTyped_valInit t (.inl ht))
  have htime : ∀ t (parse : Str → Option Int), (∀ i, JsonTyped E t (.tick i)) → JsonTyped E t p →
      Snd (pullTime parse j p) fun v => JsonTyped E t v := by
    intro t parse ht hp
    unfold pullTime
    refine Snd.bind (Q := fun _ => True) ?_ fun s _ => ?_
    · unfold pullTimeStr
      cases j <;> first | exact Snd.pure trivial | exact (Snd.report _ _ _).map fun _ _ => trivial
    · cases parse s with
      | some i => exact Snd.pure (ht i)
      | none => exact (Snd.report _ _ _).map fun _ _ => hp
  cases t with
  | bool => cases j <;> first | exact Snd.pure (.bool _) | exact snd_mismatch _ _ hp
  | int it =>
    have h8 : ∀ m : Num, Snd (numToInt .i32 m >>= fun i => Pure.pure (Val.int (it.wrap i))) fun v => JsonTyped E (.int it) v :=
      fun m => (Snd.numToInt _ _).map fun i _ => .int _ _ (wrap_intRange it i).1 (wrap_intRange it i).2
    have h32 : ∀ m : Num, Snd (numToInt it m >>= fun i => Pure.pure (Val.int i)) fun v => JsonTyped E (.int it) v :=
      fun m => (Snd.numToInt _ _).map fun i h => .int _ _ h.1 h.2
    rcases hloc with rfl | rfl | rfl | rfl | rfl | rfl <;> cases j <;>
      first | exact h8 _ | exact h32 _ | exact snd_mismatch _ _ hp
  | f32 => cases j <;> first | exact Snd.pure (.f32 _) | exact snd_mismatch _ _ hp
  | f64 => cases j <;> first | exact Snd.pure (.f64 _) | exact snd_mismatch _ _ hp
  | enum u =>
    simp only [pullStep]
    cases enumNum (!u.signed) j with
    | some i => exact Snd.pure (.enum _ _ (wrap_intRange u i).1 (wrap_intRange u i).2)
    | none => exact snd_mismatch _ _ hp
  | str => cases j <;> first | exact Snd.pure (.str _) | exact snd_mismatch _ _ hp
  | cstr => cases j <;> first | exact Snd.pure hp | exact snd_mismatch _ _ hp
  | sview => cases j <;> first | exact Snd.pure hp | exact snd_mismatch _ _ hp
  | vec t' => cases j <;> first | exact (snd_vec hs hr.vec _).map fun _ h => .vec h | exact snd_mismatch _ _ hp
  | set a b t' => cases j <;> first | exact (snd_set hs hr.set b _).map fun _ h => .set h | exact snd_mismatch _ _ hp
  | map a multi k t' =>
    obtain rfl : k = .str := hloc
    cases j with
    | obj ms =>
      cases hp with
      | @map _ _ _ _ kvs h1 h2 =>
        have h : ∀ q ∈ kvs, JsonTyped E .str q.1 ∧ JsonTyped E t' q.2 := fun q hq => ⟨h1 q hq, h2 q hq⟩
        cases multi with
        | true => exact (snd_multimap hs hr.map ms kvs h).map fun _ h => .map (fun q hq => (h q hq).1) fun q hq => (h q hq).2
        | false => exact (snd_map hs hr.map ms kvs h).map fun _ h => .map (fun q hq => (h q hq).1) fun q hq => (h q hq).2
    | _ => exact snd_mismatch _ _ hp
  | pair a b =>
    cases j with
    | arr js =>
      simp only [pullStep]
      by_cases hl : js.length = 2
      · rw [if_neg (by simpa using hl)]
        cases hp with
        | @pair _ _ x y h1 h2 =>
          refine (snd_tuple hs [a, b] ?_ js [x, y] hl rfl ?_).map ?_
          · intro t ht
            simp at ht
            rcases ht with rfl | rfl
            · exact fun t' h => hr t' (.fst h)
            · exact fun t' h => hr t' (.snd h)
          · intro i t v ht hv
            match i with
            | 0 => simp at ht hv; subst ht; subst hv; exact h1
            | 1 => simp at ht hv; subst ht; subst hv; exact h2
            | i + 2 => simp at ht
          · rintro vs ⟨h3, h4⟩
            match vs, h3 with
            | [x', y'], _ => exact .pair (h4 0 a x' rfl rfl) (h4 1 b y' rfl rfl)
      · rw [if_pos hl]
        exact (Snd.report _ _ _).map fun _ _ => hp
    | _ => exact snd_mismatch _ _ hp
  | tuple ts =>
    cases j with
    | arr js =>
      simp only [pullStep]
      by_cases hl : js.length = ts.length
      · rw [if_neg (by simpa using hl)]
        cases hp with
        | tuple h1 h2 => exact (snd_tuple hs ts (fun t ht => hr.elem ht) js _ hl h1 h2).map fun vs h => .tuple h.1 h.2
      · rw [if_pos hl]
        exact (Snd.report _ _ _).map fun _ _ => hp
    | _ => exact snd_mismatch _ _ hp
  | opt t' => cases j <;> first | exact Snd.pure (.optNone _) | exact (hnew t' hr.opt).map fun _ h => .optSome h
  | uptr t' => cases j <;> first | exact Snd.pure (.uptrNone _) | exact (hnew t' hr.uptr).map fun _ h => .uptrSome h
  | sptr t' => cases j <;> first | exact Snd.pure (.sptrNone _) | exact (hnew t' hr.sptr).map fun _ h => .sptrSome h
  | variant ts =>
    cases j with
    | obj ms =>
      simp only [pullStep]
      cases findMember (lit "index") ms with
      | none => exact (Snd.report _ _ _).map fun _ _ => hp
      | some ji =>
        cases findMember (lit "data") ms with
        | none => exact (Snd.report _ _ _).map fun _ _ => hp
        | some jd =>
          dsimp only
          cases uint64? ji with
          | none => exact (Snd.report _ _ _).map fun _ _ => hp
          | some i =>
            dsimp only
            cases ht : ts[i]? with
            | none => exact (Snd.report _ _ _).map fun _ _ => hp
            | some t' =>
              have hmem := List.mem_of_getElem? ht
              have hd : t' ≠ .mono → Snd (self t' jd (E.valInit t') >>= fun v => Pure.pure (Val.alt i v))
                  fun v => JsonTyped E (.variant ts) v :=
                fun hm => (hs.1 t' jd _ (hr.alt hmem hm) (jsonTyped_valInit t' (.inl (hr.alt hmem hm)))).map fun v hv => .variant ht hv
              cases t' <;> first
                | exact Snd.pure (.variant ht .mono)
                | exact hd (by simp)
    | _ => exact snd_mismatch _ _ hp
  | mono => exact hloc.elim
  | cls c =>
    cases hp with
    | @cls _ st h1 h2 =>
      refine (hcls c j st hr (.cls h1 h2)).weaken ?_
      rintro v ⟨st', rfl, h⟩
      exact h c (.cls h1 h2)
  | dateTime => exact htime _ _ (fun i => .dateTime i) hp
  | timeSpan => exact htime _ _ (fun i => .timeSpan i) hp

end

theorem snd_pull {E : Env} (hkt : JsonKeyTypes E) (n : Nat) : SoundPull E (pull E n) := by
  induction n with
  | zero => exact ⟨fun _ _ _ _ _ _ => trivial, fun _ _ _ _ _ _ => trivial⟩
  | succ n ih => exact snd_step hkt ih

/-- C56: let any document be read into any valid object of a supported type, with or without errors object. With a sufficient
recursion budget the outcome is definite and one of: a valid object of the type; one of the reported errors thrown, which is
possible only if an errors object is given whose `throwOn` contains the kind of that error; undefined behaviour, and that iff
the document has one of the hazards of C55. -/
theorem C56_safe_outcomes (E : Env) (hO : OrderedItems E) (hkt : JsonKeyTypes E) (rank : ClassId → Nat) (hr : Ranked E rank)
    (t : Ty) (ht : JsonReadable E t) (j : Json) (hj : StoredNumbers j) (v : Val) (hv : JsonTyped E t v) (s : Option ErrSt) :
    ∃ N, (∃ v' s', (∀ n, N ≤ n → pull E n t j v s = .ok v' s') ∧ JsonTyped E t v' ∧ ¬ Hazard E s.isNone t j) ∨
      (∃ e s' st, (∀ n, N ≤ n → pull E n t j v s = .exc e s') ∧ s = some st ∧ Fatal st.throwOn e.kind) ∨
      ((∀ n, N ≤ n → pull E n t j v s = .ub) ∧ Hazard E s.isNone t j) := by
  obtain ⟨N, hN⟩ := C23_deserialization_terminates E rank hr t j
  obtain ⟨hf, hN⟩ := hN v s
  have h1 := (snd_pull hkt N).1 t j v ht hv s
  have h2 := C55_undefined_behaviour_exactly E hO N t j hj v s
  refine ⟨N, ?_⟩
  cases hm : pull E N t j v s with
  | ok v' s' => rw [hm] at h1; exact .inl ⟨v', s', fun n hn => (hN n hn).trans hm, h1, h2.2 _ _ hm⟩
  | exc e s' =>
    cases s with
    | none => exact absurd hm ((C07_fatal_iff_flagged E N t j v .init).1 e s')
    | some st => exact .inr (.inl ⟨e, s', st, fun n hn => (hN n hn).trans hm, rfl, ((C07_fatal_iff_flagged E N t j v st).2.1 e s' hm).1⟩)
  | ub => exact .inr (.inr ⟨fun n hn => (hN n hn).trans hm, h2.1 hm⟩)
  | stuck => rw [hm] at h1; exact h1.elim
  | fuel => exact absurd hm hf

/-! ### The hypotheses are met by the demo classes -/

theorem jsonNeeds_closed {E : Env} (S : Ty → Prop) (hopt : ∀ t, S (.opt t) → S t) (huptr : ∀ t, S (.uptr t) → S t)
    (hsptr : ∀ t, S (.sptr t) → S t) (hvec : ∀ t, S (.vec t) → S t) (hset : ∀ h m t, S (.set h m t) → S t)
    (hmap : ∀ h m k t, S (.map h m k t) → S t) (hpair : ∀ a b, S (.pair a b) → S a ∧ S b)
    (htup : ∀ ts, S (.tuple ts) → ∀ t ∈ ts, S t) (hvar : ∀ ts, S (.variant ts) → ∀ t ∈ ts, S t)
    (hcls : ∀ c ci, E.cls c = some ci → S (.cls c) → (∀ b ∈ ci.json.bases, S (.cls b)) ∧ ∀ f ∈ ci.json.pullFields, S f.ty)
    {t t' : Ty} (h : JsonNeeds E t t') (ht : S t) : S t' := by
  induction h with
  | refl => exact ht
  | opt _ ih => exact ih (hopt _ ht)
  | uptr _ ih => exact ih (huptr _ ht)
  | sptr _ ih => exact ih (hsptr _ ht)
  | vec _ ih => exact ih (hvec _ ht)
  | set _ ih => exact ih (hset _ _ _ ht)
  | mapVal _ ih => exact ih (hmap _ _ _ _ ht)
  | fst _ ih => exact ih (hpair _ _ ht).1
  | snd _ ih => exact ih (hpair _ _ ht).2
  | elem h1 _ ih => exact ih (htup _ ht _ h1)
  | alt h1 _ _ ih => exact ih (hvar _ ht _ h1)
  | base h1 h2 _ ih => exact ih ((hcls _ _ h1 ht).1 _ h2)
  | field h1 h2 _ ih => exact ih ((hcls _ _ h1 ht).2 _ h2)

namespace SafetyDemo
open Demo

theorem cls_cases {c : ClassId} {ci : ClassInfo} (h : env.cls c = some ci) :
    (c = 0 ∧ ci = base) ∨ (c = 1 ∧ ci = derived) ∨ (c = 2 ∧ ci = node) := by
  match c, h with
  | 0, h => cases h; simp
  | 1, h => cases h; simp
  | 2, h => cases h; simp

theorem reads {c : ClassId} {f : Field} (h : Reads env c f) :
    (f = fI ∨ f = fM) ∧ (c = 0 ∨ c = 1) ∨ f = fS ∧ c = 1 ∨ (f = fV ∨ f = fN) ∧ c = 2 := by
  induction h with
  | own h1 h2 =>
    rcases cls_cases h1 with ⟨rfl, rfl⟩ | ⟨rfl, rfl⟩ | ⟨rfl, rfl⟩ <;>
      simp only [base, derived, node, List.mem_cons, List.not_mem_nil, or_false] at h2 <;> tauto
  | base h1 h2 h3 ih =>
    rcases cls_cases h1 with ⟨rfl, rfl⟩ | ⟨rfl, rfl⟩ | ⟨rfl, rfl⟩ <;> simp [base, derived, node] at h2
    subst h2
    rcases ih with ⟨h, -⟩ | ⟨-, h⟩ | ⟨-, h⟩
    · exact Or.inl ⟨h, Or.inr rfl⟩
    · cases h
    · cases h

theorem keyTypes : JsonKeyTypes env := by
  intro c f c' f' h h' hk
  rcases reads h with ⟨rfl | rfl, -⟩ | ⟨rfl, -⟩ | ⟨rfl | rfl, -⟩ <;>
    rcases reads h' with ⟨rfl | rfl, -⟩ | ⟨rfl, -⟩ | ⟨rfl | rfl, -⟩ <;> first | rfl | (exfalso; revert hk; decide)

theorem typed_base (st : Store) (i : Val) (hi : JsonTyped env (.int .i32) i) (m : List (Val × Val))
    (hm : JsonTyped env fM.ty (.map m)) (h1 : st.get? fI.key = some i) (h2 : st.get? fM.key = some (.map m)) :
    JsonTyped env (.cls 0) (.obj st) := by
  refine .cls (fun f hf => ?_) (fun f v hf hg => ?_)
  · rcases reads hf with ⟨rfl | rfl, -⟩ | ⟨-, h⟩ | ⟨-, h⟩
    · simp [h1]
    · simp [h2]
    · cases h
    · cases h
  · rcases reads hf with ⟨rfl | rfl, -⟩ | ⟨-, h⟩ | ⟨-, h⟩
    · rw [h1] at hg; cases hg; exact hi
    · rw [h2] at hg; cases hg; exact hm
    · cases h
    · cases h

theorem typed_derived (st : Store) (i : Val) (hi : JsonTyped env (.int .i32) i)
    (h1 : st.get? fI.key = some i) (h2 : st.get? fM.key = some (.map [])) (h3 : st.get? fS.key = some (.list [])) :
    JsonTyped env (.cls 1) (.obj st) := by
  refine .cls (fun f hf => ?_) (fun f v hf hg => ?_)
  · rcases reads hf with ⟨rfl | rfl, -⟩ | ⟨rfl, -⟩ | ⟨-, h⟩
    · simp [h1]
    · simp [h2]
    · simp [h3]
    · cases h
  · rcases reads hf with ⟨rfl | rfl, -⟩ | ⟨rfl, -⟩ | ⟨-, h⟩
    · rw [h1] at hg; cases hg; exact hi
    · rw [h2] at hg; cases hg; exact .map (by simp) (by simp)
    · rw [h3] at hg; cases hg; exact .vec (by simp)
    · cases h

theorem typed_node (st : Store) (i : Val) (hi : JsonTyped env (.int .i32) i)
    (h1 : st.get? fV.key = some i) (h2 : st.get? fN.key = some .null) : JsonTyped env (.cls 2) (.obj st) := by
  refine .cls (fun f hf => ?_) (fun f v hf hg => ?_)
  · rcases reads hf with ⟨-, h | h⟩ | ⟨-, h⟩ | ⟨rfl | rfl, -⟩
    · cases h
    · cases h
    · cases h
    · simp [h1]
    · simp [h2]
  · rcases reads hf with ⟨-, h | h⟩ | ⟨-, h⟩ | ⟨rfl | rfl, -⟩
    · cases h
    · cases h
    · cases h
    · rw [h1] at hg; cases hg; exact hi
    · rw [h2] at hg; cases hg; exact .sptrNone _

/-- types involved in the demo classes, a set, a tuple and a variant -/
def demoTy (t : Ty) : Prop :=
  t = .cls 0 ∨ t = .cls 1 ∨ t = .cls 2 ∨ t = .int .i32 ∨ t = .str ∨ t = .vec .str ∨ t = .sptr (.cls 2) ∨
    t = .map false false .str (.int .i32) ∨ t = .set false false (.int .i32) ∨
    t = .tuple [.int .i32, .cls 2] ∨ t = .variant [.str, .cls 1]

theorem readable {t : Ty} (ht : demoTy t) : JsonReadable env t := by
  intro t' h
  have : demoTy t' := by
    refine jsonNeeds_closed demoTy ?_ ?_ ?_ ?_ ?_ ?_ ?_ ?_ ?_ ?_ h ht
    all_goals simp only [demoTy]
    · intro t h; simp at h
    · intro t h; simp at h
    · intro t h; simp at h; simp [h]
    · intro t h; simp at h; simp [h]
    · intro a b t h; simp at h; simp [h]
    · intro a b k t h; simp at h; simp [h]
    · intro a b h; simp at h
    · intro ts h t ht; simp at h; subst h; simp at ht; rcases ht with rfl | rfl <;> simp
    · intro ts h t ht; simp at h; subst h; simp at ht; rcases ht with rfl | rfl <;> simp
    · intro c ci h _
      rcases cls_cases h with ⟨rfl, rfl⟩ | ⟨rfl, rfl⟩ | ⟨rfl, rfl⟩ <;>
        simp [base, derived, node, fI, fM, fS, fV, fN]
  rcases this with rfl | rfl | rfl | rfl | rfl | rfl | rfl | rfl | rfl | rfl | rfl
  · exact ⟨base, rfl, rfl, typed_base _ (.int 0) (.int _ _ (by decide) (by decide)) [] (.map (by simp) (by simp)) rfl rfl,
      typed_base _ .indet (.noInt _) [] (.map (by simp) (by simp)) rfl rfl⟩
  · exact ⟨derived, rfl, rfl, typed_derived _ (.int 0) (.int _ _ (by decide) (by decide)) rfl rfl rfl,
      typed_derived _ .indet (.noInt _) rfl rfl rfl⟩
  · exact ⟨node, rfl, rfl, typed_node _ (.int 0) (.int _ _ (by decide) (by decide)) rfl rfl,
      typed_node _ .indet (.noInt _) rfl rfl⟩
  · simp [JsonLocallyOk]
  · trivial
  · trivial
  · trivial
  · rfl
  · trivial
  · trivial
  · simp [JsonLocallyOk]

-- any document read into a list of nodes, with or without errors object
example (j : Json) (hj : StoredNumbers j) (s : Option ErrSt) :
    ∃ N, (∃ v' s', (∀ n, N ≤ n → pull env n (.cls 2) j (.obj nodeInit) s = .ok v' s') ∧ JsonTyped env (.cls 2) v' ∧
        ¬ Hazard env s.isNone (.cls 2) j) ∨
      (∃ e s' st, (∀ n, N ≤ n → pull env n (.cls 2) j (.obj nodeInit) s = .exc e s') ∧ s = some st ∧ Fatal st.throwOn e.kind) ∨
      ((∀ n, N ≤ n → pull env n (.cls 2) j (.obj nodeInit) s = .ub) ∧ Hazard env s.isNone (.cls 2) j) :=
  C56_safe_outcomes env ConformDemo.ordered keyTypes demoRank demo_ranked _ (readable (by simp [demoTy])) j hj _
    (typed_node _ (.int 0) (.int _ _ (by decide) (by decide)) rfl rfl) s

end SafetyDemo

end Verif
