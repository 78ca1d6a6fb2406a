import Verif.Lemmas.PullLeft
import Verif.Props.JsonSafety

/-!
# Objects left by exceptions are valid
-/

namespace Verif

section
variable {E : Env} (hkt : JsonKeyTypes E)
include hkt

theorem gives_typed {t : Ty} {j : Json} {p v : Val} (hr : JsonReadable E t) (hp : JsonTyped E t p) (h : Gives E t j p v) :
    JsonTyped E t v := by
  obtain ⟨n, s, s', h⟩ := h
  have := (snd_pull hkt n).1 t j p hr hp s
  rw [h] at this
  exact this

/-- typed for whatever class the object was typed before -/
def KeptObj (E : Env) (p q : Val) : Prop :=
  ∀ st : Store, p = .obj st → ∃ st' : Store, q = .obj st' ∧ ∀ c, JsonTyped E (.cls c) (.obj st) → JsonTyped E (.cls c) (.obj st')

theorem gives_kept {c : ClassId} {j : Json} {p v : Val} (hr : JsonReadable E (.cls c)) (hp : JsonTyped E (.cls c) p)
    (h : Gives E (.cls c) j p v) : KeptObj E p v := by
  rintro st rfl
  obtain ⟨n, s, s', h⟩ := h
  have := (snd_pull hkt n).2 c j st hr hp s
  rw [h] at this
  exact this

omit hkt in
theorem KeptObj.trans {p q r : Val} (h1 : KeptObj E p q) (h2 : KeptObj E q r) : KeptObj E p r := by
  intro st h
  obtain ⟨st1, h3, h4⟩ := h1 st h
  obtain ⟨st2, h5, h6⟩ := h2 st1 h3
  exact ⟨st2, h5, fun c hc => h6 c (h4 c hc)⟩

omit hkt in
theorem KeptObj.typed {c : ClassId} {p q : Val} (h : KeptObj E p q) (hp : JsonTyped E (.cls c) p) : JsonTyped E (.cls c) q := by
  cases hp with
  | cls h1 h2 =>
    obtain ⟨st', rfl, h3⟩ := h _ rfl
    exact h3 c (.cls h1 h2)

theorem basesRead_kept {ms : List (Key × Json)} {bs : List ClassId} {p v : Val} (hr : ∀ b ∈ bs, JsonReadable E (.cls b))
    (hp : ∀ b ∈ bs, JsonTyped E (.cls b) p) (h : BasesRead E ms bs p v) : KeptObj E p v := by
  induction h with
  | nil v => exact fun st h => ⟨st, h, fun _ h => h⟩
  | cons h1 h2 ih =>
    have hk := gives_kept hkt (hr _ List.mem_cons_self) (hp _ List.mem_cons_self) h1
    exact hk.trans (ih (fun b hb => hr b (List.mem_cons_of_mem _ hb)) fun b hb => hk.typed (hp b (List.mem_cons_of_mem _ hb)))

theorem kept_set {c : ClassId} {f : Field} {st : Store} {x q : Val} (hf : Reads E c f) (hg : st.get? f.key = some x)
    (hq : JsonTyped E f.ty q) : KeptObj E (.obj st) (.obj (st.set f.key q)) := by
  intro st' hst
  cases hst
  refine ⟨_, rfl, fun c' h => ?_⟩
  cases h with
  | cls h1 h2 =>
    refine .cls (fun f' hf' => ?_) (fun f' v' hf' hg' => ?_)
    · by_cases hk : f'.key = f.key
      · rw [hk, get?_set_eq st hg]; rfl
      · rw [get?_set_ne _ _ hk]; exact h1 f' hf'
    · by_cases hk : f'.key = f.key
      · rw [hk, get?_set_eq st hg] at hg'
        cases hg'
        rw [hkt c' f' c f hf' hf hk]
        exact hq
      · rw [get?_set_ne _ _ hk] at hg'
        exact h2 f' v' hf' hg'

theorem membersRead_kept {c : ClassId} {ms : List (Key × Json)} {fs : List Field} {st st' : Store} (hr : ∀ f ∈ fs, JsonReadable E f.ty)
    (hfs : ∀ f ∈ fs, Reads E c f) (hp : JsonTyped E (.cls c) (.obj st)) (h : MembersRead E ms fs st st') :
    KeptObj E (.obj st) (.obj st') := by
  induction h with
  | nil st => exact fun st h => ⟨st, h, fun _ h => h⟩
  | absent h1 h2 ih => exact ih (fun f hf => hr f (List.mem_cons_of_mem _ hf)) (fun f hf => hfs f (List.mem_cons_of_mem _ hf)) hp
  | present h1 h2 h3 h4 ih =>
    have hk : KeptObj E (.obj _) (.obj _) := kept_set hkt (hfs _ List.mem_cons_self) h2 (gives_typed hkt (hr _ List.mem_cons_self)
      (by cases hp with | cls _ hp2 => exact hp2 _ _ (hfs _ List.mem_cons_self) h2) h3)
    exact hk.trans (ih (fun f hf => hr f (List.mem_cons_of_mem _ hf)) (fun f hf => hfs f (List.mem_cons_of_mem _ hf)) (hk.typed hp))

theorem left_typed {t : Ty} {j : Json} {p q : Val} (h : Left E t j p q) :
    JsonReadable E t → JsonTyped E t p → JsonTyped E t q ∧ (∀ c, t = .cls c → KeptObj E p q) := by
  have hnc : ∀ {t : Ty} {p q : Val}, (∀ c, t ≠ .cls c) → ∀ c, t = .cls c → KeptObj E p q := fun h c hc => (h c hc).elim
  induction h with
  | same p _ => exact fun _ hp => ⟨hp, fun _ _ st h => ⟨st, h, fun _ h => h⟩⟩
  | vec h1 h2 ih =>
    intro hr hp
    refine ⟨?_, hnc (by simp)⟩
    cases gives_typed hkt hr hp h1 with
    | vec h3 =>
      refine .vec fun v hv => ?_
      rcases List.mem_append.1 hv with hv | hv
      · exact h3 v hv
      · rw [List.mem_singleton.1 hv]; exact (ih hr.vec (jsonTyped_valInit _ (.inl hr.vec))).1
  | set h1 h2 ih => exact fun hr hp => ⟨by cases gives_typed hkt hr hp h1 with | set h3 => exact .set h3, hnc (by simp)⟩
  | duplicate h1 h2 h3 => exact fun hr hp => ⟨by cases gives_typed hkt hr hp h1 with | set h3 => exact .set h3, hnc (by simp)⟩
  | @map _ t _ k _ _ _ kvs q h1 h2 ih =>
    intro hr hp
    refine ⟨?_, hnc (by simp)⟩
    cases gives_typed hkt hr hp h1 with
    | map h3 h4 =>
      have hpr : JsonTyped E t ((mapFind (E.lt .str) (.str (cstrOf k.bytes)) kvs).getD (E.valInit t)) := by
        cases hf : mapFind (E.lt .str) (.str (cstrOf k.bytes)) kvs with
        | none => exact jsonTyped_valInit t (.inl hr.map)
        | some v =>
          obtain ⟨k', hk⟩ := mapFind_mem _ _ _ _ hf
          exact h4 _ hk
      have hq := (ih hr.map hpr).1
      have hall : ∀ x ∈ mapSet (E.lt .str) (.str (cstrOf k.bytes)) q kvs, JsonTyped E .str x.1 ∧ JsonTyped E t x.2 := by
        intro x hx
        rcases mapSet_mem _ _ _ _ _ hx with rfl | ⟨k', rfl, v', h'⟩ | h'
        · exact ⟨.str _, hq⟩
        · exact ⟨h3 (k', v') h', hq⟩
        · exact ⟨h3 _ h', h4 _ h'⟩
      exact .map (fun x hx => (hall x hx).1) fun x hx => (hall x hx).2
  | multimap h0 h1 h2 ih =>
    intro hr hp
    refine ⟨?_, hnc (by simp)⟩
    cases gives_typed hkt hr hp h1 with
    | map h3 h4 =>
      have hq := (ih hr.map (jsonTyped_valInit _ (.inl hr.map))).1
      refine .map (fun x hx => ?_) (fun x hx => ?_)
      · rcases mapInsertMulti_mem _ _ _ _ _ hx with rfl | h'
        · exact .str _
        · exact h3 _ h'
      · rcases mapInsertMulti_mem _ _ _ _ _ hx with rfl | h'
        · exact hq
        · exact h4 _ h'
  | multimapArr h1 h2 ih =>
    intro hr hp
    refine ⟨?_, hnc (by simp)⟩
    cases gives_typed hkt hr hp h1 with
    | map h3 h4 =>
      have hq := (ih hr.map (jsonTyped_valInit _ (.inl hr.map))).1
      refine .map (fun x hx => ?_) (fun x hx => ?_)
      · rcases mapInsertMulti_mem _ _ _ _ _ hx with rfl | h'
        · exact .str _
        · exact h3 _ h'
      · rcases mapInsertMulti_mem _ _ _ _ _ hx with rfl | h'
        · exact hq
        · exact h4 _ h'
  | fst h1 ih =>
    intro hr hp
    refine ⟨?_, hnc (by simp)⟩
    cases hp with
    | pair hx hy => exact .pair (ih (fun t' h => hr t' (.fst h)) hx).1 hy
  | snd h1 h2 ih =>
    intro hr hp
    refine ⟨?_, hnc (by simp)⟩
    cases hp with
    | pair hx hy => exact .pair (gives_typed hkt (fun t' h => hr t' (.fst h)) hx h1) (ih (fun t' h => hr t' (.snd h)) hy).1
  | @tuple ts1 t ts2 js1 j js2 ps vs x ps2 q hl1 hl2 hl3 h1 h2 ih =>
    intro hr hp
    refine ⟨?_, hnc (by simp)⟩
    cases hp with
    | tuple hp1 hp2 =>
      have hr1 : JsonReadable E (.tuple ts1) := by
        intro t' ht'
        cases ht' with
        | refl => trivial
        | elem h1 h2 => exact hr t' (.elem (by simp [h1]) h2)
      have ht1 : JsonTyped E (.tuple ts1) (.tup ps) := by
        refine .tuple hl2 fun i t' v ht hv => hp2 i t' v ?_ ?_
        · rw [List.getElem?_append_left (List.getElem?_eq_some_iff.1 ht).1]; exact ht
        · rw [List.getElem?_append_left (List.getElem?_eq_some_iff.1 hv).1]; exact hv
      have hx : JsonTyped E t x := hp2 ts1.length t x (by simp) (by rw [← hl2]; simp)
      have hq := (ih (hr.elem (by simp)) hx).1
      cases gives_typed hkt hr1 ht1 h1 with
      | tuple h3 h4 =>
        refine .tuple (by simp at hp1 ⊢; omega) fun i t' v ht hv => ?_
        rcases Nat.lt_trichotomy i ts1.length with hi | rfl | hi
        · rw [List.getElem?_append_left hi] at ht
          rw [List.getElem?_append_left (by omega)] at hv
          exact h4 i t' v ht hv
        · rw [List.getElem?_append_right (by omega)] at ht
          rw [List.getElem?_append_right (by omega)] at hv
          simp [h3] at ht hv
          subst ht; subst hv
          exact hq
        · refine hp2 i t' v ht ?_
          rw [List.getElem?_append_right (by omega)] at hv ⊢
          rw [h3] at hv
          rw [hl2]
          obtain ⟨k, hk⟩ : ∃ k, i - ts1.length = k + 1 := ⟨i - ts1.length - 1, by omega⟩
          rw [hk] at hv ⊢
          simpa using hv
  | uptr p _ h ih => exact fun hr _ => ⟨.uptrSome (ih hr.uptr (jsonTyped_valInit _ (.inl hr.uptr))).1, hnc (by simp)⟩
  | sptr p _ h ih => exact fun hr _ => ⟨.sptrSome (ih hr.sptr (jsonTyped_valInit _ (.inl hr.sptr))).1, hnc (by simp)⟩
  | opt p _ h ih => exact fun hr _ => ⟨.optSome (ih hr.opt (jsonTyped_valInit _ (.inl hr.opt))).1, hnc (by simp)⟩
  | @variant ts ms jd i t q p h1 hi h2 ht hm h ih =>
    intro hr _
    have hra := hr.alt (List.mem_of_getElem? ht) hm
    exact ⟨.variant ht (ih hra (jsonTyped_valInit t (.inl hra))).1, hnc (by simp)⟩
  | @base c ci bs b bs' ms p v q hc hb h1 h2 ih =>
    intro hr hp
    have hrb : ∀ b ∈ ci.json.bases, JsonReadable E (.cls b) := fun b hb t' h => hr t' (.base hc hb h)
    have hpb : ∀ b ∈ ci.json.bases, JsonTyped E (.cls b) p := by
      intro b hb
      cases hp with
      | cls h3 h4 => exact .cls (fun f hf => h3 f (.base hc hb hf)) (fun f v hf => h4 f v (.base hc hb hf))
    have hm1 : ∀ b ∈ bs, b ∈ ci.json.bases := by intro b hb'; rw [hb]; simp [hb']
    have hm2 : b ∈ ci.json.bases := by rw [hb]; simp
    have hk1 := basesRead_kept hkt (fun b hb => hrb b (hm1 b hb)) (fun b hb => hpb b (hm1 b hb)) h1
    have hk2 := (ih (hrb b hm2) (hk1.typed (hpb b hm2))).2 b rfl
    exact ⟨(hk1.trans hk2).typed hp, fun _ _ => hk1.trans hk2⟩
  | @member c ci fs f fs' ms p st st' j x q hc hf h1 h2 h3 h4 h5 ih =>
    intro hr hp
    have hrb : ∀ b ∈ ci.json.bases, JsonReadable E (.cls b) := fun b hb t' h => hr t' (.base hc hb h)
    have hpb : ∀ b ∈ ci.json.bases, JsonTyped E (.cls b) p := by
      intro b hb
      cases hp with
      | cls h3 h4 => exact .cls (fun f hf => h3 f (.base hc hb hf)) (fun f v hf => h4 f v (.base hc hb hf))
    have hk1 := basesRead_kept hkt hrb hpb h1
    have hm1 : ∀ g ∈ fs, g ∈ ci.json.pullFields := by intro g hg; rw [hf]; simp [hg]
    have hm2 : f ∈ ci.json.pullFields := by rw [hf]; simp
    have hk2 := membersRead_kept (c := c) hkt (fun g hg t' h => hr t' (.field hc (hm1 g hg) h)) (fun g hg => .own hc (hm1 g hg))
      (hk1.typed hp) h2
    have hp2 := (hk1.trans hk2).typed hp
    have hx : JsonTyped E f.ty x := by cases hp2 with | cls _ h => exact h f x (.own hc hm2) h4
    have hk3 := kept_set hkt (.own hc hm2) h4 (ih (fun t' h => hr t' (.field hc hm2 h)) hx).1
    have hk := (hk1.trans hk2).trans hk3
    exact ⟨hk.typed hp, fun _ _ => hk⟩

end

end Verif
