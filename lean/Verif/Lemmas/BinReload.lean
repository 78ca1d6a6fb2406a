import Verif.Spec.BinReload
import Verif.Spec.BinRead
import Verif.Spec.BinForm
import Verif.Lemmas.BinPair
import Verif.Lemmas.BinSound

/-!
# What has been read is representable
-/

namespace Verif

section
variable {E : Env}

/-! ### representability and types of shared objects -/

theorem BRepr.mono_types {HT HT' : Nat → Option Ty} (hle : ∀ a t, HT a = some t → HT' a = some t) {ρ : Nat → Nat} {w w' : Nat} {t : Ty}
    {p v : Val} (h : BRepr E HT ρ w w' t p v) : BRepr E HT' ρ w w' t p v := by
  induction h with
  | sptrSome h1 h2 => exact .sptrSome (hle _ _ h1) h2
  | cls h1 h2 h3 h4 _ _ h7 ih1 ih2 => exact .cls h1 h2 h3 h4 ih1 ih2 h7
  | set h1 h2 h3 h4 h5 h6 h7 h8 ih => exact .set ih h2 h3 h4 h5 h6 h7 h8
  | multiset h1 h2 h3 h4 h5 h6 h7 ih => exact .multiset ih h2 h3 h4 h5 h6 h7
  | map _ _ h3 h4 h5 h6 h7 h8 h9 ih1 ih2 => exact .map ih1 ih2 h3 h4 h5 h6 h7 h8 h9
  | multimap _ _ h3 h4 h5 h6 h7 h8 ih1 ih2 => exact .multimap ih1 ih2 h3 h4 h5 h6 h7 h8
  | vec h1 _ ih => exact .vec h1 ih
  | pair _ _ ih1 ih2 => exact .pair ih1 ih2
  | optSome _ ih => exact .optSome ih
  | uptrSome _ ih => exact .uptrSome ih
  | variant h1 h2 h3 _ ih => exact .variant h1 h2 h3 ih
  | variantMono h1 h2 => exact .variantMono h1 h2
  | _ => constructor <;> assumption

/-- `v` is representable, `HT` being the types of the shared objects -/
def Rep (E : Env) (HT : List Ty) (w : Nat) (t : Ty) (p v : Val) : Prop := ∀ ρ, BRepr E (fun a => HT[a]?) ρ w w t p v

theorem Rep.mono {HT HT' : List Ty} (hle : HT <+: HT') {w : Nat} {t : Ty} {p v : Val} (h : Rep E HT w t p v) : Rep E HT' w t p v := by
  intro ρ
  refine (h ρ).mono_types fun a t ha => ?_
  obtain ⟨r, rfl⟩ := hle
  rw [List.getElem?_append_left, ha]
  exact (List.getElem?_eq_some_iff.1 ha).1

theorem SelfRestoring.rep {HT : List Ty} {w : Nat} {t : Ty} {p : Val} (h : SelfRestoring E w t p) : Rep E HT w t p p := fun ρ => h _ ρ

/-! ### members -/

theorem activeFields_every {eff : Nat} {fs : List (Guard × Field)} (h : ∀ gf ∈ fs, gf.1.holds eff = true) :
    activeFields eff fs = fs.map Prod.snd := by
  unfold activeFields
  rw [List.filter_eq_self.2 h]

theorem Current.flat {w : Nat} {cs : List ClassId} {Q : List (Nat × Guard × Field)} (h : Current E w cs Q) :
    FlatBin E w w cs (Q.map fun q => (q.1, q.1, q.2.2)) := by
  induction h with
  | nil => exact .nil _ _
  | @cons c ci cs bs fs eff hc hr hw hn hs hg h1 h2 ih1 ih2 =>
    have ha := activeFields_every hg
    have e : (bs ++ ci.bin.readFields.map (fun gf => (eff, gf.1, gf.2)) ++ fs).map (fun q => (q.1, q.1, q.2.2)) =
        bs.map (fun q => (q.1, q.1, q.2.2)) ++ (activeFields eff ci.bin.readFields).map (fun f => (eff, eff, f)) ++
          fs.map (fun q => (q.1, q.1, q.2.2)) := by
      rw [ha]
      simp [List.map_append, List.map_map, Function.comp_def]
    rw [e]
    cases hv : ci.bin.version with
    | none =>
      have := hn hv
      subst this
      exact .plain hc hr hv ih1 (by rw [hw]) ih2
    | some m =>
      obtain ⟨h3, h4, _⟩ := hs m hv
      exact .versioned eff hc hr hv h3 h4 ih1 (by rw [hw]) ih2

theorem flatBin_eq {vw vr : Nat} {cs : List ClassId} {Q Q' : List (Nat × Nat × Field)} (h : FlatBin E vw vr cs Q)
    (h' : FlatBin E vw vr cs Q') : Q = Q' := by
  induction h generalizing Q' with
  | nil => cases h'; rfl
  | plain hc _ hv _ _ _ ih1 ih2 =>
    cases h' with
    | plain hc' _ hv' h1 _ h2 =>
      rw [hc] at hc'; cases hc'
      rw [ih1 h1, ih2 h2]
    | versioned _ hc' _ hv' =>
      rw [hc] at hc'; cases hc'
      rw [hv] at hv'; cases hv'
  | versioned eff hc _ hv he _ _ _ _ ih1 ih2 =>
    cases h' with
    | plain hc' _ hv' =>
      rw [hc] at hc'; cases hc'
      rw [hv] at hv'; cases hv'
    | versioned eff' hc' _ hv' he' _ h1 _ h2 =>
      rw [hc] at hc'; cases hc'
      rw [hv] at hv'; cases hv'
      rw [ih1 h1, ih2 h2, he, he']

theorem current_eq {w : Nat} {cs : List ClassId} {Q Q' : List (Nat × Guard × Field)} (h : Current E w cs Q)
    (h' : Current E w cs Q') : Q = Q' := by
  induction h generalizing Q' with
  | nil => cases h'; rfl
  | @cons c ci cs bs fs eff hc _ _ hn hs _ _ _ ih1 ih2 =>
    cases h' with
    | cons eff' hc' _ _ hn' hs' _ h1 h2 =>
      rw [hc] at hc'; cases hc'
      have : eff = eff' := by
        cases hv : ci.bin.version with
        | none => rw [hn hv, hn' hv]
        | some m => rw [(hs m hv).1, (hs' m hv).1]
      rw [ih1 h1, ih2 h2, this]

/-! ### parts -/

theorem Kept.self {w : Nat} {t : Ty} (h : Kept E w t) : LocallyKept E w t := h _ _ (.refl _ _)
theorem Kept.opt {w : Nat} {t : Ty} (h : Kept E w (.opt t)) : Kept E 0 t := fun _ _ h' => h _ _ (.opt h')
theorem Kept.uptr {w : Nat} {t : Ty} (h : Kept E w (.uptr t)) : Kept E 0 t := fun _ _ h' => h _ _ (.uptr h')
theorem Kept.sptr {w : Nat} {t : Ty} (h : Kept E w (.sptr t)) : Kept E 0 t := fun _ _ h' => h _ _ (.sptr h')
theorem Kept.vec {w : Nat} {t : Ty} (h : Kept E w (.vec t)) : Kept E 0 t := fun _ _ h' => h _ _ (.vec h')
theorem Kept.set {w : Nat} {a b : Bool} {t : Ty} (h : Kept E w (.set a b t)) : Kept E 0 t := fun _ _ h' => h _ _ (.set h')
theorem Kept.mapKey {w : Nat} {a b : Bool} {k t : Ty} (h : Kept E w (.map a b k t)) : Kept E 0 k := fun _ _ h' => h _ _ (.mapKey h')
theorem Kept.mapVal {w : Nat} {a b : Bool} {k t : Ty} (h : Kept E w (.map a b k t)) : Kept E 0 t := fun _ _ h' => h _ _ (.mapVal h')
theorem Kept.fst {w : Nat} {a b : Ty} (h : Kept E w (.pair a b)) : Kept E 0 a := fun _ _ h' => h _ _ (.fst h')
theorem Kept.snd {w : Nat} {a b : Ty} (h : Kept E w (.pair a b)) : Kept E 0 b := fun _ _ h' => h _ _ (.snd h')
theorem Kept.alt {w : Nat} {ts : List Ty} {t : Ty} (h : Kept E w (.variant ts)) (ht : t ∈ ts) : Kept E 0 t :=
  fun _ _ h' => h _ _ (.alt ht h')
theorem Kept.member {w : Nat} {c : ClassId} {Q : List (Nat × Guard × Field)} (h : Kept E w (.cls c)) (hQ : Current E w [c] Q)
    {q : Nat × Guard × Field} (hq : q ∈ Q) : Kept E q.1 q.2.2.ty := fun _ _ h' => h _ _ (.member hQ hq h')

theorem refsL_nil {vs : List Val} (h : ∀ v ∈ vs, v.refs = []) : Val.refsL vs = [] := by
  rw [List.eq_nil_iff_forall_not_mem]
  intro a ha
  obtain ⟨v, hv, ha⟩ := Val.mem_refsL.1 ha
  rw [h v hv] at ha
  cases ha

/-- objects of types without shared pointers do not refer to shared objects -/
theorem BRepr.noRefs {HT : Nat → Option Ty} {ρ : Nat → Nat} {w w' : Nat} {t : Ty} {p v : Val} (h : BRepr E HT ρ w w' t p v) :
    w = w' → Kept E w t → (∀ w' t', ¬ PartOf E w t w' (.sptr t')) → v.refs = [] := by
  induction h with
  | optSome _ ih => exact fun _ hk hn => ih rfl hk.opt fun w' t' h => hn w' t' (.opt h)
  | uptrSome _ ih => exact fun _ hk hn => ih rfl hk.uptr fun w' t' h => hn w' t' (.uptr h)
  | sptrSome => exact fun _ _ hn => (hn _ _ (.refl _ _)).elim
  | @vec vw vr t ps vs _ _ ih =>
    intro _ hk hn
    refine refsL_nil fun v hv => ?_
    obtain ⟨i, hi⟩ := List.mem_iff_getElem?.1 hv
    exact ih i v hi rfl hk.vec fun w' t' h => hn w' t' (.vec h)
  | set _ _ h => exact fun _ _ _ => refsL_nil h
  | multiset _ _ h => exact fun _ _ _ => refsL_nil h
  | map _ _ _ h4 _ _ _ _ _ ih1 ih2 =>
    intro _ hk hn
    rw [List.eq_nil_iff_forall_not_mem]
    intro a ha
    obtain ⟨q, hq, ha⟩ := Val.mem_refsKV.1 ha
    rw [h4 q hq, ih2 q hq rfl hk.mapVal fun w' t' h => hn w' t' (.mapVal h)] at ha
    simp at ha
  | multimap _ _ _ h4 _ _ _ _ ih1 ih2 =>
    intro _ hk hn
    rw [List.eq_nil_iff_forall_not_mem]
    intro a ha
    obtain ⟨q, hq, ha⟩ := Val.mem_refsKV.1 ha
    rw [h4 q hq, ih2 q hq rfl hk.mapVal fun w' t' h => hn w' t' (.mapVal h)] at ha
    simp at ha
  | pair _ _ ih1 ih2 =>
    intro _ hk hn
    refine refsL_nil fun v hv => ?_
    simp only [List.mem_cons, List.not_mem_nil, or_false] at hv
    rcases hv with rfl | rfl
    · exact ih1 rfl hk.fst fun w' t' h => hn w' t' (.fst h)
    · exact ih2 rfl hk.snd fun w' t' h => hn w' t' (.snd h)
  | variant h1 _ _ _ ih =>
    exact fun _ hk hn => ih rfl (hk.alt (List.mem_of_getElem? h1)) fun w' t' h => hn w' t' (.alt (List.mem_of_getElem? h1) h)
  | @cls vw vr c Q st0 st hf hk0 hnd hs _ _ h7 ih1 _ =>
    intro e hk hn
    subst e
    obtain ⟨Q', hQ', -⟩ := hk.self
    have := flatBin_eq hf hQ'.flat
    subst this
    rw [List.eq_nil_iff_forall_not_mem]
    intro a ha
    obtain ⟨⟨k, v⟩, hq, ha⟩ := Val.mem_refsF.1 ha
    have hg := get?_eq_of_mem hnd hq
    by_cases hex : ∃ q ∈ Q', q.2.2.key = k
    · obtain ⟨q, hq', rfl⟩ := hex
      have hmem : (q.1, q.1, q.2.2) ∈ Q'.map fun q => (q.1, q.1, q.2.2) := List.mem_map_of_mem (f := fun q => (q.1, q.1, q.2.2)) hq'
      obtain ⟨p, hp⟩ : ∃ p, st0.get? q.2.2.key = some p := by
        refine Option.isSome_iff_exists.1 ?_
        rw [get?_isSome_iff, hk0, ← get?_isSome_iff, hg]; rfl
      have := ih1 _ hmem p v hp hg rfl (hk.member hQ' hq') fun w' t' h => hn w' t' (.member hQ' hq' h)
      rw [this] at ha
      cases ha
    · have := (h7 k fun q hq e => by
        obtain ⟨q', hq', rfl⟩ := List.mem_map.1 hq
        exact hex ⟨q', hq', e⟩).2 v hg
      rw [this] at ha
      cases ha
  | _ => exact fun _ _ _ => rfl

/-! ### sessions -/

/-- types of the shared objects and of the identifiers -/
structure Tab (HT : List Ty) (s : Session) : Prop where
  len : HT.length = s.objects.length
  table : ∀ id t a, (id, t, a) ∈ s.defined → HT[a]? = some t

/-- Objects which have existed before are not changed, new ones are representable. -/
structure Grown (E : Env) (HT : List Ty) (s s' : Session) : Prop where
  old : ∀ i, i < s.objects.length → s'.objects[i]? = s.objects[i]?
  new : ∀ i t x, s.objects.length ≤ i → HT[i]? = some t → s'.objects[i]? = some x → Rep E HT 0 t (E.valInit t) x
  kept : ∀ i t, s.objects.length ≤ i → HT[i]? = some t → Kept E 0 t

/-- the outcome of a step -/
def Outc (E : Env) (HT : List Ty) (s s' : Session) (P : List Ty → Prop) : Prop :=
  ∃ HT', HT <+: HT' ∧ Tab HT' s' ∧ Grown E HT' s s' ∧ P HT'

theorem Outc.refl {HT : List Ty} {s : Session} (h : Tab HT s) {P : List Ty → Prop} (hP : P HT) : Outc E HT s s P := by
  refine ⟨HT, List.prefix_refl _, h, ⟨fun _ _ => rfl, fun i t x hi ht _ => ?_, fun i t hi ht => ?_⟩, hP⟩
  · have := (List.getElem?_eq_some_iff.1 ht).1
    have := h.len
    omega
  · have := (List.getElem?_eq_some_iff.1 ht).1
    have := h.len
    omega

theorem Outc.bind {HT : List Ty} {s s1 s' : Session} (h0 : Tab HT s) {P P' : List Ty → Prop} (h : Outc E HT s s1 P)
    (hf : ∀ HT1, HT <+: HT1 → Tab HT1 s1 → P HT1 → Outc E HT1 s1 s' P') : Outc E HT s s' P' := by
  obtain ⟨HT1, hle, ht1, hg, hP⟩ := h
  obtain ⟨HT2, hle2, ht2, hg2, hP2⟩ := hf HT1 hle ht1 hP
  have hlen := hle.length_le
  rw [h0.len, ht1.len] at hlen
  refine ⟨HT2, hle.trans hle2, ht2, ⟨fun i hi => ?_, fun i t x hi ht hx => ?_, fun i t hi ht => ?_⟩, hP2⟩
  · rw [hg2.old i (by omega), hg.old i hi]
  · by_cases hi1 : i < s1.objects.length
    · rw [hg2.old i hi1] at hx
      have : HT1[i]? = some t := by
        obtain ⟨r, rfl⟩ := hle2
        rw [List.getElem?_append_left (by rw [ht1.len]; exact hi1)] at ht
        exact ht
      exact (hg.new i t x hi this hx).mono hle2
    · exact hg2.new i t x (by omega) ht hx
  · by_cases hi1 : i < s1.objects.length
    · refine hg.kept i t hi ?_
      obtain ⟨r, rfl⟩ := hle2
      rw [List.getElem?_append_left (by rw [ht1.len]; exact hi1)] at ht
      exact ht
    · exact hg2.kept i t (by omega) ht

theorem Outc.weaken {HT : List Ty} {s s' : Session} {P P' : List Ty → Prop} (h : Outc E HT s s' P) (hP : ∀ HT', HT <+: HT' → P HT' → P' HT') :
    Outc E HT s s' P' := by
  obtain ⟨HT', h1, h2, h3, h4⟩ := h
  exact ⟨HT', h1, h2, h3, hP HT' h1 h4⟩

theorem decodes_length {j : Job} {s : Session} {bs : Str} {v : Val} {s' : Session} (h : Decodes E j s bs v s') :
    s.objects.length ≤ s'.objects.length := by
  induction h with
  | sptrNew _ _ _ _ ih =>
    simp only [List.length_append, List.length_singleton, List.length_set] at ih ⊢
    omega
  | _ => omega

/-! ### containers -/

/-- sorted elements of a (multi)set -/
structure BinElements (E : Env) (HT : List Ty) (multi : Bool) (t : Ty) (vs : List Val) : Prop where
  rep : ∀ v ∈ vs, Rep E HT 0 t (E.defInit t) v
  init : ∀ v ∈ vs, v.hasIndet = false
  refs : ∀ v ∈ vs, v.refs = []
  sorted : vs.Pairwise fun a b => if multi then E.lt t b a = false else E.lt t a b = true

theorem BinElements.mono {HT HT' : List Ty} (hle : HT <+: HT') {multi : Bool} {t : Ty} {vs : List Val} (h : BinElements E HT multi t vs) :
    BinElements E HT' multi t vs := ⟨fun v hv => (h.rep v hv).mono hle, h.init, h.refs, h.sorted⟩

theorem BinElements.order {HT : List Ty} {multi : Bool} {t : Ty} {vs : List Val} (hO : OrderedKeys E) (h : BinElements E HT multi t vs) :
    WeakOrderOn (E.lt t) vs := hO t vs fun v hv => ⟨h.init v hv, _, _, _, h.rep v hv id⟩

theorem BinElements.insert {HT : List Ty} {multi : Bool} {t : Ty} {vs : List Val} {x : Val} (hO : OrderedKeys E) (h : BinElements E HT multi t vs)
    (h1 : Rep E HT 0 t (E.defInit t) x) (h2 : x.hasIndet = false) (h3 : x.refs = []) :
    BinElements E HT multi t (insertItem E multi t x vs) ∧ ∀ v ∈ vs, v ∈ insertItem E multi t x vs := by
  have hS : WeakOrderOn (E.lt t) (x :: vs) := by
    refine hO t _ fun v hv => ?_
    rcases List.mem_cons.1 hv with rfl | hv
    · exact ⟨h2, _, _, _, h1 id⟩
    · exact ⟨h.init v hv, _, _, _, h.rep v hv id⟩
  have hin : ∀ y ∈ vs, id y ∈ x :: vs := fun y hy => List.mem_cons_of_mem _ hy
  have key : (∀ v, v ∈ insertItem E multi t x vs → v = x ∨ v ∈ vs) ∧ (∀ v ∈ vs, v ∈ insertItem E multi t x vs) ∧
      (insertItem E multi t x vs).Pairwise fun a b => if multi then E.lt t b a = false else E.lt t a b = true := by
    cases multi with
    | true =>
      simp only [insertItem, if_true, insertMulti_eq]
      have hp := insM_perm (lt := E.lt t) (key := id) x vs
      refine ⟨fun v hv => List.mem_cons.1 (hp.mem_iff.1 hv), fun v hv => hp.mem_iff.2 (List.mem_cons_of_mem _ hv), ?_⟩
      exact insM_sorted (key := id) hS List.mem_cons_self vs hin (by simpa using h.sorted)
    | false =>
      simp only [insertItem, Bool.false_eq_true, if_false, insertUniq_eq]
      obtain ⟨k1, k2⟩ := insU_spec (key := id) hS (x := x) List.mem_cons_self vs hin (by simpa using h.sorted)
      by_cases hex : ∃ y ∈ vs, Equivalent (E.lt t) (id x) (id y)
      · rw [k1 hex]
        exact ⟨fun v hv => Or.inr hv, fun v hv => hv, by simpa using h.sorted⟩
      · obtain ⟨k3, k4⟩ := k2 hex
        exact ⟨fun v hv => (k4 v).1 hv, fun v hv => (k4 v).2 (Or.inr hv), k3⟩
  obtain ⟨k1, k2, k3⟩ := key
  refine ⟨⟨fun v hv => ?_, fun v hv => ?_, fun v hv => ?_, k3⟩, k2⟩
  · rcases k1 v hv with rfl | hv
    · exact h1
    · exact h.rep v hv
  · rcases k1 v hv with rfl | hv
    · exact h2
    · exact h.init v hv
  · rcases k1 v hv with rfl | hv
    · exact h3
    · exact h.refs v hv

/-- sorted entries of a (multi)map -/
structure BinEntries (E : Env) (HT : List Ty) (multi : Bool) (k t : Ty) (kvs : List (Val × Val)) : Prop where
  keys : ∀ q ∈ kvs, Rep E HT 0 k (E.valInit k) q.1
  vals : ∀ q ∈ kvs, Rep E HT 0 t (E.valInit t) q.2
  init : ∀ q ∈ kvs, q.1.hasIndet = false ∧ q.2.hasIndet = false
  refs : ∀ q ∈ kvs, q.1.refs = []
  sorted : kvs.Pairwise fun a b => if multi then E.lt k b.1 a.1 = false else E.lt k a.1 b.1 = true

theorem BinEntries.mono {HT HT' : List Ty} (hle : HT <+: HT') {multi : Bool} {k t : Ty} {kvs : List (Val × Val)} (h : BinEntries E HT multi k t kvs) :
    BinEntries E HT' multi k t kvs := ⟨fun v hv => (h.keys v hv).mono hle, fun v hv => (h.vals v hv).mono hle, h.init, h.refs, h.sorted⟩

theorem BinEntries.order {HT : List Ty} {multi : Bool} {k t : Ty} {kvs : List (Val × Val)} (hO : OrderedKeys E) (h : BinEntries E HT multi k t kvs) :
    WeakOrderOn (E.lt k) (kvs.map Prod.fst) := by
  refine hO k _ fun v hv => ?_
  obtain ⟨q, hq, rfl⟩ := List.mem_map.1 hv
  exact ⟨(h.init q hq).1, _, _, _, h.keys q hq id⟩

theorem BinEntries.insert {HT : List Ty} {multi : Bool} {k t : Ty} {kvs : List (Val × Val)} {a b : Val} (hO : OrderedKeys E)
    (h : BinEntries E HT multi k t kvs) (h1 : Rep E HT 0 k (E.valInit k) a) (h1' : Rep E HT 0 t (E.valInit t) b) (h2 : a.hasIndet = false)
    (h2' : b.hasIndet = false) (h3 : a.refs = []) :
    BinEntries E HT multi k t (insertEntry E multi k a b kvs) ∧ ∀ q ∈ kvs, q ∈ insertEntry E multi k a b kvs := by
  have hS : WeakOrderOn (E.lt k) (((a, b) :: kvs).map Prod.fst) := by
    refine hO k _ fun v hv => ?_
    obtain ⟨q, hq, rfl⟩ := List.mem_map.1 hv
    rcases List.mem_cons.1 hq with rfl | hq
    · exact ⟨h2, _, _, _, h1 id⟩
    · exact ⟨(h.init q hq).1, _, _, _, h.keys q hq id⟩
  have hx : Prod.fst (a, b) ∈ ((a, b) :: kvs).map Prod.fst := List.mem_map_of_mem (f := Prod.fst) List.mem_cons_self
  have hin : ∀ y ∈ kvs, Prod.fst y ∈ ((a, b) :: kvs).map Prod.fst :=
    fun y hy => List.mem_map_of_mem (f := Prod.fst) (List.mem_cons_of_mem _ hy)
  have key : (∀ v, v ∈ insertEntry E multi k a b kvs → v = (a, b) ∨ v ∈ kvs) ∧ (∀ v ∈ kvs, v ∈ insertEntry E multi k a b kvs) ∧
      (insertEntry E multi k a b kvs).Pairwise fun a b => if multi then E.lt k b.1 a.1 = false else E.lt k a.1 b.1 = true := by
    cases multi with
    | true =>
      simp only [insertEntry, if_true, mapInsertMulti_eq]
      have hp := insM_perm (lt := E.lt k) (key := Prod.fst) (a, b) kvs
      refine ⟨fun v hv => List.mem_cons.1 (hp.mem_iff.1 hv), fun v hv => hp.mem_iff.2 (List.mem_cons_of_mem _ hv), ?_⟩
      exact insM_sorted (key := Prod.fst) hS hx kvs hin (by simpa using h.sorted)
    | false =>
      simp only [insertEntry, Bool.false_eq_true, if_false, mapEmplace_eq]
      obtain ⟨k1, k2⟩ := insU_spec (key := Prod.fst) hS (x := (a, b)) hx kvs hin (by simpa using h.sorted)
      by_cases hex : ∃ y ∈ kvs, Equivalent (E.lt k) (Prod.fst (a, b)) (Prod.fst y)
      · rw [k1 hex]
        exact ⟨fun v hv => Or.inr hv, fun v hv => hv, by simpa using h.sorted⟩
      · obtain ⟨k3, k4⟩ := k2 hex
        exact ⟨fun v hv => (k4 v).1 hv, fun v hv => (k4 v).2 (Or.inr hv), k3⟩
  obtain ⟨k1, k2, k3⟩ := key
  refine ⟨⟨fun v hv => ?_, fun v hv => ?_, fun v hv => ?_, fun v hv => ?_, k3⟩, k2⟩
  · rcases k1 v hv with rfl | hv
    · exact h1
    · exact h.keys v hv
  · rcases k1 v hv with rfl | hv
    · exact h1'
    · exact h.vals v hv
  · rcases k1 v hv with rfl | hv
    · exact ⟨h2, h2'⟩
    · exact h.init v hv
  · rcases k1 v hv with rfl | hv
    · exact h3
    · exact h.refs v hv

end

end Verif
