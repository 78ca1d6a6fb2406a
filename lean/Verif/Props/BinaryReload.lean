import Verif.Lemmas.BinReload
import Verif.Props.BinaryRoundTrip
import Verif.Props.BinaryForm
import Verif.Props.BinaryRead
import Verif.Props.JsonNames
import Verif.Props.JsonConform
import Verif.Props.JsonObjects
import Verif.Props.JsonRoundTrip
import Mathlib.Data.List.Nodup

/-!
# C67: whatever has been read from a stream survives being written and read again
-/

namespace Verif

open Demo (env)

section
variable {E : Env}

/-! ### members -/

/-- the members are prepared for being read -/
structure Ready (E : Env) (Q : List (Nat × Guard × Field)) (st : Store) : Prop where
  present : ∀ q ∈ Q, ∃ p, st.get? q.2.2.key = some p
  prep : ∀ q ∈ Q, ∀ p, st.get? q.2.2.key = some p → Prepared E q.1 q.2.2.ty p
  self : ∀ q ∈ Q, ∀ p, st.get? q.2.2.key = some p → (∀ version, q.2.1.holds version = true) ∨ SelfRestoring E q.1 q.2.2.ty p

/-- the members `Q` have been read -/
structure Upd (E : Env) (HT : List Ty) (Q : List (Nat × Guard × Field)) (st st' : Store) : Prop where
  keys : st'.map Prod.fst = st.map Prod.fst
  rep : ∀ q ∈ Q, ∀ p, st.get? q.2.2.key = some p → ∃ v, st'.get? q.2.2.key = some v ∧ Rep E HT q.1 q.2.2.ty p v
  other : ∀ k, (∀ q ∈ Q, q.2.2.key ≠ k) → st'.get? k = st.get? k

theorem Upd.mono {HT HT' : List Ty} (hle : HT <+: HT') {Q : List (Nat × Guard × Field)} {st st' : Store} (h : Upd E HT Q st st') :
    Upd E HT' Q st st' :=
  ⟨h.keys, fun q hq p hp => (h.rep q hq p hp).imp fun _ hv => ⟨hv.1, hv.2.mono hle⟩, h.other⟩

theorem keys_disjoint {Q1 Q2 : List (Nat × Guard × Field)} (hn : ((Q1 ++ Q2).map fun q => q.2.2.key).Nodup) {q1 q2 : Nat × Guard × Field}
    (h1 : q1 ∈ Q1) (h2 : q2 ∈ Q2) : q1.2.2.key ≠ q2.2.2.key := by
  rw [List.map_append] at hn
  exact (List.nodup_append.1 hn).2.2 _ (List.mem_map_of_mem (f := fun q : Nat × Guard × Field => q.2.2.key) h1) _
    (List.mem_map_of_mem (f := fun q : Nat × Guard × Field => q.2.2.key) h2)

theorem Ready.left {Q1 Q2 : List (Nat × Guard × Field)} {st : Store} (h : Ready E (Q1 ++ Q2) st) : Ready E Q1 st :=
  ⟨fun q hq => h.present q (List.mem_append_left _ hq), fun q hq => h.prep q (List.mem_append_left _ hq),
    fun q hq => h.self q (List.mem_append_left _ hq)⟩

theorem Ready.right {Q1 Q2 : List (Nat × Guard × Field)} {HT : List Ty} {st st' : Store} (h : Ready E (Q1 ++ Q2) st)
    (hu : Upd E HT Q1 st st') (hn : ((Q1 ++ Q2).map fun q => q.2.2.key).Nodup) : Ready E Q2 st' := by
  have e : ∀ q ∈ Q2, st'.get? q.2.2.key = st.get? q.2.2.key := fun q hq => hu.other _ fun q' hq' => keys_disjoint hn hq' hq
  refine ⟨fun q hq => ?_, fun q hq p hp => ?_, fun q hq p hp => ?_⟩
  · rw [e q hq]; exact h.present q (List.mem_append_right _ hq)
  · rw [e q hq] at hp; exact h.prep q (List.mem_append_right _ hq) p hp
  · rw [e q hq] at hp; exact h.self q (List.mem_append_right _ hq) p hp

theorem Upd.append {Q1 Q2 : List (Nat × Guard × Field)} {HT : List Ty} {st st1 st2 : Store} (h1 : Upd E HT Q1 st st1)
    (h2 : Upd E HT Q2 st1 st2) (hn : ((Q1 ++ Q2).map fun q => q.2.2.key).Nodup) : Upd E HT (Q1 ++ Q2) st st2 := by
  refine ⟨h2.keys.trans h1.keys, fun q hq p hp => ?_, fun k hk => ?_⟩
  · rcases List.mem_append.1 hq with hq | hq
    · obtain ⟨v, hv, hr⟩ := h1.rep q hq p hp
      exact ⟨v, by rw [h2.other _ fun q' hq' => (keys_disjoint hn hq hq').symm, hv], hr⟩
    · refine h2.rep q hq p ?_
      rw [h1.other _ fun q' hq' => keys_disjoint hn hq' hq, hp]
  · rw [h2.other k fun q hq => hk q (List.mem_append_right _ hq), h1.other k fun q hq => hk q (List.mem_append_left _ hq)]

theorem Current.split {w : Nat} {c : ClassId} {cs : List ClassId} {Q : List (Nat × Guard × Field)} (h : Current E w (c :: cs) Q) :
    ∃ Q1 Q2, Q = Q1 ++ Q2 ∧ Current E w [c] Q1 ∧ Current E w cs Q2 := by
  cases h with
  | cons eff hc hr hw hn hs hg h1 h2 => exact ⟨_, _, by rw [List.append_nil], .cons eff hc hr hw hn hs hg h1 (.nil _), h2⟩

/-! ### steps -/

/-- what is shown about reading the members of objects -/
def ReadsMembers (E : Env) (HT : List Ty) (s s' : Session) (st : Store) (v : Val) (Q : List (Nat × Guard × Field)) : Prop :=
  (Q.map fun q => q.2.2.key).Nodup → (∀ q ∈ Q, Kept E q.1 q.2.2.ty) → Ready E Q st →
    Outc E HT s s' fun HT' => ∃ st', v = .obj st' ∧ Upd E HT' Q st st'

/-- what is shown about reading -/
def ReadsAs (E : Env) : Job → Session → Val → Session → Prop
  | .object _ t p, s, v, s' => s'.objects.length ≤ 2 ^ 64 → ∀ HT, Tab HT s →
      (∀ w, Kept E w t → Prepared E w t p → Outc E HT s s' fun HT' => Rep E HT' w t p v) ∧
      (∀ c st w Q, t = .cls c → p = .obj st → Current E w [c] Q → ReadsMembers E HT s s' st v Q)
  | .elements t ps, s, v, s' => s'.objects.length ≤ 2 ^ 64 → ∀ HT, Tab HT s → Kept E 0 t → (∀ p ∈ ps, Prepared E 0 t p) →
      Outc E HT s s' fun HT' => ∃ vs, v = .list vs ∧ vs.length = ps.length ∧
        ∀ (i : Nat) p x, ps[i]? = some p → vs[i]? = some x → Rep E HT' 0 t p x
  | .setItems multi t _ acc, s, v, s' => s'.objects.length ≤ 2 ^ 64 → ∀ HT, Tab HT s → Kept E 0 t → Prepared E 0 t (E.defInit t) →
      WithoutShared E t → BinElements E HT multi t acc →
      Outc E HT s s' fun HT' => ∃ vs, v = .list vs ∧ BinElements E HT' multi t vs ∧ ∀ x ∈ acc, x ∈ vs
  | .mapItems multi k t _ acc, s, v, s' => s'.objects.length ≤ 2 ^ 64 → ∀ HT, Tab HT s → Kept E 0 k → Kept E 0 t →
      Prepared E 0 k (E.valInit k) → Prepared E 0 t (E.valInit t) → WithoutShared E k → BinEntries E HT multi k t acc →
      Outc E HT s s' fun HT' => ∃ kvs, v = .map kvs ∧ BinEntries E HT' multi k t kvs ∧ ∀ x ∈ acc, x ∈ kvs
  | .bases _ cs p, s, v, s' => s'.objects.length ≤ 2 ^ 64 → ∀ HT, Tab HT s →
      ∀ st w Q, p = .obj st → Current E w cs Q → ReadsMembers E HT s s' st v Q
  | .members _ fs st, s, v, s' => s'.objects.length ≤ 2 ^ 64 → ∀ HT, Tab HT s → ∀ w, (fs.map Field.key).Nodup →
      (∀ f ∈ fs, Kept E w f.ty) → (∀ f ∈ fs, ∀ p, st.get? f.key = some p → Prepared E w f.ty p) →
      Outc E HT s s' fun HT' => ∃ st' : Store, v = .obj st' ∧ st'.map Prod.fst = st.map Prod.fst ∧
        (∀ f ∈ fs, ∀ p, st.get? f.key = some p → ∃ x, st'.get? f.key = some x ∧ Rep E HT' w f.ty p x) ∧
        ∀ k, (∀ f ∈ fs, f.key ≠ k) → st'.get? k = st.get? k

/-- an object of a class is representable if its members are -/
theorem rep_class {HT : List Ty} {w : Nat} {c : ClassId} {Q : List (Nat × Guard × Field)} {st st' : Store} (hQ : Current E w [c] Q)
    (hn : (Q.map fun q => q.2.2.key).Nodup) (hk : (st.map Prod.fst).Nodup) (hs : ∀ q ∈ Q, ∃ p, st.get? q.2.2.key = some p)
    (hr : ∀ k v, (∀ q ∈ Q, q.2.2.key ≠ k) → st.get? k = some v → v.refs = []) (h : Upd E HT Q st st') :
    Rep E HT w (.cls c) (.obj st) (.obj st') := by
  intro ρ
  have hmem : ∀ q ∈ Q.map (fun q => (q.1, q.1, q.2.2)), ∃ q' ∈ Q, q = (q'.1, q'.1, q'.2.2) := by
    intro q hq
    obtain ⟨q', hq', rfl⟩ := List.mem_map.1 hq
    exact ⟨q', hq', rfl⟩
  refine .cls hQ.flat h.keys.symm (by rw [h.keys]; exact hk) ?_ ?_ ?_ ?_
  · intro q hq
    obtain ⟨q', hq', rfl⟩ := hmem q hq
    obtain ⟨p, hp⟩ := hs q' hq'
    obtain ⟨v, hv, -⟩ := h.rep q' hq' p hp
    exact ⟨v, hv⟩
  · intro q hq p v hp hv
    obtain ⟨q', hq', rfl⟩ := hmem q hq
    obtain ⟨v', hv', hrep⟩ := h.rep q' hq' p hp
    rw [hv] at hv'; cases hv'
    exact hrep ρ
  · intro q hq v h2
    exfalso
    obtain ⟨q', hq', rfl⟩ := hmem q hq
    generalize q' = q at *
    have h3 : ((Q.map fun q => (q.1, q.1, q.2.2)).filter fun q' => decide (q'.2.2.key = q.2.2.key)).length =
        (Q.map fun q => q.2.2.key).count q.2.2.key := by
      rw [List.count_eq_countP, List.countP_map, List.filter_map, List.length_map, List.countP_eq_length_filter]
      congr 1
      apply List.filter_congr
      intro x _
      simp only [Function.comp]
      by_cases e : x.2.2.key = q.2.2.key <;> simp [e]
    have h4 := List.nodup_iff_count.1 hn q.2.2.key
    rw [← h3] at h4
    have h2' : 2 ≤ ((Q.map fun q => (q.1, q.1, q.2.2)).filter fun q' => decide (q'.2.2.key = q.2.2.key)).length := h2
    omega
  · intro k hk'
    have hk'' : ∀ q ∈ Q, q.2.2.key ≠ k := fun q hq => hk' _ (List.mem_map_of_mem (f := fun q => (q.1, q.1, q.2.2)) hq)
    refine ⟨(h.other k hk'').symm, fun v hv => ?_⟩
    rw [h.other k hk''] at hv
    exact hr k v hk'' hv

theorem outc_class {w : Nat} {c : ClassId} {p v : Val} {s s' : Session} {HT : List Ty}
    (h : ∀ st w Q, p = .obj st → Current E w [c] Q → ReadsMembers E HT s s' st v Q) (hk : Kept E w (.cls c))
    (hp : Prepared E w (.cls c) p) : Outc E HT s s' fun HT' => Rep E HT' w (.cls c) p v := by
  cases hp with
  | replaced _ h => cases h
  | @cls _ _ Q st hQ hnd h1 h2 h3 h4 =>
    obtain ⟨Q', hQ', hn⟩ := hk.self
    cases current_eq hQ hQ'
    refine (h st w Q rfl hQ hn (fun q hq => hk.member hQ hq) ⟨h1, h2, h3⟩).weaken fun HT' _ => ?_
    rintro ⟨st', rfl, hu⟩
    exact rep_class hQ hn hnd h1 h4 hu

/-- the own members of a class -/
theorem upd_own {HT : List Ty} {eff n : Nat} {ci : ClassInfo} {st st' : Store}
    (hn : ((ci.bin.readFields.map fun gf => (eff, gf.1, gf.2)).map fun q => q.2.2.key).Nodup)
    (hr : Ready E (ci.bin.readFields.map fun gf => (eff, gf.1, gf.2)) st) (hk : st'.map Prod.fst = st.map Prod.fst)
    (h1 : ∀ f ∈ membersOf ci n, ∀ p, st.get? f.key = some p → ∃ x, st'.get? f.key = some x ∧ Rep E HT eff f.ty p x)
    (h2 : ∀ k, (∀ f ∈ membersOf ci n, f.key ≠ k) → st'.get? k = st.get? k) :
    Upd E HT (ci.bin.readFields.map fun gf => (eff, gf.1, gf.2)) st st' := by
  have hmem : ∀ f, f ∈ membersOf ci n ↔ ∃ g, (g, f) ∈ ci.bin.readFields ∧ g.holds n = true := by
    intro f
    simp [membersOf]
  have hn' : (ci.bin.readFields.map fun gf => gf.2.key).Nodup := by
    rw [List.map_map] at hn
    exact hn
  refine ⟨hk, fun q hq p hp => ?_, fun k hk' => ?_⟩
  · obtain ⟨⟨g, f⟩, hgf, rfl⟩ := List.mem_map.1 hq
    dsimp only at hp ⊢
    by_cases hex : ∃ f' ∈ membersOf ci n, f'.key = f.key
    · obtain ⟨f', hf', he⟩ := hex
      obtain ⟨g', hg', -⟩ := (hmem f').1 hf'
      have : (g', f') = (g, f) := List.inj_on_of_nodup_map hn' hg' hgf he
      cases this
      exact h1 _ hf' p hp
    · have hnh : g.holds n = false := by
        by_contra hg
        exact hex ⟨f, (hmem f).2 ⟨g, hgf, by simpa using hg⟩, rfl⟩
      rcases hr.self _ hq p hp with ha | hsr
      · have := ha n
        dsimp only at this
        rw [hnh] at this
        cases this
      · exact ⟨p, by rw [h2 f.key fun f' hf' e => hex ⟨f', hf', e⟩, hp], hsr.rep⟩
  · refine h2 k fun f hf e => ?_
    obtain ⟨g, hg, -⟩ := (hmem f).1 hf
    exact hk' _ (List.mem_map_of_mem (f := fun gf : Guard × Field => (eff, gf.1, gf.2)) hg) e

/-- reading the bases and then the members -/
theorem outc_members {c : ClassId} {ci : ClassInfo} (hc : E.cls c = some ci) {p v : Val} {st1 : Store} {s s1 s' : Session} {n r r' : Nat}
    (hl1 : s1.objects.length ≤ s'.objects.length)
    (hb : ReadsAs E (.bases r ci.bin.bases p) s (.obj st1) s1) (hm : ReadsAs E (.members r' (membersOf ci n) st1) s1 v s')
    (hl : s'.objects.length ≤ 2 ^ 64) {HT : List Ty} (hT : Tab HT s) :
    ∀ st w Q, p = .obj st → Current E w [c] Q → ReadsMembers E HT s s' st v Q := by
  rintro st w Q rfl hQ hn hk hr
  cases hQ with
  | @cons _ ci' _ bs _ eff hc' hrd hw hv0 hv1 hg h1 h2 =>
    rw [hc] at hc'; cases hc'
    cases h2
    rw [List.append_nil] at hn hk hr ⊢
    have hnb : (bs.map fun q => q.2.2.key).Nodup := by
      rw [List.map_append] at hn
      exact (List.nodup_append.1 hn).1
    have hno : ((ci.bin.readFields.map fun gf => (eff, gf.1, gf.2)).map fun q => q.2.2.key).Nodup := by
      rw [List.map_append] at hn
      exact (List.nodup_append.1 hn).2.1
    refine (hb (by omega) HT hT st w bs rfl h1 hnb (fun q hq => hk q (List.mem_append_left _ hq)) hr.left).bind hT
      fun HT1 hle hT1 => ?_
    rintro ⟨_, ⟨⟩, hu⟩
    have hr1 := hr.right hu hn
    have hsub : ∀ f ∈ membersOf ci n, ∃ g, (eff, g, f) ∈ ci.bin.readFields.map fun gf => (eff, gf.1, gf.2) := by
      intro f hf
      simp only [membersOf, List.mem_map, List.mem_filter] at hf
      obtain ⟨⟨g, f⟩, ⟨hgf, -⟩, rfl⟩ := hf
      exact ⟨g, List.mem_map.2 ⟨(g, f), hgf, rfl⟩⟩
    have hnm : ((membersOf ci n).map Field.key).Nodup := by
      rw [membersOf, List.map_map]
      rw [List.map_map] at hno
      exact (List.filter_sublist.map _).nodup hno
    refine (hm hl HT1 hT1 eff hnm (fun f hf => ?_) (fun f hf p hp => ?_)).weaken fun HT2 hle2 => ?_
    · obtain ⟨g, hg⟩ := hsub f hf
      exact hk _ (List.mem_append_right _ hg)
    · obtain ⟨g, hg⟩ := hsub f hf
      exact hr1.prep _ hg p hp
    · rintro ⟨st2, rfl, k1, k2, k3⟩
      exact ⟨st2, rfl, (hu.mono hle2).append (upd_own hno hr1 k1 k2 k3) hn⟩


/-! ### containers -/

theorem SelfRestoring.elements {HT : List Ty} {w : Nat} {hashed multi : Bool} {t : Ty} {ps : List Val}
    (h : SelfRestoring E w (.set hashed multi t) (.list ps)) : BinElements E HT multi t ps ∧ (multi = true → ps = []) := by
  have hrep : ∀ v ∈ ps, Rep E HT 0 t (E.defInit t) v := by
    intro v hv ρ
    cases h (fun a => HT[a]?) ρ with
    | set h1 => exact h1 v hv
    | multiset h1 => exact h1 v hv
  cases h (fun a => HT[a]?) id with
  | set h1 h2 h3 h4 h5 => exact ⟨⟨hrep, h2, h3, by simpa using h5⟩, fun h => by cases h⟩
  | multiset h1 h2 h3 h4 h5 => exact ⟨⟨hrep, h2, h3, by simpa using h5⟩, fun _ => rfl⟩

theorem binOrder_perm (hI : IterPerm E) (hashed : Bool) (vs : List Val) : (E.order hashed vs).Perm vs := by
  cases hashed with
  | true => exact hI.1 vs
  | false => exact List.Perm.refl _

theorem binOrderKV_perm (hI : IterPerm E) (hashed : Bool) (kvs : List (Val × Val)) : (E.orderKV hashed kvs).Perm kvs := by
  cases hashed with
  | true => exact hI.2 kvs
  | false => exact List.Perm.refl _

theorem BinElements.rep_set (hO : OrderedKeys E) (hI : IterPerm E) {HT : List Ty} {w : Nat} {hashed multi : Bool} {t : Ty} {ps vs : List Val}
    (hg : hashed = true → multi = true → ∀ vs k, groupBy (E.lt t) id k (E.iter vs) = groupBy (E.lt t) id k vs)
    (hp : BinElements E HT multi t ps) (hm : multi = true → ps = []) (hsub : ∀ p ∈ ps, p ∈ vs) (h : BinElements E HT multi t vs) :
    Rep E HT w (.set hashed multi t) (.list ps) (.list vs) := by
  intro ρ
  cases multi with
  | false =>
    exact .set (fun v hv => h.rep v hv ρ) h.init h.refs (h.order hO) (by simpa using h.sorted) (binOrder_perm hI hashed vs)
      (by simpa using hp.sorted) hsub
  | true =>
    rw [hm rfl]
    refine .multiset (fun v hv => h.rep v hv ρ) h.init h.refs (h.order hO) (by simpa using h.sorted) (binOrder_perm hI hashed vs) ?_
    intro k _
    cases hashed with
    | true => exact hg rfl rfl vs k
    | false => rfl

theorem SelfRestoring.entries {HT : List Ty} {w : Nat} {hashed multi : Bool} {k t : Ty} {ps : List (Val × Val)}
    (h : SelfRestoring E w (.map hashed multi k t) (.map ps)) : BinEntries E HT multi k t ps ∧ (multi = true → ps = []) := by
  have hrep : ∀ q ∈ ps, Rep E HT 0 k (E.valInit k) q.1 ∧ Rep E HT 0 t (E.valInit t) q.2 := by
    intro q hq
    refine ⟨fun ρ => ?_, fun ρ => ?_⟩
    · cases h (fun a => HT[a]?) ρ with
      | map h1 => exact h1 q hq
      | multimap h1 => exact h1 q hq
    · cases h (fun a => HT[a]?) ρ with
      | map _ h1 => exact h1 q hq
      | multimap _ h1 => exact h1 q hq
  cases h (fun a => HT[a]?) id with
  | map h1 h2 h3 h4 h5 h6 =>
    exact ⟨⟨fun q hq => (hrep q hq).1, fun q hq => (hrep q hq).2, h3, h4, by simpa using h6⟩, fun h => by cases h⟩
  | multimap h1 h2 h3 h4 h5 h6 =>
    exact ⟨⟨fun q hq => (hrep q hq).1, fun q hq => (hrep q hq).2, h3, h4, by simpa using h6⟩, fun _ => rfl⟩

theorem BinEntries.rep_map (hO : OrderedKeys E) (hI : IterPerm E) {HT : List Ty} {w : Nat} {hashed multi : Bool} {k t : Ty}
    {ps kvs : List (Val × Val)}
    (hg : hashed = true → multi = true → ∀ kvs a, groupBy (E.lt k) Prod.fst a (E.iterKV kvs) = groupBy (E.lt k) Prod.fst a kvs)
    (hp : SelfRestoring E w (.map hashed multi k t) (.map ps)) (hsub : ∀ p ∈ ps, p ∈ kvs) (h : BinEntries E HT multi k t kvs) :
    Rep E HT w (.map hashed multi k t) (.map ps) (.map kvs) := by
  intro ρ
  cases multi with
  | false =>
    cases hp (fun a => HT[a]?) ρ with
    | map h1 h2 h3 h4 h5 h6 h7 h8 h9 =>
      refine .map (fun v hv => h.keys v hv ρ) (fun v hv => h.vals v hv ρ) h.init h.refs (h.order hO) (by simpa using h.sorted)
        (binOrderKV_perm hI hashed kvs) h8 ?_
      intro p hp
      obtain ⟨q, hq, e⟩ := h9 p hp
      exact ⟨q, hsub q hq, e⟩
  | true =>
    rw [(hp.entries (HT := HT)).2 rfl]
    refine .multimap (fun v hv => h.keys v hv ρ) (fun v hv => h.vals v hv ρ) h.init h.refs (h.order hO) (by simpa using h.sorted)
      (binOrderKV_perm hI hashed kvs) ?_
    intro q _
    cases hashed with
    | true => exact hg rfl rfl kvs q.1
    | false => rfl

theorem Kept.mkPair {a b : Ty} (h1 : Kept E 0 a) (h2 : Kept E 0 b) (w : Nat) : Kept E w (.pair a b) := by
  intro w' t' h
  cases h with
  | refl => trivial
  | fst h => exact h1 _ _ h
  | snd h => exact h2 _ _ h

theorem Kept.int (w : Nat) (u : IntTy) : Kept E w (.int u) := by
  intro w' t' h
  cases h
  trivial

/-! ### everything which is read is representable -/

theorem reads_simple {ver : Nat} {t : Ty} {p v : Val} {s s' : Session} (hne : ∀ c, t ≠ .cls c)
    (h : s'.objects.length ≤ 2 ^ 64 → ∀ HT, Tab HT s → ∀ w, Kept E w t → Prepared E w t p → Outc E HT s s' fun HT' => Rep E HT' w t p v) :
    ReadsAs E (.object ver t p) s v s' :=
  fun hl HT hT => ⟨h hl HT hT, fun c _ _ _ e => absurd e (hne c)⟩

theorem Prepared.vec_inv {w : Nat} {t : Ty} {ps : List Val} (h : Prepared E w (.vec t) (.list ps)) : ∀ p ∈ ps, Prepared E 0 t p := by
  cases h with
  | replaced _ h => cases h
  | vec h => exact h

theorem Prepared.set_inv {w : Nat} {a b : Bool} {t : Ty} {ps : List Val} (h : Prepared E w (.set a b t) (.list ps)) :
    SelfRestoring E w (.set a b t) (.list ps) := by
  cases h with
  | replaced _ h => cases h
  | set h => exact h

theorem Prepared.map_inv {w : Nat} {a b : Bool} {k t : Ty} {ps : List (Val × Val)} (h : Prepared E w (.map a b k t) (.map ps)) :
    SelfRestoring E w (.map a b k t) (.map ps) := by
  cases h with
  | replaced _ h => cases h
  | map h => exact h

theorem Prepared.pair_inv {w : Nat} {a b : Ty} {x y : Val} (h : Prepared E w (.pair a b) (.tup [x, y])) :
    Prepared E 0 a x ∧ Prepared E 0 b y := by
  cases h with
  | replaced _ h => cases h
  | pair h1 h2 => exact ⟨h1, h2⟩

theorem Rep.pair_inv {HT : List Ty} {w : Nat} {a b : Ty} {p q x y : Val} (h : Rep E HT w (.pair a b) (.tup [p, q]) (.tup [x, y])) :
    Rep E HT 0 a p x ∧ Rep E HT 0 b q y := by
  refine ⟨fun ρ => ?_, fun ρ => ?_⟩
  · cases h ρ with
    | pair h1 h2 => exact h1
  · cases h ρ with
    | pair h1 h2 => exact h2

/-- a new shared object -/
theorem outc_new {HT : List Ty} {w : Nat} {t : Ty} {p v : Val} {s s' : Session} {id : Nat} (hT : Tab HT s) (hk : Kept E 0 t)
    (hl : s'.objects.length ≤ 2 ^ 64) (hl' : s.objects.length + 1 ≤ s'.objects.length)
    (h : ∀ HT1, Tab HT1 ⟨(id, t, s.objects.length) :: s.defined, s.objects ++ [E.valInit t]⟩ →
      Outc E HT1 ⟨(id, t, s.objects.length) :: s.defined, s.objects ++ [E.valInit t]⟩ s' fun HT' => Rep E HT' 0 t (E.valInit t) v) :
    Outc E HT s ⟨s'.defined, s'.objects.set s.objects.length v⟩ fun HT' => Rep E HT' w (.sptr t) p (.ref s.objects.length) := by
  have hlen := hT.len
  have hT1 : Tab (HT ++ [t]) ⟨(id, t, s.objects.length) :: s.defined, s.objects ++ [E.valInit t]⟩ := by
    refine ⟨by simp [hlen], fun id' t' a ha => ?_⟩
    rcases List.mem_cons.1 ha with e | ha
    · cases e
      rw [← hlen]; simp
    · have h1 := hT.table _ _ _ ha
      rw [List.getElem?_append_left (List.getElem?_eq_some_iff.1 h1).1]
      exact h1
  obtain ⟨HT2, hle, hT2, hg, hr⟩ := h _ hT1
  have hat : HT2[s.objects.length]? = some t := by
    obtain ⟨r, rfl⟩ := hle
    rw [List.append_assoc, ← hlen, List.getElem?_append_right (Nat.le_refl _)]
    simp
  refine ⟨HT2, (List.prefix_append _ _).trans hle, ⟨by simp [hT2.len], hT2.table⟩, ⟨fun i hi => ?_, fun i t' x hi ht hx => ?_,
    fun i t' hi ht => ?_⟩, fun ρ => ?_⟩
  · change (s'.objects.set s.objects.length v)[i]? = _
    rw [List.getElem?_set_ne (by omega), hg.old i (by simp; omega)]
    exact List.getElem?_append_left hi
  · change (s'.objects.set s.objects.length v)[i]? = _ at hx
    by_cases e : i = s.objects.length
    · subst e
      rw [hat] at ht; cases ht
      rw [List.getElem?_set_self (by omega)] at hx
      cases hx
      exact hr
    · rw [List.getElem?_set_ne (by omega)] at hx
      exact hg.new i t' x (by simp; omega) ht hx
  · by_cases e : i = s.objects.length
    · subst e
      rw [hat] at ht; cases ht
      exact hk
    · exact hg.kept i t' (by simp; omega) ht
  · exact .sptrSome hat (by omega)

theorem reads_as (hO : OrderedKeys E) (hI : IterPerm E) {j : Job} {s : Session} {bs : Str} {v : Val} {s' : Session}
    (h : Decodes E j s bs v s') : ReadsAs E j s v s' := by
  induction h with
  | bool b => exact reads_simple (by simp) fun _ HT hT w _ _ => Outc.refl hT fun ρ => .bool _ _ _ _
  | int it i h1 h2 h3 => exact reads_simple (by simp) fun _ HT hT w _ _ => Outc.refl hT fun ρ => .int _ _ _ _ _ h1 h2 h3
  | f32 b => exact reads_simple (by simp) fun _ HT hT w _ _ => Outc.refl hT fun ρ => .f32 _ _ _ _
  | f64 b => exact reads_simple (by simp) fun _ HT hT w _ _ => Outc.refl hT fun ρ => .f64 _ _ _ _
  | dateTime i h1 h2 => exact reads_simple (by simp) fun _ HT hT w _ _ => Outc.refl hT fun ρ => .dateTime _ _ _ _ h1 h2
  | timeSpan i h1 h2 => exact reads_simple (by simp) fun _ HT hT w _ _ => Outc.refl hT fun ρ => .timeSpan _ _ _ _ h1 h2
  | str x h1 h2 => exact reads_simple (by simp) fun _ HT hT w _ _ => Outc.refl hT fun ρ => .str _ _ _ _ h2
  | enum u _ ih =>
    refine reads_simple (by simp) fun hl HT hT w _ _ => ((ih hl HT hT).1 0 (Kept.int _ _) (.replaced _ rfl)).weaken fun HT' _ hr => ?_
    cases hr id with
    | int _ _ _ i _ h1 h2 h3 => exact fun ρ => .enum _ _ _ _ _ h1 h2 h3
  | pair h1 h2 ih1 ih2 =>
    refine reads_simple (by simp) fun hl HT hT w hk hp => ?_
    obtain ⟨p1, p2⟩ := hp.pair_inv
    have := decodes_length h2
    refine ((ih1 (by omega) HT hT).1 0 hk.fst p1).bind hT fun HT1 hle hT1 hr1 => ?_
    exact ((ih2 hl HT1 hT1).1 0 hk.snd p2).weaken fun HT2 hle2 hr2 => fun ρ => .pair (hr1.mono hle2 ρ) (hr2 ρ)
  | uptrNull => exact reads_simple (by simp) fun _ HT hT w _ _ => Outc.refl hT fun ρ => .uptrNone _ _ _ _
  | optNull => exact reads_simple (by simp) fun _ HT hT w _ _ => Outc.refl hT fun ρ => .optNone _ _ _ _
  | sptrNull => exact reads_simple (by simp) fun _ HT hT w _ _ => Outc.refl hT fun ρ => .sptrNone _ _ _ _
  | uptr _ _ ih =>
    exact reads_simple (by simp) fun hl HT hT w hk _ => ((ih hl HT hT).1 0 hk.uptr hk.self).weaken fun HT' _ hr ρ => .uptrSome (hr ρ)
  | opt _ _ ih =>
    exact reads_simple (by simp) fun hl HT hT w hk _ => ((ih hl HT hT).1 0 hk.opt hk.self).weaken fun HT' _ hr ρ => .optSome (hr ρ)
  | sptrNew _ _ _ hd ih =>
    refine reads_simple (by simp) fun hl HT hT w hk _ => ?_
    simp only [List.length_set] at hl
    have := decodes_length hd
    simp only [List.length_append, List.length_singleton] at this
    exact outc_new hT hk.sptr hl this fun HT1 hT1 => (ih hl HT1 hT1).1 0 hk.sptr hk.self
  | sptrRef _ _ _ hlk =>
    refine reads_simple (by simp) fun hl HT hT w hk _ => Outc.refl hT fun ρ => ?_
    have h1 := hT.table _ _ _ (mem_of_lookup hlk)
    have h2 := (List.getElem?_eq_some_iff.1 h1).1
    have h3 := hT.len
    exact .sptrSome h1 (by omega)
  | @vec ver t vs s bs n bs' r s' _ hn _ ih =>
    refine reads_simple (by simp) fun hl HT hT w hk hp => ?_
    have hp := hp.vec_inv
    have hd : Prepared E 0 t (E.valInit t) := hk.self
    refine (ih hl HT hT hk.vec ?_).weaken fun HT' _ => ?_
    · intro p hp'
      simp only [priors, List.mem_map, List.mem_range] at hp'
      obtain ⟨i, -, rfl⟩ := hp'
      cases e : vs[i]? with
      | none => exact hd
      | some x => exact hp x (List.mem_of_getElem? e)
    · rintro ⟨xs, rfl, hlen, hx⟩
      have hlen' : xs.length = n := by rw [hlen]; simp [priors]
      refine fun ρ => .vec (by omega) fun i x hi => hx i _ x ?_ hi ρ
      have := (List.getElem?_eq_some_iff.1 hi).1
      simp only [priors, List.getElem?_map, List.getElem?_range (by omega : i < n), Option.map_some]
  | set _ _ ih =>
    refine reads_simple (by simp) fun hl HT hT w hk hp => ?_
    have hp := hp.set_inv
    obtain ⟨l1, l2, l3⟩ := hk.self
    refine (ih hl HT hT hk.set l1 l2 hp.elements.1).weaken fun HT' hle => ?_
    rintro ⟨xs, rfl, he, hsub⟩
    exact BinElements.rep_set hO hI l3 hp.elements.1 (hp.elements (HT := HT)).2 hsub he
  | map _ _ ih =>
    refine reads_simple (by simp) fun hl HT hT w hk hp => ?_
    have hp := hp.map_inv
    obtain ⟨l1, l2, l3, l4⟩ := hk.self
    refine (ih hl HT hT hk.mapKey hk.mapVal l1 l2 l3 hp.entries.1).weaken fun HT' hle => ?_
    rintro ⟨xs, rfl, he, hsub⟩
    exact he.rep_map hO hI l4 hp hsub
  | mono hi =>
    refine reads_simple (by simp) fun hl HT hT w hk _ => Outc.refl hT fun ρ => .variantMono hi ?_
    have h1 : _ ≤ 255 := hk.self.1
    have := (List.getElem?_eq_some_iff.1 hi).1
    omega
  | variant hi hne _ ih =>
    refine reads_simple (by simp) fun hl HT hT w hk _ => ?_
    have h1 : _ ≤ 255 := hk.self.1
    have := (List.getElem?_eq_some_iff.1 hi).1
    have hm := List.mem_of_getElem? hi
    exact ((ih hl HT hT).1 0 (hk.alt hm) (hk.self.2 _ hm hne)).weaken fun HT' _ hr ρ => .variant hi hne (by omega) (hr ρ)
  | plain hc _ _ hb hm ihb ihm =>
    have := decodes_length hm
    intro hl HT hT
    refine ⟨fun w hk hp => outc_class (outc_members hc this ihb ihm hl hT) hk hp, ?_⟩
    rintro c st w Q ⟨⟩ rfl hQ
    exact outc_members hc this ihb ihm hl hT st w Q rfl hQ
  | versioned hc _ _ hb _ _ hm ihb ihm =>
    have := decodes_length hm
    intro hl HT hT
    refine ⟨fun w hk hp => outc_class (outc_members hc this ihb ihm hl hT) hk hp, ?_⟩
    rintro c st w Q ⟨⟩ rfl hQ
    exact outc_members hc this ihb ihm hl hT st w Q rfl hQ
  | noElements =>
    intro _ HT hT _ _
    exact Outc.refl hT ⟨[], rfl, rfl, by simp⟩
  | elements _ hd ih1 ih2 =>
    intro hl HT hT hk hp
    have := decodes_length hd
    refine ((ih1 (by omega) HT hT).1 0 hk (hp _ List.mem_cons_self)).bind hT fun HT1 hle hT1 hr1 => ?_
    refine (ih2 hl HT1 hT1 hk fun p hp' => hp p (List.mem_cons_of_mem _ hp')).weaken fun HT2 hle2 => ?_
    rintro ⟨vs, e, hlen, hx⟩
    cases e
    refine ⟨_, rfl, by simp [hlen], fun i p x hi hxi => ?_⟩
    cases i with
    | zero =>
      simp only [List.getElem?_cons_zero, Option.some.injEq] at hi hxi
      subst hi hxi
      exact hr1.mono hle2
    | succ i =>
      simp only [List.getElem?_cons_succ] at hi hxi
      exact hx i p x hi hxi
  | noSetItems =>
    intro _ HT hT _ _ _ he
    exact Outc.refl hT ⟨_, rfl, he, fun x hx => hx⟩
  | setItems _ hi hd ih1 ih2 =>
    intro hl HT hT hk hp hw he
    have := decodes_length hd
    refine ((ih1 (by omega) HT hT).1 0 hk hp).bind hT fun HT1 hle hT1 hr1 => ?_
    obtain ⟨k1, k2⟩ := (he.mono hle).insert hO hr1 hi ((hr1 id).noRefs rfl hk hw)
    refine (ih2 hl HT1 hT1 hk hp hw k1).weaken fun HT2 hle2 => ?_
    rintro ⟨vs, rfl, k3, k4⟩
    exact ⟨vs, rfl, k3, fun x hx => k4 x (k2 x hx)⟩
  | noMapItems =>
    intro _ HT hT _ _ _ _ _ he
    exact Outc.refl hT ⟨_, rfl, he, fun x hx => hx⟩
  | mapItems _ hi hi' hd ih1 ih2 =>
    intro hl HT hT hk hk' hp hp' hw he
    have := decodes_length hd
    refine ((ih1 (by omega) HT hT).1 0 (hk.mkPair hk' 0) (.pair hp hp')).bind hT fun HT1 hle hT1 hr1 => ?_
    obtain ⟨hr1, hr2⟩ := hr1.pair_inv
    obtain ⟨k1, k2⟩ := (he.mono hle).insert hO hr1 hr2 hi hi' ((hr1 id).noRefs rfl hk hw)
    refine (ih2 hl HT1 hT1 hk hk' hp hp' hw k1).weaken fun HT2 hle2 => ?_
    rintro ⟨vs, rfl, k3, k4⟩
    exact ⟨vs, rfl, k3, fun x hx => k4 x (k2 x hx)⟩
  | noBases =>
    rintro _ HT hT st w Q rfl hQ _ _ _
    cases hQ
    exact Outc.refl hT ⟨st, rfl, ⟨rfl, fun q hq => (by cases hq), fun _ _ => rfl⟩⟩
  | bases _ hd ih1 ih2 =>
    rintro hl HT hT st w Q rfl hQ hn hk hr
    have := decodes_length hd
    obtain ⟨Q1, Q2, rfl, hQ1, hQ2⟩ := hQ.split
    have hn' := hn
    rw [List.map_append] at hn'
    refine ((ih1 (by omega) HT hT).2 _ st w Q1 rfl rfl hQ1 (List.nodup_append.1 hn').1 (fun q hq => hk q (List.mem_append_left _ hq))
      hr.left).bind hT fun HT1 hle hT1 => ?_
    rintro ⟨st1, rfl, hu⟩
    refine (ih2 hl HT1 hT1 st1 w Q2 rfl hQ2 (List.nodup_append.1 hn').2.1 (fun q hq => hk q (List.mem_append_right _ hq))
      (hr.right hu hn)).weaken fun HT2 hle2 => ?_
    rintro ⟨st2, rfl, hu2⟩
    exact ⟨st2, rfl, (hu.mono hle2).append hu2 hn⟩
  | noMembers =>
    intro _ HT hT w _ _ _
    exact Outc.refl hT ⟨_, rfl, rfl, fun f hf => (by cases hf), fun _ _ => rfl⟩
  | @members ver f fs st p s bs v s1 bs' r s' hg _ hd ih1 ih2 =>
    intro hl HT hT w hn hk hp
    have := decodes_length hd
    rw [List.map_cons, List.nodup_cons] at hn
    have hne : ∀ f' ∈ fs, f'.key ≠ f.key := fun f' hf' e => hn.1 (e ▸ List.mem_map_of_mem (f := Field.key) hf')
    refine ((ih1 (by omega) HT hT).1 w (hk f List.mem_cons_self) (hp f List.mem_cons_self p hg)).bind hT fun HT1 hle hT1 hr1 => ?_
    refine (ih2 hl HT1 hT1 w hn.2 (fun f' hf' => hk f' (List.mem_cons_of_mem _ hf')) fun f' hf' p' hp' => ?_).weaken fun HT2 hle2 => ?_
    · rw [get?_set_ne _ _ (hne f' hf')] at hp'
      exact hp f' (List.mem_cons_of_mem _ hf') p' hp'
    · rintro ⟨st', rfl, k1, k2, k3⟩
      refine ⟨st', rfl, k1.trans (set_keys _ _ _), fun f' hf' p' hp' => ?_, fun k hk' => ?_⟩
      · rcases List.mem_cons.1 hf' with rfl | hf'
        · rw [hg] at hp'; cases hp'
          refine ⟨v, ?_, hr1.mono hle2⟩
          rw [k3 _ hne, get?_set_eq _ hg]
        · refine k2 f' hf' p' ?_
          rw [get?_set_ne _ _ (hne f' hf'), hp']
      · rw [k3 k fun f' hf' => hk' f' (List.mem_cons_of_mem _ hf'), get?_set_ne]
        exact (hk' f List.mem_cons_self).symm


/-! ### everything which is representable can be written -/

theorem Current.classes {w : Nat} {cs : List ClassId} {Q : List (Nat × Guard × Field)} (h : Current E w cs Q) :
    ∀ c ∈ cs, ∀ d, HasWrittenClass E c d → ∃ ci, E.cls d = some ci ∧ ∀ m, ci.bin.version = some m → m < 2 ^ 56 := by
  induction h with
  | nil => intro c hc; cases hc
  | cons eff hc _ _ _ hs _ _ _ ih1 ih2 =>
    intro c' hc' d hd
    rcases List.mem_cons.1 hc' with rfl | hc'
    · cases hd with
      | self => exact ⟨_, hc, fun m hm => (hs m hm).2.2⟩
      | base hc2 hb hd =>
        rw [hc] at hc2; cases hc2
        exact ih1 _ hb d hd
    · exact ih2 c' hc' d hd

theorem Current.fields {w : Nat} {cs : List ClassId} {Q : List (Nat × Guard × Field)} (h : Current E w cs Q) :
    ∀ c ∈ cs, ∀ f, HasWrittenField E c f → ∃ q ∈ Q, q.2.2 = f := by
  induction h with
  | nil => intro c hc; cases hc
  | cons eff hc _ hw _ _ _ _ _ ih1 ih2 =>
    intro c' hc' f hf
    rcases List.mem_cons.1 hc' with rfl | hc'
    · cases hf with
      | @own _ _ g _ hc2 hg =>
        rw [hc] at hc2; cases hc2
        rw [hw] at hg
        exact ⟨(eff, g, f), List.mem_append_left _ (List.mem_append_right _ (List.mem_map.2 ⟨(g, f), hg, rfl⟩)), rfl⟩
      | base hc2 hb hf =>
        rw [hc] at hc2; cases hc2
        obtain ⟨q, hq, e⟩ := ih1 _ hb f hf
        exact ⟨q, List.mem_append_left _ (List.mem_append_left _ hq), e⟩
    · obtain ⟨q, hq, e⟩ := ih2 c' hc' f hf
      exact ⟨q, List.mem_append_right _ hq, e⟩

theorem sizesL_mem {v : Val} {vs : List Val} (h : v ∈ vs) : ∀ n ∈ v.sizes, n ∈ Val.sizesL vs := by
  induction vs with
  | nil => cases h
  | cons x xs ih =>
    intro n hn
    rw [Val.sizesL]
    rcases List.mem_cons.1 h with rfl | h
    · exact List.mem_append_left _ hn
    · exact List.mem_append_right _ (ih h n hn)

theorem sizesKV_mem {q : Val × Val} {kvs : List (Val × Val)} (h : q ∈ kvs) :
    (∀ n ∈ q.1.sizes, n ∈ Val.sizesKV kvs) ∧ ∀ n ∈ q.2.sizes, n ∈ Val.sizesKV kvs := by
  induction kvs with
  | nil => cases h
  | cons x xs ih =>
    obtain ⟨a, b⟩ := x
    rw [Val.sizesKV]
    rcases List.mem_cons.1 h with rfl | h
    · exact ⟨fun n hn => List.mem_append_left _ (List.mem_append_left _ hn), fun n hn => List.mem_append_left _ (List.mem_append_right _ hn)⟩
    · exact ⟨fun n hn => List.mem_append_right _ ((ih h).1 n hn), fun n hn => List.mem_append_right _ ((ih h).2 n hn)⟩

theorem sizesF_mem {k : FieldKey} {v : Val} {st : Store} (h : st.get? k = some v) : ∀ n ∈ v.sizes, n ∈ Val.sizesF st := by
  induction st with
  | nil => cases h
  | cons x xs ih =>
    obtain ⟨k', v'⟩ := x
    intro n hn
    rw [Val.sizesF]
    by_cases e : k' = k
    · have : v' = v := by simpa [Store.get?, e] using h
      subst this
      exact List.mem_append_left _ hn
    · have hb : (k == k') = false := by simpa using Ne.symm e
      rw [Store.get?, List.lookup, hb] at h
      have : Store.get? xs k = some v := h
      exact List.mem_append_right _ (ih this n hn)

theorem writable_of_repr {HT : Nat → Option Ty} {ρ : Nat → Nat} {w w' : Nat} {t : Ty} {p v : Val}
    (h : BRepr E HT ρ w w' t p v) : w = w' → Kept E w t → v.Countable → Writable E HT true t v := by
  induction h with
  | bool => exact fun _ _ _ => .bool _
  | int _ _ _ _ _ h => exact fun _ _ _ => .int _ _ h
  | f32 => exact fun _ _ _ => .f32 _
  | f64 => exact fun _ _ _ => .f64 _
  | enum _ _ _ _ _ h => exact fun _ _ _ => .enum _ _ h
  | str => exact fun _ _ hc => .str _ fun _ => hc _ (by simp [Val.sizes])
  | dateTime => exact fun _ _ _ => .dateTime _
  | timeSpan => exact fun _ _ _ => .timeSpan _
  | optNone => exact fun _ _ _ => .optNone _
  | uptrNone => exact fun _ _ _ => .uptrNone _
  | sptrNone => exact fun _ _ _ => .sptrNone _
  | optSome _ ih => exact fun _ hk hc => .optSome (ih rfl hk.opt hc)
  | uptrSome _ ih => exact fun _ hk hc => .uptrSome (ih rfl hk.uptr hc)
  | sptrSome h _ => exact fun _ _ _ => .sptrSome h
  | @vec vw vr t ps vs _ _ ih =>
    intro _ hk hc
    refine .vec (fun _ => hc _ (by simp [Val.sizes])) fun v hv => ?_
    obtain ⟨i, hi⟩ := List.mem_iff_getElem?.1 hv
    exact ih i v hi rfl hk.vec fun n hn => hc n (List.mem_cons_of_mem _ (sizesL_mem hv n hn))
  | @set vw vr hashed t ps vs _ _ _ _ _ hp _ _ ih =>
    intro _ hk hc
    refine .set (fun _ => hc _ (by simp [Val.sizes])) rfl fun v hv => ?_
    have hv := hp.mem_iff.1 hv
    exact ih v hv rfl hk.set fun n hn => hc n (List.mem_cons_of_mem _ (sizesL_mem hv n hn))
  | @multiset vw vr hashed t vs _ _ _ _ _ hp _ ih =>
    intro _ hk hc
    refine .set (fun _ => hc _ (by simp [Val.sizes])) rfl fun v hv => ?_
    have hv := hp.mem_iff.1 hv
    exact ih v hv rfl hk.set fun n hn => hc n (List.mem_cons_of_mem _ (sizesL_mem hv n hn))
  | map _ _ _ _ _ _ hp _ _ ih1 ih2 =>
    intro _ hk hc
    refine .map (fun _ => hc _ (by simp [Val.sizes])) rfl (fun v hv => ?_) fun v hv => ?_
    · have hv := hp.mem_iff.1 hv
      exact ih1 v hv rfl hk.mapKey fun n hn => hc n (List.mem_cons_of_mem _ ((sizesKV_mem hv).1 n hn))
    · have hv := hp.mem_iff.1 hv
      exact ih2 v hv rfl hk.mapVal fun n hn => hc n (List.mem_cons_of_mem _ ((sizesKV_mem hv).2 n hn))
  | multimap _ _ _ _ _ _ hp _ ih1 ih2 =>
    intro _ hk hc
    refine .map (fun _ => hc _ (by simp [Val.sizes])) rfl (fun v hv => ?_) fun v hv => ?_
    · have hv := hp.mem_iff.1 hv
      exact ih1 v hv rfl hk.mapKey fun n hn => hc n (List.mem_cons_of_mem _ ((sizesKV_mem hv).1 n hn))
    · have hv := hp.mem_iff.1 hv
      exact ih2 v hv rfl hk.mapVal fun n hn => hc n (List.mem_cons_of_mem _ ((sizesKV_mem hv).2 n hn))
  | pair _ _ ih1 ih2 =>
    intro _ hk hc
    exact .pair (ih1 rfl hk.fst fun n hn => hc n (sizesL_mem (by simp) n hn)) (ih2 rfl hk.snd fun n hn => hc n (sizesL_mem (by simp) n hn))
  | variantMono h1 _ => exact fun _ _ _ => .mono h1
  | variant h1 h2 _ _ ih => exact fun _ hk hc => .variant h1 h2 (ih rfl (hk.alt (List.mem_of_getElem? h1)) hc)
  | @cls vw vr c Q st0 st hf hk0 hnd hs _ _ h7 ih1 _ =>
    intro e hk hc
    subst e
    obtain ⟨Q', hQ', -⟩ := hk.self
    have := flatBin_eq hf hQ'.flat
    subst this
    have key : ∀ f, HasWrittenField E c f → ∃ v, st.get? f.key = some v ∧ Writable E HT true f.ty v := by
      intro f hf
      obtain ⟨q, hq, rfl⟩ := hQ'.fields c List.mem_cons_self f hf
      have hmem : (q.1, q.1, q.2.2) ∈ Q'.map fun q => (q.1, q.1, q.2.2) := List.mem_map_of_mem (f := fun q => (q.1, q.1, q.2.2)) hq
      obtain ⟨v, hv⟩ := hs _ hmem
      obtain ⟨p, hp⟩ : ∃ p, st0.get? q.2.2.key = some p := by
        refine Option.isSome_iff_exists.1 ?_
        rw [get?_isSome_iff, hk0, ← get?_isSome_iff]
        rw [show st.get? q.2.2.key = some v from hv]; rfl
      exact ⟨v, hv, ih1 _ hmem p v hp hv rfl (hk.member hQ' hq) fun n hn => hc n (sizesF_mem hv n hn)⟩
    refine .cls (fun f => (st.get? f.key).getD .indet) (fun d hd => ?_) (fun f hf => ?_) fun f hf => ?_
    · obtain ⟨ci, h1, h2⟩ := hQ'.classes c List.mem_cons_self d hd
      exact ⟨ci, h1, fun _ => h2⟩
    · obtain ⟨v, hv, -⟩ := key f hf
      rw [hv]; rfl
    · obtain ⟨v, hv, hw⟩ := key f hf
      rw [hv]; exact hw


theorem restoreFromBinary_decodes {n : Nat} {c : ClassId} {inp : Str} {p v : Val} {w : Nat} {rs : RSt}
    (h : restoreFromBinary E n c p inp = .ok (v, w) rs) :
    ∃ bytes, inp = bytes ++ rs.inp ∧ Decodes E (.object 0 (.cls c) p) ⟨[], []⟩ bytes v ⟨rs.table, rs.heap⟩ := by
  have key : Verif.read E (n + 1) 0 (.cls c) p ⟨inp, [], []⟩ = .ok v rs := by
    unfold restoreFromBinary at h
    rw [Verif.read, readStep]
    cases hc : E.cls c with
    | none => rw [hc] at h; cases h
    | some ci =>
      rw [hc] at h
      simp only [RSt.init] at h
      simp only [M.bind_apply, h]
      rfl
  clear h
  have h := key
  obtain ⟨bs, e⟩ := C61_consumes_prefix E (n + 1) 0 _ _ _ _ _ h
  refine ⟨bs, e, ?_⟩
  refine (C61_accepted E 0 (.cls c) _ v ⟨[], []⟩ ⟨rs.table, rs.heap⟩ bs rs.inp).1 ⟨n + 1, ?_⟩
  rw [show inp = bs ++ rs.inp from e] at h
  exact h

theorem binary_reload {rk : ClassId → Nat} (hrk : ∀ c ci, E.cls c = some ci → ∀ b ∈ ci.bin.bases, rk b < rk c)
    (hO : OrderedKeys E) (hI : IterPerm E) {c : ClassId} (hk : Kept E 0 (.cls c)) {p : Val} (hp : Prepared E 0 (.cls c) p)
    {n : Nat} {inp : Str} {v : Val} {w : Nat} {rs : RSt} (h : restoreFromBinary E n c p inp = .ok (v, w) rs) (hl : rs.heap.length ≤ 2 ^ 64)
    (hv : v.Countable) (hx : ∀ x ∈ rs.heap, x.Countable) :
    ∃ HT : List Ty, (∀ ρ, HeapRepr E rs.asHeap (fun a => HT[a]?) ρ) ∧ Rep E HT 0 (.cls c) p v ∧
      ∃ m ws, toBinary E rs.asHeap m c v 0 = .ok () ws := by
  obtain ⟨bytes, -, hd⟩ := restoreFromBinary_decodes h
  obtain ⟨HT, -, hT, hg, hr⟩ := (reads_as hO hI hd hl [] ⟨rfl, fun _ _ _ h => by cases h⟩).1 0 hk hp
  have hlen : HT.length = rs.heap.length := hT.len
  have hheap : ∀ a t, HT[a]? = some t → ∃ x, rs.asHeap a = some x ∧ x ∈ rs.heap ∧ Kept E 0 t ∧ Rep E HT 0 t (E.valInit t) x := by
    intro a t ha
    have h1 := (List.getElem?_eq_some_iff.1 ha).1
    rw [hlen] at h1
    exact ⟨rs.heap[a], List.getElem?_eq_getElem h1, List.getElem_mem h1, hg.kept a t (Nat.zero_le _) ha, hg.new a t _ (Nat.zero_le _) ha (List.getElem?_eq_getElem h1)⟩
  refine ⟨HT, fun ρ a t ha => ?_, hr, ?_⟩
  · obtain ⟨x, h1, -, -, h2⟩ := hheap a t ha
    exact ⟨x, h1, h2 ρ⟩
  · obtain ⟨m, ws, hw⟩ := C60_success E rs.asHeap (fun a => HT[a]?) rk hrk (fun vs v hv => (hI.1 vs).mem_iff.1 hv)
      (fun vs v hv => (hI.2 vs).mem_iff.1 hv) (List.range rs.heap.length)
      (fun a v ha => List.mem_range.2 (List.getElem?_eq_some_iff.1 ha).1)
      (fun a t ha => by
        obtain ⟨x, h1, h2, h3, h4⟩ := hheap a t ha
        exact ⟨x, h1, writable_of_repr (h4 id) rfl h3 (hx x h2)⟩)
      0 (by decide) (.cls c) v (writable_of_repr (hr id) rfl hk hv) WSt.init
    exact ⟨m, ws, hw⟩

theorem fromBinary_restore {n : Nat} {c : ClassId} {inp : Str} {v : Val} {rs : RSt} (h : fromBinary E n c inp = .ok v rs) :
    ∃ w, restoreFromBinary E n c (E.defInit (.cls c)) inp = .ok (v, w) rs := by
  unfold fromBinary at h
  cases hr : restoreFromBinary E n c (E.defInit (.cls c)) inp with
  | ok r s =>
    rw [hr] at h
    cases h
    exact ⟨r.2, rfl⟩
  | _ => rw [hr] at h; cases h

/-- **C67** for `restoreFromBinary`: Whatever has been read - from arbitrary input, into an object having the content `p` - can be
written (with the default version) and reading what has been written, possibly followed by something else, into an object having the
content `p` succeeds and yields the same object graph again, provided the program is suitable: all members belong to the current
version (`Kept`), members missing in old versions are initialised (`Prepared`), no member is handled twice, keys do not contain
pointers to shared objects and are ordered. The version returned is the current one then. -/
theorem C67_restore_reload (E : Env) (rk : ClassId → Nat) (hrk : ∀ c ci, E.cls c = some ci → ∀ b ∈ ci.bin.bases, rk b < rk c)
    (hO : OrderedKeys E) (hI : IterPerm E) (c : ClassId) (ci : ClassInfo) (hc : E.cls c = some ci) (hk : Kept E 0 (.cls c)) (p : Val)
    (hp : Prepared E 0 (.cls c) p) (n : Nat) (inp : Str) (v : Val) (version : Nat) (rs : RSt)
    (h : restoreFromBinary E n c p inp = .ok (v, version) rs) (hl : rs.heap.length ≤ 2 ^ 64)
    (hv : v.Countable) (hx : ∀ x ∈ rs.heap, x.Countable) :
    ∃ m ws, toBinary E rs.asHeap m c v 0 = .ok () ws ∧
      ∀ rest, ∃ ρ v' rs', restoreFromBinary E m c p (ws.out ++ rest) = .ok (v', ci.bin.version.getD 0) rs' ∧ rs'.inp = rest ∧
        GraphCopy rs.asHeap v rs'.asHeap v' ρ ∧ (WithoutShared E (.cls c) → v' = v) := by
  obtain ⟨HT, h1, h2, m, ws, h3⟩ := binary_reload hrk hO hI hk hp h hl hv hx
  refine ⟨m, ws, h3, fun rest => ?_⟩
  obtain ⟨ρ, v', rs', h4, h5, h6⟩ :=
    C27_toBinary_restoreFromBinary E rs.asHeap _ m m c ci p v 0 ws h1 h2 hc (Nat.le_succ _) h3 rest
  refine ⟨ρ, v', rs', ?_, h5, h6, fun hs => ?_⟩
  · rw [h4]
    cases ci.bin.version <;> rfl
  · rw [h6.root, Val.rename_of_noRef ρ v ((h2 id).noRefs rfl hk hs)]

/-- **C67** for `fromBinary`. -/
theorem C67_binary_reload (E : Env) (rk : ClassId → Nat) (hrk : ∀ c ci, E.cls c = some ci → ∀ b ∈ ci.bin.bases, rk b < rk c)
    (hO : OrderedKeys E) (hI : IterPerm E) (c : ClassId) (hk : Kept E 0 (.cls c)) (hp : Prepared E 0 (.cls c) (E.defInit (.cls c)))
    (n : Nat) (inp : Str) (v : Val) (rs : RSt) (h : fromBinary E n c inp = .ok v rs) (hl : rs.heap.length ≤ 2 ^ 64)
    (hv : v.Countable) (hx : ∀ x ∈ rs.heap, x.Countable) :
    ∃ m ws, toBinary E rs.asHeap m c v 0 = .ok () ws ∧
      ∀ rest, ∃ ρ v' rs', fromBinary E m c (ws.out ++ rest) = .ok v' rs' ∧ rs'.inp = rest ∧ GraphCopy rs.asHeap v rs'.asHeap v' ρ := by
  obtain ⟨_, h⟩ := fromBinary_restore h
  obtain ⟨HT, h1, h2, m, ws, h3⟩ := binary_reload hrk hO hI hk hp h hl hv hx
  exact ⟨m, ws, h3, fun rest => C27_toBinary_fromBinary E rs.asHeap _ m m c v 0 ws h1 h2 (Nat.le_succ _) h3 rest⟩

/-- **C67** without pointers to shared objects: the very same object is read again. -/
theorem C67_binary_reload_exact (E : Env) (rk : ClassId → Nat) (hrk : ∀ c ci, E.cls c = some ci → ∀ b ∈ ci.bin.bases, rk b < rk c)
    (hO : OrderedKeys E) (hI : IterPerm E) (c : ClassId) (hk : Kept E 0 (.cls c)) (hp : Prepared E 0 (.cls c) (E.defInit (.cls c)))
    (hs : WithoutShared E (.cls c)) (n : Nat) (inp : Str) (v : Val) (rs : RSt) (h : fromBinary E n c inp = .ok v rs)
    (hl : rs.heap.length ≤ 2 ^ 64) (hv : v.Countable) (hx : ∀ x ∈ rs.heap, x.Countable) :
    ∃ m ws, toBinary E rs.asHeap m c v 0 = .ok () ws ∧
      ∀ rest, ∃ rs', fromBinary E m c (ws.out ++ rest) = .ok v rs' ∧ rs'.inp = rest := by
  obtain ⟨_, h⟩ := fromBinary_restore h
  obtain ⟨HT, h1, h2, m, ws, h3⟩ := binary_reload hrk hO hI hk hp h hl hv hx
  refine ⟨m, ws, h3, fun rest => ?_⟩
  obtain ⟨ρ, v', rs', h4, h5, h6⟩ := C27_toBinary_fromBinary E rs.asHeap _ m m c v 0 ws h1 h2 (Nat.le_succ _) h3 rest
  rw [h6.root, Val.rename_of_noRef ρ v ((h2 id).noRefs rfl hk hs)] at h4
  exact ⟨rs', h4, h5⟩

end

/-! ## Examples -/

namespace BinReloadDemo

open Demo

theorem weakOrder_stdLt (vs : List Val) (h : (∀ v ∈ vs, ∃ i, v = .int i) ∨ (∀ v ∈ vs, ∃ x, v = .str x) ∨
    ∀ v ∈ vs, (∀ i, v ≠ .int i) ∧ ∀ x, v ≠ .str x) : WeakOrderOn stdLt vs := by
  rcases h with hv | hv | hv
  · refine ⟨fun x hx => ?_, fun x hx y hy z hz => ?_, fun x hx y hy z hz => ?_⟩
    · obtain ⟨i, rfl⟩ := hv x hx; simp [Demo.stdLt]
    · obtain ⟨i, rfl⟩ := hv x hx; obtain ⟨k, rfl⟩ := hv y hy; obtain ⟨l, rfl⟩ := hv z hz
      simp only [Demo.stdLt, decide_eq_true_eq]; omega
    · obtain ⟨i, rfl⟩ := hv x hx; obtain ⟨k, rfl⟩ := hv y hy; obtain ⟨l, rfl⟩ := hv z hz
      simp only [Demo.stdLt, decide_eq_false_iff_not]; omega
  · refine ⟨fun x hx => ?_, fun x hx y hy z hz => ?_, fun x hx y hy z hz => ?_⟩
    · obtain ⟨i, rfl⟩ := hv x hx; exact ConformDemo.strLt_irrefl i
    · obtain ⟨i, rfl⟩ := hv x hx; obtain ⟨k, rfl⟩ := hv y hy; obtain ⟨l, rfl⟩ := hv z hz
      exact ConformDemo.strLt_trans
    · obtain ⟨i, rfl⟩ := hv x hx; obtain ⟨k, rfl⟩ := hv y hy; obtain ⟨l, rfl⟩ := hv z hz
      simp only [Demo.stdLt]
      intro h1 h2
      by_contra h3
      rw [Bool.not_eq_false] at h3
      cases h4 : Demo.strLt k i with
      | true => rw [ConformDemo.strLt_trans h4 h3] at h2; cases h2
      | false => rw [ConformDemo.strLt_total h1 h4, h2] at h3; cases h3
  · have hf : ∀ x ∈ vs, ∀ y, Demo.stdLt x y = false := by
      intro x hx y
      obtain ⟨h1, h2⟩ := hv x hx
      cases x <;> first | exact absurd rfl (h1 _) | exact absurd rfl (h2 _) | rfl
    exact ⟨fun x hx => hf x hx x, (fun x hx y _ z _ h1 => by rw [hf x hx] at h1; cases h1), fun x hx _ _ z _ _ _ => hf x hx z⟩

theorem orderedKeys (E : Env) (hlt : E.lt = fun _ => stdLt) : OrderedKeys E := by
  intro t vs h
  rw [hlt]
  apply weakOrder_stdLt
  by_cases hint : (∃ it, t = .int it) ∨ ∃ u, t = .enum u
  · refine .inl fun v hv => ?_
    obtain ⟨-, _, _, _, h⟩ := h v hv
    rcases hint with ⟨it, rfl⟩ | ⟨u, rfl⟩
    · cases h; exact ⟨_, rfl⟩
    · cases h; exact ⟨_, rfl⟩
  · by_cases hstr : t = .str
    · subst hstr
      refine .inr (.inl fun v hv => ?_)
      obtain ⟨-, _, _, _, h⟩ := h v hv
      cases h; exact ⟨_, rfl⟩
    · refine .inr (.inr fun v hv => ?_)
      obtain ⟨-, _, _, _, h⟩ := h v hv
      cases h with
      | int => exact absurd (.inl ⟨_, rfl⟩) hint
      | enum => exact absurd (.inr ⟨_, rfl⟩) hint
      | str => exact absurd rfl hstr
      | _ => simp

theorem current_base (w : Nat) : Current env w [0] [(w, g0, fI), (w, g0, fM)] :=
  .cons (ci := base) w rfl rfl rfl (fun _ => rfl) (fun m h => by cases h) (fun gf h => by
    simp only [base, List.mem_cons, List.not_mem_nil, or_false] at h
    rcases h with rfl | rfl <;> rfl) (.nil _) (.nil _)

theorem current_derived : Current env 0 [1] [(0, g0, fI), (0, g0, fM), (3, ⟨2, 0⟩, fS)] :=
  .cons (ci := derived) 3 rfl rfl rfl (fun h => by cases h) (fun m h => by cases h; decide) (fun gf h => by
    simp only [derived, List.mem_cons, List.not_mem_nil, or_false] at h
    subst h; rfl) (current_base 0) (.nil _)

theorem current_node (w : Nat) : Current env w [2] [(w, g0, fV), (w, g0, fN)] :=
  .cons (ci := node) w rfl rfl rfl (fun _ => rfl) (fun m h => by cases h) (fun gf h => by
    simp only [node, List.mem_cons, List.not_mem_nil, or_false] at h
    rcases h with rfl | rfl <;> rfl) (.nil _) (.nil _)

theorem self_emptyMap (w : Nat) : SelfRestoring env w (.map false false .str (.int .i32)) (.map []) :=
  fun _ _ => .map (by simp) (by simp) (by simp) (by simp) ⟨by simp, by simp, by simp⟩ (by simp) (List.Perm.refl _) (by simp) (by simp)

theorem self_emptyVec (w : Nat) : SelfRestoring env w (.vec .str) (.list []) := fun _ _ => .vec (by simp) (by simp)

theorem always0 (version : Nat) : g0.holds version = true := rfl

theorem kept_scalar {w : Nat} {t : Ty} (h : t = .str ∨ t = .int .i32) : Kept env w t := by
  intro w' t' hp
  rcases h with rfl | rfl <;> (cases hp; trivial)

theorem kept_map (w : Nat) : Kept env w fM.ty := by
  intro w' t' h
  cases h with
  | refl => exact ⟨.replaced _ rfl, .replaced _ rfl, (fun _ _ h => by cases h), fun h => by cases h⟩
  | mapKey h => exact kept_scalar (.inl rfl) _ _ h
  | mapVal h => exact kept_scalar (.inr rfl) _ _ h

theorem kept_vec (w : Nat) : Kept env w fS.ty := by
  intro w' t' h
  cases h with
  | refl => exact .replaced _ rfl
  | vec h => exact kept_scalar (.inl rfl) _ _ h

theorem kept_derived : Kept env 0 (.cls 1) := by
  intro w' t' h
  cases h with
  | refl => exact ⟨_, current_derived, by decide⟩
  | member hQ hq h =>
    cases current_eq hQ current_derived
    simp only [List.mem_cons, List.not_mem_nil, or_false] at hq
    rcases hq with rfl | rfl | rfl
    · exact kept_scalar (.inr rfl) _ _ h
    · exact kept_map _ _ _ h
    · exact kept_vec _ _ _ h

theorem prepared_derived (p : Val) :
    Prepared env 0 (.cls 1) (.obj [(fI.key, p), (fM.key, .map []), (fS.key, .list []), (fK.key, .int 7)]) := by
  refine .cls current_derived (by show [fI.key, fM.key, fS.key, fK.key].Nodup; decide) ?_ ?_ ?_ ?_
  · intro q hq
    simp only [List.mem_cons, List.not_mem_nil, or_false] at hq
    rcases hq with rfl | rfl | rfl <;> exact ⟨_, rfl⟩
  · intro q hq p hp
    simp only [List.mem_cons, List.not_mem_nil, or_false] at hq
    rcases hq with rfl | rfl | rfl <;> cases hp
    · exact .replaced _ rfl
    · exact .map (self_emptyMap _)
    · exact .vec (by simp)
  · intro q hq p hp
    simp only [List.mem_cons, List.not_mem_nil, or_false] at hq
    rcases hq with rfl | rfl | rfl
    · exact .inl always0
    · exact .inl always0
    · cases hp
      exact .inr (self_emptyVec _)
  · intro k v hk hv
    have h1 := hk (0, g0, fI) (by simp)
    have h2 := hk (0, g0, fM) (by simp)
    have h3 := hk (3, ⟨2, 0⟩, fS) (by simp)
    have hm : (k, v) ∈ [(fI.key, p), (fM.key, .map []), (fS.key, .list []), (fK.key, .int 7)] := mem_of_get? hv
    simp only [List.mem_cons, Prod.mk.injEq, List.not_mem_nil, or_false] at hm
    rcases hm with ⟨rfl, -⟩ | ⟨rfl, -⟩ | ⟨rfl, -⟩ | ⟨-, rfl⟩
    · exact absurd rfl h1
    · exact absurd rfl h2
    · exact absurd rfl h3
    · rfl

theorem partOf_node {w w' : Nat} {t t' : Ty} (h : PartOf env w t w' t') :
    t = .cls 2 ∨ t = .sptr (.cls 2) ∨ t = .int .i32 → t' = .cls 2 ∨ t' = .sptr (.cls 2) ∨ t' = .int .i32 := by
  induction h with
  | refl => exact id
  | sptr _ ih =>
    intro h
    rcases h with h | h | h <;> cases h
    exact ih (.inl rfl)
  | member hQ hq _ ih =>
    intro h
    rcases h with h | h | h <;> cases h
    cases current_eq hQ (current_node _)
    simp only [List.mem_cons, List.not_mem_nil, or_false] at hq
    rcases hq with rfl | rfl
    · exact ih (.inr (.inr rfl))
    · exact ih (.inr (.inl rfl))
  | _ => intro h; rcases h with h | h | h <;> cases h

theorem prepared_node (w : Nat) (p q : Val) : Prepared env w (.cls 2) (.obj [(fV.key, p), (fN.key, q)]) := by
  refine .cls (current_node w) (by show [fV.key, fN.key].Nodup; decide) ?_ ?_ ?_ ?_
  · intro q hq
    simp only [List.mem_cons, List.not_mem_nil, or_false] at hq
    rcases hq with rfl | rfl <;> exact ⟨_, rfl⟩
  · intro q hq p hp
    simp only [List.mem_cons, List.not_mem_nil, or_false] at hq
    rcases hq with rfl | rfl <;> exact .replaced _ rfl
  · intro q hq p hp
    simp only [List.mem_cons, List.not_mem_nil, or_false] at hq
    rcases hq with rfl | rfl <;> exact .inl always0
  · intro k v hk hv
    have h1 := hk (w, g0, fV) (by simp)
    have h2 := hk (w, g0, fN) (by simp)
    have hm : (k, v) ∈ [(fV.key, p), (fN.key, q)] := mem_of_get? hv
    simp only [List.mem_cons, Prod.mk.injEq, List.not_mem_nil, or_false] at hm
    rcases hm with ⟨rfl, -⟩ | ⟨rfl, -⟩
    · exact absurd rfl h1
    · exact absurd rfl h2

theorem kept_node (w : Nat) : Kept env w (.cls 2) := by
  intro w' t' h
  rcases partOf_node h (.inl rfl) with rfl | rfl | rfl
  · exact ⟨_, current_node _, by show [fV.key, fN.key].Nodup; decide⟩
  · exact prepared_node _ _ _
  · trivial

theorem bases_smaller : ∀ c ci, env.cls c = some ci → ∀ b ∈ ci.bin.bases, id b < id c := by
  intro c ci h b hb
  match c, h with
  | 0, h => cases h; cases hb
  | 1, h =>
    cases h
    simp only [derived, List.mem_cons, List.not_mem_nil, or_false] at hb
    subst hb
    decide
  | 2, h => cases h; cases hb

theorem withoutShared_derived : WithoutShared env (.cls 1) := by
  intro w' t' h
  cases h with
  | member hQ hq h =>
    cases current_eq hQ current_derived
    simp only [List.mem_cons, List.not_mem_nil, or_false] at hq
    rcases hq with rfl | rfl | rfl
    · cases h
    · cases h with
      | mapKey h => cases h
      | mapVal h => cases h
    · cases h with
      | vec h => cases h

/-- any object of class `Derived` which has been read into a new object, possibly from a stream of version 0 or 1 (without the
member `s`) -/
example (n : Nat) (inp : Str) (v : Val) (version : Nat) (rs : RSt)
    (h : restoreFromBinary env n 1 (env.defInit (.cls 1)) inp = .ok (v, version) rs) (hl : rs.heap.length ≤ 2 ^ 64)
    (hv : v.Countable) (hx : ∀ x ∈ rs.heap, x.Countable) :
    ∃ m ws, toBinary env rs.asHeap m 1 v 0 = .ok () ws ∧
      ∀ rest, ∃ rs', restoreFromBinary env m 1 (env.defInit (.cls 1)) (ws.out ++ rest) = .ok (v, 3) rs' ∧ rs'.inp = rest := by
  obtain ⟨m, ws, h1, h2⟩ := C67_restore_reload env id bases_smaller (orderedKeys env rfl) demo_iterPerm 1 derived rfl kept_derived
    (env.defInit (.cls 1)) (prepared_derived _) n inp v version rs h hl hv hx
  refine ⟨m, ws, h1, fun rest => ?_⟩
  obtain ⟨ρ, v', rs', h3, h4, -, h5⟩ := h2 rest
  rw [h5 withoutShared_derived] at h3
  exact ⟨rs', h3, h4⟩

/-- any object of the recursive class `Node` which has been read -/
example (n : Nat) (inp : Str) (v : Val) (rs : RSt) (h : fromBinary env n 2 inp = .ok v rs) (hl : rs.heap.length ≤ 2 ^ 64)
    (hv : v.Countable) (hx : ∀ x ∈ rs.heap, x.Countable) :
    ∃ m ws, toBinary env rs.asHeap m 2 v 0 = .ok () ws ∧ ∀ rest, ∃ ρ v' rs', fromBinary env m 2 (ws.out ++ rest) = .ok v' rs' ∧
      rs'.inp = rest ∧ GraphCopy rs.asHeap v rs'.asHeap v' ρ :=
  C67_binary_reload env id bases_smaller (orderedKeys env rfl) demo_iterPerm 2 (kept_node 0) (prepared_node 0 _ _) n inp v rs h hl hv hx

/-- what is written after having read the input, and whether the object is completely initialised -/
def resave (E : Env) (c : ClassId) (inp : Str) : Option (Bool × Option Str) :=
  match fromBinary E 9 c inp with
  | .ok v rs => some (v.hasIndet, match toBinary E rs.asHeap 9 c v 0 with
    | .ok _ ws => some ws.out
    | _ => none)
  | _ => none

/-- A stream of version 1 (i.e. without the member `s`) with a length which takes more bytes than necessary and duplicate keys: what
is written is different - it is of the current version and has a minimal length and one entry - but is preserved by loading and
saving from then on. -/
example : resave env 1 [0, 0, 1, 2, 0x40, 2, 0x81, 0x6b, 0, 0, 0, 5, 0x81, 0x6b, 0, 0, 0, 6, 0x81] =
      some (false, some [0, 0, 1, 2, 0x81, 0x81, 0x6b, 0, 0, 0, 5, 0x83, 0x80]) ∧
    resave env 1 [0, 0, 1, 2, 0x81, 0x81, 0x6b, 0, 0, 0, 5, 0x83, 0x80] =
      some (false, some [0, 0, 1, 2, 0x81, 0x81, 0x6b, 0, 0, 0, 5, 0x83, 0x80]) := by decide +kernel

/-- Limit: a member which does not belong to the current version anymore (here: `i` until version 1, the current one being 3) ... -/
def retired : Env := { env with
  cls := fun c => if c = 0 then (some { base with bin := ⟨[], some 3, [(⟨0, 1⟩, fI), (g0, fM)], [(⟨0, 1⟩, fI), (g0, fM)], true⟩ }) else none }

/-- ... is read from an old stream (42) but lost when the object is saved, -/
example : resave retired 0 [0x81, 0, 0, 0, 42, 0x80] = some (false, some [0x83, 0x80]) := by decide +kernel
/-- and uninitialised after loading it again. -/
example : resave retired 0 [0x83, 0x80] = some (true, some [0x83, 0x80]) := by decide +kernel

/-- Limit: a new member (`i` as of version 2) which is not initialised by the constructor ... -/
def added : Env := { env with
  cls := fun c => if c = 0 then (some { base with bin := ⟨[], some 3, [(⟨2, 0⟩, fI), (g0, fM)], [(⟨2, 0⟩, fI), (g0, fM)], true⟩ }) else none }

/-- ... is not initialised after reading an old stream; writing the object is undefined behaviour then. -/
example : fromBinary added 9 0 [0x81, 0x80] = .ok (.obj [(fI.key, .indet), (fM.key, .map [])]) ⟨[], [], []⟩ ∧
    toBinary added (fun _ => none) 9 0 (.obj [(fI.key, .indet), (fM.key, .map [])]) 0 = .ub := ⟨rfl, rfl⟩

end BinReloadDemo

end Verif
