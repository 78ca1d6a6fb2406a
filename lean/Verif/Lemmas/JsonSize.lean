import Verif.Lemmas.BinSize
import Verif.Spec.JsonCost
import Verif.Lemmas.PushInv

/-!
# Lemmas: size of JSON documents
-/

namespace Verif

theorem volumeL_append (a b : List Json) : Json.volumeL (a ++ b) = Json.volumeL a + Json.volumeL b := by
  induction a with
  | nil => simp [Json.volumeL]
  | cons j a ih => simp only [List.cons_append, Json.volumeL, ih]; omega

theorem volumeM_append (a b : List (Key × Json)) : Json.volumeM (a ++ b) = Json.volumeM a + Json.volumeM b := by
  induction a with
  | nil => simp [Json.volumeM]
  | cons j a ih => obtain ⟨k, j⟩ := j; simp only [List.cons_append, Json.volumeM, ih]; omega

theorem volume_append (name : Str) (j : Json) (ms : List (Key × Json)) :
    Json.volumeM (appendToMember name j ms) ≤ Json.volumeM ms + j.volume := by
  induction ms with
  | nil => simp [appendToMember, Json.volumeM]
  | cons m ms ih =>
    obtain ⟨k, j'⟩ := m
    simp only [appendToMember]
    split
    · split
      · simp only [Json.volumeM, Json.volume, volumeL_append, Json.volumeL]
        omega
      · simp only [Json.volumeM]
        omega
    · simp only [Json.volumeM]
      omega

theorem volume_addToGroup (name : Str) (j : Json) (ms : List (Key × Json)) :
    Json.volumeM (addToGroup name j ms) ≤ Json.volumeM ms + (name.length + 2 + j.volume) := by
  unfold addToGroup
  split
  · have := volume_append name j ms
    omega
  · simp only [volumeM_append, Json.volumeM, Json.volume, Json.volumeL]
    omega

theorem rjString_length (s : Str) : (rjString s).length ≤ s.length := by
  unfold rjString
  rw [List.length_take]
  omega

theorem cstrOf_length (s : Str) : (cstrOf s).length ≤ s.length := by
  unfold cstrOf
  exact (List.takeWhile_prefix _).length_le

theorem rjStrRef_length (s : Str) : (rjStrRef s).length ≤ s.length := by
  unfold rjStrRef
  rw [List.length_take]
  have := cstrOf_length s
  omega

section
variable {E : Env} {H : Heap} {K : Nat} {B : Nat → Nat} {self : Ty → Val → SM Json}

theorem jsize_elems {t : Ty} {vs : List Val} (hs : ∀ v ∈ vs, ∀ j, self t v () = .ok j () → j.volume ≤ v.footprint K B) {js : List Json}
    (h : pushElems self t vs () = .ok js ()) : Json.volumeL js ≤ Val.footprintL K B vs := by
  induction vs generalizing js with
  | nil => cases h; exact Nat.le_refl _
  | cons v vs ih =>
    obtain ⟨j, _, h1, h⟩ := M.bind_eq_ok.1 h
    obtain ⟨js', _, h2, h⟩ := M.bind_eq_ok.1 h
    cases h
    have := hs v List.mem_cons_self j h1
    have := ih (fun v hv => hs v (List.mem_cons_of_mem _ hv)) h2
    simp only [Json.volumeL, Val.footprintL]
    omega

theorem jsize_tuple {ts : List Ty} {vs : List Val} (hs : ∀ t, ∀ v ∈ vs, ∀ j, self t v () = .ok j () → j.volume ≤ v.footprint K B) {js : List Json}
    (h : pushTuple self ts vs () = .ok js ()) : Json.volumeL js ≤ Val.footprintL K B vs := by
  induction vs generalizing ts js with
  | nil =>
    cases ts with
    | nil => cases h; exact Nat.le_refl _
    | cons t ts => cases h
  | cons v vs ih =>
    cases ts with
    | nil => cases h
    | cons t ts =>
      obtain ⟨j, _, h1, h⟩ := M.bind_eq_ok.1 h
      obtain ⟨js', _, h2, h⟩ := M.bind_eq_ok.1 h
      cases h
      have := hs t v List.mem_cons_self j h1
      have := ih (fun t v hv => hs t v (List.mem_cons_of_mem _ hv)) h2
      simp only [Json.volumeL, Val.footprintL]
      omega

theorem jsize_map (hK : 2 ≤ K) {t : Ty} {kvs : List (Val × Val)} (hs : ∀ q ∈ kvs, ∀ j, self t q.2 () = .ok j () → j.volume ≤ q.2.footprint K B)
    {ms : List (Key × Json)} (h : pushMapEntries self t kvs () = .ok ms ()) : Json.volumeM ms ≤ Val.footprintKV K B kvs := by
  induction kvs generalizing ms with
  | nil => cases h; exact Nat.le_refl _
  | cons q kvs ih =>
    obtain ⟨k, v⟩ := q
    cases k with
    | str k =>
      obtain ⟨j, _, h1, h⟩ := M.bind_eq_ok.1 h
      obtain ⟨js', _, h2, h⟩ := M.bind_eq_ok.1 h
      cases h
      have : j.volume ≤ v.footprint K B := hs (.str k, v) List.mem_cons_self j h1
      have := ih (fun v hv => hs v (List.mem_cons_of_mem _ hv)) h2
      have := rjStrRef_length k
      simp only [Json.volumeM, Val.footprintKV, Val.footprint]
      omega
    | _ => cases h

theorem jsize_multimap (hK : 2 ≤ K) {t : Ty} {kvs : List (Val × Val)} (hs : ∀ q ∈ kvs, ∀ j, self t q.2 () = .ok j () → j.volume ≤ q.2.footprint K B)
    {ms0 ms : List (Key × Json)} (h : pushMultimapEntries self t kvs ms0 () = .ok ms ()) :
    Json.volumeM ms ≤ Json.volumeM ms0 + Val.footprintKV K B kvs := by
  induction kvs generalizing ms0 ms with
  | nil => cases h; exact Nat.le_refl _
  | cons q kvs ih =>
    obtain ⟨k, v⟩ := q
    cases k with
    | str k =>
      obtain ⟨j, _, h1, h⟩ := M.bind_eq_ok.1 h
      have : j.volume ≤ v.footprint K B := hs (.str k, v) List.mem_cons_self j h1
      have := ih (fun v hv => hs v (List.mem_cons_of_mem _ hv)) h
      have := volume_addToGroup (rjString k) j ms0
      have := rjString_length k
      simp only [Val.footprintKV, Val.footprint]
      omega
    | _ => cases h

theorem namesSize_append (a b : List Field) : namesSize (a ++ b) = namesSize a + namesSize b := by
  induction a with
  | nil => simp [namesSize]
  | cons j a ih => simp only [List.cons_append, namesSize, ih]; omega

theorem jsize_fields {fs : List Field} {st : Store} (hs : ∀ t k v, st.get? k = some v → ∀ j, self t v () = .ok j () → j.volume ≤ v.footprint K B)
    {ms : List (Key × Json)} (h : pushFields self fs st () = .ok ms ()) :
    Json.volumeM ms ≤ namesSize fs + membersSize K B st (fs.map Field.key) := by
  induction fs generalizing ms with
  | nil => cases h; exact Nat.le_refl _
  | cons f fs ih =>
    simp only [pushFields] at h
    cases hv : st.get? f.key with
    | none => rw [hv] at h; cases h
    | some v =>
      rw [hv] at h
      obtain ⟨j, _, h1, h⟩ := M.bind_eq_ok.1 h
      obtain ⟨ms', _, h2, h⟩ := M.bind_eq_ok.1 h
      cases h
      have := hs _ _ v hv j h1
      have := ih h2
      simp only [Json.volumeM, List.map_cons, namesSize, membersSize, hv]
      omega

theorem jsize_bases {cs : List ClassId} {fs : List Field} {st : Store} (hm : PushedMembers E cs fs)
    (hs : ∀ c fs, PushedMembers E [c] fs → ∀ ms, self (.cls c) (.obj st) () = .ok (.obj ms) () →
      Json.volumeM ms ≤ namesSize fs + membersSize K B st (fs.map Field.key))
    {ms : List (Key × Json)} (h : pushBases self cs (.obj st) () = .ok ms ()) :
    Json.volumeM ms ≤ namesSize fs + membersSize K B st (fs.map Field.key) := by
  induction hm generalizing ms with
  | nil => cases h; exact Nat.le_refl _
  | @cons c ci cs fs1 fs2 hc h1 h2 ih1 ih2 =>
    have hone : PushedMembers E [c] (fs1 ++ ci.json.pushFields ++ []) := .cons hc h1 .nil
    obtain ⟨j, _, e1, h⟩ := M.bind_eq_ok.1 h
    cases j with
    | obj ms1 =>
      obtain ⟨ms2, _, e2, h⟩ := M.bind_eq_ok.1 h
      cases h
      have h1 := hs c _ hone ms1 e1
      have h2 := ih2 e2
      simp only [volumeM_append, namesSize_append, namesSize, List.map_append, List.map_nil, membersSize_append, membersSize] at h1 h2 ⊢
      omega
    | _ => cases h

/-- The size of the document is bounded by the size of the value, shared objects counting wherever they are referred to. -/
theorem push_size (hW : PushesOnce E K) (hit : ∀ vs, (E.iter vs).Perm vs) (hitkv : ∀ kvs, (E.iterKV kvs).Perm kvs)
    {P : Nat → Prop} (hB : ∀ a, P a → ∀ x, H a = some x → x.footprint K B ≤ B a ∧ ∀ b ∈ x.refs, P b) (n : Nat) :
    (∀ t v, (∀ a ∈ v.refs, P a) → ∀ j, push E H n t v () = .ok j () → j.volume ≤ v.footprint K B) ∧
    (∀ c st fs, (∀ a ∈ (Val.obj st).refs, P a) → PushedMembers E [c] fs → ∀ ms, push E H n (.cls c) (.obj st) () = .ok (.obj ms) () →
      Json.volumeM ms ≤ namesSize fs + membersSize K B st (fs.map Field.key)) := by
  obtain ⟨hW, hK, hdt, hts⟩ := hW
  induction n with
  | zero => exact ⟨fun _ _ _ _ h => (by cases h), fun _ _ _ _ _ _ h => by cases h⟩
  | succ n ih =>
    obtain ⟨ih1, ih2⟩ := ih
    have hcls : ∀ c st fs, (∀ a ∈ (Val.obj st).refs, P a) → PushedMembers E [c] fs → ∀ j, push E H (n + 1) (.cls c) (.obj st) () = .ok j () →
        j.volume ≤ 1 + namesSize fs + membersSize K B st (fs.map Field.key) := by
      intro c st fs hr hm j h
      cases hm with
      | @cons _ ci _ fs1 fs2 hc h1 h2 =>
      cases h2
      change (match E.cls c with
        | none => M.stuck
        | some ci => do
          let ms ← pushBases (push E H n) ci.json.bases (.obj st)
          let ms' ← pushFields (push E H n) ci.json.pushFields st
          pure (.obj (ms ++ ms')) : SM Json) () = _ at h
      rw [hc] at h
      obtain ⟨ms1, _, e1, h⟩ := M.bind_eq_ok.1 h
      obtain ⟨ms2, _, e2, h⟩ := M.bind_eq_ok.1 h
      cases h
      have a1 := jsize_bases h1 (fun c fs hm ms e => ih2 c st fs hr hm ms e) e1
      have a2 := jsize_fields (K := K) (B := B) (fun t k v hv j e => ih1 t v (fun a ha => hr a (refs_get? hv ha)) j e) e2
      simp only [Json.volume, volumeM_append, namesSize_append, namesSize, List.map_append, List.map_nil, membersSize_append, membersSize]
      omega
    refine ⟨fun t v hr j h => ?_, fun c st fs hr hm ms h => ?_⟩
    · by_cases hcl : ∃ c st, t = .cls c ∧ v = .obj st
      · obtain ⟨c, st, rfl, rfl⟩ := hcl
        cases hc : E.cls c with
        | none =>
          change (match E.cls c with
            | none => M.stuck
            | some ci => do
              let ms ← pushBases (push E H n) ci.json.bases (.obj st)
              let ms' ← pushFields (push E H n) ci.json.pushFields st
              pure (.obj (ms ++ ms')) : SM Json) () = _ at h
          rw [hc] at h
          cases h
        | some ci =>
          obtain ⟨fs, hm, hnd, hK'⟩ := hW c ci hc
          have h1 := hcls c st fs hr hm j h
          have h2 := membersSize_le K B st _ hnd
          simp only [Val.footprint]
          omega
      · change pushStep E H (push E H n) t v () = _ at h
        unfold pushStep at h
        split at h
        case h_1 => cases h
        all_goals try (cases h; simp only [Json.volume, Val.footprint]; omega)
        · cases h
          rename_i s
          have := rjStrRef_length s
          simp only [Json.volume, Val.footprint]
          omega
        · cases h
          rename_i s
          have := rjString_length s
          simp only [Json.volume, Val.footprint]
          omega
        · cases h
          rename_i s
          have := rjString_length s
          simp only [Json.volume, Val.footprint]
          omega
        · obtain ⟨js, _, h1, h⟩ := M.bind_eq_ok.1 h
          cases h
          have := jsize_elems (fun v hv j e => ih1 _ v (fun a ha => hr a (refsL_mem hv ha)) j e) h1
          simp only [Json.volume, Val.footprint]
          omega
        · rename_i hashed _ t' vs
          have hp : (E.order hashed vs).Perm vs := by
            unfold Env.order
            split
            · exact hit vs
            · exact .refl _
          obtain ⟨js, _, h1, h⟩ := M.bind_eq_ok.1 h
          cases h
          have := jsize_elems (fun v hv j e => ih1 _ v (fun a ha => hr a (refsL_mem (hp.mem_iff.1 hv) ha)) j e) h1
          rw [footprintL_perm K _ hp] at this
          simp only [Json.volume, Val.footprint]
          omega
        · rename_i hashed t' kvs
          have hp : (E.orderKV hashed kvs).Perm kvs := by
            unfold Env.orderKV
            split
            · exact hitkv kvs
            · exact .refl _
          obtain ⟨js, _, h1, h⟩ := M.bind_eq_ok.1 h
          cases h
          have := jsize_map (by omega) (fun q hq j e => ih1 _ q.2 (fun a ha => hr a (refsKV_mem (hp.mem_iff.1 hq) (.inr ha))) j e) h1
          rw [footprintKV_perm K _ hp] at this
          simp only [Json.volume, Val.footprint]
          omega
        · rename_i hashed t' kvs
          have hp : (E.orderKV hashed kvs).Perm kvs := by
            unfold Env.orderKV
            split
            · exact hitkv kvs
            · exact .refl _
          obtain ⟨js, _, h1, h⟩ := M.bind_eq_ok.1 h
          cases h
          have := jsize_multimap (by omega) (fun q hq j e => ih1 _ q.2 (fun a ha => hr a (refsKV_mem (hp.mem_iff.1 hq) (.inr ha))) j e) h1
          rw [footprintKV_perm K _ hp] at this
          simp only [Json.volume, Val.footprint, Json.volumeM] at this ⊢
          omega
        · obtain ⟨js, _, h1, h⟩ := M.bind_eq_ok.1 h
          cases h
          have := jsize_tuple (fun t v hv j e => ih1 t v (fun a ha => hr a (refsL_mem hv ha)) j e) h1
          simp only [Json.volume, Val.footprint]
          omega
        · obtain ⟨js, _, h1, h⟩ := M.bind_eq_ok.1 h
          cases h
          have := jsize_tuple (fun t v hv j e => ih1 t v (fun a ha => hr a (refsL_mem hv ha)) j e) h1
          simp only [Json.volume, Val.footprint]
          omega
        · rename_i v'
          have := ih1 _ v' hr j h
          simp only [Val.footprint]
          omega
        · rename_i v'
          have := ih1 _ v' hr j h
          simp only [Val.footprint]
          omega
        · rename_i v'
          have := ih1 _ v' hr j h
          simp only [Val.footprint]
          omega
        · rename_i t' a
          cases hx : H a with
          | none => rw [hx] at h; cases h
          | some x =>
            rw [hx] at h
            obtain ⟨h1, h2⟩ := hB a (hr a (by simp [Val.refs])) x hx
            have := ih1 _ x h2 j h
            simp only [Val.footprint]
            omega
        · rename_i t' a
          cases hx : H a with
          | none => rw [hx] at h; cases h
          | some x =>
            rw [hx] at h
            obtain ⟨h1, h2⟩ := hB a (hr a (by simp [Val.refs])) x hx
            have := ih1 _ x h2 j h
            simp only [Val.footprint]
            omega
        · rename_i ts i v'
          have hl : (lit "index").length = 5 ∧ (lit "data").length = 4 := by decide +kernel
          cases hi : ts[i]? with
          | none => rw [hi] at h; cases h
          | some t' =>
          rw [hi] at h
          by_cases hm : t' = .mono
          · subst hm
            cases h
            simp only [Json.volume, Json.volumeM, Val.footprint, hl.1, hl.2]
            omega
          · have h : (do
                let j ← push E H n t' v'
                pure (.obj [(⟨lit "index", .literal⟩, .num (.int i)), (⟨lit "data", .literal⟩, j)]) : SM Json) () = .ok j () := by
              cases t' <;> first | exact absurd rfl hm | exact h
            obtain ⟨j', _, h1, h⟩ := M.bind_eq_ok.1 h
            cases h
            have := ih1 _ v' hr j' h1
            simp only [Json.volume, Json.volumeM, Val.footprint, hl.1, hl.2]
            omega
        · rename_i c st
          exact absurd ⟨c, st, rfl, rfl⟩ hcl
        · rename_i i
          cases h
          have := hdt i
          have := rjString_length (E.dtPrint i)
          simp only [Json.volume, Val.footprint]
          omega
        · rename_i i
          cases h
          have := hts i
          have := rjString_length (E.tsPrint i)
          simp only [Json.volume, Val.footprint]
          omega
        · cases h
    · have := hcls c st fs hr hm _ h
      simp only [Json.volume] at this
      omega

end

end Verif
