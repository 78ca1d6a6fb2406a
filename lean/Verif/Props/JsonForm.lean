import Verif.Spec.JsonForm
import Verif.Props.JsonMaps
import Verif.Props.JsonApi

/-!
# C57: the serialised form
-/

namespace Verif

variable {E : Env} {H : Heap}

theorem forall₂_iff_idx {α β : Type} {P : α → β → Prop} {l : List α} {l' : List β} :
    List.Forall₂ P l l' ↔ l.length = l'.length ∧ ∀ (i : Nat) a b, l[i]? = some a → l'[i]? = some b → P a b := by
  induction l generalizing l' with
  | nil =>
    cases l' with
    | nil => simp
    | cons b l' => simp
  | cons a l ih =>
    cases l' with
    | nil => simp
    | cons b l' =>
      rw [List.forall₂_cons, ih]
      constructor
      · rintro ⟨h1, h2, h3⟩
        refine ⟨by simp [h2], fun i x y hx hy => ?_⟩
        cases i with
        | zero => cases hx; cases hy; exact h1
        | succ i => exact h3 i x y hx hy
      · rintro ⟨h1, h2⟩
        exact ⟨h2 0 a b rfl rfl, by simpa using h1, fun i x y hx hy => h2 (i + 1) x y hx hy⟩

theorem rjString_clamped (s : Str) : rjString s = clamped s := by
  unfold rjString rapidJsonSize clamped
  split
  · rfl
  · rw [List.take_of_length_le (Nat.le_refl _), List.take_of_length_le (by omega)]

theorem cStringText_iff {s r : Str} : CStringText s r ↔ r = rjStrRef s := by
  constructor
  · rintro ⟨q, h, rfl⟩
    rw [cut_unique h (cstrOf_cut s)]; rfl
  · rintro rfl; exact ⟨_, cstrOf_cut s, rfl⟩

/-! ### grouping -/

theorem findMember_names {name : Str} {ms : List (Key × Json)} :
    findMember name ms = none ↔ name ∉ ms.map fun m => m.1.bytes := by
  induction ms with
  | nil => simp [findMember]
  | cons m ms ih =>
    simp only [findMember, List.map_cons, List.mem_cons]
    by_cases h : m.1.bytes = name
    · simp [h]
    · rw [if_neg h, ih]
      constructor
      · rintro h1 (h2 | h2)
        · exact h h2.symm
        · exact h1 h2
      · intro h1 h2; exact h1 (.inr h2)

theorem findMember_mem' {name : Str} {ms : List (Key × Json)} {j : Json} (h : findMember name ms = some j) :
    ∃ k, (k, j) ∈ ms ∧ k.bytes = name := by
  induction ms with
  | nil => cases h
  | cons m ms ih =>
    simp only [findMember] at h
    by_cases hm : m.1.bytes = name
    · rw [if_pos hm] at h; cases h; exact ⟨m.1, List.mem_cons_self, hm⟩
    · rw [if_neg hm] at h; obtain ⟨k, hk, hb⟩ := ih h; exact ⟨k, List.mem_cons_of_mem _ hk, hb⟩

theorem appendToMember_names (name : Str) (j : Json) (ms : List (Key × Json)) :
    ((appendToMember name j ms).map fun m => m.1) = ms.map fun m => m.1 := by
  induction ms with
  | nil => rfl
  | cons m ms ih =>
    simp only [appendToMember]
    split
    · split <;> rfl
    · simp [ih]

theorem appendToMember_mem {name : Str} {j : Json} {ms : List (Key × Json)} (hn : (ms.map fun m => m.1.bytes).Nodup)
    {m : Key × Json} (h : m ∈ appendToMember name j ms) :
    (m.1.bytes ≠ name ∧ m ∈ ms) ∨ (m.1.bytes = name ∧ ∃ j', (m.1, j') ∈ ms ∧
      m.2 = match j' with | .arr js => .arr (js ++ [j]) | j' => j') := by
  induction ms with
  | nil => cases h
  | cons p ms ih =>
    simp only [List.map_cons, List.nodup_cons] at hn
    simp only [appendToMember] at h
    by_cases hp : p.1.bytes = name
    · rw [if_pos hp] at h
      have key : ∀ p', p'.1 = p.1 → (p'.2 = match p.2 with | .arr js => .arr (js ++ [j]) | j' => j') → m ∈ p' :: ms →
          (m.1.bytes ≠ name ∧ m ∈ p :: ms) ∨ (m.1.bytes = name ∧ ∃ j', (m.1, j') ∈ p :: ms ∧
            m.2 = match j' with | .arr js => .arr (js ++ [j]) | j' => j') := by
        intro p' h1 h2 h3
        rcases List.mem_cons.1 h3 with rfl | h3
        · right
          refine ⟨by rw [h1, hp], p.2, ?_, h2⟩
          rw [h1]; exact List.mem_cons_self
        · left
          refine ⟨fun he => hn.1 ?_, List.mem_cons_of_mem _ h3⟩
          rw [hp, ← he]
          exact List.mem_map_of_mem (f := fun m : Key × Json => m.1.bytes) h3
      obtain ⟨k, j'⟩ := p
      cases j' with
      | arr js => exact key (k, .arr (js ++ [j])) rfl rfl h
      | null => exact key (k, .null) rfl rfl h
      | bool b => exact key (k, .bool b) rfl rfl h
      | num x => exact key (k, .num x) rfl rfl h
      | str x => exact key (k, .str x) rfl rfl h
      | obj x => exact key (k, .obj x) rfl rfl h
    · rw [if_neg hp] at h
      rcases List.mem_cons.1 h with rfl | h
      · exact .inl ⟨hp, List.mem_cons_self⟩
      · rcases ih hn.2 h with ⟨h1, h2⟩ | ⟨h1, j', h2, h3⟩
        · exact .inl ⟨h1, List.mem_cons_of_mem _ h2⟩
        · exact .inr ⟨h1, j', List.mem_cons_of_mem _ h2, h3⟩

theorem nodup_eraseDups' (l : List Str) : l.eraseDups.Nodup := by
  generalize hn : l.length = n
  induction n using Nat.strongRecOn generalizing l with
  | ind n ih =>
    cases l with
    | nil => simp
    | cons a l =>
      rw [List.eraseDups_cons, List.nodup_cons]
      refine ⟨?_, ih _ ?_ _ rfl⟩
      · rw [List.mem_eraseDups]; simp
      · have := List.length_filter_le (fun b => !b == a) l
        simp only [List.length_cons] at hn
        omega

theorem Grouped.snoc {ps : List (Str × Json)} {ms : List (Key × Json)} (h : Grouped ps ms) (k : Str) (j : Json) :
    Grouped (ps ++ [(k, j)]) (addToGroup k j ms) := by
  have hnd : (ms.map fun m => m.1.bytes).Nodup := by rw [h.1]; exact nodup_eraseDups' _
  have hmem : ∀ x, x ∈ (ms.map fun m => m.1.bytes) ↔ x ∈ ps.map Prod.fst := by
    intro x; rw [h.1, List.mem_eraseDups]
  have hed : ((ps ++ [(k, j)]).map Prod.fst).eraseDups =
      if k ∈ ps.map Prod.fst then (ps.map Prod.fst).eraseDups else (ps.map Prod.fst).eraseDups ++ [k] := by
    rw [List.map_append, List.eraseDups_append]
    by_cases hk : k ∈ ps.map Prod.fst
    · rw [if_pos hk]
      simp only [List.map_cons, List.map_nil, List.removeAll]
      simp [hk]
    · rw [if_neg hk]
      simp only [List.map_cons, List.map_nil, List.removeAll]
      simp [hk, List.eraseDups_cons]
  have hadd : addToGroup k j ms = if k ∈ ps.map Prod.fst then appendToMember k j ms else ms ++ [(⟨k, .borrowed⟩, .arr [j])] := by
    unfold addToGroup
    by_cases hk : k ∈ ps.map Prod.fst
    · rw [if_pos hk]
      cases hf : findMember k ms with
      | none => exact absurd ((hmem k).2 hk) (findMember_names.1 hf)
      | some j' =>
        obtain ⟨k', hk', -⟩ := findMember_mem' hf
        have h2 := (h.2 _ hk').2
        simp only at h2
        rw [h2]
    · rw [if_neg hk, findMember_names.2 fun hx => hk ((hmem k).1 hx)]
  rw [hadd]
  refine ⟨?_, fun m hm => ?_⟩
  · rw [hed]
    split
    · rw [← h.1]
      have := congrArg (List.map Key.bytes) (appendToMember_names k j ms)
      simpa [List.map_map, Function.comp_def] using this
    · rw [List.map_append, h.1]; rfl
  · simp only [List.filterMap_append, List.filterMap_cons, List.filterMap_nil]
    split at hm
    · rcases appendToMember_mem hnd hm with ⟨h1, h2⟩ | ⟨h1, j', h2, h3⟩
      · rw [if_neg (Ne.symm h1)]
        simpa using h.2 _ h2
      · have h4 := h.2 _ h2
        rw [if_pos h1.symm]
        refine ⟨h4.1, ?_⟩
        have h5 := h4.2
        simp only at h5
        rw [h3, h5]
    · rename_i hk
      rcases List.mem_append.1 hm with hm | hm
      · have hm' := List.mem_map_of_mem (f := fun m : Key × Json => m.1.bytes) hm
        have : k ≠ m.1.bytes := fun he => hk ((hmem _).1 (he ▸ hm'))
        rw [if_neg this]
        simpa using h.2 _ hm
      · rw [List.mem_singleton.1 hm]
        refine ⟨rfl, ?_⟩
        rw [if_pos rfl]
        have : ps.filterMap (fun p => if p.1 = k then some p.2 else none) = [] := by
          rw [List.filterMap_eq_nil_iff]
          intro p hp
          rw [if_neg]
          rintro rfl
          exact hk (List.mem_map_of_mem hp)
        simp [this]

theorem Grouped.unique {ps : List (Str × Json)} {ms ms' : List (Key × Json)} (h : Grouped ps ms) (h' : Grouped ps ms') :
    ms = ms' := by
  have key : ∀ ms : List (Key × Json), Grouped ps ms → ms = ((ps.map Prod.fst).eraseDups.map fun n =>
      ((⟨n, .borrowed⟩ : Key), Json.arr (ps.filterMap fun p => if p.1 = n then some p.2 else none))) := by
    intro ms h
    rw [← h.1, List.map_map]
    symm
    conv_rhs => rw [← List.map_id ms]
    refine List.map_congr_left fun m hm => ?_
    obtain ⟨h1, h2⟩ := h.2 m hm
    obtain ⟨⟨b, s⟩, j⟩ := m
    simp only at h1 h2
    rw [Function.comp_apply, h2, h1]; rfl
  rw [key ms h, key ms' h']

theorem grouped_foldl (ps : List (Str × Json)) : Grouped ps (ps.foldl (fun ms p => addToGroup p.1 p.2 ms) []) := by
  have key : ∀ ps ps0 ms, Grouped ps0 ms → Grouped (ps0 ++ ps) (ps.foldl (fun ms p => addToGroup p.1 p.2 ms) ms) := by
    intro ps
    induction ps with
    | nil => intro ps0 ms h; simpa using h
    | cons p ps ih =>
      intro ps0 ms h
      have := ih _ _ (h.snoc p.1 p.2)
      simpa using this
  simpa using key ps [] [] ⟨rfl, by simp⟩

/-! ### serialisation yields exactly the specified document -/

theorem forall₂_append_left {α β : Type} {P : α → β → Prop} {a b : List α} {l : List β} (h : List.Forall₂ P (a ++ b) l) :
    ∃ l1 l2, l = l1 ++ l2 ∧ List.Forall₂ P a l1 ∧ List.Forall₂ P b l2 := by
  induction a generalizing l with
  | nil => exact ⟨[], l, rfl, .nil, h⟩
  | cons x a ih =>
    cases h with
    | cons h1 h2 =>
      obtain ⟨l1, l2, rfl, h3, h4⟩ := ih h2
      exact ⟨_ :: l1, l2, rfl, .cons h1 h3, h4⟩

/-- a common budget -/
theorem forall₂_common {α β : Type} {P : Nat → α → β → Prop} (hP : ∀ n m a b, n ≤ m → P n a b → P m a b) {l : List α} {l' : List β}
    (h : List.Forall₂ (fun a b => ∃ n, P n a b) l l') : ∃ n, List.Forall₂ (P n) l l' := by
  induction h with
  | nil => exact ⟨0, .nil⟩
  | cons h1 _ ih =>
    obtain ⟨n, hn⟩ := h1
    obtain ⟨m, hm⟩ := ih
    exact ⟨max n m, .cons (hP _ _ _ _ (Nat.le_max_left _ _) hn) (hm.imp fun a b h => hP _ _ _ _ (Nat.le_max_right _ _) h)⟩

theorem denotes_cls_iff {c : ClassId} {st : Store} {j : Json} : Denotes E H (.cls c) (.obj st) j ↔
    ∃ fs ms, j = .obj ms ∧ FlatFields E [c] fs ∧ List.Forall₂ (fun (f : Field) (m : Key × Json) => m.1 = ⟨f.name, .literal⟩ ∧
      ∃ v, st.get? f.key = some v ∧ Denotes E H f.ty v m.2) fs ms := by
  constructor
  · intro h
    cases h with
    | cls w h1 h2 h3 h4 =>
      refine ⟨_, _, rfl, h1, forall₂_iff_idx.2 ⟨h2, fun i f m hf hm => ⟨(h3 i f m hf hm).1, w f, (h3 i f m hf hm).2, h4 i f m hf hm⟩⟩⟩
  · rintro ⟨fs, ms, rfl, h1, h2⟩
    obtain ⟨h2, h3⟩ := forall₂_iff_idx.1 h2
    refine .cls (fun f => (st.get? f.key).getD .null) h1 h2 (fun i f m hf hm => ?_) (fun i f m hf hm => ?_)
    · obtain ⟨h4, v, h5, h6⟩ := h3 i f m hf hm
      exact ⟨h4, by rw [h5]; rfl⟩
    · obtain ⟨h4, v, h5, h6⟩ := h3 i f m hf hm
      simp only [h5, Option.getD_some]
      exact h6

theorem flat_bases {st : Store} {cs : List ClassId} {mss : List (List (Key × Json))}
    (h : List.Forall₂ (fun c ms => Denotes E H (.cls c) (.obj st) (.obj ms)) cs mss) :
    ∃ fs, FlatFields E cs fs ∧ List.Forall₂ (fun (f : Field) (m : Key × Json) => m.1 = ⟨f.name, .literal⟩ ∧
      ∃ v, st.get? f.key = some v ∧ Denotes E H f.ty v m.2) fs mss.flatten := by
  induction h with
  | nil => exact ⟨[], .nil, .nil⟩
  | cons h1 _ ih =>
    obtain ⟨fs, i1, i2⟩ := ih
    obtain ⟨fs', ms, f2, f1, f3⟩ := denotes_cls_iff.1 h1
    cases f2
    refine ⟨fs' ++ fs, ?_, List.rel_append f3 i2⟩
    cases f1 with
    | cons a b c' =>
      cases c'
      rw [List.append_nil]
      exact .cons a b i1

theorem denotes_of_push (n : Nat) : ∀ (t : Ty) (v : Val) (j : Json), push E H n t v () = .ok j () → Denotes E H t v j := by
  induction n with
  | zero => intro t v j h; cases h
  | succ n ih =>
    intro t v j h
    change pushStep E H (push E H n) t v () = _ at h
    unfold pushStep at h
    split at h
    · cases h
    · cases h; exact .bool _
    · cases h; exact .int _ _ (by decide) (by decide) (by decide)
    · cases h; exact .int _ _ (by decide) (by decide) (by decide)
    · cases h; exact .int _ _ (by decide) (by decide) (by decide)
    · cases h; exact .int _ _ (by decide) (by decide) (by decide)
    · cases h; exact .int _ _ (by decide) (by decide) (by decide)
    · cases h; exact .int _ _ (by decide) (by decide) (by decide)
    · cases h; exact .f32 _
    · cases h; exact .f64 _
    · cases h; exact .enum _ _
    · cases h; exact .cstrNull
    · cases h; exact .cstr (cStringText_iff.2 rfl)
    · cases h; exact .sviewNull
    · cases h; rw [rjString_clamped]; exact .sview _
    · cases h; rw [rjString_clamped]; exact .str _
    · obtain ⟨js, h1, rfl⟩ := SM.map_ok_iff.1 h
      obtain ⟨h2, h3⟩ := forall₂_iff_idx.1 (pushElems_iff.1 h1)
      exact .vec h2 fun i v j hv hj => ih _ _ _ (h3 i v j hv hj)
    · obtain ⟨js, h1, rfl⟩ := SM.map_ok_iff.1 h
      obtain ⟨h2, h3⟩ := forall₂_iff_idx.1 (pushElems_iff.1 h1)
      exact .set rfl h2 fun i v j hv hj => ih _ _ _ (h3 i v j hv hj)
    · obtain ⟨ms, h1, rfl⟩ := SM.map_ok_iff.1 h
      obtain ⟨h2, h3⟩ := forall₂_iff_idx.1 (pushMapEntries_iff.1 h1)
      refine .map rfl h2 (fun i e m he hm => ?_) (fun i e m he hm => ?_)
      · obtain ⟨k, hk, hm', -⟩ := h3 i e m he hm
        exact ⟨k, hk, by rw [hm']; exact cStringText_iff.2 rfl, by rw [hm']⟩
      · obtain ⟨k, -, -, h⟩ := h3 i e m he hm
        exact ih _ _ _ h
    · obtain ⟨ms, h1, rfl⟩ := SM.map_ok_iff.1 h
      obtain ⟨js, h2, h3⟩ := pushMultimapEntries_iff.1 h1
      rename_i hashed t' kvs
      obtain ⟨h4, h5⟩ := forall₂_iff_idx.1 h2
      have hps : ((E.orderKV hashed kvs).zip js).foldl (fun ms p => addToGroup (rjString (strKey p.1.1)) p.2 ms) [] =
          (((E.orderKV hashed kvs).zip js).map fun p => (clamped (strKey p.1.1), p.2)).foldl (fun ms p => addToGroup p.1 p.2 ms) [] := by
        rw [List.foldl_map]
        simp only [rjString_clamped]
      rw [hps] at h3
      refine .multimap rfl ?_ ?_ ?_ (h3 ▸ grouped_foldl _)
      · simp [h4]
      · intro i e p he hp
        simp only [List.getElem?_map, Option.map_eq_some_iff, List.getElem?_zip_eq_some] at hp
        obtain ⟨⟨e', j'⟩, ⟨h6, h7⟩, rfl⟩ := hp
        rw [he] at h6
        obtain rfl := Option.some.inj h6
        obtain ⟨⟨k, hk⟩, -⟩ := h5 i e j' he h7
        exact ⟨k, hk, by simp only [hk, strKey]⟩
      · intro i e p he hp
        simp only [List.getElem?_map, Option.map_eq_some_iff, List.getElem?_zip_eq_some] at hp
        obtain ⟨⟨e', j'⟩, ⟨h6, h7⟩, rfl⟩ := hp
        rw [he] at h6
        obtain rfl := Option.some.inj h6
        exact ih _ _ _ (h5 i e j' he h7).2
    · obtain ⟨js, h1, rfl⟩ := SM.map_ok_iff.1 h
      obtain ⟨h2, h3⟩ := pushTuple_iff.1 h1
      rename_i vs
      match vs, h2 with
      | [v, w], _ =>
        cases h3 with
        | cons h4 h5 => cases h5 with
          | cons h5 h6 => cases h6; exact .pair (ih _ _ _ h4) (ih _ _ _ h5)
    · obtain ⟨js, h1, rfl⟩ := SM.map_ok_iff.1 h
      obtain ⟨h2, h3⟩ := pushTuple_iff.1 h1
      obtain ⟨h4, h5⟩ := forall₂_iff_idx.1 h3
      simp only [List.length_zip, h2, Nat.min_self] at h4
      refine .tuple h2.symm (by omega) fun i t v j ht hv hj => ?_
      exact ih _ _ _ (h5 i (t, v) j (List.getElem?_zip_eq_some.2 ⟨ht, hv⟩) hj)
    · cases h; exact .optNull _
    · cases h; exact .uptrNull _
    · cases h; exact .sptrNull _
    · exact .opt (ih _ _ _ h)
    · exact .uptr (ih _ _ _ h)
    · exact .sptr (ih _ _ _ h)
    · rename_i t' a
      cases h1 : H a with
      | none => rw [h1] at h; cases h
      | some v => rw [h1] at h; exact .uptrRef h1 (ih _ _ _ h)
    · rename_i t' a
      cases h1 : H a with
      | none => rw [h1] at h; cases h
      | some v => rw [h1] at h; exact .sptrRef h1 (ih _ _ _ h)
    · cases h; exact .valueless _
    · rename_i ts i v
      cases h1 : ts[i]? with
      | none => rw [h1] at h; cases h
      | some t' =>
        rw [h1] at h
        by_cases hm : t' = .mono
        · subst hm; cases h; exact .mono h1
        · have : (do let j ← push E H n t' v; (pure (Json.obj [(⟨lit "index", .literal⟩, .num (.int i)), (⟨lit "data", .literal⟩, j)]) : SM Json)) () =
              Res.ok j () := by
            cases t' <;> first | exact absurd rfl hm | exact h
          obtain ⟨j', h3, rfl⟩ := SM.map_ok_iff.1 this
          exact .variant h1 hm (ih _ _ _ h3)
    · rename_i c st
      cases hc : E.cls c with
      | none => rw [hc] at h; cases h
      | some ci =>
        rw [hc] at h
        obtain ⟨ms, h1, h2⟩ := SM.bind_ok_iff.1 h
        replace h1 := pushBases_iff.1 h1; obtain ⟨mss, h1, rfl⟩ := h1
        replace h2 := SM.map_ok_iff.1 h2; obtain ⟨ms', h2, rfl⟩ := h2
        obtain ⟨bs, hb1, hb2⟩ := flat_bases (h1.imp fun c ms h => ih _ _ _ h)
        refine denotes_cls_iff.2 ⟨bs ++ ci.json.pushFields ++ [], _, rfl, .cons hc hb1 .nil, ?_⟩
        rw [List.append_nil]
        refine List.rel_append hb2 ((pushFields_iff.1 h2).imp ?_)
        rintro f m ⟨hk, v, hv, hp⟩
        exact ⟨hk, v, hv, ih _ _ _ hp⟩
    · cases h; rw [rjString_clamped]; exact .dateTime _
    · cases h; rw [rjString_clamped]; exact .timeSpan _
    · cases h

/-! ### the converse -/

theorem flat_push {st : Store} {N : Nat} {cs : List ClassId} {fs : List Field} (hf : FlatFields E cs fs) :
    ∀ ms : List (Key × Json), List.Forall₂ (fun (f : Field) (m : Key × Json) => m.1 = ⟨f.name, .literal⟩ ∧ ∃ v, st.get? f.key = some v ∧
      push E H N f.ty v () = .ok m.2 ()) fs ms →
    ∃ n mss, List.Forall₂ (fun c ms => push E H n (.cls c) (.obj st) () = .ok (.obj ms) ()) cs mss ∧ ms = mss.flatten := by
  induction hf with
  | nil => intro ms h; cases h; exact ⟨0, [], .nil, rfl⟩
  | @cons c ci cs bs fs hc _ _ ih1 ih2 =>
    intro ms h
    obtain ⟨m12, m3, rfl, h1, h3⟩ := forall₂_append_left h
    obtain ⟨m1, m2, rfl, h1, h2⟩ := forall₂_append_left h1
    obtain ⟨n1, mss1, i1, rfl⟩ := ih1 _ h1
    obtain ⟨n2, mss2, i2, rfl⟩ := ih2 _ h3
    let K := max (max n1 n2) N
    have k1 : n1 ≤ K := by omega
    have k2 : n2 ≤ K := by omega
    have k3 : N ≤ K := by omega
    refine ⟨K + 1, (mss1.flatten ++ m2) :: mss2, .cons ?_ ?_, by simp⟩
    · have e1 : pushBases (push E H K) ci.json.bases (.obj st) () = .ok mss1.flatten () :=
        pushBases_iff.2 ⟨mss1, i1.imp fun c ms h => push_mono k1 h (by simp), rfl⟩
      have e2 : pushFields (push E H K) ci.json.pushFields st () = .ok m2 () :=
        pushFields_iff.2 (h2.imp fun f m h => ⟨h.1, h.2.imp fun v h => ⟨h.1, push_mono k3 h.2 (by simp)⟩⟩)
      change pushStep E H (push E H K) (.cls c) (.obj st) () = _
      simp only [pushStep, hc]
      exact SM.bind_ok_iff.2 ⟨_, e1, SM.map_ok_iff.2 ⟨_, e2, rfl⟩⟩
    · exact i2.imp fun c ms h => push_mono (Nat.le_succ_of_le k2) h (by simp)

theorem push_of_denotes {t : Ty} {v : Val} {j : Json} (h : Denotes E H t v j) : ∃ n, push E H n t v () = .ok j () := by
  have mono : ∀ (n m : Nat) (t : Ty) (v : Val) (j : Json), n ≤ m → push E H n t v () = .ok j () → push E H m t v () = .ok j () :=
    fun n m t v j hnm h => push_mono hnm h (by simp)
  induction h with
  | bool b => exact ⟨1, rfl⟩
  | int it i h1 h2 h3 => exact ⟨1, by cases it <;> first | rfl | exact absurd rfl h1 | exact absurd rfl h2 | exact absurd rfl h3⟩
  | f32 b => exact ⟨1, rfl⟩
  | f64 b => exact ⟨1, rfl⟩
  | enum u i => exact ⟨1, rfl⟩
  | str s => exact ⟨1, by rw [← rjString_clamped]; rfl⟩
  | cstrNull => exact ⟨1, rfl⟩
  | cstr h => exact ⟨1, by rw [cStringText_iff.1 h]; rfl⟩
  | sviewNull => exact ⟨1, rfl⟩
  | sview s => exact ⟨1, by rw [← rjString_clamped]; rfl⟩
  | dateTime i => exact ⟨1, by rw [← rjString_clamped]; rfl⟩
  | timeSpan i => exact ⟨1, by rw [← rjString_clamped]; rfl⟩
  | @vec t vs js h1 _ ih =>
    obtain ⟨n, hn⟩ := forall₂_common (P := fun n v j => push E H n t v () = .ok j ()) (fun n m v j => mono n m t v j)
      (forall₂_iff_idx.2 ⟨h1, ih⟩)
    exact ⟨n + 1, SM.map_ok_iff.2 ⟨_, pushElems_iff.2 hn, rfl⟩⟩
  | @set hashed multi t vs js it h0 h1 _ ih =>
    subst h0
    obtain ⟨n, hn⟩ := forall₂_common (P := fun n v j => push E H n t v () = .ok j ()) (fun n m v j => mono n m t v j)
      (forall₂_iff_idx.2 ⟨h1, ih⟩)
    exact ⟨n + 1, SM.map_ok_iff.2 ⟨_, pushElems_iff.2 hn, rfl⟩⟩
  | @map hashed t kvs it ms h0 h1 h2 _ ih =>
    subst h0
    obtain ⟨n, hn⟩ := forall₂_common (P := fun n (e : Val × Val) (m : Key × Json) => push E H n t e.2 () = .ok m.2 ())
      (fun n m e p => mono n m t e.2 p.2) (forall₂_iff_idx.2 ⟨h1, ih⟩)
    refine ⟨n + 1, SM.map_ok_iff.2 ⟨_, pushMapEntries_iff.2 ?_, rfl⟩⟩
    refine forall₂_iff_idx.2 ⟨h1, fun i e m he hm => ?_⟩
    obtain ⟨k, hk, hb, hs⟩ := h2 i e m he hm
    refine ⟨k, hk, ?_, (forall₂_iff_idx.1 hn).2 i e m he hm⟩
    obtain ⟨⟨b, s⟩, j⟩ := m
    simp only at hb hs
    rw [cStringText_iff.1 hb, hs]
  | @multimap hashed t kvs it ps ms h0 h1 h2 _ h4 ih =>
    subst h0
    obtain ⟨n, hn⟩ := forall₂_common (P := fun n (e : Val × Val) (m : Str × Json) => push E H n t e.2 () = .ok m.2 ())
      (fun n m e p => mono n m t e.2 p.2) (forall₂_iff_idx.2 ⟨h1, ih⟩)
    have hps : ps = ((E.orderKV hashed kvs).zip (ps.map Prod.snd)).map fun p => (clamped (strKey p.1.1), p.2) := by
      refine List.ext_getElem? fun i => ?_
      cases hp : ps[i]? with
      | none =>
        have := List.getElem?_eq_none_iff.1 hp
        symm
        rw [List.getElem?_eq_none_iff]
        simp only [List.length_map, List.length_zip]
        omega
      | some p =>
        have hi : i < (E.orderKV hashed kvs).length := by
          rw [h1]; exact (List.getElem?_eq_some_iff.1 hp).1
        have he := List.getElem?_eq_getElem hi
        obtain ⟨k, hk, hpk⟩ := h2 i _ _ he hp
        symm
        simp only [List.getElem?_map, Option.map_eq_some_iff, List.getElem?_zip_eq_some]
        refine ⟨(_, p.2), ⟨he, p, hp, rfl⟩, ?_⟩
        simp only [hk, strKey, ← hpk]
    refine ⟨n + 1, SM.map_ok_iff.2 ⟨_, pushMultimapEntries_iff.2 ⟨ps.map Prod.snd, ?_, ?_⟩, rfl⟩⟩
    · refine forall₂_iff_idx.2 ⟨by simpa using h1, fun i e j he hj => ?_⟩
      simp only [List.getElem?_map, Option.map_eq_some_iff] at hj
      obtain ⟨p, hp, rfl⟩ := hj
      obtain ⟨k, hk, -⟩ := h2 i e p he hp
      exact ⟨⟨k, hk⟩, (forall₂_iff_idx.1 hn).2 i e p he hp⟩
    · have := grouped_foldl (((E.orderKV hashed kvs).zip (ps.map Prod.snd)).map fun p => (clamped (strKey p.1.1), p.2))
      rw [← hps] at this
      rw [h4.unique this]
      conv_lhs => rw [hps, List.foldl_map]
      simp only [rjString_clamped]
  | @pair a b v w j j' _ _ ih1 ih2 =>
    obtain ⟨n, hn⟩ := ih1
    obtain ⟨m, hm⟩ := ih2
    exact ⟨max n m + 1, SM.map_ok_iff.2 ⟨_, pushTuple_iff.2 ⟨rfl, .cons (mono _ _ _ _ _ (Nat.le_max_left _ _) hn)
      (.cons (mono _ _ _ _ _ (Nat.le_max_right _ _) hm) .nil)⟩, rfl⟩⟩
  | @tuple ts vs js h1 h2 _ ih =>
    have : List.Forall₂ (fun (tv : Ty × Val) j => ∃ n, push E H n tv.1 tv.2 () = .ok j ()) (ts.zip vs) js := by
      refine forall₂_iff_idx.2 ⟨by simp [h1, h2], fun i tv j htv hj => ?_⟩
      obtain ⟨h3, h4⟩ := List.getElem?_zip_eq_some.1 htv
      exact ih i _ _ _ h3 h4 hj
    obtain ⟨n, hn⟩ := forall₂_common (P := fun n (tv : Ty × Val) j => push E H n tv.1 tv.2 () = .ok j ())
      (fun n m tv j => mono n m tv.1 tv.2 j) this
    exact ⟨n + 1, SM.map_ok_iff.2 ⟨_, pushTuple_iff.2 ⟨h1.symm, hn⟩, rfl⟩⟩
  | optNull t => exact ⟨1, rfl⟩
  | uptrNull t => exact ⟨1, rfl⟩
  | sptrNull t => exact ⟨1, rfl⟩
  | opt _ ih => obtain ⟨n, hn⟩ := ih; exact ⟨n + 1, hn⟩
  | uptr _ ih => obtain ⟨n, hn⟩ := ih; exact ⟨n + 1, hn⟩
  | sptr _ ih => obtain ⟨n, hn⟩ := ih; exact ⟨n + 1, hn⟩
  | uptrRef h1 _ ih =>
    obtain ⟨n, hn⟩ := ih
    refine ⟨n + 1, ?_⟩
    change pushStep E H (push E H n) _ _ () = _
    simp only [pushStep, h1]; exact hn
  | sptrRef h1 _ ih =>
    obtain ⟨n, hn⟩ := ih
    refine ⟨n + 1, ?_⟩
    change pushStep E H (push E H n) _ _ () = _
    simp only [pushStep, h1]; exact hn
  | valueless ts => exact ⟨1, rfl⟩
  | @mono ts i v h1 =>
    refine ⟨1, ?_⟩
    change pushStep E H (push E H 0) _ _ () = _
    cases v <;> simp only [pushStep, h1] <;> rfl
  | @variant ts i t v j h1 h2 _ ih =>
    obtain ⟨n, hn⟩ := ih
    refine ⟨n + 1, ?_⟩
    change pushStep E H (push E H n) _ _ () = _
    simp only [pushStep, h1]
    cases t <;> first
      | exact absurd rfl h2
      | exact SM.map_ok_iff.2 ⟨_, hn, rfl⟩
  | @cls c st fs ms w h1 h2 h3 _ ih =>
    obtain ⟨n, hn⟩ := forall₂_common (P := fun n (f : Field) (m : Key × Json) => push E H n f.ty (w f) () = .ok m.2 ())
      (fun n m f p => mono n m f.ty (w f) p.2) (forall₂_iff_idx.2 ⟨h2, ih⟩)
    have : List.Forall₂ (fun (f : Field) (m : Key × Json) => m.1 = ⟨f.name, .literal⟩ ∧ ∃ v, st.get? f.key = some v ∧
        push E H n f.ty v () = .ok m.2 ()) fs ms :=
      forall₂_iff_idx.2 ⟨h2, fun i f m hf hm => ⟨(h3 i f m hf hm).1, w f, (h3 i f m hf hm).2, (forall₂_iff_idx.1 hn).2 i f m hf hm⟩⟩
    obtain ⟨k, mss, h4, h5⟩ := flat_push h1 ms this
    cases h4 with
    | cons h4 h6 =>
      cases h6
      simp only [List.flatten_cons, List.flatten_nil, List.append_nil] at h5
      exact ⟨k, h5 ▸ h4⟩

/-- C57: serialising yields a document iff that document is the JSON representation of the object as specified by `Denotes`. -/
theorem C57_serialised_form (E : Env) (H : Heap) (t : Ty) (v : Val) (j : Json) :
    (∃ n, push E H n t v () = .ok j ()) ↔ Denotes E H t v j :=
  ⟨fun ⟨n, h⟩ => denotes_of_push n t v j h, push_of_denotes⟩

/-- C57: an object has at most one representation. -/
theorem C57_representation_unique (E : Env) (H : Heap) (t : Ty) (v : Val) (j j' : Json) (h : Denotes E H t v j)
    (h' : Denotes E H t v j') : j = j' := by
  obtain ⟨n, h⟩ := push_of_denotes h
  obtain ⟨m, h'⟩ := push_of_denotes h'
  have h1 := push_mono (Nat.le_max_left n m) h (by simp)
  have h2 := push_mono (Nat.le_max_right n m) h' (by simp)
  rw [h1] at h2
  cases h2
  rfl

/-- C57 (table in README.md): objects are represented by the documented JSON types. -/
theorem C57_documented_type (E : Env) (H : Heap) (n : Nat) (t : Ty) (v : Val) (j : Json) (h : push E H n t v () = .ok j ())
    (js : List JType) (ht : documentedTypes t = some js) : j.jtype ∈ js := by
  replace h := denotes_of_push n t v j h
  induction h generalizing js with
  | opt _ ih =>
    simp only [documentedTypes, Option.map_eq_some_iff] at ht
    obtain ⟨js', h1, rfl⟩ := ht
    exact List.mem_cons_of_mem _ (ih _ h1)
  | uptr _ ih =>
    simp only [documentedTypes, Option.map_eq_some_iff] at ht
    obtain ⟨js', h1, rfl⟩ := ht
    exact List.mem_cons_of_mem _ (ih _ h1)
  | sptr _ ih =>
    simp only [documentedTypes, Option.map_eq_some_iff] at ht
    obtain ⟨js', h1, rfl⟩ := ht
    exact List.mem_cons_of_mem _ (ih _ h1)
  | uptrRef _ _ ih =>
    simp only [documentedTypes, Option.map_eq_some_iff] at ht
    obtain ⟨js', h1, rfl⟩ := ht
    exact List.mem_cons_of_mem _ (ih _ h1)
  | sptrRef _ _ ih =>
    simp only [documentedTypes, Option.map_eq_some_iff] at ht
    obtain ⟨js', h1, rfl⟩ := ht
    exact List.mem_cons_of_mem _ (ih _ h1)
  | optNull t => simp only [documentedTypes, Option.map_eq_some_iff] at ht; obtain ⟨js', -, rfl⟩ := ht; simp [Json.jtype]
  | uptrNull t => simp only [documentedTypes, Option.map_eq_some_iff] at ht; obtain ⟨js', -, rfl⟩ := ht; simp [Json.jtype]
  | sptrNull t => simp only [documentedTypes, Option.map_eq_some_iff] at ht; obtain ⟨js', -, rfl⟩ := ht; simp [Json.jtype]
  | _ => simp only [documentedTypes, Option.some.injEq] at ht; subst ht; simp [Json.jtype]

/-! ### when serialisation succeeds -/

theorem flatFields_eq {cs : List ClassId} {fs fs' : List Field} (h : FlatFields E cs fs) (h' : FlatFields E cs fs') : fs = fs' := by
  induction h generalizing fs' with
  | nil => cases h'; rfl
  | cons hc _ _ ih1 ih2 =>
    cases h' with
    | cons hc' h1 h2 =>
      rw [hc] at hc'; cases hc'
      rw [ih1 h1, ih2 h2]

theorem mem_idx {α : Type} {l : List α} {a : α} (h : a ∈ l) : ∃ i : Nat, l[i]? = some a := List.mem_iff_getElem?.1 h

theorem idx_pair {α β : Type} {l : List α} {l' : List β} (h : l.length = l'.length) {i : Nat} {a : α} (ha : l[i]? = some a) :
    ∃ b, l'[i]? = some b := by
  have := (List.getElem?_eq_some_iff.1 ha).1
  exact ⟨_, List.getElem?_eq_getElem (h ▸ this)⟩

theorem valid_of_denotes {t : Ty} {v : Val} {j : Json} (h : Denotes E H t v j) : ValidObj E H false t v := by
  induction h with
  | bool b => exact .bool b
  | int it i h1 h2 h3 => exact .int it i h1 h2 h3
  | f32 b => exact .f32 b
  | f64 b => exact .f64 b
  | enum u i => exact .enum u i
  | str s => exact .str s
  | cstrNull => exact .cstr _
  | cstr _ => exact .cstr _
  | sviewNull => exact .sview _
  | sview s => exact .sview _
  | dateTime i => exact .dateTime i
  | timeSpan i => exact .timeSpan i
  | vec h1 _ ih =>
    refine .vec fun v hv => ?_
    obtain ⟨i, hi⟩ := mem_idx hv
    obtain ⟨b, hb⟩ := idx_pair h1 hi
    exact ih i v b hi hb
  | set h0 h1 _ ih =>
    refine .set h0 fun v hv => ?_
    obtain ⟨i, hi⟩ := mem_idx hv
    obtain ⟨b, hb⟩ := idx_pair h1 hi
    exact ih i v b hi hb
  | map h0 h1 h2 _ ih =>
    refine .map h0 (fun e he => ?_) (fun e he => ?_) <;> obtain ⟨i, hi⟩ := mem_idx he <;> obtain ⟨b, hb⟩ := idx_pair h1 hi
    · obtain ⟨k, hk, -⟩ := h2 i e b hi hb; exact ⟨k, hk⟩
    · exact ih i e b hi hb
  | multimap h0 h1 h2 _ _ ih =>
    refine .map h0 (fun e he => ?_) (fun e he => ?_) <;> obtain ⟨i, hi⟩ := mem_idx he <;> obtain ⟨b, hb⟩ := idx_pair h1 hi
    · obtain ⟨k, hk, -⟩ := h2 i e b hi hb; exact ⟨k, hk⟩
    · exact ih i e b hi hb
  | pair _ _ ih1 ih2 => exact .pair ih1 ih2
  | tuple h1 h2 _ ih =>
    refine .tuple h1 fun i t v ht hv => ?_
    obtain ⟨b, hb⟩ := idx_pair h2.symm ht
    exact ih i t v b ht hv hb
  | optNull t => exact .optNull t
  | uptrNull t => exact .uptrNull t
  | sptrNull t => exact .sptrNull t
  | opt _ ih => exact .opt ih
  | uptr _ ih => exact .uptr ih
  | sptr _ ih => exact .sptr ih
  | uptrRef h1 _ ih => exact .uptrRef h1 ih
  | sptrRef h1 _ ih => exact .sptrRef h1 ih
  | valueless ts => exact .valueless ts
  | mono h1 => exact .mono h1
  | variant h1 h2 _ ih => exact .variant h1 h2 ih
  | cls w h1 h2 h3 _ ih =>
    refine .cls w h1 (fun f hf => ?_) (fun f hf => ?_) <;> obtain ⟨i, hi⟩ := mem_idx hf <;> obtain ⟨b, hb⟩ := idx_pair h2 hi
    · exact (h3 i f b hi hb).2
    · exact ih i f b hi hb

theorem valid_weaken {t : Ty} {v : Val} (h : ValidObj E H false t v) : ValidObj E H true t v := by
  induction h with
  | noBool h => cases h
  | noInt _ _ _ _ h => cases h
  | noF32 h => cases h
  | noF64 h => cases h
  | noEnum _ h => cases h
  | noCstr h => cases h
  | bool b => exact .bool b
  | int it i h1 h2 h3 => exact .int it i h1 h2 h3
  | f32 b => exact .f32 b
  | f64 b => exact .f64 b
  | enum u i => exact .enum u i
  | str s => exact .str s
  | cstr s => exact .cstr s
  | sview s => exact .sview s
  | dateTime i => exact .dateTime i
  | timeSpan i => exact .timeSpan i
  | vec _ ih => exact .vec ih
  | set h0 _ ih => exact .set h0 ih
  | map h0 h1 _ ih => exact .map h0 h1 ih
  | pair _ _ ih1 ih2 => exact .pair ih1 ih2
  | tuple h1 _ ih => exact .tuple h1 ih
  | optNull t => exact .optNull t
  | uptrNull t => exact .uptrNull t
  | sptrNull t => exact .sptrNull t
  | opt _ ih => exact .opt ih
  | uptr _ ih => exact .uptr ih
  | sptr _ ih => exact .sptr ih
  | uptrRef h1 _ ih => exact .uptrRef h1 ih
  | sptrRef h1 _ ih => exact .sptrRef h1 ih
  | valueless ts => exact .valueless ts
  | mono h1 => exact .mono h1
  | variant h1 h2 _ ih => exact .variant h1 h2 ih
  | cls w h1 h2 _ ih => exact .cls w h1 h2 ih

/-- returns (a result satisfying `Q`) or is undefined because an uninitialised scalar is read -/
def Fine {α : Type} (uninit : Bool) (m : SM α) (Q : α → Prop) : Prop :=
  match m () with
  | .ok a _ => Q a
  | .ub => uninit = true
  | _ => False

namespace Fine
variable {α β : Type} {u : Bool}

theorem pure {a : α} {Q : α → Prop} (h : Q a) : Fine u (Pure.pure a : SM α) Q := h

theorem bind {m : SM α} {f : α → SM β} {Q : α → Prop} {R : β → Prop} (hm : Fine u m Q) (hf : ∀ a, Q a → Fine u (f a) R) :
    Fine u (m >>= f) R := by
  unfold Fine at *
  rw [M.bind_apply]
  cases h : m () with
  | ok a s => rw [h] at hm; exact hf a hm
  | ub => rw [h] at hm; exact hm
  | exc e s => rw [h] at hm; exact hm.elim
  | stuck => rw [h] at hm; exact hm.elim
  | fuel => rw [h] at hm; exact hm.elim

theorem map {m : SM α} {g : α → β} {Q : α → Prop} {R : β → Prop} (hm : Fine u m Q) (hf : ∀ a, Q a → R (g a)) :
    Fine u (m >>= fun a => Pure.pure (g a)) R := hm.bind fun a ha => hf a ha

theorem elems {self : Ty → Val → SM Json} {t : Ty} (vs : List Val) (h : ∀ v ∈ vs, Fine u (self t v) fun _ => True) :
    Fine u (pushElems self t vs) fun _ => True := by
  induction vs with
  | nil => exact .pure trivial
  | cons v vs ih =>
    exact (h v List.mem_cons_self).bind fun _ _ => (ih fun v hv => h v (List.mem_cons_of_mem _ hv)).map fun _ _ => trivial

theorem tuple {self : Ty → Val → SM Json} (ts : List Ty) (vs : List Val) (hl : vs.length = ts.length)
    (h : ∀ (i : Nat) t v, ts[i]? = some t → vs[i]? = some v → Fine u (self t v) fun _ => True) :
    Fine u (pushTuple self ts vs) fun _ => True := by
  induction ts generalizing vs with
  | nil =>
    cases vs with
    | nil => exact .pure trivial
    | cons v vs => simp at hl
  | cons t ts ih =>
    cases vs with
    | nil => simp at hl
    | cons v vs =>
      exact (h 0 t v rfl rfl).bind fun _ _ =>
        (ih vs (by simpa using hl) fun i t v ht hv => h (i + 1) t v ht hv).map fun _ _ => trivial

theorem mapEntries {self : Ty → Val → SM Json} {t : Ty} (kvs : List (Val × Val)) (hk : ∀ e ∈ kvs, ∃ k, e.1 = .str k)
    (h : ∀ e ∈ kvs, Fine u (self t e.2) fun _ => True) : Fine u (pushMapEntries self t kvs) fun _ => True := by
  induction kvs with
  | nil => exact .pure trivial
  | cons e kvs ih =>
    obtain ⟨k, v⟩ := e
    obtain ⟨s, rfl⟩ : ∃ s, k = .str s := hk _ List.mem_cons_self
    exact (h _ List.mem_cons_self).bind fun _ _ => (ih (fun e he => hk e (List.mem_cons_of_mem _ he))
      fun e he => h e (List.mem_cons_of_mem _ he)).map fun _ _ => trivial

theorem multimapEntries {self : Ty → Val → SM Json} {t : Ty} (kvs : List (Val × Val)) (hk : ∀ e ∈ kvs, ∃ k, e.1 = .str k)
    (h : ∀ e ∈ kvs, Fine u (self t e.2) fun _ => True) (ms : List (Key × Json)) :
    Fine u (pushMultimapEntries self t kvs ms) fun _ => True := by
  induction kvs generalizing ms with
  | nil => exact .pure trivial
  | cons e kvs ih =>
    obtain ⟨k, v⟩ := e
    obtain ⟨s, rfl⟩ : ∃ s, k = .str s := hk _ List.mem_cons_self
    exact (h _ List.mem_cons_self).bind fun _ _ => ih (fun e he => hk e (List.mem_cons_of_mem _ he))
      (fun e he => h e (List.mem_cons_of_mem _ he)) _

theorem fields {self : Ty → Val → SM Json} (fs : List Field) (st : Store) (w : Field → Val) (hw : ∀ f ∈ fs, st.get? f.key = some (w f))
    (h : ∀ f ∈ fs, Fine u (self f.ty (w f)) fun _ => True) : Fine u (pushFields self fs st) fun _ => True := by
  induction fs with
  | nil => exact .pure trivial
  | cons f fs ih =>
    unfold pushFields
    rw [hw f List.mem_cons_self]
    exact (h _ List.mem_cons_self).bind fun _ _ => (ih (fun e he => hw e (List.mem_cons_of_mem _ he))
      fun e he => h e (List.mem_cons_of_mem _ he)).map fun _ _ => trivial

theorem bases {self : Ty → Val → SM Json} (bs : List ClassId) (v : Val) (h : ∀ b ∈ bs, Fine u (self (.cls b) v) fun j => ∃ ms, j = .obj ms) :
    Fine u (pushBases self bs v) fun _ => True := by
  induction bs with
  | nil => exact .pure trivial
  | cons b bs ih =>
    refine (h b List.mem_cons_self).bind ?_
    rintro _ ⟨ms, rfl⟩
    exact (ih fun b hb => h b (List.mem_cons_of_mem _ hb)).map fun _ _ => trivial

theorem weaken {m : SM α} {Q R : α → Prop} (hm : Fine u m Q) (h : ∀ a, Q a → R a) : Fine u m R := by
  unfold Fine at *
  cases hx : m () with
  | ok a s => rw [hx] at hm; exact h a hm
  | ub => rw [hx] at hm; exact hm
  | exc e s => rw [hx] at hm; exact hm.elim
  | stuck => rw [hx] at hm; exact hm.elim
  | fuel => rw [hx] at hm; exact hm.elim

theorem ofUb {m : SM α} {Q : α → Prop} (h : m () = .ub) (hu : u = true) : Fine u m Q := by
  unfold Fine; rw [h]; exact hu

end Fine

theorem fine_mono {u : Bool} {n m : Nat} {t : Ty} {v : Val} {Q : Json → Prop} (hnm : n ≤ m) (h : Fine u (push E H n t v) Q) :
    Fine u (push E H m t v) Q := by
  have : push E H m t v () = push E H n t v () := by
    refine push_mono hnm rfl fun hf => ?_
    unfold Fine at h
    rw [hf] at h
    exact h
  unfold Fine at *
  rw [this]; exact h

theorem common_bound {α : Type} (l : List α) {P : Nat → α → Prop} (hP : ∀ n m a, n ≤ m → P n a → P m a) (h : ∀ a ∈ l, ∃ n, P n a) :
    ∃ n, ∀ a ∈ l, P n a := by
  induction l with
  | nil => exact ⟨0, by simp⟩
  | cons a l ih =>
    obtain ⟨n, hn⟩ := h a List.mem_cons_self
    obtain ⟨m, hm⟩ := ih fun a ha => h a (List.mem_cons_of_mem _ ha)
    refine ⟨max n m, fun b hb => ?_⟩
    rcases List.mem_cons.1 hb with rfl | hb
    · exact hP _ _ _ (Nat.le_max_left _ _) hn
    · exact hP _ _ _ (Nat.le_max_right _ _) (hm b hb)

theorem flat_fine {u : Bool} {N : Nat} {st : Store} {w : Field → Val} {cs : List ClassId} {fs : List Field} (hf : FlatFields E cs fs)
    (hw : ∀ f ∈ fs, st.get? f.key = some (w f)) (h : ∀ f ∈ fs, Fine u (push E H N f.ty (w f)) fun _ => True) :
    ∃ n, ∀ c ∈ cs, Fine u (push E H n (.cls c) (.obj st)) fun j => ∃ ms, j = .obj ms := by
  induction hf with
  | nil => exact ⟨0, by simp⟩
  | @cons c ci cs bs fs hc _ _ ih1 ih2 =>
    simp only [List.mem_append] at hw h
    obtain ⟨n1, i1⟩ := ih1 (fun f hf => hw f (.inl (.inl hf))) (fun f hf => h f (.inl (.inl hf)))
    obtain ⟨n2, i2⟩ := ih2 (fun f hf => hw f (.inr hf)) (fun f hf => h f (.inr hf))
    let K := max (max n1 n2) N
    have k1 : n1 ≤ K := by omega
    have k2 : n2 ≤ K := by omega
    have k3 : N ≤ K := by omega
    refine ⟨K + 1, fun c' hc' => ?_⟩
    rcases List.mem_cons.1 hc' with rfl | hc'
    · change Fine u (pushStep E H (push E H K) (.cls c') (.obj st)) _
      simp only [pushStep, hc]
      refine (Fine.bases _ _ fun b hb => fine_mono k1 (i1 b hb)).bind fun _ _ =>
        (Fine.fields _ _ w (fun f hf => hw f (.inl (.inr hf))) fun f hf => fine_mono k3 (h f (.inl (.inr hf)))).map fun _ _ => ⟨_, rfl⟩
    · exact fine_mono (Nat.le_succ_of_le k2) (i2 c' hc')

theorem fine_of_valid {u : Bool} {t : Ty} {v : Val} (h : ValidObj E H u t v) : ∃ n, Fine u (push E H n t v) fun _ => True := by
  induction h with
  | noBool h => exact ⟨1, .ofUb rfl h⟩
  | noInt _ _ _ _ h => exact ⟨1, .ofUb rfl h⟩
  | noF32 h => exact ⟨1, .ofUb rfl h⟩
  | noF64 h => exact ⟨1, .ofUb rfl h⟩
  | noEnum _ h => exact ⟨1, .ofUb rfl h⟩
  | noCstr h => exact ⟨1, .ofUb rfl h⟩
  | bool b => exact ⟨1, .pure trivial⟩
  | int it i h1 h2 h3 =>
    exact ⟨1, by cases it <;> first | exact .pure trivial | exact absurd rfl h1 | exact absurd rfl h2 | exact absurd rfl h3⟩
  | f32 b => exact ⟨1, .pure trivial⟩
  | f64 b => exact ⟨1, .pure trivial⟩
  | enum _ i => exact ⟨1, .pure trivial⟩
  | str s => exact ⟨1, .pure trivial⟩
  | cstr s => exact ⟨1, by cases s <;> exact .pure trivial⟩
  | sview s => exact ⟨1, by cases s <;> exact .pure trivial⟩
  | dateTime i => exact ⟨1, .pure trivial⟩
  | timeSpan i => exact ⟨1, .pure trivial⟩
  | @vec t vs _ ih =>
    obtain ⟨n, hn⟩ := common_bound _ (P := fun n v => Fine u (push E H n t v) fun _ => True) (fun n m a => fine_mono) ih
    exact ⟨n + 1, (Fine.elems _ hn).map fun _ _ => trivial⟩
  | @set hashed multi t vs it h0 _ ih =>
    subst h0
    obtain ⟨n, hn⟩ := common_bound _ (P := fun n v => Fine u (push E H n t v) fun _ => True) (fun n m a => fine_mono) ih
    exact ⟨n + 1, (Fine.elems _ hn).map fun _ _ => trivial⟩
  | @map hashed multi t kvs it h0 h1 _ ih =>
    subst h0
    obtain ⟨n, hn⟩ := common_bound _ (P := fun n (e : Val × Val) => Fine u (push E H n t e.2) fun _ => True)
      (fun n m a => fine_mono) ih
    cases multi with
    | false => exact ⟨n + 1, (Fine.mapEntries _ h1 hn).map fun _ _ => trivial⟩
    | true => exact ⟨n + 1, (Fine.multimapEntries _ h1 hn []).map fun _ _ => trivial⟩
  | @pair a b v w _ _ ih1 ih2 =>
    obtain ⟨n, hn⟩ := ih1
    obtain ⟨m, hm⟩ := ih2
    refine ⟨max n m + 1, (Fine.tuple [a, b] [v, w] rfl fun i t x ht hx => ?_).map fun _ _ => trivial⟩
    match i, ht, hx with
    | 0, ht, hx => cases ht; cases hx; exact fine_mono (Nat.le_max_left n m) hn
    | 1, ht, hx => cases ht; cases hx; exact fine_mono (Nat.le_max_right n m) hm
    | _ + 2, ht, hx => simp at ht
  | @tuple ts vs h1 _ ih =>
    have : ∀ tv ∈ ts.zip vs, ∃ n, Fine u (push E H n tv.1 tv.2) fun _ => True := by
      intro tv htv
      obtain ⟨i, hi⟩ := mem_idx htv
      obtain ⟨h3, h4⟩ := List.getElem?_zip_eq_some.1 hi
      exact ih i _ _ h3 h4
    obtain ⟨n, hn⟩ := common_bound _ (P := fun n (e : Ty × Val) => Fine u (push E H n e.1 e.2) fun _ => True)
      (fun n m a => fine_mono) this
    exact ⟨n + 1, (Fine.tuple _ _ h1 fun i t v ht hv =>
      hn (t, v) (List.mem_of_getElem? (List.getElem?_zip_eq_some.2 ⟨ht, hv⟩))).map fun _ _ => trivial⟩
  | optNull t => exact ⟨1, .pure trivial⟩
  | uptrNull t => exact ⟨1, .pure trivial⟩
  | sptrNull t => exact ⟨1, .pure trivial⟩
  | @opt t v _ ih =>
    obtain ⟨n, hn⟩ := ih
    refine ⟨n + 1, ?_⟩
    change Fine u (pushStep E H (push E H n) (.opt t) (.some v)) _
    simp only [pushStep]; exact hn
  | @uptr t v _ ih =>
    obtain ⟨n, hn⟩ := ih
    refine ⟨n + 1, ?_⟩
    change Fine u (pushStep E H (push E H n) (.uptr t) (.ptr v)) _
    simp only [pushStep]; exact hn
  | @sptr t v _ ih =>
    obtain ⟨n, hn⟩ := ih
    refine ⟨n + 1, ?_⟩
    change Fine u (pushStep E H (push E H n) (.sptr t) (.ptr v)) _
    simp only [pushStep]; exact hn
  | @uptrRef t a v h1 _ ih =>
    obtain ⟨n, hn⟩ := ih
    refine ⟨n + 1, ?_⟩
    change Fine u (pushStep E H (push E H n) (.uptr t) (.ref a)) _
    simp only [pushStep, h1]; exact hn
  | @sptrRef t a v h1 _ ih =>
    obtain ⟨n, hn⟩ := ih
    refine ⟨n + 1, ?_⟩
    change Fine u (pushStep E H (push E H n) (.sptr t) (.ref a)) _
    simp only [pushStep, h1]; exact hn
  | valueless ts => exact ⟨1, .pure trivial⟩
  | @mono ts i v h1 =>
    refine ⟨1, ?_⟩
    change Fine u (pushStep E H (push E H 0) (.variant ts) (.alt i v)) _
    simp only [pushStep, h1]; exact .pure trivial
  | @variant ts i t v h1 h2 _ ih =>
    obtain ⟨n, hn⟩ := ih
    refine ⟨n + 1, ?_⟩
    change Fine u (pushStep E H (push E H n) (.variant ts) (.alt i v)) _
    simp only [pushStep, h1]
    cases t <;> first
      | exact absurd rfl h2
      | exact hn.map fun _ _ => trivial
  | @cls c st fs w h1 h2 _ ih =>
    obtain ⟨N, hN⟩ := common_bound _ (P := fun n (f : Field) => Fine u (push E H n f.ty (w f)) fun _ => True)
      (fun n m a => fine_mono) ih
    obtain ⟨n, hn⟩ := flat_fine h1 h2 hN
    exact ⟨n, (hn c List.mem_cons_self).weaken fun _ _ => trivial⟩

/-- C57 (success): an object can be serialised iff it is a valid and completely initialised object of a supported type whose
pointers can be followed to an end. -/
theorem C57_serialisable_iff (E : Env) (H : Heap) (t : Ty) (v : Val) :
    (∃ n j, push E H n t v () = .ok j ()) ↔ ValidObj E H false t v := by
  constructor
  · rintro ⟨n, j, h⟩; exact valid_of_denotes (denotes_of_push n t v j h)
  · intro h
    obtain ⟨n, hn⟩ := fine_of_valid h
    refine ⟨n, ?_⟩
    unfold Fine at hn
    cases hp : push E H n t v () with
    | ok j s => exact ⟨j, rfl⟩
    | ub => rw [hp] at hn; cases hn
    | exc e s => rw [hp] at hn; exact hn.elim
    | stuck => rw [hp] at hn; exact hn.elim
    | fuel => rw [hp] at hn; exact hn.elim

/-- C57 (total): serialising a valid object terminates: it yields the object's representation, or - iff an uninitialised scalar
is among what is serialised - is undefined behaviour. -/
theorem C57_outcomes (E : Env) (H : Heap) (t : Ty) (v : Val) (h : ValidObj E H true t v) :
    ∃ N, (∃ j, (∀ n, N ≤ n → push E H n t v () = .ok j ()) ∧ Denotes E H t v j ∧ ValidObj E H false t v) ∨
      ((∀ n, N ≤ n → push E H n t v () = .ub) ∧ ¬ ValidObj E H false t v) := by
  obtain ⟨n, hn⟩ := fine_of_valid h
  refine ⟨n, ?_⟩
  unfold Fine at hn
  cases hp : push E H n t v () with
  | ok j s =>
    have := denotes_of_push n t v j hp
    exact .inl ⟨j, fun m hm => push_mono hm hp (by simp), this, valid_of_denotes this⟩
  | ub =>
    refine .inr ⟨fun m hm => push_mono hm hp (by simp), fun hv => ?_⟩
    obtain ⟨m, j, hm⟩ := (C57_serialisable_iff E H t v).2 hv
    have h1 := push_mono (Nat.le_max_left n m) hp (by simp)
    have h2 := push_mono (Nat.le_max_right n m) hm (by simp)
    rw [h1] at h2; cases h2
  | exc e s => rw [hp] at hn; exact hn.elim
  | stuck => rw [hp] at hn; exact hn.elim
  | fuel => rw [hp] at hn; exact hn.elim

/-- C57 (`toJsonDocument`, `toJson`): documents for top-level objects are the representation as well, with two exceptions:
`toJsonDocument<const char *>(nullptr)` is undefined behaviour instead of `null`, and strings of 2^32 bytes or more are cut to their
length modulo 2^32 (within other objects: to the first 2^32 - 1 bytes). -/
theorem C57_toJsonDocument (E : Env) (H : Heap) (t : Ty) (ht : TopSupported t ∨ t = .cstr ∨ t = .sview) (v : Val) :
    ((t = .cstr → v ≠ .cstr none) → (∀ s, t = .str → v = .str s → s.length < 2 ^ 32) →
      (∀ j, (∃ n, toJsonDocument E H n t v () = .ok j ()) ↔ Denotes E H t v j) ∧
      (ValidObj E H true t v → ((∃ N, ∀ n, N ≤ n → toJsonDocument E H n t v () = .ub) ↔ ¬ ValidObj E H false t v))) ∧
    (∀ n, t = .cstr → v = .cstr none → toJsonDocument E H n t v () = .ub) ∧
    (∀ n s, t = .str → v = .str s → toJsonDocument E H n t v () = .ok (.str (s.take (s.length % 2 ^ 32))) ()) := by
  have key : (t = .cstr → v ≠ .cstr none) → (∀ s, t = .str → v = .str s → s.length < 2 ^ 32) → ∀ n,
      (toJsonDocument E H (n + 1) t v () = push E H (n + 1) t v ()) ∧
      (toJsonDocument E H n t v () = toJsonDocument E H (n + 1) t v () ∨ toJsonDocument E H n t v () = push E H n t v ()) := by
    intro h1 h2 n
    have hs : ∀ s : Str, s.length < 2 ^ 32 → s.take (s.length % 2 ^ 32) = rjString s := fun s h => by
      unfold rjString rapidJsonSize
      rw [Nat.mod_eq_of_lt h, if_neg (by omega)]
    cases t <;> simp only [TopSupported, reduceCtorEq, or_false, false_or, or_self] at ht
    case cls => exact ⟨rfl, .inr rfl⟩
    case map => exact ⟨rfl, .inr rfl⟩
    case vec => exact ⟨rfl, .inr rfl⟩
    case sview => exact ⟨rfl, .inr rfl⟩
    case bool => cases v <;> first | exact ⟨rfl, .inl rfl⟩ | (rename_i x; cases x <;> exact ⟨rfl, .inl rfl⟩)
    case f32 => cases v <;> first | exact ⟨rfl, .inl rfl⟩ | (rename_i x; cases x <;> exact ⟨rfl, .inl rfl⟩)
    case f64 => cases v <;> first | exact ⟨rfl, .inl rfl⟩ | (rename_i x; cases x <;> exact ⟨rfl, .inl rfl⟩)
    case int it => rcases ht with rfl | rfl | rfl | rfl <;> cases v <;> first | exact ⟨rfl, .inl rfl⟩ | (rename_i x; cases x <;> exact ⟨rfl, .inl rfl⟩)
    case cstr =>
      cases v with
      | cstr s => cases s with
        | none => exact absurd rfl (h1 rfl)
        | some s => exact ⟨rfl, .inl rfl⟩
      | _ => first | exact ⟨rfl, .inl rfl⟩ | (rename_i x; cases x <;> exact ⟨rfl, .inl rfl⟩)
    case str =>
      cases v with
      | str s => exact ⟨congrArg (fun x => Res.ok (Json.str x) ()) (hs s (h2 s rfl rfl)), .inl rfl⟩
      | _ => first | exact ⟨rfl, .inl rfl⟩ | (rename_i x; cases x <;> exact ⟨rfl, .inl rfl⟩)
  refine ⟨fun h1 h2 => ⟨fun j => ?_, fun hv => ?_⟩, ?_, ?_⟩
  · rw [← C57_serialised_form]
    constructor
    · rintro ⟨n, hn⟩
      rcases (key h1 h2 n).2 with h | h
      · exact ⟨n + 1, by rw [← (key h1 h2 n).1, ← h, hn]⟩
      · exact ⟨n, by rw [← h, hn]⟩
    · rintro ⟨n, hn⟩
      cases n with
      | zero => cases hn
      | succ n => exact ⟨n + 1, by rw [(key h1 h2 n).1, hn]⟩
  · obtain ⟨N, h | h⟩ := C57_outcomes E H t v hv
    · obtain ⟨j, hj, -, hv'⟩ := h
      refine ⟨fun ⟨M, hu⟩ => ?_, fun hn => absurd hv' hn⟩
      have := hu (N + M + 1) (by omega)
      rw [(key h1 h2 (N + M)).1, hj _ (by omega)] at this
      cases this
    · refine ⟨fun _ => h.2, fun _ => ⟨N + 1, fun n hn => ?_⟩⟩
      obtain ⟨n, rfl⟩ : ∃ m, n = m + 1 := ⟨n - 1, by omega⟩
      rw [(key h1 h2 n).1]
      exact h.1 _ (by omega)
  · rintro n rfl rfl; rfl
  · rintro n s rfl rfl; rfl

/-! Concrete cases -/

namespace FormDemo
open Demo

/-- a `Derived` object: members of the base first, then its own; the map as object, the vector as array -/
def obj : Val := .obj [(fI.key, .int 3), (fM.key, .map [(.str (lit "a"), .int 1)]), (fS.key, .list [.str (lit "x"), .str []]),
  (fK.key, .int 7)]

def doc : Json := .obj [(⟨lit "i", .literal⟩, .num (.int 3)), (⟨lit "m", .literal⟩, .obj [(⟨lit "a", .borrowed⟩, .num (.int 1))]),
  (⟨lit "s", .literal⟩, .arr [.str (lit "x"), .str []]), (⟨lit "k", .literal⟩, .num (.int 7))]

example : Denotes env (fun _ => none) (.cls 1) obj doc := (C57_serialised_form ..).1 ⟨6, by rfl⟩
example : ValidObj env (fun _ => none) false (.cls 1) obj := (C57_serialisable_iff ..).1 ⟨6, doc, by rfl⟩

/-- a multimap: one array per key, in the order of the entries -/
example : Denotes env (fun _ => none) (.map false true .str (.int .i32))
    (.map [(.str (lit "a"), .int 1), (.str (lit "a"), .int 2), (.str (lit "b"), .int 3)])
    (.obj [(⟨lit "a", .borrowed⟩, .arr [.num (.int 1), .num (.int 2)]), (⟨lit "b", .borrowed⟩, .arr [.num (.int 3)])]) :=
  (C57_serialised_form ..).1 ⟨6, by rfl⟩

/-- a variant -/
example : Denotes env (fun _ => none) (.variant [.mono, .str]) (.alt 1 (.str (lit "x")))
    (.obj [(⟨lit "index", .literal⟩, .num (.int 1)), (⟨lit "data", .literal⟩, .str (lit "x"))]) :=
  (C57_serialised_form ..).1 ⟨6, by rfl⟩

/-- an object with an uninitialised member is valid only if these are admitted -/
example : ValidObj env (fun _ => none) true (.cls 0) (.obj [(fI.key, .indet), (fM.key, .map [])]) ∧
    ¬ ValidObj env (fun _ => none) false (.cls 0) (.obj [(fI.key, .indet), (fM.key, .map [])]) := by
  have hv : ValidObj env (fun _ => none) true (.cls 0) (.obj [(fI.key, .indet), (fM.key, .map [])]) := by
    refine .cls (fs := [fI, fM]) (fun f => if f.name = lit "i" then .indet else .map []) ?_ ?_ ?_
    · exact .cons (ci := base) (bs := []) (fs := []) rfl .nil .nil
    · intro f hf
      simp only [List.mem_cons, List.not_mem_nil, or_false] at hf
      rcases hf with rfl | rfl <;> rfl
    · intro f hf
      simp only [List.mem_cons, List.not_mem_nil, or_false] at hf
      rcases hf with rfl | rfl
      · exact .noInt _ (by decide) (by decide) (by decide) rfl
      · exact .map (it := []) rfl (by simp) (by simp)
  refine ⟨hv, fun h => ?_⟩
  obtain ⟨n, j, hn⟩ := (C57_serialisable_iff ..).2 h
  have h6 : push env (fun _ => none) 6 (.cls 0) (.obj [(fI.key, .indet), (fM.key, .map [])]) () = .ub := by rfl
  have h1 := push_mono (Nat.le_max_left n 6) hn (by simp)
  have h2 := push_mono (Nat.le_max_right n 6) h6 (by simp)
  rw [h1] at h2; cases h2

/-- a node pointing to itself has no representation -/
theorem no_cycle (t : Ty) (v : Val) (ht : (t = .cls 2 ∧ v = .obj [(fV.key, .int 1), (fN.key, .ref 0)]) ∨ (t = .sptr (.cls 2) ∧ v = .ref 0)) :
    ¬ ValidObj env (fun a => if a = 0 then some (.obj [(fV.key, .int 1), (fN.key, .ref 0)]) else none) false t v := by
  intro h
  obtain ⟨n, j, hn⟩ := (C57_serialisable_iff ..).2 h
  clear h
  induction n using Nat.strongRecOn generalizing t v j with
  | _ n ih =>
    rcases ht with ⟨rfl, rfl⟩ | ⟨rfl, rfl⟩
    · match n, hn with
      | 0, hn => cases hn
      | n + 1, hn =>
        have e : push env (fun a => if a = 0 then some (.obj [(fV.key, .int 1), (fN.key, .ref 0)]) else none) (n + 1) (.cls 2)
            (.obj [(fV.key, .int 1), (fN.key, .ref 0)]) () =
          pushStep env (fun a => if a = 0 then some (.obj [(fV.key, .int 1), (fN.key, .ref 0)]) else none)
            (push env (fun a => if a = 0 then some (.obj [(fV.key, .int 1), (fN.key, .ref 0)]) else none) n) (.cls 2)
            (.obj [(fV.key, .int 1), (fN.key, .ref 0)]) () := rfl
        rw [e] at hn
        have hc : env.cls 2 = some node := rfl
        simp only [pushStep, hc] at hn
        obtain ⟨bs, h1, h2⟩ := SM.bind_ok_iff.1 hn
        obtain ⟨fs, h3, h4⟩ := SM.bind_ok_iff.1 h2
        change pushFields _ [fV, fN] _ () = _ at h3
        obtain ⟨j1, h5, h6⟩ := SM.bind_ok_iff.1 h3
        obtain ⟨js, h7, h8⟩ := SM.bind_ok_iff.1 h6
        obtain ⟨j2, h9, h10⟩ := SM.bind_ok_iff.1 h7
        exact ih n (by omega) _ _ (.inr ⟨rfl, rfl⟩) j2 h9
    · match n, hn with
      | 0, hn => cases hn
      | n + 1, hn => exact ih n (by omega) _ _ (.inl ⟨rfl, rfl⟩) j hn

end FormDemo

end Verif
