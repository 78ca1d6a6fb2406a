import Verif.Lemmas.BinPair
import Verif.Props.BinaryFraming

/-!
# C27, C28: binary round trip
-/

namespace Verif

variable {E : Env} {H : Heap} {HT : Nat → Option Ty} {ρ : Nat → Nat}

section
variable {sw : Nat → Ty → Val → WM Unit} {sr : Nat → Ty → Val → RM Val}

theorem pair_elems {t : Ty} {ps vs : List Val}
    (h : List.Forall₂ (fun p v => Pair H HT ρ (sw 0 t v) (sr 0 t p) (v.rename ρ) (· ∈ v.refs)) ps vs) :
    Pair H HT ρ (writeElems sw t vs) (readElems sr t ps) (vs.map (Val.rename ρ)) (fun a => ∃ v ∈ vs, a ∈ v.refs) := by
  induction h with
  | nil => exact (Pair.pure _).mono (by simp)
  | @cons p v ps vs h1 _ ih =>
    refine (Pair.bind (r2 := fun x => readElems sr t ps >>= fun xs => Pure.pure (x :: xs)) h1
      (Pair.map (fun xs => v.rename ρ :: xs) ih)).mono ?_
    rintro b ⟨x, hx, hb⟩
    rcases List.mem_cons.1 hx with rfl | hx
    · exact .inl hb
    · exact .inr ⟨x, hx, hb⟩

theorem pair_setItems {t : Ty} (multi : Bool) (xs acc : List Val)
    (h : ∀ v ∈ xs, Pair H HT ρ (sw 0 t v) (sr 0 t (E.defInit t)) (v.rename ρ) (· ∈ v.refs))
    (hi : ∀ v ∈ xs, v.hasIndet = false) (hr : ∀ v ∈ xs, v.refs = []) :
    Pair H HT ρ (writeElems sw t xs) (readSetItems E sr multi t xs.length acc)
      (xs.foldl (fun a x => if multi then insM (E.lt t) id x a else insU (E.lt t) id x a) acc) (fun _ => False) := by
  induction xs generalizing acc with
  | nil => exact Pair.pure _
  | cons x xs ih =>
    have hx := h x List.mem_cons_self
    rw [Val.rename_of_noRef ρ x (hr x List.mem_cons_self)] at hx
    have := ih (if multi then insM (E.lt t) id x acc else insU (E.lt t) id x acc) (fun v hv => h v (List.mem_cons_of_mem _ hv))
      (fun v hv => hi v (List.mem_cons_of_mem _ hv)) (fun v hv => hr v (List.mem_cons_of_mem _ hv))
    refine (Pair.bind (r2 := fun v => if v.hasIndet then M.ub else readSetItems E sr multi t xs.length
      (if multi then insertMulti (E.lt t) v acc else (insertUniq (E.lt t) v acc).1)) hx
      (b := (x :: xs).foldl (fun a x => if multi then insM (E.lt t) id x a else insU (E.lt t) id x a) acc)
      (R2 := fun _ => False) ?_).mono (fun _ h => False.elim h)
    rw [if_neg (by simp [hi x List.mem_cons_self]), insertMulti_eq, insertUniq_eq]
    exact this

theorem pair_mapItems {k t : Ty} (multi : Bool) (xs acc : List (Val × Val))
    (h : ∀ q ∈ xs, Pair H HT ρ (sw 0 (.pair k t) (.tup [q.1, q.2])) (sr 0 (.pair k t) (E.valInit (.pair k t)))
      (.tup [q.1.rename ρ, q.2.rename ρ]) (fun a => a ∈ q.1.refs ∨ a ∈ q.2.refs))
    (hi : ∀ q ∈ xs, q.1.hasIndet = false ∧ q.2.hasIndet = false) :
    Pair H HT ρ (writeEntries sw k t xs) (readMapItems E sr multi k t xs.length acc)
      ((xs.map fun q => (q.1.rename ρ, q.2.rename ρ)).foldl
        (fun a x => if multi then insM (E.lt k) Prod.fst x a else insU (E.lt k) Prod.fst x a) acc)
      (fun a => ∃ q ∈ xs, a ∈ q.1.refs ∨ a ∈ q.2.refs) := by
  induction xs generalizing acc with
  | nil => exact (Pair.pure _).mono (by simp)
  | cons x xs ih =>
    obtain ⟨a, b⟩ := x
    have hx := h (a, b) List.mem_cons_self
    have hia := hi (a, b) List.mem_cons_self
    have := ih (if multi then insM (E.lt k) Prod.fst (a.rename ρ, b.rename ρ) acc
        else insU (E.lt k) Prod.fst (a.rename ρ, b.rename ρ) acc) (fun v hv => h v (List.mem_cons_of_mem _ hv))
      (fun v hv => hi v (List.mem_cons_of_mem _ hv))
    refine (Pair.bind (r2 := fun v => match v with
        | .tup [a, b] =>
          if a.hasIndet || b.hasIndet then M.ub
          else readMapItems E sr multi k t xs.length (if multi then mapInsertMulti (E.lt k) a b acc else mapEmplace (E.lt k) a b acc)
        | _ => M.stuck) hx
      (b := (((a, b) :: xs).map fun q => (q.1.rename ρ, q.2.rename ρ)).foldl
        (fun a x => if multi then insM (E.lt k) Prod.fst x a else insU (E.lt k) Prod.fst x a) acc)
      (R2 := fun a => ∃ q ∈ xs, a ∈ q.1.refs ∨ a ∈ q.2.refs) ?_).mono ?_
    · dsimp only
      rw [if_neg (by simp [Val.hasIndet_rename, hia]), mapInsertMulti_eq, mapEmplace_eq]
      exact this
    · rintro c ⟨q, hq, hc⟩
      rcases List.mem_cons.1 hq with rfl | hq
      · exact .inl hc
      · exact .inr ⟨q, hq, hc⟩

end

/-! ## objects -/

/-- the store after reading the members `Q` -/
def applyRead (ρ : Nat → Nat) (st : Store) : List (Nat × Nat × Field) → Store → Store
  | [], cur => cur
  | q :: Q, cur => applyRead ρ st Q (match st.get? q.2.2.key with
    | some v => cur.set q.2.2.key (v.rename ρ)
    | none => cur)

/-- the members `Q` of `st` can be restored one after another, starting with the content `cur` -/
def FieldsOK (E : Env) (HT : Nat → Option Ty) (ρ : Nat → Nat) (st : Store) : List (Nat × Nat × Field) → Store → Prop
  | [], _ => True
  | q :: Q, cur => ∃ p v, cur.get? q.2.2.key = some p ∧ st.get? q.2.2.key = some v ∧
      BRepr E HT ρ q.1 q.2.1 q.2.2.ty p v ∧ FieldsOK E HT ρ st Q (cur.set q.2.2.key (v.rename ρ))

theorem applyRead_append (st : Store) (Q1 Q2 : List (Nat × Nat × Field)) (cur : Store) :
    applyRead ρ st (Q1 ++ Q2) cur = applyRead ρ st Q2 (applyRead ρ st Q1 cur) := by
  induction Q1 generalizing cur with
  | nil => rfl
  | cons q Q1 ih => exact ih _

theorem FieldsOK_append {st : Store} {Q1 Q2 : List (Nat × Nat × Field)} {cur : Store}
    (h : FieldsOK E HT ρ st (Q1 ++ Q2) cur) :
    FieldsOK E HT ρ st Q1 cur ∧ FieldsOK E HT ρ st Q2 (applyRead ρ st Q1 cur) := by
  induction Q1 generalizing cur with
  | nil => exact ⟨trivial, h⟩
  | cons q Q1 ih =>
    obtain ⟨p, v, h1, h2, h3, h4⟩ := h
    obtain ⟨i1, i2⟩ := ih h4
    refine ⟨⟨p, v, h1, h2, h3, i1⟩, ?_⟩
    unfold applyRead
    rw [h2]
    exact i2

/-- references in the members `Q` -/
def refsOf (st : Store) (Q : List (Nat × Nat × Field)) (a : Nat) : Prop :=
  ∃ q ∈ Q, ∃ v, st.get? q.2.2.key = some v ∧ a ∈ v.refs

theorem FieldsOK.mem {st : Store} {Q : List (Nat × Nat × Field)} {cur : Store} (h : FieldsOK E HT ρ st Q cur) :
    ∀ q ∈ Q, ∃ v, st.get? q.2.2.key = some v := by
  induction Q generalizing cur with
  | nil => intro q hq; cases hq
  | cons q Q ih =>
    obtain ⟨p, v, h1, h2, h3, h4⟩ := h
    intro q' hq'
    rcases List.mem_cons.1 hq' with rfl | hq'
    · exact ⟨v, h2⟩
    · exact ih h4 q' hq'

section
variable {sw : Nat → Ty → Val → WM Unit} {sr : Nat → Ty → Val → RM Val}

theorem guard_all (version : Nat) : (⟨0, 0⟩ : Guard).holds version = true := rfl

theorem writeFields_active (version : Nat) (fs : List (Guard × Field)) (st : Store) :
    writeFields sw version fs st = writeFields sw version ((activeFields version fs).map fun f => (⟨0, 0⟩, f)) st := by
  induction fs with
  | nil => rfl
  | cons gf fs ih =>
    obtain ⟨g, f⟩ := gf
    unfold activeFields at ih ⊢
    rw [List.filter_cons]
    by_cases hg : g.holds version = true
    · rw [if_pos hg, List.map_cons, List.map_cons, writeFields, writeFields, if_pos hg, if_pos (guard_all _), ih]
    · rw [if_neg hg, writeFields, if_neg hg, ih]

theorem readFields_active (version : Nat) (fs : List (Guard × Field)) (st : Store) :
    readFields sr version fs st = readFields sr version ((activeFields version fs).map fun f => (⟨0, 0⟩, f)) st := by
  induction fs generalizing st with
  | nil => rfl
  | cons gf fs ih =>
    obtain ⟨g, f⟩ := gf
    unfold activeFields at ih ⊢
    rw [List.filter_cons]
    by_cases hg : g.holds version = true
    · rw [if_pos hg, List.map_cons, List.map_cons, readFields, readFields, if_pos hg, if_pos (guard_all _)]
      simp only [ih]
    · rw [if_neg hg, readFields, if_neg hg, ih]

theorem pair_fields (hs : ∀ vw vr t p v, BRepr E HT ρ vw vr t p v →
      Pair H HT ρ (sw vw t v) (sr vr t p) (v.rename ρ) (· ∈ v.refs)) (vw vr : Nat) (fs : List Field) (st cur : Store)
    (h : FieldsOK E HT ρ st (fs.map fun f => (vw, vr, f)) cur) :
    Pair H HT ρ (writeFields sw vw (fs.map fun f => (⟨0, 0⟩, f)) st) (readFields sr vr (fs.map fun f => (⟨0, 0⟩, f)) cur)
      (applyRead ρ st (fs.map fun f => (vw, vr, f)) cur) (refsOf st (fs.map fun f => (vw, vr, f))) := by
  induction fs generalizing cur with
  | nil => exact (Pair.pure _).mono (by rintro b ⟨q, hq, -⟩; cases hq)
  | cons f fs ih =>
    obtain ⟨p, v, h1, h2, h3, h4⟩ := h
    simp only at h1 h2 h3 h4
    simp only [List.map_cons, writeFields, readFields, applyRead]
    rw [if_pos (guard_all _), if_pos (guard_all _), h1, h2]
    dsimp only
    refine (Pair.bind (hs _ _ _ _ _ h3) (ih _ h4)).mono ?_
    rintro b ⟨q, hq, x, hx, hb⟩
    rcases List.mem_cons.1 hq with rfl | hq
    · simp only at hx
      rw [h2] at hx
      cases hx
      exact .inl hb
    · exact .inr ⟨q, hq, x, hx, hb⟩

theorem pair_bases {vw vr : Nat} {bs : List ClassId} {Q : List (Nat × Nat × Field)} (hf : FlatBin E vw vr bs Q) (st : Store)
    (hs : ∀ c Q, FlatBin E vw vr [c] Q → ∀ cur, FieldsOK E HT ρ st Q cur →
      Pair H HT ρ (sw vw (.cls c) (.obj st)) (sr vr (.cls c) (.obj cur)) (.obj (applyRead ρ st Q cur)) (refsOf st Q))
    (cur : Store) (h : FieldsOK E HT ρ st Q cur) :
    Pair H HT ρ (writeBases sw vw bs (.obj st)) (readBases sr vr bs (.obj cur)) (.obj (applyRead ρ st Q cur)) (refsOf st Q) := by
  induction bs generalizing cur Q with
  | nil => cases hf; exact (Pair.pure _).mono (by rintro b ⟨q, hq, -⟩; cases hq)
  | cons c bs ih =>
    -- split off the first class
    have hsplit : ∃ Q1 Q2, Q = Q1 ++ Q2 ∧ FlatBin E vw vr [c] Q1 ∧ FlatBin E vw vr bs Q2 := by
      cases hf with
      | plain h1 h2 h3 h4 h5 h6 => exact ⟨_, _, rfl, by simpa using FlatBin.plain h1 h2 h3 h4 h5 (.nil _ _), h6⟩
      | versioned eff h1 h2 h3 h4 h5 h6 h7 h8 =>
        exact ⟨_, _, rfl, by simpa using FlatBin.versioned eff h1 h2 h3 h4 h5 h6 h7 (.nil _ _), h8⟩
    obtain ⟨Q1, Q2, rfl, f1, f2⟩ := hsplit
    obtain ⟨k1, k2⟩ := FieldsOK_append h
    refine (Pair.bind (hs c Q1 f1 cur k1) (ih f2 _ k2)).mono ?_ |> fun h => by rwa [applyRead_append]
    rintro b ⟨q, hq, x, hx, hb⟩
    rcases List.mem_append.1 hq with hq | hq
    · exact .inl ⟨q, hq, x, hx, hb⟩
    · exact .inr ⟨q, hq, x, hx, hb⟩

theorem pair_class (hs : ∀ vw vr t p v, BRepr E HT ρ vw vr t p v →
      Pair H HT ρ (sw vw t v) (sr vr t p) (v.rename ρ) (· ∈ v.refs)) (st : Store)
    (hs' : ∀ vw vr c Q, FlatBin E vw vr [c] Q → ∀ cur, FieldsOK E HT ρ st Q cur →
      Pair H HT ρ (sw vw (.cls c) (.obj st)) (sr vr (.cls c) (.obj cur)) (.obj (applyRead ρ st Q cur)) (refsOf st Q))
    {vw vr : Nat} {c : ClassId} {ci : ClassInfo} (hc : E.cls c = some ci) {Q : List (Nat × Nat × Field)}
    (hf : FlatBin E vw vr [c] Q) (cur : Store) (h : FieldsOK E HT ρ st Q cur) :
    ∃ ver, Pair H HT ρ (writeClass sw ci vw st) (readClass sr ci vr (.obj cur)) (.obj (applyRead ρ st Q cur), ver) (refsOf st Q) ∧
      ver = match ci.bin.version with
        | none => vr
        | some m => if vw = 0 then m else vw := by
  have hR : ∀ {Q1 Q2 : List (Nat × Nat × Field)} b, refsOf st (Q1 ++ Q2 ++ []) b → refsOf st Q1 b ∨ False ∨ refsOf st Q2 b := by
    rintro Q1 Q2 b ⟨q, hq, x, hx, hb⟩
    rw [List.append_nil] at hq
    rcases List.mem_append.1 hq with hq | hq
    · exact .inl ⟨q, hq, x, hx, hb⟩
    · exact .inr (.inr ⟨q, hq, x, hx, hb⟩)
  cases hf with
  | plain h1 h2 h3 h4 h5 h6 =>
    cases h6
    rw [hc] at h1
    cases h1
    rw [List.append_nil] at h
    obtain ⟨k1, k2⟩ := FieldsOK_append h
    refine ⟨vr, ?_, by rw [h3]⟩
    unfold writeClass readClass
    rw [if_neg (by simp [h2]), h3, writeVersion, effVersion, writeFields_active, h5]
    refine (Pair.bind (pair_bases h4 st (fun c Q => hs' _ _ c Q) cur k1) (b := (_, vr)) (R2 := fun b => False ∨ refsOf st _ b) ?_).mono hR
    dsimp only
    refine Pair.bind (R1 := fun _ => False) (a := vr) ?_ ?_
    · simp only [readVersion, h3]
      exact Pair.pure vr
    · rw [readFields_active, List.append_nil, applyRead_append]
      exact Pair.map (fun x => (Val.obj x, vr)) (pair_fields hs vw vr _ st _ k2)
  | versioned eff h1 h2 h3 h4 h5 h6 h7 h8 =>
    cases h8
    rw [hc] at h1
    cases h1
    rw [List.append_nil] at h
    obtain ⟨k1, k2⟩ := FieldsOK_append h
    refine ⟨eff, ?_, by rw [h3, h4]⟩
    unfold writeClass readClass
    have heff : effVersion ci.bin.version vw = eff := by rw [h3, h4, effVersion]
    rw [if_neg (by simp [h2]), h3, writeVersion, ← h3, heff, writeFields_active, h7]
    refine (Pair.bind (pair_bases h6 st (fun c Q => hs' _ _ c Q) cur k1) (b := (_, eff)) (R2 := fun b => False ∨ refsOf st _ b) ?_).mono hR
    dsimp only
    refine Pair.bind (R1 := fun _ => False) (a := eff) ?_ ?_
    · simp only [readVersion, h3]
      have e : (writeVarint eff >>= fun _ => (Pure.pure () : WM Unit)) = writeVarint eff := M.bind_pure' _
      rw [← e]
      refine (Pair.bind (Pair.varint eff) (R2 := fun _ => False) ?_).mono (fun _ h => False.elim h)
      rw [if_pos h5]
      exact Pair.pure _
    · rw [readFields_active, List.append_nil, applyRead_append]
      exact Pair.map (fun x => (Val.obj x, eff)) (pair_fields hs eff eff _ st _ k2)

end

/-! ### from the specification of objects -/

theorem applyRead_keys (st : Store) (Q : List (Nat × Nat × Field)) (cur : Store) :
    (applyRead ρ st Q cur).map Prod.fst = cur.map Prod.fst := by
  induction Q generalizing cur with
  | nil => rfl
  | cons q Q ih =>
    rw [applyRead, ih]
    split
    · exact set_keys _ _ _
    · rfl

theorem applyRead_get? (st : Store) (Q : List (Nat × Nat × Field)) (cur : Store) (hk : cur.map Prod.fst = st.map Prod.fst)
    (hm : ∀ q ∈ Q, ∃ v, st.get? q.2.2.key = some v) (k : FieldKey) :
    (applyRead ρ st Q cur).get? k = if ∃ q ∈ Q, q.2.2.key = k then (st.get? k).map (Val.rename ρ) else cur.get? k := by
  induction Q generalizing cur with
  | nil => simp [applyRead]
  | cons q Q ih =>
    obtain ⟨v, hv⟩ := hm q List.mem_cons_self
    rw [applyRead, hv]
    dsimp only
    rw [ih _ (by rw [set_keys, hk]) fun q hq => hm q (List.mem_cons_of_mem _ hq)]
    by_cases h1 : ∃ q ∈ Q, q.2.2.key = k
    · rw [if_pos h1, if_pos]
      obtain ⟨q', hq', he⟩ := h1
      exact ⟨q', List.mem_cons_of_mem _ hq', he⟩
    · rw [if_neg h1]
      by_cases h2 : q.2.2.key = k
      · rw [if_pos ⟨q, List.mem_cons_self, h2⟩]
        subst h2
        have : (cur.get? q.2.2.key).isSome := by
          rw [get?_isSome_iff, hk, ← get?_isSome_iff, hv]; rfl
        obtain ⟨p, hp⟩ := Option.isSome_iff_exists.1 this
        rw [get?_set_eq cur hp, hv]
        rfl
      · rw [get?_set_ne _ _ (Ne.symm h2), if_neg]
        rintro ⟨q', hq', he⟩
        rcases List.mem_cons.1 hq' with rfl | hq'
        · exact h2 he
        · exact h1 ⟨q', hq', he⟩

theorem store_map_get? (st : Store) (g : Val → Val) (k : FieldKey) :
    Store.get? (st.map fun q => (q.1, g q.2)) k = (st.get? k).map g := by
  induction st with
  | nil => rfl
  | cons q st ih =>
    obtain ⟨k', v⟩ := q
    simp only [Store.get?, List.map_cons, List.lookup_cons] at ih ⊢
    cases hkk : k == k' with
    | true => rfl
    | false => exact ih

theorem fieldsOK_of {vw vr : Nat} {c : ClassId} {Q : List (Nat × Nat × Field)} {st0 st : Store}
    (_hf : FlatBin E vw vr [c] Q)
    (hk : st0.map Prod.fst = st.map Prod.fst) (hm : ∀ q ∈ Q, ∃ v, st.get? q.2.2.key = some v)
    (h1 : ∀ q ∈ Q, ∀ p v, st0.get? q.2.2.key = some p → st.get? q.2.2.key = some v → BRepr E HT ρ q.1 q.2.1 q.2.2.ty p v)
    (h2 : ∀ q ∈ Q, ∀ v, 2 ≤ (Q.filter fun q' => q'.2.2.key = q.2.2.key).length → st.get? q.2.2.key = some v →
        BRepr E HT ρ q.1 q.2.1 q.2.2.ty (v.rename ρ) v) : FieldsOK E HT ρ st Q st0 := by
  suffices h : ∀ Q1 Q2, Q = Q1 ++ Q2 → FieldsOK E HT ρ st Q2 (applyRead ρ st Q1 st0) from h [] Q rfl
  intro Q1 Q2 he
  induction Q2 generalizing Q1 with
  | nil => trivial
  | cons q Q2 ih =>
    have hq : q ∈ Q := by rw [he]; simp
    obtain ⟨v, hv⟩ := hm q hq
    have hm1 : ∀ q ∈ Q1, ∃ v, st.get? q.2.2.key = some v := fun q hq => hm q (by rw [he]; simp [hq])
    have hget := applyRead_get? (ρ := ρ) st Q1 st0 hk hm1 q.2.2.key
    have hnext := ih (Q1 ++ [q]) (by rw [he]; simp)
    rw [applyRead_append, applyRead, hv] at hnext
    by_cases hd : ∃ q' ∈ Q1, q'.2.2.key = q.2.2.key
    · rw [if_pos hd, hv] at hget
      refine ⟨_, v, hget, hv, h2 q hq v ?_ hv, hnext⟩
      obtain ⟨q', hq', he'⟩ := hd
      rw [he, List.filter_append, List.length_append, List.filter_cons, if_pos (by simp)]
      have : 0 < (Q1.filter fun q'' => q''.2.2.key = q.2.2.key).length :=
        List.length_pos_of_mem (List.mem_filter.2 ⟨hq', by simp [he']⟩)
      simp only [List.length_cons]
      omega
    · rw [if_neg hd] at hget
      have : (st0.get? q.2.2.key).isSome := by
        rw [get?_isSome_iff, hk, ← get?_isSome_iff, hv]; rfl
      obtain ⟨p, hp⟩ := Option.isSome_iff_exists.1 this
      rw [hp] at hget
      exact ⟨p, v, hget, hv, h1 q hq p v hp hv, hnext⟩

theorem applyRead_final {Q : List (Nat × Nat × Field)} {st0 st : Store}
    (hk : st0.map Prod.fst = st.map Prod.fst) (hn : (st.map Prod.fst).Nodup) (hm : ∀ q ∈ Q, ∃ v, st.get? q.2.2.key = some v)
    (h3 : ∀ k, (∀ q ∈ Q, q.2.2.key ≠ k) → st0.get? k = st.get? k ∧ ∀ v, st.get? k = some v → v.refs = []) :
    Val.obj (applyRead ρ st Q st0) = (Val.obj st).rename ρ := by
  rw [Val.rename, Val.renameF_eq]
  congr 1
  refine store_ext _ _ ?_ ?_ fun k => ?_
  · rw [applyRead_keys, hk, List.map_map]
    rfl
  · rw [applyRead_keys, hk]; exact hn
  · rw [applyRead_get? st Q st0 hk hm, store_map_get?]
    split
    · rfl
    · rename_i h
      obtain ⟨e1, e2⟩ := h3 k fun q hq he => h ⟨q, hq, he⟩
      rw [e1]
      cases hv : st.get? k with
      | none => rfl
      | some v => rw [Option.map_some, Val.rename_of_noRef ρ v (e2 v hv)]

theorem store_mem_get? {st : Store} (hn : (st.map Prod.fst).Nodup) {q : FieldKey × Val} (hq : q ∈ st) :
    st.get? q.1 = some q.2 := by
  induction st with
  | nil => cases hq
  | cons a st ih =>
    obtain ⟨k, v⟩ := a
    rw [List.map_cons, List.nodup_cons] at hn
    rcases List.mem_cons.1 hq with rfl | hq'
    · simp [Store.get?]
    · have hne : q.1 ≠ k := by
        intro he
        exact hn.1 (List.mem_map.2 ⟨q, hq', he⟩)
      have := ih hn.2 hq'
      simp only [Store.get?] at this ⊢
      rw [List.lookup_cons]
      have : (q.1 == k) = false := by simpa using hne
      rw [this]
      assumption

/-! ## shared pointers -/

theorem ofBE_beBytes8 {a : Nat} (h : a < 2 ^ 64) : ofBE (beBytes 8 a) = a := by
  rw [ofBE_beBytes, Nat.mod_eq_of_lt (by simpa using h)]

theorem sptrMode_spec (written big : Bool) :
    sptrMode written big < 256 ∧ sptrMode written big ≠ 0 ∧ (sptrMode written big &&& 4 ≠ 0 ↔ big = true) ∧
      (sptrMode written big &&& 3 = 1 ↔ written = false) := by
  cases written <;> cases big <;> decide

theorem pair_id {a : Nat} (ha : a < 2 ^ 64) (written : Bool) :
    Pair H HT ρ (writeId a) (if sptrMode written (bigId a) &&& 4 ≠ 0 then (do let bs ← takeBytes 8; pure (ofBE bs)) else readVarint)
      a (fun _ => False) := by
  obtain ⟨-, -, h, -⟩ := sptrMode_spec written (bigId a)
  unfold writeId
  by_cases hb : bigId a = true
  · rw [if_pos (h.2 hb), if_pos hb]
    have := Pair.map (fun bs => ofBE bs) (Pair.emit (H := H) (HT := HT) (ρ := ρ) (k := 8) (beBytes 8 a) (beBytes_length _ _))
    rwa [ofBE_beBytes8 ha] at this
  · rw [if_neg (mt h.1 hb), if_neg hb]
    exact Pair.varint a

theorem pair_sptr {sw : Nat → Ty → Val → WM Unit} {sr : Nat → Ty → Val → RM Val} {t : Ty} {a vw vr : Nat} {p : Val}
    (ha : HT a = some t) (h64 : a < 2 ^ 64)
    (hs : ∃ v, H a = some v ∧ Pair H HT ρ (sw 0 t v) (sr 0 t (E.valInit t)) (v.rename ρ) (· ∈ v.refs)) :
    Pair H HT ρ (writeStep E H sw vw (.sptr t) (.ref a)) (readStep E sr vr (.sptr t) p) (.ref (ρ a)) (· = a) := by
  obtain ⟨v, hv, hp⟩ := hs
  intro ws ws' hw
  simp only [writeStep] at hw
  have h0 : alreadyWritten a ws = .ok (decide (a ∈ ws.seen)) ws := rfl
  rw [M.bind_ok h0] at hw
  generalize hwr : decide (a ∈ ws.seen) = written at hw
  obtain ⟨m1, m2, m3, m4⟩ := sptrMode_spec written (bigId a)
  -- mode and identifier
  have hhead := Pair.bind (w2 := writeId a) (r2 := fun mode => if mode &&& 4 ≠ 0 then (do let bs ← takeBytes 8; pure (ofBE bs)) else readVarint)
    (Pair.byte (H := H) (HT := HT) (ρ := ρ) (sptrMode written (bigId a)) m1) (pair_id h64 written)
  rw [M.bind_eq_ok] at hw
  obtain ⟨⟨⟩, wsa, hw1, hw⟩ := hw
  rw [M.bind_eq_ok] at hw
  obtain ⟨⟨⟩, ws1, hw2, hw⟩ := hw
  have hw12 : (writeByte (sptrMode written (bigId a)) >>= fun _ => writeId a) ws = .ok () ws1 := by
    rw [M.bind_ok hw1]; exact hw2
  obtain ⟨s1, b1, o1, c1⟩ := hhead _ _ hw12
  have hseen1 : ws1.seen = ws.seen := by
    have e1 : wsa.seen = ws.seen := by cases hw1; rfl
    have e2 : ws1.seen = wsa.seen := by
      unfold writeId at hw2
      split at hw2
      · cases hw2; rfl
      · obtain ⟨L, -, rfl⟩ := writeVarint_ok hw2; rfl
    rw [e2, e1]
  -- the reader up to here
  have hread : ∀ rs rs1 : RSt, (readByte >>= fun mode => if mode &&& 4 ≠ 0 then (do let bs ← takeBytes 8; pure (ofBE bs)) else readVarint) rs
      = .ok a rs1 → ∀ rs0, readByte rs = .ok (sptrMode written (bigId a)) rs0 →
      readStep E sr vr (.sptr t) p rs =
      (if written = false then (do
        let addr ← allocShared a t (E.valInit t)
        let v ← sr 0 t (E.valInit t)
        storeShared addr v
        pure (Val.ref addr) : RM Val)
      else (do
        let addr ← lookupShared a t
        pure (Val.ref addr) : RM Val)) rs1 := by
    intro rs rs1 hr rs0 hr0
    rw [M.bind_ok hr0] at hr
    simp only [readStep]
    rw [M.bind_ok hr0, if_neg m2, M.bind_ok hr]
    by_cases hwf : written = false
    · rw [if_pos (m4.2 hwf), if_pos hwf]
    · rw [if_neg (mt m4.1 hwf), if_neg hwf]
  have hbyte : ∀ rs rest, rs.inp = b1 ++ rest → ∃ rs0, readByte rs = .ok (sptrMode written (bigId a)) rs0 := by
    intro rs rest hi
    have hb := o1
    obtain ⟨sx, bx, ox, cx⟩ := Pair.byte (H := H) (HT := HT) (ρ := ρ) (sptrMode written (bigId a)) m1 _ _ hw1
    have : ∃ b2, b1 = bx ++ b2 := by
      have hout : ∃ b2, ws1.out = wsa.out ++ b2 := by
        unfold writeId at hw2
        split at hw2
        · cases hw2; exact ⟨_, rfl⟩
        · obtain ⟨L, -, rfl⟩ := writeVarint_ok hw2; exact ⟨_, rfl⟩
      obtain ⟨b2, hb2⟩ := hout
      refine ⟨b2, ?_⟩
      rw [hb2, ox, List.append_assoc] at o1
      exact (List.append_cancel_left o1).symm
    obtain ⟨b2, rfl⟩ := this
    have hbx : bx = [UInt8.ofNat (sptrMode written (bigId a))] := by
      cases hw1
      exact (List.append_cancel_left ox).symm
    subst hbx
    refine ⟨{ rs with inp := b2 ++ rest }, ?_⟩
    have h1 := takeBytes_append [UInt8.ofNat (sptrMode written (bigId a))] (b2 ++ rest) rs 1 rfl
    have hi' : rs.inp = [UInt8.ofNat (sptrMode written (bigId a))] ++ (b2 ++ rest) := by rw [hi, List.append_assoc]
    rw [← hi'] at h1
    unfold readByte
    rw [M.bind_ok h1]
    have : ofBE [UInt8.ofNat (sptrMode written (bigId a))] = sptrMode written (bigId a) := by
      simp [ofBE]; omega
    rw [this]
    rfl
  cases written with
  | true =>
    have hmem : a ∈ ws.seen := by simpa using hwr
    rw [if_pos rfl] at hw
    cases hw
    refine ⟨s1, b1, o1, fun hag rs rest hi hc => ?_⟩
    obtain ⟨-, rs1, e2, e3, e4, e5, e6⟩ := c1 hag rs rest hi hc
    obtain ⟨rs0, hr0⟩ := hbyte rs rest hi
    refine ⟨fun b hb => by subst hb; exact s1.subset hmem, rs1, ?_, e3, e4, e5, e6⟩
    rw [hread rs rs1 e2 rs0 hr0, if_neg (by simp)]
    obtain ⟨t', ht', hl⟩ := e4.typed a (s1.subset hmem)
    rw [ha] at ht'
    cases ht'
    have : lookupShared a t rs1 = .ok (ρ a) rs1 := by
      simp only [lookupShared, hl]
      rw [if_pos trivial, hag a (s1.subset hmem)]
    rw [M.bind_ok this]
    rfl
  | false =>
    have hmem : a ∉ ws.seen := by simpa using hwr
    have h00 : markWritten a ws1 = .ok () { ws1 with seen := a :: ws1.seen } := rfl
    rw [if_neg (by simp), M.bind_ok h00, hv] at hw
    dsimp only at hw
    obtain ⟨s2, b2, o2, c2⟩ := hp _ _ hw
    have o2 : ws'.out = ws1.out ++ b2 := o2
    have s2 : a :: ws1.seen <:+ ws'.seen := s2
    have s12 : ws.seen <:+ ws'.seen := by
      rw [hseen1] at s2
      exact (List.suffix_cons a ws.seen).trans s2
    refine ⟨s12, b1 ++ b2, by rw [o2, o1, List.append_assoc], fun {base} hag rs rest hi hc => ?_⟩
    have hag1 : Agrees base ρ ws1.seen := hag.suffix ((List.suffix_cons a ws1.seen).trans s2)
    obtain ⟨-, rs1, e2, e3, e4, e5, e6⟩ := c1 hag1 rs (b2 ++ rest) (by rw [hi, List.append_assoc]) hc
    obtain ⟨rs0, hr0⟩ := hbyte rs (b2 ++ rest) (by rw [hi, List.append_assoc])
    -- allocation
    let rs2 : RSt := { rs1 with table := (a, t, rs1.heap.length) :: rs1.table, heap := rs1.heap ++ [E.valInit t] }
    have hal : allocShared a t (E.valInit t) rs1 = .ok rs1.heap.length rs2 := rfl
    have hmem1 : a ∉ ws1.seen := by rwa [hseen1]
    have hc2 : Corr base HT (a :: ws1.seen) rs2 := by
      refine ⟨List.nodup_cons.2 ⟨hmem1, e4.nodup⟩, (by simp [rs2, e4.len, Nat.add_assoc]), fun b hb => ?_⟩
      rcases List.mem_cons.1 hb with rfl | hb1
      · refine ⟨t, ha, ?_⟩
        simp only [rs2, List.lookup_cons_self, List.reverse_cons]
        rw [List.idxOf_append_of_notMem (by simpa using hmem1), e4.len]
        simp
      · obtain ⟨t', h1, h2⟩ := e4.typed b hb1
        refine ⟨t', h1, ?_⟩
        have hne : b ≠ a := by rintro rfl; exact hmem1 hb1
        simp only [rs2, List.lookup_cons, List.reverse_cons]
        have hbeq : (b == a) = false := by simpa using hne
        rw [hbeq, h2, List.idxOf_append_of_mem (by simpa using hb1)]
    obtain ⟨f1, rs3, f2, f3, f4, f5, f6⟩ := c2 hag rs2 rest e3 hc2
    have f4 : Corr base HT ws'.seen rs3 := f4
    have f6 : ∀ b ∈ ws'.seen, b ∉ a :: ws1.seen → ∃ v, H b = some v ∧ rs3.heap[ρ b]? = some (v.rename ρ) ∧
          ∀ c ∈ v.refs, c ∈ ws'.seen := f6
    have haseen : a ∈ ws'.seen := s2.subset List.mem_cons_self
    have hρa : ρ a = rs1.heap.length := by
      rw [(hag.suffix s2) a List.mem_cons_self, List.reverse_cons, List.idxOf_append_of_notMem (by simpa using hmem1), e4.len]
      simp
    have hlen3 : rs1.heap.length < rs3.heap.length := by
      rw [f4.len, e4.len]
      have := s2.length_le
      simp at this
      omega
    let rs4 : RSt := { rs3 with heap := rs3.heap.set rs1.heap.length (v.rename ρ) }
    have hst : storeShared rs1.heap.length (v.rename ρ) rs3 = .ok () rs4 := rfl
    refine ⟨fun b hb => by subst hb; exact haseen, rs4, ?_, f3, ?_, ?_, ?_⟩
    · rw [hread rs rs1 e2 rs0 hr0, if_pos rfl, M.bind_ok hal, M.bind_ok f2, M.bind_ok hst, hρa]
      rfl
    · exact ⟨f4.nodup, by simp [rs4, f4.len], f4.typed⟩
    · intro i hi'
      have hi1 : i < rs1.heap.length := by
        rw [e4.len, hseen1, ← hc.len]; exact hi'
      simp only [rs4]
      rw [List.getElem?_set_ne (by omega), f5 i (by simp [rs2]; omega)]
      simp only [rs2]
      rw [List.getElem?_append_left hi1, e5 i hi']
    · intro b hb hb'
      by_cases hba : b = a
      · subst hba
        refine ⟨v, hv, ?_, f1⟩
        simp only [rs4]
        rw [hρa, List.getElem?_set_self hlen3]
      · obtain ⟨x, g1, g2, g3⟩ := f6 b hb (by rw [hseen1]; simp [hba, hb'])
        refine ⟨x, g1, ?_, g3⟩
        simp only [rs4]
        rw [List.getElem?_set_ne, g2]
        rw [← hρa]
        exact fun h => hba (hag.inj hb haseen h.symm)


/-! ## all types -/

theorem forall2_of_getElem? {R : Val → Val → Prop} (ps vs : List Val) (hl : ps.length = vs.length)
    (h : ∀ (i : Nat) p v, ps[i]? = some p → vs[i]? = some v → R p v) : List.Forall₂ R ps vs := by
  induction ps generalizing vs with
  | nil =>
    cases vs with
    | nil => exact .nil
    | cons v vs => simp at hl
  | cons p ps ih =>
    cases vs with
    | nil => simp at hl
    | cons v vs =>
      refine .cons (h 0 p v rfl rfl) (ih vs (by simpa using hl) fun i p v h1 h2 => h (i + 1) p v (by simpa using h1) (by simpa using h2))

theorem resize_length (ps : List Val) (n : Nat) (x : Val) : (resize ps n x).length = n := by
  simp [resize]
  omega

theorem resize_getElem? (ps : List Val) (n : Nat) (x : Val) (i : Nat) (hi : i < n) :
    (resize ps n x)[i]? = some ((ps[i]?).getD x) := by
  unfold resize
  by_cases h : i < ps.length
  · rw [List.getElem?_append_left (by simp; omega), List.getElem?_take_of_lt hi]
    simp [h]
  · rw [List.getElem?_append_right (by simp; omega), List.getElem?_replicate, if_pos (by simp; omega)]
    rw [List.getElem?_eq_none (by omega)]
    rfl

/-- the members the code of one class handles -/
theorem flatBin_cls {vw vr : Nat} {c : ClassId} {Q : List (Nat × Nat × Field)} (h : FlatBin E vw vr [c] Q) :
    ∃ ci, E.cls c = some ci := by
  cases h with
  | plain h1 => exact ⟨_, h1⟩
  | versioned _ h1 => exact ⟨_, h1⟩

theorem rename_pairwise {k : Ty} {kvs : List (Val × Val)} (h3 : ∀ q ∈ kvs, q.1.refs = [])
    (h : kvs.Pairwise fun a b => E.lt k a.1 b.1 = true) :
    (kvs.map fun q => (q.1.rename ρ, q.2.rename ρ)).Pairwise fun a b => E.lt k a.1 b.1 = true := by
  rw [List.pairwise_map]
  refine h.imp_of_mem fun ha hb h => ?_
  rw [Val.rename_of_noRef ρ _ (h3 _ ha), Val.rename_of_noRef ρ _ (h3 _ hb)]
  exact h

theorem rename_pairwise' {k : Ty} {kvs : List (Val × Val)} (h3 : ∀ q ∈ kvs, q.1.refs = [])
    (h : kvs.Pairwise fun a b => E.lt k b.1 a.1 = false) :
    (kvs.map fun q => (q.1.rename ρ, q.2.rename ρ)).Pairwise fun a b => E.lt k b.1 a.1 = false := by
  rw [List.pairwise_map]
  refine h.imp_of_mem fun ha hb h => ?_
  rw [Val.rename_of_noRef ρ _ (h3 _ ha), Val.rename_of_noRef ρ _ (h3 _ hb)]
  exact h

theorem groupBy_rename {k : Ty} (x : Val) (kvs : List (Val × Val)) (h3 : ∀ q ∈ kvs, q.1.refs = []) :
    groupBy (E.lt k) Prod.fst x (kvs.map fun q => (q.1.rename ρ, q.2.rename ρ)) =
      (groupBy (E.lt k) Prod.fst x kvs).map fun q => (q.1.rename ρ, q.2.rename ρ) := by
  unfold groupBy
  rw [List.filter_map]
  congr 1
  refine List.filter_congr fun q hq => ?_
  simp only [Function.comp]
  congr 2
  exact Val.rename_of_noRef ρ q.1 (h3 q hq)

theorem pair_entry {n : Nat} (ihA : ∀ vw vr t p v, BRepr E HT ρ vw vr t p v →
      Pair H HT ρ (write E H n vw t v) (read E n vr t p) (v.rename ρ) (· ∈ v.refs)) {k t : Ty} {q : Val × Val}
    (h1 : BRepr E HT ρ 0 0 k (E.valInit k) q.1) (h2 : BRepr E HT ρ 0 0 t (E.valInit t) q.2) :
    Pair H HT ρ (write E H n 0 (.pair k t) (.tup [q.1, q.2])) (read E n 0 (.pair k t) (E.valInit (.pair k t)))
      (.tup [q.1.rename ρ, q.2.rename ρ]) (fun a => a ∈ q.1.refs ∨ a ∈ q.2.refs) := by
  refine (ihA 0 0 (.pair k t) (E.valInit (.pair k t)) (.tup [q.1, q.2]) ?_).mono fun b hb => ?_
  · rw [Env.valInit]
    exact .pair h1 h2
  · simpa [Val.refs, Val.refsL] using hb

theorem pair_all (hH : HeapRepr E H HT ρ) (n : Nat) :
    (∀ vw vr t p v, BRepr E HT ρ vw vr t p v → Pair H HT ρ (write E H n vw t v) (read E n vr t p) (v.rename ρ) (· ∈ v.refs)) ∧
    (∀ st vw vr c Q, FlatBin E vw vr [c] Q → ∀ cur, FieldsOK E HT ρ st Q cur →
      Pair H HT ρ (write E H n vw (.cls c) (.obj st)) (read E n vr (.cls c) (.obj cur)) (.obj (applyRead ρ st Q cur)) (refsOf st Q)) := by
  induction n with
  | zero => exact ⟨fun _ _ _ _ _ _ => .fail (by intro _ _ h; cases h), fun _ _ _ _ _ _ _ _ => .fail (by intro _ _ h; cases h)⟩
  | succ n ih =>
    obtain ⟨ihA, ihB⟩ := ih
    have hB : ∀ st vw vr c Q, FlatBin E vw vr [c] Q → ∀ cur, FieldsOK E HT ρ st Q cur →
        Pair H HT ρ (write E H (n + 1) vw (.cls c) (.obj st)) (read E (n + 1) vr (.cls c) (.obj cur))
          (.obj (applyRead ρ st Q cur)) (refsOf st Q) := by
      intro st vw vr c Q hf cur hk
      obtain ⟨ci, hc⟩ := flatBin_cls hf
      obtain ⟨ver, hp, -⟩ := pair_class ihA st (ihB st) hc hf cur hk
      simp only [write, read, writeStep, readStep, hc]
      exact Pair.map Prod.fst hp
    refine ⟨?_, hB⟩
    intro vw vr t p v h
    have nil : ∀ {α : Type} {w : WM Unit} {r : RM α} {a : α} {R : Nat → Prop}, Pair H HT ρ w r a (fun _ => False) →
        (∀ b, ¬ R b) → Pair H HT ρ w r a R := fun h hn => h.mono fun b hb => hn b hb
    cases h with
    | bool _ _ _ b =>
      simp only [write, read, writeStep, readStep]
      exact nil (Pair.map Val.bool (Pair.boolByte b)) (by simp [Val.refs])
    | int _ _ _ i it h1 h2 h3 =>
      simp only [write, read, writeStep, readStep, if_neg h1]
      exact nil (Pair.map Val.int (Pair.int it i h2 h3)) (by simp [Val.refs])
    | f32 _ _ _ b =>
      simp only [write, read, writeStep, readStep]
      have := Pair.map (fun bs => Val.f32 (BitVec.ofNat 32 (ofBE bs)))
        (Pair.emit (H := H) (HT := HT) (ρ := ρ) (k := 4) (beBytes 4 b.toNat) (beBytes_length _ _))
      rw [ofBE_beBytes, Nat.mod_eq_of_lt (by have := b.isLt; simpa using this), BitVec.ofNat_toNat, BitVec.setWidth_eq] at this
      exact nil this (by simp [Val.refs])
    | f64 _ _ _ b =>
      simp only [write, read, writeStep, readStep]
      have := Pair.map (fun bs => Val.f64 (BitVec.ofNat 64 (ofBE bs)))
        (Pair.emit (H := H) (HT := HT) (ρ := ρ) (k := 8) (beBytes 8 b.toNat) (beBytes_length _ _))
      rw [ofBE_beBytes, Nat.mod_eq_of_lt (by have := b.isLt; simpa using this), BitVec.ofNat_toNat, BitVec.setWidth_eq] at this
      exact nil this (by simp [Val.refs])
    | enum _ _ _ i u h1 h2 h3 =>
      simp only [write, read, writeStep, readStep]
      exact ihA _ _ _ _ _ (.int 0 0 .indet i u h1 h2 h3)
    | str _ _ _ s hs =>
      simp only [write, read, writeStep, readStep]
      refine nil ((Pair.bind (Pair.varint s.length) (R2 := fun _ => False) ?_).mono (fun _ h => False.elim h)) (by simp [Val.refs])
      rw [if_neg (by omega)]
      exact Pair.map Val.str (Pair.emit s rfl)
    | dateTime _ _ _ i h1 h2 =>
      simp only [write, read, writeStep, readStep]
      exact nil (Pair.map Val.tick (Pair.int .u64 i h1 h2)) (by simp [Val.refs])
    | timeSpan _ _ _ i h1 h2 =>
      simp only [write, read, writeStep, readStep]
      exact nil (Pair.map Val.tick (Pair.int .i64 i h1 h2)) (by simp [Val.refs])
    | optNone _ _ t =>
      simp only [write, read, writeStep, readStep]
      have e : (emit [0] : WM Unit) = (emit [if false then 1 else 0] >>= fun _ => (Pure.pure () : WM Unit)) := (M.bind_pure' _).symm
      rw [e]
      refine nil ((Pair.bind (Pair.boolByte false) (R2 := fun _ => False) ?_).mono (fun _ h => False.elim h)) (by simp [Val.refs])
      rw [if_neg (by simp)]
      exact Pair.pure _
    | uptrNone _ _ t =>
      simp only [write, read, writeStep, readStep]
      have e : (emit [0] : WM Unit) = (emit [if false then 1 else 0] >>= fun _ => (Pure.pure () : WM Unit)) := (M.bind_pure' _).symm
      rw [e]
      refine nil ((Pair.bind (Pair.boolByte false) (R2 := fun _ => False) ?_).mono (fun _ h => False.elim h)) (by simp [Val.refs])
      rw [if_neg (by simp)]
      exact Pair.pure _
    | sptrNone _ _ t =>
      simp only [write, read, writeStep, readStep]
      have e : writeByte 0 = (writeByte 0 >>= fun _ => (Pure.pure () : WM Unit)) := (M.bind_pure' _).symm
      rw [e]
      refine nil ((Pair.bind (Pair.byte 0 (by decide)) (R2 := fun _ => False) ?_).mono (fun _ h => False.elim h)) (by simp [Val.refs])
      rw [if_pos rfl]
      exact Pair.pure _
    | @optSome _ _ t _ v h =>
      simp only [write, read, writeStep, readStep]
      exact (Pair.bind (Pair.boolByte true) (Pair.map Val.some (ihA _ _ _ _ _ h))).mono fun b hb => .inr hb
    | @uptrSome _ _ t _ v h =>
      simp only [write, read, writeStep, readStep]
      exact (Pair.bind (Pair.boolByte true) (Pair.map Val.ptr (ihA _ _ _ _ _ h))).mono fun b hb => .inr hb
    | @sptrSome _ _ t _ a h1 h2 =>
      obtain ⟨x, hx, hr⟩ := hH a t h1
      exact (pair_sptr h1 h2 ⟨x, hx, ihA _ _ _ _ _ hr⟩).mono fun b hb => by simpa [Val.refs] using hb
    | @vec _ _ t ps vs h1 h2 =>
      simp only [write, read, writeStep, readStep]
      have h := pair_elems (t := t) (sw := write E H n) (sr := read E n) (ps := resize ps vs.length (E.valInit t)) (vs := vs) (H := H) (HT := HT) (ρ := ρ)
        (forall2_of_getElem? _ _ (resize_length _ _ _) fun i p v hp hv => by
          have hi : i < vs.length := (List.getElem?_eq_some_iff.1 hv).1
          rw [resize_getElem? _ _ _ _ hi] at hp
          cases hp
          exact ihA _ _ _ _ _ (h2 i v hv))
      refine (Pair.bind (Pair.varint vs.length) (b := (Val.list vs).rename ρ) (R2 := fun a => ∃ v ∈ vs, a ∈ v.refs) ?_).mono ?_
      · rw [if_neg (by omega), Val.rename, Val.renameL_eq]
        exact Pair.map Val.list h
      · intro b hb
        exact .inr (Val.mem_refsL.1 hb)
    | @set _ _ hashed t ps vs h1 h2 h3 h4 h5 h6 h7 h8 =>
      simp only [write, read, writeStep, readStep]
      have hnil : Val.refsL vs = [] := by
        rw [List.eq_nil_iff_forall_not_mem]
        intro a ha
        obtain ⟨v, hv, hav⟩ := Val.mem_refsL.1 ha
        rw [h3 v hv] at hav
        cases hav
      have hm : ∀ v, v ∈ E.order hashed vs → v ∈ vs := fun v hv => h6.mem_iff.1 hv
      have h := pair_setItems (E := E) (t := t) (H := H) (HT := HT) (ρ := ρ) (sw := write E H n) (sr := read E n) false
        (E.order hashed vs) ps (fun v hv => ihA _ _ _ _ _ (h1 v (hm v hv))) (fun v hv => h2 v (hm v hv)) (fun v hv => h3 v (hm v hv))
      have e := foldl_insU_eq (key := id) h4 (fun y hy => hy) h5 h6 h8 h7
      simp only [Bool.false_eq_true, if_false] at h
      rw [e, h6.length_eq] at h
      refine nil ((Pair.bind (Pair.varint vs.length) (b := (Val.list vs).rename ρ) (R2 := fun _ => False) ?_).mono (fun _ h => False.elim h)) ?_
      · rw [Val.rename_of_noRef ρ (.list vs) hnil]
        exact Pair.map Val.list h
      · intro b hb
        rw [show (Val.list vs).refs = Val.refsL vs from rfl, hnil] at hb
        cases hb
    | @multiset _ _ hashed t vs h1 h2 h3 h4 h5 h6 h7 =>
      simp only [write, read, writeStep, readStep]
      have hnil : Val.refsL vs = [] := by
        rw [List.eq_nil_iff_forall_not_mem]
        intro a ha
        obtain ⟨v, hv, hav⟩ := Val.mem_refsL.1 ha
        rw [h3 v hv] at hav
        cases hav
      have hm : ∀ v, v ∈ E.order hashed vs → v ∈ vs := fun v hv => h6.mem_iff.1 hv
      have h := pair_setItems (E := E) (t := t) (H := H) (HT := HT) (ρ := ρ) (sw := write E H n) (sr := read E n) true
        (E.order hashed vs) [] (fun v hv => ihA _ _ _ _ _ (h1 v (hm v hv))) (fun v hv => h2 v (hm v hv)) (fun v hv => h3 v (hm v hv))
      obtain ⟨f1, f2, f3⟩ := foldl_insM (key := id) h4 (E.order hashed vs) [] hm (by simp) .nil
      have e : (E.order hashed vs).foldl (fun a x => insM (E.lt t) id x a) [] = vs := by
        refine groupBy_ext (key := id) h4 _ _ (fun y hy => ?_) (fun y hy => hy) f1 h5 fun k hk => ?_
        · exact hm y (by simpa using f2.mem_iff.1 hy)
        · rw [f3 k hk, List.nil_append, h7 k hk]
      simp only [if_true] at h
      rw [e, h6.length_eq] at h
      refine nil ((Pair.bind (Pair.varint vs.length) (b := (Val.list vs).rename ρ) (R2 := fun _ => False) ?_).mono (fun _ h => False.elim h)) ?_
      · rw [Val.rename_of_noRef ρ (.list vs) hnil]
        exact Pair.map Val.list h
      · intro b hb
        rw [show (Val.list vs).refs = Val.refsL vs from rfl, hnil] at hb
        cases hb
    | @map _ _ hashed k t ps kvs h1 h1' h2 h3 h4 h5 h6 h7 h8 =>
      simp only [write, read, writeStep, readStep]
      have hm : ∀ v, v ∈ E.orderKV hashed kvs → v ∈ kvs := fun v hv => h6.mem_iff.1 hv
      have h := pair_mapItems (E := E) (k := k) (t := t) (H := H) (HT := HT) (ρ := ρ) (sw := write E H n) (sr := read E n) false
        (E.orderKV hashed kvs) ps (fun q hq => pair_entry ihA (h1 q (hm q hq)) (h1' q (hm q hq))) (fun q hq => h2 q (hm q hq))
      simp only [Bool.false_eq_true, if_false] at h
      rw [foldl_insU_eq (key := Prod.fst) (lt := E.lt k) h4 (vs := kvs.map fun q => (q.1.rename ρ, q.2.rename ρ))
          (fun y hy => ?_) (rename_pairwise h3 h5) (h6.map _) (fun y hy => ?_) h7, h6.length_eq] at h
      · refine (Pair.bind (Pair.varint kvs.length) (b := (Val.map kvs).rename ρ)
          (R2 := fun a => ∃ q ∈ E.orderKV hashed kvs, a ∈ q.1.refs ∨ a ∈ q.2.refs) ?_).mono ?_
        · rw [Val.rename, Val.renameKV_eq]
          exact Pair.map Val.map h
        · intro b hb
          obtain ⟨q, hq, hb⟩ := Val.mem_refsKV.1 hb
          exact .inr ⟨q, h6.mem_iff.2 hq, hb⟩
      · obtain ⟨q, hq, rfl⟩ := List.mem_map.1 hy
        rw [Val.rename_of_noRef ρ q.1 (h3 q hq)]
        exact List.mem_map.2 ⟨q, hq, rfl⟩
      · obtain ⟨q, hq, rfl⟩ := h8 y hy
        exact List.mem_map.2 ⟨q, hq, by rw [Val.rename_of_noRef ρ q.1 (h3 q hq)]⟩
    | @multimap _ _ hashed k t kvs h1 h1' h2 h3 h4 h5 h6 h7 =>
      simp only [write, read, writeStep, readStep]
      have hm : ∀ v, v ∈ E.orderKV hashed kvs → v ∈ kvs := fun v hv => h6.mem_iff.1 hv
      have h := pair_mapItems (E := E) (k := k) (t := t) (H := H) (HT := HT) (ρ := ρ) (sw := write E H n) (sr := read E n) true
        (E.orderKV hashed kvs) [] (fun q hq => pair_entry ihA (h1 q (hm q hq)) (h1' q (hm q hq))) (fun q hq => h2 q (hm q hq))
      simp only [if_true] at h
      have hkey : ∀ q ∈ kvs, (q.1.rename ρ) ∈ kvs.map Prod.fst := fun q hq => by
        rw [Val.rename_of_noRef ρ q.1 (h3 q hq)]
        exact List.mem_map.2 ⟨q, hq, rfl⟩
      obtain ⟨f1, f2, f3⟩ := foldl_insM (key := Prod.fst) (lt := E.lt k) h4
        ((E.orderKV hashed kvs).map fun q => (q.1.rename ρ, q.2.rename ρ)) [] (fun y hy => by
          obtain ⟨q, hq, rfl⟩ := List.mem_map.1 hy
          exact hkey q (hm q hq)) (by simp) .nil
      have e : ((E.orderKV hashed kvs).map fun q => (q.1.rename ρ, q.2.rename ρ)).foldl
          (fun a x => insM (E.lt k) Prod.fst x a) [] = kvs.map fun q => (q.1.rename ρ, q.2.rename ρ) := by
        refine groupBy_ext (key := Prod.fst) h4 _ _ (fun y hy => ?_) (fun y hy => ?_) f1 (rename_pairwise' h3 h5) fun x hx => ?_
        · have hy' := f2.mem_iff.1 hy
          rw [List.nil_append] at hy'
          obtain ⟨q, hq, rfl⟩ := List.mem_map.1 hy'
          exact hkey q (hm q hq)
        · obtain ⟨q, hq, rfl⟩ := List.mem_map.1 hy
          exact hkey q hq
        · obtain ⟨q, hq, rfl⟩ := List.mem_map.1 hx
          rw [f3 _ hx, List.nil_append, groupBy_rename _ _ (fun q hq => h3 q (hm q hq)), groupBy_rename _ _ h3, h7 q hq]
      rw [e, h6.length_eq] at h
      refine (Pair.bind (Pair.varint kvs.length) (b := (Val.map kvs).rename ρ)
        (R2 := fun a => ∃ q ∈ E.orderKV hashed kvs, a ∈ q.1.refs ∨ a ∈ q.2.refs) ?_).mono ?_
      · rw [Val.rename, Val.renameKV_eq]
        exact Pair.map Val.map h
      · intro b hb
        obtain ⟨q, hq, hb⟩ := Val.mem_refsKV.1 hb
        exact .inr ⟨q, h6.mem_iff.2 hq, hb⟩
    | @pair _ _ a b p q v w h1 h2 =>
      simp only [write, read, writeStep, readStep]
      refine (Pair.bind (ihA _ _ _ _ _ h1) (Pair.map (fun y => Val.tup [v.rename ρ, y]) (ihA _ _ _ _ _ h2))).mono ?_
      intro b hb
      simpa [Val.refs, Val.refsL] using hb
    | @variantMono _ _ ts i p h1 h2 =>
      simp only [write, read, writeStep, readStep, h1]
      have e : writeByte i = (writeByte i >>= fun _ => (Pure.pure () : WM Unit)) := (M.bind_pure' _).symm
      rw [e]
      refine nil ((Pair.bind (Pair.byte i (by omega)) (R2 := fun _ => False) ?_).mono (fun _ h => False.elim h)) (by simp [Val.refs])
      simp only [h1]
      exact Pair.pure _
    | @variant _ _ ts i t p v h1 h2 h3 h4 =>
      simp only [write, read, writeStep, readStep, h1]
      refine (Pair.bind (Pair.byte i (by omega)) (R2 := (· ∈ v.refs)) (b := (Val.alt i v).rename ρ) ?_).mono fun b hb => .inr hb
      simp only [h1]
      exact Pair.map (Val.alt i) (ihA _ _ _ _ _ h4)
    | @cls _ _ c Q st0 st hf hk hn hm h1 h2 h3 =>
      have hok := fieldsOK_of hf hk hm h1 h2
      have := hB st vw vr c Q hf st0 hok
      rw [applyRead_final hk hn hm h3] at this
      refine this.mono fun b hb => ?_
      obtain ⟨q, hq, hbq⟩ := Val.mem_refsF.1 hb
      have hg := store_mem_get? hn hq
      by_cases hh : ∃ q' ∈ Q, q'.2.2.key = q.1
      · obtain ⟨q', hq', he⟩ := hh
        exact ⟨q', hq', q.2, by rw [he]; exact hg, hbq⟩
      · have := (h3 q.1 fun q' hq' he => hh ⟨q', hq', he⟩).2 _ hg
        rw [this] at hbq
        cases hbq


/-! ## the claims -/

/-- numbering of the objects in order of their first occurrence -/
def numbering (seen : List Nat) (a : Nat) : Nat := seen.reverse.idxOf a

theorem agrees_numbering (seen : List Nat) : Agrees 0 (numbering seen) seen := fun _ _ => (Nat.zero_add _).symm

theorem corr_init (inp : Str) : Corr 0 HT [] (RSt.init inp) := ⟨List.nodup_nil, rfl, fun _ h => nomatch h⟩

/-- heap of a reading session -/
def RSt.asHeap (rs : RSt) : Heap := fun a => rs.heap[a]?

theorem graphCopy_of {w : WM Unit} {α : Type} {r : RM α} {a : α} {v : Val} {ws : WSt} {rest : Str}
    (h : Pair H HT (numbering ws.seen) w r a (· ∈ v.refs)) (hw : w WSt.init = .ok () ws) :
    ∃ rs, r (RSt.init (ws.out ++ rest)) = .ok a rs ∧ rs.inp = rest ∧
      GraphCopy H v rs.asHeap (v.rename (numbering ws.seen)) (numbering ws.seen) := by
  obtain ⟨-, bytes, h2, h3⟩ := h _ _ hw
  have h2 : ws.out = bytes := h2
  obtain ⟨h4, rs, h5, h6, h7, -, h8⟩ := h3 (agrees_numbering _) (RSt.init (ws.out ++ rest)) rest (by rw [h2]; rfl) (corr_init _)
  have hseen : ∀ b, Reachable H v b → b ∈ ws.seen := by
    intro b hb
    induction hb with
    | direct ha => exact h4 _ ha
    | step _ hx hb ih =>
      obtain ⟨x', e1, -, e3⟩ := h8 _ ih (by simp [WSt.init])
      rw [hx] at e1
      cases e1
      exact e3 _ hb
  refine ⟨rs, h5, h6, rfl, fun b c hb hc he => (agrees_numbering _).inj (hseen b hb) (hseen c hc) he, fun b hb => ?_⟩
  obtain ⟨x, e1, e2, -⟩ := h8 b (hseen b hb) (by simp [WSt.init])
  exact ⟨x, e1, e2⟩

/-- **C27**, **C28**: if a representable value can be written then reading the bytes written (no matter what follows them)
yields a copy of the object graph and leaves exactly what follows. -/
theorem C27_read_yields_what_was_written (E : Env) (H : Heap) (HT : Nat → Option Ty) (n m vw vr : Nat) (t : Ty) (p v : Val) (ws : WSt)
    (hH : ∀ ρ, HeapRepr E H HT ρ) (hv : ∀ ρ, BRepr E HT ρ vw vr t p v) (hm : n ≤ m)
    (hw : write E H n vw t v WSt.init = .ok () ws) (rest : Str) :
    ∃ ρ v' rs, read E m vr t p (RSt.init (ws.out ++ rest)) = .ok v' rs ∧ rs.inp = rest ∧ GraphCopy H v rs.asHeap v' ρ := by
  obtain ⟨rs, h1, h2, h3⟩ := graphCopy_of (rest := rest) ((pair_all (hH (numbering ws.seen)) n).1 vw vr t p v (hv _)) hw
  exact ⟨_, _, rs, read_mono hm h1 (by simp), h2, h3⟩

/-- **C27**: values without shared pointers come back exactly. -/
theorem C27_exact_without_shared_pointers (E : Env) (H : Heap) (HT : Nat → Option Ty) (n m vw vr : Nat) (t : Ty) (p v : Val) (ws : WSt)
    (hH : ∀ ρ, HeapRepr E H HT ρ) (hv : ∀ ρ, BRepr E HT ρ vw vr t p v) (hr : v.refs = []) (hm : n ≤ m)
    (hw : write E H n vw t v WSt.init = .ok () ws) (rest : Str) :
    ∃ rs, read E m vr t p (RSt.init (ws.out ++ rest)) = .ok v rs ∧ rs.inp = rest := by
  obtain ⟨ρ, v', rs, h1, h2, h3⟩ := C27_read_yields_what_was_written E H HT n m vw vr t p v ws hH hv hm hw rest
  rw [h3.root, Val.rename_of_noRef ρ v hr] at h1
  exact ⟨rs, h1, h2⟩

/-- **C27** for `toBinary`/`restoreFromBinary`: the object is restored and the version returned is the version written (if the
class is versioned). -/
theorem C27_toBinary_restoreFromBinary (E : Env) (H : Heap) (HT : Nat → Option Ty) (n m : Nat) (c : ClassId) (ci : ClassInfo)
    (p v : Val) (version : Nat) (ws : WSt) (hH : ∀ ρ, HeapRepr E H HT ρ) (hv : ∀ ρ, BRepr E HT ρ version 0 (.cls c) p v)
    (hc : E.cls c = some ci) (hm : n ≤ m + 1) (hw : toBinary E H n c v version = .ok () ws) (rest : Str) :
    ∃ ρ v' rs, restoreFromBinary E m c p (ws.out ++ rest) =
        .ok (v', match ci.bin.version with | none => 0 | some d => if version = 0 then d else version) rs ∧
      rs.inp = rest ∧ GraphCopy H v rs.asHeap v' ρ := by
  have hw' : write E H (m + 1) version (.cls c) v WSt.init = .ok () ws := write_mono hm hw (by simp)
  have hp : Pair H HT (numbering ws.seen) (write E H (m + 1) version (.cls c) v) (readClass (read E m) ci 0 p)
      (v.rename (numbering ws.seen), match ci.bin.version with | none => 0 | some d => if version = 0 then d else version)
      (· ∈ v.refs) := by
    have hh := pair_all (hH (numbering ws.seen)) m
    have hv' := hv (numbering ws.seen)
    generalize numbering ws.seen = ρ at hh hv' ⊢
    cases hv' with
    | @cls _ _ _ Q st0 st hf hk hn hq h1 h2 h3 =>
      have hok := fieldsOK_of hf hk hq h1 h2
      obtain ⟨ver, hp, rfl⟩ := pair_class hh.1 st (hh.2 st) hc hf st0 hok
      rw [applyRead_final hk hn hq h3] at hp
      simp only [write, writeStep, hc]
      refine hp.mono fun b hb => ?_
      obtain ⟨q, hq', hbq⟩ := Val.mem_refsF.1 hb
      have hg := store_mem_get? hn hq'
      by_cases hh : ∃ q' ∈ Q, q'.2.2.key = q.1
      · obtain ⟨q', hq', he⟩ := hh
        exact ⟨q', hq', q.2, by rw [he]; exact hg, hbq⟩
      · have := (h3 q.1 fun q' hq' he => hh ⟨q', hq', he⟩).2 _ hg
        rw [this] at hbq
        cases hbq
  obtain ⟨rs, h1, h2, h3⟩ := graphCopy_of (rest := rest) hp hw'
  refine ⟨_, _, rs, ?_, h2, h3⟩
  unfold restoreFromBinary
  rw [hc]
  exact h1

/-- **C27** for `toBinary`/`fromBinary`. -/
theorem C27_toBinary_fromBinary (E : Env) (H : Heap) (HT : Nat → Option Ty) (n m : Nat) (c : ClassId)
    (v : Val) (version : Nat) (ws : WSt) (hH : ∀ ρ, HeapRepr E H HT ρ)
    (hv : ∀ ρ, BRepr E HT ρ version 0 (.cls c) (E.defInit (.cls c)) v)
    (hm : n ≤ m + 1) (hw : toBinary E H n c v version = .ok () ws) (rest : Str) :
    ∃ ρ v' rs, fromBinary E m c (ws.out ++ rest) = .ok v' rs ∧ rs.inp = rest ∧ GraphCopy H v rs.asHeap v' ρ := by
  have : ∃ ci, E.cls c = some ci := by
    have h := hv id
    generalize E.defInit (.cls c) = p at h
    cases h with
    | cls hf => exact flatBin_cls hf
  obtain ⟨ci, hc⟩ := this
  obtain ⟨ρ, v', rs, h1, h2, h3⟩ := C27_toBinary_restoreFromBinary E H HT n m c ci _ v version ws hH hv hc hm hw rest
  refine ⟨ρ, v', rs, ?_, h2, h3⟩
  unfold fromBinary
  rw [h1]

mutual
theorem Val.refs_rename (ρ : Nat → Nat) : ∀ v : Val, (v.rename ρ).refs = v.refs.map ρ
  | .some v => by rw [Val.rename, Val.refs, Val.refs, Val.refs_rename ρ v]
  | .ptr v => by rw [Val.rename, Val.refs, Val.refs, Val.refs_rename ρ v]
  | .ref a => rfl
  | .list vs => by rw [Val.rename, Val.refs, Val.refs, Val.refsL_rename ρ vs]
  | .map kvs => by rw [Val.rename, Val.refs, Val.refs, Val.refsKV_rename ρ kvs]
  | .tup vs => by rw [Val.rename, Val.refs, Val.refs, Val.refsL_rename ρ vs]
  | .alt i v => by rw [Val.rename, Val.refs, Val.refs, Val.refs_rename ρ v]
  | .obj fs => by rw [Val.rename, Val.refs, Val.refs, Val.refsF_rename ρ fs]
  | .indet => rfl
  | .bool _ => rfl
  | .int _ => rfl
  | .f32 _ => rfl
  | .f64 _ => rfl
  | .str _ => rfl
  | .cstr _ => rfl
  | .null => rfl
  | .valueless => rfl
  | .mono => rfl
  | .tick _ => rfl
theorem Val.refsL_rename (ρ : Nat → Nat) : ∀ vs : List Val, Val.refsL (Val.renameL ρ vs) = (Val.refsL vs).map ρ
  | [] => rfl
  | v :: vs => by rw [Val.renameL, Val.refsL, Val.refsL, Val.refs_rename ρ v, Val.refsL_rename ρ vs, List.map_append]
theorem Val.refsKV_rename (ρ : Nat → Nat) : ∀ vs : List (Val × Val), Val.refsKV (Val.renameKV ρ vs) = (Val.refsKV vs).map ρ
  | [] => rfl
  | (k, v) :: vs => by
    rw [Val.renameKV, Val.refsKV, Val.refsKV, Val.refs_rename ρ k, Val.refs_rename ρ v, Val.refsKV_rename ρ vs, List.map_append,
      List.map_append]
theorem Val.refsF_rename (ρ : Nat → Nat) : ∀ vs : List (FieldKey × Val), Val.refsF (Val.renameF ρ vs) = (Val.refsF vs).map ρ
  | [] => rfl
  | (k, v) :: vs => by rw [Val.renameF, Val.refsF, Val.refsF, Val.refs_rename ρ v, Val.refsF_rename ρ vs, List.map_append]
end

/-- `ρ` is an isomorphism of object graphs: different objects have different copies; the objects reachable in the copy are
exactly the copies of the objects reachable in the original; a copy refers to another copy iff the originals do. -/
structure GraphIso (H : Heap) (v : Val) (H' : Heap) (v' : Val) (ρ : Nat → Nat) : Prop where
  inj : ∀ a b, Reachable H v a → Reachable H v b → (ρ a = ρ b ↔ a = b)
  nodes : ∀ b, Reachable H' v' b ↔ ∃ a, Reachable H v a ∧ ρ a = b
  roots : ∀ a, Reachable H v a → (a ∈ v.refs ↔ ρ a ∈ v'.refs)
  edges : ∀ a c, Reachable H v a → Reachable H v c →
    ((∃ x, H a = some x ∧ c ∈ x.refs) ↔ ∃ y, H' (ρ a) = some y ∧ ρ c ∈ y.refs)

theorem graphIso_of {H H' : Heap} {v v' : Val} {ρ : Nat → Nat} (h : GraphCopy H v H' v' ρ) : GraphIso H v H' v' ρ := by
  refine ⟨fun a b ha hb => ⟨h.inj a b ha hb, fun e => by rw [e]⟩, fun b => ⟨fun hb => ?_, ?_⟩, fun a ha => ?_, fun a c ha hc => ?_⟩
  · induction hb with
    | direct hb =>
      rw [h.root, Val.refs_rename] at hb
      obtain ⟨a, ha, rfl⟩ := List.mem_map.1 hb
      exact ⟨a, .direct ha, rfl⟩
    | step _ hx hb ih =>
      obtain ⟨a, ha, rfl⟩ := ih
      obtain ⟨x, h1, h2⟩ := h.content a ha
      rw [hx] at h2
      cases h2
      rw [Val.refs_rename] at hb
      obtain ⟨c, hc, rfl⟩ := List.mem_map.1 hb
      exact ⟨c, .step ha h1 hc, rfl⟩
  · rintro ⟨a, ha, rfl⟩
    induction ha with
    | direct ha =>
      refine .direct ?_
      rw [h.root, Val.refs_rename]
      exact List.mem_map.2 ⟨_, ha, rfl⟩
    | step hr hx hb ih =>
      obtain ⟨x, h1, h2⟩ := h.content _ hr
      rw [hx] at h1
      cases h1
      refine .step ih h2 ?_
      rw [Val.refs_rename]
      exact List.mem_map.2 ⟨_, hb, rfl⟩
  · rw [h.root, Val.refs_rename]
    refine ⟨fun hm => List.mem_map.2 ⟨a, hm, rfl⟩, fun hm => ?_⟩
    obtain ⟨d, hd, he⟩ := List.mem_map.1 hm
    rwa [← h.inj d a (.direct hd) ha he]
  · obtain ⟨x, h1, h2⟩ := h.content a ha
    constructor
    · rintro ⟨y, hy, hcy⟩
      rw [h1] at hy
      cases hy
      refine ⟨_, h2, ?_⟩
      rw [Val.refs_rename]
      exact List.mem_map.2 ⟨c, hcy, rfl⟩
    · rintro ⟨y, hy, hcy⟩
      rw [h2] at hy
      cases hy
      refine ⟨x, h1, ?_⟩
      rw [Val.refs_rename] at hcy
      obtain ⟨d, hd, he⟩ := List.mem_map.1 hcy
      rwa [← h.inj d c (.step ha h1 hd) hc he]

/-- **C28**: what is read back is an isomorphic object graph: two shared pointers refer to the same object afterwards iff they
did before, and there is a cycle through copies iff there is one through the originals. -/
theorem C28_restored_graph_is_isomorphic (E : Env) (H : Heap) (HT : Nat → Option Ty) (n m vw vr : Nat) (t : Ty) (p v : Val) (ws : WSt)
    (hH : ∀ ρ, HeapRepr E H HT ρ) (hv : ∀ ρ, BRepr E HT ρ vw vr t p v) (hm : n ≤ m)
    (hw : write E H n vw t v WSt.init = .ok () ws) (rest : Str) :
    ∃ ρ v' rs, read E m vr t p (RSt.init (ws.out ++ rest)) = .ok v' rs ∧ GraphIso H v rs.asHeap v' ρ := by
  obtain ⟨ρ, v', rs, h1, -, h3⟩ := C27_read_yields_what_was_written E H HT n m vw vr t p v ws hH hv hm hw rest
  exact ⟨ρ, v', rs, h1, graphIso_of h3⟩

/-- **C28** for `toBinary`/`fromBinary`. -/
theorem C28_toBinary_fromBinary_isomorphic (E : Env) (H : Heap) (HT : Nat → Option Ty) (n m : Nat) (c : ClassId)
    (v : Val) (version : Nat) (ws : WSt) (hH : ∀ ρ, HeapRepr E H HT ρ)
    (hv : ∀ ρ, BRepr E HT ρ version 0 (.cls c) (E.defInit (.cls c)) v)
    (hm : n ≤ m + 1) (hw : toBinary E H n c v version = .ok () ws) (rest : Str) :
    ∃ ρ v' rs, fromBinary E m c (ws.out ++ rest) = .ok v' rs ∧ GraphIso H v rs.asHeap v' ρ := by
  obtain ⟨ρ, v', rs, h1, -, h3⟩ := C27_toBinary_fromBinary E H HT n m c v version ws hH hv hm hw rest
  exact ⟨ρ, v', rs, h1, graphIso_of h3⟩

/-- write several values one after another with one serializer -/
def writeSeq (E : Env) (H : Heap) (n : Nat) : List (Ty × Val) → WM Unit
  | [] => pure ()
  | (t, v) :: xs => do
    write E H n 0 t v
    writeSeq E H n xs

/-- read several values one after another into new objects with one deserializer -/
def readSeq (E : Env) (n : Nat) : List Ty → RM (List Val)
  | [] => pure []
  | t :: ts => do
    let v ← read E n 0 t (E.valInit t)
    let vs ← readSeq E n ts
    pure (v :: vs)

theorem consecutive_pair (E : Env) (H : Heap) (HT : Nat → Option Ty) (n : Nat) (xs : List (Ty × Val))
    (hH : ∀ ρ, HeapRepr E H HT ρ) (hv : ∀ ρ, ∀ x ∈ xs, BRepr E HT ρ 0 0 x.1 (E.valInit x.1) x.2) (ρ : Nat → Nat) :
    Pair H HT ρ (writeSeq E H n xs) (readSeq E n (xs.map Prod.fst)) ((xs.map Prod.snd).map (Val.rename ρ))
      (· ∈ (Val.tup (xs.map Prod.snd)).refs) := by
  induction xs with
  | nil => exact (Pair.pure _).mono (by simp [Val.refs, Val.refsL])
  | cons x xs ih =>
    obtain ⟨t, v⟩ := x
    refine (Pair.bind ((pair_all (hH ρ) n).1 0 0 t _ v (hv ρ _ List.mem_cons_self))
      (Pair.map (fun vs => v.rename ρ :: vs) (ih fun ρ x hx => hv ρ x (List.mem_cons_of_mem _ hx)))).mono fun b hb => ?_
    simpa [Val.refs, Val.refsL] using hb

/-- **C30**: values written consecutively (with one serializer, so sharing between them is tracked) are read back
consecutively, as one object graph. -/
theorem C30_consecutive_values (E : Env) (H : Heap) (HT : Nat → Option Ty) (n : Nat) (xs : List (Ty × Val)) (ws : WSt)
    (hH : ∀ ρ, HeapRepr E H HT ρ) (hv : ∀ ρ, ∀ x ∈ xs, BRepr E HT ρ 0 0 x.1 (E.valInit x.1) x.2)
    (hw : writeSeq E H n xs WSt.init = .ok () ws) (rest : Str) :
    ∃ ρ vs' rs, readSeq E n (xs.map Prod.fst) (RSt.init (ws.out ++ rest)) = .ok vs' rs ∧ rs.inp = rest ∧
      GraphCopy H (.tup (xs.map Prod.snd)) rs.asHeap (.tup vs') ρ := by
  have hp := consecutive_pair E H HT n xs hH hv
  obtain ⟨rs, h1, h2, h3⟩ := graphCopy_of (rest := rest) (hp (numbering ws.seen)) hw
  refine ⟨numbering ws.seen, _, rs, h1, h2, ?_⟩
  have := h3
  rw [Val.rename, Val.renameL_eq] at this
  exact this

/-- **C36**: encodings are injective and prefix-free: if the encoding of one value starts with the encoding of another value
of the same type then the values and encodings are equal. -/
theorem C36_encoding_injective_and_prefix_free (E : Env) (H : Heap) (HT : Nat → Option Ty) (n1 n2 version : Nat) (t : Ty)
    (v1 v2 : Val) (w1 w2 : WSt) (hH : ∀ ρ, HeapRepr E H HT ρ)
    (h1 : ∀ ρ, BRepr E HT ρ version version t (E.valInit t) v1) (h2 : ∀ ρ, BRepr E HT ρ version version t (E.valInit t) v2)
    (r1 : v1.refs = []) (r2 : v2.refs = []) (hw1 : write E H n1 version t v1 WSt.init = .ok () w1)
    (hw2 : write E H n2 version t v2 WSt.init = .ok () w2) (more : Str) (he : w2.out = w1.out ++ more) :
    v1 = v2 ∧ more = [] := by
  obtain ⟨s1, e1, i1⟩ := C27_exact_without_shared_pointers E H HT n1 (max n1 n2) version version t _ v1 w1 hH h1 r1 (by omega) hw1 more
  obtain ⟨s2, e2, i2⟩ := C27_exact_without_shared_pointers E H HT n2 (max n1 n2) version version t _ v2 w2 hH h2 r2 (by omega) hw2 []
  rw [List.append_nil, he, e1] at e2
  cases e2
  exact ⟨rfl, by rw [← i1, i2]⟩


/-! ## Non-vacuity -/

namespace Demo

/-- two nodes referring to each other -/
def cycHeap : Heap := fun a => match a with
  | 1000 => some (.obj [(fV.key, .int 1), (fN.key, .ref 2000)])
  | 2000 => some (.obj [(fV.key, .int 2), (fN.key, .ref 1000)])
  | _ => none

def cycTypes : Nat → Option Ty := fun a => match a with
  | 1000 => some (.cls 2)
  | 2000 => some (.cls 2)
  | _ => none

theorem node_repr (ρ : Nat → Nat) (vw vr : Nat) (p : Val) (i : Int) (a : Nat) (h1 : -2 ^ 31 ≤ i) (h2 : i < 2 ^ 31) (ha : cycTypes a = some (.cls 2))
    (h64 : a < 2 ^ 64) :
    BRepr env cycTypes ρ vw vr (.cls 2) (.obj [(fV.key, p), (fN.key, .null)]) (.obj [(fV.key, .int i), (fN.key, .ref a)]) := by
  refine .cls (Q := [(vw, vr, fV), (vw, vr, fN)]) ?_ rfl (show [fV.key, fN.key].Nodup by decide) ?_ ?_ ?_ ?_
  · exact FlatBin.plain (ci := node) (bs := []) (fs := []) rfl rfl rfl (.nil _ _) (by rfl) (.nil _ _)
  · intro q hq
    simp only [List.mem_cons, List.not_mem_nil, or_false] at hq
    rcases hq with rfl | rfl
    · exact ⟨.int i, rfl⟩
    · exact ⟨.ref a, rfl⟩
  · intro q hq p' v hp hv
    simp only [List.mem_cons, List.not_mem_nil, or_false] at hq
    rcases hq with rfl | rfl
    · cases hv
      exact .int _ _ _ _ .i32 (by decide) h1 h2
    · cases hv
      exact .sptrSome ha h64
  · intro q hq v hl
    simp only [List.mem_cons, List.not_mem_nil, or_false] at hq
    have hne : fV.key ≠ fN.key := by decide
    rcases hq with rfl | rfl
    · rw [List.filter_cons, if_pos (by simp), List.filter_cons, if_neg (by simpa using hne.symm)] at hl
      simp at hl
    · rw [List.filter_cons, if_neg (by simpa using hne), List.filter_cons, if_pos (by simp)] at hl
      simp at hl
  · intro k hk
    have h1 := hk (vw, vr, fV) (by simp)
    have h2 := hk (vw, vr, fN) (by simp)
    have e1 : (k == fV.key) = false := by simpa using h1.symm
    have e2 : (k == fN.key) = false := by simpa using h2.symm
    simp [Store.get?, List.lookup_cons, e1, e2]

theorem cycHeap_repr (ρ : Nat → Nat) : HeapRepr env cycHeap cycTypes ρ := by
  intro a t h
  unfold cycTypes at h
  split at h
  · cases h
    exact ⟨_, rfl, node_repr ρ _ _ _ _ _ (by decide) (by decide) rfl (by decide)⟩
  · cases h
    exact ⟨_, rfl, node_repr ρ _ _ _ _ _ (by decide) (by decide) rfl (by decide)⟩
  · cases h

/-- A node at the beginning of a cyclic list is writable and satisfies the hypotheses of C27 and C28; the copy is cyclic. -/
example : ∃ ws, toBinary env cycHeap 10 2 (.obj [(fV.key, .int 1), (fN.key, .ref 2000)]) 0 = .ok () ws ∧
    ∃ ρ v' rs, fromBinary env 9 2 (ws.out ++ [1, 2, 3]) = .ok v' rs ∧ rs.inp = [1, 2, 3] ∧
      GraphCopy cycHeap (.obj [(fV.key, .int 1), (fN.key, .ref 2000)]) rs.asHeap v' ρ := by
  have h : toBinary env cycHeap 10 2 (.obj [(fV.key, .int 1), (fN.key, .ref 2000)]) 0 =
      .ok () ⟨[0, 0, 0, 1, 1, 0x47, 0xD0, 0, 0, 0, 2, 1, 0x43, 0xE8, 0, 0, 0, 1, 2, 0x47, 0xD0], [1000, 2000]⟩ := by decide +kernel
  exact ⟨_, h, C27_toBinary_fromBinary env cycHeap cycTypes 10 9 2 _ 0 _ cycHeap_repr
    (fun ρ => node_repr ρ 0 0 _ _ _ (by decide) (by decide) rfl (by decide)) (by decide) h _⟩

/-- references in what is restored in this case: the root refers to object 0, which refers to object 1 and vice versa -/
example : (match fromBinary env 9 2 [0, 0, 0, 1, 1, 0x47, 0xD0, 0, 0, 0, 2, 1, 0x43, 0xE8, 0, 0, 0, 1, 2, 0x47, 0xD0] with
    | .ok v s => some (v.refs, s.heap.map Val.refs, s.inp)
    | _ => none) = some ([0], [[1], [0]], []) := by decide +kernel

/-- hypotheses of C36: two vectors of strings -/
example (ρ : Nat → Nat) (s : Str) (h : s.length ≤ 1000000) (vw vr : Nat) :
    BRepr env cycTypes ρ vw vr (.vec .str) (env.valInit (.vec .str)) (.list [.str s, .str []]) := by
  refine .vec (show 2 ≤ 1000000 by decide) fun i v hv => ?_
  match i, hv with
  | 0, hv => cases hv; exact .str _ _ _ _ h
  | 1, hv => cases hv; exact .str _ _ _ _ (by decide)

end Demo

end Verif
