import Verif.Props.JsonObjects

/-!
# JSON: maps and multimaps: C16, C17, C18
-/

namespace Verif

open Demo (env)

/-- `std::string`s are strictly totally ordered by the comparison used for map keys. -/
structure StrTotal (E : Env) : Prop where
  irrefl : ∀ a, E.lt .str (.str a) (.str a) = false
  trans : ∀ a b c, E.lt .str (.str a) (.str b) = true → E.lt .str (.str b) (.str c) = true →
    E.lt .str (.str a) (.str c) = true
  total : ∀ a b, a ≠ b → E.lt .str (.str a) (.str b) = true ∨ E.lt .str (.str b) (.str a) = true

theorem StrTotal.asymm {E : Env} (h : StrTotal E) {a b : Str} (hab : E.lt .str (.str a) (.str b) = true) :
    E.lt .str (.str b) (.str a) = false := by
  rw [Bool.eq_false_iff]
  intro hba
  have := h.trans a b a hab hba
  rw [h.irrefl] at this
  cases this

theorem strLt_irrefl (a : Str) : Demo.strLt a a = false := by
  induction a with
  | nil => rfl
  | cons x a ih => simp [Demo.strLt, ih]

theorem strLt_trans (a b c : Str) (h1 : Demo.strLt a b = true) (h2 : Demo.strLt b c = true) : Demo.strLt a c = true := by
  induction a generalizing b c with
  | nil => cases c with
    | nil => cases b <;> simp [Demo.strLt] at h2
    | cons z c => rfl
  | cons x a ih =>
    cases b with
    | nil => simp [Demo.strLt] at h1
    | cons y b =>
      cases c with
      | nil => simp [Demo.strLt] at h2
      | cons z c =>
        simp only [Demo.strLt] at h1 h2 ⊢
        split at h1
        · rename_i hxy
          split at h2
          · rename_i hyz
            rw [if_pos (UInt8.lt_trans hxy hyz)]
          · split at h2
            · cases h2
            · rename_i h3 h4
              have : y = z := UInt8.le_antisymm (UInt8.not_lt.1 h4) (UInt8.not_lt.1 h3)
              subst this
              rw [if_pos hxy]
        · split at h1
          · cases h1
          · rename_i h3 h4
            have : x = y := UInt8.le_antisymm (UInt8.not_lt.1 h4) (UInt8.not_lt.1 h3)
            subst this
            split at h2
            · rename_i h5; rw [if_pos h5]
            · split at h2
              · cases h2
              · rename_i h5 h6
                rw [if_neg h5, if_neg h6]
                exact ih b c h1 h2

theorem strLt_total (a b : Str) (h : a ≠ b) : Demo.strLt a b = true ∨ Demo.strLt b a = true := by
  induction a generalizing b with
  | nil => cases b with
    | nil => exact absurd rfl h
    | cons y b => exact .inl rfl
  | cons x a ih =>
    cases b with
    | nil => exact .inr rfl
    | cons y b =>
      simp only [Demo.strLt]
      by_cases h1 : x < y
      · simp [h1]
      · by_cases h2 : y < x
        · simp [h2]
        · have : x = y := UInt8.le_antisymm (UInt8.not_lt.1 h2) (UInt8.not_lt.1 h1)
          subst this
          simp only [h1, if_false]
          exact ih b fun hab => h (by rw [hab])

theorem demo_strTotal : StrTotal env := ⟨strLt_irrefl, strLt_trans, strLt_total⟩

/-- The entries of a map: keys are strings in strictly ascending order (in particular distinct). -/
def MapOK (E : Env) (kvs : List (Val × Val)) : Prop :=
  (∀ q ∈ kvs, ∃ k, q.1 = .str k) ∧ kvs.Pairwise fun a b => E.lt .str a.1 b.1 = true

theorem MapOK.tail {E : Env} {q : Val × Val} {kvs : List (Val × Val)} (h : MapOK E (q :: kvs)) : MapOK E kvs :=
  ⟨fun q hq => h.1 q (List.mem_cons_of_mem _ hq), (List.pairwise_cons.1 h.2).2⟩

section
variable {E : Env} (hE : StrTotal E)
include hE

/-- head of a sorted list is below the key: nothing further down equals a smaller key -/
theorem MapOK.lt_all {k : Str} {q : Val × Val} {kvs : List (Val × Val)} (h : MapOK E (q :: kvs))
    (hk : E.lt .str (.str k) q.1 = true) : ∀ p ∈ q :: kvs, E.lt .str (.str k) p.1 = true := by
  intro p hp
  rcases List.mem_cons.1 hp with rfl | hp
  · exact hk
  · have h1 := (List.pairwise_cons.1 h.2).1 p hp
    obtain ⟨k1, e1⟩ := h.1 q List.mem_cons_self
    obtain ⟨k2, e2⟩ := h.1 p (List.mem_cons_of_mem _ hp)
    rw [e1] at hk h1
    rw [e2] at h1 ⊢
    exact hE.trans _ _ _ hk h1

theorem ne_of_lt {k : Str} {q : Val} (h : E.lt .str (.str k) q = true) : q ≠ .str k := by
  rintro rfl
  rw [hE.irrefl] at h
  cases h

theorem ne_of_gt {k : Str} {q : Val} (h : E.lt .str q (.str k) = true) : q ≠ .str k := by
  rintro rfl
  rw [hE.irrefl] at h
  cases h

theorem mem_mapSet {k : Str} {v : Val} {kvs : List (Val × Val)} (h : MapOK E kvs) (q : Val × Val) :
    q ∈ mapSet (E.lt .str) (.str k) v kvs ↔ q = (.str k, v) ∨ (q ∈ kvs ∧ q.1 ≠ .str k) := by
  induction kvs with
  | nil => simp [mapSet]
  | cons p kvs ih =>
    obtain ⟨k', v'⟩ := p
    obtain ⟨kk, rfl⟩ : ∃ kk, k' = .str kk := h.1 _ List.mem_cons_self
    simp only [mapSet]
    by_cases h1 : E.lt .str (.str k) (.str kk) = true
    · rw [if_pos h1, List.mem_cons]
      constructor
      · rintro (h2 | h2)
        · exact .inl h2
        · exact .inr ⟨h2, ne_of_lt hE (h.lt_all hE h1 _ h2)⟩
      · rintro (h2 | h2)
        · exact .inl h2
        · exact .inr h2.1
    · rw [if_neg h1]
      by_cases h2 : E.lt .str (.str kk) (.str k) = true
      · rw [if_pos h2, List.mem_cons, List.mem_cons, ih h.tail]
        constructor
        · rintro (rfl | rfl | h3)
          · exact .inr ⟨.inl rfl, ne_of_gt hE h2⟩
          · exact .inl rfl
          · exact .inr ⟨.inr h3.1, h3.2⟩
        · rintro (rfl | ⟨rfl | h3, h4⟩)
          · exact .inr (.inl rfl)
          · exact .inl rfl
          · exact .inr (.inr ⟨h3, h4⟩)
      · rw [if_neg h2]
        have he : kk = k := by
          by_contra hne
          rcases hE.total kk k hne with h | h
          · exact h2 h
          · exact h1 h
        subst he
        rw [List.mem_cons, List.mem_cons]
        have hrest : ∀ p ∈ kvs, p.1 ≠ .str kk := fun p hp => ne_of_lt hE ((List.pairwise_cons.1 h.2).1 p hp)
        constructor
        · rintro (rfl | h3)
          · exact .inl rfl
          · exact .inr ⟨.inr h3, hrest _ h3⟩
        · rintro (rfl | ⟨rfl | h3, h4⟩)
          · exact .inl rfl
          · exact absurd rfl h4
          · exact .inr h3

theorem mapOK_mapSet {k : Str} {v : Val} {kvs : List (Val × Val)} (h : MapOK E kvs) :
    MapOK E (mapSet (E.lt .str) (.str k) v kvs) := by
  refine ⟨fun q hq => ?_, ?_⟩
  · rcases (mem_mapSet hE h q).1 hq with rfl | ⟨h1, -⟩
    · exact ⟨k, rfl⟩
    · exact h.1 q h1
  · induction kvs with
    | nil => simp [mapSet]
    | cons p kvs ih =>
      obtain ⟨k', v'⟩ := p
      obtain ⟨kk, rfl⟩ : ∃ kk, k' = .str kk := h.1 _ List.mem_cons_self
      simp only [mapSet]
      by_cases h1 : E.lt .str (.str k) (.str kk) = true
      · rw [if_pos h1]
        exact List.pairwise_cons.2 ⟨fun q hq => h.lt_all hE h1 q hq, h.2⟩
      · rw [if_neg h1]
        by_cases h2 : E.lt .str (.str kk) (.str k) = true
        · rw [if_pos h2]
          refine List.pairwise_cons.2 ⟨fun q hq => ?_, ih h.tail⟩
          rcases (mem_mapSet hE h.tail q).1 hq with rfl | ⟨h3, -⟩
          · exact h2
          · exact (List.pairwise_cons.1 h.2).1 q h3
        · rw [if_neg h2]
          exact List.pairwise_cons.2 ⟨fun q hq => (List.pairwise_cons.1 h.2).1 q hq, h.tail.2⟩

theorem mapFind_iff {k : Str} {v : Val} {kvs : List (Val × Val)} (h : MapOK E kvs) :
    mapFind (E.lt .str) (.str k) kvs = some v ↔ (.str k, v) ∈ kvs := by
  induction kvs with
  | nil => simp [mapFind]
  | cons p kvs ih =>
    obtain ⟨k', v'⟩ := p
    obtain ⟨kk, rfl⟩ : ∃ kk, k' = .str kk := h.1 _ List.mem_cons_self
    simp only [mapFind]
    by_cases h1 : E.lt .str (.str k) (.str kk) = true
    · rw [if_pos h1]
      constructor
      · intro h; cases h
      · intro hm
        exact absurd rfl (ne_of_lt hE (h.lt_all hE h1 _ hm))
    · rw [if_neg h1]
      by_cases h2 : E.lt .str (.str kk) (.str k) = true
      · rw [if_pos h2, ih h.tail, List.mem_cons]
        constructor
        · exact .inr
        · rintro (h3 | h3)
          · cases h3; exact absurd rfl (ne_of_gt hE h2)
          · exact h3
      · rw [if_neg h2]
        have he : kk = k := by
          by_contra hne
          rcases hE.total kk k hne with h | h
          · exact h2 h
          · exact h1 h
        subst he
        have hrest : ∀ p ∈ kvs, p.1 ≠ .str kk := fun p hp => ne_of_lt hE ((List.pairwise_cons.1 h.2).1 p hp)
        rw [List.mem_cons]
        constructor
        · intro h3; cases h3; exact .inl rfl
        · rintro (h3 | h3)
          · cases h3; rfl
          · exact absurd rfl (hrest _ h3)

theorem mapFind_none {k : Str} {kvs : List (Val × Val)} (h : MapOK E kvs) (hn : ∀ v, (.str k, v) ∉ kvs) :
    mapFind (E.lt .str) (.str k) kvs = none := by
  cases hf : mapFind (E.lt .str) (.str k) kvs with
  | none => rfl
  | some v => exact absurd ((mapFind_iff hE h).1 hf) (hn v)

end

/-! ## C16 -/

/-- C16 (arrays): what is read from an array into a vector, list, deque or (multi)set does not depend on the previous
content. -/
theorem C16_arrays_replace (E : Env) (n : Nat) (t : Ty) (js : List Json) (prior prior' : Val) (st : Option ErrSt) :
    pull E n (.vec t) (.arr js) prior st = pull E n (.vec t) (.arr js) prior' st ∧
    ∀ hashed multi, pull E n (.set hashed multi t) (.arr js) prior st =
      pull E n (.set hashed multi t) (.arr js) prior' st := by
  cases n with
  | zero => exact ⟨rfl, fun _ _ => rfl⟩
  | succ n => exact ⟨rfl, fun _ _ => rfl⟩

theorem pullMapEntries_ok {E : Env} (hE : StrTotal E) {self : Ty → Json → Val → PM Val} {t : Ty}
    (ms : List (Key × Json)) (kvs kvs' : List (Val × Val)) (hk : MapOK E kvs) (st st' : Option ErrSt)
    (h : pullMapEntries E self t ms kvs st = .ok kvs' st') :
    MapOK E kvs' ∧
    (∀ k v, (∀ m ∈ ms, cstrOf m.1.bytes ≠ k) → ((.str k, v) ∈ kvs' ↔ (.str k, v) ∈ kvs)) ∧
    (∀ m ∈ ms, ∃ v, (.str (cstrOf m.1.bytes), v) ∈ kvs') ∧
    (∀ k j ms1 ms2, ms = ms1 ++ (k, j) :: ms2 → (∀ m ∈ ms1 ++ ms2, cstrOf m.1.bytes ≠ cstrOf k.bytes) →
      ∃ v0 v1 s1 s2, self t j v0 s1 = .ok v1 s2 ∧ (.str (cstrOf k.bytes), v1) ∈ kvs' ∧
        ((.str (cstrOf k.bytes), v0) ∈ kvs ∨ (∀ v, (.str (cstrOf k.bytes), v) ∉ kvs) ∧ v0 = E.valInit t)) := by
  induction ms generalizing kvs st with
  | nil =>
    cases h
    refine ⟨hk, fun k v _ => Iff.rfl, by simp, ?_⟩
    intro k j ms1 ms2 he
    exact absurd he (by simp)
  | cons m ms ih =>
    obtain ⟨k, j⟩ := m
    obtain ⟨v1, s1, h1, h2⟩ := M.bind_eq_ok.1 h
    obtain ⟨i1, i2, i3, i4⟩ := ih _ (mapOK_mapSet hE hk) _ h2
    refine ⟨i1, ?_, ?_, ?_⟩
    · intro k' v hne
      rw [i2 k' v fun m hm => hne m (List.mem_cons_of_mem _ hm), mem_mapSet hE hk]
      have := hne (k, j) List.mem_cons_self
      constructor
      · rintro (h3 | h3)
        · cases h3; exact absurd rfl this
        · exact h3.1
      · intro h3
        refine .inr ⟨h3, ?_⟩
        intro h4
        simp only [Val.str.injEq] at h4
        exact this h4.symm
    · have hpres : ∀ k'', (∃ v, (Val.str k'', v) ∈ mapSet (E.lt .str) (.str (cstrOf k.bytes)) v1 kvs) →
          ∃ v, (Val.str k'', v) ∈ kvs' := by
        intro k'' ⟨v, hv⟩
        by_cases hm : ∃ m ∈ ms, cstrOf m.1.bytes = k''
        · obtain ⟨m, hm, rfl⟩ := hm
          exact i3 m hm
        · exact ⟨v, (i2 k'' v fun m hm' he => hm ⟨m, hm', he⟩).2 hv⟩
      intro m hm
      rcases List.mem_cons.1 hm with rfl | hm
      · exact hpres _ ⟨v1, (mem_mapSet hE hk _).2 (.inl rfl)⟩
      · exact i3 m hm
    · intro k' j' ms1 ms2 he hne
      cases ms1 with
      | nil =>
        simp only [List.nil_append, List.cons.injEq, Prod.mk.injEq] at he
        obtain ⟨⟨rfl, rfl⟩, rfl⟩ := he
        refine ⟨_, v1, _, _, h1, ?_, ?_⟩
        · rw [i2 _ _ fun m hm => hne m (by simpa using hm)]
          exact (mem_mapSet hE hk _).2 (.inl rfl)
        · cases hf : mapFind (E.lt .str) (.str (cstrOf k.bytes)) kvs with
          | some v0 => exact .inl ((mapFind_iff hE hk).1 hf)
          | none =>
            refine .inr ⟨fun v hv => ?_, rfl⟩
            rw [(mapFind_iff hE hk).2 hv] at hf
            cases hf
      | cons a ms1 =>
        simp only [List.cons_append, List.cons.injEq] at he
        obtain ⟨rfl, rfl⟩ := he
        obtain ⟨v0, v2, s3, s4, j1, j2, j3⟩ := i4 k' j' ms1 ms2 rfl fun m hm => hne m (List.mem_cons_of_mem _ hm)
        refine ⟨v0, v2, s3, s4, j1, j2, ?_⟩
        have hkk : cstrOf k.bytes ≠ cstrOf k'.bytes := hne (k, j) List.mem_cons_self
        have hset : ∀ v, (Val.str (cstrOf k'.bytes), v) ∈ mapSet (E.lt .str) (.str (cstrOf k.bytes)) v1 kvs ↔
            (Val.str (cstrOf k'.bytes), v) ∈ kvs := by
          intro v
          rw [mem_mapSet hE hk]
          constructor
          · rintro (h3 | h3)
            · simp only [Prod.mk.injEq, Val.str.injEq] at h3; exact absurd h3.1.symm hkk
            · exact h3.1
          · intro h3
            refine .inr ⟨h3, ?_⟩
            intro h4
            simp only [Val.str.injEq] at h4
            exact hkk h4.symm
        rcases j3 with j3 | ⟨j3, j4⟩
        · exact .inl ((hset v0).1 j3)
        · exact .inr ⟨fun v hv => j3 v ((hset v).2 hv), j4⟩

/-- C16 (maps): reading an object into a map which already has entries
* keeps exactly the entries whose key is not mentioned by the object,
* contains an entry for every key which is mentioned (names are cut at NUL), and
* for a name mentioned once, stores what reading its value into the existing entry (or, if there is none, a new one) gives. -/
theorem C16_map_merges (E : Env) (hE : StrTotal E) (n : Nat) (hashed : Bool) (t : Ty) (ms : List (Key × Json))
    (kvs : List (Val × Val)) (hk : MapOK E kvs) (v' : Val) (st st' : Option ErrSt)
    (h : pull E (n + 1) (.map hashed false .str t) (.obj ms) (.map kvs) st = .ok v' st') :
    ∃ kvs', v' = .map kvs' ∧ MapOK E kvs' ∧
    (∀ k v, (∀ m ∈ ms, ¬ CutAtNul m.1.bytes k) → ((.str k, v) ∈ kvs' ↔ (.str k, v) ∈ kvs)) ∧
    (∀ m ∈ ms, ∀ k, CutAtNul m.1.bytes k → ∃ v, (.str k, v) ∈ kvs') ∧
    (∀ name k j ms1 ms2, ms = ms1 ++ (name, j) :: ms2 → CutAtNul name.bytes k →
      (∀ m ∈ ms1 ++ ms2, ¬ CutAtNul m.1.bytes k) →
      ∃ v0 v1 s1 s2, pull E n t j v0 s1 = .ok v1 s2 ∧ (.str k, v1) ∈ kvs' ∧
        ((.str k, v0) ∈ kvs ∨ (∀ v, (.str k, v) ∉ kvs) ∧ v0 = E.valInit t)) := by
  change pullStep E (pull E n) _ _ _ _ = _ at h
  obtain ⟨kvs', s1, h1, h2⟩ := M.bind_eq_ok.1 h
  cases h2
  obtain ⟨i1, i2, i3, i4⟩ := pullMapEntries_ok hE ms kvs kvs' hk st st' h1
  have cut : ∀ s r, CutAtNul s r ↔ cstrOf s = r := fun s r =>
    ⟨fun h => cut_unique (cstrOf_cut s) h, fun h => h ▸ cstrOf_cut s⟩
  simp only [cut]
  refine ⟨kvs', rfl, i1, i2, ?_, ?_⟩
  · rintro m hm k rfl
    exact i3 m hm
  · rintro name k j ms1 ms2 he rfl hne
    exact i4 name j ms1 ms2 he hne

example : pull env 3 (.map false false .str (.int .i32))
    (.obj [(⟨[66], .copied⟩, .num (.int 5)), (⟨[67], .copied⟩, .null)]) (.map [(.str [65], .int 1), (.str [67], .int 3)])
    none = .ok (.map [(.str [65], .int 1), (.str [66], .int 5), (.str [67], .int 3)]) none := rfl
example : MapOK env [(.str [65], .int 1), (.str [67], .int 3)] :=
  ⟨by simp, by simp [env, Demo.stdLt, Demo.strLt]⟩

/-! ## C17 -/

theorem perm_mapInsertMulti {lt : Val → Val → Bool} {k v : Val} (kvs : List (Val × Val)) :
    (mapInsertMulti lt k v kvs).Perm ((k, v) :: kvs) ∧ kvs.Sublist (mapInsertMulti lt k v kvs) := by
  induction kvs with
  | nil => exact ⟨.refl _, by simp⟩
  | cons p kvs ih =>
    obtain ⟨k', v'⟩ := p
    simp only [mapInsertMulti]
    split
    · exact ⟨.refl _, by simp⟩
    · exact ⟨(ih.1.cons _).trans (.swap _ _ _), ih.2.cons_cons _⟩

/-- What is read into a multimap: one entry per member or, if the member is an array, one entry per item. -/
def multimapItems (ms : List (Key × Json)) : List (Str × Json) :=
  ms.flatMap fun m => match m.2 with
    | .arr js => js.map fun j => (m.1.bytes, j)
    | j => [(m.1.bytes, j)]

theorem pullMultimapItems_ok {E : Env} {self : Ty → Json → Val → PM Val} {t : Ty} (key : Str) (js : List Json)
    (kvs kvs' : List (Val × Val)) (s s' : Option ErrSt) (h : pullMultimapItems E self t key js kvs s = .ok kvs' s') :
    ∃ new, kvs'.Perm (kvs ++ new) ∧ kvs.Sublist kvs' ∧
      List.Forall₂ (fun j (kv : Val × Val) => kv.1 = .str key ∧ ∃ s1 s2, self t j (E.valInit t) s1 = .ok kv.2 s2) js new := by
  induction js generalizing kvs s with
  | nil => cases h; exact ⟨[], by simp, List.Sublist.refl _, .nil⟩
  | cons j js ih =>
    obtain ⟨v, s1, h1, h2⟩ := M.bind_eq_ok.1 h
    obtain ⟨new, i1, i2, i3⟩ := ih _ _ h2
    have hp := perm_mapInsertMulti (lt := E.lt .str) (k := .str key) (v := v) kvs
    refine ⟨(.str key, v) :: new, ?_, hp.2.trans i2, .cons ⟨rfl, _, _, h1⟩ i3⟩
    refine i1.trans ((hp.1.append_right new).trans ?_)
    exact List.perm_middle.symm

/-- C16/C17 (reading): reading an object into a multimap only adds entries: all previous entries are kept in order and there
is exactly one new entry per non-array member and per item of an array member, its key being the name (cut at NUL) and its
value what reading the member/item into a new element gives. -/
theorem C17_multimap_read_adds (E : Env) (n : Nat) (hashed : Bool) (t : Ty) (ms : List (Key × Json))
    (kvs : List (Val × Val)) (v' : Val) (st st' : Option ErrSt)
    (h : pull E (n + 1) (.map hashed true .str t) (.obj ms) (.map kvs) st = .ok v' st') :
    ∃ kvs' new, v' = .map kvs' ∧ kvs.Sublist kvs' ∧ kvs'.Perm (kvs ++ new) ∧
      List.Forall₂ (fun (i : Str × Json) (kv : Val × Val) => (∃ k, kv.1 = .str k ∧ CutAtNul i.1 k) ∧
        ∃ s1 s2, pull E n t i.2 (E.valInit t) s1 = .ok kv.2 s2) (multimapItems ms) new := by
  change pullStep E (pull E n) _ _ _ _ = _ at h
  obtain ⟨kvs', s1, h1, h2⟩ := M.bind_eq_ok.1 h
  cases h2
  refine ⟨kvs', ?_⟩
  suffices hs : ∀ ms kvs st, pullMultimapEntries E (pull E n) t ms kvs st = .ok kvs' st' →
      ∃ new, kvs.Sublist kvs' ∧ kvs'.Perm (kvs ++ new) ∧
      List.Forall₂ (fun (i : Str × Json) (kv : Val × Val) => (∃ k, kv.1 = .str k ∧ CutAtNul i.1 k) ∧
        ∃ s1 s2, pull E n t i.2 (E.valInit t) s1 = .ok kv.2 s2) (multimapItems ms) new by
    obtain ⟨new, a, b, c⟩ := hs ms kvs st h1
    exact ⟨new, rfl, a, b, c⟩
  clear h h1 ms st
  intro ms
  induction ms with
  | nil =>
    intro kvs st h
    cases h
    exact ⟨[], List.Sublist.refl _, by simp, .nil⟩
  | cons m ms ih =>
    intro kvs st h
    obtain ⟨k, j⟩ := m
    obtain ⟨kvs1, s1, h1, h2⟩ := M.bind_eq_ok.1 h
    obtain ⟨new, i1, i2, i3⟩ := ih _ _ h2
    obtain ⟨new0, j1, j2, j3⟩ := pullMultimapItems_ok _ _ _ _ _ _ h1
    refine ⟨new0 ++ new, j2.trans i1, i2.trans ((j1.append_right new).trans (by simp)), ?_⟩
    have hsplit : multimapItems ((k, j) :: ms) =
        (match j with | .arr js => js | j => [j]).map (fun j => (k.bytes, j)) ++ multimapItems ms := by
      simp only [multimapItems, List.flatMap_cons]
      cases j <;> rfl
    rw [hsplit]
    refine List.rel_append ?_ i3
    rw [List.forall₂_map_left_iff]
    refine j3.imp ?_
    rintro j kv ⟨h3, h4⟩
    exact ⟨⟨_, h3, cstrOf_cut _⟩, h4⟩

/-- the documents of those entries (key, document) whose key is `name`, in order -/
def groupOf (name : Str) (ps : List (Str × Json)) : List Json :=
  ps.filterMap fun p => if p.1 = name then some p.2 else none

/-- `ms` is the grouping of `ps`. -/
structure Grouping (ps : List (Str × Json)) (ms : List (Key × Json)) : Prop where
  nodup : (ms.map fun m => m.1.bytes).Nodup
  names : ∀ name, (∃ m ∈ ms, m.1.bytes = name) ↔ ∃ p ∈ ps, p.1 = name
  values : ∀ m ∈ ms, m.2 = .arr (groupOf m.1.bytes ps)

theorem groupOf_append (name : Str) (ps : List (Str × Json)) (k : Str) (j : Json) :
    groupOf name (ps ++ [(k, j)]) = groupOf name ps ++ (if k = name then [j] else []) := by
  simp only [groupOf, List.filterMap_append]
  by_cases h : k = name <;> simp [h]

theorem appendToMember_spec {name : Str} {j : Json} (ms : List (Key × Json))
    (harr : ∀ m ∈ ms, ∃ js, m.2 = .arr js) (hn : (ms.map fun m => m.1.bytes).Nodup) :
    (appendToMember name j ms).map (fun m => m.1.bytes) = ms.map (fun m => m.1.bytes) ∧
    ∀ m' ∈ appendToMember name j ms, ∃ m ∈ ms, m.1 = m'.1 ∧ ∃ js, m.2 = .arr js ∧
      m'.2 = .arr (js ++ if m'.1.bytes = name then [j] else []) := by
  induction ms with
  | nil => exact ⟨rfl, by simp [appendToMember]⟩
  | cons m ms ih =>
    obtain ⟨k, jj⟩ := m
    obtain ⟨js, rfl⟩ : ∃ js, jj = .arr js := harr _ List.mem_cons_self
    simp only [List.map_cons, List.nodup_cons] at hn
    have harr' : ∀ m ∈ ms, ∃ js, m.2 = .arr js := fun m hm => harr m (List.mem_cons_of_mem _ hm)
    obtain ⟨i1, i2⟩ := ih harr' hn.2
    simp only [appendToMember]
    by_cases hk : k.bytes = name
    · rw [if_pos hk]
      refine ⟨rfl, ?_⟩
      intro m' hm'
      rcases List.mem_cons.1 hm' with rfl | hm'
      · exact ⟨_, List.mem_cons_self, rfl, js, rfl, by simp [hk]⟩
      · obtain ⟨js', hjs⟩ := harr' m' hm'
        refine ⟨m', List.mem_cons_of_mem _ hm', rfl, js', hjs, ?_⟩
        have : m'.1.bytes ≠ name := by
          intro he
          apply hn.1
          rw [hk, ← he]
          exact List.mem_map.2 ⟨m', hm', rfl⟩
        simp [hjs, this]
    · rw [if_neg hk]
      refine ⟨by simp only [List.map_cons, i1], ?_⟩
      intro m' hm'
      rcases List.mem_cons.1 hm' with rfl | hm'
      · exact ⟨_, List.mem_cons_self, rfl, js, rfl, by simp [hk]⟩
      · obtain ⟨m, hm, h⟩ := i2 m' hm'
        exact ⟨m, List.mem_cons_of_mem _ hm, h⟩

theorem Grouping.add {ps : List (Str × Json)} {ms : List (Key × Json)} (h : Grouping ps ms) (name : Str) (j : Json) :
    Grouping (ps ++ [(name, j)]) (addToGroup name j ms) := by
  unfold addToGroup
  rw [findMember_eq]
  by_cases hm : ∃ m ∈ ms, m.1.bytes = name
  · obtain ⟨m, hm, hname⟩ := hm
    have hf : ∃ js, firstNamed name ms = some (.arr js) := by
      unfold firstNamed
      cases hf : ms.find? (fun m => decide (m.1.bytes = name)) with
      | none => exact absurd hname (by simpa using List.find?_eq_none.1 hf m hm)
      | some m' => exact ⟨_, congrArg some (h.values m' (List.mem_of_find?_eq_some hf))⟩
    obtain ⟨js, hf⟩ := hf
    rw [hf]
    dsimp only
    obtain ⟨a1, a2⟩ := appendToMember_spec (name := name) (j := j) ms (fun m hm => ⟨_, h.values m hm⟩) h.nodup
    refine ⟨a1 ▸ h.nodup, fun name' => ?_, fun m' hm' => ?_⟩
    · have e1 : (∃ m ∈ appendToMember name j ms, m.1.bytes = name') ↔ ∃ m ∈ ms, m.1.bytes = name' := by
        have : name' ∈ (appendToMember name j ms).map (fun m => m.1.bytes) ↔ name' ∈ ms.map (fun m => m.1.bytes) := by rw [a1]
        simpa only [List.mem_map] using this
      rw [e1, h.names]
      constructor
      · rintro ⟨p, hp, he⟩; exact ⟨p, List.mem_append_left _ hp, he⟩
      · rintro ⟨p, hp, he⟩
        rcases List.mem_append.1 hp with hp | hp
        · exact ⟨p, hp, he⟩
        · simp only [List.mem_singleton] at hp
          subst hp
          simp only at he
          rw [← he]
          exact (h.names name).1 ⟨m, hm, hname⟩
    · obtain ⟨m0, hm0, he, js0, hjs, hv⟩ := a2 m' hm'
      have := h.values m0 hm0
      rw [hjs, he] at this
      injection this with this
      rw [hv, this, groupOf_append]
      congr 2
      by_cases hx : m'.1.bytes = name
      · simp [hx]
      · have hx' : ¬ name = m'.1.bytes := fun h' => hx h'.symm
        simp [hx, hx', groupOf]
  · have hf : firstNamed name ms = none := by
      unfold firstNamed
      rw [Option.map_eq_none_iff, List.find?_eq_none]
      intro m hm' 
      simpa using fun he => hm ⟨m, hm', he⟩
    rw [hf]
    dsimp only
    have hnone : groupOf name ps = [] := by
      unfold groupOf
      rw [List.filterMap_eq_nil_iff]
      intro p hp
      have : p.1 ≠ name := fun he => hm ((h.names name).2 ⟨p, hp, he⟩)
      simp [this]
    refine ⟨?_, fun name' => ?_, fun m' hm' => ?_⟩
    · rw [List.map_append, List.nodup_append]
      refine ⟨h.nodup, by simp, ?_⟩
      intro a ha b hb
      simp only [List.map_cons, List.map_nil, List.mem_singleton] at hb
      subst hb
      rintro rfl
      obtain ⟨m, hm', he⟩ := List.mem_map.1 ha
      exact hm ⟨m, hm', he⟩
    · constructor
      · rintro ⟨m, hm', he⟩
        rcases List.mem_append.1 hm' with hm' | hm'
        · obtain ⟨p, hp, hp'⟩ := (h.names name').1 ⟨m, hm', he⟩
          exact ⟨p, List.mem_append_left _ hp, hp'⟩
        · simp only [List.mem_singleton] at hm'
          subst hm'
          exact ⟨_, List.mem_append_right _ List.mem_cons_self, he⟩
      · rintro ⟨p, hp, he⟩
        rcases List.mem_append.1 hp with hp | hp
        · obtain ⟨m, hm', he'⟩ := (h.names name').2 ⟨p, hp, he⟩
          exact ⟨m, List.mem_append_left _ hm', he'⟩
        · simp only [List.mem_singleton] at hp
          subst hp
          exact ⟨_, List.mem_append_right _ List.mem_cons_self, he⟩
    · rcases List.mem_append.1 hm' with hm' | hm'
      · rw [h.values m' hm', groupOf_append]
        have : name ≠ m'.1.bytes := fun he => hm ⟨m', hm', he.symm⟩
        simp [this]
      · simp only [List.mem_singleton] at hm'
        subst hm'
        simp [groupOf_append, hnone]

theorem grouping_foldl (ps0 ps : List (Str × Json)) (ms : List (Key × Json)) (h : Grouping ps0 ms) :
    Grouping (ps0 ++ ps) (ps.foldl (fun ms p => addToGroup p.1 p.2 ms) ms) := by
  induction ps generalizing ps0 ms with
  | nil => simpa using h
  | cons p ps ih =>
    have := ih _ _ (h.add p.1 p.2)
    simpa using this

/-- the values of the entries with key `name`, in order -/
def valuesOf (name : Str) (kvs : List (Val × Val)) : List Val :=
  kvs.filterMap fun kv => if strKey kv.1 = name then some kv.2 else none

/-- C17 (writing): a multimap (with keys below 4 GiB) is serialised as an object with distinct names which are the keys of
the multimap; the member named `name` is the array of the documents of that key's values in iteration order - whether or not
entries with equal keys are adjacent in the iteration order. -/
theorem C17_multimap_write_groups (E : Env) (H : Heap) (n : Nat) (hashed : Bool) (t : Ty) (kvs : List (Val × Val))
    (hlen : ∀ kv ∈ E.orderKV hashed kvs, (strKey kv.1).length < 2 ^ 32) (j : Json)
    (h : push E H (n + 1) (.map hashed true .str t) (.map kvs) () = .ok j ()) :
    ∃ ms, j = .obj ms ∧ (ms.map fun m => m.1.bytes).Nodup ∧
      (∀ name, (∃ m ∈ ms, m.1.bytes = name) ↔ ∃ v, (.str name, v) ∈ E.orderKV hashed kvs) ∧
      ∀ m ∈ ms, ∃ js, m.2 = .arr js ∧
        List.Forall₂ (fun v j => push E H n t v () = .ok j ()) (valuesOf m.1.bytes (E.orderKV hashed kvs)) js := by
  change pushStep E H (push E H n) _ _ _ = _ at h
  obtain ⟨ms, h1, h2⟩ := SM.map_ok_iff.1 h
  obtain ⟨js, h3, h4⟩ := pushMultimapEntries_iff.1 h1
  generalize E.orderKV hashed kvs = it at hlen h3 h4
  have hps : ms = ((it.zip js).map fun p => (strKey p.1.1, p.2)).foldl (fun ms p => addToGroup p.1 p.2 ms) [] := by
    rw [h4, List.foldl_map]
    have : ∀ (l : List ((Val × Val) × Json)) ms, (∀ p ∈ l, (strKey p.1.1).length < 2 ^ 32) →
        l.foldl (fun ms p => addToGroup (rjString (strKey p.1.1)) p.2 ms) ms =
        l.foldl (fun ms p => addToGroup (strKey p.1.1) p.2 ms) ms := by
      intro l
      induction l with
      | nil => intro ms _; rfl
      | cons p l ih =>
        intro ms hl
        have hp := hl p List.mem_cons_self
        simp only [List.foldl_cons]
        rw [ih _ fun p hp => hl p (List.mem_cons_of_mem _ hp)]
        rw [show rjString (strKey p.1.1) = strKey p.1.1 by
          unfold rjString rapidJsonSize
          rw [if_neg (by omega), List.take_of_length_le (Nat.le_refl _)]]
    exact this _ _ fun p hp => hlen _ (List.of_mem_zip hp).1
  have hg := grouping_foldl [] ((it.zip js).map fun p => (strKey p.1.1, p.2)) []
    ⟨by simp, by simp, by simp⟩
  rw [← hps, List.nil_append] at hg
  have hl := h3.length_eq
  have hkeys : ∀ kv ∈ it, ∃ k, kv.1 = .str k := by
    intro kv hkv
    obtain ⟨j, _, h⟩ := forall₂_mem_left h3 hkv
    exact h.1
  refine ⟨ms, h2, hg.nodup, fun name => ?_, fun m hm => ?_⟩
  · rw [hg.names]
    constructor
    · rintro ⟨p, hp, rfl⟩
      obtain ⟨q, hq, rfl⟩ := List.mem_map.1 hp
      have hq1 := (List.of_mem_zip hq).1
      obtain ⟨k, hk⟩ := hkeys _ hq1
      refine ⟨q.1.2, ?_⟩
      have : (Val.str (strKey q.1.1), q.1.2) = q.1 := by rw [hk]; simp only [strKey]; rw [← hk]
      dsimp only
      rw [this]
      exact hq1
    · rintro ⟨v, hv⟩
      have : (Val.str name, v) ∈ (it.zip js).map Prod.fst := by
        rw [List.map_fst_zip (by omega)]; exact hv
      obtain ⟨q, hq, he⟩ := List.mem_map.1 this
      exact ⟨_, List.mem_map.2 ⟨q, hq, rfl⟩, by rw [he]; rfl⟩
  · refine ⟨_, hg.values m hm, ?_⟩
    generalize m.1.bytes = name
    clear hm m hg hps h4 h1 h2 h hl hkeys hlen
    induction h3 with
    | nil => exact .nil
    | @cons kv j it js h5 h6 ih =>
      simp only [valuesOf, groupOf, List.zip_cons_cons, List.map_cons, List.filterMap_cons]
      by_cases hk : strKey kv.1 = name
      · simp only [hk, if_true]
        exact .cons h5.2 ih
      · simp only [hk, if_false]
        exact ih

/-- with a hashed multimap entries with equal keys need not even be adjacent for the model (here: reversed order) -/
example : push env (fun _ => none) 3 (.map true true .str (.int .i32))
    (.map [(.str [65], .int 1), (.str [66], .int 2), (.str [65], .int 3)]) () =
    .ok (.obj [(⟨[65], .borrowed⟩, .arr [.num (.int 3), .num (.int 1)]), (⟨[66], .borrowed⟩, .arr [.num (.int 2)])]) () := rfl

/-! ## C18 -/

/-- C18 (names written): each entry of a map (with keys below 4 GiB) becomes a member named with the entry's key cut at its
first NUL, in iteration order. In particular keys without NUL are written verbatim. -/
theorem C18_map_names (E : Env) (H : Heap) (n : Nat) (hashed : Bool) (t : Ty) (kvs : List (Val × Val))
    (hlen : ∀ kv ∈ E.orderKV hashed kvs, (strKey kv.1).length < 2 ^ 32) (j : Json)
    (h : push E H (n + 1) (.map hashed false .str t) (.map kvs) () = .ok j ()) :
    ∃ ms, j = .obj ms ∧ List.Forall₂ (fun (kv : Val × Val) (m : Key × Json) => ∃ k, kv.1 = .str k ∧ CutAtNul k m.1.bytes ∧
      (0 ∉ k → m.1.bytes = k) ∧ push E H n t kv.2 () = .ok m.2 ()) (E.orderKV hashed kvs) ms := by
  change pushStep E H (push E H n) _ _ _ = _ at h
  obtain ⟨ms, h1, rfl⟩ := SM.map_ok_iff.1 h
  refine ⟨ms, rfl, ?_⟩
  have h2 := pushMapEntries_iff.1 h1
  generalize E.orderKV hashed kvs = it at hlen h2
  clear h h1
  induction h2 with
  | nil => exact .nil
  | @cons kv m it ms h3 h4 ih =>
    refine .cons ?_ (ih fun kv hkv => hlen kv (List.mem_cons_of_mem _ hkv))
    obtain ⟨k, hk, hm, hp⟩ := h3
    have hl := hlen kv List.mem_cons_self
    rw [hk] at hl
    simp only [strKey] at hl
    have hle : (cstrOf k).length ≤ k.length := by
      unfold cstrOf; exact (List.takeWhile_sublist _).length_le
    have hr : rjStrRef k = cstrOf k := by
      unfold rjStrRef
      rw [Nat.mod_eq_of_lt (by omega), List.take_of_length_le (Nat.le_refl _)]
    rw [hm]
    refine ⟨k, hk, ?_, ?_, hp⟩
    · simp only [hr]; exact cstrOf_cut k
    · intro h0; simp only [hr]; exact cstrOf_eq h0

/-- C18 (duplicates): two entries whose keys agree up to the first NUL yield two members with the same name. -/
theorem C18_colliding_keys_duplicate_members (E : Env) (H : Heap) (n : Nat) (hashed : Bool) (t : Ty)
    (kvs : List (Val × Val)) (hlen : ∀ kv ∈ E.orderKV hashed kvs, (strKey kv.1).length < 2 ^ 32) (ms : List (Key × Json))
    (h : push E H (n + 1) (.map hashed false .str t) (.map kvs) () = .ok (.obj ms) ()) (i i' : Nat) (hii : i ≠ i')
    (k k' r : Str) (v v' : Val) (hi : (E.orderKV hashed kvs)[i]? = some (.str k, v))
    (hi' : (E.orderKV hashed kvs)[i']? = some (.str k', v')) (hr : CutAtNul k r) (hr' : CutAtNul k' r) :
    ¬ (ms.map fun m => m.1.bytes).Nodup := by
  obtain ⟨ms', he, hf⟩ := C18_map_names E H n hashed t kvs hlen _ h
  cases he
  have get : ∀ (i : Nat) k v, (E.orderKV hashed kvs)[i]? = some (.str k, v) → CutAtNul k r →
      (ms.map fun m => m.1.bytes)[i]? = some r := by
    intro i k v hi hr
    obtain ⟨hlt, hget⟩ := List.getElem?_eq_some_iff.1 hi
    have hlt' : i < ms.length := hf.length_eq ▸ hlt
    have := hf.get hlt hlt'
    simp only [List.get_eq_getElem, hget] at this
    obtain ⟨k1, h1, h2, -, -⟩ := this
    cases h1
    rw [List.getElem?_map, List.getElem?_eq_getElem hlt', Option.map_some, cut_unique h2 hr]
  intro hn
  have h1 := get i k v hi hr
  have h2 := get i' k' v' hi' hr'
  obtain ⟨hlt, -⟩ := List.getElem?_eq_some_iff.1 h1
  exact hii ((List.getElem?_inj hlt hn).1 (h1.trans h2.symm))

/-- C18 (reading back): the keys of a map read from any JSON object into an empty map contain no NUL. Hence a map with a
key containing NUL is not restored. -/
theorem C18_nul_keys_do_not_round_trip (E : Env) (hE : StrTotal E) (n : Nat) (hashed : Bool) (t : Ty)
    (ms : List (Key × Json)) (v' : Val) (st st' : Option ErrSt)
    (h : pull E (n + 1) (.map hashed false .str t) (.obj ms) (.map []) st = .ok v' st') :
    (∃ kvs', v' = .map kvs' ∧ ∀ k v, (.str k, v) ∈ kvs' → 0 ∉ k) ∧
    ∀ kvs k v, (.str k, v) ∈ kvs → 0 ∈ k → v' ≠ .map kvs := by
  obtain ⟨kvs', rfl, -, h2, -, -⟩ := C16_map_merges E hE n hashed t ms [] ⟨by simp, by simp⟩ v' st st' h
  have key : ∀ k v, (.str k, v) ∈ kvs' → 0 ∉ k := by
    intro k v hkv
    by_cases hm : ∃ m ∈ ms, CutAtNul m.1.bytes k
    · obtain ⟨m, -, hm⟩ := hm
      exact hm.1
    · have := (h2 k v fun m hm' hc => hm ⟨m, hm', hc⟩).1 hkv
      cases this
  refine ⟨⟨kvs', rfl, key⟩, ?_⟩
  intro kvs k v hkv h0 he
  cases he
  exact key k v hkv h0

example : push env (fun _ => none) 3 (.map false false .str (.int .i32)) (.map [(.str [65], .int 1), (.str [65, 0], .int 2)]) ()
    = .ok (.obj [(⟨[65], .borrowed⟩, .num (.int 1)), (⟨[65], .borrowed⟩, .num (.int 2))]) () := rfl

end Verif
