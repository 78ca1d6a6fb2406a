import Verif.Props.JsonNames
import Verif.Props.JsonScalars

/-!
# JSON: reading objects into classes: C03; tuples and arrays: C11, C12
-/

namespace Verif

open Demo (env)

/-! ## C03 -/

/-- The first member of an object with a given name. -/
def firstNamed (name : Str) (ms : List (Key × Json)) : Option Json :=
  (ms.find? fun m => m.1.bytes = name).map Prod.snd

theorem findMember_eq (name : Str) (ms : List (Key × Json)) : findMember name ms = firstNamed name ms := by
  induction ms with
  | nil => rfl
  | cons m ms ih =>
    obtain ⟨k, j⟩ := m
    simp only [findMember, firstNamed, List.find?_cons]
    by_cases h : k.bytes = name
    · simp [h]
    · simp only [h, if_false, decide_false]
      exact ih

/-- `Reads E c f`: reading an object of class `c` looks for member `f`, which is one of the class itself or of a base class. -/
inductive Reads (E : Env) : ClassId → Field → Prop
  | own {c ci f} : E.cls c = some ci → f ∈ ci.json.pullFields → Reads E c f
  | base {c ci b f} : E.cls c = some ci → b ∈ ci.json.bases → Reads E b f → Reads E c f

theorem pullFields_congr {self : Ty → Json → Val → PM Val} {fs : List Field} {ms ms' : List (Key × Json)} (st : Store)
    (h : ∀ f ∈ fs, firstNamed f.name ms = firstNamed f.name ms') : pullFields self fs ms st = pullFields self fs ms' st := by
  induction fs generalizing st with
  | nil => rfl
  | cons f fs ih =>
    have h1 : pullField self f ms st = pullField self f ms' st := by
      unfold pullField
      rw [findMember_eq, findMember_eq, h f List.mem_cons_self]
    simp only [pullFields, h1]
    congr 1
    funext st
    exact ih st fun f hf => h f (List.mem_cons_of_mem _ hf)

/-- C03: what reading an object into a class does (result, reported errors, exception) depends only on what the first member
with the name of each of the class's data members is. -/
theorem C03_depends_on_first_named (E : Env) (n : Nat) (c : ClassId) (ms ms' : List (Key × Json))
    (h : ∀ f, Reads E c f → firstNamed f.name ms = firstNamed f.name ms') (v : Val) (st : Option ErrSt) :
    pull E n (.cls c) (.obj ms) v st = pull E n (.cls c) (.obj ms') v st := by
  have key : ∀ n c v, (∀ f, Reads E c f → firstNamed f.name ms = firstNamed f.name ms') →
      pull E n (.cls c) (.obj ms) v = pull E n (.cls c) (.obj ms') v := by
    intro n
    induction n with
    | zero => intro c v _; rfl
    | succ n ih =>
      intro c v h
      show pullStep E (pull E n) _ _ _ = pullStep E (pull E n) _ _ _
      simp only [pullStep]
      cases hc : E.cls c with
      | none => rfl
      | some ci =>
        have hb : ∀ (bs : List ClassId) (v : Val), (∀ b ∈ bs, b ∈ ci.json.bases) →
            pullBases (pull E n) bs ms v = pullBases (pull E n) bs ms' v := by
          intro bs
          induction bs with
          | nil => intro v _; rfl
          | cons b bs ihb =>
            intro v hbs
            simp only [pullBases]
            rw [ih b v fun f hf => h f (.base hc (hbs b List.mem_cons_self) hf)]
            congr 1
            funext v
            exact ihb v fun b hb => hbs b (List.mem_cons_of_mem _ hb)
        dsimp only
        rw [hb _ _ fun b hb => hb]
        split
        · rfl
        · congr 1
          funext v
          cases v <;> try rfl
          dsimp only
          rw [pullFields_congr _ fun f hf => h f (.own hc hf)]
  rw [key n c v h]

/-- C03 (order): the order of members with distinct names is irrelevant. -/
theorem C03_order_irrelevant (E : Env) (n : Nat) (c : ClassId) (ms ms' : List (Key × Json)) (hp : ms.Perm ms')
    (hn : (ms.map fun m => m.1.bytes).Nodup) (v : Val) (st : Option ErrSt) :
    pull E n (.cls c) (.obj ms) v st = pull E n (.cls c) (.obj ms') v st := by
  apply C03_depends_on_first_named
  intro f _
  have uniq : ∀ {l : List (Key × Json)}, (l.map fun m => m.1.bytes).Nodup → ∀ m ∈ l, m.1.bytes = f.name →
      l.find? (fun m => decide (m.1.bytes = f.name)) = some m := by
    intro l hl m hm he
    induction l with
    | nil => cases hm
    | cons a l ih =>
      simp only [List.map_cons, List.nodup_cons] at hl
      rcases List.mem_cons.1 hm with rfl | hm
      · simp [List.find?_cons, he]
      · have : ¬ a.1.bytes = f.name := by
          intro ha
          exact hl.1 (List.mem_map.2 ⟨m, hm, he.trans ha.symm⟩)
        simp only [List.find?_cons, this, decide_false]
        exact ih hl.2 hm
  unfold firstNamed
  congr 1
  cases h : ms.find? (fun m => decide (m.1.bytes = f.name)) with
  | some m =>
    have h1 := List.find?_some h
    have h2 := List.mem_of_find?_eq_some h
    exact (uniq ((hp.map _).nodup_iff.1 hn) m (hp.mem_iff.1 h2) (by simpa using h1)).symm
  | none =>
    rw [List.find?_eq_none] at h
    refine Eq.symm (List.find?_eq_none.2 fun m hm => h m (hp.mem_iff.2 hm))

/-- C03 (extra members): members with a name which is not that of a data member are ignored. -/
theorem C03_extra_members_ignored (E : Env) (n : Nat) (c : ClassId) (ms extra ms' : List (Key × Json))
    (h : ∀ m ∈ extra, ∀ f, Reads E c f → f.name ≠ m.1.bytes) (v : Val) (st : Option ErrSt) :
    pull E n (.cls c) (.obj (ms ++ extra ++ ms')) v st = pull E n (.cls c) (.obj (ms ++ ms')) v st := by
  apply C03_depends_on_first_named
  intro f hf
  unfold firstNamed
  have : extra.find? (fun m => decide (m.1.bytes = f.name)) = none :=
    List.find?_eq_none.2 fun m hm => by simpa using fun he => h m hm f hf he.symm
  simp [List.find?_append, this]

/-- C03 (repeated names): of several members with the same name only the first one is used. -/
theorem C03_first_member_wins (E : Env) (n : Nat) (c : ClassId) (ms ms' ms'' : List (Key × Json)) (k k' : Key)
    (j j' : Json) (hk : k.bytes = k'.bytes) (v : Val) (st : Option ErrSt) :
    pull E n (.cls c) (.obj (ms ++ (k, j) :: ms' ++ (k', j') :: ms'')) v st =
      pull E n (.cls c) (.obj (ms ++ (k, j) :: ms' ++ ms'')) v st := by
  apply C03_depends_on_first_named
  intro f hf
  unfold firstNamed
  simp only [List.find?_append, List.find?_cons, hk]
  by_cases h : k'.bytes = f.name
  · simp [h]
  · simp [h]

theorem get?_set_ne (st : Store) {k k' : FieldKey} (v : Val) (h : k' ≠ k) : (st.set k v).get? k' = st.get? k' := by
  induction st with
  | nil => rfl
  | cons a st ih =>
    obtain ⟨a1, a2⟩ := a
    simp only [Store.set, Store.get?] at ih ⊢
    by_cases ha : a1 = k
    · simp [ha, List.lookup, beq_false_of_ne h]
    · simp only [ha, if_false, List.lookup]
      split
      · rfl
      · exact ih

theorem get?_set_eq (st : Store) {k : FieldKey} {v v' : Val} (h : st.get? k = some v') : (st.set k v).get? k = some v := by
  induction st with
  | nil => cases h
  | cons a st ih =>
    obtain ⟨a1, a2⟩ := a
    simp only [Store.set, Store.get?] at ih h ⊢
    by_cases ha : a1 = k
    · simp [ha, List.lookup]
    · have hb : (k == a1) = false := beq_false_of_ne fun h => ha h.symm
      simp only [ha, if_false, List.lookup, hb] at h ⊢
      exact ih h

/-- C03 (missing members): a data member for which the object has no member keeps its value. -/
theorem C03_missing_members_kept (E : Env) (n : Nat) (c : ClassId) (ms : List (Key × Json)) (s : Store) (v' : Val)
    (st st' : Option ErrSt) (h : pull E n (.cls c) (.obj ms) (.obj s) st = .ok v' st') :
    ∃ s' : Store, v' = .obj s' ∧ ∀ key, (∀ f, Reads E c f → f.key = key → firstNamed f.name ms = none) →
      s'.get? key = s.get? key := by
  have key : ∀ n c (s : Store) st v' st', pull E n (.cls c) (.obj ms) (.obj s) st = .ok v' st' →
      ∃ s' : Store, v' = .obj s' ∧ ∀ key, (∀ f, Reads E c f → f.key = key → firstNamed f.name ms = none) →
        s'.get? key = s.get? key := by
    intro n
    induction n with
    | zero => intro c s st v' st' h; cases h
    | succ n ih =>
      intro c s st v' st' h
      change pullStep E (pull E n) _ _ _ _ = _ at h
      simp only [pullStep] at h
      cases hc : E.cls c with
      | none => rw [hc] at h; cases h
      | some ci =>
        rw [hc] at h
        dsimp only at h
        split at h
        · cases h
        · obtain ⟨v1, s1, h1, h2⟩ := M.bind_eq_ok.1 h
          have hb : ∀ (bs : List ClassId) (s : Store) st v1 s1, (∀ b ∈ bs, b ∈ ci.json.bases) →
              pullBases (pull E n) bs ms (.obj s) st = .ok v1 s1 → ∃ s' : Store, v1 = .obj s' ∧
              ∀ key, (∀ f, Reads E c f → f.key = key → firstNamed f.name ms = none) → s'.get? key = s.get? key := by
            intro bs
            induction bs with
            | nil =>
              intro s st v1 s1 _ h
              cases h
              exact ⟨s, rfl, fun _ _ => rfl⟩
            | cons b bs ihb =>
              intro s st v1 s1 hbs h
              obtain ⟨v2, s2, h3, h4⟩ := M.bind_eq_ok.1 h
              obtain ⟨s', rfl, h5⟩ := ih _ _ _ _ _ h3
              obtain ⟨s'', h6, h7⟩ := ihb _ _ _ _ (fun b hb => hbs b (List.mem_cons_of_mem _ hb)) h4
              refine ⟨s'', h6, fun key hk => (h7 key hk).trans (h5 key fun f hf => hk f (.base hc (hbs b List.mem_cons_self) hf))⟩
          obtain ⟨s', rfl, h3⟩ := hb _ _ _ _ _ (fun b hb => hb) h1
          dsimp only at h2
          have hf : ∀ (fs : List Field) (s : Store) st r s1, (∀ f ∈ fs, f ∈ ci.json.pullFields) →
              pullFields (pull E n) fs ms s st = .ok r s1 →
              ∀ key, (∀ f, Reads E c f → f.key = key → firstNamed f.name ms = none) → Store.get? r key = s.get? key := by
            intro fs
            induction fs with
            | nil => intro s st r s1 _ h; cases h; exact fun _ _ => rfl
            | cons f fs ihf =>
              intro s st r s1 hfs h key hk
              obtain ⟨s2, st2, h4, h5⟩ := M.bind_eq_ok.1 h
              rw [ihf _ _ _ _ (fun f hf => hfs f (List.mem_cons_of_mem _ hf)) h5 key hk]
              unfold pullField at h4
              rw [findMember_eq] at h4
              cases hm : firstNamed f.name ms with
              | none => rw [hm] at h4; cases h4; rfl
              | some j =>
                rw [hm] at h4
                dsimp only at h4
                cases hg : s.get? f.key with
                | none => rw [hg] at h4; cases h4
                | some v0 =>
                  rw [hg] at h4
                  obtain ⟨v1, st3, -, h7⟩ := M.bind_eq_ok.1 h4
                  cases h7
                  apply get?_set_ne
                  intro he
                  rw [hk f (.own hc (hfs f List.mem_cons_self)) he.symm] at hm
                  cases hm
          obtain ⟨s2, st2, h4, h5⟩ := M.bind_eq_ok.1 h2
          cases h5
          refine ⟨s2, rfl, fun key hk => ?_⟩
          rw [← h3 key hk]
          split at h4
          · obtain ⟨_, _, _, h4⟩ := M.bind_eq_ok.1 h4
            obtain ⟨_, _, _, h4⟩ := M.bind_eq_ok.1 h4
            obtain ⟨r, _, h6, h4⟩ := M.bind_eq_ok.1 h4
            obtain ⟨_, _, _, h4⟩ := M.bind_eq_ok.1 h4
            cases h4
            exact hf _ _ _ _ _ (fun f hf => hf) h6 key hk
          · exact hf _ _ _ _ _ (fun f hf => hf) h4 key hk
  exact key n c s st v' st' h

/-- an object in unusual order, with an unknown and without some members; `k` is const in the example class and thus not
read -/
example : pull env 6 (.cls 1) (.obj [(⟨lit "x", .copied⟩, .null), (⟨lit "k", .copied⟩, .str []),
      (⟨lit "i", .copied⟩, .num (.int 3))]) (.obj Demo.derivedInit) (some .init) =
    .ok (.obj (Demo.derivedInit.set Demo.fI.key (.int 3))) (some .init) := by rfl
example : Reads env 1 Demo.fI ∧ ¬ Reads env 1 Demo.fK := by
  refine ⟨.base (ci := Demo.derived) (b := 0) rfl (by simp [Demo.derived]) (.own (ci := Demo.base) rfl (by simp [Demo.base])), ?_⟩
  intro h
  cases h with
  | own hc hf =>
    cases hc
    simp [Demo.derived] at hf
    exact absurd hf (by decide)
  | base hc hb h =>
    cases hc
    simp [Demo.derived] at hb
    subst hb
    cases h with
    | own hc hf =>
      cases hc
      simp [Demo.base] at hf
      exact absurd hf (by decide)
    | base hc hb h =>
      cases hc
      simp [Demo.base] at hb

/-! ## C11 -/

/-- the component types of a tuple or pair -/
def tupleTypes : Ty → Option (List Ty)
  | .tuple ts => some ts
  | .pair a b => some [a, b]
  | _ => none

/-- C11 (size mismatch): reading an array of the wrong length leaves tuple/pair unchanged and reports exactly one
ArraySizeMismatch which is thrown iff flagged. -/
theorem C11_size_mismatch (E : Env) (n : Nat) (t : Ty) (ts : List Ty) (ht : tupleTypes t = some ts) (js : List Json)
    (hl : js.length ≠ ts.length) (v : Val) (st : ErrSt) :
    pull E (n + 1) t (.arr js) v none = .ok v none ∧
    ∃ e, ErrAt st .arraySizeMismatch .array .array e ∧ pull E (n + 1) t (.arr js) v (some st) =
      if Fatal st.throwOn .arraySizeMismatch then .exc e (some { st with errs := st.errs ++ [e] })
      else .ok v (some { st with errs := st.errs ++ [e] }) := by
  have h : pull E (n + 1) t (.arr js) v = (do report .arraySizeMismatch .array .array; pure v) := by
    show pullStep E (pull E n) t (.arr js) v = _
    cases t <;> try (cases ht; done)
    · cases ht
      simp only [pullStep]
      exact if_pos hl
    · cases ht
      simp only [pullStep]
      exact if_pos hl
  rw [h]
  exact report_keep_spec .arraySizeMismatch .array .array v st

theorem pullTuple_ok {self : Ty → Json → Val → PM Val} (ts : List Ty) (js : List Json) (vs vs' : List Val)
    (s s' : Option ErrSt) (h : pullTuple self ts js vs s = .ok vs' s') :
    vs'.length = ts.length ∧ ∀ (i : Nat) t j v, ts[i]? = some t → js[i]? = some j → vs[i]? = some v →
      ∃ s1 s2 v', self t j v s1 = .ok v' s2 ∧ vs'[i]? = some v' := by
  induction ts generalizing js vs vs' s with
  | nil => cases js <;> cases vs <;> cases h <;> exact ⟨rfl, fun i t j v h => by cases h⟩
  | cons t ts ih =>
    cases js with
    | nil => cases vs <;> cases h
    | cons j js =>
      cases vs with
      | nil => cases h
      | cons v vs =>
        obtain ⟨v1, s1, h1, h2⟩ := M.bind_eq_ok.1 h
        obtain ⟨vs1, s2, h2, h3⟩ := M.bind_eq_ok.1 h2
        cases h3
        obtain ⟨i1, i2⟩ := ih _ _ _ _ h2
        refine ⟨by simp [i1], ?_⟩
        intro i t' j' v' h4 h5 h6
        cases i with
        | zero =>
          simp at h4 h5 h6
          subst h4 h5 h6
          exact ⟨_, _, _, h1, by simp⟩
        | succ i =>
          simp at h4 h5 h6
          obtain ⟨a, b, c, d, e⟩ := i2 i t' j' v' h4 h5 h6
          exact ⟨a, b, c, d, by simpa using e⟩

/-- C11 (matching size): if reading an array of the right length into a tuple/pair returns, component `i` of the result is
what reading item `i` into the previous component `i` gives. -/
theorem C11_componentwise (E : Env) (n : Nat) (t : Ty) (ts : List Ty) (ht : tupleTypes t = some ts) (js : List Json)
    (hl : js.length = ts.length) (vs : List Val) (v' : Val) (st st' : Option ErrSt)
    (h : pull E (n + 1) t (.arr js) (.tup vs) st = .ok v' st') :
    ∃ vs', v' = .tup vs' ∧ vs'.length = ts.length ∧
      ∀ (i : Nat) t j v, ts[i]? = some t → js[i]? = some j → vs[i]? = some v →
        ∃ s1 s2 v', pull E n t j v s1 = .ok v' s2 ∧ vs'[i]? = some v' := by
  have h' : ∃ vs', pullTuple (pull E n) ts js vs st = .ok vs' st' ∧ v' = .tup vs' := by
    change pullStep E (pull E n) t (.arr js) (.tup vs) st = _ at h
    cases t <;> try (cases ht; done)
    · cases ht
      simp only [pullStep] at h
      rw [if_neg (by simpa using hl)] at h
      obtain ⟨a, b, h1, h2⟩ := M.bind_eq_ok.1 h
      cases h2
      exact ⟨a, h1, rfl⟩
    · cases ht
      simp only [pullStep] at h
      rw [if_neg (by simpa using hl)] at h
      obtain ⟨a, b, h1, h2⟩ := M.bind_eq_ok.1 h
      cases h2
      exact ⟨a, h1, rfl⟩
  obtain ⟨vs', h1, rfl⟩ := h'
  exact ⟨vs', rfl, pullTuple_ok ts js vs vs' st st' h1⟩

example : pull env 3 (.pair (.int .i32) .str) (.arr [.num (.int 1), .str [65]]) (.tup [.int 0, .str []]) none =
    .ok (.tup [.int 1, .str [65]]) none := rfl

/-! ## C12 -/

theorem forIdx_vec {self : Ty → Json → Val → PM Val} {E : Env} {t : Ty} (js : List Json) (i : Nat) (vs vs' : List Val)
    (s s' : Option ErrSt) (h : forIdx (vecItem E self t) js i vs s = .ok vs' s') :
    ∃ new, vs' = vs ++ new ∧ new.length = js.length ∧ ∀ (k : Nat) j, js[k]? = some j →
      ∃ s1 s2 v, self t j (E.valInit t) s1 = .ok v s2 ∧ new[k]? = some v ∧ ∀ e, s1 = some e → e.index = i + k := by
  induction js generalizing i vs s with
  | nil =>
    obtain ⟨a, b, -, h2⟩ := M.bind_eq_ok.1 h
    cases h2
    exact ⟨[], by simp, rfl, fun k j h => by cases h⟩
  | cons j js ih =>
    obtain ⟨⟨⟩, s1, h1, h2⟩ := M.bind_eq_ok.1 h
    obtain ⟨b, s2, h2, h3⟩ := M.bind_eq_ok.1 h2
    obtain ⟨v, s3, h4, h5⟩ := M.bind_eq_ok.1 h2
    cases h5
    obtain ⟨new, rfl, hlen, hk⟩ := ih _ _ _ h3
    refine ⟨v :: new, by simp, by simp [hlen], ?_⟩
    intro k j' hj
    cases k with
    | zero =>
      simp at hj
      subst hj
      refine ⟨_, _, _, h4, rfl, ?_⟩
      rintro e rfl
      simp only [setIndex, M.modify_apply] at h1
      cases s with
      | none => cases h1
      | some st => cases h1; rfl
    | succ k =>
      simp at hj
      obtain ⟨a, b, c, d, e, f⟩ := hk k j' hj
      refine ⟨a, b, c, d, by simpa using e, ?_⟩
      intro x hx
      rw [f x hx]; omega

/-- C12 (reading): if reading an array of `n` items into a vector-like container returns, the result has exactly `n`
elements; element `i` is what reading item `i` into a new element gives, with `i` as current index. Previous elements are
gone (`prior` is arbitrary). Errors reported for items do not change this. -/
theorem C12_array_read_elementwise (E : Env) (n : Nat) (t : Ty) (js : List Json) (prior v' : Val) (st st' : Option ErrSt)
    (h : pull E (n + 1) (.vec t) (.arr js) prior st = .ok v' st') :
    ∃ vs, v' = .list vs ∧ vs.length = js.length ∧ ∀ (i : Nat) j, js[i]? = some j →
      ∃ s1 s2 v, pull E n t j (E.valInit t) s1 = .ok v s2 ∧ vs[i]? = some v ∧ ∀ e, s1 = some e → e.index = i := by
  change pullStep E (pull E n) _ _ _ _ = _ at h
  obtain ⟨vs, s1, h1, h2⟩ := M.bind_eq_ok.1 h
  cases h2
  obtain ⟨new, hn, hlen, hk⟩ := forIdx_vec js 0 [] vs st st' h1
  rw [List.nil_append] at hn
  subst hn
  exact ⟨vs, rfl, hlen, fun i j hj => by simpa using hk i j hj⟩

/-- C12 (writing): a container of `n` elements is serialised as an array of `n` items, item `i` being the document of
element `i`. -/
theorem C12_array_written_elementwise (E : Env) (H : Heap) (n : Nat) (t : Ty) (vs : List Val) (j : Json)
    (h : push E H (n + 1) (.vec t) (.list vs) () = .ok j ()) :
    ∃ js, j = .arr js ∧ List.Forall₂ (fun v j => push E H n t v () = .ok j ()) vs js := by
  change pushStep E H (push E H n) _ _ _ = _ at h
  obtain ⟨js, h1, h2⟩ := SM.map_ok_iff.1 h
  exact ⟨js, h2, pushElems_iff.1 h1⟩

example : pull env 3 (.vec (.int .i32)) (.arr [.num (.int 4), .null, .num (.int 6)]) (.list [.int 1]) none =
    .ok (.list [.int 4, .int 0, .int 6]) none := rfl

end Verif
