import Verif.Props.JsonGraph

/-!
# JSON: ownership and order of member names: C19, C53
-/

namespace Verif

open Demo (env)

/-- Iterating a hashed container visits each of its elements exactly once. -/
def IterPerm (E : Env) : Prop := (∀ l, (E.iter l).Perm l) ∧ (∀ l, (E.iterKV l).Perm l)

theorem demo_iterPerm : IterPerm env := ⟨fun l => List.reverse_perm l, fun l => List.reverse_perm l⟩

/-- Somewhere in the document there is a member name whose bytes belong to the serialised object. -/
inductive HasBorrowed : Json → Prop
  | here {ms k j} : (k, j) ∈ ms → k.src = .borrowed → HasBorrowed (.obj ms)
  | obj {ms k j} : (k, j) ∈ ms → HasBorrowed j → HasBorrowed (.obj ms)
  | arr {js j} : j ∈ js → HasBorrowed j → HasBorrowed (.arr js)

theorem HasBorrowed.mono {ms ms' : List (Key × Json)} (h : HasBorrowed (.obj ms)) (hs : ∀ x ∈ ms, x ∈ ms') :
    HasBorrowed (.obj ms') := by
  cases h with
  | here h1 h2 => exact .here (hs _ h1) h2
  | obj h1 h2 => exact .obj (hs _ h1) h2

/-- A map or multimap with at least one entry. -/
def NonemptyMap (x : Ty × Val) : Prop := ∃ kvs, x.2 = .map kvs ∧ kvs ≠ []

def AllBorrowed (ms : List (Key × Json)) : Prop := ∀ m ∈ ms, m.1.src = .borrowed

theorem appendToMember_borrowed {name : Str} {j : Json} {ms : List (Key × Json)} (h : AllBorrowed ms) :
    AllBorrowed (appendToMember name j ms) ∧ (appendToMember name j ms).length = ms.length := by
  induction ms with
  | nil => exact ⟨h, rfl⟩
  | cons m ms ih =>
    obtain ⟨k, j'⟩ := m
    have hk := h _ List.mem_cons_self
    have h' : AllBorrowed ms := fun m hm => h m (List.mem_cons_of_mem _ hm)
    obtain ⟨i1, i2⟩ := ih h'
    unfold appendToMember
    split
    · split
      · refine ⟨fun m hm => ?_, rfl⟩
        rcases List.mem_cons.1 hm with rfl | hm
        · exact hk
        · exact h' m hm
      · exact ⟨h, rfl⟩
    · refine ⟨fun m hm => ?_, by simp [i2]⟩
      rcases List.mem_cons.1 hm with rfl | hm
      · exact hk
      · exact i1 m hm

theorem addToGroup_borrowed {name : Str} {j : Json} {ms : List (Key × Json)} (h : AllBorrowed ms) :
    AllBorrowed (addToGroup name j ms) ∧ 0 < (addToGroup name j ms).length := by
  unfold addToGroup
  split
  · rename_i js hf
    obtain ⟨k, hk, -⟩ := findMember_mem hf
    refine ⟨(appendToMember_borrowed h).1, ?_⟩
    rw [(appendToMember_borrowed h).2]
    exact List.length_pos_of_mem hk
  · refine ⟨fun m hm => ?_, by simp⟩
    rcases List.mem_append.1 hm with hm | hm
    · exact h m hm
    · simp only [List.mem_singleton] at hm
      subst hm; rfl

theorem groups_borrowed (ps : List ((Val × Val) × Json)) {ms : List (Key × Json)} (h : AllBorrowed ms) :
    let r := ps.foldl (fun ms p => addToGroup (rjString (strKey p.1.1)) p.2 ms) ms
    AllBorrowed r ∧ (0 < ms.length ∨ ps ≠ [] → 0 < r.length) := by
  induction ps generalizing ms with
  | nil =>
    refine ⟨h, ?_⟩
    rintro (h | h)
    · exact h
    · exact absurd rfl h
  | cons p ps ih =>
    obtain ⟨h1, h2⟩ := addToGroup_borrowed (name := rjString (strKey p.1.1)) (j := p.2) h
    obtain ⟨i1, i2⟩ := ih h1
    exact ⟨i1, fun _ => i2 (.inl h2)⟩

theorem borrowed_of_all {ms : List (Key × Json)} (h : AllBorrowed ms) (hl : 0 < ms.length) : HasBorrowed (.obj ms) := by
  cases ms with
  | nil => simp at hl
  | cons m ms => exact .here (k := m.1) (j := m.2) List.mem_cons_self (h _ List.mem_cons_self)

/-- A serialised map with entries borrows its keys. -/
theorem push_map_borrowed {E : Env} (hE : IterPerm E) {H : Heap} {n : Nat} {t : Ty} {kvs : List (Val × Val)} {j : Json}
    (h : push E H n t (.map kvs) () = .ok j ()) (hne : kvs ≠ []) : HasBorrowed j := by
  cases n with
  | zero => cases h
  | succ n =>
    change pushStep E H (push E H n) t (.map kvs) () = _ at h
    cases t <;> try (cases h; done)
    rename_i hd m k t
    have hne' : 0 < (E.orderKV hd kvs).length := by
      have hp : 0 < kvs.length := List.length_pos_iff.2 hne
      cases hd
      · exact hp
      · show 0 < (E.iterKV kvs).length
        rw [(hE.2 kvs).length_eq]; exact hp
    cases m <;> cases k <;> try (cases h; done)
    · replace h := SM.map_ok_iff.1 h; obtain ⟨ms, h, rfl⟩ := h
      have h := pushMapEntries_iff.1 h
      apply borrowed_of_all
      · intro m hm
        obtain ⟨_, _, _, _, h, _⟩ := forall₂_mem_right h hm
        rw [h]
      · rw [← h.length_eq]; exact hne'
    · replace h := SM.map_ok_iff.1 h; obtain ⟨ms, h, rfl⟩ := h
      replace h := pushMultimapEntries_iff.1 h; obtain ⟨js, h, rfl⟩ := h
      have hg := groups_borrowed ((E.orderKV hd kvs).zip js) (ms := []) (fun m hm => by cases hm)
      refine borrowed_of_all hg.1 (hg.2 (.inr ?_))
      intro hz
      have hl := h.length_eq
      have hz := congrArg List.length hz
      rw [List.length_zip] at hz
      rw [← hl, Nat.min_self, List.length_nil] at hz
      omega

/-- The document of a part occurs in the document of the whole. -/
theorem push_calls_borrowed {E : Env} (hE : IterPerm E) {H : Heap} {n : Nat} {t t' : Ty} {v v' : Val} {j : Json}
    (h : push E H (n + 1) t v () = .ok j ()) (hc : PCalls E H t v t' v') :
    ∃ j', push E H n t' v' () = .ok j' () ∧ (HasBorrowed j' → HasBorrowed j) := by
  have hfull := h
  change pushStep E H (push E H n) t v () = _ at h
  cases hc with
  | vec hv =>
    replace h := SM.map_ok_iff.1 h; obtain ⟨js, h, rfl⟩ := h
    obtain ⟨j', hj, h⟩ := forall₂_mem_left (pushElems_iff.1 h) hv
    exact ⟨j', h, .arr hj⟩
  | set hv =>
    replace h := SM.map_ok_iff.1 h; obtain ⟨js, h, rfl⟩ := h
    obtain ⟨j', hj, h⟩ := forall₂_mem_left (pushElems_iff.1 h) hv
    exact ⟨j', h, .arr hj⟩
  | @map hd m t kvs k v hv =>
    obtain ⟨j', hj⟩ := push_ok_calls hfull (.map hv)
    refine ⟨j', hj, fun _ => push_map_borrowed hE hfull ?_⟩
    intro hz
    subst hz
    cases hd
    · cases hv
    · rw [show E.orderKV true [] = E.iterKV [] from rfl, (hE.2 []).eq_nil] at hv
      cases hv
  | pair hv =>
    replace h := SM.map_ok_iff.1 h; obtain ⟨js, h, rfl⟩ := h
    obtain ⟨j', hj, h⟩ := forall₂_mem_left (pushTuple_iff.1 h).2 hv
    exact ⟨j', h, .arr hj⟩
  | tuple hv =>
    replace h := SM.map_ok_iff.1 h; obtain ⟨js, h, rfl⟩ := h
    obtain ⟨j', hj, h⟩ := forall₂_mem_left (pushTuple_iff.1 h).2 hv
    exact ⟨j', h, .arr hj⟩
  | opt => exact ⟨j, h, id⟩
  | uptr => exact ⟨j, h, id⟩
  | sptr => exact ⟨j, h, id⟩
  | uref ha =>
    simp only [pushStep, ha] at h
    exact ⟨j, h, id⟩
  | ref ha =>
    simp only [pushStep, ha] at h
    exact ⟨j, h, id⟩
  | alt ht hm =>
    simp only [pushStep, ht] at h
    cases t' <;> first
      | exact absurd rfl hm
      | (replace h := SM.map_ok_iff.1 h; obtain ⟨j', h, rfl⟩ := h
         exact ⟨j', h, fun hb => .obj (List.mem_cons_of_mem _ List.mem_cons_self) hb⟩)
  | base hcl hb =>
    simp only [pushStep, hcl] at h
    replace h := SM.bind_ok_iff.1 h; obtain ⟨ms, h, h'⟩ := h
    replace h := pushBases_iff.1 h; obtain ⟨mss, h, rfl⟩ := h
    replace h' := SM.map_ok_iff.1 h'; obtain ⟨ms'', -, rfl⟩ := h'
    obtain ⟨ms', hms, h⟩ := forall₂_mem_left h hb
    refine ⟨_, h, fun hb => hb.mono fun x hx => List.mem_append_left _ (List.mem_flatten.2 ⟨_, hms, hx⟩)⟩
  | field hcl hf hv =>
    simp only [pushStep, hcl] at h
    replace h := SM.bind_ok_iff.1 h; obtain ⟨ms, -, h⟩ := h
    replace h := SM.map_ok_iff.1 h; obtain ⟨ms', h, rfl⟩ := h
    obtain ⟨m, hm, -, v'', hg, h⟩ := forall₂_mem_left (pushFields_iff.1 h) hf
    rw [hv] at hg
    cases hg
    exact ⟨_, h, .obj (k := m.1) (List.mem_append_right _ hm)⟩

/-- If the document borrows, either the value is a non-empty map or the document of a part borrows. -/
theorem borrowed_cases {E : Env} (hE : IterPerm E) {H : Heap} {n : Nat} {t : Ty} {v : Val} {j : Json}
    (h : push E H (n + 1) t v () = .ok j ()) (hb : HasBorrowed j) :
    NonemptyMap (t, v) ∨ ∃ t' v' j', PCalls E H t v t' v' ∧ push E H n t' v' () = .ok j' () ∧ HasBorrowed j' := by
  change pushStep E H (push E H n) t v () = _ at h
  cases t <;> cases v <;> try (first
    | (cases h; done)
    | (cases h; cases hb; done))
  case int.int it i => cases it <;> cases h <;> cases hb
  case opt.some t v => exact .inr ⟨_, _, _, .opt, h, hb⟩
  case uptr.ptr t v => exact .inr ⟨_, _, _, .uptr, h, hb⟩
  case sptr.ptr t v => exact .inr ⟨_, _, _, .sptr, h, hb⟩
  case uptr.ref t a =>
    simp only [pushStep] at h
    cases ha : H a with
    | none => rw [ha] at h; cases h
    | some v => rw [ha] at h; exact .inr ⟨_, _, _, .uref ha, h, hb⟩
  case sptr.ref t a =>
    simp only [pushStep] at h
    cases ha : H a with
    | none => rw [ha] at h; cases h
    | some v => rw [ha] at h; exact .inr ⟨_, _, _, .ref ha, h, hb⟩
  case vec.list t vs =>
    replace h := SM.map_ok_iff.1 h; obtain ⟨js, h, rfl⟩ := h
    cases hb with
    | arr hj hb =>
      obtain ⟨v, hv, h⟩ := forall₂_mem_right (pushElems_iff.1 h) hj
      exact .inr ⟨_, _, _, .vec hv, h, hb⟩
  case set.list hd m t vs =>
    replace h := SM.map_ok_iff.1 h; obtain ⟨js, h, rfl⟩ := h
    cases hb with
    | arr hj hb =>
      obtain ⟨v, hv, h⟩ := forall₂_mem_right (pushElems_iff.1 h) hj
      exact .inr ⟨_, _, _, .set hv, h, hb⟩
  case pair.tup a b vs =>
    replace h := SM.map_ok_iff.1 h; obtain ⟨js, h, rfl⟩ := h
    cases hb with
    | arr hj hb =>
      obtain ⟨v, hv, h⟩ := forall₂_mem_right (pushTuple_iff.1 h).2 hj
      exact .inr ⟨_, _, _, .pair hv, h, hb⟩
  case tuple.tup ts vs =>
    replace h := SM.map_ok_iff.1 h; obtain ⟨js, h, rfl⟩ := h
    cases hb with
    | arr hj hb =>
      obtain ⟨v, hv, h⟩ := forall₂_mem_right (pushTuple_iff.1 h).2 hj
      exact .inr ⟨_, _, _, .tuple hv, h, hb⟩
  case map.map hd m k t kvs =>
    left
    refine ⟨kvs, rfl, ?_⟩
    rintro rfl
    have ho : E.orderKV hd [] = [] := by
      cases hd
      · rfl
      · exact (hE.2 []).eq_nil
    cases m <;> cases k <;> try (cases h; done)
    · simp only [pushStep, ho] at h
      cases h
      cases hb with
      | here h _ => cases h
      | obj h _ => cases h
    · simp only [pushStep, ho] at h
      cases h
      cases hb with
      | here h _ => cases h
      | obj h _ => cases h
  case variant.alt ts i v =>
    simp only [pushStep] at h
    have fin : ∀ {j' : Json}, HasBorrowed (.obj [(⟨lit "index", .literal⟩, .num (.int i)), (⟨lit "data", .literal⟩, j')]) →
        HasBorrowed j' := by
      intro j' hb
      cases hb with
      | here h h' =>
        simp only [List.mem_cons, Prod.mk.injEq, List.not_mem_nil, or_false] at h
        rcases h with ⟨rfl, -⟩ | ⟨rfl, -⟩ <;> cases h'
      | obj h h' =>
        simp only [List.mem_cons, Prod.mk.injEq, List.not_mem_nil, or_false] at h
        rcases h with ⟨-, rfl⟩ | ⟨-, rfl⟩
        · cases h'
        · exact h'
    cases ht : ts[i]? with
    | none => rw [ht] at h; cases h
    | some t =>
      rw [ht] at h
      cases t <;> first
        | (cases h; exact absurd (fin hb) (by intro h; cases h))
        | (replace h := SM.map_ok_iff.1 h; obtain ⟨j', h, rfl⟩ := h
           exact .inr ⟨_, _, _, .alt ht (by simp), h, fin hb⟩)
  case cls.obj c st =>
    simp only [pushStep] at h
    cases hc : E.cls c with
    | none => rw [hc] at h; cases h
    | some ci =>
      rw [hc] at h
      obtain ⟨ms, h1, h2⟩ := SM.bind_ok_iff.1 h
      replace h1 := pushBases_iff.1 h1; obtain ⟨mss, h1, rfl⟩ := h1
      replace h2 := SM.map_ok_iff.1 h2; obtain ⟨ms', h2, rfl⟩ := h2
      have key : ∀ {k j}, (k, j) ∈ mss.flatten ++ ms' → (k.src = .borrowed ∨ HasBorrowed j) →
          ∃ t' v' j', PCalls E H (.cls c) (.obj st) t' v' ∧ push E H n t' v' () = .ok j' () ∧ HasBorrowed j' := by
        intro k j hm hkj
        rcases List.mem_append.1 hm with hm | hm
        · obtain ⟨l, hl, hm⟩ := List.mem_flatten.1 hm
          obtain ⟨b, hbb, hp⟩ := forall₂_mem_right h1 hl
          refine ⟨_, _, _, .base hc hbb, hp, ?_⟩
          rcases hkj with hkj | hkj
          · exact .here hm hkj
          · exact .obj hm hkj
        · obtain ⟨f, hf, hk, v, hv, hp⟩ := forall₂_mem_right (pushFields_iff.1 h2) hm
          refine ⟨_, _, _, .field hc hf hv, hp, ?_⟩
          rcases hkj with hkj | hkj
          · cases hk; cases hkj
          · exact hkj
      right
      cases hb with
      | here hm hk => exact key hm (.inl hk)
      | obj hm hj => exact key hm (.inr hj)
  all_goals
    rename_i o
    cases o <;> cases h <;> cases hb

/-- C19: the document of a value contains names owned by that value iff the value contains (at any depth, also behind
pointers) a non-empty map or multimap. -/
theorem C19_borrows_iff_nonempty_map (E : Env) (hE : IterPerm E) (H : Heap) (n : Nat) (t : Ty) (v : Val) (j : Json)
    (h : push E H n t v () = .ok j ()) :
    HasBorrowed j ↔ ∃ y, Relation.ReflTransGen (Part E H) (t, v) y ∧ NonemptyMap y := by
  constructor
  · intro hb
    induction n generalizing t v j with
    | zero => cases h
    | succ n ih =>
      rcases borrowed_cases hE h hb with hm | ⟨t', v', j', hc, h', hb'⟩
      · exact ⟨_, .refl, hm⟩
      · obtain ⟨y, h1, h2⟩ := ih t' v' j' h' hb'
        exact ⟨y, .head (show Part E H (t, v) (t', v') from hc) h1, h2⟩
  · rintro ⟨y, hy, hm⟩
    have key : ∀ x, Relation.ReflTransGen (Part E H) x y → ∀ n j, push E H n x.1 x.2 () = .ok j () → HasBorrowed j := by
      intro x hx
      induction hx using Relation.ReflTransGen.head_induction_on with
      | refl =>
        intro n j h
        obtain ⟨kvs, hy, hne⟩ := hm
        rw [hy] at h
        exact push_map_borrowed hE h hne
      | head hxz _ ih =>
        intro n j h
        cases n with
        | zero => cases h
        | succ n =>
          obtain ⟨j', h', hb⟩ := push_calls_borrowed hE h hxz
          exact hb (ih n j' h')
    exact key (t, v) hy n j h

/-- a `Derived` whose inherited map has an entry -/
def derivedWithMap : Val := .obj (Demo.derivedInit.set Demo.fM.key (.map [(.str [65], .int 1)]))

example : ∃ j, push env (fun _ => none) 4 (.cls 1) derivedWithMap () = .ok j () ∧ HasBorrowed j := by
  refine ⟨.obj [(⟨lit "i", .literal⟩, .num (.int 0)), (⟨lit "m", .literal⟩, .obj [(⟨[65], .borrowed⟩, .num (.int 1))]),
    (⟨lit "s", .literal⟩, .arr []), (⟨lit "k", .literal⟩, .num (.int 7))], rfl, ?_⟩
  exact .obj (List.mem_cons_of_mem _ List.mem_cons_self) (.here List.mem_cons_self rfl)

/-! ## C53 -/

/-- `FlatFields E cs fs`: `fs` are the members contributed by the classes `cs` in that order, where a class contributes what
its (listed) bases contribute followed by its own serialised members. -/
inductive FlatFields (E : Env) : List ClassId → List Field → Prop
  | nil : FlatFields E [] []
  | cons {c ci cs bs fs} : E.cls c = some ci → FlatFields E ci.json.bases bs → FlatFields E cs fs →
      FlatFields E (c :: cs) (bs ++ ci.json.pushFields ++ fs)

/-- C53: the document of an object of class `c` is a JSON object whose members are, in this order and under their own
names, the members of the bases (recursively, in the order in which the code generator lists the bases) followed by the own
members in declaration order; the `i`-th JSON member is the document of the `i`-th of these data members. -/
theorem C53_member_order (E : Env) (H : Heap) (n : Nat) (c : ClassId) (st : Store) (j : Json)
    (h : push E H n (.cls c) (.obj st) () = .ok j ()) :
    ∃ fs ms, FlatFields E [c] fs ∧ j = .obj ms ∧
      List.Forall₂ (fun (f : Field) (m : Key × Json) => m.1.bytes = f.name ∧
        ∃ v k, st.get? f.key = some v ∧ push E H k f.ty v () = .ok m.2 ()) fs ms := by
  have key : ∀ n c j, push E H n (.cls c) (.obj st) () = .ok j () → ∃ fs ms, FlatFields E [c] fs ∧ j = .obj ms ∧
      List.Forall₂ (fun (f : Field) (m : Key × Json) => m.1.bytes = f.name ∧
        ∃ v k, st.get? f.key = some v ∧ push E H k f.ty v () = .ok m.2 ()) fs ms := by
    intro n
    induction n with
    | zero => intro c j h; cases h
    | succ n ih =>
      intro c j h
      change pushStep E H (push E H n) _ _ () = _ at h
      simp only [pushStep] at h
      cases hc : E.cls c with
      | none => rw [hc] at h; cases h
      | some ci =>
        rw [hc] at h
        obtain ⟨ms, h1, h2⟩ := SM.bind_ok_iff.1 h
        replace h1 := pushBases_iff.1 h1; obtain ⟨mss, h1, rfl⟩ := h1
        replace h2 := SM.map_ok_iff.1 h2; obtain ⟨ms', h2, rfl⟩ := h2
        have hbase : ∃ bs, FlatFields E ci.json.bases bs ∧
            List.Forall₂ (fun (f : Field) (m : Key × Json) => m.1.bytes = f.name ∧
              ∃ v k, st.get? f.key = some v ∧ push E H k f.ty v () = .ok m.2 ()) bs mss.flatten := by
          clear h h2 hc
          generalize ci.json.bases = bl at h1
          induction h1 with
          | nil => exact ⟨[], .nil, .nil⟩
          | cons hb _ ihb =>
            obtain ⟨bs, i1, i2⟩ := ihb
            obtain ⟨fs, ms, f1, f2, f3⟩ := ih _ _ hb
            cases f2
            refine ⟨fs ++ bs, ?_, List.rel_append f3 i2⟩
            cases f1 with
            | cons a b c' =>
              cases c'
              rw [List.append_nil]
              exact .cons a b i1
        obtain ⟨bs, hb1, hb2⟩ := hbase
        refine ⟨bs ++ ci.json.pushFields ++ [], _, .cons hc hb1 .nil, rfl, ?_⟩
        rw [List.append_nil]
        refine List.rel_append hb2 ((pushFields_iff.1 h2).imp ?_)
        rintro f m ⟨hk, v, hv, hp⟩
        exact ⟨by rw [hk], v, n, hv, hp⟩
  exact key n c j h

example : FlatFields env [1] [Demo.fI, Demo.fM, Demo.fS, Demo.fK] :=
  .cons (ci := Demo.derived) (bs := [Demo.fI, Demo.fM]) (fs := []) rfl
    (.cons (ci := Demo.base) (bs := []) (fs := []) rfl .nil .nil) .nil

end Verif
