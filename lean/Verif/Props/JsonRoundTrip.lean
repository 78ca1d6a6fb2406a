import Verif.Spec.JsonRepr
import Verif.Props.JsonGraph
import Verif.Lemmas.Ev

/-!
# C01: JSON document round trip
-/

namespace Verif

open Demo (env)

section
variable (E : Env) (H : Heap)

/-- `v` is serialised as `j` -/
def Writes (t : Ty) (v : Val) (j : Json) : Prop := Ev fun n => push E H n t v () = .ok j ()

/-- `j` is deserialised as `v` into an object holding `p`, without any error -/
def Reads' (t : Ty) (j : Json) (p v : Val) : Prop := Ev fun n => Clean (pull E n t j p) v

end

variable {E : Env} {H : Heap}

theorem Writes.unique {t : Ty} {v : Val} {j j' : Json} (h : Writes E H t v j) (h' : Writes E H t v j') : j = j' := by
  obtain ⟨n, h1, h2⟩ := (h.and h').exists
  rw [h1] at h2
  cases h2
  rfl

theorem Ev.forall₂ {α β : Type} {P : Nat → α → β → Prop} {l : List α} {l' : List β}
    (h : List.Forall₂ (fun a b => Ev fun n => P n a b) l l') : Ev fun n => List.Forall₂ (P n) l l' := by
  induction h with
  | nil => exact Ev.of fun _ => .nil
  | cons h1 _ ih => exact (h1.and ih).imp fun n h => .cons h.1 h.2

theorem forall₂_choose {α β : Type} {P : α → β → Prop} (l : List α) (h : ∀ a ∈ l, ∃ b, P a b) : ∃ l', List.Forall₂ P l l' := by
  induction l with
  | nil => exact ⟨[], .nil⟩
  | cons a l ih =>
    obtain ⟨b, hb⟩ := h a List.mem_cons_self
    obtain ⟨l', hl⟩ := ih fun a ha => h a (List.mem_cons_of_mem _ ha)
    exact ⟨b :: l', .cons hb hl⟩

/-! ## loops -/

/-- all steps of a loop succeed without error -/
inductive Chain {β : Type} (f : Json → β → PM β) : List Json → β → β → Prop
  | nil (b) : Chain f [] b b
  | cons {j js b b1 b2} : Clean (f j b) b1 → Chain f js b1 b2 → Chain f (j :: js) b b2

theorem Chain.clean {β : Type} {f : Json → β → PM β} {js : List Json} {b b' : β} (h : Chain f js b b') (i : Nat) :
    forIdx f js i b none = .ok b' none ∧ ∀ s : ErrSt, forIdx f js i b (some s) = .ok b' (some { s with index := noIndex }) := by
  induction h generalizing i with
  | nil b => exact ⟨by rw [forIdx_nil]; rfl, fun s => by rw [forIdx_nil]; rfl⟩
  | @cons j js b b1 b2 h1 _ ih =>
    refine ⟨?_, fun s => ?_⟩
    · rw [forIdx_cons, Option.map_none, M.bind_ok h1.1]
      exact (ih _).1
    · obtain ⟨i', -, e⟩ := h1.2 { s with index := i }
      rw [forIdx_cons, Option.map_some, M.bind_ok e, (ih _).2]

theorem Clean.forIdx {β : Type} {f : Json → β → PM β} {js : List Json} {b b' : β} (h : Chain f js b b') (i : Nat) :
    Clean (forIdx f js i b) b' :=
  ⟨(h.clean i).1, fun s => ⟨noIndex, .inr rfl, (h.clean i).2 s⟩⟩

theorem Clean.map {α β : Type} {m : PM α} {a : α} (g : α → β) (h : Clean m a) :
    Clean (m >>= fun a => (Pure.pure (g a) : PM β)) (g a) := Clean.bind h (Clean.pure _)

section
variable {self : Ty → Json → Val → PM Val} {t : Ty}

theorem vec_chain {js : List Json} {vs : List Val} (h : List.Forall₂ (fun j v => Clean (self t j (E.valInit t)) v) js vs)
    (acc : List Val) : Chain (vecItem E self t) js acc (acc ++ vs) := by
  induction h generalizing acc with
  | nil => simpa using Chain.nil acc
  | @cons j v js vs h1 _ ih =>
    refine .cons (b1 := acc ++ [v]) (Clean.map _ h1) ?_
    simpa using ih (acc ++ [v])

theorem set_chain {S : List Val} (hS : WeakOrderOn (E.lt t) S) {js : List Json} {vs : List Val}
    (h : List.Forall₂ (fun j v => Clean (self t j (E.defInit t)) v) js vs) (hi : ∀ v ∈ vs, v.hasIndet = false)
    (pre acc : List Val) (hm : ∀ x ∈ pre ++ vs, x ∈ S) (hI : SetInv (E.lt t) pre acc)
    (hd : (pre ++ vs).Pairwise fun a b => ¬ Equivalent (E.lt t) a b) :
    ∃ out, Chain (setItem E self t) js acc out ∧ SetInv (E.lt t) (pre ++ vs) out := by
  induction h generalizing pre acc with
  | nil => exact ⟨acc, .nil acc, by simpa using hI⟩
  | @cons j v js vs h1 _ ih =>
    have hpre : ∀ x ∈ pre, x ∈ S := fun x hx => hm x (by simp [hx])
    have hv : v ∈ S := hm v (by simp)
    have hne : ¬ ∃ z ∈ pre, Equivalent (E.lt t) z v := by
      rintro ⟨z, hz, he⟩
      exact (List.pairwise_append.1 hd).2.2 z hz v (by simp) he
    have hI' := (SetInv.step hS hI hpre hv).2.2
    obtain ⟨out, c1, c2⟩ := ih (fun v hv => hi v (by simp [hv])) (pre ++ [v]) _ (by simpa using hm) hI' (by simpa using hd)
    exact ⟨out, .cons ((setItem_clean hS hI hpre hv (hi v (by simp)) h1).1 hne) c1, by simpa using c2⟩

/-- lists sorted by an asymmetric relation are determined by their elements -/
theorem sorted_ext {α : Type} {r : α → α → Prop} (l1 l2 : List α) (h1 : l1.Pairwise r) (h2 : l2.Pairwise r)
    (hm : ∀ x, x ∈ l1 ↔ x ∈ l2) (ha : ∀ a ∈ l1, ∀ b ∈ l1, r a b → ¬ r b a) : l1 = l2 := by
  induction l1 generalizing l2 with
  | nil =>
    cases l2 with
    | nil => rfl
    | cons b l2 => exact absurd ((hm b).2 List.mem_cons_self) (by simp)
  | cons a l1 ih =>
    cases l2 with
    | nil => exact absurd ((hm a).1 List.mem_cons_self) (by simp)
    | cons b l2 =>
      have hb1 : b ∈ a :: l1 := (hm b).2 List.mem_cons_self
      have hab : a = b := by
        rcases List.mem_cons.1 ((hm a).1 List.mem_cons_self) with h | h
        · exact h
        rcases List.mem_cons.1 hb1 with h' | h'
        · exact h'.symm
        exact absurd ((List.pairwise_cons.1 h2).1 a h) (ha a List.mem_cons_self b hb1 ((List.pairwise_cons.1 h1).1 b h'))
      subst hab
      have irr : ∀ x ∈ a :: l1, ¬ r x x := fun x hx h => ha x hx x hx h h
      have ra : ¬ r a a := irr a List.mem_cons_self
      rw [ih l2 (List.pairwise_cons.1 h1).2 (List.pairwise_cons.1 h2).2 (fun x => ?_)
        (fun x hx y hy => ha x (List.mem_cons_of_mem _ hx) y (List.mem_cons_of_mem _ hy))]
      constructor
      · intro hx
        rcases List.mem_cons.1 ((hm x).1 (List.mem_cons_of_mem _ hx)) with rfl | h
        · exact absurd ((List.pairwise_cons.1 h1).1 x hx) ra
        · exact h
      · intro hx
        rcases List.mem_cons.1 ((hm x).2 (List.mem_cons_of_mem _ hx)) with rfl | h
        · exact absurd ((List.pairwise_cons.1 h2).1 x hx) ra
        · exact h

/-- lists sorted non-descendingly are determined by their elements (with multiplicity) if equivalent ones are equal -/
theorem perm_sorted_ext {lt : Val → Val → Bool} (l1 l2 : List Val) (hp : l1.Perm l2)
    (h1 : l1.Pairwise fun a b => lt b a = false) (h2 : l2.Pairwise fun a b => lt b a = false)
    (he : ∀ a ∈ l1, ∀ b ∈ l1, Equivalent lt a b → a = b) : l1 = l2 := by
  induction l1 generalizing l2 with
  | nil => exact hp.nil_eq
  | cons a l1 ih =>
    cases l2 with
    | nil => exact absurd hp.symm (by simp)
    | cons b l2 =>
      have hb1 : b ∈ a :: l1 := hp.mem_iff.2 List.mem_cons_self
      have hab : a = b := by
        rcases List.mem_cons.1 (hp.mem_iff.1 (List.mem_cons_self (a := a) (l := l1))) with h | h
        · exact h
        rcases List.mem_cons.1 hb1 with h' | h'
        · exact h'.symm
        exact he a List.mem_cons_self b hb1 ⟨(List.pairwise_cons.1 h2).1 a h, (List.pairwise_cons.1 h1).1 b h'⟩
      subst hab
      rw [ih l2 hp.cons_inv (List.pairwise_cons.1 h1).2 (List.pairwise_cons.1 h2).2
        (fun x hx y hy => he x (List.mem_cons_of_mem _ hx) y (List.mem_cons_of_mem _ hy))]

theorem insertMulti_perm (lt : Val → Val → Bool) (x : Val) (l : List Val) : (insertMulti lt x l).Perm (x :: l) := by
  induction l with
  | nil => exact .refl _
  | cons y l ih =>
    simp only [insertMulti]
    split
    · exact .refl _
    · exact (ih.cons _).trans (.swap _ _ _)

theorem insertMulti_sorted {lt : Val → Val → Bool} {S : List Val} (hS : WeakOrderOn lt S) {x : Val} (hx : x ∈ S) (l : List Val)
    (hl : ∀ y ∈ l, y ∈ S) (h : l.Pairwise fun a b => lt b a = false) : (insertMulti lt x l).Pairwise fun a b => lt b a = false := by
  induction l with
  | nil => simp [insertMulti]
  | cons y l ih =>
    have hy : y ∈ S := hl y List.mem_cons_self
    have h' := List.pairwise_cons.1 h
    simp only [insertMulti]
    split
    · rename_i hxy
      refine List.pairwise_cons.2 ⟨fun z hz => ?_, h⟩
      have hyx := hS.asymm hx hy hxy
      rcases List.mem_cons.1 hz with rfl | hz'
      · exact hyx
      · exact hS.negTrans _ (hl z hz) _ hy _ hx (h'.1 z hz') hyx
    · rename_i hxy
      refine List.pairwise_cons.2 ⟨fun z hz => ?_, ih (fun z hz => hl z (List.mem_cons_of_mem _ hz)) h'.2⟩
      rcases List.mem_cons.1 ((insertMulti_perm lt x l).mem_iff.1 hz) with rfl | hz
      · simpa using hxy
      · exact h'.1 z hz

theorem insertMulti_append {lt : Val → Val → Bool} {x : Val} (l : List Val) (h : ∀ y ∈ l, lt x y = false) :
    insertMulti lt x l = l ++ [x] := by
  induction l with
  | nil => rfl
  | cons y l ih =>
    simp only [insertMulti, h y List.mem_cons_self, Bool.false_eq_true, if_false, List.cons_append]
    rw [ih fun y hy => h y (List.mem_cons_of_mem _ hy)]

theorem multiset_chain {S : List Val} (hS : WeakOrderOn (E.lt t) S) {js : List Json} {vs : List Val}
    (h : List.Forall₂ (fun j v => Clean (self t j (E.defInit t)) v) js vs) (hi : ∀ v ∈ vs, v.hasIndet = false)
    (acc : List Val) (hm : ∀ x ∈ acc ++ vs, x ∈ S) (hs : acc.Pairwise fun a b => E.lt t b a = false) :
    ∃ out, Chain (multisetItem E self t) js acc out ∧ out.Perm (acc ++ vs) ∧ (out.Pairwise fun a b => E.lt t b a = false) ∧
      (((acc ++ vs).Pairwise fun a b => E.lt t b a = false) → out = acc ++ vs) := by
  induction h generalizing acc with
  | nil => exact ⟨acc, .nil acc, by simp, hs, by simp⟩
  | @cons j v js vs h1 _ ih =>
    have hv : v ∈ S := hm v (by simp)
    have hp := insertMulti_perm (E.lt t) v acc
    obtain ⟨out, c1, c2, c3, c4⟩ := ih (fun v hv => hi v (by simp [hv])) (insertMulti (E.lt t) v acc) (fun x hx => by
        rcases List.mem_append.1 hx with hx | hx
        · rcases List.mem_cons.1 (hp.mem_iff.1 hx) with rfl | hx
          · exact hv
          · exact hm x (by simp [hx])
        · exact hm x (by simp [hx]))
      (insertMulti_sorted hS hv acc (fun y hy => hm y (by simp [hy])) hs)
    refine ⟨out, .cons ?_ c1, ?_, c3, fun hsort => ?_⟩
    · refine Clean.bind h1 ?_
      simp only [hi v (by simp), Bool.false_eq_true, if_false]
      exact Clean.pure _
    · exact c2.trans ((hp.append_right vs).trans List.perm_middle.symm)
    · have : insertMulti (E.lt t) v acc = acc ++ [v] :=
        insertMulti_append acc fun y hy => (List.pairwise_append.1 hsort).2.2 y hy v (by simp)
      rw [this] at c4
      simpa using c4 (by simpa using hsort)

end

/-! ## maps -/

theorem mapOK_ext (hE : StrTotal E) {l1 l2 : List (Val × Val)} (h1 : MapOK E l1) (h2 : MapOK E l2) (hm : ∀ q, q ∈ l1 ↔ q ∈ l2) :
    l1 = l2 := by
  refine sorted_ext l1 l2 h1.2 h2.2 hm ?_
  intro a ha b hb h h'
  obtain ⟨k, hk⟩ := h1.1 a ha
  obtain ⟨k', hk'⟩ := h1.1 b hb
  rw [hk, hk'] at h h'
  rw [hE.asymm h] at h'
  cases h'

theorem mapOK_functional (hE : StrTotal E) {l : List (Val × Val)} (h : MapOK E l) {k : Str} {v v' : Val} (h1 : (.str k, v) ∈ l)
    (h2 : (.str k, v') ∈ l) : v = v' := by
  have a := (mapFind_iff hE h).2 h1
  have b := (mapFind_iff hE h).2 h2
  rw [a] at b
  cases b
  rfl

section
variable {self : Ty → Json → Val → PM Val} {t : Ty}

theorem plain_cstrOf {s : Str} (h : PlainStr s) : cstrOf s = s := cstrOf_eq h.1

theorem plain_rjString {s : Str} (h : PlainStr s) : rjString s = s := by
  unfold rjString rapidJsonSize
  rw [if_neg (by have := h.2; omega), List.take_of_length_le (Nat.le_refl _)]

theorem plain_rjStrRef {s : Str} (h : PlainStr s) : rjStrRef s = s := by
  unfold rjStrRef
  rw [plain_cstrOf h, Nat.mod_eq_of_lt h.2, List.take_of_length_le (Nat.le_refl _)]

theorem map_clean (hE : StrTotal E) {ps kvs : List (Val × Val)} (hps : MapOK E ps) (hkvs : MapOK E kvs)
    (hplain : ∀ k v, (.str k, v) ∈ kvs → PlainStr k) (l : List (Val × Val)) (ms : List (Key × Json))
    (hl : ∀ q ∈ l, q ∈ kvs)
    (hms : List.Forall₂ (fun (kv : Val × Val) (m : Key × Json) => kv.1 = .str m.1.bytes ∧
      (∀ p, (kv.1, p) ∈ ps → Clean (self t m.2 p) kv.2) ∧ ((∀ p, (kv.1, p) ∉ ps) → Clean (self t m.2 (E.valInit t)) kv.2)) l ms)
    (done cur : List (Val × Val)) (hcur : MapOK E cur) (hnd : (done ++ l).Pairwise fun a b => a.1 ≠ b.1)
    (hmem : ∀ q, q ∈ cur ↔ q ∈ done ∨ (q ∈ ps ∧ ∀ d ∈ done, d.1 ≠ q.1)) :
    ∃ out, Clean (pullMapEntries E self t ms cur) out ∧ MapOK E out ∧
      ∀ q, q ∈ out ↔ q ∈ done ++ l ∨ (q ∈ ps ∧ ∀ d ∈ done ++ l, d.1 ≠ q.1) := by
  induction hms generalizing done cur with
  | nil => exact ⟨cur, Clean.pure _, hcur, by simpa using hmem⟩
  | @cons kv m l ms h1 _ ih =>
    obtain ⟨hk, c1, c2⟩ := h1
    obtain ⟨kv1, v⟩ := kv
    obtain ⟨k, j⟩ := m
    simp only at hk c1 c2
    subst hk
    have hin : (Val.str k.bytes, v) ∈ kvs := hl _ List.mem_cons_self
    have hnotdone : ∀ d ∈ done, d.1 ≠ .str k.bytes := fun d hd => (List.pairwise_append.1 hnd).2.2 d hd _ List.mem_cons_self
    have hcur' := mapOK_mapSet (k := k.bytes) (v := v) hE hcur
    have hstep : Clean (self t j ((mapFind (E.lt .str) (.str k.bytes) cur).getD (E.valInit t))) v := by
      by_cases hex : ∃ p, (Val.str k.bytes, p) ∈ ps
      · obtain ⟨p, hp⟩ := hex
        have : (Val.str k.bytes, p) ∈ cur := (hmem _).2 (.inr ⟨hp, hnotdone⟩)
        rw [(mapFind_iff hE hcur).2 this]
        exact c1 p hp
      · have : ∀ p, (Val.str k.bytes, p) ∉ cur := by
          intro p hp
          rcases (hmem _).1 hp with h | h
          · exact hnotdone _ h rfl
          · exact hex ⟨p, h.1⟩
        rw [mapFind_none hE hcur this]
        exact c2 fun p hp => hex ⟨p, hp⟩
    obtain ⟨out, o1, o2, o3⟩ := ih (fun q hq => hl q (List.mem_cons_of_mem _ hq)) (done ++ [(.str k.bytes, v)])
      (mapSet (E.lt .str) (.str k.bytes) v cur) hcur' (by simpa using hnd) (by
        intro q
        rw [mem_mapSet hE hcur, hmem]
        simp only [List.mem_append, List.mem_singleton]
        constructor
        · rintro (h | ⟨h | ⟨h, h'⟩, hne⟩)
          · exact .inl (.inr h)
          · exact .inl (.inl h)
          · refine .inr ⟨h, fun d hd => ?_⟩
            rcases hd with hd | rfl
            · exact h' d hd
            · exact fun h => hne h.symm
        · rintro ((h | h) | ⟨h1, h2⟩)
          · exact .inr ⟨.inl h, hnotdone q h⟩
          · exact .inl h
          · exact .inr ⟨.inr ⟨h1, fun d hd => h2 d (.inl hd)⟩, fun h => h2 _ (.inr rfl) h.symm⟩)
    refine ⟨out, ?_, o2, by simpa using o3⟩
    have hkey : cstrOf k.bytes = k.bytes := plain_cstrOf (hplain _ _ hin)
    simp only [pullMapEntries, hkey]
    exact Clean.bind hstep o1

/-! ## multimaps -/

/-- keys are strings in non-descending order -/
def MultiOK (E : Env) (kvs : List (Val × Val)) : Prop :=
  (∀ q ∈ kvs, ∃ k, q.1 = .str k) ∧ kvs.Pairwise fun a b => E.lt .str b.1 a.1 = false

theorem valuesOf_cons (name k : Str) (v : Val) (l : List (Val × Val)) :
    valuesOf name ((.str k, v) :: l) = (if k = name then [v] else []) ++ valuesOf name l := by
  simp only [valuesOf, List.filterMap_cons, strKey]
  by_cases h : k = name <;> simp [h]

theorem valuesOf_nil (name : Str) : valuesOf name [] = [] := rfl

theorem MultiOK.tail {q : Val × Val} {l : List (Val × Val)} (h : MultiOK E (q :: l)) : MultiOK E l :=
  ⟨fun q hq => h.1 q (List.mem_cons_of_mem _ hq), (List.pairwise_cons.1 h.2).2⟩

theorem valuesOf_ne_nil {name : Str} {l : List (Val × Val)} (hl : ∀ q ∈ l, ∃ k, q.1 = .str k) :
    valuesOf name l ≠ [] ↔ ∃ v, (.str name, v) ∈ l := by
  induction l with
  | nil => simp [valuesOf_nil]
  | cons q l ih =>
    obtain ⟨q1, v⟩ := q
    obtain ⟨k, hk⟩ := hl _ List.mem_cons_self
    simp only at hk
    subst hk
    rw [valuesOf_cons]
    have ih' := ih fun q hq => hl q (List.mem_cons_of_mem _ hq)
    by_cases h : k = name
    · subst h; simp
    · have h' : ¬ name = k := fun e => h e.symm
      simp only [h, if_false, List.nil_append, List.mem_cons, Prod.mk.injEq, Val.str.injEq, h', false_and, false_or]
      exact ih'

theorem multi_ext (hE : StrTotal E) (l1 l2 : List (Val × Val)) (h1 : MultiOK E l1) (h2 : MultiOK E l2)
    (hv : ∀ name, valuesOf name l1 = valuesOf name l2) : l1 = l2 := by
  induction l1 generalizing l2 with
  | nil =>
    cases l2 with
    | nil => rfl
    | cons q l2 =>
      obtain ⟨q1, v⟩ := q
      obtain ⟨k, hk⟩ := h2.1 _ List.mem_cons_self
      simp only at hk; subst hk
      have := hv k
      rw [valuesOf_cons, valuesOf_nil] at this
      simp at this
  | cons a l1 ih =>
    obtain ⟨a1, va⟩ := a
    obtain ⟨ka, hka⟩ := h1.1 _ List.mem_cons_self
    simp only at hka; subst hka
    have hva := hv ka
    have hmem2 : ∃ v, (Val.str ka, v) ∈ l2 := by
      rw [← valuesOf_ne_nil h2.1, ← hva, valuesOf_cons]; simp
    cases l2 with
    | nil => obtain ⟨v, hv⟩ := hmem2; cases hv
    | cons b l2 =>
      obtain ⟨b1, vb⟩ := b
      obtain ⟨kb, hkb⟩ := h2.1 _ List.mem_cons_self
      simp only at hkb; subst hkb
      have hmem1 : ∃ v, (Val.str kb, v) ∈ (Val.str ka, va) :: l1 := by
        rw [← valuesOf_ne_nil h1.1, hv kb, valuesOf_cons]; simp
      have hkk : ka = kb := by
        apply Classical.byContradiction
        intro hne
        obtain ⟨v1, m1⟩ := hmem1
        obtain ⟨v2, m2⟩ := hmem2
        rcases List.mem_cons.1 m1 with e | m1
        · simp only [Prod.mk.injEq, Val.str.injEq] at e; exact hne e.1.symm
        rcases List.mem_cons.1 m2 with e | m2
        · simp only [Prod.mk.injEq, Val.str.injEq] at e; exact hne e.1
        have x1 := (List.pairwise_cons.1 h1.2).1 _ m1
        have x2 := (List.pairwise_cons.1 h2.2).1 _ m2
        simp only at x1 x2
        rcases hE.total _ _ hne with h | h
        · rw [h] at x2; cases x2
        · rw [h] at x1; cases x1
      subst hkk
      have hvv : va = vb ∧ valuesOf ka l1 = valuesOf ka l2 := by
        rw [valuesOf_cons, valuesOf_cons] at hva
        simpa using hva
      rw [hvv.1, ih l2 h1.tail h2.tail]
      intro name
      by_cases hn : ka = name
      · subst hn; exact hvv.2
      · have := hv name
        rw [valuesOf_cons, valuesOf_cons] at this
        simpa [hn] using this

theorem mapInsertMulti_spec (hE : StrTotal E) (k : Str) (v : Val) (l : List (Val × Val)) (h : MultiOK E l) :
    MultiOK E (mapInsertMulti (E.lt .str) (.str k) v l) ∧
    ∀ name, valuesOf name (mapInsertMulti (E.lt .str) (.str k) v l) = valuesOf name l ++ (if k = name then [v] else []) := by
  induction l with
  | nil => exact ⟨⟨by simp [mapInsertMulti], by simp [mapInsertMulti]⟩, fun name => by
      simp only [mapInsertMulti, valuesOf_cons, valuesOf_nil]; simp⟩
  | cons q l ih =>
    obtain ⟨q1, vq⟩ := q
    obtain ⟨kq, hkq⟩ := h.1 _ List.mem_cons_self
    simp only at hkq; subst hkq
    obtain ⟨i1, i2⟩ := ih h.tail
    have hp := List.pairwise_cons.1 h.2
    simp only [mapInsertMulti]
    split
    · rename_i hlt
      have hall : ∀ x ∈ (Val.str kq, vq) :: l, E.lt .str x.1 (.str k) = false := by
        intro x hx
        rcases List.mem_cons.1 hx with rfl | hx'
        · exact hE.asymm hlt
        · obtain ⟨kx, hkx⟩ := h.1 x hx
          have := hp.1 x hx'
          rw [hkx] at this ⊢
          simp only at this
          rw [Bool.eq_false_iff]
          intro hc
          have := hE.trans _ _ _ hc hlt
          simp_all
      refine ⟨⟨fun x hx => ?_, List.pairwise_cons.2 ⟨hall, h.2⟩⟩, fun name => ?_⟩
      · rcases List.mem_cons.1 hx with rfl | hx
        · exact ⟨k, rfl⟩
        · exact h.1 x hx
      · rw [valuesOf_cons]
        by_cases hn : k = name
        · subst hn
          have hnil : valuesOf k ((Val.str kq, vq) :: l) = [] := by
            apply Classical.byContradiction
            intro hne
            obtain ⟨v', hv'⟩ := (valuesOf_ne_nil h.1).1 hne
            have hkk : E.lt .str (.str k) (.str k) = true := by
              rcases List.mem_cons.1 hv' with e | hv''
              · simp only [Prod.mk.injEq, Val.str.injEq] at e
                rw [e.1] at hlt ⊢
                exact hlt
              · have := hp.1 _ hv''
                simp only at this
                rw [hlt] at this; cases this
            rw [hE.irrefl] at hkk; cases hkk
          simp [hnil]
        · simp [hn]
    · rename_i hlt
      refine ⟨⟨fun x hx => ?_, List.pairwise_cons.2 ⟨fun x hx => ?_, i1.2⟩⟩, fun name => ?_⟩
      · rcases List.mem_cons.1 hx with rfl | hx
        · exact ⟨kq, rfl⟩
        · exact i1.1 x hx
      · rcases List.mem_cons.1 ((perm_mapInsertMulti l).1.mem_iff.1 hx) with rfl | hx
        · simpa using hlt
        · exact hp.1 x hx
      · rw [valuesOf_cons, valuesOf_cons, i2]
        simp

theorem multimapItems_clean (hE : StrTotal E) (k : Str) (js : List Json) (vs : List Val)
    (h : List.Forall₂ (fun j v => Clean (self t j (E.valInit t)) v) js vs) (cur : List (Val × Val)) (hc : MultiOK E cur) :
    ∃ out, Clean (pullMultimapItems E self t k js cur) out ∧ MultiOK E out ∧
      ∀ name, valuesOf name out = valuesOf name cur ++ (if k = name then vs else []) := by
  induction h generalizing cur with
  | nil => exact ⟨cur, Clean.pure _, hc, fun name => by simp⟩
  | @cons j v js vs h1 _ ih =>
    obtain ⟨s1, s2⟩ := mapInsertMulti_spec hE k v cur hc
    obtain ⟨out, o1, o2, o3⟩ := ih _ s1
    refine ⟨out, Clean.bind h1 o1, o2, fun name => ?_⟩
    rw [o3, s2]
    by_cases hn : k = name <;> simp [hn]

theorem multimap_clean (hE : StrTotal E) (ms : List (Key × Json)) (vals : Str → List Val)
    (hplain : ∀ m ∈ ms, cstrOf m.1.bytes = m.1.bytes) (hnd : (ms.map fun m => m.1.bytes).Nodup)
    (hms : ∀ m ∈ ms, ∃ js, m.2 = .arr js ∧ List.Forall₂ (fun j v => Clean (self t j (E.valInit t)) v) js (vals m.1.bytes))
    (cur : List (Val × Val)) (hc : MultiOK E cur) (hcur : ∀ m ∈ ms, valuesOf m.1.bytes cur = []) :
    ∃ out, Clean (pullMultimapEntries E self t ms cur) out ∧ MultiOK E out ∧
      (∀ m ∈ ms, valuesOf m.1.bytes out = vals m.1.bytes) ∧
      ∀ name, (∀ m ∈ ms, m.1.bytes ≠ name) → valuesOf name out = valuesOf name cur := by
  induction ms generalizing cur with
  | nil => exact ⟨cur, Clean.pure _, hc, by simp, by simp⟩
  | cons m ms ih =>
    obtain ⟨k, j⟩ := m
    obtain ⟨js, hj, hjs⟩ := hms _ List.mem_cons_self
    simp only at hj hjs; subst hj
    obtain ⟨out1, a1, a2, a3⟩ := multimapItems_clean (self := self) hE k.bytes js _ hjs cur hc
    simp only [List.map_cons, List.nodup_cons, List.mem_map, not_exists, not_and] at hnd
    have hne : ∀ m ∈ ms, k.bytes ≠ m.1.bytes := fun m hm e => hnd.1 m hm e.symm
    obtain ⟨out, o1, o2, o3, o4⟩ := ih (fun m hm => hplain m (List.mem_cons_of_mem _ hm)) hnd.2
      (fun m hm => hms m (List.mem_cons_of_mem _ hm)) out1 a2 (fun m hm => by
        rw [a3, hcur m (List.mem_cons_of_mem _ hm)]
        simp [hne m hm])
    refine ⟨out, ?_, o2, ?_, ?_⟩
    · have hk : cstrOf k.bytes = k.bytes := hplain _ List.mem_cons_self
      simp only [pullMultimapEntries, hk]
      exact Clean.bind a1 o1
    · intro m hm
      rcases List.mem_cons.1 hm with rfl | hm
      · rw [o4 _ fun m hm e => hne m hm e.symm, a3, hcur _ List.mem_cons_self]
        simp
      · exact o3 m hm
    · intro name hn
      rw [o4 name fun m hm => hn m (List.mem_cons_of_mem _ hm), a3]
      simp [hn _ List.mem_cons_self]

/-! ## tuples -/

theorem tuple_clean (ts : List Ty) (js : List Json) (ps vs : List Val) (h1 : js.length = ts.length) (h2 : ps.length = ts.length)
    (h3 : vs.length = ts.length)
    (h : ∀ (i : Nat) t j p v, ts[i]? = some t → js[i]? = some j → ps[i]? = some p → vs[i]? = some v → Clean (self t j p) v) :
    Clean (pullTuple self ts js ps) vs := by
  induction ts generalizing js ps vs with
  | nil =>
    simp only [List.length_nil, List.length_eq_zero_iff] at h1 h2 h3
    subst h1 h2 h3
    exact Clean.pure _
  | cons t ts ih =>
    cases js with
    | nil => simp at h1
    | cons j js =>
      cases ps with
      | nil => simp at h2
      | cons p ps =>
        cases vs with
        | nil => simp at h3
        | cons v vs =>
          refine Clean.bind (h 0 t j p v rfl rfl rfl rfl) (Clean.map _ (ih js ps vs (by simpa using h1) (by simpa using h2)
            (by simpa using h3) fun i t' j' p' v' a b c d => h (i + 1) t' j' p' v' a b c d))

end

/-! ## classes -/

section
variable {st0 st : Store}

theorem write_class {cs : List ClassId} {fs : List Field} (hf : FlatFields E cs fs)
    (h : ∀ f ∈ fs, ∃ v j, st.get? f.key = some v ∧ Writes E H f.ty v j) :
    ∃ ms, (Ev fun n => pushBases (push E H n) cs (.obj st) () = .ok ms ()) ∧
      List.Forall₂ (fun (f : Field) (m : Key × Json) => m.1.bytes = f.name ∧
        ∃ v, st.get? f.key = some v ∧ Writes E H f.ty v m.2) fs ms := by
  induction hf with
  | nil => exact ⟨[], Ev.of fun n => rfl, .nil⟩
  | @cons c ci cs bs fs hc _ _ ih1 ih2 =>
    obtain ⟨ms1, a1, a2⟩ := ih1 fun f hf => h f (by simp [hf])
    obtain ⟨ms3, c1, c2⟩ := ih2 fun f hf => h f (by simp [hf])
    have own : ∃ ms2, (Ev fun n => pushFields (push E H n) ci.json.pushFields st () = .ok ms2 ()) ∧
        List.Forall₂ (fun (f : Field) (m : Key × Json) => m.1.bytes = f.name ∧
        ∃ v, st.get? f.key = some v ∧ Writes E H f.ty v m.2) ci.json.pushFields ms2 := by
      have : ∃ ms2, List.Forall₂ (fun (f : Field) (m : Key × Json) => m.1 = ⟨f.name, .literal⟩ ∧
          ∃ v, st.get? f.key = some v ∧ Writes E H f.ty v m.2) ci.json.pushFields ms2 := by
        refine forall₂_choose _ fun f hf => ?_
        obtain ⟨v, j, h1, h2⟩ := h f (by simp [hf])
        exact ⟨(⟨f.name, .literal⟩, j), rfl, v, h1, h2⟩
      obtain ⟨ms2, h2⟩ := this
      refine ⟨ms2, ?_, h2.imp fun f m hm => ⟨by rw [hm.1], hm.2⟩⟩
      refine (Ev.forall₂ (P := fun n (f : Field) (m : Key × Json) => m.1 = ⟨f.name, .literal⟩ ∧
        ∃ v, st.get? f.key = some v ∧ push E H n f.ty v () = .ok m.2 ()) (h2.imp ?_)).imp fun n hn => pushFields_iff.2 hn
      rintro f m ⟨h3, v, h4, h5⟩
      exact h5.imp fun n hn => ⟨h3, v, h4, hn⟩
    obtain ⟨ms2, b1, b2⟩ := own
    refine ⟨(ms1 ++ ms2) ++ ms3, ?_, List.rel_append (List.rel_append a2 b2) c2⟩
    have hcls : Ev fun n => push E H n (.cls c) (.obj st) () = .ok (.obj (ms1 ++ ms2)) () := by
      refine (a1.and b1).succ fun n hn => ?_
      change pushStep E H (push E H n) _ _ _ = _
      simp only [pushStep, hc]
      exact SM.bind_ok_iff.2 ⟨ms1, hn.1, SM.map_ok_iff.2 ⟨ms2, hn.2, rfl⟩⟩
    refine (hcls.and c1).imp fun n hn => ?_
    refine SM.bind_ok_iff.2 ⟨_, hn.1, ?_⟩
    exact SM.map_ok_iff.2 ⟨ms3, hn.2, rfl⟩

/-- the state while reading: the members `done` have been read -/
def After (st0 st : Store) (done : List Field) (s : Store) : Prop :=
  s.map Prod.fst = st.map Prod.fst ∧
  ∀ k, s.get? k = if k ∈ done.map Field.key then st.get? k else st0.get? k

theorem set_keys (s : Store) (k : FieldKey) (v : Val) : (s.set k v).map Prod.fst = s.map Prod.fst := by
  induction s with
  | nil => rfl
  | cons p s ih =>
    obtain ⟨k', v'⟩ := p
    simp only [Store.set]
    split
    · rfl
    · simp only [List.map_cons, ih]

theorem get?_isSome_iff (s : Store) (k : FieldKey) : (s.get? k).isSome ↔ k ∈ s.map Prod.fst := by
  induction s with
  | nil => simp [Store.get?]
  | cons p s ih =>
    obtain ⟨k', v'⟩ := p
    simp only [Store.get?, List.lookup_cons, List.map_cons, List.mem_cons] at ih ⊢
    by_cases h : k = k'
    · simp [h]
    · have : (k == k') = false := by simpa using h
      rw [this]
      simp only [h, false_or]
      exact ih

theorem store_ext (s s' : Store) (h1 : s.map Prod.fst = s'.map Prod.fst) (hn : (s.map Prod.fst).Nodup)
    (h2 : ∀ k, s.get? k = s'.get? k) : s = s' := by
  induction s generalizing s' with
  | nil =>
    cases s' with
    | nil => rfl
    | cons p s' => simp at h1
  | cons p s ih =>
    cases s' with
    | nil => simp at h1
    | cons p' s' =>
      obtain ⟨k, v⟩ := p
      obtain ⟨k', v'⟩ := p'
      simp only [List.map_cons, List.cons.injEq] at h1
      obtain ⟨rfl, h1⟩ := h1
      simp only [List.map_cons, List.nodup_cons] at hn
      have hv := h2 k
      simp only [Store.get?, List.lookup_cons, beq_self_eq_true] at hv
      cases hv
      rw [ih s' h1 hn.2]
      intro k'
      by_cases hk : k' = k
      · subst hk
        have x1 : ¬ ((Store.get? s k').isSome) := by rw [get?_isSome_iff]; exact hn.1
        have x2 : ¬ ((Store.get? s' k').isSome) := by rw [get?_isSome_iff, ← h1]; exact hn.1
        rw [Option.not_isSome_iff_eq_none.1 x1, Option.not_isSome_iff_eq_none.1 x2]
      · have := h2 k'
        have hk' : (k' == k) = false := by simpa using hk
        simp only [Store.get?, List.lookup_cons, hk'] at this
        exact this

/-- value of a member before and after, and its document -/
structure Facts (E : Env) (st0 st : Store) (all : List Field) (ms : List (Key × Json)) (jf : Field → Json) (n : Nat) : Prop where
  first : ∀ f ∈ all, ∀ p v, st0.get? f.key = some p → st.get? f.key = some v → Clean (pull E n f.ty (jf f) p) v
  again : ∀ f ∈ all, 2 ≤ all.count f → ∀ v, st.get? f.key = some v → Clean (pull E n f.ty (jf f) v) v

theorem read_fields {all : List Field} {ms : List (Key × Json)} {jf : Field → Json}
    (hkeys : st0.map Prod.fst = st.map Prod.fst) (hfind : ∀ f ∈ all, findMember f.name ms = some (jf f))
    (hval : ∀ f ∈ all, ∃ v, st.get? f.key = some v) (huniq : ∀ f ∈ all, ∀ f' ∈ all, f.key = f'.key → f = f')
    (fs done rest : List Field) (hall : all = done ++ fs ++ rest) (s : Store) (hs : After st0 st done s) :
    ∃ s', After st0 st (done ++ fs) s' ∧ ∀ n, Facts E st0 st all ms jf n → Clean (pullFields (pull E n) fs ms s) s' := by
  induction fs generalizing done s with
  | nil => exact ⟨s, by simpa using hs, fun n _ => Clean.pure _⟩
  | cons f fs ih =>
    have hf : f ∈ all := by rw [hall]; simp
    obtain ⟨v, hv⟩ := hval f hf
    have hp0 : ∃ p, st0.get? f.key = some p := by
      have := (get?_isSome_iff st f.key).1 (by rw [hv]; rfl)
      rw [← hkeys, ← get?_isSome_iff] at this
      exact Option.isSome_iff_exists.1 this
    obtain ⟨p0, hp0⟩ := hp0
    have hs' : After st0 st (done ++ [f]) (s.set f.key v) := by
      have hsome : ∃ p, s.get? f.key = some p := by
        rw [hs.2]; split
        · exact ⟨v, hv⟩
        · exact ⟨p0, hp0⟩
      obtain ⟨p, hp⟩ := hsome
      refine ⟨by rw [set_keys, hs.1], fun k => ?_⟩
      by_cases hk : k = f.key
      · subst hk
        rw [get?_set_eq s hp, if_pos (by simp), hv]
      · rw [get?_set_ne s v hk, hs.2]
        simp only [List.map_append, List.map_cons, List.map_nil, List.mem_append, List.mem_singleton, hk, or_false]
    obtain ⟨s', a1, a2⟩ := ih (done ++ [f]) (by rw [hall]; simp) _ hs'
    refine ⟨s', by simpa using a1, fun n hn => ?_⟩
    refine Clean.bind ?_ (a2 n hn)
    unfold pullField
    rw [hfind f hf]
    by_cases hd : f.key ∈ done.map Field.key
    · have hget : s.get? f.key = some v := by rw [hs.2, if_pos hd, hv]
      have hfd : f ∈ done := by
        obtain ⟨f', hf', hk⟩ := List.mem_map.1 hd
        have : f = f' := huniq f hf f' (by rw [hall]; simp [hf']) hk.symm
        rw [this]; exact hf'
      have hcount : 2 ≤ all.count f := by
        rw [hall]
        simp only [List.count_append, List.count_cons_self]
        have := List.one_le_count_iff.2 hfd
        omega
      simp only [hget]
      exact Clean.map _ (Clean.withMember _ (hn.again f hf hcount v hv))
    · have hget : s.get? f.key = some p0 := by rw [hs.2, if_neg hd, hp0]
      simp only [hget]
      exact Clean.map _ (Clean.withMember _ (hn.first f hf p0 v hp0 hv))

theorem read_class {all : List Field} {ms : List (Key × Json)} {jf : Field → Json}
    (hkeys : st0.map Prod.fst = st.map Prod.fst) (hfind : ∀ f ∈ all, findMember f.name ms = some (jf f))
    (hval : ∀ f ∈ all, ∃ v, st.get? f.key = some v) (huniq : ∀ f ∈ all, ∀ f' ∈ all, f.key = f'.key → f = f')
    (hF : Ev (Facts E st0 st all ms jf)) {cs : List ClassId} {fs : List Field} (hf : FlatPull E cs fs)
    (done rest : List Field) (hall : all = done ++ fs ++ rest) (s : Store) (hs : After st0 st done s) :
    ∃ s', After st0 st (done ++ fs) s' ∧ Ev fun n => Clean (pullBases (pull E n) cs ms (.obj s)) (.obj s') := by
  induction hf generalizing done rest s with
  | nil => exact ⟨s, by simpa using hs, Ev.of fun n => Clean.pure _⟩
  | @cons c ci cs bs fs hc hpl _ _ ih1 ih2 =>
    obtain ⟨s1, a1, a2⟩ := ih1 done (ci.json.pullFields ++ fs ++ rest) (by rw [hall]; simp) s hs
    obtain ⟨s2, b1, b2⟩ := read_fields (E := E) (ms := ms) (jf := jf) hkeys hfind hval huniq ci.json.pullFields (done ++ bs) (fs ++ rest)
      (by rw [hall]; simp) s1 a1
    obtain ⟨s3, c1, c2⟩ := ih2 (done ++ bs ++ ci.json.pullFields) rest (by rw [hall]; simp) s2 b1
    refine ⟨s3, by simpa using c1, ?_⟩
    have hcls : Ev fun n => Clean (pull E n (.cls c) (.obj ms) (.obj s)) (.obj s2) := by
      refine (a2.and hF).succ fun n hn => ?_
      change Clean (pullStep E (pull E n) _ _ _) _
      simp only [pullStep, hc, hpl, Bool.true_eq_false, if_false]
      refine Clean.bind hn.1 ?_
      refine Clean.map (fun st => Val.obj st) ?_
      split
      · exact Clean.withRecord _ (b2 n hn.2)
      · exact b2 n hn.2
    exact (hcls.and c2).imp fun n hn => Clean.bind hn.1 hn.2

end

theorem rt_class {c : ClassId} {P Q : List Field} {st0 st : Store} (hP : FlatFields E [c] P) (hQ : FlatPull E [c] Q)
    (hQP : ∀ f ∈ Q, f ∈ P) (huniq : ∀ f ∈ P, ∀ f' ∈ P, f.name = f'.name → f = f')
    (hkeys : st0.map Prod.fst = st.map Prod.fst) (hnd : (st.map Prod.fst).Nodup) (hval : ∀ f ∈ P, ∃ v, st.get? f.key = some v)
    (hw : ∀ f ∈ P, ∀ v, st.get? f.key = some v → ∃ j, Writes E H f.ty v j)
    (hr : ∀ f ∈ Q, ∀ p v, st0.get? f.key = some p → st.get? f.key = some v → ∃ j, Writes E H f.ty v j ∧ Reads' E f.ty j p v)
    (ha : ∀ f v, 2 ≤ Q.count f → st.get? f.key = some v → ∃ j, Writes E H f.ty v j ∧ Reads' E f.ty j v v)
    (hrest : ∀ k, (∀ f ∈ Q, f.key ≠ k) → st0.get? k = st.get? k) :
    ∃ j, Writes E H (.cls c) (.obj st) j ∧ Reads' E (.cls c) j (.obj st0) (.obj st) := by
  obtain ⟨ms, w1, w2⟩ := write_class (E := E) (H := H) (st := st) hP fun f hf => by
    obtain ⟨v, hv⟩ := hval f hf
    obtain ⟨j, hj⟩ := hw f hf v hv
    exact ⟨v, j, hv, hj⟩
  have hcls : Writes E H (.cls c) (.obj st) (.obj ms) := by
    refine w1.imp fun n hn => ?_
    obtain ⟨j, h1, h2⟩ := SM.bind_ok_iff.1 hn
    cases j with
    | obj ms' =>
      replace h2 := SM.map_ok_iff.1 h2; obtain ⟨ms'', h2, h3⟩ := h2
      cases h2
      rw [List.append_nil] at h3
      rw [h1, h3]
    | _ => cases h2
  -- the document of each member
  let jf : Field → Json := fun f => (findMember f.name ms).getD .null
  have hfind : ∀ f ∈ P, findMember f.name ms = some (jf f) ∧ ∀ v, st.get? f.key = some v → Writes E H f.ty v (jf f) := by
    intro f hf
    obtain ⟨m, hm, hname, -⟩ := forall₂_mem_left w2 hf
    have : ∃ j, findMember f.name ms = some j := by
      clear w2 hcls w1
      induction ms with
      | nil => cases hm
      | cons a ms ih =>
        obtain ⟨k, j⟩ := a
        simp only [findMember]
        split
        · exact ⟨j, rfl⟩
        · rename_i hne
          rcases List.mem_cons.1 hm with rfl | hm
          · exact absurd hname hne
          · exact ih hm
    obtain ⟨j, hj⟩ := this
    have hjf : jf f = j := by simp only [jf, hj, Option.getD_some]
    refine ⟨by rw [hj, hjf], fun v hv => ?_⟩
    obtain ⟨k, hk, hkn⟩ := findMember_mem hj
    obtain ⟨f', hf', h1, v', h2, h3⟩ := forall₂_mem_right w2 hk
    have : f = f' := huniq f hf f' hf' (by rw [← h1, ← hkn])
    subst this
    rw [hv] at h2
    cases h2
    rw [hjf]; exact h3
  have hF : Ev (Facts E st0 st Q ms jf) := by
    have e1 : Ev fun n => ∀ f ∈ Q, ∀ p v, st0.get? f.key = some p → st.get? f.key = some v → Clean (pull E n f.ty (jf f) p) v := by
      refine Ev.list Q fun f hf => ?_
      obtain ⟨v, hv⟩ := hval f (hQP f hf)
      cases hp : st0.get? f.key with
      | none => exact Ev.of fun n p v h => by cases h
      | some p =>
        obtain ⟨j, h1, h2⟩ := hr f hf p v hp hv
        have := h1.unique ((hfind f (hQP f hf)).2 v hv)
        subst this
        refine h2.imp fun n hn p' v' hp' hv' => ?_
        rw [hv] at hv'
        cases hp'; cases hv'
        exact hn
    have e2 : Ev fun n => ∀ f ∈ Q, 2 ≤ Q.count f → ∀ v, st.get? f.key = some v → Clean (pull E n f.ty (jf f) v) v := by
      refine Ev.list Q fun f hf => ?_
      obtain ⟨v, hv⟩ := hval f (hQP f hf)
      by_cases hc : 2 ≤ Q.count f
      · obtain ⟨j, h1, h2⟩ := ha f v hc hv
        have := h1.unique ((hfind f (hQP f hf)).2 v hv)
        subst this
        refine h2.imp fun n hn _ v' hv' => ?_
        rw [hv] at hv'
        cases hv'
        exact hn
      · exact Ev.of fun n h => absurd h hc
    exact (e1.and e2).imp fun n hn => ⟨hn.1, hn.2⟩
  obtain ⟨s', r1, r2⟩ := read_class (E := E) (st0 := st0) (st := st) hkeys (fun f hf => (hfind f (hQP f hf)).1)
    (fun f hf => hval f (hQP f hf)) (fun f hf f' hf' hk => huniq f (hQP f hf) f' (hQP f' hf') (congrArg Prod.snd hk)) hF hQ [] [] (by simp) st0
    ⟨hkeys, by simp⟩
  have hs' : s' = st := by
    refine store_ext s' st r1.1 (by rw [r1.1]; exact hnd) fun k => ?_
    rw [r1.2]
    split
    · rfl
    · rename_i hk
      refine hrest k fun f hf he => hk ?_
      rw [List.nil_append]
      exact List.mem_map.2 ⟨f, hf, he⟩
  subst hs'
  refine ⟨.obj ms, hcls, r2.imp fun n hn => ?_⟩
  have : pullBases (pull E n) [c] ms (.obj st0) = pull E n (.cls c) (.obj ms) (.obj st0) := by
    simp only [pullBases]
    exact M.bind_pure' _
  rw [this] at hn
  exact hn


/-! ## the types one by one -/

/-- `v` can be written, and what is written is read as `v` into an object holding `p` -/
def RT (E : Env) (H : Heap) (t : Ty) (p v : Val) : Prop := ∃ j, Writes E H t v j ∧ Reads' E t j p v

theorem RT.intro {t : Ty} {p v : Val} (j : Json) (h1 : ∀ n, push E H (n + 1) t v () = .ok j ())
    (h2 : ∀ n, Clean (pull E (n + 1) t j p) v) : RT E H t p v :=
  ⟨j, (Ev.of (P := fun _ => True) fun _ => trivial).succ fun n _ => h1 n,
    (Ev.of (P := fun _ => True) fun _ => trivial).succ fun n _ => h2 n⟩

theorem wrap_id (u : IntTy) (i : Int) (h1 : u.lo ≤ i) (h2 : i < u.hi) : u.wrap i = i := by
  unfold IntTy.wrap
  have : i < u.lo + u.card := h2
  rw [Int.emod_eq_of_lt (by omega) (by omega)]
  omega

theorem rt_int (p : Val) (i : Int) (it : IntTy) (a : it ≠ .char) (b : it ≠ .i16) (c : it ≠ .u16) (h1 : it.lo ≤ i) (h2 : i < it.hi) :
    RT E H (.int it) p (.int i) := by
  refine RT.intro (.num (.int i)) (fun n => ?_) (fun n => ?_)
  · cases it <;> first | rfl | contradiction
  · have hr : it.inRange i = true := by simp [IntTy.inRange, h1, h2]
    have h8 : it = .i8 ∨ it = .u8 → IntTy.inRange .i32 i = true := by
      rintro (rfl | rfl) <;>
        simp only [IntTy.inRange, IntTy.lo, IntTy.hi, IntTy.card, IntTy.signed, IntTy.bytes, Bool.and_eq_true, decide_eq_true_eq] at * <;>
        simp at * <;> omega
    have hw := wrap_id it i h1 h2
    change Clean (pullStep E (pull E n) _ _ _) _
    cases it <;> try contradiction
    · simp only [pullStep, numToInt, h8 (.inl rfl), if_true]
      have := Clean.map (fun k => Val.int (IntTy.wrap .i8 k)) (Clean.pure i)
      rwa [hw] at this
    · simp only [pullStep, numToInt, h8 (.inr rfl), if_true]
      have := Clean.map (fun k => Val.int (IntTy.wrap .u8 k)) (Clean.pure i)
      rwa [hw] at this
    all_goals
      simp only [pullStep, jsonInt, if_true, numToInt, hr]
      exact Clean.map (fun k => Val.int k) (Clean.pure i)

theorem rt_enum (p : Val) (i : Int) (u : IntTy) (h1 : u.lo ≤ i) (h2 : i < u.hi) : RT E H (.enum u) p (.int i) := by
  refine RT.intro (.num (.int i)) (fun n => rfl) (fun n => ?_)
  have hn : enumNum (!u.signed) (.num (.int i)) = some i := by
    cases u <;>
      simp only [enumNum, IntTy.inRange, IntTy.lo, IntTy.hi, IntTy.card, IntTy.signed, IntTy.bytes] at * <;>
      simp at * <;> omega
  change Clean (pullStep E (pull E n) _ _ _) _
  simp only [pullStep, hn]
  rw [wrap_id u i h1 h2]
  exact Clean.pure _

theorem rt_nullable {t tn : Ty} {p v vn : Val} (h : RT E H t (E.valInit t) v) (hn : ¬ NullLike H t v)
    (hpush : ∀ n, push E H (n + 1) tn vn = push E H n t v) (wr : Val → Val) (hwr : wr v = vn)
    (hpull : ∀ n j, j ≠ .null → pull E (n + 1) tn j p = (pull E n t j (E.valInit t) >>= fun v => pure (wr v))) :
    RT E H tn p vn := by
  obtain ⟨j, h1, h2⟩ := h
  have hj : j ≠ .null := by
    rintro rfl
    obtain ⟨n, hw⟩ := h1.exists
    exact hn ((push_null_iff E H t v).1 ⟨n, hw⟩)
  refine ⟨j, h1.succ fun n hh => by rw [hpush]; exact hh, h2.succ fun n hh => ?_⟩
  rw [hpull n j hj, ← hwr]
  exact Clean.map _ hh

theorem writes_elems {t : Ty} {vs : List Val} (p : Val) (h : ∀ v ∈ vs, RT E H t p v) :
    ∃ js, (Ev fun n => pushElems (push E H n) t vs () = .ok js ()) ∧
      Ev fun n => List.Forall₂ (fun j v => Clean (pull E n t j p) v) js vs := by
  obtain ⟨js, hjs⟩ := forall₂_choose vs h
  refine ⟨js, (Ev.forall₂ (P := fun n v j => push E H n t v () = .ok j ()) (hjs.imp fun v j h => h.1)).imp
    fun n h => pushElems_iff.2 h, ?_⟩
  exact (Ev.forall₂ (P := fun n v j => Clean (pull E n t j p) v) (hjs.imp fun v j h => h.2)).imp fun n h => h.flip

theorem rt_vec {t : Ty} {p : Val} {vs : List Val} (h : ∀ v ∈ vs, RT E H t (E.valInit t) v) : RT E H (.vec t) p (.list vs) := by
  obtain ⟨js, h1, h2⟩ := writes_elems _ h
  refine ⟨.arr js, h1.succ fun n hn => SM.map_ok_iff.2 ⟨js, hn, rfl⟩, h2.succ fun n hn => ?_⟩
  exact Clean.map (fun vs => Val.list vs) (Clean.forIdx (by simpa using vec_chain hn []) 0)

theorem rt_set {hashed : Bool} {t : Ty} {p : Val} {vs : List Val} (h : ∀ v ∈ vs, RT E H t (E.defInit t) v)
    (hi : ∀ v ∈ vs, v.hasIndet = false) (hS : WeakOrderOn (E.lt t) vs) (hs : vs.Pairwise fun a b => E.lt t a b = true)
    (hp : (E.order hashed vs).Perm vs) : RT E H (.set hashed false t) p (.list vs) := by
  obtain ⟨js, h1, h2⟩ := writes_elems (vs := E.order hashed vs) _ fun v hv => h v (hp.mem_iff.1 hv)
  refine ⟨.arr js, h1.succ fun n hn => SM.map_ok_iff.2 ⟨js, hn, rfl⟩, h2.succ fun n hn => ?_⟩
  have hd0 : vs.Pairwise fun a b => ¬ Equivalent (E.lt t) a b := hs.imp fun h he => by rw [he.1] at h; cases h
  have hd : (E.order hashed vs).Pairwise fun a b => ¬ Equivalent (E.lt t) a b :=
    hp.symm.pairwise hd0 fun h he => h he.symm
  obtain ⟨out, c1, c2⟩ := set_chain hS hn (fun v hv => hi v (hp.mem_iff.1 hv)) [] [] (by simpa using fun x hx => hp.mem_iff.1 hx)
    ⟨.nil, by simp [FirstOfItsKind]⟩ (by simpa using hd)
  have hout : out = vs := by
    refine (sorted_ext vs out hs c2.sorted (fun x => ?_) fun a ha b hb h h' => ?_).symm
    · rw [c2.mem, List.nil_append, ← hp.mem_iff]
      constructor
      · intro hx
        obtain ⟨i, hi⟩ := List.getElem?_of_mem hx
        refine ⟨i, hi, fun k y hk hy => ?_⟩
        have := List.pairwise_iff_getElem.1 hd k i (List.getElem?_eq_some_iff.1 hy).1 (List.getElem?_eq_some_iff.1 hi).1 hk
        rwa [(List.getElem?_eq_some_iff.1 hy).2, (List.getElem?_eq_some_iff.1 hi).2] at this
      · exact first_mem
    · rw [hS.asymm ha hb h] at h'; cases h'
  subst hout
  exact Clean.map (fun vs => Val.list vs) (Clean.forIdx (f := setItem E (pull E n) t) c1 0)

theorem rt_multiset {hashed : Bool} {t : Ty} {p : Val} {vs : List Val} (h : ∀ v ∈ vs, RT E H t (E.defInit t) v)
    (hi : ∀ v ∈ vs, v.hasIndet = false) (hS : WeakOrderOn (E.lt t) vs) (hs : vs.Pairwise fun a b => E.lt t b a = false)
    (hp : (E.order hashed vs).Perm vs) (he : hashed = true → ∀ a ∈ vs, ∀ b ∈ vs, Equivalent (E.lt t) a b → a = b) :
    RT E H (.set hashed true t) p (.list vs) := by
  obtain ⟨js, h1, h2⟩ := writes_elems (vs := E.order hashed vs) _ fun v hv => h v (hp.mem_iff.1 hv)
  refine ⟨.arr js, h1.succ fun n hn => SM.map_ok_iff.2 ⟨js, hn, rfl⟩, h2.succ fun n hn => ?_⟩
  obtain ⟨out, c1, c2, c3, c4⟩ := multiset_chain hS hn (fun v hv => hi v (hp.mem_iff.1 hv)) []
    (by simpa using fun x hx => hp.mem_iff.1 hx) .nil
  have hout : out = vs := by
    cases hashed with
    | true => exact (perm_sorted_ext vs out (c2.trans (by simpa using hp)).symm hs c3 (he rfl)).symm
    | false => exact c4 (by simpa [Env.order] using hs)
  subst hout
  exact Clean.map (fun vs => Val.list vs) (Clean.forIdx (f := multisetItem E (pull E n) t) c1 0)

theorem rt_map (hE : StrTotal E) {hashed : Bool} {t : Ty} {ps kvs : List (Val × Val)} (hps : MapOK E ps) (hkvs : MapOK E kvs)
    (hplain : ∀ k v, (.str k, v) ∈ kvs → PlainStr k) (hsub : ∀ k p, (.str k, p) ∈ ps → ∃ v, (.str k, v) ∈ kvs)
    (h1 : ∀ k v p, (.str k, v) ∈ kvs → (.str k, p) ∈ ps → RT E H t p v)
    (h2 : ∀ k v, (.str k, v) ∈ kvs → (∀ p, (.str k, p) ∉ ps) → RT E H t (E.valInit t) v)
    (hp : (E.orderKV hashed kvs).Perm kvs) : RT E H (.map hashed false .str t) (.map ps) (.map kvs) := by
  have key : ∀ kv ∈ E.orderKV hashed kvs, ∃ m : Key × Json, kv.1 = .str m.1.bytes ∧ m.1 = ⟨m.1.bytes, .borrowed⟩ ∧
      PlainStr m.1.bytes ∧ Writes E H t kv.2 m.2 ∧ (∀ p, (kv.1, p) ∈ ps → Reads' E t m.2 p kv.2) ∧
      ((∀ p, (kv.1, p) ∉ ps) → Reads' E t m.2 (E.valInit t) kv.2) := by
    rintro ⟨k1, v⟩ hkv
    replace hkv := hp.mem_iff.1 hkv
    obtain ⟨k, hk⟩ := hkvs.1 _ hkv
    simp only at hk; subst hk
    by_cases hex : ∃ p, (Val.str k, p) ∈ ps
    · obtain ⟨p, hpp⟩ := hex
      obtain ⟨j, a, b⟩ := h1 k v p hkv hpp
      refine ⟨(⟨k, .borrowed⟩, j), rfl, rfl, hplain k v hkv, a, fun p' hp' => ?_, fun hno => absurd hpp (hno p)⟩
      rw [mapOK_functional hE hps hp' hpp]; exact b
    · obtain ⟨j, a, b⟩ := h2 k v hkv fun p hp => hex ⟨p, hp⟩
      exact ⟨(⟨k, .borrowed⟩, j), rfl, rfl, hplain k v hkv, a, fun p' hp' => absurd ⟨p', hp'⟩ hex, fun _ => b⟩
  obtain ⟨ms, hms⟩ := forall₂_choose _ key
  have e1 : Ev fun n => pushMapEntries (push E H n) t (E.orderKV hashed kvs) () = .ok ms () := by
    refine (Ev.forall₂ (P := fun n (kv : Val × Val) (m : Key × Json) => ∃ k, kv.1 = .str k ∧ m.1 = ⟨rjStrRef k, .borrowed⟩ ∧
      push E H n t kv.2 () = .ok m.2 ()) (hms.imp ?_)).imp fun n hn => pushMapEntries_iff.2 hn
    rintro kv m ⟨a, b, c, d, -, -⟩
    exact d.imp fun n hn => ⟨m.1.bytes, a, by rw [plain_rjStrRef c]; exact b, hn⟩
  have e2 : Ev fun n => List.Forall₂ (fun (kv : Val × Val) (m : Key × Json) => kv.1 = .str m.1.bytes ∧
      (∀ p, (kv.1, p) ∈ ps → Clean (pull E n t m.2 p) kv.2) ∧
      ((∀ p, (kv.1, p) ∉ ps) → Clean (pull E n t m.2 (E.valInit t)) kv.2)) (E.orderKV hashed kvs) ms := by
    refine Ev.forall₂ (hms.imp ?_)
    rintro ⟨k1, v⟩ m ⟨a, b, c, -, d, e⟩
    simp only at a d e ⊢
    subst a
    by_cases hex : ∃ p, (Val.str m.1.bytes, p) ∈ ps
    · obtain ⟨p, hpp⟩ := hex
      refine (d p hpp).imp fun n hn => ⟨rfl, fun p' hp' => ?_, fun hno => absurd hpp (hno p)⟩
      rw [mapOK_functional hE hps hp' hpp]; exact hn
    · exact (e fun p hp => hex ⟨p, hp⟩).imp fun n hn => ⟨rfl, fun p' hp' => absurd ⟨p', hp'⟩ hex, fun _ => hn⟩
  refine ⟨.obj ms, e1.succ fun n hn => SM.map_ok_iff.2 ⟨ms, hn, rfl⟩, e2.succ fun n hn => ?_⟩
  have hnd0 : kvs.Pairwise fun a b => a.1 ≠ b.1 := by
    refine hkvs.2.imp_of_mem fun {a b} ha hb h he => ?_
    obtain ⟨k, hk⟩ := hkvs.1 a ha
    rw [← he, hk, hE.irrefl] at h
    cases h
  obtain ⟨out, o1, o2, o3⟩ := map_clean hE hps hkvs hplain _ ms (fun q hq => hp.mem_iff.1 hq) hn [] ps hps
    (by simpa using hp.symm.pairwise hnd0 fun h he => h he.symm) (by simp)
  have hout : out = kvs := by
    refine mapOK_ext hE o2 hkvs fun q => ?_
    rw [o3, List.nil_append, hp.mem_iff]
    constructor
    · rintro (h | ⟨h, h'⟩)
      · exact h
      · obtain ⟨q1, qv⟩ := q
        obtain ⟨k, hk⟩ := hps.1 _ h
        simp only at hk; subst hk
        obtain ⟨v, hv⟩ := hsub k qv h
        exact absurd rfl (h' (.str k, v) (hp.mem_iff.2 hv))
    · exact .inl
  subst hout
  exact Clean.map (fun kvs => Val.map kvs) o1

theorem valuesOf_groupOf {R : Val → Json → Prop} {it : List (Val × Val)} {js : List Json}
    (h : List.Forall₂ (fun (kv : Val × Val) j => R kv.2 j) it js) (name : Str) :
    List.Forall₂ R (valuesOf name it) (groupOf name ((it.zip js).map fun p => (strKey p.1.1, p.2))) := by
  induction h with
  | nil => exact .nil
  | @cons kv j it js h5 h6 ih =>
    simp only [valuesOf, groupOf, List.zip_cons_cons, List.map_cons, List.filterMap_cons]
    by_cases hk : strKey kv.1 = name
    · simp only [hk, if_true]
      exact .cons h5 ih
    · simp only [hk, if_false]
      exact ih

theorem rt_multimap (hE : StrTotal E) {hashed : Bool} {t : Ty} {kvs : List (Val × Val)}
    (hk : ∀ q ∈ kvs, ∃ k, q.1 = .str k ∧ PlainStr k) (hs : kvs.Pairwise fun a b => E.lt .str b.1 a.1 = false)
    (h : ∀ q ∈ kvs, RT E H t (E.valInit t) q.2) (hp : (E.orderKV hashed kvs).Perm kvs)
    (hv : ∀ k, valuesOf k (E.orderKV hashed kvs) = valuesOf k kvs) :
    RT E H (.map hashed true .str t) (.map []) (.map kvs) := by
  obtain ⟨js, hjs⟩ := forall₂_choose (P := fun (q : Val × Val) j => Writes E H t q.2 j ∧ Reads' E t j (E.valInit t) q.2)
    (E.orderKV hashed kvs) fun q hq => h q (hp.mem_iff.1 hq)
  generalize hit : E.orderKV hashed kvs = it at hjs hp hv
  have hkit : ∀ q ∈ it, ∃ k, q.1 = .str k ∧ PlainStr k := fun q hq => hk q (hp.mem_iff.1 hq)
  let ps := (it.zip js).map fun p => (strKey p.1.1, p.2)
  let ms := ps.foldl (fun ms p => addToGroup p.1 p.2 ms) []
  have hfold : (it.zip js).foldl (fun ms p => addToGroup (rjString (strKey p.1.1)) p.2 ms) [] = ms := by
    simp only [ms, ps, List.foldl_map]
    have : ∀ (l : List ((Val × Val) × Json)) ms, (∀ p ∈ l, PlainStr (strKey p.1.1)) →
        l.foldl (fun ms p => addToGroup (rjString (strKey p.1.1)) p.2 ms) ms =
        l.foldl (fun ms p => addToGroup (strKey p.1.1) p.2 ms) ms := by
      intro l
      induction l with
      | nil => intro ms _; rfl
      | cons p l ih =>
        intro ms hl
        simp only [List.foldl_cons]
        rw [ih _ fun p hp => hl p (List.mem_cons_of_mem _ hp), plain_rjString (hl p List.mem_cons_self)]
    refine this _ _ fun p hp => ?_
    obtain ⟨k, hk, hpl⟩ := hkit _ (List.of_mem_zip hp).1
    rw [hk]; exact hpl
  have hg : Grouping ps ms := by
    simpa using grouping_foldl [] ps [] ⟨by simp, by simp, by simp⟩
  have e1 : Ev fun n => pushMultimapEntries (push E H n) t it [] () = .ok ms () := by
    refine (Ev.forall₂ (P := fun n (kv : Val × Val) j => (∃ k, kv.1 = .str k) ∧ push E H n t kv.2 () = .ok j ()) ?_).imp
      fun n hn => pushMultimapEntries_iff.2 ⟨js, hn, hfold.symm⟩
    have : List.Forall₂ (fun (q : Val × Val) j => (∃ k, q.1 = .str k) ∧ Writes E H t q.2 j) it js := by
      clear hfold hg ms ps hv hp hit
      induction hjs with
      | nil => exact .nil
      | cons h1 _ ih =>
        obtain ⟨k, hk, -⟩ := hkit _ List.mem_cons_self
        exact .cons ⟨⟨k, hk⟩, h1.1⟩ (ih fun q hq => hkit q (List.mem_cons_of_mem _ hq))
    exact this.imp fun q j h => h.2.imp fun n hn => ⟨h.1, hn⟩
  have e2 : Ev fun n => List.Forall₂ (fun (kv : Val × Val) j => Clean (pull E n t j (E.valInit t)) kv.2) it js :=
    Ev.forall₂ (hjs.imp fun q j h => h.2)
  have hlen := hjs.length_eq
  have hnames : ∀ name, (∃ m ∈ ms, m.1.bytes = name) ↔ ∃ q ∈ it, strKey q.1 = name := by
    intro name
    rw [hg.names]
    constructor
    · rintro ⟨p, hp, rfl⟩
      obtain ⟨q, hq, rfl⟩ := List.mem_map.1 hp
      exact ⟨q.1, (List.of_mem_zip hq).1, rfl⟩
    · rintro ⟨q, hq, rfl⟩
      have : q ∈ (it.zip js).map Prod.fst := by rw [List.map_fst_zip (by omega)]; exact hq
      obtain ⟨z, hz, rfl⟩ := List.mem_map.1 this
      exact ⟨_, List.mem_map.2 ⟨z, hz, rfl⟩, rfl⟩
  refine ⟨.obj ms, e1.succ fun n hn => ?_, e2.succ fun n hn => ?_⟩
  · change pushStep E H (push E H n) _ _ _ = _
    simp only [pushStep, hit]
    exact SM.map_ok_iff.2 ⟨ms, hn, rfl⟩
  · obtain ⟨out, o1, o2, o3, o4⟩ := multimap_clean (self := pull E n) (t := t) hE ms (fun name => valuesOf name it)
      (fun m hm => by
        obtain ⟨q, hq, he⟩ := (hnames m.1.bytes).1 ⟨m, hm, rfl⟩
        obtain ⟨k, hk, hpl⟩ := hkit q hq
        rw [← he, hk]; exact plain_cstrOf hpl)
      hg.nodup (fun m hm => ⟨_, hg.values m hm, (valuesOf_groupOf (R := fun v j => Clean (pull E n t j (E.valInit t)) v) hn _).flip⟩)
      [] ⟨by simp, .nil⟩ (by simp [valuesOf_nil])
    have hout : out = kvs := by
      refine multi_ext hE out kvs o2 ⟨fun q hq => ?_, hs⟩ fun name => ?_
      · obtain ⟨k, hk, -⟩ := hk q hq; exact ⟨k, hk⟩
      · by_cases hex : ∃ m ∈ ms, m.1.bytes = name
        · obtain ⟨m, hm, rfl⟩ := hex
          rw [o3 m hm, hv]
        · rw [o4 name fun m hm he => hex ⟨m, hm, he⟩, ← hv, valuesOf_nil]
          symm
          unfold valuesOf
          rw [List.filterMap_eq_nil_iff]
          intro q hq
          have : strKey q.1 ≠ name := fun he => hex ((hnames name).2 ⟨q, hq, he⟩)
          simp [this]
    subst hout
    exact Clean.map (fun kvs => Val.map kvs) o1

theorem tuple_js (ts : List Ty) (ps vs : List Val) (h1 : ps.length = ts.length) (h2 : vs.length = ts.length)
    (h : ∀ (i : Nat) t p v, ts[i]? = some t → ps[i]? = some p → vs[i]? = some v → RT E H t p v) :
    ∃ js : List Json, js.length = ts.length ∧ (Ev fun n => pushTuple (push E H n) ts vs () = .ok js ()) ∧
      Ev fun n => Clean (pullTuple (pull E n) ts js ps) vs := by
  induction ts generalizing ps vs with
  | nil =>
    simp only [List.length_nil, List.length_eq_zero_iff] at h1 h2
    subst h1 h2
    exact ⟨[], rfl, Ev.of fun n => rfl, Ev.of fun n => Clean.pure _⟩
  | cons t ts ih =>
    cases ps with
    | nil => simp at h1
    | cons p ps =>
      cases vs with
      | nil => simp at h2
      | cons v vs =>
        obtain ⟨js, a, b, c⟩ := ih ps vs (by simpa using h1) (by simpa using h2) fun i t' p' v' x y z => h (i + 1) t' p' v' x y z
        obtain ⟨j, d, e⟩ := h 0 t p v rfl rfl rfl
        refine ⟨j :: js, by simp [a], (d.and b).imp fun n hn => ?_, (e.and c).imp fun n hn => ?_⟩
        · exact SM.bind_ok_iff.2 ⟨j, hn.1, SM.map_ok_iff.2 ⟨js, hn.2, rfl⟩⟩
        · exact Clean.bind hn.1 (Clean.map _ hn.2)

theorem rt_tuple {ts : List Ty} {ps vs : List Val} (h1 : ps.length = ts.length) (h2 : vs.length = ts.length)
    (h : ∀ (i : Nat) t p v, ts[i]? = some t → ps[i]? = some p → vs[i]? = some v → RT E H t p v) :
    RT E H (.tuple ts) (.tup ps) (.tup vs) := by
  obtain ⟨js, a, b, c⟩ := tuple_js ts ps vs h1 h2 h
  refine ⟨.arr js, b.succ fun n hn => SM.map_ok_iff.2 ⟨js, hn, rfl⟩, c.succ fun n hn => ?_⟩
  change Clean (pullStep E (pull E n) _ _ _) _
  simp only [pullStep, a, ne_eq, not_true, if_false]
  exact Clean.map (fun vs => Val.tup vs) hn

theorem rt_pair {a b : Ty} {p q v w : Val} (h1 : RT E H a p v) (h2 : RT E H b q w) :
    RT E H (.pair a b) (.tup [p, q]) (.tup [v, w]) := by
  obtain ⟨js, l, x, y⟩ := tuple_js (E := E) (H := H) [a, b] [p, q] [v, w] rfl rfl (by
    intro i t p' v' ht hp hv
    match i with
    | 0 => cases ht; cases hp; cases hv; exact h1
    | 1 => cases ht; cases hp; cases hv; exact h2
    | i + 2 => simp at ht)
  refine ⟨.arr js, x.succ fun n hn => SM.map_ok_iff.2 ⟨js, hn, rfl⟩, y.succ fun n hn => ?_⟩
  change Clean (pullStep E (pull E n) _ _ _) _
  simp only [pullStep]
  rw [if_neg (by simp [l])]
  exact Clean.map (fun vs => Val.tup vs) hn

theorem uint64?_nat {i : Nat} (h : i < 2 ^ 64) : uint64? (.num (.int i)) = some i := by
  have : IntTy.inRange .u64 (i : Int) = true := by
    simp only [IntTy.inRange, IntTy.lo, IntTy.hi, IntTy.card, IntTy.signed, IntTy.bytes]
    simp; omega
  simp only [uint64?, this, if_true, Int.toNat_natCast]

theorem find_index (a b : Json) :
    findMember (lit "index") [(⟨lit "index", .literal⟩, a), (⟨lit "data", .literal⟩, b)] = some a := by
  simp only [findMember, if_true]

theorem find_data (a b : Json) :
    findMember (lit "data") [(⟨lit "index", .literal⟩, a), (⟨lit "data", .literal⟩, b)] = some b := by
  have : lit "index" ≠ lit "data" := by decide
  simp only [findMember, this, if_true, if_false]

theorem pull_variant_mono {ts : List Ty} {i : Nat} {p : Val} (n : Nat) (ht : ts[i]? = some .mono) {ms : List (Key × Json)}
    {ji jd : Json} (h1 : findMember (lit "index") ms = some ji) (h2 : findMember (lit "data") ms = some jd)
    (h3 : uint64? ji = some i) : Clean (pull E (n + 1) (.variant ts) (.obj ms) p) (.alt i .mono) := by
  change Clean (pullStep E (pull E n) _ _ _) _
  simp only [pullStep, h1, h2, h3, ht]
  exact Clean.pure _

theorem pull_variant {ts : List Ty} {i : Nat} {t : Ty} {p v : Val} (n : Nat) (ht : ts[i]? = some t) (hm : t ≠ .mono)
    {ms : List (Key × Json)} {ji jd : Json} (h1 : findMember (lit "index") ms = some ji)
    (h2 : findMember (lit "data") ms = some jd) (h3 : uint64? ji = some i) (h : Clean (pull E n t jd (E.valInit t)) v) :
    Clean (pull E (n + 1) (.variant ts) (.obj ms) p) (.alt i v) := by
  change Clean (pullStep E (pull E n) _ _ _) _
  simp only [pullStep, h1, h2, h3, ht]
  cases t <;> first | exact absurd rfl hm | exact Clean.map (fun v => Val.alt i v) h

theorem rt_variantMono {ts : List Ty} {i : Nat} {p : Val} (ht : ts[i]? = some .mono) (hi : i < 2 ^ 64) :
    RT E H (.variant ts) p (.alt i .mono) := by
  refine RT.intro (.obj [(⟨lit "index", .literal⟩, .num (.int i)), (⟨lit "data", .literal⟩, .null)]) (fun n => ?_) (fun n =>
    pull_variant_mono n ht (find_index _ _) (find_data _ _) (uint64?_nat hi))
  change pushStep E H (push E H n) _ _ _ = _
  simp only [pushStep, ht]; rfl

theorem rt_variant {ts : List Ty} {i : Nat} {t : Ty} {p v : Val} (ht : ts[i]? = some t) (hm : t ≠ .mono) (hi : i < 2 ^ 64)
    (h : RT E H t (E.valInit t) v) : RT E H (.variant ts) p (.alt i v) := by
  obtain ⟨j, h1, h2⟩ := h
  refine ⟨.obj [(⟨lit "index", .literal⟩, .num (.int i)), (⟨lit "data", .literal⟩, j)], h1.succ fun n hn => ?_, h2.succ fun n hn =>
    pull_variant n ht hm (find_index _ _) (find_data _ _) (uint64?_nat hi) hn⟩
  change pushStep E H (push E H n) _ _ _ = _
  cases t <;> first | exact absurd rfl hm | (simp only [pushStep, ht]; exact SM.map_ok_iff.2 ⟨j, hn, rfl⟩)

theorem rt_time {t : Ty} {p : Val} {i : Int} {pr : Int → Str} {pa : Str → Option Int} (h1 : PlainStr (pr i)) (h2 : pa (pr i) = some i)
    (hpush : ∀ n, push E H (n + 1) t (.tick i) () = .ok (.str (rjString (pr i))) ())
    (hpull : ∀ n j, pull E (n + 1) t j p = pullTime pa j p) : RT E H t p (.tick i) := by
  refine RT.intro (.str (rjString (pr i))) hpush (fun n => ?_)
  rw [hpull, plain_rjString h1]
  refine Clean.bind (a := pr i) ?_ ?_
  · simp only [pullTimeStr, plain_cstrOf h1]; exact Clean.pure _
  · rw [h2]; exact Clean.pure _

theorem round_trip (hE : StrTotal E) {t : Ty} {p v : Val} (h : JRepr E H t p v) : RT E H t p v := by
  induction h with
  | bool p b => exact RT.intro _ (fun n => rfl) fun n => Clean.pure _
  | int p i it a b c h1 h2 => exact rt_int p i it a b c h1 h2
  | f32 p b hb =>
    refine RT.intro _ (fun n => rfl) fun n => ?_
    change Clean (pure (Val.f32 (Ieee.narrow (Ieee.widen b))) : PM Val) _
    rw [Ieee.narrow_widen b hb]
    exact Clean.pure _
  | f64 p b => exact RT.intro _ (fun n => rfl) fun n => Clean.pure _
  | enum p i u h1 h2 => exact rt_enum p i u h1 h2
  | str p s hs =>
    refine RT.intro _ (fun n => rfl) fun n => ?_
    change Clean (pure (Val.str (cstrOf (rjString s))) : PM Val) _
    rw [plain_rjString hs, plain_cstrOf hs]
    exact Clean.pure _
  | cstr s => exact RT.intro _ (fun n => rfl) fun n => Clean.pure _
  | sview s => exact RT.intro _ (fun n => rfl) fun n => Clean.pure _
  | dateTime p i h1 h2 => exact rt_time h1 h2 (fun n => rfl) fun n j => rfl
  | timeSpan p i h1 h2 => exact rt_time h1 h2 (fun n => rfl) fun n j => rfl
  | optNone t p => exact RT.intro _ (fun n => rfl) fun n => Clean.pure _
  | uptrNone t p => exact RT.intro _ (fun n => rfl) fun n => Clean.pure _
  | sptrNone t p => exact RT.intro _ (fun n => rfl) fun n => Clean.pure _
  | optSome _ hn ih =>
    exact rt_nullable ih hn (fun n => rfl) (fun v => .some v) rfl fun n j hj => by cases j <;> first | rfl | exact absurd rfl hj
  | uptrSome _ hn ih =>
    exact rt_nullable ih hn (fun n => rfl) (fun v => .ptr v) rfl fun n j hj => by cases j <;> first | rfl | exact absurd rfl hj
  | sptrSome _ hn ih =>
    exact rt_nullable ih hn (fun n => rfl) (fun v => .ptr v) rfl fun n j hj => by cases j <;> first | rfl | exact absurd rfl hj
  | vec _ ih => exact rt_vec ih
  | set _ h1 h2 h3 h4 ih => exact rt_set ih h1 h2 h3 h4
  | multiset _ h1 h2 h3 h4 h5 ih => exact rt_multiset ih h1 h2 h3 h4 h5
  | map h1 h2 h3 h4 _ _ h7 ih1 ih2 => exact rt_map hE h1 h2 h3 h4 ih1 ih2 h7
  | multimap h1 h2 _ h4 h5 ih => exact rt_multimap hE h1 h2 ih h4 h5
  | pair _ _ ih1 ih2 => exact rt_pair ih1 ih2
  | tuple h1 h2 _ ih => exact rt_tuple h1 h2 ih
  | variantMono h1 h2 => exact rt_variantMono h1 h2
  | variant h1 h2 h3 _ ih => exact rt_variant h1 h2 h3 ih
  | cls w h1 h2 h3 h4 h5 h6 h7 _ _ _ h11 ih1 ih2 ih3 =>
    exact rt_class h1 h2 h3 h4 h5 h6 h7 (fun f hf v hv => (ih1 f hf v hv).imp fun j h => h.1) ih2 ih3 h11

/-- C01: every representable value survives the document: there is a document `j` which `push` produces for `v` (for every
sufficiently large recursion budget), and `pull`ing it - into an object holding `p`, with a null error pointer or any error
object - yields exactly `v`, reports nothing and throws nothing. -/
theorem C01_json_document_round_trip (E : Env) (H : Heap) (hE : StrTotal E) (t : Ty) (p v : Val) (h : JRepr E H t p v) :
    ∃ (N : Nat) (j : Json), ∀ n, N ≤ n →
      push E H n t v () = .ok j () ∧
      pull E n t j p none = .ok v none ∧
      ∀ s : ErrSt, ∃ i, (i = s.index ∨ i = noIndex) ∧ pull E n t j p (some s) = .ok v (some { s with index := i }) := by
  obtain ⟨j, h1, h2⟩ := round_trip hE h
  obtain ⟨N, hN⟩ := h1.and h2
  exact ⟨N, j, fun n hn => hN n hn⟩

/-- C01 for object graphs: if the tree unfolding `v'` of `v` (every shared object copied) is representable, then `v` is
serialised and reading the document yields `v'`. -/
theorem C01_object_graph_comes_back_as_tree (E : Env) (H : Heap) (hE : StrTotal E) (hi : IterIndep E H) (t : Ty) (p v v' : Val)
    (hu : Unfold H v v') (h : JRepr E H t p v') :
    ∃ (N : Nat) (j : Json), ∀ n, N ≤ n →
      push E H n t v () = .ok j () ∧
      pull E n t j p none = .ok v' none ∧
      ∀ s : ErrSt, ∃ i, (i = s.index ∨ i = noIndex) ∧ pull E n t j p (some s) = .ok v' (some { s with index := i }) := by
  obtain ⟨N, j, hN⟩ := C01_json_document_round_trip E H hE t p v' h
  refine ⟨N, j, fun n hn => ?_⟩
  rw [C24_shared_objects_are_duplicated E H hi n t v v' hu H]
  exact hN n hn

/-! ### non-vacuity: an object of a derived class with a map, a vector and a const member -/

namespace RoundTripDemo
open Demo

def priorWith (x : Val) : Store := [(fI.key, x), (fM.key, .map []), (fS.key, .list []), (fK.key, .int 7)]
def prior : Store := derivedInit
def value : Store :=
  [(fI.key, .int (-42)), (fM.key, .map [(.str [65], .int 1), (.str [66], .int 2)]), (fS.key, .list [.str [120], .str []]), (fK.key, .int 7)]

theorem flatPush : FlatFields env [1] [fI, fM, fS, fK] := by
  have h0 : FlatFields env [0] [fI, fM] := FlatFields.cons (ci := base) (bs := []) (fs := []) rfl .nil .nil
  exact FlatFields.cons (ci := derived) (bs := [fI, fM]) (fs := []) rfl h0 .nil

theorem flatPull : FlatPull env [1] [fI, fM, fS] := by
  have h0 : FlatPull env [0] [fI, fM] := FlatPull.cons (ci := base) (bs := []) (fs := []) rfl rfl .nil .nil
  exact FlatPull.cons (ci := derived) (bs := [fI, fM]) (fs := []) rfl rfl h0 .nil

theorem plain (s : Str) (h : 0 ∉ s) (h' : s.length < 5) : PlainStr s := ⟨h, by omega⟩

theorem repr_int (p : Val) (i : Int) (h : -100 ≤ i ∧ i < 100) : JRepr env (fun _ => none) (.int .i32) p (.int i) :=
  .int p i .i32 (by decide) (by decide) (by decide)
    (by simp only [IntTy.lo, IntTy.signed, IntTy.bytes]; simp; omega)
    (by simp only [IntTy.hi, IntTy.card, IntTy.lo, IntTy.signed, IntTy.bytes]; simp; omega)

theorem repr_map : JRepr env (fun _ => none) (.map false false .str (.int .i32)) (.map []) (.map [(.str [65], .int 1), (.str [66], .int 2)]) := by
  refine .map ⟨by simp, .nil⟩ ⟨by simp, by simp; rfl⟩ ?_ (by simp) (by simp) ?_ (.refl _)
  · intro k v h
    simp only [List.mem_cons, Prod.mk.injEq, Val.str.injEq, List.not_mem_nil, or_false] at h
    rcases h with ⟨rfl, -⟩ | ⟨rfl, -⟩ <;> exact plain _ (by decide) (by decide)
  · intro k v h _
    simp only [List.mem_cons, Prod.mk.injEq, Val.str.injEq, List.not_mem_nil, or_false] at h
    rcases h with ⟨-, rfl⟩ | ⟨-, rfl⟩ <;> exact repr_int _ _ (by decide)

theorem repr_vec (p : Val) : JRepr env (fun _ => none) (.vec .str) p (.list [.str [120], .str []]) := by
  refine .vec fun v hv => ?_
  simp only [List.mem_cons, List.not_mem_nil, or_false] at hv
  rcases hv with rfl | rfl <;> exact .str _ _ (plain _ (by decide) (by decide))

/-- The hypothesis of C01 holds for an object of a derived class, whatever the prior content of one of the members. -/
theorem repr_with (x : Val) : JRepr env (fun _ => none) (.cls 1) (.obj (priorWith x)) (.obj value) := by
  refine JRepr.cls (P := [fI, fM, fS, fK]) (Q := [fI, fM, fS]) (fun f => if f.ty = fM.ty then .map [] else .null) flatPush flatPull
    (by decide) (by decide) rfl (by decide) ?_ ?_ ?_ ?_ ?_
  · intro f hf
    simp only [List.mem_cons, List.not_mem_nil, or_false] at hf
    rcases hf with rfl | rfl | rfl | rfl <;> exact ⟨_, rfl⟩
  · intro f hf v hv
    simp only [List.mem_cons, List.not_mem_nil, or_false] at hf
    rcases hf with rfl | rfl | rfl | rfl <;> cases hv
    · exact repr_int _ _ (by decide)
    · exact repr_map
    · exact repr_vec _
    · exact repr_int _ _ (by decide)
  · intro f hf p v hp hv
    simp only [List.mem_cons, List.not_mem_nil, or_false] at hf
    rcases hf with rfl | rfl | rfl <;> cases hp <;> cases hv
    · exact repr_int _ _ (by decide)
    · exact repr_map
    · exact repr_vec _
  · intro f v hc
    exfalso
    have hmem : f ∈ [fI, fM, fS] := List.one_le_count_iff.1 (by omega)
    simp only [List.mem_cons, List.not_mem_nil, or_false] at hmem
    rcases hmem with rfl | rfl | rfl <;> revert hc <;> decide
  · intro k hk
    have h1 := hk fI (by simp)
    have h2 := hk fM (by simp)
    have h3 := hk fS (by simp)
    have b1 : (k == fI.key) = false := by simpa using fun e => h1 e.symm
    have b2 : (k == fM.key) = false := by simpa using fun e => h2 e.symm
    have b3 : (k == fS.key) = false := by simpa using fun e => h3 e.symm
    simp only [priorWith, value, Store.get?, List.lookup_cons, b1, b2, b3]

theorem repr : JRepr env (fun _ => none) (.cls 1) (.obj prior) (.obj value) := repr_with (.int 0)

example : ∃ (N : Nat) (j : Json), ∀ n, N ≤ n → push env (fun _ => none) n (.cls 1) (.obj value) () = .ok j () ∧
    pull env n (.cls 1) j (.obj prior) none = .ok (.obj value) none := by
  obtain ⟨N, j, h⟩ := C01_json_document_round_trip env _ demo_strTotal _ _ _ repr
  exact ⟨N, j, fun n hn => ⟨(h n hn).1, (h n hn).2.1⟩⟩

end RoundTripDemo

/-! ## the exception: multimaps in the root of a hierarchy of three classes -/

/-- The code the JSON generator emits for `struct R { multimap f; }; struct M : R {}; struct D : M {};`, all of them
relevant: the list of bases of `D` has both `M` and the indirect base `R` (see the generator model, C45). -/
structure ThreeLevels (E : Env) (f : Field) (r m d : ClassId) : Prop where
  root : ∃ ci, E.cls r = some ci ∧ ci.json = ⟨[], [f], [f], true, true⟩
  mid : ∃ ci, E.cls m = some ci ∧ ci.json = ⟨[r], [], [], true, true⟩
  leaf : ∃ ci, E.cls d = some ci ∧ ci.json = ⟨[r, m], [], [], true, true⟩

theorem withMember_ok {α : Type} {name : Str} {m : PM α} {a : α} {s s' : Option ErrSt} (h : withMember name m s = .ok a s') :
    ∃ s1 s2, m s1 = .ok a s2 := by
  obtain ⟨_, _, _, h⟩ := M.bind_eq_ok.1 h
  obtain ⟨_, s1, _, h⟩ := M.bind_eq_ok.1 h
  obtain ⟨b, s2, h1, h⟩ := M.bind_eq_ok.1 h
  obtain ⟨_, _, _, h⟩ := M.bind_eq_ok.1 h
  cases h
  exact ⟨s1, s2, h1⟩

theorem withRecord_ok {α : Type} {name : Str} {m : PM α} {a : α} {s s' : Option ErrSt} (h : withRecord name m s = .ok a s') :
    ∃ s1 s2, m s1 = .ok a s2 := by
  obtain ⟨_, _, _, h⟩ := M.bind_eq_ok.1 h
  obtain ⟨_, s1, _, h⟩ := M.bind_eq_ok.1 h
  obtain ⟨b, s2, h1, h⟩ := M.bind_eq_ok.1 h
  obtain ⟨_, _, _, h⟩ := M.bind_eq_ok.1 h
  cases h
  exact ⟨s1, s2, h1⟩

theorem pull_root {f : Field} {r : ClassId} {ci : ClassInfo} (hr : E.cls r = some ci) (hj : ci.json = ⟨[], [f], [f], true, true⟩)
    {ms : List (Key × Json)} {j : Json} (hf : findMember f.name ms = some j) {n : Nat} {v v' : Val} {s s' : Option ErrSt}
    (h : pull E n (.cls r) (.obj ms) (.obj [(f.key, v)]) s = .ok v' s') :
    ∃ k w s1 s2, v' = .obj [(f.key, w)] ∧ pull E k f.ty j v s1 = .ok w s2 := by
  cases n with
  | zero => cases h
  | succ n =>
    change pullStep E (pull E n) _ _ _ _ = _ at h
    simp only [pullStep, hr, hj, Bool.true_eq_false, if_false, if_true] at h
    replace h := M.bind_eq_ok.1 h
    obtain ⟨v1, s1, h1, h⟩ := h
    cases h1
    replace h := M.bind_eq_ok.1 h
    obtain ⟨st, s2, h2, h⟩ := h
    cases h
    replace h2 := withRecord_ok h2
    obtain ⟨_, _, h2⟩ := h2
    replace h2 := M.bind_eq_ok.1 h2
    obtain ⟨st', s3, h2, h3⟩ := h2
    cases h3
    have hg : Store.get? [(f.key, v)] f.key = some v := by simp [Store.get?]
    simp only [pullField, hf, hg] at h2
    replace h2 := M.bind_eq_ok.1 h2
    obtain ⟨w, s4, h2, h3⟩ := h2
    cases h3
    replace h2 := withMember_ok h2
    obtain ⟨s5, s6, h2⟩ := h2
    exact ⟨n, w, s5, s6, by simp [Store.set], h2⟩

/-- C01 (limit): for a class hierarchy of three levels whose root has a multimap, what is read back has every entry twice -
so the round trip yields a different value for every non-empty multimap, without any error. -/
theorem C01_multimap_of_indirect_base_doubled (E : Env) (H : Heap) (hE : StrTotal E) (f : Field) (r m d : ClassId) (hashed : Bool)
    (t : Ty) (hty : f.ty = .map hashed true .str t) (hcls : ThreeLevels E f r m d) (kvs : List (Val × Val))
    (hrep : JRepr E H f.ty (.map []) (.map kvs)) :
    ∃ j, (∃ N, ∀ n, N ≤ n → push E H n (.cls d) (.obj [(f.key, .map kvs)]) () = .ok j ()) ∧
      ∀ n v' s s', pull E n (.cls d) j (.obj [(f.key, .map [])]) s = .ok v' s' →
        ∃ out, v' = .obj [(f.key, .map out)] ∧ out.length = 2 * kvs.length := by
  obtain ⟨cr, hr, hrj⟩ := hcls.root
  obtain ⟨cm, hm, hmj⟩ := hcls.mid
  obtain ⟨cd, hd, hdj⟩ := hcls.leaf
  obtain ⟨j0, w0, r0⟩ := round_trip hE hrep
  have hg : Store.get? [(f.key, Val.map kvs)] f.key = some (.map kvs) := by simp [Store.get?]
  -- writing
  have wr : Writes E H (.cls r) (.obj [(f.key, .map kvs)]) (.obj [(⟨f.name, .literal⟩, j0)]) := by
    refine w0.succ fun n hn => ?_
    change pushStep E H (push E H n) _ _ _ = _
    simp only [pushStep, hr, hrj]
    refine SM.bind_ok_iff.2 ⟨[], rfl, SM.map_ok_iff.2 ⟨[(⟨f.name, .literal⟩, j0)], ?_, rfl⟩⟩
    simp only [pushFields, hg]
    exact SM.bind_ok_iff.2 ⟨j0, hn, rfl⟩
  have wm : Writes E H (.cls m) (.obj [(f.key, .map kvs)]) (.obj [(⟨f.name, .literal⟩, j0)]) := by
    refine wr.succ fun n hn => ?_
    change pushStep E H (push E H n) _ _ _ = _
    simp only [pushStep, hm, hmj]
    refine SM.bind_ok_iff.2 ⟨[(⟨f.name, .literal⟩, j0)], ?_, rfl⟩
    exact SM.bind_ok_iff.2 ⟨_, hn, rfl⟩
  have wd : Writes E H (.cls d) (.obj [(f.key, .map kvs)]) (.obj [(⟨f.name, .literal⟩, j0), (⟨f.name, .literal⟩, j0)]) := by
    refine (wr.and wm).succ fun n hn => ?_
    change pushStep E H (push E H n) _ _ _ = _
    simp only [pushStep, hd, hdj]
    refine SM.bind_ok_iff.2 ⟨[(⟨f.name, .literal⟩, j0), (⟨f.name, .literal⟩, j0)], ?_, rfl⟩
    refine SM.bind_ok_iff.2 ⟨_, hn.1, ?_⟩
    refine SM.bind_ok_iff.2 ⟨[(⟨f.name, .literal⟩, j0)], ?_, rfl⟩
    exact SM.bind_ok_iff.2 ⟨_, hn.2, rfl⟩
  refine ⟨_, wd, ?_⟩
  have hfind : findMember f.name [((⟨f.name, .literal⟩ : Key), j0), (⟨f.name, .literal⟩, j0)] = some j0 := by
    simp [findMember]
  -- the number of entries in the document
  have hj0 : ∃ ms0, j0 = .obj ms0 := by
    obtain ⟨n, hn⟩ := w0.exists
    rw [hty] at hn
    cases n with
    | zero => cases hn
    | succ n =>
      change pushStep E H (push E H n) _ _ _ = _ at hn
      obtain ⟨ms, -, h⟩ := SM.map_ok_iff.1 hn
      exact ⟨ms, h⟩
  obtain ⟨ms0, rfl⟩ := hj0
  have adds : ∀ k cur w s1 s2, pull E k f.ty (.obj ms0) (.map cur) s1 = .ok w s2 →
      ∃ out, w = .map out ∧ out.length = cur.length + (multimapItems ms0).length := by
    intro k cur w s1 s2 h
    cases k with
    | zero => cases h
    | succ k =>
      rw [hty] at h
      obtain ⟨out, new, e, -, hp, hf⟩ := C17_multimap_read_adds E k hashed t ms0 cur w s1 s2 h
      exact ⟨out, e, by rw [hp.length_eq, List.length_append, hf.length_eq]⟩
  have hlen : (multimapItems ms0).length = kvs.length := by
    obtain ⟨n, hn⟩ := r0.exists
    obtain ⟨out, e, hl⟩ := adds _ _ _ _ _ hn.1
    cases e
    simpa using hl.symm
  intro n v' s s' h
  cases n with
  | zero => cases h
  | succ n =>
    change pullStep E (pull E n) _ _ _ _ = _ at h
    simp only [pullStep, hd, hdj, Bool.true_eq_false, if_false, if_true] at h
    replace h := M.bind_eq_ok.1 h
    obtain ⟨v1, s1, h1, h⟩ := h
    replace h1 := M.bind_eq_ok.1 h1
    obtain ⟨v2, s2, h1, h2⟩ := h1
    replace h1 := pull_root hr hrj hfind h1
    obtain ⟨k, w, sa, sb, rfl, h1⟩ := h1
    replace h1 := adds _ _ _ _ _ h1
    obtain ⟨out1, rfl, hl1⟩ := h1
    replace h2 := M.bind_eq_ok.1 h2
    obtain ⟨v3, s3, h2, h3⟩ := h2
    cases h3
    cases n with
    | zero => cases h2
    | succ n =>
      change pullStep E (pull E n) _ _ _ _ = _ at h2
      simp only [pullStep, hm, hmj, Bool.true_eq_false, if_false, if_true] at h2
      replace h2 := M.bind_eq_ok.1 h2
      obtain ⟨v4, s4, h2, h3⟩ := h2
      replace h2 := M.bind_eq_ok.1 h2
      obtain ⟨v5, s5, h2, h4⟩ := h2
      cases h4
      replace h2 := pull_root hr hrj hfind h2
      obtain ⟨k, w, sa, sb, rfl, h2⟩ := h2
      replace h2 := adds _ _ _ _ _ h2
      obtain ⟨out2, rfl, hl2⟩ := h2
      simp only at h3
      replace h3 := M.bind_eq_ok.1 h3
      obtain ⟨st, s6, h3, h5⟩ := h3
      cases h5
      replace h3 := withRecord_ok h3
      obtain ⟨_, _, h3⟩ := h3
      cases h3
      simp only at h
      replace h := M.bind_eq_ok.1 h
      obtain ⟨st, s6, h3, h5⟩ := h
      cases h5
      replace h3 := withRecord_ok h3
      obtain ⟨_, _, h3⟩ := h3
      cases h3
      exact ⟨out2, rfl, by rw [hl2, hl1, hlen]; simp; omega⟩

namespace DoubledDemo
open Demo

def fX : Field := ⟨0, lit "x", .map false true .str (.int .i32)⟩
def three : Env := { env with cls := fun c => match c with
    | 0 => some ⟨lit "R", ⟨[], [fX], [fX], true, true⟩, ⟨[], none, [], [], true⟩, [], []⟩
    | 1 => some ⟨lit "M", ⟨[0], [], [], true, true⟩, ⟨[], none, [], [], true⟩, [], []⟩
    | 2 => some ⟨lit "D", ⟨[0, 1], [], [], true, true⟩, ⟨[], none, [], [], true⟩, [], []⟩
    | _ => none }

example : ThreeLevels three fX 0 1 2 := ⟨⟨_, rfl, rfl⟩, ⟨_, rfl, rfl⟩, ⟨_, rfl, rfl⟩⟩

/-- one entry becomes two -/
example : ∃ j, push three (fun _ => none) 9 (.cls 2) (.obj [(fX.key, .map [(.str [65], .int 5)])]) () = .ok j () ∧
    pull three 9 (.cls 2) j (.obj [(fX.key, .map [])]) none =
      .ok (.obj [(fX.key, .map [(.str [65], .int 5), (.str [65], .int 5)])]) none := ⟨_, rfl, rfl⟩

end DoubledDemo

end Verif
