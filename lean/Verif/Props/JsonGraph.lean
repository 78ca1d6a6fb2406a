import Mathlib.Logic.Relation
import Mathlib.Data.List.ProdSigma
import Verif.Lemmas.PushInv
import Verif.Props.JsonErrors

/-!
# JSON: termination, shared objects and ownership of names: C19, C23, C24
-/

namespace Verif

open Demo (env)

/-! ## C23: deserialisation terminates -/

mutual
/-- Nesting depth of a JSON value. -/
def Json.depth : Json → Nat
  | .arr js => Json.depthL js + 1
  | .obj ms => Json.depthM ms + 1
  | _ => 0
def Json.depthL : List Json → Nat
  | [] => 0
  | j :: js => max j.depth (Json.depthL js)
def Json.depthM : List (Key × Json) → Nat
  | [] => 0
  | (_, j) :: ms => max j.depth (Json.depthM ms)
end

theorem Json.depth_mem_arr {js : List Json} {j : Json} (h : j ∈ js) : j.depth < (Json.arr js).depth := by
  have : j.depth ≤ Json.depthL js := by
    induction js with
    | nil => cases h
    | cons a js ih =>
      simp only [Json.depthL]
      rcases List.mem_cons.1 h with rfl | h
      · omega
      · have := ih h; omega
  simp only [Json.depth]; omega

theorem Json.depth_mem_obj {ms : List (Key × Json)} {k : Key} {j : Json} (h : (k, j) ∈ ms) :
    j.depth < (Json.obj ms).depth := by
  have : j.depth ≤ Json.depthM ms := by
    induction ms with
    | nil => cases h
    | cons a ms ih =>
      obtain ⟨k', j'⟩ := a
      simp only [Json.depthM]
      rcases List.mem_cons.1 h with h | h
      · cases h; omega
      · have := ih h; omega
  simp only [Json.depth]; omega

/-- Number of directly nested optionals and pointers plus, for a class, its height in the inheritance hierarchy. -/
def headRank (rank : ClassId → Nat) : Ty → Nat
  | .opt t => headRank rank t + 1
  | .uptr t => headRank rank t + 1
  | .sptr t => headRank rank t + 1
  | .cls c => rank c
  | _ => 0

/-- Class hierarchies are acyclic (a requirement of C++): `rank` assigns every class a number above those of its bases. -/
def Ranked (E : Env) (rank : ClassId → Nat) : Prop :=
  ∀ c ci b, E.cls c = some ci → b ∈ ci.json.bases → rank b < rank c

theorem JCalls.decreases {E : Env} {rank : ClassId → Nat} (hr : Ranked E rank) {t t' : Ty} {j j' : Json}
    (h : JCalls E t j t' j') : j'.depth < j.depth ∨ (j' = j ∧ headRank rank t' < headRank rank t) := by
  cases h with
  | vec h => exact .inl (Json.depth_mem_arr h)
  | set h => exact .inl (Json.depth_mem_arr h)
  | map h => exact .inl (Json.depth_mem_obj h)
  | multi h h' => exact .inl (Nat.lt_trans (Json.depth_mem_arr h') (Json.depth_mem_obj h))
  | pair h => exact .inl (Json.depth_mem_arr (List.of_mem_zip h).2)
  | tuple h => exact .inl (Json.depth_mem_arr (List.of_mem_zip h).2)
  | opt => exact .inr ⟨rfl, by simp [headRank]⟩
  | uptr => exact .inr ⟨rfl, by simp [headRank]⟩
  | sptr => exact .inr ⟨rfl, by simp [headRank]⟩
  | variant _ h => exact .inl (Json.depth_mem_obj h)
  | base hc hb => exact .inr ⟨rfl, hr _ _ _ hc hb⟩
  | field _ _ h => exact .inl (Json.depth_mem_obj h)

/-- the types a deserialisation of `t` may call deserialisation for -/
def tyNext (E : Env) : Ty → List Ty
  | .opt t | .uptr t | .sptr t | .vec t | .set _ _ t | .map _ _ _ t => [t]
  | .pair a b => [a, b]
  | .tuple ts | .variant ts => ts
  | .cls c => match E.cls c with
    | some ci => ci.json.bases.map .cls ++ ci.json.pullFields.map Field.ty
    | none => []
  | _ => []

def jsonNext : Json → List Json
  | .arr js => js
  | .obj ms => ms.map Prod.snd
  | _ => []

theorem JCalls.mem {E : Env} {t t' : Ty} {j j' : Json} (h : JCalls E t j t' j') :
    t' ∈ tyNext E t ∧ (j' ∈ j :: (jsonNext j ++ (jsonNext j).flatMap jsonNext)) := by
  have obj : ∀ {ms : List (Key × Json)} {k j}, (k, j) ∈ ms → j ∈ jsonNext (.obj ms) := by
    intro ms k j h
    exact List.mem_map.2 ⟨_, h, rfl⟩
  cases h with
  | vec h => exact ⟨by simp [tyNext], by simp [jsonNext, h]⟩
  | set h => exact ⟨by simp [tyNext], by simp [jsonNext, h]⟩
  | map h => exact ⟨by simp [tyNext], List.mem_cons_of_mem _ (List.mem_append_left _ (obj h))⟩
  | multi h h' =>
    exact ⟨by simp [tyNext], List.mem_cons_of_mem _ (List.mem_append_right _ (List.mem_flatMap.2 ⟨_, obj h, h'⟩))⟩
  | pair h => exact ⟨(List.of_mem_zip h).1, by simp [jsonNext, (List.of_mem_zip h).2]⟩
  | tuple h => exact ⟨(List.of_mem_zip h).1, by simp [jsonNext, (List.of_mem_zip h).2]⟩
  | opt => exact ⟨by simp [tyNext], List.mem_cons_self⟩
  | uptr => exact ⟨by simp [tyNext], List.mem_cons_self⟩
  | sptr => exact ⟨by simp [tyNext], List.mem_cons_self⟩
  | variant ht h => exact ⟨ht, List.mem_cons_of_mem _ (List.mem_append_left _ (obj h))⟩
  | base hc hb =>
    refine ⟨?_, List.mem_cons_self⟩
    simp only [tyNext, hc]
    exact List.mem_append_left _ (List.mem_map.2 ⟨_, hb, rfl⟩)
  | field hc hf h =>
    refine ⟨?_, List.mem_cons_of_mem _ (List.mem_append_left _ (obj h))⟩
    simp only [tyNext, hc]
    exact List.mem_append_right _ (List.mem_map.2 ⟨_, hf, rfl⟩)

theorem exists_max {α : Type} (l : List α) (P : α → Nat → Prop) (mono : ∀ a n m, n ≤ m → P a n → P a m)
    (h : ∀ a ∈ l, ∃ n, P a n) : ∃ N, ∀ a ∈ l, P a N := by
  induction l with
  | nil => exact ⟨0, by simp⟩
  | cons a l ih =>
    obtain ⟨N, hN⟩ := ih fun a ha => h a (List.mem_cons_of_mem _ ha)
    obtain ⟨n, hn⟩ := h a List.mem_cons_self
    refine ⟨max N n, fun b hb => ?_⟩
    rcases List.mem_cons.1 hb with rfl | hb
    · exact mono _ _ _ (by omega) hn
    · exact mono _ _ _ (by omega) (hN b hb)

/-- C23: for every target type, JSON value and class hierarchy (recursive classes included) there is a recursion budget
which suffices whatever the previous content of the target and the errors object are, and any larger budget gives the same
outcome: deserialisation terminates. -/
theorem C23_deserialization_terminates (E : Env) (rank : ClassId → Nat) (hr : Ranked E rank) (t : Ty) (j : Json) :
    ∃ n, ∀ v st, pull E n t j v st ≠ .fuel ∧ ∀ m, n ≤ m → pull E m t j v st = pull E n t j v st := by
  have key : ∀ d h t j, Json.depth j = d → headRank rank t = h → ∃ n, ∀ v st, pull E n t j v st ≠ .fuel := by
    intro d
    induction d using Nat.strongRecOn with
    | ind d ihd =>
      intro h
      induction h using Nat.strongRecOn with
      | ind h ihh =>
        intro t j hd hh
        have hcall : ∀ t' j', JCalls E t j t' j' → ∃ n, ∀ v st, pull E n t' j' v st ≠ .fuel := by
          intro t' j' hc
          rcases hc.decreases hr with hlt | ⟨rfl, hlt⟩
          · exact ihd _ (hd ▸ hlt) _ t' j' rfl rfl
          · exact ihh _ (hh ▸ hlt) t' j' hd rfl
        obtain ⟨N, hN⟩ := exists_max
          ((tyNext E t) ×ˢ (j :: (jsonNext j ++ (jsonNext j).flatMap jsonNext)))
          (fun p n => JCalls E t j p.1 p.2 → ∀ v st, pull E n p.1 p.2 v st ≠ .fuel)
          (fun p n m hnm hp hc v st hf => by
            have h1 := hp hc v st
            exact h1 ((pull_mono hnm rfl h1).symm.trans hf))
          (fun p _ => by
            by_cases hc : JCalls E t j p.1 p.2
            · obtain ⟨n, hn⟩ := hcall _ _ hc
              exact ⟨n, fun _ => hn⟩
            · exact ⟨0, fun h => absurd h hc⟩)
        refine ⟨N + 1, fun v st => ?_⟩
        exact rel2_nf.pullStep (self' := pull E N) t j v (fun t' j' hc v' =>
          hN (t', j') (List.pair_mem_product.2 hc.mem) hc v') st
  obtain ⟨n, hn⟩ := key _ _ t j rfl rfl
  exact ⟨n, fun v st => ⟨hn v st, fun m hm => pull_mono hm rfl (hn v st)⟩⟩

/-- C23 (bound): let `S` be a set of types containing with each type those occurring in it (as element, alternative,
member, base), none of which nests optionals, pointers and inheritance deeper than `B`. Then a recursion depth of
`(depth of the document) * (B + 1) + B + 1` suffices for all types in `S`. -/
theorem C23_recursion_depth_bound (E : Env) (rank : ClassId → Nat) (hr : Ranked E rank) (S : Ty → Prop) (B : Nat)
    (hS : ∀ t, S t → headRank rank t ≤ B ∧ ∀ t' ∈ tyNext E t, S t') (t : Ty) (ht : S t) (j : Json) (v : Val)
    (st : Option ErrSt) (n : Nat) (hn : j.depth * (B + 1) + B + 1 ≤ n) : pull E n t j v st ≠ .fuel := by
  have key : ∀ n t j v, S t → j.depth * (B + 1) + headRank rank t < n → NF _ (pull E n t j v) (pull E n t j v) := by
    intro n
    induction n with
    | zero => intro t j v _ h; omega
    | succ n ih =>
      intro t j v ht hlt
      refine rel2_nf.pullStep t j v fun t' j' hc v' => ih t' j' v' ((hS t ht).2 _ hc.mem.1) ?_
      rcases hc.decreases hr with h | ⟨rfl, h⟩
      · have h1 : (j'.depth + 1) * (B + 1) ≤ j.depth * (B + 1) := Nat.mul_le_mul_right _ h
        rw [Nat.add_mul, Nat.one_mul] at h1
        have h2 := (hS t' ((hS t ht).2 _ hc.mem.1)).1
        omega
      · omega
  have := (hS t ht).1
  exact key n t j v ht (by omega) st

def demoRank : ClassId → Nat
  | 1 => 1
  | _ => 0

theorem env_cls {c : ClassId} {ci : ClassInfo} (h : env.cls c = some ci) :
    (c = 0 ∧ ci = Demo.base) ∨ (c = 1 ∧ ci = Demo.derived) ∨ (c = 2 ∧ ci = Demo.node) := by
  match c, h with
  | 0, h => cases h; exact .inl ⟨rfl, rfl⟩
  | 1, h => cases h; exact .inr (.inl ⟨rfl, rfl⟩)
  | 2, h => cases h; exact .inr (.inr ⟨rfl, rfl⟩)

/-- the example environment has a recursive class (`Node`) and is ranked -/
theorem demo_ranked : Ranked env demoRank := by
  intro c ci b hc hb
  rcases env_cls hc with ⟨rfl, rfl⟩ | ⟨rfl, rfl⟩ | ⟨rfl, rfl⟩
  · simp [Demo.base] at hb
  · simp [Demo.derived] at hb
    subst hb
    decide
  · simp [Demo.node] at hb

/-- the types needed for the recursive class `Node` of the example: bound `B = 1` -/
example : ∀ t, (t = .int .i32 ∨ t = .cls 2 ∨ t = .sptr (.cls 2)) → headRank demoRank t ≤ 1 ∧
    ∀ t' ∈ tyNext env t, (t' = .int .i32 ∨ t' = .cls 2 ∨ t' = .sptr (.cls 2)) := by
  rintro t (rfl | rfl | rfl)
  · exact ⟨by decide, by simp [tyNext]⟩
  · exact ⟨by decide, by simp [tyNext, env, Demo.node, Demo.fV, Demo.fN]⟩
  · exact ⟨by decide, by simp [tyNext]⟩

/-! ## C24: shared objects -/

/-- Values without any part. -/
def IsLeaf : Val → Prop
  | .some _ | .ptr _ | .ref _ | .list _ | .map _ | .tup _ | .alt _ _ | .obj _ => False
  | _ => True

/-- `v'` is the tree unfolding of `v`: every `std::shared_ptr` to a heap object is replaced by a pointer owning an unfolded
copy of that object. It exists iff no cycle is reachable from `v` (and no pointer dangles). -/
inductive Unfold (H : Heap) : Val → Val → Prop
  | leaf {v} : IsLeaf v → Unfold H v v
  | some {v v'} : Unfold H v v' → Unfold H (.some v) (.some v')
  | ptr {v v'} : Unfold H v v' → Unfold H (.ptr v) (.ptr v')
  | ref {a v v'} : H a = Option.some v → Unfold H v v' → Unfold H (.ref a) (.ptr v')
  | alt {i v v'} : Unfold H v v' → Unfold H (.alt i v) (.alt i v')
  | list {vs vs'} : List.Forall₂ (Unfold H) vs vs' → Unfold H (.list vs) (.list vs')
  | tup {vs vs'} : List.Forall₂ (Unfold H) vs vs' → Unfold H (.tup vs) (.tup vs')
  | map {kvs kvs' : List (Val × Val)} : kvs.map Prod.fst = kvs'.map Prod.fst →
      List.Forall₂ (Unfold H) (kvs.map Prod.snd) (kvs'.map Prod.snd) → Unfold H (.map kvs) (.map kvs')
  | obj {st st' : Store} : st.map Prod.fst = st'.map Prod.fst →
      List.Forall₂ (Unfold H) (st.map Prod.snd) (st'.map Prod.snd) → Unfold H (.obj st) (.obj st')

theorem forall₂_pairs {α β : Type} {P : β → β → Prop} {l l' : List (α × β)} (h1 : l.map Prod.fst = l'.map Prod.fst)
    (h2 : List.Forall₂ P (l.map Prod.snd) (l'.map Prod.snd)) :
    List.Forall₂ (fun p q => p.1 = q.1 ∧ P p.2 q.2) l l' := by
  induction l generalizing l' with
  | nil => cases l' with
    | nil => exact .nil
    | cons q l' => cases h2
  | cons p l ih => cases l' with
    | nil => cases h2
    | cons q l' =>
      simp only [List.map_cons, List.cons.injEq] at h1 h2
      cases h2 with
      | cons h3 h4 => exact .cons ⟨h1.1, h3⟩ (ih h1.2 h4)

/-- The iteration order of hashed containers does not depend on the objects their elements point to. -/
def IterIndep (E : Env) (H : Heap) : Prop :=
  (∀ l l', List.Forall₂ (Unfold H) l l' → List.Forall₂ (Unfold H) (E.iter l) (E.iter l')) ∧
  (∀ l l', List.Forall₂ (fun p q => p.1 = q.1 ∧ Unfold H p.2 q.2) l l' →
    List.Forall₂ (fun p q => p.1 = q.1 ∧ Unfold H p.2 q.2) (E.iterKV l) (E.iterKV l'))

section
variable {H : Heap} {self self' : Ty → Val → SM Json} (hs : ∀ t v v', Unfold H v v' → self t v = self' t v')
include hs

theorem pushElems_unfold (t : Ty) {vs vs' : List Val} (h : List.Forall₂ (Unfold H) vs vs') :
    pushElems self t vs = pushElems self' t vs' := by
  induction h with
  | nil => rfl
  | cons h1 _ ih => simp only [pushElems, hs t _ _ h1, ih]

theorem pushTuple_unfold (ts : List Ty) {vs vs' : List Val} (h : List.Forall₂ (Unfold H) vs vs') :
    pushTuple self ts vs = pushTuple self' ts vs' := by
  induction h generalizing ts with
  | nil => cases ts <;> rfl
  | cons h1 _ ih =>
    cases ts with
    | nil => rfl
    | cons t ts => simp only [pushTuple, hs t _ _ h1, ih]

theorem pushMapEntries_unfold (t : Ty) {kvs kvs' : List (Val × Val)}
    (h : List.Forall₂ (fun p q => p.1 = q.1 ∧ Unfold H p.2 q.2) kvs kvs') :
    pushMapEntries self t kvs = pushMapEntries self' t kvs' := by
  induction h with
  | nil => rfl
  | @cons p q _ _ h1 _ ih =>
    obtain ⟨k, v⟩ := p
    obtain ⟨k', v'⟩ := q
    obtain ⟨rfl, h1⟩ := h1
    cases k <;> first | rfl | simp only [pushMapEntries, hs t _ _ h1, ih]

theorem pushMultimapEntries_unfold (t : Ty) {kvs kvs' : List (Val × Val)} (ms : List (Key × Json))
    (h : List.Forall₂ (fun p q => p.1 = q.1 ∧ Unfold H p.2 q.2) kvs kvs') :
    pushMultimapEntries self t kvs ms = pushMultimapEntries self' t kvs' ms := by
  induction h generalizing ms with
  | nil => rfl
  | @cons p q _ _ h1 _ ih =>
    obtain ⟨k, v⟩ := p
    obtain ⟨k', v'⟩ := q
    obtain ⟨rfl, h1⟩ := h1
    cases k <;> first | rfl | simp only [pushMultimapEntries, hs t _ _ h1, ih]

theorem pushBases_unfold (bs : List ClassId) {v v' : Val} (h : Unfold H v v') :
    pushBases self bs v = pushBases self' bs v' := by
  induction bs with
  | nil => rfl
  | cons b bs ih => simp only [pushBases, hs _ _ _ h, ih]

omit hs in
theorem get?_unfold {st st' : Store} (h : List.Forall₂ (fun p q => p.1 = q.1 ∧ Unfold H p.2 q.2) st st')
    (k : FieldKey) : (st.get? k = none ∧ st'.get? k = none) ∨
      ∃ v v', st.get? k = some v ∧ st'.get? k = some v' ∧ Unfold H v v' := by
  induction h with
  | nil => exact .inl ⟨rfl, rfl⟩
  | @cons p q _ _ h1 _ ih =>
    obtain ⟨k1, v⟩ := p
    obtain ⟨k', v'⟩ := q
    obtain ⟨rfl, h1⟩ := h1
    simp only [Store.get?, List.lookup] at ih ⊢
    by_cases hk : k = k1
    · subst hk
      simp only [beq_self_eq_true]
      exact .inr ⟨v, v', rfl, rfl, h1⟩
    · rw [beq_false_of_ne hk]
      exact ih

theorem pushFields_unfold (fs : List Field) {st st' : Store}
    (h : List.Forall₂ (fun p q => p.1 = q.1 ∧ Unfold H p.2 q.2) st st') :
    pushFields self fs st = pushFields self' fs st' := by
  induction fs with
  | nil => rfl
  | cons f fs ih =>
    simp only [pushFields]
    rcases get?_unfold h f.key with ⟨h1, h2⟩ | ⟨v, v', h1, h2, h3⟩
    · rw [h1, h2]
    · rw [h1, h2]
      simp only [hs _ _ _ h3, ih]

end

theorem push_unfold {E : Env} {H : Heap} (hi : IterIndep E H) (H' : Heap) (n : Nat) (t : Ty) (v v' : Val)
    (h : Unfold H v v') : push E H n t v = push E H' n t v' := by
  induction n generalizing t v v' with
  | zero => rfl
  | succ n ih =>
    show pushStep E H (push E H n) t v = pushStep E H' (push E H' n) t v'
    cases h with
    | leaf hl =>
      cases v
      case cstr o => cases o <;> cases t <;> rfl
      case int i => cases t <;> first | rfl | (rename_i it; cases it <;> rfl)
      all_goals first
        | exact hl.elim
        | (cases t <;> rfl)
    | some h => cases t <;> first | rfl | exact ih _ _ _ h
    | ptr h => cases t <;> first | rfl | exact ih _ _ _ h
    | ref ha h =>
      cases t <;> first | rfl | skip
      all_goals
        simp only [pushStep, ha]
        exact ih _ _ _ h
    | alt h =>
      cases t <;> first | rfl | skip
      simp only [pushStep]
      split <;> first | rfl | simp only [ih _ _ _ h]
    | @list vs vs' h =>
      cases t <;> first | rfl | skip
      · simp only [pushStep, pushElems_unfold ih _ h]
      · rename_i hd m t
        have : List.Forall₂ (Unfold H) (E.order hd vs) (E.order hd vs') := by
          cases hd
          · exact h
          · exact hi.1 _ _ h
        simp only [pushStep, pushElems_unfold ih _ this]
    | tup h => cases t <;> first | rfl | simp only [pushStep, pushTuple_unfold ih _ h]
    | @map kvs kvs' hk h =>
      replace h := forall₂_pairs hk h
      cases t <;> first | rfl | skip
      rename_i hd m k t
      have : List.Forall₂ (fun p q => p.1 = q.1 ∧ Unfold H p.2 q.2) (E.orderKV hd kvs) (E.orderKV hd kvs') := by
        cases hd
        · exact h
        · exact hi.2 _ _ h
      cases m <;> cases k <;> first
        | rfl
        | (simp only [pushStep, pushMapEntries_unfold ih _ this]; done)
        | (simp only [pushStep, pushMultimapEntries_unfold ih _ _ this]; done)
    | obj hk hv =>
      have h := forall₂_pairs hk hv
      cases t <;> first | rfl | skip
      simp only [pushStep]
      split
      · rfl
      · simp only [pushBases_unfold ih _ (Unfold.obj hk hv), pushFields_unfold ih _ h]

/-- C24 (acyclic): serialising an object graph gives exactly the outcome of serialising its tree unfolding, in which
nothing is shared any more. -/
theorem C24_shared_objects_are_duplicated (E : Env) (H : Heap) (hi : IterIndep E H) (n : Nat) (t : Ty) (v v' : Val)
    (h : Unfold H v v') (H' : Heap) : push E H n t v () = push E H' n t v' () := by
  rw [push_unfold hi H' n t v v' h]

/-- two pointers to the same node -/
def sharedHeap : Heap := fun a => if a = 0 then some (.obj [(Demo.fV.key, .int 5), (Demo.fN.key, .null)]) else none

example : Unfold sharedHeap (.list [.ref 0, .ref 0])
    (.list [.ptr (.obj [(Demo.fV.key, .int 5), (Demo.fN.key, .null)]),
      .ptr (.obj [(Demo.fV.key, .int 5), (Demo.fN.key, .null)])]) := by
  have h : Unfold sharedHeap (.ref 0) (.ptr (.obj [(Demo.fV.key, .int 5), (Demo.fN.key, .null)])) :=
    .ref rfl (.obj rfl (.cons (.leaf trivial) (.cons (.leaf trivial) .nil)))
  exact .list (.cons h (.cons h .nil))

theorem forall₂_reverse {α : Type} {P : α → α → Prop} {l l' : List α} (h : List.Forall₂ P l l') :
    List.Forall₂ P l.reverse l'.reverse := List.rel_reverse h

example : IterIndep env sharedHeap := ⟨fun _ _ h => forall₂_reverse h, fun _ _ h => forall₂_reverse h⟩

/-- A completed serialisation has completed for all parts, with a smaller budget. -/
theorem push_ok_calls {E : Env} {H : Heap} {n : Nat} {t t' : Ty} {v v' : Val} {j : Json}
    (h : push E H (n + 1) t v () = .ok j ()) (hc : PCalls E H t v t' v') : ∃ j', push E H n t' v' () = .ok j' () := by
  change pushStep E H (push E H n) t v () = _ at h
  cases hc with
  | vec hv =>
    obtain ⟨js, h, -⟩ := SM.map_ok_iff.1 h
    obtain ⟨j', -, h⟩ := forall₂_mem_left (pushElems_iff.1 h) hv
    exact ⟨j', h⟩
  | set hv =>
    obtain ⟨js, h, -⟩ := SM.map_ok_iff.1 h
    obtain ⟨j', -, h⟩ := forall₂_mem_left (pushElems_iff.1 h) hv
    exact ⟨j', h⟩
  | @map hd m t kvs k v hv =>
    cases m
    · obtain ⟨js, h, -⟩ := SM.map_ok_iff.1 h
      obtain ⟨m, -, h⟩ := forall₂_mem_left (pushMapEntries_iff.1 h) hv
      obtain ⟨_, -, -, h⟩ := h
      exact ⟨_, h⟩
    · obtain ⟨js, h, -⟩ := SM.map_ok_iff.1 h
      obtain ⟨js, h, -⟩ := pushMultimapEntries_iff.1 h
      obtain ⟨j, -, h⟩ := forall₂_mem_left h hv
      exact ⟨j, h.2⟩
  | pair hv =>
    obtain ⟨js, h, -⟩ := SM.map_ok_iff.1 h
    obtain ⟨j', -, h⟩ := forall₂_mem_left (pushTuple_iff.1 h).2 hv
    exact ⟨j', h⟩
  | tuple hv =>
    obtain ⟨js, h, -⟩ := SM.map_ok_iff.1 h
    obtain ⟨j', -, h⟩ := forall₂_mem_left (pushTuple_iff.1 h).2 hv
    exact ⟨j', h⟩
  | opt => exact ⟨j, h⟩
  | uptr => exact ⟨j, h⟩
  | sptr => exact ⟨j, h⟩
  | uref ha =>
    simp only [pushStep, ha] at h
    exact ⟨j, h⟩
  | ref ha =>
    simp only [pushStep, ha] at h
    exact ⟨j, h⟩
  | alt ht hm =>
    simp only [pushStep, ht] at h
    cases t' <;> first
      | exact absurd rfl hm
      | (obtain ⟨j', h, -⟩ := SM.map_ok_iff.1 h; exact ⟨j', h⟩)
  | base hcl hb =>
    simp only [pushStep, hcl] at h
    obtain ⟨ms, h, -⟩ := SM.bind_ok_iff.1 h
    obtain ⟨mss, h, -⟩ := pushBases_iff.1 h
    obtain ⟨ms', -, h⟩ := forall₂_mem_left h hb
    exact ⟨_, h⟩
  | field hcl hf hv =>
    simp only [pushStep, hcl] at h
    obtain ⟨ms, -, h⟩ := SM.bind_ok_iff.1 h
    obtain ⟨ms', h, -⟩ := SM.map_ok_iff.1 h
    obtain ⟨m, -, -, v'', hg, h⟩ := forall₂_mem_left (pushFields_iff.1 h) hf
    rw [hv] at hg
    cases hg
    exact ⟨_, h⟩

/-- The parts of a typed value which are serialised along with it (through any number of steps, including dereferenced
pointers). -/
def Part (E : Env) (H : Heap) (x y : Ty × Val) : Prop := PCalls E H x.1 x.2 y.1 y.2

/-- C24 (cyclic): an object from which a cycle is reachable can not be serialised: serialisation never completes, whatever
the recursion budget is. -/
theorem C24_cycles_never_complete (E : Env) (H : Heap) (x y : Ty × Val)
    (hxy : Relation.ReflTransGen (Part E H) x y) (hyy : Relation.TransGen (Part E H) y y) (n : Nat) (j : Json) :
    push E H n x.1 x.2 () ≠ .ok j () := by
  have step : ∀ (a b : Ty × Val), Part E H a b → ∀ n j, push E H n a.1 a.2 () = .ok j () →
      ∃ m < n, ∃ j', push E H m b.1 b.2 () = .ok j' () := by
    intro a b hab n j h
    cases n with
    | zero => cases h
    | succ n =>
      obtain ⟨j', h'⟩ := push_ok_calls h hab
      exact ⟨n, by omega, j', h'⟩
  have trans : ∀ (a b : Ty × Val), Relation.TransGen (Part E H) a b → ∀ n j, push E H n a.1 a.2 () = .ok j () →
      ∃ m < n, ∃ j', push E H m b.1 b.2 () = .ok j' () := by
    intro a b hab
    induction hab with
    | single h => exact step _ _ h
    | tail _ h ih =>
      intro n j hn
      obtain ⟨m, hm, j', h'⟩ := ih n j hn
      obtain ⟨m', hm', j'', h''⟩ := step _ _ h m j' h'
      exact ⟨m', by omega, j'', h''⟩
  have cyc : ∀ n j, push E H n y.1 y.2 () ≠ .ok j () := by
    intro n
    induction n using Nat.strongRecOn with
    | ind n ih =>
      intro j h
      obtain ⟨m, hm, j', h'⟩ := trans y y hyy n j h
      exact ih m hm j' h'
  intro h
  rcases Relation.reflTransGen_iff_eq_or_transGen.1 hxy with rfl | hxy
  · exact cyc n j h
  · obtain ⟨m, -, j', h'⟩ := trans x y hxy n j h
    exact cyc m j' h'

/-- a node pointing to itself -/
def cyclicHeap : Heap := fun a =>
  if a = 0 then some (.obj [(Demo.fV.key, .int 5), (Demo.fN.key, .ref 0)]) else none

example : Relation.TransGen (Part env cyclicHeap) (.sptr (.cls 2), .ref 0) (.sptr (.cls 2), .ref 0) :=
  .tail (.single (show Part env cyclicHeap (.sptr (.cls 2), .ref 0)
      (.cls 2, .obj [(Demo.fV.key, .int 5), (Demo.fN.key, .ref 0)]) from .ref rfl))
    (show PCalls env cyclicHeap (.cls 2) _ Demo.fN.ty (.ref 0) from
      .field (ci := Demo.node) rfl (by simp [Demo.node]) (by rfl))

/-- ... and what happens instead is that the recursion does not end -/
example (n : Nat) : push env cyclicHeap n (.sptr (.cls 2)) (.ref 0) () = .fuel := by
  induction n using Nat.strongRecOn with
  | ind n ih =>
    match n with
    | 0 => rfl
    | 1 => rfl
    | 2 => rfl
    | n + 3 =>
      have h := ih (n + 1) (by omega)
      show pushStep env cyclicHeap (push env cyclicHeap (n + 2)) (.sptr (.cls 2)) (.ref 0) () = _
      show pushStep env cyclicHeap (push env cyclicHeap (n + 1)) (.cls 2)
        (.obj [(Demo.fV.key, .int 5), (Demo.fN.key, .ref 0)]) () = _
      show ((pure [] : SM (List (Key × Json))) >>= fun ms => _) () = _
      rw [M.pure_bind']
      apply M.bind_fuel
      show (push env cyclicHeap (n + 1) (.int .i32) (.int 5) >>= _) () = _
      rw [show push env cyclicHeap (n + 1) (.int .i32) (.int 5) = pure (.num (.int 5)) from rfl, M.pure_bind']
      apply M.bind_fuel
      show (push env cyclicHeap (n + 1) (.sptr (.cls 2)) (.ref 0) >>= _) () = _
      exact M.bind_fuel h

end Verif
