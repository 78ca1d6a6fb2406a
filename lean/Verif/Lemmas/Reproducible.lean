import Verif.Spec.Reproducible
import Verif.Lemmas.IterationOrder
import Verif.Lemmas.Bytes

/-!
# Writing objects without hashed containers and shared pointers
-/

namespace Verif

/-! ## JSON -/

section
variable {E : Env} {i : List Val → List Val} {k : List (Val × Val) → List (Val × Val)} {H : Heap} {S S' : Ty → Val → SM Json}

theorem pushElems_same {t : Ty} (h : ∀ v, S' t v = S t v) (vs : List Val) : pushElems S' t vs = pushElems S t vs := by
  induction vs with
  | nil => rfl
  | cons v vs ih => simp only [pushElems, h, ih]

theorem pushTuple_same {ts : List Ty} (h : ∀ t ∈ ts, ∀ v, S' t v = S t v) (vs : List Val) : pushTuple S' ts vs = pushTuple S ts vs := by
  induction vs generalizing ts with
  | nil => cases ts <;> rfl
  | cons v vs ih =>
    cases ts with
    | nil => rfl
    | cons t ts => simp only [pushTuple, h t List.mem_cons_self, ih fun t ht => h t (List.mem_cons_of_mem _ ht)]

theorem pushMap_same {t : Ty} (h : ∀ v, S' t v = S t v) (kvs : List (Val × Val)) : pushMapEntries S' t kvs = pushMapEntries S t kvs := by
  induction kvs with
  | nil => rfl
  | cons q kvs ih =>
    obtain ⟨k, v⟩ := q
    cases k <;> first | rfl | simp only [pushMapEntries, h, ih]

theorem pushMulti_same {t : Ty} (h : ∀ v, S' t v = S t v) (kvs : List (Val × Val)) (ms : List (Key × Json)) :
    pushMultimapEntries S' t kvs ms = pushMultimapEntries S t kvs ms := by
  induction kvs generalizing ms with
  | nil => rfl
  | cons q kvs ih =>
    obtain ⟨k, v⟩ := q
    cases k <;> first | rfl | simp only [pushMultimapEntries, h, ih]

theorem pushBases_same {bs : List ClassId} (h : ∀ b ∈ bs, ∀ v, S' (.cls b) v = S (.cls b) v) (v : Val) : pushBases S' bs v = pushBases S bs v := by
  induction bs with
  | nil => rfl
  | cons b bs ih => simp only [pushBases, h b List.mem_cons_self, ih fun b hb => h b (List.mem_cons_of_mem _ hb)]

theorem pushFields_same {fs : List Field} (h : ∀ f ∈ fs, ∀ v, S' f.ty v = S f.ty v) (st : Store) : pushFields S' fs st = pushFields S fs st := by
  induction fs with
  | nil => rfl
  | cons f fs ih =>
    simp only [pushFields]
    cases st.get? f.key with
    | none => rfl
    | some v => simp only [h f List.mem_cons_self, ih fun f hf => h f (List.mem_cons_of_mem _ hf)]

theorem pushStep_ordered (t : Ty) (ht : WithoutHashed E t) (hS : ∀ t, WithoutHashed E t → ∀ v, S' t v = S t v) (v : Val) :
    pushStep (E.reorder i k) H S' t v = pushStep E H S t v := by
  cases v with
  | some v =>
    cases t <;> first | rfl | exact hS _ (fun t' h => ht t' (.opt h)) v
  | ptr v =>
    cases t <;> first
      | rfl
      | exact hS _ (fun t' h => ht t' (.uptr h)) v
      | exact hS _ (fun t' h => ht t' (.sptr h)) v
  | ref a =>
    cases t <;> first | rfl | skip
    all_goals
      simp only [pushStep]
      cases H a with
      | none => rfl
      | some v => first
        | exact hS _ (fun t' h => ht t' (.uptr h)) v
        | exact hS _ (fun t' h => ht t' (.sptr h)) v
  | list vs =>
    cases t <;> first | rfl | skip
    · simp only [pushStep, pushElems_same (hS _ (fun t' h => ht t' (.vec h)))]
    · rename_i hd m t
      cases hd
      · simp only [pushStep, pushElems_same (hS _ (fun t' h => ht t' (.set h))), Env.order]; rfl
      · exact absurd rfl ((ht _ (.refl _)).1 m t)
  | map kvs =>
    cases t <;> first | rfl | skip
    rename_i hd m kt t
    cases hd
    · have := hS t (fun t' h => ht t' (.entry (.snd h)))
      cases m <;> cases kt <;> first
        | rfl
        | (simp only [pushStep, pushMap_same this, Env.orderKV]; rfl)
        | (simp only [pushStep, pushMulti_same this, Env.orderKV]; rfl)
    · exact absurd rfl ((ht _ (.refl _)).2 m kt t)
  | tup vs =>
    cases t <;> first | rfl | skip
    · rename_i a b
      have h : ∀ t ∈ [a, b], ∀ v, S' t v = S t v := by
        intro t h
        simp only [List.mem_cons, List.not_mem_nil, or_false] at h
        rcases h with rfl | rfl
        · exact hS _ fun t' h => ht t' (.fst h)
        · exact hS _ fun t' h => ht t' (.snd h)
      simp only [pushStep, pushTuple_same h]
    · rename_i ts
      have h : ∀ t ∈ ts, ∀ v, S' t v = S t v := fun t h => hS t fun t' h' => ht t' (.elem h h')
      simp only [pushStep, pushTuple_same h]
  | alt x v =>
    cases t <;> first | rfl | skip
    rename_i ts
    simp only [pushStep]
    cases hx : ts[x]? with
    | none => rfl
    | some t =>
      have := hS t (fun t' h' => ht t' (.alt (List.mem_of_getElem? hx) h')) v
      by_cases hm : t = .mono
      · subst hm; rfl
      · simp only [this]
  | obj st =>
    cases t <;> first | rfl | skip
    rename_i c
    simp only [pushStep, reorder_cls]
    cases hc : E.cls c with
    | none => rfl
    | some ci =>
      have h1 : ∀ b ∈ ci.json.bases, ∀ v, S' (.cls b) v = S (.cls b) v := fun b hb => hS _ fun t' h => ht t' (.jsonBase hc hb h)
      have h2 : ∀ f ∈ ci.json.pushFields, ∀ v, S' f.ty v = S f.ty v := fun f hf => hS _ fun t' h => ht t' (.jsonMember hc hf h)
      simp only [pushBases_same h1, pushFields_same h2]
  | int x =>
    cases t <;> first | rfl | skip
    all_goals rename_i it; cases it <;> rfl
  | cstr x => cases x <;> cases t <;> rfl
  | _ => cases t <;> rfl

theorem push_ordered (n : Nat) (t : Ty) (ht : WithoutHashed E t) (v : Val) : push (E.reorder i k) H n t v = push E H n t v := by
  induction n generalizing t v with
  | zero => rfl
  | succ n ih => exact pushStep_ordered t ht (fun t ht v => ih t ht v) v

end

/-! ## binary -/

/-- `m` appends `d`, whatever has been written before. -/
def Out (m : WM Unit) (d : Str) : Prop := ∀ s, m s = .ok () { s with out := s.out ++ d }

/-- If `m` succeeds once, then it and `m'` always append bytes related by `R`. -/
def OutRel (R : Str → Str → Prop) (m m' : WM Unit) : Prop := ∀ s s1, m s = .ok () s1 → ∃ d d', Out m d ∧ Out m' d' ∧ R d d'

/-- what is needed of `R` -/
structure OutClosed (R : Str → Str → Prop) : Prop where
  refl : ∀ d, R d d
  append : ∀ {a a' b b'}, R a a' → R b b' → R (a ++ b) (a' ++ b')

theorem Out.emit (d : Str) : Out (emit d) d := fun _ => rfl
theorem Out.nil : Out (pure ()) [] := fun s => by simp [Pure.pure, M.pure]
theorem Out.bind {m : WM Unit} {f : Unit → WM Unit} {a b : Str} (hm : Out m a) (hf : Out (f ()) b) : Out (m >>= f) (a ++ b) := fun s => by
  rw [M.bind_ok (hm s), hf]
  simp

section
variable {R : Str → Str → Prop} (hR : OutClosed R)
include hR

theorem OutRel.same {m : WM Unit} (h : ∀ s s1, m s = .ok () s1 → ∃ d, Out m d) : OutRel R m m := fun s s1 hs => by
  obtain ⟨d, hd⟩ := h s s1 hs
  exact ⟨d, d, hd, hd, hR.refl d⟩

theorem OutRel.emit (d : Str) : OutRel R (Verif.emit d) (Verif.emit d) := .same hR fun _ _ _ => ⟨d, .emit d⟩

theorem OutRel.nil : OutRel R (pure ()) (pure ()) := .same hR fun _ _ _ => ⟨[], .nil⟩

theorem OutRel.bind {m m' : WM Unit} {f f' : Unit → WM Unit} (hm : OutRel R m m') (hf : OutRel R (f ()) (f' ())) : OutRel R (m >>= f) (m' >>= f') := by
  intro s s1 h
  obtain ⟨⟨⟩, s2, h1, h2⟩ := M.bind_eq_ok.1 h
  obtain ⟨a, a', e1, e2, e3⟩ := hm _ _ h1
  obtain ⟨b, b', g1, g2, g3⟩ := hf _ _ h2
  exact ⟨_, _, e1.bind g1, e2.bind g2, hR.append e3 g3⟩

theorem OutRel.varint (x : Nat) : OutRel R (writeVarint x) (writeVarint x) := by
  refine .same hR fun s s1 h => ?_
  obtain ⟨L, hL, -⟩ := writeVarint_ok h
  refine ⟨beBytes L (x + 2 ^ (7 * L)), fun s => ?_⟩
  unfold writeVarint
  rw [hL]
  rfl

theorem OutRel.version (c : Option Nat) (w : Nat) : OutRel R (writeVersion c w) (writeVersion c w) := by
  cases c
  · exact .nil hR
  · exact .varint hR _

variable {S S' : Nat → Ty → Val → WM Unit}

theorem OutRel.elems {t : Ty} (vs : List Val) (h : ∀ v, OutRel R (S 0 t v) (S' 0 t v)) : OutRel R (writeElems S t vs) (writeElems S' t vs) := by
  induction vs with
  | nil => exact .nil hR
  | cons v vs ih => exact .bind hR (h v) ih

theorem OutRel.entries {k t : Ty} (kvs : List (Val × Val)) (h : ∀ v, OutRel R (S 0 (.pair k t) v) (S' 0 (.pair k t) v)) :
    OutRel R (writeEntries S k t kvs) (writeEntries S' k t kvs) := by
  induction kvs with
  | nil => exact .nil hR
  | cons q kvs ih => exact .bind hR (h _) ih

theorem OutRel.bases {w : Nat} (bs : List ClassId) (v : Val) (h : ∀ b ∈ bs, ∀ v, OutRel R (S w (.cls b) v) (S' w (.cls b) v)) :
    OutRel R (writeBases S w bs v) (writeBases S' w bs v) := by
  induction bs with
  | nil => exact .nil hR
  | cons b bs ih => exact .bind hR (h b List.mem_cons_self v) (ih fun b hb => h b (List.mem_cons_of_mem _ hb))

theorem OutRel.fields {w : Nat} (fs : List (Guard × Field)) (st : Store) (h : ∀ gf ∈ fs, ∀ v, OutRel R (S w gf.2.ty v) (S' w gf.2.ty v)) :
    OutRel R (writeFields S w fs st) (writeFields S' w fs st) := by
  induction fs with
  | nil => exact .nil hR
  | cons gf fs ih =>
    obtain ⟨g, f⟩ := gf
    have ih := ih fun gf hgf => h gf (List.mem_cons_of_mem _ hgf)
    unfold writeFields
    by_cases hg : g.holds w = true
    · rw [if_pos hg, if_pos hg]
      cases st.get? f.key with
      | none => intro s s1 h; cases h
      | some v => exact .bind hR (h (g, f) List.mem_cons_self v) ih
    · rw [if_neg hg, if_neg hg]
      exact ih

end

/-- permutations of bytes -/
theorem permClosed : OutClosed (List.Perm (α := UInt8)) := ⟨.refl, .append⟩
theorem eqClosed : OutClosed (@Eq Str) := ⟨fun _ => rfl, fun h1 h2 => by rw [h1, h2]⟩

/-- each element with the bytes written for it by both programs -/
theorem each_out {α : Type} {m m' : α → WM Unit} {all : (α → WM Unit) → List α → WM Unit}
    (hnil : ∀ f, all f [] = pure ()) (hcons : ∀ f a l, all f (a :: l) = (f a >>= fun _ => all f l))
    (hm : ∀ a, OutRel List.Perm (m a) (m' a)) {l l' : List α} (hp : l.Perm l') :
    OutRel List.Perm (all m l) (all m' l') := by
  have key : ∀ (l : List α) s s1, all m l s = .ok () s1 → ∃ ds : List (Str × Str),
      List.Forall₂ (fun a d => Out (m a) d.1 ∧ Out (m' a) d.2 ∧ d.1.Perm d.2) l ds ∧ Out (all m l) (ds.map Prod.fst).flatten := by
    intro l
    induction l with
    | nil => intro s s1 h; exact ⟨[], .nil, by rw [hnil]; exact .nil⟩
    | cons a l ih =>
      intro s s1 h
      rw [hcons] at h
      obtain ⟨⟨⟩, s2, h1, h2⟩ := M.bind_eq_ok.1 h
      obtain ⟨d, d', e1, e2, e3⟩ := hm a _ _ h1
      obtain ⟨ds, f1, f2⟩ := ih _ _ h2
      exact ⟨(d, d') :: ds, .cons ⟨e1, e2, e3⟩ f1, by rw [hcons]; exact e1.bind f2⟩
  intro s s1 h
  obtain ⟨ds, h1, h2⟩ := key l s s1 h
  obtain ⟨ds', hp', h3⟩ := forall₂_perm hp h1
  have h4 : Out (all m' l') (ds'.map Prod.snd).flatten := by
    clear hp hp' h h1 h2
    induction h3 with
    | nil => rw [hnil]; exact .nil
    | cons h _ ih => rw [hcons]; exact h.2.1.bind ih
  refine ⟨_, _, h2, h4, ?_⟩
  have h5 : (ds.map Prod.fst).flatten.Perm (ds.map Prod.snd).flatten := by
    clear hp hp' h h2 h3 h4
    induction h1 with
    | nil => exact .refl _
    | cons h _ ih => exact h.2.2.append ih
  exact h5.trans (hp'.map Prod.snd).flatten

/-- the elements of sets and the entries of maps, in the order they are visited -/
structure OrderOut (R : Str → Str → Prop) (E E' : Env) (Q : Ty → Prop) : Prop where
  set : ∀ (S S' : Nat → Ty → Val → WM Unit) hd m t vs, Q (.set hd m t) → (∀ v, OutRel R (S 0 t v) (S' 0 t v)) →
    OutRel R (writeElems S t (E.order hd vs)) (writeElems S' t (E'.order hd vs))
  map : ∀ (S S' : Nat → Ty → Val → WM Unit) hd m k t kvs, Q (.map hd m k t) → (∀ v, OutRel R (S 0 (.pair k t) v) (S' 0 (.pair k t) v)) →
    OutRel R (writeEntries S k t (E.orderKV hd kvs)) (writeEntries S' k t (E'.orderKV hd kvs))

theorem orderOut_perm {E E' : Env} (h : VisitsAll E) (h' : VisitsAll E') : OrderOut List.Perm E E' fun _ => True where
  set S S' hd m t vs _ hS := by
    have hp : (E.order hd vs).Perm (E'.order hd vs) := by
      cases hd
      · exact .refl _
      · exact (h.1 vs).trans (h'.1 vs).symm
    have := each_out (m := S 0 t) (m' := S' 0 t) (all := fun f l => writeElems (fun _ _ => f) t l) (fun _ => rfl) (fun _ _ _ => rfl) hS hp
    have e : ∀ (S : Nat → Ty → Val → WM Unit) l, writeElems (fun _ _ => S 0 t) t l = writeElems S t l := by
      intro S l
      induction l with
      | nil => rfl
      | cons v l ih => simp only [writeElems, ih]
    simpa only [e] using this
  map S S' hd m k t kvs _ hS := by
    have hp : (E.orderKV hd kvs).Perm (E'.orderKV hd kvs) := by
      cases hd
      · exact .refl _
      · exact (h.2 kvs).trans (h'.2 kvs).symm
    have := each_out (m := fun q : Val × Val => S 0 (.pair k t) (.tup [q.1, q.2])) (m' := fun q : Val × Val => S' 0 (.pair k t) (.tup [q.1, q.2]))
      (all := fun f l => l.foldr (fun q m => f q >>= fun _ => m) (pure ())) (fun _ => rfl) (fun _ _ _ => rfl) (fun q => hS _) hp
    have e : ∀ (S : Nat → Ty → Val → WM Unit) l,
        List.foldr (fun (q : Val × Val) (m : WM Unit) => S 0 (.pair k t) (.tup [q.1, q.2]) >>= fun _ => m) (pure ()) l = writeEntries S k t l := by
      intro S l
      induction l with
      | nil => rfl
      | cons q l ih => simp only [List.foldr_cons, writeEntries, ih]
    simpa only [e] using this

theorem orderOut_eq (E E' : Env) : OrderOut Eq E E' fun t => (∀ m u, t ≠ .set true m u) ∧ ∀ m k u, t ≠ .map true m k u where
  set S S' hd m t vs hQ hS := by
    cases hd
    · exact .elems eqClosed vs hS
    · exact absurd rfl (hQ.1 m t)
  map S S' hd m k t kvs hQ hS := by
    cases hd
    · exact .entries eqClosed kvs hS
    · exact absurd rfl (hQ.2 m k t)

/-- every type an object of type `t` consists of has the property `Q` and is not a shared pointer -/
def AllParts (E : Env) (Q : Ty → Prop) (t : Ty) : Prop := ∀ t', ConsistsOf E t t' → Q t' ∧ ∀ u, t' ≠ .sptr u

theorem writeStep_out {R : Str → Str → Prop} (hR : OutClosed R) {E E' : Env} {Q : Ty → Prop} (hO : OrderOut R E E' Q) (hc : E'.cls = E.cls)
    {H H' : Heap} {S S' : Nat → Ty → Val → WM Unit} (hS : ∀ w t v, AllParts E Q t → OutRel R (S w t v) (S' w t v)) (w : Nat) (t : Ty) (v : Val)
    (ht : AllParts E Q t) : OutRel R (writeStep E H S w t v) (writeStep E' H' S' w t v) := by
  have stuck : ∀ m' : WM Unit, OutRel R M.stuck m' := fun _ _ _ h => by cases h
  cases v with
  | some v =>
    cases t <;> first
      | exact stuck _
      | exact .bind hR (.emit hR _) (hS _ _ _ fun t' h => ht t' (.opt h))
  | ptr v =>
    cases t <;> first
      | exact stuck _
      | exact .bind hR (.emit hR _) (hS _ _ _ fun t' h => ht t' (.uptr h))
  | null =>
    cases t <;> first
      | exact stuck _
      | exact .emit hR _
  | ref a =>
    cases t <;> first
      | exact stuck _
      | exact absurd rfl ((ht _ (.refl _)).2 _)
  | list vs =>
    cases t <;> first | exact stuck _ | skip
    · exact .bind hR (.varint hR _) (.elems hR vs fun v => hS _ _ _ fun t' h => ht t' (.vec h))
    · exact .bind hR (.varint hR _) (hO.set S S' _ _ _ vs (ht _ (.refl _)).1 fun v => hS _ _ _ fun t' h => ht t' (.set h))
  | map kvs =>
    cases t <;> first | exact stuck _ | skip
    exact .bind hR (.varint hR _) (hO.map S S' _ _ _ _ kvs (ht _ (.refl _)).1 fun v => hS _ _ _ fun t' h => ht t' (.entry h))
  | tup vs =>
    rcases vs with _ | ⟨x, _ | ⟨y, _ | ⟨z, vs⟩⟩⟩ <;> cases t <;> first | exact stuck _ | skip
    exact .bind hR (hS _ _ _ fun t' h => ht t' (.fst h)) (hS _ _ _ fun t' h => ht t' (.snd h))
  | valueless =>
    cases t <;> first | exact stuck _ | skip
    intro s s1 h
    obtain ⟨_, _, _, h⟩ := M.bind_eq_ok.1 h
    cases h
  | alt x v =>
    cases t <;> first | exact stuck _ | skip
    rename_i ts
    cases hx : ts[x]? with
    | none => simp only [writeStep, hx]; exact stuck _
    | some t =>
      by_cases hm : t = .mono
      · subst hm
        simp only [writeStep, hx]
        exact .emit hR _
      · have e : ∀ (E : Env) (H : Heap) (S : Nat → Ty → Val → WM Unit), writeStep E H S w (.variant ts) (.alt x v) = (writeByte x >>= fun _ => S 0 t v) := by
          intro E H S
          simp only [writeStep, hx]
        rw [e, e]
        exact .bind hR (.emit hR _) (hS _ _ _ fun t' h => ht t' (.alt (List.mem_of_getElem? hx) h))
  | obj st =>
    cases t <;> first | exact stuck _ | skip
    rename_i c
    simp only [writeStep, hc]
    cases hci : E.cls c with
    | none => exact stuck _
    | some ci =>
      refine .bind hR (.bases hR _ _ fun b hb v => hS _ _ _ fun t' h => ht t' (.binBase hci hb h)) (.bind hR (.version hR _ _) ?_)
      exact .fields hR _ _ fun gf hgf v => hS _ _ _ fun t' h => ht t' (.binMember hci hgf h)
  | int x =>
    cases t <;> first | exact stuck _ | skip
    · rename_i it
      simp only [writeStep]
      by_cases h : it = .i8
      · rw [if_pos h]; exact stuck _
      · rw [if_neg h]; exact .emit hR _
    · exact hS _ _ _ fun t' h => by
        cases h
        exact ht _ (.enum _)
  | str x =>
    cases t <;> first | exact stuck _ | exact .bind hR (.varint hR _) (.emit hR _)
  | indet => intro s s1 h; cases t <;> cases h
  | _ => cases t <;> first | exact stuck _ | exact .emit hR _

theorem write_out {R : Str → Str → Prop} (hR : OutClosed R) {E E' : Env} {Q : Ty → Prop} (hO : OrderOut R E E' Q) (hc : E'.cls = E.cls)
    {H H' : Heap} (n w : Nat) (t : Ty) (v : Val) (ht : AllParts E Q t) : OutRel R (write E H n w t v) (write E' H' n w t v) := by
  induction n generalizing w t v with
  | zero => intro s s1 h; cases h
  | succ n ih => exact writeStep_out hR hO hc (fun w t v ht => ih w t v ht) w t v ht

end Verif
