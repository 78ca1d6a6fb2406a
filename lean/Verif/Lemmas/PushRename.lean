import Verif.Spec.Formats
import Verif.Lemmas.BinPair
import Verif.Model.Text

/-!
# JSON serialisation of copies of object graphs
-/

namespace Verif

section
variable {ρ : Nat → Nat} {S : Nat → Prop} {self self' : Ty → Val → SM Json}
  (hs : ∀ t v, (∀ a ∈ v.refs, S a) → self' t (v.rename ρ) = self t v)
include hs

theorem pushElems_rename (t : Ty) (vs : List Val) (h : ∀ v ∈ vs, ∀ a ∈ v.refs, S a) :
    pushElems self' t (vs.map (Val.rename ρ)) = pushElems self t vs := by
  induction vs with
  | nil => rfl
  | cons v vs ih =>
    simp only [List.map_cons, pushElems, hs t v (h v List.mem_cons_self), ih fun v hv => h v (List.mem_cons_of_mem _ hv)]

theorem pushTuple_rename (ts : List Ty) (vs : List Val) (h : ∀ v ∈ vs, ∀ a ∈ v.refs, S a) :
    pushTuple self' ts (vs.map (Val.rename ρ)) = pushTuple self ts vs := by
  induction vs generalizing ts with
  | nil => cases ts <;> rfl
  | cons v vs ih =>
    cases ts with
    | nil => rfl
    | cons t ts =>
      simp only [List.map_cons, pushTuple, hs t v (h v List.mem_cons_self), ih _ fun v hv => h v (List.mem_cons_of_mem _ hv)]

theorem pushMapEntries_rename (t : Ty) (kvs : List (Val × Val)) (h : ∀ q ∈ kvs, ∀ a ∈ q.2.refs, S a) :
    pushMapEntries self' t (Val.renameKV ρ kvs) = pushMapEntries self t kvs := by
  induction kvs with
  | nil => rfl
  | cons q kvs ih =>
    obtain ⟨k, v⟩ := q
    have h1 := hs t v (h (k, v) List.mem_cons_self)
    have h2 := ih fun q hq => h q (List.mem_cons_of_mem _ hq)
    cases k <;> first | rfl | simp only [Val.renameKV, Val.rename, pushMapEntries, h1, h2]

theorem pushMultimapEntries_rename (t : Ty) (kvs : List (Val × Val)) (ms : List (Key × Json)) (h : ∀ q ∈ kvs, ∀ a ∈ q.2.refs, S a) :
    pushMultimapEntries self' t (Val.renameKV ρ kvs) ms = pushMultimapEntries self t kvs ms := by
  induction kvs generalizing ms with
  | nil => rfl
  | cons q kvs ih =>
    obtain ⟨k, v⟩ := q
    have h1 := hs t v (h (k, v) List.mem_cons_self)
    have h2 := fun ms => ih ms fun q hq => h q (List.mem_cons_of_mem _ hq)
    cases k <;> first | rfl | simp only [Val.renameKV, Val.rename, pushMultimapEntries, h1, h2]

theorem pushBases_rename (bs : List ClassId) (v : Val) (h : ∀ a ∈ v.refs, S a) :
    pushBases self' bs (v.rename ρ) = pushBases self bs v := by
  induction bs with
  | nil => rfl
  | cons b bs ih => simp only [pushBases, hs _ v h, ih]

omit hs in
theorem get?_rename' (ρ : Nat → Nat) (st : Store) (k : FieldKey) : Store.get? (Val.renameF ρ st) k = (st.get? k).map (Val.rename ρ) := by
  induction st with
  | nil => rfl
  | cons q st ih =>
    obtain ⟨k', v⟩ := q
    simp only [Val.renameF, Store.get?, List.lookup] at ih ⊢
    by_cases hk : k = k'
    · subst hk; simp
    · rw [beq_false_of_ne hk]; exact ih

omit hs in
theorem mem_of_get? {st : Store} {k : FieldKey} {v : Val} (h : st.get? k = some v) : (k, v) ∈ st := by
  induction st with
  | nil => cases h
  | cons q st ih =>
    obtain ⟨k', v'⟩ := q
    simp only [Store.get?, List.lookup] at ih h
    by_cases hk : k = k'
    · subst hk
      simp at h
      subst h
      exact List.mem_cons_self
    · rw [beq_false_of_ne hk] at h
      exact List.mem_cons_of_mem _ (ih h)

theorem pushFields_rename (fs : List Field) (st : Store) (h : ∀ q ∈ st, ∀ a ∈ q.2.refs, S a) :
    pushFields self' fs (Val.renameF ρ st) = pushFields self fs st := by
  induction fs with
  | nil => rfl
  | cons f fs ih =>
    simp only [pushFields, get?_rename']
    cases hg : st.get? f.key with
    | none => rfl
    | some v => simp only [Option.map_some, hs f.ty v (h _ (mem_of_get? hg)), ih]

end

/-- An object graph and its copy look the same to the JSON serialiser. -/
theorem push_rename {E : Env} (hi : IterNoAddresses E) (hp : (∀ l, (E.iter l).Perm l) ∧ (∀ l, (E.iterKV l).Perm l)) {H H' : Heap} {ρ : Nat → Nat}
    {S : Nat → Prop} (hS : ∀ a, S a → ∃ x, H a = some x ∧ H' (ρ a) = some (x.rename ρ) ∧ ∀ b ∈ x.refs, S b) (n : Nat) (t : Ty) (v : Val)
    (h : ∀ a ∈ v.refs, S a) : push E H' n t (v.rename ρ) = push E H n t v := by
  induction n generalizing t v with
  | zero => rfl
  | succ n ih =>
    show pushStep E H' (push E H' n) t (v.rename ρ) = pushStep E H (push E H n) t v
    cases v with
    | some v => cases t <;> first | rfl | exact ih _ _ h
    | ptr v => cases t <;> first | rfl | exact ih _ _ h
    | ref a =>
      obtain ⟨x, h1, h2, h3⟩ := hS a (h a (List.mem_singleton.2 rfl))
      cases t <;> first | rfl | (simp only [Val.rename, pushStep, h1, h2]; exact ih _ _ h3)
    | alt i v =>
      cases t <;> first | rfl | skip
      simp only [Val.rename, pushStep]
      split <;> first | rfl | simp only [ih _ v h]
    | list vs =>
      have hv : ∀ v ∈ vs, ∀ a ∈ v.refs, S a := fun v hv a ha => h a (Val.mem_refsL.2 ⟨v, hv, ha⟩)
      cases t <;> first | rfl | skip
      · simp only [Val.rename, pushStep, Val.renameL_eq, pushElems_rename ih _ vs hv]
      · rename_i hd m t
        have he : E.order hd (Val.renameL ρ vs) = (E.order hd vs).map (Val.rename ρ) := by
          cases hd
          · exact Val.renameL_eq ρ vs
          · exact (hi.iter ρ vs).trans (Val.renameL_eq ρ _)
        have hm : ∀ v ∈ E.order hd vs, v ∈ vs := by
          intro v hv
          cases hd
          · exact hv
          · exact (hp.1 vs).mem_iff.1 hv
        simp only [Val.rename, pushStep, he, pushElems_rename ih _ _ fun v hv' => hv v (hm v hv')]
    | tup vs =>
      have hv : ∀ v ∈ vs, ∀ a ∈ v.refs, S a := fun v hv a ha => h a (Val.mem_refsL.2 ⟨v, hv, ha⟩)
      cases t <;> first | rfl | simp only [Val.rename, pushStep, Val.renameL_eq, pushTuple_rename ih _ vs hv]
    | map kvs =>
      cases t <;> first | rfl | skip
      rename_i hd m k t
      have he : E.orderKV hd (Val.renameKV ρ kvs) = Val.renameKV ρ (E.orderKV hd kvs) := by
        cases hd
        · rfl
        · exact hi.iterKV ρ kvs
      have hm : ∀ q ∈ E.orderKV hd kvs, ∀ a ∈ q.2.refs, S a := by
        intro q hq a ha
        refine h a (Val.mem_refsKV.2 ⟨q, ?_, .inr ha⟩)
        cases hd
        · exact hq
        · exact (hp.2 kvs).mem_iff.1 hq
      cases m <;> cases k <;> first
        | rfl
        | (simp only [Val.rename, pushStep, he, pushMapEntries_rename ih _ _ hm]; done)
        | (simp only [Val.rename, pushStep, he, pushMultimapEntries_rename ih _ _ _ hm]; done)
    | obj st =>
      have hf : ∀ q ∈ st, ∀ a ∈ q.2.refs, S a := fun q hq a ha => h a (Val.mem_refsF.2 ⟨q, hq, ha⟩)
      cases t <;> first | rfl | skip
      have hb := fun bs => pushBases_rename ih bs (.obj st) h
      simp only [Val.rename] at hb
      simp only [Val.rename, pushStep]
      split
      · rfl
      · simp only [hb, pushFields_rename ih _ _ hf]
    | cstr o => cases o <;> cases t <;> rfl
    | int i => cases t <;> first | rfl | (rename_i it; cases it <;> rfl)
    | _ => cases t <;> rfl

end Verif
