import Verif.Model.Pull

/-!
# Relational closure principle

Relations between two runs which are preserved by sequencing are preserved by `push` and `pull`. Instances: recursion
budget monotonicity and termination.
-/

namespace Verif

/-- A relation between computations preserved by sequencing and reflexive on primitive operations. -/
structure Rel2 {ε σ : Type} (R : ∀ α : Type, M ε σ α → M ε σ α → Prop) : Prop where
  refl : ∀ {α} (m : M ε σ α), (∀ s, m s ≠ .fuel) → R α m m
  bind : ∀ {α β} (m m' : M ε σ α) (f f' : α → M ε σ β), R α m m' → (∀ a, R β (f a) (f' a)) → R β (m >>= f) (m' >>= f')

/-- `m'` does what `m` does unless `m` runs out of budget. -/
def Le {ε σ : Type} (α : Type) (m m' : M ε σ α) : Prop := ∀ s, m s = .fuel ∨ m s = m' s

/-- The (first) computation does not run out of budget. -/
def NF {ε σ : Type} (α : Type) (m _m' : M ε σ α) : Prop := ∀ s, m s ≠ .fuel

theorem rel2_le {ε σ : Type} : Rel2 (ε := ε) (σ := σ) Le where
  refl _ _ _ := Or.inr rfl
  bind m m' f f' hm hf s := by
    rw [M.bind_apply, M.bind_apply]
    rcases hm s with h | h
    · left; rw [h]
    · rw [← h]
      cases m s with
      | ok a s' => exact hf a s'
      | _ => exact Or.inr rfl

theorem rel2_nf {ε σ : Type} : Rel2 (ε := ε) (σ := σ) NF where
  refl _ h := h
  bind m m' f f' hm hf s := by
    rw [M.bind_apply]
    have := hm s
    cases h : m s with
    | ok a s' => exact hf a s'
    | fuel => exact absurd h this
    | _ => simp

namespace Rel2

variable {ε σ : Type} {R : ∀ α : Type, M ε σ α → M ε σ α → Prop} (h : Rel2 R)
include h

theorem pure {α : Type} (a : α) : R α (Pure.pure a) (Pure.pure a) := h.refl _ (fun _ => by simp)
theorem ub {α : Type} : R α M.ub M.ub := h.refl _ (fun _ => by simp)
theorem stuck {α : Type} : R α M.stuck M.stuck := h.refl _ (fun _ => by simp)
theorem throw {α : Type} (e : ε) : R α (M.throw e) (M.throw e) := h.refl _ (fun _ => by simp)

theorem map {α β : Type} {m m' : M ε σ α} (g : α → β) (hm : R α m m') :
    R β (m >>= fun a => Pure.pure (g a)) (m' >>= fun a => Pure.pure (g a)) :=
  h.bind _ _ _ _ hm (fun _ => h.pure _)

end Rel2

/-! ## push -/

/-- `PCalls E H t v t' v'`: serialising `v` as `t` calls serialisation of `v'` as `t'`. -/
inductive PCalls (E : Env) (H : Heap) : Ty → Val → Ty → Val → Prop
  | vec {t vs v} : v ∈ vs → PCalls E H (.vec t) (.list vs) t v
  | set {h m t vs v} : v ∈ E.order h vs → PCalls E H (.set h m t) (.list vs) t v
  | map {h m t kvs k v} : (k, v) ∈ E.orderKV h kvs → PCalls E H (.map h m .str t) (.map kvs) t v
  | pair {a b vs t v} : (t, v) ∈ [a, b].zip vs → PCalls E H (.pair a b) (.tup vs) t v
  | tuple {ts vs t v} : (t, v) ∈ ts.zip vs → PCalls E H (.tuple ts) (.tup vs) t v
  | opt {t v} : PCalls E H (.opt t) (.some v) t v
  | uptr {t v} : PCalls E H (.uptr t) (.ptr v) t v
  | sptr {t v} : PCalls E H (.sptr t) (.ptr v) t v
  | uref {t v a} : H a = some v → PCalls E H (.uptr t) (.ref a) t v
  | ref {t v a} : H a = some v → PCalls E H (.sptr t) (.ref a) t v
  | alt {ts i t v} : ts[i]? = some t → t ≠ .mono → PCalls E H (.variant ts) (.alt i v) t v
  | base {c ci b} {st : Store} : E.cls c = some ci → b ∈ ci.json.bases → PCalls E H (.cls c) (.obj st) (.cls b) (.obj st)
  | field {c ci f} {st : Store} {v} : E.cls c = some ci → f ∈ ci.json.pushFields → st.get? f.key = some v →
      PCalls E H (.cls c) (.obj st) f.ty v

section
variable {E : Env} {H : Heap} {self self' : Ty → Val → SM Json} {R : ∀ α : Type, SM α → SM α → Prop} (h : Rel2 R)
include h

theorem Rel2.pushElems (t : Ty) (vs : List Val) (hs : ∀ v ∈ vs, R _ (self t v) (self' t v)) :
    R _ (pushElems self t vs) (pushElems self' t vs) := by
  induction vs with
  | nil => exact h.pure _
  | cons v vs ih =>
    exact h.bind _ _ _ _ (hs _ List.mem_cons_self) fun _ =>
      h.map _ (ih fun v hv => hs v (List.mem_cons_of_mem _ hv))

theorem Rel2.pushTuple (ts : List Ty) (vs : List Val) (hs : ∀ t v, (t, v) ∈ ts.zip vs → R _ (self t v) (self' t v)) :
    R _ (pushTuple self ts vs) (pushTuple self' ts vs) := by
  induction ts generalizing vs with
  | nil => cases vs <;> first | exact h.pure _ | exact h.stuck
  | cons t ts ih =>
    cases vs with
    | nil => exact h.stuck
    | cons v vs =>
      exact h.bind _ _ _ _ (hs _ _ (by simp)) fun _ =>
        h.map _ (ih _ fun t v hv => hs t v (by simp [hv]))

theorem Rel2.pushMapEntries (t : Ty) (kvs : List (Val × Val)) (hs : ∀ k v, (k, v) ∈ kvs → R _ (self t v) (self' t v)) :
    R _ (pushMapEntries self t kvs) (pushMapEntries self' t kvs) := by
  induction kvs with
  | nil => exact h.pure _
  | cons kv kvs ih =>
    obtain ⟨k, v⟩ := kv
    cases k <;> first
      | exact h.stuck
      | exact h.bind _ _ _ _ (hs _ _ List.mem_cons_self) fun _ =>
          h.map _ (ih fun k v hv => hs k v (List.mem_cons_of_mem _ hv))

theorem Rel2.pushMultimapEntries (t : Ty) (kvs : List (Val × Val)) (ms : List (Key × Json))
    (hs : ∀ k v, (k, v) ∈ kvs → R _ (self t v) (self' t v)) :
    R _ (pushMultimapEntries self t kvs ms) (pushMultimapEntries self' t kvs ms) := by
  induction kvs generalizing ms with
  | nil => exact h.pure _
  | cons kv kvs ih =>
    obtain ⟨k, v⟩ := kv
    cases k <;> first
      | exact h.stuck
      | exact h.bind _ _ _ _ (hs _ _ List.mem_cons_self) fun _ =>
          ih _ fun k v hv => hs k v (List.mem_cons_of_mem _ hv)

theorem Rel2.pushBases (bs : List ClassId) (v : Val) (hs : ∀ b ∈ bs, R _ (self (.cls b) v) (self' (.cls b) v)) :
    R _ (pushBases self bs v) (pushBases self' bs v) := by
  induction bs with
  | nil => exact h.pure _
  | cons b bs ih =>
    refine h.bind _ _ _ _ (hs _ List.mem_cons_self) fun j => ?_
    cases j <;> first
      | exact h.stuck
      | exact h.map _ (ih fun b hb => hs b (List.mem_cons_of_mem _ hb))

theorem Rel2.pushFields (fs : List Field) (st : Store)
    (hs : ∀ f ∈ fs, ∀ v, st.get? f.key = some v → R _ (self f.ty v) (self' f.ty v)) :
    R _ (pushFields self fs st) (pushFields self' fs st) := by
  induction fs with
  | nil => exact h.pure _
  | cons f fs ih =>
    simp only [Verif.pushFields]
    cases hg : st.get? f.key with
    | none => exact h.stuck
    | some v =>
      exact h.bind _ _ _ _ (hs _ List.mem_cons_self _ hg) fun _ =>
        h.map _ (ih fun f hf => hs f (List.mem_cons_of_mem _ hf))

theorem Rel2.pushStep (t : Ty) (v : Val) (hs : ∀ t' v', PCalls E H t v t' v' → R _ (self t' v') (self' t' v')) :
    R _ (pushStep E H self t v) (pushStep E H self' t v) := by
  cases t <;> cases v <;> try (first | exact h.pure _ | exact h.ub | exact h.stuck)
  case int.int it i => cases it <;> first | exact h.pure _ | exact h.stuck
  case opt.some t v => exact hs _ _ .opt
  case uptr.ptr t v => exact hs _ _ .uptr
  case sptr.ptr t v => exact hs _ _ .sptr
  case vec.list t vs => exact h.map _ (h.pushElems _ _ fun v hv => hs _ _ (.vec hv))
  case set.list hd m t vs => exact h.map _ (h.pushElems _ _ fun v hv => hs _ _ (.set hv))
  case pair.tup a b vs => exact h.map _ (h.pushTuple _ _ fun t v hv => hs _ _ (.pair hv))
  case tuple.tup ts vs => exact h.map _ (h.pushTuple _ _ fun t v hv => hs _ _ (.tuple hv))
  case map.map hd m k t kvs =>
    cases m <;> cases k <;> first
      | exact h.stuck
      | exact h.map _ (h.pushMapEntries _ _ fun k v hv => hs _ _ (.map hv))
      | exact h.map _ (h.pushMultimapEntries _ _ _ fun k v hv => hs _ _ (.map hv))
  case uptr.ref t a =>
    simp only [Verif.pushStep]
    cases ha : H a with
    | none => exact h.ub
    | some v => exact hs _ _ (.uref ha)
  case sptr.ref t a =>
    simp only [Verif.pushStep]
    cases ha : H a with
    | none => exact h.ub
    | some v => exact hs _ _ (.ref ha)
  case variant.alt ts i v =>
    simp only [Verif.pushStep]
    cases ht : ts[i]? with
    | none => exact h.stuck
    | some t =>
      cases t <;> first
        | exact h.pure _
        | exact h.map _ (hs _ _ (.alt ht (by simp)))
  case cls.obj c st =>
    simp only [Verif.pushStep]
    cases hc : E.cls c with
    | none => exact h.stuck
    | some ci =>
      refine h.bind _ _ _ _ (h.pushBases _ _ fun b hb => hs _ _ (.base hc hb)) fun _ => ?_
      exact h.map _ (h.pushFields _ _ fun f hf v hv => hs _ _ (.field hc hf hv))
  all_goals
    rename_i o; cases o <;> first | exact h.pure _ | exact h.stuck
end

theorem push_le (E : Env) (H : Heap) {n m : Nat} (hnm : n ≤ m) (t : Ty) (v : Val) :
    Le Json (push E H n t v) (push E H m t v) := by
  induction n generalizing m t v with
  | zero => exact fun _ => Or.inl rfl
  | succ n ih =>
    cases m with
    | zero => omega
    | succ m => exact rel2_le.pushStep t v fun t' v' _ => ih (by omega) t' v'

/-- A larger budget does not change the outcome of a `push` which did not run out of budget. -/
theorem push_mono {E : Env} {H : Heap} {n m : Nat} {t : Ty} {v : Val} {r : Res Empty Unit Json} (hnm : n ≤ m)
    (h : push E H n t v () = r) (hr : r ≠ .fuel) : push E H m t v () = r := by
  rcases push_le E H hnm t v () with h' | h'
  · exact absurd (h.symm.trans h') hr
  · rw [← h', h]

/-! ## pull -/

/-- `JCalls E t j t' j'`: deserialising `j` as `t` calls deserialisation of `j'` as `t'`. -/
inductive JCalls (E : Env) : Ty → Json → Ty → Json → Prop
  | vec {t js j} : j ∈ js → JCalls E (.vec t) (.arr js) t j
  | set {h m t js j} : j ∈ js → JCalls E (.set h m t) (.arr js) t j
  | map {h m t ms k j} : (k, j) ∈ ms → JCalls E (.map h m .str t) (.obj ms) t j
  | multi {h t ms k js j} : (k, .arr js) ∈ ms → j ∈ js → JCalls E (.map h true .str t) (.obj ms) t j
  | pair {a b js t j} : (t, j) ∈ [a, b].zip js → JCalls E (.pair a b) (.arr js) t j
  | tuple {ts js t j} : (t, j) ∈ ts.zip js → JCalls E (.tuple ts) (.arr js) t j
  | opt {t j} : JCalls E (.opt t) j t j
  | uptr {t j} : JCalls E (.uptr t) j t j
  | sptr {t j} : JCalls E (.sptr t) j t j
  | variant {ts ms t k j} : t ∈ ts → (k, j) ∈ ms → JCalls E (.variant ts) (.obj ms) t j
  | base {c ci b ms} : E.cls c = some ci → b ∈ ci.json.bases → JCalls E (.cls c) (.obj ms) (.cls b) (.obj ms)
  | field {c ci f ms k j} : E.cls c = some ci → f ∈ ci.json.pullFields → (k, j) ∈ ms →
      JCalls E (.cls c) (.obj ms) f.ty j

theorem findMember_mem {name : Str} {ms : List (Key × Json)} {j : Json} (h : findMember name ms = some j) :
    ∃ k, (k, j) ∈ ms ∧ k.bytes = name := by
  induction ms with
  | nil => cases h
  | cons m ms ih =>
    obtain ⟨k, j'⟩ := m
    simp only [findMember] at h
    split at h
    · cases h; exact ⟨k, List.mem_cons_self, by assumption⟩
    · obtain ⟨k', h1, h2⟩ := ih h
      exact ⟨k', List.mem_cons_of_mem _ h1, h2⟩

/-! primitive operations never run out of budget -/

theorem report_nf (k : ErrKind) (a b : JType) (s : Option ErrSt) : report k a b s ≠ .fuel := by
  unfold report
  cases s with
  | none => simp
  | some st => dsimp only; split <;> simp

theorem dup_nf (s : Option ErrSt) : reportDuplicateUnchecked s ≠ .fuel := by
  cases s with
  | none => simp [reportDuplicateUnchecked]
  | some st => exact report_nf .unexpectedDuplicate .array .array (some st)

theorem bind_nf {ε σ α β : Type} {m : M ε σ α} {f : α → M ε σ β} (hm : ∀ s, m s ≠ .fuel) (hf : ∀ a s, f a s ≠ .fuel) (s : σ) :
    (m >>= f) s ≠ .fuel := rel2_nf.bind m m f f hm hf s

theorem mismatch_nf (e : JType) (j : Json) (v : Val) (s : Option ErrSt) : mismatch e j v s ≠ .fuel :=
  bind_nf (report_nf _ _ _) (fun _ _ => by simp) s

theorem castDouble_nf (t : IntTy) (d : BitVec 64) (s : Option ErrSt) : castDouble t d s ≠ .fuel := by
  unfold castDouble
  cases Ieee.trunc d with
  | none => simp
  | some k => dsimp only; split <;> simp

theorem numToInt_nf (t : IntTy) (m : Num) (s : Option ErrSt) : numToInt t m s ≠ .fuel := by
  cases m with
  | int i =>
    simp only [numToInt]
    split
    · simp
    · exact castDouble_nf _ _ _
  | dbl d => exact castDouble_nf _ _ _

theorem pullTimeStr_nf (j : Json) (s : Option ErrSt) : pullTimeStr j s ≠ .fuel := by
  unfold pullTimeStr
  split
  · simp
  · exact bind_nf (report_nf _ _ _) (fun _ _ => by simp) s

theorem pullTime_nf (p : Str → Option Int) (j : Json) (v : Val) (s : Option ErrSt) : pullTime p j v s ≠ .fuel := by
  refine bind_nf (pullTimeStr_nf j) (fun a s => ?_) s
  cases p a with
  | some i => simp
  | none => exact bind_nf (report_nf _ _ _) (fun _ _ => by simp) s

section
variable {E : Env} {self self' : Ty → Json → Val → PM Val} {R : ∀ α : Type, PM α → PM α → Prop} (h : Rel2 R)
include h

theorem Rel2.modify (f : Option ErrSt → Option ErrSt) : R _ (M.modify f : PM Unit) (M.modify f) :=
  h.refl _ (fun _ => by simp)

theorem Rel2.withMember {α : Type} (name : Str) (m m' : PM α) (hm : R _ m m') :
    R _ (withMember name m) (withMember name m') :=
  h.bind _ _ _ _ (h.refl _ (fun _ => by simp [getMember])) fun _ =>
    h.bind _ _ _ _ (h.modify _) fun _ => h.bind _ _ _ _ hm fun _ => h.bind _ _ _ _ (h.modify _) fun _ => h.pure _

theorem Rel2.withRecord {α : Type} (name : Str) (m m' : PM α) (hm : R _ m m') :
    R _ (withRecord name m) (withRecord name m') :=
  h.bind _ _ _ _ (h.refl _ (fun _ => by simp [getRecord])) fun _ =>
    h.bind _ _ _ _ (h.modify _) fun _ => h.bind _ _ _ _ hm fun _ => h.bind _ _ _ _ (h.modify _) fun _ => h.pure _

theorem Rel2.forIdx {β : Type} (f f' : Json → β → PM β) (js : List Json) (i : Nat) (b : β)
    (hf : ∀ j ∈ js, ∀ b, R _ (f j b) (f' j b)) : R _ (forIdx f js i b) (forIdx f' js i b) := by
  induction js generalizing i b with
  | nil => exact h.bind _ _ _ _ (h.modify _) fun _ => h.pure _
  | cons j js ih =>
    exact h.bind _ _ _ _ (h.modify _) fun _ => h.bind _ _ _ _ (hf _ List.mem_cons_self _) fun _ =>
      ih _ _ fun j hj => hf j (List.mem_cons_of_mem _ hj)

theorem Rel2.vecItem (t : Ty) (j : Json) (vs : List Val) (hs : ∀ v, R _ (self t j v) (self' t j v)) :
    R _ (vecItem E self t j vs) (vecItem E self' t j vs) := h.map _ (hs _)

theorem Rel2.multisetItem (t : Ty) (j : Json) (vs : List Val) (hs : ∀ v, R _ (self t j v) (self' t j v)) :
    R _ (multisetItem E self t j vs) (multisetItem E self' t j vs) := by
  refine h.bind _ _ _ _ (hs _) fun v => ?_
  split
  · exact h.ub
  · exact h.pure _

theorem Rel2.setItem (t : Ty) (j : Json) (vs : List Val) (hs : ∀ v, R _ (self t j v) (self' t j v)) :
    R _ (setItem E self t j vs) (setItem E self' t j vs) := by
  refine h.bind _ _ _ _ (hs _) fun v => ?_
  split
  · exact h.ub
  · dsimp only
    split
    · exact h.pure _
    · exact h.bind _ _ _ _ (h.refl _ dup_nf) fun _ => h.pure _

theorem Rel2.pullMapEntries (t : Ty) (ms : List (Key × Json)) (kvs : List (Val × Val))
    (hs : ∀ k j, (k, j) ∈ ms → ∀ v, R _ (self t j v) (self' t j v)) :
    R _ (pullMapEntries E self t ms kvs) (pullMapEntries E self' t ms kvs) := by
  induction ms generalizing kvs with
  | nil => exact h.pure _
  | cons m ms ih =>
    obtain ⟨k, j⟩ := m
    exact h.bind _ _ _ _ (hs _ _ List.mem_cons_self _) fun _ =>
      ih _ fun k j hj => hs k j (List.mem_cons_of_mem _ hj)

theorem Rel2.pullMultimapItems (t : Ty) (k : Str) (js : List Json) (kvs : List (Val × Val))
    (hs : ∀ j ∈ js, ∀ v, R _ (self t j v) (self' t j v)) :
    R _ (pullMultimapItems E self t k js kvs) (pullMultimapItems E self' t k js kvs) := by
  induction js generalizing kvs with
  | nil => exact h.pure _
  | cons j js ih =>
    exact h.bind _ _ _ _ (hs _ List.mem_cons_self _) fun _ => ih _ fun j hj => hs j (List.mem_cons_of_mem _ hj)

theorem Rel2.pullMultimapEntries (t : Ty) (ms : List (Key × Json)) (kvs : List (Val × Val))
    (hs : ∀ k j, (k, j) ∈ ms → ∀ v, R _ (self t j v) (self' t j v))
    (hs' : ∀ k js, (k, .arr js) ∈ ms → ∀ j ∈ js, ∀ v, R _ (self t j v) (self' t j v)) :
    R _ (pullMultimapEntries E self t ms kvs) (pullMultimapEntries E self' t ms kvs) := by
  induction ms generalizing kvs with
  | nil => exact h.pure _
  | cons m ms ih =>
    obtain ⟨k, j⟩ := m
    refine h.bind _ _ _ _ (h.pullMultimapItems _ _ _ _ ?_) fun _ =>
      ih _ (fun k j hj => hs k j (List.mem_cons_of_mem _ hj)) (fun k js hj => hs' k js (List.mem_cons_of_mem _ hj))
    intro j' hj'
    split at hj'
    · exact hs' _ _ List.mem_cons_self _ hj'
    · simp only [List.mem_singleton] at hj'
      subst hj'
      exact hs _ _ List.mem_cons_self

theorem Rel2.pullTuple (ts : List Ty) (js : List Json) (vs : List Val)
    (hs : ∀ t j, (t, j) ∈ ts.zip js → ∀ v, R _ (self t j v) (self' t j v)) :
    R _ (pullTuple self ts js vs) (pullTuple self' ts js vs) := by
  induction ts generalizing js vs with
  | nil => cases js <;> cases vs <;> first | exact h.pure _ | exact h.stuck
  | cons t ts ih =>
    cases js <;> cases vs <;> first
      | exact h.stuck
      | exact h.bind _ _ _ _ (hs _ _ (by simp) _) fun _ => h.map _ (ih _ _ fun t j hj => hs t j (by simp [hj]))

theorem Rel2.pullBases (bs : List ClassId) (ms : List (Key × Json)) (v : Val)
    (hs : ∀ b ∈ bs, ∀ v, R _ (self (.cls b) (.obj ms) v) (self' (.cls b) (.obj ms) v)) :
    R _ (pullBases self bs ms v) (pullBases self' bs ms v) := by
  induction bs generalizing v with
  | nil => exact h.pure _
  | cons b bs ih =>
    exact h.bind _ _ _ _ (hs _ List.mem_cons_self _) fun _ => ih _ fun b hb => hs b (List.mem_cons_of_mem _ hb)

theorem Rel2.pullField (f : Field) (ms : List (Key × Json)) (st : Store)
    (hs : ∀ k j, (k, j) ∈ ms → ∀ v, R _ (self f.ty j v) (self' f.ty j v)) :
    R _ (pullField self f ms st) (pullField self' f ms st) := by
  unfold Verif.pullField
  cases hm : findMember f.name ms with
  | none => exact h.pure _
  | some j =>
    obtain ⟨k, hk, -⟩ := findMember_mem hm
    dsimp only
    split
    · exact h.stuck
    · exact h.map _ (h.withMember _ _ _ (hs k j hk _))

theorem Rel2.pullFields (fs : List Field) (ms : List (Key × Json)) (st : Store)
    (hs : ∀ f ∈ fs, ∀ k j, (k, j) ∈ ms → ∀ v, R _ (self f.ty j v) (self' f.ty j v)) :
    R _ (pullFields self fs ms st) (pullFields self' fs ms st) := by
  induction fs generalizing st with
  | nil => exact h.pure _
  | cons f fs ih =>
    exact h.bind _ _ _ _ (h.pullField _ _ _ (hs _ List.mem_cons_self)) fun _ =>
      ih _ fun f hf => hs f (List.mem_cons_of_mem _ hf)

theorem Rel2.pullStep (t : Ty) (j : Json) (v : Val)
    (hs : ∀ t' j', JCalls E t j t' j' → ∀ v, R _ (self t' j' v) (self' t' j' v)) :
    R _ (pullStep E self t j v) (pullStep E self' t j v) := by
  have hrep : ∀ k a b, R _ (report k a b) (report k a b) := fun k a b => h.refl _ (report_nf k a b)
  have hmis : ∀ e j v, R _ (Verif.mismatch e j v) (Verif.mismatch e j v) := fun e j v => h.refl _ (mismatch_nf e j v)
  have hnum : ∀ t m, R _ (Verif.numToInt t m) (Verif.numToInt t m) := fun t m => h.refl _ (numToInt_nf t m)
  cases t
  case bool => cases j <;> first | exact h.pure _ | exact hmis _ _ _
  case int it =>
    cases it <;> cases j <;> first | exact h.map _ (hnum _ _) | exact hmis _ _ _ | exact h.stuck
  case f32 => cases j <;> first | exact h.pure _ | exact hmis _ _ _
  case f64 => cases j <;> first | exact h.pure _ | exact hmis _ _ _
  case enum u =>
    simp only [Verif.pullStep]
    split <;> first | exact h.pure _ | exact hmis _ _ _
  case str => cases j <;> first | exact h.pure _ | exact hmis _ _ _
  case cstr => cases j <;> first | exact h.pure _ | exact hmis _ _ _
  case sview => cases j <;> first | exact h.pure _ | exact hmis _ _ _
  case opt t => cases j <;> first | exact h.pure _ | exact h.map _ (hs _ _ .opt _)
  case uptr t => cases j <;> first | exact h.pure _ | exact h.map _ (hs _ _ .uptr _)
  case sptr t => cases j <;> first | exact h.pure _ | exact h.map _ (hs _ _ .sptr _)
  case vec t =>
    cases j <;> first
      | exact hmis _ _ _
      | exact h.map _ (h.forIdx _ _ _ _ _ fun j hj b => h.vecItem _ _ _ fun v => hs _ _ (.vec hj) v)
  case set hd m t =>
    cases j <;> first
      | exact hmis _ _ _
      | skip
    refine h.map _ (h.forIdx _ _ _ _ _ fun j hj b => ?_)
    cases m
    · exact h.setItem _ _ _ fun v => hs _ _ (.set hj) v
    · exact h.multisetItem _ _ _ fun v => hs _ _ (.set hj) v
  case map hd m k t =>
    cases k <;> try exact h.stuck
    cases j <;> try exact hmis _ _ _
    cases v <;> try exact h.stuck
    refine h.map _ ?_
    cases m
    · exact h.pullMapEntries _ _ _ fun k j hj => hs _ _ (.map hj)
    · exact h.pullMultimapEntries _ _ _ (fun k j hj => hs _ _ (.map hj)) fun k js hk j hj => hs _ _ (.multi hk hj)
  case pair a b =>
    cases j <;> try exact hmis _ _ _
    simp only [Verif.pullStep]
    split
    · exact h.map (fun _ => v) (hrep _ _ _)
    · cases v <;> try exact h.stuck
      exact h.map _ (h.pullTuple _ _ _ fun t j hj => hs _ _ (.pair hj))
  case tuple ts =>
    cases j <;> try exact hmis _ _ _
    simp only [Verif.pullStep]
    split
    · exact h.map (fun _ => v) (hrep _ _ _)
    · cases v <;> try exact h.stuck
      exact h.map _ (h.pullTuple _ _ _ fun t j hj => hs _ _ (.tuple hj))
  case variant ts =>
    cases j <;> try exact hmis _ _ _
    rename_i ms
    simp only [Verif.pullStep]
    cases h1 : findMember (lit "index") ms with
    | none => exact h.map (fun _ => v) (hrep _ _ _)
    | some ji =>
      cases h2 : findMember (lit "data") ms with
      | none => exact h.map (fun _ => v) (hrep _ _ _)
      | some jd =>
        dsimp only
        cases h3 : uint64? ji with
        | none => exact h.map (fun _ => v) (hrep _ _ _)
        | some i =>
          dsimp only
          cases h4 : ts[i]? with
          | none => exact h.map (fun _ => v) (hrep _ _ _)
          | some t' =>
            obtain ⟨k, hk, -⟩ := findMember_mem h2
            cases t' <;> first
              | exact h.pure _
              | exact h.map _ (hs _ _ (.variant (List.mem_of_getElem? h4) hk) _)
  case mono => exact h.stuck
  case cls c =>
    simp only [Verif.pullStep]
    cases hc : E.cls c with
    | none => exact h.stuck
    | some ci =>
      dsimp only
      split
      · exact h.stuck
      · cases j <;> try exact hmis _ _ _
        refine h.bind _ _ _ _ (h.pullBases _ _ _ fun b hb => hs _ _ (.base hc hb)) fun v => ?_
        cases v <;> try exact h.stuck
        refine h.map _ ?_
        split
        · exact h.withRecord _ _ _ (h.pullFields _ _ _ fun f hf k j hj => hs _ _ (.field hc hf hj))
        · exact h.pullFields _ _ _ fun f hf k j hj => hs _ _ (.field hc hf hj)
  case dateTime => exact h.refl _ (pullTime_nf _ _ _)
  case timeSpan => exact h.refl _ (pullTime_nf _ _ _)
end

theorem pull_le (E : Env) {n m : Nat} (hnm : n ≤ m) (t : Ty) (j : Json) (v : Val) :
    Le Val (pull E n t j v) (pull E m t j v) := by
  induction n generalizing m t j v with
  | zero => exact fun _ => Or.inl rfl
  | succ n ih =>
    cases m with
    | zero => omega
    | succ m => exact rel2_le.pullStep t j v fun t' j' _ v => ih (by omega) t' j' v

/-- A larger budget does not change the outcome of a `pull` which did not run out of budget. -/
theorem pull_mono {E : Env} {n m : Nat} {t : Ty} {j : Json} {v : Val} {s : Option ErrSt} {r : Res Err (Option ErrSt) Val}
    (hnm : n ≤ m) (h : pull E n t j v s = r) (hr : r ≠ .fuel) : pull E m t j v s = r := by
  rcases pull_le E hnm t j v s with h' | h'
  · exact absurd (h.symm.trans h') hr
  · rw [← h', h]

end Verif
