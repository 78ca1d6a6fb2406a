import Verif.Spec.Hana
import Verif.Lemmas.Rel
import Verif.Lemmas.BinRel

/-!
# Two-run relations over different programs
-/

namespace Verif

variable {E : Env} {keys : ClassId → Option (List Field)}

/-! ## the environments agree -/

mutual
theorem viaHana_valInit (t : Ty) : (viaHana E keys).valInit t = E.valInit t := by
  cases t <;> simp only [Env.valInit]
  case pair a b => rw [viaHana_valInit a, viaHana_valInit b]
  case tuple ts => rw [viaHana_valInitL ts]
  case variant ts => rw [viaHana_valInitHead ts]
  case cls c =>
    simp only [viaHana]
    cases E.cls c with
    | none => rfl
    | some ci => simp only [Option.map_some]; cases keys c <;> rfl
theorem viaHana_valInitL (ts : List Ty) : (viaHana E keys).valInitL ts = E.valInitL ts := by
  cases ts with
  | nil => rfl
  | cons t ts => simp only [Env.valInitL]; rw [viaHana_valInit t, viaHana_valInitL ts]
theorem viaHana_valInitHead (ts : List Ty) : (viaHana E keys).valInitHead ts = E.valInitHead ts := by
  cases ts with
  | nil => rfl
  | cons t ts => simp only [Env.valInitHead]; rw [viaHana_valInit t]
end

theorem viaHana_defInit (t : Ty) : (viaHana E keys).defInit t = E.defInit t := by
  cases t <;> simp only [Env.defInit, viaHana_valInit]
  case cls c =>
    simp only [viaHana]
    cases E.cls c with
    | none => rfl
    | some ci => simp only [Option.map_some]; cases keys c <;> rfl

theorem viaHana_lt : (viaHana E keys).lt = E.lt := rfl

theorem viaHana_push (H : Heap) (self : Ty → Val → SM Json) (t : Ty) (v : Val) (ht : ∀ c, t ≠ .cls c) :
    pushStep (viaHana E keys) H self t v = pushStep E H self t v := by
  cases t
  case cls c => exact absurd rfl (ht c)
  case int it => cases it <;> cases v <;> first | rfl | (rename_i s; cases s <;> rfl) | (rename_i s; rcases s with _ | ⟨_, _ | ⟨_, _ | _⟩⟩ <;> rfl)
  case map hd m k t => cases m <;> cases k <;> cases v <;> first | rfl | (rename_i s; cases s <;> rfl) | (rename_i s; rcases s with _ | ⟨_, _ | ⟨_, _ | _⟩⟩ <;> rfl)
  all_goals cases v <;> first | rfl | (rename_i s; cases s <;> rfl) | (rename_i s; rcases s with _ | ⟨_, _ | ⟨_, _ | _⟩⟩ <;> rfl)

theorem viaHana_pullMap (self : Ty → Json → Val → PM Val) (t : Ty) (ms : List (Key × Json)) (kvs : List (Val × Val)) :
    pullMapEntries (viaHana E keys) self t ms kvs = pullMapEntries E self t ms kvs := by
  induction ms generalizing kvs with
  | nil => rfl
  | cons m ms ih =>
    obtain ⟨k, j⟩ := m
    simp only [pullMapEntries, viaHana_valInit, viaHana_lt, ih]

theorem viaHana_pullMultiItems (self : Ty → Json → Val → PM Val) (t : Ty) (k : Str) (js : List Json) (kvs : List (Val × Val)) :
    pullMultimapItems (viaHana E keys) self t k js kvs = pullMultimapItems E self t k js kvs := by
  induction js generalizing kvs with
  | nil => rfl
  | cons j js ih => simp only [pullMultimapItems, viaHana_valInit, viaHana_lt, ih]

theorem viaHana_pullMulti (self : Ty → Json → Val → PM Val) (t : Ty) (ms : List (Key × Json)) (kvs : List (Val × Val)) :
    pullMultimapEntries (viaHana E keys) self t ms kvs = pullMultimapEntries E self t ms kvs := by
  induction ms generalizing kvs with
  | nil => rfl
  | cons m ms ih =>
    obtain ⟨k, j⟩ := m
    simp only [pullMultimapEntries, viaHana_pullMultiItems, ih]

theorem viaHana_pull (self : Ty → Json → Val → PM Val) (t : Ty) (j : Json) (v : Val) (ht : ∀ c, t ≠ .cls c) :
    pullStep (viaHana E keys) self t j v = pullStep E self t j v := by
  have h1 : ∀ t, vecItem (viaHana E keys) self t = vecItem E self t := fun t => by
    funext j vs; simp only [vecItem, viaHana_valInit]
  have h2 : ∀ t, multisetItem (viaHana E keys) self t = multisetItem E self t := fun t => by
    funext j vs; simp only [multisetItem, viaHana_defInit, viaHana_lt]
  have h3 : ∀ t, setItem (viaHana E keys) self t = setItem E self t := fun t => by
    funext j vs; simp only [setItem, viaHana_defInit, viaHana_lt]; rfl
  cases t
  case cls c => exact absurd rfl (ht _)
  case map hd m k t => cases k <;> simp only [pullStep, viaHana_pullMap, viaHana_pullMulti]
  all_goals first
    | rfl
    | simp only [pullStep, h1, h2, h3, viaHana_valInit]

theorem viaHana_write (H : Heap) (self : Nat → Ty → Val → WM Unit) (w : Nat) (t : Ty) (v : Val) (ht : ∀ c, t ≠ .cls c) :
    writeStep (viaHana E keys) H self w t v = writeStep E H self w t v := by
  cases t
  case cls c => exact absurd rfl (ht c)
  all_goals cases v <;> first | rfl | (rename_i s; cases s <;> rfl) | (rename_i s; rcases s with _ | ⟨_, _ | ⟨_, _ | _⟩⟩ <;> rfl)

theorem viaHana_readSet (self : Nat → Ty → Val → RM Val) (m : Bool) (t : Ty) (k : Nat) (acc : List Val) :
    readSetItems (viaHana E keys) self m t k acc = readSetItems E self m t k acc := by
  induction k generalizing acc with
  | zero => rfl
  | succ k ih => simp only [readSetItems, viaHana_defInit, viaHana_lt, ih]

theorem viaHana_readMap (self : Nat → Ty → Val → RM Val) (m : Bool) (kt t : Ty) (k : Nat) (acc : List (Val × Val)) :
    readMapItems (viaHana E keys) self m kt t k acc = readMapItems E self m kt t k acc := by
  induction k generalizing acc with
  | zero => rfl
  | succ k ih => simp only [readMapItems, viaHana_valInit, viaHana_lt, ih]

theorem viaHana_read (self : Nat → Ty → Val → RM Val) (w : Nat) (t : Ty) (p : Val) (ht : ∀ c, t ≠ .cls c) :
    readStep (viaHana E keys) self w t p = readStep E self w t p := by
  cases t
  case cls c => exact absurd rfl (ht _)
  all_goals first
    | rfl
    | simp only [readStep, viaHana_readSet, viaHana_readMap, viaHana_valInit]
    | skip
  all_goals rfl

/-! ## relations between runs of `pull` -/

/-- A relation between computations which is preserved by everything `pull` consists of. -/
structure RelP (R : ∀ α : Type, PM α → PM α → Prop) : Prop where
  pure : ∀ {α} (a : α), R α (Pure.pure a) (Pure.pure a)
  bind : ∀ {α β} (m m' : PM α) (f f' : α → PM β), R α m m' → (∀ a, R β (f a) (f' a)) → R β (m >>= f) (m' >>= f')
  ub : ∀ {α}, R α M.ub M.ub
  stuck : ∀ {α}, R α M.stuck M.stuck
  report : ∀ k a b, R _ (report k a b) (report k a b)
  dup : R _ reportDuplicateUnchecked reportDuplicateUnchecked
  setIndex : ∀ i, R _ (setIndex i) (setIndex i)
  withMember : ∀ {α} (name : Str) (m m' : PM α), R _ m m' → R _ (withMember name m) (withMember name m')
  withRecord : ∀ {α} (name : Str) (m m' : PM α), R _ m m' → R _ (withRecord name m) (withRecord name m')

namespace RelP
variable {R : ∀ α : Type, PM α → PM α → Prop} (h : RelP R)
include h

theorem map {α β : Type} {m m' : PM α} (g : α → β) (hm : R α m m') :
    R β (m >>= fun a => Pure.pure (g a)) (m' >>= fun a => Pure.pure (g a)) :=
  h.bind _ _ _ _ hm (fun _ => h.pure _)

theorem castDouble (t : IntTy) (d : BitVec 64) : R _ (castDouble t d) (castDouble t d) := by
  unfold Verif.castDouble
  cases Ieee.trunc d with
  | none => exact h.ub
  | some k => dsimp only; split <;> first | exact h.pure _ | exact h.ub

theorem numToInt (t : IntTy) (m : Num) : R _ (numToInt t m) (numToInt t m) := by
  cases m with
  | int i =>
    simp only [Verif.numToInt]
    split
    · exact h.pure _
    · exact h.castDouble _ _
  | dbl d => exact h.castDouble _ _

theorem pullTime (p : Str → Option Int) (j : Json) (v : Val) : R _ (pullTime p j v) (pullTime p j v) := by
  refine h.bind _ _ _ _ ?_ fun s => ?_
  · unfold pullTimeStr
    split
    · exact h.pure _
    · exact h.map _ (h.report _ _ _)
  · cases p s with
    | some i => exact h.pure _
    | none => exact h.map _ (h.report _ _ _)

end RelP

section
variable {E : Env} {self self' : Ty → Json → Val → PM Val} {R : ∀ α : Type, PM α → PM α → Prop} (h : RelP R)
include h

theorem RelP.forIdx {β : Type} (f f' : Json → β → PM β) (js : List Json) (i : Nat) (b : β)
    (hf : ∀ j ∈ js, ∀ b, R _ (f j b) (f' j b)) : R _ (forIdx f js i b) (forIdx f' js i b) := by
  induction js generalizing i b with
  | nil => exact h.bind _ _ _ _ (h.setIndex _) fun _ => h.pure _
  | cons j js ih =>
    exact h.bind _ _ _ _ (h.setIndex _) fun _ => h.bind _ _ _ _ (hf _ List.mem_cons_self _) fun _ =>
      ih _ _ fun j hj => hf j (List.mem_cons_of_mem _ hj)

theorem RelP.vecItem (t : Ty) (j : Json) (vs : List Val) (hs : ∀ v, R _ (self t j v) (self' t j v)) :
    R _ (vecItem E self t j vs) (vecItem E self' t j vs) := h.map _ (hs _)

theorem RelP.multisetItem (t : Ty) (j : Json) (vs : List Val) (hs : ∀ v, R _ (self t j v) (self' t j v)) :
    R _ (multisetItem E self t j vs) (multisetItem E self' t j vs) := by
  refine h.bind _ _ _ _ (hs _) fun v => ?_
  split
  · exact h.ub
  · exact h.pure _

theorem RelP.setItem (t : Ty) (j : Json) (vs : List Val) (hs : ∀ v, R _ (self t j v) (self' t j v)) :
    R _ (setItem E self t j vs) (setItem E self' t j vs) := by
  refine h.bind _ _ _ _ (hs _) fun v => ?_
  split
  · exact h.ub
  · dsimp only
    split
    · exact h.pure _
    · exact h.bind _ _ _ _ (h.dup) fun _ => h.pure _

theorem RelP.pullMapEntries (t : Ty) (ms : List (Key × Json)) (kvs : List (Val × Val))
    (hs : ∀ k j, (k, j) ∈ ms → ∀ v, R _ (self t j v) (self' t j v)) :
    R _ (pullMapEntries E self t ms kvs) (pullMapEntries E self' t ms kvs) := by
  induction ms generalizing kvs with
  | nil => exact h.pure _
  | cons m ms ih =>
    obtain ⟨k, j⟩ := m
    exact h.bind _ _ _ _ (hs _ _ List.mem_cons_self _) fun _ =>
      ih _ fun k j hj => hs k j (List.mem_cons_of_mem _ hj)

theorem RelP.pullMultimapItems (t : Ty) (k : Str) (js : List Json) (kvs : List (Val × Val))
    (hs : ∀ j ∈ js, ∀ v, R _ (self t j v) (self' t j v)) :
    R _ (pullMultimapItems E self t k js kvs) (pullMultimapItems E self' t k js kvs) := by
  induction js generalizing kvs with
  | nil => exact h.pure _
  | cons j js ih =>
    exact h.bind _ _ _ _ (hs _ List.mem_cons_self _) fun _ => ih _ fun j hj => hs j (List.mem_cons_of_mem _ hj)

theorem RelP.pullMultimapEntries (t : Ty) (ms : List (Key × Json)) (kvs : List (Val × Val))
    (hs : ∀ k j, (k, j) ∈ ms → ∀ v, R _ (self t j v) (self' t j v))
    (hs' : ∀ k js, (k, .arr js) ∈ ms → ∀ j ∈ js, ∀ v, R _ (self t j v) (self' t j v)) :
    R _ (pullMultimapEntries E self t ms kvs) (pullMultimapEntries E self' t ms kvs) := by
  induction ms generalizing kvs with
  | nil => exact h.pure _
  | cons m ms ih =>
    obtain ⟨k, j⟩ := m
    refine h.bind _ _ _ _ (h.pullMultimapItems _ _ _ _ ?_) fun _ =>
      ih _ (fun k j hj => hs k j (List.mem_cons_of_mem _ hj)) (fun k js hj => hs' k js (List.mem_cons_of_mem _ hj))
    intro j' hj'
    split at hj'
    · exact hs' _ _ List.mem_cons_self _ hj'
    · simp only [List.mem_singleton] at hj'
      subst hj'
      exact hs _ _ List.mem_cons_self

theorem RelP.pullTuple (ts : List Ty) (js : List Json) (vs : List Val)
    (hs : ∀ t j, (t, j) ∈ ts.zip js → ∀ v, R _ (self t j v) (self' t j v)) :
    R _ (pullTuple self ts js vs) (pullTuple self' ts js vs) := by
  induction ts generalizing js vs with
  | nil => cases js <;> cases vs <;> first | exact h.pure _ | exact h.stuck
  | cons t ts ih =>
    cases js <;> cases vs <;> first
      | exact h.stuck
      | exact h.bind _ _ _ _ (hs _ _ (by simp) _) fun _ => h.map _ (ih _ _ fun t j hj => hs t j (by simp [hj]))

theorem RelP.pullBases (bs : List ClassId) (ms : List (Key × Json)) (v : Val)
    (hs : ∀ b ∈ bs, ∀ v, R _ (self (.cls b) (.obj ms) v) (self' (.cls b) (.obj ms) v)) :
    R _ (pullBases self bs ms v) (pullBases self' bs ms v) := by
  induction bs generalizing v with
  | nil => exact h.pure _
  | cons b bs ih =>
    exact h.bind _ _ _ _ (hs _ List.mem_cons_self _) fun _ => ih _ fun b hb => hs b (List.mem_cons_of_mem _ hb)

theorem RelP.pullField (f : Field) (ms : List (Key × Json)) (st : Store)
    (hs : ∀ k j, (k, j) ∈ ms → ∀ v, R _ (self f.ty j v) (self' f.ty j v)) :
    R _ (pullField self f ms st) (pullField self' f ms st) := by
  unfold Verif.pullField
  cases hm : findMember f.name ms with
  | none => exact h.pure _
  | some j =>
    obtain ⟨k, hk, -⟩ := findMember_mem hm
    dsimp only
    split
    · exact h.stuck
    · exact h.map _ (h.withMember _ _ _ (hs k j hk _))

theorem RelP.pullFields (fs : List Field) (ms : List (Key × Json)) (st : Store)
    (hs : ∀ f ∈ fs, ∀ k j, (k, j) ∈ ms → ∀ v, R _ (self f.ty j v) (self' f.ty j v)) :
    R _ (pullFields self fs ms st) (pullFields self' fs ms st) := by
  induction fs generalizing st with
  | nil => exact h.pure _
  | cons f fs ih =>
    exact h.bind _ _ _ _ (h.pullField _ _ _ (hs _ List.mem_cons_self)) fun _ =>
      ih _ fun f hf => hs f (List.mem_cons_of_mem _ hf)

theorem RelP.pullStep (t : Ty) (j : Json) (v : Val)
    (hs : ∀ t' j', JCalls E t j t' j' → ∀ v, R _ (self t' j' v) (self' t' j' v)) :
    R _ (pullStep E self t j v) (pullStep E self' t j v) := by
  have hrep : ∀ k a b, R _ (Verif.report k a b) (Verif.report k a b) := h.report
  have hmis : ∀ e j v, R _ (Verif.mismatch e j v) (Verif.mismatch e j v) := fun e j v => h.map _ (h.report _ _ _)
  have hnum : ∀ t m, R _ (Verif.numToInt t m) (Verif.numToInt t m) := h.numToInt
  cases t
  case bool => cases j <;> first | exact h.pure _ | exact hmis _ _ _
  case int it =>
    cases it <;> cases j <;> first | exact h.map _ (hnum _ _) | exact hmis _ _ _ | exact h.stuck
  case f32 => cases j <;> first | exact h.pure _ | exact hmis _ _ _
  case f64 => cases j <;> first | exact h.pure _ | exact hmis _ _ _
  case enum u =>
    simp only [Verif.pullStep]
    split <;> first | exact h.pure _ | exact hmis _ _ _
  case str => cases j <;> first | exact h.pure _ | exact hmis _ _ _
  case cstr => cases j <;> first | exact h.pure _ | exact hmis _ _ _
  case sview => cases j <;> first | exact h.pure _ | exact hmis _ _ _
  case opt t => cases j <;> first | exact h.pure _ | exact h.map _ (hs _ _ .opt _)
  case uptr t => cases j <;> first | exact h.pure _ | exact h.map _ (hs _ _ .uptr _)
  case sptr t => cases j <;> first | exact h.pure _ | exact h.map _ (hs _ _ .sptr _)
  case vec t =>
    cases j <;> first
      | exact hmis _ _ _
      | exact h.map _ (h.forIdx _ _ _ _ _ fun j hj b => h.vecItem _ _ _ fun v => hs _ _ (.vec hj) v)
  case set hd m t =>
    cases j <;> first
      | exact hmis _ _ _
      | skip
    refine h.map _ (h.forIdx _ _ _ _ _ fun j hj b => ?_)
    cases m
    · exact h.setItem _ _ _ fun v => hs _ _ (.set hj) v
    · exact h.multisetItem _ _ _ fun v => hs _ _ (.set hj) v
  case map hd m k t =>
    cases k <;> try exact h.stuck
    cases j <;> try exact hmis _ _ _
    cases v <;> try exact h.stuck
    refine h.map _ ?_
    cases m
    · exact h.pullMapEntries _ _ _ fun k j hj => hs _ _ (.map hj)
    · exact h.pullMultimapEntries _ _ _ (fun k j hj => hs _ _ (.map hj)) fun k js hk j hj => hs _ _ (.multi hk hj)
  case pair a b =>
    cases j <;> try exact hmis _ _ _
    simp only [Verif.pullStep]
    split
    · exact h.map (fun _ => v) (hrep _ _ _)
    · cases v <;> try exact h.stuck
      exact h.map _ (h.pullTuple _ _ _ fun t j hj => hs _ _ (.pair hj))
  case tuple ts =>
    cases j <;> try exact hmis _ _ _
    simp only [Verif.pullStep]
    split
    · exact h.map (fun _ => v) (hrep _ _ _)
    · cases v <;> try exact h.stuck
      exact h.map _ (h.pullTuple _ _ _ fun t j hj => hs _ _ (.tuple hj))
  case variant ts =>
    cases j <;> try exact hmis _ _ _
    rename_i ms
    simp only [Verif.pullStep]
    cases h1 : findMember (lit "index") ms with
    | none => exact h.map (fun _ => v) (hrep _ _ _)
    | some ji =>
      cases h2 : findMember (lit "data") ms with
      | none => exact h.map (fun _ => v) (hrep _ _ _)
      | some jd =>
        dsimp only
        cases h3 : uint64? ji with
        | none => exact h.map (fun _ => v) (hrep _ _ _)
        | some i =>
          dsimp only
          cases h4 : ts[i]? with
          | none => exact h.map (fun _ => v) (hrep _ _ _)
          | some t' =>
            obtain ⟨k, hk, -⟩ := findMember_mem h2
            cases t' <;> first
              | exact h.pure _
              | exact h.map _ (hs _ _ (.variant (List.mem_of_getElem? h4) hk) _)
  case mono => exact h.stuck
  case cls c =>
    simp only [Verif.pullStep]
    cases hc : E.cls c with
    | none => exact h.stuck
    | some ci =>
      dsimp only
      split
      · exact h.stuck
      · cases j <;> try exact hmis _ _ _
        refine h.bind _ _ _ _ (h.pullBases _ _ _ fun b hb => hs _ _ (.base hc hb)) fun v => ?_
        cases v <;> try exact h.stuck
        refine h.map _ ?_
        split
        · exact h.withRecord _ _ _ (h.pullFields _ _ _ fun f hf k j hj => hs _ _ (.field hc hf hj))
        · exact h.pullFields _ _ _ fun f hf k j hj => hs _ _ (.field hc hf hj)
  case dateTime => exact h.pullTime _ _ _
  case timeSpan => exact h.pullTime _ _ _
end


end Verif
