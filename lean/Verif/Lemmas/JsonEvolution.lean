import Verif.Spec.JsonEvolution
import Verif.Lemmas.Evolution
import Verif.Lemmas.ErrInv
import Verif.Props.JsonObjects

/-!
# Simulation of JSON deserialisation between an older and a newer program
-/

namespace Verif

variable {N : FieldKey → Val → Prop}

/-! ## containers -/

section
variable {lt lt' : Val → Val → Bool} (hlt : ∀ a a' b b', Extends N a a' → Extends N b b' → lt' a' b' = lt a b)
include hlt

theorem insertUniq_up2 {x x' : Val} (hx : Extends N x x') {vs vs' : List Val} (h : List.Forall₂ (Extends N) vs vs') :
    (insertUniq lt' x' vs').2 = (insertUniq lt x vs).2 := by
  induction h with
  | nil => rfl
  | @cons y y' ys ys' hy hys ih =>
    simp only [insertUniq, hlt x x' y y' hx hy, hlt y y' x x' hy hx]
    split
    · rfl
    · split
      · exact ih
      · rfl

theorem mapSet_up {k k' x x' : Val} (hk : Extends N k k') (hx : Extends N x x') {vs vs' : List (Val × Val)} (h : ExtKV N vs vs') :
    ExtKV N (mapSet lt k x vs) (mapSet lt' k' x' vs') := by
  unfold ExtKV at h ⊢
  induction h with
  | nil => exact .cons ⟨hk, hx⟩ .nil
  | @cons y y' ys ys' hy hys ih =>
    obtain ⟨yk, yv⟩ := y
    obtain ⟨yk', yv'⟩ := y'
    simp only [mapSet, hlt k k' yk yk' hk hy.1, hlt yk yk' k k' hy.1 hk]
    split
    · exact .cons ⟨hk, hx⟩ (.cons hy hys)
    · split
      · exact .cons hy ih
      · exact .cons ⟨hy.1, hx⟩ hys

theorem mapFind_up {k k' d d' : Val} (hk : Extends N k k') (hd : Extends N d d') {vs vs' : List (Val × Val)} (h : ExtKV N vs vs') :
    Extends N ((mapFind lt k vs).getD d) ((mapFind lt' k' vs').getD d') := by
  unfold ExtKV at h
  induction h with
  | nil => exact hd
  | @cons y y' ys ys' hy hys ih =>
    obtain ⟨yk, yv⟩ := y
    obtain ⟨yk', yv'⟩ := y'
    simp only [mapFind, hlt k k' yk yk' hk hy.1, hlt yk yk' k k' hy.1 hk]
    split
    · exact hd
    · split
      · exact ih
      · exact hy.2

end

/-! ## relations between computations of both programs -/

/-- primitive operations which do the same no matter what has been reported -/
def Silent {α : Type} (m : PM α) : Prop :=
  ∀ s s' a s1', FewerErrors s s' → m s' = .ok a s1' → ∃ s1, m s = .ok a s1 ∧ FewerErrors s1 s1'

structure RelH (N : FieldKey → Val → Prop) (R : ∀ α β : Type, (α → β → Prop) → PM α → PM β → Prop) : Prop where
  pure : ∀ {α β : Type} {Q : α → β → Prop} {a b}, Q a b → R α β Q (Pure.pure a) (Pure.pure b)
  ub : ∀ {α β : Type} {Q : α → β → Prop}, R α β Q M.ub M.ub
  stuck : ∀ {α β : Type} {Q : α → β → Prop}, R α β Q M.stuck M.stuck
  fuel : ∀ {α β : Type} {Q : α → β → Prop}, R α β Q M.outOfFuel M.outOfFuel
  bind : ∀ {α β γ δ : Type} {Q : α → β → Prop} {Q' : γ → δ → Prop} {m m' f f'}, R α β Q m m' →
    (∀ a b, Q a b → R γ δ Q' (f a) (f' b)) → R γ δ Q' (m >>= f) (m' >>= f')
  prim : ∀ {α : Type} (m : PM α), Silent m → R α α Eq m m
  indet : ∀ {α β : Type} {Q : α → β → Prop} {m m'} (v v' : Val), Extends N v v' → R α β Q m m' →
    R α β Q (if v.hasIndet then M.ub else m) (if v'.hasIndet then M.ub else m')

theorem silent_report (k : ErrKind) (a b : JType) : Silent (report k a b) := by
  intro s s' x s1' h e
  cases s <;> cases s' <;> first | exact h.elim | skip
  · cases e; exact ⟨none, rfl, h⟩
  · rename_i s s'
    obtain ⟨h1, h2, h3, h4⟩ := h
    simp only [report, h1] at e ⊢
    split at e
    · cases e
    · rename_i hf
      cases e
      rw [if_neg hf]
      refine ⟨_, rfl, h1, h2, h3, ?_⟩
      simp only [ErrSt.push, ErrSt.mk', List.map_append, List.map_cons, List.map_nil, h2, h3]
      exact h4.append (.refl _)

theorem silent_dup : Silent reportDuplicateUnchecked := by
  intro s s' x s1' h e
  cases s <;> cases s' <;> first | exact h.elim | skip
  · cases e
  · exact silent_report _ _ _ _ _ _ _ h e

theorem silent_get (f : ErrSt → Option Str) (hf : ∀ s s', FewerErrors (some s) (some s') → f s' = f s) :
    Silent (fun s => .ok (s.bind f) s : PM (Option Str)) := by
  intro s s' x s1' h e
  cases s <;> cases s' <;> first | exact h.elim | skip
  · cases e; exact ⟨none, rfl, h⟩
  · cases e
    refine ⟨_, ?_, h⟩
    show Res.ok _ _ = Res.ok (f _) _
    rw [hf _ _ h]; rfl

theorem silent_modify (f : ErrSt → ErrSt) (hf : ∀ s s', FewerErrors (some s) (some s') → FewerErrors (some (f s)) (some (f s'))) :
    Silent (M.modify (Option.map f) : PM Unit) := by
  intro s s' x s1' h e
  cases s <;> cases s' <;> first | exact h.elim | skip
  · cases e; exact ⟨none, rfl, h⟩
  · cases e
    exact ⟨_, rfl, hf _ _ h⟩

theorem silent_numToInt (t : IntTy) (n : Num) : Silent (numToInt t n) := by
  have hc : ∀ d, Silent (castDouble t d) := by
    intro d s s' x s1' h e
    cases ht : Ieee.trunc d with
    | none => simp only [castDouble, ht] at e; cases e
    | some k =>
      simp only [castDouble, ht] at e ⊢
      split at e
      · rename_i hk
        cases e
        rw [if_pos hk]
        exact ⟨s, rfl, h⟩
      · cases e
  cases n with
  | int i =>
    simp only [numToInt]
    split
    · intro s s' x s1' h e; cases e; exact ⟨s, rfl, h⟩
    · exact hc _
  | dbl d => exact hc _

namespace RelH
variable {R : ∀ α β : Type, (α → β → Prop) → PM α → PM β → Prop} (h : RelH N R) {E E' : Env}
  {self self' : Ty → Json → Val → PM Val}
include h

theorem map {α β γ δ : Type} {Q : α → β → Prop} {Q' : γ → δ → Prop} {m : PM α} {m' : PM β} {f : α → γ} {g : β → δ} (hm : R α β Q m m')
    (hf : ∀ a b, Q a b → Q' (f a) (g b)) : R γ δ Q' (m >>= fun a => Pure.pure (f a)) (m' >>= fun b => Pure.pure (g b)) :=
  h.bind hm fun a b hab => h.pure (hf a b hab)

theorem mismatch (e : JType) (j : Json) {v v' : Val} (hv : Extends N v v') : R _ _ (Extends N) (mismatch e j v) (Verif.mismatch e j v') :=
  h.map (h.prim _ (silent_report _ _ _)) fun _ _ _ => hv

theorem rep (k : ErrKind) (a b : JType) {v v' : Val} (hv : Extends N v v') :
    R _ _ (Extends N) (report k a b >>= fun _ => Pure.pure v) (report k a b >>= fun _ => Pure.pure v') :=
  h.map (h.prim _ (silent_report _ _ _)) fun _ _ _ => hv

theorem withMember {α β : Type} {Q : α → β → Prop} (name : Str) {m : PM α} {m' : PM β} (hm : R _ _ Q m m') :
    R _ _ Q (withMember name m) (Verif.withMember name m') := by
  refine h.bind (h.prim _ (silent_get _ fun s s' hs => hs.2.2.1)) ?_
  rintro a _ rfl
  refine h.bind (h.prim _ (silent_modify _ fun s s' hs => ⟨hs.1, hs.2.1, rfl, hs.2.2.2⟩)) fun _ _ _ => h.bind hm fun a b hab => ?_
  exact h.map (h.prim _ (silent_modify _ fun s s' hs => ⟨hs.1, hs.2.1, rfl, hs.2.2.2⟩)) fun _ _ _ => hab

theorem withRecord {α β : Type} {Q : α → β → Prop} (name : Str) {m : PM α} {m' : PM β} (hm : R _ _ Q m m') :
    R _ _ Q (withRecord name m) (Verif.withRecord name m') := by
  refine h.bind (h.prim _ (silent_get _ fun s s' hs => hs.2.1)) ?_
  rintro a _ rfl
  refine h.bind (h.prim _ (silent_modify _ fun s s' hs => ⟨hs.1, rfl, hs.2.2⟩)) fun _ _ _ => h.bind hm fun a b hab => ?_
  exact h.map (h.prim _ (silent_modify _ fun s s' hs => ⟨hs.1, rfl, hs.2.2⟩)) fun _ _ _ => hab

theorem forIdx {β γ : Type} {Q : β → γ → Prop} {f : Json → β → PM β} {f' : Json → γ → PM γ} (js : List Json)
    (hf : ∀ j ∈ js, ∀ b c, Q b c → R _ _ Q (f j b) (f' j c)) (i : Nat) {b : β} {c : γ} (hb : Q b c) :
    R _ _ Q (forIdx f js i b) (Verif.forIdx f' js i c) := by
  induction js generalizing i b c with
  | nil => exact h.map (h.prim _ (silent_modify _ fun s s' hs => hs)) fun _ _ _ => hb
  | cons j js ih =>
    refine h.bind (h.prim _ (silent_modify _ fun s s' hs => hs)) fun _ _ _ => h.bind (hf j (.head _) b c hb) fun b' c' hb' => ?_
    exact ih (fun j hj => hf j (.tail _ hj)) _ hb'

/-- the recursive calls correspond to each other -/
abbrev Sim (R : ∀ α β : Type, (α → β → Prop) → PM α → PM β → Prop) (N : FieldKey → Val → Prop) (self self' : Ty → Json → Val → PM Val)
    (t : Ty) (j : Json) : Prop :=
  ∀ p p', Extends N p p' → R _ _ (Extends N) (self t j p) (self' t j p')

theorem vecItem {t : Ty} {j : Json} (hs : Sim R N self self' t j) (hi : Extends N (E.valInit t) (E'.valInit t)) {vs vs' : List Val}
    (hv : List.Forall₂ (Extends N) vs vs') : R _ _ (List.Forall₂ (Extends N)) (vecItem E self t j vs) (Verif.vecItem E' self' t j vs') :=
  h.map (hs _ _ hi) fun _ _ hab => forall₂_append hv (.cons hab .nil)

theorem multisetItem (hO : SameOrder N E E') {t : Ty} {j : Json} (hs : Sim R N self self' t j)
    (hi : Extends N (E.defInit t) (E'.defInit t)) {vs vs' : List Val} (hv : List.Forall₂ (Extends N) vs vs') :
    R _ _ (List.Forall₂ (Extends N)) (multisetItem E self t j vs) (Verif.multisetItem E' self' t j vs') :=
  h.bind (hs _ _ hi) fun a b hab => h.indet a b hab (h.pure (insertMulti_up (hO t) hab hv))

theorem setItem (hO : SameOrder N E E') {t : Ty} {j : Json} (hs : Sim R N self self' t j)
    (hi : Extends N (E.defInit t) (E'.defInit t)) {vs vs' : List Val} (hv : List.Forall₂ (Extends N) vs vs') :
    R _ _ (List.Forall₂ (Extends N)) (setItem E self t j vs) (Verif.setItem E' self' t j vs') := by
  refine h.bind (hs _ _ hi) fun a b hab => h.indet a b hab ?_
  have h1 := insertUniq_up (hO t) hab hv
  have h2 := insertUniq_up2 (hO t) hab hv
  dsimp only
  rw [h2]
  split
  · exact h.pure h1
  · exact h.map (h.prim _ silent_dup) fun _ _ _ => h1

theorem pullMapEntries (hO : SameOrder N E E') {t : Ty} (ms : List (Key × Json))
    (hs : ∀ m ∈ ms, Sim R N self self' t m.2 ∧ Extends N (E.valInit t) (E'.valInit t)) {kvs kvs' : List (Val × Val)}
    (hk : ExtKV N kvs kvs') : R _ _ (ExtKV N) (pullMapEntries E self t ms kvs) (Verif.pullMapEntries E' self' t ms kvs') := by
  induction ms generalizing kvs kvs' with
  | nil => exact h.pure hk
  | cons m ms ih =>
    obtain ⟨k, j⟩ := m
    have hkey : Extends N (.str (cstrOf k.bytes)) (.str (cstrOf k.bytes)) := .leaf trivial
    obtain ⟨h1, hi⟩ := hs (k, j) (.head _)
    refine h.bind (h1 _ _ (mapFind_up (hO .str) hkey hi hk)) fun a b hab => ?_
    exact ih (fun m hm => hs m (.tail _ hm)) (mapSet_up (hO .str) hkey hab hk)

theorem pullMultimapItems (hO : SameOrder N E E') {t : Ty} (key : Str) (js : List Json)
    (hs : ∀ j ∈ js, Sim R N self self' t j ∧ Extends N (E.valInit t) (E'.valInit t)) {kvs kvs' : List (Val × Val)}
    (hk : ExtKV N kvs kvs') :
    R _ _ (ExtKV N) (pullMultimapItems E self t key js kvs) (Verif.pullMultimapItems E' self' t key js kvs') := by
  induction js generalizing kvs kvs' with
  | nil => exact h.pure hk
  | cons j js ih =>
    have hkey : Extends N (.str key) (.str key) := .leaf trivial
    obtain ⟨h1, hi⟩ := hs j (.head _)
    refine h.bind (h1 _ _ hi) fun a b hab => ?_
    exact ih (fun m hm => hs m (.tail _ hm)) (mapInsertMulti_up (hO .str) hkey hab hk)

theorem pullMultimapEntries (hO : SameOrder N E E') {t : Ty} (ms : List (Key × Json))
    (hs : ∀ m ∈ ms, ∀ j ∈ multimapValues m.2, Sim R N self self' t j ∧ Extends N (E.valInit t) (E'.valInit t))
    {kvs kvs' : List (Val × Val)} (hk : ExtKV N kvs kvs') :
    R _ _ (ExtKV N) (pullMultimapEntries E self t ms kvs) (Verif.pullMultimapEntries E' self' t ms kvs') := by
  induction ms generalizing kvs kvs' with
  | nil => exact h.pure hk
  | cons m ms ih =>
    obtain ⟨k, j⟩ := m
    have : (match j with | .arr js => js | j => [j]) = multimapValues j := by cases j <;> rfl
    simp only [Verif.pullMultimapEntries, this]
    refine h.bind (h.pullMultimapItems hO _ _ (hs (k, j) (.head _)) hk) fun a b hab => ?_
    exact ih (fun m hm => hs m (.tail _ hm)) hab

theorem pullTuple (ts : List Ty) (js : List Json) (hs : ∀ t j, (t, j) ∈ ts.zip js → Sim R N self self' t j) {vs vs' : List Val}
    (hv : List.Forall₂ (Extends N) vs vs') : R _ _ (List.Forall₂ (Extends N)) (pullTuple self ts js vs) (Verif.pullTuple self' ts js vs') := by
  induction ts generalizing js vs vs' with
  | nil => cases js <;> cases hv <;> first | exact h.pure .nil | exact h.stuck
  | cons t ts ih =>
    cases js with
    | nil => cases hv <;> exact h.stuck
    | cons j js =>
      cases hv with
      | nil => exact h.stuck
      | cons h1 h2 =>
        refine h.bind (hs t j (by simp) _ _ h1) fun a b hab => ?_
        exact h.map (ih js (fun t j hj => hs t j (by simp [hj])) h2) fun _ _ hh => .cons hab hh

theorem pullBases (bs : List ClassId) (ms : List (Key × Json)) (hs : ∀ b ∈ bs, Sim R N self self' (.cls b) (.obj ms)) {p p' : Val}
    (hp : Extends N p p') : R _ _ (Extends N) (pullBases self bs ms p) (Verif.pullBases self' bs ms p') := by
  induction bs generalizing p p' with
  | nil => exact h.pure hp
  | cons b bs ih => exact h.bind (hs b (.head _) _ _ hp) fun _ _ hab => ih (fun b hb => hs b (.tail _ hb)) hab

theorem pullField {f : Field} {ms : List (Key × Json)} (hs : ∀ j, firstNamed f.name ms = some j → Sim R N self self' f.ty j)
    {st st' : Store} (hst : Extends N (.obj st) (.obj st')) (hk : ∀ v, ¬ N f.key v) :
    R _ _ (fun a b => Extends N (.obj a) (.obj b)) (pullField self f ms st) (Verif.pullField self' f ms st') := by
  unfold Verif.pullField
  rw [findMember_eq]
  cases hm : firstNamed f.name ms with
  | none => exact h.pure hst
  | some j =>
    obtain ⟨_, e, -, -, h3, h4, -⟩ := hst.objInv
    cases e
    cases hv : st.get? f.key with
    | none =>
      cases hv' : st'.get? f.key with
      | none => simp only [hv, hv']; exact h.stuck
      | some v' => exact absurd (h4 _ _ hv hv') (hk v')
    | some v =>
      obtain ⟨v', hv', hvv⟩ := h3 _ _ hv
      simp only [hv, hv']
      exact h.map (h.withMember _ (hs j hm _ _ hvv)) fun _ _ hab => hst.set hv hab

/-- the code for an additional member of the newer program is invisible to the older one -/
def Ghost (R : ∀ α β : Type, (α → β → Prop) → PM α → PM β → Prop) (N : FieldKey → Val → Prop) (self' : Ty → Json → Val → PM Val)
    (ms : List (Key × Json)) (f : Field) : Prop :=
  ∀ (st st' : Store) (m : PM Store) (g : Store → PM Store), Extends N (.obj st) (.obj st') →
    (∀ st'', Extends N (.obj st) (.obj st'') → R _ _ (fun a b : Store => Extends N (.obj a) (.obj b)) m (g st'')) →
    R _ _ (fun a b : Store => Extends N (.obj a) (.obj b)) m (Verif.pullField self' f ms st' >>= g)

theorem pullFields {added : FieldKey → Bool} (hN : ∀ k v, N k v → added k = true) (fs : List Field) {ms : List (Key × Json)}
    (hs : ∀ f ∈ fs, ∀ j, firstNamed f.name ms = some j → Sim R N self self' f.ty j)
    (hg : ∀ f ∈ fs, added f.key = true → Ghost R N self' ms f)
    {st st' : Store} (hst : Extends N (.obj st) (.obj st')) :
    R _ _ (fun a b : Store => Extends N (.obj a) (.obj b)) (pullFields self (fs.filter fun f => !added f.key) ms st)
      (Verif.pullFields self' fs ms st') := by
  induction fs generalizing st st' with
  | nil => exact h.pure hst
  | cons f fs ih =>
    cases ha : added f.key with
    | true =>
      rw [List.filter_cons_of_neg (by simp [ha])]
      exact hg f (.head _) ha st st' _ _ hst fun st'' h'' =>
        ih (fun f hf => hs f (.tail _ hf)) (fun f hf => hg f (.tail _ hf)) h''
    | false =>
      rw [List.filter_cons_of_pos (by simp [ha])]
      refine h.bind (h.pullField (hs f (.head _)) hst fun v hv => by rw [hN _ _ hv] at ha; cases ha) fun a b hab => ?_
      exact ih (fun f hf => hs f (.tail _ hf)) (fun f hf => hg f (.tail _ hf)) hab

theorem pullTime (p : Str → Option Int) (j : Json) {v v' : Val} (hv : Extends N v v') :
    R _ _ (Extends N) (pullTime p j v) (Verif.pullTime p j v') := by
  unfold Verif.pullTime
  refine h.bind (h.prim _ ?_) ?_
  · intro s s' x s1' hs e
    cases j <;> first
      | (cases e; exact ⟨s, rfl, hs⟩)
      | (obtain ⟨_, s2', e1, e2⟩ := M.bind_eq_ok.1 e
         obtain ⟨s2, e3, h2⟩ := silent_report _ _ _ _ _ _ _ hs e1
         cases e2
         exact ⟨s2, M.bind_ok e3, h2⟩)
  · rintro s _ rfl
    split
    · exact h.pure (.leaf trivial)
    · exact h.rep _ _ _ hv

theorem pullStep {added : FieldKey → Bool} {S : Ty → Prop} (hN : ∀ k v, N k v → added k = true) (hM : MembersAdded added S E E')
    (hT : SameTimes E E') (hI : SameInit N S E E') (hO : SameOrder N E E') (hC : ClosedUnderParts E' S) {t : Ty} {j : Json} (ht : S t)
    (hs : ∀ t' j', PartRead E' t j t' j' → Sim R N self self' t' j')
    (hg : ∀ c ci f ms, t = .cls c → j = .obj ms → E'.cls c = some ci → f ∈ ci.json.pullFields → added f.key = true →
      Ghost R N self' ms f)
    {p p' : Val} (hp : Extends N p p') : R _ _ (Extends N) (pullStep E self t j p) (Verif.pullStep E' self' t j p') := by
  have hi : ∀ t' j', PartRead E' t j t' j' → Extends N (E.valInit t') (E'.valInit t') ∧ Extends N (E.defInit t') (E'.defInit t') :=
    fun t' j' h => hI t' (hC _ _ _ _ h ht)
  cases t with
  | bool =>
    cases j
    case bool b => exact h.pure (.leaf trivial)
    all_goals exact h.mismatch _ _ hp
  | int it =>
    have hn : ∀ (it : IntTy) (n : Num) (f : Int → Val), (∀ i, (f i).Leaf) →
        R _ _ (Extends N) (numToInt it n >>= fun i => Pure.pure (f i)) (numToInt it n >>= fun i => Pure.pure (f i)) :=
      fun it n f hf => h.map (h.prim _ (silent_numToInt _ _)) fun a b hab => by subst hab; exact .leaf (hf _)
    cases it <;> cases j <;>
      first
      | exact h.stuck
      | exact h.mismatch _ _ hp
      | exact hn _ _ _ fun _ => trivial
  | f32 =>
    cases j
    case num n => exact h.pure (.leaf trivial)
    all_goals exact h.mismatch _ _ hp
  | f64 =>
    cases j
    case num n => exact h.pure (.leaf trivial)
    all_goals exact h.mismatch _ _ hp
  | enum u =>
    simp only [Verif.pullStep]
    cases enumNum (!u.signed) j with
    | none => exact h.mismatch _ _ hp
    | some i => exact h.pure (.leaf trivial)
  | str =>
    cases j
    case str n => exact h.pure (.leaf trivial)
    all_goals exact h.mismatch _ _ hp
  | cstr =>
    cases j
    case str n => exact h.pure hp
    all_goals exact h.mismatch _ _ hp
  | sview =>
    cases j
    case str n => exact h.pure hp
    all_goals exact h.mismatch _ _ hp
  | vec t =>
    cases j
    case arr js =>
      exact h.map (h.forIdx js (fun j hj b c hb => h.vecItem (hs _ _ (.vec hj)) (hi _ _ (.vec hj)).1 hb) 0 .nil) fun _ _ => .list
    all_goals exact h.mismatch _ _ hp
  | set hashed multi t =>
    cases j
    case arr js =>
      cases multi
      · exact h.map (h.forIdx js (fun j hj b c hb => h.setItem hO (hs _ _ (.set hj)) (hi _ _ (.set hj)).2 hb) 0 .nil) fun _ _ => .list
      · exact h.map (h.forIdx js (fun j hj b c hb => h.multisetItem hO (hs _ _ (.set hj)) (hi _ _ (.set hj)).2 hb) 0 .nil)
          fun _ _ => .list
    all_goals exact h.mismatch _ _ hp
  | map hashed multi k t =>
    cases k
    case str =>
      cases j
      case obj ms =>
        cases hp with
        | map h1 h2 =>
          cases multi
          · exact h.map (h.pullMapEntries hO ms (fun m hm => ⟨hs _ _ (.map hm), (hi _ _ (.map hm)).1⟩) (extKV_iff.2 ⟨h1, h2⟩))
              fun _ _ => .mkMap
          · exact h.map (h.pullMultimapEntries hO ms
              (fun m hm j hj => ⟨hs _ _ (.multimap hm hj), (hi _ _ (.multimap hm hj)).1⟩) (extKV_iff.2 ⟨h1, h2⟩)) fun _ _ => .mkMap
        | leaf hl => cases p <;> first | exact hl.elim | exact h.stuck
        | some _ => exact h.stuck
        | ptr _ => exact h.stuck
        | list _ => exact h.stuck
        | tup _ => exact h.stuck
        | alt _ _ => exact h.stuck
        | obj _ _ _ _ _ _ _ => exact h.stuck
      all_goals exact h.mismatch _ _ hp
    all_goals exact h.stuck
  | pair a b =>
    cases j
    case arr js =>
      simp only [Verif.pullStep]
      split
      · exact h.rep _ _ _ hp
      · cases hp with
        | tup h1 => exact h.map (h.pullTuple [a, b] js (fun t j hj => hs _ _ (.pair hj)) h1) fun _ _ => .tup
        | leaf hl => cases p <;> first | exact hl.elim | exact h.stuck
        | some _ => exact h.stuck
        | ptr _ => exact h.stuck
        | list _ => exact h.stuck
        | map _ _ => exact h.stuck
        | alt _ _ => exact h.stuck
        | obj _ _ _ _ _ _ _ => exact h.stuck
    all_goals exact h.mismatch _ _ hp
  | tuple ts =>
    cases j
    case arr js =>
      simp only [Verif.pullStep]
      split
      · exact h.rep _ _ _ hp
      · cases hp with
        | tup h1 => exact h.map (h.pullTuple ts js (fun t j hj => hs _ _ (.tuple hj)) h1) fun _ _ => .tup
        | leaf hl => cases p <;> first | exact hl.elim | exact h.stuck
        | some _ => exact h.stuck
        | ptr _ => exact h.stuck
        | list _ => exact h.stuck
        | map _ _ => exact h.stuck
        | alt _ _ => exact h.stuck
        | obj _ _ _ _ _ _ _ => exact h.stuck
    all_goals exact h.mismatch _ _ hp
  | uptr t =>
    have hP' : j ≠ .null → PartRead E' (.uptr t) j t j := .content (.inr (.inl rfl))
    cases j
    case null => exact h.pure (.leaf trivial)
    all_goals
      have hP := hP' (by rintro ⟨⟩)
      exact h.map (hs _ _ hP _ _ (hi _ _ hP).1) fun _ _ => .ptr
  | sptr t =>
    have hP' : j ≠ .null → PartRead E' (.sptr t) j t j := .content (.inr (.inr rfl))
    cases j
    case null => exact h.pure (.leaf trivial)
    all_goals
      have hP := hP' (by rintro ⟨⟩)
      exact h.map (hs _ _ hP _ _ (hi _ _ hP).1) fun _ _ => .ptr
  | opt t =>
    have hP' : j ≠ .null → PartRead E' (.opt t) j t j := .content (.inl rfl)
    cases j
    case null => exact h.pure (.leaf trivial)
    all_goals
      have hP := hP' (by rintro ⟨⟩)
      exact h.map (hs _ _ hP _ _ (hi _ _ hP).1) fun _ _ => .some
  | variant ts =>
    cases j
    case obj ms =>
      simp only [Verif.pullStep, findMember_eq]
      cases h1 : firstNamed (lit "index") ms with
      | none => exact h.rep _ _ _ hp
      | some ji =>
        cases h2 : firstNamed (lit "data") ms with
        | none => exact h.rep _ _ _ hp
        | some jd =>
          dsimp only
          cases h3 : uint64? ji with
          | none => exact h.rep _ _ _ hp
          | some i =>
            dsimp only
            cases h4 : ts[i]? with
            | none => exact h.rep _ _ _ hp
            | some t' =>
              have hj : ji = .num (.int i) := by
                unfold uint64? at h3
                split at h3
                · split at h3
                  · rename_i z hz
                    cases h3
                    congr 2
                    have hz' : (0 : Int) ≤ z := of_decide_eq_true (Bool.and_eq_true_iff.1 hz).1
                    exact (Int.toNat_of_nonneg hz').symm
                  · cases h3
                · cases h3
              subst hj
              have hP := PartRead.variant (E := E') h1 h2 h4
              cases t'
              case mono => exact h.pure (.alt _ (.leaf trivial))
              all_goals exact h.map (hs _ _ hP _ _ (hi _ _ hP).1) fun _ _ => .alt _
    all_goals exact h.mismatch _ _ hp
  | mono => exact h.stuck
  | cls c =>
    obtain ⟨ci, ci', hE, hE', e1, e2, e3, e4, e5⟩ := hM c ht
    simp only [Verif.pullStep, hE, hE', e1, e2, e3, e4]
    split
    · exact h.stuck
    · cases j
      case obj ms =>
        refine h.bind (h.pullBases _ ms (fun b hb => hs _ _ (.base hE' (by rw [e2]; exact hb))) hp) fun v v' hv => ?_
        cases hv with
        | @obj st st' g g1 g2 g3 g4 g5 g6 =>
          have hst : Extends N (.obj st) (.obj st') := .obj g g1 g2 g3 g4 g5 g6
          have hF := h.pullFields (self := self) hN ci'.json.pullFields (fun f hf j hj => hs _ _ (.member hE' hf hj))
            (fun f hf ha => hg c ci' f ms rfl rfl hE' hf ha) hst
          rw [← e5] at hF
          refine h.map ?_ fun a b hab => hab
          split
          · exact h.withRecord _ hF
          · exact hF
        | leaf hl => cases v <;> first | exact hl.elim | exact h.stuck
        | some _ => exact h.stuck
        | ptr _ => exact h.stuck
        | list _ => exact h.stuck
        | map _ _ => exact h.stuck
        | alt _ _ => exact h.stuck
        | tup _ => exact h.stuck
      all_goals exact h.mismatch _ _ hp
  | dateTime =>
    simp only [Verif.pullStep, hT.1]
    exact h.pullTime _ _ hp
  | timeSpan =>
    simp only [Verif.pullStep, hT.2]
    exact h.pullTime _ _ hp

end RelH

/-! ## the two relations -/

theorem hasIndet_down (v v' : Val) (h : Extends N v v') (hi : v'.hasIndet = false) : v.hasIndet = false := by
  generalize hn : sizeOf v = n
  induction n using Nat.strongRecOn generalizing v v' with
  | _ n ih =>
    subst hn
    cases h with
    | leaf h => exact hi
    | @some v v' h => exact ih (sizeOf v) (by simp only [Val.some.sizeOf_spec]; omega) v v' h hi rfl
    | ptr h => rfl
    | list h => rfl
    | map _ _ => rfl
    | @alt i v v' h => exact ih (sizeOf v) (by simp only [Val.alt.sizeOf_spec]; omega) v v' h hi rfl
    | @tup vs vs' h =>
      change Val.hasIndetL vs' = false at hi
      change Val.hasIndetL vs = false
      have hsz : ∀ x ∈ vs, sizeOf x < sizeOf (Val.tup vs) := fun x hx => by
        have := List.sizeOf_lt_of_mem hx
        simp only [Val.tup.sizeOf_spec]; omega
      generalize sizeOf (Val.tup vs) = m at *
      induction h with
      | nil => rfl
      | @cons x x' xs xs' h1 h2 ih2 =>
        simp only [Val.hasIndetL, Bool.or_eq_false_iff] at hi ⊢
        exact ⟨ih _ (hsz x (.head _)) x x' h1 hi.1 rfl, ih2 hi.2 (fun y hy => hsz y (.tail _ hy))⟩
    | @obj st st' g h1 h2 h3 h4 h5 h6 =>
      change Val.hasIndetF st' = false at hi
      change Val.hasIndetF st = false
      rw [hasIndetF_false_iff] at hi ⊢
      intro k x hx
      have hx' := get?_eq_of_mem h1 hx
      exact ih _ (sizeOf_get? hx') x _ (h4 k x hx') (hi k _ (mem_of_get? (h3 k x hx'))) rfl

/-- the same outcome, whether with or without a list of errors -/
def Lock (α β : Type) (Q : α → β → Prop) (m : PM α) (m' : PM β) : Prop := ∀ s, EqualOutcome Q (m s) (m' s)

theorem Lock.bind {α β γ δ : Type} {Q : α → β → Prop} {Q' : γ → δ → Prop} {m : PM α} {m' : PM β} {f : α → PM γ} {f' : β → PM δ}
    (hm : Lock _ _ Q m m') (hf : ∀ a b, Q a b → Lock _ _ Q' (f a) (f' b)) : Lock _ _ Q' (m >>= f) (m' >>= f') := by
  intro s
  have h1 := hm s
  change EqualOutcome Q' (M.bind m f s) (M.bind m' f' s)
  unfold M.bind
  cases e : m s <;> cases e' : m' s <;> rw [e, e'] at h1 <;> first | exact h1.elim | skip
  · obtain ⟨rfl, hq⟩ := h1
    exact hf _ _ hq _
  all_goals exact h1

theorem lock_rel (hN : ∀ k v, N k v → v.hasIndet = false) : RelH N Lock where
  pure h _ := ⟨rfl, h⟩
  ub _ := trivial
  stuck _ := trivial
  fuel _ := trivial
  bind := Lock.bind
  prim m _ s := by
    cases m s <;> simp [EqualOutcome]
  indet v v' h hm := by
    have : v'.hasIndet = v.hasIndet := by
      cases hv : v.hasIndet with
      | false => exact hasIndet_up hN v v' h hv
      | true =>
        cases hv' : v'.hasIndet with
        | true => rfl
        | false => rw [hasIndet_down v v' h hv'] at hv; cases hv
    rw [this]
    split
    · exact fun _ => trivial
    · exact hm

/-- whatever the newer program reads, the older one reads as well, with a part of the errors -/
def Down (α β : Type) (Q : α → β → Prop) (m : PM α) (m' : PM β) : Prop :=
  ∀ s s' b s1', FewerErrors s s' → m' s' = .ok b s1' → ∃ a s1, m s = .ok a s1 ∧ FewerErrors s1 s1' ∧ Q a b

theorem Down.bind {α β γ δ : Type} {Q : α → β → Prop} {Q' : γ → δ → Prop} {m : PM α} {m' : PM β} {f : α → PM γ} {f' : β → PM δ}
    (hm : Down _ _ Q m m') (hf : ∀ a b, Q a b → Down _ _ Q' (f a) (f' b)) : Down _ _ Q' (m >>= f) (m' >>= f') := by
  intro s s' b s2' hs h
  obtain ⟨b1, s1', h1, h2⟩ := M.bind_eq_ok.1 h
  obtain ⟨a1, s1, e1, hs1, q1⟩ := hm _ _ _ _ hs h1
  obtain ⟨a2, s2, e2, hs2, q2⟩ := hf _ _ q1 _ _ _ _ hs1 h2
  exact ⟨a2, s2, by rw [M.bind_ok e1]; exact e2, hs2, q2⟩

theorem down_rel : RelH N Down where
  pure h s s' b s1' hs e := by cases e; exact ⟨_, s, rfl, hs, h⟩
  ub s s' b s1' hs e := by cases e
  stuck s s' b s1' hs e := by cases e
  fuel s s' b s1' hs e := by cases e
  bind := Down.bind
  prim m hm s s' b s1' hs e := by
    obtain ⟨s1, e1, h1⟩ := hm _ _ _ _ hs e
    exact ⟨b, s1, e1, h1, rfl⟩
  indet v v' h hm := by
    intro s s' b s1' hs e
    cases hv : v'.hasIndet with
    | true => rw [hv] at e; cases e
    | false =>
      rw [hv] at e
      rw [hasIndet_down v v' h hv]
      exact hm _ _ _ _ hs e

theorem pull_lock {added : FieldKey → Bool} {S : Ty → Prop} {E E' : Env} (hN : ∀ k v, N k v → added k = true ∧ v.hasIndet = false)
    (hM : MembersAdded added S E E') (hT : SameTimes E E') (hI : SameInit N S E E') (hO : SameOrder N E E')
    (hC : ClosedUnderParts E' S) (n : Nat) (t : Ty) (j : Json) (ht : S t) (hj : ¬ MentionsAdded added E' t j) (v v' : Val)
    (hv : Extends N v v') : Lock _ _ (Extends N) (pull E n t j v) (pull E' n t j v') := by
  induction n generalizing t j v v' with
  | zero => exact fun _ => trivial
  | succ n ih =>
    refine (lock_rel fun k v h => (hN k v h).2).pullStep (fun k v h => (hN k v h).1) hM hT hI hO hC ht (fun t' j' hp p p' hpp => ?_) ?_ hv
    · exact ih t' j' (hC _ _ _ _ hp ht) (fun hm => hj (.part hp hm)) p p' hpp
    · rintro c ci f ms rfl rfl hE hf ha st st' m g hst hm
      have hn : firstNamed f.name ms = none := by
        cases hx : firstNamed f.name ms with
        | none => rfl
        | some x => exact absurd (.here hE hf ha (by rw [hx]; rfl)) hj
      have : pullField (pull E' n) f ms st' = pure st' := by
        unfold pullField
        rw [findMember_eq, hn]
      rw [this]
      exact hm st' hst

theorem pull_down {added : FieldKey → Bool} {S : Ty → Prop} {E E' : Env} (hN : ∀ k v, N k v ↔ added k = true)
    (hM : MembersAdded added S E E') (hT : SameTimes E E') (hI : SameInit N S E E') (hO : SameOrder N E E')
    (hC : ClosedUnderParts E' S) (n : Nat) (t : Ty) (j : Json) (ht : S t) (v v' : Val)
    (hv : Extends N v v') : Down _ _ (Extends N) (pull E n t j v) (pull E' n t j v') := by
  induction n generalizing t j v v' with
  | zero => intro _ _ _ _ _ h; cases h
  | succ n ih =>
    refine down_rel.pullStep (fun k v h => (hN k v).1 h) hM hT hI hO hC ht (fun t' j' hp p p' hpp => ?_) ?_ hv
    · exact ih t' j' (hC _ _ _ _ hp ht) p p' hpp
    · rintro c ci f ms rfl rfl hE hf ha st st' m g hst hm s s' b s2' hs h
      obtain ⟨st'', s1', h1, h2⟩ := M.bind_eq_ok.1 h
      have key : FewerErrors s s1' ∧ Extends N (.obj st) (.obj st'') := by
        unfold pullField at h1
        cases hm : findMember f.name ms with
        | none => rw [hm] at h1; cases h1; exact ⟨hs, hst⟩
        | some j =>
          cases hx : st'.get? f.key with
          | none => simp only [hm, hx] at h1; cases h1
          | some x =>
            simp only [hm, hx] at h1
            obtain ⟨y, s3, h3, h4⟩ := M.bind_eq_ok.1 h1
            cases h4
            refine ⟨?_, hst.setNew hx ((hN _ _).2 ha)⟩
            have hq := pull_errInv E' n f.ty j x
            cases s' with
            | none =>
              cases s <;> first | exact hs.elim | skip
              rw [withMember_none] at h3
              have hq := hq.1
              cases hr : pull E' n f.ty j x none <;> rw [hr] at h3 hq <;> cases h3
              cases hq
              trivial
            | some s' =>
              cases s <;> first | exact hs.elim | skip
              rename_i s
              rw [withMember_some] at h3
              have hq := hq.2 { s' with member := some f.name }
              cases hr : pull E' n f.ty j x (some { s' with member := some f.name }) <;> rw [hr] at h3 hq <;> cases h3
              obtain ⟨st', new, rfl, e1, e2, e3, e4, -, -⟩ := hq
              obtain ⟨g1, g2, g3, g4⟩ := hs
              refine ⟨e2.trans g1, e3.trans g2, g3, ?_⟩
              simp only [e1, List.map_append]
              exact g4.trans (List.sublist_append_left _ _)
      exact hm st'' key.2 _ _ _ _ key.1 h2

end Verif
