import Verif.Lemmas.LeftTyped
import Verif.Props.JsonMaps

/-!
# Reading again after an exception
-/

namespace Verif

/-- If nothing is fatal, `m` returns `a`. -/
def Calm {α : Type} (m : PM α) (a : α) : Prop :=
  ∀ st, NoneFatal st.throwOn → ∃ st', NoneFatal st'.throwOn ∧ m (some st) = .ok a (some st')

namespace Calm
variable {α β : Type}

theorem pure (a : α) : Calm (Pure.pure a : PM α) a := fun st h => ⟨st, h, rfl⟩

theorem bind {m : PM α} {f : α → PM β} {a : α} {b : β} (hm : Calm m a) (hf : Calm (f a) b) : Calm (m >>= f) b := by
  intro st h
  obtain ⟨st1, h1, h2⟩ := hm st h
  obtain ⟨st2, h3, h4⟩ := hf st1 h1
  exact ⟨st2, h3, by rw [M.bind_ok h2, h4]⟩

theorem map {m : PM α} {a : α} (g : α → β) (hm : Calm m a) : Calm (m >>= fun a => Pure.pure (g a)) (g a) := hm.bind (pure _)

theorem report (k : ErrKind) (e a : JType) : Calm (report k e a) () :=
  fun st h => ⟨st.push (st.mk' k e a), h, report_none_fatal k e a st h⟩

theorem withMember {m : PM α} {a : α} (n : Str) (h : Calm m a) : Calm (withMember n m) a := by
  intro st hst
  obtain ⟨st', h1, h2⟩ := h { st with member := some n } hst
  exact ⟨{ st' with member := st.member }, h1, by rw [withMember_some, h2]; rfl⟩

theorem withRecord {m : PM α} {a : α} (n : Str) (h : Calm m a) : Calm (withRecord n m) a := by
  intro st hst
  obtain ⟨st', h1, h2⟩ := h { st with record := some n } hst
  exact ⟨{ st' with record := st.record }, h1, by rw [withRecord_some, h2]; rfl⟩

theorem setIndex (i : Nat) : Calm (setIndex i) () := fun st h => ⟨{ st with index := i }, h, rfl⟩

end Calm

/-- Whatever is returned is also returned if nothing is fatal. -/
def QInv (α : Type) (m : PM α) : Prop := ∀ s a s', m s = .ok a s' → Calm m a

theorem qInv_closed : Closed QInv where
  pure a := fun s b s' h => by cases h; exact Calm.pure a
  ub := fun s b s' h => by cases h
  stuck := fun s b s' h => by cases h
  fuel := fun s b s' h => by cases h
  bind m f hm hf := by
    intro s b s' h
    obtain ⟨a, s1, h1, h2⟩ := M.bind_eq_ok.1 h
    exact (hm _ _ _ h1).bind (hf a _ _ _ h2)
  report k e a := fun s b s' _ => Calm.report k e a
  dup := by
    intro s b s' _ st hst
    exact Calm.report .unexpectedDuplicate .array .array st hst
  member n m hm := by
    intro s a s' h
    refine Calm.withMember n ?_
    cases s with
    | none =>
      rw [withMember_none] at h
      cases h1 : m none with
      | ok a' s1 => rw [h1] at h; cases h; exact hm _ _ _ h1
      | _ => rw [h1] at h; cases h
    | some st =>
      rw [withMember_some] at h
      cases h1 : m (some { st with member := some n }) with
      | ok a' s1 => rw [h1] at h; cases h; exact hm _ _ _ h1
      | _ => rw [h1] at h; cases h
  record n m hm := by
    intro s a s' h
    refine Calm.withRecord n ?_
    cases s with
    | none =>
      rw [withRecord_none] at h
      cases h1 : m none with
      | ok a' s1 => rw [h1] at h; cases h; exact hm _ _ _ h1
      | _ => rw [h1] at h; cases h
    | some st =>
      rw [withRecord_some] at h
      cases h1 : m (some { st with record := some n }) with
      | ok a' s1 => rw [h1] at h; cases h; exact hm _ _ _ h1
      | _ => rw [h1] at h; cases h
  idx f hf js i b := by
    induction js generalizing i b with
    | nil =>
      intro s a s' h
      simp only [forIdx] at h ⊢
      obtain ⟨u, s1, h1, h2⟩ := M.bind_eq_ok.1 h
      cases h2
      exact (Calm.setIndex _).bind (Calm.pure b)
    | cons j js ih =>
      intro s a s' h
      simp only [forIdx] at h ⊢
      obtain ⟨u, s1, h1, h2⟩ := M.bind_eq_ok.1 h
      obtain ⟨b1, s2, h3, h4⟩ := M.bind_eq_ok.1 h2
      exact (Calm.setIndex _).bind ((hf j b _ _ _ h3).bind (ih _ _ _ _ _ h4))

theorem noneFatal_init : NoneFatal ErrSt.init.throwOn := by
  intro k
  cases k <;> decide

/-- `Calm` reading with every sufficient budget -/
def EvQ (E : Env) (t : Ty) (j : Json) (p v : Val) : Prop := Ev fun n => Calm (pull E n t j p) v

theorem Gives.evQ {E : Env} {t : Ty} {j : Json} {p v : Val} (h : Gives E t j p v) : EvQ E t j p v := by
  obtain ⟨n, s, s', h⟩ := h
  refine ⟨n, fun m hm => ?_⟩
  have := (pull_mono hm h (by simp)).trans rfl
  exact qInv_closed.pull m t j p _ _ _ this

theorem EvQ.gives {E : Env} {t : Ty} {j : Json} {p v : Val} (h : EvQ E t j p v) : Gives E t j p v := by
  obtain ⟨n, h⟩ := h.exists
  obtain ⟨st', -, h⟩ := h .init noneFatal_init
  exact ⟨n, _, _, h⟩

theorem gives_iff {E : Env} {t : Ty} {j : Json} {p v : Val} : Gives E t j p v ↔ EvQ E t j p v := ⟨Gives.evQ, EvQ.gives⟩

theorem Gives.unique {E : Env} {t : Ty} {j : Json} {p v w : Val} (h : Gives E t j p v) (h' : Gives E t j p w) : v = w := by
  obtain ⟨n, h1, h2⟩ := (h.evQ.and h'.evQ).exists
  obtain ⟨st1, -, h1⟩ := h1 .init noneFatal_init
  obtain ⟨st2, -, h2⟩ := h2 .init noneFatal_init
  rw [h1] at h2
  cases h2
  rfl


/-! ## Tuples -/

inductive TupRead (E : Env) : List Ty → List Json → List Val → List Val → Prop
  | nil : TupRead E [] [] [] []
  | cons {t ts j js x xs x' xs'} : Gives E t j x x' → TupRead E ts js xs xs' → TupRead E (t :: ts) (j :: js) (x :: xs) (x' :: xs')

section
variable {E : Env}

theorem pullTuple_tupRead {n : Nat} {ts : List Ty} {js : List Json} {ps vs : List Val} {s s'}
    (h : pullTuple (pull E n) ts js ps s = .ok vs s') : TupRead E ts js ps vs := by
  induction ts generalizing js ps vs s with
  | nil => cases js <;> cases ps <;> cases h; exact .nil
  | cons t ts ih =>
    cases js with
    | nil => cases ps <;> cases h
    | cons j js =>
      cases ps with
      | nil => cases h
      | cons p ps =>
        simp only [pullTuple] at h
        obtain ⟨v, s1, h1, h⟩ := M.bind_eq_ok.1 h
        obtain ⟨vs', s2, h2, h⟩ := M.bind_eq_ok.1 h
        cases h
        exact .cons ⟨n, _, _, h1⟩ (ih h2)

theorem TupRead.evQ {ts : List Ty} {js : List Json} {ps vs : List Val} (h : TupRead E ts js ps vs) :
    Ev fun n => Calm (pullTuple (pull E n) ts js ps) vs := by
  induction h with
  | nil => exact Ev.of fun n => Calm.pure _
  | cons h1 _ ih => exact (h1.evQ.and ih).imp fun n h => h.1.bind (h.2.bind (Calm.pure _))

theorem TupRead.length {ts : List Ty} {js : List Json} {ps vs : List Val} (h : TupRead E ts js ps vs) :
    js.length = ts.length ∧ ps.length = ts.length ∧ vs.length = ts.length := by
  induction h with
  | nil => exact ⟨rfl, rfl, rfl⟩
  | cons _ _ ih => exact ⟨by simp [ih.1], by simp [ih.2.1], by simp [ih.2.2]⟩

theorem gives_tuple {ts : List Ty} {js : List Json} {ps : List Val} {v : Val} (hl : js.length = ts.length) :
    Gives E (.tuple ts) (.arr js) (.tup ps) v ↔ ∃ vs, v = .tup vs ∧ TupRead E ts js ps vs := by
  constructor
  · rintro ⟨n, s, s', h⟩
    cases n with
    | zero => cases h
    | succ n =>
      simp only [pull, pullStep] at h
      rw [if_neg (by simpa using hl)] at h
      obtain ⟨vs, s1, h1, h⟩ := M.bind_eq_ok.1 h
      cases h
      exact ⟨vs, rfl, pullTuple_tupRead h1⟩
  · rintro ⟨vs, rfl, h⟩
    refine EvQ.gives (h.evQ.succ fun n h => ?_)
    simp only [pull, pullStep]
    rw [if_neg (by simpa using hl)]
    exact h.map _

theorem gives_pair {a b : Ty} {j : Json} {p v : Val} : Gives E (.pair a b) j p v ↔ Gives E (.tuple [a, b]) j p v := by
  have : ∀ n, pull E n (.pair a b) j p = pull E n (.tuple [a, b]) j p := by
    intro n
    cases n with
    | zero => rfl
    | succ n => cases j <;> rfl
  simp only [Gives, this]

theorem left_pair {a b : Ty} {j : Json} {p q : Val} (h : Left E (.pair a b) j p q) : Left E (.tuple [a, b]) j p q := by
  have h0 : Gives E (.tuple []) (.arr []) (.tup []) (.tup []) := ⟨1, none, none, rfl⟩
  cases h with
  | same p ho => exact .same p fun h => ho (by cases j <;> exact h)
  | @fst _ _ j j' x y q h => exact Left.tuple (ts1 := []) (ts2 := [b]) (js1 := []) (js2 := [j']) (ps := []) rfl rfl rfl h0 h
  | @snd _ _ j j' x x' y z q h1 h2 =>
    refine Left.tuple (ts1 := [a]) (ts2 := []) (js1 := [j]) (js2 := []) (ps := [x]) (vs := [x']) (ps2 := z) rfl rfl rfl ?_ h2
    exact (gives_tuple rfl).2 ⟨[x'], rfl, .cons h1 .nil⟩

theorem TupRead.append {ts1 ts2 : List Ty} {js1 js2 : List Json} {ps1 ps2 vs : List Val} (h1 : js1.length = ts1.length)
    (h2 : ps1.length = ts1.length) : TupRead E (ts1 ++ ts2) (js1 ++ js2) (ps1 ++ ps2) vs ↔
      ∃ vs1 vs2, vs = vs1 ++ vs2 ∧ TupRead E ts1 js1 ps1 vs1 ∧ TupRead E ts2 js2 ps2 vs2 := by
  induction ts1 generalizing js1 ps1 vs with
  | nil =>
    cases js1 with
    | cons => cases h1
    | nil => cases ps1 with
      | cons => cases h2
      | nil =>
        constructor
        · exact fun h => ⟨[], vs, rfl, .nil, h⟩
        · rintro ⟨vs1, vs2, rfl, h, h'⟩
          cases h
          exact h'
  | cons t ts ih =>
    cases js1 with
    | nil => cases h1
    | cons j js1 => cases ps1 with
      | nil => cases h2
      | cons p ps1 =>
        constructor
        · intro h
          cases h with
          | cons h3 h4 =>
            obtain ⟨vs1, vs2, rfl, h5, h6⟩ := (ih (by simpa using h1) (by simpa using h2)).1 h4
            exact ⟨_ :: vs1, vs2, rfl, .cons h3 h5, h6⟩
        · rintro ⟨vs1, vs2, rfl, h, h'⟩
          cases h with
          | cons h3 h4 => exact .cons h3 ((ih (by simpa using h1) (by simpa using h2)).2 ⟨_, _, rfl, h4, h'⟩)

theorem TupRead.unique {ts : List Ty} {js : List Json} {ps vs ws : List Val} (h : TupRead E ts js ps vs) (h' : TupRead E ts js ps ws) :
    vs = ws := by
  induction h generalizing ws with
  | nil => cases h'; rfl
  | cons h1 _ ih =>
    cases h' with
    | cons h3 h4 => rw [h1.unique h3, ih h4]

/-! ## Maps -/

inductive MapRead (E : Env) (t : Ty) : List (Key × Json) → List (Val × Val) → List (Val × Val) → Prop
  | nil (kvs) : MapRead E t [] kvs kvs
  | cons {k j ms kvs kvs' v} : Gives E t j ((mapFind (E.lt .str) (.str (cstrOf k.bytes)) kvs).getD (E.valInit t)) v →
      MapRead E t ms (mapSet (E.lt .str) (.str (cstrOf k.bytes)) v kvs) kvs' → MapRead E t ((k, j) :: ms) kvs kvs'

theorem pullMapEntries_mapRead {n : Nat} {t : Ty} {ms : List (Key × Json)} {kvs kvs' : List (Val × Val)} {s s'}
    (h : pullMapEntries E (pull E n) t ms kvs s = .ok kvs' s') : MapRead E t ms kvs kvs' := by
  induction ms generalizing kvs s with
  | nil => cases h; exact .nil _
  | cons m ms ih =>
    obtain ⟨k, j⟩ := m
    simp only [pullMapEntries] at h
    obtain ⟨v, s1, h1, h⟩ := M.bind_eq_ok.1 h
    exact .cons ⟨n, _, _, h1⟩ (ih h)

theorem MapRead.evQ {t : Ty} {ms : List (Key × Json)} {kvs kvs' : List (Val × Val)} (h : MapRead E t ms kvs kvs') :
    Ev fun n => Calm (pullMapEntries E (pull E n) t ms kvs) kvs' := by
  induction h with
  | nil => exact Ev.of fun n => Calm.pure _
  | cons h1 _ ih => exact (h1.evQ.and ih).imp fun n h => h.1.bind h.2

theorem gives_map {h : Bool} {t : Ty} {ms : List (Key × Json)} {kvs : List (Val × Val)} {v : Val} :
    Gives E (.map h false .str t) (.obj ms) (.map kvs) v ↔ ∃ kvs', v = .map kvs' ∧ MapRead E t ms kvs kvs' := by
  constructor
  · rintro ⟨n, s, s', h⟩
    cases n with
    | zero => cases h
    | succ n =>
      simp only [pull, pullStep] at h
      obtain ⟨vs, s1, h1, h⟩ := M.bind_eq_ok.1 h
      cases h
      exact ⟨vs, rfl, pullMapEntries_mapRead h1⟩
  · rintro ⟨vs, rfl, h⟩
    refine EvQ.gives (h.evQ.succ fun n h => ?_)
    simp only [pull, pullStep]
    exact h.map _

theorem MapRead.append {t : Ty} {ms ms' : List (Key × Json)} {kvs kvs' : List (Val × Val)} :
    MapRead E t (ms ++ ms') kvs kvs' ↔ ∃ kvs1, MapRead E t ms kvs kvs1 ∧ MapRead E t ms' kvs1 kvs' := by
  induction ms generalizing kvs with
  | nil =>
    constructor
    · exact fun h => ⟨kvs, .nil _, h⟩
    · rintro ⟨kvs1, h, h'⟩; cases h; exact h'
  | cons m ms ih =>
    constructor
    · intro h
      cases h with
      | cons h1 h2 =>
        obtain ⟨kvs1, h3, h4⟩ := ih.1 h2
        exact ⟨kvs1, .cons h1 h3, h4⟩
    · rintro ⟨kvs1, h, h'⟩
      cases h with
      | cons h1 h2 => exact .cons h1 (ih.2 ⟨kvs1, h2, h'⟩)

theorem MapRead.unique {t : Ty} {ms : List (Key × Json)} {kvs kvs1 kvs2 : List (Val × Val)} (h : MapRead E t ms kvs kvs1)
    (h' : MapRead E t ms kvs kvs2) : kvs1 = kvs2 := by
  induction h with
  | nil => cases h'; rfl
  | cons h1 _ ih =>
    cases h' with
    | cons h3 h4 =>
      cases h1.unique h3
      exact ih h4

def StrKeys (kvs : List (Val × Val)) : Prop := ∀ q ∈ kvs, ∃ k, q.1 = .str k

variable (hE : StrTotal E)
include hE

theorem mapFind_mapSet_eq (k : Str) (v : Val) (kvs : List (Val × Val)) :
    mapFind (E.lt .str) (.str k) (mapSet (E.lt .str) (.str k) v kvs) = some v := by
  induction kvs with
  | nil => simp [mapSet, mapFind, hE.irrefl]
  | cons q kvs ih =>
    obtain ⟨k', v'⟩ := q
    unfold mapSet
    by_cases h1 : E.lt .str (.str k) k' = true
    · rw [if_pos h1]; simp [mapFind, hE.irrefl]
    · rw [if_neg h1]
      by_cases h2 : E.lt .str k' (.str k) = true
      · rw [if_pos h2]; unfold mapFind; rw [if_neg h1, if_pos h2, ih]
      · rw [if_neg h2]; unfold mapFind; rw [if_neg h1, if_neg h2]

theorem mapSet_mapSet (k : Str) (v w : Val) (kvs : List (Val × Val)) :
    mapSet (E.lt .str) (.str k) v (mapSet (E.lt .str) (.str k) w kvs) = mapSet (E.lt .str) (.str k) v kvs := by
  induction kvs with
  | nil => simp [mapSet, hE.irrefl]
  | cons q kvs ih =>
    obtain ⟨k', v'⟩ := q
    by_cases h1 : E.lt .str (.str k) k' = true
    · simp [mapSet, h1, hE.irrefl]
    · by_cases h2 : E.lt .str k' (.str k) = true
      · simp [mapSet, h1, h2, ih]
      · simp [mapSet, h1, h2]

omit hE in
theorem mapSet_same (lt : Val → Val → Bool) (k v : Val) (kvs : List (Val × Val)) (h : mapFind lt k kvs = some v) :
    mapSet lt k v kvs = kvs := by
  induction kvs with
  | nil => cases h
  | cons q kvs ih =>
    obtain ⟨k', v'⟩ := q
    unfold mapFind at h
    unfold mapSet
    by_cases h1 : lt k k' = true
    · rw [if_pos h1] at h; cases h
    · rw [if_neg h1] at h ⊢
      by_cases h2 : lt k' k = true
      · rw [if_pos h2] at h ⊢; rw [ih h]
      · rw [if_neg h2] at h ⊢; cases h; rfl

theorem mapFind_mapSet_ne {k k' : Str} (hk : k' ≠ k) (v : Val) (kvs : List (Val × Val)) (hs : StrKeys kvs) :
    mapFind (E.lt .str) (.str k') (mapSet (E.lt .str) (.str k) v kvs) = mapFind (E.lt .str) (.str k') kvs := by
  induction kvs with
  | nil =>
    simp only [mapSet, mapFind]
    rcases hE.total k' k hk with h | h
    · simp [h]
    · simp [h]
  | cons q kvs ih =>
    obtain ⟨a, b⟩ := q
    obtain ⟨a, rfl⟩ : ∃ a', a = .str a' := hs _ List.mem_cons_self
    have ih := ih fun q hq => hs q (List.mem_cons_of_mem _ hq)
    by_cases h1 : E.lt .str (.str k) (.str a) = true
    · simp only [mapSet, h1, if_true]
      by_cases h2 : E.lt .str (.str k') (.str k) = true
      · have h3 := hE.trans _ _ _ h2 h1
        simp [mapFind, h2, h3]
      · have h3 := (hE.total k' k hk).resolve_left h2
        conv => lhs; unfold mapFind
        rw [if_neg h2, if_pos h3]
    · by_cases h2 : E.lt .str (.str a) (.str k) = true
      · simp only [mapSet, h1, h2, if_true, mapFind, ih, Bool.false_eq_true, if_false]
      · have : a = k := by
          by_cases h : a = k
          · exact h
          · rcases hE.total a k h with h | h
            · exact absurd h h2
            · exact absurd h h1
        subst this
        simp only [mapSet, h1, Bool.false_eq_true, if_false]
        rcases hE.total k' a hk with h | h
        · simp [mapFind, h]
        · simp [mapFind, h]

omit hE in
theorem strKeys_mapSet {lt : Val → Val → Bool} {k : Str} {v : Val} {kvs : List (Val × Val)} (h : StrKeys kvs) :
    StrKeys (mapSet lt (.str k) v kvs) := by
  intro q hq
  rcases mapSet_mem _ _ _ _ _ hq with rfl | ⟨k', rfl, v', h'⟩ | h'
  · exact ⟨k, rfl⟩
  · exact h (k', v') h'
  · exact h q h'

/-- entries of other keys stay -/
theorem MapRead.other {t : Ty} {ms : List (Key × Json)} {kvs kvs' : List (Val × Val)} (h : MapRead E t ms kvs kvs') (hs : StrKeys kvs)
    {k : Str} (hk : ∀ m ∈ ms, cstrOf m.1.bytes ≠ k) : mapFind (E.lt .str) (.str k) kvs' = mapFind (E.lt .str) (.str k) kvs := by
  induction h with
  | nil => rfl
  | cons h1 _ ih =>
    rw [ih (strKeys_mapSet hs) fun m hm => hk m (List.mem_cons_of_mem _ hm),
      mapFind_mapSet_ne hE (fun h => hk _ List.mem_cons_self h.symm) _ _ hs]

end

/-! ## Classes -/

section
variable {E : Env}

theorem MembersRead.append {ms : List (Key × Json)} {fs fs' : List Field} {st st' : Store} :
    MembersRead E ms (fs ++ fs') st st' ↔ ∃ st1, MembersRead E ms fs st st1 ∧ MembersRead E ms fs' st1 st' := by
  induction fs generalizing st with
  | nil =>
    constructor
    · exact fun h => ⟨st, .nil _, h⟩
    · rintro ⟨st1, h, h'⟩; cases h; exact h'
  | cons f fs ih =>
    constructor
    · intro h
      cases h with
      | absent h1 h2 =>
        obtain ⟨st1, h3, h4⟩ := ih.1 h2
        exact ⟨st1, .absent h1 h3, h4⟩
      | present h1 h2 h3 h4 =>
        obtain ⟨st1, h5, h6⟩ := ih.1 h4
        exact ⟨st1, .present h1 h2 h3 h5, h6⟩
    · rintro ⟨st1, h, h'⟩
      cases h with
      | absent h1 h2 => exact .absent h1 (ih.2 ⟨st1, h2, h'⟩)
      | present h1 h2 h3 h4 => exact .present h1 h2 h3 (ih.2 ⟨st1, h4, h'⟩)

theorem MembersRead.unique {ms : List (Key × Json)} {fs : List Field} {st st1 st2 : Store} (h : MembersRead E ms fs st st1)
    (h' : MembersRead E ms fs st st2) : st1 = st2 := by
  induction h with
  | nil => cases h'; rfl
  | absent h1 _ ih =>
    cases h' with
    | absent _ h4 => exact ih h4
    | present h3 => rw [h1] at h3; cases h3
  | present h1 h2 h3 _ ih =>
    cases h' with
    | absent h4 => rw [h1] at h4; cases h4
    | present h4 h5 h6 h7 =>
      rw [h1] at h4; cases h4
      rw [h2] at h5; cases h5
      cases h3.unique h6
      exact ih h7

theorem pullFields_membersRead {n : Nat} {fs : List Field} {ms : List (Key × Json)} {st st' : Store} {s s'}
    (h : pullFields (pull E n) fs ms st s = .ok st' s') : MembersRead E ms fs st st' := by
  induction fs generalizing st s with
  | nil => cases h; exact .nil _
  | cons f fs ih =>
    simp only [pullFields] at h
    obtain ⟨st1, s1, h1, h⟩ := M.bind_eq_ok.1 h
    unfold pullField at h1
    cases hm : findMember f.name ms with
    | none => rw [hm] at h1; cases h1; exact .absent hm (ih h)
    | some j =>
      rw [hm] at h1
      dsimp only at h1
      cases hg : st.get? f.key with
      | none => rw [hg] at h1; cases h1
      | some x =>
        rw [hg] at h1
        dsimp only at h1
        obtain ⟨v, s2, h1, h2⟩ := M.bind_eq_ok.1 h1
        cases h2
        have : ∃ s3 s4, pull E n f.ty j x s3 = .ok v s4 := by
          cases s with
          | none =>
            rw [withMember_none] at h1
            cases h3 : pull E n f.ty j x none with
            | ok a s3 => rw [h3] at h1; cases h1; exact ⟨_, _, h3⟩
            | _ => rw [h3] at h1; cases h1
          | some es =>
            rw [withMember_some] at h1
            cases h3 : pull E n f.ty j x (some { es with member := some f.name }) with
            | ok a s3 => rw [h3] at h1; cases h1; exact ⟨_, _, h3⟩
            | _ => rw [h3] at h1; cases h1
        exact .present hm hg ⟨n, this⟩ (ih h)

theorem MembersRead.evQ {ms : List (Key × Json)} {fs : List Field} {st st' : Store} (h : MembersRead E ms fs st st') :
    Ev fun n => Calm (pullFields (pull E n) fs ms st) st' := by
  induction h with
  | nil => exact Ev.of fun n => Calm.pure _
  | absent h1 _ ih =>
    refine ih.imp fun n h => ?_
    simp only [pullFields, pullField, h1]
    exact (Calm.pure _).bind h
  | present h1 h2 h3 _ ih =>
    refine (h3.evQ.and ih).imp fun n h => ?_
    simp only [pullFields, pullField, h1, h2]
    exact ((h.1.withMember _).map _).bind h.2

theorem pullBases_basesRead {n : Nat} {bs : List ClassId} {ms : List (Key × Json)} {p v : Val} {s s'}
    (h : pullBases (pull E n) bs ms p s = .ok v s') : BasesRead E ms bs p v := by
  induction bs generalizing p s with
  | nil => cases h; exact .nil _
  | cons b bs ih =>
    simp only [pullBases] at h
    obtain ⟨v1, s1, h1, h⟩ := M.bind_eq_ok.1 h
    exact .cons ⟨n, _, _, h1⟩ (ih h)

theorem BasesRead.evQ {ms : List (Key × Json)} {bs : List ClassId} {p v : Val} (h : BasesRead E ms bs p v) :
    Ev fun n => Calm (pullBases (pull E n) bs ms p) v := by
  induction h with
  | nil => exact Ev.of fun n => Calm.pure _
  | cons h1 _ ih => exact (h1.evQ.and ih).imp fun n h => h.1.bind h.2

theorem gives_cls1 {c : ClassId} {ci : ClassInfo} (hc : E.cls c = some ci) (hpl : ci.json.pullable = true) {ms : List (Key × Json)}
    {p v : Val} : Gives E (.cls c) (.obj ms) p v ↔
      ∃ st st' : Store, BasesRead E ms ci.json.bases p (.obj st) ∧ MembersRead E ms ci.json.pullFields st st' ∧ v = .obj st' := by
  constructor
  · rintro ⟨n, s, s', h⟩
    cases n with
    | zero => cases h
    | succ n =>
      simp only [pull, pullStep, hc] at h
      rw [if_neg (by simp [hpl])] at h
      obtain ⟨v1, s1, h1, h⟩ := M.bind_eq_ok.1 h
      cases v1 with
      | obj st =>
        dsimp only at h
        obtain ⟨st', s2, h2, h⟩ := M.bind_eq_ok.1 h
        cases h
        refine ⟨st, st', pullBases_basesRead h1, ?_, rfl⟩
        by_cases hr : ci.json.setsRecord = true
        · rw [if_pos hr] at h2
          cases s1 with
          | none =>
            rw [withRecord_none] at h2
            cases h3 : pullFields (pull E n) ci.json.pullFields ms st none with
            | ok a s3 => rw [h3] at h2; cases h2; exact pullFields_membersRead h3
            | _ => rw [h3] at h2; cases h2
          | some es =>
            rw [withRecord_some] at h2
            cases h3 : pullFields (pull E n) ci.json.pullFields ms st (some { es with record := some ci.qname }) with
            | ok a s3 => rw [h3] at h2; cases h2; exact pullFields_membersRead h3
            | _ => rw [h3] at h2; cases h2
        · rw [if_neg hr] at h2
          exact pullFields_membersRead h2
      | _ => cases h
  · rintro ⟨st, st', h1, h2, rfl⟩
    refine EvQ.gives ((h1.evQ.and h2.evQ).succ fun n h => ?_)
    simp only [pull, pullStep, hc]
    rw [if_neg (by simp [hpl])]
    refine h.1.bind ?_
    dsimp only
    by_cases hr : ci.json.setsRecord = true
    · rw [if_pos hr]; exact (h.2.withRecord _).map _
    · rw [if_neg hr]; exact h.2.map _

theorem basesRead_flat {ms : List (Key × Json)} {cs : List ClassId} {Q : List Field} (hQ : FlatPull E cs Q) {st : Store} {v : Val} :
    BasesRead E ms cs (.obj st) v ↔ ∃ st', v = .obj st' ∧ MembersRead E ms Q st st' := by
  induction hQ generalizing st v with
  | nil =>
    constructor
    · intro h; cases h; exact ⟨st, rfl, .nil _⟩
    · rintro ⟨st', rfl, h⟩; cases h; exact .nil _
  | @cons c ci cs bs fs hc hpl hb hf ihb ihf =>
    constructor
    · intro h
      cases h with
      | cons h1 h2 =>
        obtain ⟨st1, st2, h3, h4, rfl⟩ := (gives_cls1 hc hpl).1 h1
        obtain ⟨st3, h5, h6⟩ := ihb.1 h3
        cases h5
        obtain ⟨st4, rfl, h7⟩ := ihf.1 h2
        exact ⟨st4, rfl, MembersRead.append.2 ⟨_, MembersRead.append.2 ⟨_, h6, h4⟩, h7⟩⟩
    · rintro ⟨st', rfl, h⟩
      obtain ⟨st2, h1, h2⟩ := MembersRead.append.1 h
      obtain ⟨st1, h3, h4⟩ := MembersRead.append.1 h1
      exact .cons ((gives_cls1 hc hpl).2 ⟨st1, st2, ihb.2 ⟨st1, rfl, h3⟩, h4, rfl⟩) (ihf.2 ⟨st', rfl, h2⟩)

theorem gives_cls {c : ClassId} {Q : List Field} (hQ : FlatPull E [c] Q) {ms : List (Key × Json)} {st : Store} {v : Val} :
    Gives E (.cls c) (.obj ms) (.obj st) v ↔ ∃ st', v = .obj st' ∧ MembersRead E ms Q st st' := by
  rw [← basesRead_flat hQ]
  constructor
  · exact fun h => .cons h (.nil _)
  · intro h
    cases h with
    | cons h1 h2 => cases h2; exact h1

/-- what is left of an object of a class, in terms of all members -/
theorem left_flat {c : ClassId} {j : Json} {p q : Val} (h : Left E (.cls c) j p q) {cs : List ClassId} {Q : List Field}
    (hQ : FlatPull E (c :: cs) Q) {ms : List (Key × Json)} (hj : j = .obj ms) {st : Store} (hp : p = .obj st) :
    ∃ Q1 f Q2, ∃ st1 : Store, ∃ j x q0, Q = Q1 ++ f :: Q2 ∧ MembersRead E ms Q1 st st1 ∧ findMember f.name ms = some j ∧
      st1.get? f.key = some x ∧ Left E f.ty j x q0 ∧ q = .obj (st1.set f.key q0) := by
  have key : ∀ {t j p q}, Left E t j p q → ∀ {c : ClassId} {cs : List ClassId} {Q : List Field}, t = .cls c → FlatPull E (c :: cs) Q →
      ∀ {ms : List (Key × Json)}, j = .obj ms → ∀ {st : Store}, p = .obj st →
      ∃ Q1 f Q2, ∃ st1 : Store, ∃ j x q0, Q = Q1 ++ f :: Q2 ∧ MembersRead E ms Q1 st st1 ∧ findMember f.name ms = some j ∧
        st1.get? f.key = some x ∧ Left E f.ty j x q0 ∧ q = .obj (st1.set f.key q0) := by
    intro t j p q h
    induction h with
    | same p ho => rintro c cs Q rfl hQ ms rfl; exact (ho trivial).elim
    | @base c ci bs b bs' ms p v q hc hb h1 h2 ih =>
      rintro c' cs Q hcc hQ ms' hms st rfl
      cases hcc
      cases hms
      cases hQ with
      | @cons _ ci' _ B fs hc' hpl hB hf =>
        rw [hc] at hc'
        cases hc'
        -- split the members of the bases
        have hsplit : ∀ {l1 l2 : List ClassId} {X : List Field}, FlatPull E (l1 ++ l2) X →
            ∃ X1 X2, X = X1 ++ X2 ∧ FlatPull E l1 X1 ∧ FlatPull E l2 X2 := by
          intro l1
          induction l1 with
          | nil => exact fun h => ⟨[], _, rfl, .nil, h⟩
          | cons a l1 ih =>
            intro l2 X h
            cases h with
            | cons h1 h2 h3 h4 =>
              obtain ⟨X1, X2, rfl, h5, h6⟩ := ih h4
              exact ⟨_, X2, by simp, .cons h1 h2 h3 h5, h6⟩
        rw [hb] at hB
        obtain ⟨B1, B2, rfl, hB1, hB2⟩ := hsplit hB
        obtain ⟨st0, rfl, h3⟩ := (basesRead_flat hB1).1 h1
        obtain ⟨Q1, f, Q2, st1, j, x, q0, rfl, h4, h5, h6, h7, h8⟩ := ih rfl hB2 rfl rfl
        exact ⟨B1 ++ Q1, f, Q2 ++ ci.json.pullFields ++ fs, st1, j, x, q0, by simp, MembersRead.append.2 ⟨_, h3, h4⟩, h5, h6, h7, h8⟩
    | @member c ci fs f fs' ms p st st' j x q hc hf h1 h2 h3 h4 h5 ih =>
      rintro c' cs Q hcc hQ ms' hms st0 rfl
      cases hcc
      cases hms
      cases hQ with
      | @cons _ ci' _ B fs1 hc' hpl hB hf1 =>
        rw [hc] at hc'
        cases hc'
        obtain ⟨st1, hst, h6⟩ := (basesRead_flat hB).1 h1
        cases hst
        exact ⟨B ++ fs, f, fs' ++ fs1, st', j, x, q, by simp [hf], MembersRead.append.2 ⟨_, h6, h2⟩, h3, h4, h5, rfl⟩
    | _ => intro c cs Q h; cases h
  exact key h rfl hQ hj hp

theorem set_set (st : Store) (k : FieldKey) (v w : Val) : (st.set k v).set k w = st.set k w := by
  induction st with
  | nil => rfl
  | cons a st ih =>
    obtain ⟨a1, a2⟩ := a
    by_cases h : a1 = k
    · simp [Store.set, h]
    · simp [Store.set, h, ih]

theorem set_same (st : Store) (k : FieldKey) (v : Val) (h : st.get? k = some v) : st.set k v = st := by
  induction st with
  | nil => rfl
  | cons a st ih =>
    obtain ⟨a1, a2⟩ := a
    by_cases hk : a1 = k
    · subst hk
      simp [Store.get?, List.lookup] at h
      simp [Store.set, h]
    · have hb : (k == a1) = false := beq_false_of_ne fun h => hk h.symm
      simp only [Store.get?, List.lookup, hb] at h
      simp only [Store.set, hk, if_false]
      rw [ih h]

theorem MembersRead.other {ms : List (Key × Json)} {fs : List Field} {st st' : Store} (h : MembersRead E ms fs st st') {k : FieldKey}
    (hk : ∀ f ∈ fs, f.key ≠ k) : st'.get? k = st.get? k := by
  induction h with
  | nil => rfl
  | absent _ _ ih => exact ih fun f hf => hk f (List.mem_cons_of_mem _ hf)
  | present _ _ _ _ ih =>
    rw [ih fun f hf => hk f (List.mem_cons_of_mem _ hf), get?_set_ne _ _ fun h => hk _ List.mem_cons_self h.symm]

/-- reading the members again changes nothing -/
def Stable (E : Env) (ms : List (Key × Json)) (fs : List Field) (st : Store) : Prop :=
  ∀ f ∈ fs, ∀ j, findMember f.name ms = some j → ∃ x, st.get? f.key = some x ∧ Gives E f.ty j x x

theorem Stable.read {ms : List (Key × Json)} {fs : List Field} {st : Store} (h : Stable E ms fs st) : MembersRead E ms fs st st := by
  induction fs with
  | nil => exact .nil _
  | cons f fs ih =>
    have ih := ih fun g hg => h g (List.mem_cons_of_mem _ hg)
    cases hm : findMember f.name ms with
    | none => exact .absent hm ih
    | some j =>
      obtain ⟨x, h1, h2⟩ := h f List.mem_cons_self j hm
      exact .present hm h1 h2 (by rw [set_same _ _ _ h1]; exact ih)

end

/-! ## Reading again -/

theorem uint64_nat (i : Nat) (hi : i < 2 ^ 64) : uint64? (.num (.int i)) = some i := by
  have h0 : IntTy.lo .u64 = 0 := rfl
  have h1 : IntTy.hi .u64 = ((2 ^ 64 : Nat) : Int) := rfl
  have h2 : IntTy.inRange .u64 (i : Int) = true := by
    simp only [IntTy.inRange, h0, h1]
    generalize 2 ^ 64 = N at hi
    simp only [Bool.and_eq_true, decide_eq_true_eq]
    omega
  simp only [uint64?, h2, if_true, Int.toNat_natCast]


section
variable {E : Env}

theorem replaced_pull {n : Nat} {t : Ty} {j : Json} {p v : Val} {s s'} (ht : WhollyReplaced t) (h : pull E n t j p s = .ok v s') :
    v = p ∨ ∀ p', pull E n t j p' s = .ok v s' := by
  cases n with
  | zero => cases h
  | succ n =>
    have hmm : ∀ {e : JType} {j : Json}, mismatch e j p s = .ok v s' → v = p := by
      intro e j h
      obtain ⟨_, _, _, h⟩ := M.bind_eq_ok.1 h
      cases h
      rfl
    have hrep : ∀ (k : ErrKind) (a b : JType), (do report k a b; pure p : PM Val) s = .ok v s' → v = p := by
      intro k a b h
      obtain ⟨_, _, _, h⟩ := M.bind_eq_ok.1 h
      cases h
      rfl
    have htime : ∀ (parse : Str → Option Int), pullTime parse j p s = .ok v s' → v = p ∨ ∀ p', pullTime parse j p' s = .ok v s' := by
      intro parse h
      unfold pullTime at h ⊢
      obtain ⟨x, s1, h1, h⟩ := M.bind_eq_ok.1 h
      cases hx : parse x with
      | none =>
        rw [hx] at h
        obtain ⟨_, _, _, h⟩ := M.bind_eq_ok.1 h
        cases h
        exact .inl rfl
      | some i =>
        rw [hx] at h
        refine .inr fun p' => ?_
        rw [M.bind_ok h1, hx]
        exact h
    cases t with
    | pair => exact ht.elim
    | tuple => exact ht.elim
    | map => exact ht.elim
    | cls => exact ht.elim
    | bool => cases j <;> first | exact .inr fun _ => h | exact .inl (hmm h)
    | int it => cases it <;> cases j <;> first | exact .inr fun _ => h | exact .inl (hmm h)
    | f32 => cases j <;> first | exact .inr fun _ => h | exact .inl (hmm h)
    | f64 => cases j <;> first | exact .inr fun _ => h | exact .inl (hmm h)
    | enum u =>
      simp only [pull, pullStep] at h ⊢
      cases he : enumNum (!u.signed) j with
      | none => rw [he] at h; exact .inl (hmm h)
      | some i => rw [he] at h; exact .inr fun _ => h
    | str => cases j <;> first | exact .inr fun _ => h | exact .inl (hmm h)
    | cstr => cases j <;> first | exact .inl (hmm h) | (cases h; exact .inl rfl)
    | sview => cases j <;> first | exact .inl (hmm h) | (cases h; exact .inl rfl)
    | dateTime => exact htime _ h
    | timeSpan => exact htime _ h
    | vec t => cases j <;> first | exact .inr fun _ => h | exact .inl (hmm h)
    | set a b t => cases j <;> first | exact .inr fun _ => h | exact .inl (hmm h)
    | opt t => cases j <;> exact .inr fun _ => h
    | uptr t => cases j <;> exact .inr fun _ => h
    | sptr t => cases j <;> exact .inr fun _ => h
    | mono => cases h
    | variant ts =>
      cases j with
      | obj ms =>
        simp only [pull, pullStep] at h ⊢
        cases hi : findMember (lit "index") ms with
        | none => rw [hi] at h; exact .inl (hrep _ _ _ h)
        | some ji =>
          cases hd : findMember (lit "data") ms with
          | none => rw [hi, hd] at h; exact .inl (hrep _ _ _ h)
          | some jd =>
            rw [hi, hd] at h
            dsimp only at h ⊢
            cases hu : uint64? ji with
            | none => rw [hu] at h; exact .inl (hrep _ _ _ h)
            | some i =>
              rw [hu] at h
              dsimp only at h ⊢
              cases ht : ts[i]? with
              | none => rw [ht] at h; exact .inl (hrep _ _ _ h)
              | some t' => rw [ht] at h; cases t' <;> exact .inr fun _ => h
      | _ => exact .inl (hmm h)

theorem replaced_idem {t : Ty} {j : Json} {p v : Val} (ht : WhollyReplaced t) (h : Gives E t j p v) : Gives E t j v v := by
  obtain ⟨n, s, s', h⟩ := h
  rcases replaced_pull ht h with rfl | h'
  · exact ⟨n, s, s', h⟩
  · exact ⟨n, s, s', h' v⟩

theorem not_opens {t : Ty} {j : Json} {p v : Val} (ht : ¬ WhollyReplaced t) (ho : ¬ Opens t j) (h : Gives E t j p v) : v = p := by
  obtain ⟨n, s, s', h⟩ := h
  cases n with
  | zero => cases h
  | succ n =>
    have hmm : ∀ {e : JType} {j : Json}, mismatch e j p s = .ok v s' → v = p := by
      intro e j h
      obtain ⟨_, _, _, h⟩ := M.bind_eq_ok.1 h
      cases h
      rfl
    have hsz : (do report .arraySizeMismatch .array .array; pure p : PM Val) s = .ok v s' → v = p := by
      intro h
      obtain ⟨_, _, _, h⟩ := M.bind_eq_ok.1 h
      cases h
      rfl
    cases t with
    | pair a b =>
      cases j with
      | arr js =>
        simp only [pull, pullStep] at h
        rw [if_pos (show _ ≠ _ from ho)] at h
        exact hsz h
      | _ => exact hmm h
    | tuple ts =>
      cases j with
      | arr js =>
        simp only [pull, pullStep] at h
        rw [if_pos (show _ ≠ _ from ho)] at h
        exact hsz h
      | _ => exact hmm h
    | map a m k t =>
      cases k with
      | str =>
        cases j with
        | obj => exact (ho trivial).elim
        | _ => exact hmm h
      | _ => cases h
    | cls c =>
      simp only [pull, pullStep] at h
      cases hc : E.cls c with
      | none => rw [hc] at h; cases h
      | some ci =>
        rw [hc] at h
        dsimp only at h
        by_cases hp : ci.json.pullable = false
        · rw [if_pos hp] at h; cases h
        · rw [if_neg hp] at h
          cases j with
          | obj => exact (ho trivial).elim
          | _ => exact hmm h
    | _ => exact (ht trivial).elim

theorem gives_variant {ts : List Ty} {ms : List (Key × Json)} {ji jd : Json} {i : Nat} {t : Ty} {p q v : Val}
    (hi : findMember (lit "index") ms = some ji) (hu : uint64? ji = some i) (hd : findMember (lit "data") ms = some jd)
    (ht : ts[i]? = some t) (h : Gives E (.variant ts) (.obj ms) p v) : Gives E (.variant ts) (.obj ms) q v := by
  obtain ⟨n, s, s', hg⟩ := h
  refine ⟨n, s, s', ?_⟩
  rw [← hg]
  cases n with
  | zero => rfl
  | succ n =>
    simp only [pull, pullStep, hi, hd, hu, ht]
    cases t <;> rfl

/-- `Gives` twice is `Gives` once -/
def Idem (E : Env) (t : Ty) (j : Json) : Prop := ∀ p v, JsonTyped E t p → Gives E t j p v → Gives E t j v v

theorem tupRead_idem {ts : List Ty} {js : List Json} {ps vs : List Val} (h : TupRead E ts js ps vs)
    (hI : ∀ (i : Nat) t j, ts[i]? = some t → js[i]? = some j → Idem E t j) (hp : ∀ (i : Nat) t v, ts[i]? = some t → ps[i]? = some v → JsonTyped E t v) :
    TupRead E ts js vs vs := by
  induction h with
  | nil => exact .nil
  | cons h1 _ ih =>
    refine .cons (hI 0 _ _ rfl rfl _ _ (hp 0 _ _ rfl rfl) h1) (ih ?_ ?_)
    · exact fun i t j h1 h2 => hI (i + 1) t j (by simpa using h1) (by simpa using h2)
    · exact fun i t v h1 h2 => hp (i + 1) t v (by simpa using h1) (by simpa using h2)

theorem membersRead_stable {ms : List (Key × Json)} {fs : List Field} {st st' : Store} (h : MembersRead E ms fs st st')
    (hnd : ∀ f ∈ fs, ∀ g ∈ fs, f.key = g.key → f = g) (hI : ∀ f ∈ fs, ∀ j, findMember f.name ms = some j → Idem E f.ty j)
    (hty : ∀ f ∈ fs, ∀ j x y, JsonTyped E f.ty x → Gives E f.ty j x y → JsonTyped E f.ty y)
    (hp : ∀ f ∈ fs, ∀ x, st.get? f.key = some x → JsonTyped E f.ty x) :
    Stable E ms fs st' ∧ ∀ f ∈ fs, ∀ x, st'.get? f.key = some x → JsonTyped E f.ty x := by
  suffices Stable E ms fs st' ∧ ∀ f : Field, (∀ g ∈ fs, f.key = g.key → f = g) → (∀ x, st.get? f.key = some x → JsonTyped E f.ty x) →
      ∀ x, st'.get? f.key = some x → JsonTyped E f.ty x from ⟨this.1, fun f hf => this.2 f (hnd f hf) (hp f hf)⟩
  induction h with
  | nil => exact ⟨fun f hf => (by cases hf), fun f _ h => h⟩
  | absent h1 _ ih =>
    obtain ⟨ih1, ih2⟩ := ih (fun f hf g hg => hnd f (List.mem_cons_of_mem _ hf) g (List.mem_cons_of_mem _ hg))
      (fun f hf => hI f (List.mem_cons_of_mem _ hf)) (fun f hf => hty f (List.mem_cons_of_mem _ hf)) (fun f hf => hp f (List.mem_cons_of_mem _ hf))
    refine ⟨fun g hg j hj => ?_, fun f hf h => ih2 f (fun g hg => hf g (List.mem_cons_of_mem _ hg)) h⟩
    rcases List.mem_cons.1 hg with rfl | hg
    · rw [h1] at hj; cases hj
    · exact ih1 g hg j hj
  | @present f fs st st' j x x' h1 h2 h3 h4 ih =>
    have hx : JsonTyped E f.ty x := hp _ List.mem_cons_self _ h2
    have hx' : JsonTyped E f.ty x' := hty _ List.mem_cons_self _ _ _ hx h3
    have hset : ∀ e : Field, (f.key = e.key → f = e) → (∀ y, st.get? e.key = some y → JsonTyped E e.ty y) →
        ∀ y, (st.set f.key x').get? e.key = some y → JsonTyped E e.ty y := by
      intro e he h y hy
      by_cases hk : e.key = f.key
      · cases he hk.symm
        rw [get?_set_eq st h2] at hy
        cases hy
        exact hx'
      · rw [get?_set_ne _ _ hk] at hy
        exact h y hy
    obtain ⟨ih1, ih2⟩ := ih (fun f hf g hg => hnd f (List.mem_cons_of_mem _ hf) g (List.mem_cons_of_mem _ hg))
      (fun f hf => hI f (List.mem_cons_of_mem _ hf)) (fun f hf => hty f (List.mem_cons_of_mem _ hf))
      (fun e he => hset e (hnd f List.mem_cons_self e (List.mem_cons_of_mem _ he)) (hp e (List.mem_cons_of_mem _ he)))
    refine ⟨fun g hg j' hj => ?_, fun e he h => ih2 e (fun g hg => he g (List.mem_cons_of_mem _ hg))
      (hset e (fun hk => (he f List.mem_cons_self hk.symm).symm) h)⟩
    by_cases hg' : g ∈ fs
    · exact ih1 g hg' j' hj
    · rcases List.mem_cons.1 hg with rfl | hg
      · rw [h1] at hj
        cases hj
        have hne : ∀ e ∈ fs, e.key ≠ g.key := fun e he hk => hg' (hnd e (List.mem_cons_of_mem _ he) g List.mem_cons_self hk ▸ he)
        exact ⟨x', by rw [h4.other hne, get?_set_eq st h2], hI _ List.mem_cons_self _ h1 _ _ hx h3⟩
      · exact (hg' hg).elim

/-- a member which is read anyway might be in another state -/
theorem stable_restore {ms : List (Key × Json)} {fs : List Field} {st : Store} (h : Stable E ms fs st)
    {f : Field} (hnd : ∀ g ∈ fs, g.key = f.key → g = f) (hf : f ∈ fs) {j : Json} {x q : Val} (hm : findMember f.name ms = some j)
    (hx : st.get? f.key = some x) (hg : Gives E f.ty j q x) : MembersRead E ms fs (st.set f.key q) st := by
  induction fs with
  | nil => cases hf
  | cons g fs ih =>
    have hs : Stable E ms fs st := fun e he => h e (List.mem_cons_of_mem _ he)
    by_cases hk : g.key = f.key
    · cases hnd g List.mem_cons_self hk
      refine .present hm (get?_set_eq st hx) hg ?_
      rw [set_set, set_same _ _ _ hx]
      exact hs.read
    · have hf' : f ∈ fs := (List.mem_cons.1 hf).resolve_left fun h => hk (h ▸ rfl)
      have ih := ih hs (fun e he => hnd e (List.mem_cons_of_mem _ he)) hf'
      cases hg' : findMember g.name ms with
      | none => exact .absent hg' ih
      | some j' =>
        obtain ⟨y, h1, h2⟩ := h g List.mem_cons_self j' hg'
        have h1' : (st.set f.key q).get? g.key = some y := by rw [get?_set_ne _ _ hk]; exact h1
        exact .present hg' h1' h2 (by rw [set_same _ _ _ h1']; exact ih)

variable (hE : StrTotal E)

/-- reading the entries again changes nothing -/
def StableMap (E : Env) (t : Ty) (ms : List (Key × Json)) (kvs : List (Val × Val)) : Prop :=
  ∀ k j, (k, j) ∈ ms → ∃ x, mapFind (E.lt .str) (.str (cstrOf k.bytes)) kvs = some x ∧ Gives E t j x x

theorem StableMap.read {t : Ty} {ms : List (Key × Json)} {kvs : List (Val × Val)} (h : StableMap E t ms kvs) : MapRead E t ms kvs kvs := by
  induction ms with
  | nil => exact .nil _
  | cons m ms ih =>
    obtain ⟨k, j⟩ := m
    have ih := ih fun k j hm => h k j (List.mem_cons_of_mem _ hm)
    obtain ⟨x, h1, h2⟩ := h k j List.mem_cons_self
    exact .cons (v := x) (by rw [h1]; exact h2) (by rw [mapSet_same _ _ _ _ h1]; exact ih)

/-- typed entries -/
def TypedKV (E : Env) (t : Ty) (kvs : List (Val × Val)) : Prop := ∀ q ∈ kvs, JsonTyped E .str q.1 ∧ JsonTyped E t q.2

theorem TypedKV.str {t : Ty} {kvs : List (Val × Val)} (h : TypedKV E t kvs) : StrKeys kvs := by
  intro q hq
  have := (h q hq).1
  generalize q.1 = k at this
  cases this
  exact ⟨_, rfl⟩

theorem TypedKV.set {t : Ty} {kvs : List (Val × Val)} {lt : Val → Val → Bool} {k : Str} {v : Val} (h : TypedKV E t kvs)
    (hv : JsonTyped E t v) : TypedKV E t (mapSet lt (.str k) v kvs) := by
  intro q hq
  rcases mapSet_mem _ _ _ _ _ hq with rfl | ⟨k', rfl, v', h'⟩ | h'
  · exact ⟨.str _, hv⟩
  · exact ⟨(h (k', v') h').1, hv⟩
  · exact h q h'

theorem TypedKV.getD {t : Ty} {kvs : List (Val × Val)} {lt : Val → Val → Bool} {k : Val} (hr : JsonReadable E t) (h : TypedKV E t kvs) :
    JsonTyped E t ((mapFind lt k kvs).getD (E.valInit t)) := by
  cases hf : mapFind lt k kvs with
  | none => exact jsonTyped_valInit t (.inl hr)
  | some v =>
    obtain ⟨k', hk⟩ := mapFind_mem _ _ _ _ hf
    exact (h _ hk).2

include hE in
theorem mapRead_stable (hkt : JsonKeyTypes E) {t : Ty} (hr : JsonReadable E t) {ms : List (Key × Json)} {kvs kvs' : List (Val × Val)}
    (h : MapRead E t ms kvs kvs') (hnd : (ms.map fun m => cstrOf m.1.bytes).Nodup) (hI : ∀ k j, (k, j) ∈ ms → Idem E t j)
    (hp : TypedKV E t kvs) : StableMap E t ms kvs' ∧ TypedKV E t kvs' := by
  induction h with
  | nil => exact ⟨fun k j hm => (List.not_mem_nil hm).elim, hp⟩
  | @cons k j ms kvs kvs' v h1 h2 ih =>
    rw [List.map_cons, List.nodup_cons] at hnd
    have hp' := hp.set (lt := E.lt .str) (k := cstrOf k.bytes) (gives_typed hkt hr (hp.getD hr) h1)
    obtain ⟨h3, h4⟩ := ih hnd.2 (fun k j hm => hI k j (List.mem_cons_of_mem _ hm)) hp'
    refine ⟨fun k' j' hm => ?_, h4⟩
    rcases List.mem_cons.1 hm with hm | hm
    · cases hm
      refine ⟨v, ?_, hI _ _ List.mem_cons_self _ _ (hp.getD hr) h1⟩
      rw [h2.other hE hp'.str (k := cstrOf k.bytes) fun m hm he => hnd.1 (List.mem_map.2 ⟨m, hm, he⟩),
        mapFind_mapSet_eq hE]
    · exact h3 k' j' hm

theorem reads_flat {cs : List ClassId} {Q : List Field} (h : FlatPull E cs Q) : ∀ f ∈ Q, ∃ c ∈ cs, Reads E c f := by
  induction h with
  | nil => simp
  | @cons c ci cs bs fs hc _ _ _ ih1 ih2 =>
    intro f hf
    simp only [List.append_assoc, List.mem_append] at hf
    rcases hf with hf | hf | hf
    · obtain ⟨b, h1, h2⟩ := ih1 f hf
      exact ⟨c, List.mem_cons_self, .base hc h1 h2⟩
    · exact ⟨c, List.mem_cons_self, .own hc hf⟩
    · obtain ⟨b, h1, h2⟩ := ih2 f hf
      exact ⟨b, List.mem_cons_of_mem _ h1, h2⟩

theorem readable_of_reads {c : ClassId} {f : Field} (hr : JsonReadable E (.cls c)) (h : Reads E c f) : JsonReadable E f.ty := by
  induction h with
  | own hc hf => exact fun t' h => hr t' (.field hc hf h)
  | base hc hb _ ih => exact ih fun t' h => hr t' (.base hc hb h)

variable (hkt : JsonKeyTypes E)
include hE hkt

omit hE hkt in
theorem left_not_opens {t : Ty} {j : Json} {p q : Val} (ho : ¬ Opens t j) (h : Left E t j p q) : q = p := by
  cases h <;> first
    | rfl
    | exact (ho trivial).elim
    | exact (ho (by simp only [Opens, List.length_append, List.length_cons, List.length_nil]; omega)).elim
    | exact (ho rfl).elim

theorem reread_idem {t : Ty} {j : Json} (hR : Rereadable E t j) : JsonReadable E t → Idem E t j := by
  induction hR with
  | replaced ht => exact fun _ p v _ h => replaced_idem ht h
  | @mismatch t j ho =>
    intro hr p v hp h
    by_cases ht : WhollyReplaced t
    · exact replaced_idem ht h
    · cases not_opens ht ho h
      exact h
  | @tuple ts js hts ih =>
    intro hr p v hp h
    by_cases ho : Opens (.tuple ts) (.arr js)
    · cases hp with
      | tuple hp1 hp2 =>
        obtain ⟨vs, rfl, h1⟩ := (gives_tuple ho).1 h
        exact (gives_tuple ho).2 ⟨vs, rfl, tupRead_idem h1 (fun i t j ht hj => ih i t j ht hj (hr.elem (List.mem_of_getElem? ht))) hp2⟩
    · cases not_opens (by simp [WhollyReplaced]) ho h
      exact h
  | @pair a b j j' ha hb iha ihb =>
    intro hr p v hp h
    have hl : [j, j'].length = [a, b].length := rfl
    cases hp with
    | @pair _ _ x y hx hy =>
      rw [gives_pair] at h ⊢
      obtain ⟨vs, rfl, h1⟩ := (gives_tuple hl).1 h
      refine (gives_tuple hl).2 ⟨vs, rfl, tupRead_idem h1 ?_ ?_⟩
      · intro i t v h1 h2
        match i with
        | 0 => simp at h1 h2; subst h1; subst h2; exact iha (fun t' h => hr t' (.fst h))
        | 1 => simp at h1 h2; subst h1; subst h2; exact ihb (fun t' h => hr t' (.snd h))
        | i + 2 => simp at h1
      · intro i t v h1 h2
        match i with
        | 0 => simp at h1 h2; subst h1; subst h2; exact hx
        | 1 => simp at h1 h2; subst h1; subst h2; exact hy
        | i + 2 => simp at h1
  | @map hd t ms hj ht ih =>
    intro hr p v hp h
    cases hp with
    | map hp1 hp2 =>
      obtain ⟨kvs', rfl, h1⟩ := gives_map.1 h
      exact gives_map.2 ⟨kvs', rfl, (mapRead_stable hE hkt hr.map h1 hj (fun k j hm => ih k j hm hr.map)
        fun q hq => ⟨hp1 q hq, hp2 q hq⟩).1.read⟩
  | @cls c Q ms hQ hnd hf ih =>
    intro hr p v hp h
    have hrd : ∀ f ∈ Q, Reads E c f := by
      intro f hf
      obtain ⟨c', h1, h2⟩ := reads_flat hQ f hf
      simp at h1
      subst h1
      exact h2
    cases hp with
    | cls hp1 hp2 =>
      obtain ⟨st', rfl, h1⟩ := (gives_cls hQ).1 h
      exact (gives_cls hQ).2 ⟨st', rfl, (membersRead_stable h1 hnd (fun f hf j hm => ih f hf j hm (readable_of_reads hr (hrd f hf)))
        (fun f hf j x y hx => gives_typed hkt (readable_of_reads hr (hrd f hf)) hx) fun f hf x hx => hp2 f x (hrd f hf) hx).1.read⟩

/-- reading into what was left gives what reading into the original object gives -/
theorem reread_left {t : Ty} {j : Json} (hR : Rereadable E t j) : JsonReadable E t → ∀ p q v, JsonTyped E t p → Left E t j p q →
    Gives E t j p v → Gives E t j q v := by
  have htup : ∀ ts : List Ty, (∀ t ∈ ts, JsonReadable E t) → ∀ js : List Json,
      (∀ (i : Nat) t j, ts[i]? = some t → js[i]? = some j → Rereadable E t j) →
      (∀ (i : Nat) t j, ts[i]? = some t → js[i]? = some j → ∀ p q v, JsonTyped E t p → Left E t j p q → Gives E t j p v → Gives E t j q v) →
      ∀ ps q v, (∀ (i : Nat) t v, ts[i]? = some t → ps[i]? = some v → JsonTyped E t v) → Left E (.tuple ts) (.arr js) (.tup ps) q →
      Gives E (.tuple ts) (.arr js) (.tup ps) v → Gives E (.tuple ts) (.arr js) q v := by
    intro ts hr js hts hI ps q v hp h hg
    cases h with
    | same p ho => exact hg
    | @tuple ts1 t ts2 js1 j js2 ps vs x ps2 q hl1 hl2 hl3 h1 h2 =>
      have hl : (js1 ++ j :: js2).length = (ts1 ++ t :: ts2).length := by simp [hl1, hl3]
      obtain ⟨ws, rfl, h3⟩ := (gives_tuple hl).1 hg
      obtain ⟨ws1, ws2, rfl, h4, h5⟩ := (TupRead.append hl1 hl2).1 h3
      obtain ⟨vs', hvs, h6⟩ := (gives_tuple hl1).1 h1
      cases hvs
      cases h6.unique h4
      have hv := h4.length
      refine (gives_tuple hl).2 ⟨_, rfl, (TupRead.append hl1 hv.2.2).2 ⟨_, _, rfl, tupRead_idem h4 ?_ ?_, ?_⟩⟩
      · intro i t' j' ht hj'
        refine reread_idem hE hkt (hts i t' j' ?_ ?_) (hr t' (List.mem_append_left _ (List.mem_of_getElem? ht)))
        · rw [List.getElem?_append_left (List.getElem?_eq_some_iff.1 ht).1]; exact ht
        · rw [List.getElem?_append_left (List.getElem?_eq_some_iff.1 hj').1]; exact hj'
      · intro i t' v' ht hv'
        refine hp i t' v' ?_ ?_
        · rw [List.getElem?_append_left (List.getElem?_eq_some_iff.1 ht).1]; exact ht
        · rw [List.getElem?_append_left (List.getElem?_eq_some_iff.1 hv').1]; exact hv'
      · cases h5 with
        | cons h7 h8 =>
          refine .cons (hI ts1.length t j (by simp) (by rw [← hl1]; simp) x _ _ ?_ h2 h7) h8
          exact hp ts1.length t x (by simp) (by rw [← hl2]; simp)
  induction hR with
  | @replaced t j ht =>
    intro _ p q v _ h hg
    have hany : ∀ {t : Ty} {j : Json}, (∀ n p p' s, pull E n t j p s = pull E n t j p' s) → ∀ p q v, Gives E t j p v → Gives E t j q v := by
      rintro t j hh p q v ⟨n, s, s', h⟩
      exact ⟨n, s, s', by rw [← h]; exact hh n q p s⟩
    cases h with
    | same => exact hg
    | vec => exact hany (fun n _ _ _ => by cases n <;> rfl) _ _ _ hg
    | set => exact hany (fun n _ _ _ => by cases n <;> rfl) _ _ _ hg
    | duplicate => exact hany (fun n _ _ _ => by cases n <;> rfl) _ _ _ hg
    | uptr => exact hany (fun n _ _ _ => by cases n <;> cases j <;> rfl) _ _ _ hg
    | sptr => exact hany (fun n _ _ _ => by cases n <;> cases j <;> rfl) _ _ _ hg
    | opt => exact hany (fun n _ _ _ => by cases n <;> cases j <;> rfl) _ _ _ hg
    | @variant ts ms jd i t q p hi hi64 hd hti hnm hl => exact gives_variant hi (uint64_nat i hi64) hd hti hg
    | _ => exact ht.elim
  | @mismatch t j ho =>
    intro _ p q v _ h hg
    cases left_not_opens ho h
    exact hg
  | @tuple ts js hts ih =>
    intro hr p q v hp h hg
    cases hp with
    | tuple hp1 hp2 => exact htup ts (fun t ht => hr.elem ht) js hts (fun i t j ht hj => ih i t j ht hj (hr.elem (List.mem_of_getElem? ht))) _ _ _ hp2 h hg
  | @pair a b j j' ha hb iha ihb =>
    intro hr p q v hp h hg
    have hra : JsonReadable E a := fun t' h => hr t' (.fst h)
    have hrb : JsonReadable E b := fun t' h => hr t' (.snd h)
    cases hp with
    | @pair _ _ x y hx hy =>
      rw [gives_pair] at hg ⊢
      refine htup [a, b] ?_ [j, j'] ?_ ?_ _ _ _ ?_ (left_pair h) hg
      · simp only [List.mem_cons, List.not_mem_nil, or_false]; rintro t (rfl | rfl) <;> assumption
      · intro i t v h1 h2
        match i with
        | 0 => simp at h1 h2; subst h1; subst h2; exact ha
        | 1 => simp at h1 h2; subst h1; subst h2; exact hb
        | i + 2 => simp at h1
      · intro i t v h1 h2
        match i with
        | 0 => simp at h1 h2; subst h1; subst h2; exact iha hra
        | 1 => simp at h1 h2; subst h1; subst h2; exact ihb hrb
        | i + 2 => simp at h1
      · intro i t v h1 h2
        match i with
        | 0 => simp at h1 h2; subst h1; subst h2; exact hx
        | 1 => simp at h1 h2; subst h1; subst h2; exact hy
        | i + 2 => simp at h1
  | @map hd t ms hj1 ht ih =>
    intro hr p q v hp h hg
    cases h with
    | same => exact hg
    | @map _ _ done k j rest ps kvs q h1 h2 =>
      cases hp with
      | map hp1 hp2 =>
        obtain ⟨kvs', rfl, h3⟩ := gives_map.1 hg
        obtain ⟨kvs1, hk, h4⟩ := gives_map.1 h1
        cases hk
        obtain ⟨kvs2, h5, h6⟩ := MapRead.append.1 h3
        cases h4.unique h5
        cases h6 with
        | @cons _ _ _ _ _ w h7 h8 =>
          have hst := mapRead_stable hE hkt hr.map h4 (by rw [List.map_append] at hj1; exact (List.nodup_append.1 hj1).1)
            (fun k j hm => reread_idem hE hkt (ht k j (by simp [hm])) hr.map) fun q hq => ⟨hp1 q hq, hp2 q hq⟩
          refine gives_map.2 ⟨kvs', rfl, MapRead.append.2 ⟨_, StableMap.read (kvs := mapSet (E.lt .str) (.str (cstrOf k.bytes)) q kvs) ?_,
            .cons (v := w) ?_ ?_⟩⟩
          · intro k' j' hm
            obtain ⟨x, h9, h10⟩ := hst.1 k' j' hm
            refine ⟨x, ?_, h10⟩
            rw [mapFind_mapSet_ne hE ?_ _ _ hst.2.str]
            · exact h9
            · intro he
              rw [List.map_append] at hj1
              exact (List.nodup_append.1 hj1).2.2 _ (List.mem_map_of_mem (f := fun m => cstrOf m.1.bytes) hm) _
                (List.mem_cons_self) he
          · rw [mapFind_mapSet_eq hE]
            exact ih k j (by simp) hr.map _ _ _ (hst.2.getD hr.map) h2 h7
          · rw [mapSet_mapSet hE]
            exact h8
  | @cls c Q ms hQ hnd hf ih =>
    intro hr p q v hp h hg
    have hrd : ∀ f ∈ Q, Reads E c f := by
      intro f hf
      obtain ⟨c', h1, h2⟩ := reads_flat hQ f hf
      simp at h1
      subst h1
      exact h2
    cases hp with
    | @cls _ st hp1 hp2 =>
      obtain ⟨Q1, f, Q2, st1, j, x, q0, rfl, h1, h2, h3, h4, rfl⟩ := left_flat h hQ rfl rfl
      obtain ⟨st', rfl, h5⟩ := (gives_cls hQ).1 hg
      obtain ⟨st2, h6, h7⟩ := MembersRead.append.1 h5
      cases h1.unique h6
      cases h7 with
      | absent h8 => rw [h2] at h8; cases h8
      | @present _ _ _ _ _ _ x' h8 h9 h10 h11 =>
        rw [h2] at h8; cases h8
        rw [h3] at h9; cases h9
        obtain ⟨hst, hty⟩ := membersRead_stable h1 (fun g hg e he => hnd g (by simp [hg]) e (by simp [he]))
          (fun g hg j hm => reread_idem hE hkt (hf g (by simp [hg]) j hm) (readable_of_reads hr (hrd g (by simp [hg]))))
          (fun g hg j x y hx => gives_typed hkt (readable_of_reads hr (hrd g (by simp [hg]))) hx)
          fun g hg y hy => hp2 g y (hrd g (by simp [hg])) hy
        by_cases hfQ : f ∈ Q1
        · obtain ⟨x1, h12, h13⟩ := hst f hfQ j h2
          rw [h3] at h12; cases h12
          refine (gives_cls hQ).2 ⟨st', rfl, MembersRead.append.2 ⟨st1, stable_restore hst (fun g hg => hnd g (by simp [hg]) f (by simp)) hfQ h2 h3
            (ih f (by simp) j h2 (readable_of_reads hr (hrd f (by simp))) _ _ _ (hty f hfQ x h3) h4 h13), .present h2 h3 h10 h11⟩⟩
        · have hne : ∀ g ∈ Q1, g.key ≠ f.key := fun g hg he => hfQ (hnd g (by simp [hg]) f (by simp) he ▸ hg)
          have hx : JsonTyped E f.ty x := hp2 f x (hrd f (by simp)) (by rw [← h1.other hne]; exact h3)
          refine (gives_cls hQ).2 ⟨st', rfl, MembersRead.append.2 ⟨_, Stable.read (st := st1.set f.key q0) ?_, .present h2 (get?_set_eq st1 h3)
            (ih f (by simp) j h2 (readable_of_reads hr (hrd f (by simp))) _ _ _ hx h4 h10) ?_⟩⟩
          · intro g hg j' hm
            obtain ⟨y, h12, h13⟩ := hst g hg j' hm
            exact ⟨y, by rw [get?_set_ne _ _ (hne g hg)]; exact h12, h13⟩
          · rw [set_set]
            exact h11

end

end Verif
