import Verif.Spec.JsonFaults
import Verif.Lemmas.Clean

/-!
# Computations which report exactly the errors of a list of events
-/

namespace Verif

/-! ## Events and errors -/

/-- the arrays completed by the events (the last one first) -/
def dones : List Finding → List Path
  | [] => []
  | .done p :: es => dones es ++ [p]
  | .fault _ _ _ _ :: es => dones es

/-- the places of the faults -/
def faultPaths : List Finding → List Path
  | [] => []
  | .done _ :: es => faultPaths es
  | .fault p _ _ _ :: es => p :: faultPaths es

/-- the index after the events -/
def stdPost (es : List Finding) (i : Nat) : Nat := if (dones es).isEmpty then i else noIndex

theorem dones_append (a b : List Finding) : dones (a ++ b) = dones b ++ dones a := by
  induction a with
  | nil => simp [dones]
  | cons e a ih => cases e <;> simp [dones, ih]

theorem faultPaths_append (a b : List Finding) : faultPaths (a ++ b) = faultPaths a ++ faultPaths b := by
  induction a with
  | nil => simp [faultPaths]
  | cons e a ih => cases e <;> simp [faultPaths, ih]

theorem dones_under (s : Step) (es : List Finding) : dones (es.map (Finding.under s)) = (dones es).map (s :: ·) := by
  induction es with
  | nil => rfl
  | cons e es ih => cases e <;> simp [dones, ih, Finding.under]

theorem faultPaths_under (s : Step) (es : List Finding) : faultPaths (es.map (Finding.under s)) = (faultPaths es).map (s :: ·) := by
  induction es with
  | nil => rfl
  | cons e es ih => cases e <;> simp [faultPaths, ih, Finding.under]

theorem stdPost_append (a b : List Finding) (i : Nat) : stdPost (a ++ b) i = stdPost b (stdPost a i) := by
  unfold stdPost
  rw [dones_append]
  cases dones b <;> cases dones a <;> rfl

theorem stdPost_under (s : Step) (es : List Finding) (i : Nat) : stdPost (es.map (Finding.under s)) i = stdPost es i := by
  unfold stdPost
  rw [dones_under]
  cases dones es <;> rfl

theorem errorsOf_append (r m : Option Str) (i : Nat) (c : List Path) (a b : List Finding) :
    errorsOf r m i c (a ++ b) = errorsOf r m i c a ++ errorsOf r m i (dones a ++ c) b := by
  induction a generalizing c with
  | nil => simp [errorsOf, dones]
  | cons e a ih =>
    cases e with
    | done p => simp only [List.cons_append, errorsOf, dones, ih]; simp
    | fault p k e' a' => simp only [List.cons_append, errorsOf, dones, ih]

/-- arrays completed before `D` do not matter if they do not matter for any of the places -/
theorem errorsOf_forget (r m : Option Str) (i i' : Nat) (D : List Path) (b : List Finding)
    (h : ∀ p ∈ faultPaths b, ∀ c, indexAt i (c ++ D) p = indexAt i' c p) (c : List Path) :
    errorsOf r m i (c ++ D) b = errorsOf r m i' c b := by
  induction b generalizing c with
  | nil => rfl
  | cons e b ih =>
    cases e with
    | done p =>
      simp only [errorsOf]
      exact ih (fun q hq => h q hq) (p :: c)
    | fault p k e' a' =>
      simp only [errorsOf]
      rw [h p (by simp [faultPaths]), ih fun q hq => h q (by simp [faultPaths, hq])]

theorem lastItem_head {p q : Path} {i : Nat} (h : lastItem p = some (q, i)) : ∃ s p' q', p = s :: p' ∧ q = s :: q' := by
  cases p with
  | nil => cases h
  | cons s p =>
    simp only [lastItem] at h
    cases hp : lastItem p with
    | some x => rw [hp] at h; cases h; exact ⟨_, _, _, rfl, rfl⟩
    | none =>
      rw [hp] at h
      cases s <;> cases h
      exact ⟨_, _, _, rfl, rfl⟩

theorem not_prefix_of_head {s : Step} {q d : Path} (h : d.head? ≠ some s) : (s :: q).isPrefixOf d = false := by
  cases d with
  | nil => rfl
  | cons x d =>
    have : s ≠ x := fun e => h (by simp [e])
    simp [List.isPrefixOf, this]

theorem any_append_false {q : Path} {c D : List Path} (h : ∀ d ∈ D, q.isPrefixOf d = false) :
    (c ++ D).any (q.isPrefixOf ·) = c.any (q.isPrefixOf ·) := by
  rw [List.any_append]
  have : D.any (q.isPrefixOf ·) = false := by rw [List.any_eq_false]; intro d hd; rw [h d hd]; simp
  rw [this, Bool.or_false]

theorem indexAt_forget {i : Nat} {D : List Path} {p : Path} (h : ∀ d ∈ D, p ≠ [] → d.head? ≠ p.head?) (c : List Path) :
    indexAt i (c ++ D) p = indexAt (if D.isEmpty then i else noIndex) c p := by
  unfold indexAt
  cases hl : lastItem p with
  | some x =>
    obtain ⟨q, k⟩ := x
    obtain ⟨s, p', q', rfl, rfl⟩ := lastItem_head hl
    dsimp only
    rw [any_append_false fun d hd => not_prefix_of_head (h d hd (by simp))]
  | none =>
    dsimp only
    cases D with
    | nil => simp
    | cons d D => cases c <;> rfl

theorem indexAt_forget_item {i i' : Nat} {D : List Path} {k : Nat} {p : Path} (h : ∀ d ∈ D, d.head? ≠ some (.item k)) (c : List Path) :
    indexAt i (c ++ D) (.item k :: p) = indexAt i' c (.item k :: p) := by
  unfold indexAt
  have : ∃ q x, lastItem (.item k :: p) = some (.item k :: q, x) := by
    simp only [lastItem]
    cases lastItem p with
    | some x => exact ⟨_, _, rfl⟩
    | none => exact ⟨_, _, rfl⟩
  obtain ⟨q, x, hx⟩ := this
  rw [hx]
  dsimp only
  rw [any_append_false fun d hd => not_prefix_of_head (h d hd)]

def stepIndex (s : Step) (i : Nat) : Nat :=
  match s with
  | .item k => k
  | _ => i

theorem recordAt_cons (r : Option Str) (s : Step) (p : Path) : recordAt r (s :: p) = recordAt (recordAt r [s]) p := by
  cases s with
  | own o => cases o <;> rfl
  | _ => rfl

theorem memberAt_cons (m : Option Str) (s : Step) (p : Path) : memberAt m (s :: p) = memberAt (memberAt m [s]) p := by
  cases s <;> rfl

theorem indexAt_under (s : Step) (i : Nat) (c : List Path) (p : Path) :
    indexAt i (c.map (s :: ·)) (s :: p) = indexAt (stepIndex s i) c p := by
  have hp : ∀ q : Path, (c.map (s :: ·)).any ((s :: q).isPrefixOf ·) = c.any (q.isPrefixOf ·) := by
    intro q
    rw [List.any_map]
    congr 1
    funext d
    simp [List.isPrefixOf]
  unfold indexAt
  simp only [lastItem]
  cases hl : lastItem p with
  | some x => obtain ⟨q, k⟩ := x; dsimp only; rw [hp]
  | none =>
    cases s with
    | item k =>
      dsimp only [stepIndex]
      rw [hp]
      cases c <;> rfl
    | _ => dsimp only [stepIndex]; cases c <;> rfl

theorem errorsOf_under (s : Step) (r m : Option Str) (i : Nat) (es : List Finding) (c : List Path) :
    errorsOf r m i (c.map (s :: ·)) (es.map (Finding.under s)) = errorsOf (recordAt r [s]) (memberAt m [s]) (stepIndex s i) c es := by
  induction es generalizing c with
  | nil => rfl
  | cons e es ih =>
    cases e with
    | done p => simp only [List.map_cons, Finding.under, errorsOf]; exact ih (p :: c)
    | fault p k e' a' =>
      simp only [List.map_cons, Finding.under, errorsOf]
      rw [ih c, recordAt_cons, memberAt_cons, indexAt_under]

theorem inOrder_heads {s : Nat → Step} (ess : List (List Finding)) (i : Nat) :
    (∀ p ∈ faultPaths (inOrder s i ess), ∃ k, i ≤ k ∧ p.head? = some (s k)) ∧
    (∀ p ∈ dones (inOrder s i ess), ∃ k, i ≤ k ∧ p.head? = some (s k)) := by
  induction ess generalizing i with
  | nil => exact ⟨by simp [inOrder, faultPaths], by simp [inOrder, dones]⟩
  | cons es ess ih =>
    obtain ⟨h1, h2⟩ := ih (i + 1)
    constructor
    · intro p hp
      rw [inOrder, faultPaths_append, faultPaths_under] at hp
      rcases List.mem_append.1 hp with hp | hp
      · obtain ⟨q, -, rfl⟩ := List.mem_map.1 hp; exact ⟨i, Nat.le_refl i, rfl⟩
      · obtain ⟨k, hk, h⟩ := h1 p hp; exact ⟨k, by omega, h⟩
    · intro p hp
      rw [inOrder, dones_append, dones_under] at hp
      rcases List.mem_append.1 hp with hp | hp
      · obtain ⟨k, hk, h⟩ := h2 p hp; exact ⟨k, by omega, h⟩
      · obtain ⟨q, -, rfl⟩ := List.mem_map.1 hp; exact ⟨i, Nat.le_refl i, rfl⟩

/-! ## Computations -/

/-- Run with any errors object, `m` reports the errors of the events `evs` in order (up to and including the first fatal one,
which is thrown). `post`: the index after. -/
def Emits {α : Type} (post : Nat → Nat) (m : PM α) (evs : List Finding) : Prop :=
  ∀ st : ErrSt, match m (some st) with
    | .ok _ s' =>
      s' = some { st with errs := st.errs ++ errorsOf st.record st.member st.index [] evs, index := post st.index } ∧
        ∀ e ∈ errorsOf st.record st.member st.index [] evs, ¬ Fatal st.throwOn e.kind
    | .exc e s' => ∃ pre rest st', errorsOf st.record st.member st.index [] evs = pre ++ e :: rest ∧
        (∀ x ∈ pre, ¬ Fatal st.throwOn x.kind) ∧ Fatal st.throwOn e.kind ∧ s' = some st' ∧
        st'.errs = st.errs ++ (pre ++ [e]) ∧ st'.throwOn = st.throwOn
    | _ => True

namespace Emits
variable {α β : Type}

theorem stuck {post evs} : Emits post (M.stuck : PM α) evs := fun _ => trivial
theorem ub {post evs} : Emits post (M.ub : PM α) evs := fun _ => trivial
theorem fuel {post evs} : Emits post (M.outOfFuel : PM α) evs := fun _ => trivial

theorem pure (a : α) : Emits id (Pure.pure a : PM α) [] := fun st => ⟨by simp [errorsOf], by simp [errorsOf]⟩

theorem congr {post post' : Nat → Nat} {m : PM α} {evs evs' : List Finding} (h : Emits post m evs) (hp : ∀ i, post' i = post i)
    (he : evs' = evs) : Emits post' m evs' := by
  subst he
  rw [show post' = post from funext hp]
  exact h

theorem report (k : ErrKind) (e a : JType) : Emits id (report k e a) [.fault [] k e a] := by
  intro st
  obtain ⟨-, x, hx, hr⟩ := report_spec k e a st
  have hxe : errorsOf st.record st.member st.index [] [.fault [] k e a] = [x] := by
    obtain ⟨h1, h2, h3, h4, h5, h6⟩ := hx
    cases x
    simp only at h1 h2 h3 h4 h5 h6
    subst h1 h2 h3 h4 h5 h6
    rfl
  rw [hr, hxe]
  by_cases hf : Fatal st.throwOn k
  · rw [if_pos hf]
    refine ⟨[], [], _, rfl, by simp, ?_, rfl, by simp, rfl⟩
    rw [hx.1]; exact hf
  · rw [if_neg hf]
    refine ⟨rfl, ?_⟩
    intro y hy
    rw [List.mem_singleton.1 hy, hx.1]; exact hf

/-- sequential composition -/
theorem seq {post1 post2 post : Nat → Nat} {m : PM α} {f : α → PM β} {evs1 evs2 evs2' : List Finding} (hm : Emits post1 m evs1)
    (hf : ∀ a st s', m (some st) = .ok a s' → Emits post2 (f a) evs2')
    (he : ∀ r x i, errorsOf r x i (dones evs1) evs2 = errorsOf r x (post1 i) [] evs2') (hp : ∀ i, post i = post2 (post1 i)) :
    Emits post (m >>= f) (evs1 ++ evs2) := by
  intro st
  have h1 := hm st
  have e1 : errorsOf st.record st.member st.index [] (evs1 ++ evs2) =
      errorsOf st.record st.member st.index [] evs1 ++ errorsOf st.record st.member (post1 st.index) [] evs2' := by
    rw [errorsOf_append, List.append_nil, he]
  rw [M.bind_apply, e1]
  cases h : m (some st) with
  | ok a s =>
    rw [h] at h1
    obtain ⟨rfl, h2⟩ := h1
    dsimp only
    have h3 := hf a st _ h { st with errs := st.errs ++ errorsOf st.record st.member st.index [] evs1, index := post1 st.index }
    dsimp only at h3
    cases h' : f a (some { st with errs := st.errs ++ errorsOf st.record st.member st.index [] evs1, index := post1 st.index }) with
    | ok b s' =>
      rw [h'] at h3
      obtain ⟨rfl, h4⟩ := h3
      refine ⟨by rw [hp, List.append_assoc], ?_⟩
      intro e he
      rcases List.mem_append.1 he with he | he
      · exact h2 e he
      · exact h4 e he
    | exc e s' =>
      rw [h'] at h3
      obtain ⟨pre, rest, st', g1, g2, g3, g4, g5, g6⟩ := h3
      refine ⟨errorsOf st.record st.member st.index [] evs1 ++ pre, rest, st', by rw [g1, List.append_assoc], ?_, g3, g4, ?_, g6⟩
      · intro e he
        rcases List.mem_append.1 he with he | he
        · exact h2 e he
        · exact g2 e he
      · rw [g5]; simp [List.append_assoc]
    | _ => trivial
  | exc e s =>
    rw [h] at h1
    obtain ⟨pre, rest, st', g1, g2, g3, g4, g5, g6⟩ := h1
    exact ⟨pre, rest ++ errorsOf st.record st.member (post1 st.index) [] evs2', st', by rw [g1]; simp, g2, g3, g4, g5, g6⟩
  | _ => trivial

/-- sequential composition if the places in the second part are not below the arrays completed in the first -/
theorem seqFresh {m : PM α} {f : α → PM β} {evs1 evs2 : List Finding} (hm : Emits (stdPost evs1) m evs1)
    (hf : ∀ a st s', m (some st) = .ok a s' → Emits (stdPost evs2) (f a) evs2)
    (h : ∀ d ∈ dones evs1, ∀ p ∈ faultPaths evs2, p ≠ [] → d.head? ≠ p.head?) : Emits (stdPost (evs1 ++ evs2)) (m >>= f) (evs1 ++ evs2) := by
  refine hm.seq hf (fun r x i => ?_) fun i => stdPost_append _ _ _
  have := errorsOf_forget r x i (stdPost evs1 i) (dones evs1) evs2 (fun p hp c => indexAt_forget (fun d hd => h d hd p hp) c) []
  exact this

theorem map {post : Nat → Nat} {m : PM α} {evs : List Finding} (g : α → β) (h : Emits post m evs) :
    Emits post (m >>= fun a => Pure.pure (g a)) evs := by
  have := h.seq (post2 := id) (evs2 := []) (evs2' := []) (post := post) (fun a _ _ _ => Emits.pure (g a)) (fun _ _ _ => rfl) fun _ => rfl
  rwa [List.append_nil] at this

theorem reportKeep (k : ErrKind) (e a : JType) (v : α) : Emits id (Verif.report k e a >>= fun _ => (Pure.pure v : PM α)) [.fault [] k e a] :=
  (Emits.report k e a).map fun _ => v

/-- one step down, context unchanged -/
theorem down {post : Nat → Nat} {m : PM α} {evs : List Finding} (s : Step) (hr : ∀ r, recordAt r [s] = r) (hm : ∀ r, memberAt r [s] = r)
    (hi : ∀ i, stepIndex s i = i) (h : Emits post m evs) : Emits post m (evs.map (Finding.under s)) := by
  intro st
  have e := errorsOf_under s st.record st.member st.index evs []
  rw [hr, hm, hi] at e
  rw [List.map_nil] at e
  rw [e]
  exact h st

theorem inMember {post : Nat → Nat} {m : PM α} {evs : List Finding} (i : Nat) (n : Str) (h : Emits post m evs) :
    Emits post (withMember n m) (evs.map (Finding.under (.member i n))) := by
  intro st
  have e : errorsOf st.record st.member st.index [] (evs.map (Finding.under (.member i n))) =
      errorsOf st.record (some n) st.index [] evs := errorsOf_under (.member i n) st.record st.member st.index evs []
  have h1 := h { st with member := some n }
  rw [withMember_some, e]
  dsimp only at h1
  cases hm : m (some { st with member := some n }) with
  | ok a s =>
    rw [hm] at h1
    obtain ⟨rfl, h2⟩ := h1
    exact ⟨rfl, h2⟩
  | exc x s =>
    rw [hm] at h1
    exact h1
  | _ => trivial

theorem inRecord {post : Nat → Nat} {m : PM α} {evs : List Finding} (n : Str) (h : Emits post m evs) :
    Emits post (withRecord n m) (evs.map (Finding.under (.own (some n)))) := by
  intro st
  have e : errorsOf st.record st.member st.index [] (evs.map (Finding.under (.own (some n)))) =
      errorsOf (some n) st.member st.index [] evs := errorsOf_under (.own (some n)) st.record st.member st.index evs []
  have h1 := h { st with record := some n }
  rw [withRecord_some, e]
  dsimp only at h1
  cases hm : m (some { st with record := some n }) with
  | ok a s =>
    rw [hm] at h1
    obtain ⟨rfl, h2⟩ := h1
    exact ⟨rfl, h2⟩
  | exc x s =>
    rw [hm] at h1
    exact h1
  | _ => trivial

theorem item {post : Nat → Nat} {m : PM α} {evs : List Finding} (k : Nat) (h : Emits post m evs) :
    Emits (fun _ => post k) (setIndex k >>= fun _ => m) (evs.map (Finding.under (.item k))) := by
  intro st
  have e : errorsOf st.record st.member st.index [] (evs.map (Finding.under (.item k))) =
      errorsOf st.record st.member k [] evs := errorsOf_under (.item k) st.record st.member st.index evs []
  have h1 := h { st with index := k }
  have hs : (setIndex k >>= fun _ => m) (some st) = m (some { st with index := k }) := rfl
  rw [hs, e]
  dsimp only at h1
  exact h1

/-- end of an array -/
theorem arrayEnd (b : β) : Emits (fun _ => noIndex) (setIndex noIndex >>= fun _ => (Pure.pure b : PM β)) [.done []] := by
  intro st
  refine ⟨?_, by simp [errorsOf]⟩
  simp [errorsOf]

/-- The loop over an array; `Inv` is what is known about the state of the loop. -/
theorem loop {f : Json → β → PM β} (Inv : List Json → β → Prop) (js : List Json) (ess : List (List Finding)) (i : Nat) (b : β)
    (pre : List Json) (hl : ess.length = js.length) (hI : Inv pre b)
    (h : ∀ (k : Nat) j es b, js[k]? = some j → ess[k]? = some es → Inv (pre ++ js.take k) b → Emits (stdPost es) (f j b) es ∧
      ∀ st b' s', f j b (some st) = .ok b' s' → Inv (pre ++ js.take k ++ [j]) b') :
    Emits (fun _ => noIndex) (forIdx f js i b) (inOrder .item i ess ++ [.done []]) := by
  induction js generalizing ess i b pre with
  | nil =>
    cases ess with
    | nil => exact arrayEnd b
    | cons es ess => cases hl
  | cons j js ih =>
    cases ess with
    | nil => cases hl
    | cons es ess =>
      have h0 := h 0 j es b rfl rfl (by simpa using hI)
      have hA := h0.1
      have hB := h0.2
      have heq : forIdx f (j :: js) i b = ((setIndex i >>= fun _ => f j b) >>= fun b => forIdx f js (i + 1) b) := by
        rw [M.bind_assoc']; rfl
      rw [heq, inOrder, List.append_assoc]
      refine (hA.item i).seq (post2 := fun _ => noIndex) (fun b' st s' hst => ih ess (i + 1) b' (pre ++ [j]) (by simpa using hl) ?_ ?_)
        ?_ fun _ => rfl
      · have : f j b (some { st with index := i }) = .ok b' s' := hst
        have h1 := hB _ _ _ this
        simpa using h1
      · intro k j' es' b'' hj' hes' hInv
        have := h (k + 1) j' es' b'' (by simpa using hj') (by simpa using hes') (by simpa using hInv)
        simpa using this
      · intro r x i0
        rw [errorsOf_append, errorsOf_append]
        have hh := (inOrder_heads (s := .item) ess (i + 1)).1
        have e1 := errorsOf_forget r x i0 (stdPost es i) (dones (es.map (Finding.under (.item i)))) (inOrder .item (i + 1) ess)
          (by
            intro p hp c
            obtain ⟨k, hk, hp'⟩ := hh p hp
            cases p with
            | nil => cases hp'
            | cons s p =>
              cases hp'
              refine indexAt_forget_item (fun d hd => ?_) c
              rw [dones_under] at hd
              obtain ⟨q, -, rfl⟩ := List.mem_map.1 hd
              intro he
              injection he with he
              injection he with he
              omega) []
        rw [List.nil_append] at e1
        rw [e1]
        simp [errorsOf]

end Emits

end Verif
