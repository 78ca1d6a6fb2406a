import Verif.Spec.BinRetry
import Verif.Lemmas.ReadX
import Verif.Props.JsonRoundTrip

/-!
# Reading does not depend on what is replaced; what aborted attempts leave
-/

namespace Verif

/-- the same outcome up to `R` -/
inductive EqualUpTo {α : Type} (R : α → α → Prop) : Res BExc RSt α → Res BExc RSt α → Prop
  | ok {a b} (s) : R a b → EqualUpTo R (.ok a s) (.ok b s)
  | exc (e s) : EqualUpTo R (.exc e s) (.exc e s)
  | ub : EqualUpTo R .ub .ub
  | stuck : EqualUpTo R .stuck .stuck
  | fuel : EqualUpTo R .fuel .fuel

namespace EqualUpTo
variable {α β : Type} {R R' : α → α → Prop} {S : β → β → Prop}

theorem refl (h : ∀ a, R a a) (r : Res BExc RSt α) : EqualUpTo R r r := by
  cases r
  · exact .ok _ (h _)
  · exact .exc _ _
  · exact .ub
  · exact .stuck
  · exact .fuel

theorem bind {m m' : RM α} {f f' : α → RM β} {s : RSt} (hm : EqualUpTo R (m s) (m' s))
    (hf : ∀ a b s', R a b → EqualUpTo S (f a s') (f' b s')) : EqualUpTo S ((m >>= f) s) ((m' >>= f') s) := by
  simp only [M.bind_apply]
  cases h1 : m s <;> cases h2 : m' s <;> rw [h1, h2] at hm <;> cases hm
  · exact hf _ _ _ (by assumption)
  · exact .exc _ _
  · exact .ub
  · exact .stuck
  · exact .fuel

theorem eq {r r' : Res BExc RSt α} (h : EqualUpTo Eq r r') : r = r' := by
  cases h <;> simp_all

theorem weaken {r r' : Res BExc RSt α} (h : EqualUpTo R r r') (hR : ∀ a b, R a b → R' a b) : EqualUpTo R' r r' := by
  cases h
  · exact .ok _ (hR _ _ (by assumption))
  · exact .exc _ _
  · exact .ub
  · exact .stuck
  · exact .fuel

end EqualUpTo

/-- members of class `c` or its bases -/
def MemberKey (E : Env) (c : ClassId) (k : FieldKey) : Prop := ∃ g f, HasField E c g f ∧ f.key = k

/-- what is required before reading an object of class `c` -/
def ReadyFor (E : Env) (c : ClassId) (st st' : Store) : Prop :=
  st.map Prod.fst = st'.map Prod.fst ∧
  ∀ g f x y, HasField E c g f → st.get? f.key = some x → st'.get? f.key = some y → x = y ∨ SameOnceRead E f.ty x y

/-- `a` and `b` have become of `st` and `st'` by reading the members `K` (at least) -/
def AfterRead (K : FieldKey → Prop) (st st' a b : Store) : Prop :=
  a.map Prod.fst = st.map Prod.fst ∧ b.map Prod.fst = st'.map Prod.fst ∧
  ∀ k, a.get? k = b.get? k ∨ (¬ K k ∧ a.get? k = st.get? k ∧ b.get? k = st'.get? k)

theorem AfterRead.refl {K : FieldKey → Prop} (h : ∀ k, ¬ K k) (st st' : Store) : AfterRead K st st' st st' :=
  ⟨rfl, rfl, fun k => .inr ⟨h k, rfl, rfl⟩⟩

theorem AfterRead.trans {K K' : FieldKey → Prop} {st st' a b a' b' : Store} (h1 : AfterRead K st st' a b) (h2 : AfterRead K' a b a' b') :
    AfterRead (fun k => K k ∨ K' k) st st' a' b' := by
  refine ⟨h2.1.trans h1.1, h2.2.1.trans h1.2.1, fun k => ?_⟩
  rcases h2.2.2 k with h | ⟨h3, h4, h5⟩
  · exact .inl h
  · rcases h1.2.2 k with h | ⟨h6, h7, h8⟩
    · exact .inl (by rw [h4, h5, h])
    · exact .inr ⟨by rintro (h | h); exacts [h6 h, h3 h], h4.trans h7, h5.trans h8⟩

theorem AfterRead.weaken {K K' : FieldKey → Prop} {st st' a b : Store} (h : AfterRead K st st' a b) (hK : ∀ k, K' k → K k) :
    AfterRead K' st st' a b :=
  ⟨h.1, h.2.1, fun k => (h.2.2 k).imp id fun ⟨h1, h2⟩ => ⟨fun h' => h1 (hK k h'), h2⟩⟩

theorem ReadyFor.after {E : Env} {c : ClassId} {K : FieldKey → Prop} {st st' a b : Store} (h : ReadyFor E c st st')
    (ha : AfterRead K st st' a b) : ReadyFor E c a b := by
  refine ⟨by rw [ha.1, ha.2.1, h.1], fun g f x y hf hx hy => ?_⟩
  rcases ha.2.2 f.key with e | ⟨-, e1, e2⟩
  · rw [hx, hy] at e
    cases e
    exact .inl rfl
  · rw [e1] at hx
    rw [e2] at hy
    exact h.2 g f x y hf hx hy

/-- what is shown about a read -/
def RetryRead (E : Env) (self : Nat → Ty → Val → RM Val) : Prop :=
  (∀ w t p q, SameOnceRead E t p q → self w t p = self w t q) ∧
  (∀ w c (st st' : Store) s, (∀ g f, HasField E c g f → ∀ version, g.holds version = true) → ReadyFor E c st st' →
    EqualUpTo (fun v v' => ∃ a b, v = .obj a ∧ v' = .obj b ∧ AfterRead (MemberKey E c) st st' a b)
      (self w (.cls c) (.obj st) s) (self w (.cls c) (.obj st') s))

section
variable {E : Env} {self : Nat → Ty → Val → RM Val} (hs : RetryRead E self)
include hs

theorem retry_elems {t : Ty} {ps qs : List Val} (h : List.Forall₂ (SameOnceRead E t) ps qs) : readElems self t ps = readElems self t qs := by
  induction h with
  | nil => rfl
  | cons h _ ih => simp only [readElems, hs.1 _ _ _ _ h, ih]

theorem retry_bases (w : Nat) (bs : List ClassId) (hg : ∀ b ∈ bs, ∀ g f, HasField E b g f → ∀ version, g.holds version = true)
    (st st' : Store) (s : RSt) (h : ∀ b ∈ bs, ReadyFor E b st st') :
    EqualUpTo (fun v v' => ∃ a b, v = .obj a ∧ v' = .obj b ∧ AfterRead (fun k => ∃ c ∈ bs, MemberKey E c k) st st' a b)
      (readBases self w bs (.obj st) s) (readBases self w bs (.obj st') s) := by
  induction bs generalizing st st' s with
  | nil => exact .ok _ ⟨st, st', rfl, rfl, .refl (by simp) _ _⟩
  | cons b bs ih =>
    refine (hs.2 w b st st' s (hg b List.mem_cons_self) (h b List.mem_cons_self)).bind ?_
    rintro _ _ s1 ⟨a1, b1, rfl, rfl, h1⟩
    refine (ih (fun c hc => hg c (List.mem_cons_of_mem _ hc)) a1 b1 s1 fun c hc => (h c (List.mem_cons_of_mem _ hc)).after h1).weaken ?_
    rintro _ _ ⟨a2, b2, rfl, rfl, h2⟩
    refine ⟨a2, b2, rfl, rfl, (h1.trans h2).weaken ?_⟩
    rintro k ⟨c, hc, hk⟩
    rcases List.mem_cons.1 hc with rfl | hc
    · exact .inl hk
    · exact .inr ⟨c, hc, hk⟩

theorem retry_fields (w : Nat) {c : ClassId} (fs : List (Guard × Field)) (hf : ∀ gf ∈ fs, HasField E c gf.1 gf.2)
    (hg : ∀ gf ∈ fs, ∀ version, gf.1.holds version = true) (st st' : Store) (s : RSt) (h : ReadyFor E c st st') :
    EqualUpTo (AfterRead (fun k => ∃ gf ∈ fs, gf.2.key = k) st st') (readFields self w fs st s) (readFields self w fs st' s) := by
  induction fs generalizing st st' s with
  | nil => exact .ok _ (.refl (by simp) _ _)
  | cons gf fs ih =>
    obtain ⟨g, f⟩ := gf
    have hgt : g.holds w = true := hg (g, f) List.mem_cons_self w
    simp only [readFields, hgt, if_true]
    have hsome : (st.get? f.key).isSome = (st'.get? f.key).isSome := by
      rw [Bool.eq_iff_iff, get?_isSome_iff, get?_isSome_iff, h.1]
    cases hx : st.get? f.key with
    | none =>
      cases hy : st'.get? f.key with
      | none => exact .stuck
      | some y => rw [hx, hy] at hsome; cases hsome
    | some x =>
      cases hy : st'.get? f.key with
      | none => rw [hx, hy] at hsome; cases hsome
      | some y =>
        dsimp only
        have he : self w f.ty x = self w f.ty y := by
          rcases h.2 g f x y (hf _ List.mem_cons_self) hx hy with rfl | hxy
          · rfl
          · exact hs.1 _ _ _ _ hxy
        rw [he]
        refine EqualUpTo.bind (R := Eq) (.refl (fun _ => rfl) _) ?_
        rintro v _ s1 rfl
        have h1 : AfterRead (fun k => k = f.key) st st' (st.set f.key v) (st'.set f.key v) := by
          refine ⟨set_keys _ _ _, set_keys _ _ _, fun k => ?_⟩
          by_cases hk : k = f.key
          · subst hk
            exact .inl (by rw [get?_set_eq st hx, get?_set_eq st' hy])
          · exact .inr ⟨hk, get?_set_ne _ _ hk, get?_set_ne _ _ hk⟩
        refine (ih (fun gf h => hf gf (List.mem_cons_of_mem _ h)) (fun gf h => hg gf (List.mem_cons_of_mem _ h)) _ _ s1 (h.after h1)).weaken ?_
        intro a b h2
        refine (h1.trans h2).weaken ?_
        rintro k ⟨gf, hgf, rfl⟩
        rcases List.mem_cons.1 hgf with rfl | hgf
        · exact .inl rfl
        · exact .inr ⟨gf, hgf, rfl⟩

theorem retry_readClass (w : Nat) (c : ClassId) {ci : ClassInfo} (hc : E.cls c = some ci) (st st' : Store) (s : RSt)
    (hg : ∀ g f, HasField E c g f → ∀ version, g.holds version = true) (h : ReadyFor E c st st') :
    EqualUpTo (fun r r' => r.2 = r'.2 ∧ ∃ a b, r.1 = .obj a ∧ r'.1 = .obj b ∧ AfterRead (MemberKey E c) st st' a b)
      (readClass self ci w (.obj st) s) (readClass self ci w (.obj st') s) := by
  unfold readClass
  split
  · exact .stuck
  refine (retry_bases hs w ci.bin.bases (fun b hb g f hf => hg g f (.base hc hb hf)) st st' s fun b hb =>
    ⟨h.1, fun g f x y hf => h.2 g f x y (.base hc hb hf)⟩).bind ?_
  rintro _ _ s1 ⟨a1, b1, rfl, rfl, h1⟩
  refine EqualUpTo.bind (R := Eq) (.refl (fun _ => rfl) _) ?_
  rintro ver _ s2 rfl
  refine (retry_fields hs ver (c := c) ci.bin.readFields (fun gf h => .own hc h) (fun gf h' => hg gf.1 gf.2 (.own hc h')) a1 b1 s2
    (h.after h1)).bind ?_
  intro a2 b2 s3 h2
  refine .ok _ ⟨rfl, a2, b2, rfl, rfl, (h1.trans h2).weaken ?_⟩
  rintro k ⟨g, f, hf, rfl⟩
  cases hf with
  | own hc' hm =>
    rw [hc] at hc'
    cases hc'
    exact .inr ⟨_, hm, rfl⟩
  | base hc' hb hf =>
    rw [hc] at hc'
    cases hc'
    exact .inl ⟨_, hb, g, f, hf, rfl⟩

theorem retry_class (w : Nat) (c : ClassId) (st st' : Store) (s : RSt)
    (hg : ∀ g f, HasField E c g f → ∀ version, g.holds version = true) (h : ReadyFor E c st st') :
    EqualUpTo (fun v v' => ∃ a b, v = .obj a ∧ v' = .obj b ∧ AfterRead (MemberKey E c) st st' a b)
      (readStep E self w (.cls c) (.obj st) s) (readStep E self w (.cls c) (.obj st') s) := by
  simp only [readStep]
  cases hc : E.cls c with
  | none => exact .stuck
  | some ci =>
    dsimp only
    refine (retry_readClass hs w c hc st st' s hg h).bind ?_
    rintro r r' s1 ⟨-, a, b, h1, h2, h3⟩
    exact .ok _ ⟨a, b, h1, h2, h3⟩

theorem resize_forall {R : Val → Val → Prop} {ps qs : List Val} {d : Val} (h : ∀ p ∈ d :: ps, ∀ q ∈ d :: qs, R p q) (k : Nat) :
    List.Forall₂ R (resize ps k d) (resize qs k d) := by
  rw [List.forall₂_iff_get]
  have hmem : ∀ (l : List Val) x, x ∈ resize l k d → x ∈ d :: l := by
    intro l x hx
    unfold resize at hx
    rcases List.mem_append.1 hx with hx | hx
    · exact List.mem_cons_of_mem _ (List.mem_of_mem_take hx)
    · rw [(List.mem_replicate.1 hx).2]
      exact List.mem_cons_self
  refine ⟨by simp [resize]; omega, fun i h1 h2 => ?_⟩
  exact h _ (hmem _ _ (List.get_mem _ _)) _ (hmem _ _ (List.get_mem _ _))

theorem retry_step : RetryRead E (readStep E self) := by
  refine ⟨fun w t p q h => ?_, fun w c st st' s hg h => retry_class hs w c st st' s hg h⟩
  cases h with
  | replaced p q h => cases t <;> first | rfl | cases h
  | pair h1 h2 => simp only [readStep, hs.1 _ _ _ _ h1, hs.1 _ _ _ _ h2]
  | @vec t ps qs h =>
    simp only [readStep]
    congr 1
    funext k
    rw [retry_elems hs (resize_forall hs h k)]
  | @cls c st st' h1 h2 h3 h4 h5 =>
    funext s
    refine ((retry_class hs w c st st' s h3 ⟨h1, fun g f x y hf hx hy => .inr (h5 g f x y hf hx hy)⟩).weaken ?_).eq
    rintro _ _ ⟨a, b, rfl, rfl, ha, hb, hab⟩
    refine congrArg Val.obj (store_ext a b (by rw [ha, hb, h1]) (by rw [ha]; exact h2) fun k => ?_)
    rcases hab k with h | ⟨hk, e1, e2⟩
    · exact h
    · rw [e1, e2]
      exact h4 k fun g f hf he => hk ⟨g, f, hf, he⟩

end

theorem retry_read (E : Env) (n : Nat) : RetryRead E (read E n) := by
  induction n with
  | zero => exact ⟨fun _ _ _ _ _ => rfl, fun _ _ _ _ _ _ _ => .fuel⟩
  | succ n ih => exact retry_step ih

theorem retry_restore {E : Env} (n : Nat) {c : ClassId} {p q : Val} (h : SameOnceRead E (.cls c) p q) (inp : Str) :
    restoreFromBinary E n c p inp = restoreFromBinary E n c q inp := by
  unfold restoreFromBinary
  cases hc : E.cls c with
  | none => rfl
  | some ci =>
    cases h with
    | replaced _ _ h => cases h
    | @cls _ st st' h1 h2 h3 h4 h5 =>
      refine ((retry_readClass (retry_read E n) 0 c hc st st' _ h3 ⟨h1, fun g f x y hf hx hy => .inr (h5 g f x y hf hx hy)⟩).weaken ?_).eq
      rintro ⟨x, i⟩ ⟨y, j⟩ ⟨hij, a, b, hx, hy, ha, hb, hab⟩
      dsimp only at hx hy hij
      subst hx hy hij
      refine Prod.ext (congrArg Val.obj (store_ext a b (by rw [ha, hb, h1]) (by rw [ha]; exact h2) fun k => ?_)) rfl
      rcases hab k with h | ⟨hk, e1, e2⟩
      · exact h
      · rw [e1, e2]
        exact h4 k fun g f hf he => hk ⟨g, f, hf, he⟩

/-! ## What an attempt leaves -/

/-- reading `v` instead of `p` makes no difference (if reading `p` is equivalent to reading some object) -/
def KeepsSame (E : Env) (t : Ty) (p v : Val) : Prop := ∀ x, SameOnceRead E t x p → SameOnceRead E t x v

theorem KeepsSame.refl {E : Env} {t : Ty} (p : Val) : KeepsSame E t p p := fun _ h => h
theorem KeepsSame.trans {E : Env} {t : Ty} {p q r : Val} (h1 : KeepsSame E t p q) (h2 : KeepsSame E t q r) : KeepsSame E t p r :=
  fun _ h => h2 _ (h1 _ h)

/-- the object satisfies `R` when `m` returns, `R'` when it throws -/
def Leaves {α : Type} (R : α → Prop) (R' : Val → Prop) (m : XR α) : Prop := ∀ s,
  (∀ v s', m s = .ok v s' → R v) ∧ (∀ e q s', m s = .exc (e, q) s' → R' q)

namespace Leaves
variable {α β : Type} {R : α → Prop} {R' : Val → Prop}

theorem pure {a : α} (h : R a) : Leaves R R' (Pure.pure a : XR α) := fun s => ⟨fun v s' e => by cases e; exact h, fun e q s' h => by cases h⟩
theorem stuck : Leaves R R' (M.stuck : XR α) := fun s => ⟨fun v s' e => (by cases e), fun e q s' h => by cases h⟩
theorem throw {e : BExc} {q : Val} (h : R' q) : Leaves R R' (M.throw (e, q) : XR α) :=
  fun s => ⟨fun v s' e => (by cases e), fun e q s' h' => by cases h'; exact h⟩

theorem bind {S : β → Prop} {m : XR α} {f : α → XR β} (hm : Leaves R R' m) (hf : ∀ a, R a → Leaves S R' (f a)) : Leaves S R' (m >>= f) := by
  intro s
  refine ⟨fun b s' h => ?_, fun e q s' h => ?_⟩
  · obtain ⟨a, s1, h1, h2⟩ := M.bind_eq_ok.1 h
    exact (hf a ((hm s).1 _ _ h1) s1).1 _ _ h2
  · rcases M.bind_eq_exc.1 h with h | ⟨a, s1, h1, h2⟩
    · exact (hm s).2 _ _ _ h
    · exact (hf a ((hm s).1 _ _ h1) s1).2 _ _ _ h2

theorem holding {m : RM α} {q : Val} (h : R' q) : Leaves (fun _ => True) R' (holdingR q m) := by
  intro s
  refine ⟨fun _ _ _ => trivial, fun e q' s' h' => ?_⟩
  rw [(holdingR_exc h').1]
  exact h

theorem within {Q : Val → Prop} {m : XR α} {g : Val → Val} (h : Leaves R Q m) (hg : ∀ q, Q q → R' (g q)) : Leaves R R' (withinR g m) := by
  intro s
  refine ⟨fun v s' e => (h s).1 _ _ (withinR_ok.1 e), fun e q s' h' => ?_⟩
  obtain ⟨q0, h1, rfl⟩ := withinR_exc h'
  exact hg _ ((h s).2 _ _ _ h1)

theorem ite {c : Prop} [Decidable c] {m n : XR α} (h1 : Leaves R R' m) (h2 : Leaves R R' n) : Leaves R R' (if c then m else n) := by
  split
  · exact h1
  · exact h2

theorem weaken {S : α → Prop} {S' : Val → Prop} {m : XR α} (h : Leaves R R' m) (h1 : ∀ a, R a → S a) (h2 : ∀ q, R' q → S' q) : Leaves S S' m :=
  fun s => ⟨fun v s' e => h1 _ ((h s).1 _ _ e), fun e q s' e' => h2 _ ((h s).2 _ _ _ e')⟩

end Leaves

/-- members of class `c` (and its bases) are kept in the sense of `KeepsSame`, others are the same -/
def KeepsMembers (E : Env) (c : ClassId) (st st' : Store) : Prop :=
  st'.map Prod.fst = st.map Prod.fst ∧ (∀ k, ¬ MemberKey E c k → st'.get? k = st.get? k) ∧
  ∀ g f x y, HasField E c g f → st.get? f.key = some x → st'.get? f.key = some y → KeepsSame E f.ty x y

/-- what is left of an object of class `c` -/
def KeepsObj (E : Env) (c : ClassId) (st : Store) (v : Val) : Prop := ∃ st' : Store, v = .obj st' ∧ KeepsMembers E c st st'

theorem KeepsMembers.refl {E : Env} {c : ClassId} (st : Store) : KeepsMembers E c st st :=
  ⟨rfl, fun _ _ => rfl, fun g f x y _ h1 h2 => by rw [h1] at h2; cases h2; exact .refl _⟩

theorem KeepsMembers.trans {E : Env} {c : ClassId} {a b d : Store} (h1 : KeepsMembers E c a b) (h2 : KeepsMembers E c b d) :
    KeepsMembers E c a d := by
  refine ⟨h2.1.trans h1.1, fun k hk => (h2.2.1 k hk).trans (h1.2.1 k hk), fun g f x y hf hx hy => ?_⟩
  have : (b.get? f.key).isSome := by
    rw [get?_isSome_iff, h1.1, ← get?_isSome_iff, hx]
    rfl
  obtain ⟨z, hz⟩ := Option.isSome_iff_exists.1 this
  exact (h1.2.2 g f x z hf hx hz).trans (h2.2.2 g f z y hf hz hy)

theorem KeepsMembers.base {E : Env} (hkt : KeyTypes E) {b c : ClassId} (hb : ∀ g f, HasField E b g f → HasField E c g f) {st st' : Store}
    (h : KeepsMembers E b st st') : KeepsMembers E c st st' := by
  refine ⟨h.1, fun k hk => h.2.1 k fun ⟨g, f, hf, he⟩ => hk ⟨g, f, hb g f hf, he⟩, fun g f x y hf hx hy => ?_⟩
  by_cases hk : MemberKey E b f.key
  · obtain ⟨g', f', hf', he⟩ := hk
    have := hkt c g f b g' f' hf hf' he.symm
    rw [this]
    rw [← he] at hx hy
    exact h.2.2 g' f' x y hf' hx hy
  · rw [h.2.1 _ hk, hx] at hy
    cases hy
    exact .refl _

theorem KeepsMembers.set {E : Env} (hkt : KeyTypes E) {c : ClassId} {g : Guard} {f : Field} (hf : HasField E c g f) {st : Store} {x v : Val}
    (hx : st.get? f.key = some x) (h : KeepsSame E f.ty x v) : KeepsMembers E c st (st.set f.key v) := by
  refine ⟨set_keys _ _ _, fun k hk => get?_set_ne _ _ fun he => hk ⟨g, f, hf, he.symm⟩, fun g' f' x' y hf' hx' hy => ?_⟩
  by_cases hk : f'.key = f.key
  · rw [hk] at hx' hy
    rw [hkt c g' f' c g f hf' hf hk]
    rw [hx] at hx'
    cases hx'
    rw [get?_set_eq st hx] at hy
    cases hy
    exact h
  · rw [get?_set_ne _ _ hk, hx'] at hy
    cases hy
    exact .refl _

theorem KeepsObj.same {E : Env} {c : ClassId} {st : Store} {v : Val} (h : KeepsObj E c st v) : KeepsSame E (.cls c) (.obj st) v := by
  obtain ⟨st', rfl, h1, h2, h3⟩ := h
  intro x hx
  cases hx with
  | replaced _ _ h => cases h
  | @cls _ st0 _ e1 e2 e3 e4 e5 =>
    refine .cls (e1.trans h1.symm) e2 e3 (fun k hk => ?_) (fun g f x y hf hx hy => ?_)
    · rw [h2 k fun ⟨g, f, hf, he⟩ => hk g f hf he]
      exact e4 k hk
    · have : (st.get? f.key).isSome := by
        rw [get?_isSome_iff, ← h1, ← get?_isSome_iff, hy]
        rfl
      obtain ⟨z, hz⟩ := Option.isSome_iff_exists.1 this
      exact h3 g f z y hf hz hy x (e5 g f x z hf hx hz)

/-- what is shown about an attempt -/
def LeavesSame (E : Env) (self : Nat → Ty → Val → XR Val) : Prop :=
  (∀ w t p, Leaves (KeepsSame E t p) (KeepsSame E t p) (self w t p)) ∧
  (∀ w c st, Leaves (KeepsObj E c st) (KeepsObj E c st) (self w (.cls c) (.obj st)))

section
variable {E : Env} (hkt : KeyTypes E) {self : Nat → Ty → Val → XR Val} (hs : LeavesSame E self)
include hkt hs

theorem leaves_bases (w : Nat) {c : ClassId} (bs : List ClassId) (hb : ∀ b ∈ bs, ∀ g f, HasField E b g f → HasField E c g f) (st0 st : Store)
    (h : KeepsMembers E c st0 st) : Leaves (KeepsObj E c st0) (KeepsObj E c st0) (readBasesX self w bs (.obj st)) := by
  induction bs generalizing st with
  | nil => exact .pure ⟨st, rfl, h⟩
  | cons b bs ih =>
    refine Leaves.bind (R := KeepsObj E c st0) ((hs.2 w b st).weaken ?_ ?_) ?_
    · rintro _ ⟨st', rfl, h'⟩
      exact ⟨st', rfl, h.trans (h'.base hkt (hb b List.mem_cons_self))⟩
    · rintro _ ⟨st', rfl, h'⟩
      exact ⟨st', rfl, h.trans (h'.base hkt (hb b List.mem_cons_self))⟩
    · rintro _ ⟨st', rfl, h'⟩
      exact ih (fun c hc => hb c (List.mem_cons_of_mem _ hc)) st' h'

theorem leaves_fields (w : Nat) {c : ClassId} (fs : List (Guard × Field)) (hf : ∀ gf ∈ fs, HasField E c gf.1 gf.2) (st0 st : Store)
    (h : KeepsMembers E c st0 st) : Leaves (KeepsMembers E c st0) (KeepsObj E c st0) (readFieldsX self w fs st) := by
  induction fs generalizing st with
  | nil => exact .pure h
  | cons gf fs ih =>
    obtain ⟨g, f⟩ := gf
    have ih := ih (fun gf h => hf gf (List.mem_cons_of_mem _ h))
    simp only [readFieldsX]
    refine .ite ?_ (ih st h)
    cases hx : st.get? f.key with
    | none => exact .stuck
    | some x =>
      have hfd := hf _ List.mem_cons_self
      refine Leaves.bind ((hs.1 w f.ty x).within fun q hq => ⟨_, rfl, h.trans (.set hkt hfd hx hq)⟩) fun v hv => ?_
      exact ih _ (h.trans (.set hkt hfd hx hv))

theorem leaves_class (w : Nat) {c : ClassId} {ci : ClassInfo} (hc : E.cls c = some ci) (st : Store) :
    Leaves (fun r => KeepsObj E c st r.1) (KeepsObj E c st) (readClassX self ci w (.obj st)) := by
  unfold readClassX
  refine .ite .stuck ?_
  refine (leaves_bases hkt hs w ci.bin.bases (fun b hb g f hf => .base hc hb hf) st st (.refl _)).bind ?_
  rintro _ ⟨st', rfl, h'⟩
  refine (Leaves.holding ⟨st', rfl, h'⟩).bind fun ver _ => ?_
  refine (leaves_fields hkt hs ver ci.bin.readFields (fun gf h => .own hc h) st st' h').bind fun st2 h2 => ?_
  exact .pure ⟨st2, rfl, h2⟩

theorem leaves_elems {t : Ty} {Q : Val → Prop} (hQ : ∀ p v, Q p → KeepsSame E t p v → Q v) (done ps : List Val) (hd : ∀ v ∈ done, Q v)
    (hp : ∀ p ∈ ps, Q p) :
    Leaves (fun vs => ∀ v ∈ vs, Q v) (fun q => ∃ l, q = .list l ∧ ∀ v ∈ l, Q v) (readElemsX self t done ps) := by
  induction ps generalizing done with
  | nil => exact .pure (by simp)
  | cons p ps ih =>
    have hp1 := hp p List.mem_cons_self
    have hp2 : ∀ p ∈ ps, Q p := fun p h => hp p (List.mem_cons_of_mem _ h)
    refine Leaves.bind ((hs.1 0 t p).within fun q hq => ⟨_, rfl, ?_⟩) fun v hv => ?_
    · intro v hv
      rcases List.mem_append.1 hv with h | h
      · exact hd _ h
      · rcases List.mem_cons.1 h with rfl | h
        · exact hQ _ _ hp1 hq
        · exact hp2 _ h
    · refine (ih (done ++ [v]) ?_ hp2).bind fun vs hvs => .pure ?_
      · intro x hx
        rcases List.mem_append.1 hx with h | h
        · exact hd _ h
        · rw [List.mem_singleton.1 h]
          exact hQ _ _ hp1 hv
      · intro x hx
        rcases List.mem_cons.1 hx with rfl | h
        · exact hQ _ _ hp1 hv
        · exact hvs _ h

theorem leaves_step : LeavesSame E (readXStep E self) := by
  have hcls : ∀ w c st, Leaves (KeepsObj E c st) (KeepsObj E c st) (readXStep E self w (.cls c) (.obj st)) := by
    intro w c st
    simp only [readXStep]
    cases hc : E.cls c with
    | none => exact .stuck
    | some ci => exact (leaves_class hkt hs w hc st).bind fun r hr => .pure hr
  refine ⟨fun w t p => ?_, hcls⟩
  by_cases ht : ReplacedAsWhole t = true
  · exact fun s => ⟨fun v s' _ x _ => .replaced _ _ ht, fun e q s' _ x _ => .replaced _ _ ht⟩
  · intro s
    suffices h : ∀ x, SameOnceRead E t x p → Leaves (SameOnceRead E t x) (SameOnceRead E t x) (readXStep E self w t p) from
      ⟨fun v s' hv x hx => (h x hx s).1 _ _ hv, fun e q s' hv x hx => (h x hx s).2 _ _ _ hv⟩
    intro x hx
    cases hx with
    | replaced _ _ h => exact absurd h ht
    | @pair a b x0 y0 x y h1 h2 =>
      simp only [readXStep]
      refine Leaves.bind ((hs.1 0 a x).within fun q hq => .pair (hq _ h1) h2) fun v hv => ?_
      refine Leaves.bind ((hs.1 0 b y).within fun q hq => .pair (hv _ h1) (hq _ h2)) fun v' hv' => ?_
      exact .pure (.pair (hv _ h1) (hv' _ h2))
    | @vec t ps qs h =>
      simp only [readXStep]
      have hself : SameOnceRead E (.vec t) (.list ps) (.list qs) := .vec h
      refine (Leaves.holding hself).bind fun k _ => .ite (.throw hself) ?_
      have hQ : ∀ p v, (∀ x ∈ E.valInit t :: ps, SameOnceRead E t x p) → KeepsSame E t p v → ∀ x ∈ E.valInit t :: ps, SameOnceRead E t x v :=
        fun p v hp hv x hx => hv _ (hp x hx)
      have hd : ∀ x ∈ E.valInit t :: ps, SameOnceRead E t x (E.valInit t) := fun x hx => h x hx _ List.mem_cons_self
      have hfin : ∀ l : List Val, (∀ v ∈ l, ∀ x ∈ E.valInit t :: ps, SameOnceRead E t x v) → SameOnceRead E (.vec t) (.list ps) (.list l) := by
        intro l hl
        refine .vec fun x hx v hv => ?_
        rcases List.mem_cons.1 hv with rfl | hv
        · exact hd x hx
        · exact hl v hv x hx
      have := leaves_elems hkt hs hQ [] (resize qs k (E.valInit t)) (by simp) fun p hp x hx => by
        unfold resize at hp
        rcases List.mem_append.1 hp with hp | hp
        · exact h x hx p (List.mem_cons_of_mem _ (List.mem_of_mem_take hp))
        · rw [(List.mem_replicate.1 hp).2]
          exact hd x hx
      refine Leaves.bind (this.weaken (fun _ h => h) ?_) fun vs hvs => .pure (hfin vs hvs)
      rintro _ ⟨l, rfl, hl⟩
      exact hfin l hl
    | @cls c st0 st h1 h2 h3 h4 h5 =>
      have hx : SameOnceRead E (.cls c) (.obj st0) (.obj st) := .cls h1 h2 h3 h4 h5
      exact (hcls w c st).weaken (fun v hv => hv.same _ hx) (fun v hv => hv.same _ hx)

end

theorem leaves_readX {E : Env} (hkt : KeyTypes E) (n : Nat) : LeavesSame E (readX E n) := by
  induction n with
  | zero => exact ⟨fun _ _ _ s => ⟨fun v s' h => (by cases h), fun e q s' h => by cases h⟩,
      fun _ _ _ s => ⟨fun v s' h => (by cases h), fun e q s' h => by cases h⟩⟩
  | succ n ih => exact leaves_step hkt ih

end Verif
