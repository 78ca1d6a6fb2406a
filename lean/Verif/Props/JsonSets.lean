import Verif.Lemmas.Clean
import Verif.Lemmas.PushInv
import Verif.Demo
import Verif.Props.JsonErrors

/-!
# C09: duplicates when reading sets
-/

namespace Verif

open Demo (env)

/-- Equivalence of elements with respect to the ordering of the container. -/
def Equivalent (lt : Val → Val → Bool) (a b : Val) : Prop := lt a b = false ∧ lt b a = false

/-- The ordering is a strict weak order on the given values. -/
structure WeakOrderOn (lt : Val → Val → Bool) (S : List Val) : Prop where
  irrefl : ∀ x ∈ S, lt x x = false
  trans : ∀ x ∈ S, ∀ y ∈ S, ∀ z ∈ S, lt x y = true → lt y z = true → lt x z = true
  negTrans : ∀ x ∈ S, ∀ y ∈ S, ∀ z ∈ S, lt x y = false → lt y z = false → lt x z = false

/-- `y` occurs in the list and is not preceded by an equivalent value. -/
def FirstOfItsKind (lt : Val → Val → Bool) (items : List Val) (y : Val) : Prop :=
  ∃ i : Nat, items[i]? = some y ∧ ∀ (k : Nat) x, k < i → items[k]? = some x → ¬ Equivalent lt x y

/-- The value at position `i` is equivalent to an earlier one. -/
def DuplicateAt (lt : Val → Val → Bool) (items : List Val) (i : Nat) : Prop :=
  ∃ x, items[i]? = some x ∧ ∃ k, k < i ∧ ∃ z, items[k]? = some z ∧ Equivalent lt z x

section
variable {lt : Val → Val → Bool} {S : List Val} (hS : WeakOrderOn lt S)
include hS

theorem WeakOrderOn.asymm {a b : Val} (ha : a ∈ S) (hb : b ∈ S) (h : lt a b = true) : lt b a = false := by
  cases h' : lt b a with
  | false => rfl
  | true =>
    have := hS.trans _ ha _ hb _ ha h h'
    rw [hS.irrefl _ ha] at this
    cases this

theorem WeakOrderOn.equiv_trans {a b c : Val} (ha : a ∈ S) (hb : b ∈ S) (hc : c ∈ S) (h1 : Equivalent lt a b)
    (h2 : Equivalent lt b c) : Equivalent lt a c :=
  ⟨hS.negTrans _ ha _ hb _ hc h1.1 h2.1, hS.negTrans _ hc _ hb _ ha h2.2 h1.2⟩

omit hS in
theorem Equivalent.symm {a b : Val} (h : Equivalent lt a b) : Equivalent lt b a := ⟨h.2, h.1⟩

/-- Inserting into a set. -/
theorem insertUniq_spec {x : Val} (hx : x ∈ S) (acc : List Val) (hacc : ∀ y ∈ acc, y ∈ S)
    (hs : acc.Pairwise fun a b => lt a b = true) :
    ((∃ y ∈ acc, Equivalent lt x y) → insertUniq lt x acc = (acc, false)) ∧
    ((¬ ∃ y ∈ acc, Equivalent lt x y) →
      (insertUniq lt x acc).2 = true ∧ ((insertUniq lt x acc).1.Pairwise fun a b => lt a b = true) ∧
      ∀ y, y ∈ (insertUniq lt x acc).1 ↔ y = x ∨ y ∈ acc) := by
  induction acc with
  | nil => simp [insertUniq]
  | cons a acc ih =>
    have ha : a ∈ S := hacc a List.mem_cons_self
    have hs' := List.pairwise_cons.1 hs
    specialize ih (fun y hy => hacc y (List.mem_cons_of_mem _ hy)) hs'.2
    unfold insertUniq
    by_cases h1 : lt x a = true
    · rw [if_pos h1]
      have hall : ∀ y ∈ a :: acc, lt x y = true := by
        intro y hy
        rcases List.mem_cons.1 hy with rfl | hy'
        · exact h1
        · exact hS.trans _ hx _ ha _ (hacc y hy) h1 (hs'.1 y hy')
      constructor
      · rintro ⟨y, hy, he⟩
        exact absurd he.1 (by simp [hall y hy])
      · intro _
        exact ⟨rfl, List.pairwise_cons.2 ⟨hall, hs⟩, fun y => by simp⟩
    · rw [if_neg h1]
      have h1' : lt x a = false := by simpa using h1
      by_cases h2 : lt a x = true
      · rw [if_pos h2]
        constructor
        · rintro ⟨y, hy, he⟩
          rcases List.mem_cons.1 hy with rfl | hy'
          · exact absurd he.2 (by simp [h2])
          · dsimp only
            rw [ih.1 ⟨y, hy', he⟩]
        · intro hn
          obtain ⟨i1, i2, i3⟩ := ih.2 fun ⟨y, hy, he⟩ => hn ⟨y, List.mem_cons_of_mem _ hy, he⟩
          refine ⟨i1, List.pairwise_cons.2 ⟨fun y hy => ?_, i2⟩, fun y => ?_⟩
          · rcases (i3 y).1 hy with rfl | hy
            · exact h2
            · exact hs'.1 y hy
          · simp only [List.mem_cons, i3]
            constructor
            · rintro (h | h | h) <;> simp [h]
            · rintro (h | h | h) <;> simp [h]
      · rw [if_neg h2]
        have h2' : lt a x = false := by simpa using h2
        exact ⟨fun _ => rfl, fun hn => absurd ⟨a, List.mem_cons_self, h1', h2'⟩ hn⟩

/-- Every item has an equivalent first one. -/
theorem exists_first (pre : List Val) (hpre : ∀ x ∈ pre, x ∈ S) (i : Nat) (z : Val) (hz : pre[i]? = some z) :
    ∃ y, FirstOfItsKind lt pre y ∧ Equivalent lt y z := by
  induction i using Nat.strongRecOn generalizing z with
  | ind i ih =>
    have hzm : z ∈ S := hpre z (List.mem_of_getElem? hz)
    by_cases h : ∃ k x, k < i ∧ pre[k]? = some x ∧ Equivalent lt x z
    · obtain ⟨k, x, hk, hx, he⟩ := h
      obtain ⟨y, hy, he'⟩ := ih k hk x hx
      have hym : y ∈ S := by obtain ⟨i', h', -⟩ := hy; exact hpre y (List.mem_of_getElem? h')
      exact ⟨y, hy, hS.equiv_trans hym (hpre x (List.mem_of_getElem? hx)) hzm he' he⟩
    · exact ⟨z, ⟨i, hz, fun k x hk hx he => h ⟨k, x, hk, hx, he⟩⟩, hS.irrefl _ hzm, hS.irrefl _ hzm⟩

omit hS in
theorem first_append (pre : List Val) (x y : Val) :
    FirstOfItsKind lt (pre ++ [x]) y ↔ FirstOfItsKind lt pre y ∨ (y = x ∧ ∀ z ∈ pre, ¬ Equivalent lt z x) := by
  constructor
  · rintro ⟨i, hi, hk⟩
    rcases Nat.lt_or_ge i pre.length with hl | hl
    · rw [List.getElem?_append_left hl] at hi
      exact .inl ⟨i, hi, fun k x' hk' hx' => hk k x' hk' (by rw [List.getElem?_append_left (by omega)]; exact hx')⟩
    · have hi2 : i = pre.length := by
        obtain ⟨h, -⟩ := List.getElem?_eq_some_iff.1 hi
        simp at h; omega
      subst hi2
      rw [List.getElem?_append_right (Nat.le_refl _)] at hi
      simp at hi
      subst hi
      refine .inr ⟨rfl, fun z hz => ?_⟩
      obtain ⟨k, hk'⟩ := List.mem_iff_getElem?.1 hz
      obtain ⟨hlt, -⟩ := List.getElem?_eq_some_iff.1 hk'
      exact hk k z hlt (by rw [List.getElem?_append_left hlt]; exact hk')
  · rintro (⟨i, hi, hk⟩ | ⟨rfl, hz⟩)
    · obtain ⟨hlt, -⟩ := List.getElem?_eq_some_iff.1 hi
      refine ⟨i, by rw [List.getElem?_append_left hlt]; exact hi, fun k x' hk' hx' => hk k x' hk' ?_⟩
      rw [List.getElem?_append_left (by omega)] at hx'
      exact hx'
    · refine ⟨pre.length, by simp, fun k x' hk' hx' => hz x' ?_⟩
      rw [List.getElem?_append_left hk'] at hx'
      exact List.mem_of_getElem? hx'

/-- The content of the set after reading the items `pre`. -/
structure SetInv (lt : Val → Val → Bool) (pre acc : List Val) : Prop where
  sorted : acc.Pairwise fun a b => lt a b = true
  mem : ∀ y, y ∈ acc ↔ FirstOfItsKind lt pre y

omit hS in
theorem first_mem {pre : List Val} {y : Val} (h : FirstOfItsKind lt pre y) : y ∈ pre := by
  obtain ⟨i, hi, -⟩ := h; exact List.mem_of_getElem? hi

theorem SetInv.step {pre acc : List Val} (hI : SetInv lt pre acc) (hpre : ∀ x ∈ pre, x ∈ S) {x : Val} (hx : x ∈ S) :
    ((∃ z ∈ pre, Equivalent lt z x) → insertUniq lt x acc = (acc, false)) ∧
    ((¬ ∃ z ∈ pre, Equivalent lt z x) → (insertUniq lt x acc).2 = true) ∧
    SetInv lt (pre ++ [x]) (insertUniq lt x acc).1 := by
  have hacc : ∀ y ∈ acc, y ∈ S := fun y hy => hpre y (first_mem ((hI.mem y).1 hy))
  obtain ⟨h1, h2⟩ := insertUniq_spec hS hx acc hacc hI.sorted
  have key : (∃ y ∈ acc, Equivalent lt x y) ↔ ∃ z ∈ pre, Equivalent lt z x := by
    constructor
    · rintro ⟨y, hy, he⟩; exact ⟨y, first_mem ((hI.mem y).1 hy), he.symm⟩
    · rintro ⟨z, hz, he⟩
      obtain ⟨i, hi⟩ := List.mem_iff_getElem?.1 hz
      obtain ⟨y, hy, he'⟩ := exists_first hS pre hpre i z hi
      exact ⟨y, (hI.mem y).2 hy, (hS.equiv_trans (hpre y (first_mem hy)) (hpre z hz) hx he' he).symm⟩
  rw [key] at h1 h2
  refine ⟨h1, fun h => (h2 h).1, ?_⟩
  by_cases h : ∃ z ∈ pre, Equivalent lt z x
  · rw [h1 h]
    refine ⟨hI.sorted, fun y => ?_⟩
    rw [first_append, hI.mem]
    constructor
    · exact .inl
    · rintro (h' | ⟨rfl, h'⟩)
      · exact h'
      · obtain ⟨z, hz, he⟩ := h; exact absurd he (h' z hz)
  · obtain ⟨-, h3, h4⟩ := h2 h
    refine ⟨h3, fun y => ?_⟩
    rw [first_append, h4, hI.mem]
    constructor
    · rintro (rfl | h')
      · exact .inr ⟨rfl, fun z hz he => h ⟨z, hz, he⟩⟩
      · exact .inl h'
    · rintro (h' | ⟨rfl, -⟩)
      · exact .inr h'
      · exact .inl rfl

end

/-- Any normal return of reading an array into a set: the result is strictly ascending and contains, from what the items
were read as, exactly those values which are not equivalent to the value of an earlier item. -/
theorem set_loop_ok {E : Env} {self : Ty → Json → Val → PM Val} {t : Ty} (js : List Json) (i : Nat) (pre acc out : List Val)
    (s s' : Option ErrSt) (h : forIdx (setItem E self t) js i acc s = .ok out s') :
    ∃ items, List.Forall₂ (fun j v => ∃ s1 s2, self t j (E.defInit t) s1 = .ok v s2) js items ∧
      (∀ S, WeakOrderOn (E.lt t) S → (∀ x ∈ pre ++ items, x ∈ S) → SetInv (E.lt t) pre acc →
        SetInv (E.lt t) (pre ++ items) out) := by
  induction js generalizing i pre acc s with
  | nil =>
    rw [forIdx_nil] at h
    cases h
    exact ⟨[], .nil, fun S _ _ h => by simpa using h⟩
  | cons j js ih =>
    rw [forIdx_cons] at h
    obtain ⟨acc1, s1, h1, h2⟩ := M.bind_eq_ok.1 h
    unfold setItem at h1
    obtain ⟨v, s2, h3, h4⟩ := M.bind_eq_ok.1 h1
    cases hv : v.hasIndet with
    | true => rw [hv] at h4; cases h4
    | false =>
      rw [hv] at h4
      have hacc1 : acc1 = (insertUniq (E.lt t) v acc).1 := by
        simp only [Bool.false_eq_true, if_false] at h4
        split at h4
        · cases h4; rfl
        · obtain ⟨u, s3, -, h5⟩ := M.bind_eq_ok.1 h4
          cases h5; rfl
      subst hacc1
      obtain ⟨items, hf, hi⟩ := ih (i + 1) (pre ++ [v]) _ s1 h2
      refine ⟨v :: items, .cons ⟨_, _, h3⟩ hf, fun S hS hm hI => ?_⟩
      have hm' : ∀ x ∈ (pre ++ [v]) ++ items, x ∈ S := by simpa using hm
      have := hi S hS hm' (SetInv.step hS hI (fun x hx => hm x (by simp [hx])) (hm v (by simp))).2.2
      simpa using this

/-- C09 (content): whenever reading an array into a set returns, there is one value per item of the array (what the item
was deserialised as) and the resulting set consists, in strictly ascending order, of exactly those which are not
equivalent to an earlier one: no element is lost and none is stored twice. -/
theorem C09_set_of_distinct_items (E : Env) (n : Nat) (hashed : Bool) (t : Ty) (js : List Json) (prior v' : Val)
    (s s' : Option ErrSt) (h : pull E (n + 1) (.set hashed false t) (.arr js) prior s = .ok v' s') :
    ∃ items out, v' = .list out ∧
      List.Forall₂ (fun j v => ∃ s1 s2, pull E n t j (E.defInit t) s1 = .ok v s2) js items ∧
      (WeakOrderOn (E.lt t) items →
        (out.Pairwise fun a b => E.lt t a b = true) ∧ ∀ y, y ∈ out ↔ FirstOfItsKind (E.lt t) items y) := by
  change pullStep E (pull E n) _ _ _ _ = _ at h
  simp only [pullStep] at h
  obtain ⟨out, s1, h1, h2⟩ := M.bind_eq_ok.1 h
  cases h2
  obtain ⟨items, hf, hi⟩ := set_loop_ok js 0 [] [] out s _ h1
  refine ⟨items, out, rfl, hf, fun hw => ?_⟩
  have := hi items hw (by simp) ⟨by simp, fun y => by simp [FirstOfItsKind]⟩
  exact ⟨this.sorted, by simpa using this.mem⟩

/-- the error reported for the duplicate at position `i` -/
def DupErr (st : ErrSt) (i : Nat) (e : Err) : Prop :=
  e.kind = .unexpectedDuplicate ∧ e.expected = .array ∧ e.actual = .array ∧ e.record = st.record ∧
    e.member = st.member ∧ (e.index = i ∨ e.index = noIndex)

theorem DupErr.reindex (s : ErrSt) (i : Nat) : DupErr { s with index := i } = DupErr s := rfl

theorem dup_ok {s : ErrSt} {acc : List Val} (hf : ¬ Fatal s.throwOn .unexpectedDuplicate) :
    (report .unexpectedDuplicate .array .array >>= fun _ => pure acc : PM _) (some s) =
      .ok acc (some (s.push (s.mk' .unexpectedDuplicate .array .array))) := by
  rw [M.bind_apply]
  simp only [report]
  rw [if_neg fun h => hf ((fatal_iff _ _).2 h)]
  rfl

theorem dup_exc {s : ErrSt} {acc : List Val} (hf : Fatal s.throwOn .unexpectedDuplicate) :
    (report .unexpectedDuplicate .array .array >>= fun _ => pure acc : PM _) (some s) =
      .exc (s.mk' .unexpectedDuplicate .array .array) (some (s.push (s.mk' .unexpectedDuplicate .array .array))) := by
  rw [M.bind_apply]
  simp only [report]
  rw [if_pos ((fatal_iff _ _).1 hf)]

section
variable {E : Env} {self : Ty → Json → Val → PM Val} {t : Ty} {S : List Val}

/-- reading one item of a set -/
theorem setItem_clean (hS : WeakOrderOn (E.lt t) S) {pre acc : List Val} (hI : SetInv (E.lt t) pre acc)
    (hpre : ∀ x ∈ pre, x ∈ S) {x : Val} (hx : x ∈ S) (hi : x.hasIndet = false) {j : Json}
    (hc : Clean (self t j (E.defInit t)) x) :
    ((¬ ∃ z ∈ pre, Equivalent (E.lt t) z x) → Clean (setItem E self t j acc) (insertUniq (E.lt t) x acc).1) ∧
    ((∃ z ∈ pre, Equivalent (E.lt t) z x) → setItem E self t j acc none = .ub ∧
      ∀ s : ErrSt, ∃ i, (i = s.index ∨ i = noIndex) ∧ setItem E self t j acc (some s) =
        (report .unexpectedDuplicate .array .array >>= fun _ => pure acc) (some { s with index := i })) := by
  obtain ⟨a1, a2, -⟩ := SetInv.step hS hI hpre hx
  constructor
  · intro h
    refine Clean.bind hc ?_
    simp only [hi, Bool.false_eq_true, if_false, a2 h, if_true]
    exact Clean.pure _
  · intro h
    unfold setItem
    constructor
    · rw [M.bind_ok hc.1]
      simp only [hi, Bool.false_eq_true, if_false, a1 h]
      rfl
    · intro s
      obtain ⟨i, hi', e⟩ := hc.2 s
      refine ⟨i, hi', ?_⟩
      rw [M.bind_ok e]
      simp only [hi, Bool.false_eq_true, if_false, a1 h]
      rfl

end

/-- positions of duplicates among `xs`, given the items `pre` before -/
noncomputable def dupsFrom (lt : Val → Val → Bool) : List Val → List Val → List Nat
  | _, [] => []
  | pre, x :: xs =>
    open Classical in
    (if ∃ z ∈ pre, Equivalent lt z x then [pre.length] else []) ++ dupsFrom lt (pre ++ [x]) xs

theorem dupsFrom_ge {lt : Val → Val → Bool} (pre xs : List Val) : ∀ i ∈ dupsFrom lt pre xs, pre.length ≤ i := by
  induction xs generalizing pre with
  | nil => simp [dupsFrom]
  | cons x xs ih =>
    intro i hi
    simp only [dupsFrom, List.mem_append] at hi
    rcases hi with hi | hi
    · split at hi <;> simp_all
    · have := ih _ i hi
      simp at this; omega

theorem dupsFrom_sorted {lt : Val → Val → Bool} (pre xs : List Val) : (dupsFrom lt pre xs).Pairwise (· < ·) := by
  induction xs generalizing pre with
  | nil => simp [dupsFrom]
  | cons x xs ih =>
    simp only [dupsFrom]
    split
    · refine List.pairwise_cons.2 ⟨fun i hi => ?_, ih _⟩
      have := dupsFrom_ge _ _ i hi
      simp at this; omega
    · exact ih _

theorem mem_dupsFrom {lt : Val → Val → Bool} (pre xs : List Val) (i : Nat) :
    i ∈ dupsFrom lt pre xs ↔ pre.length ≤ i ∧ DuplicateAt lt (pre ++ xs) i := by
  induction xs generalizing pre with
  | nil =>
    simp only [dupsFrom, List.append_nil, List.not_mem_nil, false_iff]
    rintro ⟨h, x, hx, -⟩
    obtain ⟨hlt, -⟩ := List.getElem?_eq_some_iff.1 hx
    omega
  | cons x xs ih =>
    simp only [dupsFrom, List.mem_append, ih, List.append_assoc, List.cons_append, List.nil_append, List.length_append,
      List.length_cons, List.length_nil]
    have hx : (pre ++ x :: xs)[pre.length]? = some x := by simp
    have hd : DuplicateAt lt (pre ++ x :: xs) pre.length ↔ ∃ z ∈ pre, Equivalent lt z x := by
      constructor
      · rintro ⟨x', hx', k, hk, z, hz, he⟩
        rw [hx] at hx'; cases hx'
        rw [List.getElem?_append_left hk] at hz
        exact ⟨z, List.mem_of_getElem? hz, he⟩
      · rintro ⟨z, hz, he⟩
        obtain ⟨k, hk⟩ := List.mem_iff_getElem?.1 hz
        obtain ⟨hlt, -⟩ := List.getElem?_eq_some_iff.1 hk
        exact ⟨x, hx, k, hlt, z, by rw [List.getElem?_append_left hlt]; exact hk, he⟩
    constructor
    · rintro (h | ⟨h1, h2⟩)
      · split at h
        · rename_i hz
          simp at h; subst h
          exact ⟨Nat.le_refl _, hd.2 hz⟩
        · simp at h
      · exact ⟨by omega, h2⟩
    · rintro ⟨h1, h2⟩
      rcases Nat.eq_or_lt_of_le h1 with rfl | h1
      · left
        rw [if_pos (hd.1 h2)]; simp
      · exact .inr ⟨by omega, h2⟩

section
variable {E : Env} {self : Ty → Json → Val → PM Val} {t : Ty} {S : List Val}

theorem set_loop_null (hS : WeakOrderOn (E.lt t) S) (js : List Json) (items pre acc : List Val) (hI : SetInv (E.lt t) pre acc)
    (hm : ∀ x ∈ pre ++ items, x ∈ S) (hi : ∀ x ∈ items, x.hasIndet = false)
    (hc : List.Forall₂ (fun j x => Clean (self t j (E.defInit t)) x) js items) :
    (dupsFrom (E.lt t) pre items = [] →
      ∃ out, forIdx (setItem E self t) js pre.length acc none = .ok out none ∧ SetInv (E.lt t) (pre ++ items) out) ∧
    (dupsFrom (E.lt t) pre items ≠ [] → forIdx (setItem E self t) js pre.length acc none = .ub) := by
  induction hc generalizing pre acc with
  | nil =>
    refine ⟨fun _ => ⟨acc, by rw [forIdx_nil]; rfl, by simpa using hI⟩, fun h => absurd rfl h⟩
  | @cons j x js items hj hc ih =>
    have hpre : ∀ x ∈ pre, x ∈ S := fun x hx => hm x (by simp [hx])
    obtain ⟨c1, c2⟩ := setItem_clean (E := E) (self := self) hS hI hpre (hm x (by simp)) (hi x (by simp)) hj
    obtain ⟨-, -, hI'⟩ := SetInv.step hS hI hpre (hm x (by simp))
    have ih' := ih (pre ++ [x]) _ hI' (by simpa using hm) (fun y hy => hi y (by simp [hy]))
    rw [forIdx_cons]
    simp only [dupsFrom, Option.map_none]
    by_cases hz : ∃ z ∈ pre, Equivalent (E.lt t) z x
    · rw [if_pos hz]
      refine ⟨fun h => by simp at h, fun _ => ?_⟩
      rw [M.bind_ub (c2 hz).1]
    · rw [if_neg hz, List.nil_append, M.bind_ok (c1 hz).1]
      simpa using ih'

theorem set_loop_some (hS : WeakOrderOn (E.lt t) S) (js : List Json) (items pre acc : List Val) (hI : SetInv (E.lt t) pre acc)
    (hm : ∀ x ∈ pre ++ items, x ∈ S) (hi : ∀ x ∈ items, x.hasIndet = false)
    (hc : List.Forall₂ (fun j x => Clean (self t j (E.defInit t)) x) js items) (s : ErrSt) :
    (¬ Fatal s.throwOn .unexpectedDuplicate →
      ∃ out s', forIdx (setItem E self t) js pre.length acc (some s) = .ok out (some s') ∧
        SetInv (E.lt t) (pre ++ items) out ∧
        ∃ errs, s'.errs = s.errs ++ errs ∧ List.Forall₂ (DupErr s) (dupsFrom (E.lt t) pre items) errs) ∧
    (Fatal s.throwOn .unexpectedDuplicate →
      (dupsFrom (E.lt t) pre items = [] →
        ∃ out s', forIdx (setItem E self t) js pre.length acc (some s) = .ok out (some s') ∧
          SetInv (E.lt t) (pre ++ items) out ∧ s'.errs = s.errs) ∧
      ∀ i is, dupsFrom (E.lt t) pre items = i :: is →
        ∃ e s', forIdx (setItem E self t) js pre.length acc (some s) = .exc e (some s') ∧ DupErr s i e ∧
          s'.errs = s.errs ++ [e]) := by
  induction hc generalizing pre acc s with
  | nil =>
    refine ⟨fun _ => ⟨acc, _, by rw [forIdx_nil]; rfl, by simpa using hI, [], by simp, .nil⟩, fun _ => ⟨fun _ => ?_, ?_⟩⟩
    · exact ⟨acc, _, forIdx_nil _ _ _ _, by simpa using hI, rfl⟩
    · intro i is h; cases h
  | @cons j x js items hj hc ih =>
    have hpre : ∀ x ∈ pre, x ∈ S := fun x hx => hm x (by simp [hx])
    obtain ⟨c1, c2⟩ := setItem_clean (E := E) (self := self) hS hI hpre (hm x (by simp)) (hi x (by simp)) hj
    obtain ⟨a1, -, hI'⟩ := SetInv.step hS hI hpre (hm x (by simp))
    have ih' := fun s => ih (pre ++ [x]) _ hI' (by simpa using hm) (fun y hy => hi y (by simp [hy])) s
    rw [forIdx_cons]
    simp only [dupsFrom, Option.map_some]
    by_cases hz : ∃ z ∈ pre, Equivalent (E.lt t) z x
    · rw [if_pos hz]
      rw [a1 hz] at ih'
      obtain ⟨i, hix, e⟩ := (c2 hz).2 { s with index := pre.length }
      constructor
      · intro hf
        rw [M.bind_ok (e.trans (dup_ok hf))]
        obtain ⟨out, s', h1, h2, errs, h3, h4⟩ := (ih' (ErrSt.push { s with index := i } (ErrSt.mk' { s with index := i } .unexpectedDuplicate .array .array))).1 hf
        refine ⟨out, s', by simpa using h1, by simpa using h2, _ :: errs, by rw [h3]; simp [ErrSt.push]; rfl, ?_⟩
        refine .cons ⟨rfl, rfl, rfl, rfl, rfl, hix⟩ ?_
        exact h4
      · intro hf
        refine ⟨fun h => by simp at h, fun i' is he => ?_⟩
        simp only [List.cons_append, List.nil_append, List.cons.injEq] at he
        obtain ⟨rfl, rfl⟩ := he
        rw [M.bind_exc (e.trans (dup_exc hf))]
        exact ⟨_, _, rfl, ⟨rfl, rfl, rfl, rfl, rfl, hix⟩, rfl⟩
    · rw [if_neg hz, List.nil_append]
      obtain ⟨i, -, e⟩ := (c1 hz).2 { s with index := pre.length }
      rw [M.bind_ok e]
      have := ih' { s with index := i }
      simp only [DupErr.reindex] at this
      simpa using this

end

theorem pull_set_eq (E : Env) (n : Nat) (hashed : Bool) (t : Ty) (js : List Json) (prior : Val) (s : Option ErrSt) :
    pull E (n + 1) (.set hashed false t) (.arr js) prior s =
      (forIdx (setItem E (pull E n) t) js 0 [] >>= fun vs => pure (.list vs)) s := by
  rfl

/-- C09 (errors): consider reading an array, the items of which are readable without errors, into a set. `dups` lists, in
ascending order, the positions of all items equivalent to an earlier item.
* With an error object in which duplicates are not fatal, the set is read and exactly one error is added per duplicate.
* If duplicates are fatal, the first one is reported and thrown; without duplicates nothing is reported.
* Without error object (null pointer), the behaviour is undefined as soon as there is a duplicate. -/
theorem C09_duplicate_errors (E : Env) (n : Nat) (hashed : Bool) (t : Ty) (js : List Json) (prior : Val)
    (items : List Val) (hw : WeakOrderOn (E.lt t) items) (hi : ∀ x ∈ items, x.hasIndet = false)
    (hc : List.Forall₂ (fun j x => Clean (pull E n t j (E.defInit t)) x) js items) :
    ∃ dups : List Nat, dups.Pairwise (· < ·) ∧ (∀ i, i ∈ dups ↔ DuplicateAt (E.lt t) items i) ∧
      (∀ st : ErrSt, ¬ Fatal st.throwOn .unexpectedDuplicate →
        ∃ out st' errs, pull E (n + 1) (.set hashed false t) (.arr js) prior (some st) = .ok (.list out) (some st') ∧
          st'.errs = st.errs ++ errs ∧ List.Forall₂ (DupErr st) dups errs) ∧
      (∀ st : ErrSt, Fatal st.throwOn .unexpectedDuplicate →
        (dups = [] → ∃ out st', pull E (n + 1) (.set hashed false t) (.arr js) prior (some st) = .ok (.list out) (some st') ∧
          st'.errs = st.errs) ∧
        ∀ i is, dups = i :: is → ∃ e st', pull E (n + 1) (.set hashed false t) (.arr js) prior (some st) = .exc e (some st') ∧
          DupErr st i e ∧ st'.errs = st.errs ++ [e]) ∧
      (dups = [] → ∃ out, pull E (n + 1) (.set hashed false t) (.arr js) prior none = .ok (.list out) none) ∧
      (dups ≠ [] → pull E (n + 1) (.set hashed false t) (.arr js) prior none = .ub) := by
  have h0 : SetInv (E.lt t) [] [] := ⟨by simp, fun y => by simp [FirstOfItsKind]⟩
  have hm : ∀ x ∈ [] ++ items, x ∈ items := by simp
  refine ⟨dupsFrom (E.lt t) [] items, dupsFrom_sorted _ _, fun i => by simp [mem_dupsFrom], fun st hf => ?_, fun st hf => ?_, ?_, ?_⟩
  · obtain ⟨out, s', h1, -, errs, h2, h3⟩ := (set_loop_some (self := pull E n) hw js items [] [] h0 hm hi hc st).1 hf
    refine ⟨out, s', errs, ?_, h2, h3⟩
    rw [pull_set_eq]; exact M.bind_ok h1
  · obtain ⟨h1, h2⟩ := (set_loop_some (self := pull E n) hw js items [] [] h0 hm hi hc st).2 hf
    constructor
    · intro h
      obtain ⟨out, s', h3, -, h4⟩ := h1 h
      refine ⟨out, s', ?_, h4⟩
      rw [pull_set_eq]; exact M.bind_ok h3
    · intro i is h
      obtain ⟨e, s', h3, h4⟩ := h2 i is h
      refine ⟨e, s', ?_, h4⟩
      rw [pull_set_eq]; exact M.bind_exc h3
  · intro h
    obtain ⟨out, h3, -⟩ := (set_loop_null (self := pull E n) hw js items [] [] h0 hm hi hc).1 h
    refine ⟨out, ?_⟩
    rw [pull_set_eq]; exact M.bind_ok h3
  · intro h
    have := (set_loop_null (self := pull E n) hw js items [] [] h0 hm hi hc).2 h
    rw [pull_set_eq]; exact M.bind_ub this

/-- The hypotheses are satisfiable: `[3, 1, 3, 2, 1]` has duplicates at positions 2 and 4. -/
example : ∃ items, WeakOrderOn (env.lt (.int .i32)) items ∧ (∀ x ∈ items, x.hasIndet = false) ∧
    List.Forall₂ (fun j x => Clean (pull env 3 (.int .i32) j (env.defInit (.int .i32))) x)
      [.num (.int 3), .num (.int 1), .num (.int 3), .num (.int 2), .num (.int 1)] items ∧
    DuplicateAt (env.lt (.int .i32)) items 2 ∧ DuplicateAt (env.lt (.int .i32)) items 4 ∧
    ¬ DuplicateAt (env.lt (.int .i32)) items 3 := by
  refine ⟨[.int 3, .int 1, .int 3, .int 2, .int 1], ⟨?_, ?_, ?_⟩, by simp [Val.hasIndet], ?_, ?_, ?_, ?_⟩
  · simp [env, Demo.stdLt]
  · simp [env, Demo.stdLt]
  · simp [env, Demo.stdLt]
  · exact .cons (Clean.pure _) (.cons (Clean.pure _) (.cons (Clean.pure _) (.cons (Clean.pure _) (.cons (Clean.pure _) .nil))))
  · exact ⟨_, rfl, 0, by omega, _, rfl, by simp [Equivalent, env, Demo.stdLt]⟩
  · exact ⟨_, rfl, 1, by omega, _, rfl, by simp [Equivalent, env, Demo.stdLt]⟩
  · rintro ⟨x, hx, k, hk, z, hz, he⟩
    have : k = 0 ∨ k = 1 ∨ k = 2 := by omega
    cases hx
    rcases this with rfl | rfl | rfl <;> (cases hz; simp [Equivalent, env, Demo.stdLt] at he)

example : pull env 3 (.set false false (.int .i32)) (.arr [.num (.int 3), .num (.int 1), .num (.int 3), .num (.int 2), .num (.int 1)])
      (.list [.int 9]) (some .init) =
    .ok (.list [.int 1, .int 2, .int 3]) (some { ErrSt.init with errs := [
      ⟨.unexpectedDuplicate, .array, .array, some (lit "[document]"), none, 2⟩,
      ⟨.unexpectedDuplicate, .array, .array, some (lit "[document]"), none, 4⟩] }) := by rfl

/-- Scalars, for which `T x;` leaves `x` uninitialised. -/
def Scalar (t : Ty) : Prop := t = .bool ∨ (∃ it, t = .int it) ∨ t = .f32 ∨ t = .f64 ∨ ∃ u, t = .enum u

/-- C09 (mismatching items): an item of the wrong JSON type in an array read into a (multi)set of scalars makes the
behaviour undefined (an uninitialised element is inserted) unless an exception has been thrown before: the read never
returns normally. -/
theorem C09_mismatching_scalar_item_never_returns (E : Env) (n : Nat) (hashed multi : Bool) (t : Ty) (hsc : Scalar t)
    (hs : PullSupported E t) (js : List Json) (j : Json) (hj : j ∈ js) (hn : ¬ Accepts t j) (prior v' : Val)
    (s s' : Option ErrSt) : pull E (n + 2) (.set hashed multi t) (.arr js) prior s ≠ .ok v' s' := by
  have hd : E.defInit t = .indet ∧ (acceptedType t).isSome := by
    rcases hsc with rfl | ⟨it, rfl⟩ | rfl | rfl | ⟨u, rfl⟩ <;> simp [Env.defInit, acceptedType]
  have bad : ∀ v s s', pull E (n + 1) t j (E.defInit t) s = .ok v s' → v.hasIndet = true := by
    intro v s s' h
    obtain ⟨exp, -, he⟩ := mismatch_eq (n := n) (v := E.defInit t) hd.2 hs hn
    rw [he] at h
    obtain ⟨u, s1, -, h2⟩ := M.bind_eq_ok.1 h
    cases h2
    rw [hd.1]; rfl
  intro h
  change pullStep E (pull E (n + 1)) _ _ _ _ = _ at h
  simp only [pullStep] at h
  obtain ⟨out, s1, h1, -⟩ := M.bind_eq_ok.1 h
  have loop : ∀ (f : Json → List Val → PM (List Val)), (∀ acc s o s', f j acc s ≠ .ok o s') →
      ∀ js i acc s o s', j ∈ js → forIdx f js i acc s ≠ .ok o s' := by
    intro f hf js
    induction js with
    | nil => intro i acc s o s' hm; cases hm
    | cons a js ih =>
      intro i acc s o s' hm h
      rw [forIdx_cons] at h
      obtain ⟨acc1, s1, h1, h2⟩ := M.bind_eq_ok.1 h
      rcases List.mem_cons.1 hm with rfl | hm
      · exact hf _ _ _ _ h1
      · exact ih _ _ _ _ _ hm h2
  refine loop _ ?_ js 0 [] s out s1 hj h1
  intro acc s o s' h
  cases multi
  · obtain ⟨v, s1, h1, h2⟩ := M.bind_eq_ok.1 h
    rw [bad v _ _ h1] at h2
    cases h2
  · obtain ⟨v, s1, h1, h2⟩ := M.bind_eq_ok.1 h
    rw [bad v _ _ h1] at h2
    cases h2

example : pull env 3 (.set false false (.int .i32)) (.arr [.num (.int 3), .str (lit "x")]) (.list []) (some .init) = .ub := by rfl

end Verif
