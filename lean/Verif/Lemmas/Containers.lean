import Verif.Props.JsonRoundTrip

/-!
# Insertion into ordered containers, generically in the element's key
-/

namespace Verif

section
variable {β : Type} (lt : Val → Val → Bool) (key : β → Val)

/-- insertion unless an equivalent key is present -/
def insU (x : β) : List β → List β
  | [] => [x]
  | y :: ys =>
    if lt (key x) (key y) then x :: y :: ys
    else if lt (key y) (key x) then y :: insU x ys
    else y :: ys

/-- insertion behind equivalent keys -/
def insM (x : β) : List β → List β
  | [] => [x]
  | y :: ys => if lt (key x) (key y) then x :: y :: ys else y :: insM x ys

/-- `y` occurs in the list and is not preceded by an element with equivalent key. -/
def FirstBy (xs : List β) (y : β) : Prop :=
  ∃ i : Nat, xs[i]? = some y ∧ ∀ (k : Nat) x, k < i → xs[k]? = some x → ¬ Equivalent lt (key x) (key y)

end

theorem insertUniq_eq (lt : Val → Val → Bool) (x : Val) (l : List Val) : (insertUniq lt x l).1 = insU lt id x l := by
  induction l with
  | nil => rfl
  | cons y ys ih =>
    simp only [insertUniq, insU, id]
    split
    · rfl
    · split
      · simp only [ih, id]
      · rfl

theorem insertMulti_eq (lt : Val → Val → Bool) (x : Val) (l : List Val) : insertMulti lt x l = insM lt id x l := by
  induction l with
  | nil => rfl
  | cons y ys ih => simp only [insertMulti, insM, id, ih]

theorem mapEmplace_eq (lt : Val → Val → Bool) (k v : Val) (l : List (Val × Val)) :
    mapEmplace lt k v l = insU lt Prod.fst (k, v) l := by
  induction l with
  | nil => rfl
  | cons y ys ih => obtain ⟨k', v'⟩ := y; simp only [mapEmplace, insU, ih]

theorem mapInsertMulti_eq (lt : Val → Val → Bool) (k v : Val) (l : List (Val × Val)) :
    mapInsertMulti lt k v l = insM lt Prod.fst (k, v) l := by
  induction l with
  | nil => rfl
  | cons y ys ih => obtain ⟨k', v'⟩ := y; simp only [mapInsertMulti, insM, ih]

section
variable {β : Type} {lt : Val → Val → Bool} {key : β → Val} {S : List Val}

theorem firstBy_cons (x : β) (xs : List β) (y : β) :
    FirstBy lt key (x :: xs) y ↔ y = x ∨ (¬ Equivalent lt (key x) (key y) ∧ FirstBy lt key xs y) := by
  constructor
  · rintro ⟨i, hi, hk⟩
    cases i with
    | zero => simp at hi; exact .inl hi.symm
    | succ i =>
      refine .inr ⟨hk 0 x (by omega) rfl, i, by simpa using hi, fun k z hkz hz => hk (k + 1) z (by omega) (by simpa using hz)⟩
  · rintro (rfl | ⟨h, i, hi, hk⟩)
    · exact ⟨0, rfl, fun k x hk => by omega⟩
    · refine ⟨i + 1, by simpa using hi, fun k z hkz hz => ?_⟩
      cases k with
      | zero => simp at hz; subst hz; exact h
      | succ k => exact hk k z (by omega) (by simpa using hz)

theorem firstBy_mem {xs : List β} {y : β} (h : FirstBy lt key xs y) : y ∈ xs := by
  obtain ⟨i, hi, -⟩ := h
  exact List.mem_of_getElem? hi

variable (hS : WeakOrderOn lt S)
include hS

theorem insU_spec {x : β} (hx : key x ∈ S) (acc : List β) (hacc : ∀ y ∈ acc, key y ∈ S)
    (hs : acc.Pairwise fun a b => lt (key a) (key b) = true) :
    ((∃ y ∈ acc, Equivalent lt (key x) (key y)) → insU lt key x acc = acc) ∧
    ((¬ ∃ y ∈ acc, Equivalent lt (key x) (key y)) →
      ((insU lt key x acc).Pairwise fun a b => lt (key a) (key b) = true) ∧
      ∀ y, y ∈ insU lt key x acc ↔ y = x ∨ y ∈ acc) := by
  induction acc with
  | nil => simp [insU]
  | cons a acc ih =>
    have ha : key a ∈ S := hacc a List.mem_cons_self
    have hs' := List.pairwise_cons.1 hs
    specialize ih (fun y hy => hacc y (List.mem_cons_of_mem _ hy)) hs'.2
    unfold insU
    by_cases h1 : lt (key x) (key a) = true
    · rw [if_pos h1]
      have hall : ∀ y ∈ a :: acc, lt (key x) (key y) = true := by
        intro y hy
        rcases List.mem_cons.1 hy with rfl | hy'
        · exact h1
        · exact hS.trans _ hx _ ha _ (hacc y hy) h1 (hs'.1 y hy')
      constructor
      · rintro ⟨y, hy, he⟩
        exact absurd he.1 (by simp [hall y hy])
      · intro _
        exact ⟨List.pairwise_cons.2 ⟨hall, hs⟩, fun y => by simp⟩
    · rw [if_neg h1]
      have h1' : lt (key x) (key a) = false := by simpa using h1
      by_cases h2 : lt (key a) (key x) = true
      · rw [if_pos h2]
        constructor
        · rintro ⟨y, hy, he⟩
          rcases List.mem_cons.1 hy with rfl | hy
          · exact absurd he.2 (by simp [h2])
          · rw [ih.1 ⟨y, hy, he⟩]
        · intro hn
          obtain ⟨i1, i2⟩ := ih.2 fun ⟨y, hy, he⟩ => hn ⟨y, List.mem_cons_of_mem _ hy, he⟩
          refine ⟨List.pairwise_cons.2 ⟨fun y hy => ?_, i1⟩, fun y => ?_⟩
          · rcases (i2 y).1 hy with rfl | hy
            · exact h2
            · exact hs'.1 y hy
          · rw [List.mem_cons, i2, List.mem_cons]; tauto
      · rw [if_neg h2]
        have h2' : lt (key a) (key x) = false := by simpa using h2
        exact ⟨fun _ => rfl, fun hn => absurd ⟨a, List.mem_cons_self, h1', h2'⟩ hn⟩

theorem WeakOrderOn.equiv_refl {a : Val} (ha : a ∈ S) : Equivalent lt a a := ⟨hS.irrefl _ ha, hS.irrefl _ ha⟩

/-- Inserting a sequence of elements. -/
theorem foldl_insU (xs acc : List β) (hxs : ∀ y ∈ xs, key y ∈ S) (hacc : ∀ y ∈ acc, key y ∈ S)
    (hs : acc.Pairwise fun a b => lt (key a) (key b) = true) :
    ((xs.foldl (fun a x => insU lt key x a) acc).Pairwise fun a b => lt (key a) (key b) = true) ∧
    ∀ y, y ∈ xs.foldl (fun a x => insU lt key x a) acc ↔
      y ∈ acc ∨ ((∀ a ∈ acc, ¬ Equivalent lt (key a) (key y)) ∧ FirstBy lt key xs y) := by
  induction xs generalizing acc with
  | nil =>
    refine ⟨hs, fun y => ?_⟩
    simp [FirstBy]
  | cons x xs ih =>
    have hx : key x ∈ S := hxs x List.mem_cons_self
    have hxs' : ∀ y ∈ xs, key y ∈ S := fun y hy => hxs y (List.mem_cons_of_mem _ hy)
    obtain ⟨s1, s2⟩ := insU_spec hS hx acc hacc hs
    rw [List.foldl_cons]
    by_cases he : ∃ y ∈ acc, Equivalent lt (key x) (key y)
    · rw [s1 he]
      obtain ⟨i1, i2⟩ := ih acc hxs' hacc hs
      refine ⟨i1, fun y => ?_⟩
      rw [i2, firstBy_cons]
      constructor
      · rintro (h | ⟨h1, h2⟩)
        · exact .inl h
        · refine .inr ⟨h1, .inr ⟨?_, h2⟩⟩
          intro hxy
          obtain ⟨a, ha, hea⟩ := he
          exact h1 a ha (hS.equiv_trans (hacc a ha) hx (hxs' y (firstBy_mem h2)) hea.symm hxy)
      · rintro (h | ⟨h1, rfl | ⟨-, h2⟩⟩)
        · exact .inl h
        · obtain ⟨a, ha, hea⟩ := he
          exact absurd hea.symm (h1 a ha)
        · exact .inr ⟨h1, h2⟩
    · obtain ⟨t1, t2⟩ := s2 he
      obtain ⟨i1, i2⟩ := ih (insU lt key x acc) hxs' (fun y hy => by
        rcases (t2 y).1 hy with rfl | hy
        · exact hx
        · exact hacc y hy) t1
      refine ⟨i1, fun y => ?_⟩
      rw [i2, firstBy_cons, t2]
      constructor
      · rintro ((rfl | h) | ⟨h1, h2⟩)
        · exact .inr ⟨fun a ha hea => he ⟨a, ha, hea.symm⟩, .inl rfl⟩
        · exact .inl h
        · exact .inr ⟨fun a ha => h1 a ((t2 a).2 (.inr ha)), .inr ⟨h1 x ((t2 x).2 (.inl rfl)), h2⟩⟩
      · rintro (h | ⟨h1, rfl | ⟨h2, h3⟩⟩)
        · exact .inl (.inr h)
        · exact .inl (.inl rfl)
        · refine .inr ⟨fun a ha => ?_, h3⟩
          rcases (t2 a).1 ha with rfl | ha
          · exact h2
          · exact h1 a ha

/-- Inserting all elements of a sorted container (in any order) into a part of it restores it. -/
theorem foldl_insU_eq {vs xs acc : List β} (hvs : ∀ y ∈ vs, key y ∈ S) (hsort : vs.Pairwise fun a b => lt (key a) (key b) = true)
    (hp : xs.Perm vs) (hacc : ∀ y ∈ acc, y ∈ vs) (hs : acc.Pairwise fun a b => lt (key a) (key b) = true) :
    xs.foldl (fun a x => insU lt key x a) acc = vs := by
  have hxs : ∀ y ∈ xs, key y ∈ S := fun y hy => hvs y (hp.mem_iff.1 hy)
  obtain ⟨h1, h2⟩ := foldl_insU hS xs acc hxs (fun y hy => hvs y (hacc y hy)) hs
  have hinj : ∀ a ∈ vs, ∀ b ∈ vs, Equivalent lt (key a) (key b) → a = b := by
    intro a ha b hb he
    by_contra hne
    have := List.pairwise_iff_getElem.1 hsort
    obtain ⟨i, hi, rfl⟩ := List.getElem_of_mem ha
    obtain ⟨j, hj, rfl⟩ := List.getElem_of_mem hb
    rcases Nat.lt_trichotomy i j with h | h | h
    · exact absurd he.1 (by simp [this i j hi hj h])
    · subst h; exact hne rfl
    · exact absurd he.2 (by simp [this j i hj hi h])
  refine sorted_ext _ _ h1 hsort (fun y => ?_) ?_
  · rw [h2]
    constructor
    · rintro (h | ⟨-, h⟩)
      · exact hacc y h
      · exact hp.mem_iff.1 (firstBy_mem h)
    · intro hy
      by_cases hex : ∃ a ∈ acc, Equivalent lt (key a) (key y)
      · obtain ⟨a, ha, he⟩ := hex
        rw [← hinj a (hacc a ha) y hy he]
        exact .inl ha
      · refine .inr ⟨fun a ha he => hex ⟨a, ha, he⟩, ?_⟩
        have hyx : y ∈ xs := hp.mem_iff.2 hy
        clear h1 h2 hacc hs hex
        have hsub : ∀ z ∈ xs, z ∈ vs := fun z hz => hp.mem_iff.1 hz
        clear hp hxs
        induction xs with
        | nil => cases hyx
        | cons x xs ih =>
          rw [firstBy_cons]
          by_cases hxy : Equivalent lt (key x) (key y)
          · exact .inl (hinj x (hsub x List.mem_cons_self) y hy hxy).symm
          · rcases List.mem_cons.1 hyx with rfl | hyx
            · exact .inl rfl
            · exact .inr ⟨hxy, ih hyx fun z hz => hsub z (List.mem_cons_of_mem _ hz)⟩
  · intro a ha b hb hab hba
    have ha' : key a ∈ S := by
      rcases (h2 a).1 ha with h | ⟨-, h⟩
      · exact hvs a (hacc a h)
      · exact hxs a (firstBy_mem h)
    have hb' : key b ∈ S := by
      rcases (h2 b).1 hb with h | ⟨-, h⟩
      · exact hvs b (hacc b h)
      · exact hxs b (firstBy_mem h)
    have := hS.asymm ha' hb' hab
    rw [hba] at this
    cases this

/-! ### multi containers -/

omit hS in
theorem insM_perm (x : β) (l : List β) : (insM lt key x l).Perm (x :: l) := by
  induction l with
  | nil => exact .refl _
  | cons y ys ih =>
    unfold insM
    split
    · exact .refl _
    · exact (ih.cons y).trans (.swap x y ys)

theorem insM_sorted {x : β} (hx : key x ∈ S) (l : List β) (hl : ∀ y ∈ l, key y ∈ S)
    (hs : l.Pairwise fun a b => lt (key b) (key a) = false) :
    (insM lt key x l).Pairwise fun a b => lt (key b) (key a) = false := by
  induction l with
  | nil => simp [insM]
  | cons y ys ih =>
    have hy := hl y List.mem_cons_self
    have hs' := List.pairwise_cons.1 hs
    unfold insM
    by_cases h : lt (key x) (key y) = true
    · rw [if_pos h]
      refine List.pairwise_cons.2 ⟨fun z hz => ?_, hs⟩
      have hyx := hS.asymm hx hy h
      rcases List.mem_cons.1 hz with rfl | hz
      · exact hyx
      · exact hS.negTrans _ (hl z (List.mem_cons_of_mem _ hz)) _ hy _ hx (hs'.1 z hz) hyx
    · rw [if_neg h]
      refine List.pairwise_cons.2 ⟨fun z hz => ?_, ih (fun z hz => hl z (List.mem_cons_of_mem _ hz)) hs'.2⟩
      rcases List.mem_cons.1 ((insM_perm x ys).mem_iff.1 hz) with rfl | hz
      · simpa using h
      · exact hs'.1 z hz

/-- the elements with key equivalent to `k`, in order -/
noncomputable def groupBy (lt : Val → Val → Bool) (key : β → Val) (k : Val) (l : List β) : List β :=
  open Classical in l.filter fun x => decide (Equivalent lt (key x) k)

omit hS in
theorem groupBy_nil (k : Val) : groupBy lt key k [] = [] := rfl

omit hS in
theorem groupBy_cons (k : Val) (x : β) (l : List β) [Decidable (Equivalent lt (key x) k)] :
    groupBy lt key k (x :: l) = if Equivalent lt (key x) k then x :: groupBy lt key k l else groupBy lt key k l := by
  unfold groupBy
  rw [List.filter_cons]
  split <;> split <;> simp_all

omit hS in
theorem groupBy_append (k : Val) (l l' : List β) : groupBy lt key k (l ++ l') = groupBy lt key k l ++ groupBy lt key k l' := by
  simp [groupBy]

theorem groupBy_insM {x : β} (hx : key x ∈ S) (l : List β) (hl : ∀ y ∈ l, key y ∈ S)
    (hs : l.Pairwise fun a b => lt (key b) (key a) = false) (k : Val) (hk : k ∈ S) :
    groupBy lt key k (insM lt key x l) = groupBy lt key k (l ++ [x]) := by
  classical
  induction l with
  | nil => rfl
  | cons y ys ih =>
    have hy := hl y List.mem_cons_self
    have hs' := List.pairwise_cons.1 hs
    unfold insM
    by_cases h : lt (key x) (key y) = true
    · rw [if_pos h, groupBy_append, groupBy_cons, groupBy_cons k x [], groupBy_nil]
      by_cases hxk : Equivalent lt (key x) k
      · rw [if_pos hxk, if_pos hxk]
        -- nothing equivalent in the rest
        have : groupBy lt key k (y :: ys) = [] := by
          unfold groupBy
          rw [List.filter_eq_nil_iff]
          intro z hz
          have hzS := hl z hz
          simp only [decide_eq_true_eq]
          intro hzk
          have hzx : Equivalent lt (key z) (key x) := hS.equiv_trans hzS hk hx hzk hxk.symm
          rcases List.mem_cons.1 hz with rfl | hz
          · exact absurd hzx.2 (by simp [h])
          · have h1 := hs'.1 z hz
            have h2 : lt (key x) (key y) = false := hS.negTrans _ hx _ hzS _ hy hzx.2 h1
            exact absurd h2 (by simp [h])
        rw [this]
        rfl
      · rw [if_neg hxk, if_neg hxk, List.append_nil]
    · rw [if_neg h, List.cons_append, groupBy_cons, groupBy_cons, ih (fun z hz => hl z (List.mem_cons_of_mem _ hz)) hs'.2]

theorem foldl_insM (xs acc : List β) (hxs : ∀ y ∈ xs, key y ∈ S) (hacc : ∀ y ∈ acc, key y ∈ S)
    (hs : acc.Pairwise fun a b => lt (key b) (key a) = false) :
    ((xs.foldl (fun a x => insM lt key x a) acc).Pairwise fun a b => lt (key b) (key a) = false) ∧
    (xs.foldl (fun a x => insM lt key x a) acc).Perm (acc ++ xs) ∧
    ∀ k ∈ S, groupBy lt key k (xs.foldl (fun a x => insM lt key x a) acc) = groupBy lt key k (acc ++ xs) := by
  induction xs generalizing acc with
  | nil => simp [hs]
  | cons x xs ih =>
    have hx : key x ∈ S := hxs x List.mem_cons_self
    have hxs' : ∀ y ∈ xs, key y ∈ S := fun y hy => hxs y (List.mem_cons_of_mem _ hy)
    have hp := insM_perm (lt := lt) (key := key) x acc
    rw [List.foldl_cons]
    obtain ⟨i1, i2, i3⟩ := ih (insM lt key x acc) hxs' (fun y hy => by
      rcases List.mem_cons.1 (hp.mem_iff.1 hy) with rfl | hy
      · exact hx
      · exact hacc y hy) (insM_sorted hS hx acc hacc hs)
    refine ⟨i1, ?_, fun k hk => ?_⟩
    · refine i2.trans ((hp.append_right xs).trans ?_)
      rw [List.cons_append]
      exact List.perm_middle.symm
    · rw [i3 k hk, groupBy_append, groupBy_insM hS hx acc hacc hs k hk, ← groupBy_append]
      simp

theorem groupBy_ext (l1 l2 : List β) (hl1 : ∀ y ∈ l1, key y ∈ S) (hl2 : ∀ y ∈ l2, key y ∈ S)
    (h1 : l1.Pairwise fun a b => lt (key b) (key a) = false) (h2 : l2.Pairwise fun a b => lt (key b) (key a) = false)
    (hg : ∀ k ∈ S, groupBy lt key k l1 = groupBy lt key k l2) : l1 = l2 := by
  classical
  induction l1 generalizing l2 with
  | nil =>
    cases l2 with
    | nil => rfl
    | cons b l2 =>
      have hb := hl2 b List.mem_cons_self
      have := hg (key b) hb
      rw [groupBy_cons, if_pos (hS.equiv_refl hb)] at this
      cases this
  | cons a l1 ih =>
    have ha := hl1 a List.mem_cons_self
    cases l2 with
    | nil =>
      have := hg (key a) ha
      rw [groupBy_cons, if_pos (hS.equiv_refl ha)] at this
      cases this
    | cons b l2 =>
      have hb := hl2 b List.mem_cons_self
      have h1' := List.pairwise_cons.1 h1
      have h2' := List.pairwise_cons.1 h2
      -- `a` and `b` are both minimal
      have hmem : ∀ (k : Val) (l : List β) (x : β), x ∈ groupBy lt key k l → x ∈ l ∧ Equivalent lt (key x) k := by
        intro k l x hx
        simpa [groupBy] using hx
      have hab : Equivalent lt (key a) (key b) := by
        have e1 := hg (key a) ha
        rw [groupBy_cons, if_pos (hS.equiv_refl ha)] at e1
        have ha2 : a ∈ b :: l2 := (hmem (key a) _ _ (e1 ▸ List.mem_cons_self)).1
        have e2 := hg (key b) hb
        have e3 : groupBy lt key (key b) (b :: l2) = b :: groupBy lt key (key b) l2 := by
          rw [groupBy_cons, if_pos (hS.equiv_refl hb)]
        rw [e3] at e2
        have hb1 : b ∈ a :: l1 := by
          have : b ∈ groupBy lt key (key b) (a :: l1) := by
            rw [e2]; exact List.mem_cons_self
          exact (hmem _ _ _ this).1
        refine ⟨?_, ?_⟩
        · rcases List.mem_cons.1 ha2 with rfl | h
          · exact hS.irrefl _ ha
          · exact h2'.1 a h
        · rcases List.mem_cons.1 hb1 with rfl | h
          · exact hS.irrefl _ hb
          · exact h1'.1 b h
      have e1 := hg (key a) ha
      rw [groupBy_cons, if_pos (hS.equiv_refl ha), groupBy_cons, if_pos hab.symm] at e1
      injection e1 with e e'
      subst e
      rw [ih l2 (fun y hy => hl1 y (List.mem_cons_of_mem _ hy)) (fun y hy => hl2 y (List.mem_cons_of_mem _ hy)) h1'.2 h2'.2]
      intro k hk
      have := hg k hk
      rw [groupBy_cons, groupBy_cons] at this
      split at this
      · injection this
      · exact this

end

end Verif
