import Verif.Spec.IterationOrder
import Verif.Lemmas.PushInv
import Verif.Model.Binary
import Verif.Model.Pull
import Verif.Props.JsonMaps
import Mathlib.Data.List.Perm.Basic

/-!
# Reading does not depend on the order of iteration; documents written differ in the order only
-/

namespace Verif

/-- `E` with another order of iteration -/
def Env.reorder (E : Env) (i : List Val → List Val) (k : List (Val × Val) → List (Val × Val)) : Env := { E with iter := i, iterKV := k }

theorem SameExceptOrder.eq {E E' : Env} (h : SameExceptOrder E E') : E' = E.reorder E'.iter E'.iterKV := by
  obtain ⟨h1, h2, h3, h4, h5, h6, h7⟩ := h
  cases E
  cases E'
  cases h1; cases h2; cases h3; cases h4; cases h5; cases h6; cases h7
  rfl

section
variable {E : Env} {i : List Val → List Val} {k : List (Val × Val) → List (Val × Val)}

mutual
theorem reorder_valInit (t : Ty) : (E.reorder i k).valInit t = E.valInit t := by
  cases t <;> simp only [Env.valInit]
  case pair a b => rw [reorder_valInit a, reorder_valInit b]
  case tuple ts => rw [reorder_valInitL ts]
  case variant ts => rw [reorder_valInitHead ts]
  case cls c => rfl
theorem reorder_valInitL (ts : List Ty) : (E.reorder i k).valInitL ts = E.valInitL ts := by
  cases ts with
  | nil => rfl
  | cons t ts => simp only [Env.valInitL]; rw [reorder_valInit t, reorder_valInitL ts]
theorem reorder_valInitHead (ts : List Ty) : (E.reorder i k).valInitHead ts = E.valInitHead ts := by
  cases ts with
  | nil => rfl
  | cons t ts => simp only [Env.valInitHead]; rw [reorder_valInit t]
end

theorem reorder_defInit (t : Ty) : (E.reorder i k).defInit t = E.defInit t := by
  cases t <;> simp only [Env.defInit, reorder_valInit]
  case cls c => rfl

theorem reorder_lt : (E.reorder i k).lt = E.lt := rfl
theorem reorder_cls : (E.reorder i k).cls = E.cls := rfl

theorem reorder_pullMap (self : Ty → Json → Val → PM Val) (t : Ty) (ms : List (Key × Json)) (kvs : List (Val × Val)) :
    pullMapEntries (E.reorder i k) self t ms kvs = pullMapEntries E self t ms kvs := by
  induction ms generalizing kvs with
  | nil => rfl
  | cons m ms ih =>
    obtain ⟨k, j⟩ := m
    simp only [pullMapEntries, reorder_valInit, reorder_lt, ih]

theorem reorder_pullMultiItems (self : Ty → Json → Val → PM Val) (t : Ty) (s : Str) (js : List Json) (kvs : List (Val × Val)) :
    pullMultimapItems (E.reorder i k) self t s js kvs = pullMultimapItems E self t s js kvs := by
  induction js generalizing kvs with
  | nil => rfl
  | cons j js ih => simp only [pullMultimapItems, reorder_valInit, reorder_lt, ih]

theorem reorder_pullMulti (self : Ty → Json → Val → PM Val) (t : Ty) (ms : List (Key × Json)) (kvs : List (Val × Val)) :
    pullMultimapEntries (E.reorder i k) self t ms kvs = pullMultimapEntries E self t ms kvs := by
  induction ms generalizing kvs with
  | nil => rfl
  | cons m ms ih =>
    obtain ⟨k, j⟩ := m
    simp only [pullMultimapEntries, reorder_pullMultiItems, ih]

theorem reorder_pullStep (self : Ty → Json → Val → PM Val) (t : Ty) (j : Json) (v : Val) :
    pullStep (E.reorder i k) self t j v = pullStep E self t j v := by
  have h1 : ∀ t, vecItem (E.reorder i k) self t = vecItem E self t := fun t => by
    funext j vs; simp only [vecItem, reorder_valInit]
  have h2 : ∀ t, multisetItem (E.reorder i k) self t = multisetItem E self t := fun t => by
    funext j vs; simp only [multisetItem, reorder_defInit, reorder_lt]
  have h3 : ∀ t, setItem (E.reorder i k) self t = setItem E self t := fun t => by
    funext j vs; simp only [setItem, reorder_defInit, reorder_lt]; rfl
  cases t
  case map hd m k t => cases k <;> simp only [pullStep, reorder_pullMap, reorder_pullMulti]
  all_goals first
    | rfl
    | simp only [pullStep, h1, h2, h3, reorder_valInit, reorder_cls]

theorem reorder_pull (n : Nat) : pull (E.reorder i k) n = pull E n := by
  induction n with
  | zero => rfl
  | succ n ih =>
    funext t j v
    change pullStep (E.reorder i k) (pull (E.reorder i k) n) t j v = pullStep E (pull E n) t j v
    rw [reorder_pullStep, ih]

theorem reorder_readSet (self : Nat → Ty → Val → RM Val) (m : Bool) (t : Ty) (n : Nat) (acc : List Val) :
    readSetItems (E.reorder i k) self m t n acc = readSetItems E self m t n acc := by
  induction n generalizing acc with
  | zero => rfl
  | succ n ih => simp only [readSetItems, reorder_defInit, reorder_lt, ih]

theorem reorder_readMap (self : Nat → Ty → Val → RM Val) (m : Bool) (kt t : Ty) (n : Nat) (acc : List (Val × Val)) :
    readMapItems (E.reorder i k) self m kt t n acc = readMapItems E self m kt t n acc := by
  induction n generalizing acc with
  | zero => rfl
  | succ n ih => simp only [readMapItems, reorder_valInit, reorder_lt, ih]

theorem reorder_readStep (self : Nat → Ty → Val → RM Val) (w : Nat) (t : Ty) (p : Val) :
    readStep (E.reorder i k) self w t p = readStep E self w t p := by
  cases t
  all_goals first
    | rfl
    | simp only [readStep, reorder_readSet, reorder_readMap, reorder_valInit]
    | skip
  all_goals rfl

theorem reorder_read (n : Nat) : read (E.reorder i k) n = read E n := by
  induction n with
  | zero => rfl
  | succ n ih =>
    funext w t p
    change readStep (E.reorder i k) (read (E.reorder i k) n) w t p = readStep E (read E n) w t p
    rw [reorder_readStep, ih]

end

/-! ## documents -/

theorem sameL_refl (js : List Json) : List.Forall₂ SameUpToOrder js js :=
  List.forall₂_same.2 fun j _ => .same j

/-- members of the same names with documents which are the same up to order -/
def SameMembers (ms ms' : List (Key × Json)) : Prop :=
  ∃ ks, ms.Perm ks ∧ ks.map Prod.fst = ms'.map Prod.fst ∧ List.Forall₂ SameUpToOrder (ks.map Prod.snd) (ms'.map Prod.snd)

theorem SameMembers.refl (ms : List (Key × Json)) : SameMembers ms ms := ⟨ms, .refl _, rfl, sameL_refl _⟩

theorem SameMembers.append {a a' b b' : List (Key × Json)} (h1 : SameMembers a a') (h2 : SameMembers b b') :
    SameMembers (a ++ b) (a' ++ b') := by
  obtain ⟨k1, p1, f1, s1⟩ := h1
  obtain ⟨k2, p2, f2, s2⟩ := h2
  refine ⟨k1 ++ k2, p1.append p2, by simp [f1, f2], ?_⟩
  rw [List.map_append, List.map_append]
  exact List.rel_append s1 s2

theorem SameMembers.obj {ms ms' : List (Key × Json)} (h : SameMembers ms ms') : SameUpToOrder (.obj ms) (.obj ms') := by
  obtain ⟨ks, p, f, s⟩ := h
  exact .obj p f s

theorem SameMembers.of_obj {ms : List (Key × Json)} {j : Json} (h : SameUpToOrder (.obj ms) j) : ∃ ms', j = .obj ms' ∧ SameMembers ms ms' := by
  cases h with
  | same => exact ⟨ms, rfl, .refl _⟩
  | obj p f s => exact ⟨_, rfl, _, p, f, s⟩

/-- pointwise -/
theorem SameMembers.of_forall₂ {ms ms' : List (Key × Json)}
    (h : List.Forall₂ (fun (m m' : Key × Json) => m.1 = m'.1 ∧ SameUpToOrder m.2 m'.2) ms ms') : SameMembers ms ms' := by
  refine ⟨ms, .refl _, ?_, ?_⟩
  · induction h with
    | nil => rfl
    | cons hm _ ih => simp only [List.map_cons, hm.1, ih]
  · induction h with
    | nil => exact .nil
    | cons hm _ ih => exact .cons hm.2 ih

theorem SameMembers.of_perm {ms ks ms' : List (Key × Json)} (hp : ms.Perm ks)
    (h : List.Forall₂ (fun (m m' : Key × Json) => m.1 = m'.1 ∧ SameUpToOrder m.2 m'.2) ks ms') : SameMembers ms ms' := by
  obtain ⟨ks', p, f, s⟩ := SameMembers.of_forall₂ h
  exact ⟨ks', hp.trans p, f, s⟩

/-- elements in another order have documents in another order -/
theorem forall₂_perm {α β : Type} {R : α → β → Prop} {l l' : List α} {m : List β} (hp : l.Perm l') (h : List.Forall₂ R l m) :
    ∃ m', m.Perm m' ∧ List.Forall₂ R l' m' := by
  induction hp generalizing m with
  | nil => exact ⟨m, .refl _, h⟩
  | cons x _ ih =>
    cases h with
    | cons h1 h2 =>
      obtain ⟨m', p, f⟩ := ih h2
      exact ⟨_ :: m', p.cons _, .cons h1 f⟩
  | swap x y l =>
    cases h with
    | cons h1 h2 =>
      cases h2 with
      | cons h2 h3 => exact ⟨_ :: _ :: _, .swap _ _ _, .cons h2 (.cons h1 h3)⟩
  | trans _ _ ih1 ih2 =>
    obtain ⟨m1, p1, f1⟩ := ih1 h
    obtain ⟨m2, p2, f2⟩ := ih2 f1
    exact ⟨m2, p1.trans p2, f2⟩

theorem forall₂_change {α β : Type} {R R' : α → β → Prop} {S : β → β → Prop} {l : List α} {m : List β} (h : List.Forall₂ R l m)
    (hc : ∀ a b, R a b → ∃ b', R' a b' ∧ S b b') : ∃ m', List.Forall₂ R' l m' ∧ List.Forall₂ S m m' := by
  induction h with
  | nil => exact ⟨[], .nil, .nil⟩
  | cons h1 _ ih =>
    obtain ⟨b', r, s⟩ := hc _ _ h1
    obtain ⟨m', r', s'⟩ := ih
    exact ⟨b' :: m', .cons r r', .cons s s'⟩

/-! ## grouping by key -/

/-- entries (name, document) of a multimap, in another order and with documents which are the same up to order, are grouped into members
which are the same up to order -/
theorem grouping_same {ps qs ps' : List (Str × Json)} {ms ms' : List (Key × Json)} (hp : ps.Perm qs)
    (hs : List.Forall₂ (fun (p q : Str × Json) => p.1 = q.1 ∧ SameUpToOrder p.2 q.2) qs ps')
    (h : Grouping ps ms) (h' : Grouping ps' ms') (hb : ∀ m ∈ ms, m.1.src = .borrowed) (hb' : ∀ m ∈ ms', m.1.src = .borrowed) :
    SameMembers ms ms' := by
  have hnames : ∀ name, (∃ p ∈ ps, p.1 = name) ↔ ∃ p ∈ ps', p.1 = name := by
    intro name
    have h1 : (∃ p ∈ ps, p.1 = name) ↔ ∃ p ∈ qs, p.1 = name := by
      constructor <;> rintro ⟨p, h, e⟩
      · exact ⟨p, hp.mem_iff.1 h, e⟩
      · exact ⟨p, hp.mem_iff.2 h, e⟩
    rw [h1]
    clear h h' hp h1 hb hb'
    induction hs with
    | nil => rfl
    | @cons p q qs ps' hpq _ ih =>
      simp only [List.mem_cons, exists_eq_or_imp, ih, hpq.1]
  let G : Key → Key × Json := fun k => (k, .arr (groupOf k.bytes ps))
  have hms : ms = (ms.map Prod.fst).map G := by
    rw [List.map_map]
    conv_lhs => rw [← List.map_id ms]
    refine List.map_congr_left fun m hm => ?_
    obtain ⟨k, j⟩ := m
    simp only [id, Function.comp, G]
    rw [← h.values _ hm]
  have nd : ∀ {l : List (Key × Json)}, (l.map fun m => m.1.bytes).Nodup → (l.map Prod.fst).Nodup := by
    intro l hl
    have : (l.map fun m => m.1.bytes) = (l.map Prod.fst).map Key.bytes := by rw [List.map_map]; rfl
    rw [this] at hl
    exact List.Pairwise.of_map Key.bytes (fun a b h e => h (congrArg Key.bytes e)) hl
  have hkeys : (ms.map Prod.fst).Perm (ms'.map Prod.fst) := by
    refine (List.perm_ext_iff_of_nodup (nd h.nodup) (nd h'.nodup)).2 fun key => ?_
    constructor
    · intro hk
      obtain ⟨m, hm, rfl⟩ := List.mem_map.1 hk
      obtain ⟨m', hm', he⟩ := (h'.names m.1.bytes).2 ((hnames _).1 ((h.names _).1 ⟨m, hm, rfl⟩))
      refine List.mem_map.2 ⟨m', hm', ?_⟩
      have e1 := hb m hm
      have e2 := hb' m' hm'
      cases hk1 : m.1; cases hk2 : m'.1
      rw [hk1] at e1 he; rw [hk2] at e2 he
      cases e1; cases e2; cases he
      rfl
    · intro hk
      obtain ⟨m, hm, rfl⟩ := List.mem_map.1 hk
      obtain ⟨m', hm', he⟩ := (h.names m.1.bytes).2 ((hnames _).2 ((h'.names _).1 ⟨m, hm, rfl⟩))
      refine List.mem_map.2 ⟨m', hm', ?_⟩
      have e1 := hb' m hm
      have e2 := hb m' hm'
      cases hk1 : m.1; cases hk2 : m'.1
      rw [hk1] at e1 he; rw [hk2] at e2 he
      cases e1; cases e2; cases he
      rfl
  refine ⟨(ms'.map Prod.fst).map G, ?_, ?_, ?_⟩
  · rw [hms]
    have := hkeys.map G
    rwa [← hms] at this ⊢
  · rw [List.map_map]
    exact List.map_id' _
  · rw [List.map_map, List.map_map, List.forall₂_map_left_iff, List.forall₂_map_right_iff, List.forall₂_same]
    intro m hm
    simp only [Function.comp, G]
    rw [h'.values m hm]
    refine .arr (hp.filterMap _) ?_
    generalize m.1.bytes = name
    clear h h' hp hm hms hkeys hnames hb hb'
    induction hs with
    | nil => exact .nil
    | @cons p q qs ps' hpq _ ih =>
      simp only [groupOf, List.filterMap_cons, hpq.1] at ih ⊢
      by_cases hn : q.1 = name
      · simp only [hn, if_true]
        exact .cons hpq.2 ih
      · simp only [hn, if_false]
        exact ih

theorem appendToMember_src {name : Str} {j : Json} {ms : List (Key × Json)} (h : ∀ m ∈ ms, m.1.src = .borrowed) :
    ∀ m ∈ appendToMember name j ms, m.1.src = .borrowed := by
  induction ms with
  | nil => intro m hm; cases hm
  | cons a ms ih =>
    obtain ⟨key, j'⟩ := a
    intro m hm
    unfold appendToMember at hm
    split at hm
    · have hm' : ∃ x, m ∈ (key, x) :: ms := by
        split at hm
        · exact ⟨_, hm⟩
        · exact ⟨_, hm⟩
      obtain ⟨x, hm'⟩ := hm'
      rcases List.mem_cons.1 hm' with rfl | hm'
      · exact h (key, j') List.mem_cons_self
      · exact h m (List.mem_cons_of_mem _ hm')
    · rcases List.mem_cons.1 hm with rfl | hm
      · exact h (key, j') List.mem_cons_self
      · exact ih (fun m hm => h m (List.mem_cons_of_mem _ hm)) m hm

theorem groups_src (ps : List (Str × Json)) (ms : List (Key × Json)) (h : ∀ m ∈ ms, m.1.src = .borrowed) :
    ∀ m ∈ ps.foldl (fun ms p => addToGroup p.1 p.2 ms) ms, m.1.src = .borrowed := by
  induction ps generalizing ms with
  | nil => exact h
  | cons p ps ih =>
    refine ih _ ?_
    show ∀ m ∈ addToGroup p.1 p.2 ms, m.1.src = .borrowed
    unfold addToGroup
    split
    · exact appendToMember_src h
    · intro m hm
      rcases List.mem_append.1 hm with hm | hm
      · exact h m hm
      · rw [List.mem_singleton.1 hm]

end Verif
