import Verif.Lemmas.BinCover
import Verif.Lemmas.BinWConv
import Verif.Spec.Evolution

/-!
# Reading and writing by an older and a newer program
-/

namespace Verif

variable {N : FieldKey → Val → Prop}

/-! ## related objects -/

theorem forall₂_refl_leaf {vs : List Val} (h : ∀ v ∈ vs, v.Leaf) : List.Forall₂ (Extends N) vs vs := by
  induction vs with
  | nil => exact .nil
  | cons v vs ih => exact .cons (.leaf (h v (.head _))) (ih fun x hx => h x (.tail _ hx))

theorem hasIndetF_false_iff {fs : List (FieldKey × Val)} : Val.hasIndetF fs = false ↔ ∀ k x, (k, x) ∈ fs → x.hasIndet = false := by
  induction fs with
  | nil => simp [Val.hasIndetF]
  | cons f fs ih =>
    obtain ⟨k, x⟩ := f
    simp only [Val.hasIndetF, Bool.or_eq_false_iff, ih, List.mem_cons, Prod.mk.injEq]
    constructor
    · rintro ⟨h1, h2⟩ k' x' (⟨rfl, rfl⟩ | h)
      · exact h1
      · exact h2 k' x' h
    · exact fun h => ⟨h k x (.inl ⟨rfl, rfl⟩), fun k' x' h' => h k' x' (.inr h')⟩

theorem hasIndet_up (hN : ∀ k v, N k v → v.hasIndet = false) (v v' : Val) (h : Extends N v v') (hi : v.hasIndet = false) :
    v'.hasIndet = false := by
  generalize hn : sizeOf v = n
  induction n using Nat.strongRecOn generalizing v v' with
  | _ n ih =>
    subst hn
    cases h with
    | leaf h => exact hi
    | @some v v' h => exact ih (sizeOf v) (by simp only [Val.some.sizeOf_spec]; omega) v v' h hi rfl
    | ptr h => rfl
    | list h => rfl
    | map _ _ => rfl
    | @alt i v v' h => exact ih (sizeOf v) (by simp only [Val.alt.sizeOf_spec]; omega) v v' h hi rfl
    | @tup vs vs' h =>
      change Val.hasIndetL vs = false at hi
      change Val.hasIndetL vs' = false
      have hsz : ∀ x ∈ vs, sizeOf x < sizeOf (Val.tup vs) := fun x hx => by
        have := List.sizeOf_lt_of_mem hx
        simp only [Val.tup.sizeOf_spec]; omega
      generalize sizeOf (Val.tup vs) = m at *
      induction h with
      | nil => rfl
      | @cons x x' xs xs' h1 h2 ih2 =>
        simp only [Val.hasIndetL, Bool.or_eq_false_iff] at hi ⊢
        exact ⟨ih _ (hsz x (.head _)) x x' h1 hi.1 rfl, ih2 hi.2 (fun y hy => hsz y (.tail _ hy))⟩
    | @obj st st' g h1 h2 h3 h4 h5 =>
      change Val.hasIndetF st = false at hi
      change Val.hasIndetF st' = false
      rw [hasIndetF_false_iff] at hi ⊢
      intro k x hx
      have hx' := get?_eq_of_mem h2 hx
      cases hg : Store.get? st k with
      | none => exact hN k x (h5 k x hg hx')
      | some y =>
        have e := h3 k y hg
        rw [hx'] at e
        cases e
        exact ih _ (sizeOf_get? hg) y _ (h4 k y hg) (hi k y (mem_of_get? hg)) rfl

theorem Extends.objInv {st : Store} {v' : Val} (h : Extends N (.obj st) v') :
    ∃ st' : Store, v' = .obj st' ∧ (st.map Prod.fst).Nodup ∧ (st'.map Prod.fst).Nodup ∧
      (∀ k v, st.get? k = Option.some v → ∃ v', st'.get? k = Option.some v' ∧ Extends N v v') ∧
      (∀ k v', st.get? k = none → st'.get? k = Option.some v' → N k v') ∧
      (∀ k v w, st.get? k = Option.some v → ¬ N k w) := by
  cases h with
  | leaf h => exact h.elim
  | obj g h1 h2 h3 h4 h5 h6 => exact ⟨_, rfl, h1, h2, fun k v hv => ⟨g k, h3 k v hv, h4 k v hv⟩, h5, h6⟩

theorem Extends.mkObj {st st' : Store} (h1 : (st.map Prod.fst).Nodup) (h2 : (st'.map Prod.fst).Nodup)
    (h3 : ∀ k v, st.get? k = Option.some v → ∃ v', st'.get? k = Option.some v' ∧ Extends N v v')
    (h4 : ∀ k v', st.get? k = none → st'.get? k = Option.some v' → N k v') (h5 : ∀ k v w, st.get? k = Option.some v → ¬ N k w) :
    Extends N (.obj st) (.obj st') := by
  refine .obj (fun k => (st'.get? k).getD .indet) h1 h2 (fun k v hv => ?_) (fun k v hv => ?_) h4 h5
  · obtain ⟨v', e, -⟩ := h3 k v hv
    rw [e]; rfl
  · obtain ⟨v', e, h⟩ := h3 k v hv
    rw [e]; exact h

theorem Extends.set {st st' : Store} {k : FieldKey} {p v v' : Val} (h : Extends N (.obj st) (.obj st')) (hp : st.get? k = Option.some p)
    (hv : Extends N v v') : Extends N (.obj (st.set k v)) (.obj (st'.set k v')) := by
  obtain ⟨_, e, h1, h2, h3, h4, h5⟩ := h.objInv
  cases e
  obtain ⟨p', hp', -⟩ := h3 k p hp
  refine .mkObj (by rw [set_keys]; exact h1) (by rw [set_keys]; exact h2) (fun k' x hx => ?_) (fun k' x' hx hx' => ?_)
    (fun k' x w hx => ?_)
  · by_cases hk : k' = k
    · subst hk
      rw [get?_set_eq st hp] at hx
      cases hx
      exact ⟨v', get?_set_eq st' hp', hv⟩
    · rw [get?_set_ne _ _ hk] at hx
      rw [get?_set_ne _ _ hk]
      exact h3 k' x hx
  · by_cases hk : k' = k
    · subst hk
      rw [get?_set_eq st hp] at hx
      cases hx
    · rw [get?_set_ne _ _ hk] at hx hx'
      exact h4 k' x' hx hx'
  · by_cases hk : k' = k
    · subst hk
      exact h5 k' p w hp
    · rw [get?_set_ne _ _ hk] at hx
      exact h5 k' x w hx

/-- a new member gets a new value -/
theorem Extends.setNew {st st' : Store} {k : FieldKey} {p v : Val} (h : Extends N (.obj st) (.obj st')) (hp : st'.get? k = Option.some p)
    (hk : N k v) : Extends N (.obj st) (.obj (st'.set k v)) := by
  obtain ⟨_, e, h1, h2, h3, h4, h5⟩ := h.objInv
  cases e
  refine .mkObj h1 (by rw [set_keys]; exact h2) (fun k' x hx => ?_) (fun k' x' hx hx' => ?_) h5
  · by_cases he : k' = k
    · subst he
      exact absurd hk (h5 k' x v hx)
    · rw [get?_set_ne _ _ he]
      exact h3 k' x hx
  · by_cases he : k' = k
    · subst he
      rw [get?_set_eq st' hp] at hx'
      cases hx'
      exact hk
    · rw [get?_set_ne _ _ he] at hx'
      exact h4 k' x' hx hx'

theorem Extends.tup2Inv {x y v' : Val} (h : Extends N (.tup [x, y]) v') :
    ∃ x' y', v' = .tup [x', y'] ∧ Extends N x x' ∧ Extends N y y' := by
  cases h with
  | leaf h => exact h.elim
  | tup h =>
    cases h with
    | cons h1 h2 => cases h2 with
      | cons h2 h3 => cases h3; exact ⟨_, _, rfl, h1, h2⟩

theorem Extends.listInv {vs : List Val} {v' : Val} (h : Extends N (.list vs) v') :
    ∃ vs', v' = .list vs' ∧ List.Forall₂ (Extends N) vs vs' := by
  cases h with
  | leaf h => exact h.elim
  | list h => exact ⟨_, rfl, h⟩

/-- entries of maps -/
def ExtKV (N : FieldKey → Val → Prop) (kvs kvs' : List (Val × Val)) : Prop :=
  List.Forall₂ (fun a b => Extends N a.1 b.1 ∧ Extends N a.2 b.2) kvs kvs'

theorem extKV_iff {kvs kvs' : List (Val × Val)} : ExtKV N kvs kvs' ↔
    List.Forall₂ (Extends N) (kvs.map Prod.fst) (kvs'.map Prod.fst) ∧ List.Forall₂ (Extends N) (kvs.map Prod.snd) (kvs'.map Prod.snd) := by
  induction kvs generalizing kvs' with
  | nil => cases kvs' <;> simp [ExtKV]
  | cons a kvs ih =>
    cases kvs' with
    | nil => simp [ExtKV]
    | cons b kvs' =>
      unfold ExtKV at ih ⊢
      simp only [List.forall₂_cons, List.map_cons, ih]
      tauto

theorem Extends.mapInv {kvs : List (Val × Val)} {v' : Val} (h : Extends N (.map kvs) v') :
    ∃ kvs', v' = .map kvs' ∧ ExtKV N kvs kvs' := by
  cases h with
  | leaf h => exact h.elim
  | map h1 h2 => exact ⟨_, rfl, extKV_iff.2 ⟨h1, h2⟩⟩

theorem Extends.mkMap {kvs kvs' : List (Val × Val)} (h : ExtKV N kvs kvs') : Extends N (.map kvs) (.map kvs') :=
  .map (extKV_iff.1 h).1 (extKV_iff.1 h).2

/-! ## containers -/

section
variable {lt lt' : Val → Val → Bool} (hlt : ∀ a a' b b', Extends N a a' → Extends N b b' → lt' a' b' = lt a b)
include hlt

theorem insertMulti_up {x x' : Val} (hx : Extends N x x') {vs vs' : List Val} (h : List.Forall₂ (Extends N) vs vs') :
    List.Forall₂ (Extends N) (insertMulti lt x vs) (insertMulti lt' x' vs') := by
  induction h with
  | nil => exact .cons hx .nil
  | @cons y y' ys ys' hy hys ih =>
    simp only [insertMulti, hlt x x' y y' hx hy]
    split
    · exact .cons hx (.cons hy hys)
    · exact .cons hy ih

theorem insertUniq_up {x x' : Val} (hx : Extends N x x') {vs vs' : List Val} (h : List.Forall₂ (Extends N) vs vs') :
    List.Forall₂ (Extends N) (insertUniq lt x vs).1 (insertUniq lt' x' vs').1 := by
  induction h with
  | nil => exact .cons hx .nil
  | @cons y y' ys ys' hy hys ih =>
    simp only [insertUniq, hlt x x' y y' hx hy, hlt y y' x x' hy hx]
    split
    · exact .cons hx (.cons hy hys)
    · split
      · exact .cons hy ih
      · exact .cons hy hys

theorem mapInsertMulti_up {k k' x x' : Val} (hk : Extends N k k') (hx : Extends N x x') {vs vs' : List (Val × Val)} (h : ExtKV N vs vs') :
    ExtKV N (mapInsertMulti lt k x vs) (mapInsertMulti lt' k' x' vs') := by
  unfold ExtKV at h ⊢
  induction h with
  | nil => exact .cons ⟨hk, hx⟩ .nil
  | @cons y y' ys ys' hy hys ih =>
    obtain ⟨yk, yv⟩ := y
    obtain ⟨yk', yv'⟩ := y'
    simp only [mapInsertMulti, hlt k k' yk yk' hk hy.1]
    split
    · exact .cons ⟨hk, hx⟩ (.cons hy hys)
    · exact .cons hy ih

theorem mapEmplace_up {k k' x x' : Val} (hk : Extends N k k') (hx : Extends N x x') {vs vs' : List (Val × Val)} (h : ExtKV N vs vs') :
    ExtKV N (mapEmplace lt k x vs) (mapEmplace lt' k' x' vs') := by
  unfold ExtKV at h ⊢
  induction h with
  | nil => exact .cons ⟨hk, hx⟩ .nil
  | @cons y y' ys ys' hy hys ih =>
    obtain ⟨yk, yv⟩ := y
    obtain ⟨yk', yv'⟩ := y'
    simp only [mapEmplace, hlt k k' yk yk' hk hy.1, hlt yk yk' k k' hy.1 hk]
    split
    · exact .cons ⟨hk, hx⟩ (.cons hy hys)
    · split
      · exact .cons hy ih
      · exact .cons hy hys

end

theorem forall₂_take {α β : Type} {R : α → β → Prop} {l : List α} {l' : List β} (h : List.Forall₂ R l l') (n : Nat) :
    List.Forall₂ R (l.take n) (l'.take n) := by
  induction h generalizing n with
  | nil => simp
  | cons h1 h2 ih =>
    cases n with
    | zero => exact .nil
    | succ n => exact .cons h1 (ih n)

theorem forall₂_append {α β : Type} {R : α → β → Prop} {a c : List α} {b d : List β} (h : List.Forall₂ R a b) (h' : List.Forall₂ R c d) :
    List.Forall₂ R (a ++ c) (b ++ d) := by
  induction h with
  | nil => exact h'
  | cons h1 _ ih => exact .cons h1 ih

theorem forall₂_replicate {α β : Type} {R : α → β → Prop} {a : α} {b : β} (h : R a b) (n : Nat) :
    List.Forall₂ R (List.replicate n a) (List.replicate n b) := by
  induction n with
  | zero => exact .nil
  | succ n ih => exact .cons h ih

theorem forall₂_set {α β : Type} {R : α → β → Prop} {l : List α} {l' : List β} (h : List.Forall₂ R l l') (i : Nat) {a : α} {b : β}
    (hab : R a b) : List.Forall₂ R (l.set i a) (l'.set i b) := by
  induction h generalizing i with
  | nil => exact .nil
  | cons h1 h2 ih =>
    cases i with
    | zero => exact .cons hab h2
    | succ i => exact .cons h1 (ih i)

theorem resize_up {vs vs' : List Val} (h : List.Forall₂ (Extends N) vs vs') (n : Nat) {v v' : Val} (hv : Extends N v v') :
    List.Forall₂ (Extends N) (resize vs n v) (resize vs' n v') := by
  unfold resize
  rw [← h.length_eq]
  exact forall₂_append (forall₂_take h n) (forall₂_replicate hv _)

/-! ## reading -/

/-- states of the deserializers of both programs -/
def UpR (N : FieldKey → Val → Prop) (s s' : RSt) : Prop :=
  s'.inp = s.inp ∧ s'.table = s.table ∧ List.Forall₂ (Extends N) s.heap s'.heap

/-- if the older program is successful, so is the newer one -/
def Up (N : FieldKey → Val → Prop) {α β : Type} (Q : α → β → Prop) (m : RM α) (m' : RM β) : Prop :=
  ∀ s s', UpR N s s' → ∀ a s1, m s = .ok a s1 → ∃ b s1', m' s' = .ok b s1' ∧ UpR N s1 s1' ∧ Q a b

section
variable {α β γ δ : Type}

theorem Up.bind {Q : α → β → Prop} {R : γ → δ → Prop} {m : RM α} {m' : RM β} {f : α → RM γ} {f' : β → RM δ} (h : Up N Q m m')
    (hf : ∀ a b, Q a b → Up N R (f a) (f' b)) : Up N R (m >>= f) (m' >>= f') := by
  intro s s' hs c s2 he
  obtain ⟨a, s1, h1, h2⟩ := M.bind_eq_ok.1 he
  obtain ⟨b, s1', h1', hs1, hq⟩ := h s s' hs a s1 h1
  obtain ⟨d, s2', h2', hs2, hr⟩ := hf a b hq s1 s1' hs1 c s2 h2
  exact ⟨d, s2', (M.bind_ok h1').trans h2', hs2, hr⟩

theorem Up.pure {Q : α → β → Prop} {a : α} {b : β} (h : Q a b) : Up N Q (Pure.pure a) (Pure.pure b) := by
  intro s s' hs c s1 he
  cases he
  exact ⟨b, s', rfl, hs, h⟩

theorem Up.never {Q : α → β → Prop} {m : RM α} {m' : RM β} (h : ∀ s a s1, m s ≠ .ok a s1) : Up N Q m m' :=
  fun s _ _ a s1 he => absurd he (h s a s1)

theorem Up.map {Q : α → β → Prop} {R : γ → δ → Prop} {m : RM α} {m' : RM β} {f : α → γ} {g : β → δ} (h : Up N Q m m')
    (hf : ∀ a b, Q a b → R (f a) (g b)) : Up N R (m >>= fun a => Pure.pure (f a)) (m' >>= fun b => Pure.pure (g b)) :=
  h.bind fun a b hq => .pure (hf a b hq)

theorem up_take (k : Nat) : Up N Eq (takeBytes k) (takeBytes k) := by
  intro s s' hs a s1 he
  unfold takeBytes at he ⊢
  rw [hs.1]
  split at he
  · rename_i h
    cases he
    rw [if_pos h]
    exact ⟨_, _, rfl, ⟨rfl, hs.2.1, hs.2.2⟩, rfl⟩
  · cases he

theorem up_byte : Up N Eq readByte readByte := (up_take 1).map fun _ _ h => by rw [h]
theorem up_bool : Up N Eq readBool readBool := up_byte.map fun _ _ h => by rw [h]

theorem up_peek : Up N Eq peekByte peekByte := by
  intro s s' hs a s1 he
  unfold peekByte at he ⊢
  rw [hs.1]
  cases hi : s.inp with
  | nil => rw [hi] at he; cases he
  | cons b r =>
    rw [hi] at he
    cases he
    exact ⟨_, _, rfl, hs, rfl⟩

theorem up_varint : Up N Eq readVarint readVarint := by
  unfold readVarint
  refine up_peek.bind ?_
  rintro a _ rfl
  split
  · exact .never fun _ _ _ h => by cases h
  · exact (up_take _).map fun _ _ h => by rw [h]

theorem up_int (it : IntTy) : Up N Eq (readInt it) (readInt it) := (up_take _).map fun _ _ h => by rw [h]

theorem up_alloc (id : Nat) (t : Ty) {v v' : Val} (h : Extends N v v') : Up N Eq (allocShared id t v) (allocShared id t v') := by
  intro s s' hs a s1 he
  cases he
  refine ⟨_, _, rfl, ⟨hs.1, ?_, forall₂_append hs.2.2 (.cons h .nil)⟩, hs.2.2.length_eq⟩
  simp only [hs.2.1, hs.2.2.length_eq]

theorem up_store (a : Nat) {v v' : Val} (h : Extends N v v') : Up N (fun _ _ => True) (storeShared a v) (storeShared a v') := by
  intro s s' hs x s1 he
  cases he
  exact ⟨_, _, rfl, ⟨hs.1, hs.2.1, forall₂_set hs.2.2 _ h⟩, trivial⟩

theorem up_lookup (id : Nat) (t : Ty) : Up N Eq (lookupShared id t) (lookupShared id t) := by
  intro s s' hs x s1 he
  unfold lookupShared at he ⊢
  rw [hs.2.1]
  cases hl : s.table.lookup id with
  | none => rw [hl] at he; cases he
  | some y =>
    rw [hl] at he
    obtain ⟨t', a⟩ := y
    simp only at he ⊢
    split at he
    · rename_i ht
      cases he
      rw [if_pos ht]
      exact ⟨_, _, rfl, hs, rfl⟩
    · cases he

end

section
variable {E E' : Env} {S : Ty → Prop} {W : Nat} (self self' : Nat → Ty → Val → RM Val)

/-- recursive calls -/
def UpSelf (N : FieldKey → Val → Prop) (W : Nat) (self self' : Nat → Ty → Val → RM Val) (t : Ty) : Prop :=
  ∀ w p p', w ≤ W → Extends N p p' → Up N (Extends N) (self w t p) (self' w t p')

variable {self self'}

theorem up_elems {t : Ty} (h : UpSelf N W self self' t) {ps ps' : List Val} (hp : List.Forall₂ (Extends N) ps ps') :
    Up N (List.Forall₂ (Extends N)) (readElems self t ps) (readElems self' t ps') := by
  induction hp with
  | nil => exact .pure .nil
  | cons h1 _ ih =>
    refine (h 0 _ _ (Nat.zero_le _) h1).bind fun a b hab => ?_
    exact ih.map fun _ _ h' => .cons hab h'

theorem up_setItems (hN : ∀ k v, N k v → v.hasIndet = false) (hO : SameOrder N E E') {t : Ty} (h : UpSelf N W self self' t)
    (hi : Extends N (E.defInit t) (E'.defInit t)) (multi : Bool) (k : Nat) {acc acc' : List Val}
    (ha : List.Forall₂ (Extends N) acc acc') :
    Up N (List.Forall₂ (Extends N)) (readSetItems E self multi t k acc) (readSetItems E' self' multi t k acc') := by
  induction k generalizing acc acc' with
  | zero => exact .pure ha
  | succ k ih =>
    refine (h 0 _ _ (Nat.zero_le _) hi).bind fun a b hab => ?_
    split
    · exact .never fun _ _ _ h => by cases h
    · rename_i hx
      rw [if_neg (c := b.hasIndet = true) (by rw [hasIndet_up hN a b hab (by simpa using hx)]; decide)]
      refine ih ?_
      cases multi
      · exact insertUniq_up (hO t) hab ha
      · exact insertMulti_up (hO t) hab ha

theorem up_mapItems (hN : ∀ k v, N k v → v.hasIndet = false) (hO : SameOrder N E E') {k t : Ty} (h : UpSelf N W self self' (.pair k t))
    (hi : Extends N (E.valInit (.pair k t)) (E'.valInit (.pair k t))) (multi : Bool) (n : Nat) {acc acc' : List (Val × Val)}
    (ha : ExtKV N acc acc') :
    Up N (ExtKV N) (readMapItems E self multi k t n acc) (readMapItems E' self' multi k t n acc') := by
  induction n generalizing acc acc' with
  | zero => exact .pure ha
  | succ n ih =>
    unfold readMapItems
    refine (h 0 _ _ (Nat.zero_le _) hi).bind fun a b hab => ?_
    split
    · rename_i x y
      obtain ⟨x', y', rfl, h1, h2⟩ := hab.tup2Inv
      split
      · exact .never fun _ _ _ h => by cases h
      · rename_i hx
        have hx' : x.hasIndet = false ∧ y.hasIndet = false := by simpa using hx
        dsimp only
        rw [if_neg (c := (x'.hasIndet || y'.hasIndet) = true)
          (by rw [hasIndet_up hN x x' h1 hx'.1, hasIndet_up hN y y' h2 hx'.2]; decide)]
        refine ih ?_
        cases multi
        · exact mapEmplace_up (hO k) h1 h2 ha
        · exact mapInsertMulti_up (hO k) h1 h2 ha
    · exact .never fun _ _ _ h => by cases h

theorem up_bases {w : Nat} (hw : w ≤ W) (bs : List ClassId) (h : ∀ b ∈ bs, UpSelf N W self self' (.cls b)) {p p' : Val}
    (hp : Extends N p p') : Up N (Extends N) (readBases self w bs p) (readBases self' w bs p') := by
  induction bs generalizing p p' with
  | nil => exact .pure hp
  | cons b bs ih =>
    exact (h b (.head _) w p p' hw hp).bind fun a b hab => ih (fun c hc => h c (.tail _ hc)) hab

theorem readFields_activeOnly (self : Nat → Ty → Val → RM Val) (w : Nat) (fs : List (Guard × Field)) (st : Store) :
    readFields self w fs st = readFields self w ((activeFields w fs).map fun f => (⟨0, 0⟩, f)) st := by
  induction fs generalizing st with
  | nil => rfl
  | cons gf fs ih =>
    obtain ⟨g, f⟩ := gf
    have h0 : Guard.holds ⟨0, 0⟩ w = true := rfl
    cases hg : g.holds w with
    | false =>
      have : activeFields w ((g, f) :: fs) = activeFields w fs := by simp [activeFields, hg]
      rw [this, ← ih]
      conv_lhs => unfold readFields
      rw [if_neg (by rw [hg]; decide)]
    | true =>
      have : activeFields w ((g, f) :: fs) = f :: activeFields w fs := by simp [activeFields, hg]
      rw [this, List.map_cons]
      unfold readFields
      rw [if_pos hg, if_pos h0]
      cases st.get? f.key with
      | none => rfl
      | some p =>
        dsimp only
        congr 1
        funext v
        exact ih _

theorem up_fields {w : Nat} (hw : w ≤ W) (fs : List (Guard × Field)) (h : ∀ gf ∈ fs, UpSelf N W self self' gf.2.ty) {st st' : Store}
    (hs : Extends N (.obj st) (.obj st')) :
    Up N (fun a b => Extends N (.obj a) (.obj b)) (readFields self w fs st) (readFields self' w fs st') := by
  induction fs generalizing st st' with
  | nil => exact .pure hs
  | cons gf fs ih =>
    obtain ⟨g, f⟩ := gf
    unfold readFields
    split
    · cases hg : st.get? f.key with
      | none => exact .never fun _ _ _ h => by cases h
      | some p =>
        obtain ⟨_, e, -, -, h3, -⟩ := hs.objInv
        cases e
        obtain ⟨p', hp', hpp⟩ := h3 _ _ hg
        simp only [hp']
        refine (h _ (.head _) w p p' hw hpp).bind fun a b hab => ?_
        exact ih (fun x hx => h x (.tail _ hx)) (hs.set hg hab)
    · exact ih (fun x hx => h x (.tail _ hx)) hs

theorem mem_activeFields {w : Nat} {fs : List (Guard × Field)} {f : Field} (h : f ∈ activeFields w fs) : ∃ g, (g, f) ∈ fs := by
  unfold activeFields at h
  obtain ⟨gf, h1, rfl⟩ := List.mem_map.1 h
  exact ⟨gf.1, (List.mem_filter.1 h1).1⟩

theorem up_class (hR : ReadableBy S W E E') {c : ClassId} (hc : S (.cls c)) {ci : ClassInfo} (hci : E.cls c = some ci) {w : Nat}
    (hw : w ≤ W) (hb : ∀ b ∈ ci.bin.bases, UpSelf N W self self' (.cls b))
    (hf : ∀ gf ∈ ci.bin.readFields, UpSelf N W self self' gf.2.ty) {p p' : Val} (hp : Extends N p p') :
    ∃ ci', E'.cls c = some ci' ∧
      Up N (fun a b => Extends N a.1 b.1 ∧ a.2 = b.2) (readClass self ci w p) (readClass self' ci' w p') := by
  obtain ⟨ci', hci', hbs, hrd, hact, hver⟩ := hR.classes c ci hc hci
  refine ⟨ci', hci', ?_⟩
  unfold readClass
  cases hr : ci.bin.readable with
  | false => exact .never fun _ _ _ h => by rw [if_pos rfl] at h; cases h
  | true =>
    rw [if_neg (by decide), if_neg (by rw [hrd hr]; decide), hbs]
    refine (up_bases hw _ hb hp).bind fun v v' hv => ?_
    split
    · rename_i st
      obtain ⟨st', rfl, -⟩ := hv.objInv
      dsimp only
      have hV : Up N (fun a b => a = b ∧ a ≤ ci.bin.version.getD W ∧ a ≤ W) (readVersion ci w) (readVersion ci' w) := by
        unfold readVersion
        cases hm : ci.bin.version with
        | none =>
          rw [hm] at hver
          simp only at hver
          rw [hver]
          exact .pure ⟨rfl, hw, hw⟩
        | some m =>
          rw [hm] at hver
          obtain ⟨m', hm', hle⟩ := hver
          rw [hm']
          have hmW := hR.highest c ci m hc hci hm
          refine up_varint.bind ?_
          rintro x _ rfl
          split
          · rename_i hx
            rw [if_pos (Nat.le_trans hx hle)]
            exact .pure ⟨rfl, hx, Nat.le_trans hx hmW⟩
          · exact .never fun _ _ _ h => by cases h
      refine hV.bind ?_
      rintro x _ ⟨rfl, hx, hxW⟩
      rw [readFields_activeOnly self, readFields_activeOnly self', hact x hx]
      refine (up_fields hxW _ (fun gf hgf => ?_) hv).map fun a b hab => ⟨hab, rfl⟩
      obtain ⟨f, hf', rfl⟩ := List.mem_map.1 hgf
      obtain ⟨g, hg⟩ := mem_activeFields hf'
      exact hf (g, f) hg
    · exact .never fun _ _ _ h => by cases h

end

theorem up_read {E E' : Env} {S : Ty → Prop} {W : Nat} (hN : ∀ k v, N k v → v.hasIndet = false) (hS : ClosedTypes E S)
    (hI : SameInit N S E E') (hO : SameOrder N E E') (hL : E.maxLen ≤ E'.maxLen) (hR : ReadableBy S W E E') (n : Nat) :
    ∀ t, S t → UpSelf N W (read E n) (read E' n) t := by
  induction n with
  | zero => intro t _ w p p' _ _; exact .never fun _ _ _ h => by cases h
  | succ n ih =>
    intro t ht w p p' hw hp
    have hp1 : ∀ t' ∈ binParts E t, S t' := hS t ht
    change Up N (Extends N) (readStep E (read E n) w t p) (readStep E' (read E' n) w t p')
    cases t
    case bool => exact up_bool.map fun a b h => h ▸ .leaf trivial
    case int it =>
      simp only [readStep]
      split
      · exact .never fun _ _ _ h => by cases h
      · exact (up_int it).map fun a b h => h ▸ .leaf trivial
    case f32 => exact (up_take 4).map fun a b h => h ▸ .leaf trivial
    case f64 => exact (up_take 8).map fun a b h => h ▸ .leaf trivial
    case str =>
      simp only [readStep]
      refine up_varint.bind ?_
      rintro k _ rfl
      split
      · exact .never fun _ _ _ h => by cases h
      · rename_i hk
        rw [if_neg (by omega)]
        exact (up_take k).map fun a b h => h ▸ .leaf trivial
    case enum u => exact ih (.int u) (hp1 _ (.head _)) 0 .indet .indet (Nat.zero_le _) (.leaf trivial)
    case pair a b =>
      simp only [readStep]
      split
      · rename_i x y
        obtain ⟨x', y', rfl, h1, h2⟩ := hp.tup2Inv
        refine (ih a (hp1 _ (.head _)) 0 x x' (Nat.zero_le _) h1).bind fun v v' hv => ?_
        exact (ih b (hp1 _ (.tail _ (.head _))) 0 y y' (Nat.zero_le _) h2).map fun u u' hu => .tup (.cons hv (.cons hu .nil))
      · exact .never fun _ _ _ h => by cases h
    case uptr t' =>
      refine up_bool.bind ?_
      rintro b _ rfl
      have ht' := hp1 t' (.head _)
      cases b
      · exact .pure (.leaf trivial)
      · exact (ih t' ht' 0 _ _ (Nat.zero_le _) (hI t' ht').1).map fun _ _ h => .ptr h
    case opt t' =>
      refine up_bool.bind ?_
      rintro b _ rfl
      have ht' := hp1 t' (.head _)
      cases b
      · exact .pure (.leaf trivial)
      · exact (ih t' ht' 0 _ _ (Nat.zero_le _) (hI t' ht').1).map fun _ _ h => .some h
    case sptr t' =>
      have ht' := hp1 t' (.head _)
      simp only [readStep]
      refine up_byte.bind ?_
      rintro mode _ rfl
      split
      · exact .pure (.leaf trivial)
      · have hid : Up N Eq (if mode &&& 4 ≠ 0 then (do let bs ← takeBytes 8; pure (ofBE bs)) else readVarint)
            (if mode &&& 4 ≠ 0 then (do let bs ← takeBytes 8; pure (ofBE bs)) else readVarint) := by
          split
          · exact (up_take 8).map fun _ _ h => by rw [h]
          · exact up_varint
        refine hid.bind ?_
        rintro id _ rfl
        split
        · refine (up_alloc id t' (hI t' ht').1).bind ?_
          rintro a _ rfl
          refine (ih t' ht' 0 _ _ (Nat.zero_le _) (hI t' ht').1).bind fun v v' hv => ?_
          exact (up_store a hv).bind fun _ _ _ => .pure (.leaf trivial)
        · exact (up_lookup id t').map fun a b h => h ▸ .leaf trivial
    case vec t' =>
      have ht' := hp1 t' (.head _)
      simp only [readStep]
      split
      · rename_i vs
        obtain ⟨vs', rfl, hvs⟩ := hp.listInv
        refine up_varint.bind ?_
        rintro k _ rfl
        split
        · exact .never fun _ _ _ h => by cases h
        · rename_i hk
          rw [if_neg (by omega)]
          exact (up_elems (ih t' ht') (resize_up hvs k (hI t' ht').1)).map fun _ _ h => .list h
      · exact .never fun _ _ _ h => by cases h
    case set hd m t' =>
      have ht' := hp1 t' (.head _)
      simp only [readStep]
      split
      · rename_i vs
        obtain ⟨vs', rfl, hvs⟩ := hp.listInv
        refine up_varint.bind ?_
        rintro k _ rfl
        exact (up_setItems hN hO (ih t' ht') (hI t' ht').2 m k hvs).map fun _ _ h => .list h
      · exact .never fun _ _ _ h => by cases h
    case map hd m k t' =>
      have ht' := hp1 (.pair k t') (.head _)
      simp only [readStep]
      split
      · rename_i kvs
        obtain ⟨kvs', rfl, hvs⟩ := hp.mapInv
        refine up_varint.bind ?_
        rintro l _ rfl
        exact (up_mapItems hN hO (ih _ ht') (hI _ ht').1 m l hvs).map fun _ _ h => .mkMap h
      · exact .never fun _ _ _ h => by cases h
    case variant ts =>
      simp only [readStep]
      refine up_byte.bind ?_
      rintro i _ rfl
      cases hi : ts[i]? with
      | none => exact .never fun _ _ _ h => by cases h
      | some t' =>
        have ht' := hp1 t' (List.mem_of_getElem? hi)
        have hrec := (ih t' ht' 0 _ _ (Nat.zero_le _) (hI t' ht').1).map (f := fun v => Val.alt i v) (g := fun v => Val.alt i v)
          (R := Extends N) fun _ _ h => .alt i h
        cases t' <;> first
          | exact hrec
          | exact .pure (.alt i (.leaf trivial))
    case cls c =>
      simp only [readStep]
      cases hc : E.cls c with
      | none => exact .never fun _ _ _ h => by cases h
      | some ci =>
        have hparts : ∀ t' ∈ binParts E (.cls c), S t' := hp1
        simp only [binParts, hc, List.mem_append, List.mem_map] at hparts
        obtain ⟨ci', hci', h⟩ := up_class (self := read E n) (self' := read E' n) hR ht hc hw
          (fun b hb => ih _ (hparts _ (.inl ⟨b, hb, rfl⟩))) (fun gf hgf => ih _ (hparts _ (.inr ⟨gf, hgf, rfl⟩))) hp
        rw [hci']
        exact h.map fun a b h => h.1
    case dateTime => exact (up_int .u64).map fun a b h => h ▸ .leaf trivial
    case timeSpan => exact (up_int .i64).map fun a b h => h ▸ .leaf trivial
    all_goals exact .never fun _ _ _ h => by cases h

/-! ## writing -/

/-- if the older program is successful, the newer one does the same -/
def WUp {α : Type} (m m' : WM α) : Prop := ∀ s a s1, m s = .ok a s1 → m' s = .ok a s1

section
variable {α β : Type}

theorem WUp.refl (m : WM α) : WUp m m := fun _ _ _ h => h

theorem WUp.bind {m m' : WM α} {f f' : α → WM β} (h : WUp m m') (hf : ∀ a, WUp (f a) (f' a)) : WUp (m >>= f) (m' >>= f') := by
  intro s b s2 he
  obtain ⟨a, s1, h1, h2⟩ := M.bind_eq_ok.1 he
  exact (M.bind_ok (h s a s1 h1)).trans (hf a s1 b s2 h2)

theorem WUp.never {m m' : WM α} (h : ∀ s a s1, m s ≠ .ok a s1) : WUp m m' := fun s a s1 he => absurd he (h s a s1)

end

section
variable {E E' : Env} {P : Nat → Ty → Prop} {self self' : Nat → Ty → Val → WM Unit}

def WUpSelf (N : FieldKey → Val → Prop) (self self' : Nat → Ty → Val → WM Unit) (w : Nat) (t : Ty) : Prop :=
  ∀ v v', Extends N v v' → WUp (self w t v) (self' w t v')

theorem wup_elems {t : Ty} (h : WUpSelf N self self' 0 t) {vs vs' : List Val} (hv : List.Forall₂ (Extends N) vs vs') :
    WUp (writeElems self t vs) (writeElems self' t vs') := by
  induction hv with
  | nil => exact .refl _
  | cons h1 _ ih => exact (h _ _ h1).bind fun _ => ih

theorem wup_entries {k t : Ty} (h : WUpSelf N self self' 0 (.pair k t)) {vs vs' : List (Val × Val)} (hv : ExtKV N vs vs') :
    WUp (writeEntries self k t vs) (writeEntries self' k t vs') := by
  unfold ExtKV at hv
  induction hv with
  | nil => exact .refl _
  | @cons a b as bs h1 _ ih =>
    obtain ⟨a1, a2⟩ := a
    obtain ⟨b1, b2⟩ := b
    exact (h _ _ (.tup (.cons h1.1 (.cons h1.2 .nil)))).bind fun _ => ih

theorem wup_bases {w : Nat} (bs : List ClassId) (h : ∀ b ∈ bs, WUpSelf N self self' w (.cls b)) {v v' : Val} (hv : Extends N v v') :
    WUp (writeBases self w bs v) (writeBases self' w bs v') := by
  induction bs with
  | nil => exact .refl _
  | cons b bs ih => exact (h b (.head _) v v' hv).bind fun _ => ih fun c hc => h c (.tail _ hc)

theorem writeFields_activeOnly (self : Nat → Ty → Val → WM Unit) (w : Nat) (fs : List (Guard × Field)) (st : Store) :
    writeFields self w fs st = writeFields self w ((activeFields w fs).map fun f => (⟨0, 0⟩, f)) st := by
  induction fs with
  | nil => rfl
  | cons gf fs ih =>
    obtain ⟨g, f⟩ := gf
    unfold activeFields at ih ⊢
    have h0 : Guard.holds ⟨0, 0⟩ w = true := rfl
    rw [List.filter_cons]
    by_cases hg : g.holds w = true
    · rw [if_pos hg, List.map_cons, List.map_cons, writeFields, writeFields, if_pos hg, if_pos h0, ih]
    · rw [if_neg hg, writeFields, if_neg hg, ih]

theorem wup_fields {w : Nat} (fs : List (Guard × Field)) (h : ∀ gf ∈ fs, WUpSelf N self self' w gf.2.ty) {st st' : Store}
    (hs : Extends N (.obj st) (.obj st')) : WUp (writeFields self w fs st) (writeFields self' w fs st') := by
  induction fs with
  | nil => exact .refl _
  | cons gf fs ih =>
    obtain ⟨g, f⟩ := gf
    have ih' := ih fun x hx => h x (.tail _ hx)
    unfold writeFields
    split
    · cases hg : st.get? f.key with
      | none => exact .never fun _ _ _ h => by cases h
      | some x =>
        obtain ⟨_, e, -, -, h3, -⟩ := hs.objInv
        cases e
        obtain ⟨x', hx', hxx⟩ := h3 _ _ hg
        simp only [hx']
        exact (h _ (.head _) x x' hxx).bind fun _ => ih'
    · exact ih'

end

theorem up_write {E E' : Env} {P : Nat → Ty → Prop} (hP : WrittenTypes E P) (hW : WritesLike P E E') (hit : SameIteration N E E')
    {H H' : Heap} (hH : ∀ a v, H a = some v → ∃ v', H' a = some v' ∧ Extends N v v') (n : Nat) :
    ∀ w t, P w t → WUpSelf N (write E H n) (write E' H' n) w t := by
  induction n with
  | zero => intro w t _ v v' _; exact .never fun _ _ _ h => by cases h
  | succ n ih =>
    intro w t ht v v' hv
    change WUp (writeStep E H (write E H n) w t v) (writeStep E' H' (write E' H' n) w t v')
    have hp : (∀ c, t ≠ .cls c) → ∀ t' ∈ binParts E t, WUpSelf N (write E H n) (write E' H' n) 0 t' :=
      fun hc t' ht' => ih 0 t' (hP.parts w t ht hc t' ht')
    have hleaf : v = v' ∨ ¬ v.Leaf := by
      by_cases hl : v.Leaf
      · left; cases hv <;> first | rfl | exact hl.elim
      · exact .inr hl
    cases t
    case cls c =>
      cases v with
      | obj st =>
        obtain ⟨st', rfl, -⟩ := hv.objInv
        simp only [writeStep]
        cases hc : E.cls c with
        | none => exact .never fun _ _ _ h => by cases h
        | some ci =>
          obtain ⟨ci', hci', hb, hs, he, ha⟩ := hW w c ci ht hc
          rw [hci']
          simp only [writeClass, hb]
          refine (wup_bases _ (fun b hb => ih w _ (hP.bases w c ci ht hc b hb)) hv).bind fun _ => ?_
          have hver : writeVersion ci'.bin.version w = writeVersion ci.bin.version w := by
            unfold writeVersion
            rw [he]
            cases h1 : ci.bin.version <;> cases h2 : ci'.bin.version <;> simp [h1, h2] at hs ⊢
          rw [hver]
          refine (WUp.refl _).bind fun _ => ?_
          rw [he, writeFields_activeOnly (write E H n), writeFields_activeOnly (write E' H' n), ha]
          refine wup_fields _ (fun gf hgf => ?_) hv
          obtain ⟨f, hf, rfl⟩ := List.mem_map.1 hgf
          exact ih _ _ (hP.fields w c ci ht hc f hf)
      | tup vs =>
        refine .never fun s a s1 h => ?_
        rcases vs with _ | ⟨_, _ | ⟨_, _ | _⟩⟩ <;> cases h
      | _ => exact .never fun s a s1 h => by cases h
    case opt t' =>
      cases v with
      | null => cases hv; exact .refl _
      | some x =>
        cases hv with
        | leaf h => exact h.elim
        | some h => exact (WUp.refl _).bind fun _ => hp (by intro c; simp) t' (.head _) _ _ h
      | tup vs =>
        refine .never fun s a s1 h => ?_
        rcases vs with _ | ⟨_, _ | ⟨_, _ | _⟩⟩ <;> cases h
      | _ => exact .never fun s a s1 h => by cases h
    case uptr t' =>
      cases v with
      | null => cases hv; exact .refl _
      | ptr x =>
        cases hv with
        | leaf h => exact h.elim
        | ptr h => exact (WUp.refl _).bind fun _ => hp (by intro c; simp) t' (.head _) _ _ h
      | tup vs =>
        refine .never fun s a s1 h => ?_
        rcases vs with _ | ⟨_, _ | ⟨_, _ | _⟩⟩ <;> cases h
      | _ => exact .never fun s a s1 h => by cases h
    case sptr t' =>
      cases v with
      | null => cases hv; exact .refl _
      | ref a =>
        cases hv
        simp only [writeStep]
        refine (WUp.refl _).bind fun written => ?_
        refine (WUp.refl _).bind fun _ => ?_
        refine (WUp.refl _).bind fun _ => ?_
        split
        · exact .refl _
        · refine (WUp.refl _).bind fun _ => ?_
          cases hh : H a with
          | none => exact .never fun _ _ _ h => by cases h
          | some x =>
            obtain ⟨x', hx', hx⟩ := hH a x hh
            rw [hx']
            exact hp (by intro c; simp) t' (.head _) _ _ hx
      | tup vs =>
        refine .never fun s a s1 h => ?_
        rcases vs with _ | ⟨_, _ | ⟨_, _ | _⟩⟩ <;> cases h
      | _ => exact .never fun s a s1 h => by cases h
    case vec t' =>
      cases v with
      | list vs =>
        obtain ⟨vs', rfl, hvs⟩ := hv.listInv
        simp only [writeStep, hvs.length_eq]
        exact (WUp.refl _).bind fun _ => wup_elems (hp (by intro c; simp) t' (.head _)) hvs
      | tup vs =>
        refine .never fun s a s1 h => ?_
        rcases vs with _ | ⟨_, _ | ⟨_, _ | _⟩⟩ <;> cases h
      | _ => exact .never fun s a s1 h => by cases h
    case set hd m t' =>
      cases v with
      | list vs =>
        obtain ⟨vs', rfl, hvs⟩ := hv.listInv
        simp only [writeStep, hvs.length_eq]
        refine (WUp.refl _).bind fun _ => wup_elems (hp (by intro c; simp) t' (.head _)) ?_
        unfold Env.order
        split
        · exact hit.1 _ _ hvs
        · exact hvs
      | tup vs =>
        refine .never fun s a s1 h => ?_
        rcases vs with _ | ⟨_, _ | ⟨_, _ | _⟩⟩ <;> cases h
      | _ => exact .never fun s a s1 h => by cases h
    case map hd m k t' =>
      cases v with
      | map kvs =>
        obtain ⟨kvs', rfl, hvs⟩ := hv.mapInv
        simp only [writeStep, List.Forall₂.length_eq hvs]
        refine (WUp.refl _).bind fun _ => wup_entries (hp (by intro c; simp) _ (.head _)) ?_
        unfold Env.orderKV
        split
        · have h1 := hit.2 _ _ (.mkMap hvs)
          obtain ⟨kvs2, e, h2⟩ := h1.mapInv
          cases e
          exact h2
        · exact hvs
      | tup vs =>
        refine .never fun s a s1 h => ?_
        rcases vs with _ | ⟨_, _ | ⟨_, _ | _⟩⟩ <;> cases h
      | _ => exact .never fun s a s1 h => by cases h
    case pair a b =>
      cases v with
      | tup vs =>
        rcases vs with _ | ⟨x, _ | ⟨y, _ | _⟩⟩
        case cons.cons.nil =>
          obtain ⟨x', y', rfl, h1, h2⟩ := hv.tup2Inv
          exact (hp (by intro c; simp) a (.head _) _ _ h1).bind fun _ => hp (by intro c; simp) b (.tail _ (.head _)) _ _ h2
        all_goals exact .never fun s a s1 h => by cases h
      | _ => exact .never fun s a s1 h => by cases h
    case enum u =>
      cases v with
      | int i =>
        cases hv
        exact hp (by intro c; simp) (.int u) (.head _) _ _ (.leaf trivial)
      | tup vs =>
        refine .never fun s a s1 h => ?_
        rcases vs with _ | ⟨_, _ | ⟨_, _ | _⟩⟩ <;> cases h
      | _ => exact .never fun s a s1 h => by cases h
    case variant ts =>
      cases v with
      | alt i x =>
        cases hv with
        | leaf h => exact h.elim
        | alt _ h =>
          simp only [writeStep]
          cases hi : ts[i]? with
          | none => exact .never fun _ _ _ h => by cases h
          | some t' =>
            have hr := hp (by intro c; simp) t' (List.mem_of_getElem? hi) _ _ h
            cases t' <;> first
              | exact (WUp.refl _).bind fun _ => hr
              | exact .refl _
      | valueless =>
        refine .never fun s a s1 h => ?_
        obtain ⟨_, _, _, h⟩ := M.bind_eq_ok.1 h
        cases h
      | tup vs =>
        refine .never fun s a s1 h => ?_
        rcases vs with _ | ⟨_, _ | ⟨_, _ | _⟩⟩ <;> cases h
      | _ => exact .never fun s a s1 h => by cases h
    all_goals
      rcases hleaf with rfl | hl
      · intro s a s1 h
        cases v <;> first | exact h | (cases h; done) | (rename_i vs; rcases vs with _ | ⟨_, _ | ⟨_, _ | _⟩⟩ <;> cases h; done)
      · refine .never fun s a s1 h => ?_
        cases v <;> first
          | exact absurd trivial hl
          | (cases h; done)
          | (rename_i vs; rcases vs with _ | ⟨_, _ | ⟨_, _ | _⟩⟩ <;> (cases h; done))

end Verif
