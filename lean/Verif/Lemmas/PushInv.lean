import Mathlib.Data.List.Forall2
import Verif.Lemmas.Rel

/-!
# Inversion of `push`: what a successful serialisation has produced
-/

namespace Verif

theorem sm_state (s : Unit) : s = () := rfl

theorem SM.bind_ok_iff {α β : Type} {m : SM α} {f : α → SM β} {b : β} :
    (m >>= f) () = .ok b () ↔ ∃ a, m () = .ok a () ∧ f a () = .ok b () := by
  rw [M.bind_eq_ok]
  constructor
  · rintro ⟨a, ⟨⟩, h⟩; exact ⟨a, h⟩
  · rintro ⟨a, h⟩; exact ⟨a, (), h⟩

theorem SM.map_ok_iff {α β : Type} {m : SM α} {g : α → β} {b : β} :
    (m >>= fun a => (pure (g a) : SM β)) () = .ok b () ↔ ∃ a, m () = .ok a () ∧ b = g a := by
  rw [SM.bind_ok_iff]
  constructor
  · rintro ⟨a, h, h'⟩; cases h'; exact ⟨a, h, rfl⟩
  · rintro ⟨a, h, rfl⟩; exact ⟨a, h, rfl⟩

section
variable {self : Ty → Val → SM Json}

theorem pushElems_iff {t : Ty} {vs : List Val} {js : List Json} :
    pushElems self t vs () = .ok js () ↔ List.Forall₂ (fun v j => self t v () = .ok j ()) vs js := by
  induction vs generalizing js with
  | nil =>
    constructor
    · intro h; cases h; exact .nil
    · intro h; cases h; rfl
  | cons v vs ih =>
    unfold pushElems
    rw [SM.bind_ok_iff]
    simp only [SM.map_ok_iff, ih]
    constructor
    · rintro ⟨j, h1, js, h2, rfl⟩; exact .cons h1 h2
    · intro h
      cases h with
      | cons h1 h2 => exact ⟨_, h1, _, h2, rfl⟩

theorem pushTuple_iff {ts : List Ty} {vs : List Val} {js : List Json} :
    pushTuple self ts vs () = .ok js () ↔
      ts.length = vs.length ∧ List.Forall₂ (fun (tv : Ty × Val) j => self tv.1 tv.2 () = .ok j ()) (ts.zip vs) js := by
  induction ts generalizing vs js with
  | nil =>
    cases vs with
    | nil =>
      constructor
      · intro h; cases h; exact ⟨rfl, .nil⟩
      · rintro ⟨-, h⟩; cases h; rfl
    | cons v vs =>
      constructor
      · intro h; cases h
      · rintro ⟨h, -⟩; simp at h
  | cons t ts ih =>
    cases vs with
    | nil =>
      constructor
      · intro h; cases h
      · rintro ⟨h, -⟩; simp at h
    | cons v vs =>
      unfold pushTuple
      rw [SM.bind_ok_iff]
      simp only [SM.map_ok_iff, ih, List.length_cons, Nat.add_right_cancel_iff, List.zip_cons_cons]
      constructor
      · rintro ⟨j, h1, js, ⟨h2, h3⟩, rfl⟩; exact ⟨h2, .cons h1 h3⟩
      · rintro ⟨h, h'⟩
        cases h' with
        | cons h1 h2 => exact ⟨_, h1, _, ⟨h, h2⟩, rfl⟩

theorem pushMapEntries_iff {t : Ty} {kvs : List (Val × Val)} {ms : List (Key × Json)} :
    pushMapEntries self t kvs () = .ok ms () ↔
      List.Forall₂ (fun (kv : Val × Val) (m : Key × Json) => ∃ k, kv.1 = .str k ∧ m.1 = ⟨rjStrRef k, .borrowed⟩ ∧
        self t kv.2 () = .ok m.2 ()) kvs ms := by
  induction kvs generalizing ms with
  | nil =>
    constructor
    · intro h; cases h; exact .nil
    · intro h; cases h; rfl
  | cons kv kvs ih =>
    obtain ⟨k, v⟩ := kv
    by_cases hk : ∃ s, k = .str s
    · obtain ⟨s, rfl⟩ := hk
      unfold pushMapEntries
      rw [SM.bind_ok_iff]
      simp only [SM.map_ok_iff, ih]
      constructor
      · rintro ⟨j, h1, ms, h2, rfl⟩; exact .cons ⟨s, rfl, rfl, h1⟩ h2
      · intro h
        cases h with
        | @cons _ m _ ms h1 h2 =>
          obtain ⟨k, hk, hm, hj⟩ := h1
          obtain ⟨m1, m2⟩ := m
          cases hk; cases hm
          exact ⟨_, hj, _, h2, rfl⟩
    · constructor
      · intro h
        exfalso
        cases k <;> first | exact hk ⟨_, rfl⟩ | cases h
      · intro h
        cases h with
        | cons h1 h2 => obtain ⟨s, h1, -⟩ := h1; exact absurd ⟨s, h1⟩ hk

/-- the key of a map entry as string -/
def strKey : Val → Str
  | .str s => s
  | _ => []

theorem pushMultimapEntries_iff {t : Ty} {kvs : List (Val × Val)} {ms ms' : List (Key × Json)} :
    pushMultimapEntries self t kvs ms () = .ok ms' () ↔
      ∃ js, List.Forall₂ (fun (kv : Val × Val) j => (∃ k, kv.1 = .str k) ∧ self t kv.2 () = .ok j ()) kvs js ∧
        ms' = (kvs.zip js).foldl (fun ms p => addToGroup (rjString (strKey p.1.1)) p.2 ms) ms := by
  induction kvs generalizing ms with
  | nil =>
    constructor
    · intro h; cases h; exact ⟨[], .nil, rfl⟩
    · rintro ⟨js, h, rfl⟩; cases h; rfl
  | cons kv kvs ih =>
    obtain ⟨k, v⟩ := kv
    by_cases hk : ∃ s, k = .str s
    · obtain ⟨s, rfl⟩ := hk
      unfold pushMultimapEntries
      rw [SM.bind_ok_iff]
      simp only [ih]
      constructor
      · rintro ⟨j, h1, js, h2, rfl⟩; exact ⟨j :: js, .cons ⟨⟨s, rfl⟩, h1⟩ h2, rfl⟩
      · rintro ⟨js, h, rfl⟩
        cases h with
        | cons h1 h2 => exact ⟨_, h1.2, _, h2, rfl⟩
    · constructor
      · intro h
        exfalso
        cases k <;> first | exact hk ⟨_, rfl⟩ | cases h
      · rintro ⟨js, h, -⟩
        cases h with
        | cons h1 h2 => obtain ⟨⟨s, h1⟩, -⟩ := h1; exact absurd ⟨s, h1⟩ hk

theorem pushFields_iff {fs : List Field} {st : Store} {ms : List (Key × Json)} :
    pushFields self fs st () = .ok ms () ↔
      List.Forall₂ (fun (f : Field) (m : Key × Json) => m.1 = ⟨f.name, .literal⟩ ∧ ∃ v, st.get? f.key = some v ∧
        self f.ty v () = .ok m.2 ()) fs ms := by
  induction fs generalizing ms with
  | nil =>
    constructor
    · intro h; cases h; exact .nil
    · intro h; cases h; rfl
  | cons f fs ih =>
    unfold pushFields
    cases hg : st.get? f.key with
    | none =>
      constructor
      · intro h; cases h
      · intro h
        cases h with
        | cons h1 h2 =>
          obtain ⟨-, v, hv, -⟩ := h1
          rw [hg] at hv; cases hv
    | some v =>
      dsimp only
      rw [SM.bind_ok_iff]
      simp only [SM.map_ok_iff, ih]
      constructor
      · rintro ⟨j, h1, ms, h2, rfl⟩; exact .cons ⟨rfl, v, hg, h1⟩ h2
      · intro h
        cases h with
        | @cons _ m _ ms h1 h2 =>
          obtain ⟨hm, v', hv, hj⟩ := h1
          obtain ⟨m1, m2⟩ := m
          rw [hg] at hv
          cases hv; cases hm
          exact ⟨_, hj, _, h2, rfl⟩

theorem pushBases_iff {bs : List ClassId} {v : Val} {ms : List (Key × Json)} :
    pushBases self bs v () = .ok ms () ↔
      ∃ mss : List (List (Key × Json)), List.Forall₂ (fun b ms => self (.cls b) v () = .ok (.obj ms) ()) bs mss ∧
        ms = mss.flatten := by
  induction bs generalizing ms with
  | nil =>
    constructor
    · intro h; cases h; exact ⟨[], .nil, rfl⟩
    · rintro ⟨mss, h, rfl⟩; cases h; rfl
  | cons b bs ih =>
    unfold pushBases
    rw [SM.bind_ok_iff]
    constructor
    · rintro ⟨j, h1, h2⟩
      cases j <;> try (cases h2; done)
      simp only [SM.map_ok_iff, ih] at h2
      obtain ⟨_, ⟨mss, h2, rfl⟩, rfl⟩ := h2
      exact ⟨_ :: mss, .cons h1 h2, rfl⟩
    · rintro ⟨mss, h, rfl⟩
      cases h with
      | cons h1 h2 =>
        refine ⟨_, h1, ?_⟩
        simp only [SM.map_ok_iff, ih]
        exact ⟨_, ⟨_, h2, rfl⟩, rfl⟩

end

theorem forall₂_mem_left {α β : Type} {P : α → β → Prop} {l : List α} {l' : List β} (h : List.Forall₂ P l l') {a : α}
    (ha : a ∈ l) : ∃ b ∈ l', P a b := by
  induction h with
  | nil => cases ha
  | cons h1 h2 ih =>
    rcases List.mem_cons.1 ha with rfl | ha
    · exact ⟨_, List.mem_cons_self, h1⟩
    · obtain ⟨b, hb, hp⟩ := ih ha
      exact ⟨b, List.mem_cons_of_mem _ hb, hp⟩

theorem forall₂_mem_right {α β : Type} {P : α → β → Prop} {l : List α} {l' : List β} (h : List.Forall₂ P l l') {b : β}
    (hb : b ∈ l') : ∃ a ∈ l, P a b := by
  induction h with
  | nil => cases hb
  | cons h1 h2 ih =>
    rcases List.mem_cons.1 hb with rfl | hb
    · exact ⟨_, List.mem_cons_self, h1⟩
    · obtain ⟨a, ha, hp⟩ := ih hb
      exact ⟨a, List.mem_cons_of_mem _ ha, hp⟩

end Verif
