import Verif.Lemmas.JsonEvolution
import Verif.Props.JsonForm
import Verif.Props.JsonRoundTrip
import Verif.Props.Evolution

/-!
# C72: JSON documents exchanged between an older and a newer version of a program

README.md 359-361: "The JSON (de)serializer ignores additional members when reading and drops them when writing" - an older program
reads the documents of a newer one (which has additional members) and vice versa.
-/

namespace Verif

/-- C72: a document which does not contain the added members is read by the newer program exactly like by the older one: with the same
errors, the same exceptions and the same content of the old members; the added members keep their content (`N` is an arbitrary
description of it). `E` is the older, `E'` the newer program, `S` are the types involved. -/
theorem C72_newer_reads_older (E E' : Env) (added : FieldKey → Bool) (S : Ty → Prop) (N : FieldKey → Val → Prop)
    (hN : ∀ k v, N k v → added k = true ∧ v.hasIndet = false) (hM : MembersAdded added S E E') (hT : SameTimes E E')
    (hI : SameInit N S E E') (hO : SameOrder N E E') (hC : ClosedUnderParts E' S) (n : Nat) (t : Ty) (j : Json) (ht : S t)
    (hj : ¬ MentionsAdded added E' t j) (p p' : Val) (hp : Extends N p p') (s : Option ErrSt) :
    EqualOutcome (Extends N) (pull E n t j p s) (pull E' n t j p' s) :=
  pull_lock hN hM hT hI hO hC n t j ht hj p p' hp s

/-- C72: whatever document the newer program is able to read, the older program is able to read as well: with the same content of the
old members; the errors it reports are among those the newer program reports (the errors within added members are missing). -/
theorem C72_older_reads_newer (E E' : Env) (added : FieldKey → Bool) (S : Ty → Prop) (N : FieldKey → Val → Prop)
    (hN : ∀ k v, N k v ↔ added k = true) (hM : MembersAdded added S E E') (hT : SameTimes E E')
    (hI : SameInit N S E E') (hO : SameOrder N E E') (hC : ClosedUnderParts E' S) (n : Nat) (t : Ty) (j : Json) (ht : S t)
    (p p' : Val) (hp : Extends N p p') (s s' : Option ErrSt) (hs : FewerErrors s s') (v' : Val) (s1' : Option ErrSt)
    (h : pull E' n t j p' s' = .ok v' s1') :
    ∃ v s1, pull E n t j p s = .ok v s1 ∧ FewerErrors s1 s1' ∧ Extends N v v' :=
  pull_down hN hM hT hI hO hC n t j ht p p' hp s s' v' s1' hs h

/-! ## documents written by the older program -/

theorem firstNamed_some {name : Str} {ms : List (Key × Json)} {j : Json} (h : firstNamed name ms = some j) :
    ∃ (i : Nat) (m : Key × Json), ms[i]? = some m ∧ m.1.bytes = name ∧ m.2 = j := by
  rw [← findMember_eq] at h
  induction ms with
  | nil => cases h
  | cons m ms ih =>
    obtain ⟨k, x⟩ := m
    simp only [findMember] at h
    split at h
    · rename_i hk
      cases h
      exact ⟨0, (k, j), rfl, hk, rfl⟩
    · obtain ⟨i, m, h1, h2⟩ := ih h
      exact ⟨i + 1, m, h1, h2⟩

theorem getElem?_of_length_eq {α β : Type} {l : List α} {l' : List β} (h : l.length = l'.length) {i : Nat} {a : α}
    (ha : l[i]? = some a) : ∃ b, l'[i]? = some b := by
  obtain ⟨hi, -⟩ := List.getElem?_eq_some_iff.1 ha
  exact ⟨l'[i]'(h ▸ hi), List.getElem?_eq_getElem _⟩

/-- an added member of an object is one which is read from it, directly or within a member -/
theorem MentionsAdded.clsInv {added : FieldKey → Bool} {E' : Env} {c : ClassId} {ms : List (Key × Json)}
    (h : MentionsAdded added E' (.cls c) (.obj ms)) :
    ∃ f j, Reads E' c f ∧ firstNamed f.name ms = some j ∧ (added f.key = true ∨ MentionsAdded added E' f.ty j) := by
  generalize ht : Ty.cls c = t at h
  generalize hj : Json.obj ms = j at h
  induction h generalizing c with
  | here hE hf ha hs =>
    cases ht; cases hj
    obtain ⟨x, hx⟩ := Option.isSome_iff_exists.1 hs
    exact ⟨_, x, .own hE hf, hx, .inl ha⟩
  | part hp hm ih =>
    subst ht; subst hj
    cases hp with
    | content h => rcases h with h | h | h <;> cases h
    | base hE hb =>
      obtain ⟨f, j, h1, h2, h3⟩ := ih rfl rfl
      exact ⟨f, j, .base hE hb h1, h2, h3⟩
    | member hE hf hn => exact ⟨_, _, .own hE hf, hn, .inr hm⟩

theorem closed_reads {E' : Env} {S : Ty → Prop} (hC : ClosedUnderParts E' S) {c : ClassId} {f : Field} (h : Reads E' c f)
    (hc : S (.cls c)) {ms : List (Key × Json)} {j : Json} (hj : firstNamed f.name ms = some j) : S f.ty := by
  induction h with
  | own hE hf => exact hC _ _ _ _ (.member hE hf hj) hc
  | base hE hb _ ih => exact ih (hC _ _ _ _ (.base (ms := ms) hE hb) hc) hj

/-- C72: documents written by the older program do not contain the added members (if no other member has the same name). -/
theorem C72_older_document_has_no_added_members (E E' : Env) (added : FieldKey → Bool) (S : Ty → Prop) (hC : ClosedUnderParts E' S)
    (hK : NamesKept added S E E') (H : Heap) (n : Nat) (t : Ty) (v : Val) (j : Json) (ht : S t) (h : push E H n t v () = .ok j ()) :
    ¬ MentionsAdded added E' t j := by
  have hd := (C57_serialised_form E H t v j).1 ⟨n, h⟩
  clear h
  induction hd with
  | bool | int | f32 | f64 | enum | str | cstrNull | cstr | sviewNull | sview | dateTime | timeSpan | optNull | uptrNull | sptrNull | valueless =>
    intro hm
    cases hm with
    | part hp _ =>
      cases hp with
      | content h h' => first | (rcases h with h | h | h <;> cases h; done) | exact h' rfl
  | vec hl _ ih =>
    intro hm
    cases hm with
    | part hp hm =>
      have hS := hC _ _ _ _ hp ht
      cases hp with
      | content h => rcases h with h | h | h <;> cases h
      | vec hj =>
        obtain ⟨i, hi⟩ := List.getElem?_of_mem hj
        obtain ⟨v, hv⟩ := getElem?_of_length_eq hl.symm hi
        exact ih i v _ hv hi hS hm
  | set _ hl _ ih =>
    intro hm
    cases hm with
    | part hp hm =>
      have hS := hC _ _ _ _ hp ht
      cases hp with
      | content h => rcases h with h | h | h <;> cases h
      | set hj =>
        obtain ⟨i, hi⟩ := List.getElem?_of_mem hj
        obtain ⟨v, hv⟩ := getElem?_of_length_eq hl.symm hi
        exact ih i v _ hv hi hS hm
  | map _ hl _ _ ih =>
    intro hm
    cases hm with
    | part hp hm =>
      have hS := hC _ _ _ _ hp ht
      cases hp with
      | content h => rcases h with h | h | h <;> cases h
      | map hj =>
        obtain ⟨i, hi⟩ := List.getElem?_of_mem hj
        obtain ⟨v, hv⟩ := getElem?_of_length_eq hl.symm hi
        exact ih i v _ hv hi hS hm
  | @multimap hashed t kvs it ps ms _ hl _ _ hg ih =>
    intro hm
    cases hm with
    | part hp hm =>
      have hS := hC _ _ _ _ hp ht
      cases hp with
      | content h => rcases h with h | h | h <;> cases h
      | @multimap _ _ _ m j hj hj' =>
        rw [(hg.2 m hj).2] at hj'
        simp only [multimapValues, List.mem_filterMap] at hj'
        obtain ⟨q, hq, hq'⟩ := hj'
        split at hq'
        · cases hq'
          obtain ⟨i, hi⟩ := List.getElem?_of_mem hq
          obtain ⟨v, hv⟩ := getElem?_of_length_eq hl.symm hi
          exact ih i v _ hv hi hS hm
        · cases hq'
  | pair _ _ ih1 ih2 =>
    intro hm
    cases hm with
    | part hp hm =>
      have hS := hC _ _ _ _ hp ht
      cases hp with
      | content h => rcases h with h | h | h <;> cases h
      | pair hj =>
        simp only [List.zip_cons_cons, List.zip_nil_right, List.mem_cons, Prod.mk.injEq, List.not_mem_nil, or_false] at hj
        rcases hj with ⟨rfl, rfl⟩ | ⟨rfl, rfl⟩
        · exact ih1 hS hm
        · exact ih2 hS hm
  | tuple h1 h2 _ ih =>
    intro hm
    cases hm with
    | part hp hm =>
      have hS := hC _ _ _ _ hp ht
      cases hp with
      | content h => rcases h with h | h | h <;> cases h
      | tuple hj =>
        obtain ⟨i, hi⟩ := List.getElem?_of_mem hj
        obtain ⟨hi1, hi2⟩ := List.getElem?_zip_eq_some.1 hi
        obtain ⟨v, hv⟩ := getElem?_of_length_eq h1.symm hi1
        exact ih i _ v _ hi1 hv hi2 hS hm
  | opt _ ih | uptr _ ih | sptr _ ih | uptrRef _ _ ih | sptrRef _ _ ih =>
    intro hm
    cases hm with
    | part hp hm =>
      have hS := hC _ _ _ _ hp ht
      cases hp with
      | content h =>
        rcases h with h | h | h <;> cases h
        exact ih hS hm
  | mono hi =>
    intro hm
    cases hm with
    | part hp hm =>
      cases hp with
      | content h => rcases h with h | h | h <;> cases h
      | variant e1 e2 e3 =>
        cases e1
        cases e2
        rw [hi] at e3
        cases e3
        cases hm with
        | part hp hm =>
          cases hp with
          | content h => rcases h with h | h | h <;> cases h
  | variant hi _ _ ih =>
    intro hm
    cases hm with
    | part hp hm =>
      have hS := hC _ _ _ _ hp ht
      cases hp with
      | content h => rcases h with h | h | h <;> cases h
      | variant e1 e2 e3 =>
        cases e1
        cases e2
        rw [hi] at e3
        cases e3
        exact ih hS hm
  | @cls c st fs ms w hF hl hmem _ ih =>
    intro hm
    obtain ⟨f, j, h1, h2, h3⟩ := hm.clsInv
    obtain ⟨i, m, e1, e2, e3⟩ := firstNamed_some h2
    obtain ⟨g, hg⟩ := getElem?_of_length_eq hl.symm e1
    obtain ⟨e4, -⟩ := hmem i g m hg e1
    rw [e4] at e2
    obtain ⟨k1, k2⟩ := hK c fs f g ht hF (List.mem_of_getElem? hg) h1 e2.symm
    rcases h3 with h3 | h3
    · rw [k1] at h3; cases h3
    · rw [k2, ← e3] at h3
      have hS := closed_reads hC h1 ht h2
      rw [k2] at hS
      exact ih i g m hg e1 hS h3

/-- C72: what the older program writes, the newer one restores: without errors, all members of the older program have the same content,
the added members keep theirs. -/
theorem C72_older_writes_newer_restores (E E' : Env) (added : FieldKey → Bool) (S : Ty → Prop) (N : FieldKey → Val → Prop)
    (hN : ∀ k v, N k v → added k = true ∧ v.hasIndet = false) (hM : MembersAdded added S E E') (hT : SameTimes E E')
    (hI : SameInit N S E E') (hO : SameOrder N E E') (hC : ClosedUnderParts E' S) (hK : NamesKept added S E E') (hE : StrTotal E)
    (H : Heap) (t : Ty) (ht : S t) (p p' v : Val) (hp : Extends N p p') (h : JRepr E H t p v) :
    ∃ (M : Nat) (j : Json), ∀ n, M ≤ n → push E H n t v () = .ok j () ∧
      ∀ s : Option ErrSt, ∃ v' i, Extends N v v' ∧ pull E' n t j p' s = .ok v' (s.map fun st => { st with index := i }) := by
  obtain ⟨M, j, hM'⟩ := C01_json_document_round_trip E H hE t p v h
  refine ⟨M, j, fun n hn => ?_⟩
  obtain ⟨h1, h2, h3⟩ := hM' n hn
  have hj := C72_older_document_has_no_added_members E E' added S hC hK H n t v j ht h1
  refine ⟨h1, fun s => ?_⟩
  have hl := C72_newer_reads_older E E' added S N hN hM hT hI hO hC n t j ht hj p p' hp s
  have he : ∃ i, pull E n t j p s = .ok v (s.map fun st => { st with index := i }) := by
    cases s with
    | none => exact ⟨0, h2⟩
    | some st =>
      obtain ⟨i, -, hi⟩ := h3 st
      exact ⟨i, hi⟩
  obtain ⟨i, hi⟩ := he
  rw [hi] at hl
  cases hr : pull E' n t j p' s <;> rw [hr] at hl <;> first | exact hl.elim | skip
  obtain ⟨rfl, hx⟩ := hl
  exact ⟨_, i, hx, rfl⟩

/-- C72: what the newer program writes, the older one restores, apart from the added members: without errors, all members of the older
program have the same content. -/
theorem C72_newer_writes_older_restores (E E' : Env) (added : FieldKey → Bool) (S : Ty → Prop) (N : FieldKey → Val → Prop)
    (hN : ∀ k v, N k v ↔ added k = true) (hM : MembersAdded added S E E') (hT : SameTimes E E')
    (hI : SameInit N S E E') (hO : SameOrder N E E') (hC : ClosedUnderParts E' S) (hE : StrTotal E')
    (H : Heap) (t : Ty) (ht : S t) (p p' v' : Val) (hp : Extends N p p') (h : JRepr E' H t p' v') :
    ∃ (M : Nat) (j : Json), ∀ n, M ≤ n → push E' H n t v' () = .ok j () ∧
      ∀ s : Option ErrSt, ∃ v i, Extends N v v' ∧ pull E n t j p s = .ok v (s.map fun st => { st with index := i }) := by
  obtain ⟨M, j, hM'⟩ := C01_json_document_round_trip E' H hE t p' v' h
  refine ⟨M, j, fun n hn => ?_⟩
  obtain ⟨h1, h2, h3⟩ := hM' n hn
  refine ⟨h1, fun s => ?_⟩
  have hr : FewerErrors s s := by
    cases s with
    | none => trivial
    | some st => exact ⟨rfl, rfl, rfl, .refl _⟩
  cases s with
  | none =>
    obtain ⟨v, s1, e1, e2, e3⟩ := C72_older_reads_newer E E' added S N hN hM hT hI hO hC n t j ht p p' hp none none hr v' none h2
    cases s1 with
    | none => exact ⟨v, 0, e3, e1⟩
    | some _ => exact e2.elim
  | some st =>
    obtain ⟨i, -, hi⟩ := h3 st
    obtain ⟨v, s1, e1, e2, e3⟩ := C72_older_reads_newer E E' added S N hN hM hT hI hO hC n t j ht p p' hp _ _ hr v' _ hi
    have hq := (pull_errInv E n t j p).2 st
    rw [e1] at hq
    obtain ⟨st', new, rfl, g1, g2, g3, g4, -, -⟩ := hq
    refine ⟨v, st'.index, e3, ?_⟩
    rw [e1]
    have hlen := e2.2.2.2.length_le
    simp only [List.length_map, g1, List.length_append] at hlen
    have hnew : new = [] := List.eq_nil_of_length_eq_zero (by omega)
    rw [hnew, List.append_nil] at g1
    obtain ⟨a1, a2, a3, a4, a5⟩ := st'
    simp only at g1 g2 g3 g4
    subst g1 g2 g3 g4
    rfl

/-! ### non-vacuity: `Derived` gets another member `std::optional<std::string> t` -/

namespace JsonEvDemo
open Demo EvDemo

def derived5 : ClassInfo := { derived4 with json := ⟨[0], [fS, fK, fT], [fS, fT], true, true⟩ }

/-- the newer program -/
def env5 : Env := { env with cls := fun c => if c = 1 then some derived5 else env.cls c }

def isNew (k : FieldKey) : Bool := k == fT.key

/-- the types involved -/
def types : List Ty := [.cls 1, .cls 0, .cls 2, .int .i32, .str, .sptr (.cls 2), .vec .str, .map false false .str (.int .i32), .opt .str]

theorem cls_mem {c : ClassId} (h : Ty.cls c ∈ types) : c = 0 ∨ c = 1 ∨ c = 2 := by
  simp only [types, List.mem_cons, List.not_mem_nil, or_false, Ty.cls.injEq, reduceCtorEq] at h
  tauto

theorem partClosed : ClosedUnderParts env5 (· ∈ types) := by
  intro t j t' j' hp ht
  have hcls : ∀ (c : ClassId) ci, Ty.cls c ∈ types → env5.cls c = some ci → (∀ b ∈ ci.json.bases, Ty.cls b ∈ types) ∧
      ∀ f ∈ ci.json.pullFields, f.ty ∈ types := by
    intro c ci hc he
    rcases cls_mem hc with rfl | rfl | rfl <;> cases he <;> exact ⟨by decide, by decide⟩
  cases hp with
  | base he hb => exact (hcls _ _ ht he).1 _ hb
  | member he hf _ => exact (hcls _ _ ht he).2 _ hf
  | content h _ =>
    rcases h with rfl | rfl | rfl <;>
      simp only [types, List.mem_cons, List.not_mem_nil, or_false, Ty.opt.injEq, Ty.uptr.injEq, Ty.sptr.injEq, reduceCtorEq, false_or] at ht <;>
      subst ht <;> decide
  | vec _ =>
    simp only [types, List.mem_cons, List.not_mem_nil, or_false, Ty.vec.injEq, reduceCtorEq, false_or] at ht
    subst ht; decide
  | map _ =>
    simp only [types, List.mem_cons, List.not_mem_nil, or_false, Ty.map.injEq, reduceCtorEq, false_or] at ht
    rw [ht.2.2.2]; decide
  | multimap _ _ => simp [types] at ht
  | set _ => simp [types] at ht
  | pair _ => simp [types] at ht
  | tuple _ => simp [types] at ht
  | variant _ _ _ => simp [types] at ht

theorem membersAdded : MembersAdded isNew (· ∈ types) env env5 := by
  intro c hc
  rcases cls_mem hc with rfl | rfl | rfl
  · exact ⟨base, base, rfl, rfl, rfl, rfl, rfl, rfl, by decide⟩
  · exact ⟨derived, derived5, rfl, rfl, rfl, rfl, rfl, rfl, by decide⟩
  · exact ⟨node, node, rfl, rfl, rfl, rfl, rfl, rfl, by decide⟩

theorem sameTimes : SameTimes env env5 := ⟨rfl, rfl⟩

theorem jsonSameOrder (N : FieldKey → Val → Prop) : SameOrder N env env5 := sameOrder N

/-- The new member `t` is initially null -/
theorem jsonSameInitOf {N : FieldKey → Val → Prop} (h1 : N fT.key .null) (h2 : ∀ k v, N k v → k = fT.key) :
    SameInit N (· ∈ types) env env5 := by
  intro t ht
  have h := sameInitOf h1 h2 t
  simp only [types, List.mem_cons, List.not_mem_nil, or_false] at ht
  rcases ht with rfl | rfl | rfl | rfl | rfl | rfl | rfl | rfl | rfl
  · exact h (by decide)
  · exact h (by decide)
  · exact h (by decide)
  · exact ⟨.leaf trivial, .leaf trivial⟩
  · exact ⟨.leaf trivial, .leaf trivial⟩
  · exact ⟨.leaf trivial, .leaf trivial⟩
  · exact ⟨.list .nil, .list .nil⟩
  · exact ⟨.map .nil .nil, .map .nil .nil⟩
  · exact ⟨.leaf trivial, .leaf trivial⟩

theorem jsonSameInit : SameInit Initial (· ∈ types) env env5 := jsonSameInitOf ⟨rfl, rfl⟩ fun _ _ h => h.1

theorem jsonSameInitAny : SameInit Any (· ∈ types) env env5 := jsonSameInitOf rfl fun _ _ h => h

theorem namesKept : NamesKept isNew (· ∈ types) env env5 := by
  intro c P f g hc hP hg hf hn
  have r0 : ∀ f, Reads env5 0 f → f ∈ [fI, fM] := by
    intro f hf
    cases hf with
    | own he h => cases he; exact h
    | base he h _ => cases he; cases h
  rcases cls_mem hc with rfl | rfl | rfl
  · have h0 : FlatFields env [0] [fI, fM] := FlatFields.cons (ci := base) (bs := []) (fs := []) rfl .nil .nil
    rw [flatFields_eq hP h0] at hg
    have hf := r0 f hf
    have key : ∀ f ∈ [fI, fM], ∀ g ∈ [fI, fM], f.name = g.name → isNew f.key = false ∧ f.ty = g.ty := by decide
    exact key f hf g hg hn
  · rw [flatFields_eq hP RoundTripDemo.flatPush] at hg
    have hf : f ∈ [fI, fM, fS, fT] := by
      cases hf with
      | own he h => cases he; exact List.mem_append_right [fI, fM] h
      | base he h h' =>
        cases he
        simp only [derived5, List.mem_singleton] at h
        subst h
        exact List.mem_append_left [fS, fT] (r0 f h')
    have key : ∀ f ∈ [fI, fM, fS, fT], ∀ g ∈ [fI, fM, fS, fK], f.name = g.name → isNew f.key = false ∧ f.ty = g.ty := by decide
    exact key f hf g hg hn
  · have h0 : FlatFields env [2] [fV, fN] := FlatFields.cons (ci := node) (bs := []) (fs := []) rfl .nil .nil
    rw [flatFields_eq hP h0] at hg
    have hf : f ∈ [fV, fN] := by
      cases hf with
      | own he h => cases he; exact h
      | base he h _ => cases he; cases h
    have key : ∀ f ∈ [fV, fN], ∀ g ∈ [fV, fN], f.name = g.name → isNew f.key = false ∧ f.ty = g.ty := by decide
    exact key f hf g hg hn

/-- what the older program writes for `Derived { i: -42, m: {A: 1, B: 2}, s: [x, ""] }` is read by the newer program; `t` stays null -/
example : ∃ (M : Nat) (j : Json), ∀ n, M ≤ n → push env (fun _ => none) n (.cls 1) (.obj RoundTripDemo.value) () = .ok j () ∧
    ∀ s : Option ErrSt, ∃ v' i, Extends Initial (.obj RoundTripDemo.value) v' ∧
      pull env5 n (.cls 1) j (.obj derived5.valInit) s = .ok v' (s.map fun st => { st with index := i }) :=
  C72_older_writes_newer_restores env env5 isNew _ Initial (by rintro _ _ ⟨rfl, rfl⟩; exact ⟨by decide, rfl⟩) membersAdded sameTimes
    jsonSameInit (jsonSameOrder _) partClosed namesKept demo_strTotal _ _ (by decide) _ _ _ (jsonSameInit (.cls 1) (by decide)).1
    RoundTripDemo.repr

/-- whatever the newer program reads - with whatever errors -, the older one reads as well -/
example (n : Nat) (j : Json) (v' : Val) (s' : ErrSt)
    (h : pull env5 n (.cls 1) j (.obj derived5.valInit) (some .init) = .ok v' (some s')) :
    ∃ v s, pull env n (.cls 1) j (.obj derived.valInit) (some .init) = .ok v s ∧ FewerErrors s (some s') ∧ Extends Any v v' :=
  C72_older_reads_newer env env5 isNew _ Any (fun k v => by simp [Any, isNew]) membersAdded sameTimes jsonSameInitAny (jsonSameOrder _)
    partClosed n _ j (by decide) _ _ (jsonSameInitAny (.cls 1) (by decide)).1 (some .init) (some .init)
    ⟨rfl, rfl, rfl, .refl _⟩ _ _ h

/-- a document with the member `t` being of the wrong type: the newer program reports an error, the older one does not -/
def doc : Json := .obj [(⟨lit "i", .literal⟩, .num (.int 1)), (⟨lit "t", .literal⟩, .bool true), (⟨lit "s", .literal⟩, .null)]

example : MentionsAdded isNew env5 (.cls 1) doc := .here (ci := derived5) (f := fT) rfl (by decide) (by decide) rfl

def errorsReported (r : Res Err (Option ErrSt) Val) : List (Option Str × ErrKind) :=
  match r with
  | .ok _ (some s) => s.errs.map fun e => (e.member, e.kind)
  | _ => []

example : errorsReported (pull env 5 (.cls 1) doc (.obj derived.valInit) (some .init)) = [(some (lit "s"), .typeMismatch)] := by
  decide +kernel

example : errorsReported (pull env5 5 (.cls 1) doc (.obj derived5.valInit) (some .init)) =
    [(some (lit "s"), .typeMismatch), (some (lit "t"), .typeMismatch)] := by
  decide +kernel

end JsonEvDemo

end Verif
