import Verif.Props.JsonObjects
import Verif.Props.JsonMaps
import Verif.Props.SameData

/-!
# C96: layered configuration

A document with defaults is read into an object, and then a document which overrides some of the members is read into the same object.
This is the same as reading one document in which the members have been overridden.
-/

namespace Verif

/-- reading `a` and then `b` into the same object yields the same as reading only `ab` (without an errors object; C08 says what follows
when supplying one) -/
def Layers (E : Env) (t : Ty) (a b ab : Json) : Prop :=
  ∀ n v v1 v2, pull E n t a v none = .ok v1 none → pull E n t b v1 none = .ok v2 none → pull E n t ab v none = .ok v2 none

/-- a member in both documents and in the combined one -/
inductive MemberLayers (E : Env) (t : Ty) : Option Json → Option Json → Option Json → Prop
  | absent (b : Option Json) : MemberLayers E t none b b
  | kept (a : Option Json) : MemberLayers E t a none a
  | both {a b ab : Json} : Layers E t a b ab → MemberLayers E t (some a) (some b) (some ab)

/-- the members which are read when reading an object, in order (bases up to depth `n`) -/
def membersRead (E : Env) : Nat → ClassId → List Field
  | 0, _ => []
  | n + 1, c =>
    match E.cls c with
    | none => []
    | some ci => ci.json.bases.flatMap (membersRead E n) ++ ci.json.pullFields

/-! ## reading an object as reading a sequence of members -/

private def plan (E : Env) : Nat → ClassId → List (Nat × Field)
  | 0, _ => []
  | n + 1, c =>
    match E.cls c with
    | none => []
    | some ci => ci.json.bases.flatMap (plan E n) ++ ci.json.pullFields.map (n, ·)

private theorem plan_members (E : Env) (n : Nat) (c : ClassId) : (plan E n c).map Prod.snd = membersRead E n c := by
  induction n generalizing c with
  | zero => rfl
  | succ n ih =>
    simp only [plan, membersRead]
    cases E.cls c with
    | none => rfl
    | some ci =>
      simp only [List.map_append, List.map_flatMap, List.map_map]
      congr 1
      · exact List.flatMap_congr fun b _ => ih b
      · exact (List.map_congr_left fun _ _ => rfl).trans (List.map_id _)

private theorem plan_reads (E : Env) (n : Nat) (c : ClassId) : ∀ f ∈ membersRead E n c, Reads E c f := by
  induction n generalizing c with
  | zero => intro f h; cases h
  | succ n ih =>
    intro f h
    simp only [membersRead] at h
    cases hc : E.cls c with
    | none => rw [hc] at h; cases h
    | some ci =>
      rw [hc] at h
      rcases List.mem_append.1 h with h | h
      · obtain ⟨b, hb, h⟩ := List.mem_flatMap.1 h
        exact .base hc hb (ih b f h)
      · exact .own hc h

private def Step (E : Env) (m : Nat) (f : Field) (ms : List (Key × Json)) (s s' : Store) : Prop :=
  match firstNamed f.name ms with
  | none => s' = s
  | some j => ∃ v v', s.get? f.key = some v ∧ pull E m f.ty j v none = .ok v' none ∧ s' = s.set f.key v'

private def Run (E : Env) (ms : List (Key × Json)) : List (Nat × Field) → Store → Store → Prop
  | [], s, s' => s' = s
  | (m, f) :: L, s, s' => ∃ s1, Step E m f ms s s1 ∧ Run E ms L s1 s'

private theorem run_append {E : Env} {ms : List (Key × Json)} {L L' : List (Nat × Field)} {s s' : Store} :
    Run E ms (L ++ L') s s' ↔ ∃ s1, Run E ms L s s1 ∧ Run E ms L' s1 s' := by
  induction L generalizing s with
  | nil => exact ⟨fun h => ⟨s, rfl, h⟩, fun ⟨_, rfl, h⟩ => h⟩
  | cons x L ih =>
    obtain ⟨m, f⟩ := x
    simp only [List.cons_append, Run, ih]
    exact ⟨fun ⟨a, h1, b, h2, h3⟩ => ⟨b, ⟨a, h1, h2⟩, h3⟩, fun ⟨b, ⟨a, h1, h2⟩, h3⟩ => ⟨a, h1, b, h2, h3⟩⟩

private theorem pull_state {E : Env} {n : Nat} {t : Ty} {j : Json} {v v' : Val} {x : Option ErrSt} (h : pull E n t j v none = .ok v' x) : x = none := by
  have := (pull_errInv E n t j v).1
  rw [h] at this
  exact this

private theorem pullField_iff {E : Env} {m : Nat} {f : Field} {ms : List (Key × Json)} {s s' : Store} {x : Option ErrSt} :
    pullField (pull E m) f ms s none = .ok s' x ↔ x = none ∧ Step E m f ms s s' := by
  unfold pullField Step
  rw [findMember_eq]
  cases firstNamed f.name ms with
  | none => exact ⟨fun h => by cases h; exact ⟨rfl, rfl⟩, fun ⟨h1, h2⟩ => by subst h1; subst h2; rfl⟩
  | some j =>
    dsimp only
    cases hg : s.get? f.key with
    | none => exact ⟨fun h => (by cases h), fun ⟨_, v, v', h, _⟩ => (by cases h)⟩
    | some v =>
      dsimp only
      constructor
      · intro h
        obtain ⟨v', s1, h1, h2⟩ := M.bind_eq_ok.1 h
        rw [withMember_none] at h1
        cases hp : pull E m f.ty j v none with
        | ok a y =>
          rw [hp] at h1
          have := pull_state hp
          subst this
          cases h1
          cases h2
          exact ⟨rfl, v, _, rfl, hp, rfl⟩
        | _ => rw [hp] at h1; cases h1
      · rintro ⟨rfl, v0, v', h1, h2, rfl⟩
        cases h1
        have : withMember f.name (pull E m f.ty j v) none = .ok v' none := by rw [withMember_none, h2]; rfl
        rw [M.bind_ok this]
        rfl

private theorem pullFields_iff {E : Env} {m : Nat} {fs : List Field} {ms : List (Key × Json)} {s s' : Store} {x : Option ErrSt} :
    pullFields (pull E m) fs ms s none = .ok s' x ↔ x = none ∧ Run E ms (fs.map (m, ·)) s s' := by
  induction fs generalizing s with
  | nil => exact ⟨fun h => by cases h; exact ⟨rfl, rfl⟩, fun ⟨h1, h2⟩ => by subst h1; cases h2; rfl⟩
  | cons f fs ih =>
    simp only [pullFields, List.map_cons, Run]
    constructor
    · intro h
      obtain ⟨s1, y, h1, h2⟩ := M.bind_eq_ok.1 h
      obtain ⟨rfl, g1⟩ := pullField_iff.1 h1
      obtain ⟨rfl, g2⟩ := ih.1 h2
      exact ⟨rfl, s1, g1, g2⟩
    · rintro ⟨rfl, s1, h1, h2⟩
      rw [M.bind_ok (pullField_iff.2 ⟨rfl, h1⟩)]
      exact ih.2 ⟨rfl, h2⟩

private theorem pullBases_nil_or {E : Env} {n : Nat} (hpull : ∀ c ms v v' x, pull E n (.cls c) (.obj ms) v none = .ok v' x →
      x = none ∧ (∃ s s', v = .obj s ∧ v' = .obj s' ∧ Run E ms (plan E n c) s s') ∧
      ∀ ms' s s', Run E ms' (plan E n c) s s' → pull E n (.cls c) (.obj ms') (.obj s) none = .ok (.obj s') none)
    (bs : List ClassId) (ms : List (Key × Json)) (v v' : Val) (x : Option ErrSt) (h : pullBases (pull E n) bs ms v none = .ok v' x) :
    x = none ∧ (∀ s', v' = .obj s' → ∃ s, v = .obj s ∧ Run E ms (bs.flatMap (plan E n)) s s') ∧
      ∀ ms' s s', Run E ms' (bs.flatMap (plan E n)) s s' → pullBases (pull E n) bs ms' (.obj s) none = .ok (.obj s') none := by
  induction bs generalizing v with
  | nil =>
    cases h
    exact ⟨rfl, fun s' h => ⟨s', h, rfl⟩, fun ms' s s' h => by cases h; rfl⟩
  | cons b bs ih =>
    simp only [pullBases] at h
    obtain ⟨v1, y, h1, h2⟩ := M.bind_eq_ok.1 h
    obtain ⟨rfl, ⟨s, s1, rfl, rfl, r1⟩, k1⟩ := hpull _ _ _ _ _ h1
    obtain ⟨rfl, h3, k2⟩ := ih _ h2
    refine ⟨rfl, fun s' hs' => ?_, fun ms' a a' ha => ?_⟩
    · obtain ⟨q, hq, r2⟩ := h3 s' hs'
      cases hq
      exact ⟨s, rfl, by rw [List.flatMap_cons]; exact run_append.2 ⟨_, r1, r2⟩⟩
    · rw [List.flatMap_cons] at ha
      obtain ⟨a1, r1, r2⟩ := run_append.1 ha
      simp only [pullBases]
      rw [M.bind_ok (k1 _ _ _ r1)]
      exact k2 _ _ _ r2

private theorem pull_run (E : Env) (n : Nat) : ∀ c ms v v' x, pull E n (.cls c) (.obj ms) v none = .ok v' x →
      x = none ∧ (∃ s s', v = .obj s ∧ v' = .obj s' ∧ Run E ms (plan E n c) s s') ∧
      ∀ ms' s s', Run E ms' (plan E n c) s s' → pull E n (.cls c) (.obj ms') (.obj s) none = .ok (.obj s') none := by
  induction n with
  | zero => intro c ms v v' x h; cases h
  | succ n ih =>
    intro c ms v v' x h
    have hx := pull_state h
    subst hx
    change pullStep E (pull E n) _ _ _ _ = _ at h
    simp only [pullStep] at h
    cases hc : E.cls c with
    | none => rw [hc] at h; cases h
    | some ci =>
      rw [hc] at h
      dsimp only at h
      split at h
      · cases h
      · rename_i hpl
        obtain ⟨v1, y, h1, h2⟩ := M.bind_eq_ok.1 h
        obtain ⟨rfl, h3, k1⟩ := pullBases_nil_or ih _ _ _ _ _ h1
        cases v1 with
        | obj s1 =>
          dsimp only at h2
          obtain ⟨s, rfl, r1⟩ := h3 s1 rfl
          obtain ⟨s2, y, h4, h5⟩ := M.bind_eq_ok.1 h2
          have hrec : ∀ ms s s' y, (if ci.json.setsRecord then withRecord ci.qname (pullFields (pull E n) ci.json.pullFields ms s)
              else pullFields (pull E n) ci.json.pullFields ms s) none = .ok s' y ↔ y = none ∧ Run E ms (ci.json.pullFields.map (n, ·)) s s' := by
            intro ms s s' y
            split
            · rw [withRecord_none, ← pullFields_iff]
              cases hp : pullFields (pull E n) ci.json.pullFields ms s none with
              | ok a z =>
                obtain ⟨rfl, -⟩ := pullFields_iff.1 hp
                rfl
              | _ => exact Iff.rfl
            · exact pullFields_iff
          obtain ⟨rfl, r2⟩ := (hrec _ _ _ _).1 h4
          cases h5
          refine ⟨rfl, ⟨s, s2, rfl, rfl, ?_⟩, fun ms' a a' ha => ?_⟩
          · simp only [plan, hc]
            exact run_append.2 ⟨_, r1, r2⟩
          · simp only [plan, hc] at ha
            obtain ⟨a1, q1, q2⟩ := run_append.1 ha
            show pullStep E (pull E n) _ _ _ _ = _
            simp only [pullStep, hc]
            rw [if_neg hpl, M.bind_ok (k1 _ _ _ q1)]
            dsimp only
            rw [M.bind_ok ((hrec _ _ _ _).2 ⟨rfl, q2⟩)]
            rfl
        | _ => cases h2

/-! ## reordering -/

private theorem step_comm {E : Env} {m m' : Nat} {f g : Field} {A B : List (Key × Json)} (hk : f.key ≠ g.key) {s s1 s2 : Store}
    (h1 : Step E m g A s s1) (h2 : Step E m' f B s1 s2) : ∃ t, Step E m' f B s t ∧ Step E m g A t s2 := by
  unfold Step at h1 h2 ⊢
  cases ha : firstNamed g.name A with
  | none =>
    rw [ha] at h1
    cases h1
    exact ⟨s2, h2, rfl⟩
  | some a =>
    rw [ha] at h1
    obtain ⟨v, v', e1, e2, rfl⟩ := h1
    cases hb : firstNamed f.name B with
    | none =>
      rw [hb] at h2
      cases h2
      exact ⟨s, rfl, v, v', e1, e2, rfl⟩
    | some b =>
      rw [hb] at h2
      obtain ⟨w, w', g1, g2, rfl⟩ := h2
      rw [get?_set_ne _ _ hk] at g1
      exact ⟨s.set f.key w', ⟨w, w', g1, g2, rfl⟩, v, v', by rw [get?_set_ne _ _ hk.symm, e1], e2, set_comm s hk.symm v' w'⟩

private theorem step_run_comm {E : Env} {m : Nat} {f : Field} {A B : List (Key × Json)} {L : List (Nat × Field)}
    (hk : f.key ∉ L.map fun x => x.2.key) {s s1 s2 : Store}
    (h1 : Run E A L s s1) (h2 : Step E m f B s1 s2) : ∃ t, Step E m f B s t ∧ Run E A L t s2 := by
  induction L generalizing s with
  | nil => cases h1; exact ⟨s2, h2, rfl⟩
  | cons x L ih =>
    obtain ⟨m', g⟩ := x
    simp only [List.map_cons, List.mem_cons, not_or] at hk
    obtain ⟨q, q1, q2⟩ := h1
    obtain ⟨t, t1, t2⟩ := ih hk.2 q2
    obtain ⟨u, u1, u2⟩ := step_comm hk.1 q1 t1
    exact ⟨u, u1, t, u2, t2⟩

private theorem set_twice (st : Store) (k : FieldKey) (v v' : Val) : (st.set k v).set k v' = st.set k v' := by
  induction st with
  | nil => rfl
  | cons x st ih =>
    obtain ⟨a, b⟩ := x
    by_cases h : a = k <;> simp [Store.set, h, ih]

private theorem step_merge {E : Env} {m : Nat} {f : Field} {A B AB : List (Key × Json)}
    (hf : MemberLayers E f.ty (firstNamed f.name A) (firstNamed f.name B) (firstNamed f.name AB)) {s s1 s2 : Store}
    (h1 : Step E m f A s s1) (h2 : Step E m f B s1 s2) : Step E m f AB s s2 := by
  unfold Step at h1 h2 ⊢
  generalize firstNamed f.name A = a at *
  generalize firstNamed f.name B = b at *
  generalize firstNamed f.name AB = ab at *
  cases hf with
  | absent => cases h1; exact h2
  | kept => cases h2; exact h1
  | both hl =>
    obtain ⟨v, v', e1, e2, rfl⟩ := h1
    obtain ⟨w, w', g1, g2, rfl⟩ := h2
    rw [get?_set_eq s e1] at g1
    cases g1
    exact ⟨v, w', e1, hl m v _ w' e2 g2, set_twice _ _ _ _⟩

private theorem run_merge {E : Env} {A B AB : List (Key × Json)} {L : List (Nat × Field)} (hk : (L.map fun x => x.2.key).Nodup)
    (hf : ∀ x ∈ L, MemberLayers E x.2.ty (firstNamed x.2.name A) (firstNamed x.2.name B) (firstNamed x.2.name AB)) {s s1 s2 : Store}
    (h1 : Run E A L s s1) (h2 : Run E B L s1 s2) : Run E AB L s s2 := by
  induction L generalizing s s1 with
  | nil => cases h1; exact h2
  | cons x L ih =>
    obtain ⟨m, f⟩ := x
    rw [List.map_cons, List.nodup_cons] at hk
    obtain ⟨a, a1, a2⟩ := h1
    obtain ⟨b, b1, b2⟩ := h2
    obtain ⟨t, t1, t2⟩ := step_run_comm hk.1 a2 b1
    exact ⟨t, step_merge (hf _ List.mem_cons_self) a1 t1, ih hk.2 (fun y hy => hf y (List.mem_cons_of_mem _ hy)) t2 b2⟩

private theorem run_step_comm {E : Env} {m : Nat} {f : Field} {A B : List (Key × Json)} {L : List (Nat × Field)}
    (hk : f.key ∉ L.map fun x => x.2.key) {s s1 s2 : Store}
    (h1 : Step E m f A s s1) (h2 : Run E B L s1 s2) : ∃ t, Run E B L s t ∧ Step E m f A t s2 := by
  induction L generalizing s s1 with
  | nil => cases h2; exact ⟨s, rfl, h1⟩
  | cons x L ih =>
    obtain ⟨m', g⟩ := x
    simp only [List.map_cons, List.mem_cons, not_or] at hk
    obtain ⟨q, q1, q2⟩ := h2
    obtain ⟨t, t1, t2⟩ := step_comm (Ne.symm hk.1) h1 q1
    obtain ⟨u, u1, u2⟩ := ih hk.2 t2 q2
    exact ⟨u, ⟨t, t1, u1⟩, u2⟩

private theorem run_swap {E : Env} {A B : List (Key × Json)} {L : List (Nat × Field)} (hk : (L.map fun x => x.2.key).Nodup)
    (hd : ∀ x ∈ L, firstNamed x.2.name A = none ∨ firstNamed x.2.name B = none) {s s1 s2 : Store}
    (h1 : Run E A L s s1) (h2 : Run E B L s1 s2) : ∃ t, Run E B L s t ∧ Run E A L t s2 := by
  induction L generalizing s s1 with
  | nil => cases h1; cases h2; exact ⟨_, rfl, rfl⟩
  | cons x L ih =>
    obtain ⟨m, f⟩ := x
    rw [List.map_cons, List.nodup_cons] at hk
    obtain ⟨a, a1, a2⟩ := h1
    obtain ⟨b, b1, b2⟩ := h2
    obtain ⟨t, t1, t2⟩ := step_run_comm hk.1 a2 b1
    obtain ⟨u, u1, u2⟩ := ih hk.2 (fun y hy => hd y (List.mem_cons_of_mem _ hy)) t2 b2
    have hx : ∃ x, Step E m f B s x ∧ Step E m f A x t := by
      rcases hd _ List.mem_cons_self with h | h
      · have ha : a = s := by simpa [Step, h] using a1
        subst ha
        exact ⟨t, t1, by simp [Step, h]⟩
      · have ht : t = a := by simpa [Step, h] using t1
        subst ht
        exact ⟨s, by simp [Step, h], a1⟩
    obtain ⟨x, x1, x2⟩ := hx
    obtain ⟨y, y1, y2⟩ := run_step_comm hk.1 x2 u1
    exact ⟨y, ⟨x, x1, y1⟩, u, y2, u2⟩

/-! ## the property -/

/-- **C96**: reading an object of a class from a document and then from another one, into the same object, is reading one document - any
document in which every member which is read is that of the first document if the second one does not have it, that of the second one if
the first one does not have it, and otherwise combines both (which may be done recursively: see `Layers`; for most types the member of the
second document replaces that of the first one, see `C96_replaced`). No member may be read twice (as happens with several bases having a
common base). -/
theorem C96_layers (E : Env) (c : ClassId) (A B AB : List (Key × Json)) (hk : ∀ n, ((membersRead E n c).map Field.key).Nodup)
    (hf : ∀ f, Reads E c f → MemberLayers E f.ty (firstNamed f.name A) (firstNamed f.name B) (firstNamed f.name AB)) :
    Layers E (.cls c) (.obj A) (.obj B) (.obj AB) := by
  intro n v v1 v2 h1 h2
  obtain ⟨-, ⟨s, s1, rfl, rfl, r1⟩, k⟩ := pull_run E n c A v v1 _ h1
  obtain ⟨-, ⟨s1', s2, e, rfl, r2⟩, -⟩ := pull_run E n c B _ v2 _ h2
  cases e
  refine k AB s s2 (run_merge ?_ ?_ r1 r2)
  · have := hk n
    rw [← plan_members, List.map_map] at this
    exact this
  · intro x hx
    exact hf _ (plan_reads E n c _ (by rw [← plan_members]; exact List.mem_map_of_mem hx))

/-- **C96**: documents which have no member (of those which are read) in common can be read in either order. -/
theorem C96_independent_documents (E : Env) (c : ClassId) (A B : List (Key × Json)) (hk : ∀ n, ((membersRead E n c).map Field.key).Nodup)
    (hd : ∀ f, Reads E c f → firstNamed f.name A = none ∨ firstNamed f.name B = none) (n : Nat) (v v1 v2 : Val)
    (h1 : pull E n (.cls c) (.obj A) v none = .ok v1 none) (h2 : pull E n (.cls c) (.obj B) v1 none = .ok v2 none) :
    ∃ w, pull E n (.cls c) (.obj B) v none = .ok w none ∧ pull E n (.cls c) (.obj A) w none = .ok v2 none := by
  obtain ⟨-, ⟨s, s1, rfl, rfl, r1⟩, k⟩ := pull_run E n c A v v1 _ h1
  obtain ⟨-, ⟨s1', s2, e, rfl, r2⟩, -⟩ := pull_run E n c B _ v2 _ h2
  cases e
  obtain ⟨t, t1, t2⟩ := run_swap (by
    have := hk n
    rw [← plan_members, List.map_map] at this
    exact this) (fun x hx => hd _ (plan_reads E n c _ (by rw [← plan_members]; exact List.mem_map_of_mem hx))) r1 r2
  exact ⟨_, k B s t t1, k A t s2 t2⟩

/-- the documents which replace the previous value: those of the expected kind, except for maps (which are merged), tuples and objects
(which are read member by member); for pointers and optionals all documents -/
inductive Replacing : Ty → Json → Prop
  | bool (b) : Replacing .bool (.bool b)
  | int {it} (x) : Replacing (.int it) (.num x)
  | f32 (x) : Replacing .f32 (.num x)
  | f64 (x) : Replacing .f64 (.num x)
  | str (s) : Replacing .str (.str s)
  | vec {t} (js) : Replacing (.vec t) (.arr js)
  | set {h m t} (js) : Replacing (.set h m t) (.arr js)
  | uptr {t} (j) : Replacing (.uptr t) j
  | sptr {t} (j) : Replacing (.sptr t) j
  | opt {t} (j) : Replacing (.opt t) j

/-- **C96**: for these documents the member of the second document replaces that of the first one. -/
theorem C96_replaced (E : Env) (t : Ty) (a b : Json) (h : Replacing t b) : Layers E t a b b := by
  intro n v v1 v2 _ h2
  have he : ∀ n, pull E (n + 1) t b v = pull E (n + 1) t b v1 := by
    intro n
    cases h with
    | @int it x => cases it <;> rfl
    | uptr => cases b <;> rfl
    | sptr => cases b <;> rfl
    | opt => cases b <;> rfl
    | _ => rfl
  cases n with
  | zero => cases h2
  | succ n => rw [he, h2]

/-- **C96**: so if the members both documents have are replaced, putting the members of the second document in front of those of the
first one gives a document which can be read instead. -/
theorem C96_overridden_members (E : Env) (c : ClassId) (A B : List (Key × Json)) (hk : ∀ n, ((membersRead E n c).map Field.key).Nodup)
    (hr : ∀ f, Reads E c f → ∀ a b, firstNamed f.name A = some a → firstNamed f.name B = some b → Replacing f.ty b) :
    Layers E (.cls c) (.obj A) (.obj B) (.obj (B ++ A)) := by
  refine C96_layers E c A B _ hk fun f hf => ?_
  have hab : firstNamed f.name (B ++ A) = (firstNamed f.name B).or (firstNamed f.name A) := by
    unfold firstNamed
    rw [List.find?_append]
    cases B.find? fun m => decide (m.1.bytes = f.name) <;> rfl
  rw [hab]
  cases hb : firstNamed f.name B with
  | none => exact .kept _
  | some b =>
    cases ha : firstNamed f.name A with
    | none => exact .absent _
    | some a => exact .both (C96_replaced E f.ty a b (hr f hf a b ha hb))

/-- **C96**: any number of documents, each overriding the ones before it -/
theorem C96_many_layers (E : Env) (c : ClassId) (hk : ∀ n, ((membersRead E n c).map Field.key).Nodup) (first : List (Key × Json))
    (docs : List (List (Key × Json))) (hr : ∀ d ∈ docs, ∀ f, Reads E c f → ∀ b, firstNamed f.name d = some b → Replacing f.ty b)
    (n : Nat) (v v1 v2 : Val) (h1 : pull E n (.cls c) (.obj first) v none = .ok v1 none)
    (h2 : (docs.foldlM (fun v d => pull E n (.cls c) (.obj d) v) v1) none = .ok v2 none) :
    pull E n (.cls c) (.obj (docs.reverse.flatten ++ first)) v none = .ok v2 none := by
  induction docs generalizing first v1 with
  | nil => cases h2; simpa using h1
  | cons d docs ih =>
    rw [List.foldlM_cons] at h2
    obtain ⟨w, x, g1, g2⟩ := M.bind_eq_ok.1 h2
    have := pull_state g1
    subst this
    have h3 := C96_overridden_members E c first d hk (fun f hf _ b _ hb => hr d List.mem_cons_self f hf b hb) n v v1 w h1 g1
    have := ih (d ++ first) w h3 g2 (hr := fun d' hd' => hr d' (List.mem_cons_of_mem _ hd'))
    simpa [List.append_assoc] using this

private theorem pullMapEntries_append (E : Env) (self : Ty → Json → Val → PM Val) (t : Ty) (A B : List (Key × Json)) (kvs : List (Val × Val)) :
    pullMapEntries E self t (A ++ B) kvs = (pullMapEntries E self t A kvs >>= pullMapEntries E self t B) := by
  induction A generalizing kvs with
  | nil => rfl
  | cons m A ih =>
    obtain ⟨k, j⟩ := m
    simp only [List.cons_append, pullMapEntries, M.bind_assoc', ih]

private theorem pullMultimapEntries_append (E : Env) (self : Ty → Json → Val → PM Val) (t : Ty) (A B : List (Key × Json)) (kvs : List (Val × Val)) :
    pullMultimapEntries E self t (A ++ B) kvs = (pullMultimapEntries E self t A kvs >>= pullMultimapEntries E self t B) := by
  induction A generalizing kvs with
  | nil => rfl
  | cons m A ih =>
    obtain ⟨k, j⟩ := m
    simp only [List.cons_append, pullMultimapEntries, M.bind_assoc', ih]

/-- **C96**: maps with string keys (multimaps and hashed ones included) are merged: the combined document has the members of both, those of
the second document being last (in a map they replace the value of an equal key). -/
theorem C96_maps_are_merged (E : Env) (hashed multi : Bool) (t : Ty) (A B : List (Key × Json)) :
    Layers E (.map hashed multi .str t) (.obj A) (.obj B) (.obj (A ++ B)) := by
  intro n v v1 v2 h1 h2
  cases n with
  | zero => cases h1
  | succ n =>
    change pullStep E (pull E n) _ _ _ _ = _ at h1 h2
    show pullStep E (pull E n) _ _ _ _ = _
    simp only [pullStep] at h1 h2 ⊢
    cases v with
    | map kvs =>
      dsimp only at h1 ⊢
      obtain ⟨kvs1, x, g1, g2⟩ := M.bind_eq_ok.1 h1
      cases g2
      dsimp only at h2
      cases multi with
      | true =>
        simp only [if_true] at g1 h2 ⊢
        rw [pullMultimapEntries_append, M.bind_assoc', M.bind_ok g1]
        exact h2
      | false =>
        simp only [Bool.false_eq_true, if_false] at g1 h2 ⊢
        rw [pullMapEntries_append, M.bind_assoc', M.bind_ok g1]
        exact h2
    | _ => cases h1

mutual
/-- `ab` is `a` overridden by `b`: members of objects are overridden recursively, maps are merged, everything else is replaced -/
inductive Overridden (E : Env) : Ty → Json → Json → Json → Prop
  | replaced {t a b} : Replacing t b → Overridden E t a b b
  | map {hashed multi t A B} : Overridden E (.map hashed multi .str t) (.obj A) (.obj B) (.obj (A ++ B))
  | object {c A B AB} : (∀ n, ((membersRead E n c).map Field.key).Nodup) →
      (∀ f, Reads E c f → OverriddenMember E f.ty (firstNamed f.name A) (firstNamed f.name B) (firstNamed f.name AB)) →
      Overridden E (.cls c) (.obj A) (.obj B) (.obj AB)

/-- a member in both documents and in the combined one -/
inductive OverriddenMember (E : Env) : Ty → Option Json → Option Json → Option Json → Prop
  | absent {t} (b : Option Json) : OverriddenMember E t none b b
  | kept {t} (a : Option Json) : OverriddenMember E t a none a
  | both {t} {a b ab : Json} : Overridden E t a b ab → OverriddenMember E t (some a) (some b) (some ab)
end

mutual
/-- **C96**: nested objects of any depth: reading the defaults and then what overrides them is reading the combination of both. -/
theorem C96_nested_objects (E : Env) (t : Ty) (a b ab : Json) (h : Overridden E t a b ab) : Layers E t a b ab :=
  match h with
  | .replaced h => C96_replaced E _ _ _ h
  | .map => C96_maps_are_merged E _ _ _ _ _
  | .object hk hf => C96_layers E _ _ _ _ hk fun f hr => overriddenMember_layers E f.ty _ _ _ (hf f hr)

theorem overriddenMember_layers (E : Env) (t : Ty) (a b ab : Option Json) (h : OverriddenMember E t a b ab) : MemberLayers E t a b ab :=
  match h with
  | .absent b => .absent b
  | .kept a => .kept a
  | .both h => .both (C96_nested_objects E t _ _ _ h)
end

namespace LayersDemo
open Demo

theorem derived_members (n : Nat) : ((membersRead env n 1).map Field.key).Nodup := by
  match n with
  | 0 => decide
  | 1 => decide
  | n + 2 =>
    have : membersRead env (n + 2) 1 = membersRead env 2 1 := rfl
    rw [this]
    decide

theorem derived_reads {f : Field} (h : Reads env 1 f) : f ∈ membersRead env 2 1 := by
  cases h with
  | own h1 h2 => cases h1; exact List.mem_append_right _ h2
  | base h1 h2 h3 =>
    cases h1
    simp only [derived, List.mem_cons, List.not_mem_nil, or_false] at h2
    subst h2
    cases h3 with
    | own g1 g2 => cases g1; exact List.mem_append_left _ (List.mem_flatMap.2 ⟨0, List.mem_singleton.2 rfl, g2⟩)
    | base g1 g2 g3 => cases g1; simp [base] at g2

/-- defaults: a member of the base class and a vector -/
def defaults : List (Key × Json) := [(⟨lit "i", .literal⟩, .num (.int 1)), (⟨lit "s", .literal⟩, .arr [.str (lit "a")])]

/-- overrides: the vector, and a constant member (which is not read) -/
def overrides : List (Key × Json) := [(⟨lit "s", .literal⟩, .arr [.str (lit "b"), .str (lit "c")]), (⟨lit "k", .literal⟩, .num (.int 3))]

example : Layers env (.cls 1) (.obj defaults) (.obj overrides) (.obj (overrides ++ defaults)) := by
  refine C96_overridden_members env 1 defaults overrides derived_members fun f hf a b ha hb => ?_
  have hm := derived_reads hf
  have : f = fI ∨ f = fM ∨ f = fS := by simpa [membersRead, env, base, derived] using hm
  have h1 : firstNamed fI.name overrides = none := rfl
  have h2 : firstNamed fM.name overrides = none := rfl
  have h3 : firstNamed fS.name overrides = some (.arr [.str (lit "b"), .str (lit "c")]) := rfl
  rcases this with rfl | rfl | rfl
  · rw [h1] at hb; cases hb
  · rw [h2] at hb; cases hb
  · rw [h3] at hb; cases hb; exact .vec _

/-- reading both, and reading the combined document -/
example : ∃ v1 v2, pull env 5 (.cls 1) (.obj defaults) (.obj derivedInit) none = .ok v1 none ∧
    pull env 5 (.cls 1) (.obj overrides) v1 none = .ok v2 none ∧
    pull env 5 (.cls 1) (.obj (overrides ++ defaults)) (.obj derivedInit) none = .ok v2 none ∧
    v2 = .obj [(fI.key, .int 1), (fM.key, .map []), (fS.key, .list [.str (lit "b"), .str (lit "c")]), (fK.key, .int 7)] :=
  ⟨_, _, rfl, rfl, rfl, rfl⟩

/-- a map in both documents: entries are added -/
example : Layers env (.cls 0) (.obj [(⟨lit "i", .literal⟩, .num (.int 1)), (⟨lit "m", .literal⟩, .obj [(⟨lit "x", .literal⟩, .num (.int 2))])])
    (.obj [(⟨lit "m", .literal⟩, .obj [(⟨lit "y", .literal⟩, .num (.int 3))])])
    (.obj [(⟨lit "i", .literal⟩, .num (.int 1)),
      (⟨lit "m", .literal⟩, .obj [(⟨lit "x", .literal⟩, .num (.int 2)), (⟨lit "y", .literal⟩, .num (.int 3))])]) := by
  refine C96_nested_objects env _ _ _ _ (.object (fun n => ?_) fun f hf => ?_)
  · match n with
    | 0 => decide
    | n + 1 =>
      have : membersRead env (n + 1) 0 = membersRead env 1 0 := rfl
      rw [this]
      decide
  · have : f = fI ∨ f = fM := by
      cases hf with
      | own g1 g2 => cases g1; simpa [base] using g2
      | base g1 g2 g3 => cases g1; simp [base] at g2
    rcases this with rfl | rfl
    · exact .kept (some (.num (.int 1)))
    · exact .both .map

end LayersDemo

end Verif
