import Verif.Props.JsonRoundTrip
import Verif.Props.JsonObjects
import Verif.Model.Binary
import Verif.Lemmas.ValEq

/-!
# Members of equal names in a class and its bases (C85)

A class may have a data member of the same name as one of its bases (the one of the base is hidden in C++ but still there). The JSON
object then has several members of that name.
-/

namespace Verif

/-- The member written first (bases come first, see C53) of all members called `name`; `P` are the members written. -/
def FirstOfName (P : List Field) (name : Str) (g : Field) : Prop := P.find? (fun f => decide (f.name = name)) = some g

theorem FirstOfName.mem {P : List Field} {name : Str} {g : Field} (h : FirstOfName P name g) : g ∈ P := List.mem_of_find?_eq_some h

theorem FirstOfName.name {P : List Field} {name : Str} {g : Field} (h : FirstOfName P name g) : g.name = name := by
  have := List.find?_some h
  exact of_decide_eq_true this

theorem FirstOfName.unique {P : List Field} {name : Str} {g g' : Field} (h : FirstOfName P name g) (h' : FirstOfName P name g') : g = g' :=
  Option.some.inj (h.symm.trans h')

section

/-- in a JSON object made from the members `P`, the first one of a name is from the first one of `P` with that name -/
theorem findMember_of_first {R : Field → Key × Json → Prop} {P : List Field} {ms : List (Key × Json)} {name : Str} {g : Field}
    (h : List.Forall₂ (fun (f : Field) (m : Key × Json) => m.1.bytes = f.name ∧ R f m) P ms) (hg : FirstOfName P name g) :
    ∃ m, findMember name ms = some m.2 ∧ R g m := by
  induction h with
  | nil => cases hg
  | @cons f m P ms hm _ ih =>
    obtain ⟨k, j⟩ := m
    unfold FirstOfName at hg
    rw [List.find?_cons] at hg
    by_cases hn : f.name = name
    · rw [decide_eq_true hn] at hg
      cases hg
      refine ⟨(k, j), ?_, hm.2⟩
      have hk : k.bytes = name := hm.1.trans hn
      simp only [findMember, hk, if_true]
    · rw [decide_eq_false hn] at hg
      obtain ⟨m', h1, h2⟩ := ih hg
      refine ⟨m', ?_, h2⟩
      have hk : k.bytes ≠ name := fun h => hn (hm.1.symm.trans h)
      simp only [findMember, hk, if_false]
      exact h1

theorem get?_mapValues (F : FieldKey → Val → Val) (s : Store) (k : FieldKey) :
    Store.get? (s.map fun p => (p.1, F p.1 p.2)) k = (s.get? k).map (F k) := by
  induction s with
  | nil => rfl
  | cons p s ih =>
    obtain ⟨k', v⟩ := p
    simp only [Store.get?, List.map_cons, List.lookup_cons] at ih ⊢
    by_cases h : k = k'
    · subst h; simp
    · have : (k == k') = false := by simpa using h
      rw [this]
      exact ih

end

/-- C85: the outcome of a JSON round trip if members of a class and its bases have equal names. `P` are the members written, `Q` the
members read (in this order, members of bases first); of each class there is at most one member per name, but members of different
classes may be called alike, in which case they have the same type. `st` is the object written and `st0` the object the document is read
into. Then reading succeeds without reporting anything, and each member which is read has got the value of the *first* member written
which has its name; so a member of a base replaces the one of the derived class hiding it. -/
theorem C85_round_trip_with_equal_names (E : Env) (H : Heap) (hE : StrTotal E) (c : ClassId) (P Q : List Field) (st0 st : Store)
    (hP : FlatFields E [c] P) (hQ : FlatPull E [c] Q) (hQP : ∀ f ∈ Q, f ∈ P)
    (hone : ∀ f ∈ P, ∀ f' ∈ P, f.key = f'.key → f = f') (htype : ∀ f ∈ P, ∀ f' ∈ P, f.name = f'.name → f.ty = f'.ty)
    (hkeys : st0.map Prod.fst = st.map Prod.fst)
    (hval : ∀ f ∈ P, ∃ v, st.get? f.key = some v ∧ ∃ w, JRepr E H f.ty w v)
    (hrepr : ∀ f ∈ Q, ∀ g, FirstOfName P f.name g → ∀ p v, st0.get? f.key = some p → st.get? g.key = some v → JRepr E H f.ty p v)
    (hagain : ∀ f g v, 2 ≤ Q.count f → FirstOfName P f.name g → st.get? g.key = some v → JRepr E H f.ty v v) :
    ∃ st' : Store,
      (∀ f ∈ Q, ∀ g, FirstOfName P f.name g → st'.get? f.key = st.get? g.key) ∧
      (∀ k, (∀ f ∈ Q, f.key ≠ k) → st'.get? k = st0.get? k) ∧
      ∃ (N : Nat) (j : Json), ∀ n, N ≤ n →
        push E H n (.cls c) (.obj st) () = .ok j () ∧
        pull E n (.cls c) j (.obj st0) none = .ok (.obj st') none ∧
        ∀ s : ErrSt, ∃ i, (i = s.index ∨ i = noIndex) ∧ pull E n (.cls c) j (.obj st0) (some s) = .ok (.obj st') (some { s with index := i }) := by
  obtain ⟨ms, w1, w2⟩ := write_class (E := E) (H := H) (st := st) hP fun f hf => by
    obtain ⟨v, hv, w, hw⟩ := hval f hf
    obtain ⟨j, hj, -⟩ := round_trip hE hw
    exact ⟨v, j, hv, hj⟩
  have hcls : Writes E H (.cls c) (.obj st) (.obj ms) := by
    refine w1.imp fun n hn => ?_
    obtain ⟨j, h1, h2⟩ := SM.bind_ok_iff.1 hn
    cases j with
    | obj ms' =>
      replace h2 := SM.map_ok_iff.1 h2; obtain ⟨ms'', h2, h3⟩ := h2
      cases h2
      rw [List.append_nil] at h3
      rw [h1, h3]
    | _ => cases h2
  -- the first member of a name
  have hfirst : ∀ f ∈ P, ∃ g, FirstOfName P f.name g ∧ g ∈ P ∧ g.name = f.name := by
    intro f hf
    cases hg : P.find? (fun g => decide (g.name = f.name)) with
    | none => exact absurd (List.find?_eq_none.1 hg f hf) (by simp)
    | some g => exact ⟨g, hg, FirstOfName.mem hg, FirstOfName.name hg⟩
  let jf : Field → Json := fun f => (findMember f.name ms).getD .null
  have hfind : ∀ f ∈ P, ∀ g, FirstOfName P f.name g → findMember f.name ms = some (jf f) ∧
      ∃ v, st.get? g.key = some v ∧ Writes E H f.ty v (jf f) := by
    intro f hf g hg
    obtain ⟨m, h1, v, h2, h3⟩ := findMember_of_first w2 hg
    have hjf : jf f = m.2 := by simp only [jf, h1, Option.getD_some]
    refine ⟨by rw [h1, hjf], v, h2, ?_⟩
    have := htype g hg.mem f hf hg.name
    rw [hjf, ← this]
    exact h3
  -- the object as it is after reading
  let F : FieldKey → Val → Val := fun k v =>
    if k ∈ Q.map Field.key then ((P.find? fun f => decide (f.name = k.2)).bind fun g => st.get? g.key).getD v else v
  let st' : Store := st0.map fun p => (p.1, F p.1 p.2)
  have hkeys' : st0.map Prod.fst = st'.map Prod.fst := by
    simp only [st', List.map_map]
    rfl
  have hst0 : ∀ f ∈ P, ∃ p, st0.get? f.key = some p := by
    intro f hf
    obtain ⟨v, hv, -⟩ := hval f hf
    have := (get?_isSome_iff st f.key).1 (by rw [hv]; rfl)
    rw [← hkeys, ← get?_isSome_iff] at this
    exact Option.isSome_iff_exists.1 this
  have hread : ∀ f ∈ Q, ∀ g, FirstOfName P f.name g → st'.get? f.key = st.get? g.key := by
    intro f hf g hg
    obtain ⟨p, hp⟩ := hst0 f (hQP f hf)
    obtain ⟨v, hv, -⟩ := hval g hg.mem
    have hg' : P.find? (fun x => decide (x.name = f.key.2)) = some g := hg
    rw [get?_mapValues, hp]
    simp only [F, Option.map_some, if_pos (List.mem_map_of_mem hf), hg', Option.bind_some, hv, Option.getD_some]
  have hrest : ∀ k, (∀ f ∈ Q, f.key ≠ k) → st'.get? k = st0.get? k := by
    intro k hk
    have hno : k ∉ Q.map Field.key := fun h => by
      obtain ⟨f, hf, h⟩ := List.mem_map.1 h
      exact hk f hf h
    rw [get?_mapValues]
    cases h : st0.get? k with
    | none => rfl
    | some v => simp only [F, Option.map_some, if_neg hno]
  have hF : Ev (Facts E st0 st' Q ms jf) := by
    have e1 : Ev fun n => ∀ f ∈ Q, ∀ p v, st0.get? f.key = some p → st'.get? f.key = some v → Clean (pull E n f.ty (jf f) p) v := by
      refine Ev.list Q fun f hf => ?_
      obtain ⟨g, hg, -⟩ := hfirst f (hQP f hf)
      obtain ⟨-, v, hv, hw⟩ := hfind f (hQP f hf) g hg
      obtain ⟨p, hp⟩ := hst0 f (hQP f hf)
      obtain ⟨j, h1, h2⟩ := round_trip hE (hrepr f hf g hg p v hp hv)
      have := h1.unique hw
      subst this
      refine h2.imp fun n hn p' v' hp' hv' => ?_
      rw [hread f hf g hg, hv] at hv'
      rw [hp] at hp'
      cases hp'; cases hv'
      exact hn
    have e2 : Ev fun n => ∀ f ∈ Q, 2 ≤ Q.count f → ∀ v, st'.get? f.key = some v → Clean (pull E n f.ty (jf f) v) v := by
      refine Ev.list Q fun f hf => ?_
      obtain ⟨g, hg, -⟩ := hfirst f (hQP f hf)
      obtain ⟨-, v, hv, hw⟩ := hfind f (hQP f hf) g hg
      by_cases hc : 2 ≤ Q.count f
      · obtain ⟨j, h1, h2⟩ := round_trip hE (hagain f g v hc hg hv)
        have := h1.unique hw
        subst this
        refine h2.imp fun n hn _ v' hv' => ?_
        rw [hread f hf g hg, hv] at hv'
        cases hv'
        exact hn
      · exact Ev.of fun n h => absurd h hc
    exact (e1.and e2).imp fun n hn => ⟨hn.1, hn.2⟩
  obtain ⟨s', r1, r2⟩ := read_class (E := E) (st0 := st0) (st := st') hkeys'
    (fun f hf => by
      obtain ⟨g, hg, -⟩ := hfirst f (hQP f hf)
      exact (hfind f (hQP f hf) g hg).1)
    (fun f hf => by
      obtain ⟨g, hg, -⟩ := hfirst f (hQP f hf)
      obtain ⟨-, v, hv, -⟩ := hfind f (hQP f hf) g hg
      exact ⟨v, by rw [hread f hf g hg, hv]⟩)
    (fun f hf f' hf' => hone f (hQP f hf) f' (hQP f' hf')) hF hQ [] [] (by simp) st0 ⟨hkeys', by simp⟩
  refine ⟨s', fun f hf g hg => ?_, fun k hk => ?_, ?_⟩
  · rw [r1.2, if_pos (by rw [List.nil_append]; exact List.mem_map_of_mem hf)]
    exact hread f hf g hg
  · rw [r1.2, if_neg]
    rw [List.nil_append]
    intro hm
    obtain ⟨f, hf, h⟩ := List.mem_map.1 hm
    exact hk f hf h
  · obtain ⟨N, hN⟩ := hcls.and r2
    refine ⟨N, .obj ms, fun n hn => ⟨(hN n hn).1, ?_⟩⟩
    have := (hN n hn).2
    have he : pullBases (pull E n) [c] ms (.obj st0) = pull E n (.cls c) (.obj ms) (.obj st0) := by
      simp only [pullBases]
      exact M.bind_pure' _
    rw [he] at this
    exact this

/-- C85 (consequence): if a member which is read and the first one of its name differ, then the object is not restored. -/
theorem C85_hidden_member_is_lost (E : Env) (H : Heap) (hE : StrTotal E) (c : ClassId) (P Q : List Field) (st0 st : Store)
    (hP : FlatFields E [c] P) (hQ : FlatPull E [c] Q) (hQP : ∀ f ∈ Q, f ∈ P)
    (hone : ∀ f ∈ P, ∀ f' ∈ P, f.key = f'.key → f = f') (htype : ∀ f ∈ P, ∀ f' ∈ P, f.name = f'.name → f.ty = f'.ty)
    (hkeys : st0.map Prod.fst = st.map Prod.fst)
    (hval : ∀ f ∈ P, ∃ v, st.get? f.key = some v ∧ ∃ w, JRepr E H f.ty w v)
    (hrepr : ∀ f ∈ Q, ∀ g, FirstOfName P f.name g → ∀ p v, st0.get? f.key = some p → st.get? g.key = some v → JRepr E H f.ty p v)
    (hagain : ∀ f g v, 2 ≤ Q.count f → FirstOfName P f.name g → st.get? g.key = some v → JRepr E H f.ty v v)
    (f g : Field) (hf : f ∈ Q) (hg : FirstOfName P f.name g) (hdiff : st.get? f.key ≠ st.get? g.key) :
    ∃ (N : Nat) (j : Json) (v' : Val), v' ≠ .obj st ∧ ∀ n, N ≤ n →
      push E H n (.cls c) (.obj st) () = .ok j () ∧ pull E n (.cls c) j (.obj st0) none = .ok v' none := by
  obtain ⟨st', h1, -, N, j, hN⟩ := C85_round_trip_with_equal_names E H hE c P Q st0 st hP hQ hQP hone htype hkeys hval hrepr hagain
  refine ⟨N, j, .obj st', ?_, fun n hn => ⟨(hN n hn).1, (hN n hn).2.1⟩⟩
  intro h
  cases h
  exact hdiff (h1 f hf g hg)

theorem FlatFields.unique {E : Env} {cs : List ClassId} {fs fs' : List Field} (h : FlatFields E cs fs) (h' : FlatFields E cs fs') :
    fs = fs' := by
  induction h generalizing fs' with
  | nil => cases h'; rfl
  | cons hc _ _ ih1 ih2 =>
    cases h' with
    | cons hc' hb hf =>
      rw [hc] at hc'
      cases hc'
      rw [ih1 hb, ih2 hf]

theorem push_same {E : Env} {H : Heap} {n m : Nat} {t : Ty} {v : Val} {j j' : Json} (h : push E H n t v () = .ok j ())
    (h' : push E H m t v () = .ok j' ()) : j = j' := by
  have h1 := push_mono (Nat.le_max_left n m) h (by simp)
  have h2 := push_mono (Nat.le_max_right n m) h' (by simp)
  rw [h1] at h2
  cases h2
  rfl

/-- C85 (whatever the types are): what is read from the document of an object depends only on those members which are the first ones of
their name. If two objects of a class differ in members hiding those of a base (or coming after a member of the same name of another
base) only, then their documents can not be told apart by reading them. -/
theorem C85_hidden_member_has_no_effect (E : Env) (H : Heap) (c : ClassId) (P : List Field) (hP : FlatFields E [c] P) (st1 st2 : Store)
    (n1 n2 : Nat) (j1 j2 : Json) (h1 : push E H n1 (.cls c) (.obj st1) () = .ok j1 ()) (h2 : push E H n2 (.cls c) (.obj st2) () = .ok j2 ())
    (hsame : ∀ f ∈ P, ∀ g, FirstOfName P f.name g → st1.get? g.key = st2.get? g.key) (n : Nat) (v : Val) (s : Option ErrSt) :
    pull E n (.cls c) j1 v s = pull E n (.cls c) j2 v s := by
  obtain ⟨P1, ms1, hP1, rfl, hf1⟩ := C53_member_order E H n1 c st1 j1 h1
  obtain ⟨P2, ms2, hP2, rfl, hf2⟩ := C53_member_order E H n2 c st2 j2 h2
  cases hP1.unique hP
  cases hP2.unique hP
  refine C03_depends_on_first_named E n c ms1 ms2 (fun f _ => ?_) v s
  rw [← findMember_eq, ← findMember_eq]
  cases hg : P.find? (fun g => decide (g.name = f.name)) with
  | some g =>
    obtain ⟨m1, a1, v1, k1, b1, c1⟩ := findMember_of_first hf1 hg
    obtain ⟨m2, a2, v2, k2, b2, c2⟩ := findMember_of_first hf2 hg
    have := hsame g (FirstOfName.mem hg) g (by rw [FirstOfName.name hg]; exact hg)
    rw [b1, b2] at this
    cases this
    rw [a1, a2, push_same c1 c2]
  | none =>
    have hno : ∀ {R : Field → Key × Json → Prop} {P : List Field} {ms : List (Key × Json)},
        List.Forall₂ (fun (f : Field) (m : Key × Json) => m.1.bytes = f.name ∧ R f m) P ms →
        (∀ g ∈ P, g.name ≠ f.name) → findMember f.name ms = none := by
      intro R P ms h
      induction h with
      | nil => intro _; rfl
      | @cons g m P ms hm _ ih =>
        intro hP
        obtain ⟨k, j⟩ := m
        have hk : k.bytes ≠ f.name := fun h => hP g List.mem_cons_self (hm.1.symm.trans h)
        simp only [findMember, hk, if_false]
        exact ih fun g' hg' => hP g' (List.mem_cons_of_mem _ hg')
    have hP' : ∀ g ∈ P, g.name ≠ f.name := fun g hg' => by simpa using List.find?_eq_none.1 hg g hg'
    rw [hno hf1 hP', hno hf2 hP']

/-! ### example: `struct Base { int x; }; struct Derived : Base { int x; string y; };` -/

namespace SameNamesDemo
open Demo

def bX : Field := ⟨0, lit "x", .int .i32⟩
def dX : Field := ⟨1, lit "x", .int .i32⟩
def dY : Field := ⟨1, lit "y", .str⟩

def ciB : ClassInfo :=
  ⟨lit "Base", ⟨[], [bX], [bX], true, true⟩, ⟨[], none, [(g0, bX)], [(g0, bX)], true⟩, [(bX.key, .int 0)], [(bX.key, .int 0)]⟩
def ciD : ClassInfo :=
  ⟨lit "Derived", ⟨[0], [dX, dY], [dX, dY], true, true⟩, ⟨[0], none, [(g0, dX), (g0, dY)], [(g0, dX), (g0, dY)], true⟩,
    [(bX.key, .int 0), (dX.key, .int 0), (dY.key, .str [])], [(bX.key, .int 0), (dX.key, .int 0), (dY.key, .str [])]⟩

def two : Env := { env with cls := fun c => match c with
    | 0 => some ciB
    | 1 => some ciD
    | _ => none }

def before : Store := [(bX.key, .int 0), (dX.key, .int 0), (dY.key, .str [])]
def obj (a b : Int) : Store := [(bX.key, .int a), (dX.key, .int b), (dY.key, .str (lit "hello"))]

theorem two_push : FlatFields two [1] [bX, dX, dY] := by
  have h0 : FlatFields two [0] [bX] := FlatFields.cons (ci := ciB) (bs := []) (fs := []) rfl .nil .nil
  exact FlatFields.cons (ci := ciD) (bs := [bX]) (fs := []) rfl h0 .nil

theorem two_pull : FlatPull two [1] [bX, dX, dY] := by
  have h0 : FlatPull two [0] [bX] := FlatPull.cons (ci := ciB) (bs := []) (fs := []) rfl rfl .nil .nil
  exact FlatPull.cons (ci := ciD) (bs := [bX]) (fs := []) rfl rfl h0 .nil

theorem two_int (p : Val) (i : Int) (h : -100 ≤ i ∧ i < 100) : JRepr two (fun _ => none) (.int .i32) p (.int i) :=
  .int p i .i32 (by decide) (by decide) (by decide)
    (by simp only [IntTy.lo, IntTy.signed, IntTy.bytes]; simp; omega)
    (by simp only [IntTy.hi, IntTy.card, IntTy.lo, IntTy.signed, IntTy.bytes]; simp; omega)

theorem two_str (p : Val) : JRepr two (fun _ => none) .str p (.str (lit "hello")) := .str p _ ⟨by decide, by decide⟩

theorem two_strTotal : StrTotal two := ⟨demo_strTotal.irrefl, demo_strTotal.trans, demo_strTotal.total⟩

/-- the hypotheses of the theorems hold for the two classes -/
example : ∃ (N : Nat) (j : Json) (v' : Val), v' ≠ .obj (obj 1 2) ∧ ∀ n, N ≤ n →
    push two (fun _ => none) n (.cls 1) (.obj (obj 1 2)) () = .ok j () ∧ pull two n (.cls 1) j (.obj before) none = .ok v' none := by
  refine C85_hidden_member_is_lost two (fun _ => none) two_strTotal 1 [bX, dX, dY] [bX, dX, dY] before (obj 1 2) two_push two_pull
    (fun f hf => hf) (by decide) (by decide) rfl ?_ ?_ ?_ dX bX (by decide) rfl ?_
  · intro f hf
    simp only [List.mem_cons, List.not_mem_nil, or_false] at hf
    rcases hf with rfl | rfl | rfl
    · exact ⟨_, rfl, .null, two_int _ _ (by decide)⟩
    · exact ⟨_, rfl, .null, two_int _ _ (by decide)⟩
    · exact ⟨_, rfl, .null, two_str _⟩
  · intro f hf g hg p v _ hv
    simp only [List.mem_cons, List.not_mem_nil, or_false] at hf
    rcases hf with rfl | rfl | rfl
    · cases hg.unique (show FirstOfName _ _ bX from rfl); cases hv; exact two_int _ _ (by decide)
    · cases hg.unique (show FirstOfName _ _ bX from rfl); cases hv; exact two_int _ _ (by decide)
    · cases hg.unique (show FirstOfName _ _ dY from rfl); cases hv; exact two_str _
  · intro f g v h
    have : ([bX, dX, dY].count f : Nat) ≤ 1 := List.nodup_iff_count.1 (by decide) f
    omega
  · intro h; cases h

/-- both members are 1 afterwards; nothing is reported -/
example : ∃ j, push two (fun _ => none) 9 (.cls 1) (.obj (obj 1 2)) () = .ok j () ∧
    pull two 9 (.cls 1) j (.obj before) none = .ok (.obj (obj 1 1)) none := ⟨_, rfl, rfl⟩

/-- objects which differ in the hiding member only -/
example (n : Nat) (v : Val) (s : Option ErrSt) : ∃ j1 j2,
    push two (fun _ => none) 9 (.cls 1) (.obj (obj 1 2)) () = .ok j1 () ∧ push two (fun _ => none) 9 (.cls 1) (.obj (obj 1 3)) () = .ok j2 () ∧
    pull two n (.cls 1) j1 v s = pull two n (.cls 1) j2 v s := by
  refine ⟨_, _, rfl, rfl, C85_hidden_member_has_no_effect two (fun _ => none) 1 _ two_push (obj 1 2) (obj 1 3) 9 9 _ _ rfl rfl ?_ n v s⟩
  intro f hf g hg
  simp only [List.mem_cons, List.not_mem_nil, or_false] at hf
  rcases hf with rfl | rfl | rfl
  · cases hg.unique (show FirstOfName _ _ bX from rfl); rfl
  · cases hg.unique (show FirstOfName _ _ bX from rfl); rfl
  · cases hg.unique (show FirstOfName _ _ dY from rfl); rfl

/-- the binary format does not use names: both members are restored -/
example : (match toBinary two (fun _ => none) 9 1 (.obj (obj 1 2)) 0 with
    | .ok () ws => (match fromBinary two 9 1 ws.out with
      | .ok v _ => v.eqb (.obj (obj 1 2))
      | _ => false)
    | _ => false) = true := by decide +kernel

end SameNamesDemo

end Verif
