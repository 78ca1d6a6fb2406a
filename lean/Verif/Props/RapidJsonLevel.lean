import Verif.Spec.RapidJsonLevel
import Verif.Lemmas.PushInto
import Verif.Props.JsonForm
import Verif.Props.JsonObjects
import Verif.Props.JsonRoundTrip

/-!
# C84: composing documents with the RapidJSON-level functions
-/

namespace Verif

theorem pushToArray_eq (E : Env) (H : Heap) (n : Nat) (t : Ty) (v : Val) (js : List Json) :
    pushToArray E H n t v js = push E H n t v >>= fun j => pure (js ++ [j]) := by
  unfold pushToArray
  rw [(pushInto_eq E H n).1]
  exact item_eq (pushInto_eq E H n).2 (fun _ _ _ => obj_of_cls) t v js

theorem pushAsMember_eq (E : Env) (H : Heap) (n : Nat) (t : Ty) (v : Val) (name : Str) (ms : ObjMembers) :
    pushAsMember E H n t v name ms = push E H n t v >>= fun j => pure (ms ++ [(⟨rjStrRef name, .borrowed⟩, j)]) := by
  unfold pushAsMember
  rw [(pushInto_eq E H n).1]
  exact named_eq (pushInto_eq E H n).2 (fun _ _ _ => obj_of_cls) t v _ ms

/-- C84: `push(x, value, allocator)` replaces whatever the value contained by the representation of `x` (C57). -/
theorem C84_value (E : Env) (H : Heap) (t : Ty) (v : Val) (old j : Json) :
    (∃ n, pushToValue E H n t v old () = .ok j ()) ↔ Denotes E H t v j := by
  rw [← C57_serialised_form]
  unfold pushToValue
  simp only [(pushInto_eq E H _).1]

/-- C84: `push(x, array, allocator)` appends the representation of `x` and leaves the items which are there alone. -/
theorem C84_array (E : Env) (H : Heap) (t : Ty) (v : Val) (js js' : List Json) :
    (∃ n, pushToArray E H n t v js () = .ok js' ()) ↔ ∃ j, Denotes E H t v j ∧ js' = js ++ [j] := by
  simp only [← C57_serialised_form, pushToArray_eq]
  constructor
  · rintro ⟨n, h⟩
    obtain ⟨j, _, h1, h2⟩ := M.bind_eq_ok.1 h
    cases h2
    exact ⟨j, ⟨n, h1⟩, rfl⟩
  · rintro ⟨j, ⟨n, h⟩, rfl⟩
    exact ⟨n, M.bind_eq_ok.2 ⟨j, _, h, rfl⟩⟩

/-- C84: `push(x, name, object, allocator)` appends a member, also if there is one of that name already, and leaves the other members
alone. The name is not copied. -/
theorem C84_member (E : Env) (H : Heap) (t : Ty) (v : Val) (name : Str) (hn : PlainStr name) (ms ms' : ObjMembers) :
    (∃ n, pushAsMember E H n t v name ms () = .ok ms' ()) ↔
      ∃ j, Denotes E H t v j ∧ ms' = ms ++ [(⟨name, .borrowed⟩, j)] := by
  simp only [← C57_serialised_form, pushAsMember_eq, plain_rjStrRef hn]
  constructor
  · rintro ⟨n, h⟩
    obtain ⟨j, _, h1, h2⟩ := M.bind_eq_ok.1 h
    cases h2
    exact ⟨j, ⟨n, h1⟩, rfl⟩
  · rintro ⟨j, ⟨n, h⟩, rfl⟩
    exact ⟨n, M.bind_eq_ok.2 ⟨j, _, h, rfl⟩⟩

/-- C84: `push(x, object, allocator)` for an object `x` of a class appends the members of the representation of `x`. -/
theorem C84_object (E : Env) (H : Heap) (c : ClassId) (v : Val) (ms ms' : ObjMembers) :
    (∃ n, pushToObject E H n c v ms () = .ok ms' ()) ↔
      ∃ own, Denotes E H (.cls c) v (.obj own) ∧ ms' = ms ++ own := by
  simp only [← C57_serialised_form, pushToObject, (pushInto_eq E H _).2 c v ms]
  constructor
  · rintro ⟨n, h⟩
    obtain ⟨j, _, h1, h2⟩ := M.bind_eq_ok.1 h
    obtain ⟨own, rfl⟩ := obj_of_cls h1
    cases h2
    exact ⟨own, ⟨n, h1⟩, rfl⟩
  · rintro ⟨j, ⟨n, h⟩, rfl⟩
    exact ⟨n, M.bind_eq_ok.2 ⟨_, _, h, rfl⟩⟩

/-- C84: what could be written to a value can be written to an array or an object, and whatever goes wrong there goes wrong here in
the same way (undefined behaviour exactly if the object is not completely initialised, see C57). -/
theorem C84_undefined (E : Env) (H : Heap) (n : Nat) (t : Ty) (v : Val) (js : List Json) (name : Str) (ms : ObjMembers) :
    (pushToArray E H n t v js () = .ub ↔ push E H n t v () = .ub) ∧
    (pushAsMember E H n t v name ms () = .ub ↔ push E H n t v () = .ub) ∧
    ∀ c, t = .cls c → (pushToObject E H n c v ms () = .ub ↔ push E H n t v () = .ub) := by
  refine ⟨?_, ?_, ?_⟩
  · rw [pushToArray_eq, M.bind_eq_ub]; simp
  · rw [pushAsMember_eq, M.bind_eq_ub]; simp
  · rintro c rfl
    unfold pushToObject
    rw [(pushInto_eq E H n).2 c v ms, M.bind_eq_ub]
    constructor
    · rintro (h | ⟨j, s, h, h'⟩)
      · exact h
      · obtain ⟨own, rfl⟩ := obj_of_cls h
        cases h'
    · exact Or.inl

/-- C84: `pull(x, name, object, errors)` reads the first member of that name like `pull(x, value, errors)` would (errors being
attributed to the member) and does nothing if there is none. -/
theorem C84_named_pull (E : Env) (n : Nat) (t : Ty) (name : Str) (hn : PlainStr name) (ms : ObjMembers) (p : Val) :
    (firstNamed name ms = none → ∀ s, pullNamed E n t name ms p s = .ok p s) ∧
    ∀ j, firstNamed name ms = some j → pullNamed E n t name ms p none = pull E n t j p none ∧
      ∀ st, pullNamed E n t name ms p (some st) = match pull E n t j p (some { st with member := some name }) with
        | .ok v s => .ok v (s.map fun st' => { st' with member := st.member })
        | r => r := by
  unfold pullNamed
  rw [plain_rjStrRef hn, findMember_eq]
  constructor
  · intro h s; rw [h]; rfl
  · intro j h
    rw [h]
    refine ⟨?_, fun st => ?_⟩
    rotate_left
    · show withMember name (pull E n t j p) (some st) = _
      rw [withMember_some]
      cases pull E n t j p (some { st with member := some name }) <;> rfl
    show withMember name (pull E n t j p) none = _
    rw [withMember_none]
    have h1 := (pull_errInv E n t j p).1
    cases h2 : pull E n t j p none with
    | ok v s => rw [h2] at h1; cases h1; rfl
    | _ => rfl

/-- the members a sequence of calls adds -/
theorem buildsObject_eq {E : Env} {H : Heap} {n : Nat} {ms ms' : ObjMembers} {ps : List (Str × Ty × Val)}
    (h : BuildsObject E H n ms ps ms') :
    ∃ js : List Json, js.length = ps.length ∧ ms' = ms ++ List.zipWith (fun p j => ((⟨rjStrRef p.1, .borrowed⟩ : Key), j)) ps js ∧
      ∀ (i : Nat) p j, ps[i]? = some p → js[i]? = some j → push E H n p.2.1 p.2.2 () = .ok j () := by
  induction h with
  | nil => exact ⟨[], rfl, by simp, fun i p j h => by simp at h⟩
  | @cons ms name t v ms1 rest ms' h1 h2 ih =>
    obtain ⟨js, e1, e2, e3⟩ := ih
    rw [pushAsMember_eq] at h1
    obtain ⟨j, _, h3, h4⟩ := M.bind_eq_ok.1 h1
    cases h4
    refine ⟨j :: js, by simp [e1], by simp [e2], ?_⟩
    intro i p j' hp hj
    cases i with
    | zero => simp only [List.getElem?_cons_zero, Option.some.injEq] at hp hj; subst hp; subst hj; exact h3
    | succ i => exact e3 i p j' (by simpa using hp) (by simpa using hj)

theorem firstNamed_append_some {name : Str} {ms ms' : ObjMembers} {j : Json} (h : firstNamed name ms = some j) :
    firstNamed name (ms ++ ms') = some j := by
  rw [← findMember_eq] at h ⊢
  induction ms with
  | nil => cases h
  | cons m ms ih =>
    obtain ⟨k, j'⟩ := m
    simp only [List.cons_append, findMember] at h ⊢
    split
    · rw [if_pos (by assumption)] at h; exact h
    · rw [if_neg (by assumption)] at h; exact ih h

theorem firstNamed_append_none {name : Str} {ms ms' : ObjMembers} (h : firstNamed name ms = none) :
    firstNamed name (ms ++ ms') = firstNamed name ms' := by
  rw [← findMember_eq] at h ⊢
  rw [← findMember_eq]
  induction ms with
  | nil => rfl
  | cons m ms ih =>
    obtain ⟨k, j'⟩ := m
    simp only [List.cons_append, findMember] at h ⊢
    split
    · rw [if_pos (by assumption)] at h; cases h
    · rw [if_neg (by assumption)] at h; exact ih h

/-- C84: adding values never replaces: a member which can be found by its name is still found after any further additions. -/
theorem C84_first_wins (E : Env) (H : Heap) (n : Nat) {ms ms' : ObjMembers} {ps : List (Str × Ty × Val)}
    (h : BuildsObject E H n ms ps ms') {name : Str} {j : Json} (hj : firstNamed name ms = some j) :
    firstNamed name ms' = some j := by
  obtain ⟨js, -, rfl, -⟩ := buildsObject_eq h
  exact firstNamed_append_some hj

/-- C84: values added to an object under different names can be read back by these names, in any order: each yields the value added
under that name, without errors, whatever the object contains besides. -/
theorem C84_object_round_trip (E : Env) (H : Heap) (hE : StrTotal E) (ms : ObjMembers) (ps : List (Str × Ty × Val × Val))
    (hr : ∀ p ∈ ps, JRepr E H p.2.1 p.2.2.1 p.2.2.2) (hn : ∀ p ∈ ps, PlainStr p.1) (hd : (ps.map (·.1)).Nodup)
    (hnew : ∀ p ∈ ps, firstNamed p.1 ms = none) :
    ∃ (N : Nat) (ms' : ObjMembers), ∀ n, N ≤ n →
      BuildsObject E H n ms (ps.map fun p => (p.1, p.2.1, p.2.2.2)) (ms ++ ms') ∧
      ∀ p ∈ ps, pullNamed E n p.2.1 p.1 (ms ++ ms') p.2.2.1 none = .ok p.2.2.2 none ∧
        ∀ st : ErrSt, ∃ i, (i = st.index ∨ i = noIndex) ∧
          pullNamed E n p.2.1 p.1 (ms ++ ms') p.2.2.1 (some st) = .ok p.2.2.2 (some { st with index := i }) := by
  -- the members which are added
  have key : ∀ ps : List (Str × Ty × Val × Val), (∀ p ∈ ps, JRepr E H p.2.1 p.2.2.1 p.2.2.2) → (∀ p ∈ ps, PlainStr p.1) →
      (ps.map (·.1)).Nodup →
      ∃ (N : Nat) (ms' : ObjMembers), (∀ n, N ≤ n → ∀ ms, BuildsObject E H n ms (ps.map fun p => (p.1, p.2.1, p.2.2.2)) (ms ++ ms')) ∧
        (∀ name, name ∉ ps.map (·.1) → firstNamed name ms' = none) ∧
        ∀ p ∈ ps, ∃ j, firstNamed p.1 ms' = some j ∧ ∀ n, N ≤ n → pull E n p.2.1 j p.2.2.1 none = .ok p.2.2.2 none ∧
          ∀ s : ErrSt, ∃ i, (i = s.index ∨ i = noIndex) ∧
            pull E n p.2.1 j p.2.2.1 (some s) = .ok p.2.2.2 (some { s with index := i }) := by
    intro ps
    induction ps with
    | nil => exact fun _ _ _ => ⟨0, [], fun n _ ms => by simpa using .nil, fun _ _ => rfl, fun p h => by cases h⟩
    | cons q ps ih =>
      intro hr hn hd
      obtain ⟨N, ms', h1, h2, h3⟩ := ih (fun p hp => hr p (List.mem_cons_of_mem _ hp)) (fun p hp => hn p (List.mem_cons_of_mem _ hp))
        (List.nodup_cons.1 hd).2
      obtain ⟨N', j, h4⟩ := C01_json_document_round_trip E H hE q.2.1 q.2.2.1 q.2.2.2 (hr q (List.mem_cons_self ..))
      have hq := plain_rjStrRef (hn q (List.mem_cons_self ..))
      have hfirst : ∀ name, firstNamed name ((⟨q.1, .borrowed⟩, j) :: ms') = if q.1 = name then some j else firstNamed name ms' := by
        intro name
        rw [← findMember_eq, ← findMember_eq]
        rfl
      refine ⟨max N N', (⟨q.1, .borrowed⟩, j) :: ms', ?_, ?_, ?_⟩
      · intro n hle ms
        refine .cons (ms1 := ms ++ [(⟨q.1, .borrowed⟩, j)]) ?_ ?_
        · rw [pushAsMember_eq, hq]
          exact M.bind_eq_ok.2 ⟨j, _, (h4 n (by omega)).1, rfl⟩
        · have := h1 n (by omega) (ms ++ [(⟨q.1, .borrowed⟩, j)])
          rwa [List.append_assoc] at this
      · intro name hname
        simp only [List.map_cons, List.mem_cons, not_or] at hname
        rw [hfirst, if_neg (fun h => hname.1 h.symm)]
        exact h2 name hname.2
      · intro p hp
        rcases List.mem_cons.1 hp with rfl | hp
        · exact ⟨j, by rw [hfirst, if_pos rfl], fun n hle => ⟨(h4 n (by omega)).2.1, (h4 n (by omega)).2.2⟩⟩
        · obtain ⟨j', h5, h6⟩ := h3 p hp
          refine ⟨j', ?_, fun n hle => h6 n (by omega)⟩
          rw [hfirst, if_neg ?_]
          · exact h5
          · intro e
            exact (List.nodup_cons.1 hd).1 (by show q.1 ∈ _; rw [e]; exact List.mem_map_of_mem hp)
  obtain ⟨N, ms', h1, -, h3⟩ := key ps hr hn hd
  refine ⟨N, ms', fun n hle => ⟨h1 n hle ms, fun p hp => ?_⟩⟩
  obtain ⟨j, h4, h5⟩ := h3 p hp
  obtain ⟨h5, h6⟩ := h5 n hle
  obtain ⟨-, h7⟩ := C84_named_pull E n p.2.1 p.1 (hn p hp) (ms ++ ms') p.2.2.1
  obtain ⟨h8, h9⟩ := h7 j ((firstNamed_append_none (hnew p hp)).trans h4)
  refine ⟨by rw [h8, h5], fun st => ?_⟩
  obtain ⟨i, h10, h11⟩ := h6 { st with member := some p.1 }
  exact ⟨i, h10, by rw [h9, h11]; rfl⟩

/-- C84: values of any types added to an array can be read back in the same order via an iterator pointing behind the items which were
there before; the iterator is at the end then. -/
theorem C84_array_round_trip (E : Env) (H : Heap) (hE : StrTotal E) (js : List Json) (ps : List (Ty × Val × Val))
    (hr : ∀ p ∈ ps, JRepr E H p.1 p.2.1 p.2.2) :
    ∃ (N : Nat) (added : List Json), ∀ n, N ≤ n →
      BuildsArray E H n js (ps.map fun p => (p.1, p.2.2)) (js ++ added) ∧
      ∀ (s : Option ErrSt) (rest : List Json), ReadsItems E n s (added ++ rest) ps rest := by
  induction ps generalizing js with
  | nil => exact ⟨0, [], fun n _ => ⟨by simpa using .nil, fun s rest => .nil⟩⟩
  | cons q ps ih =>
    obtain ⟨N', j, h4⟩ := C01_json_document_round_trip E H hE q.1 q.2.1 q.2.2 (hr q (List.mem_cons_self ..))
    obtain ⟨N, added, h1⟩ := ih (js ++ [j]) (fun p hp => hr p (List.mem_cons_of_mem _ hp))
    refine ⟨max N N', j :: added, fun n hle => ⟨?_, fun s rest => ?_⟩⟩
    · refine .cons (js1 := js ++ [j]) ?_ ?_
      · rw [pushToArray_eq]
        exact M.bind_eq_ok.2 ⟨j, _, (h4 n (by omega)).1, rfl⟩
      · have := (h1 n (by omega)).1
        rwa [List.append_assoc] at this
    · obtain ⟨-, h5, h6⟩ := h4 n (by omega)
      cases s with
      | none =>
        exact .cons (s' := none) (M.bind_eq_ok.2 ⟨_, _, h5, rfl⟩) ((h1 n (by omega)).2 none rest) (fun _ => rfl)
          (fun st h => by cases h)
      | some st =>
        obtain ⟨i, -, h7⟩ := h6 st
        exact .cons (s' := some { st with index := i }) (M.bind_eq_ok.2 ⟨_, _, h7, rfl⟩) ((h1 n (by omega)).2 (some st) rest)
          (fun h => by cases h) (fun st0 h => by cases h; exact ⟨_, rfl, rfl⟩)

/-- C84: reading at the end of the array is undefined (the iterator is dereferenced without a check). -/
theorem C84_limit_end (E : Env) (n : Nat) (t : Ty) (p : Val) (s : Option ErrSt) : pullNext E n t [] p s = .ub := rfl

/-! ## Examples -/

namespace LevelDemo

open Demo (env)

def H0 : Heap := fun _ => none
def node5 : Val := .obj [(Demo.fV.key, .int 5), (Demo.fN.key, .null)]
def old : ObjMembers := [(⟨lit "a", .copied⟩, .null)]

/-- an object with the member `a`, to which a number, an object and another `a` are added -/
example : BuildsObject env H0 4 old [(lit "n", .int .i32, .int 7), (lit "o", .cls 2, node5), (lit "a", .bool, .bool true)]
    (old ++ [(⟨lit "n", .borrowed⟩, .num (.int 7)),
      (⟨lit "o", .borrowed⟩, .obj [(⟨lit "v", .literal⟩, .num (.int 5)), (⟨lit "next", .literal⟩, .null)]),
      (⟨lit "a", .borrowed⟩, .bool true)]) :=
  .cons rfl (.cons rfl (.cons rfl .nil))

theorem plain_n : PlainStr (lit "n") ∧ PlainStr (lit "x") := ⟨⟨by decide, by decide⟩, ⟨by decide, by decide⟩⟩

theorem repr7 : JRepr env H0 (.int .i32) (.int 0) (.int 7) := .int _ _ _ (by decide) (by decide) (by decide) (by decide) (by decide)
theorem reprT : JRepr env H0 .bool (.bool false) (.bool true) := .bool _ _

example := C84_object_round_trip env H0 demo_strTotal old
  [(lit "n", .int .i32, .int 0, .int 7), (lit "x", .bool, .bool false, .bool true)]
  (by intro p hp; rcases List.mem_cons.1 hp with rfl | hp
      · exact repr7
      · rw [List.mem_singleton.1 hp]; exact reprT)
  (by intro p hp; rcases List.mem_cons.1 hp with rfl | hp
      · exact plain_n.1
      · rw [List.mem_singleton.1 hp]; exact plain_n.2)
  (by decide)
  (by intro p hp; rcases List.mem_cons.1 hp with rfl | hp
      · rfl
      · rw [List.mem_singleton.1 hp]; rfl)

example := C84_array_round_trip env H0 demo_strTotal [.null] [(.int .i32, .int 0, .int 7), (.bool, .bool false, .bool true)]
  (by intro p hp; rcases List.mem_cons.1 hp with rfl | hp
      · exact repr7
      · rw [List.mem_singleton.1 hp]; exact reprT)

/-- the base class's members, then others: two classes in one object -/
example : pushToObject env H0 3 2 node5 old () = .ok (old ++ [(⟨lit "v", .literal⟩, .num (.int 5)), (⟨lit "next", .literal⟩, .null)]) () := rfl

/-- a new value for `a` is not found -/
example (ms' : ObjMembers) (h : BuildsObject env H0 4 old [(lit "a", .bool, .bool true)] ms') : firstNamed (lit "a") ms' = some .null :=
  C84_first_wins env H0 4 h rfl

example : firstNamed (lit "n") old = none := rfl
example := (C84_named_pull env 3 (.int .i32) (lit "n") plain_n.1 old (.int 3)).1 rfl

end LevelDemo

end Verif
