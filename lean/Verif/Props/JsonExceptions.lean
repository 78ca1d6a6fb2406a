import Verif.Lemmas.JsonRetry
import Verif.Props.JsonReload

/-!
# C74: the object being read when an exception is thrown
-/

namespace Verif

/-- The description of exceptions agrees with the model of `pull`: the same values are returned and the same exceptions are thrown (at the
same state of the errors object); what is added is just the state of the object. -/
theorem C74_same_outcome (E : Env) (n : Nat) (t : Ty) (j : Json) (p : Val) (s : Option ErrSt) :
    (∀ v s', pullX E n t j p s = .ok v s' ↔ pull E n t j p s = .ok v s') ∧
    (∀ e s', (∃ q, pullX E n t j p s = .exc (e, q) s') ↔ pull E n t j p s = .exc e s') ∧
    (pullX E n t j p s = .ub ↔ pull E n t j p s = .ub) := by
  rw [← forget_pullX]
  simp only [forget]
  cases h : pullX E n t j p s with
  | ok v s1 => simp
  | exc eq s1 =>
    obtain ⟨e, q⟩ := eq
    refine ⟨by simp, fun e' s' => ⟨?_, ?_⟩, by simp⟩
    · rintro ⟨q', h⟩; cases h; rfl
    · intro h; cases h; exact ⟨q, rfl⟩
  | ub => simp
  | stuck => simp
  | fuel => simp

/-- Whenever reading throws, the object is as described by `Left`. -/
theorem C74_left (E : Env) {n : Nat} {t : Ty} {j : Json} {p q : Val} {s e s'} (h : pullX E n t j p s = .exc (e, q) s') : Left E t j p q :=
  left_pullX E n t j p s e q s' h

/-- Whenever reading throws, the object is still a valid object of its type: strings are strings, pointers are null or point to valid
objects and so on. So it can be used, read into again, assigned and destroyed. -/
theorem C74_object_stays_valid (E : Env) (hkt : JsonKeyTypes E) {n : Nat} {t : Ty} {j : Json} {p q : Val} {s e s'} (hr : JsonReadable E t)
    (hp : JsonTyped E t p) (h : pullX E n t j p s = .exc (e, q) s') : JsonTyped E t q :=
  (left_typed hkt (C74_left E h) hr hp).1

/-- If the JSON value as a whole does not fit (e.g. a number or `null` where an array or an object is needed, an array of the wrong
length for a tuple; anything which cannot be stored in a number, string, enum or timestamp), the object has not been touched. -/
theorem C74_unchanged (E : Env) {n : Nat} {t : Ty} {j : Json} {p q : Val} {s e s'} (ho : ¬ Opens t j)
    (h : pullX E n t j p s = .exc (e, q) s') : q = p := left_not_opens ho (C74_left E h)

section
variable {E : Env}

theorem vec_elems {n : Nat} {t : Ty} {js : List Json} {i : Nat} {b vs : List Val} {s s'}
    (h : forIdx (vecItem E (pull E n) t) js i b s = .ok vs s') :
    ∃ ws : List Val, vs = b ++ ws ∧ List.Forall₂ (fun j v => Gives E t j (E.valInit t) v) js ws := by
  induction js generalizing i b s with
  | nil =>
    simp only [forIdx] at h
    obtain ⟨u, s1, h1, h2⟩ := M.bind_eq_ok.1 h
    cases h2
    exact ⟨[], by simp, .nil⟩
  | cons j js ih =>
    simp only [forIdx] at h
    obtain ⟨u, s1, h1, h2⟩ := M.bind_eq_ok.1 h
    obtain ⟨b', s2, h3, h4⟩ := M.bind_eq_ok.1 h2
    simp only [vecItem] at h3
    obtain ⟨v, s3, h5, h6⟩ := M.bind_eq_ok.1 h3
    cases h6
    obtain ⟨ws, rfl, hf⟩ := ih h4
    exact ⟨v :: ws, by simp, .cons ⟨n, _, _, h5⟩ hf⟩

theorem gives_vec {t : Ty} {js : List Json} {p : Val} {vs : List Val} (h : Gives E (.vec t) (.arr js) p (.list vs)) :
    List.Forall₂ (fun j v => Gives E t j (E.valInit t) v) js vs := by
  obtain ⟨n, s, s', h⟩ := h
  cases n with
  | zero => cases h
  | succ n =>
    simp only [pull, pullStep] at h
    obtain ⟨ws, s1, h1, h2⟩ := M.bind_eq_ok.1 h
    cases h2
    obtain ⟨ws', rfl, hf⟩ := vec_elems h1
    simpa using hf

end

/-- Arrays: the previous elements are gone. There is one element per element of the JSON array up to and including the one which
could not be read. All but the last one have been read completely (into new elements); the last one is partially read. -/
theorem C74_array (E : Env) {n : Nat} {t : Ty} {js : List Json} {p q : Val} {s e s'}
    (h : pullX E n (.vec t) (.arr js) p s = .exc (e, q) s') :
    ∃ done j rest vs x, js = done ++ j :: rest ∧ q = .list (vs ++ [x]) ∧
      List.Forall₂ (fun j v => Gives E t j (E.valInit t) v) done vs ∧ Left E t j (E.valInit t) x := by
  cases C74_left E h with
  | same p ho => exact (ho trivial).elim
  | vec h1 h2 => exact ⟨_, _, _, _, _, rfl, rfl, gives_vec h1, h2⟩

/-- Sets and multisets never contain partially read elements: the object is the set of the elements before the one which could not be
read or (only if the set does not allow duplicates) is equivalent to one of these. -/
theorem C74_set (E : Env) {n : Nat} {hashed multi : Bool} {t : Ty} {js : List Json} {p q : Val} {s e s'}
    (h : pullX E n (.set hashed multi t) (.arr js) p s = .exc (e, q) s') :
    ∃ done j rest vs, js = done ++ j :: rest ∧ q = .list vs ∧ Gives E (.set hashed multi t) (.arr done) p q ∧
      ((∃ x, Left E t j (E.defInit t) x) ∨
        multi = false ∧ ∃ x, Gives E t j (E.defInit t) x ∧ ∃ y ∈ vs, E.lt t x y = false ∧ E.lt t y x = false) := by
  cases C74_left E h with
  | same p ho => exact (ho trivial).elim
  | set h1 h2 => exact ⟨_, _, _, _, rfl, rfl, h1, .inl ⟨_, h2⟩⟩
  | duplicate h1 h2 h3 => exact ⟨_, _, _, _, rfl, rfl, h1, .inr ⟨rfl, _, h2, h3⟩⟩

/-- Pointers and optionals: the object referred to before is gone; the pointer refers to a new, partially read one. It is never null
(as reading `null` does not throw). -/
theorem C74_pointer (E : Env) {n : Nat} {t : Ty} {j : Json} {p q : Val} {s e s'} :
    (pullX E n (.uptr t) j p s = .exc (e, q) s' ∨ pullX E n (.sptr t) j p s = .exc (e, q) s' →
      j ≠ .null ∧ ∃ x, q = .ptr x ∧ Left E t j (E.valInit t) x) ∧
    (pullX E n (.opt t) j p s = .exc (e, q) s' → j ≠ .null ∧ ∃ x, q = .some x ∧ Left E t j (E.valInit t) x) := by
  refine ⟨fun h => ?_, fun h => ?_⟩
  · rcases h with h | h
    · cases C74_left E h with
      | same p ho => exact (ho trivial).elim
      | uptr p h1 h2 => exact ⟨h1, _, rfl, h2⟩
    · cases C74_left E h with
      | same p ho => exact (ho trivial).elim
      | sptr p h1 h2 => exact ⟨h1, _, rfl, h2⟩
  · cases C74_left E h with
    | same p ho => exact (ho trivial).elim
    | opt p h1 h2 => exact ⟨h1, _, rfl, h2⟩

section
variable {E : Env}

theorem MembersRead.member {ms : List (Key × Json)} {fs : List Field} {st st' : Store} (h : MembersRead E ms fs st st')
    (hnd : (fs.map Field.key).Nodup) : ∀ f ∈ fs, (findMember f.name ms = none → st'.get? f.key = st.get? f.key) ∧
      ∀ j, findMember f.name ms = some j → ∃ x y, st.get? f.key = some x ∧ Gives E f.ty j x y ∧ st'.get? f.key = some y := by
  induction h with
  | nil => simp
  | @absent g fs st st' h1 h2 ih =>
    simp only [List.map_cons, List.nodup_cons] at hnd
    intro f hf
    rcases List.mem_cons.1 hf with rfl | hf
    · exact ⟨fun _ => MembersRead.other h2 fun g hg he => hnd.1 (he ▸ List.mem_map_of_mem hg), fun j hj => by rw [h1] at hj; cases hj⟩
    · exact ih hnd.2 f hf
  | @present g fs st st' j x x' h1 h2 h3 h4 ih =>
    simp only [List.map_cons, List.nodup_cons] at hnd
    intro f hf
    rcases List.mem_cons.1 hf with rfl | hf
    · refine ⟨fun h => (by rw [h1] at h; cases h), fun j' hj' => ?_⟩
      rw [h1] at hj'
      cases hj'
      have hne : ∀ g ∈ fs, g.key ≠ f.key := fun g hg he => hnd.1 (he ▸ List.mem_map_of_mem hg)
      exact ⟨x, x', h2, h3, (MembersRead.other h4 hne).trans (get?_set_eq _ h2)⟩
    · have hne : f.key ≠ g.key := fun h => hnd.1 (h ▸ List.mem_map_of_mem hf)
      have := ih hnd.2 f hf
      rw [get?_set_ne _ _ hne] at this
      exact this

end

/-- Objects of classes: reading follows the order of the members (including inherited ones). Members before the one which could not be
read have been read if present in the document; this one is partially read; the members after it, members not present in the document and
members which are not read at all are as they were before. -/
theorem C74_members (E : Env) {n : Nat} {c : ClassId} {Q : List Field} (hQ : FlatPull E [c] Q) (hnd : (Q.map Field.key).Nodup)
    {ms : List (Key × Json)} {st : Store} {q : Val} {s e s'} (h : pullX E n (.cls c) (.obj ms) (.obj st) s = .exc (e, q) s') :
    ∃ before f after, ∃ st' : Store, Q = before ++ f :: after ∧ q = .obj st' ∧
      (∀ g ∈ before, ∀ j, findMember g.name ms = some j →
        ∃ x y, st.get? g.key = some x ∧ Gives E g.ty j x y ∧ st'.get? g.key = some y) ∧
      (∃ j x y, findMember f.name ms = some j ∧ st.get? f.key = some x ∧ Left E f.ty j x y ∧ st'.get? f.key = some y) ∧
      (∀ g ∈ before, findMember g.name ms = none → st'.get? g.key = st.get? g.key) ∧
      (∀ k, k ∉ (before ++ [f]).map Field.key → st'.get? k = st.get? k) := by
  obtain ⟨Q1, f, Q2, st1, j, x, y, rfl, h1, h2, h3, h4, rfl⟩ := left_flat (C74_left E h) hQ rfl rfl
  have hnd' : (Q1.map Field.key).Nodup ∧ f.key ∉ Q1.map Field.key := by
    simp only [List.map_append, List.map_cons, List.nodup_append, List.nodup_cons] at hnd
    exact ⟨hnd.1, fun h => hnd.2.2 _ h _ List.mem_cons_self rfl⟩
  have hne : ∀ g ∈ Q1, g.key ≠ f.key := fun g hg h => hnd'.2 (h ▸ List.mem_map_of_mem hg)
  refine ⟨Q1, f, Q2, _, rfl, rfl, fun g hg j' hj' => ?_, ⟨j, x, y, h2, ?_, h4, get?_set_eq _ h3⟩, fun g hg hn => ?_, fun k hk => ?_⟩
  · rw [get?_set_ne _ _ (hne g hg)]
    exact (h1.member hnd'.1 g hg).2 j' hj'
  · rw [← h3]; exact (h1.other hne).symm
  · rw [get?_set_ne _ _ (hne g hg)]
    exact (h1.member hnd'.1 g hg).1 hn
  · simp only [List.map_append, List.map_cons, List.map_nil, List.mem_append, List.mem_singleton, not_or] at hk
    rw [get?_set_ne _ _ hk.2]
    exact h1.other fun g hg he => hk.1 (he ▸ List.mem_map_of_mem hg)

/-- Maps: entries of keys which do not occur in the document are kept. -/
theorem C74_map_other_entries (E : Env) (hE : StrTotal E) {n : Nat} {hashed : Bool} {t : Ty} {ms : List (Key × Json)} {kvs : List (Val × Val)}
    {q : Val} {s e s'} (hs : ∀ x ∈ kvs, ∃ k, x.1 = .str k) (h : pullX E n (.map hashed false .str t) (.obj ms) (.map kvs) s = .exc (e, q) s') :
    ∃ kvs', q = .map kvs' ∧ ∀ k, (∀ m ∈ ms, cstrOf m.1.bytes ≠ k) → mapFind (E.lt .str) (.str k) kvs' = mapFind (E.lt .str) (.str k) kvs := by
  cases C74_left E h with
  | same p ho => exact (ho trivial).elim
  | @map _ _ done k0 j rest _ kvs1 q0 h1 h2 =>
    refine ⟨_, rfl, fun k hk => ?_⟩
    obtain ⟨kvs1', h3, h4⟩ := gives_map.1 h1
    cases h3
    have hs1 : StrKeys kvs1 := by
      clear h1 h2 hk h
      induction h4 with
      | nil => exact hs
      | cons _ _ ih => exact ih (strKeys_mapSet hs)
    rw [mapFind_mapSet_ne hE (hk (k0, j) (by simp)).symm _ _ hs1]
    exact MapRead.other hE h4 hs fun m hm => hk m (List.mem_append_left _ hm)

/-- Retry: if reading a document throws and the same document is then read into the very same object with nothing being fatal, the result
is the same as if this had been done right away. `Rereadable`: no multimaps are involved (which
accumulate values anyway) and objects read into maps do not contain the same name twice. -/
theorem C74_retry (E : Env) (hE : StrTotal E) (hkt : JsonKeyTypes E) {t : Ty} {j : Json} (hR : Rereadable E t j)
    (hr : JsonReadable E t) {p q : Val} (hp : JsonTyped E t p) {n : Nat} {s e s'} (h : pullX E n t j p s = .exc (e, q) s')
    {m : Nat} {r r' : Option ErrSt} {v : Val} (hv : pull E m t j p r = .ok v r') :
    ∃ N, ∀ n, N ≤ n → ∀ st : ErrSt, NoneFatal st.throwOn → ∃ st' : ErrSt, pull E n t j q (some st) = .ok v (some st') := by
  obtain ⟨N, hN⟩ := (reread_left hE hkt hR hr p q v hp (C74_left E h) ⟨m, r, r', hv⟩).evQ
  exact ⟨N, fun n hn st hst => let ⟨st', _, h⟩ := hN n hn st hst; ⟨st', h⟩⟩

/-- Reading the same document a second time into the object does not change anything (under the conditions of `C74_retry`). -/
theorem C74_read_twice (E : Env) (hE : StrTotal E) (hkt : JsonKeyTypes E) {t : Ty} {j : Json} (hR : Rereadable E t j)
    (hr : JsonReadable E t) {p v : Val} (hp : JsonTyped E t p) {m : Nat} {r r' : Option ErrSt} (hv : pull E m t j p r = .ok v r') :
    ∃ N, ∀ n, N ≤ n → ∀ st : ErrSt, NoneFatal st.throwOn → ∃ st' : ErrSt, pull E n t j v (some st) = .ok v (some st') := by
  obtain ⟨N, hN⟩ := (reread_idem hE hkt hR hr p v hp ⟨m, r, r', hv⟩).evQ
  exact ⟨N, fun n hn st hst => let ⟨st', _, h⟩ := hN n hn st hst; ⟨st', h⟩⟩

/-! ## Example -/

namespace ExceptionsDemo
open Demo RoundTripDemo SafetyDemo

def key (s : String) : Key := ⟨lit s, .copied⟩

/-- `{"i": 5, "m": {"a": 1, "b": "x", "c": 2}, "s": ["p"]}` -/
def doc : Json := .obj [(key "i", .num (.int 5)),
  (key "m", .obj [(key "a", .num (.int 1)), (key "b", .str (lit "x")), (key "c", .num (.int 2))]), (key "s", .arr [.str (lit "p")])]

/-- `{"i": 5, "m": {"a": 1, "b": 0}, "s": []}`: what is left if type mismatches are fatal -/
def left : Store := [(fI.key, .int 5), (fM.key, .map [(.str (lit "a"), .int 1), (.str (lit "b"), .int 0)]), (fS.key, .list []), (fK.key, .int 7)]

/-- what is read if nothing is fatal -/
def read : Store := [(fI.key, .int 5), (fM.key, .map [(.str (lit "a"), .int 1), (.str (lit "b"), .int 0), (.str (lit "c"), .int 2)]),
  (fS.key, .list [.str (lit "p")]), (fK.key, .int 7)]

theorem throws : ∃ e s', pullX env 5 (.cls 1) doc (.obj derivedInit) (some { ErrSt.init with throwOn := 1 }) = .exc (e, .obj left) s' :=
  ⟨_, _, rfl⟩

theorem gives : ∃ s', pull env 5 (.cls 1) doc (.obj derivedInit) (some .init) = .ok (.obj read) s' := ⟨_, rfl⟩

theorem rereadable : Rereadable env (.cls 1) doc := by
  refine .cls flatPull (by decide) fun f hf j hj => ?_
  simp only [List.mem_cons, List.not_mem_nil, or_false] at hf
  rcases hf with rfl | rfl | rfl
  · exact .replaced trivial
  · cases hj
    exact .map (by decide) fun _ _ _ => .replaced trivial
  · exact .replaced trivial

theorem typed : JsonTyped env (.cls 1) (.obj derivedInit) := typed_derived _ (.int 0) (.int _ _ (by decide) (by decide)) rfl rfl rfl

-- the object left behind is valid
example : JsonTyped env (.cls 1) (.obj left) := by
  obtain ⟨e, s', h⟩ := throws
  exact C74_object_stays_valid env keyTypes (readable (by simp [demoTy])) typed h

-- and reading the document again completes it
example : ∃ N, ∀ n, N ≤ n → ∀ st : ErrSt, NoneFatal st.throwOn → ∃ st' : ErrSt, pull env n (.cls 1) doc (.obj left) (some st) = .ok (.obj read) (some st') := by
  obtain ⟨e, s', h⟩ := throws
  obtain ⟨r, h'⟩ := gives
  exact C74_retry env demo_strTotal keyTypes rereadable (readable (by simp [demoTy])) typed h h'

example : ∃ N, ∀ n, N ≤ n → ∀ st : ErrSt, NoneFatal st.throwOn → ∃ st' : ErrSt, pull env n (.cls 1) doc (.obj read) (some st) = .ok (.obj read) (some st') := by
  obtain ⟨r, h'⟩ := gives
  exact C74_read_twice env demo_strTotal keyTypes rereadable (readable (by simp [demoTy])) typed h'

-- the members of this object
example := C74_members env flatPull (by decide) (Classical.choose_spec (Classical.choose_spec throws))

-- an array whose third element does not fit
example := C74_array env (n := 2) (t := .str) (js := [.str (lit "p"), .str (lit "q"), .null]) (p := .list [.str (lit "previous")])
  (s := some { ErrSt.init with throwOn := 1 }) (q := .list [.str (lit "p"), .str (lit "q"), .str []]) rfl

-- a set with a duplicate
example := C74_set env (n := 2) (hashed := false) (multi := false) (t := .int .i32) (js := [.num (.int 2), .num (.int 1), .num (.int 2), .num (.int 3)])
  (p := .list []) (s := some { ErrSt.init with throwOn := 8 }) (q := .list [.int 1, .int 2]) rfl

-- an array of the wrong length for a tuple
example := C74_unchanged env (n := 1) (t := .tuple [.str, .bool]) (j := .arr [.null]) (p := .tup [.str (lit "p"), .bool true])
  (s := some { ErrSt.init with throwOn := 2 }) (q := .tup [.str (lit "p"), .bool true]) (by simp [Opens]) rfl

-- a pointer
example := (C74_pointer env (n := 4) (t := .cls 2) (j := .obj [(key "v", .num (.int 5)), (key "next", .str [])])
  (p := .null) (s := some { ErrSt.init with throwOn := 1 }) (q := .ptr (.obj [(fV.key, .int 5), (fN.key, .ptr (.obj nodeInit))]))).1 (.inr rfl)

-- a map with other entries
example := C74_map_other_entries env demo_strTotal (n := 2) (hashed := false) (t := .int .i32) (ms := [(key "b", .str [])])
  (kvs := [(.str (lit "a"), .int 3)]) (q := .map [(.str (lit "a"), .int 3), (.str (lit "b"), .int 0)])
  (s := some { ErrSt.init with throwOn := 1 }) (by simp) rfl

end ExceptionsDemo

/-- Multimaps are excluded from `C74_retry` for a reason: entries read before the exception are there twice after reading the document
again (as values are added to multimaps). -/
theorem C74_retry_duplicates_multimap :
    ∃ (j : Json) (q : Val) (e : Err) (s' : Option ErrSt),
      pullX Demo.env 2 (.map false true .str (.int .i32)) j (.map []) (some { ErrSt.init with throwOn := 1 }) = .exc (e, q) s' ∧
      (∃ r, pull Demo.env 2 (.map false true .str (.int .i32)) j (.map []) (some .init) =
        .ok (.map [(.str (lit "a"), .int 1), (.str (lit "b"), .int 0)]) r) ∧
      ∃ r, pull Demo.env 2 (.map false true .str (.int .i32)) j q (some .init) =
        .ok (.map [(.str (lit "a"), .int 1), (.str (lit "a"), .int 1), (.str (lit "b"), .int 0), (.str (lit "b"), .int 0)]) r :=
  ⟨.obj [(ExceptionsDemo.key "a", .num (.int 1)), (ExceptionsDemo.key "b", .str (lit "x"))], _, _, _, rfl, ⟨_, rfl⟩, ⟨_, rfl⟩⟩

end Verif
