import Verif.Lemmas.IterationOrder
import Verif.Props.JsonRoundTrip
import Verif.Props.BinaryRoundTrip
import Verif.Model.Api

/-!
# The iteration order of hashed containers (C86)

Hashed sets and maps may be iterated in another order in another process, with another implementation of the standard library, or after the
container has been built in another way.
-/

namespace Verif

/-- C86 (reading JSON): what reading any document does - including errors reported and exceptions - does not depend on the order in which
hashed containers are iterated. -/
theorem C86_reading_json_independent (E E' : Env) (h : SameExceptOrder E E') (n : Nat) (t : Ty) (j : Json) (v : Val) (s : Option ErrSt) :
    pull E' n t j v s = pull E n t j v s := by
  rw [h.eq, reorder_pull]

/-- C86 (reading binary data): what reading any bytes does does not depend on the order either. -/
theorem C86_reading_binary_independent (E E' : Env) (h : SameExceptOrder E E') (n version : Nat) (t : Ty) (p : Val) (s : RSt) :
    read E' n version t p s = read E n version t p s := by
  rw [h.eq, reorder_read]

/-- C86 (JSON, from one process to another): the document of a representable value, written by a process using one order (`E'`), is read
by a process using another one (`E`) without errors and yields the value. -/
theorem C86_json_between_processes (E E' : Env) (H : Heap) (h : SameExceptOrder E E') (hE : StrTotal E) (t : Ty) (p v : Val)
    (hr : JRepr E' H t p v) :
    ∃ (N : Nat) (j : Json), ∀ n, N ≤ n →
      push E' H n t v () = .ok j () ∧
      pull E n t j p none = .ok v none ∧
      ∀ s : ErrSt, ∃ i, (i = s.index ∨ i = noIndex) ∧ pull E n t j p (some s) = .ok v (some { s with index := i }) := by
  have hE' : StrTotal E' := by
    have hlt := h.lt
    exact ⟨fun a => by rw [hlt]; exact hE.irrefl a, fun a b c => by rw [hlt]; exact hE.trans a b c, fun a b => by rw [hlt]; exact hE.total a b⟩
  obtain ⟨N, j, hN⟩ := C01_json_document_round_trip E' H hE' t p v hr
  refine ⟨N, j, fun n hn => ?_⟩
  obtain ⟨h1, h2, h3⟩ := hN n hn
  refine ⟨h1, ?_, fun s => ?_⟩
  · rw [← C86_reading_json_independent E E' h]; exact h2
  · obtain ⟨i, hi, h4⟩ := h3 s
    refine ⟨i, hi, ?_⟩
    rw [← C86_reading_json_independent E E' h]; exact h4

/-- C86 (binary, from one process to another): bytes written using one order (`E'`) and read by a process using another one (`E`) yield a
copy of the object graph. -/
theorem C86_binary_between_processes (E E' : Env) (H : Heap) (h : SameExceptOrder E E') (HT : Nat → Option Ty) (n m vw vr : Nat) (t : Ty)
    (p v : Val) (ws : WSt) (hH : ∀ ρ, HeapRepr E' H HT ρ) (hv : ∀ ρ, BRepr E' HT ρ vw vr t p v) (hm : n ≤ m)
    (hw : write E' H n vw t v WSt.init = .ok () ws) (rest : Str) :
    ∃ ρ v' rs, read E m vr t p (RSt.init (ws.out ++ rest)) = .ok v' rs ∧ rs.inp = rest ∧ GraphCopy H v rs.asHeap v' ρ := by
  rw [← C86_reading_binary_independent E E' h]
  exact C27_read_yields_what_was_written E' H HT n m vw vr t p v ws hH hv hm hw rest

section
variable {E : Env} {i : List Val → List Val} {k : List (Val × Val) → List (Val × Val)}

theorem visits_perm {E E' : Env} (h : VisitsAll E) (h' : VisitsAll E') (hashed : Bool) (vs : List Val) :
    (E.order hashed vs).Perm (E'.order hashed vs) := by
  cases hashed
  · exact .refl _
  · exact (h.1 vs).trans (h'.1 vs).symm

theorem visitsKV_perm {E E' : Env} (h : VisitsAll E) (h' : VisitsAll E') (hashed : Bool) (kvs : List (Val × Val)) :
    (E.orderKV hashed kvs).Perm (E'.orderKV hashed kvs) := by
  cases hashed
  · exact .refl _
  · exact (h.2 kvs).trans (h'.2 kvs).symm

variable {H : Heap} {S S' : Ty → Val → SM Json} (hS : ∀ t v j, S t v () = .ok j () → ∃ j', S' t v () = .ok j' () ∧ SameUpToOrder j j')
include hS

theorem elems_same {t : Ty} {vs ws : List Val} {js : List Json} (hp : vs.Perm ws) (h : pushElems S t vs () = .ok js ()) :
    ∃ js', pushElems S' t ws () = .ok js' () ∧ SameUpToOrder (.arr js) (.arr js') := by
  obtain ⟨ks, hp', hf⟩ := forall₂_perm hp (pushElems_iff.1 h)
  obtain ⟨js', h1, h2⟩ := forall₂_change (R' := fun v j => S' t v () = .ok j ()) hf fun v j h => hS t v j h
  exact ⟨js', pushElems_iff.2 h1, .arr hp' h2⟩

theorem tuple_same {ts : List Ty} {vs : List Val} {js : List Json} (h : pushTuple S ts vs () = .ok js ()) :
    ∃ js', pushTuple S' ts vs () = .ok js' () ∧ SameUpToOrder (.arr js) (.arr js') := by
  obtain ⟨hl, hf⟩ := pushTuple_iff.1 h
  obtain ⟨js', h1, h2⟩ := forall₂_change (R' := fun (tv : Ty × Val) j => S' tv.1 tv.2 () = .ok j ()) hf fun tv j h => hS tv.1 tv.2 j h
  exact ⟨js', pushTuple_iff.2 ⟨hl, h1⟩, .arr (.refl _) h2⟩

theorem map_same {t : Ty} {kvs lws : List (Val × Val)} {ms : List (Key × Json)} (hp : kvs.Perm lws)
    (h : pushMapEntries S t kvs () = .ok ms ()) : ∃ ms', pushMapEntries S' t lws () = .ok ms' () ∧ SameUpToOrder (.obj ms) (.obj ms') := by
  obtain ⟨ks, hp', hf⟩ := forall₂_perm hp (pushMapEntries_iff.1 h)
  obtain ⟨ms', h1, h2⟩ := forall₂_change
    (R' := fun (kv : Val × Val) (m : Key × Json) => ∃ k, kv.1 = .str k ∧ m.1 = ⟨rjStrRef k, .borrowed⟩ ∧ S' t kv.2 () = .ok m.2 ())
    (S := fun (m m' : Key × Json) => m.1 = m'.1 ∧ SameUpToOrder m.2 m'.2) hf (by
      rintro kv m ⟨k, e1, e2, e3⟩
      obtain ⟨j', a, b⟩ := hS t kv.2 m.2 e3
      exact ⟨(m.1, j'), ⟨k, e1, e2, a⟩, rfl, b⟩)
  exact ⟨ms', pushMapEntries_iff.2 h1, (SameMembers.of_perm hp' h2).obj⟩

omit hS in
theorem grouping_nil : Grouping [] [] := ⟨by simp, by simp, by simp⟩

theorem multimap_same {t : Ty} {kvs lws : List (Val × Val)} {ms : List (Key × Json)} (hp : kvs.Perm lws)
    (h : pushMultimapEntries S t kvs [] () = .ok ms ()) :
    ∃ ms', pushMultimapEntries S' t lws [] () = .ok ms' () ∧ SameUpToOrder (.obj ms) (.obj ms') := by
  obtain ⟨js, hf, rfl⟩ := pushMultimapEntries_iff.1 h
  -- entries with their documents, permuted
  have hz : List.Forall₂ (fun (kv : Val × Val) (x : (Val × Val) × Json) => x.1 = kv ∧ (∃ k, kv.1 = .str k) ∧ S t kv.2 () = .ok x.2 ()) kvs
      (kvs.zip js) := by
    clear hp h
    induction hf with
    | nil => exact .nil
    | cons h1 _ ih => exact .cons ⟨rfl, h1⟩ ih
  obtain ⟨xs, hpx, hx⟩ := forall₂_perm hp hz
  obtain ⟨ys, h1, h2⟩ := forall₂_change
    (R' := fun (kv : Val × Val) (x : (Val × Val) × Json) => x.1 = kv ∧ (∃ k, kv.1 = .str k) ∧ S' t kv.2 () = .ok x.2 ())
    (S := fun (x y : (Val × Val) × Json) => x.1 = y.1 ∧ SameUpToOrder x.2 y.2) hx (by
      rintro kv x ⟨e1, e2, e3⟩
      obtain ⟨j', a, b⟩ := hS t kv.2 x.2 e3
      exact ⟨(x.1, j'), ⟨e1, e2, a⟩, rfl, b⟩)
  have hys : ys = lws.zip (ys.map Prod.snd) := by
    clear h2 hx hp hpx
    induction h1 with
    | nil => rfl
    | @cons kv y l ys e _ ih =>
      obtain ⟨y1, y2⟩ := y
      obtain ⟨rfl, -⟩ := e
      simp only [List.map_cons, List.zip_cons_cons, ← ih]
  have hf' : List.Forall₂ (fun (kv : Val × Val) j => (∃ k, kv.1 = .str k) ∧ S' t kv.2 () = .ok j ()) lws (ys.map Prod.snd) := by
    rw [List.forall₂_map_right_iff]
    exact h1.imp fun _ _ h => h.2
  refine ⟨_, pushMultimapEntries_iff.2 ⟨_, hf', rfl⟩, ?_⟩
  have g1 := grouping_foldl [] ((kvs.zip js).map fun p => (rjString (strKey p.1.1), p.2)) [] grouping_nil
  have g2 := grouping_foldl [] ((lws.zip (ys.map Prod.snd)).map fun p => (rjString (strKey p.1.1), p.2)) [] grouping_nil
  rw [List.nil_append] at g1 g2
  have s1 := groups_src ((kvs.zip js).map fun p => (rjString (strKey p.1.1), p.2)) [] (by simp)
  have s2 := groups_src ((lws.zip (ys.map Prod.snd)).map fun p => (rjString (strKey p.1.1), p.2)) [] (by simp)
  have := grouping_same (qs := xs.map fun p => (rjString (strKey p.1.1), p.2)) (hpx.map _) (by
    rw [← hys, List.forall₂_map_left_iff, List.forall₂_map_right_iff]
    exact h2.imp fun x y h => ⟨by rw [h.1], h.2⟩) g1 g2 s1 s2
  rw [List.foldl_map, List.foldl_map] at this
  exact this.obj

theorem bases_same {bs : List ClassId} {v : Val} {ms : List (Key × Json)} (h : pushBases S bs v () = .ok ms ()) :
    ∃ ms', pushBases S' bs v () = .ok ms' () ∧ SameMembers ms ms' := by
  obtain ⟨mss, hf, rfl⟩ := pushBases_iff.1 h
  obtain ⟨mss', h1, h2⟩ := forall₂_change (R' := fun b ms => S' (.cls b) v () = .ok (.obj ms) ()) (S := SameMembers) hf (by
    intro b ms hb
    obtain ⟨j', a, s⟩ := hS _ _ _ hb
    obtain ⟨ms', rfl, hs⟩ := SameMembers.of_obj s
    exact ⟨ms', a, hs⟩)
  refine ⟨_, pushBases_iff.2 ⟨mss', h1, rfl⟩, ?_⟩
  clear h hf h1
  induction h2 with
  | nil => exact .refl _
  | cons h _ ih => exact h.append ih

theorem fields_same {fs : List Field} {st : Store} {ms : List (Key × Json)} (h : pushFields S fs st () = .ok ms ()) :
    ∃ ms', pushFields S' fs st () = .ok ms' () ∧ SameMembers ms ms' := by
  obtain ⟨ms', h1, h2⟩ := forall₂_change
    (R' := fun (f : Field) (m : Key × Json) => m.1 = ⟨f.name, .literal⟩ ∧ ∃ v, st.get? f.key = some v ∧ S' f.ty v () = .ok m.2 ())
    (S := fun (m m' : Key × Json) => m.1 = m'.1 ∧ SameUpToOrder m.2 m'.2) (pushFields_iff.1 h) (by
      rintro f m ⟨e1, v, e2, e3⟩
      obtain ⟨j', a, b⟩ := hS _ _ _ e3
      exact ⟨(m.1, j'), ⟨e1, v, e2, a⟩, rfl, b⟩)
  exact ⟨ms', pushFields_iff.2 h1, .of_forall₂ h2⟩

theorem step_same (hi : VisitsAll E) (hi' : VisitsAll (E.reorder i k)) (t : Ty) (v : Val) (j : Json)
    (h : pushStep E H S t v () = .ok j ()) : ∃ j', pushStep (E.reorder i k) H S' t v () = .ok j' () ∧ SameUpToOrder j j' := by
  cases v with
  | some v =>
    cases t <;> first | cases h; done | skip
    exact hS _ _ _ h
  | ptr v =>
    cases t <;> first | cases h; done | skip
    all_goals exact hS _ _ _ h
  | ref a =>
    cases t <;> first | cases h; done | skip
    all_goals
      simp only [pushStep] at h ⊢
      cases hH : H a with
      | none => rw [hH] at h; cases h
      | some v => rw [hH] at h; exact hS _ _ _ h
  | list vs =>
    cases t <;> first | cases h; done | skip
    · obtain ⟨js, h1, rfl⟩ := SM.map_ok_iff.1 h
      obtain ⟨js', h2, h3⟩ := elems_same hS (.refl _) h1
      exact ⟨_, SM.map_ok_iff.2 ⟨js', h2, rfl⟩, h3⟩
    · rename_i hashed multi t
      obtain ⟨js, h1, rfl⟩ := SM.map_ok_iff.1 h
      obtain ⟨js', h2, h3⟩ := elems_same hS (visits_perm hi hi' hashed vs) h1
      exact ⟨_, SM.map_ok_iff.2 ⟨js', h2, rfl⟩, h3⟩
  | map kvs =>
    cases t <;> first | cases h; done | skip
    rename_i hashed multi kt t
    cases multi <;> cases kt <;> first | cases h; done | skip
    · obtain ⟨ms, h1, rfl⟩ := SM.map_ok_iff.1 h
      obtain ⟨ms', h2, h3⟩ := map_same hS (visitsKV_perm hi hi' hashed kvs) h1
      exact ⟨_, SM.map_ok_iff.2 ⟨ms', h2, rfl⟩, h3⟩
    · obtain ⟨ms, h1, rfl⟩ := SM.map_ok_iff.1 h
      obtain ⟨ms', h2, h3⟩ := multimap_same hS (visitsKV_perm hi hi' hashed kvs) h1
      exact ⟨_, SM.map_ok_iff.2 ⟨ms', h2, rfl⟩, h3⟩
  | tup vs =>
    cases t <;> first | cases h; done | skip
    all_goals
      obtain ⟨js, h1, rfl⟩ := SM.map_ok_iff.1 h
      obtain ⟨js', h2, h3⟩ := tuple_same hS h1
      exact ⟨_, SM.map_ok_iff.2 ⟨js', h2, rfl⟩, h3⟩
  | alt x v =>
    cases t <;> first | cases h; done | skip
    rename_i ts
    cases hts : ts[x]? with
    | none => simp only [pushStep, hts] at h; cases h
    | some t' =>
      by_cases hm : t' = .mono
      · subst hm
        simp only [pushStep, hts] at h ⊢
        exact ⟨j, h, .same j⟩
      · have e1 : ∀ (E : Env) (S : Ty → Val → SM Json), pushStep E H S (.variant ts) (.alt x v) = (S t' v >>= fun j =>
                pure (.obj [(⟨lit "index", .literal⟩, .num (.int x)), (⟨lit "data", .literal⟩, j)])) := by
          intro E S; simp only [pushStep, hts]
        rw [e1] at h ⊢
        obtain ⟨j1, h1, rfl⟩ := SM.map_ok_iff.1 h
        obtain ⟨j2, h2, h3⟩ := hS _ _ _ h1
        exact ⟨_, SM.map_ok_iff.2 ⟨j2, h2, rfl⟩, .obj (.refl _) rfl (.cons (.same _) (.cons h3 .nil))⟩
  | obj st =>
    cases t <;> first | cases h; done | skip
    rename_i c
    simp only [pushStep, reorder_cls] at h ⊢
    cases hc : E.cls c with
    | none => rw [hc] at h; cases h
    | some ci =>
      rw [hc] at h
      obtain ⟨ms, h1, h2⟩ := SM.bind_ok_iff.1 h
      obtain ⟨ms2, h4, rfl⟩ := SM.map_ok_iff.1 h2
      obtain ⟨ms', a1, a2⟩ := bases_same hS h1
      obtain ⟨ms2', b1, b2⟩ := fields_same hS h4
      exact ⟨_, SM.bind_ok_iff.2 ⟨ms', a1, SM.map_ok_iff.2 ⟨ms2', b1, rfl⟩⟩, (a2.append b2).obj⟩
  | int x =>
    cases t <;> first | cases h; done | skip
    · rename_i it; cases it <;> first | cases h; done | exact ⟨j, h, .same j⟩
    · exact ⟨j, h, .same j⟩
  | cstr x =>
    cases x <;> cases t <;> first | cases h; done | exact ⟨j, h, .same j⟩
  | _ => cases t <;> first | cases h; done | exact ⟨j, h, .same j⟩
end

/-- C86 (writing JSON): documents of the same value written using different orders (each visiting every element once) are the same up to
the order of items and members; if the value can be written using one order, then so it can using the other one. -/
theorem C86_documents_same_up_to_order (E E' : Env) (H : Heap) (h : SameExceptOrder E E') (hi : VisitsAll E) (hi' : VisitsAll E') (n : Nat)
    (t : Ty) (v : Val) (j : Json) (hj : push E H n t v () = .ok j ()) :
    ∃ j', push E' H n t v () = .ok j' () ∧ SameUpToOrder j j' := by
  rw [h.eq] at hi' ⊢
  induction n generalizing t v j with
  | zero => cases hj
  | succ n ih => exact step_same (S := push E H n) (S' := push (E.reorder E'.iter E'.iterKV) H n) (fun t v j h => ih t v j h) hi hi' t v j hj

/-! ### example: a process which iterates in ascending order and one which iterates in the opposite order -/

namespace OrderDemo
open Demo

/-- the demo environment iterates in reverse order -/
def ascending : Env := { env with iter := id, iterKV := id }

theorem differ : SameExceptOrder ascending env := ⟨rfl, rfl, rfl, rfl, rfl, rfl, rfl⟩

theorem all_asc : VisitsAll ascending := ⟨fun _ => .refl _, fun _ => .refl _⟩
theorem all_env : VisitsAll env := ⟨fun l => l.reverse_perm, fun l => l.reverse_perm⟩

/-- a hashed multimap with values under two keys -/
def mm : Val := .map [(.str [65], .int 1), (.str [65], .int 2), (.str [66], .int 3)]

example : push ascending (fun _ => none) 3 (.map true true .str (.int .i32)) mm () =
    .ok (.obj [(⟨[65], .borrowed⟩, .arr [.num (.int 1), .num (.int 2)]), (⟨[66], .borrowed⟩, .arr [.num (.int 3)])]) () := rfl

/-- names and values are in another order -/
example : ∃ j', push env (fun _ => none) 3 (.map true true .str (.int .i32)) mm () = .ok j' () ∧
    SameUpToOrder (.obj [(⟨[65], .borrowed⟩, .arr [.num (.int 1), .num (.int 2)]), (⟨[66], .borrowed⟩, .arr [.num (.int 3)])]) j' :=
  C86_documents_same_up_to_order ascending env (fun _ => none) differ all_asc all_env 3 _ mm _ rfl

/-- a hashed set written in descending order is restored by a process iterating in ascending order -/
example : ∃ (N : Nat) (j : Json), ∀ n, N ≤ n →
    push env (fun _ => none) n (.set true false .str) (.list [.str [65], .str [66]]) () = .ok j () ∧
    pull ascending n (.set true false .str) j (.list []) none = .ok (.list [.str [65], .str [66]]) none ∧
    ∀ s : ErrSt, ∃ i, (i = s.index ∨ i = noIndex) ∧
      pull ascending n (.set true false .str) j (.list []) (some s) = .ok (.list [.str [65], .str [66]]) (some { s with index := i }) := by
  refine C86_json_between_processes ascending env (fun _ => none) differ
    ⟨demo_strTotal.irrefl, demo_strTotal.trans, demo_strTotal.total⟩ _ _ _ (.set ?_ ?_ ?_ ?_ ?_)
  · intro v hv
    simp only [List.mem_cons, List.not_mem_nil, or_false] at hv
    rcases hv with rfl | rfl <;> exact .str _ _ ⟨by decide, by decide⟩
  · decide
  · constructor <;> decide
  · decide
  · exact all_env.1 _

/-- the same in the binary format -/
example : ∃ ws, write env (fun _ => none) 3 0 (.set true false .str) (.list [.str [65], .str [66]]) WSt.init = .ok () ws ∧
    ws.out = [0x82, 0x81, 66, 0x81, 65] ∧
    ∃ ρ v' rs, read ascending 3 0 (.set true false .str) (.list []) (RSt.init (ws.out ++ [7])) = .ok v' rs ∧ rs.inp = [7] ∧
      GraphCopy (fun _ => none) (.list [.str [65], .str [66]]) rs.asHeap v' ρ := by
  have h : write env (fun _ => none) 3 0 (.set true false .str) (.list [.str [65], .str [66]]) WSt.init =
      .ok () ⟨[0x82, 0x81, 66, 0x81, 65], []⟩ := by decide +kernel
  refine ⟨_, h, rfl, C86_binary_between_processes ascending env _ differ (fun _ => none) 3 3 0 0 _ _ _ _ (fun ρ a t ht => by cases ht) (fun ρ => ?_)
    (Nat.le_refl _) h _⟩
  refine .set ?_ (by decide) (by decide) (by constructor <;> decide) (by decide) (all_env.1 _) .nil (by simp)
  intro v hv
  simp only [List.mem_cons, List.not_mem_nil, or_false] at hv
  rcases hv with rfl | rfl <;> exact .str _ _ _ _ (by decide)

end OrderDemo

end Verif
