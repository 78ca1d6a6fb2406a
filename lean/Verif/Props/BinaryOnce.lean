import Verif.Lemmas.BinWConv
import Verif.Props.BinaryPointers

/-!
# C29: each shared object is written once and writing terminates
-/

namespace Verif

/-- **C29**: writing terminates for every value and every finite object graph, cyclic or not: from some recursion budget on the
outcome is fixed and not "out of budget". Hypotheses: no class is its own (indirect) base class, iterating over a hashed container
visits elements of it, finitely many objects exist. -/
theorem C29_writing_terminates (E : Env) (H : Heap) (rk : ClassId → Nat)
    (hrk : ∀ c ci, E.cls c = some ci → ∀ b ∈ ci.bin.bases, rk b < rk c)
    (hit : ∀ vs, ∀ v ∈ E.iter vs, v ∈ vs) (hitkv : ∀ kvs, ∀ q ∈ E.iterKV kvs, q ∈ kvs)
    (dom : List Nat) (hdom : ∀ a v, H a = some v → a ∈ dom) (version : Nat) (t : Ty) (v : Val) (ws : WSt) :
    ∃ N r, (∀ n, N ≤ n → write E H n version t v ws = r) ∧ r ≠ .fuel := by
  obtain ⟨N, hN⟩ := write_conv hrk hit hitkv hdom version t v ws
  exact ⟨N, _, fun n hn => (write_monoF E H version t v).stable (hN N (Nat.le_refl _)) hn, hN N (Nat.le_refl _)⟩

-- the cyclic list 1000 ⇄ 2000 of the demo
example (t : Ty) (v : Val) (ws : WSt) : ∃ N r, (∀ n, N ≤ n → write Demo.env Demo.cycHeap n 0 t v ws = r) ∧ r ≠ .fuel := by
  refine C29_writing_terminates Demo.env Demo.cycHeap id ?_ ?_ ?_ [1000, 2000] ?_ 0 t v ws
  · intro c ci h
    match c, h with
    | 0, h => cases h; simp [Demo.base]
    | 1, h => cases h; simp [Demo.derived]
    | 2, h => cases h; simp [Demo.node]
  · intro vs v h
    simpa [Demo.env] using h
  · intro vs v h
    simpa [Demo.env] using h
  · intro a x h
    unfold Demo.cycHeap at h
    split at h <;> simp_all

/-! ### at most once -/

theorem sharedWrite_seen {a : Nat} {b : WM Unit} {ws : WSt} (h : a ∈ ws.seen) (b' : WM Unit) : sharedWrite a b ws = sharedWrite a b' ws := by
  unfold sharedWrite
  have h0 : alreadyWritten a ws = .ok true ws := by simp [alreadyWritten, h]
  rw [M.bind_ok h0, M.bind_ok h0]
  rfl

/-- the same on all states in which `x` has been written, which is not forgotten -/
def SameOnce (x : Nat) (α : Type) (m m' : WM α) : Prop := ∀ s, x ∈ s.seen → m s = m' s ∧ ∀ a s', m s = .ok a s' → x ∈ s'.seen

theorem SameOnce.refl {x : Nat} {α : Type} {m : WM α} (h : Appends α m) : SameOnce x α m m :=
  fun _ hs => ⟨rfl, fun _ _ he => (h.ok he).2.subset hs⟩

theorem SameOnce.bind {x : Nat} {α β : Type} {m m' : WM α} {f f' : α → WM β} (hm : SameOnce x α m m') (hf : ∀ a, SameOnce x β (f a) (f' a)) :
    SameOnce x β (m >>= f) (m' >>= f') := by
  intro s hs
  obtain ⟨h1, h2⟩ := hm s hs
  refine ⟨?_, fun b s2 he => ?_⟩
  · rw [M.bind_apply, M.bind_apply, ← h1]
    cases hr : m s with
    | ok a s' => exact (hf a s' (h2 a s' hr)).1
    | exc e s' => rfl
    | ub => rfl
    | stuck => rfl
    | fuel => rfl
  · rw [M.bind_eq_ok] at he
    obtain ⟨a, s', h3, h4⟩ := he
    exact (hf a s' (h2 a s' h3)).2 b s2 h4

theorem sameOnce_closed {H H' : Heap} {x : Nat} (hx : ∀ b, b ≠ x → H b = H' b) : WClosed2 H H' (SameOnce x) where
  pure a := .refl (.pure a)
  ub := .refl fun _ => trivial
  stuck := .refl fun _ => trivial
  fuel := .refl fun _ => trivial
  throw e := .refl (.throw e)
  bind _ _ _ _ hm hf := hm.bind hf
  emit bs := .refl (.emit bs)
  shared a b b' hb := by
    by_cases ha : a = x
    · subst ha
      intro s hs
      refine ⟨sharedWrite_seen hs b', fun u s' he => ?_⟩
      rw [sharedWrite_seen hs (Pure.pure ())] at he
      exact ((Appends.shared a (.pure ())).ok he).2.subset hs
    · refine SameOnce.bind (.refl fun _ => ⟨List.prefix_refl _, List.suffix_refl _⟩) fun w => ?_
      refine SameOnce.bind (.refl (.emit _)) fun _ => SameOnce.bind (.refl (.ident _)) fun _ => ?_
      cases w
      · exact SameOnce.bind (.refl fun s => ⟨List.prefix_refl _, List.suffix_cons _ _⟩) fun _ => hb (hx a ha)
      · exact .refl (.pure _)

/-- **C29**: once an object has been written, its content is never looked at again: for the rest of the session everything written
is independent of it. So the content is written at most once. (That an object counts as written before its content is, is
`C34_first_occurrence`.) -/
theorem C29_content_written_at_most_once (E : Env) (H H' : Heap) (x : Nat) (hx : ∀ b, b ≠ x → H b = H' b) (n version : Nat) (t : Ty)
    (v : Val) (ws : WSt) (hs : x ∈ ws.seen) : write E H n version t v ws = write E H' n version t v ws :=
  ((sameOnce_closed hx).write E n version t v ws hs).1

-- e.g. with object 1000 already written, it does not matter what it contains: the list is cut there
example (n : Nat) (ws : WSt) (hs : 1000 ∈ ws.seen) :
    write Demo.env Demo.cycHeap n 0 (.sptr (.cls 2)) (.ref 2000) ws =
      write Demo.env (fun a => if a = 1000 then none else Demo.cycHeap a) n 0 (.sptr (.cls 2)) (.ref 2000) ws :=
  C29_content_written_at_most_once Demo.env _ _ 1000 (fun b hb => by simp [hb]) n 0 _ _ ws hs

/-- the list of objects written has no duplicates -/
def KeepsNodup (α : Type) (m : WM α) : Prop := ∀ s a s', s.seen.Nodup → m s = .ok a s' → s'.seen.Nodup

theorem KeepsNodup.bind {α β : Type} {m : WM α} {f : α → WM β} (hm : KeepsNodup α m) (hf : ∀ a, KeepsNodup β (f a)) :
    KeepsNodup β (m >>= f) := by
  intro s b s2 hs he
  rw [M.bind_eq_ok] at he
  obtain ⟨a, s', h1, h2⟩ := he
  exact hf a s' b s2 (hm s a s' hs h1) h2

theorem keepsNodup_closed (H : Heap) : WClosed2 H H fun α m _ => KeepsNodup α m where
  pure a := by intro s a s' hs he; cases he; exact hs
  ub := by intro α s a s' hs he; cases he
  stuck := by intro α s a s' hs he; cases he
  fuel := by intro α s a s' hs he; cases he
  throw e := by intro s a s' hs he; cases he
  bind _ _ _ _ hm hf := hm.bind hf
  emit bs := by intro s a s' hs he; cases he; exact hs
  shared a b _ hb := by
    intro s u s' hs he
    unfold sharedWrite at he
    rw [M.bind_eq_ok] at he
    obtain ⟨w, s1, h1, he⟩ := he
    have e1 : s1 = s ∧ w = decide (a ∈ s.seen) := by cases h1; exact ⟨rfl, rfl⟩
    obtain ⟨rfl, rfl⟩ := e1
    rw [M.bind_eq_ok] at he
    obtain ⟨u2, s2, h2, he⟩ := he
    have e2 : s2.seen = s1.seen := by cases h2; rfl
    rw [M.bind_eq_ok] at he
    obtain ⟨u3, s3, h3, he⟩ := he
    have e3 : s3.seen = s2.seen := by
      unfold writeId at h3
      split at h3
      · cases h3
        rfl
      · obtain ⟨L, -, rfl⟩ := writeVarint_ok h3
        rfl
    by_cases ha : a ∈ s1.seen
    · simp only [ha, decide_true, if_true] at he
      cases he
      rw [e3, e2]
      exact hs
    · simp only [ha, decide_false] at he
      rw [if_neg (by simp), M.bind_eq_ok] at he
      obtain ⟨u4, s4, h4, he⟩ := he
      have e4 : s4.seen = a :: s3.seen := by cases h4; rfl
      exact hb rfl s4 u s' (by rw [e4, e3, e2]; exact List.nodup_cons.2 ⟨ha, hs⟩) he

/-- **C29**: no object is recorded as written twice in a session. -/
theorem C29_no_object_recorded_twice (E : Env) (H : Heap) (n version : Nat) (t : Ty) (v : Val) (ws ws' : WSt) (hs : ws.seen.Nodup)
    (h : write E H n version t v ws = .ok () ws') : ws'.seen.Nodup :=
  (keepsNodup_closed H).write E n version t v ws () ws' hs h

end Verif
