import Verif.Spec.Ownership
import Verif.Lemmas.Provenance
import Verif.Props.BinaryExceptions

/-!
# C80: reading binary data and objects owned by others
-/

namespace Verif

/-- **C80**: Reading, whatever the input is and whether it succeeds or throws, does not change any shared object which exists already: neither
those the object referred to before, nor those read before with the same deserializer, nor any other. -/
theorem C80_existing_objects_unchanged (E : Env) (n version : Nat) (t : Ty) (p : Val) (s : RSt) :
    (∀ v s', read E n version t p s = .ok v s' → ∀ a < s.heap.length, s'.heap[a]? = s.heap[a]?) ∧
    (∀ e q s', readX E n version t p s = .exc (e, q) s' → ∀ a < s.heap.length, s'.heap[a]? = s.heap[a]?) := by
  have hpre : ∀ {l l' : List Val}, l <+: l' → ∀ a < l.length, l'[a]? = l[a]? := by
    rintro l l' ⟨r, rfl⟩ a ha
    exact List.getElem?_append_left ha
  refine ⟨fun v s' h => hpre ((readX_heapKept E n version t p s).1 v s' (((readX_agrees E n version t p).ok_iff).2 h)), fun e q s' h => ?_⟩
  exact hpre ((readX_heapKept E n version t p s).2 _ _ h)

/-- **C80**: A shared pointer within what has been read either was there before, or refers to an object created by this call, or to one created
by a previous call with the same deserializer. Within the objects created by the call only the latter two are possible. -/
theorem C80_pointers_own (E : Env) (hE : NoSharedByDefault E) (n version : Nat) (t : Ty) (p v : Val) (s s' : RSt)
    (h : read E n version t p s = .ok v s') :
    (∀ a ∈ v.refs, a ∈ p.refs ∨ Remembered s a ∨ CreatedSince s s' a) ∧
    (∀ i x, CreatedSince s s' i → s'.heap[i]? = some x → ∀ a ∈ x.refs, Remembered s a ∨ CreatedSince s s' a) ∧
    (∀ a, Remembered s' a → Remembered s a ∨ CreatedSince s s' a) := by
  have hst : OwnSt (Remembered s) s.heap.length s := by
    refine ⟨Nat.le_refl _, fun e he => .inl ⟨e.1, e.2.1, he⟩, fun i v hi hv => ?_⟩
    rw [List.getElem?_eq_none hi] at hv
    cases hv
  obtain ⟨h1, -, h3⟩ := ((readX_prov (Remembered s) s.heap.length E (fun t => ⟨valInit_refs hE t, defInit_refs hE t⟩) n version t p (Refs p)
    (fun a ha => ha) s hst).1 v s' (((readX_agrees E n version t p).ok_iff).2 h))
  exact ⟨h3, fun i x hi hx => h1.heap i x hi.1 hx, fun a ⟨id, t, ha⟩ => h1.table _ ha⟩

/-- **C80**: The same holds for the object and the shared objects if reading throws. -/
theorem C80_pointers_own_exception (E : Env) (hE : NoSharedByDefault E) (n version : Nat) (t : Ty) (p q : Val) (s s' : RSt) (e : BExc)
    (h : readX E n version t p s = .exc (e, q) s') :
    (∀ a ∈ q.refs, a ∈ p.refs ∨ Remembered s a ∨ CreatedSince s s' a) ∧
    (∀ i x, CreatedSince s s' i → s'.heap[i]? = some x → ∀ a ∈ x.refs, Remembered s a ∨ CreatedSince s s' a) ∧
    (∀ a, Remembered s' a → Remembered s a ∨ CreatedSince s s' a) := by
  have hst : OwnSt (Remembered s) s.heap.length s := by
    refine ⟨Nat.le_refl _, fun e he => .inl ⟨e.1, e.2.1, he⟩, fun i v hi hv => ?_⟩
    rw [List.getElem?_eq_none hi] at hv
    cases hv
  obtain ⟨h1, -, h3⟩ := ((readX_prov (Remembered s) s.heap.length E (fun t => ⟨valInit_refs hE t, defInit_refs hE t⟩) n version t p (Refs p)
    (fun a ha => ha) s hst).2 _ s' h)
  exact ⟨h3, fun i x hi hx => h1.heap i x hi.1 hx, fun a ⟨id, t, ha⟩ => h1.table _ ha⟩

/-- **C80**: What is read into a new object with a new deserializer shares nothing with any object which existed before: every object
reachable from it has been created by this call. -/
theorem C80_new_deserializer (E : Env) (hE : NoSharedByDefault E) (n version : Nat) (t : Ty) (p v : Val) (s s' : RSt)
    (ht : s.table = []) (hp : p.refs = []) (h : read E n version t p s = .ok v s') (a : Nat)
    (ha : Reachable (fun a => s'.heap[a]?) v a) : CreatedSince s s' a := by
  obtain ⟨h1, h2, -⟩ := C80_pointers_own E hE n version t p v s s' h
  have hr : ∀ a, ¬ Remembered s a := by
    rintro a ⟨id, t, hm⟩
    rw [ht] at hm
    cases hm
  induction ha with
  | direct ha =>
    rcases h1 _ ha with h | h | h
    · rw [hp] at h
      cases h
    · exact absurd h (hr _)
    · exact h
  | step hb hx hc ih => exact (h2 _ _ ih hx _ hc).resolve_left (hr _)

/-- **C80**: Reading into an existing object with a new deserializer: all objects reachable afterwards are objects which were reachable before
(and are unchanged) or have been created by this call. -/
theorem C80_existing_object (E : Env) (hE : NoSharedByDefault E) (n version : Nat) (t : Ty) (p v : Val) (s s' : RSt)
    (ht : s.table = []) (hb : ∀ a, Reachable (fun a => s.heap[a]?) p a → a < s.heap.length) (h : read E n version t p s = .ok v s') (a : Nat)
    (ha : Reachable (fun a => s'.heap[a]?) v a) :
    (Reachable (fun a => s.heap[a]?) p a ∧ s'.heap[a]? = s.heap[a]?) ∨ CreatedSince s s' a := by
  obtain ⟨h1, h2, -⟩ := C80_pointers_own E hE n version t p v s s' h
  have hu := (C80_existing_objects_unchanged E n version t p s).1 v s' h
  have hr : ∀ a, ¬ Remembered s a := by
    rintro a ⟨id, t, hm⟩
    rw [ht] at hm
    cases hm
  induction ha with
  | direct ha =>
    rcases h1 _ ha with h | h | h
    · exact .inl ⟨.direct h, hu _ (hb _ (.direct h))⟩
    · exact absurd h (hr _)
    · exact .inr h
  | step _ hx hc ih =>
    rcases ih with ⟨g1, g2⟩ | g
    · have g3 := Reachable.step g1 (g2 ▸ hx) hc
      exact .inl ⟨g3, hu _ (hb _ g3)⟩
    · exact .inr ((h2 _ _ g hx _ hc).resolve_left (hr _))

/-! ## Non-vacuity -/

namespace OwnDemo
open Demo

theorem noShared : NoSharedByDefault env := by
  intro c ci h
  have : ci = base ∨ ci = derived ∨ ci = node := by
    simp only [env] at h
    split at h <;> cases h <;> simp
  rcases this with rfl | rfl | rfl <;> exact ⟨rfl, rfl⟩

/-- decidable check for the examples -/
def isRead (r : Res BExc RSt Val) (v : Val) (s : RSt) : Bool :=
  match r with
  | .ok v' s' => v'.eqb v && decide (s'.inp = s.inp) && decide (s'.table = s.table) && Val.eqbL s'.heap s.heap
  | _ => false

theorem read_of_check {r : Res BExc RSt Val} {v : Val} {s : RSt} (h : isRead r v s = true) : r = .ok v s := by
  unfold isRead at h
  split at h
  · rename_i v' s'
    simp only [Bool.and_eq_true, decide_eq_true_eq] at h
    obtain ⟨⟨⟨h2, h3⟩, h4⟩, h5⟩ := h
    have h5 := Val.eq_of_eqbL _ _ h5
    rw [Val.eq_of_eqb _ _ h2]
    cases s'
    cases s
    simp_all
  · cases h

/-- An object exists already (at 0); a node referring to itself is read with a new deserializer: it is created at 1. -/
example : ∃ s', read env 10 0 (.sptr (.cls 2)) .null ⟨[1, 0x81, 0, 0, 0, 1, 2, 0x81], [], [.obj nodeInit]⟩ = .ok (.ref 1) s' ∧
    s'.heap.length = 2 ∧ Reachable (fun a => s'.heap[a]?) (.ref 1) 1 ∧
    ∀ a, Reachable (fun a => s'.heap[a]?) (.ref 1) a → CreatedSince ⟨[1, 0x81, 0, 0, 0, 1, 2, 0x81], [], [.obj nodeInit]⟩ s' a := by
  have h : read env 10 0 (.sptr (.cls 2)) .null ⟨[1, 0x81, 0, 0, 0, 1, 2, 0x81], [], [.obj nodeInit]⟩ =
      .ok (.ref 1) ⟨[], [(1, .cls 2, 1)], [.obj nodeInit, .obj [(fV.key, .int 1), (fN.key, .ref 1)]]⟩ := read_of_check (by decide +kernel)
  exact ⟨_, h, rfl, .direct (by simp [Val.refs]), C80_new_deserializer env noShared 10 0 _ .null _ _ _ rfl rfl h⟩

/-- A map has an entry referring to object 0; an entry is added by reading: the former entry still refers to object 0, which is unchanged,
the new one to a new object. -/
example : ∃ v s', read env 10 0 (.map false false .str (.sptr (.cls 2))) (.map [(.str (lit "k"), .ref 0)])
      ⟨[0x81, 0x81, 0x7A, 1, 0x81, 0, 0, 0, 1, 0], [], [.obj nodeInit]⟩ = .ok v s' ∧
    v.refs = [0, 1] ∧ s'.heap.length = 2 ∧
    (∀ a, Reachable (fun a => s'.heap[a]?) v a → a = 0 ∨ a = 1) ∧ s'.heap[0]? = some (.obj nodeInit) := by
  have h : read env 10 0 (.map false false .str (.sptr (.cls 2))) (.map [(.str (lit "k"), .ref 0)])
      ⟨[0x81, 0x81, 0x7A, 1, 0x81, 0, 0, 0, 1, 0], [], [.obj nodeInit]⟩ =
      .ok (.map [(.str (lit "k"), .ref 0), (.str (lit "z"), .ref 1)])
        ⟨[], [(1, .cls 2, 1)], [.obj nodeInit, .obj [(fV.key, .int 1), (fN.key, .null)]]⟩ := read_of_check (by decide +kernel)
  have hb : ∀ a, Reachable (fun a => [Val.obj nodeInit][a]?) (.map [(.str (lit "k"), .ref 0)]) a → a < 1 := by
    intro a ha
    induction ha with
    | direct ha =>
      simp only [Val.refs, Val.refsKV, List.nil_append, List.append_nil, List.mem_singleton] at ha
      omega
    | @step b x c _ hx hc ih =>
      have : b = 0 := by omega
      subst this
      have hx : some (Val.obj nodeInit) = some x := hx
      cases hx
      cases hc
  refine ⟨_, _, h, rfl, rfl, fun a ha => ?_, rfl⟩
  rcases C80_existing_object env noShared 10 0 _ _ _ _ _ rfl hb h a ha with ⟨g, -⟩ | ⟨-, g⟩
  · have := hb a g
    omega
  · have g : a < 2 := g
    omega

example := C80_pointers_own_exception env noShared 6 0 (.sptr (.cls 2)) .null (.ref 0) (RSt.init [1, 0x81, 0, 0, 0, 5, 1, 0x82, 0, 0, 0, 6])
  ⟨[], [(2, .cls 2, 1), (1, .cls 2, 0)], [.obj [(fV.key, .int 5), (fN.key, .ref 1)], .obj [(fV.key, .int 6), (fN.key, .null)]]⟩ .eof
  (exc_of_check (by decide +kernel))

end OwnDemo

end Verif
