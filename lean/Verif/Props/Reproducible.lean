import Verif.Lemmas.Reproducible
import Verif.Lemmas.BinTemplate
import Verif.Lemmas.BinWClosed
import Verif.Props.Formats
import Verif.Props.BinaryPointers
import Verif.Props.IterationOrder

/-!
# Reproducible output (C87)

Whether running the program again (or another build of it) writes the same document or bytes for the same object graph.
-/

namespace Verif

/-- **C87** (JSON): if no hashed containers are involved, the document and the text written for an object graph are the same in every
process, whatever the addresses of the shared objects are (`GraphCopy`: the same object graph at other addresses). -/
theorem C87_json_reproducible (E E' : Env) (h : SameExceptOrder E E') (H H' : Heap) (ρ : Nat → Nat) (v v' : Val) (hg : GraphCopy H v H' v' ρ)
    (n : Nat) (t : Ty) (ht : WithoutHashed E t) : push E' H' n t v' = push E H n t v := by
  rw [h.eq, push_ordered n t ht v', ← push_ordered (i := id) (k := id) n t ht v', ← push_ordered (i := id) (k := id) n t ht v]
  exact (copy_json ⟨fun _ _ => rfl, fun _ _ => rfl⟩ ⟨fun _ => .refl _, fun _ => .refl _⟩ hg n t).1

/-- **C87** (binary): if neither hashed containers nor shared pointers are involved, the bytes written for an object are the same in every
process, whatever else is in memory. -/
theorem C87_binary_reproducible (E E' : Env) (h : SameExceptOrder E E') (H H' : Heap) (n w : Nat) (t : Ty) (v : Val) (ht : WithoutHashed E t)
    (hs : WithoutSharedPtr E t) (ws : WSt) (hw : write E H n w t v WSt.init = .ok () ws) : write E' H' n w t v WSt.init = .ok () ws := by
  obtain ⟨d, d', h1, h2, rfl⟩ := write_out (H' := H') eqClosed (orderOut_eq E E') h.cls n w t v (fun t' h => ⟨ht t' h, hs t' h⟩) _ _ hw
  rw [h1] at hw
  rw [h2, hw]

/-- **C87** (binary, hashed containers): if hashed containers but no shared pointers are involved, two processes write the same bytes up to
order - in particular equally many. -/
theorem C87_binary_same_up_to_order (E E' : Env) (h : SameExceptOrder E E') (hi : VisitsAll E) (hi' : VisitsAll E') (H H' : Heap) (n w : Nat)
    (t : Ty) (v : Val) (hs : WithoutSharedPtr E t) (ws : WSt) (hw : write E H n w t v WSt.init = .ok () ws) :
    ∃ ws', write E' H' n w t v WSt.init = .ok () ws' ∧ ws'.out.Perm ws.out ∧ ws'.out.length = ws.out.length := by
  obtain ⟨d, d', h1, h2, h3⟩ := write_out (H' := H') permClosed (orderOut_perm hi hi') h.cls n w t v (fun t' h => ⟨trivial, hs t' h⟩) _ _ hw
  rw [h1] at hw
  cases hw
  refine ⟨_, h2 _, ?_, ?_⟩
  · exact (h3.symm : d'.Perm d)
  · exact h3.symm.length_eq

/-- **C87** (binary, shared pointers): if shared pointers but no hashed containers are involved, the bytes written by different processes for
the same object graph at different addresses differ in nothing but the addresses: there is one sequence of data and pointers from which the
bytes of every process result by inserting its addresses. -/
theorem C87_binary_only_addresses_differ (E : Env) (H : Heap) (n w : Nat) (t : Ty) (v : Val) (ht : WithoutHashed E t)
    (ha : ∀ a, Reachable H v a → a < 2 ^ 64) (ws : WSt) (hw : write E H n w t v WSt.init = .ok () ws) :
    ∃ pieces, Renders id pieces ws.out ∧
      ∀ (E' : Env) (H' : Heap) (ρ : Nat → Nat) (v' : Val), SameExceptOrder E E' → GraphCopy H v H' v' ρ → (∀ a, Reachable H v a → ρ a < 2 ^ 64) →
        ∃ ws', write E' H' n w t v' WSt.init = .ok () ws' ∧ Renders ρ pieces ws'.out := by
  obtain ⟨ps, d, h1, h2, -, h4⟩ := write_tmpl (E := E) (H := H) (S := Reachable H v) (hashed := false) (fun a x ha hx b hb => .step ha hx hb) ha
    n w t v (fun t' h _ => ht t' h) (fun h => by cases h) (fun a ha => .direct ha) WSt.init ws (fun a h => by cases h) hw
  rw [show WSt.init.out = [] from rfl, List.nil_append] at h1
  refine ⟨ps, h1 ▸ h2, fun E' H' ρ v' hE hg hb => ?_⟩
  obtain ⟨d', h5, h6⟩ := h4 ⟨E', H', ρ, [], (fun _ _ h => by cases h), (fun h => by cases h), hE, hg.content, hg.inj, hb⟩ []
  rw [hg.root]
  exact ⟨_, h5, h6⟩

/-- **C87** (limit: the bytes contain addresses): from the bytes written for a shared pointer the address of the object can be read off,
whatever the program, the object and its type are. -/
theorem C87_limit_addresses_disclosed : ∃ address : Str → Nat, ∀ (E : Env) (H : Heap) (n w : Nat) (t : Ty) (a : Nat) (ws : WSt), a < 2 ^ 64 →
    write E H n w (.sptr t) (.ref a) WSt.init = .ok () ws → address ws.out = a := by
  refine ⟨fun bytes => match (do
      let mode ← readByte
      if mode &&& 4 ≠ 0 then (do let bs ← takeBytes 8; pure (ofBE bs)) else readVarint : RM Nat) (RSt.init bytes) with
    | .ok a _ => a
    | _ => 0, fun E H n w t a ws ha hw => ?_⟩
  cases n with
  | zero => cases hw
  | succ n =>
    cases hx : H a with
    | none =>
      have hw : sharedWrite a M.ub WSt.init = .ok () ws := by
        simpa only [write, writeStep, hx, sharedWrite] using hw
      obtain ⟨_, _, h1, h2⟩ := M.bind_eq_ok.1 hw
      cases h1
      obtain ⟨_, _, -, h3⟩ := M.bind_eq_ok.1 h2
      obtain ⟨_, _, -, h4⟩ := M.bind_eq_ok.1 h3
      obtain ⟨_, _, -, h5⟩ := M.bind_eq_ok.1 h4
      cases h5
    | some x =>
      obtain ⟨bs, hb, h1, -⟩ := C34_first_occurrence E H n w 0 t .null x a ha WSt.init (by simp [WSt.init]) hx
      rw [h1] at hw
      obtain ⟨rest, hr⟩ := ((write_appends E H n 0 t x).ok hw).1
      have hout : ws.out = (if 2 ^ 55 ≤ a then 5 else 1) :: (bs ++ rest) := by
        rw [← hr]
        simp [WSt.init]
      rw [hout]
      have hm : (UInt8.toNat (if 2 ^ 55 ≤ a then 5 else 1)) &&& 4 ≠ 0 ↔ 2 ^ 55 ≤ a := by
        by_cases h : 2 ^ 55 ≤ a
        · simp only [h, if_true]; decide
        · simp only [h, if_false]; decide
      have h2 := readByte_cons (if 2 ^ 55 ≤ a then 5 else 1) (bs ++ rest) (RSt.init ((if 2 ^ 55 ≤ a then 5 else 1) :: (bs ++ rest))) rfl
      have h3 := readId_ok hb _ hm { RSt.init ((if 2 ^ 55 ≤ a then 5 else 1) :: (bs ++ rest)) with inp := bs ++ rest } rest rfl
      simp only [M.bind_ok h2, h3]

/-- **C87** (limit: not reproducible): so the bytes for an object graph with a shared object at another address are always different. -/
theorem C87_limit_shared_pointers (E E' : Env) (H H' : Heap) (n n' w w' : Nat) (t t' : Ty) (a b : Nat) (ws ws' : WSt) (ha : a < 2 ^ 64) (hb : b < 2 ^ 64)
    (hab : a ≠ b) (h : write E H n w (.sptr t) (.ref a) WSt.init = .ok () ws) (h' : write E' H' n' w' (.sptr t') (.ref b) WSt.init = .ok () ws') :
    ws.out ≠ ws'.out := by
  obtain ⟨f, hf⟩ := C87_limit_addresses_disclosed
  intro e
  exact hab (by rw [← hf E H n w t a ws ha h, ← hf E' H' n' w' t' b ws' hb h', e])

/-! ### examples -/

namespace ReproducibleDemo
open Demo OrderDemo

/-- what a vector of maps with integers consists of -/
theorem parts {t : Ty} (h : ConsistsOf env (.vec (.map false true .str (.int .i32))) t) :
    t = .vec (.map false true .str (.int .i32)) ∨ t = .map false true .str (.int .i32) ∨ t = .pair .str (.int .i32) ∨ t = .str ∨ t = .int .i32 := by
  cases h with
  | refl => simp
  | vec h =>
    cases h with
    | refl => simp
    | entry h =>
      cases h with
      | refl => simp
      | fst h => cases h; simp
      | snd h => cases h; simp

theorem ordered : WithoutHashed env (.vec (.map false true .str (.int .i32))) := by
  intro t h
  rcases parts h with rfl | rfl | rfl | rfl | rfl <;> simp

theorem unshared : WithoutSharedPtr env (.vec (.map false true .str (.int .i32))) := by
  intro t h
  rcases parts h with rfl | rfl | rfl | rfl | rfl <;> simp

/-- bytes of a process iterating hashed containers differently -/
example (H' : Heap) : write ascending H' 4 0 (.vec (.map false true .str (.int .i32))) (.list [mm]) WSt.init =
    .ok () ⟨[0x81, 0x83, 0x81, 65, 0, 0, 0, 1, 0x81, 65, 0, 0, 0, 2, 0x81, 66, 0, 0, 0, 3], []⟩ :=
  C87_binary_reproducible env ascending ⟨rfl, rfl, rfl, rfl, rfl, rfl, rfl⟩ (fun _ => none) H' 4 0 _ (.list [mm]) ordered unshared _
    (by decide +kernel)

/-- a hashed set -/
example (H' : Heap) : ∃ ws', write ascending H' 4 0 (.set true false .str) (.list [.str [65], .str [66]]) WSt.init = .ok () ws' ∧
    ws'.out.Perm [0x82, 0x81, 66, 0x81, 65] ∧ ws'.out.length = 5 :=
  C87_binary_same_up_to_order env ascending ⟨rfl, rfl, rfl, rfl, rfl, rfl, rfl⟩ all_env all_asc (fun _ => none) H' 4 0 _ _ (by
      intro t h
      cases h with
      | refl => simp
      | set h => cases h; simp) ⟨[0x82, 0x81, 66, 0x81, 65], []⟩ (by decide +kernel)

/-- the same graph (two pointers to one number) at addresses 7 and 300, written by processes iterating differently, as JSON -/
def at7 : Heap := fun a => if a = 7 then some (.int 5) else none
def at300 : Heap := fun a => if a = 300 then some (.int 5) else none

theorem copy : GraphCopy at7 (.list [.ref 7, .ref 7]) at300 (.list [.ref 300, .ref 300]) fun _ => 300 := by
  have hr : ∀ a, Reachable at7 (.list [.ref 7, .ref 7]) a → a = 7 := by
    intro a h
    induction h with
    | direct h => simpa [Val.refs, Val.refsL] using h
    | step _ hx hb ih =>
      subst ih
      cases hx
      cases hb
  refine ⟨rfl, fun a b ha hb _ => by rw [hr a ha, hr b hb], fun a ha => ?_⟩
  rw [hr a ha]
  exact ⟨.int 5, rfl, rfl⟩

example (n : Nat) : push ascending at300 n (.vec (.sptr (.int .i32))) (.list [.ref 300, .ref 300]) =
    push env at7 n (.vec (.sptr (.int .i32))) (.list [.ref 7, .ref 7]) :=
  C87_json_reproducible env ascending ⟨rfl, rfl, rfl, rfl, rfl, rfl, rfl⟩ at7 at300 _ _ _ copy n _ (by
    intro t h
    cases h with
    | refl => simp
    | vec h =>
      cases h with
      | refl => simp
      | sptr h => cases h; simp)

example : push env at7 3 (.vec (.sptr (.int .i32))) (.list [.ref 7, .ref 7]) () = .ok (.arr [.num (.int 5), .num (.int 5)]) () := rfl

/-- two pointers to one number: everything but the addresses is the same -/
example : ∃ pieces, Renders id pieces [0x82, 1, 0x87, 0, 0, 0, 5, 2, 0x87] ∧
    ∃ ws', write ascending at300 3 0 (.vec (.sptr (.int .i32))) (.list [.ref 300, .ref 300]) WSt.init = .ok () ws' ∧
      Renders (fun _ => 300) pieces ws'.out := by
  have hr : ∀ a, Reachable at7 (.list [.ref 7, .ref 7]) a → a = 7 := by
    intro a h
    induction h with
    | direct h => simpa [Val.refs, Val.refsL] using h
    | step _ hx hb ih =>
      subst ih
      cases hx
      cases hb
  obtain ⟨ps, h1, h2⟩ := C87_binary_only_addresses_differ env at7 3 0 (.vec (.sptr (.int .i32))) (.list [.ref 7, .ref 7]) (by
    intro t h
    cases h with
    | refl => simp
    | vec h =>
      cases h with
      | refl => simp
      | sptr h => cases h; simp) (fun a h => by rw [hr a h]; decide) ⟨[0x82, 1, 0x87, 0, 0, 0, 5, 2, 0x87], [7]⟩ (by decide +kernel)
  exact ⟨ps, h1, h2 ascending at300 _ _ ⟨rfl, rfl, rfl, rfl, rfl, rfl, rfl⟩ copy fun _ _ => by decide⟩

/-- in the binary format the addresses are visible -/
example : write env at7 2 0 (.sptr (.int .i32)) (.ref 7) WSt.init = .ok () ⟨[1, 0x87, 0, 0, 0, 5], [7]⟩ ∧
    write env at300 2 0 (.sptr (.int .i32)) (.ref 300) WSt.init = .ok () ⟨[1, 0x41, 0x2c, 0, 0, 0, 5], [300]⟩ := by
  constructor <;> decide +kernel

end ReproducibleDemo

end Verif
