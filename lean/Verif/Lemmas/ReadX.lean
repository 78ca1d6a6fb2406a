import Verif.Model.ReadX
import Verif.Lemmas.BinSound

/-!
# `readX` is `read` with additional information; objects stay valid
-/

namespace Verif

/-- The same result, or the same exception with the same input left and the same table of pointers. -/
inductive AgreeX {α : Type} : Res (BExc × Val) RSt α → Res BExc RSt α → Prop
  | ok (a s) : AgreeX (.ok a s) (.ok a s)
  | exc {e q} {s s' : RSt} : s.inp = s'.inp → s.table = s'.table → s.heap.length = s'.heap.length → AgreeX (.exc (e, q) s) (.exc e s')
  | ub : AgreeX .ub .ub
  | stuck : AgreeX .stuck .stuck
  | fuel : AgreeX .fuel .fuel

def AgreesX {α : Type} (m : XR α) (m' : RM α) : Prop := ∀ s, AgreeX (m s) (m' s)

namespace AgreesX
variable {α β : Type}

theorem pure (a : α) : AgreesX (Pure.pure a) (Pure.pure a) := fun s => .ok a s
theorem ub : AgreesX (M.ub : XR α) M.ub := fun _ => .ub
theorem stuck : AgreesX (M.stuck : XR α) M.stuck := fun _ => .stuck
theorem throw (e : BExc) (q : Val) : AgreesX (M.throw (e, q) : XR α) (M.throw e) := fun _ => .exc rfl rfl rfl

theorem bind {m : XR α} {m' : RM α} {f : α → XR β} {f' : α → RM β} (hm : AgreesX m m') (hf : ∀ a, AgreesX (f a) (f' a)) :
    AgreesX (m >>= f) (m' >>= f') := by
  intro s
  have := hm s
  simp only [M.bind_apply]
  cases h1 : m s <;> cases h2 : m' s <;> rw [h1, h2] at this <;> cases this
  · exact hf _ _
  · exact .exc (by assumption) (by assumption) (by assumption)
  · exact .ub
  · exact .stuck
  · exact .fuel

theorem holding (q : Val) (m : RM α) : AgreesX (holdingR q m) m := by
  intro s
  simp only [holdingR]
  cases m s with
  | ok a s => exact .ok a s
  | exc e s => exact .exc rfl rfl rfl
  | ub => exact .ub
  | stuck => exact .stuck
  | fuel => exact .fuel

theorem within {m : XR α} {m' : RM α} (g : Val → Val) (h : AgreesX m m') : AgreesX (withinR g m) m' := by
  intro s
  have := h s
  simp only [withinR]
  cases h1 : m s <;> cases h2 : m' s <;> rw [h1, h2] at this <;> cases this
  · exact .ok _ _
  · exact .exc (by assumption) (by assumption) (by assumption)
  · exact .ub
  · exact .stuck
  · exact .fuel

theorem shared {m : XR α} {m' : RM α} (a : Nat) (h : AgreesX m m') : AgreesX (withinShared a m) m' := by
  intro s
  have := h s
  simp only [withinShared]
  cases h1 : m s <;> cases h2 : m' s <;> rw [h1, h2] at this <;> cases this
  · exact .ok _ _
  · exact .exc (by assumption) (by assumption) (by simpa using by assumption)
  · exact .ub
  · exact .stuck
  · exact .fuel

theorem ite {c : Prop} [Decidable c] {m n : XR α} {m' n' : RM α} (h1 : AgreesX m m') (h2 : AgreesX n n') :
    AgreesX (if c then m else n) (if c then m' else n') := by
  split
  · exact h1
  · exact h2

variable {E : Env} {self : Nat → Ty → Val → XR Val} {self' : Nat → Ty → Val → RM Val} (hs : ∀ w t p, AgreesX (self w t p) (self' w t p))
include hs

theorem elems (t : Ty) (done ps : List Val) : AgreesX (readElemsX self t done ps) (readElems self' t ps) := by
  induction ps generalizing done with
  | nil => exact pure _
  | cons p ps ih => exact ((hs _ _ _).within _).bind fun v => (ih _).bind fun vs => pure _

theorem setItems (multi : Bool) (t : Ty) (k : Nat) (acc : List Val) :
    AgreesX (readSetItemsX E self multi t k acc) (readSetItems E self' multi t k acc) := by
  induction k generalizing acc with
  | zero => exact pure _
  | succ k ih => exact ((hs _ _ _).within _).bind fun v => .ite ub (ih _)

theorem mapItems (multi : Bool) (k t : Ty) (n : Nat) (acc : List (Val × Val)) :
    AgreesX (readMapItemsX E self multi k t n acc) (readMapItems E self' multi k t n acc) := by
  induction n generalizing acc with
  | zero => exact pure _
  | succ n ih =>
    refine ((hs _ _ _).within _).bind fun v => ?_
    rcases v with _ | _ | _ | _ | _ | _ | _ | _ | _ | _ | _ | _ | _ | _ | _ | _ | _ <;> try exact stuck
    rename_i l
    match l with
    | [a, b] => exact .ite ub (ih _)
    | [] => exact stuck
    | [_] => exact stuck
    | _ :: _ :: _ :: _ => exact stuck

theorem bases (w : Nat) (bs : List ClassId) (v : Val) : AgreesX (readBasesX self w bs v) (readBases self' w bs v) := by
  induction bs generalizing v with
  | nil => exact pure _
  | cons b bs ih => exact (hs _ _ _).bind fun v => ih v

theorem fields (w : Nat) (fs : List (Guard × Field)) (st : Store) : AgreesX (readFieldsX self w fs st) (readFields self' w fs st) := by
  induction fs generalizing st with
  | nil => exact pure _
  | cons gf fs ih =>
    obtain ⟨g, f⟩ := gf
    simp only [readFieldsX, readFields]
    refine .ite ?_ (ih _)
    cases st.get? f.key with
    | none => exact stuck
    | some p => exact ((hs _ _ _).within _).bind fun v => ih _

theorem cls (ci : ClassInfo) (w : Nat) (p : Val) : AgreesX (readClassX self ci w p) (readClass self' ci w p) := by
  refine .ite stuck ((bases hs _ _ _).bind fun v => ?_)
  cases v with
  | obj st => exact (holding _ _).bind fun w => (fields hs _ _ _).bind fun st => pure _
  | _ => exact stuck

theorem step (w : Nat) (t : Ty) (p : Val) : AgreesX (readXStep E self w t p) (readStep E self' w t p) := by
  cases t with
  | enum u => exact (hs _ _ _).within _
  | pair a b =>
    rcases p with _ | _ | _ | _ | _ | _ | _ | _ | _ | _ | _ | _ | _ | _ | _ | _ | _ <;> try exact stuck
    rename_i l
    match l with
    | [x, y] => exact ((hs _ _ _).within _).bind fun x => ((hs _ _ _).within _).bind fun y => pure _
    | [] => exact stuck
    | [_] => exact stuck
    | _ :: _ :: _ :: _ => exact stuck
  | uptr t => exact (holding _ _).bind fun b => .ite (((hs _ _ _).within _).bind fun v => pure _) (pure _)
  | opt t => exact (holding _ _).bind fun b => .ite (((hs _ _ _).within _).bind fun v => pure _) (pure _)
  | sptr t =>
    refine (holding _ _).bind fun mode => .ite (pure _) ((holding _ _).bind fun id => .ite ?_ ?_)
    · exact (holding _ _).bind fun a => ((hs _ _ _).shared _).bind fun v => (holding _ _).bind fun _ => pure _
    · exact (holding _ _).bind fun a => pure _
  | vec t =>
    cases p with
    | list vs => exact (holding _ _).bind fun k => .ite (throw _ _) ((elems hs _ _ _).bind fun vs => pure _)
    | _ => exact stuck
  | set h m t =>
    cases p with
    | list vs => exact (holding _ _).bind fun k => (setItems hs _ _ _ _).bind fun vs => pure _
    | _ => exact stuck
  | map h m k t =>
    cases p with
    | map vs => exact (holding _ _).bind fun _ => (mapItems hs _ _ _ _ _).bind fun vs => pure _
    | _ => exact stuck
  | variant ts =>
    refine (holding _ _).bind fun i => ?_
    cases hti : ts[i]? with
    | none => exact throw _ _
    | some t =>
      have : AgreesX (do let v ← withinR (.alt i) (self 0 t (E.valInit t)); Pure.pure (Val.alt i v) : XR Val)
          (do let v ← self' 0 t (E.valInit t); Pure.pure (Val.alt i v) : RM Val) := ((hs _ _ _).within _).bind fun v => pure _
      cases t <;> first | exact this | exact pure _
  | cls c =>
    simp only [readXStep, readStep]
    cases hc : E.cls c with
    | none => exact stuck
    | some ci => exact (AgreesX.cls hs _ _ _).bind fun r => pure _
  | cstr | sview | tuple | mono => exact fun s => .stuck
  | _ => exact holding _ _

end AgreesX

theorem readX_agrees (E : Env) (n w : Nat) (t : Ty) (p : Val) : AgreesX (readX E n w t p) (read E n w t p) := by
  induction n generalizing w t p with
  | zero => exact fun s => .fuel
  | succ n ih => exact AgreesX.step ih w t p

theorem AgreesX.ok_iff {α : Type} {m : XR α} {m' : RM α} (h : AgreesX m m') {s a s'} : m s = .ok a s' ↔ m' s = .ok a s' := by
  have := h s
  cases h1 : m s <;> cases h2 : m' s <;> rw [h1, h2] at this <;> cases this <;> simp

theorem holdingR_exc {α : Type} {q : Val} {m : RM α} {s e q' s'} (h : holdingR q m s = .exc (e, q') s') : q' = q ∧ m s = .exc e s' := by
  simp only [holdingR] at h
  cases hm : m s <;> rw [hm] at h <;> cases h
  exact ⟨rfl, rfl⟩

theorem holdingR_ok {α : Type} {q : Val} {m : RM α} {s a s'} : holdingR q m s = .ok a s' ↔ m s = .ok a s' := (AgreesX.holding q m).ok_iff

theorem withinR_exc {α : Type} {g : Val → Val} {m : XR α} {s e q s'} (h : withinR g m s = .exc (e, q) s') :
    ∃ q0, m s = .exc (e, q0) s' ∧ q = g q0 := by
  simp only [withinR] at h
  cases hm : m s with
  | exc eq s1 => obtain ⟨e', q'⟩ := eq; rw [hm] at h; cases h; exact ⟨_, rfl, rfl⟩
  | _ => rw [hm] at h; cases h

theorem withinR_ok {α : Type} {g : Val → Val} {m : XR α} {s a s'} : withinR g m s = .ok a s' ↔ m s = .ok a s' := by
  simp only [withinR]
  cases hm : m s <;> simp

theorem withinShared_exc {α : Type} {a : Nat} {m : XR α} {s e q s'} (h : withinShared a m s = .exc (e, q) s') :
    ∃ q0 s0, m s = .exc (e, q0) s0 ∧ q = .ref a ∧ s' = { s0 with heap := s0.heap.set a q0 } := by
  simp only [withinShared] at h
  cases hm : m s with
  | exc eq s1 => obtain ⟨e', q'⟩ := eq; rw [hm] at h; cases h; exact ⟨_, _, rfl, rfl, rfl⟩
  | _ => rw [hm] at h; cases h

end Verif
