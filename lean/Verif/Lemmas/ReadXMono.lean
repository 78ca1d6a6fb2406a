import Verif.Lemmas.ReadX

/-!
# `readX` with a larger recursion budget
-/

namespace Verif

/-- the same outcome unless the budget is exhausted -/
def LeX {α : Type} (m m' : XR α) : Prop := ∀ s, m s = .fuel ∨ m s = m' s

namespace LeX
variable {α β : Type}

theorem refl (m : XR α) : LeX m m := fun _ => .inr rfl
theorem pure (a : α) : LeX (Pure.pure a : XR α) (Pure.pure a) := refl _
theorem ub : LeX (M.ub : XR α) M.ub := refl _
theorem stuck : LeX (M.stuck : XR α) M.stuck := refl _
theorem throw (e : BExc) (q : Val) : LeX (M.throw (e, q) : XR α) (M.throw (e, q)) := refl _
theorem holding (q : Val) (m : RM α) : LeX (holdingR q m) (holdingR q m) := refl _

theorem bind {m m' : XR α} {f f' : α → XR β} (hm : LeX m m') (hf : ∀ a, LeX (f a) (f' a)) : LeX (m >>= f) (m' >>= f') := by
  intro s
  simp only [M.bind_apply]
  rcases hm s with h | h
  · rw [h]
    exact .inl rfl
  · rw [← h]
    cases m s with
    | ok a s => exact hf a s
    | _ => exact .inr rfl

theorem within {m m' : XR α} (g : Val → Val) (h : LeX m m') : LeX (withinR g m) (withinR g m') := by
  intro s
  simp only [withinR]
  rcases h s with h | h
  · rw [h]
    exact .inl rfl
  · rw [← h]
    exact .inr rfl

theorem shared {m m' : XR α} (a : Nat) (h : LeX m m') : LeX (withinShared a m) (withinShared a m') := by
  intro s
  simp only [withinShared]
  rcases h s with h | h
  · rw [h]
    exact .inl rfl
  · rw [← h]
    exact .inr rfl

theorem ite {c : Prop} [Decidable c] {m n m' n' : XR α} (h1 : LeX m m') (h2 : LeX n n') : LeX (if c then m else n) (if c then m' else n') := by
  split
  · exact h1
  · exact h2

variable {E : Env} {self : Nat → Ty → Val → XR Val} {self' : Nat → Ty → Val → XR Val} (hs : ∀ w t p, LeX (self w t p) (self' w t p))
include hs

theorem elems (t : Ty) (done ps : List Val) : LeX (readElemsX self t done ps) (readElemsX self' t done ps) := by
  induction ps generalizing done with
  | nil => exact pure _
  | cons p ps ih => exact ((hs _ _ _).within _).bind fun v => (ih _).bind fun vs => pure _

theorem setItems (multi : Bool) (t : Ty) (k : Nat) (acc : List Val) :
    LeX (readSetItemsX E self multi t k acc) (readSetItemsX E self' multi t k acc) := by
  induction k generalizing acc with
  | zero => exact pure _
  | succ k ih => exact ((hs _ _ _).within _).bind fun v => .ite ub (ih _)

theorem mapItems (multi : Bool) (k t : Ty) (n : Nat) (acc : List (Val × Val)) :
    LeX (readMapItemsX E self multi k t n acc) (readMapItemsX E self' multi k t n acc) := by
  induction n generalizing acc with
  | zero => exact pure _
  | succ n ih =>
    refine ((hs _ _ _).within _).bind fun v => ?_
    rcases v with _ | _ | _ | _ | _ | _ | _ | _ | _ | _ | _ | _ | _ | _ | _ | _ | _ <;> try exact stuck
    rename_i l
    match l with
    | [a, b] => exact .ite ub (ih _)
    | [] => exact stuck
    | [_] => exact stuck
    | _ :: _ :: _ :: _ => exact stuck

theorem bases (w : Nat) (bs : List ClassId) (v : Val) : LeX (readBasesX self w bs v) (readBasesX self' w bs v) := by
  induction bs generalizing v with
  | nil => exact pure _
  | cons b bs ih => exact (hs _ _ _).bind fun v => ih v

theorem fields (w : Nat) (fs : List (Guard × Field)) (st : Store) : LeX (readFieldsX self w fs st) (readFieldsX self' w fs st) := by
  induction fs generalizing st with
  | nil => exact pure _
  | cons gf fs ih =>
    obtain ⟨g, f⟩ := gf
    simp only [readFieldsX]
    refine .ite ?_ (ih _)
    cases st.get? f.key with
    | none => exact stuck
    | some p => exact ((hs _ _ _).within _).bind fun v => ih _

theorem cls (ci : ClassInfo) (w : Nat) (p : Val) : LeX (readClassX self ci w p) (readClassX self' ci w p) := by
  refine .ite stuck ((bases hs _ _ _).bind fun v => ?_)
  cases v with
  | obj st => exact (holding _ _).bind fun w => (fields hs _ _ _).bind fun st => pure _
  | _ => exact stuck

theorem step (w : Nat) (t : Ty) (p : Val) : LeX (readXStep E self w t p) (readXStep E self' w t p) := by
  cases t with
  | enum u => exact (hs _ _ _).within _
  | pair a b =>
    rcases p with _ | _ | _ | _ | _ | _ | _ | _ | _ | _ | _ | _ | _ | _ | _ | _ | _ <;> try exact stuck
    rename_i l
    match l with
    | [x, y] => exact ((hs _ _ _).within _).bind fun x => ((hs _ _ _).within _).bind fun y => pure _
    | [] => exact stuck
    | [_] => exact stuck
    | _ :: _ :: _ :: _ => exact stuck
  | uptr t => exact (holding _ _).bind fun b => .ite (((hs _ _ _).within _).bind fun v => pure _) (pure _)
  | opt t => exact (holding _ _).bind fun b => .ite (((hs _ _ _).within _).bind fun v => pure _) (pure _)
  | sptr t =>
    refine (holding _ _).bind fun mode => .ite (pure _) ((holding _ _).bind fun id => .ite ?_ ?_)
    · exact (holding _ _).bind fun a => ((hs _ _ _).shared _).bind fun v => (holding _ _).bind fun _ => pure _
    · exact (holding _ _).bind fun a => pure _
  | vec t =>
    cases p with
    | list vs => exact (holding _ _).bind fun k => .ite (throw _ _) ((elems hs _ _ _).bind fun vs => pure _)
    | _ => exact stuck
  | set h m t =>
    cases p with
    | list vs => exact (holding _ _).bind fun k => (setItems hs _ _ _ _).bind fun vs => pure _
    | _ => exact stuck
  | map h m k t =>
    cases p with
    | map vs => exact (holding _ _).bind fun _ => (mapItems hs _ _ _ _ _).bind fun vs => pure _
    | _ => exact stuck
  | variant ts =>
    refine (holding _ _).bind fun i => ?_
    cases hti : ts[i]? with
    | none => exact throw _ _
    | some t =>
      have : LeX (do let v ← withinR (.alt i) (self 0 t (E.valInit t)); Pure.pure (Val.alt i v) : XR Val)
          (do let v ← withinR (.alt i) (self' 0 t (E.valInit t)); Pure.pure (Val.alt i v) : XR Val) := ((hs _ _ _).within _).bind fun v => pure _
      cases t <;> first | exact this | exact pure _
  | cls c =>
    simp only [readXStep]
    cases hc : E.cls c with
    | none => exact stuck
    | some ci => exact (LeX.cls hs _ _ _).bind fun r => pure _
  | cstr | sview | tuple | mono => exact fun s => .inr rfl
  | _ => exact holding _ _

end LeX

theorem readX_le (E : Env) {n m : Nat} (hnm : n ≤ m) (w : Nat) (t : Ty) (p : Val) : LeX (readX E n w t p) (readX E m w t p) := by
  induction n generalizing m w t p with
  | zero => exact fun _ => .inl rfl
  | succ n ih =>
    cases m with
    | zero => omega
    | succ m => exact LeX.step (fun w t v => ih (by omega) w t v) w t p

/-- A larger budget does not change the outcome. -/
theorem readX_mono {E : Env} {n m w : Nat} {t : Ty} {p : Val} {s : RSt} {r : Res (BExc × Val) RSt Val} (hnm : n ≤ m)
    (h : readX E n w t p s = r) (hr : r ≠ .fuel) : readX E m w t p s = r := by
  rcases readX_le E hnm w t p s with h' | h'
  · exact absurd (h.symm.trans h') hr
  · rw [← h', h]

end Verif
