import Verif.Model.Pull

/-!
# A proof principle for `pull`

A property of computations which holds for the primitive operations and is preserved by the combinators used in
`pullStep` holds for `pull` on all types, documents and targets.
-/

namespace Verif

structure Closed (I : (α : Type) → PM α → Prop) : Prop where
  pure : ∀ {α : Type} (a : α), I α (Pure.pure a)
  ub : ∀ {α : Type}, I α M.ub
  stuck : ∀ {α : Type}, I α M.stuck
  fuel : ∀ {α : Type}, I α M.outOfFuel
  bind : ∀ {α β : Type} (m : PM α) (f : α → PM β), I α m → (∀ a, I β (f a)) → I β (m >>= f)
  report : ∀ k e a, I Unit (report k e a)
  dup : I Unit reportDuplicateUnchecked
  member : ∀ {α : Type} n (m : PM α), I α m → I α (withMember n m)
  record : ∀ {α : Type} n (m : PM α), I α m → I α (withRecord n m)
  idx : ∀ {β : Type} (f : Json → β → PM β), (∀ j b, I β (f j b)) → ∀ js i b, I β (forIdx f js i b)

namespace Closed

variable {I : (α : Type) → PM α → Prop} (h : Closed I) {E : Env} {self : Ty → Json → Val → PM Val}
include h

theorem mismatch (e : JType) (j : Json) (v : Val) : I Val (mismatch e j v) :=
  h.bind _ _ (h.report _ _ _) (fun _ => h.pure _)

theorem castDouble (t : IntTy) (d : BitVec 64) : I Int (castDouble t d) := by
  unfold Verif.castDouble
  split
  · split
    · exact h.pure _
    · exact h.ub
  · exact h.ub

theorem numToInt (t : IntTy) (n : Num) : I Int (numToInt t n) := by
  cases n with
  | int i =>
    simp only [Verif.numToInt]
    split
    · exact h.pure _
    · exact h.castDouble _ _
  | dbl d => exact h.castDouble _ _

theorem pullTime (p : Str → Option Int) (j : Json) (v : Val) : I Val (pullTime p j v) := by
  unfold Verif.pullTime
  refine h.bind _ _ ?_ (fun s => ?_)
  · unfold pullTimeStr; split
    · exact h.pure _
    · exact h.bind _ _ (h.report _ _ _) (fun _ => h.pure _)
  · split
    · exact h.pure _
    · exact h.bind _ _ (h.report _ _ _) (fun _ => h.pure _)

variable (hs : ∀ t j v, I Val (self t j v))
include hs

theorem vecItem (t : Ty) (j : Json) (vs : List Val) : I _ (vecItem E self t j vs) :=
  h.bind _ _ (hs _ _ _) (fun _ => h.pure _)

theorem multisetItem (t : Ty) (j : Json) (vs : List Val) : I _ (multisetItem E self t j vs) := by
  refine h.bind _ _ (hs _ _ _) (fun v => ?_)
  split
  · exact h.ub
  · exact h.pure _

theorem setItem (t : Ty) (j : Json) (vs : List Val) : I _ (setItem E self t j vs) := by
  refine h.bind _ _ (hs _ _ _) (fun v => ?_)
  split
  · exact h.ub
  · dsimp only
    split
    · exact h.pure _
    · exact h.bind _ _ h.dup (fun _ => h.pure _)

theorem pullMapEntries (t : Ty) (ms : List (Key × Json)) (kvs : List (Val × Val)) :
    I _ (pullMapEntries E self t ms kvs) := by
  induction ms generalizing kvs with
  | nil => exact h.pure _
  | cons m ms ih =>
    obtain ⟨k, j⟩ := m
    exact h.bind _ _ (hs _ _ _) (fun _ => ih _)

theorem pullMultimapItems (t : Ty) (k : Str) (js : List Json) (kvs : List (Val × Val)) :
    I _ (pullMultimapItems E self t k js kvs) := by
  induction js generalizing kvs with
  | nil => exact h.pure _
  | cons j js ih => exact h.bind _ _ (hs _ _ _) (fun _ => ih _)

theorem pullMultimapEntries (t : Ty) (ms : List (Key × Json)) (kvs : List (Val × Val)) :
    I _ (pullMultimapEntries E self t ms kvs) := by
  induction ms generalizing kvs with
  | nil => exact h.pure _
  | cons m ms ih =>
    obtain ⟨k, j⟩ := m
    exact h.bind _ _ (h.pullMultimapItems hs _ _ _ _) (fun _ => ih _)

theorem pullTuple (ts : List Ty) (js : List Json) (vs : List Val) : I _ (pullTuple self ts js vs) := by
  induction ts generalizing js vs with
  | nil =>
    cases js <;> cases vs <;> first | exact h.pure _ | exact h.stuck
  | cons t ts ih =>
    cases js <;> cases vs <;>
      first
      | exact h.stuck
      | exact h.bind _ _ (hs _ _ _) (fun _ => h.bind _ _ (ih _ _) (fun _ => h.pure _))

theorem pullBases (bs : List ClassId) (ms : List (Key × Json)) (v : Val) : I _ (pullBases self bs ms v) := by
  induction bs generalizing v with
  | nil => exact h.pure _
  | cons b bs ih => exact h.bind _ _ (hs _ _ _) (fun _ => ih _)

theorem pullField (f : Field) (ms : List (Key × Json)) (st : Store) : I _ (pullField self f ms st) := by
  unfold Verif.pullField
  split
  · exact h.pure _
  · split
    · exact h.stuck
    · exact h.bind _ _ (h.member _ _ (hs _ _ _)) (fun _ => h.pure _)

theorem pullFields (fs : List Field) (ms : List (Key × Json)) (st : Store) :
    I _ (pullFields self fs ms st) := by
  induction fs generalizing st with
  | nil => exact h.pure _
  | cons f fs ih => exact h.bind _ _ (h.pullField hs _ _ _) (fun _ => ih _)

theorem pullStep (t : Ty) (j : Json) (v : Val) : I Val (pullStep E self t j v) := by
  unfold Verif.pullStep
  have wrap : ∀ {α : Type} {m : PM α} {g : α → Val}, I α m → I Val (m >>= fun a => Pure.pure (g a)) :=
    fun hm => h.bind _ _ hm (fun _ => h.pure _)
  split
  case h_1 => split <;> first | exact h.pure _ | exact h.mismatch _ _ _
  case h_2 =>
    split
    · split <;> first | exact wrap (h.numToInt _ _) | exact h.mismatch _ _ _
    · split <;> first | exact wrap (h.numToInt _ _) | exact h.mismatch _ _ _
    · split
      · split <;> first | exact wrap (h.numToInt _ _) | exact h.mismatch _ _ _
      · exact h.stuck
  case h_3 => split <;> first | exact h.pure _ | exact h.mismatch _ _ _
  case h_4 => split <;> first | exact h.pure _ | exact h.mismatch _ _ _
  case h_5 => split <;> first | exact h.pure _ | exact h.mismatch _ _ _
  case h_6 => split <;> first | exact h.pure _ | exact h.mismatch _ _ _
  case h_7 => split <;> first | exact h.pure _ | exact h.mismatch _ _ _
  case h_8 => split <;> first | exact h.pure _ | exact h.mismatch _ _ _
  case h_9 =>
    split
    · exact wrap (h.idx _ (fun _ _ => h.vecItem hs _ _ _) _ _ _)
    · exact h.mismatch _ _ _
  case h_10 =>
    split
    · refine wrap (h.idx _ (fun _ _ => ?_) _ _ _)
      split
      · exact h.multisetItem hs _ _ _
      · exact h.setItem hs _ _ _
    · exact h.mismatch _ _ _
  case h_11 =>
    split
    · split
      · refine wrap ?_
        split
        · exact h.pullMultimapEntries hs _ _ _
        · exact h.pullMapEntries hs _ _ _
      · exact h.stuck
    · exact h.mismatch _ _ _
  case h_12 => exact h.stuck
  case h_13 =>
    split
    · split
      · exact wrap (g := fun _ => v) (h.report _ _ _)
      · split
        · exact wrap (h.pullTuple hs _ _ _)
        · exact h.stuck
    · exact h.mismatch _ _ _
  case h_14 =>
    split
    · split
      · exact wrap (g := fun _ => v) (h.report _ _ _)
      · split
        · exact wrap (h.pullTuple hs _ _ _)
        · exact h.stuck
    · exact h.mismatch _ _ _
  case h_15 => split <;> first | exact h.pure _ | exact wrap (hs _ _ _)
  case h_16 => split <;> first | exact h.pure _ | exact wrap (hs _ _ _)
  case h_17 => split <;> first | exact h.pure _ | exact wrap (hs _ _ _)
  case h_18 =>
    split
    · split
      · split
        · exact wrap (g := fun _ => v) (h.report _ _ _)
        · split
          · exact wrap (g := fun _ => v) (h.report _ _ _)
          · exact h.pure _
          · exact wrap (hs _ _ _)
      · exact wrap (g := fun _ => v) (h.report _ _ _)
    · exact h.mismatch _ _ _
  case h_19 => exact h.stuck
  case h_20 =>
    split
    · exact h.stuck
    · split
      · exact h.stuck
      · split
        · refine h.bind _ _ (h.pullBases hs _ _ _) (fun v => ?_)
          split
          · refine wrap ?_
            split
            · exact h.record _ _ (h.pullFields hs _ _ _)
            · exact h.pullFields hs _ _ _
          · exact h.stuck
        · exact h.mismatch _ _ _
  case h_21 => exact h.pullTime _ _ _
  case h_22 => exact h.pullTime _ _ _

omit hs in
theorem pull (n : Nat) (t : Ty) (j : Json) (v : Val) : I Val (pull E n t j v) := by
  induction n generalizing t j v with
  | zero => exact h.fuel
  | succ n ih => exact h.pullStep ih t j v

end Closed
end Verif
