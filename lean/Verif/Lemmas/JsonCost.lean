import Verif.Spec.JsonCost
import Verif.Lemmas.BinCost
import Verif.Lemmas.ErrInv
import Verif.Props.JsonObjects
import Mathlib.Tactic.Ring

/-!
# Accounting for `pull`
-/

namespace Verif

theorem Json.volume_pos (j : Json) : 1 ≤ j.volume := by
  cases j <;> simp [Json.volume]

/-- number of values read from a member of a multimap object -/
def Json.copies : Json → Nat
  | .arr js => js.length
  | _ => 1

mutual
/-- like `Json.volume`, but if `mm` then names count once per element if the value is an array -/
def Json.vol (mm : Bool) : Json → Nat
  | .str s => s.length + 1
  | .arr js => Json.volL mm js + 1
  | .obj ms => Json.volM mm ms + 1
  | _ => 1
def Json.volL (mm : Bool) : List Json → Nat
  | [] => 0
  | j :: js => j.vol mm + Json.volL mm js
def Json.volM (mm : Bool) : List (Key × Json) → Nat
  | [] => 0
  | (k, j) :: ms => k.bytes.length * (bif mm then 1 + j.copies else 1) + 1 + j.vol mm + Json.volM mm ms
end

theorem Json.vol_pos (mm : Bool) (j : Json) : 1 ≤ j.vol mm := by
  cases j <;> simp [Json.vol]

theorem volL_le_of {mm : Bool} {f : Nat → Nat} (hf : ∀ a b, f a + f b ≤ f (a + b)) (js : List Json)
    (h : ∀ j ∈ js, j.vol mm ≤ f j.volume) : Json.volL mm js ≤ f (Json.volumeL js) := by
  induction js with
  | nil => simp [Json.volL]
  | cons j js ih =>
    have h1 := h j (.head _)
    have h2 := ih fun j hj => h j (.tail _ hj)
    have h3 := hf j.volume (Json.volumeL js)
    simp only [Json.volL, Json.volumeL]
    omega

theorem length_le_volumeL (js : List Json) : js.length ≤ Json.volumeL js := by
  induction js with
  | nil => simp
  | cons j js ih =>
    have := j.volume_pos
    simp only [Json.volumeL, List.length_cons]; omega

theorem Json.copies_le (j : Json) : 1 + j.copies ≤ 2 * j.volume := by
  have := j.volume_pos
  cases j with
  | arr js => have := length_le_volumeL js; simp only [Json.copies, Json.volume]; omega
  | _ => simp only [Json.copies]; omega

theorem vol_false (j : Json) : j.vol false = j.volume := by
  induction h : sizeOf j using Nat.strongRecOn generalizing j with
  | _ n ih =>
    subst h
    cases j with
    | arr js =>
      have : ∀ l : List Json, (∀ j ∈ l, j.vol false = j.volume) → Json.volL false l = Json.volumeL l := by
        intro l
        induction l with
        | nil => intro _; rfl
        | cons j l ihl =>
          intro h
          simp only [Json.volL, Json.volumeL, h j (.head _), ihl fun j hj => h j (.tail _ hj)]
      simp only [Json.vol, Json.volume]
      rw [this js fun j hj => ih _ (by have := List.sizeOf_lt_of_mem hj; simp only [Json.arr.sizeOf_spec]; omega) j rfl]
    | obj ms =>
      have : ∀ l : List (Key × Json), (∀ m ∈ l, m.2.vol false = m.2.volume) → Json.volM false l = Json.volumeM l := by
        intro l
        induction l with
        | nil => intro _; rfl
        | cons m l ihl =>
          intro h
          obtain ⟨k, j⟩ := m
          have h1 : j.vol false = j.volume := h (k, j) (.head _)
          simp only [Json.volM, Json.volumeM, h1, ihl fun j hj => h j (.tail _ hj), cond_false, Nat.mul_one]
      simp only [Json.vol, Json.volume]
      rw [this ms fun m hm => ih _ (by
        have := List.sizeOf_lt_of_mem hm
        obtain ⟨k, j⟩ := m
        simp only [Prod.mk.sizeOf_spec] at this
        simp only [Json.obj.sizeOf_spec]; omega) m.2 rfl]
    | _ => rfl

theorem vol_true (j : Json) : j.vol true ≤ j.volume ^ 2 := by
  induction h : sizeOf j using Nat.strongRecOn generalizing j with
  | _ n ih =>
    subst h
    cases j with
    | arr js =>
      have := volL_le_of (mm := true) (f := fun n => n ^ 2) (fun a b => by ring_nf; omega) js
        fun j hj => ih _ (by have := List.sizeOf_lt_of_mem hj; simp only [Json.arr.sizeOf_spec]; omega) j rfl
      simp only [Json.vol, Json.volume]
      ring_nf at this ⊢
      omega
    | obj ms =>
      have : ∀ l : List (Key × Json), (∀ m ∈ l, m.2.vol true ≤ m.2.volume ^ 2) → Json.volM true l ≤ Json.volumeM l ^ 2 := by
        intro l
        induction l with
        | nil => intro _; simp [Json.volM]
        | cons m l ihl =>
          intro h
          obtain ⟨k, j⟩ := m
          have h1 : j.vol true ≤ j.volume ^ 2 := h (k, j) (.head _)
          have h2 := ihl fun j hj => h j (.tail _ hj)
          have h3 := Nat.mul_le_mul_left k.bytes.length j.copies_le
          simp only [Json.volM, Json.volumeM, cond_true]
          generalize j.vol true = a at *
          generalize Json.volM true l = b at *
          generalize k.bytes.length = n at *
          generalize j.volume = v at *
          generalize Json.volumeM l = m at *
          generalize j.copies = c at *
          have e : (n + 1 + v + m) ^ 2 = n * (2 * v) + 1 + v ^ 2 + m ^ 2 + (n ^ 2 + 2 * n + 2 * v + 2 * m + 2 * n * m + 2 * v * m) := by ring
          rw [e]
          omega
      have := this ms fun m hm => ih _ (by
        have := List.sizeOf_lt_of_mem hm
        obtain ⟨k, j⟩ := m
        simp only [Prod.mk.sizeOf_spec] at this
        simp only [Json.obj.sizeOf_spec]; omega) m.2 rfl
      simp only [Json.vol, Json.volume]
      ring_nf at this ⊢
      omega
    | str s => simp only [Json.vol, Json.volume]; ring_nf; omega
    | _ => simp [Json.vol, Json.volume]

/-- `m` yields something of size at most `a` and reports at most `e` errors -/
def Cheap {α : Type} (m : PM α) (μ : α → Nat) (a e : Nat) : Prop :=
  ∀ s, match m s with
    | .ok x s' => μ x ≤ a ∧ errorCount s' ≤ errorCount s + e
    | .exc _ s' => errorCount s' ≤ errorCount s + e
    | _ => True

namespace Cheap
variable {α β : Type}

theorem pure {x : α} {μ : α → Nat} {a e : Nat} (h : μ x ≤ a) : Cheap (Pure.pure x) μ a e := fun s => ⟨h, by omega⟩
theorem ub {μ : α → Nat} {a e : Nat} : Cheap (M.ub : PM α) μ a e := fun _ => trivial
theorem stuck {μ : α → Nat} {a e : Nat} : Cheap (M.stuck : PM α) μ a e := fun _ => trivial

theorem weaken {m : PM α} {μ : α → Nat} {a e : Nat} (h : Cheap m μ a e) {ν : α → Nat} {b e' : Nat} (hν : ∀ x, μ x ≤ a → ν x ≤ b)
    (he : e ≤ e') : Cheap m ν b e' := by
  intro s
  have := h s
  cases hm : m s <;> rw [hm] at this <;> first | trivial | skip
  · exact ⟨hν _ this.1, by have := this.2; omega⟩
  · have : errorCount _ ≤ _ := this
    show errorCount _ ≤ _
    omega

theorem bind {m : PM α} {f : α → PM β} {μ : α → Nat} {ν : β → Nat} {a b e e' e'' : Nat} (hm : Cheap m μ a e)
    (hf : ∀ x, μ x ≤ a → Cheap (f x) ν b e') (he : e + e' ≤ e'') : Cheap (m >>= f) ν b e'' := by
  intro s
  have h1 := hm s
  rw [M.bind_apply]
  cases hs : m s with
  | ok x s1 =>
    rw [hs] at h1
    have h2 := hf x h1.1 s1
    have h3 : errorCount s1 ≤ _ := h1.2
    dsimp only
    cases hs2 : f x s1 with
    | ok y s2 => rw [hs2] at h2; exact ⟨h2.1, by have := h2.2; omega⟩
    | exc y s2 =>
      rw [hs2] at h2
      have : errorCount s2 ≤ _ := h2
      show errorCount s2 ≤ _
      omega
    | _ => trivial
  | exc y s1 =>
    rw [hs] at h1
    have : errorCount s1 ≤ _ := h1
    show errorCount s1 ≤ _
    omega
  | _ => trivial

theorem map {m : PM α} {f : α → β} {μ : α → Nat} {ν : β → Nat} {a b e : Nat} (hm : Cheap m μ a e) (hf : ∀ x, μ x ≤ a → ν (f x) ≤ b) :
    Cheap (m >>= fun x => Pure.pure (f x)) ν b e :=
  hm.bind (e' := 0) (fun x hx => .pure (hf x hx)) (by omega)

end Cheap

theorem cheap_report (k : ErrKind) (a b : JType) (n : Nat) : Cheap (report k a b) (fun _ => 0) n 1 := by
  intro s
  cases s with
  | none => exact ⟨Nat.zero_le _, by omega⟩
  | some st =>
    have : ∀ e, errorCount (some (st.push e)) ≤ errorCount (some st) + 1 := by
      intro e; simp [errorCount, ErrSt.push]
    by_cases h : st.throwOn &&& k.flag ≠ 0
    · simp only [report, if_pos h]; exact this _
    · simp only [report, if_neg h]; exact ⟨Nat.zero_le _, this _⟩

theorem cheap_modify (f : ErrSt → ErrSt) (hf : ∀ s, (f s).errs = s.errs) (n : Nat) :
    Cheap (M.modify (Option.map f) : PM Unit) (fun _ => 0) n 0 := by
  intro s
  cases s with
  | none => exact ⟨Nat.zero_le _, by simp [errorCount]⟩
  | some st => exact ⟨Nat.zero_le _, by simp [errorCount, hf]⟩

theorem cheap_setMember (m : Option Str) : Cheap (setMember m) (fun _ => 0) 0 0 :=
  cheap_modify (fun st => { st with member := m }) (fun _ => rfl) 0
theorem cheap_setRecord (m : Option Str) : Cheap (setRecord m) (fun _ => 0) 0 0 :=
  cheap_modify (fun st => { st with record := m }) (fun _ => rfl) 0
theorem cheap_setIndex (i : Nat) : Cheap (setIndex i) (fun _ => 0) 0 0 :=
  cheap_modify (fun st => { st with index := i }) (fun _ => rfl) 0

theorem Cheap.withMember {α : Type} {m : PM α} {μ : α → Nat} {a e : Nat} (h : Cheap m μ a e) (name : Str) :
    Cheap (withMember name m) μ a e := by
  refine Cheap.bind (m := getMember) (μ := fun _ => 0) (a := 0) (e := 0) (fun s => ⟨Nat.zero_le _, by simp⟩) (fun _ _ => ?_) (Nat.zero_add _).le
  refine Cheap.bind (e' := e) (cheap_setMember _) (fun _ _ => ?_) (Nat.zero_add _).le
  refine Cheap.bind (e' := 0) h (fun x hx => ?_) (Nat.le_refl _)
  exact (cheap_setMember _).map fun _ _ => hx

theorem Cheap.withRecord {α : Type} {m : PM α} {μ : α → Nat} {a e : Nat} (h : Cheap m μ a e) (name : Str) :
    Cheap (withRecord name m) μ a e := by
  refine Cheap.bind (m := getRecord) (μ := fun _ => 0) (a := 0) (e := 0) (fun s => ⟨Nat.zero_le _, by simp⟩) (fun _ _ => ?_) (Nat.zero_add _).le
  refine Cheap.bind (e' := e) (cheap_setRecord _) (fun _ _ => ?_) (Nat.zero_add _).le
  refine Cheap.bind (e' := 0) h (fun x hx => ?_) (Nat.le_refl _)
  exact (cheap_setRecord _).map fun _ _ => hx

theorem cheap_forIdx {β : Type} {f : Json → β → PM β} {μ : β → Nat} (mm : Bool) (W : Nat) (js : List Json)
    (hf : ∀ j ∈ js, ∀ b, Cheap (f j b) μ (μ b + W * j.vol mm) (3 * j.volume)) (i : Nat) (b : β) :
    Cheap (forIdx f js i b) μ (μ b + W * Json.volL mm js) (3 * Json.volumeL js) := by
  induction js generalizing i b with
  | nil => exact ((cheap_setIndex _).map (fun _ _ => by simp)).weaken (μ := μ) (a := μ b) (fun _ h => by omega) (Nat.zero_le _)
  | cons j js ih =>
    refine Cheap.bind (e := 0) (e' := 3 * j.volume + 3 * Json.volumeL js) (cheap_setIndex _) (fun _ _ => ?_)
      (by simp only [Json.volumeL]; omega)
    refine Cheap.bind (hf j (.head _) b) (fun x hx => ?_) (Nat.le_refl _)
    refine (ih (fun j hj => hf j (.tail _ hj)) (i + 1) x).weaken (fun y hy => ?_) (Nat.le_refl _)
    simp only [Json.volL, Nat.mul_add]
    omega

theorem cstrOf_length (s : Str) : (cstrOf s).length ≤ s.length := by
  unfold cstrOf
  exact (List.takeWhile_sublist _).length_le

/-! ## maps -/

theorem amountKV_mapSet (lt : Val → Val → Bool) (k x d : Val) (kvs : List (Val × Val)) :
    Val.amountKV (mapSet lt k x kvs) + ((mapFind lt k kvs).getD d).amount ≤ Val.amountKV kvs + x.amount + k.amount + 1 + d.amount ∧
    (∀ v, mapFind lt k kvs = some v → Val.amountKV (mapSet lt k x kvs) + v.amount = Val.amountKV kvs + x.amount) := by
  induction kvs with
  | nil => exact ⟨by simp only [mapSet, mapFind, Val.amountKV, Option.getD_none]; omega, by simp [mapFind]⟩
  | cons e kvs ih =>
    obtain ⟨k', v'⟩ := e
    simp only [mapSet, mapFind]
    split
    · exact ⟨by simp only [Val.amountKV, Option.getD_none]; omega, by simp⟩
    · split
      · refine ⟨by have := ih.1; simp only [Val.amountKV]; omega, fun v hv => ?_⟩
        have := ih.2 v hv
        simp only [Val.amountKV]; omega
      · refine ⟨by simp only [Val.amountKV, Option.getD_some]; omega, fun v hv => ?_⟩
        cases hv
        simp only [Val.amountKV]; omega

/-! ## members of objects -/

/-- what the members `Q` find in an object -/
def flatCost (g : Json → Nat) (Q : List Field) (ms : List (Key × Json)) : Nat :=
  (Q.map fun f => match firstNamed f.name ms with | some j => g j | none => 0).sum

theorem flatCost_append (g : Json → Nat) (Q Q' : List Field) (ms : List (Key × Json)) :
    flatCost g (Q ++ Q') ms = flatCost g Q ms + flatCost g Q' ms := by
  simp [flatCost]

theorem flatCost_cons (g : Json → Nat) (f : Field) (Q : List Field) (ms : List (Key × Json)) :
    flatCost g (f :: Q) ms = (match firstNamed f.name ms with | some j => g j | none => 0) + flatCost g Q ms := by
  simp [flatCost]

theorem firstNamed_cons (name : Str) (k : Key) (j : Json) (ms : List (Key × Json)) :
    firstNamed name ((k, j) :: ms) = if k.bytes = name then some j else firstNamed name ms := by
  simp only [← findMember_eq, findMember]

theorem flatCost_le (g : Json → Nat) (Q : List Field) (hQ : (Q.map Field.name).Nodup) (ms : List (Key × Json)) :
    flatCost g Q ms ≤ (ms.map fun m => g m.2).sum := by
  induction ms with
  | nil =>
    have : ∀ f : Field, firstNamed f.name [] = none := fun _ => rfl
    simp [flatCost, this]
  | cons m ms ih =>
    obtain ⟨k, j⟩ := m
    have key : ∀ Q : List Field, (Q.map Field.name).Nodup → flatCost g Q ((k, j) :: ms) ≤ g j + flatCost g Q ms ∧
        ((∀ f ∈ Q, f.name ≠ k.bytes) → flatCost g Q ((k, j) :: ms) = flatCost g Q ms) := by
      intro Q
      induction Q with
      | nil => intro _; simp [flatCost]
      | cons f Q ihQ =>
        intro hn
        rw [List.map_cons, List.nodup_cons] at hn
        obtain ⟨i1, i2⟩ := ihQ hn.2
        simp only [flatCost_cons, firstNamed_cons]
        by_cases hk : k.bytes = f.name
        · rw [if_pos hk]
          have := i2 fun f' hf' e => hn.1 (by rw [← hk, ← e]; exact List.mem_map_of_mem hf')
          refine ⟨by rw [this]; dsimp only; omega, fun h => absurd hk.symm (h f (.head _))⟩
        · rw [if_neg hk]
          exact ⟨by omega, fun h => by rw [i2 fun f hf => h f (.tail _ hf)]⟩
    have := (key Q hQ).1
    simp only [List.map_cons, List.sum_cons]
    omega

theorem sum_volumeM {mm : Bool} (W : Nat) (ms : List (Key × Json)) : (ms.map fun m => W * m.2.vol mm).sum ≤ W * Json.volM mm ms := by
  induction ms with
  | nil => simp [Json.volM]
  | cons m ms ih =>
    obtain ⟨k, j⟩ := m
    simp only [List.map_cons, List.sum_cons, Json.volM, Nat.mul_add]
    omega

theorem sum_volume3 (ms : List (Key × Json)) : (ms.map fun m => 3 * m.2.volume).sum ≤ 3 * Json.volumeM ms := by
  induction ms with
  | nil => simp [Json.volumeM]
  | cons m ms ih =>
    obtain ⟨k, j⟩ := m
    simp only [List.map_cons, List.sum_cons, Json.volumeM]
    omega

/-! ## the accounting -/

/-- what is going to be shown of `pull` -/
def GoodPull (mm : Bool) (S : Ty → Prop) (C W : Nat) (self : Ty → Json → Val → PM Val) : Prop :=
  ∀ t j p, S t → Cheap (self t j p) (fun x => x.amount + W) (p.amount + W * j.vol mm + C * t.wraps) (3 * j.volume - 1)

/-- what is going to be shown of `pull` for classes -/
def GoodCls (mm : Bool) (E : Env) (S : Ty → Prop) (W : Nat) (self : Ty → Json → Val → PM Val) : Prop :=
  ∀ c ms p Q, S (.cls c) → FlatPull E [c] Q →
    Cheap (self (.cls c) (.obj ms) p) Val.amount (p.amount + flatCost (fun j => W * j.vol mm) Q ms) (flatCost (fun j => 3 * j.volume) Q ms)

section
variable {E : Env} {S : Ty → Prop} {mm : Bool} {C B W : Nat} {self : Ty → Json → Val → PM Val}
  (hW : W = C * (B + 1)) (hB : ∀ t, S t → t.wraps ≤ B) (hg : GoodPull mm S C W self)
include hW hB hg

theorem wraps_le {t : Ty} (ht : S t) : C * t.wraps + C ≤ W := by
  have := Nat.mul_le_mul_left C (hB t ht)
  rw [hW, Nat.mul_add]
  omega

/-- a new object -/
theorem cheap_new {t : Ty} (ht : S t) (j : Json) {p : Val} (hp : p.amount + 1 ≤ C) :
    Cheap (self t j p) (fun x => x.amount + 1) (W * j.vol mm) (3 * j.volume - 1) :=
  (hg t j p ht).weaken (fun x hx => by have := wraps_le hW hB hg ht; omega) (Nat.le_refl _)

/-- an existing object -/
theorem cheap_upd {t : Ty} (ht : S t) (j : Json) (p : Val) :
    Cheap (self t j p) Val.amount (p.amount + W * j.vol mm) (3 * j.volume - 1) :=
  (hg t j p ht).weaken (fun x hx => by have := wraps_le hW hB hg ht; omega) (Nat.le_refl _)

variable (hC : NewObjectsUpTo E S C)
include hC

theorem cheap_vecItem {t : Ty} (ht : S t) (j : Json) (vs : List Val) :
    Cheap (vecItem E self t j vs) Val.amountL (Val.amountL vs + W * j.vol mm) (3 * j.volume) :=
  ((cheap_new hW hB hg ht j (hC t ht).1).map (fun x hx => by rw [amountL_append]; simp only [Val.amountL]; omega)).weaken
    (fun _ h => h) (by omega)

theorem cheap_multisetItem {t : Ty} (ht : S t) (j : Json) (vs : List Val) :
    Cheap (multisetItem E self t j vs) Val.amountL (Val.amountL vs + W * j.vol mm) (3 * j.volume) := by
  refine Cheap.bind (e' := 0) (cheap_new hW hB hg ht j (hC t ht).2) (fun x hx => ?_) (by omega)
  split
  · exact .ub
  · exact .pure (by rw [amountL_insertMulti]; omega)

theorem cheap_setItem {t : Ty} (ht : S t) (j : Json) (vs : List Val) :
    Cheap (setItem E self t j vs) Val.amountL (Val.amountL vs + W * j.vol mm) (3 * j.volume) := by
  refine Cheap.bind (e' := 1) (cheap_new hW hB hg ht j (hC t ht).2) (fun x hx => ?_) (by have := j.volume_pos; omega)
  have := amountL_insertUniq (E.lt t) x vs
  split
  · exact .ub
  · dsimp only
    split
    · exact .pure (by omega)
    · refine Cheap.map (μ := fun _ => 0) (a := 0) ?_ fun _ _ => by omega
      intro s
      cases s with
      | none => trivial
      | some st => exact cheap_report _ _ _ 0 (some st)

theorem cheap_mapEntries {t : Ty} (ht : S t) (ms : List (Key × Json)) (kvs : List (Val × Val)) :
    Cheap (pullMapEntries E self t ms kvs) Val.amountKV (Val.amountKV kvs + W * Json.volM mm ms) (3 * Json.volumeM ms) := by
  induction ms generalizing kvs with
  | nil => exact .pure (by omega)
  | cons m ms ih =>
    obtain ⟨k, j⟩ := m
    have hk := cstrOf_length k.bytes
    have hW1 : 1 ≤ W := by
      have h1 := (hC t ht).1
      have := wraps_le hW hB hg ht
      omega
    have hk' : k.bytes.length + 1 ≤ W * (k.bytes.length * (bif mm then 1 + j.copies else 1) + 1) := by
      refine Nat.le_trans ?_ (Nat.le_mul_of_pos_left _ hW1)
      have : 1 ≤ (bif mm then 1 + j.copies else 1) := by cases mm <;> simp
      have := Nat.le_mul_of_pos_right k.bytes.length this
      omega
    cases hf : mapFind (E.lt .str) (.str (cstrOf k.bytes)) kvs with
    | some v =>
      simp only [pullMapEntries, hf, Option.getD_some]
      refine Cheap.bind (e' := 3 * Json.volumeM ms) (cheap_upd hW hB hg ht j v) (fun x hx => ?_) (by simp only [Json.volumeM]; omega)
      have := (amountKV_mapSet (E.lt .str) (.str (cstrOf k.bytes)) x x kvs).2 v hf
      refine (ih _).weaken (fun y hy => ?_) (Nat.le_refl _)
      simp only [Json.volM, Nat.mul_add] at hy hk' ⊢
      omega
    | none =>
      simp only [pullMapEntries, hf, Option.getD_none]
      refine Cheap.bind (e' := 3 * Json.volumeM ms) (cheap_new hW hB hg ht j (hC t ht).1) (fun x hx => ?_)
        (by simp only [Json.volumeM]; omega)
      have := (amountKV_mapSet (E.lt .str) (.str (cstrOf k.bytes)) x .null kvs).1
      rw [hf] at this
      refine (ih _).weaken (fun y hy => ?_) (Nat.le_refl _)
      simp only [Json.volM, Nat.mul_add, Val.amount, Option.getD_none] at hy hk' this ⊢
      omega

theorem cheap_multimapItems {t : Ty} (ht : S t) (key : Str) (js : List Json) (kvs : List (Val × Val)) :
    Cheap (pullMultimapItems E self t key js kvs) Val.amountKV (Val.amountKV kvs + key.length * js.length + W * Json.volL mm js)
      (3 * Json.volumeL js) := by
  induction js generalizing kvs with
  | nil => exact .pure (by omega)
  | cons j js ih =>
    refine Cheap.bind (e' := 3 * Json.volumeL js) (cheap_new hW hB hg ht j (hC t ht).1) (fun x hx => ?_) (by simp only [Json.volumeL]; omega)
    refine (ih _).weaken (fun y hy => ?_) (Nat.le_refl _)
    rw [amountKV_mapInsertMulti] at hy
    simp only [Json.volL, Nat.mul_add, Val.amount, List.length_cons] at hy ⊢
    omega

theorem cheap_multimapEntries (hmm : mm = true) {t : Ty} (ht : S t) (ms : List (Key × Json)) (kvs : List (Val × Val)) :
    Cheap (pullMultimapEntries E self t ms kvs) Val.amountKV (Val.amountKV kvs + W * Json.volM mm ms) (3 * Json.volumeM ms) := by
  induction ms generalizing kvs with
  | nil => exact .pure (by omega)
  | cons m ms ih =>
    obtain ⟨k, j⟩ := m
    have hk := cstrOf_length k.bytes
    have hW1 : 1 ≤ W := by
      have h1 := (hC t ht).1
      have := wraps_le hW hB hg ht
      omega
    have key : ∀ js : List Json, js.length = j.copies → Json.volL mm js ≤ j.vol mm → Json.volumeL js ≤ j.volume →
        Cheap (pullMultimapItems E self t (cstrOf k.bytes) js kvs >>= fun kvs => pullMultimapEntries E self t ms kvs) Val.amountKV
          (Val.amountKV kvs + W * Json.volM mm ((k, j) :: ms)) (3 * Json.volumeM ((k, j) :: ms)) := by
      intro js h1 h2 h3
      refine Cheap.bind (e' := 3 * Json.volumeM ms) (cheap_multimapItems hW hB hg hC ht (cstrOf k.bytes) js kvs) (fun x hx => ?_)
        (by simp only [Json.volumeM]; omega)
      refine (ih _).weaken (fun y hy => ?_) (Nat.le_refl _)
      subst hmm
      have a1 := Nat.mul_le_mul_left W h2
      have a2 : (cstrOf k.bytes).length * js.length ≤ W * (k.bytes.length * (1 + j.copies) + 1) := by
        refine Nat.le_trans ?_ (Nat.le_mul_of_pos_left _ hW1)
        rw [h1]
        have := Nat.mul_le_mul hk (Nat.le_add_left j.copies 1)
        omega
      simp only [Json.volM, Nat.mul_add, cond_true] at hy a1 a2 ⊢
      omega
    cases j with
    | arr js => exact key js rfl (by simp only [Json.vol]; omega) (by simp only [Json.volume]; omega)
    | _ => exact key [_] rfl (by simp only [Json.volL]; omega) (by simp only [Json.volumeL]; omega)

theorem cheap_tuple (ts : List Ty) (hts : ∀ t ∈ ts, S t) (js : List Json) (vs : List Val) :
    Cheap (pullTuple self ts js vs) Val.amountL (Val.amountL vs + W * Json.volL mm js) (3 * Json.volumeL js) := by
  induction ts generalizing js vs with
  | nil =>
    cases js <;> cases vs <;> first | exact .stuck | skip
    exact .pure (by omega)
  | cons t ts ih =>
    cases js <;> cases vs <;> first | exact .stuck | skip
    rename_i j js v vs
    refine Cheap.bind (e' := 3 * Json.volumeL js) (cheap_upd hW hB hg (hts t (.head _)) j v) (fun x hx => ?_)
      (by simp only [Json.volumeL]; omega)
    refine (ih (fun t ht => hts t (.tail _ ht)) js vs).map fun y hy => ?_
    simp only [Json.volL, Nat.mul_add, Val.amountL] at hy ⊢
    omega

omit hC in
theorem cheap_field (f : Field) (hf : S f.ty) (ms : List (Key × Json)) (st : Store) :
    Cheap (pullField self f ms st) Val.amountF (Val.amountF st + flatCost (fun j => W * j.vol mm) [f] ms)
      (flatCost (fun j => 3 * j.volume) [f] ms) := by
  unfold pullField
  rw [findMember_eq]
  cases hj : firstNamed f.name ms with
  | none => exact .pure (by omega)
  | some j =>
    cases hk : st.get? f.key with
    | none => exact .stuck
    | some p =>
      refine (((cheap_upd hW hB hg hf j p).withMember f.name).map (ν := Val.amountF) (b := Val.amountF st + W * j.vol mm) fun x hx => ?_).weaken
        (fun y hy => ?_) ?_
      · have := amountF_set st f.key p x hk
        omega
      · simp only [flatCost, List.map_cons, List.map_nil, hj, List.sum_cons, List.sum_nil]
        omega
      · simp only [flatCost, List.map_cons, List.map_nil, hj, List.sum_cons, List.sum_nil]
        exact Nat.le_trans (Nat.sub_le _ _) (Nat.le_add_right _ _)

omit hC in
theorem cheap_fields (fs : List Field) (hfs : ∀ f ∈ fs, S f.ty) (ms : List (Key × Json)) (st : Store) :
    Cheap (pullFields self fs ms st) Val.amountF (Val.amountF st + flatCost (fun j => W * j.vol mm) fs ms)
      (flatCost (fun j => 3 * j.volume) fs ms) := by
  induction fs generalizing st with
  | nil => exact .pure (by omega)
  | cons f fs ih =>
    have e1 := flatCost_append (fun j => W * j.vol mm) [f] fs ms
    have e2 := flatCost_append (fun j => 3 * j.volume) [f] fs ms
    rw [List.singleton_append] at e1 e2
    rw [e1, e2]
    refine Cheap.bind (cheap_field hW hB hg f (hfs f (.head _)) ms st) (fun x hx => ?_) (Nat.le_refl _)
    exact (ih (fun f hf => hfs f (.tail _ hf)) x).weaken (fun y hy => by omega) (Nat.le_refl _)

omit hW hB hg hC in
theorem cheap_bases (hc : GoodCls mm E S W self) {bs : List ClassId} {Q : List Field} (h : FlatPull E bs Q) (hbs : ∀ b ∈ bs, S (.cls b))
    (ms : List (Key × Json)) (p : Val) :
    Cheap (pullBases self bs ms p) Val.amount (p.amount + flatCost (fun j => W * j.vol mm) Q ms)
      (flatCost (fun j => 3 * j.volume) Q ms) := by
  induction bs generalizing Q p with
  | nil => cases h; exact .pure (by omega)
  | cons b bs ih =>
    cases h with
    | @cons _ ci _ bq q h1 h2 h3 h4 =>
      have hb : FlatPull E [b] (bq ++ ci.json.pullFields ++ []) := .cons h1 h2 h3 .nil
      rw [List.append_nil] at hb
      rw [flatCost_append, flatCost_append _ _ q]
      refine Cheap.bind (hc b ms p _ (hbs b (.head _)) hb) (fun x hx => ?_) (Nat.le_refl _)
      exact (ih h4 (fun b hb => hbs b (.tail _ hb)) x).weaken (fun y hy => by omega) (Nat.le_refl _)

variable (hS : ∀ t, S t → ∀ t' ∈ tyNext E t, S t')
include hS

omit hC in
theorem goodCls_step (hc : GoodCls mm E S W self) : GoodCls mm E S W (pullStep E self) := by
  intro c ms p Q hs h
  cases h with
  | @cons _ ci _ bq q h1 h2 h3 h4 =>
    cases h4
    have hn : ∀ t' ∈ ci.json.bases.map Ty.cls ++ ci.json.pullFields.map Field.ty, S t' := by
      have := hS _ hs
      simpa only [tyNext, h1] using this
    rw [List.append_nil, flatCost_append, flatCost_append]
    simp only [pullStep, h1, h2, Bool.true_eq_false, if_false]
    refine Cheap.bind (cheap_bases hc h3 (fun b hb => hn _ (List.mem_append_left _ (List.mem_map_of_mem hb))) ms p) (fun x hx => ?_)
      (Nat.le_refl _)
    cases x with
    | obj st =>
      have hf := cheap_fields hW hB hg ci.json.pullFields
        (fun f hf => hn _ (List.mem_append_right _ (List.mem_map_of_mem hf))) ms st
      simp only [Val.amount] at hx
      dsimp only
      split
      · exact (hf.withRecord _).map fun y hy => by simp only [Val.amount]; omega
      · exact hf.map fun y hy => by simp only [Val.amount]; omega
    | _ => exact .stuck

omit hS hC in
theorem cheap_mismatch {t : Ty} {a : JType} {j : Json} {p : Val} :
    Cheap (mismatch a j p) (fun x => x.amount + W) (p.amount + W * j.vol mm + C * t.wraps) (3 * j.volume - 1) := by
  have h1 := j.volume_pos
  have h2 := Nat.le_mul_of_pos_right W (j.vol_pos mm)
  exact ((cheap_report _ _ _ 0).map fun _ _ => by omega).weaken (fun _ h => h) (by omega)

theorem goodPull_step (hmm : ∀ h k t, S (.map h true k t) → mm = true) (hR : ReadOnce E S) (hc : GoodCls mm E S W self) :
    GoodPull mm S C W (pullStep E self) := by
  intro t j p ht
  have hj := j.volume_pos
  have hv := Nat.le_mul_of_pos_right W (j.vol_pos mm)
  have hW1 : 1 ≤ W := by
    have h1 := (hC t ht).1
    have := wraps_le hW hB hg ht
    omega
  have mis : ∀ a, Cheap (mismatch a j p) (fun x => x.amount + W) (p.amount + W * j.vol mm + C * t.wraps) (3 * j.volume - 1) :=
    fun a => cheap_mismatch hW hB hg
  have sc : ∀ x : Val, x.amount = 0 → Cheap (pure x : PM Val) (fun x => x.amount + W) (p.amount + W * j.vol mm + C * t.wraps)
      (3 * j.volume - 1) := fun x hx => .pure (by omega)
  have keep : Cheap (pure p : PM Val) (fun x => x.amount + W) (p.amount + W * j.vol mm + C * t.wraps) (3 * j.volume - 1) :=
    .pure (by omega)
  have castD : ∀ it d, Cheap (castDouble it d) (fun _ => 0) 0 0 := by
    intro it d
    unfold castDouble
    split
    · split
      · exact .pure (Nat.le_refl _)
      · exact .ub
    · exact .ub
  have n2i : ∀ it n, Cheap (numToInt it n) (fun _ => 0) 0 0 := by
    intro it n
    unfold numToInt
    cases n with
    | int i =>
      dsimp only
      split
      · exact .pure (Nat.le_refl _)
      · exact castD _ _
    | dbl d => exact castD _ _
  have rep : ∀ k a b, Cheap (report k a b >>= fun _ => pure p) (fun x => x.amount + W) (p.amount + W * j.vol mm + C * t.wraps)
      (3 * j.volume - 1) := fun k a b =>
    ((cheap_report k a b 0).map (b := p.amount + W * j.vol mm + C * t.wraps) fun _ _ => by omega).weaken (fun _ h => h) (by omega)
  have time : ∀ parse, Cheap (pullTime parse j p) (fun x => x.amount + W) (p.amount + W * j.vol mm + C * t.wraps) (3 * j.volume - 1) := by
    intro parse
    have h1 : Cheap (pullTimeStr j) (fun _ => 0) 0 1 := by
      unfold pullTimeStr
      split
      · exact .pure (Nat.le_refl _)
      · exact (cheap_report _ _ _ 0).map fun _ _ => Nat.le_refl _
    refine Cheap.bind (e' := 1) h1 (fun s _ => ?_) (by omega)
    split
    · exact .pure (by simp only [Val.amount]; omega)
    · exact (cheap_report _ _ _ 0).map fun _ _ => by omega
  have sub := hS t ht
  cases t with
  | bool => cases j <;> first | exact sc _ rfl | exact mis _
  | int it =>
    cases it <;> cases j <;> first | exact mis _ | exact .stuck | exact (Cheap.map (n2i _ _) (fun _ _ => by simp only [Val.amount]; omega)).weaken (fun _ h => h) (Nat.zero_le _)
  | f32 => cases j <;> first | exact sc _ rfl | exact mis _
  | f64 => cases j <;> first | exact sc _ rfl | exact mis _
  | enum u =>
    simp only [pullStep]
    split
    · exact sc _ rfl
    · exact mis _
  | str =>
    cases j with
    | str s =>
      refine .pure ?_
      have := cstrOf_length s
      have := Nat.le_mul_of_pos_left s.length hW1
      simp only [Val.amount, Json.vol, Nat.mul_add]
      omega
    | _ => exact mis _
  | cstr => cases j <;> first | exact keep | exact mis _
  | sview => cases j <;> first | exact keep | exact mis _
  | vec t =>
    cases j with
    | arr js =>
      have := cheap_forIdx mm W js (fun j _ b => cheap_vecItem hW hB hg hC (sub t (by simp [tyNext])) j b) 0 []
      exact (this.map fun x hx => by simp only [Val.amountL, Val.amount, Json.vol, Nat.mul_add] at hx ⊢; omega).weaken (fun _ h => h)
        (by simp only [Json.volume]; omega)
    | _ => exact mis _
  | set h m t =>
    cases j with
    | arr js =>
      have hs := sub t (by simp [tyNext])
      have : Cheap (forIdx (if m then multisetItem E self t else setItem E self t) js 0 []) Val.amountL
          (Val.amountL [] + W * Json.volL mm js) (3 * Json.volumeL js) := by
        cases m
        · exact cheap_forIdx mm W js (fun j _ b => cheap_setItem hW hB hg hC hs j b) 0 []
        · exact cheap_forIdx mm W js (fun j _ b => cheap_multisetItem hW hB hg hC hs j b) 0 []
      exact (this.map fun x hx => by simp only [Val.amountL, Val.amount, Json.vol, Nat.mul_add] at hx ⊢; omega).weaken (fun _ h => h)
        (by simp only [Json.volume]; omega)
    | _ => exact mis _
  | map h m k t =>
    cases k with
    | str =>
      cases j with
      | obj ms =>
        cases p with
        | map kvs =>
          have hs := sub t (by simp [tyNext])
          have : Cheap (if m then pullMultimapEntries E self t ms kvs else pullMapEntries E self t ms kvs) Val.amountKV
              (Val.amountKV kvs + W * Json.volM mm ms) (3 * Json.volumeM ms) := by
            cases m
            · exact cheap_mapEntries hW hB hg hC hs ms kvs
            · exact cheap_multimapEntries hW hB hg hC (hmm _ _ _ ht) hs ms kvs
          exact (this.map fun x hx => by simp only [Val.amount, Json.vol, Nat.mul_add] at hx ⊢; omega).weaken (fun _ h => h)
            (by simp only [Json.volume]; omega)
        | _ => exact .stuck
      | _ => exact mis _
    | _ => exact .stuck
  | pair a b =>
    cases j with
    | arr js =>
      simp only [pullStep]
      split
      · exact rep _ _ _
      · cases p with
        | tup vs =>
          refine ((cheap_tuple hW hB hg hC [a, b] sub js vs).map fun x hx => ?_).weaken (fun _ h => h) (by simp only [Json.volume]; omega)
          simp only [Val.amount, Json.vol, Nat.mul_add] at hx ⊢; omega
        | _ => exact .stuck
    | _ => exact mis _
  | tuple ts =>
    cases j with
    | arr js =>
      simp only [pullStep]
      split
      · exact rep _ _ _
      · cases p with
        | tup vs =>
          refine ((cheap_tuple hW hB hg hC ts sub js vs).map fun x hx => ?_).weaken (fun _ h => h) (by simp only [Json.volume]; omega)
          simp only [Val.amount, Json.vol, Nat.mul_add] at hx ⊢; omega
        | _ => exact .stuck
    | _ => exact mis _
  | uptr t =>
    have hs := sub t (by simp [tyNext])
    have h1 := hg t j (E.valInit t) hs
    have h2 := (hC t hs).1
    have h3 : Cheap (self t j (E.valInit t) >>= fun v => pure (Val.ptr v) : PM Val) (fun x : Val => x.amount + W)
        (p.amount + W * j.vol mm + C * (Ty.uptr t).wraps) (3 * j.volume - 1) :=
      h1.map fun x hx => by simp only [Val.amount, Ty.wraps, Nat.mul_add] at hx ⊢; omega
    cases j <;> first | exact sc _ rfl | exact h3
  | sptr t =>
    have hs := sub t (by simp [tyNext])
    have h1 := hg t j (E.valInit t) hs
    have h2 := (hC t hs).1
    have h3 : Cheap (self t j (E.valInit t) >>= fun v => pure (Val.ptr v) : PM Val) (fun x : Val => x.amount + W)
        (p.amount + W * j.vol mm + C * (Ty.sptr t).wraps) (3 * j.volume - 1) :=
      h1.map fun x hx => by simp only [Val.amount, Ty.wraps, Nat.mul_add] at hx ⊢; omega
    cases j <;> first | exact sc _ rfl | exact h3
  | opt t =>
    have hs := sub t (by simp [tyNext])
    have h1 := hg t j (E.valInit t) hs
    have h2 := (hC t hs).1
    have h3 : Cheap (self t j (E.valInit t) >>= fun v => pure (Val.some v) : PM Val) (fun x : Val => x.amount + W)
        (p.amount + W * j.vol mm + C * (Ty.opt t).wraps) (3 * j.volume - 1) :=
      h1.map fun x hx => by simp only [Val.amount, Ty.wraps, Nat.mul_add] at hx ⊢; omega
    cases j <;> first | exact sc _ rfl | exact h3
  | variant ts =>
    cases j with
    | obj ms =>
      simp only [pullStep, findMember_eq]
      cases hi : firstNamed (lit "index") ms with
      | none => exact rep _ _ _
      | some ji =>
        cases hd : firstNamed (lit "data") ms with
        | none => exact rep _ _ _
        | some jd =>
          dsimp only
          cases uint64? ji with
          | none => exact rep _ _ _
          | some i =>
            dsimp only
            cases hts : ts[i]? with
            | none => exact rep _ _ _
            | some t' =>
              have hs := sub t' (List.mem_of_getElem? hts)
              have hvol : ∀ (g : Json → Nat), g jd ≤ (ms.map fun m => g m.2).sum := by
                intro g
                have := flatCost_le g [⟨0, lit "data", .mono⟩] (by simp) ms
                simpa [flatCost, hd] using this
              have e1 := hvol (fun j => W * j.vol mm)
              have e2 := hvol (fun j => 3 * j.volume)
              have e3 := sum_volumeM (mm := mm) W ms
              have e4 := sum_volume3 ms
              have := (cheap_new hW hB hg hs jd (hC t' hs).1).map (f := fun v => Val.alt i v) (ν := fun x => x.amount + W)
                (b := p.amount + W * (Json.obj ms).vol mm + C * (Ty.variant ts).wraps) fun x hx => by
                  simp only [Val.amount, Json.vol, Nat.mul_add] at hx ⊢; omega
              have := this.weaken (e' := 3 * (Json.obj ms).volume - 1) (fun _ h => h) (by simp only [Json.volume]; omega)
              cases t' <;> first | exact sc _ rfl | exact this
    | _ => exact mis _
  | mono => exact .stuck
  | cls c =>
    obtain ⟨Q, hQ, hn⟩ := hR c ht
    have hcl := goodCls_step hW hB hg hS hc
    cases j with
    | obj ms =>
      have e1 := flatCost_le (fun j => W * j.vol mm) Q hn ms
      have e2 := flatCost_le (fun j => 3 * j.volume) Q hn ms
      have e3 := sum_volumeM (mm := mm) W ms
      have e4 := sum_volume3 ms
      refine (hcl c ms p Q ht hQ).weaken (fun x hx => ?_) (by simp only [Json.volume]; omega)
      simp only [Json.vol, Nat.mul_add]; omega
    | _ =>
      simp only [pullStep]
      split
      · exact .stuck
      · split
        · exact .stuck
        · exact mis _
  | dateTime => exact time _
  | timeSpan => exact time _

end

theorem good_pull {E : Env} {S : Ty → Prop} {mm : Bool} {C B : Nat} (hB : ∀ t, S t → t.wraps ≤ B) (hC : NewObjectsUpTo E S C)
    (hS : ∀ t, S t → ∀ t' ∈ tyNext E t, S t') (hmm : ∀ h k t, S (.map h true k t) → mm = true) (hR : ReadOnce E S) (n : Nat) :
    GoodPull mm S C (C * (B + 1)) (pull E n) ∧ GoodCls mm E S (C * (B + 1)) (pull E n) := by
  induction n with
  | zero => exact ⟨fun _ _ _ _ _ => trivial, fun _ _ _ _ _ _ _ => trivial⟩
  | succ n ih => exact ⟨goodPull_step rfl hB ih.1 hC hS hmm hR ih.2, goodCls_step rfl hB ih.1 hS ih.2⟩

end Verif
