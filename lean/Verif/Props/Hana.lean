import Verif.Lemmas.HanaRel
import Verif.Demo
import Verif.Props.JsonObjects
import Verif.Lemmas.PushInv

/-!
# C63: Boost.Hana and generated code can be used interchangeably
-/

namespace Verif

variable {E : Env} {keys : ClassId → Option (List Field)}

/-! ## Serialisation to JSON -/

/-- concatenation of what is pushed for two lists of members -/
theorem pushFields_append (self : Ty → Val → SM Json) (fs gs : List Field) (st : Store) :
    pushFields self (fs ++ gs) st = (do
      let a ← pushFields self fs st
      let b ← pushFields self gs st
      pure (a ++ b)) := by
  induction fs with
  | nil => simp only [List.nil_append, pushFields, M.pure_bind', M.bind_pure']
  | cons f fs ih =>
    simp only [List.cons_append, pushFields]
    cases st.get? f.key with
    | none => rfl
    | some v => simp only [ih, M.bind_assoc', M.pure_bind', List.cons_append]

theorem hana_pushBases {H : Heap} {n : Nat} {st : Store}
    (ih : ∀ k ≤ n, ∀ t v, Le Json (push E H k t v) (push (viaHana E keys) H n t v))
    {cs : List ClassId} {fs : List Field}
    (hm : Members E (fun _ => True) (·.json.bases) (·.json.pushFields) cs fs) :
    ∀ k ≤ n + 1, Le _ (pushBases (push E H k) cs (.obj st)) (pushFields (push (viaHana E keys) H n) fs st) := by
  induction hm with
  | nil => exact fun _ _ => rel2_le.pure _
  | @cons c ci cs inh fs hc _ _ _ ih1 ih2 =>
    intro k hk
    cases k with
    | zero => exact fun _ => Or.inl rfl
    | succ k =>
      have hcls : push E H (k + 1) (.cls c) (.obj st) = (do
          let ms ← pushBases (push E H k) ci.json.bases (.obj st)
          let ms' ← pushFields (push E H k) ci.json.pushFields st
          pure (.obj (ms ++ ms'))) := by
        simp only [push, pushStep, hc]
      have hl : pushBases (push E H (k + 1)) (c :: cs) (.obj st) = (do
          let ms ← pushBases (push E H k) ci.json.bases (.obj st)
          let ms' ← pushFields (push E H k) ci.json.pushFields st
          let ms'' ← pushBases (push E H (k + 1)) cs (.obj st)
          pure (ms ++ (ms' ++ ms''))) := by
        simp only [pushBases, hcls, M.bind_assoc', M.pure_bind', List.append_assoc]
      rw [hl, List.append_assoc, pushFields_append, pushFields_append]
      refine rel2_le.bind _ _ _ _ (ih1 k (by omega)) fun a => ?_
      rw [M.bind_assoc']
      refine rel2_le.bind _ _ _ _ (rel2_le.pushFields _ _ fun f _ v _ => ih k (by omega) _ _) fun b => ?_
      rw [M.bind_assoc']
      exact rel2_le.map _ (ih2 (k + 1) hk)

theorem hana_push (hA : JsonAdapted E keys) (H : Heap) (n : Nat) (t : Ty) (v : Val) :
    Le Json (push E H n t v) (push (viaHana E keys) H n t v) := by
  induction n generalizing t v with
  | zero => exact fun _ => Or.inl rfl
  | succ n ih =>
    have ih' : ∀ k ≤ n, ∀ t v, Le Json (push E H k t v) (push (viaHana E keys) H n t v) := fun k hk t v s => by
      rcases push_le E H hk t v s with h | h
      · exact Or.inl h
      · rw [h]; exact ih t v s
    by_cases ht : ∃ c, t = .cls c
    · obtain ⟨c, rfl⟩ := ht
      cases hc : E.cls c with
      | none =>
        have : push E H (n + 1) (.cls c) v = push (viaHana E keys) H (n + 1) (.cls c) v := by
          cases v <;> simp only [push, pushStep, viaHana, hc, Option.map_none]
        rw [this]; exact fun _ => Or.inr rfl
      | some ci =>
        cases hk : keys c with
        | none =>
          have : push (viaHana E keys) H (n + 1) (.cls c) v = pushStep E H (push (viaHana E keys) H n) (.cls c) v := by
            cases v <;> simp only [push, pushStep, viaHana, hc, hk, Option.map_some]
          rw [this]
          exact rel2_le.pushStep _ _ fun t' v' _ => ih t' v'
        | some ks =>
          cases v
          case obj st =>
            have hr : push (viaHana E keys) H (n + 1) (.cls c) (.obj st) =
                (pushFields (push (viaHana E keys) H n) ks st >>= fun ms => pure (.obj ms)) := by
              have hc' : (viaHana E keys).cls c = some { ci with json := hanaJson ks, bin := hanaBinary ks } := by
                simp only [viaHana, hc, hk, Option.map_some]
              simp only [push, pushStep, hc', hanaJson, pushBases, M.pure_bind', List.nil_append]
            have hl : push E H (n + 1) (.cls c) (.obj st) =
                (pushBases (push E H (n + 1)) [c] (.obj st) >>= fun ms => pure (.obj ms)) := by
              simp only [pushBases, push, pushStep, hc, M.bind_assoc', M.pure_bind', List.append_nil]
            rw [hr, hl]
            exact rel2_le.map _ (hana_pushBases ih' (hA c ks ci hk hc).1 (n + 1) (Nat.le_refl _))
          all_goals exact fun _ => Or.inr (by simp only [push, pushStep])
    · have h1 : push (viaHana E keys) H (n + 1) t v = pushStep E H (push (viaHana E keys) H n) t v :=
        viaHana_push _ _ _ _ fun c hc => ht ⟨c, hc⟩
      rw [h1]
      exact rel2_le.pushStep _ _ fun t' v' _ => ih t' v'

/-! ## Deserialisation from JSON -/

/-- same outcome except for records, unless the first run exhausts its budget -/
def HR (α : Type) (m m' : PM α) : Prop :=
  ∀ s s', SameButRecords s s' → m s = .fuel ∨ SameOutcome Err.SameButRecord (m s) (m' s')

theorem HR.bind {α β : Type} (m m' : PM α) (f f' : α → PM β) (hm : HR α m m') (hf : ∀ a, HR β (f a) (f' a)) :
    HR β (m >>= f) (m' >>= f') := by
  intro s s' hs
  rw [M.bind_apply, M.bind_apply]
  rcases hm s s' hs with h | h
  · rw [h]; exact Or.inl rfl
  · generalize m s = r at h
    generalize m' s' = r' at h
    cases h with
    | ok a h => exact hf a _ _ h
    | exc he h => exact Or.inr (.exc he h)
    | ub => exact Or.inr .ub
    | stuck => exact Or.inr .stuck

theorem HR.modify {f g : Option ErrSt → Option ErrSt} (h : ∀ s s', SameButRecords s s' → SameButRecords (f s) (g s')) :
    HR Unit (M.modify f) (M.modify g) := fun s s' hs => Or.inr (.ok () (h s s' hs))

theorem HR.getMember {α : Type} {f f' : Option Str → PM α} (h : ∀ m, HR α (f m) (f' m)) :
    HR α (getMember >>= f) (getMember >>= f') := by
  intro s s' hs
  have : s.bind ErrSt.member = s'.bind ErrSt.member := by cases hs <;> rfl
  rw [M.bind_apply, M.bind_apply]
  simp only [Verif.getMember]
  rw [← this]
  exact h _ s s' hs

theorem HR.setMember (m : Option Str) : HR Unit (setMember m) (setMember m) :=
  HR.modify fun s s' hs => by
    cases hs with
    | none => exact .none
    | @some st _ r h => exact .some (st := { st with member := m }) r h

theorem HR.setRecord (r r' : Option Str) : HR Unit (setRecord r) (setRecord r') :=
  HR.modify fun s s' hs => by
    cases hs with
    | none => exact .none
    | @some st _ _ h => exact .some (st := { st with record := r }) r' h

theorem HR.report (k : ErrKind) (a b : JType) : HR Unit (report k a b) (report k a b) := by
  intro s s' hs
  cases hs with
  | none => exact Or.inr (.ok () .none)
  | @some st errs' r h =>
    right
    have hp : SameButRecords (some (st.push (st.mk' k a b)))
        (some (ErrSt.push { st with errs := errs', record := r } (ErrSt.mk' { st with errs := errs', record := r } k a b))) :=
      .some (st := st.push (st.mk' k a b)) r (List.rel_append (R := Err.SameButRecord) h (.cons ⟨r, rfl⟩ .nil))
    simp only [Verif.report]
    split
    · exact .exc ⟨r, rfl⟩ hp
    · exact .ok () hp

theorem relP_HR : RelP HR where
  pure a s s' hs := Or.inr (.ok a hs)
  bind := HR.bind
  ub _ _ _ := Or.inr .ub
  stuck _ _ _ := Or.inr .stuck
  report := HR.report
  dup s s' hs := by
    cases hs with
    | none => exact Or.inr .ub
    | some r h => exact HR.report _ _ _ _ _ (.some r h)
  setIndex i := HR.modify fun s s' hs => by
    cases hs with
    | none => exact .none
    | @some st _ r h => exact .some (st := { st with index := i }) r h
  withMember name m m' hm :=
    HR.getMember fun p => HR.bind _ _ _ _ (HR.setMember _) fun _ => HR.bind _ _ _ _ hm fun a =>
      HR.bind _ _ _ _ (HR.setMember _) fun _ s s' hs => Or.inr (.ok a hs)
  withRecord name m m' hm := by
    intro s s' hs
    have h : ∀ p p' : Option Str, HR _ (do setRecord (some name); let r ← m; setRecord p; Pure.pure r)
        (do setRecord (some name); let r ← m'; setRecord p'; Pure.pure r) := fun p p' =>
      HR.bind _ _ _ _ (HR.setRecord _ _) fun _ => HR.bind _ _ _ _ hm fun a =>
        HR.bind _ _ _ _ (HR.setRecord _ _) fun _ s s' hs => Or.inr (.ok a hs)
    exact h _ _ s s' hs

/-- setting the record does not matter -/
theorem HR.withRecord_left {α : Type} (name : Str) (m m' : PM α) (hm : HR α m m') : HR α (withRecord name m) m' := by
  intro s s' hs
  have h0 : ∀ r, SameButRecords (s.map fun st => { st with record := r }) s' := fun r => by
    cases hs with
    | none => exact .none
    | @some st errs' r' h => exact .some (st := { st with record := r }) r' h
  simp only [Verif.withRecord, M.bind_apply, getRecord, Verif.setRecord, M.modify_apply]
  rcases hm _ s' (h0 (some name)) with h | h
  · rw [h]; exact Or.inl rfl
  · right
    generalize m (s.map fun st => { st with record := some name }) = x at h
    generalize m' s' = y at h
    cases h with
    | @ok a s1 s1' h =>
      refine .ok a ?_
      cases h with
      | none => exact .none
      | @some st errs' r' h => exact .some (st := { st with record := _ }) r' h
    | exc he h => exact .exc he h
    | ub => exact .ub
    | stuck => exact .stuck

/-- members of several classes are pulled one after another -/
theorem pullFields_append (self : Ty → Json → Val → PM Val) (fs gs : List Field) (ms : List (Key × Json)) (st : Store) :
    pullFields self (fs ++ gs) ms st = (do
      let st ← pullFields self fs ms st
      pullFields self gs ms st) := by
  induction fs generalizing st with
  | nil => rfl
  | cons f fs ih => simp only [List.cons_append, pullFields, ih, M.bind_assoc']

theorem hana_pullBases {n : Nat}
    (ih : ∀ k ≤ n, ∀ t j v, HR Val (pull E k t j v) (pull (viaHana E keys) n t j v))
    {cs : List ClassId} {fs : List Field}
    (hm : Members E (·.json.pullable = true) (·.json.bases) (·.json.pullFields) cs fs) :
    ∀ k ≤ n + 1, ∀ ms st, HR _ (pullBases (pull E k) cs ms (.obj st))
      (pullFields (pull (viaHana E keys) n) fs ms st >>= fun st => pure (.obj st)) := by
  induction hm with
  | nil => exact fun _ _ _ _ => relP_HR.pure _
  | @cons c ci cs inh fs hc hok _ _ ih1 ih2 =>
    intro k hk ms st
    cases k with
    | zero => exact fun _ _ _ => Or.inl rfl
    | succ k =>
      rw [List.append_assoc, pullFields_append, M.bind_assoc']
      have hl : pullBases (pull E (k + 1)) (c :: cs) ms (.obj st) = (do
          let v ← pullBases (pull E k) ci.json.bases ms (.obj st)
          match v with
          | .obj st => do
            let st ← (if ci.json.setsRecord then withRecord ci.qname (pullFields (pull E k) ci.json.pullFields ms st)
              else pullFields (pull E k) ci.json.pullFields ms st)
            pullBases (pull E (k + 1)) cs ms (.obj st)
          | _ => M.stuck) := by
        have hok' : ¬(ci.json.pullable = false) := by simp [hok]
        simp only [pullBases, pull, pullStep, hc]
        rw [if_neg hok', M.bind_assoc']
        congr 1
        funext v
        cases v <;> first | rfl | (simp only [M.bind_assoc', M.pure_bind'])
      rw [hl]
      refine fun s s' hs => ?_
      have hbind := HR.bind _ _ (fun v => (match v with
          | .obj st => do
            let st ← (if ci.json.setsRecord then withRecord ci.qname (pullFields (pull E k) ci.json.pullFields ms st)
              else pullFields (pull E k) ci.json.pullFields ms st)
            pullBases (pull E (k + 1)) cs ms (.obj st)
          | _ => M.stuck : PM Val))
        (fun v => (match v with
          | .obj st => (do
            let st ← pullFields (pull (viaHana E keys) n) (ci.json.pullFields ++ fs) ms st
            pure (.obj st))
          | _ => M.stuck : PM Val)) (ih1 k (by omega) ms st) (fun v => ?_) s s' hs
      · simpa only [M.bind_assoc', M.pure_bind'] using hbind
      · cases v
        case obj st =>
          simp only [pullFields_append, M.bind_assoc']
          refine HR.bind _ _ _ _ ?_ fun st => ih2 (k + 1) hk ms st
          have hf : HR _ (pullFields (pull E k) ci.json.pullFields ms st)
              (pullFields (pull (viaHana E keys) n) ci.json.pullFields ms st) :=
            relP_HR.pullFields _ _ _ fun f _ _ j _ v => ih k (by omega) _ _ _
          split
          · exact HR.withRecord_left _ _ _ hf
          · exact hf
        all_goals exact relP_HR.stuck

/-- an object of another type is not pulled into -/
theorem pullBases_ill {n : Nat} {cs : List ClassId} {fs : List Field}
    (hm : Members E (·.json.pullable = true) (·.json.bases) (·.json.pullFields) cs fs) (ms : List (Key × Json)) (v : Val)
    (hv : ∀ st, v ≠ .obj st) (hcs : cs ≠ []) (s : Option ErrSt) :
    pullBases (pull E n) cs ms v s = .fuel ∨ pullBases (pull E n) cs ms v s = .stuck := by
  induction hm generalizing n with
  | nil => exact absurd rfl hcs
  | @cons c ci cs inh fs hc hok _ _ ih1 _ =>
    simp only [pullBases]
    cases n with
    | zero => exact Or.inl rfl
    | succ n =>
      have hok' : ¬(ci.json.pullable = false) := by simp [hok]
      simp only [pull, pullStep, hc]
      rw [if_neg hok', M.bind_assoc']
      cases hb : ci.json.bases with
      | nil =>
        right
        cases v <;> first | exact absurd rfl (hv _) | rfl
      | cons b bs =>
        have := ih1 (n := n) (by rw [hb]; simp)
        rw [hb] at this
        rw [M.bind_apply]
        rcases this with h | h <;> rw [h] <;> simp

theorem hana_pull (hA : JsonAdapted E keys) (n : Nat) (t : Ty) (j : Json) (v : Val) :
    HR Val (pull E n t j v) (pull (viaHana E keys) n t j v) := by
  induction n generalizing t j v with
  | zero => exact fun _ _ _ => Or.inl rfl
  | succ n ih =>
    have ih' : ∀ k ≤ n, ∀ t j v, HR Val (pull E k t j v) (pull (viaHana E keys) n t j v) := fun k hk t j v s s' hs => by
      rcases pull_le E hk t j v s with h | h
      · exact Or.inl h
      · rw [h]; exact ih t j v s s' hs
    by_cases ht : ∃ c, t = .cls c
    · obtain ⟨c, rfl⟩ := ht
      cases hc : E.cls c with
      | none =>
        have h1 : pull E (n + 1) (.cls c) j v = M.stuck := by simp only [pull, pullStep, hc]
        have h2 : pull (viaHana E keys) (n + 1) (.cls c) j v = M.stuck := by
          simp only [pull, pullStep, viaHana, hc, Option.map_none]
        rw [h1, h2]; exact relP_HR.stuck
      | some ci =>
        cases hk : keys c with
        | none =>
          have : pull (viaHana E keys) (n + 1) (.cls c) j v = pullStep E (pull (viaHana E keys) n) (.cls c) j v := by
            simp only [pull, pullStep, viaHana, hc, hk, Option.map_some]
          rw [this]
          exact relP_HR.pullStep _ _ _ fun t' j' _ v' => ih t' j' v'
        | some ks =>
          have hm := (hA c ks ci hk hc).2
          have hc' : (viaHana E keys).cls c = some { ci with json := hanaJson ks, bin := hanaBinary ks } := by
            simp only [viaHana, hc, hk, Option.map_some]
          have hok : ¬(ci.json.pullable = false) := by
            cases hm with
            | cons h1 h2 _ _ => rw [hc] at h1; cases h1; simp [h2]
          by_cases hj : ∃ ms, j = .obj ms
          · obtain ⟨ms, rfl⟩ := hj
            by_cases hv : ∃ st, v = .obj st
            · obtain ⟨st, rfl⟩ := hv
              have hr : pull (viaHana E keys) (n + 1) (.cls c) (.obj ms) (.obj st) =
                  (pullFields (pull (viaHana E keys) n) ks ms st >>= fun st => pure (.obj st)) := by
                simp only [pull, pullStep, hc', hanaJson, pullBases, M.pure_bind']
                rfl
              have hl : pull E (n + 1) (.cls c) (.obj ms) (.obj st) = pullBases (pull E (n + 1)) [c] ms (.obj st) := by
                simp only [pullBases, M.bind_pure']
              rw [hr, hl]
              exact hana_pullBases ih' hm (n + 1) (Nat.le_refl _) ms st
            · have hr : pull (viaHana E keys) (n + 1) (.cls c) (.obj ms) v = M.stuck := by
                simp only [pull, pullStep, hc', hanaJson, pullBases, M.pure_bind']
                cases v <;> first | exact absurd ⟨_, rfl⟩ hv | rfl
              have hl : pull E (n + 1) (.cls c) (.obj ms) v = pullBases (pull E (n + 1)) [c] ms v := by
                simp only [pullBases, M.bind_pure']
              rw [hr, hl]
              intro s s' _
              rcases pullBases_ill hm ms v (fun st h => hv ⟨st, h⟩) (by simp) s with h | h
              · exact Or.inl h
              · rw [h]; exact Or.inr .stuck
          · have h1 : pull E (n + 1) (.cls c) j v = mismatch (jtypeOf (.cls c)) j v := by
              cases j <;> first | exact absurd ⟨_, rfl⟩ hj | (simp only [pull, pullStep, hc]; rw [if_neg hok])
            have h2 : pull (viaHana E keys) (n + 1) (.cls c) j v = mismatch (jtypeOf (.cls c)) j v := by
              cases j <;> first | exact absurd ⟨_, rfl⟩ hj | (simp only [pull, pullStep, hc', hanaJson]; rfl)
            rw [h1, h2]
            exact relP_HR.map _ (relP_HR.report _ _ _)
    · have h1 : pull (viaHana E keys) (n + 1) t j v = pullStep E (pull (viaHana E keys) n) t j v :=
        viaHana_pull _ _ _ _ fun c hc => ht ⟨c, hc⟩
      rw [h1]
      exact relP_HR.pullStep _ _ _ fun t' j' _ v' => ih t' j' v'

/-! ## Binary serialisation -/

theorem guardFree (l : List (Guard × Field)) (h : ∀ gf ∈ l, gf.1 = ⟨0, 0⟩) :
    l = (l.map Prod.snd).map fun f => (⟨0, 0⟩, f) := by
  induction l with
  | nil => rfl
  | cons gf l ih =>
    obtain ⟨g, f⟩ := gf
    have hg : g = ⟨0, 0⟩ := h (g, f) (by simp)
    rw [List.map_cons, List.map_cons, ← ih fun x hx => h x (by simp [hx]), hg]

theorem writeFields_append (self : Nat → Ty → Val → WM Unit) (w : Nat) (fs gs : List (Guard × Field)) (st : Store) :
    writeFields self w (fs ++ gs) st = (do
      writeFields self w fs st
      writeFields self w gs st) := by
  induction fs with
  | nil => rfl
  | cons f fs ih =>
    obtain ⟨g, f⟩ := f
    simp only [List.cons_append, writeFields, ih]
    split
    · cases st.get? f.key with
      | none => rfl
      | some v => simp only [M.bind_assoc']
    · rfl

theorem hana_writeBases {H : Heap} {n : Nat} {st : Store}
    (ih : ∀ k ≤ n, ∀ w t v, Le Unit (write E H k w t v) (write (viaHana E keys) H n w t v))
    {cs : List ClassId} {fs : List Field}
    (hm : Members E NoVersions (·.bin.bases) (·.bin.writeFields.map Prod.snd) cs fs) :
    ∀ k ≤ n + 1, ∀ w, Le _ (writeBases (write E H k) w cs (.obj st))
      (writeFields (write (viaHana E keys) H n) w (fs.map fun f => (⟨0, 0⟩, f)) st) := by
  induction hm with
  | nil => exact fun _ _ _ => rel2_le.pure _
  | @cons c ci cs inh fs hc hok _ _ ih1 ih2 =>
    intro k hk w
    cases k with
    | zero => exact fun _ => Or.inl rfl
    | succ k =>
      have hl : writeBases (write E H (k + 1)) w (c :: cs) (.obj st) = (do
          writeBases (write E H k) w ci.bin.bases (.obj st)
          writeFields (write E H k) w ci.bin.writeFields st
          writeBases (write E H (k + 1)) w cs (.obj st)) := by
        simp only [writeBases, write, writeStep, hc, writeClass, hok.1, writeVersion, effVersion, M.bind_assoc', M.pure_bind']
      have hg := guardFree ci.bin.writeFields fun gf h => hok.2 gf (List.mem_append_left _ h)
      rw [hl, List.append_assoc, List.map_append, List.map_append, ← hg, writeFields_append, writeFields_append]
      refine rel2_le.bind _ _ _ _ (ih1 k (by omega) w) fun _ => ?_
      exact rel2_le.bind _ _ _ _ (rel2_le.writeFields (fun w t v => ih k (by omega) w t v) _ _ _) fun _ => ih2 (k + 1) hk w

theorem hana_write (hA : BinaryAdapted E keys) (H : Heap) (n w : Nat) (t : Ty) (v : Val) :
    Le Unit (write E H n w t v) (write (viaHana E keys) H n w t v) := by
  induction n generalizing w t v with
  | zero => exact fun _ => Or.inl rfl
  | succ n ih =>
    have ih' : ∀ k ≤ n, ∀ w t v, Le Unit (write E H k w t v) (write (viaHana E keys) H n w t v) := fun k hk w t v s => by
      rcases write_le E H hk w t v s with h | h
      · exact Or.inl h
      · rw [h]; exact ih w t v s
    by_cases ht : ∃ c, t = .cls c
    · obtain ⟨c, rfl⟩ := ht
      cases hc : E.cls c with
      | none =>
        have : write E H (n + 1) w (.cls c) v = write (viaHana E keys) H (n + 1) w (.cls c) v := by
          cases v <;> simp only [write, writeStep, viaHana, hc, Option.map_none]
        rw [this]; exact fun _ => Or.inr rfl
      | some ci =>
        cases hk : keys c with
        | none =>
          have : write (viaHana E keys) H (n + 1) w (.cls c) v =
              writeStep E H (write (viaHana E keys) H n) w (.cls c) v := by
            cases v <;> simp only [write, writeStep, viaHana, hc, hk, Option.map_some]
          rw [this]
          exact rel2_le.writeStep (fun w t v => ih w t v) _ _ _
        | some ks =>
          cases v
          case obj st =>
            have hc' : (viaHana E keys).cls c = some { ci with json := hanaJson ks, bin := hanaBinary ks } := by
              simp only [viaHana, hc, hk, Option.map_some]
            have hr : write (viaHana E keys) H (n + 1) w (.cls c) (.obj st) =
                writeFields (write (viaHana E keys) H n) w (ks.map fun f => (⟨0, 0⟩, f)) st := by
              simp only [write, writeStep, hc', hanaBinary, writeClass, writeBases, writeVersion, effVersion, M.pure_bind']
            rw [hr]
            have hb := hana_writeBases (st := st) ih' (hA c ks ci hk hc).1 (n + 1) (Nat.le_refl _) w
            simp only [writeBases] at hb
            intro s
            have hl : (write E H (n + 1) w (.cls c) (.obj st) >>= fun _ => pure ()) s =
                write E H (n + 1) w (.cls c) (.obj st) s := by
              rw [M.bind_apply]
              cases write E H (n + 1) w (.cls c) (.obj st) s <;> rfl
            rw [← hl]
            exact hb s
          all_goals exact fun _ => Or.inr (by simp only [write, writeStep])
    · have h1 : write (viaHana E keys) H (n + 1) w t v = writeStep E H (write (viaHana E keys) H n) w t v :=
        viaHana_write _ _ _ _ _ fun c hc => ht ⟨c, hc⟩
      rw [h1]
      exact rel2_le.writeStep (fun w t v => ih w t v) _ _ _

/-! ## Binary deserialisation -/

theorem readFields_append (self : Nat → Ty → Val → RM Val) (w : Nat) (fs gs : List (Guard × Field)) (st : Store) :
    readFields self w (fs ++ gs) st = (do
      let st ← readFields self w fs st
      readFields self w gs st) := by
  induction fs generalizing st with
  | nil => rfl
  | cons f fs ih =>
    obtain ⟨g, f⟩ := f
    simp only [List.cons_append, readFields, ih]
    split
    · cases st.get? f.key with
      | none => rfl
      | some v => simp only [M.bind_assoc']
    · rfl

/-- reading an unversioned class -/
theorem read_unversioned {E : Env} {c : ClassId} {ci : ClassInfo} (hc : E.cls c = some ci)
    (hok : NoVersions ci ∧ ci.bin.readable = true) (n w : Nat) (p : Val) :
    read E (n + 1) w (.cls c) p = (do
      let v ← readBases (read E n) w ci.bin.bases p
      match v with
      | .obj st => do
        let st ← readFields (read E n) w ci.bin.readFields st
        pure (.obj st)
      | _ => M.stuck) := by
  have hr : ¬(ci.bin.readable = false) := by simp [hok.2]
  simp only [read, readStep, hc, readClass]
  rw [if_neg hr, M.bind_assoc']
  congr 1
  funext v
  cases v <;> first | rfl | (simp only [readVersion, hok.1.1, M.bind_assoc', M.pure_bind'])

theorem hana_readBases {n : Nat}
    (ih : ∀ k ≤ n, ∀ w t v, Le Val (read E k w t v) (read (viaHana E keys) n w t v))
    {cs : List ClassId} {fs : List Field}
    (hm : Members E (fun ci => NoVersions ci ∧ ci.bin.readable = true) (·.bin.bases) (·.bin.readFields.map Prod.snd) cs fs) :
    ∀ k ≤ n + 1, ∀ w st, Le _ (readBases (read E k) w cs (.obj st))
      (readFields (read (viaHana E keys) n) w (fs.map fun f => (⟨0, 0⟩, f)) st >>= fun st => pure (.obj st)) := by
  induction hm with
  | nil => exact fun _ _ _ _ _ => Or.inr rfl
  | @cons c ci cs inh fs hc hok _ _ ih1 ih2 =>
    intro k hk w st
    cases k with
    | zero => exact fun _ => Or.inl rfl
    | succ k =>
      have hg := guardFree ci.bin.readFields fun gf h => hok.1.2 gf (List.mem_append_right _ h)
      rw [List.append_assoc, List.map_append, List.map_append, ← hg, readFields_append, M.bind_assoc']
      have hl : readBases (read E (k + 1)) w (c :: cs) (.obj st) = (do
          let v ← readBases (read E k) w ci.bin.bases (.obj st)
          match v with
          | .obj st => do
            let st ← readFields (read E k) w ci.bin.readFields st
            readBases (read E (k + 1)) w cs (.obj st)
          | _ => M.stuck) := by
        rw [readBases, read_unversioned hc hok, M.bind_assoc']
        congr 1
        funext v
        cases v <;> first | rfl | (simp only [M.bind_assoc', M.pure_bind'])
      rw [hl]
      have hbind := rel2_le.bind _ _ (fun v => (match v with
          | .obj st => do
            let st ← readFields (read E k) w ci.bin.readFields st
            readBases (read E (k + 1)) w cs (.obj st)
          | _ => M.stuck : RM Val))
        (fun v => (match v with
          | .obj st => (do
            let st ← readFields (read (viaHana E keys) n) w (ci.bin.readFields ++ fs.map fun f => (⟨0, 0⟩, f)) st
            pure (.obj st))
          | _ => M.stuck : RM Val)) (ih1 k (by omega) w st) (fun v => ?_)
      · simpa only [M.bind_assoc', M.pure_bind'] using hbind
      · cases v
        case obj st =>
          simp only [readFields_append, M.bind_assoc']
          exact rel2_le.bind _ _ _ _ (rel2_le.readFields (fun w t v => ih k (by omega) w t v) _ _ _)
            fun st => ih2 (k + 1) hk w st
        all_goals exact rel2_le.stuck

/-- an object of another type is not read into -/
theorem readBases_ill {n w : Nat} {cs : List ClassId} {fs : List Field}
    (hm : Members E (fun ci => NoVersions ci ∧ ci.bin.readable = true) (·.bin.bases) (·.bin.readFields.map Prod.snd) cs fs)
    (v : Val) (hv : ∀ st, v ≠ .obj st) (hcs : cs ≠ []) (s : RSt) :
    readBases (read E n) w cs v s = .fuel ∨ readBases (read E n) w cs v s = .stuck := by
  induction hm generalizing n with
  | nil => exact absurd rfl hcs
  | @cons c ci cs inh fs hc hok _ _ ih1 _ =>
    simp only [readBases]
    cases n with
    | zero => exact Or.inl rfl
    | succ n =>
      rw [read_unversioned hc hok, M.bind_assoc']
      cases hb : ci.bin.bases with
      | nil =>
        right
        cases v <;> first | exact absurd rfl (hv _) | rfl
      | cons b bs =>
        have := ih1 (n := n) (by rw [hb]; simp)
        rw [hb] at this
        rw [M.bind_apply]
        rcases this with h | h <;> rw [h] <;> simp

theorem hana_read (hA : BinaryAdapted E keys) (n w : Nat) (t : Ty) (p : Val) :
    Le Val (read E n w t p) (read (viaHana E keys) n w t p) := by
  induction n generalizing w t p with
  | zero => exact fun _ => Or.inl rfl
  | succ n ih =>
    have ih' : ∀ k ≤ n, ∀ w t v, Le Val (read E k w t v) (read (viaHana E keys) n w t v) := fun k hk w t v s => by
      rcases read_le E hk w t v s with h | h
      · exact Or.inl h
      · rw [h]; exact ih w t v s
    by_cases ht : ∃ c, t = .cls c
    · obtain ⟨c, rfl⟩ := ht
      cases hc : E.cls c with
      | none =>
        have : read E (n + 1) w (.cls c) p = read (viaHana E keys) (n + 1) w (.cls c) p := by
          simp only [read, readStep, viaHana, hc, Option.map_none]
        rw [this]; exact fun _ => Or.inr rfl
      | some ci =>
        cases hk : keys c with
        | none =>
          have : read (viaHana E keys) (n + 1) w (.cls c) p = readStep E (read (viaHana E keys) n) w (.cls c) p := by
            simp only [read, readStep, viaHana, hc, hk, Option.map_some]
          rw [this]
          exact rel2_le.readStep (fun w t v => ih w t v) _ _ _
        | some ks =>
          have hm := (hA c ks ci hk hc).2
          have hc' : (viaHana E keys).cls c = some { ci with json := hanaJson ks, bin := hanaBinary ks } := by
            simp only [viaHana, hc, hk, Option.map_some]
          have hn : NoVersions { ci with json := hanaJson ks, bin := hanaBinary ks } :=
            ⟨rfl, fun gf h => by
              simp only [hanaBinary, List.mem_append, List.mem_map, or_self] at h
              obtain ⟨f, _, rfl⟩ := h
              rfl⟩
          have hl : read E (n + 1) w (.cls c) p = readBases (read E (n + 1)) w [c] p := by
            simp only [readBases, M.bind_pure']
          have hr := read_unversioned hc' ⟨hn, rfl⟩ n w p
          simp only [hanaBinary, readBases, M.pure_bind'] at hr
          by_cases hv : ∃ st, p = .obj st
          · obtain ⟨st, rfl⟩ := hv
            rw [hr, hl]
            exact hana_readBases ih' hm (n + 1) (Nat.le_refl _) w st
          · have hr' : read (viaHana E keys) (n + 1) w (.cls c) p = M.stuck := by
              rw [hr]
              cases p <;> first | exact absurd ⟨_, rfl⟩ hv | rfl
            rw [hr', hl]
            intro s
            rcases readBases_ill hm p (fun st h => hv ⟨st, h⟩) (by simp) s with h | h
            · exact Or.inl h
            · rw [h]; exact Or.inr rfl
    · have h1 : read (viaHana E keys) (n + 1) w t p = readStep E (read (viaHana E keys) n) w t p :=
        viaHana_read _ _ _ _ fun c hc => ht ⟨c, hc⟩
      rw [h1]
      exact rel2_le.readStep (fun w t v => ih w t v) _ _ _

/-! ## The theorems -/

theorem le_agree {ε σ α : Type} {m m' : M ε σ α} (h : Le α m m') {s : σ} (hf : m s ≠ .fuel) : m' s = m s := by
  rcases h s with h | h
  · exact absurd h hf
  · exact h.symm

/-- **C63**: for every value, program and choice of adapted classes listing the members generated code would visit, Boost.Hana and
generated code produce the same document: whenever the run with generated code ends, so does the one via Boost.Hana (within the
same budget), and any two runs which end yield the same outcome. -/
theorem C63_json_same_document (hA : JsonAdapted E keys) (H : Heap) (n m : Nat) (t : Ty) (v : Val)
    (hn : push E H n t v () ≠ .fuel) :
    push (viaHana E keys) H n t v () ≠ .fuel ∧
    (push (viaHana E keys) H m t v () ≠ .fuel → push (viaHana E keys) H m t v () = push E H n t v ()) := by
  have h1 : push (viaHana E keys) H n t v () = push E H n t v () := le_agree (hana_push hA H n t v) hn
  refine ⟨by rw [h1]; exact hn, fun hm => ?_⟩
  rcases Nat.le_total n m with h | h
  · rw [le_agree (push_le _ H h t v) (by rw [h1]; exact hn), h1]
  · rw [← h1, le_agree (push_le _ H h t v) hm]

/-- **C63**: the same for `toJsonDocument` and therefore `toJson`, which stringifies that document. -/
theorem C63_same_toJsonDocument (hA : JsonAdapted E keys) (H : Heap) (n : Nat) (t : Ty) (v : Val)
    (hn : toJsonDocument E H n t v () ≠ .fuel) :
    toJsonDocument (viaHana E keys) H n t v () = toJsonDocument E H n t v () := by
  cases t <;> first
    | exact le_agree (hana_push hA H n _ v) hn
    | (cases v <;> rfl)
    | (rename_i it; cases it <;> cases v <;> rfl)
    | (cases v <;> first | rfl | (rename_i x; cases x <;> rfl))

/-- **C63**: deserialising a JSON value has the same outcome via Boost.Hana and via generated code (returned object, thrown
exception, undefined behaviour and all errors) except for the records named in errors. -/
theorem C63_json_same_value (hA : JsonAdapted E keys) (n m : Nat) (t : Ty) (j : Json) (v : Val) (s s' : Option ErrSt)
    (hs : SameButRecords s s') (hn : pull E n t j v s ≠ .fuel) :
    pull (viaHana E keys) n t j v s' ≠ .fuel ∧
    (pull (viaHana E keys) m t j v s' ≠ .fuel →
      SameOutcome Err.SameButRecord (pull E n t j v s) (pull (viaHana E keys) m t j v s')) := by
  have h1 : SameOutcome Err.SameButRecord (pull E n t j v s) (pull (viaHana E keys) n t j v s') := by
    rcases hana_pull hA n t j v s s' hs with h | h
    · exact absurd h hn
    · exact h
  have h2 : pull (viaHana E keys) n t j v s' ≠ .fuel := by
    generalize pull (viaHana E keys) n t j v s' = r at h1
    generalize pull E n t j v s = r' at h1
    cases h1 <;> simp
  refine ⟨h2, fun hm => ?_⟩
  rcases Nat.le_total n m with h | h
  · rw [le_agree (pull_le _ h t j v) h2]; exact h1
  · rw [← le_agree (pull_le _ h t j v) hm]; exact h1

theorem sameOutcome_refl {α : Type} (r : Res ApiExc (Option ErrSt) α) (hr : r ≠ .fuel)
    (hs : ∀ a s, r = .ok a s → SameButRecords s s) (he : ∀ a s, r = .exc a s → SameButRecords s s ∧ a.SameButRecord a) :
    SameOutcome ApiExc.SameButRecord r r := by
  cases r with
  | ok a s => exact .ok a (hs a s rfl)
  | exc a s => exact .exc (he a s rfl).2 (he a s rfl).1
  | ub => exact .ub
  | stuck => exact .stuck
  | fuel => exact absurd rfl hr

/-- same outcome except for records, unless the first run exhausts its budget -/
def HA (m m' : AM Val) : Prop :=
  ∀ s s', SameButRecords s s' → m s = .fuel ∨ SameOutcome ApiExc.SameButRecord (m s) (m' s')

theorem HA.liftP {m m' : PM Val} (h : HR Val m m') : HA (liftP m) (liftP m') := by
  intro s s' hs
  simp only [Verif.liftP]
  rcases h s s' hs with h | h
  · left; rw [h]
  · right
    generalize m s = r at h
    generalize m' s' = r' at h
    cases h with
    | ok a h => exact .ok a h
    | exc he h => exact .exc (.err he) h
    | ub => exact .ub
    | stuck => exact .stuck

theorem HA.parse {P : Parser} {json : Str} {f f' : Json → AM Val} (h : ∀ j, HA (f j) (f' j)) :
    HA (parseDoc P json >>= f) (parseDoc P json >>= f') := by
  intro s s' hs
  rw [M.bind_apply, M.bind_apply]
  unfold parseDoc
  cases P json with
  | ok j => exact h j s s' hs
  | error e => exact Or.inr (.exc (.parse e) hs)

theorem HA.pure (v : Val) : HA (pure v) (pure v) := fun _ _ hs => Or.inr (.ok v hs)

theorem HA.top (t : Ty) (j : Json) : HA (topMismatch E t j) (topMismatch (viaHana E keys) t j) := by
  have h : ∀ E : Env, topMismatch E t j = Verif.liftP (report .typeMismatch (jtypeOf t) j.jtype >>= fun _ => Pure.pure (E.valInit t)) := by
    intro E
    funext s
    simp only [topMismatch, M.bind_apply, Verif.liftP]
    cases report .typeMismatch (jtypeOf t) j.jtype s <;> rfl
  rw [h, h, viaHana_valInit]
  exact HA.liftP (relP_HR.map _ (relP_HR.report _ _ _))

theorem hana_fromJson (hA : JsonAdapted E keys) (P : Parser) (n : Nat) (t : Ty) (json : Str) :
    HA (fromJson E P n t json) (fromJson (viaHana E keys) P n t json) := by
  cases t <;> simp only [fromJson]
  case bool => exact HA.parse fun j => by cases j <;> first | exact HA.pure _ | exact HA.top _ _
  case int it =>
    split
    · refine HA.parse fun j => ?_
      cases j <;> first | exact HA.top _ _ | skip
      rename_i x
      cases x with
      | int i =>
        dsimp only
        split
        · exact HA.pure _
        · exact HA.top _ _
      | dbl _ => exact HA.top _ _
    · exact fun _ _ _ => Or.inr .stuck
  case f32 =>
    refine HA.parse fun j => ?_
    cases j <;> first | exact HA.top _ _ | skip
    rename_i x
    cases x with
    | int i => exact HA.top _ _
    | dbl _ =>
      dsimp only
      split
      · exact HA.pure _
      · exact HA.top _ _
  case f64 =>
    refine HA.parse fun j => ?_
    cases j <;> first | exact HA.top _ _ | skip
    rename_i x
    cases x <;> first | exact HA.top _ _ | exact HA.pure _
  case str => exact HA.parse fun j => by cases j <;> first | exact HA.pure _ | exact HA.top _ _
  case vec t =>
    exact HA.parse fun j => by
      cases j <;> first | exact HA.top _ _ | (rw [viaHana_defInit]; exact HA.liftP (hana_pull hA _ _ _ _))
  case map h mu k t =>
    exact HA.parse fun j => by
      cases j <;> first | exact HA.top _ _ | (rw [viaHana_defInit]; exact HA.liftP (hana_pull hA _ _ _ _))
  case cls c =>
    exact HA.parse fun j => by
      cases j <;> first | exact HA.top _ _ | (rw [viaHana_defInit]; exact HA.liftP (hana_pull hA _ _ _ _))
  all_goals exact fun _ _ _ => Or.inr .stuck

/-- **C63**: the same for `fromJson`, for every input text and parser. -/
theorem C63_same_fromJson (hA : JsonAdapted E keys) (P : Parser) (n : Nat) (t : Ty) (json : Str) (s s' : Option ErrSt)
    (hs : SameButRecords s s') (hn : fromJson E P n t json s ≠ .fuel) :
    SameOutcome ApiExc.SameButRecord (fromJson E P n t json s) (fromJson (viaHana E keys) P n t json s') := by
  rcases hana_fromJson hA P n t json s s' hs with h | h
  · exact absurd h hn
  · exact h

/-- **C63**: for every value and program in which adapted classes are not versioned, Boost.Hana and generated code write the same
bytes (and throw the same exceptions), also if shared objects have been written before. -/
theorem C63_binary_same_bytes (hA : BinaryAdapted E keys) (H : Heap) (n m w : Nat) (t : Ty) (v : Val) (s : WSt)
    (hn : write E H n w t v s ≠ .fuel) :
    write (viaHana E keys) H n w t v s ≠ .fuel ∧
    (write (viaHana E keys) H m w t v s ≠ .fuel → write (viaHana E keys) H m w t v s = write E H n w t v s) := by
  have h1 : write (viaHana E keys) H n w t v s = write E H n w t v s := le_agree (hana_write hA H n w t v) hn
  refine ⟨by rw [h1]; exact hn, fun hm => ?_⟩
  rcases Nat.le_total n m with h | h
  · rw [le_agree (write_le _ H h w t v) (by rw [h1]; exact hn), h1]
  · rw [← h1, le_agree (write_le _ H h w t v) hm]

/-- **C63**: for every input, what is read via Boost.Hana is what is read by generated code: object, remaining input, table of
shared objects, exceptions. -/
theorem C63_binary_same_value (hA : BinaryAdapted E keys) (n m w : Nat) (t : Ty) (p : Val) (s : RSt)
    (hn : read E n w t p s ≠ .fuel) :
    read (viaHana E keys) n w t p s ≠ .fuel ∧
    (read (viaHana E keys) m w t p s ≠ .fuel → read (viaHana E keys) m w t p s = read E n w t p s) := by
  have h1 : read (viaHana E keys) n w t p s = read E n w t p s := le_agree (hana_read hA n w t p) hn
  refine ⟨by rw [h1]; exact hn, fun hm => ?_⟩
  rcases Nat.le_total n m with h | h
  · rw [le_agree (read_le _ h w t p) (by rw [h1]; exact hn), h1]
  · rw [← h1, le_agree (read_le _ h w t p) hm]

theorem readClass_unversioned {E : Env} {c : ClassId} {ci : ClassInfo} (hc : E.cls c = some ci) (hv : ci.bin.version = none)
    (n w : Nat) (p : Val) :
    readClass (read E n) ci w p = (read E (n + 1) w (.cls c) p >>= fun v => pure (v, w)) := by
  simp only [read, readStep, hc, readClass, M.bind_assoc', M.pure_bind']
  split
  · rfl
  · rw [M.bind_assoc']
    congr 1
    funext v
    cases v <;> first | rfl | (simp only [readVersion, hv, M.bind_assoc', M.pure_bind'])

/-- **C63**: the same for `restoreFromBinary`, including the returned version (which is 0 for adapted classes). -/
theorem C63_same_restoreFromBinary (hA : BinaryAdapted E keys) (n : Nat) (c : ClassId) (p : Val) (inp : Str)
    (hn : restoreFromBinary E n c p inp ≠ .fuel) :
    restoreFromBinary (viaHana E keys) n c p inp = restoreFromBinary E n c p inp ∧
    ((keys c).isSome → ∀ v version s, restoreFromBinary E n c p inp = .ok (v, version) s → version = 0) := by
  simp only [restoreFromBinary] at hn ⊢
  cases hc : E.cls c with
  | none =>
    have hc' : (viaHana E keys).cls c = none := by simp only [viaHana, hc, Option.map_none]
    simp [hc']
  | some ci =>
    rw [hc] at hn
    cases hk : keys c with
    | none =>
      have hc' : (viaHana E keys).cls c = some ci := by simp only [viaHana, hc, hk, Option.map_some]
      simp only [hc']
      refine ⟨le_agree (rel2_le.readClass (fun w t v => hana_read hA n w t v) ci 0 p) hn, by simp⟩
    | some ks =>
      have hc' : (viaHana E keys).cls c = some { ci with json := hanaJson ks, bin := hanaBinary ks } := by
        simp only [viaHana, hc, hk, Option.map_some]
      have hv : ci.bin.version = none := by
        cases (hA c ks ci hk hc).1 with
        | cons h1 h2 _ _ => rw [hc] at h1; cases h1; exact h2.1
      simp only [hc'] at hn ⊢
      rw [readClass_unversioned hc hv] at hn ⊢
      rw [readClass_unversioned hc' rfl]
      refine ⟨le_agree (rel2_le.map _ (hana_read hA (n + 1) 0 (.cls c) p)) hn, fun _ v version s h => ?_⟩
      rw [M.bind_apply] at h
      cases hx : read E (n + 1) 0 (.cls c) p (RSt.init inp) <;> simp [hx] at h
      exact h.1.2.symm

/-! ### What is not listed is not considered -/

theorem namesOf {self : Ty → Val → SM Json} {fs : List Field} {st : Store} {ms : List (Key × Json)}
    (h : List.Forall₂ (fun (f : Field) (m : Key × Json) => m.1 = ⟨f.name, .literal⟩ ∧ ∃ v, st.get? f.key = some v ∧
      self f.ty v () = .ok m.2 ()) fs ms) : ms.map (·.1.bytes) = fs.map (·.name) := by
  induction h with
  | nil => rfl
  | cons h _ ih => rw [List.map_cons, List.map_cons, ih, h.1]

theorem pullFields_untouched {self : Ty → Json → Val → PM Val} {fs : List Field} {ms : List (Key × Json)} {st st' : Store}
    (s s' : Option ErrSt) (h : pullFields self fs ms st s = .ok st' s') (k : FieldKey) (hk : k ∉ fs.map Field.key) :
    st'.get? k = st.get? k := by
  induction fs generalizing st s with
  | nil => cases h; rfl
  | cons f fs ih =>
    simp only [List.map_cons, List.mem_cons, not_or] at hk
    rw [pullFields, M.bind_apply] at h
    cases hp : pullField self f ms st s <;> simp [hp] at h
    rename_i st1 s1
    rw [ih s1 h hk.2]
    unfold pullField at hp
    cases hf : findMember f.name ms with
    | none => rw [hf] at hp; cases hp; rfl
    | some j =>
      rw [hf] at hp
      cases hg : st.get? f.key with
      | none => simp [hg] at hp
      | some v =>
        simp only [hg, M.bind_apply] at hp
        cases hw : withMember f.name (self f.ty j v) s <;> simp [hw] at hp
        rw [← hp.1]
        exact get?_set_ne _ _ hk.1

/-- **C63**: the document of an adapted object has exactly one member per listed member, named like it and in the same order: members
which are not listed, including those of base classes, are not serialised. -/
theorem C63_only_listed_members_in_document (H : Heap) (n : Nat) (c : ClassId) (ks : List Field) (st : Store) (j : Json)
    (hk : keys c = some ks) (h : push (viaHana E keys) H n (.cls c) (.obj st) () = .ok j ()) :
    ∃ ms : List (Key × Json), j = .obj ms ∧ ms.map (·.1.bytes) = ks.map (·.name) := by
  cases n with
  | zero => cases h
  | succ n =>
    cases hc : E.cls c with
    | none => simp [push, pushStep, viaHana, hc] at h
    | some ci =>
      have hc' : (viaHana E keys).cls c = some { ci with json := hanaJson ks, bin := hanaBinary ks } := by
        simp only [viaHana, hc, hk, Option.map_some]
      simp only [push, pushStep, hc', hanaJson, pushBases, M.pure_bind', List.nil_append] at h
      obtain ⟨ms, h1, rfl⟩ := SM.map_ok_iff.1 h
      refine ⟨ms, rfl, ?_⟩
      exact namesOf (pushFields_iff.1 h1)

/-- **C63**: reading a JSON value into an adapted object does not touch members which are not listed. -/
theorem C63_unlisted_members_kept (n : Nat) (c : ClassId) (ks : List Field) (j : Json) (st : Store) (v' : Val)
    (s s' : Option ErrSt) (hk : keys c = some ks) (h : pull (viaHana E keys) n (.cls c) j (.obj st) s = .ok v' s') :
    ∃ st' : Store, v' = .obj st' ∧ ∀ k, k ∉ ks.map Field.key → st'.get? k = st.get? k := by
  cases n with
  | zero => cases h
  | succ n =>
    cases hc : E.cls c with
    | none => simp [pull, pullStep, viaHana, hc] at h
    | some ci =>
      have hc' : (viaHana E keys).cls c = some { ci with json := hanaJson ks, bin := hanaBinary ks } := by
        simp only [viaHana, hc, hk, Option.map_some]
      by_cases hj : ∃ ms, j = .obj ms
      · obtain ⟨ms, rfl⟩ := hj
        have hr : pull (viaHana E keys) (n + 1) (.cls c) (.obj ms) (.obj st) =
            (pullFields (pull (viaHana E keys) n) ks ms st >>= fun st => pure (.obj st)) := by
          simp only [pull, pullStep, hc', hanaJson, pullBases, M.pure_bind']
          rfl
        rw [hr, M.bind_apply] at h
        cases hp : pullFields (pull (viaHana E keys) n) ks ms st s <;> simp [hp] at h
        rename_i st' s1
        exact ⟨st', h.1.symm, fun k hk => pullFields_untouched _ _ hp k hk⟩
      · have h2 : pull (viaHana E keys) (n + 1) (.cls c) j (.obj st) = mismatch (jtypeOf (.cls c)) j (.obj st) := by
          cases j <;> first | exact absurd ⟨_, rfl⟩ hj | (simp only [pull, pullStep, hc', hanaJson]; rfl)
        rw [h2, mismatch, M.bind_apply] at h
        cases hp : report .typeMismatch (jtypeOf (.cls c)) j.jtype s <;> simp [hp] at h
        exact ⟨st, h.1.symm, fun _ _ => rfl⟩

/-! ## Examples: `Derived : Base` and the recursive `Node`, all adapted -/

namespace HanaEx
open Verif.Demo

/-- `Derived` without versioning and constant member -/
def derived' : ClassInfo :=
  { derived with json := ⟨[0], [fS], [fS], true, true⟩, bin := ⟨[0], none, [(g0, fS)], [(g0, fS)], true⟩ }

def env' : Env := { env with cls := fun c => if c = 1 then some derived' else env.cls c }

/-- `BOOST_HANA_ADAPT_STRUCT(Derived, i, m, s)`, `BOOST_HANA_ADAPT_STRUCT(Node, v, next)`; `Base` remains generated -/
def adapted : ClassId → Option (List Field)
  | 1 => some [fI, fM, fS]
  | 2 => some [fV, fN]
  | _ => none

/-- members of a class without base classes -/
theorem members_single {E : Env} {ok : ClassInfo → Prop} {bases : ClassInfo → List ClassId} {own : ClassInfo → List Field}
    {c : ClassId} {ci : ClassInfo} (hc : E.cls c = some ci) (hok : ok ci) (hb : bases ci = []) :
    Members E ok bases own [c] (own ci) := by
  have := Members.cons (bases := bases) (own := own) (inherited := []) (fs := []) hc hok (by rw [hb]; exact .nil) .nil
  simpa using this

/-- members of a class with one base class which has no base classes itself -/
theorem members_derived {E : Env} {ok : ClassInfo → Prop} {bases : ClassInfo → List ClassId} {own : ClassInfo → List Field}
    {c b : ClassId} {ci bi : ClassInfo} (hc : E.cls c = some ci) (hok : ok ci) (hb : bases ci = [b])
    (hc' : E.cls b = some bi) (hok' : ok bi) (hb' : bases bi = []) :
    Members E ok bases own [c] (own bi ++ own ci) := by
  have := Members.cons (bases := bases) (own := own) (inherited := own bi) (fs := []) hc hok
    (by rw [hb]; exact members_single hc' hok' hb') .nil
  simpa using this

theorem json_adapted : JsonAdapted env' adapted := by
  intro c ks ci hk hc
  match c with
  | 0 => cases hk
  | 1 =>
    cases hk; cases hc
    exact ⟨members_derived (ci := derived') (bi := base) rfl trivial rfl rfl trivial rfl,
      members_derived (ci := derived') (bi := base) rfl rfl rfl rfl rfl rfl⟩
  | 2 =>
    cases hk; cases hc
    exact ⟨members_single (ci := node) rfl trivial rfl, members_single (ci := node) rfl rfl rfl⟩
  | c + 3 => cases hk

theorem binary_adapted : BinaryAdapted env' adapted := by
  have h0 : NoVersions base := by refine ⟨rfl, ?_⟩; intro gf h; simp [base] at h; rcases h with rfl | rfl | rfl | rfl <;> rfl
  have h1 : NoVersions derived' := by refine ⟨rfl, ?_⟩; intro gf h; simp [derived'] at h; rw [h]; rfl
  have h2 : NoVersions node := by refine ⟨rfl, ?_⟩; intro gf h; simp [node] at h; rcases h with rfl | rfl | rfl | rfl <;> rfl
  intro c ks ci hk hc
  match c with
  | 0 => cases hk
  | 1 =>
    cases hk; cases hc
    exact ⟨members_derived (ci := derived') (bi := base) rfl h1 rfl rfl h0 rfl,
      members_derived (ci := derived') (bi := base) rfl ⟨h1, rfl⟩ rfl rfl ⟨h0, rfl⟩ rfl⟩
  | 2 =>
    cases hk; cases hc
    exact ⟨members_single (ci := node) rfl h2 rfl, members_single (ci := node) rfl ⟨h2, rfl⟩ rfl⟩
  | c + 3 => cases hk

/-- a document with an error in an inherited member: the generated code names the record `Base`, the Hana code does not -/
def exJson : Json := .obj [(⟨lit "i", .copied⟩, .bool true), (⟨lit "s", .copied⟩, .arr [.str (lit "x")])]

example : pull env' 6 (.cls 1) exJson (.obj derivedInit) (some .init) =
    .ok (.obj (derivedInit.set fS.key (.list [.str (lit "x")])))
      (some { ErrSt.init with errs := [⟨.typeMismatch, .number, .bool, some (lit "Base"), some (lit "i"), noIndex⟩] }) := rfl

example : pull (viaHana env' adapted) 6 (.cls 1) exJson (.obj derivedInit) (some .init) =
    .ok (.obj (derivedInit.set fS.key (.list [.str (lit "x")])))
      (some { ErrSt.init with errs := [⟨.typeMismatch, .number, .bool, some (lit "[document]"), some (lit "i"), noIndex⟩] }) := rfl

example : write (viaHana env' adapted) (fun _ => none) 6 0 (.cls 1) (.obj derivedInit) WSt.init =
    .ok () ⟨[0, 0, 0, 0, 0x80, 0x80], []⟩ ∧
    write env' (fun _ => none) 6 0 (.cls 1) (.obj derivedInit) WSt.init = .ok () ⟨[0, 0, 0, 0, 0x80, 0x80], []⟩ := ⟨rfl, rfl⟩

/-- the versioned `Derived` is not adapted in the sense of `BinaryAdapted`: generated code writes the version -/
example : write env (fun _ => none) 6 0 (.cls 1) (.obj derivedInit) WSt.init =
      .ok () ⟨[0, 0, 0, 0, 0x80, 0x83, 0x80], []⟩ ∧
    write (viaHana env adapted) (fun _ => none) 6 0 (.cls 1) (.obj derivedInit) WSt.init =
      .ok () ⟨[0, 0, 0, 0, 0x80, 0x80], []⟩ := ⟨rfl, rfl⟩

end HanaEx

end Verif
