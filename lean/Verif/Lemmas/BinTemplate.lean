import Verif.Spec.BinPointers
import Verif.Lemmas.Reproducible
import Verif.Lemmas.PushRename
import Verif.Lemmas.BinSize
import Verif.Lemmas.BinWClosed
import Verif.Props.BinaryPointers

/-!
# Binary data depends on addresses only in the identifiers
-/

namespace Verif

theorem Renders.append {ρ : Nat → Nat} {ps qs : List Piece} {a b : Str} (h : Renders ρ ps a) (h' : Renders ρ qs b) : Renders ρ (ps ++ qs) (a ++ b) := by
  induction h with
  | nil => exact h'
  | data bs _ ih => rw [List.append_assoc]; exact .data bs ih
  | first hi _ ih => rw [List.cons_append, List.cons_append, List.append_assoc]; exact .first hi ih
  | again hi _ ih => rw [List.cons_append, List.cons_append, List.append_assoc]; exact .again hi ih

/-- another process with a copy of the objects `S`; `junk`: other objects written before; `hashed`: whether hashed containers are iterated
in the same order -/
structure OtherProcess (E : Env) (H : Heap) (S : Nat → Prop) (hashed : Bool) where
  E' : Env
  H' : Heap
  ρ : Nat → Nat
  junk : List Nat
  new : ∀ a, S a → ρ a ∉ junk
  order : hashed = true → (∀ l, E'.iter (Val.renameL ρ l) = Val.renameL ρ (E.iter l)) ∧ ∀ l, E'.iterKV (Val.renameKV ρ l) = Val.renameKV ρ (E.iterKV l)
  same : SameExceptOrder E E'
  content : ∀ a, S a → ∃ x, H a = some x ∧ H' (ρ a) = some (x.rename ρ)
  inj : ∀ a b, S a → S b → ρ a = ρ b → a = b
  bound : ∀ a, S a → ρ a < 2 ^ 64

section
variable {E : Env} {H : Heap} {S : Nat → Prop} {hashed : Bool}

/-- `m` writes pieces, and so does `m'` with the other addresses. -/
def Tmpl (m : WM Unit) (m' : OtherProcess E H S hashed → WM Unit) : Prop :=
  ∀ s s1, (∀ a ∈ s.seen, S a) → m s = .ok () s1 → ∃ ps d, s1.out = s.out ++ d ∧ Renders id ps d ∧ (∀ a ∈ s1.seen, S a) ∧
    ∀ c : OtherProcess E H S hashed, ∀ out', ∃ d', m' c ⟨out', s.seen.map c.ρ ++ c.junk⟩ = .ok () ⟨out' ++ d', s1.seen.map c.ρ ++ c.junk⟩ ∧ Renders c.ρ ps d'

namespace Tmpl

theorem fails {m : WM Unit} {m' : OtherProcess E H S hashed → WM Unit} (h : ∀ s s1, m s = .ok () s1 → False) : Tmpl m m' :=
  fun s s1 _ hs => (h s s1 hs).elim

theorem out {m : WM Unit} (h : ∀ s s1, m s = .ok () s1 → ∃ d, Out m d) : Tmpl (E := E) (H := H) (S := S) (hashed := hashed) m fun _ => m := by
  intro s s1 hS hs
  obtain ⟨d, hd⟩ := h s s1 hs
  rw [hd] at hs
  cases hs
  refine ⟨[.data d], d, rfl, ?_, hS, fun c out' => ⟨d, hd _, ?_⟩⟩
  · simpa using Renders.data d (Renders.nil (ρ := id))
  · simpa using Renders.data d (Renders.nil (ρ := c.ρ))

theorem emit (d : Str) : Tmpl (E := E) (H := H) (S := S) (hashed := hashed) (Verif.emit d) fun _ => Verif.emit d := out fun _ _ _ => ⟨d, .emit d⟩
theorem nil : Tmpl (E := E) (H := H) (S := S) (hashed := hashed) (pure ()) fun _ => pure () := out fun _ _ _ => ⟨[], .nil⟩

theorem varint (x : Nat) : Tmpl (E := E) (H := H) (S := S) (hashed := hashed) (writeVarint x) fun _ => writeVarint x := out fun s s1 h => by
  obtain ⟨d, -, h, -⟩ := OutRel.varint eqClosed x s s1 h
  exact ⟨d, h⟩

theorem version (c : Option Nat) (w : Nat) : Tmpl (E := E) (H := H) (S := S) (hashed := hashed) (writeVersion c w) fun _ => writeVersion c w := out fun s s1 h => by
  obtain ⟨d, -, h, -⟩ := OutRel.version eqClosed c w s s1 h
  exact ⟨d, h⟩

theorem bind {m : WM Unit} {m' : OtherProcess E H S hashed → WM Unit} {f : Unit → WM Unit} {f' : OtherProcess E H S hashed → Unit → WM Unit} (hm : Tmpl m m')
    (hf : Tmpl (f ()) fun c => f' c ()) : Tmpl (m >>= f) fun c => m' c >>= f' c := by
  intro s s1 hS h
  obtain ⟨⟨⟩, s2, h1, h2⟩ := M.bind_eq_ok.1 h
  obtain ⟨ps, d, e1, e2, e3, e4⟩ := hm s s2 hS h1
  obtain ⟨qs, e, g1, g2, g3, g4⟩ := hf s2 s1 e3 h2
  refine ⟨ps ++ qs, d ++ e, by rw [g1, e1, List.append_assoc], e2.append g2, g3, fun c out' => ?_⟩
  obtain ⟨d', i1, i2⟩ := e4 c out'
  obtain ⟨e', j1, j2⟩ := g4 c (out' ++ d')
  exact ⟨d' ++ e', (M.bind_ok i1).trans (j1.trans (by rw [List.append_assoc])), i2.append j2⟩

theorem seq {m : WM Unit} {m' : OtherProcess E H S hashed → WM Unit} {f : WM Unit} {f' : OtherProcess E H S hashed → WM Unit} (hm : Tmpl m m') (hf : Tmpl f f') :
    Tmpl (m >>= fun _ => f) fun c => m' c >>= fun _ => f' c := bind (f := fun _ => f) (f' := fun c _ => f' c) hm hf

variable {W : Nat → Ty → Val → WM Unit} {W' : OtherProcess E H S hashed → Nat → Ty → Val → WM Unit}

theorem elems {t : Ty} (vs : List Val) (h : ∀ v ∈ vs, Tmpl (W 0 t v) fun c => W' c 0 t (v.rename c.ρ)) :
    Tmpl (writeElems W t vs) fun c => writeElems (W' c) t (Val.renameL c.ρ vs) := by
  induction vs with
  | nil => exact nil
  | cons v vs ih =>
    exact bind (f' := fun c _ => writeElems (W' c) t (Val.renameL c.ρ vs)) (h v List.mem_cons_self) (ih fun v hv => h v (List.mem_cons_of_mem _ hv))

theorem entries {k t : Ty} (kvs : List (Val × Val)) (h : ∀ q ∈ kvs, Tmpl (W 0 (.pair k t) (.tup [q.1, q.2])) fun c =>
    W' c 0 (.pair k t) (.tup [q.1.rename c.ρ, q.2.rename c.ρ])) :
    Tmpl (writeEntries W k t kvs) fun c => writeEntries (W' c) k t (Val.renameKV c.ρ kvs) := by
  induction kvs with
  | nil => exact nil
  | cons q kvs ih =>
    exact bind (f' := fun c _ => writeEntries (W' c) k t (Val.renameKV c.ρ kvs)) (h q List.mem_cons_self) (ih fun q hq => h q (List.mem_cons_of_mem _ hq))

theorem bases {w : Nat} (bs : List ClassId) (v : Val) (h : ∀ b ∈ bs, Tmpl (W w (.cls b) v) fun c => W' c w (.cls b) (v.rename c.ρ)) :
    Tmpl (writeBases W w bs v) fun c => writeBases (W' c) w bs (v.rename c.ρ) := by
  induction bs with
  | nil => exact nil
  | cons b bs ih =>
    exact bind (f' := fun c _ => writeBases (W' c) w bs (v.rename c.ρ)) (h b List.mem_cons_self) (ih fun b hb => h b (List.mem_cons_of_mem _ hb))

theorem fields {w : Nat} (fs : List (Guard × Field)) (st : Store)
    (h : ∀ gf ∈ fs, ∀ v, st.get? gf.2.key = some v → Tmpl (W w gf.2.ty v) fun c => W' c w gf.2.ty (v.rename c.ρ)) :
    Tmpl (writeFields W w fs st) fun c => writeFields (W' c) w fs (Val.renameF c.ρ st) := by
  induction fs with
  | nil => exact nil
  | cons gf fs ih =>
    obtain ⟨g, f⟩ := gf
    have ih := ih fun gf hgf => h gf (List.mem_cons_of_mem _ hgf)
    unfold writeFields
    by_cases hg : g.holds w = true
    · simp only [if_pos hg, get?_rename']
      cases hk : st.get? f.key with
      | none => exact fails fun s s1 h => by cases h
      | some v =>
        exact bind (f' := fun c _ => writeFields (W' c) w fs (Val.renameF c.ρ st)) (h (g, f) List.mem_cons_self v hk) ih
    · simp only [if_neg hg]
      exact ih

end Tmpl

theorem seen_map (c : OtherProcess E H S hashed) {a : Nat} {l : List Nat} (ha : S a) (hl : ∀ b ∈ l, S b) : c.ρ a ∈ l.map c.ρ ++ c.junk ↔ a ∈ l := by
  rw [List.mem_append, or_iff_left (c.new a ha)]
  constructor
  · intro h
    obtain ⟨b, hb, e⟩ := List.mem_map.1 h
    rw [← c.inj b a (hl b hb) ha e]
    exact hb
  · exact List.mem_map_of_mem

/-- pointers -/
theorem Tmpl.pointer {a : Nat} (ha : S a) (hb : a < 2 ^ 64) {x : Val} (hx : H a = some x) {n w : Nat} {t : Ty}
    (hS : Tmpl (write E H n 0 t x) fun c : OtherProcess E H S hashed => write c.E' c.H' n 0 t (x.rename c.ρ)) :
    Tmpl (write E H (n + 1) w (.sptr t) (.ref a)) fun c : OtherProcess E H S hashed => write c.E' c.H' (n + 1) w (.sptr t) (.ref (c.ρ a)) := by
  intro s s1 hs h
  by_cases hw : a ∈ s.seen
  · obtain ⟨bs, h1, h2, -⟩ := C34_later_occurrence E H n w 0 t .null a hb s hw
    rw [h2] at h
    cases h
    refine ⟨[.pointer true a], _, rfl, ?_, hs, fun c out' => ?_⟩
    · have := Renders.again (ρ := id) (a := a) h1 .nil
      rwa [List.append_nil] at this
    · obtain ⟨bs', g1, g2, -⟩ := C34_later_occurrence c.E' c.H' n w 0 t .null (c.ρ a) (c.bound a ha) ⟨out', s.seen.map c.ρ ++ c.junk⟩
        ((seen_map c ha hs).2 hw)
      refine ⟨_, g2, ?_⟩
      have := Renders.again (ρ := c.ρ) (a := a) g1 .nil
      rwa [List.append_nil] at this
  · obtain ⟨bs, h1, h2, -⟩ := C34_first_occurrence E H n w 0 t .null x a hb s hw hx
    rw [h2] at h
    obtain ⟨ps, d, e1, e2, e3, e4⟩ := hS _ _ (by
      intro b hb
      rcases List.mem_cons.1 hb with rfl | hb
      · exact ha
      · exact hs b hb) h
    refine ⟨.pointer false a :: ps, (if 2 ^ 55 ≤ a then 5 else 1) :: (bs ++ d), ?_, .first h1 e2, e3, fun c out' => ?_⟩
    · rw [e1]; simp
    · obtain ⟨y, hy, hy'⟩ := c.content a ha
      obtain rfl := Option.some.inj (hx.symm.trans hy)
      obtain ⟨bs', g1, g2, -⟩ := C34_first_occurrence c.E' c.H' n w 0 t .null _ (c.ρ a) (c.bound a ha) ⟨out', s.seen.map c.ρ ++ c.junk⟩
        (fun h => hw ((seen_map c ha hs).1 h)) hy'
      obtain ⟨d', i1, i2⟩ := e4 c (out' ++ (if 2 ^ 55 ≤ c.ρ a then 5 else 1) :: bs')
      refine ⟨(if 2 ^ 55 ≤ c.ρ a then 5 else 1) :: (bs' ++ d'), ?_, .first g1 i2⟩
      refine g2.trans (i1.trans ?_)
      simp

theorem renameL_length (ρ : Nat → Nat) (vs : List Val) : (Val.renameL ρ vs).length = vs.length := by rw [Val.renameL_eq, List.length_map]
theorem renameKV_length (ρ : Nat → Nat) (kvs : List (Val × Val)) : (Val.renameKV ρ kvs).length = kvs.length := by
  rw [Val.renameKV_eq, List.length_map]

theorem write_tmpl (hS : ∀ a x, S a → H a = some x → ∀ b ∈ x.refs, S b) (hb : ∀ a, S a → a < 2 ^ 64) (n w : Nat) (t : Ty) (v : Val)
    (ht : (∀ t', ConsistsOf E t t' → hashed = false → (∀ m u, t' ≠ .set true m u) ∧ ∀ m k u, t' ≠ .map true m k u))
    (hi : hashed = true → VisitsAll E) (hv : ∀ a ∈ v.refs, S a) : Tmpl (write E H n w t v) fun c : OtherProcess E H S hashed => write c.E' c.H' n w t (v.rename c.ρ) := by
  induction n generalizing w t v with
  | zero => exact .fails fun s s1 h => by cases h
  | succ n ih =>
    have stuck : ∀ m' : OtherProcess E H S hashed → WM Unit, Tmpl M.stuck m' := fun m' => .fails fun s s1 h => by cases h
    cases v with
    | ref a =>
      cases t <;> first | exact stuck _ | skip
      have ha := hv a (List.mem_singleton.2 rfl)
      cases hx : H a with
      | some x => exact .pointer ha (hb a ha) hx (ih 0 _ x (fun t' h => ht t' (.sptr h)) (hS a x ha hx))
      | none =>
        refine fun s s1 hs h => ?_
        by_cases hw : a ∈ s.seen
        · obtain ⟨bs, h1, h2, -⟩ := C34_later_occurrence E H n w 0 _ .null a (hb a ha) s hw
          rw [h2] at h
          cases h
          refine ⟨[.pointer true a], _, rfl, ?_, hs, fun c out' => ?_⟩
          · have := Renders.again (ρ := id) (a := a) h1 .nil
            rwa [List.append_nil] at this
          · obtain ⟨bs', g1, g2, -⟩ := C34_later_occurrence c.E' c.H' n w 0 _ .null (c.ρ a) (c.bound a ha) ⟨out', s.seen.map c.ρ ++ c.junk⟩
              ((seen_map c ha hs).2 hw)
            refine ⟨_, g2, ?_⟩
            have := Renders.again (ρ := c.ρ) (a := a) g1 .nil
            rwa [List.append_nil] at this
        · exfalso
          have h : sharedWrite a M.ub s = .ok () s1 := by
            simpa only [write, writeStep, hx, sharedWrite] using h
          obtain ⟨_, _, h1, h2⟩ := M.bind_eq_ok.1 h
          cases h1
          rw [decide_eq_false hw] at h2
          obtain ⟨_, _, -, h3⟩ := M.bind_eq_ok.1 h2
          obtain ⟨_, _, -, h4⟩ := M.bind_eq_ok.1 h3
          obtain ⟨_, _, -, h5⟩ := M.bind_eq_ok.1 h4
          cases h5
    | some v =>
      cases t <;> first | exact stuck _ | skip
      exact .bind (.emit [1]) (ih 0 _ v (fun t' h => ht t' (.opt h)) hv)
    | ptr v =>
      cases t <;> first | exact stuck _ | skip
      exact .bind (.emit [1]) (ih 0 _ v (fun t' h => ht t' (.uptr h)) hv)
    | null => cases t <;> first | exact stuck _ | exact .emit _
    | list vs =>
      have hv' : ∀ v ∈ vs, ∀ a ∈ v.refs, S a := fun v hm a h => hv a (refsL_mem hm h)
      cases t <;> first | exact stuck _ | skip
      · rename_i t
        have := Tmpl.seq (.varint vs.length) (.elems (W := write E H n) (W' := fun c : OtherProcess E H S hashed => write c.E' c.H' n) vs fun v hm =>
          ih 0 t v (fun t' h => ht t' (.vec h)) (hv' v hm))
        simpa only [write, writeStep, Val.rename, renameL_length] using this
      · rename_i hd m t
        cases hd
        · have := Tmpl.seq (.varint vs.length) (.elems (W := write E H n) (W' := fun c : OtherProcess E H S hashed => write c.E' c.H' n) vs fun v hm =>
            ih 0 t v (fun t' h => ht t' (.set h)) (hv' v hm))
          simpa only [write, writeStep, Val.rename, renameL_length, Env.order, Bool.false_eq_true, if_false] using this
        · cases hashed
          · exact absurd rfl ((ht _ (.refl _) rfl).1 m t)
          · have := Tmpl.seq (.varint vs.length) (.elems (W := write E H n) (W' := fun c : OtherProcess E H S true => write c.E' c.H' n) (E.iter vs) fun v hm =>
              ih 0 t v (fun t' h => ht t' (.set h)) (hv' v (((hi rfl).1 vs).mem_iff.1 hm)))
            simpa only [write, writeStep, Val.rename, renameL_length, Env.order, if_true, fun c : OtherProcess E H S true => (c.order rfl).1 vs] using this
    | map kvs =>
      cases t <;> first | exact stuck _ | skip
      rename_i hd m k t
      have he : ∀ q ∈ kvs, ∀ a ∈ (Val.tup [q.1, q.2]).refs, S a := by
        intro q hm a ha
        refine hv a (refsKV_mem hm ?_)
        simpa [Val.refs, Val.refsL] using ha
      cases hd
      · have := Tmpl.seq (.varint kvs.length) (.entries (W := write E H n) (W' := fun c : OtherProcess E H S hashed => write c.E' c.H' n) (k := k) (t := t)
          kvs fun q hm => ih 0 _ _ (fun t' h => ht t' (.entry h)) (he q hm))
        simpa only [write, writeStep, Val.rename, renameKV_length, Env.orderKV, Bool.false_eq_true, if_false] using this
      · cases hashed
        · exact absurd rfl ((ht _ (.refl _) rfl).2 m k t)
        · have := Tmpl.seq (.varint kvs.length) (.entries (W := write E H n) (W' := fun c : OtherProcess E H S true => write c.E' c.H' n) (k := k) (t := t)
            (E.iterKV kvs) fun q hm => ih 0 _ _ (fun t' h => ht t' (.entry h)) (he q (((hi rfl).2 kvs).mem_iff.1 hm)))
          simpa only [write, writeStep, Val.rename, renameKV_length, Env.orderKV, if_true, fun c : OtherProcess E H S true => (c.order rfl).2 kvs] using this
    | tup vs =>
      rcases vs with _ | ⟨x, _ | ⟨y, _ | ⟨z, vs⟩⟩⟩ <;> cases t <;> first | exact stuck _ | skip
      exact .bind (ih 0 _ x (fun t' h => ht t' (.fst h)) fun a ha => hv a (by simp [Val.refs, Val.refsL, ha]))
        (ih 0 _ y (fun t' h => ht t' (.snd h)) fun a ha => hv a (by simp [Val.refs, Val.refsL, ha]))
    | valueless =>
      cases t <;> first | exact stuck _ | skip
      refine .fails fun s s1 h => ?_
      obtain ⟨_, _, _, h⟩ := M.bind_eq_ok.1 h
      cases h
    | alt x v =>
      cases t <;> first | exact stuck _ | skip
      rename_i ts
      cases hx : ts[x]? with
      | none => simp only [write, writeStep, hx]; exact stuck _
      | some t =>
        by_cases hm : t = .mono
        · subst hm
          simp only [write, writeStep, hx, Val.rename]
          exact .emit _
        · have e : ∀ (E : Env) (H : Heap) v, write E H (n + 1) w (.variant ts) (.alt x v) = (writeByte x >>= fun _ => write E H n 0 t v) := by
            intro E H v
            simp only [write, writeStep, hx]
          simp only [e, Val.rename]
          exact .bind (.emit _) (ih 0 t v (fun t' h => ht t' (.alt (List.mem_of_getElem? hx) h)) hv)
    | obj st =>
      cases t <;> first | exact stuck _ | skip
      rename_i c
      have hst : ∀ k v, Store.get? st k = some v → ∀ a ∈ v.refs, S a := fun k v hk a ha => hv a (refs_get? hk ha)
      cases hci : E.cls c with
      | none => simp only [write, writeStep, hci]; exact stuck _
      | some ci =>
        have e : ∀ o : OtherProcess E H S hashed, o.E'.cls c = some ci := fun o => by rw [o.same.cls, hci]
        simp only [write, writeStep, hci, e, Val.rename]
        refine .bind (.bases _ (.obj st) fun b hb => ih w _ _ (fun t' h => ht t' (.binBase hci hb h)) hv) (.bind (.version _ _) ?_)
        exact .fields _ st fun gf hgf v hk => ih _ _ v (fun t' h => ht t' (.binMember hci hgf h)) (hst _ v hk)
    | int x =>
      cases t <;> first | exact stuck _ | skip
      · rename_i it
        simp only [write, writeStep, Val.rename]
        by_cases h : it = .i8
        · simp only [if_pos h]; exact stuck _
        · simp only [if_neg h]; exact .emit _
      · exact ih 0 _ (.int x) (fun t' h => by cases h; exact ht _ (.enum _)) hv
    | str x => cases t <;> first | exact stuck _ | exact .bind (.varint _) (.emit _)
    | indet => exact .fails fun s s1 h => by cases t <;> cases h
    | _ => cases t <;> first | exact stuck _ | exact .emit _

end

end Verif
