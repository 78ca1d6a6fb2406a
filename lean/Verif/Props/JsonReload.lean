import Verif.Spec.JsonReload
import Verif.Props.JsonRoundTrip
import Verif.Props.JsonForm
import Verif.Props.JsonText
import Verif.Props.JsonSafety

/-!
# C65: whatever has been read survives being written and read again
-/

namespace Verif

open Demo (env)

/-! ### partial correctness -/

/-- If `m` returns, the result satisfies `Q`. -/
def Post {α : Type} (m : PM α) (Q : α → Prop) : Prop := ∀ s a s', m s = .ok a s' → Q a

namespace Post
variable {α β : Type}

theorem pure {a : α} {Q : α → Prop} (h : Q a) : Post (Pure.pure a : PM α) Q := by
  intro s b s' e; cases e; exact h

theorem stuck {Q : α → Prop} : Post (M.stuck : PM α) Q := by intro s b s' e; cases e

theorem ub {Q : α → Prop} : Post (M.ub : PM α) Q := by intro s b s' e; cases e

theorem weaken {m : PM α} {Q R : α → Prop} (h : Post m Q) (hQ : ∀ a, Q a → R a) : Post m R :=
  fun s a s' e => hQ a (h s a s' e)

theorem bind {m : PM α} {f : α → PM β} {Q : α → Prop} {R : β → Prop} (hm : Post m Q) (hf : ∀ a, Q a → Post (f a) R) :
    Post (m >>= f) R := by
  intro s b s' e
  obtain ⟨a, s1, h1, h2⟩ := M.bind_eq_ok.1 e
  exact hf a (hm _ _ _ h1) _ _ _ h2

theorem bind' {m : PM α} {f : α → PM β} {R : β → Prop} (hf : ∀ a, Post (f a) R) : Post (m >>= f) R :=
  bind (Q := fun _ => True) (fun _ _ _ _ => trivial) fun a _ => hf a

theorem map {m : PM α} {g : α → β} {Q : α → Prop} {R : β → Prop} (hm : Post m Q) (hf : ∀ a, Q a → R (g a)) :
    Post (m >>= fun a => Pure.pure (g a)) R := hm.bind fun a h => pure (hf a h)

theorem withMember {m : PM α} {Q : α → Prop} (n : Str) (h : Post m Q) : Post (withMember n m) Q := by
  intro s a s' e
  obtain ⟨s1, s2, h1⟩ := withMember_ok e
  exact h _ _ _ h1

theorem withRecord {m : PM α} {Q : α → Prop} (n : Str) (h : Post m Q) : Post (withRecord n m) Q := by
  intro s a s' e
  obtain ⟨s1, s2, h1⟩ := withRecord_ok e
  exact h _ _ _ h1

theorem forIdx {f : Json → β → PM β} {Q : β → Prop} (js : List Json) (i : Nat) (b : β) (hb : Q b)
    (h : ∀ j ∈ js, ∀ b, Q b → Post (f j b) Q) : Post (forIdx f js i b) Q := by
  induction js generalizing i b with
  | nil => exact bind' fun _ => pure hb
  | cons j js ih =>
    exact bind' fun _ => (h j List.mem_cons_self b hb).bind fun b' hb' =>
      ih (i + 1) b' hb' fun j' hj' => h j' (List.mem_cons_of_mem _ hj')

theorem mismatch (e : JType) (j : Json) {v : Val} {Q : Val → Prop} (h : Q v) : Post (mismatch e j v) Q :=
  bind' fun _ => pure h

theorem of_snd {m : PM α} {Q : α → Prop} (h : Snd m Q) : Post m Q := by
  intro s a s' e
  have := h s
  rw [e] at this
  exact this

end Post

/-! ### the invariant -/

/-- `Cont E H t p q`: `q` is an object of type `t` which has been reached from `p` by reading documents into it. -/
inductive Cont (E : Env) (H : Heap) : Ty → Val → Val → Prop
  | leaf {t p q} : Replaced t → (ValidObj E H false t q → JRepr E H t p q) → Cont E H t p q
  | pair {a b p q v w} : Cont E H a p v → Cont E H b q w → Cont E H (.pair a b) (.tup [p, q]) (.tup [v, w])
  | tuple {ts : List Ty} {ps vs : List Val} : ps.length = ts.length → vs.length = ts.length →
      (∀ (i : Nat) t p v, ts[i]? = some t → ps[i]? = some p → vs[i]? = some v → Cont E H t p v) →
      Cont E H (.tuple ts) (.tup ps) (.tup vs)
  | map {hashed t ps kvs} : MapOK E ps → MapOK E kvs → (∀ k v, (.str k, v) ∈ kvs → PlainStr k) →
      (∀ k p, (.str k, p) ∈ ps → ∃ v, (.str k, v) ∈ kvs) →
      (∀ k v p, (.str k, v) ∈ kvs → (.str k, p) ∈ ps → Cont E H t p v) →
      (∀ k v, (.str k, v) ∈ kvs → (∀ p, (.str k, p) ∉ ps) → Cont E H t (E.valInit t) v) →
      Cont E H (.map hashed false .str t) (.map ps) (.map kvs)
  | multimap {hashed t kvs} : (hashed = true → ∀ kvs k, valuesOf k (E.iterKV kvs) = valuesOf k kvs) → MultiOK E kvs →
      (∀ q ∈ kvs, ∃ k, q.1 = .str k ∧ PlainStr k) →
      (∀ q ∈ kvs, Cont E H t (E.valInit t) q.2) → Cont E H (.map hashed true .str t) (.map []) (.map kvs)
  | cls {c} {P Q : List Field} {st0 st : Store} : FlatFields E [c] P → FlatPull E [c] Q →
      (∀ f ∈ Q, f ∈ P) → (∀ f ∈ P, ∀ f' ∈ P, f.name = f'.name → f = f') → (∀ f, 2 ≤ Q.count f → NoMultimap E f.ty) →
      st0.map Prod.fst = st.map Prod.fst → (st.map Prod.fst).Nodup → (∀ f ∈ P, ∃ v, st.get? f.key = some v) →
      (∀ f ∈ Q, ∀ p v, st0.get? f.key = some p → st.get? f.key = some v → Cont E H f.ty p v) →
      (∀ f ∈ P, f ∉ Q → ∀ v, st.get? f.key = some v → ValidObj E H false f.ty v → ∃ w, JRepr E H f.ty w v) →
      (∀ k, (∀ f ∈ Q, f.key ≠ k) → st0.get? k = st.get? k) → Cont E H (.cls c) (.obj st0) (.obj st)

section
variable {E : Env} {H : Heap}

/-! ### subtypes -/

theorem Reloadable.self {t : Ty} (h : Reloadable E H t) : LocallyReloadable E H t := h t (.refl t)
theorem Reloadable.opt {t : Ty} (h : Reloadable E H (.opt t)) : Reloadable E H t := fun t' ht => h t' (.opt ht)
theorem Reloadable.uptr {t : Ty} (h : Reloadable E H (.uptr t)) : Reloadable E H t := fun t' ht => h t' (.uptr ht)
theorem Reloadable.sptr {t : Ty} (h : Reloadable E H (.sptr t)) : Reloadable E H t := fun t' ht => h t' (.sptr ht)
theorem Reloadable.vec {t : Ty} (h : Reloadable E H (.vec t)) : Reloadable E H t := fun t' ht => h t' (.vec ht)
theorem Reloadable.set {a b : Bool} {t : Ty} (h : Reloadable E H (.set a b t)) : Reloadable E H t := fun t' ht => h t' (.set ht)
theorem Reloadable.map {a b : Bool} {k t : Ty} (h : Reloadable E H (.map a b k t)) : Reloadable E H t :=
  fun t' ht => h t' (.mapVal ht)
theorem Reloadable.fst {a b : Ty} (h : Reloadable E H (.pair a b)) : Reloadable E H a := fun t' ht => h t' (.fst ht)
theorem Reloadable.snd {a b : Ty} (h : Reloadable E H (.pair a b)) : Reloadable E H b := fun t' ht => h t' (.snd ht)
theorem Reloadable.elem {ts : List Ty} {t : Ty} (h : Reloadable E H (.tuple ts)) (ht : t ∈ ts) : Reloadable E H t :=
  fun t' h' => h t' (.elem ht h')
theorem Reloadable.alt {ts : List Ty} {t : Ty} (h : Reloadable E H (.variant ts)) (ht : t ∈ ts) (hm : t ≠ .mono) :
    Reloadable E H t := fun t' h' => h t' (.alt ht hm h')

/-- the members read for a class are needed by it -/
theorem needs_flatPull {cs : List ClassId} {fs : List Field} (h : FlatPull E cs fs) :
    ∀ f ∈ fs, ∃ c ∈ cs, ∀ t', JsonNeeds E f.ty t' → JsonNeeds E (.cls c) t' := by
  induction h with
  | nil => simp
  | @cons c ci cs bs fs hc hp h1 h2 ih1 ih2 =>
    intro f hf
    rcases List.mem_append.1 hf with hf | hf
    · rcases List.mem_append.1 hf with hf | hf
      · obtain ⟨b, hb, h⟩ := ih1 f hf
        exact ⟨c, List.mem_cons_self, fun t' ht => .base hc hb (h t' ht)⟩
      · exact ⟨c, List.mem_cons_self, fun t' ht => .field hc hf ht⟩
    · obtain ⟨b, hb, h⟩ := ih2 f hf
      exact ⟨b, List.mem_cons_of_mem _ hb, h⟩

theorem Reloadable.member {c : ClassId} {Q : List Field} (h : Reloadable E H (.cls c)) (hQ : FlatPull E [c] Q) {f : Field}
    (hf : f ∈ Q) : Reloadable E H f.ty := by
  obtain ⟨b, hb, hn⟩ := needs_flatPull hQ f hf
  rw [List.mem_singleton.1 hb] at hn
  exact fun t' ht => h t' (hn t' ht)

theorem flatPull_eq {cs : List ClassId} {fs fs' : List Field} (h : FlatPull E cs fs) (h' : FlatPull E cs fs') : fs = fs' := by
  induction h generalizing fs' with
  | nil => cases h'; rfl
  | cons hc _ _ _ ih1 ih2 =>
    cases h' with
    | cons hc' _ h1 h2 =>
      rw [hc] at hc'; cases hc'
      rw [ih1 h1, ih2 h2]

/-! ### settled objects -/

theorem cont_settled {t : Ty} {p : Val} (hp : Settled E H t p) (hE : StrTotal E) : Reloadable E H t → Cont E H t p p := by
  induction hp with
  | replaced h1 h2 => exact fun _ => .leaf h1 h2
  | pair _ _ ih1 ih2 => exact fun hr => .pair (ih1 hr.fst) (ih2 hr.snd)
  | tuple hl _ ih =>
    intro hr
    refine .tuple hl hl fun i t p v ht hp hv => ?_
    rw [hp] at hv; cases hv
    exact ih i t p ht hp (hr.elem (List.mem_of_getElem? ht))
  | map h1 h2 _ ih =>
    intro hr
    refine .map h1 h1 h2 (fun k p h => ⟨p, h⟩) (fun k v p hv hp => ?_) (fun k v hv hn => absurd hv (hn v))
    rw [mapOK_functional hE h1 hv hp]
    exact ih k p hp hr.map
  | multimap => exact fun hr => .multimap (fun hh => hr.self.2 hh rfl) ⟨by simp, by simp⟩ (by simp) (by simp)
  | cls hP hQ hn hs _ hc ih =>
    intro hr
    obtain ⟨P, Q, hP', hQ', hsub, hd, h2⟩ := hr.self
    cases flatFields_eq hP hP'
    cases flatPull_eq hQ hQ'
    refine .cls hP hQ hsub hd h2 rfl hn hs (fun f hf p v hp hv => ?_) hc (fun _ _ => rfl)
    rw [hp] at hv; cases hv
    exact ih f hf p hp (hr.member hQ hf)

/-! ### what has been read is representable -/

theorem order_perm (hI : IterPerm E) (hashed : Bool) (l : List Val) : (E.order hashed l).Perm l := by
  cases hashed
  · exact .refl _
  · exact hI.1 l

theorem orderKV_perm (hI : IterPerm E) (hashed : Bool) (l : List (Val × Val)) : (E.orderKV hashed l).Perm l := by
  cases hashed
  · exact .refl _
  · exact hI.2 l

theorem repr_replaced {t : Ty} {p v : Val} (hr : Replaced t) (h : JRepr E H t p v) : JRepr E H t v v := by
  cases h with
  | bool p b => exact .bool _ _
  | int p i it h1 h2 h3 h4 h5 => exact .int _ _ _ h1 h2 h3 h4 h5
  | f32 p b h => exact .f32 _ _ h
  | f64 p b => exact .f64 _ _
  | enum p i u h1 h2 => exact .enum _ _ _ h1 h2
  | str p s h => exact .str _ _ h
  | cstr s => exact .cstr _
  | sview s => exact .sview _
  | dateTime p i h1 h2 => exact .dateTime _ _ h1 h2
  | timeSpan p i h1 h2 => exact .timeSpan _ _ h1 h2
  | optNone t p => exact .optNone _ _
  | uptrNone t p => exact .uptrNone _ _
  | sptrNone t p => exact .sptrNone _ _
  | optSome h1 h2 => exact .optSome h1 h2
  | uptrSome h1 h2 => exact .uptrSome h1 h2
  | sptrSome h1 h2 => exact .sptrSome h1 h2
  | vec h => exact .vec h
  | set h1 h2 h3 h4 h5 => exact .set h1 h2 h3 h4 h5
  | multiset h1 h2 h3 h4 h5 h6 => exact .multiset h1 h2 h3 h4 h5 h6
  | variantMono h1 h2 => exact .variantMono h1 h2
  | variant h1 h2 h3 h4 => exact .variant h1 h2 h3 h4
  | _ => exact hr.elim

theorem repr_again {t : Ty} (hn : NoMultimap E t) (hE : StrTotal E) : ∀ {p v : Val}, JRepr E H t p v → JRepr E H t v v := by
  induction hn with
  | replaced h => exact fun h' => repr_replaced h h'
  | pair _ _ ih1 ih2 =>
    intro p v h
    cases h with
    | pair h1 h2 => exact .pair (ih1 h1) (ih2 h2)
  | @tuple ts _ ih =>
    intro p v h
    cases h with
    | @tuple ts ps vs hl1 hl2 h =>
      refine .tuple hl2 hl2 fun i t v v' ht hv hv' => ?_
      rw [hv] at hv'; cases hv'
      have hi : i < ps.length := by
        rw [hl1]; exact (List.getElem?_eq_some_iff.1 ht).1
      exact ih t (List.mem_of_getElem? ht) (h i t _ v ht (List.getElem?_eq_getElem hi) hv)
  | map _ ih =>
    intro p v h
    cases h with
    | @map hashed t ps kvs h1 h2 h3 h4 h5 h6 h7 =>
      refine .map h2 h2 h3 (fun k p h => ⟨p, h⟩) (fun k v p hv hp => ?_) (fun k v hv hn => absurd hv (hn v)) h7
      rw [mapOK_functional hE h2 hv hp]
      by_cases hk : ∃ p', (.str k, p') ∈ ps
      · obtain ⟨p', hp'⟩ := hk
        exact ih (h5 k p p' hp hp')
      · exact ih (h6 k p hp fun p' hp' => hk ⟨p', hp'⟩)
  | cls hP _ ih =>
    intro p v h
    cases h with
    | cls w hP' hQ hsub hd hk hn hs hw hq h2 hu =>
      cases flatFields_eq hP hP'
      refine .cls w hP hQ hsub hd rfl hn hs hw (fun f hf p v hp hv => ?_) (fun f v hc hv => ?_) (fun _ _ => rfl)
      · rw [hp] at hv; cases hv
        exact ih f (hsub f hf) (hw f (hsub f hf) p hp)
      · exact h2 f v hc hv

theorem cont_repr {t : Ty} {p v : Val} (h : Cont E H t p v) (hE : StrTotal E) (hI : IterPerm E) :
    ValidObj E H false t v → JRepr E H t p v := by
  induction h with
  | leaf _ h => exact h
  | pair _ _ ih1 ih2 =>
    intro hv
    cases hv with
    | pair h1 h2 => exact .pair (ih1 h1) (ih2 h2)
  | tuple h1 h2 _ ih =>
    intro hv
    cases hv with
    | tuple _ hv => exact .tuple h1 h2 fun i t p v ht hp hv' => ih i t p v ht hp hv' (hv i t v ht hv')
  | @map hashed t ps kvs h1 h2 h3 h4 _ _ ih1 ih2 =>
    intro hv
    cases hv with
    | map hit _ hv =>
      subst hit
      have hv' : ∀ k v, (.str k, v) ∈ kvs → ValidObj E H false t v := fun k v h =>
        hv _ ((orderKV_perm hI hashed kvs).mem_iff.2 h)
      exact .map h1 h2 h3 h4 (fun k v p h h' => ih1 k v p h h' (hv' k v h)) (fun k v h h' => ih2 k v h h' (hv' k v h))
        (orderKV_perm hI hashed kvs)
  | @multimap hashed t kvs hit0 hm h1 _ ih =>
    intro hv
    cases hv with
    | map hit _ hv =>
      subst hit
      refine .multimap h1 hm.2 (fun q hq => ih q hq (hv _ ((orderKV_perm hI hashed kvs).mem_iff.2 hq)))
        (orderKV_perm hI hashed kvs) fun k => ?_
      cases hashed
      · rfl
      · exact hit0 rfl kvs k
  | @cls c P Q st0 st hP hQ hsub hd h2 hk hn hs _ hc hu ih =>
    intro hv
    cases hv with
    | cls w hP' hg hv =>
      cases flatFields_eq hP hP'
      have hval : ∀ f ∈ P, ∀ v, st.get? f.key = some v → ValidObj E H false f.ty v := by
        intro f hf v hg'
        rw [hg f hf] at hg'; cases hg'
        exact hv f hf
      have hprior : ∀ f ∈ P, ∃ p, st0.get? f.key = some p := by
        intro f hf
        obtain ⟨v, hv⟩ := hs f hf
        have : (st0.get? f.key).isSome := by
          rw [get?_isSome_iff, hk, ← get?_isSome_iff, hv]; rfl
        exact Option.isSome_iff_exists.1 this
      have hq : ∀ f ∈ Q, ∀ p v, st0.get? f.key = some p → st.get? f.key = some v → JRepr E H f.ty p v :=
        fun f hf p v hp hv => ih f hf p v hp hv (hval f (hsub f hf) v hv)
      have hw : ∀ f ∈ P, ∃ w, ∀ v, st.get? f.key = some v → JRepr E H f.ty w v := by
        intro f hf
        by_cases hfq : f ∈ Q
        · obtain ⟨p, hp⟩ := hprior f hf
          exact ⟨p, fun v hv => hq f hfq p v hp hv⟩
        · obtain ⟨v, hv⟩ := hs f hf
          obtain ⟨w, hw⟩ := hc f hf hfq v hv (hval f hf v hv)
          exact ⟨w, fun v' hv' => by rw [hv] at hv'; cases hv'; exact hw⟩
      classical
      refine .cls (fun f => if h : f ∈ P then (hw f h).choose else .null) hP hQ hsub hd hk hn hs (fun f hf v hv => ?_) hq
        (fun f v hcnt hv => ?_) hu
      · simp only [dif_pos hf]
        exact (hw f hf).choose_spec v hv
      · have hfq : f ∈ Q := List.one_le_count_iff.1 (by omega)
        obtain ⟨p, hp⟩ := hprior f (hsub f hfq)
        exact repr_again (h2 f hcnt) hE (hq f hfq p v hp hv)

/-! ### numbers -/

theorem narrowAbs_le {e m : Nat} (hm : m < 2 ^ 52) (h : ¬ (e = 2047 ∧ m ≠ 0)) : Ieee.narrowAbs e m ≤ 255 * 2 ^ 23 := by
  unfold Ieee.narrowAbs
  split
  · rename_i he
    have : m = 0 := by
      by_contra hm
      exact h ⟨he, hm⟩
    simp [this]
  · split
    · omega
    · split
      · simp only
        split <;> omega
      · rename_i h1 h2 h3
        have h4 := Ieee.roundShift_le (2 ^ 52 + m) (926 - e)
        have h5 : (2 ^ 52 + m) / 2 ^ (926 - e) ≤ (2 ^ 52 + m) / 2 ^ 30 :=
          Nat.div_le_div_left (Nat.pow_le_pow_right (by decide) (by omega)) (by decide)
        omega

theorem narrow_not_nan {d : BitVec 64} (h : ¬ (Ieee.exp64 d = 2047 ∧ Ieee.man64 d ≠ 0)) : Ieee.isNaN32 (Ieee.narrow d) = false := by
  have hm : Ieee.man64 d < 2 ^ 52 := Nat.mod_lt _ (by decide)
  have h1 := narrowAbs_le hm h
  have h2 : (Ieee.narrow d).toNat = (if Ieee.neg64 d then 2 ^ 31 else 0) + Ieee.narrowAbs (Ieee.exp64 d) (Ieee.man64 d) := by
    unfold Ieee.narrow
    rw [Ieee.toNat_ofNat32]
    split <;> omega
  simp only [Ieee.isNaN32, Ieee.exp32, Ieee.man32, h2, decide_eq_false_iff_not, not_and, not_not]
  generalize Ieee.narrowAbs (Ieee.exp64 d) (Ieee.man64 d) = a at h1
  split <;> omega

theorem ofInt_not_nan {i : Int} (h : i.natAbs < 2 ^ 64) : Ieee.exp64 (Ieee.ofInt i) ≠ 2047 := by
  unfold Ieee.ofInt
  split
  · decide
  · rename_i h0
    obtain ⟨e, m, he, hm, hn, -⟩ := Ieee.natBits_fields i.natAbs (by omega) h
    have := (Ieee.fields64 (decide (i < 0)) e m (by omega) hm)
    simp only [decide_eq_true_eq] at this
    rw [hn]
    obtain ⟨f1, f2, f3⟩ := this
    omega

theorem stored_not_nan {n : Num} (h : Storable (.num n)) :
    ¬ (Ieee.exp64 (numToDouble n) = 2047 ∧ Ieee.man64 (numToDouble n) ≠ 0) := by
  cases h with
  | int h1 h2 => exact fun h => ofInt_not_nan (by omega) h.1
  | dbl h => exact h

theorem plain_of_read {s : Str} (h : s.length < 2 ^ 32) : PlainStr (cstrOf s) :=
  ⟨(cstrOf_cut s).1, Nat.lt_of_le_of_lt (List.takeWhile_prefix _).length_le h⟩

/-! ### null -/

theorem settled_cstr (h : Settled E H .cstr (E.valInit .cstr)) : False := by
  cases h with
  | replaced _ h => cases h (.cstr _)

theorem settled_sview (h : Settled E H .sview (E.valInit .sview)) : False := by
  cases h with
  | replaced _ h => cases h (.sview _)

/-- whatever a document which is not `null` is read as, is not written as `null` -/
theorem not_null (n : Nat) : ∀ (t : Ty) (j : Json), Reloadable E H t → Settled E H t (E.valInit t) → j ≠ .null →
    Post (pull E n t j (E.valInit t)) fun v => ¬ NullLike H t v := by
  induction n with
  | zero => intro t j _ _ _ s a s' e; cases e
  | succ n ih =>
    intro t j hr hs hj
    change Post (pullStep E (pull E n) t j _) _
    cases t with
    | opt t =>
      cases j with
      | null => exact absurd rfl hj
      | _ => exact (ih t _ hr.opt hr.self hj).map fun v hv h => by cases h with | optSome h => exact hv h
    | uptr t =>
      cases j with
      | null => exact absurd rfl hj
      | _ => exact (ih t _ hr.uptr hr.self hj).map fun v hv h => by cases h with | uptrSome h => exact hv h
    | sptr t =>
      cases j with
      | null => exact absurd rfl hj
      | _ => exact (ih t _ hr.sptr hr.self hj).map fun v hv h => by cases h with | sptrSome h => exact hv h
    | cstr => exact (settled_cstr hs).elim
    | sview => exact (settled_sview hs).elim
    | variant ts =>
      have h0 : ¬ NullLike H (.variant ts) (E.valInit (.variant ts)) := by
        simp only [Env.valInit]
        intro h; cases h
      have h1 : ∀ i v, ¬ NullLike H (.variant ts) (.alt i v) := fun i v h => by cases h
      simp only [pullStep]
      cases j with
      | obj ms =>
        simp only
        split
        · split
          · exact Post.bind' fun _ => Post.pure h0
          · split
            · exact Post.bind' fun _ => Post.pure h0
            · exact Post.pure (h1 _ _)
            · exact Post.bind' fun _ => Post.pure (h1 _ _)
        · exact Post.bind' fun _ => Post.pure h0
      | _ => exact Post.mismatch _ _ h0
    | _ =>
      intro s v s' _ h
      cases h

/-! ### the steps -/

/-- Reading with budget `n` keeps the invariant. -/
def Keeps (E : Env) (H : Heap) (n : Nat) : Prop :=
  ∀ t j p q, Reloadable E H t → Storable j → Cont E H t p q → Post (pull E n t j q) (Cont E H t p)

variable {n : Nat}

theorem keeps_init (hE : StrTotal E) (hk : Keeps E H n) {t : Ty} {j : Json} {p : Val} (hr : Reloadable E H t) (hj : Storable j)
    (hs : Settled E H t p) : Post (pull E n t j p) (Cont E H t p) :=
  hk t j _ _ hr hj (cont_settled hs hE hr)

theorem keeps_vec (hE : StrTotal E) (hk : Keeps E H n) {t : Ty} (hr : Reloadable E H t) (hs : Settled E H t (E.valInit t))
    (js : List Json) (hj : ∀ j ∈ js, Storable j) :
    Post (forIdx (vecItem E (pull E n) t) js 0 []) fun vs => ∀ v ∈ vs, Cont E H t (E.valInit t) v := by
  refine Post.forIdx js 0 [] (by simp) fun j hjm vs hvs => ?_
  refine (keeps_init hE hk hr (hj j hjm) hs).map fun v hv w hw => ?_
  rcases List.mem_append.1 hw with hw | hw
  · exact hvs w hw
  · rw [List.mem_singleton.1 hw]; exact hv

/-- elements of a set which have been read -/
def Elems (E : Env) (H : Heap) (t : Ty) (vs : List Val) : Prop :=
  ∀ v ∈ vs, Cont E H t (E.defInit t) v ∧ v.hasIndet = false ∧ ∃ j, ReadAs E t j v

theorem Elems.order {t : Ty} (hO : OrderedItems E) {vs : List Val} (h : Elems E H t vs) : WeakOrderOn (E.lt t) vs :=
  hO t vs fun v hv => (h v hv).2

theorem keeps_item (hE : StrTotal E) (hk : Keeps E H n) {t : Ty} {j : Json} (hr : Reloadable E H t) (hj : Storable j)
    (hs : Settled E H t (E.defInit t)) :
    Post (pull E n t j (E.defInit t)) fun v => Cont E H t (E.defInit t) v ∧ ∃ j, ReadAs E t j v :=
  fun s v s' e => ⟨keeps_init hE hk hr hj hs s v s' e, j, n, s, s', e⟩

theorem keeps_multiset (hE : StrTotal E) (hO : OrderedItems E) (hk : Keeps E H n) {t : Ty} (hr : Reloadable E H t)
    (hs : Settled E H t (E.defInit t)) (js : List Json) (hj : ∀ j ∈ js, Storable j) :
    Post (forIdx (multisetItem E (pull E n) t) js 0 []) fun vs =>
      Elems E H t vs ∧ vs.Pairwise fun a b => E.lt t b a = false := by
  refine Post.forIdx js 0 [] ⟨fun v hv => by simp at hv, by simp⟩ fun j hjm vs hvs => ?_
  refine (keeps_item hE hk hr (hj j hjm) hs).bind fun v hv => ?_
  cases hind : v.hasIndet with
  | true => exact Post.ub
  | false =>
    simp only [Bool.false_eq_true, if_false]
    have hel : Elems E H t (v :: vs) := by
      intro w hw
      rcases List.mem_cons.1 hw with rfl | hw
      · exact ⟨hv.1, hind, hv.2⟩
      · exact hvs.1 w hw
    refine Post.pure ⟨fun w hw => hel w ((insertMulti_perm _ _ _).mem_iff.1 hw), ?_⟩
    exact insertMulti_sorted (hel.order hO) List.mem_cons_self vs (fun y hy => List.mem_cons_of_mem _ hy) hvs.2

theorem keeps_set (hE : StrTotal E) (hO : OrderedItems E) (hk : Keeps E H n) {t : Ty} (hr : Reloadable E H t)
    (hs : Settled E H t (E.defInit t)) (js : List Json) (hj : ∀ j ∈ js, Storable j) :
    Post (forIdx (setItem E (pull E n) t) js 0 []) fun vs =>
      Elems E H t vs ∧ vs.Pairwise fun a b => E.lt t a b = true := by
  refine Post.forIdx js 0 [] ⟨fun v hv => by simp at hv, by simp⟩ fun j hjm vs hvs => ?_
  refine (keeps_item hE hk hr (hj j hjm) hs).bind fun v hv => ?_
  cases hind : v.hasIndet with
  | true => exact Post.ub
  | false =>
    simp only [Bool.false_eq_true, if_false]
    have hel : Elems E H t (v :: vs) := by
      intro w hw
      rcases List.mem_cons.1 hw with rfl | hw
      · exact ⟨hv.1, hind, hv.2⟩
      · exact hvs.1 w hw
    have hres : Elems E H t (insertUniq (E.lt t) v vs).1 ∧ (insertUniq (E.lt t) v vs).1.Pairwise fun a b => E.lt t a b = true := by
      obtain ⟨h1, h2⟩ := insertUniq_spec (hel.order hO) List.mem_cons_self vs (fun y hy => List.mem_cons_of_mem _ hy) hvs.2
      by_cases he : ∃ y ∈ vs, Equivalent (E.lt t) v y
      · rw [h1 he]; exact hvs
      · obtain ⟨-, h3, h4⟩ := h2 he
        exact ⟨fun w hw => hel w (List.mem_cons.2 ((h4 w).1 hw)), h3⟩
    split
    · exact Post.pure hres
    · exact Post.bind' fun _ => Post.pure hres

theorem keeps_map (hE : StrTotal E) (hk : Keeps E H n) {hashed : Bool} {t : Ty} (hr : Reloadable E H t)
    (hs : Settled E H t (E.valInit t)) {ps : List (Val × Val)} (ms : List (Key × Json))
    (hn : ∀ k j, (k, j) ∈ ms → k.bytes.length < 2 ^ 32) (hj : ∀ k j, (k, j) ∈ ms → Storable j) (kvs : List (Val × Val))
    (h : Cont E H (.map hashed false .str t) (.map ps) (.map kvs)) :
    Post (pullMapEntries E (pull E n) t ms kvs) fun kvs => Cont E H (.map hashed false .str t) (.map ps) (.map kvs) := by
  induction ms generalizing kvs with
  | nil => exact Post.pure h
  | cons m ms ih =>
    obtain ⟨k, j⟩ := m
    have ih' := ih (fun k j h => hn k j (List.mem_cons_of_mem _ h)) (fun k j h => hj k j (List.mem_cons_of_mem _ h))
    have hpl : PlainStr (cstrOf k.bytes) := plain_of_read (hn k j List.mem_cons_self)
    cases h with
    | leaf hr => exact hr.elim
    | map h1 h2 h3 h4 h5 h6 =>
      have hstep : Post (pull E n t j ((mapFind (E.lt .str) (.str (cstrOf k.bytes)) kvs).getD (E.valInit t))) fun v =>
          (∀ p, (.str (cstrOf k.bytes), p) ∈ ps → Cont E H t p v) ∧
          ((∀ p, (.str (cstrOf k.bytes), p) ∉ ps) → Cont E H t (E.valInit t) v) := by
        have hsj := hj k j List.mem_cons_self
        cases hf : mapFind (E.lt .str) (.str (cstrOf k.bytes)) kvs with
        | some q =>
          have hq := (mapFind_iff hE h2).1 hf
          by_cases hp : ∃ p, (.str (cstrOf k.bytes), p) ∈ ps
          · obtain ⟨p, hp⟩ := hp
            refine (hk t j p q hr hsj (h5 _ _ _ hq hp)).weaken fun v hv => ⟨fun p' hp' => ?_, fun hno => absurd hp (hno p)⟩
            rw [mapOK_functional hE h1 hp' hp]; exact hv
          · have hno : ∀ p, (.str (cstrOf k.bytes), p) ∉ ps := fun p hp' => hp ⟨p, hp'⟩
            exact (hk t j _ q hr hsj (h6 _ _ hq hno)).weaken fun v hv => ⟨fun p' hp' => absurd hp' (hno p'), fun _ => hv⟩
        | none =>
          have hno : ∀ p, (.str (cstrOf k.bytes), p) ∉ ps := by
            intro p hp
            obtain ⟨v, hv⟩ := h4 _ p hp
            rw [(mapFind_iff hE h2).2 hv] at hf
            cases hf
          exact (keeps_init hE hk hr hsj hs).weaken fun v hv => ⟨fun p' hp' => absurd hp' (hno p'), fun _ => hv⟩
      refine hstep.bind fun v hv => ih' _ ?_
      refine .map h1 (mapOK_mapSet hE h2) (fun k' w hw => ?_) (fun k' p hp => ?_) (fun k' w p hw hp => ?_) (fun k' w hw hno => ?_)
      · rcases (mem_mapSet hE h2 _).1 hw with e | ⟨hw, -⟩
        · cases e; exact hpl
        · exact h3 k' w hw
      · by_cases he : k' = cstrOf k.bytes
        · subst he; exact ⟨v, (mem_mapSet hE h2 _).2 (.inl rfl)⟩
        · obtain ⟨w, hw⟩ := h4 k' p hp
          exact ⟨w, (mem_mapSet hE h2 _).2 (.inr ⟨hw, fun e => he (by injection e)⟩)⟩
      · rcases (mem_mapSet hE h2 _).1 hw with e | ⟨hw, -⟩
        · cases e; exact hv.1 p hp
        · exact h5 k' w p hw hp
      · rcases (mem_mapSet hE h2 _).1 hw with e | ⟨hw, -⟩
        · cases e; exact hv.2 hno
        · exact h6 k' w hw hno

/-- entries of a multimap which have been read -/
def Entries (E : Env) (H : Heap) (t : Ty) (kvs : List (Val × Val)) : Prop :=
  MultiOK E kvs ∧ (∀ q ∈ kvs, ∃ k, q.1 = .str k ∧ PlainStr k) ∧ ∀ q ∈ kvs, Cont E H t (E.valInit t) q.2

theorem keeps_multimapItems (hE : StrTotal E) (hk : Keeps E H n) {t : Ty} (hr : Reloadable E H t) (hs : Settled E H t (E.valInit t))
    {key : Str} (hkey : PlainStr key) (js : List Json) (hj : ∀ j ∈ js, Storable j) (kvs : List (Val × Val)) (h : Entries E H t kvs) :
    Post (pullMultimapItems E (pull E n) t key js kvs) (Entries E H t) := by
  induction js generalizing kvs with
  | nil => exact Post.pure h
  | cons j js ih =>
    refine (keeps_init hE hk hr (hj j List.mem_cons_self) hs).bind fun v hv =>
      ih (fun j' h' => hj j' (List.mem_cons_of_mem _ h')) _ ?_
    refine ⟨(mapInsertMulti_spec hE key v kvs h.1).1, fun q hq => ?_, fun q hq => ?_⟩
    · rcases List.mem_cons.1 ((perm_mapInsertMulti kvs).1.mem_iff.1 hq) with rfl | hq
      · exact ⟨key, rfl, hkey⟩
      · exact h.2.1 q hq
    · rcases List.mem_cons.1 ((perm_mapInsertMulti kvs).1.mem_iff.1 hq) with rfl | hq
      · exact hv
      · exact h.2.2 q hq

theorem keeps_multimap (hE : StrTotal E) (hk : Keeps E H n) {t : Ty} (hr : Reloadable E H t) (hs : Settled E H t (E.valInit t))
    (ms : List (Key × Json)) (hn : ∀ k j, (k, j) ∈ ms → k.bytes.length < 2 ^ 32) (hj : ∀ k j, (k, j) ∈ ms → Storable j)
    (kvs : List (Val × Val)) (h : Entries E H t kvs) : Post (pullMultimapEntries E (pull E n) t ms kvs) (Entries E H t) := by
  induction ms generalizing kvs with
  | nil => exact Post.pure h
  | cons m ms ih =>
    obtain ⟨k, j⟩ := m
    refine Post.bind (keeps_multimapItems hE hk hr hs (plain_of_read (hn k j List.mem_cons_self)) _ ?_ kvs h) fun kvs' h' =>
      ih (fun k j h => hn k j (List.mem_cons_of_mem _ h)) (fun k j h => hj k j (List.mem_cons_of_mem _ h)) kvs' h'
    have hsj := hj k j List.mem_cons_self
    cases j with
    | arr js =>
      cases hsj with
      | arr h => exact h
    | _ => intro j' hj'; rw [List.mem_singleton.1 hj']; exact hsj

theorem keeps_tuple (hk : Keeps E H n) {ts : List Ty} (hr : ∀ t ∈ ts, Reloadable E H t) {js : List Json} (hj : ∀ j ∈ js, Storable j)
    (hl : js.length = ts.length) {ps vs : List Val} (hlp : ps.length = ts.length) (hlv : vs.length = ts.length)
    (h : ∀ (i : Nat) t p v, ts[i]? = some t → ps[i]? = some p → vs[i]? = some v → Cont E H t p v) :
    Post (pullTuple (pull E n) ts js vs) fun vs' => vs'.length = ts.length ∧
      ∀ (i : Nat) t p v, ts[i]? = some t → ps[i]? = some p → vs'[i]? = some v → Cont E H t p v := by
  intro s vs' s' e
  obtain ⟨h1, h2⟩ := pullTuple_ok ts js vs vs' s s' e
  refine ⟨h1, fun i t p v ht hp hv => ?_⟩
  have hi := (List.getElem?_eq_some_iff.1 ht).1
  have hji : js[i]? = some (js[i]'(by omega)) := List.getElem?_eq_getElem _
  have hvi : vs[i]? = some (vs[i]'(by omega)) := List.getElem?_eq_getElem _
  obtain ⟨s1, s2, v', h3, h4⟩ := h2 i t _ _ ht hji hvi
  rw [hv] at h4; cases h4
  exact hk t _ p _ (hr t (List.mem_of_getElem? ht)) (hj _ (List.mem_of_getElem? hji)) (h i t p _ ht hp hvi) _ _ _ h3

/-! ### classes -/

/-- The state of an object while its members are read. -/
structure StoreCont (E : Env) (H : Heap) (P Q : List Field) (st0 st : Store) : Prop where
  keys : st0.map Prod.fst = st.map Prod.fst
  nodup : (st.map Prod.fst).Nodup
  present : ∀ f ∈ P, ∃ v, st.get? f.key = some v
  cont : ∀ f ∈ Q, ∀ p v, st0.get? f.key = some p → st.get? f.key = some v → Cont E H f.ty p v
  same : ∀ k, (∀ f ∈ Q, f.key ≠ k) → st0.get? k = st.get? k

theorem keeps_field {P Q : List Field} (hsub : ∀ f ∈ Q, f ∈ P) (hd : ∀ f ∈ P, ∀ f' ∈ P, f.name = f'.name → f = f')
    (hr : ∀ f ∈ Q, Reloadable E H f.ty) (hk : Keeps E H n) {ms : List (Key × Json)} (hj : ∀ k j, (k, j) ∈ ms → Storable j)
    {st0 st : Store} {f : Field} (hf : f ∈ Q) (h : StoreCont E H P Q st0 st) :
    Post (pullField (pull E n) f ms st) (StoreCont E H P Q st0) := by
  unfold pullField
  cases hm : findMember f.name ms with
  | none => exact Post.pure h
  | some j =>
    obtain ⟨k, hmem, -⟩ := findMember_mem' hm
    obtain ⟨v, hv⟩ := h.present f (hsub f hf)
    have hpr : ∃ p, st0.get? f.key = some p := by
      have : (st0.get? f.key).isSome := by
        rw [get?_isSome_iff, h.keys, ← get?_isSome_iff, hv]; rfl
      exact Option.isSome_iff_exists.1 this
    obtain ⟨p, hp⟩ := hpr
    simp only [hv]
    refine ((hk f.ty j p v (hr f hf) (hj k j hmem) (h.cont f hf p v hp hv)).withMember f.name).map fun v' hv' => ?_
    have hother : ∀ k', k' ≠ f.key → (st.set f.key v').get? k' = st.get? k' := fun k' hk' => get?_set_ne st v' hk'
    have hself : (st.set f.key v').get? f.key = some v' := get?_set_eq st hv
    refine ⟨?_, ?_, fun g hg => ?_, fun g hg p' w hp' hw => ?_, fun k' hk' => ?_⟩
    · rw [set_keys]; exact h.keys
    · rw [set_keys]; exact h.nodup
    · by_cases e : g.key = f.key
      · exact ⟨v', by rw [e]; exact hself⟩
      · rw [hother _ e]; exact h.present g hg
    · by_cases e : g.key = f.key
      · have : g = f := hd g (hsub g hg) f (hsub f hf) (congrArg Prod.snd e)
        subst this
        rw [hself] at hw; cases hw
        rw [hp] at hp'; cases hp'
        exact hv'
      · rw [hother _ e] at hw; exact h.cont g hg p' w hp' hw
    · rw [hother k' fun e => hk' f hf e.symm]
      exact h.same k' hk'

theorem keeps_fields {P Q : List Field} (hsub : ∀ f ∈ Q, f ∈ P) (hd : ∀ f ∈ P, ∀ f' ∈ P, f.name = f'.name → f = f')
    (hr : ∀ f ∈ Q, Reloadable E H f.ty) (hk : Keeps E H n) {ms : List (Key × Json)} (hj : ∀ k j, (k, j) ∈ ms → Storable j)
    (fs : List Field) (hfs : ∀ f ∈ fs, f ∈ Q) {st0 st : Store} (h : StoreCont E H P Q st0 st) :
    Post (pullFields (pull E n) fs ms st) (StoreCont E H P Q st0) := by
  induction fs generalizing st with
  | nil => exact Post.pure h
  | cons f fs ih =>
    exact (keeps_field hsub hd hr hk hj (hfs f List.mem_cons_self) h).bind fun st' h' =>
      ih (fun f' hf' => hfs f' (List.mem_cons_of_mem _ hf')) h'

theorem keeps_classes {P Q : List Field} (hsub : ∀ f ∈ Q, f ∈ P) (hd : ∀ f ∈ P, ∀ f' ∈ P, f.name = f'.name → f = f')
    (hr : ∀ f ∈ Q, Reloadable E H f.ty) {ms : List (Key × Json)} (hj : ∀ k j, (k, j) ∈ ms → Storable j) {st0 : Store}
    {cs : List ClassId} {fs : List Field} (hF : FlatPull E cs fs) : ∀ (n : Nat), (∀ m, m < n → Keeps E H m) →
    (∀ f ∈ fs, f ∈ Q) → ∀ st : Store, StoreCont E H P Q st0 st →
    Post (pullBases (pull E n) cs ms (.obj st)) fun v => ∃ st' : Store, v = .obj st' ∧ StoreCont E H P Q st0 st' := by
  induction hF with
  | nil => exact fun n _ _ st h => Post.pure ⟨st, rfl, h⟩
  | @cons c ci cs bs fs hc hp _ _ ih1 ih2 =>
    intro n hn hfs st h
    have hfs1 : ∀ f ∈ bs, f ∈ Q := fun f hf => hfs f (by simp [hf])
    have hfs2 : ∀ f ∈ ci.json.pullFields, f ∈ Q := fun f hf => hfs f (by simp [hf])
    have hfs3 : ∀ f ∈ fs, f ∈ Q := fun f hf => hfs f (by simp [hf])
    have hone : Post (pull E n (.cls c) (.obj ms) (.obj st)) fun v => ∃ st' : Store, v = .obj st' ∧ StoreCont E H P Q st0 st' := by
      cases n with
      | zero => intro s a s' e; cases e
      | succ m =>
        change Post (pullStep E (pull E m) _ _ _) _
        simp only [pullStep, hc, hp, Bool.true_eq_false, if_false]
        refine (ih1 m (fun m' hm' => hn m' (by omega)) hfs1 st h).bind ?_
        rintro v ⟨st1, rfl, h1⟩
        simp only
        have hfl := keeps_fields hsub hd hr (hn m (by omega)) hj ci.json.pullFields hfs2 h1
        refine Post.map (Q := StoreCont E H P Q st0) ?_ fun st2 h2 => ⟨st2, rfl, h2⟩
        split
        · exact hfl.withRecord _
        · exact hfl
    refine hone.bind ?_
    rintro v ⟨st1, rfl, h1⟩
    exact ih2 n hn hfs3 st1 h1

theorem keeps_class {c : ClassId} (hr : Reloadable E H (.cls c)) (hn : ∀ m, m < n → Keeps E H m) {ms : List (Key × Json)}
    (hj : ∀ k j, (k, j) ∈ ms → Storable j) {p q : Val} (h : Cont E H (.cls c) p q) :
    Post (pull E n (.cls c) (.obj ms) q) (Cont E H (.cls c) p) := by
  cases h with
  | leaf hr => exact hr.elim
  | @cls c P Q st0 st hP hQ hsub hd h2 hk hnd hs hco hcs hsame =>
    have := keeps_classes (ms := ms) hsub hd (fun f hf => hr.member hQ hf) hj hQ n hn (fun f hf => hf) st ⟨hk, hnd, hs, hco, hsame⟩
    intro s v s' e
    have e' : pullBases (pull E n) [c] ms (.obj st) s = .ok v s' := by
      change (pull E n (.cls c) (.obj ms) (.obj st) >>= fun v => Pure.pure v) s = _
      rw [M.bind_pure']; exact e
    obtain ⟨st', rfl, h'⟩ := this _ _ _ e'
    refine .cls hP hQ hsub hd h2 h'.keys h'.nodup h'.present h'.cont (fun f hf hfq v hv => ?_) h'.same
    have hout : ∀ g ∈ Q, g.key ≠ f.key := fun g hg e =>
      hfq (hd g (hsub g hg) f hf (congrArg Prod.snd e) ▸ hg)
    rw [← h'.same f.key hout, hsame f.key hout] at hv
    exact hcs f hf hfq v hv

/-! ### everything -/

theorem keeps_step (hE : StrTotal E) (hI : IterPerm E) (hO : OrderedItems E) (hn : ∀ m, m < n + 1 → Keeps E H m) :
    Keeps E H (n + 1) := by
  intro t j p q hr hj hq
  have hk : Keeps E H n := hn n (by omega)
  cases t with
  | cls c =>
    cases j with
    | obj ms =>
      cases hj with
      | obj _ hj => exact keeps_class hr hn hj hq
    | _ =>
      change Post (pullStep E (pull E n) _ _ _) _
      simp only [pullStep]
      split
      · exact Post.stuck
      · split
        · exact Post.stuck
        · exact Post.mismatch _ _ hq
  | bool =>
    change Post (pullStep E (pull E n) _ _ _) _
    cases j with
    | bool b => exact Post.pure (.leaf trivial fun _ => .bool _ _)
    | _ => exact Post.mismatch _ _ hq
  | int it =>
    change Post (pullStep E (pull E n) _ _ _) _
    have hnum : ∀ m, Post (numToInt it m) fun i => it.lo ≤ i ∧ i < it.hi := fun m =>
      (Post.of_snd (Snd.numToInt it m)).weaken fun i hi => by
        have := (inRange_iff it i).2 hi
        simpa [IntTy.inRange] using this
    cases it <;> simp only [pullStep, jsonInt, if_true, if_false, Bool.false_eq_true] <;>
      first
      | exact Post.stuck
      | (cases j with
         | num m =>
           first
           | exact (hnum m).map fun i hi => .leaf trivial fun _ => .int _ _ _ (by decide) (by decide) (by decide) hi.1 hi.2
           | exact Post.bind' fun i => Post.pure (.leaf trivial fun _ =>
               .int _ _ _ (by decide) (by decide) (by decide) (wrap_bounds _ _).1 (wrap_bounds _ _).2)
         | _ => exact Post.mismatch _ _ hq)
  | f32 =>
    change Post (pullStep E (pull E n) _ _ _) _
    cases j with
    | num m => exact Post.pure (.leaf trivial fun _ => .f32 _ _ (narrow_not_nan (stored_not_nan hj)))
    | _ => exact Post.mismatch _ _ hq
  | f64 =>
    change Post (pullStep E (pull E n) _ _ _) _
    cases j with
    | num m => exact Post.pure (.leaf trivial fun _ => .f64 _ _)
    | _ => exact Post.mismatch _ _ hq
  | enum u =>
    change Post (pullStep E (pull E n) _ _ _) _
    simp only [pullStep]
    split
    · exact Post.pure (.leaf trivial fun _ => .enum _ _ _ (wrap_bounds _ _).1 (wrap_bounds _ _).2)
    · exact Post.mismatch _ _ hq
  | str =>
    change Post (pullStep E (pull E n) _ _ _) _
    cases j with
    | str s =>
      cases hj with
      | str h => exact Post.pure (.leaf trivial fun _ => .str _ _ (plain_of_read h))
    | _ => exact Post.mismatch _ _ hq
  | cstr =>
    change Post (pullStep E (pull E n) _ _ _) _
    cases j with
    | str s => exact Post.pure hq
    | _ => exact Post.mismatch _ _ hq
  | sview =>
    change Post (pullStep E (pull E n) _ _ _) _
    cases j with
    | str s => exact Post.pure hq
    | _ => exact Post.mismatch _ _ hq
  | opt t =>
    change Post (pullStep E (pull E n) _ _ _) _
    by_cases hjn : j = .null
    · subst hjn; exact Post.pure (.leaf trivial fun _ => .optNone _ _)
    · have h1 := keeps_init hE hk hr.opt hj hr.self
      have h2 := not_null n t j hr.opt hr.self hjn
      have : Post (pull E n t j (E.valInit t) >>= fun v => Pure.pure (Val.some v)) (Cont E H (.opt t) p) := by
        refine Post.map (Q := fun v => Cont E H t (E.valInit t) v ∧ ¬ NullLike H t v)
          (fun s a s' e => ⟨h1 s a s' e, h2 s a s' e⟩) fun v hv => .leaf trivial fun hvo => ?_
        cases hvo with
        | opt hvo => exact .optSome (cont_repr hv.1 hE hI hvo) hv.2
      cases j <;> first | exact absurd rfl hjn | exact this
  | uptr t =>
    change Post (pullStep E (pull E n) _ _ _) _
    by_cases hjn : j = .null
    · subst hjn; exact Post.pure (.leaf trivial fun _ => .uptrNone _ _)
    · have h1 := keeps_init hE hk hr.uptr hj hr.self
      have h2 := not_null n t j hr.uptr hr.self hjn
      have : Post (pull E n t j (E.valInit t) >>= fun v => Pure.pure (Val.ptr v)) (Cont E H (.uptr t) p) := by
        refine Post.map (Q := fun v => Cont E H t (E.valInit t) v ∧ ¬ NullLike H t v)
          (fun s a s' e => ⟨h1 s a s' e, h2 s a s' e⟩) fun v hv => .leaf trivial fun hvo => ?_
        cases hvo with
        | uptr hvo => exact .uptrSome (cont_repr hv.1 hE hI hvo) hv.2
      cases j <;> first | exact absurd rfl hjn | exact this
  | sptr t =>
    change Post (pullStep E (pull E n) _ _ _) _
    by_cases hjn : j = .null
    · subst hjn; exact Post.pure (.leaf trivial fun _ => .sptrNone _ _)
    · have h1 := keeps_init hE hk hr.sptr hj hr.self
      have h2 := not_null n t j hr.sptr hr.self hjn
      have : Post (pull E n t j (E.valInit t) >>= fun v => Pure.pure (Val.ptr v)) (Cont E H (.sptr t) p) := by
        refine Post.map (Q := fun v => Cont E H t (E.valInit t) v ∧ ¬ NullLike H t v)
          (fun s a s' e => ⟨h1 s a s' e, h2 s a s' e⟩) fun v hv => .leaf trivial fun hvo => ?_
        cases hvo with
        | sptr hvo => exact .sptrSome (cont_repr hv.1 hE hI hvo) hv.2
      cases j <;> first | exact absurd rfl hjn | exact this
  | vec t =>
    change Post (pullStep E (pull E n) _ _ _) _
    cases j with
    | arr js =>
      cases hj with
      | arr hj =>
        refine (keeps_vec hE hk hr.vec hr.self js hj).map fun vs hvs => .leaf trivial fun hvo => ?_
        cases hvo with
        | vec hvo => exact .vec fun v hv => cont_repr (hvs v hv) hE hI (hvo v hv)
    | _ => exact Post.mismatch _ _ hq
  | set hashed multi t =>
    change Post (pullStep E (pull E n) _ _ _) _
    cases j with
    | arr js =>
      cases hj with
      | arr hj =>
        have hel : ∀ vs, Elems E H t vs → ValidObj E H false (.set hashed multi t) (.list vs) →
            (∀ v ∈ vs, JRepr E H t (E.defInit t) v) ∧ ∀ v ∈ vs, v.hasIndet = false := by
          intro vs hvs hvo
          cases hvo with
          | set hit hvo =>
            subst hit
            exact ⟨fun v hv => cont_repr (hvs v hv).1 hE hI (hvo v ((order_perm hI hashed vs).mem_iff.2 hv)),
              fun v hv => (hvs v hv).2.1⟩
        cases multi with
        | true =>
          refine (keeps_multiset hE hO hk hr.set hr.self.1 js hj).map fun vs hvs => .leaf trivial fun hvo => ?_
          obtain ⟨h1, h2⟩ := hel vs hvs.1 hvo
          exact .multiset h1 h2 (hvs.1.order hO) hvs.2 (order_perm hI hashed vs) fun hh a _ b _ hab => hr.self.2 hh rfl a b hab
        | false =>
          refine (keeps_set hE hO hk hr.set hr.self.1 js hj).map fun vs hvs => .leaf trivial fun hvo => ?_
          obtain ⟨h1, h2⟩ := hel vs hvs.1 hvo
          exact .set h1 h2 (hvs.1.order hO) hvs.2 (order_perm hI hashed vs)
    | _ => exact Post.mismatch _ _ hq
  | map hashed multi k t =>
    change Post (pullStep E (pull E n) _ _ _) _
    cases k with
    | str =>
      cases j with
      | obj ms =>
        cases hj with
        | obj hkn hj =>
          cases q with
          | map kvs =>
            cases multi with
            | false =>
              cases hq with
              | leaf h => exact h.elim
              | map h1 h2 h3 h4 h5 h6 =>
                exact (keeps_map hE hk hr.map hr.self.1 ms hkn hj kvs (.map h1 h2 h3 h4 h5 h6)).map fun kvs' h => h
            | true =>
              cases hq with
              | leaf h => exact h.elim
              | multimap h1 h2 h3 h4 =>
                exact (keeps_multimap hE hk hr.map hr.self.1 ms hkn hj kvs ⟨h2, h3, h4⟩).map fun kvs' h =>
                  .multimap h1 h.1 h.2.1 h.2.2
          | _ => exact Post.stuck
      | _ => exact Post.mismatch _ _ hq
    | _ => exact Post.stuck
  | pair a b =>
    change Post (pullStep E (pull E n) _ _ _) _
    cases j with
    | arr js =>
      cases hj with
      | arr hj =>
        cases hq with
        | leaf h => exact h.elim
        | @pair _ _ p1 p2 v w h1 h2 =>
          simp only [pullStep]
          by_cases hl : js.length = 2
          · rw [if_neg (not_not.2 hl)]
            have := keeps_tuple (ts := [a, b]) hk (by simpa using ⟨hr.fst, hr.snd⟩) hj hl (ps := [p1, p2]) (vs := [v, w]) rfl rfl ?_
            · refine this.map ?_
              rintro vs' ⟨hl', h'⟩
              match vs', hl' with
              | [x, y], _ => exact .pair (h' 0 a p1 x rfl rfl rfl) (h' 1 b p2 y rfl rfl rfl)
            · intro i t p v ht hp hv
              match i, ht, hp, hv with
              | 0, ht, hp, hv => cases ht; cases hp; cases hv; exact h1
              | 1, ht, hp, hv => cases ht; cases hp; cases hv; exact h2
          · rw [if_pos hl]
            exact Post.bind' fun _ => Post.pure (.pair h1 h2)
    | _ => exact Post.mismatch _ _ hq
  | tuple ts =>
    change Post (pullStep E (pull E n) _ _ _) _
    cases j with
    | arr js =>
      cases hj with
      | arr hj =>
        cases hq with
        | leaf h => exact h.elim
        | @tuple _ ps vs h1 h2 h3 =>
          simp only [pullStep]
          by_cases hl : js.length = ts.length
          · rw [if_neg (not_not.2 hl)]
            exact (keeps_tuple hk (fun t ht => hr.elem ht) hj hl h1 h2 h3).map fun vs' h => .tuple h1 h.1 h.2
          · rw [if_pos hl]
            exact Post.bind' fun _ => Post.pure (.tuple h1 h2 h3)
    | _ => exact Post.mismatch _ _ hq
  | variant ts =>
    change Post (pullStep E (pull E n) _ _ _) _
    simp only [pullStep]
    cases j with
    | obj ms =>
      simp only
      cases hj with
      | obj _ hj =>
        cases hfi : findMember (lit "index") ms with
        | none => exact Post.bind' fun _ => Post.pure hq
        | some ji =>
          cases hfd : findMember (lit "data") ms with
          | none => exact Post.bind' fun _ => Post.pure hq
          | some jd =>
            obtain ⟨k, hmem, -⟩ := findMember_mem' hfd
            simp only
            cases hu : uint64? ji with
            | none => exact Post.bind' fun _ => Post.pure hq
            | some i =>
              have hi := (uint64_some hu).2
              simp only
              cases hti : ts[i]? with
              | none => exact Post.bind' fun _ => Post.pure hq
              | some t =>
                by_cases htm : t = .mono
                · subst htm
                  exact Post.pure (.leaf trivial fun _ => .variantMono hti hi)
                · have hm := List.mem_of_getElem? hti
                  have : Post (pull E n t jd (E.valInit t) >>= fun v => Pure.pure (Val.alt i v)) (Cont E H (.variant ts) p) := by
                    refine (keeps_init hE hk (hr.alt hm htm) (hj k jd hmem) (hr.self t hm htm)).map fun v hv =>
                      .leaf trivial fun hvo => ?_
                    cases hvo with
                    | mono h => rw [hti] at h; cases h; exact absurd rfl htm
                    | variant h1 h2 h3 =>
                      rw [hti] at h1; cases h1
                      exact .variant hti htm hi (cont_repr hv hE hI h3)
                  cases t <;> first | exact absurd rfl htm | exact this
    | _ => exact Post.mismatch _ _ hq
  | mono => exact Post.stuck
  | dateTime =>
    change Post (pullTime E.dtParse j q) _
    refine Post.bind' fun s => ?_
    cases hp : E.dtParse s with
    | none => exact Post.bind' fun _ => Post.pure hq
    | some i => exact Post.pure (.leaf trivial fun _ => .dateTime _ _ (hr.self s i hp).1 (hr.self s i hp).2)
  | timeSpan =>
    change Post (pullTime E.tsParse j q) _
    refine Post.bind' fun s => ?_
    cases hp : E.tsParse s with
    | none => exact Post.bind' fun _ => Post.pure hq
    | some i => exact Post.pure (.leaf trivial fun _ => .timeSpan _ _ (hr.self s i hp).1 (hr.self s i hp).2)

theorem keeps_all (hE : StrTotal E) (hI : IterPerm E) (hO : OrderedItems E) (n : Nat) : Keeps E H n := by
  induction n using Nat.strongRecOn with
  | _ n ih =>
    cases n with
    | zero => intro t j p q _ _ _ s a s' e; cases e
    | succ n => exact keeps_step hE hI hO ih

end

/-! ## C65 -/

/-- C65 (representable): whatever has been read - from any document, with or without errors - can be restored, unless it is
not completely initialised. -/
theorem C65_read_is_representable (E : Env) (H : Heap) (hE : StrTotal E) (hI : IterPerm E) (hO : OrderedItems E) (n : Nat) (t : Ty)
    (j : Json) (p v : Val) (s s' : Option ErrSt) (hr : Reloadable E H t) (hp : Settled E H t p) (hj : Storable j)
    (h : pull E n t j p s = .ok v s') (hv : ValidObj E H false t v) : JRepr E H t p v :=
  cont_repr (keeps_all hE hI hO n t j p p hr hj (cont_settled hp hE hr) _ _ _ h) hE hI hv

/-- C65 (documents): whatever has been read from an arbitrary document - which might lack members, have unknown or duplicate
ones, or have errors - and is written again, yields a document which is read as the same object, without errors, and is written
as the same document. -/
theorem C65_document_reload (E : Env) (H : Heap) (hE : StrTotal E) (hI : IterPerm E) (hO : OrderedItems E) (n m : Nat) (t : Ty)
    (j j' : Json) (p v : Val) (s s' : Option ErrSt) (hr : Reloadable E H t) (hp : Settled E H t p) (hj : Storable j)
    (h : pull E n t j p s = .ok v s') (hw : push E H m t v () = .ok j' ()) :
    ∃ N, ∀ n, N ≤ n → push E H n t v () = .ok j' () ∧ pull E n t j' p none = .ok v none ∧
      ∀ s : ErrSt, ∃ i, (i = s.index ∨ i = noIndex) ∧ pull E n t j' p (some s) = .ok v (some { s with index := i }) := by
  have hv := (C57_serialisable_iff E H t v).1 ⟨m, j', hw⟩
  obtain ⟨N, j'', hN⟩ := C01_json_document_round_trip E H hE t p v
    (C65_read_is_representable E H hE hI hO n t j p v s s' hr hp hj h hv)
  have he : j'' = j' := C57_representation_unique E H t v j'' j' ((C57_serialised_form ..).1 ⟨N, (hN N (Nat.le_refl _)).1⟩)
    ((C57_serialised_form ..).1 ⟨m, hw⟩)
  subst he
  exact ⟨N, hN⟩

section
open JsonText

theorem encode_length (n : Nat) : (encode n).length ≤ 4 := by
  unfold encode
  rw [String.length_utf8EncodeChar]
  exact Char.utf8Size_le_four _

theorem chars_length {s t : Str} (h : Chars s t) : s.length ≤ t.length := by
  induction h with
  | nil => simp
  | plain c _ _ _ _ ih => simpa using ih
  | short e b _ _ ih => simp; omega
  | unicode h n h4 _ _ ih =>
    have := encode_length n
    have := hex4_length h4
    simp; omega
  | surrogates h l n m k h4 l4 _ _ _ _ _ _ ih =>
    have := encode_length k
    simp; omega

theorem strText_length {s t : Str} (h : StrText s t) : s.length < t.length := by
  obtain ⟨u, h, rfl⟩ := h
  have := chars_length h
  simp; omega

/-- the conversion of numbers to `double` never yields NaN -/
def NeverNaN (D : Dbl) : Prop := ∀ s d, D.parse s = some d → ¬ (Ieee.exp64 d = 2047 ∧ Ieee.man64 d ≠ 0)

theorem text_storable {D : Dbl} (hD : NeverNaN D) {j : Json} {t : Str} (h : Text D j t) : t.length < 2 ^ 32 → Storable j := by
  refine Text.rec (motive_1 := fun j t _ => t.length < 2 ^ 32 → Storable j)
    (motive_2 := fun js t _ => t.length < 2 ^ 32 → ∀ j ∈ js, Storable j)
    (motive_3 := fun ms t _ => t.length < 2 ^ 32 → (∀ k j, (k, j) ∈ ms → k.bytes.length < 2 ^ 32) ∧ ∀ k j, (k, j) ∈ ms → Storable j)
    (fun _ => .null) (fun _ => .bool _) (fun _ => .bool _) ?_ ?_ ?_ ?_ ?_ ?_ ?_ ?_ ?_ ?_ h
  · intro n t h _
    cases h with
    | int ds h1 h2 => exact .int (by omega) (by omega)
    | neg ds h1 h2 => exact .int (by omega) (by omega)
    | dbl sign ds f e d _ _ _ _ _ hp => exact .dbl (hD _ _ hp)
  · intro s t h hl
    exact .str (Nat.lt_trans (strText_length h) hl)
  · intros; exact .arr (by simp)
  · intro js t _ ih hl; exact .arr (ih (by simp at hl; omega))
  · intros; exact .obj (by simp) (by simp)
  · intro ms t _ ih hl
    have := ih (by simp at hl; omega)
    exact .obj this.1 this.2
  · intro j t b b' _ _ _ ih hl j' hj'
    rw [List.mem_singleton.1 hj']
    exact ih (by simp at hl; omega)
  · intro j t b b' js u _ _ _ _ ih1 ih2 hl j' hj'
    rcases List.mem_cons.1 hj' with rfl | hj'
    · exact ih1 (by simp at hl; omega)
    · exact ih2 (by simp at hl; omega) j' hj'
  · intro k kt j t b b1 b2 b' _ hk _ _ _ _ ih hl
    have := strText_length hk
    refine ⟨fun k' j' h' => ?_, fun k' j' h' => ?_⟩
    · cases List.mem_singleton.1 h'; simp at hl; simp only; omega
    · cases List.mem_singleton.1 h'; exact ih (by simp at hl; omega)
  · intro k kt j t b b1 b2 b' ms u _ hk _ _ _ _ _ ih1 ih2 hl
    have := strText_length hk
    have h2 := ih2 (by simp at hl; omega)
    refine ⟨fun k' j' h' => ?_, fun k' j' h' => ?_⟩
    · rcases List.mem_cons.1 h' with e | h'
      · cases e; simp at hl; simp only; omega
      · exact h2.1 k' j' h'
    · rcases List.mem_cons.1 h' with e | h'
      · cases e; exact ih1 (by simp at hl; omega)
      · exact h2.2 k' j' h'

theorem parsed_storable {D : Dbl} (hD : NeverNaN D) {s : Str} {j : Json} (h : textParser D s = .ok j) (hl : s.length < 2 ^ 32) :
    Storable j := by
  obtain ⟨bom, b, t, b', tail, rfl, -, -, ht, -⟩ := (C52_accepts_exactly D s j).1 h
  exact text_storable hD ht (by simp at hl; omega)

end

/-- C65 (texts): whatever `fromJson` has read from an arbitrary text (of less than 4 GiB, denoting an object or array as needed
for the type) and `toJson` has written - to `text'`, the numbers being printable - is read by `fromJson` as the same object,
without errors, and written as the same text. -/
theorem C65_text_reload (E : Env) (H : Heap) (hE : StrTotal E) (hI : IterPerm E) (hO : OrderedItems E) (D : Dbl) (hD : NeverNaN D)
    (n m : Nat) (t : Ty) (text text' : Str) (j : Json) (v : Val) (s s' : Option ErrSt)
    (ht : (∃ c, t = .cls c) ∨ (∃ h m k v, t = .map h m k v) ∨ (∃ t', t = .vec t'))
    (hr : Reloadable E H t) (hp : Settled E H t (E.defInit t)) (hl : text.length < 2 ^ 32) (hj : textParser D text = .ok j)
    (ha : TopAccepts t j) (h : fromJson E (textParser D) n t text s = .ok v s') (hw : toJson E H D m t v () = .ok text' ())
    (hn : ∀ n j, push E H n t v () = .ok j () → ∀ x ∈ JsonText.numbers j, JsonText.Printable D x) :
    ∃ N, ∀ n, N ≤ n → toJson E H D n t v () = .ok text' () ∧ fromJson E (textParser D) n t text' none = .ok v none ∧
      ∀ s : ErrSt, ∃ i, (i = s.index ∨ i = noIndex) ∧
        fromJson E (textParser D) n t text' (some s) = .ok v (some { s with index := i }) := by
  have hts : TopSupported t := by
    rcases ht with ⟨c, rfl⟩ | ⟨h, m, k, v, rfl⟩ | ⟨t', rfl⟩ <;> trivial
  have h1 := (((C21_accepted E (textParser D) n t hts text j hj ha s).2.2.2.2.2 ht).1 v s').1 h
  obtain ⟨j', hd, hpr⟩ := SM.bind_ok_iff.1 hw
  have hpush : push E H m t v () = .ok j' () := by
    rcases ht with ⟨c, rfl⟩ | ⟨h, m, k, v, rfl⟩ | ⟨t', rfl⟩ <;> exact hd
  have hv := (C57_serialisable_iff E H t v).1 ⟨m, j', hpush⟩
  have hrep := C65_read_is_representable E H hE hI hO n t j _ v s s' hr hp (parsed_storable hD hj hl) h1 hv
  obtain ⟨N, text'', hN⟩ := C52_value_round_trip E H hE D t v ht hrep hn
  have he : text'' = text' := by
    have h2 := (hN (max N m) (Nat.le_max_left _ _)).1
    obtain ⟨j'', hd'', hpr''⟩ := SM.bind_ok_iff.1 h2
    have hpush'' : push E H (max N m) t v () = .ok j'' () := by
      rcases ht with ⟨c, rfl⟩ | ⟨h, m, k, v, rfl⟩ | ⟨t', rfl⟩ <;> exact hd''
    have : j'' = j' := C57_representation_unique E H t v j'' j' ((C57_serialised_form ..).1 ⟨_, hpush''⟩)
      ((C57_serialised_form ..).1 ⟨m, hpush⟩)
    subst this
    cases hpr; cases hpr''; rfl
  subst he
  exact ⟨N, hN⟩

/-! ### limits -/

/-- C65 (limit): a `std::optional<std::string_view>` read from a string is restored as an empty one, without any error: reading
only checks the type, so the optional contains a null string, which is written as `null`. -/
theorem C65_optional_string_view_lost (E : Env) (H : Heap) (n : Nat) (p p' : Val) (x : Str) (s : Option ErrSt) :
    pull E (n + 2) (.opt .sview) (.str x) p s = .ok (.some (.cstr none)) s ∧
    push E H (n + 2) (.opt .sview) (.some (.cstr none)) () = .ok .null () ∧
    pull E (n + 2) (.opt .sview) .null p' s = .ok .null s := ⟨rfl, rfl, rfl⟩

/-- ... so the type does not satisfy the hypothesis of C65. -/
theorem C65_optional_string_view_excluded (E : Env) (H : Heap) : ¬ Reloadable E H (.opt .sview) :=
  fun h => settled_sview h.self

theorem narrow_overflow {d : BitVec 64} (h1 : 1151 ≤ Ieee.exp64 d) (h2 : Ieee.exp64 d ≠ 2047) :
    Ieee.exp32 (Ieee.narrow d) = 255 ∧ Ieee.man32 (Ieee.narrow d) = 0 := by
  have ha : Ieee.narrowAbs (Ieee.exp64 d) (Ieee.man64 d) = 255 * 2 ^ 23 := by
    unfold Ieee.narrowAbs
    rw [if_neg h2, if_neg (by omega), if_pos (by omega)]
    simp only
    have h3 := Ieee.roundShift_ge (2 ^ 52 + Ieee.man64 d) 29
    rw [if_pos (by omega)]
  have hn : (Ieee.narrow d).toNat = (if Ieee.neg64 d then 2 ^ 31 else 0) + 255 * 2 ^ 23 := by
    unfold Ieee.narrow
    rw [ha, Ieee.toNat_ofNat32]
    split <;> omega
  simp only [Ieee.exp32, Ieee.man32, hn]
  split <;> omega

/-- C65 (limit): a number too big for `float` (at least 2^128 in magnitude) is read as infinity without any error; what
`toJson` makes of that can not be read again. -/
theorem C65_float_overflow_lost (E : Env) (H : Heap) (D : Dbl) (n : Nat) (d : BitVec 64) (text : Str) (s : Option ErrSt)
    (h1 : 1151 ≤ Ieee.exp64 d) (h2 : Ieee.isFinite d = true) (hj : textParser D text = .ok (.arr [.num (.dbl d)])) :
    ∃ x text' e s', fromJson E (textParser D) (n + 2) (.vec .f32) text s = .ok (.list [.f32 x]) s' ∧
      (s'.map ErrSt.errs = s.map ErrSt.errs) ∧ toJson E H D (n + 2) (.vec .f32) (.list [.f32 x]) () = .ok text' () ∧
      fromJson E (textParser D) (n + 2) (.vec .f32) text' s = .exc (.parse e) s := by
  have h2' : Ieee.exp64 d ≠ 2047 := by simpa [Ieee.isFinite] using h2
  obtain ⟨he, hm⟩ := narrow_overflow h1 h2'
  have hinf : Ieee.isFinite (Ieee.widen (Ieee.narrow d)) = false := by
    have : Ieee.widen (Ieee.narrow d) = BitVec.ofNat 64 ((if Ieee.neg32 (Ieee.narrow d) then 2 ^ 63 else 0) + (2047 * 2 ^ 52 + 0)) := by
      simp only [Ieee.widen, Ieee.widenAbs, he, hm, if_true]
    have hf := Ieee.fields64 (Ieee.neg32 (Ieee.narrow d)) 2047 0 (by decide) (by decide)
    simp only at hf
    rw [this]
    unfold Ieee.isFinite
    rw [hf.1]
    rfl
  obtain ⟨e, hbad⟩ := C52_nonfinite_does_not_parse D (.arr [.num (.dbl (Ieee.widen (Ieee.narrow d)))])
    (by intro x hx; simp [JsonText.numbers, JsonText.numbersItems] at hx; subst hx; exact .inr hinf)
    ⟨.dbl (Ieee.widen (Ieee.narrow d)), by simp [JsonText.numbers, JsonText.numbersItems], hinf⟩
  refine ⟨Ieee.narrow d, printDoc D (.arr [.num (.dbl (Ieee.widen (Ieee.narrow d)))]), e,
    s.map fun st => { st with index := noIndex }, ?_, ?_, rfl, ?_⟩
  · simp only [fromJson, parseDoc, hj, M.pure_bind', liftP]
    cases s <;> rfl
  · cases s <;> rfl
  · simp only [fromJson, parseDoc, hbad]
    rfl

/-! ### non-vacuity -/

namespace ReloadDemo
open Demo RoundTripDemo

abbrev H0 : Heap := fun _ => none

theorem settled_int0 : Settled env H0 (.int .i32) (.int 0) := .replaced trivial fun _ => repr_int _ _ (by decide)
theorem settled_indet : Settled env H0 (.int .i32) .indet := .replaced trivial fun h => by cases h; contradiction
theorem settled_str : Settled env H0 .str (.str []) := .replaced trivial fun _ => .str _ _ (plain _ (by simp) (by decide))
theorem settled_vec : Settled env H0 (.vec .str) (.list []) := .replaced trivial fun _ => .vec (by simp)
theorem settled_null : Settled env H0 (.sptr (.cls 2)) .null := .replaced trivial fun _ => .sptrNone _ _
theorem settled_map : Settled env H0 (.map false false .str (.int .i32)) (.map []) := .map ⟨by simp, .nil⟩ (by simp) (by simp)

theorem flatPush0 : FlatFields env [0] [fI, fM] := FlatFields.cons (ci := base) (bs := []) (fs := []) rfl .nil .nil
theorem flatPull0 : FlatPull env [0] [fI, fM] := FlatPull.cons (ci := base) (bs := []) (fs := []) rfl rfl .nil .nil
theorem flatPush2 : FlatFields env [2] [fV, fN] := FlatFields.cons (ci := node) (bs := []) (fs := []) rfl .nil .nil
theorem flatPull2 : FlatPull env [2] [fV, fN] := FlatPull.cons (ci := node) (bs := []) (fs := []) rfl rfl .nil .nil

theorem settled_base {x : Val} (hx : Settled env H0 (.int .i32) x) : Settled env H0 (.cls 0) (.obj [(fI.key, x), (fM.key, .map [])]) := by
  refine .cls flatPush0 flatPull0 (by show ([fI.key, fM.key] : List FieldKey).Nodup; decide) ?_ ?_ ?_
  · intro f hf
    simp only [List.mem_cons, List.not_mem_nil, or_false] at hf
    rcases hf with rfl | rfl <;> exact ⟨_, rfl⟩
  · intro f hf v hv
    simp only [List.mem_cons, List.not_mem_nil, or_false] at hf
    rcases hf with rfl | rfl <;> cases hv
    · exact hx
    · exact settled_map
  · intro f hf hn; exact absurd hf hn

theorem settled_derived {x : Val} (hx : Settled env H0 (.int .i32) x) : Settled env H0 (.cls 1) (.obj (priorWith x)) := by
  refine .cls flatPush flatPull (by show ([fI.key, fM.key, fS.key, fK.key] : List FieldKey).Nodup; decide) ?_ ?_ ?_
  · intro f hf
    simp only [List.mem_cons, List.not_mem_nil, or_false] at hf
    rcases hf with rfl | rfl | rfl | rfl <;> exact ⟨_, rfl⟩
  · intro f hf v hv
    simp only [List.mem_cons, List.not_mem_nil, or_false] at hf
    rcases hf with rfl | rfl | rfl <;> cases hv
    · exact hx
    · exact settled_map
    · exact settled_vec
  · intro f hf hn v hv _
    simp only [List.mem_cons, List.not_mem_nil, or_false] at hf
    rcases hf with rfl | rfl | rfl | rfl
    · exact absurd (by simp) hn
    · exact absurd (by simp) hn
    · exact absurd (by simp) hn
    · cases hv; exact ⟨.null, repr_int _ _ (by decide)⟩

theorem settled_node {x : Val} (hx : Settled env H0 (.int .i32) x) : Settled env H0 (.cls 2) (.obj [(fV.key, x), (fN.key, .null)]) := by
  refine .cls flatPush2 flatPull2 (by show ([fV.key, fN.key] : List FieldKey).Nodup; decide) ?_ ?_ ?_
  · intro f hf
    simp only [List.mem_cons, List.not_mem_nil, or_false] at hf
    rcases hf with rfl | rfl <;> exact ⟨_, rfl⟩
  · intro f hf v hv
    simp only [List.mem_cons, List.not_mem_nil, or_false] at hf
    rcases hf with rfl | rfl <;> cases hv
    · exact hx
    · exact settled_null
  · intro f hf hn; exact absurd hf hn

theorem count_le {f : Field} {l : List Field} (hd : l.Nodup) : ¬ 2 ≤ l.count f := by
  have := List.nodup_iff_count.1 hd f
  omega

theorem reloadable {t : Ty} (ht : SafetyDemo.demoTy t) : Reloadable env H0 t := by
  intro t' h
  have : SafetyDemo.demoTy t' := by
    refine jsonNeeds_closed SafetyDemo.demoTy ?_ ?_ ?_ ?_ ?_ ?_ ?_ ?_ ?_ ?_ h ht
    all_goals simp only [SafetyDemo.demoTy]
    · intro t h; simp at h
    · intro t h; simp at h
    · intro t h; simp at h; simp [h]
    · intro t h; simp at h; simp [h]
    · intro a b t h; simp at h; simp [h]
    · intro a b k t h; simp at h; simp [h]
    · intro a b h; simp at h
    · intro ts h t ht; simp at h; subst h; simp at ht; rcases ht with rfl | rfl <;> simp
    · intro ts h t ht; simp at h; subst h; simp at ht; rcases ht with rfl | rfl <;> simp
    · intro c ci h _
      rcases SafetyDemo.cls_cases h with ⟨rfl, rfl⟩ | ⟨rfl, rfl⟩ | ⟨rfl, rfl⟩ <;>
        simp [base, derived, node, fI, fM, fS, fV, fN]
  rcases this with rfl | rfl | rfl | rfl | rfl | rfl | rfl | rfl | rfl | rfl | rfl
  · exact ⟨_, _, flatPush0, flatPull0, by decide, by decide, fun f h => absurd h (count_le (by decide))⟩
  · exact ⟨_, _, flatPush, flatPull, by decide, by decide, fun f h => absurd h (count_le (by decide))⟩
  · exact ⟨_, _, flatPush2, flatPull2, by decide, by decide, fun f h => absurd h (count_le (by decide))⟩
  · trivial
  · trivial
  · exact settled_str
  · exact settled_node settled_int0
  · exact ⟨settled_int0, fun h => by cases h⟩
  · exact ⟨settled_indet, fun h => by cases h⟩
  · trivial
  · intro t ht _
    simp only [List.mem_cons, List.not_mem_nil, or_false] at ht
    rcases ht with rfl | rfl
    · exact settled_str
    · exact settled_derived settled_int0

/-- any document: an object of a derived class read from it survives -/
example (j j' : Json) (hj : Storable j) (n m : Nat) (v : Val) (s s' : Option ErrSt)
    (h : pull env n (.cls 1) j (.obj prior) s = .ok v s') (hw : push env H0 m (.cls 1) v () = .ok j' ()) :
    ∃ N, ∀ n, N ≤ n → pull env n (.cls 1) j' (.obj prior) none = .ok v none := by
  obtain ⟨N, hN⟩ := C65_document_reload env H0 demo_strTotal demo_iterPerm ConformDemo.ordered n m _ j j' _ v s s'
    (reloadable (by simp [SafetyDemo.demoTy])) (settled_derived settled_int0) hj h hw
  exact ⟨N, fun n hn => (hN n hn).2.1⟩

/-- a document with an unknown member, a member of the wrong type, a duplicate key and a missing member -/
def messy : Json := .obj [(⟨lit "x", .copied⟩, .null), (⟨lit "s", .copied⟩, .num (.int 1)),
  (⟨lit "m", .copied⟩, .obj [(⟨lit "b", .copied⟩, .num (.int 1)), (⟨lit "a", .copied⟩, .num (.int 2)), (⟨lit "b", .copied⟩, .num (.int 3))])]

theorem messy_storable : Storable messy := by
  refine .obj ?_ ?_ <;> intro k j h <;> simp only [List.mem_cons, Prod.mk.injEq, List.not_mem_nil, or_false] at h <;>
    rcases h with ⟨rfl, rfl⟩ | ⟨rfl, rfl⟩ | ⟨rfl, rfl⟩
  · decide
  · decide
  · decide
  · exact .null
  · exact .int (by decide) (by decide)
  · refine .obj ?_ ?_ <;> intro k j h <;> simp only [List.mem_cons, Prod.mk.injEq, List.not_mem_nil, or_false] at h <;>
      rcases h with ⟨rfl, rfl⟩ | ⟨rfl, rfl⟩ | ⟨rfl, rfl⟩
    · decide
    · decide
    · decide
    · exact .int (by decide) (by decide)
    · exact .int (by decide) (by decide)
    · exact .int (by decide) (by decide)

example : ∃ v j', pull env 9 (.cls 1) messy (.obj prior) none = .ok v none ∧ push env H0 9 (.cls 1) v () = .ok j' () ∧
    v = .obj [(fI.key, .int 0), (fM.key, .map [(.str (lit "a"), .int 2), (.str (lit "b"), .int 3)]), (fS.key, .list []), (fK.key, .int 7)] ∧
    ∃ N, ∀ n, N ≤ n → pull env n (.cls 1) j' (.obj prior) none = .ok v none := by
  refine ⟨_, _, rfl, rfl, rfl, ?_⟩
  obtain ⟨N, hN⟩ := C65_document_reload env H0 demo_strTotal demo_iterPerm ConformDemo.ordered 9 9 (.cls 1) messy _ (.obj prior) _
    none none (reloadable (by simp [SafetyDemo.demoTy])) (settled_derived settled_int0) messy_storable rfl rfl
  exact ⟨N, fun n hn => (hN n hn).2.1⟩

/-- default-initialised objects are fine as well: whatever has not been read is uninitialised then -/
example : Settled env H0 (.cls 1) (env.defInit (.cls 1)) := settled_derived settled_indet

/-- conversions of numbers which never yield NaN -/
def dbl' : Dbl := ⟨TextDemo.dbl.print, fun s => (TextDemo.dbl.parse s).filter Ieee.isFinite⟩

theorem neverNaN : NeverNaN dbl' := by
  intro s d h
  change Option.filter _ (TextDemo.dbl.parse s) = some d at h
  obtain ⟨_, hf⟩ := Option.filter_eq_some_iff.1 h
  simp only [Ieee.isFinite, decide_eq_true_eq] at hf
  exact fun hn => hf hn.1

/-- any text -/
example (n m : Nat) (text text' : Str) (ms : List (Key × Json)) (v : Val) (s s' : Option ErrSt) (hl : text.length < 2 ^ 32)
    (hj : textParser dbl' text = .ok (.obj ms)) (h : fromJson env (textParser dbl') n (.cls 1) text s = .ok v s')
    (hw : toJson env H0 dbl' m (.cls 1) v () = .ok text' ())
    (hn : ∀ n j, push env H0 n (.cls 1) v () = .ok j () → ∀ x ∈ JsonText.numbers j, JsonText.Printable dbl' x) :
    ∃ N, ∀ n, N ≤ n → fromJson env (textParser dbl') n (.cls 1) text' none = .ok v none := by
  obtain ⟨N, hN⟩ := C65_text_reload env H0 demo_strTotal demo_iterPerm ConformDemo.ordered dbl' neverNaN n m (.cls 1) text text' _ v s s'
    (.inl ⟨1, rfl⟩) (reloadable (by simp [SafetyDemo.demoTy])) (settled_derived settled_indet) hl hj ⟨ms, rfl⟩ h hw hn
  exact ⟨N, fun n hn => (hN n hn).2.1⟩

end ReloadDemo

end Verif
