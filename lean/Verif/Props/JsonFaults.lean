import Verif.Lemmas.Faults
import Verif.Props.JsonConform
import Verif.Props.JsonGraph
import Verif.Spec.JsonObjectTypes

/-!
# C58: the errors reported are exactly the faults of the document, in order and located
-/

namespace Verif

open Demo (env)

variable {E : Env} {self : Ty → Json → Val → PM Val}

theorem fresh_inOrder {s : Nat → Step} (hs : ∀ i k, s i = s k → i = k) (es : List Finding) (ess : List (List Finding)) (i : Nat) :
    ∀ d ∈ dones (es.map (Finding.under (s i))), ∀ p ∈ faultPaths (inOrder s (i + 1) ess), p ≠ [] → d.head? ≠ p.head? := by
  intro d hd p hp _
  rw [dones_under] at hd
  obtain ⟨q, -, rfl⟩ := List.mem_map.1 hd
  obtain ⟨k, hk, h⟩ := (inOrder_heads ess (i + 1)).1 p hp
  rw [h]
  intro he
  injection he with he
  have := hs _ _ he
  omega

theorem emits_map {t : Ty} (ms : List (Key × Json)) (ess : List (List Finding)) (i : Nat) (kvs : List (Val × Val))
    (hl : ess.length = ms.length)
    (h : ∀ (k : Nat) m es, ms[k]? = some m → ess[k]? = some es → ∀ v, Emits (stdPost es) (self t m.2 v) es) :
    Emits (stdPost (inOrder .entry i ess)) (pullMapEntries E self t ms kvs) (inOrder .entry i ess) := by
  induction ms generalizing ess i kvs with
  | nil =>
    cases ess with
    | nil => exact Emits.pure _
    | cons es ess => cases hl
  | cons m ms ih =>
    cases ess with
    | nil => cases hl
    | cons es ess =>
      obtain ⟨k, j⟩ := m
      refine Emits.seqFresh (((h 0 _ _ rfl rfl _).down (.entry i) (fun _ => rfl) (fun _ => rfl) fun _ => rfl).congr
        (stdPost_under _ _) rfl) (fun v _ _ _ => ih ess (i + 1) _ (by simpa using hl) ?_)
        (fresh_inOrder (s := .entry) (fun i k h => by injection h) _ _ _)
      exact fun k m es hm hes => h (k + 1) m es (by simpa using hm) (by simpa using hes)

theorem emits_multimapItems {t : Ty} (key : Str) (js : List Json) (ess : List (List Finding)) (i : Nat) (kvs : List (Val × Val))
    (hl : ess.length = js.length)
    (h : ∀ (k : Nat) j es, js[k]? = some j → ess[k]? = some es → ∀ v, Emits (stdPost es) (self t j v) es) :
    Emits (stdPost (inOrder .comp i ess)) (pullMultimapItems E self t key js kvs) (inOrder .comp i ess) := by
  induction js generalizing ess i kvs with
  | nil =>
    cases ess with
    | nil => exact Emits.pure _
    | cons es ess => cases hl
  | cons j js ih =>
    cases ess with
    | nil => cases hl
    | cons es ess =>
      refine Emits.seqFresh (((h 0 _ _ rfl rfl _).down (.comp i) (fun _ => rfl) (fun _ => rfl) fun _ => rfl).congr
        (stdPost_under _ _) rfl) (fun v _ _ _ => ih ess (i + 1) _ (by simpa using hl) ?_)
        (fresh_inOrder (s := .comp) (fun i k h => by injection h) _ _ _)
      exact fun k m es hm hes => h (k + 1) m es (by simpa using hm) (by simpa using hes)

theorem multimapValues_eq (j : Json) : (match j with | .arr js => js | j => [j]) = multimapValues j := by
  cases j <;> rfl

theorem emits_multimap {t : Ty} (ms : List (Key × Json)) (esss : List (List (List Finding))) (i : Nat) (kvs : List (Val × Val))
    (hl : esss.length = ms.length)
    (h1 : ∀ (i : Nat) m ess, ms[i]? = some m → esss[i]? = some ess → ess.length = (multimapValues m.2).length)
    (h : ∀ (i : Nat) m ess, ms[i]? = some m → esss[i]? = some ess →
        ∀ (k : Nat) j es, (multimapValues m.2)[k]? = some j → ess[k]? = some es → ∀ v, Emits (stdPost es) (self t j v) es) :
    Emits (stdPost (inOrder .entry i (esss.map (inOrder .comp 0)))) (pullMultimapEntries E self t ms kvs)
      (inOrder .entry i (esss.map (inOrder .comp 0))) := by
  induction ms generalizing esss i kvs with
  | nil =>
    cases esss with
    | nil => exact Emits.pure _
    | cons es ess => cases hl
  | cons m ms ih =>
    cases esss with
    | nil => cases hl
    | cons ess esss =>
      obtain ⟨k, j⟩ := m
      simp only [pullMultimapEntries, multimapValues_eq]
      refine Emits.seqFresh (((emits_multimapItems (cstrOf k.bytes) (multimapValues j) ess 0 kvs (h1 0 _ _ rfl rfl)
        (h 0 _ _ rfl rfl)).down (.entry i) (fun _ => rfl) (fun _ => rfl) fun _ => rfl).congr
        (stdPost_under _ _) rfl) (fun v _ _ _ => ih esss (i + 1) _ (by simpa using hl) ?_ ?_)
        (fresh_inOrder (s := .entry) (fun i k h => by injection h) _ _ _)
      · exact fun k m es hm hes => h1 (k + 1) m es (by simpa using hm) (by simpa using hes)
      · exact fun k m es hm hes => h (k + 1) m es (by simpa using hm) (by simpa using hes)

theorem emits_tuple (ts : List Ty) (js : List Json) (ess : List (List Finding)) (i : Nat) (vs : List Val)
    (hj : js.length = ts.length) (hl : ess.length = ts.length)
    (h : ∀ (k : Nat) t j es, ts[k]? = some t → js[k]? = some j → ess[k]? = some es → ∀ v, Emits (stdPost es) (self t j v) es) :
    Emits (stdPost (inOrder .comp i ess)) (pullTuple self ts js vs) (inOrder .comp i ess) := by
  induction ts generalizing js ess i vs with
  | nil =>
    cases ess with
    | nil =>
      cases js with
      | nil =>
        cases vs with
        | nil => exact Emits.pure _
        | cons v vs => exact Emits.stuck
      | cons j js => cases hj
    | cons es ess => cases hl
  | cons t ts ih =>
    cases ess with
    | nil => cases hl
    | cons es ess =>
      cases js with
      | nil => cases hj
      | cons j js =>
        cases vs with
        | nil => exact Emits.stuck
        | cons v vs =>
          refine Emits.seqFresh (((h 0 _ _ _ rfl rfl rfl _).down (.comp i) (fun _ => rfl) (fun _ => rfl) fun _ => rfl).congr
            (stdPost_under _ _) rfl) (fun v _ _ _ => (ih js ess (i + 1) vs (by simpa using hj) (by simpa using hl) ?_).map _)
            (fresh_inOrder (s := .comp) (fun i k h => by injection h) _ _ _)
          exact fun k t m es ht hm hes => h (k + 1) t m es (by simpa using ht) (by simpa using hm) (by simpa using hes)

theorem emits_bases (bs : List ClassId) (ms : List (Key × Json)) (ess : List (List Finding)) (i : Nat) (v : Val)
    (hl : ess.length = bs.length)
    (h : ∀ (k : Nat) b es, bs[k]? = some b → ess[k]? = some es → ∀ v, Emits (stdPost es) (self (.cls b) (.obj ms) v) es) :
    Emits (stdPost (inOrder .base i ess)) (pullBases self bs ms v) (inOrder .base i ess) := by
  induction bs generalizing ess i v with
  | nil =>
    cases ess with
    | nil => exact Emits.pure _
    | cons es ess => cases hl
  | cons b bs ih =>
    cases ess with
    | nil => cases hl
    | cons es ess =>
      refine Emits.seqFresh (((h 0 _ _ rfl rfl _).down (.base i) (fun _ => rfl) (fun _ => rfl) fun _ => rfl).congr
        (stdPost_under _ _) rfl) (fun v _ _ _ => ih ess (i + 1) _ (by simpa using hl) ?_)
        (fresh_inOrder (s := .base) (fun i k h => by injection h) _ _ _)
      exact fun k m es hm hes => h (k + 1) m es (by simpa using hm) (by simpa using hes)

theorem emits_fields (s : Nat → Step) (fs : List Field) (ms : List (Key × Json)) (ess : List (List Finding)) (i : Nat) (st : Store)
    (hs : ∀ (k : Nat) f, fs[k]? = some f → s (i + k) = .member (i + k) f.name) (hinj : ∀ i k, s i = s k → i = k)
    (hl : ess.length = fs.length)
    (h0 : ∀ (k : Nat) f es, fs[k]? = some f → ess[k]? = some es → firstNamed f.name ms = none → es = [])
    (h : ∀ (k : Nat) f es j, fs[k]? = some f → ess[k]? = some es → firstNamed f.name ms = some j →
      ∀ v, Emits (stdPost es) (self f.ty j v) es) :
    Emits (stdPost (inOrder s i ess)) (pullFields self fs ms st) (inOrder s i ess) := by
  induction fs generalizing ess i st with
  | nil =>
    cases ess with
    | nil => exact Emits.pure _
    | cons es ess => cases hl
  | cons f fs ih =>
    cases ess with
    | nil => cases hl
    | cons es ess =>
      have h1 : Emits (stdPost (es.map (Finding.under (s i)))) (pullField self f ms st) (es.map (Finding.under (s i))) := by
        have hsi := hs 0 f rfl
        rw [Nat.add_zero] at hsi
        rw [hsi]
        unfold pullField
        rw [findMember_eq]
        cases hf : firstNamed f.name ms with
        | none => rw [h0 0 f es rfl rfl hf]; exact Emits.pure _
        | some j =>
          cases hg : st.get? f.key with
          | none => exact Emits.stuck
          | some v => exact (((h 0 f es j rfl rfl hf v).inMember i f.name).map _).congr (stdPost_under _ _) rfl
      refine Emits.seqFresh h1 (fun st _ _ _ => ih ess (i + 1) st ?_ (by simpa using hl) ?_ ?_) (fresh_inOrder hinj _ _ _)
      · intro k f hf
        have := hs (k + 1) f (by simpa using hf)
        rw [show i + 1 + k = i + (k + 1) by omega]; exact this
      · exact fun k f es hf hes => h0 (k + 1) f es (by simpa using hf) (by simpa using hes)
      · exact fun k f es j hf hes => h (k + 1) f es j (by simpa using hf) (by simpa using hes)

theorem memberStep_inj (fs : List Field) (i k : Nat) (h : memberStep fs i = memberStep fs k) : i = k := by
  unfold memberStep at h; injection h

theorem stdPost_fault (k : ErrKind) (e a : JType) (p : Path) : stdPost [.fault p k e a] = id := rfl
theorem stdPost_nil : stdPost [] = id := rfl
theorem stdPost_done (es : List Finding) : stdPost (es ++ [.done []]) = fun _ => noIndex := by
  funext i
  simp [stdPost, dones_append, dones]

theorem emits_time (parse : Str → Option Int) (s : Str) (v : Val) :
    Emits (stdPost (timeFaults parse s))
      (match parse s with
        | some i => (Pure.pure (.tick i) : PM Val)
        | none => report .conversionError .string .string >>= fun _ => Pure.pure v) (timeFaults parse s) := by
  unfold timeFaults
  cases parse s with
  | some i => exact Emits.pure _
  | none => exact Emits.reportKeep _ _ _ _

theorem emits_timeStr (parse : Str → Option Int) {s r : Str} (h : CutAtNul s r) (v : Val) :
    Emits (stdPost (timeFaults parse r)) (pullTime parse (.str s) v) (timeFaults parse r) := by
  rw [cut_unique h (cstrOf_cut s)]
  exact emits_time parse (cstrOf s) v

theorem emits_timeType (parse : Str → Option Int) {j : Json} (h : j.jtype ≠ .string) (v : Val) :
    Emits (stdPost (.fault [] .typeMismatch .string j.jtype :: timeFaults parse []))
      (pullTime parse j v) (.fault [] .typeMismatch .string j.jtype :: timeFaults parse []) := by
  have he : pullTime parse j v = ((report .typeMismatch .string j.jtype >>= fun _ => (Pure.pure [] : PM Str)) >>= fun s =>
      match parse s with
        | some i => (Pure.pure (.tick i) : PM Val)
        | none => report .conversionError .string .string >>= fun _ => Pure.pure v) := by
    cases j <;> first | exact absurd rfl h | rfl
  rw [he]
  have := Emits.seqFresh (f := fun s => match parse s with
        | some i => (Pure.pure (.tick i) : PM Val)
        | none => report .conversionError .string .string >>= fun _ => Pure.pure v) (evs2 := timeFaults parse [])
    ((Emits.reportKeep .typeMismatch .string j.jtype ([] : Str)).congr (fun _ => rfl) rfl) (fun a st s' ha => ?_) (by simp [dones])
  · exact this
  · obtain ⟨_, _, _, h2⟩ := M.bind_eq_ok.1 ha
    cases h2
    exact emits_time parse [] v

/-- The loop over the items for a set. -/
theorem emits_set {n : Nat} {t : Ty} (hO : OrderedItems E) (js : List Json) (ess : List (List Finding)) (ds : List Bool)
    (hl : ess.length = js.length) (hd : ds.length = js.length)
    (h : ∀ (i : Nat) j es, js[i]? = some j → ess[i]? = some es → ∀ v, Emits (stdPost es) (pull E n t j v) es)
    (hr : ∀ (i : Nat) d, ds[i]? = some d → (d = true ↔ RepeatsEarlier E t js i)) :
    Emits (fun _ => noIndex) (forIdx (setItem E (pull E n) t) js 0 [])
      (inOrder .item 0 (List.zipWith (fun es d => es ++ duplicateFault d) ess ds) ++ [.done []]) := by
  refine Emits.loop (fun pre acc => ∃ vs : List Val, List.Forall₂ (fun j v => v.hasIndet = false ∧ ReadAs E t j v) pre vs ∧
    SetInv (E.lt t) vs acc) js _ 0 [] [] (by simp [hl, hd]) ⟨[], .nil, .nil, by intro y; simp [FirstOfItsKind]⟩ ?_
  intro k j es0 acc hj hes0 ⟨vs, hvs, hI⟩
  rw [List.nil_append] at hvs
  rw [List.getElem?_zipWith] at hes0
  cases hes : ess[k]? with
  | none => rw [hes] at hes0; cases hes0
  | some es =>
  cases hdk : ds[k]? with
  | none => rw [hes, hdk] at hes0; cases hes0
  | some d =>
  rw [hes, hdk] at hes0
  cases hes0
  have hset : setItem E (pull E n) t j acc = (pull E n t j (E.defInit t) >>= fun v =>
      if v.hasIndet then M.ub
      else if (insertUniq (E.lt t) v acc).2 then Pure.pure (insertUniq (E.lt t) v acc).1
      else reportDuplicateUnchecked >>= fun _ => Pure.pure (insertUniq (E.lt t) v acc).1) := rfl
  -- facts about the value read
  have facts : ∀ v, v.hasIndet = false → ReadAs E t j v →
      ((insertUniq (E.lt t) v acc).2 = true ↔ d = false) ∧ SetInv (E.lt t) (vs ++ [v]) (insertUniq (E.lt t) v acc).1 := by
    intro v hxi hv
    have hS := hO t (v :: vs) (by
      intro x hx
      rcases List.mem_cons.1 hx with rfl | hx
      · exact ⟨hxi, j, hv⟩
      · obtain ⟨i, hi⟩ := List.mem_iff_getElem?.1 hx
        have hlen := hvs.length_eq
        have hi' : i < vs.length := (List.getElem?_eq_some_iff.1 hi).1
        have := (List.forall₂_iff_get.1 hvs).2 i (by omega) hi'
        rw [List.getElem?_eq_getElem hi'] at hi
        cases hi
        exact ⟨this.1, _, this.2⟩)
    obtain ⟨s1, s2, s3⟩ := SetInv.step hS hI (fun x hx => List.mem_cons_of_mem _ hx) List.mem_cons_self
    refine ⟨?_, s3⟩
    have hlen := hvs.length_eq
    have hk : k < js.length := (List.getElem?_eq_some_iff.1 hj).1
    have hiff : (∃ z ∈ vs, Equivalent (E.lt t) z v) ↔ RepeatsEarlier E t js k := by
      constructor
      · rintro ⟨z, hz, he⟩
        obtain ⟨i, hi⟩ := List.mem_iff_getElem?.1 hz
        have hi' : i < vs.length := (List.getElem?_eq_some_iff.1 hi).1
        have h3 := (List.forall₂_iff_get.1 hvs).2 i (by omega) hi'
        rw [List.getElem?_eq_getElem hi'] at hi
        cases hi
        have hik : i < k := by rw [← hlen, List.length_take] at hi'; omega
        refine ⟨i, js[i], j, vs[i], v, hik, List.getElem?_eq_getElem (by omega), hj, ?_, hv, he⟩
        have := h3.2
        simpa using this
      · rintro ⟨i, a, b, x, y, hik, ha, hb, hx, hy, he⟩
        rw [hj] at hb; cases hb
        have hil : i < js.length := by omega
        have hi' : i < vs.length := by rw [← hlen, List.length_take]; omega
        have h3 := (List.forall₂_iff_get.1 hvs).2 i (by rw [List.length_take]; omega) hi'
        have h4 : ReadAs E t js[i] vs[i] := by simpa using h3.2
        rw [List.getElem?_eq_getElem hil] at ha
        cases ha
        rw [hx.unique h4, hy.unique hv] at he
        exact ⟨_, List.getElem_mem hi', he⟩
    have hd' := hr k d hdk
    by_cases hdup : ∃ z ∈ vs, Equivalent (E.lt t) z v
    · rw [s1 hdup]
      have : d = true := hd'.2 (hiff.1 hdup)
      simp [this]
    · rw [s2 hdup]
      have : ¬ d = true := fun h => hdup (hiff.2 (hd'.1 h))
      simp [this]
  constructor
  · rw [hset]
    refine Emits.seqFresh (h k j es hj hes _) (fun v st s' hv => ?_) ?_
    · cases hxi : v.hasIndet with
      | true => exact Emits.ub
      | false =>
        obtain ⟨f1, -⟩ := facts v hxi ⟨n, _, _, hv⟩
        simp only [Bool.false_eq_true, if_false]
        cases hb : (insertUniq (E.lt t) v acc).2 with
        | true =>
          rw [f1.1 hb]
          simp only [if_true]
          exact Emits.pure _
        | false =>
          have : d = true := by
            cases d with
            | true => rfl
            | false => rw [f1.2 rfl] at hb; cases hb
          rw [this]
          simp only [Bool.false_eq_true, if_false]
          have hr : Emits id reportDuplicateUnchecked [.fault [] .unexpectedDuplicate .array .array] := by
            intro st; exact Emits.report .unexpectedDuplicate .array .array st
          exact hr.map _
    · intro p hp q hq hne
      cases d with
      | false => simp [duplicateFault, faultPaths] at hq
      | true =>
        simp only [duplicateFault, if_true, faultPaths, List.mem_singleton] at hq
        exact absurd hq hne
  · intro st acc' s' hok
    rw [hset] at hok
    obtain ⟨v, s1, hv, h2⟩ := M.bind_eq_ok.1 hok
    cases hxi : v.hasIndet with
    | true => rw [hxi] at h2; cases h2
    | false =>
      rw [hxi] at h2
      have hra : ReadAs E t j v := ⟨n, _, _, hv⟩
      obtain ⟨f1, f2⟩ := facts v hxi hra
      have : acc' = (insertUniq (E.lt t) v acc).1 := by
        simp only [Bool.false_eq_true, if_false] at h2
        split at h2
        · cases h2; rfl
        · obtain ⟨_, _, _, h3⟩ := M.bind_eq_ok.1 h2
          cases h3; rfl
      subst this
      refine ⟨vs ++ [v], ?_, f2⟩
      rw [List.nil_append]
      exact List.rel_append hvs (.cons ⟨hxi, hra⟩ .nil)

theorem accepts_atomic {n : Nat} {t : Ty} {j : Json} (ha : Atomic t) (h : Accepts t j) (v : Val) :
    Emits id (pull E (n + 1) t j v) [] := by
  show Emits id (pullStep E (pull E n) t j v) []
  have hnum : ∀ (it : IntTy) (m : Num), Emits id (numToInt it m) [] := by
    intro it m
    have hc : ∀ d, Emits id (castDouble it d) [] := by
      intro d
      unfold castDouble
      split
      · split
        · exact Emits.pure _
        · exact Emits.ub
      · exact Emits.ub
    cases m with
    | int i =>
      simp only [numToInt]
      split
      · exact Emits.pure _
      · exact hc _
    | dbl d => exact hc _
  obtain ⟨h1, h2⟩ := h
  cases t with
  | enum u =>
    simp only [pullStep]
    have := enumNum_iff.2 h2
    cases he : enumNum (!u.signed) j with
    | some i => exact Emits.pure _
    | none => rw [he] at this; cases this
  | int it =>
    cases j <;> simp [acceptedType, Json.jtype] at h1
    cases it <;> first | exact (hnum _ _).map _ | exact Emits.stuck
  | bool => cases j <;> simp [acceptedType, Json.jtype] at h1; exact Emits.pure _
  | f32 => cases j <;> simp [acceptedType, Json.jtype] at h1; exact Emits.pure _
  | f64 => cases j <;> simp [acceptedType, Json.jtype] at h1; exact Emits.pure _
  | str => cases j <;> simp [acceptedType, Json.jtype] at h1; exact Emits.pure _
  | cstr => cases j <;> simp [acceptedType, Json.jtype] at h1; exact Emits.pure _
  | sview => cases j <;> simp [acceptedType, Json.jtype] at h1; exact Emits.pure _
  | _ => exact ha.elim

theorem emits_mismatch {n : Nat} {t : Ty} {j : Json} {e : JType} (he : reportedType t = some e) (h : ¬ Accepts t j) (v : Val) :
    Emits id (pull E (n + 1) t j v) [.fault [] .typeMismatch e j.jtype] := by
  have hc : (acceptedType t).isSome = true := by
    cases t <;> first | rfl | cases he
  by_cases hs : PullSupported E t
  · obtain ⟨e', h1, h2⟩ := mismatch_eq (n := n) (v := v) hc hs h
    rw [he] at h1; cases h1
    rw [h2]
    exact Emits.reportKeep _ _ _ _
  · show Emits id (pullStep E (pull E n) t j v) _
    cases t with
    | int it =>
      cases it <;> first | exact Emits.stuck | exact absurd ⟨by decide, by decide, by decide⟩ hs
    | map hh m k u =>
      cases k <;> first | exact Emits.stuck | exact absurd rfl hs
    | mono => exact Emits.stuck
    | cls c =>
      simp only [pullStep]
      cases hc : E.cls c with
      | none => exact Emits.stuck
      | some ci =>
        dsimp only
        cases hp : ci.json.pullable with
        | true => exact absurd ⟨ci, hc, hp⟩ hs
        | false => rw [if_pos rfl]; exact Emits.stuck
    | _ => exact absurd trivial hs

theorem uint64_of {i : Nat} (h : i < 2 ^ 64) : uint64? (.num (.int i)) = some i := by
  have : IntTy.inRange .u64 (i : Int) = true := by
    simp only [IntTy.inRange, IntTy.lo, IntTy.hi, IntTy.card, IntTy.bytes, IntTy.signed]
    simp; omega
  simp [uint64?, this]

theorem uint64_none {j : Json} (h : ¬ EnumNumber false j) : uint64? j = none := by
  cases hu : uint64? j with
  | none => rfl
  | some i =>
    obtain ⟨rfl, hi⟩ := uint64_some hu
    refine absurd ?_ h
    simp only [EnumNumber, Bool.false_eq_true, if_false]
    omega

theorem enumNumber_nat {j : Json} (h : EnumNumber false j) : ∃ i : Nat, j = .num (.int i) ∧ i < 2 ^ 64 := by
  cases j with
  | num m =>
    cases m with
    | int i =>
      simp only [EnumNumber, Bool.false_eq_true, if_false] at h
      refine ⟨i.toNat, ?_, ?_⟩
      · rw [Int.toNat_of_nonneg h.1]
      · omega
    | dbl d => exact h.elim
  | _ => exact h.elim

theorem emits_variantObject {n : Nat} {ts : List Ty} {ms : List (Key × Json)}
    (hm : firstNamed (lit "index") ms = none ∨ firstNamed (lit "data") ms = none) (v : Val) :
    Emits id (pull E (n + 1) (.variant ts) (.obj ms) v) [.fault [] .invalidVariantObject .object .object] := by
  show Emits _ (pullStep E (pull E n) (.variant ts) (.obj ms) v) _
  simp only [pullStep, findMember_eq]
  cases hi : firstNamed (lit "index") ms with
  | none => exact Emits.reportKeep _ _ _ _
  | some ji =>
    cases hd : firstNamed (lit "data") ms with
    | none => exact Emits.reportKeep _ _ _ _
    | some jd => rw [hi, hd] at hm; rcases hm with h | h <;> cases h

theorem emits_variantIndexType {n : Nat} {ts : List Ty} {ms : List (Key × Json)} {ji : Json}
    (hi : firstNamed (lit "index") ms = some ji) (hd : (firstNamed (lit "data") ms).isSome = true)
    (he : ¬ EnumNumber false ji) (v : Val) :
    Emits id (pull E (n + 1) (.variant ts) (.obj ms) v) [.fault [] .invalidVariantIndex .number ji.jtype] := by
  show Emits _ (pullStep E (pull E n) (.variant ts) (.obj ms) v) _
  simp only [pullStep, findMember_eq, hi]
  cases hd' : firstNamed (lit "data") ms with
  | none => rw [hd'] at hd; cases hd
  | some jd =>
    dsimp only
    rw [uint64_none he]
    exact Emits.reportKeep _ _ _ _

theorem emits_variantIndex {n i : Nat} {ts : List Ty} {ms : List (Key × Json)} {m : Num}
    (hi : firstNamed (lit "index") ms = some (.num m)) (hu : uint64? (.num m) = some i)
    (hd : (firstNamed (lit "data") ms).isSome = true) (hn : ts.length ≤ i) (v : Val) :
    Emits id (pull E (n + 1) (.variant ts) (.obj ms) v) [.fault [] .invalidVariantIndex .number .number] := by
  show Emits _ (pullStep E (pull E n) (.variant ts) (.obj ms) v) _
  simp only [pullStep, findMember_eq, hi]
  cases hd' : firstNamed (lit "data") ms with
  | none => rw [hd'] at hd; cases hd
  | some jd =>
    dsimp only
    rw [hu]
    dsimp only
    rw [List.getElem?_eq_none hn]
    exact Emits.reportKeep _ _ _ _

theorem emits_variantMono {n i : Nat} {ts : List Ty} {ms : List (Key × Json)} {m : Num}
    (hi : firstNamed (lit "index") ms = some (.num m)) (hu : uint64? (.num m) = some i)
    (hd : (firstNamed (lit "data") ms).isSome = true) (hn : ts[i]? = some .mono) (v : Val) :
    Emits id (pull E (n + 1) (.variant ts) (.obj ms) v) [] := by
  show Emits _ (pullStep E (pull E n) (.variant ts) (.obj ms) v) _
  simp only [pullStep, findMember_eq, hi]
  cases hd' : firstNamed (lit "data") ms with
  | none => rw [hd'] at hd; cases hd
  | some jd =>
    dsimp only
    rw [hu]
    dsimp only
    rw [hn]
    exact Emits.pure _

theorem emits_variant {n i : Nat} {ts : List Ty} {ms : List (Key × Json)} {m : Num} {t : Ty} {jd : Json} {es : List Finding}
    (hi : firstNamed (lit "index") ms = some (.num m)) (hu : uint64? (.num m) = some i)
    (hd : firstNamed (lit "data") ms = some jd) (ht : ts[i]? = some t) (hm : t ≠ .mono)
    (ih : ∀ v, Emits (stdPost es) (pull E n t jd v) es) (v : Val) :
    Emits (stdPost (es.map (.under .data))) (pull E (n + 1) (.variant ts) (.obj ms) v) (es.map (.under .data)) := by
  show Emits _ (pullStep E (pull E n) (.variant ts) (.obj ms) v) _
  simp only [pullStep, findMember_eq, hi, hd]
  rw [hu]
  dsimp only
  rw [ht]
  have := (((ih (E.valInit t)).map (Val.alt i)).down .data (fun _ => rfl) (fun _ => rfl) fun _ => rfl).congr
    (fun k => stdPost_under .data es k) rfl
  cases t <;> first
    | exact absurd rfl hm
    | exact this

theorem emits_pull (hO : OrderedItems E) {t : Ty} {j : Json} {evs : List Finding} (h : Faulty E t j evs) :
    ∀ n v, Emits (stdPost evs) (pull E n t j v) evs := by
  induction h with
  | mismatch he hn => intro n v; cases n with
    | zero => exact Emits.fuel
    | succ n => exact emits_mismatch he hn v
  | atomic ha h => intro n v; cases n with
    | zero => exact Emits.fuel
    | succ n => exact accepts_atomic ha h v
  | @vec t js ess hl _ ih => intro n v; cases n with
    | zero => exact Emits.fuel
    | succ n =>
      show Emits _ (pullStep E (pull E n) (.vec t) (.arr js) v) _
      refine ((Emits.loop (fun _ _ => True) js ess 0 [] [] hl trivial fun k j es b hj hes _ =>
        ⟨(ih k j es hj hes n _).map _, fun _ _ _ _ => trivial⟩).map Val.list).congr (fun _ => by rw [stdPost_done]) rfl
  | @multiset hashed t js ess hl _ ih => intro n v; cases n with
    | zero => exact Emits.fuel
    | succ n =>
      show Emits _ (pullStep E (pull E n) (.set hashed true t) (.arr js) v) _
      refine ((Emits.loop (f := multisetItem E (pull E n) t) (fun _ _ => True) js ess 0 [] [] hl trivial fun k j es b hj hes _ =>
        ⟨?_, fun _ _ _ _ => trivial⟩).map Val.list).congr (fun _ => by rw [stdPost_done]) rfl
      have := (ih k j es hj hes n (E.defInit t)).seqFresh (evs2 := [])
        (f := fun v => if v.hasIndet then (M.ub : PM (List Val)) else Pure.pure (insertMulti (E.lt t) v b))
        (fun v _ _ _ => ?_) (by simp [faultPaths])
      · rw [List.append_nil] at this; exact this
      · split
        · exact Emits.ub
        · exact Emits.pure _
  | @set hashed t js ess ds hl _ hd hr ih => intro n v; cases n with
    | zero => exact Emits.fuel
    | succ n =>
      show Emits _ (pullStep E (pull E n) (.set hashed false t) (.arr js) v) _
      exact ((emits_set (n := n) hO js ess ds hl hd (fun i j es hj hes v => ih i j es hj hes n v) hr).map Val.list).congr
        (fun _ => by rw [stdPost_done]) rfl
  | @map hashed t ms ess hl _ ih => intro n v; cases n with
    | zero => exact Emits.fuel
    | succ n =>
      cases v with
      | map kvs => exact (emits_map ms ess 0 kvs hl fun k m es hm hes v => ih k m es hm hes n v).map Val.map
      | _ => exact Emits.stuck
  | @multimap hashed t ms esss hl h1 _ ih => intro n v; cases n with
    | zero => exact Emits.fuel
    | succ n =>
      cases v with
      | map kvs =>
        exact (emits_multimap ms esss 0 kvs hl h1 fun i m ess hm hes k j es hj he v => ih i m ess hm hes k j es hj he n v).map Val.map
      | _ => exact Emits.stuck
  | @pair a b j es _ ih =>
    intro n v
    have he : pull E n (.pair a b) j v = pull E n (.tuple [a, b]) j v := by
      cases n with
      | zero => rfl
      | succ n => cases j <;> rfl
    rw [he]; exact ih n v
  | @tupleSize ts js hl => intro n v; cases n with
    | zero => exact Emits.fuel
    | succ n =>
      show Emits _ (pullStep E (pull E n) (.tuple ts) (.arr js) v) _
      simp only [pullStep]
      rw [if_pos hl]
      exact Emits.reportKeep _ _ _ _
  | @tuple ts js ess hj hl _ ih => intro n v; cases n with
    | zero => exact Emits.fuel
    | succ n =>
      show Emits _ (pullStep E (pull E n) (.tuple ts) (.arr js) v) _
      simp only [pullStep]
      rw [if_neg (by simpa using hj)]
      cases v with
      | tup vs => exact (emits_tuple ts js ess 0 vs hj hl fun k t j es ht hj hes v => ih k t j es ht hj hes n v).map Val.tup
      | _ => exact Emits.stuck
  | null ht => intro n v; cases n with
    | zero => exact Emits.fuel
    | succ n => rcases ht with rfl | rfl | rfl <;> exact Emits.pure _
  | content ht hj _ ih => intro n v; cases n with
    | zero => exact Emits.fuel
    | succ n =>
      rename_i t u j es _
      rcases ht with rfl | rfl | rfl <;> cases j <;> first
        | exact absurd rfl hj
        | exact (ih n _).map _
  | @variantObject ts ms hm => intro n v; cases n with
    | zero => exact Emits.fuel
    | succ n => exact emits_variantObject hm v
  | @variantIndexType ts ms ji hi hd he => intro n v; cases n with
    | zero => exact Emits.fuel
    | succ n => exact emits_variantIndexType hi hd he v
  | @variantIndex ts ms i hi h64 hd hn => intro n v; cases n with
    | zero => exact Emits.fuel
    | succ n => exact emits_variantIndex hi (uint64_of h64) hd hn v
  | @variantMono ts ms i hi h64 hd hn => intro n v; cases n with
    | zero => exact Emits.fuel
    | succ n => exact emits_variantMono hi (uint64_of h64) hd hn v
  | @variant ts ms i t jd es hi h64 hd ht hm _ ih => intro n v; cases n with
    | zero => exact Emits.fuel
    | succ n => exact emits_variant hi (uint64_of h64) hd ht hm (fun v => ih n v) v
  | @cls c ci ms bess fess hc hbl _ hfl hf0 _ ihb ihf => intro n v; cases n with
    | zero => exact Emits.fuel
    | succ n =>
      show Emits _ (pullStep E (pull E n) (.cls c) (.obj ms) v) _
      simp only [pullStep, hc]
      by_cases hp : ci.json.pullable = false
      · rw [if_pos hp]; exact Emits.stuck
      · rw [if_neg hp]
        refine Emits.seqFresh (emits_bases ci.json.bases ms bess 0 v hbl fun k b es hb hes v => ihb k b es hb hes n v)
          (fun v _ _ _ => ?_) ?_
        · cases v with
          | obj st =>
            have hfs := emits_fields (memberStep ci.json.pullFields) ci.json.pullFields ms fess 0 st
              (fun k f hf => by rw [Nat.zero_add]; simp [memberStep, hf]) (memberStep_inj _) hfl hf0
              (fun k f es j hf hes hj v => ihf k f es j hf hes hj n v)
            dsimp only
            by_cases hr : ci.json.setsRecord = true
            · rw [if_pos hr, if_pos hr]; exact ((hfs.inRecord ci.qname).map _).congr (fun k => stdPost_under _ _ k) rfl
            · rw [if_neg hr, if_neg hr]
              exact ((hfs.down (.own none) (fun _ => rfl) (fun _ => rfl) fun _ => rfl).map _).congr (fun k => stdPost_under _ _ k) rfl
          | _ => exact Emits.stuck
        · intro d hd p hp _
          obtain ⟨k, -, h1⟩ := (inOrder_heads bess 0).2 d hd
          rw [faultPaths_under] at hp
          obtain ⟨q, -, rfl⟩ := List.mem_map.1 hp
          rw [h1]
          simp
  | dateTime h => intro n v; cases n with
    | zero => exact Emits.fuel
    | succ n => exact emits_timeStr _ h v
  | timeSpan h => intro n v; cases n with
    | zero => exact Emits.fuel
    | succ n => exact emits_timeStr _ h v
  | dateTimeType h => intro n v; cases n with
    | zero => exact Emits.fuel
    | succ n => exact emits_timeType _ h v
  | timeSpanType h => intro n v; cases n with
    | zero => exact Emits.fuel
    | succ n => exact emits_timeType _ h v


/-- C58: let `evs` be the faults of the document `j` with respect to the type `t` (in document order, see `Faulty`). If
deserialisation into an object of type `t` returns, then exactly these faults have been reported - appended to the errors
which were present before in this order, each with the record, the member and the index given by its place in the document -
and none of them is fatal. If deserialisation throws, then the faults up to and including the first fatal one have been
reported, and that one is what has been thrown. -/
theorem C58_errors_are_the_faults (E : Env) (hO : OrderedItems E) (n : Nat) (t : Ty) (j : Json) (v : Val) (evs : List Finding)
    (h : Faulty E t j evs) (st : ErrSt) :
    (∀ v' s', pull E n t j v (some st) = .ok v' s' → ∃ st', s' = some st' ∧
      st'.errs = st.errs ++ errorsOf st.record st.member st.index [] evs ∧
      ∀ e ∈ errorsOf st.record st.member st.index [] evs, ¬ Fatal st.throwOn e.kind) ∧
    (∀ e s', pull E n t j v (some st) = .exc e s' → ∃ st' pre rest, s' = some st' ∧
      errorsOf st.record st.member st.index [] evs = pre ++ e :: rest ∧ st'.errs = st.errs ++ (pre ++ [e]) ∧
      (∀ x ∈ pre, ¬ Fatal st.throwOn x.kind) ∧ Fatal st.throwOn e.kind) := by
  have h1 := emits_pull hO h n v st
  constructor
  · intro v' s' hr
    rw [hr] at h1
    obtain ⟨rfl, h2⟩ := h1
    exact ⟨_, rfl, rfl, h2⟩
  · intro e s' hr
    rw [hr] at h1
    obtain ⟨pre, rest, st', g1, g2, g3, g4, g5, -⟩ := h1
    exact ⟨st', pre, rest, g4, g1, g5, g2, g3⟩

/-! ## The faults of a document are always defined -/

theorem exists_list {α β : Type} (l : List α) (P : α → β → Prop) (h : ∀ a ∈ l, ∃ b, P a b) :
    ∃ l' : List β, l'.length = l.length ∧ ∀ (i : Nat) a b, l[i]? = some a → l'[i]? = some b → P a b := by
  induction l with
  | nil => exact ⟨[], rfl, by simp⟩
  | cons a l ih =>
    obtain ⟨l', h1, h2⟩ := ih fun a ha => h a (List.mem_cons_of_mem _ ha)
    obtain ⟨b, hb⟩ := h a List.mem_cons_self
    refine ⟨b :: l', by simp [h1], ?_⟩
    intro i a' b' ha' hb'
    cases i with
    | zero => cases ha'; cases hb'; exact hb
    | succ i => exact h2 i a' b' (by simpa using ha') (by simpa using hb')

theorem exists_flags (P : Nat → Prop) (n : Nat) : ∃ ds : List Bool, ds.length = n ∧ ∀ (i : Nat) d, ds[i]? = some d → (d = true ↔ P i) := by
  classical
  refine ⟨(List.range n).map fun i => decide (P i), by simp, ?_⟩
  intro i d hd
  rw [List.getElem?_map] at hd
  cases hi : (List.range n)[i]? with
  | none => rw [hi] at hd; cases hd
  | some k =>
    rw [hi] at hd
    cases hd
    obtain ⟨h1, h2⟩ := List.getElem?_eq_some_iff.1 hi
    rw [List.getElem_range] at h2
    subst h2
    simp

theorem multimapValues_depth {ms : List (Key × Json)} {m : Key × Json} (hm : m ∈ ms) {j : Json} (hj : j ∈ multimapValues m.2) :
    j.depth < (Json.obj ms).depth := by
  obtain ⟨k, jm⟩ := m
  have h1 := Json.depth_mem_obj hm
  cases jm with
  | arr js => exact Nat.lt_trans (Json.depth_mem_arr hj) h1
  | _ =>
    simp only [multimapValues, List.mem_singleton] at hj
    subst hj; exact h1

theorem firstNamed_mem' {name : Str} {ms : List (Key × Json)} {j : Json} (h : firstNamed name ms = some j) :
    ∃ k, (k, j) ∈ ms := by
  rw [← findMember_eq] at h
  obtain ⟨k, hk, -⟩ := findMember_mem h
  exact ⟨_, hk⟩

/-- C58 for a new (default-constructed) list of errors: nothing is thrown; the errors reported are the faults of the document.
Faults outside of classes have the record "[document]"; there is no member and no index (2^64 - 1) unless given by the place of the
fault. -/
theorem C58_new_list_of_errors (E : Env) (hO : OrderedItems E) (n : Nat) (t : Ty) (j : Json) (v : Val) (evs : List Finding)
    (h : Faulty E t j evs) :
    (∀ v' s', pull E n t j v (some ErrSt.init) = .ok v' s' → ∃ st', s' = some st' ∧
      st'.errs = errorsOf (some (lit "[document]")) none (2 ^ 64 - 1) [] evs) ∧
    ∀ e s', pull E n t j v (some ErrSt.init) ≠ .exc e s' := by
  obtain ⟨h1, h2⟩ := C58_errors_are_the_faults E hO n t j v evs h ErrSt.init
  refine ⟨fun v' s' hv => ?_, fun e s' he => ?_⟩
  · obtain ⟨st', e1, e2, -⟩ := h1 v' s' hv
    exact ⟨st', e1, e2.trans (List.nil_append _)⟩
  · obtain ⟨_, _, _, _, _, _, _, hf⟩ := h2 e s' he
    rw [fatal_iff] at hf
    exact hf (BitVec.zero_and)

/-- C58: for every readable type (recursive classes included) and every document, the faults of the document are defined. -/
theorem C58_faults_defined (E : Env) (rank : ClassId → Nat) (hr : Ranked E rank) (t : Ty) (ht : JsonReadable E t) (j : Json) :
    ∃ evs, Faulty E t j evs := by
  have key : ∀ d h t j, JsonReadable E t → Json.depth j = d → headRank rank t = h → ∃ evs, Faulty E t j evs := by
    intro d
    induction d using Nat.strongRecOn with
    | ind d ihd =>
      intro h
      induction h using Nat.strongRecOn with
      | ind h ihh =>
        intro t j ht hd hh
        have deep : ∀ t' j', JsonReadable E t' → j'.depth < j.depth → ∃ evs, Faulty E t' j' evs :=
          fun t' j' ht' hlt => ihd _ (hd ▸ hlt) _ t' j' ht' rfl rfl
        have same : ∀ t', JsonReadable E t' → headRank rank t' < headRank rank t → ∃ evs, Faulty E t' j evs :=
          fun t' ht' hlt => ihh _ (hh ▸ hlt) t' j ht' hd rfl
        clear ihd ihh hd hh
        -- values of another type
        by_cases hm : ∃ e, reportedType t = some e ∧ ¬ Accepts t j
        · obtain ⟨e, h1, h2⟩ := hm
          exact ⟨_, .mismatch h1 h2⟩
        have hacc : ∀ e, reportedType t = some e → Accepts t j :=
          fun e he => Classical.byContradiction fun hn => hm ⟨e, he, hn⟩
        clear hm
        have wrap : ∀ u, (t = .opt u ∨ t = .uptr u ∨ t = .sptr u) → ∃ evs, Faulty E t j evs := by
          intro u hu
          by_cases hj : j = .null
          · subst hj; exact ⟨_, .null hu⟩
          · have hread : JsonReadable E u := by
              intro t' hn
              rcases hu with rfl | rfl | rfl
              · exact ht _ (.opt hn)
              · exact ht _ (.uptr hn)
              · exact ht _ (.sptr hn)
            obtain ⟨es, hes⟩ := same u hread (by rcases hu with rfl | rfl | rfl <;> simp [headRank])
            exact ⟨es, .content hu hj hes⟩
        have tup : ∀ ts js, j = .arr js → (∀ t ∈ ts, JsonReadable E t) → ∃ evs, Faulty E (.tuple ts) j evs := by
          intro ts js hj hts
          subst hj
          by_cases hl : js.length = ts.length
          · obtain ⟨ess, h1, h2⟩ := exists_list (ts.zip js) (fun p es => Faulty E p.1 p.2 es) fun p hp =>
              deep p.1 p.2 (hts _ (List.of_mem_zip hp).1) (Json.depth_mem_arr (List.of_mem_zip hp).2)
            refine ⟨_, .tuple (ess := ess) hl (by rw [h1]; simp [hl]) ?_⟩
            intro i t j es hti hji hes
            exact h2 i (t, j) es (List.getElem?_zip_eq_some.2 ⟨hti, hji⟩) hes
          · exact ⟨_, .tupleSize hl⟩
        have atom : Atomic t → ∃ evs, Faulty E t j evs := by
          intro ha
          refine ⟨_, .atomic ha ?_⟩
          cases t <;> first | exact ha.elim | exact hacc _ rfl
        cases t with
        | bool => exact atom trivial
        | int it => exact atom trivial
        | f32 => exact atom trivial
        | f64 => exact atom trivial
        | enum u => exact atom trivial
        | str => exact atom trivial
        | cstr => exact atom trivial
        | sview => exact atom trivial
        | opt u => exact wrap u (.inl rfl)
        | uptr u => exact wrap u (.inr (.inl rfl))
        | sptr u => exact wrap u (.inr (.inr rfl))
        | mono => exact (ht _ (.refl _)).elim
        | vec u =>
          have ha := (hacc _ rfl).1
          cases j with
          | arr js =>
            obtain ⟨ess, h1, h2⟩ := exists_list js (fun j es => Faulty E u j es) fun j hj =>
              deep u j (fun t' hn => ht _ (.vec hn)) (Json.depth_mem_arr hj)
            exact ⟨_, .vec h1 h2⟩
          | _ => simp [acceptedType, Json.jtype] at ha
        | set hashed multi u =>
          have ha := (hacc _ rfl).1
          cases j with
          | arr js =>
            obtain ⟨ess, h1, h2⟩ := exists_list js (fun j es => Faulty E u j es) fun j hj =>
              deep u j (fun t' hn => ht _ (.set hn)) (Json.depth_mem_arr hj)
            cases multi with
            | true => exact ⟨_, .multiset h1 h2⟩
            | false =>
              obtain ⟨ds, h3, h4⟩ := exists_flags (RepeatsEarlier E u js) js.length
              exact ⟨_, .set h1 h2 h3 h4⟩
          | _ => simp [acceptedType, Json.jtype] at ha
        | map hashed multi k u =>
          obtain ⟨e, he⟩ : ∃ e, reportedType (.map hashed multi k u) = some e := by cases multi <;> exact ⟨_, rfl⟩
          have ha := (hacc e he).1
          have hk : k = .str := ht _ (.refl _)
          subst hk
          have hu : JsonReadable E u := fun t' hn => ht _ (.mapVal hn)
          cases j with
          | obj ms =>
            cases multi with
            | false =>
              obtain ⟨ess, h1, h2⟩ := exists_list ms (fun m es => Faulty E u m.2 es) fun m hm =>
                deep u m.2 hu (Json.depth_mem_obj (k := m.1) hm)
              exact ⟨_, .map h1 h2⟩
            | true =>
              obtain ⟨esss, h1, h2⟩ := exists_list ms (fun m (ess : List (List Finding)) => ess.length = (multimapValues m.2).length ∧
                ∀ (k : Nat) j es, (multimapValues m.2)[k]? = some j → ess[k]? = some es → Faulty E u j es) fun m hm =>
                  exists_list (multimapValues m.2) (fun j es => Faulty E u j es) fun j hj => deep u j hu (multimapValues_depth hm hj)
              exact ⟨_, .multimap h1 (fun i m ess hm hes => (h2 i m ess hm hes).1) fun i m ess hm hes => (h2 i m ess hm hes).2⟩
          | _ => simp [acceptedType, Json.jtype] at ha
        | pair a b =>
          have ha := (hacc _ rfl).1
          cases j with
          | arr js =>
            obtain ⟨es, hes⟩ := tup [a, b] js rfl (by
              intro t h
              simp only [List.mem_cons, List.not_mem_nil, or_false] at h
              rcases h with rfl | rfl
              · exact fun t' hn => ht _ (.fst hn)
              · exact fun t' hn => ht _ (.snd hn))
            exact ⟨es, .pair hes⟩
          | _ => simp [acceptedType, Json.jtype] at ha
        | tuple ts =>
          have ha := (hacc _ rfl).1
          cases j with
          | arr js => exact tup ts js rfl fun t h t' hn => ht _ (.elem h hn)
          | _ => simp [acceptedType, Json.jtype] at ha
        | variant ts =>
          have ha := (hacc _ rfl).1
          cases j with
          | obj ms =>
            cases hi : firstNamed (lit "index") ms with
            | none => exact ⟨_, .variantObject (.inl hi)⟩
            | some ji =>
              cases hd : firstNamed (lit "data") ms with
              | none => exact ⟨_, .variantObject (.inr hd)⟩
              | some jd =>
                by_cases he : EnumNumber false ji
                · obtain ⟨i, rfl, h64⟩ := enumNumber_nat he
                  cases hti : ts[i]? with
                  | none => exact ⟨_, .variantIndex hi h64 (by rw [hd]; rfl) (List.getElem?_eq_none_iff.1 hti)⟩
                  | some u =>
                    by_cases hmono : u = .mono
                    · subst hmono
                      exact ⟨_, .variantMono hi h64 (by rw [hd]; rfl) hti⟩
                    · obtain ⟨k, hk⟩ := firstNamed_mem' hd
                      obtain ⟨es, hes⟩ := deep u jd (fun t' hn => ht _ (.alt (List.mem_of_getElem? hti) hmono hn))
                        (Json.depth_mem_obj hk)
                      exact ⟨_, .variant hi h64 hd hti hmono hes⟩
                · exact ⟨_, .variantIndexType hi (by rw [hd]; rfl) he⟩
          | _ => simp [acceptedType, Json.jtype] at ha
        | cls c =>
          have ha := (hacc _ rfl).1
          obtain ⟨ci, hc, -⟩ := ht _ (.refl _)
          cases j with
          | obj ms =>
            obtain ⟨bess, h1, h2⟩ := exists_list ci.json.bases (fun b es => Faulty E (.cls b) (.obj ms) es) fun b hb =>
              same (.cls b) (fun t' hn => ht _ (.base hc hb hn)) (hr c ci b hc hb)
            obtain ⟨fess, h3, h4⟩ := exists_list ci.json.pullFields (fun f es => (firstNamed f.name ms = none → es = []) ∧
              ∀ j, firstNamed f.name ms = some j → Faulty E f.ty j es) fun f hf => by
                cases hn : firstNamed f.name ms with
                | none => exact ⟨[], fun _ => rfl, fun j hj => by cases hj⟩
                | some j =>
                  obtain ⟨k, hk⟩ := firstNamed_mem' hn
                  obtain ⟨es, hes⟩ := deep f.ty j (fun t' hn => ht _ (.field hc hf hn)) (Json.depth_mem_obj hk)
                  exact ⟨es, ⟨fun h => (by cases h), fun j' hj' => (by cases hj'; exact hes)⟩⟩
            exact ⟨_, .cls hc h1 h2 h3 (fun i f es hf hes => (h4 i f es hf hes).1)
              fun i f es j hf hes hj => (h4 i f es hf hes).2 j hj⟩
          | _ => simp [acceptedType, Json.jtype] at ha
        | dateTime =>
          by_cases hj : j.jtype = .string
          · cases j with
            | str s => exact ⟨_, .dateTime (cstrOf_cut s)⟩
            | bool b => cases b <;> cases hj
            | _ => cases hj
          · exact ⟨_, .dateTimeType hj⟩
        | timeSpan =>
          by_cases hj : j.jtype = .string
          · cases j with
            | str s => exact ⟨_, .timeSpan (cstrOf_cut s)⟩
            | bool b => cases b <;> cases hj
            | _ => cases hj
          · exact ⟨_, .timeSpanType hj⟩
  exact key _ _ t j ht rfl rfl

/-! ## The places exist -/

/-- what is found at the place of a fault -/
def FaultAt (j : Json) : Finding → Prop
  | .done p => ∃ js, j.place p = some (.arr js)
  | .fault p k _ actual => ∃ j', j.place p = some j' ∧
      match k with
      | .typeMismatch => actual = j'.jtype
      | .arraySizeMismatch => ∃ js, j' = .arr js
      | .invalidVariantObject => ∃ ms, j' = .obj ms
      | .invalidVariantIndex => ∃ ms ji, j' = .obj ms ∧ firstNamed (lit "index") ms = some ji ∧ actual = ji.jtype
      | _ => True

theorem FaultAt.under {j j' : Json} {s : Step} (h : ∀ p, j.place (s :: p) = j'.place p) {e : Finding} (he : FaultAt j' e) :
    FaultAt j (e.under s) := by
  cases e with
  | done p => simpa only [Finding.under, FaultAt, h] using he
  | fault p k x a => simpa only [Finding.under, FaultAt, h] using he

theorem faultAt_inOrder {j : Json} {s : Nat → Step} {ess : List (List Finding)} {i : Nat}
    (h : ∀ (k : Nat) es, ess[k]? = some es → ∀ e ∈ es, FaultAt j (e.under (s (i + k)))) :
    ∀ e ∈ inOrder s i ess, FaultAt j e := by
  induction ess generalizing i with
  | nil => simp [inOrder]
  | cons es ess ih =>
    intro e he
    rw [inOrder] at he
    rcases List.mem_append.1 he with he | he
    · obtain ⟨e', he', rfl⟩ := List.mem_map.1 he
      exact h 0 es rfl e' he'
    · refine ih (fun k es' hes' e' he' => ?_) e he
      rw [show i + 1 + k = i + (k + 1) by omega]
      exact h (k + 1) es' (by simpa using hes') e' he'

theorem getElem?_of_length {α β : Type} {l : List α} {l' : List β} (hl : l'.length = l.length) {i : Nat} {b : β}
    (h : l'[i]? = some b) : ∃ a, l[i]? = some a := by
  have := (List.getElem?_eq_some_iff.1 h).1
  exact ⟨l[i], List.getElem?_eq_getElem (by omega)⟩

theorem lists_agree_pointwise {α β : Type} {xs : List α} {ys zs : List β} (hy : ys.length = xs.length) (hz : zs.length = xs.length)
    (h : ∀ (i : Nat) x y z, xs[i]? = some x → ys[i]? = some y → zs[i]? = some z → y = z) : ys = zs := by
  apply List.ext_getElem (hy.trans hz.symm)
  intro i h1 h2
  exact h i (xs[i]'(hy ▸ h1)) ys[i] zs[i] (List.getElem?_eq_getElem _) (List.getElem?_eq_getElem _) (List.getElem?_eq_getElem _)

/-- a value of a type which is not accepted has no other fault -/
theorem Faulty.of_reject {E : Env} {t : Ty} {j : Json} {e : JType} {evs : List Finding} (hr : reportedType t = some e)
    (hn : ¬ Accepts t j) (h : Faulty E t j evs) : evs = [.fault [] .typeMismatch e j.jtype] := by
  induction h with
  | mismatch h1 h2 => rw [hr] at h1; cases h1; rfl
  | atomic h1 h2 => exact (hn h2).elim
  | pair h ih => exact ih hr (fun ha => hn ⟨ha.1, trivial⟩)
  | null h => rcases h with rfl | rfl | rfl <;> cases hr
  | content h => rcases h with rfl | rfl | rfl <;> cases hr
  | dateTime | timeSpan | dateTimeType | timeSpanType => cases hr
  | _ => exact (hn ⟨rfl, trivial⟩).elim

/-- C58: the faults of a document are unique. -/
theorem C58_faults_unique (E : Env) (t : Ty) (j : Json) (evs evs' : List Finding) (h : Faulty E t j evs) (h' : Faulty E t j evs') :
    evs = evs' := by
  have acc : ∀ {t j evs}, Faulty E t j evs → ∀ e, reportedType t = some e → ¬ Accepts t j → evs = [.fault [] .typeMismatch e j.jtype] :=
    fun h e h1 h2 => h.of_reject h1 h2
  induction h generalizing evs' with
  | mismatch h1 h2 => exact (acc h' _ h1 h2).symm
  | atomic h1 h2 =>
    cases h' with
    | mismatch _ h4 => exact (h4 h2).elim
    | atomic => rfl
    | null h => rcases h with rfl | rfl | rfl <;> exact h1.elim
    | content h => rcases h with rfl | rfl | rfl <;> exact h1.elim
    | _ => exact h1.elim
  | vec hl _ ih =>
    cases h' with
    | mismatch _ h4 => exact (h4 ⟨rfl, trivial⟩).elim
    | atomic h => exact h.elim
    | vec hl' h2 => rw [lists_agree_pointwise hl hl' fun i j y z hj hy hz => ih i j y hj hy z (h2 i j z hj hz)]
    | content h => simp at h
  | multiset hl _ ih =>
    cases h' with
    | mismatch _ h4 => exact (h4 ⟨rfl, trivial⟩).elim
    | atomic h => exact h.elim
    | multiset hl' h2 => rw [lists_agree_pointwise hl hl' fun i j y z hj hy hz => ih i j y hj hy z (h2 i j z hj hz)]
    | content h => simp at h
  | @set hashed t js ess ds hl _ hd hds ih =>
    cases h' with
    | mismatch _ h4 => exact (h4 ⟨rfl, trivial⟩).elim
    | atomic h => exact h.elim
    | set hl' h2 hd' hds' =>
      rw [lists_agree_pointwise hl hl' fun i j y z hj hy hz => ih i j y hj hy z (h2 i j z hj hz),
        lists_agree_pointwise hd hd' fun i j y z hj hy hz => by
          have := (hds i y hy).trans (hds' i z hz).symm
          cases y <;> cases z <;> simp_all]
    | content h => simp at h
  | map hl _ ih =>
    cases h' with
    | mismatch _ h4 => exact (h4 ⟨rfl, trivial⟩).elim
    | atomic h => exact h.elim
    | map hl' h2 => rw [lists_agree_pointwise hl hl' fun i j y z hj hy hz => ih i j y hj hy z (h2 i j z hj hz)]
    | content h => simp at h
  | multimap hl hl2 _ ih =>
    cases h' with
    | mismatch _ h4 => exact (h4 ⟨rfl, trivial⟩).elim
    | atomic h => exact h.elim
    | multimap hl' hl2' h2 =>
      rw [lists_agree_pointwise hl hl' fun i m y z hm hy hz => lists_agree_pointwise (hl2 i m y hm hy) (hl2' i m z hm hz) fun k j es es' hj he he' =>
        ih i m y hm hy k j es hj he es' (h2 i m z hm hz k j es' hj he')]
    | content h => simp at h
  | pair h ih =>
    cases h' with
    | mismatch h3 h4 => exact h.of_reject (t := .tuple _) h3 (fun ha => h4 ⟨ha.1, trivial⟩)
    | atomic h => exact h.elim
    | pair h' => exact ih _ h'
    | null hx => rcases hx with hx | hx | hx <;> cases hx
    | content h => simp at h
  | tupleSize hl =>
    cases h' with
    | mismatch _ h4 => exact (h4 ⟨rfl, trivial⟩).elim
    | atomic h => exact h.elim
    | tupleSize => rfl
    | tuple h1 => exact (hl h1).elim
    | content h => simp at h
  | tuple h1 hl _ ih =>
    cases h' with
    | mismatch _ h4 => exact (h4 ⟨rfl, trivial⟩).elim
    | atomic h => exact h.elim
    | tupleSize hl' => exact (hl' h1).elim
    | @tuple _ _ ess' _ hl' h2 =>
      rw [lists_agree_pointwise hl hl' fun i t y z ht hy hz => by
        obtain ⟨j, hj⟩ : ∃ j, _[i]? = some j := ⟨_, List.getElem?_eq_getElem (h1 ▸ (List.getElem?_eq_some_iff.1 ht).1)⟩
        exact ih i t j y ht hj hy z (h2 i t j z ht hj hz)]
    | content h => simp at h
  | null h =>
    cases h' with
    | mismatch h1 => rcases h with rfl | rfl | rfl <;> cases h1
    | atomic h1 => rcases h with rfl | rfl | rfl <;> exact h1.elim
    | null => rfl
    | content _ h2 => exact (h2 rfl).elim
    | _ => simp at h
  | content h hj h1 ih =>
    cases h' with
    | mismatch h1 => rcases h with rfl | rfl | rfl <;> cases h1
    | atomic h1 => rcases h with rfl | rfl | rfl <;> exact h1.elim
    | null => exact (hj rfl).elim
    | content h' _ h2 => 
      apply ih
      rcases h with rfl | rfl | rfl <;> simp at h' <;> subst h' <;> exact h2
    | _ => simp at h
  | variantObject h =>
    cases h' with
    | mismatch _ h4 => exact (h4 ⟨rfl, trivial⟩).elim
    | atomic h => exact h.elim
    | content h => simp at h
    | variantObject => rfl
    | _ => rcases h with h | h <;> simp_all
  | variantIndexType h1 h2 h3 =>
    cases h' with
    | mismatch _ h4 => exact (h4 ⟨rfl, trivial⟩).elim
    | atomic h => exact h.elim
    | content h => simp at h
    | variantObject h => rcases h with h | h <;> simp_all
    | variantIndexType h1' => rw [h1] at h1'; cases h1'; rfl
    | variantIndex h1' h2' | variantMono h1' h2' | variant h1' h2' =>
      rw [h1] at h1'; cases h1'
      exact (h3 (by simp [EnumNumber]; omega)).elim
  | variantIndex h1 h2 h3 h4 =>
    cases h' with
    | mismatch _ h4 => exact (h4 ⟨rfl, trivial⟩).elim
    | atomic h => exact h.elim
    | content h => simp at h
    | variantObject h => rcases h with h | h <;> simp_all
    | variantIndexType h1' _ h3 => rw [h1] at h1'; cases h1'; exact (h3 (by simp [EnumNumber]; omega)).elim
    | variantIndex => rfl
    | variantMono h1' _ _ h5 =>
      rw [h1] at h1'; cases h1'
      simp [List.getElem?_eq_none_iff.2 h4] at h5
    | variant h1' _ _ h5 =>
      rw [h1] at h1'; cases h1'
      simp [List.getElem?_eq_none_iff.2 h4] at h5
  | variantMono h1 h2 h3 h4 =>
    cases h' with
    | mismatch _ h4 => exact (h4 ⟨rfl, trivial⟩).elim
    | atomic h => exact h.elim
    | content h => simp at h
    | variantObject h => rcases h with h | h <;> simp_all
    | variantIndexType h1' _ h3 => rw [h1] at h1'; cases h1'; exact (h3 (by simp [EnumNumber]; omega)).elim
    | variantIndex h1' _ _ h5 =>
      rw [h1] at h1'; cases h1'
      simp [List.getElem?_eq_none_iff.2 h5] at h4
    | variantMono => rfl
    | variant h1' _ _ h5 h6 =>
      rw [h1] at h1'; cases h1'
      rw [h4] at h5; cases h5; exact (h6 rfl).elim
  | variant h1 h2 h3 h4 h5 _ ih =>
    cases h' with
    | mismatch _ h4 => exact (h4 ⟨rfl, trivial⟩).elim
    | atomic h => exact h.elim
    | content h => simp at h
    | variantObject h => rcases h with h | h <;> simp_all
    | variantIndexType h1' _ h3 => rw [h1] at h1'; cases h1'; exact (h3 (by simp [EnumNumber]; omega)).elim
    | variantIndex h1' _ _ h5 =>
      rw [h1] at h1'; cases h1'
      simp [List.getElem?_eq_none_iff.2 h5] at h4
    | variantMono h1' _ _ h5' =>
      rw [h1] at h1'; cases h1'
      rw [h4] at h5'; cases h5'; exact (h5 rfl).elim
    | variant h1' _ h3' h4' _ h6 =>
      rw [h1] at h1'; cases h1'
      rw [h3] at h3'; cases h3'
      rw [h4] at h4'; cases h4'
      rw [ih _ h6]
  | cls hc hl _ hl2 hf1 _ ih ih2 =>
    cases h' with
    | mismatch _ h4 => exact (h4 ⟨rfl, trivial⟩).elim
    | atomic h => exact h.elim
    | content h => simp at h
    | cls hc' hl' h2 hl2' hf1' hf2' =>
      rw [hc] at hc'; cases hc'
      rw [lists_agree_pointwise hl hl' fun i j y z hj hy hz => ih i j y hj hy z (h2 i j z hj hz),
        lists_agree_pointwise hl2 hl2' fun i f y z hf hy hz => by
          cases hn : firstNamed f.name _ with
          | none => rw [hf1 i f y hf hy hn, hf1' i f z hf hz hn]
          | some j => exact ih2 i f y j hf hy hn z (hf2' i f z j hf hz hn)]
  | dateTime hc =>
    cases h' with
    | mismatch h1 => cases h1
    | atomic h => exact h.elim
    | content h => simp at h
    | dateTime hc' => rw [cut_unique hc hc']
    | dateTimeType h => exact (h rfl).elim
  | timeSpan hc =>
    cases h' with
    | mismatch h1 => cases h1
    | atomic h => exact h.elim
    | content h => simp at h
    | timeSpan hc' => rw [cut_unique hc hc']
    | timeSpanType h => exact (h rfl).elim
  | dateTimeType h =>
    cases h' with
    | mismatch h1 => cases h1
    | atomic h => exact h.elim
    | null hx => rcases hx with hx | hx | hx <;> cases hx
    | content hx => rcases hx with hx | hx | hx <;> cases hx
    | dateTime => exact (h rfl).elim
    | dateTimeType => rfl
  | timeSpanType h =>
    cases h' with
    | mismatch h1 => cases h1
    | atomic h => exact h.elim
    | null hx => rcases hx with hx | hx | hx <;> cases hx
    | content hx => rcases hx with hx | hx | hx <;> cases hx
    | timeSpan => exact (h rfl).elim
    | timeSpanType => rfl

/-- C58: the places of the faults exist in the document and what is found there is what is reported as actual. -/
theorem C58_places_exist (E : Env) (t : Ty) (j : Json) (evs : List Finding) (h : Faulty E t j evs) : ∀ e ∈ evs, FaultAt j e := by
  have one : ∀ {j : Json} {e : Finding}, FaultAt j e → ∀ e' ∈ [e], FaultAt j e' := by
    intro j e he e' h'
    rw [List.mem_singleton.1 h']; exact he
  have time : ∀ (j : Json) (parse : Str → Option Int) (s : Str), ∀ e ∈ timeFaults parse s, FaultAt j e := by
    intro j parse s e he
    unfold timeFaults at he
    split at he
    · cases he
    · refine one ?_ e he; exact ⟨j, by cases j <;> rfl, trivial⟩
  have root : ∀ j : Json, j.place [] = some j := by intro j; cases j <;> rfl
  induction h with
  | mismatch _ _ => refine one ?_; exact ⟨_, root _, rfl⟩
  | atomic _ _ => simp
  | @vec t js ess hl _ ih =>
    intro e he
    rcases List.mem_append.1 he with he | he
    · refine faultAt_inOrder (fun k es hes e' he' => ?_) e he
      obtain ⟨j, hj⟩ := getElem?_of_length hl hes
      exact FaultAt.under (by intro p; simp [Json.place, hj]) (ih k j es hj hes e' he')
    · refine one ?_ e he; exact ⟨js, rfl⟩
  | @multiset hashed t js ess hl _ ih =>
    intro e he
    rcases List.mem_append.1 he with he | he
    · refine faultAt_inOrder (fun k es hes e' he' => ?_) e he
      obtain ⟨j, hj⟩ := getElem?_of_length hl hes
      exact FaultAt.under (by intro p; simp [Json.place, hj]) (ih k j es hj hes e' he')
    · refine one ?_ e he; exact ⟨js, rfl⟩
  | @set hashed t js ess ds hl _ hd _ ih =>
    intro e he
    rcases List.mem_append.1 he with he | he
    · refine faultAt_inOrder (fun k es0 hes0 e' he' => ?_) e he
      rw [List.getElem?_zipWith] at hes0
      cases hes : ess[k]? with
      | none => rw [hes] at hes0; cases hes0
      | some es =>
        cases hdk : ds[k]? with
        | none => rw [hes, hdk] at hes0; cases hes0
        | some d =>
          rw [hes, hdk] at hes0
          cases hes0
          obtain ⟨j, hj⟩ := getElem?_of_length hl hes
          refine FaultAt.under (j' := j) (by intro p; simp [Json.place, hj]) ?_
          rcases List.mem_append.1 he' with he' | he'
          · exact ih k j es hj hes e' he'
          · cases d with
            | false => cases he'
            | true => refine one ?_ e' he'; exact ⟨j, root _, trivial⟩
    · refine one ?_ e he; exact ⟨js, rfl⟩
  | @map hashed t ms ess hl _ ih =>
    refine faultAt_inOrder (fun k es hes e' he' => ?_)
    obtain ⟨m, hm⟩ := getElem?_of_length hl hes
    exact FaultAt.under (by intro p; simp [Json.place, hm]) (ih k m es hm hes e' he')
  | @multimap hashed t ms esss hl h1 _ ih =>
    refine faultAt_inOrder (fun k es hes e' he' => ?_)
    rw [List.getElem?_map] at hes
    cases hess : esss[k]? with
    | none => rw [hess] at hes; cases hes
    | some ess =>
      rw [hess] at hes
      cases hes
      obtain ⟨m, hm⟩ := getElem?_of_length hl hess
      refine FaultAt.under (j' := m.2) (by intro p; simp [Json.place, hm]) ?_
      refine faultAt_inOrder (fun k' es hes e' he' => ?_) e' he'
      obtain ⟨j, hj⟩ := getElem?_of_length (h1 k m ess hm hess) hes
      refine FaultAt.under (j' := j) (fun p => ?_) (ih k m ess hm hess k' j es hj hes e' he')
      rw [Nat.zero_add]
      cases hm2 : m.2 <;> rw [hm2] at hj <;> simp [Json.place, hj]
  | pair _ ih => exact ih
  | tupleSize _ => refine one ?_; exact ⟨_, root _, _, rfl⟩
  | @tuple ts js ess hj hl _ ih =>
    refine faultAt_inOrder (fun k es hes e' he' => ?_)
    obtain ⟨t, ht⟩ := getElem?_of_length hl hes
    obtain ⟨j, hjk⟩ := getElem?_of_length (l := js) (by omega) hes
    exact FaultAt.under (by intro p; simp [Json.place, multimapValues, hjk]) (ih k t j es ht hjk hes e' he')
  | null _ => simp
  | content _ _ _ ih => exact ih
  | variantObject _ => refine one ?_; exact ⟨_, root _, _, rfl⟩
  | variantIndexType hi _ _ => refine one ?_; exact ⟨_, root _, _, _, rfl, hi, rfl⟩
  | variantIndex hi _ _ _ => refine one ?_; exact ⟨_, root _, _, _, rfl, hi, rfl⟩
  | variantMono _ _ _ _ => simp
  | @variant ts ms i t jd es hi h64 hd ht hm _ ih =>
    intro e he
    obtain ⟨e', he', rfl⟩ := List.mem_map.1 he
    exact FaultAt.under (by intro p; simp [Json.place, hd]) (ih e' he')
  | @cls c ci ms bess fess hc hbl _ hfl hf0 _ ihb ihf =>
    intro e he
    rcases List.mem_append.1 he with he | he
    · refine faultAt_inOrder (fun k es hes e' he' => ?_) e he
      obtain ⟨b, hb⟩ := getElem?_of_length hbl hes
      exact FaultAt.under (by intro p; simp [Json.place]) (ihb k b es hb hes e' he')
    · obtain ⟨e1, he1, rfl⟩ := List.mem_map.1 he
      refine FaultAt.under (j' := .obj ms) (by intro p; simp [Json.place]) ?_
      refine faultAt_inOrder (fun k es hes e' he' => ?_) e1 he1
      obtain ⟨f, hf⟩ := getElem?_of_length hfl hes
      cases hn : firstNamed f.name ms with
      | none => rw [hf0 k f es hf hes hn] at he'; cases he'
      | some j =>
        refine FaultAt.under (j' := j) (fun p => ?_) (ihf k f es j hf hes hn e' he')
        simp [memberStep, hf, Json.place, hn]
  | dateTime _ => exact time _ _ _
  | timeSpan _ => exact time _ _ _
  | @dateTimeType j _ =>
    intro e he
    rcases List.mem_cons.1 he with rfl | he
    · exact ⟨j, root _, rfl⟩
    · exact time _ _ _ e he
  | @timeSpanType j _ =>
    intro e he
    rcases List.mem_cons.1 he with rfl | he
    · exact ⟨j, root _, rfl⟩
    · exact time _ _ _ e he

/-! ## Examples -/

/-- The faults of `exDoc` (for the class `Derived` of the example): one for the base class, one within the array `s`. -/
theorem exDoc_faults : Faulty env (.cls 1) exDoc [
    .fault [.base 0, .own (some (lit "Base")), .member 0 (lit "i")] .typeMismatch .number .string,
    .fault [.own (some (lit "Derived")), .member 0 (lit "s"), .item 1] .typeMismatch .string .number,
    .done [.own (some (lit "Derived")), .member 0 (lit "s")]] := by
  refine Faulty.cls (ci := Demo.derived)
    (bess := [[.fault [.own (some (lit "Base")), .member 0 (lit "i")] .typeMismatch .number .string]])
    (fess := [[.fault [.item 1] .typeMismatch .string .number, .done []]])
    rfl rfl ?_ rfl ?_ ?_
  · intro i b es hb hes
    match i, hb, hes with
    | 0, hb, hes =>
      cases hb; cases hes
      refine Faulty.cls (ci := Demo.base) (bess := []) (fess := [[.fault [] .typeMismatch .number .string], []])
        rfl rfl ?_ rfl ?_ ?_
      · intro i b es hb hes; cases hes
      · intro i f es hf hes hn
        match i, hf, hes with
        | 0, hf, hes => cases hf; cases hn
        | 1, hf, hes => cases hes; rfl
      · intro i f es j hf hes hn
        match i, hf, hes with
        | 0, hf, hes =>
          cases hf; cases hes; cases hn
          exact .mismatch rfl (by simp [Accepts, acceptedType, Json.jtype, Demo.fI])
        | 1, hf, hes => cases hf; cases hn
  · intro i f es hf hes hn
    match i, hf, hes with
    | 0, hf, hes => cases hf; cases hn
  · intro i f es j hf hes hn
    match i, hf, hes with
    | 0, hf, hes =>
      cases hf; cases hes; cases hn
      refine Faulty.vec (ess := [[], [.fault [] .typeMismatch .string .number]]) rfl ?_
      intro i j es hj hes
      match i, hj, hes with
      | 0, hj, hes => cases hj; cases hes; exact .atomic trivial ⟨rfl, trivial⟩
      | 1, hj, hes => cases hj; cases hes; exact .mismatch rfl (by simp [Accepts, acceptedType, Json.jtype])

/-- ... which are reported as these errors -/
example : errorsOf none none noIndex [] [
    .fault [.base 0, .own (some (lit "Base")), .member 0 (lit "i")] .typeMismatch .number .string,
    .fault [.own (some (lit "Derived")), .member 0 (lit "s"), .item 1] .typeMismatch .string .number,
    .done [.own (some (lit "Derived")), .member 0 (lit "s")]] = [
    ⟨.typeMismatch, .number, .string, some (lit "Base"), some (lit "i"), noIndex⟩,
    ⟨.typeMismatch, .string, .number, some (lit "Derived"), some (lit "s"), 1⟩] := by rfl

/-- A set of vectors with a mistyped item and a duplicate. The index of the duplicate gets lost as an array (the duplicate
itself) has been completed. -/
theorem dup_faults : Faulty env (.set false false (.vec .str)) (.arr [.arr [], .arr [.num (.int 5)]]) [
    .done [.item 0], .fault [.item 1, .item 0] .typeMismatch .string .number, .done [.item 1],
    .fault [.item 1] .unexpectedDuplicate .array .array, .done []] := by
  refine Faulty.set (ess := [[.done []], [.fault [.item 0] .typeMismatch .string .number, .done []]]) (ds := [false, true])
    rfl ?_ rfl ?_
  · intro i j es hj hes
    match i, hj, hes with
    | 0, hj, hes => cases hj; cases hes; exact Faulty.vec (ess := []) rfl (by intro i j es hj; cases hj)
    | 1, hj, hes =>
      cases hj; cases hes
      refine Faulty.vec (ess := [[.fault [] .typeMismatch .string .number]]) rfl ?_
      intro i j es hj hes
      match i, hj, hes with
      | 0, hj, hes => cases hj; cases hes; exact .mismatch rfl (by simp [Accepts, acceptedType, Json.jtype])
  · intro i d hd
    match i, hd with
    | 0, hd =>
      cases hd
      simp only [Bool.false_eq_true, false_iff]
      rintro ⟨k, _, _, _, _, hk, _⟩
      cases hk
    | 1, hd =>
      cases hd
      refine ⟨fun _ => ⟨0, _, _, .list [], .list [.str []], by decide, rfl, rfl, ⟨3, none, none, rfl⟩, ⟨3, none, none, rfl⟩, rfl, rfl⟩,
        fun _ => rfl⟩

example : errorsOf none none noIndex [] [
    .done [.item 0], .fault [.item 1, .item 0] .typeMismatch .string .number, .done [.item 1],
    .fault [.item 1] .unexpectedDuplicate .array .array, .done []] = [
    ⟨.typeMismatch, .string, .number, none, none, 0⟩, ⟨.unexpectedDuplicate, .array, .array, none, none, noIndex⟩] ∧
    ∃ v s', pull env 3 (.set false false (.vec .str)) (.arr [.arr [], .arr [.num (.int 5)]]) (.list []) (some .init) = .ok v s' :=
  ⟨by rfl, _, _, by rfl⟩

end Verif
