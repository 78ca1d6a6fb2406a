import Verif.Spec.TypeChange
import Verif.Props.JsonForm
import Verif.Props.JsonRoundTrip
import Verif.Props.JsonText
import Verif.Props.JsonSameNames

/-!
# C90: changing types without changing the JSON representation
-/

namespace Verif

variable {E E' : Env} {H H' : Heap}

/-! ## what the kinds of content are represented by -/

theorem clamped_short {s : Str} (h : s.length < 2 ^ 32) : clamped s = s := List.take_of_length_le (by omega)

theorem cut_self {s q : Str} (h : 0 ∉ s) (hq : CutAtNul s q) : q = s := by
  rcases hq.2 with h' | ⟨rest, h'⟩
  · exact h'
  · exact absurd (by rw [h']; simp) h

theorem cstringText_self {s : Str} (h0 : 0 ∉ s) (h1 : s.length < 2 ^ 32) : CStringText s s :=
  ⟨s, ⟨h0, .inl rfl⟩, by rw [Nat.mod_eq_of_lt h1, List.take_length]⟩

theorem cstringText_eq {s r : Str} (h0 : 0 ∉ s) (h1 : s.length < 2 ^ 32) (h : CStringText s r) : r = s := by
  obtain ⟨q, hq, rfl⟩ := h
  rw [cut_self h0 hq, Nat.mod_eq_of_lt h1, List.take_length]

theorem denotes_scalar {t : Ty} {v : Val} {k j : Json} (h : ScalarOf E t v k) : Denotes E H t v j ↔ j = k := by
  constructor
  · intro hd
    cases h with
    | bool => cases hd; rfl
    | int => cases hd; rfl
    | enum => cases hd; rfl
    | f32 => cases hd; rfl
    | f64 => cases hd; rfl
    | str s hs => cases hd; rw [clamped_short hs]
    | sview s hs => cases hd; rw [clamped_short hs]
    | cstr s hs h0 => cases hd with | cstr hr => rw [cstringText_eq h0 hs hr]
    | dateTime i hs => cases hd; rw [clamped_short hs]
    | timeSpan i hs => cases hd; rw [clamped_short hs]
  · rintro rfl
    cases h with
    | bool => exact .bool _
    | int it i h1 h2 h3 => exact .int it i h1 h2 h3
    | enum => exact .enum _ _
    | f32 => exact .f32 _
    | f64 => exact .f64 _
    | str s hs => have := Denotes.str (E := E) (H := H) s; rwa [clamped_short hs] at this
    | sview s hs => have := Denotes.sview (E := E) (H := H) s; rwa [clamped_short hs] at this
    | cstr s hs h0 => exact .cstr (cstringText_self h0 hs)
    | dateTime i hs => have := Denotes.dateTime (E := E) (H := H) i; rwa [clamped_short hs] at this
    | timeSpan i hs => have := Denotes.timeSpan (E := E) (H := H) i; rwa [clamped_short hs] at this

theorem denotes_absent {t : Ty} {v : Val} {j : Json} (h : Absent t v) : Denotes E H t v j ↔ j = .null := by
  constructor
  · intro hd; cases h <;> cases hd <;> rfl
  · rintro rfl
    cases h with
    | opt => exact .optNull _
    | uptr => exact .uptrNull _
    | sptr => exact .sptrNull _
    | cstr => exact .cstrNull
    | sview => exact .sviewNull

theorem denotes_holds {t u : Ty} {v w : Val} {j : Json} (h : Holds H t v u w) : Denotes E H t v j ↔ Denotes E H u w j := by
  cases h with
  | opt => exact ⟨fun hd => by cases hd; assumption, .opt⟩
  | uptr => exact ⟨fun hd => by cases hd; assumption, .uptr⟩
  | sptr => exact ⟨fun hd => by cases hd; assumption, .sptr⟩
  | uptrRef h =>
    refine ⟨fun hd => ?_, .uptrRef h⟩
    cases hd with
    | uptrRef h' hd => rw [h] at h'; cases h'; exact hd
  | sptrRef h =>
    refine ⟨fun hd => ?_, .sptrRef h⟩
    cases hd with
    | sptrRef h' hd => rw [h] at h'; cases h'; exact hd

theorem denotes_items {t : Ty} {v : Val} {xs : List (Ty × Val)} {j : Json} (h : HasItems E t v xs) :
    Denotes E H t v j ↔ ∃ js, j = .arr js ∧ List.Forall₂ (fun x j => Denotes E H x.1 x.2 j) xs js := by
  cases h with
  | vec t vs =>
    constructor
    · intro hd
      cases hd with
      | vec h1 h2 => exact ⟨_, rfl, List.forall₂_map_left_iff.2 (forall₂_iff_idx.2 ⟨h1, h2⟩)⟩
    · rintro ⟨js, rfl, h⟩
      obtain ⟨h1, h2⟩ := forall₂_iff_idx.1 (List.forall₂_map_left_iff.1 h)
      exact .vec h1 h2
  | set hashed multi t vs =>
    constructor
    · intro hd
      cases hd with
      | set h0 h1 h2 => subst h0; exact ⟨_, rfl, List.forall₂_map_left_iff.2 (forall₂_iff_idx.2 ⟨h1, h2⟩)⟩
    · rintro ⟨js, rfl, h⟩
      obtain ⟨h1, h2⟩ := forall₂_iff_idx.1 (List.forall₂_map_left_iff.1 h)
      exact .set rfl h1 h2
  | pair a b v w =>
    constructor
    · intro hd
      cases hd with
      | pair h1 h2 => exact ⟨_, rfl, .cons h1 (.cons h2 .nil)⟩
    · rintro ⟨js, rfl, h⟩
      cases h with
      | cons h1 h => cases h with
        | cons h2 h => cases h; exact .pair h1 h2
  | @tuple ts vs hl =>
    constructor
    · intro hd
      cases hd with
      | tuple h1 h2 h3 =>
        refine ⟨_, rfl, forall₂_iff_idx.2 ⟨by rw [List.length_zip, h1, h2, Nat.min_self], fun i x j hx hj => ?_⟩⟩
        obtain ⟨e1, e2⟩ := List.getElem?_zip_eq_some.1 hx
        exact h3 i x.1 x.2 j e1 e2 hj
    · rintro ⟨js, rfl, h⟩
      obtain ⟨h1, h2⟩ := forall₂_iff_idx.1 h
      rw [List.length_zip, hl, Nat.min_self] at h1
      exact .tuple hl h1.symm fun i t v j ht hv hj => h2 i (t, v) j (List.getElem?_zip_eq_some.2 ⟨ht, hv⟩) hj

theorem filterMap_denotes {t : Ty} {k : Str} {es : List (Str × Val)} {ps : List (Str × Json)}
    (h : List.Forall₂ (fun e p => p.1 = e.1 ∧ Denotes E H t e.2 p.2) es ps) :
    Denotes E H (.vec t) (.list (es.filterMap fun e => if e.1 = k then some e.2 else none))
      (.arr (ps.filterMap fun p => if p.1 = k then some p.2 else none)) := by
  refine (denotes_items (.vec _ _)).2 ⟨_, rfl, List.forall₂_map_left_iff.2 ?_⟩
  induction h with
  | nil => exact .nil
  | @cons e p es ps h1 _ ih =>
    obtain ⟨h1, h2⟩ := h1
    by_cases hk : e.1 = k
    · rw [List.filterMap_cons_some (b := e.2) (by rw [if_pos hk]), List.filterMap_cons_some (b := p.2) (by rw [if_pos (h1.trans hk)])]
      exact .cons h2 ih
    · rw [List.filterMap_cons_none (by rw [if_neg hk]), List.filterMap_cons_none (by rw [if_neg (h1.trans_ne hk)])]
      exact ih

/-- the documents of the values of members, by name -/
def MemberDocs (E : Env) (H : Heap) (xs : List (Str × Ty × Val)) (ms : List (Key × Json)) : Prop :=
  List.Forall₂ (fun x m => m.1.bytes = x.1 ∧ Denotes E H x.2.1 x.2.2 m.2) xs ms

theorem denotes_members {t : Ty} {v : Val} {xs : List (Str × Ty × Val)} {j : Json} (h : HasMembers E t v xs) (hd : Denotes E H t v j) :
    ∃ ms, j = .obj ms ∧ MemberDocs E H xs ms := by
  cases h with
  | @cls c fs st w h1 h2 =>
    obtain ⟨fs', ms, rfl, h3, h4⟩ := denotes_cls_iff.1 hd
    cases h3.unique h1
    refine ⟨ms, rfl, List.forall₂_map_left_iff.2 ?_⟩
    obtain ⟨e1, e2⟩ := forall₂_iff_idx.1 h4
    refine forall₂_iff_idx.2 ⟨e1, fun i f m hf hm => ?_⟩
    obtain ⟨g1, x, g2, g3⟩ := e2 i f m hf hm
    rw [h2 f (List.mem_of_getElem? hf)] at g2
    cases g2
    exact ⟨by rw [g1], g3⟩
  | @map hashed t kvs es h1 h2 =>
    cases hd with
    | map e0 e1 e2 e3 =>
      subst e0
      rw [h1] at e1 e2 e3
      refine ⟨_, rfl, List.forall₂_map_left_iff.2 (forall₂_iff_idx.2 ⟨by simpa using e1, fun i e m he hm => ?_⟩)⟩
      have he' : (es.map fun e => (Val.str e.1, e.2))[i]? = some (.str e.1, e.2) := by rw [List.getElem?_map, he]; rfl
      obtain ⟨k, g1, g2, g3⟩ := e2 i _ m he' hm
      cases g1
      obtain ⟨p1, p2⟩ := h2 e (List.mem_of_getElem? he)
      exact ⟨cstringText_eq p1 p2 g2, e3 i _ m he' hm⟩
  | @multimap hashed t kvs es h1 h2 =>
    cases hd with
    | @multimap _ _ _ it ps ms e0 e1 e2 e3 e4 =>
      subst e0
      rw [h1] at e1 e2 e3
      have hf : List.Forall₂ (fun e p => p.1 = e.1 ∧ Denotes E H t e.2 p.2) es ps := by
        refine forall₂_iff_idx.2 ⟨by simpa using e1, fun i e m he hm => ?_⟩
        have he' : (es.map fun e => (Val.str e.1, e.2))[i]? = some (.str e.1, e.2) := by rw [List.getElem?_map, he]; rfl
        obtain ⟨k, g1, g2⟩ := e2 i _ m he' hm
        cases g1
        exact ⟨by rw [g2, clamped_short (h2 e (List.mem_of_getElem? he)).2], e3 i _ m he' hm⟩
      have hn : ps.map Prod.fst = es.map Prod.fst := by
        clear e1 e2 e3 e4 h1 h2
        induction hf with
        | nil => rfl
        | cons h _ ih => rw [List.map_cons, List.map_cons, h.1, ih]
      obtain ⟨g1, g2⟩ := e4
      rw [hn] at g1
      refine ⟨ms, rfl, List.forall₂_map_left_iff.2 ?_⟩
      rw [← g1, List.forall₂_map_left_iff]
      refine List.forall₂_same.2 fun m hm => ⟨rfl, ?_⟩
      rw [(g2 m hm).2]
      exact filterMap_denotes hf

theorem members_denote {t : Ty} {v : Val} {xs : List (Str × Ty × Val)} {ms : List (Key × Json)} (h : HasMembers E t v xs)
    (hd : MemberDocs E H xs ms) :
    ∃ ms', Denotes E H t v (.obj ms') ∧ ms'.map (fun m => (m.1.bytes, m.2)) = ms.map fun m => (m.1.bytes, m.2) := by
  cases h with
  | @cls c fs st w h1 h2 =>
    have hd := forall₂_iff_idx.1 (List.forall₂_map_left_iff.1 hd)
    refine ⟨ms.map fun m => (⟨m.1.bytes, .literal⟩, m.2), denotes_cls_iff.2 ⟨fs, _, rfl, h1, ?_⟩, by simp⟩
    refine List.forall₂_map_right_iff.2 (forall₂_iff_idx.2 ⟨hd.1, fun i f m hf hm => ?_⟩)
    obtain ⟨g1, g2⟩ := hd.2 i f m hf hm
    exact ⟨by rw [g1], w f, h2 f (List.mem_of_getElem? hf), g2⟩
  | @map hashed t kvs es h1 h2 =>
    have hd := forall₂_iff_idx.1 (List.forall₂_map_left_iff.1 hd)
    refine ⟨ms.map fun m => (⟨m.1.bytes, .borrowed⟩, m.2), ?_, by simp⟩
    have key : ∀ (i : Nat) e m, (es.map fun e => (Val.str e.1, e.2))[i]? = some e →
        (ms.map fun m => ((⟨m.1.bytes, .borrowed⟩ : Key), m.2))[i]? = some m →
        ∃ e' m', es[i]? = some e' ∧ ms[i]? = some m' ∧ e = (.str e'.1, e'.2) ∧ m = (⟨m'.1.bytes, .borrowed⟩, m'.2) := by
      intro i e m he hm
      rw [List.getElem?_map, Option.map_eq_some_iff] at he hm
      obtain ⟨e', a1, a2⟩ := he
      obtain ⟨m', b1, b2⟩ := hm
      exact ⟨e', m', a1, b1, a2.symm, b2.symm⟩
    refine .map h1.symm (by simpa using hd.1) (fun i e m he hm => ?_) (fun i e m he hm => ?_)
    · obtain ⟨e', m', a1, b1, rfl, rfl⟩ := key i e m he hm
      obtain ⟨p1, p2⟩ := h2 e' (List.mem_of_getElem? a1)
      refine ⟨e'.1, rfl, ?_, rfl⟩
      simp only
      rw [(hd.2 i e' m' a1 b1).1]
      exact cstringText_self p1 p2
    · obtain ⟨e', m', a1, b1, rfl, rfl⟩ := key i e m he hm
      exact (hd.2 i e' m' a1 b1).2
  | @multimap hashed t kvs es h1 h2 =>
    replace hd := List.forall₂_map_left_iff.1 hd
    -- every entry has a document
    have hex : ∀ e ∈ es, ∃ d, Denotes E H t e.2 d := by
      intro e he
      have hk : e.1 ∈ (es.map Prod.fst).eraseDups := List.mem_eraseDups.2 (List.mem_map_of_mem he)
      obtain ⟨i, hi⟩ := List.mem_iff_getElem?.1 hk
      obtain ⟨hl, hx⟩ := forall₂_iff_idx.1 hd
      have hlt : i < ms.length := by
        rw [← hl]
        exact (List.getElem?_eq_some_iff.1 hi).1
      obtain ⟨-, hv⟩ := hx i e.1 ms[i] hi (List.getElem?_eq_getElem hlt)
      obtain ⟨js, -, hjs⟩ := (denotes_items (.vec _ _)).1 hv
      have hjs := List.forall₂_map_left_iff.1 hjs
      have hm : e.2 ∈ es.filterMap fun e' => if e'.1 = e.1 then some e'.2 else none :=
        List.mem_filterMap.2 ⟨e, he, by rw [if_pos rfl]⟩
      obtain ⟨i', hi'⟩ := List.mem_iff_getElem?.1 hm
      obtain ⟨hl', hx'⟩ := forall₂_iff_idx.1 hjs
      have hlt' : i' < js.length := by
        rw [← hl']
        exact (List.getElem?_eq_some_iff.1 hi').1
      exact ⟨_, hx' i' e.2 js[i'] hi' (List.getElem?_eq_getElem hlt')⟩
    have hps : ∃ ps : List (Str × Json), List.Forall₂ (fun e p => p.1 = e.1 ∧ Denotes E H t e.2 p.2) es ps := by
      clear hd h1 h2
      induction es with
      | nil => exact ⟨[], .nil⟩
      | cons e es ih =>
        obtain ⟨d, hd⟩ := hex e List.mem_cons_self
        obtain ⟨ps, hps⟩ := ih fun e' he' => hex e' (List.mem_cons_of_mem _ he')
        exact ⟨(e.1, d) :: ps, .cons ⟨rfl, hd⟩ hps⟩
    obtain ⟨ps, hps⟩ := hps
    have hn : ps.map Prod.fst = es.map Prod.fst := by
      clear hd h1 h2 hex
      induction hps with
      | nil => rfl
      | cons h _ ih => rw [List.map_cons, List.map_cons, h.1, ih]
    obtain ⟨g1, g2⟩ := grouped_foldl ps
    have hden : Denotes E H (.map hashed true .str t) (.map kvs) (.obj (ps.foldl (fun ms p => addToGroup p.1 p.2 ms) [])) := by
      obtain ⟨q1, q2⟩ := forall₂_iff_idx.1 hps
      have key : ∀ (i : Nat) e, (es.map fun e => (Val.str e.1, e.2))[i]? = some e → ∃ e', es[i]? = some e' ∧ e = (.str e'.1, e'.2) := by
        intro i e he
        rw [List.getElem?_map, Option.map_eq_some_iff] at he
        obtain ⟨e', a1, a2⟩ := he
        exact ⟨e', a1, a2.symm⟩
      refine .multimap (ps := ps) h1.symm (by simpa using q1) (fun i e p he hp => ?_) (fun i e p he hp => ?_) ⟨g1, g2⟩
      · obtain ⟨e', a1, rfl⟩ := key i e he
        exact ⟨e'.1, rfl, by rw [(q2 i e' p a1 hp).1, clamped_short (h2 e' (List.mem_of_getElem? a1)).2]⟩
      · obtain ⟨e', a1, rfl⟩ := key i e he
        exact (q2 i e' p a1 hp).2
    refine ⟨_, hden, ?_⟩
    rw [hn] at g1
    generalize ps.foldl (fun ms p => addToGroup p.1 p.2 ms) [] = gs at g1 g2
    rw [← g1, List.forall₂_map_left_iff] at hd
    obtain ⟨r1, r2⟩ := forall₂_iff_idx.1 hd
    refine List.ext_getElem? fun i => ?_
    rw [List.getElem?_map, List.getElem?_map]
    by_cases hi : i < gs.length
    · have hi' : i < ms.length := r1 ▸ hi
      obtain ⟨s1, s2⟩ := r2 i gs[i] ms[i] (List.getElem?_eq_getElem hi) (List.getElem?_eq_getElem hi')
      rw [List.getElem?_eq_getElem hi, List.getElem?_eq_getElem hi', Option.map_some, Option.map_some, s1,
        (g2 gs[i] (List.getElem_mem hi)).2]
      rw [C57_representation_unique _ _ _ _ _ _ s2 (filterMap_denotes hps)]
    · rw [List.getElem?_eq_none (Nat.le_of_not_lt hi), List.getElem?_eq_none (r1 ▸ Nat.le_of_not_lt hi)]

/-! ## the same content, the same document -/

theorem SameContent.symm {t t' : Ty} {v v' : Val} (h : SameContent E H E' H' t v t' v') : SameContent E' H' E H t' v' t v := by
  induction h with
  | scalar h1 h2 => exact .scalar h2 h1
  | absent h1 h2 => exact .absent h2 h1
  | held h1 _ ih => exact .held' h1 ih
  | held' h1 _ ih => exact .held h1 ih
  | items h1 h2 h3 _ ih => exact .items h2 h1 h3.symm fun i x y hx hy => ih i y x hy hx
  | members h1 h2 h3 _ ih => exact .members h2 h1 h3.symm fun i x y hx hy => ih i y x hy hx
  | mono h1 h2 => exact .mono h2 h1
  | alternative h1 h2 h3 h4 _ ih => exact .alternative h2 h1 h4 h3 ih

theorem pick {α β γ : Type} {R : α → γ → Prop} {R' : β → γ → Prop} {S : γ → γ → Prop} {xs : List α} {ys : List β} {js : List γ}
    (hl : xs.length = ys.length) (h : List.Forall₂ R xs js)
    (hp : ∀ (i : Nat) x y, xs[i]? = some x → ys[i]? = some y → ∀ j, R x j → ∃ j', R' y j' ∧ S j' j) :
    ∃ js', List.Forall₂ R' ys js' ∧ List.Forall₂ S js' js := by
  induction h generalizing ys with
  | nil =>
    cases ys with
    | nil => exact ⟨[], .nil, .nil⟩
    | cons y ys => cases hl
  | @cons x j xs js h1 _ ih =>
    cases ys with
    | nil => cases hl
    | cons y ys =>
      obtain ⟨j', e1, e2⟩ := hp 0 x y rfl rfl j h1
      obtain ⟨js', f1, f2⟩ := ih (ys := ys) (by simpa using hl) fun i x y hx hy => hp (i + 1) x y hx hy
      exact ⟨j' :: js', .cons e1 f1, .cons e2 f2⟩

theorem SameContent.doc {t t' : Ty} {v v' : Val} (h : SameContent E H E' H' t v t' v') :
    ∀ j, Denotes E H t v j → ∃ j', Denotes E' H' t' v' j' ∧ own j' = own j := by
  induction h with
  | scalar h1 h2 => exact fun j hj => ⟨_, (denotes_scalar h2).2 rfl, by rw [(denotes_scalar h1).1 hj]⟩
  | absent h1 h2 => exact fun j hj => ⟨_, (denotes_absent h2).2 rfl, by rw [(denotes_absent h1).1 hj]⟩
  | held h1 _ ih => exact fun j hj => ih j ((denotes_holds h1).1 hj)
  | held' h1 _ ih =>
    intro j hj
    obtain ⟨j', e1, e2⟩ := ih j hj
    exact ⟨j', (denotes_holds h1).2 e1, e2⟩
  | items h1 h2 h3 _ ih =>
    intro j hj
    obtain ⟨js, rfl, e⟩ := (denotes_items h1).1 hj
    obtain ⟨js', f1, f2⟩ := pick h3 e ih
    refine ⟨.arr js', (denotes_items h2).2 ⟨js', rfl, f1⟩, ?_⟩
    rw [own, own, ownItems_eq, ownItems_eq]
    congr 1
    exact List.forall₂_eq_eq_eq ▸ (List.forall₂_map_left_iff.2 (List.forall₂_map_right_iff.2 f2))
  | @members t v t' v' xs ys h1 h2 h3 _ ih =>
    intro j hj
    obtain ⟨ms, rfl, e⟩ := denotes_members h1 hj
    have hl : xs.length = ys.length := by simpa using congrArg List.length h3
    obtain ⟨ms', f1, f2⟩ := pick (R' := fun (y : Str × Ty × Val) (m : Key × Json) => m.1.bytes = y.1 ∧ Denotes E' H' y.2.1 y.2.2 m.2)
      (S := fun m' m => m'.1.bytes = m.1.bytes ∧ own m'.2 = own m.2) hl e fun i x y hx hy m hm => by
        obtain ⟨j', g1, g2⟩ := ih i x y hx hy m.2 hm.2
        have hxy : x.1 = y.1 := by
          have := congrArg (fun l => l[i]?) h3
          simp only [List.getElem?_map, hx, hy, Option.map_some, Option.some.injEq] at this
          exact this
        exact ⟨(m.1, j'), ⟨hm.1.trans hxy, g1⟩, rfl, g2⟩
    obtain ⟨ms'', g1, g2⟩ := members_denote h2 f1
    refine ⟨.obj ms'', g1, ?_⟩
    rw [own, own, ownMembers_eq, ownMembers_eq]
    have e1 := congrArg (List.map fun (q : Str × Json) => ((⟨q.1, .copied⟩ : Key), own q.2)) g2
    rw [List.map_map, List.map_map] at e1
    have e2 : (ms'.map fun m => ((⟨m.1.bytes, .copied⟩ : Key), own m.2)) = ms.map fun m => (⟨m.1.bytes, .copied⟩, own m.2) := by
      refine List.forall₂_eq_eq_eq ▸ (List.forall₂_map_left_iff.2 (List.forall₂_map_right_iff.2 (f2.imp fun a b h => ?_)))
      rw [h.1, h.2]
    congr 1
    exact e1.trans e2
  | mono h1 h2 =>
    intro j hj
    cases hj with
    | mono _ => exact ⟨_, .mono h2, rfl⟩
    | variant h3 h4 => rw [h1] at h3; cases h3; exact absurd rfl h4
  | alternative h1 h2 h3 h4 _ ih =>
    intro j hj
    cases hj with
    | mono h5 => rw [h1] at h5; cases h5; exact absurd rfl h3
    | variant h5 h6 h7 =>
      rw [h1] at h5; cases h5
      obtain ⟨j', e1, e2⟩ := ih _ h7
      exact ⟨_, .variant h2 h4 e1, by simp only [own, ownMembers, e2]⟩

/-- **C90**: objects with the same content have the same document, whatever their types are; if one of them can be serialised then so
can the other one. -/
theorem C90_same_document (E : Env) (H : Heap) (E' : Env) (H' : Heap) (t t' : Ty) (v v' : Val) (h : SameContent E H E' H' t v t' v') :
    (∀ n j, push E H n t v () = .ok j () → ∃ n' j', push E' H' n' t' v' () = .ok j' () ∧ SameDocument j j') ∧
    (∀ n j', push E' H' n t' v' () = .ok j' () → ∃ n' j, push E H n' t v () = .ok j () ∧ SameDocument j j') := by
  constructor
  · intro n j hj
    obtain ⟨j', e1, e2⟩ := h.doc j ((C57_serialised_form ..).1 ⟨n, hj⟩)
    obtain ⟨n', hn'⟩ := (C57_serialised_form ..).2 e1
    exact ⟨n', j', hn', e2.symm⟩
  · intro n j hj
    obtain ⟨j', e1, e2⟩ := h.symm.doc j ((C57_serialised_form ..).1 ⟨n, hj⟩)
    obtain ⟨n', hn'⟩ := (C57_serialised_form ..).2 e1
    exact ⟨n', j', hn', e2⟩

/-- **C90**: a program which uses other types restores what has been written: if `v'` has the same content as `v` (and is
representable) then the document written for `v` is read as `v'`, without any error. -/
theorem C90_restored_as_other_type (E : Env) (H : Heap) (E' : Env) (H' : Heap) (hE : StrTotal E') (t t' : Ty) (p v v' : Val)
    (h : SameContent E H E' H' t v t' v') (hr : JRepr E' H' t' p v') :
    ∃ (N : Nat) (j : Json), ∀ n, N ≤ n →
      push E H n t v () = .ok j () ∧
      pull E' n t' j p none = .ok v' none ∧
      ∀ s : ErrSt, ∃ i, (i = s.index ∨ i = noIndex) ∧ pull E' n t' j p (some s) = .ok v' (some { s with index := i }) := by
  obtain ⟨N, j', h1⟩ := C01_json_document_round_trip E' H' hE t' p v' hr
  obtain ⟨n0, j, h2, h3⟩ := (C90_same_document E H E' H' t t' v v' h).2 N j' (h1 N (Nat.le_refl _)).1
  refine ⟨max N n0, j, fun n hn => ?_⟩
  obtain ⟨-, g2, g3⟩ := h1 n (by omega)
  refine ⟨push_mono (by omega) h2 (by simp), ?_, ?_⟩
  · rw [← pull_own, h3, pull_own]; exact g2
  · rw [← pull_own, h3, pull_own]; exact g3

mutual
theorem printV_own (D : Dbl) : ∀ j, printV D (own j) = printV D j
  | .null => rfl
  | .bool _ => rfl
  | .num _ => rfl
  | .str _ => rfl
  | .arr js => by rw [own, printV, printV, printItems_own D js]
  | .obj ms => by rw [own, printV, printV, printMembers_own D ms]
theorem printItems_own (D : Dbl) : ∀ js, printItems D (ownItems js) = printItems D js
  | [] => rfl
  | j :: js => by
    rw [ownItems, printItems, printItems, printV_own D j, printItems_own D js]
    cases js <;> rfl
theorem printMembers_own (D : Dbl) : ∀ ms, printMembers D (ownMembers ms) = printMembers D ms
  | [] => rfl
  | (k, j) :: ms => by
    rw [ownMembers, printMembers, printMembers, printV_own D j, printMembers_own D ms]
    cases ms <;> rfl
end

/-- **C90**: objects with the same content have the same text. -/
theorem C90_same_text (E : Env) (H : Heap) (E' : Env) (H' : Heap) (D : Dbl) (t t' : Ty) (v v' : Val)
    (ht : (∃ c, t = .cls c) ∨ (∃ h m k v, t = .map h m k v) ∨ (∃ t', t = .vec t'))
    (ht' : (∃ c, t' = .cls c) ∨ (∃ h m k v, t' = .map h m k v) ∨ (∃ u, t' = .vec u))
    (h : SameContent E H E' H' t v t' v') (text : Str) :
    (∃ n, toJson E H D n t v () = .ok text ()) ↔ ∃ n, toJson E' H' D n t' v' () = .ok text () := by
  have key : ∀ {E : Env} {H : Heap} {t : Ty} {v : Val} {n : Nat},
      ((∃ c, t = .cls c) ∨ (∃ h m k v, t = .map h m k v) ∨ (∃ t', t = .vec t')) →
      (toJson E H D n t v () = .ok text () ↔ ∃ j, push E H n t v () = .ok j () ∧ printDoc D j = text) := by
    intro E H t v n ht
    have hdoc : toJsonDocument E H n t v = push E H n t v := by
      rcases ht with ⟨c, rfl⟩ | ⟨h, m, k, v, rfl⟩ | ⟨t', rfl⟩ <;> rfl
    unfold toJson
    rw [hdoc, SM.bind_ok_iff]
    refine exists_congr fun j => and_congr_right fun _ => ⟨fun h => ?_, fun h => ?_⟩
    · cases h; rfl
    · rw [h]; rfl
  obtain ⟨d1, d2⟩ := C90_same_document E H E' H' t t' v v' h
  constructor
  · rintro ⟨n, hn⟩
    obtain ⟨j, h1, rfl⟩ := (key ht).1 hn
    obtain ⟨n', j', h2, h3⟩ := d1 n j h1
    refine ⟨n', (key ht').2 ⟨j', h2, ?_⟩⟩
    rw [printDoc, ← printV_own, ← h3, printV_own]; rfl
  · rintro ⟨n, hn⟩
    obtain ⟨j, h1, rfl⟩ := (key ht').1 hn
    obtain ⟨n', j', h2, h3⟩ := d2 n j h1
    refine ⟨n', (key ht).2 ⟨j', h2, ?_⟩⟩
    rw [printDoc, ← printV_own, h3, printV_own]; rfl

open JsonText in
/-- **C90**: a program which uses other types restores the text: `fromJson` of the one yields `v'` for `toJson(v)` of the other. -/
theorem C90_text_restored_as_other_type (E : Env) (H : Heap) (E' : Env) (H' : Heap) (hE : StrTotal E') (D : Dbl) (t t' : Ty) (v v' : Val)
    (ht : (∃ c, t = .cls c) ∨ (∃ h m k v, t = .map h m k v) ∨ (∃ t', t = .vec t'))
    (ht' : (∃ c, t' = .cls c) ∨ (∃ h m k v, t' = .map h m k v) ∨ (∃ u, t' = .vec u))
    (h : SameContent E H E' H' t v t' v') (hr : JRepr E' H' t' (E'.defInit t') v')
    (hn : ∀ n j, push E' H' n t' v' () = .ok j () → ∀ x ∈ numbers j, Printable D x) :
    ∃ (N : Nat) (text : Str), (∃ n, toJson E H D n t v () = .ok text ()) ∧ ∀ n, N ≤ n →
      fromJson E' (textParser D) n t' text none = .ok v' none ∧
      ∀ s : ErrSt, ∃ i, (i = s.index ∨ i = noIndex) ∧ fromJson E' (textParser D) n t' text (some s) = .ok v' (some { s with index := i }) := by
  obtain ⟨N, text, h1⟩ := C52_value_round_trip E' H' hE D t' v' ht' hr hn
  exact ⟨N, text, (C90_same_text E H E' H' D t t' v v' ht ht' h text).2 ⟨N, (h1 N (Nat.le_refl _)).1⟩, fun n hn => (h1 n hn).2⟩

/-! ## non-vacuity -/

namespace TypeChangeDemo
open Demo RoundTripDemo

def oI : Field := ⟨7, lit "i", .opt (.int .i64)⟩
def oM : Field := ⟨7, lit "m", .cls 8⟩
def oS : Field := ⟨7, lit "s", .tuple [.sview, .opt .str]⟩
def oK : Field := ⟨7, lit "k", .sptr (.enum .i32)⟩
def oA : Field := ⟨8, lit "A", .int .u8⟩
def oB : Field := ⟨8, lit "B", .uptr (.int .u32)⟩

def plainClass (fs : List Field) : ClassInfo := ⟨lit "Old", ⟨[], fs, fs, true, true⟩, ⟨[], none, [], [], true⟩, [], []⟩

/-- a program with other types: one class without base, `i` optional and of another size, `m` a class instead of a map, `s` a tuple,
`k` a shared enumeration -/
def oldEnv : Env := { env with cls := fun c => match c with
    | 7 => some (plainClass [oI, oM, oS, oK])
    | 8 => some (plainClass [oA, oB])
    | _ => none }

def oldHeap : Heap := fun a => if a = 1000 then some (.int 7) else none

def oldValue : Store :=
  [(oI.key, .some (.int (-42))), (oM.key, .obj [(oA.key, .int 1), (oB.key, .ptr (.int 2))]),
    (oS.key, .tup [.cstr (some [120]), .some (.str [])]), (oK.key, .ref 1000)]

theorem same_m : SameContent oldEnv oldHeap env (fun _ => none) (.cls 8) (.obj [(oA.key, .int 1), (oB.key, .ptr (.int 2))])
    fM.ty (.map [(.str [65], .int 1), (.str [66], .int 2)]) := by
  refine .members (HasMembers.cls (fs := [oA, oB]) (fun f => if f.name = [65] then .int 1 else .ptr (.int 2)) ?_ ?_)
    (HasMembers.map (es := [([65], .int 1), ([66], .int 2)]) rfl ?_) rfl ?_
  · exact FlatFields.cons (ci := plainClass [oA, oB]) (bs := []) (fs := []) rfl .nil .nil
  · intro f hf
    simp only [List.mem_cons, List.not_mem_nil, or_false] at hf
    rcases hf with rfl | rfl <;> rfl
  · intro e he
    simp only [List.mem_cons, List.not_mem_nil, or_false] at he
    rcases he with rfl | rfl <;> exact plain _ (by decide) (by decide)
  · intro i x y hx hy
    match i with
    | 0 => cases hx; cases hy; exact .scalar (.int .u8 _ (by decide) (by decide) (by decide)) (.int .i32 _ (by decide) (by decide) (by decide))
    | 1 =>
      cases hx; cases hy
      exact .held (.uptr _ _) (.scalar (.int .u32 _ (by decide) (by decide) (by decide)) (.int .i32 _ (by decide) (by decide) (by decide)))
    | i + 2 => cases hx

theorem same_s : SameContent oldEnv oldHeap env (fun _ => none) oS.ty (.tup [.cstr (some [120]), .some (.str [])])
    fS.ty (.list [.str [120], .str []]) := by
  refine .items (HasItems.tuple rfl) (HasItems.vec _ _) rfl fun i x y hx hy => ?_
  match i with
  | 0 => cases hx; cases hy; exact .scalar (.sview _ (by decide)) (.str _ (by decide))
  | 1 => cases hx; cases hy; exact .held (.opt _ _) (.scalar (.str _ (by decide)) (.str _ (by decide)))
  | i + 2 => cases hx

/-- The object of the old program has the same content as an object of the class `Derived` of the new program. -/
theorem same : SameContent oldEnv oldHeap env (fun _ => none) (.cls 7) (.obj oldValue) (.cls 1) (.obj value) := by
  refine .members (HasMembers.cls (fs := [oI, oM, oS, oK]) (fun f => (Store.get? oldValue f.key).getD .null) ?_ ?_)
    (HasMembers.cls (fun f => (Store.get? value f.key).getD .null) flatPush ?_) rfl ?_
  · exact FlatFields.cons (ci := plainClass [oI, oM, oS, oK]) (bs := []) (fs := []) rfl .nil .nil
  · intro f hf
    simp only [List.mem_cons, List.not_mem_nil, or_false] at hf
    rcases hf with rfl | rfl | rfl | rfl <;> rfl
  · intro f hf
    simp only [List.mem_cons, List.not_mem_nil, or_false] at hf
    rcases hf with rfl | rfl | rfl | rfl <;> rfl
  · intro i x y hx hy
    match i with
    | 0 =>
      cases hx; cases hy
      exact .held (.opt _ _) (.scalar (.int .i64 _ (by decide) (by decide) (by decide)) (.int .i32 _ (by decide) (by decide) (by decide)))
    | 1 => cases hx; cases hy; exact same_m
    | 2 => cases hx; cases hy; exact same_s
    | 3 =>
      cases hx; cases hy
      exact .held (.sptrRef rfl) (.scalar (.enum _ _) (.int .i32 _ (by decide) (by decide) (by decide)))
    | i + 4 => cases hx

/-- It is restored by the new program. -/
example : ∃ (N : Nat) (j : Json), ∀ n, N ≤ n → push oldEnv oldHeap n (.cls 7) (.obj oldValue) () = .ok j () ∧
    pull env n (.cls 1) j (.obj prior) none = .ok (.obj value) none := by
  obtain ⟨N, j, h⟩ := C90_restored_as_other_type _ _ _ _ demo_strTotal _ _ _ _ _ same repr
  exact ⟨N, j, fun n hn => ⟨(h n hn).1, (h n hn).2.1⟩⟩

example (D : Dbl) (text : Str) : (∃ n, toJson oldEnv oldHeap D n (.cls 7) (.obj oldValue) () = .ok text ()) ↔
    ∃ n, toJson env (fun _ => none) D n (.cls 1) (.obj value) () = .ok text () :=
  C90_same_text _ _ _ _ D _ _ _ _ (.inl ⟨_, rfl⟩) (.inl ⟨_, rfl⟩) same text

/-- a multimap has the same content as a map with lists -/
example : SameContent env (fun _ => none) env (fun _ => none)
    (.map false true .str .bool) (.map [(.str [65], .bool true), (.str [65], .bool false), (.str [66], .bool true)])
    (.map false false .str (.vec .bool)) (.map [(.str [65], .list [.bool true, .bool false]), (.str [66], .list [.bool true])]) := by
  have hb : ∀ bs : List Bool, SameContent env (fun _ => none) env (fun _ => none) (.vec .bool) (.list (bs.map .bool)) (.vec .bool) (.list (bs.map .bool)) := by
    intro bs
    refine .items (HasItems.vec _ _) (HasItems.vec _ _) rfl fun i x y hx hy => ?_
    rw [hx] at hy; cases hy
    rw [List.getElem?_map, List.getElem?_map] at hx
    cases hb : bs[i]? with
    | none => rw [hb] at hx; cases hx
    | some b => rw [hb] at hx; cases hx; exact .scalar (.bool b) (.bool b)
  refine .members (HasMembers.multimap (es := [([65], .bool true), ([65], .bool false), ([66], .bool true)]) rfl ?_)
    (HasMembers.map (es := [([65], .list [.bool true, .bool false]), ([66], .list [.bool true])]) rfl ?_) (by decide) ?_
  · intro e he
    simp only [List.mem_cons, List.not_mem_nil, or_false] at he
    rcases he with rfl | rfl | rfl <;> exact plain _ (by decide) (by decide)
  · intro e he
    simp only [List.mem_cons, List.not_mem_nil, or_false] at he
    rcases he with rfl | rfl <;> exact plain _ (by decide) (by decide)
  · intro i x y hx hy
    match i with
    | 0 => cases hx; cases hy; exact hb [true, false]
    | 1 => cases hx; cases hy; exact hb [true]
    | i + 2 => cases hy

end TypeChangeDemo

end Verif
