import Verif.Lemmas.GenText

/-!
# Code generator: the generated text is balanced
-/

namespace Verif.Gen

theorem renderAll_append (a b : List Item) : renderAll (a ++ b) = renderAll a ++ renderAll b := by
  simp [renderAll]

theorem renderAll_cons (i : Item) (b : List Item) : renderAll (i :: b) = i.render ++ renderAll b := by
  simp [renderAll]

/-- pieces which can occur within a function -/
def Item.inBody : Item → Bool
  | .nsOpen _ | .nsClose _ | .pushOpen _ _ | .pullOpen _ _ | .writeOpen _ _ | .readOpen _ _ | .funEnd | .funEndBlank
  | .classComment _ => false
  | _ => true

theorem compile_lvl (is : List Item) : ∀ (cur : Option Guard) (l : List (Guard × Call)), compileFrom cur is = some l →
    (∀ i ∈ is, i.NamesOk ∧ i.inBody = true) → Lvl (if cur.isSome then 1 else 0) 0 (renderAll is) := by
  induction is with
  | nil =>
    intro cur l h _
    cases cur with
    | none => exact .of rfl
    | some g => simp [compileFrom] at h
  | cons i is ih =>
    intro cur l h hi
    rw [renderAll_cons]
    have hr := render_lvl i (hi i (by simp)).1
    have hb := (hi i (by simp)).2
    have ih := fun cur l h => ih cur l h fun j hj => hi j (by simp [hj])
    by_cases hp : i.plain = true
    · have : compileFrom cur (i :: is) = (match i.call with
          | none => compileFrom cur is
          | some c => (compileFrom cur is).map ((cur.getD ⟨0, 0⟩, c) :: ·)) := by
        cases i <;> first | rfl | cases hp
      rw [this] at h
      have hl : ∃ l, compileFrom cur is = some l := by
        cases hc : i.call with
        | none => rw [hc] at h; exact ⟨l, h⟩
        | some c =>
          rw [hc] at h
          simp only [Option.map_eq_some_iff] at h
          obtain ⟨l', h, _⟩ := h
          exact ⟨l', h⟩
      obtain ⟨l', hl⟩ := hl
      have hz : i.enter = 0 ∧ i.leave = 0 := by
        cases i <;> first | exact ⟨rfl, rfl⟩ | (cases hp; done) | (cases hb; done)
      rw [hz.1, hz.2] at hr
      have := ih cur l' hl
      revert this
      cases cur.isSome with
      | true => intro this; exact (hr.up 1).app this
      | false => intro this; exact hr.app this
    · cases i <;> first | exact absurd rfl hp | skip
      · -- ifVersion
        cases cur with
        | none => exact hr.app (ih _ _ h)
        | some g => cases h
      · -- endIf
        cases cur with
        | none => cases h
        | some g => exact hr.app (ih none l h)

theorem block_lvl {o e : Item} {body : List Item} (ho : o.NamesOk) (ho' : o.enter = 0 ∧ o.leave = 1)
    (he : e.NamesOk) (he' : e.enter = 1 ∧ e.leave = 0) (hb : Lvl 0 0 (renderAll body)) :
    Lvl 0 0 (renderAll (o :: (body ++ [e]))) := by
  rw [renderAll_cons, renderAll_append]
  have h1 := render_lvl o ho
  have h2 := render_lvl e he
  rw [ho'.1, ho'.2] at h1
  rw [he'.1, he'.2] at h2
  have h3 : Lvl 1 0 (renderAll [e]) := by rw [renderAll_cons]; exact h2.app (.of rfl)
  exact h1.app ((hb.up 1).app h3)

theorem flatMap_lvl {α} (g : α → List Item) (xs : List α) (h : ∀ x ∈ xs, Lvl 0 0 (renderAll (g x))) :
    Lvl 0 0 (renderAll (xs.flatMap g)) := by
  induction xs with
  | nil => exact .of rfl
  | cons x xs ih =>
    rw [List.flatMap_cons, renderAll_append]
    exact (h x (by simp)).app (ih fun y hy => h y (by simp [hy]))

theorem NamesOk.vis {cfg tu} (h : NamesOk cfg tu) : NoBraces (cfg.visibility.getD []) := by
  cases hv : cfg.visibility with
  | none => intro c hc; cases hc
  | some v => exact h.visibility v hv

theorem wantedBases_ok {cfg tu} (h : NamesOk cfg tu) (c : ClassId) : ∀ q ∈ wantedBases cfg tu c, NoBraces q := by
  intro q hq
  simp only [wantedBases, List.mem_map] at hq
  obtain ⟨n, _, rfl⟩ := hq
  exact h.classes _

theorem fields_ok {cfg tu} (h : NamesOk cfg tu) (c : ClassId) : ∀ f ∈ (tu.cls c).fields, NoBraces f.name := by
  intro f hf
  simp only [Class.fields, List.mem_filterMap] at hf
  obtain ⟨m, hm, h'⟩ := hf
  cases m with
  | field g => simp at h'; subst h'; exact h.members c _ hm
  | var _ _ => simp at h'
  | other => simp at h'

theorem pushBody_ok {cfg tu} (h : NamesOk cfg tu) (n : Node) : ∀ i ∈ pushBody cfg tu n, i.NamesOk ∧ i.inBody = true ∧ i.plain = true := by
  intro i hi
  simp only [pushBody, List.mem_append, List.mem_map, List.mem_singleton] at hi
  rcases hi with ((⟨q, hq, rfl⟩ | rfl) | ⟨m, hm, rfl⟩) | hi
  · exact ⟨wantedBases_ok h _ q hq, rfl, rfl⟩
  · exact ⟨trivial, rfl, rfl⟩
  · simp only [pushed, List.mem_map] at hm
    obtain ⟨f, hf, rfl⟩ := hm
    exact ⟨fields_ok h _ f (List.mem_filter.1 hf).1, rfl, rfl⟩
  · by_cases hc : (wantedBases cfg tu n.cls).isEmpty && (pushed (tu.cls n.cls)).isEmpty
    · rw [if_pos hc] at hi; simp at hi; subst hi; exact ⟨trivial, rfl, rfl⟩
    · rw [if_neg hc] at hi; cases hi

theorem pullBody_ok {cfg tu} (h : NamesOk cfg tu) (n : Node) : ∀ i ∈ pullBody cfg tu n, i.NamesOk ∧ i.inBody = true ∧ i.plain = true := by
  intro i hi
  simp only [pullBody, List.mem_append, List.mem_map, List.mem_singleton] at hi
  rcases hi with (((⟨q, hq, rfl⟩ | rfl) | ⟨m, hm, rfl⟩) | hi) | rfl
  · exact ⟨wantedBases_ok h _ q hq, rfl, rfl⟩
  · exact ⟨h.classes _, rfl, rfl⟩
  · simp only [pulled, List.mem_map] at hm
    obtain ⟨f, hf, rfl⟩ := hm
    exact ⟨fields_ok h _ f (List.mem_filter.1 (List.mem_filter.1 hf).1).1, rfl, rfl⟩
  · by_cases hc : (wantedBases cfg tu n.cls).isEmpty && (pulled (tu.cls n.cls)).isEmpty
    · rw [if_pos hc] at hi; simp at hi; subst hi; exact ⟨trivial, rfl, rfl⟩
    · rw [if_neg hc] at hi; cases hi
  · exact ⟨trivial, rfl, rfl⟩

theorem jsonClass_lvl {cfg tu} (wf : TU.WellFormed tu) (h : NamesOk cfg tu) (n : Node) :
    Lvl 0 0 (renderAll (jsonClass cfg tu (findRelevantClasses cfg tu) (entry cfg tu n))) := by
  rw [jsonClass_eq cfg tu wf]
  have hc : Lvl 0 0 (Item.classComment (tu.cls n.cls).qname).render := render_lvl (.classComment (tu.cls n.cls).qname) (h.classes _)
  have h1 := compile_lvl (pushBody cfg tu n) none _ (compile_plain _ fun i hi => (pushBody_ok h n i hi).2.2)
    (fun i hi => ⟨(pushBody_ok h n i hi).1, (pushBody_ok h n i hi).2.1⟩)
  have h2 := compile_lvl (pullBody cfg tu n) none _ (compile_plain _ fun i hi => (pullBody_ok h n i hi).2.2)
    (fun i hi => ⟨(pullBody_ok h n i hi).1, (pullBody_ok h n i hi).2.1⟩)
  have b1 := block_lvl (o := .pushOpen (cfg.visibility.getD []) (tu.cls n.cls).qname) (e := .funEnd)
    ⟨h.vis, h.classes _⟩ ⟨rfl, rfl⟩ trivial ⟨rfl, rfl⟩ h1
  have b2 := block_lvl (o := .pullOpen (cfg.visibility.getD []) (tu.cls n.cls).qname) (e := .funEndBlank)
    ⟨h.vis, h.classes _⟩ ⟨rfl, rfl⟩ trivial ⟨rfl, rfl⟩ h2
  rw [renderAll_append]
  refine Lvl.app (b := 0) ?_ ?_
  · exact hc.app b1
  · split
    · exact b2
    · exact .of rfl

theorem condition_ok (mt : Tracking) : ∀ i ∈ (writeVersionCondition mt).1, i.NamesOk ∧ i.inBody = true := by
  intro i hi
  unfold writeVersionCondition concludeCondition at hi
  simp only at hi
  split at hi
  · cases hi
  · rcases List.mem_append.1 hi with hi | hi <;> split at hi <;> simp at hi <;> subst hi <;> exact ⟨trivial, rfl⟩

theorem padding_ok (mt : Tracking) : ∀ i ∈ writeExtraPadding mt, i.NamesOk ∧ i.inBody = true := by
  intro i hi
  unfold writeExtraPadding at hi
  split at hi <;> simp at hi
  subst hi; exact ⟨trivial, rfl⟩

theorem conclude_ok (mt : Tracking) : ∀ i ∈ concludeCondition mt, i.NamesOk ∧ i.inBody = true := by
  intro i hi
  unfold concludeCondition at hi
  split at hi <;> simp at hi
  subst hi; exact ⟨trivial, rfl⟩

theorem writeLoop_ok (priv : Bool) (ms : List Member) (h : ∀ f, Member.field f ∈ ms → NoBraces f.name) :
    ∀ mt, ∀ i ∈ (writeLoop priv mt ms).1, i.NamesOk ∧ i.inBody = true := by
  induction ms with
  | nil => intro mt i hi; cases hi
  | cons m ms ih =>
    have ih := ih fun f hf => h f (by simp [hf])
    intro mt i hi
    cases m with
    | var name ls => exact ih _ i hi
    | other => exact ih _ i hi
    | field f =>
      rw [writeLoop] at hi
      split at hi
      · exact ih _ i hi
      · split at hi
        · exact ih _ i hi
        · simp only [List.mem_append, List.mem_singleton] at hi
          rcases hi with ((hi | hi) | rfl) | hi
          · exact condition_ok _ i hi
          · exact padding_ok _ i hi
          · exact ⟨h f (by simp), rfl⟩
          · exact ih _ i hi

theorem readLoop_ok (priv : Bool) (ms : List Member) (h : ∀ f, Member.field f ∈ ms → NoBraces f.name) :
    ∀ mt, ∀ i ∈ (readLoop priv mt ms).1, i.NamesOk ∧ i.inBody = true := by
  induction ms with
  | nil => intro mt i hi; cases hi
  | cons m ms ih =>
    have ih := ih fun f hf => h f (by simp [hf])
    intro mt i hi
    cases m with
    | var name ls => exact ih _ i hi
    | other => exact ih _ i hi
    | field f =>
      rw [readLoop] at hi
      split at hi
      · exact ih _ i hi
      · simp only at hi
        split at hi
        · simp only [List.mem_append, List.mem_singleton] at hi
          rcases hi with ((hi | hi) | rfl) | hi
          · exact condition_ok _ i hi
          · exact padding_ok _ i hi
          · exact ⟨h f (by simp), rfl⟩
          · exact ih _ i hi
        · simp only [List.mem_append] at hi
          rcases hi with (hi | hi) | hi
          · exact condition_ok _ i hi
          · exact padding_ok _ i hi
          · exact ih _ i hi

theorem versionName_ok {cfg tu} (h : NamesOk cfg tu) (c : ClassId) : NoBraces (versionName cfg tu c) := by
  unfold versionName
  cases hb : relevantBaseOf cfg tu c with
  | none => intro x hx; cases hx
  | some b =>
    refine h.bases c b ?_
    unfold relevantBaseOf at hb
    split at hb
    · cases hb
    · exact List.mem_of_find?_eq_some hb

theorem writeBody_ok {cfg tu} (h : NamesOk cfg tu) (n : Node) : ∀ i ∈ writeBody cfg tu n, i.NamesOk ∧ i.inBody = true := by
  intro i hi
  simp only [writeBody, List.mem_append, List.mem_map, List.mem_singleton] at hi
  rcases hi with ((⟨q, hq, rfl⟩ | hi) | rfl) | ((hi | hi) | hi)
  · exact ⟨wantedBases_ok h _ q hq, rfl⟩
  · split at hi <;> simp at hi
    subst hi; exact ⟨versionName_ok h _, rfl⟩
  · exact ⟨trivial, rfl⟩
  · exact writeLoop_ok _ _ (fun f hf => h.members _ f hf) _ i hi
  · exact conclude_ok _ i hi
  · split at hi <;> simp at hi
    subst hi; exact ⟨trivial, rfl⟩

theorem readBody_ok {cfg tu} (h : NamesOk cfg tu) (n : Node) : ∀ i ∈ readBody cfg tu n, i.NamesOk ∧ i.inBody = true := by
  intro i hi
  simp only [readBody, List.mem_append, List.mem_map, List.mem_singleton] at hi
  rcases hi with ((⟨q, hq, rfl⟩ | hi) | rfl) | ((hi | hi) | (hi | rfl))
  · exact ⟨wantedBases_ok h _ q hq, rfl⟩
  · split at hi <;> simp at hi
    subst hi; exact ⟨⟨versionName_ok h _, h.classes _⟩, rfl⟩
  · exact ⟨trivial, rfl⟩
  · exact readLoop_ok _ _ (fun f hf => h.members _ f hf) _ i hi
  · exact conclude_ok _ i hi
  · split at hi <;> simp at hi
    subst hi; exact ⟨trivial, rfl⟩
  · exact ⟨trivial, rfl⟩

theorem binaryClass_lvl {cfg tu} (wf : TU.WellFormed tu) (h : NamesOk cfg tu) (n : Node) :
    Lvl 0 0 (renderAll (binaryClass cfg tu (findRelevantClasses cfg tu) (entry cfg tu n))) := by
  rw [binaryClass_eq cfg tu wf]
  have hc : Lvl 0 0 (Item.classComment (tu.cls n.cls).qname).render := render_lvl (.classComment (tu.cls n.cls).qname) (h.classes _)
  have h1 := compile_lvl (writeBody cfg tu n) none _ (compile_writeBody cfg tu n) (writeBody_ok h n)
  have h2 := compile_lvl (readBody cfg tu n) none _ (compile_readBody cfg tu n) (readBody_ok h n)
  have b1 := block_lvl (o := .writeOpen (cfg.visibility.getD []) (tu.cls n.cls).qname) (e := .funEnd)
    ⟨h.vis, h.classes _⟩ ⟨rfl, rfl⟩ trivial ⟨rfl, rfl⟩ h1
  have b2 := block_lvl (o := .readOpen (cfg.visibility.getD []) (tu.cls n.cls).qname) (e := .funEndBlank)
    ⟨h.vis, h.classes _⟩ ⟨rfl, rfl⟩ trivial ⟨rfl, rfl⟩ h2
  rw [renderAll_append]
  refine Lvl.app (b := 0) ?_ ?_
  · exact hc.app b1
  · split
    · exact b2
    · exact .of rfl

end Verif.Gen
