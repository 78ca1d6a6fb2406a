import Verif.Spec.Generator

/-!
# Code generator: which classes and bases are found (used for C43, C44, C48, C49)
-/

namespace Verif.Gen

open Classical

/-! ## Collecting declarations -/

theorem foldl_addDeclaration (cfg : Config) (tu : TU) (ds : List Decl) (st : Collected) :
    (ds.foldl (addDeclaration cfg tu) st).records = st.records ++ ((ds.filterMap fun
        | .record n => some n
        | .other => none).filter fun n => (tu.cls n.cls).hasDefinition && decide (¬ IsAdaption cfg tu n)) ∧
    (∀ a, a ∈ (ds.foldl (addDeclaration cfg tu) st).adaptions ↔ a ∈ st.adaptions ∨
      (Decl.record a.2 ∈ ds ∧ IsAdaption cfg tu a.2 ∧ ∃ d, a.2.specArgs = some [.type (some d)] ∧ (tu.cls d).qname = a.1)) := by
  induction ds generalizing st with
  | nil => simp
  | cons d ds ih =>
    rw [List.foldl_cons]
    obtain ⟨h1, h2⟩ := ih (addDeclaration cfg tu st d)
    rw [h1]
    cases d with
    | other =>
      refine ⟨by simp [addDeclaration], fun a => ?_⟩
      rw [h2]; simp [addDeclaration]
    | record n =>
      by_cases hd : (tu.cls n.cls).hasDefinition = true
      · cases hs : n.specArgs with
        | none =>
          have hna : ¬ IsAdaption cfg tu n := fun h => h.2.1 hs
          refine ⟨by simp [addDeclaration, hd, hs, hna], fun a => ?_⟩
          rw [h2]
          simp only [addDeclaration, hd, hs, Bool.not_true, Bool.false_eq_true, ↓reduceIte, List.mem_cons, Decl.record.injEq]
          constructor
          · rintro (h | ⟨h, h'⟩)
            · exact .inl h
            · exact .inr ⟨.inr h, h'⟩
          · rintro (h | ⟨rfl | h, h'⟩)
            · exact .inl h
            · exact absurd h'.1 hna
            · exact .inr ⟨h, h'⟩
        | some args =>
          by_cases hq : (tu.cls n.cls).qname = cfg.adaptionName
          · have ha : IsAdaption cfg tu n := ⟨hd, by simp [hs], hq⟩
            have hst : (addDeclaration cfg tu st (.record n)).records = st.records ∧
                ((∃ c, args = [.type (some c)] ∧ (addDeclaration cfg tu st (.record n)).adaptions = st.adaptions ++ [((tu.cls c).qname, n)]) ∨
                  (∀ c, args ≠ [.type (some c)]) ∧ (addDeclaration cfg tu st (.record n)).adaptions = st.adaptions) := by
              unfold addDeclaration
              simp only [hd, Bool.not_true, Bool.false_eq_true, ↓reduceIte, hs, if_pos hq]
              split
              · exact ⟨rfl, .inl ⟨_, rfl, rfl⟩⟩
              · rename_i hne
                exact ⟨rfl, .inr ⟨hne, rfl⟩⟩
            obtain ⟨hrec, hst⟩ := hst
            refine ⟨by rw [hrec]; simp [hd, ha], fun a => ?_⟩
            rw [h2]
            have hmem : a ∈ (addDeclaration cfg tu st (.record n)).adaptions ↔
                a ∈ st.adaptions ∨ (a.2 = n ∧ ∃ d, args = [.type (some d)] ∧ (tu.cls d).qname = a.1) := by
              rcases hst with ⟨c, rfl, hst⟩ | ⟨hne, hst⟩
              · rw [hst]
                simp only [List.mem_append, List.mem_singleton]
                constructor
                · rintro (h | rfl)
                  · exact .inl h
                  · exact .inr ⟨rfl, c, rfl, rfl⟩
                · rintro (h | ⟨h, d, hd, hq⟩)
                  · exact .inl h
                  · right
                    simp only [List.cons.injEq, TArg.type.injEq, Option.some.injEq, and_true] at hd
                    subst hd
                    exact Prod.ext hq.symm h
              · rw [hst]
                constructor
                · exact .inl
                · rintro (h | ⟨_, d, hd, _⟩)
                  · exact h
                  · exact absurd hd (hne d)
            rw [hmem]
            constructor
            · rintro ((h | ⟨rfl, d, h, h'⟩) | ⟨h, h'⟩)
              · exact .inl h
              · exact .inr ⟨by simp, ha, d, by rw [hs, h], h'⟩
              · exact .inr ⟨by simp [h], h'⟩
            · rintro (h | ⟨h, h', d, h3, h4⟩)
              · exact .inl (.inl h)
              · rcases List.mem_cons.1 h with h | h
                · cases h
                  rw [hs] at h3
                  exact .inl (.inr ⟨rfl, d, Option.some.inj h3, h4⟩)
                · exact .inr ⟨h, h', d, h3, h4⟩
          · have hna : ¬ IsAdaption cfg tu n := fun h => hq h.2.2
            refine ⟨by simp [addDeclaration, hd, hs, hq, hna], fun a => ?_⟩
            rw [h2]
            simp only [addDeclaration, hd, hs, hq, Bool.not_true, Bool.false_eq_true, ↓reduceIte, List.mem_cons, Decl.record.injEq]
            constructor
            · rintro (h | ⟨h, h'⟩)
              · exact .inl h
              · exact .inr ⟨.inr h, h'⟩
            · rintro (h | ⟨rfl | h, h'⟩)
              · exact .inl h
              · exact absurd h'.1 hna
              · exact .inr ⟨h, h'⟩
      · have hna : ¬ IsAdaption cfg tu n := fun h => hd h.1
        refine ⟨by simp [addDeclaration, hd], fun a => ?_⟩
        rw [h2]
        simp only [addDeclaration, hd, Bool.not_false, ↓reduceIte, List.mem_cons, Decl.record.injEq]
        constructor
        · rintro (h | ⟨h, h'⟩)
          · exact .inl h
          · exact .inr ⟨.inr h, h'⟩
        · rintro (h | ⟨rfl | h, h'⟩)
          · exact .inl h
          · exact absurd h'.1 hna
          · exact .inr ⟨h, h'⟩

theorem mem_nodes {tu : TU} {n : Node} : n ∈ tu.nodes ↔ Decl.record n ∈ tu.decls := by
  simp only [TU.nodes, List.mem_filterMap]
  constructor
  · rintro ⟨d, hd, h⟩
    cases d with
    | record m => simp at h; exact h ▸ hd
    | other => simp at h
  · intro h; exact ⟨_, h, rfl⟩

theorem collect_records (cfg : Config) (tu : TU) : (collect cfg tu).records =
    tu.nodes.filter fun n => (tu.cls n.cls).hasDefinition && decide (¬ IsAdaption cfg tu n) := by
  exact (foldl_addDeclaration cfg tu tu.decls {}).1

theorem collect_adapted (cfg : Config) (tu : TU) (q : Str) :
    ((collect cfg tu).adaptions.any fun a => !a.2.onlyIncluded && a.1 == q) = true ↔ Adapted cfg tu q := by
  have h := (foldl_addDeclaration cfg tu tu.decls {}).2
  simp only [List.any_eq_true, Bool.and_eq_true, Bool.not_eq_true', beq_iff_eq]
  constructor
  · rintro ⟨a, ha, hi, rfl⟩
    rcases (h a).1 ha with h | ⟨h1, h2, d, h3, h4⟩
    · cases h
    · exact ⟨a.2, mem_nodes.2 h1, h2, hi, d, h3, h4⟩
  · rintro ⟨a, h1, h2, hi, d, h3, h4⟩
    exact ⟨(q, a), (h (q, a)).2 (.inr ⟨mem_nodes.1 h1, h2, d, h3, h4⟩), hi, rfl⟩

/-- base specifier recorded for a relevant class (used for the version) -/
noncomputable def relevantBaseOf (cfg : Config) (tu : TU) (c : ClassId) : Option BaseSpec :=
  if Adapted cfg tu (tu.cls c).qname then none
  else (tu.cls c).bases.find? fun b => decide (b.Serializable cfg tu)

theorem inherits_find (cfg : Config) (tu : TU) (bs : List BaseSpec) : inheritsFromInstantiationOf tu bs cfg.recordsName =
    bs.find? fun b => decide (b.Serializable cfg tu) := by
  unfold inheritsFromInstantiationOf
  congr 1; funext b
  cases hb : b.cls with
  | none => simp [BaseSpec.Serializable, hb]
  | some c => simp [BaseSpec.Serializable, hb]

theorem computeRelevant_spec (cfg : Config) (tu : TU) (n : Node) (hn : ¬ IsAdaption cfg tu n) :
    let r := computeRelevant cfg tu (collect cfg tu).adaptions { node := n }
    r.node = n ∧ (r.isRelevant = .yes ↔ Wanted cfg tu n) ∧ (r.isRelevant = .yes → r.relevantBase = relevantBaseOf cfg tu n.cls) := by
  intro r
  have hr : r = computeRelevant cfg tu (collect cfg tu).adaptions { node := n } := rfl
  clear_value r
  by_cases hc : n.complete = true
  · by_cases ha : Adapted cfg tu (tu.cls n.cls).qname
    · have ha' := (collect_adapted cfg tu _).2 ha
      simp only [computeRelevant, computeRelevantBase, hc, ha', Bool.not_true, Bool.false_eq_true, ↓reduceIte, ne_eq,
        reduceCtorEq, not_false_eq_true] at hr
      subst hr
      exact ⟨rfl, ⟨fun _ => ⟨hc, hn, .inl ha⟩, fun _ => rfl⟩, fun _ => by simp [relevantBaseOf, ha]⟩
    · have ha' : ¬ ((collect cfg tu).adaptions.any fun a => !a.2.onlyIncluded && a.1 == (tu.cls n.cls).qname) = true :=
        fun h => ha ((collect_adapted cfg tu _).1 h)
      by_cases hi : n.onlyIncluded = true
      · simp only [computeRelevant, computeRelevantBase, hc, ha', hi, Bool.not_true, Bool.false_eq_true, ↓reduceIte, ne_eq,
          reduceCtorEq, not_false_eq_true] at hr
        subst hr
        refine ⟨rfl, ⟨fun h => by simp at h, fun h => ?_⟩, fun h => by simp at h⟩
        rcases h.2.2 with h | h
        · exact absurd h ha
        · rw [hi] at h; simp at h
      · have hi' : n.onlyIncluded = false := by simpa using hi
        simp only [computeRelevant, computeRelevantBase, hc, ha', hi', Bool.not_true, Bool.false_eq_true, ↓reduceIte,
          inherits_find] at hr
        have hrb : relevantBaseOf cfg tu n.cls = (tu.cls n.cls).bases.find? fun b => decide (b.Serializable cfg tu) := by
          unfold relevantBaseOf; rw [if_neg ha]
        rw [hrb]
        cases hf : (tu.cls n.cls).bases.find? fun b => decide (b.Serializable cfg tu) with
        | some b =>
          rw [hf] at hr
          simp only [ne_eq, reduceCtorEq, not_false_eq_true, ↓reduceIte] at hr
          subst hr
          have hb := List.find?_some hf
          have hm := List.mem_of_find?_eq_some hf
          refine ⟨rfl, ⟨fun _ => ⟨hc, hn, .inr ⟨hi', .inl ⟨b, hm, by simpa using hb⟩⟩⟩, fun _ => rfl⟩, fun _ => rfl⟩
        | none =>
          rw [hf] at hr
          simp only [ne_eq, not_true_eq_false, ↓reduceIte] at hr
          have hno : ¬ InheritsSerializable cfg tu n.cls := by
            rintro ⟨b, hb, hd⟩
            exact List.find?_eq_none.1 hf b hb (by simpa using hd)
          cases had : cfg.additional with
          | none =>
            rw [had] at hr
            subst hr
            refine ⟨rfl, ⟨fun h => by simp at h, fun h => ?_⟩, fun h => by simp at h⟩
            rcases h.2.2 with h | ⟨_, h | ⟨names, h, _⟩⟩
            · exact absurd h ha
            · exact absurd h hno
            · rw [had] at h; cases h
          | some names =>
            rw [had] at hr
            simp only at hr
            by_cases hm : (tu.cls n.cls).qname ∈ names
            · rw [if_pos (by simpa using hm)] at hr
              subst hr
              exact ⟨rfl, ⟨fun _ => ⟨hc, hn, .inr ⟨hi', .inr ⟨names, had, hm⟩⟩⟩, fun _ => rfl⟩, fun _ => rfl⟩
            · rw [if_neg (by simpa using hm)] at hr
              subst hr
              refine ⟨rfl, ⟨fun h => by simp at h, fun h => ?_⟩, fun h => by simp at h⟩
              rcases h.2.2 with h | ⟨_, h | ⟨names', h, h'⟩⟩
              · exact absurd h ha
              · exact absurd h hno
              · rw [had] at h; cases h; exact absurd h' hm
  · simp only [computeRelevant, computeRelevantBase, hc, Bool.not_false, ↓reduceIte, ne_eq, reduceCtorEq,
      not_false_eq_true] at hr
    subst hr
    exact ⟨rfl, ⟨fun h => by simp at h, fun h => absurd h.1 hc⟩, fun h => by simp at h⟩

/-- the entry of the list of relevant classes for a declaration -/
noncomputable def entry (cfg : Config) (tu : TU) (n : Node) : Relevant :=
  { node := n, isRelevant := .yes, relevantBase := relevantBaseOf cfg tu n.cls }

theorem findRelevantClasses_eq (cfg : Config) (tu : TU) (wf : tu.WellFormed) :
    findRelevantClasses cfg tu = (wanted cfg tu).map (entry cfg tu) := by
  unfold findRelevantClasses wanted
  simp only
  rw [collect_records]
  have hd := wf.defined
  revert hd
  generalize tu.nodes = ns
  intro hd
  induction ns with
  | nil => rfl
  | cons n ns ih =>
    have ih := ih fun m hm => hd m (List.mem_cons_of_mem _ hm)
    by_cases hn : IsAdaption cfg tu n
    · have hw : ¬ Wanted cfg tu n := fun h => h.2.1 hn
      rw [List.filter_cons_of_neg (by simp [hn]), List.filter_cons_of_neg (by simp [hw])]
      exact ih
    · obtain ⟨h1, h2, h3⟩ := computeRelevant_spec cfg tu n hn
      by_cases hw : Wanted cfg tu n
      · rw [List.filter_cons_of_pos (by simp [hn, hd n (by simp) hw.1]), List.filter_cons_of_pos (by simp [hw]),
          List.filterMap_cons_some (b := entry cfg tu n), List.map_cons, ih]
        have hy := h2.2 hw
        rw [if_neg (by simpa using hy)]
        congr 1
        show computeRelevant _ _ _ _ = _
        revert h1 hy h3
        generalize computeRelevant cfg tu (collect cfg tu).adaptions { node := n } = r
        intro h1 h3 hy
        obtain ⟨a, b, c⟩ := r
        simp only at h1 hy h3
        subst h1 hy
        simp [entry, h3]
      · have hy : ¬ _ = IsRelevant.yes := fun h => hw (h2.1 h)
        rw [List.filter_cons_of_neg (a := n) (p := fun n => decide (Wanted cfg tu n)) (by simp [hw])]
        by_cases hdef : (tu.cls n.cls).hasDefinition = true
        · rw [List.filter_cons_of_pos (by simp [hn, hdef]), List.filterMap_cons_none]
          · exact ih
          · rw [if_pos hy]
        · rw [List.filter_cons_of_neg (by simp [hdef])]; exact ih

/-! ## Bases -/

theorem derivedN_iff (tu : TU) (wf : tu.WellFormed) (n c d : Nat) (hn : c ≤ n) :
    derivedN tu n c d = true ↔ tu.Derived c d := by
  induction n generalizing c with
  | zero =>
    have : c = 0 := by omega
    subst this
    simp only [derivedN, Bool.false_eq_true, false_iff]
    intro h
    have : ∃ e, tu.DirectBase 0 e := by
      rcases Relation.TransGen.head'_iff.1 h with ⟨e, h, _⟩
      exact ⟨e, h⟩
    obtain ⟨e, b, hb, he⟩ := this
    exact absurd (wf.basesFirst 0 b hb e he) (by omega)
  | succ n ih =>
    simp only [derivedN, List.any_eq_true]
    constructor
    · rintro ⟨b, hb, h⟩
      cases hc : b.cls with
      | none => rw [hc] at h; cases h
      | some e =>
        rw [hc] at h
        simp only [Bool.or_eq_true, beq_iff_eq] at h
        have hlt := wf.basesFirst c b hb e hc
        rcases h with rfl | h
        · exact .single ⟨b, hb, hc⟩
        · exact .head ⟨b, hb, hc⟩ ((ih e (by omega)).1 h)
    · intro h
      rcases Relation.TransGen.head'_iff.1 h with ⟨e, ⟨b, hb, hc⟩, h'⟩
      have hlt := wf.basesFirst c b hb e hc
      refine ⟨b, hb, ?_⟩
      rw [hc]
      simp only [Bool.or_eq_true, beq_iff_eq]
      rcases Relation.reflTransGen_iff_eq_or_transGen.1 h' with h' | h'
      · exact .inl h'.symm
      · exact .inr ((ih e (by omega)).2 h')

theorem isDerivedFrom_iff (tu : TU) (wf : tu.WellFormed) (c d : ClassId) : isDerivedFrom tu c d = true ↔ tu.Derived c d :=
  derivedN_iff tu wf c c d (Nat.le_refl _)

theorem derived_lt (tu : TU) (wf : tu.WellFormed) {c d : Nat} (h : tu.Derived c d) : d < c := by
  unfold TU.Derived at h
  induction h with
  | single h => obtain ⟨b, hb, h⟩ := h; exact wf.basesFirst _ b hb _ h
  | tail _ h ih => obtain ⟨b, hb, h⟩ := h; exact Nat.lt_trans (wf.basesFirst _ b hb _ h) ih

theorem findBases_eq (cfg : Config) (tu : TU) (wf : tu.WellFormed) (r : Relevant) :
    ((findRelevantBaseClasses tu r (findRelevantClasses cfg tu)).map fun b => (tu.cls b.node.cls).qname)
      = wantedBases cfg tu r.node.cls := by
  rw [findRelevantClasses_eq cfg tu wf]
  unfold findRelevantBaseClasses wantedBases
  rw [List.filter_map, List.map_map]
  congr 1
  apply List.filter_congr
  intro n _
  simp only [Function.comp, entry]
  by_cases h : tu.Derived r.node.cls n.cls
  · have := derived_lt tu wf h
    simp [(isDerivedFrom_iff tu wf _ _).2 h, h]
    exact fun he => absurd this (he ▸ Nat.lt_irrefl _)
  · have : isDerivedFrom tu r.node.cls n.cls = false := by
      cases hb : isDerivedFrom tu r.node.cls n.cls
      · rfl
      · exact absurd ((isDerivedFrom_iff tu wf _ _).1 hb) h
    simp [this, h]

end Verif.Gen
