import Verif.Spec.CMake

/-!
# Lemmas about lists, generator expressions and arguments
-/

namespace Verif.CMake
open Verif.Cli (Parts semicolon parts_split intercalate_cons)

theorem items_elements (v : Str) : Items v (elements v) := by
  refine ⟨_, parts_split v, ?_⟩
  unfold elements
  apply List.filter_congr
  intro p _
  cases p <;> simp

theorem Items.unique {v : Str} {l l' : List Str} (h : Items v l) (h' : Items v l') : l = l' := by
  obtain ⟨ps, h1, rfl⟩ := h
  obtain ⟨qs, h2, rfl⟩ := h'
  rw [h1.unique h2]

theorem Items.eq {v : Str} {l : List Str} (h : Items v l) : elements v = l := (items_elements v).unique h

theorem Items.element {v : Str} {l : List Str} (h : Items v l) {x : Str} (hx : x ∈ l) : Element x := by
  obtain ⟨ps, h1, rfl⟩ := h
  rw [List.mem_filter] at hx
  exact ⟨by simpa using hx.2, h1.2.2 x hx.1⟩

theorem elements_element {v x : Str} (hx : x ∈ elements v) : Element x := (items_elements v).element hx

theorem items_joined {l : List Str} (h : ∀ x ∈ l, Element x) : Items (List.intercalate [semicolon] l) l := by
  cases l with
  | nil => exact ⟨[[]], ⟨by simp, by simp [List.intercalate], by simp⟩, by simp⟩
  | cons x xs =>
    refine ⟨x :: xs, ⟨by simp, rfl, fun p hp => (h p hp).2⟩, ?_⟩
    symm
    rw [List.filter_eq_self]
    intro p hp
    simpa using (h p hp).1

theorem elements_joined {l : List Str} (h : ∀ x ∈ l, Element x) : elements (joinWith [semicolon] l) = l := (items_joined h).eq

theorem elements_self {x : Str} (h : Element x) : elements x = [x] := by
  have := elements_joined (l := [x]) (by simpa using h)
  simpa [joinWith, List.intercalate] using this

theorem join_prefix (pre : Str) (l : List Str) (h : l ≠ []) :
    pre ++ joinWith ([semicolon] ++ pre) l = joinWith [semicolon] (l.map (pre ++ ·)) := by
  induction l with
  | nil => exact absurd rfl h
  | cons x xs ih =>
    cases xs with
    | nil => simp [joinWith, List.intercalate]
    | cons y ys =>
      have := ih (by simp)
      unfold joinWith at this ⊢
      rw [intercalate_cons _ x (y :: ys) (by simp), List.map_cons, intercalate_cons _ (pre ++ x) (List.map (pre ++ ·) (y :: ys)) (by simp), ← this]
      simp [List.append_assoc]

/-! ## Lists counting as false -/

theorem suffix_sep {s a b : Str} (hs : semicolon ∉ s) : s <:+ a ++ semicolon :: b ↔ s <:+ b := by
  constructor
  · intro h
    have hb : b <:+ a ++ semicolon :: b := ⟨a ++ [semicolon], by simp⟩
    rcases List.suffix_or_suffix_of_suffix h hb with h' | h'
    · exact h'
    · have h1 : (semicolon :: b) <:+ a ++ semicolon :: b := ⟨a, rfl⟩
      rcases List.suffix_or_suffix_of_suffix h h1 with h2 | h2
      · rw [List.suffix_cons_iff] at h2
        rcases h2 with rfl | h2
        · exact absurd List.mem_cons_self hs
        · exact h2
      · exact absurd (h2.subset List.mem_cons_self) hs
  · intro h
    exact h.trans ⟨a ++ [semicolon], by simp⟩

theorem notfound_joined {l : List Str} (h : l ≠ []) :
    lit "-NOTFOUND" <:+ joinWith [semicolon] l ↔ ∃ l' x, l = l' ++ [x] ∧ lit "-NOTFOUND" <:+ x := by
  induction l with
  | nil => exact absurd rfl h
  | cons x xs ih =>
    cases xs with
    | nil =>
      constructor
      · intro h'
        exact ⟨[], x, rfl, by simpa [joinWith, List.intercalate] using h'⟩
      · rintro ⟨l', y, he, hy⟩
        cases l' with
        | nil =>
          simp only [List.nil_append, List.cons.injEq, and_true] at he
          subst he
          simpa [joinWith, List.intercalate] using hy
        | cons z zs => simp at he
    | cons y ys =>
      have ih := ih (by simp)
      unfold joinWith at ih ⊢
      rw [intercalate_cons _ _ _ (by simp), List.append_assoc, List.singleton_append, suffix_sep (by decide), ih]
      constructor
      · rintro ⟨l', z, he, hz⟩
        exact ⟨x :: l', z, by rw [he]; rfl, hz⟩
      · rintro ⟨l', z, he, hz⟩
        cases l' with
        | nil => simp at he
        | cons w ws =>
          simp only [List.cons_append, List.cons.injEq] at he
          exact ⟨ws, z, he.2, hz⟩

theorem upper_eq_nil {x : Str} : upper x = [] ↔ x = [] := by simp [upper]

theorem upper_sep {x : Str} (h : semicolon ∈ x) : semicolon ∈ upper x := by
  unfold upper
  rw [List.mem_map]
  exact ⟨semicolon, h, by decide⟩

theorem isOff_iff (v : Str) : isOff v = true ↔ v = [] ∨ FalseConstant v := by
  unfold isOff FalseConstant offConstants
  rw [Bool.or_eq_true, List.contains_iff_mem, List.isSuffixOf_iff_suffix, List.mem_cons, upper_eq_nil, or_assoc]

theorem sep_mem_joined (x y : Str) (l : List Str) : semicolon ∈ joinWith [semicolon] (x :: y :: l) := by
  unfold joinWith
  rw [intercalate_cons _ _ _ (by simp)]
  simp

theorem isOff_joined {l : List Str} (h : ∀ x ∈ l, Element x) : isOff (joinWith [semicolon] l) = true ↔ Off l := by
  rw [isOff_iff]
  cases l with
  | nil => simp [joinWith, List.intercalate, Off.empty]
  | cons x xs =>
    cases xs with
    | nil =>
      have hx := h x List.mem_cons_self
      have e : joinWith [semicolon] [x] = x := by simp [joinWith, List.intercalate]
      rw [e]
      constructor
      · rintro (h' | h')
        · exact absurd h' hx.1
        · exact .one h'
      · intro h'
        right
        generalize hl : [x] = l at h'
        cases h' with
        | empty => cases hl
        | one h' => cases hl; exact h'
        | @last l y h' =>
          cases l with
          | nil => simp at hl; subst hl; exact .inr h'
          | cons z zs => simp at hl
    | cons y ys =>
      have hsep := sep_mem_joined x y ys
      constructor
      · rintro (h' | h' | h')
        · rw [h'] at hsep; cases hsep
        · have := upper_sep hsep
          simp only [List.mem_cons, List.not_mem_nil, or_false] at h'
          rcases h' with h' | h' | h' | h' | h' | h' | h' <;> rw [h'] at this <;> exact absurd this (by decide)
        · obtain ⟨l', z, he, hz⟩ := (notfound_joined (by simp)).1 h'
          rw [he]
          exact .last hz
      · intro h'
        right
        right
        rw [notfound_joined (by simp)]
        generalize hl : x :: y :: ys = l at h'
        cases h' with
        | empty => cases hl
        | one h' => cases hl
        | @last l z h' => exact ⟨l, z, rfl, h'⟩

/-! ## Generator expressions -/

theorem eval_setProp (props : Str → Str → Str) (t n : Str) :
    (setProp t n).eval props = joinWith [semicolon] (elements (props t n)) := rfl

theorem eval_propOption (props : Str → Str → Str) (pre t n : Str) :
    (propOption pre t n).eval props =
      if isOff (joinWith [semicolon] (elements (props t n))) then [] else pre ++ joinWith ([semicolon] ++ pre) (elements (props t n)) := by
  have : elements (joinWith [semicolon] (elements (props t n))) = elements (props t n) := elements_joined fun x hx => elements_element hx
  simp only [propOption, GenEx.eval, eval_setProp, this]
  rfl

/-- what is left of a property after splitting at semicolons again -/
theorem elements_propOption {props : Str → Str → Str} {pre t n : Str} (hpre : semicolon ∉ pre) {l r : List Str} (hl : Items (props t n) l)
    (hr : Contributes pre l r) : elements ((propOption pre t n).eval props) = r := by
  rw [eval_propOption, hl.eq]
  rcases hr with ⟨h, rfl⟩ | ⟨h, rfl⟩
  · rw [if_pos ((isOff_joined fun x hx => hl.element hx).2 h)]
    decide
  · rw [if_neg (fun h' => h ((isOff_joined fun x hx => hl.element hx).1 h'))]
    have hne : l ≠ [] := by
      rintro rfl
      exact h .empty
    rw [join_prefix _ _ hne]
    refine elements_joined fun x hx => ?_
    obtain ⟨y, hy, rfl⟩ := List.mem_map.1 hx
    have := hl.element hy
    exact ⟨by simp [this.1], by simp [hpre, this.2]⟩

theorem Contributes.exists (pre : Str) (l : List Str) : ∃ r, Contributes pre l r := by
  by_cases h : Off l
  · exact ⟨_, .inl ⟨h, rfl⟩⟩
  · exact ⟨_, .inr ⟨h, rfl⟩⟩

/-! ## Arguments of the function -/

theorem keyword_cases {k : Str} (h : k ∈ keywords) :
    (k ∈ optionKeywords) ∨ (k ∉ optionKeywords ∧ k ∈ singleKeywords) ∨ (k ∉ optionKeywords ∧ k ∉ singleKeywords ∧ k ∈ multiKeywords) := by
  by_cases h1 : k ∈ optionKeywords
  · exact .inl h1
  · by_cases h2 : k ∈ singleKeywords
    · exact .inr (.inl ⟨h1, h2⟩)
    · refine .inr (.inr ⟨h1, h2, ?_⟩)
      simp only [keywords, List.mem_append] at h
      rcases h with (h | h) | h
      · exact absurd h h1
      · exact absurd h h2
      · exact h

theorem parseLoop_value {a : Str} (h : a ∉ keywords) (cur : Current) (p : Parsed) (as : List Str) :
    parseLoop cur p (a :: as) = match cur with
      | .nothing => parseLoop .nothing p as
      | .single k => parseLoop .nothing { p with single := fun k' => if k' = k then a else p.single k' } as
      | .multi k => parseLoop cur { p with multi := fun k' => if k' = k then p.multi k ++ [a] else p.multi k' } as := by
  simp only [keywords, List.mem_append, not_or] at h
  rw [parseLoop.eq_def]
  dsimp only
  rw [if_neg (by simpa using h.1.1), if_neg (by simpa using h.1.2), if_neg (by simpa using h.2)]
  cases cur <;> rfl

theorem parseLoop_nothing {vs : List Str} (h : ∀ v ∈ vs, v ∉ keywords) (p : Parsed) (as : List Str) :
    parseLoop .nothing p (vs ++ as) = parseLoop .nothing p as := by
  induction vs with
  | nil => rfl
  | cons v vs ih =>
    rw [List.cons_append, parseLoop_value (h v List.mem_cons_self)]
    exact ih fun v hv => h v (List.mem_cons_of_mem _ hv)

theorem parseLoop_multi {vs : List Str} (h : ∀ v ∈ vs, v ∉ keywords) (k : Str) (p : Parsed) (as : List Str) :
    parseLoop (.multi k) p (vs ++ as) =
      parseLoop (.multi k) { p with multi := fun k' => if k' = k then p.multi k ++ vs else p.multi k' } as := by
  induction vs generalizing p with
  | nil =>
    congr 1
    cases p
    simp only [Parsed.mk.injEq, true_and]
    funext k'
    by_cases hk : k' = k <;> simp [hk]
  | cons v vs ih =>
    rw [List.cons_append, parseLoop_value (h v List.mem_cons_self)]
    dsimp only
    rw [ih fun v hv => h v (List.mem_cons_of_mem _ hv)]
    congr 1
    simp only [Parsed.mk.injEq, true_and]
    funext k'
    by_cases hk : k' = k <;> simp [hk]

/-- keywords come next -/
def AtKeyword (as : List Str) : Prop := as = [] ∨ ∃ k r, as = k :: r ∧ k ∈ keywords

theorem parseLoop_cur {as : List Str} (h : AtKeyword as) (cur cur' : Current) (p : Parsed) : parseLoop cur p as = parseLoop cur' p as := by
  rcases h with rfl | ⟨k, r, rfl, hk⟩
  · rfl
  · rcases keyword_cases hk with h1 | ⟨h1, h2⟩ | ⟨h1, h2, h3⟩
    · simp [parseLoop, h1]
    · simp [parseLoop, h1, h2]
    · simp [parseLoop, h1, h2, h3]

theorem atKeyword_sections {ss : List Section} (h : ∀ s ∈ ss, s.WellFormed) : AtKeyword (ss.flatMap fun s => s.keyword :: s.values) := by
  cases ss with
  | nil => exact .inl rfl
  | cons s ss => exact .inr ⟨s.keyword, _, rfl, (h s List.mem_cons_self).1⟩

/-- what one section does -/
def applySection (p : Parsed) (s : Section) : Parsed :=
  if s.keyword ∈ optionKeywords then { p with options := s.keyword :: p.options }
  else if s.keyword ∈ singleKeywords then
    match s.values with
    | [] => p
    | v :: _ => { p with single := fun k' => if k' = s.keyword then v else p.single k' }
  else { p with multi := fun k' => if k' = s.keyword then p.multi s.keyword ++ s.values else p.multi k' }

theorem parseLoop_section {s : Section} (hs : s.WellFormed) {as : List Str} (ha : AtKeyword as) (p : Parsed) :
    parseLoop .nothing p (s.keyword :: s.values ++ as) = parseLoop .nothing (applySection p s) as := by
  unfold applySection
  rcases keyword_cases hs.1 with h1 | ⟨h1, h2⟩ | ⟨h1, h2, h3⟩
  · rw [if_pos h1, List.cons_append, parseLoop, if_pos (by simpa using h1), parseLoop_nothing hs.2]
  · rw [if_neg h1, if_pos h2, List.cons_append, parseLoop, if_neg (by simpa using h1), if_pos (by simpa using h2)]
    cases hv : s.values with
    | nil => exact parseLoop_cur ha _ _ _
    | cons v vs =>
      have hw := hs.2
      rw [hv] at hw
      rw [List.cons_append, parseLoop_value (hw v List.mem_cons_self)]
      exact parseLoop_nothing (fun v h => hw v (List.mem_cons_of_mem _ h)) _ _
  · rw [if_neg h1, if_neg h2, List.cons_append, parseLoop, if_neg (by simpa using h1), if_neg (by simpa using h2), if_pos (by simpa using h3),
      parseLoop_multi hs.2]
    exact parseLoop_cur ha _ _ _

theorem parse_sections (ss : List Section) (h : ∀ s ∈ ss, s.WellFormed) (p : Parsed) :
    parseLoop .nothing p (ss.flatMap fun s => s.keyword :: s.values) = ss.foldl applySection p := by
  induction ss generalizing p with
  | nil => rfl
  | cons s ss ih =>
    have hss : ∀ s ∈ ss, s.WellFormed := fun s hs => h s (List.mem_cons_of_mem _ hs)
    rw [List.flatMap_cons, parseLoop_section (h s List.mem_cons_self) (atKeyword_sections hss), ih hss]
    rfl

/-! ## Arguments of the tool -/

theorem valuesOf_eq {name : Str} {A vals rest : List Str} (hA : name ∉ A) (hv : ∀ v ∈ vals, v ∉ cliOptions)
    (hr : rest = [] ∨ ∃ o r, rest = o :: r ∧ o ∈ cliOptions) : valuesOf name (A ++ name :: (vals ++ rest)) = some vals := by
  unfold valuesOf
  have h1 : (A ++ name :: (vals ++ rest)).dropWhile (· != name) = name :: (vals ++ rest) := by
    rw [List.dropWhile_append_of_pos]
    · simp [List.dropWhile]
    · intro a ha
      simp only [bne_iff_ne, ne_eq]
      rintro rfl
      exact hA ha
  rw [h1]
  dsimp only
  rw [List.takeWhile_append_of_pos (by simpa using hv)]
  rcases hr with rfl | ⟨o, r, rfl, ho⟩
  · simp
  · simp [List.takeWhile, ho]

theorem valuesOf_none {name : Str} {A : List Str} (hA : name ∉ A) : valuesOf name A = none := by
  unfold valuesOf
  have : A.dropWhile (· != name) = [] := by
    induction A with
    | nil => rfl
    | cons a A ih =>
      have h1 : a ≠ name := by
        rintro rfl
        exact hA List.mem_cons_self
      rw [List.dropWhile_cons, if_pos (by simpa using h1)]
      exact ih fun h => hA (List.mem_cons_of_mem _ h)
  rw [this]

end Verif.CMake
