import Verif.Lemmas.GenCode

/-!
# Code generator: version conditions of the binary generator
-/

namespace Verif.Gen

open Classical

/-! ## Bounds in effect -/

theorem append_eq_append_singleton {α} {ms before after : List α} {x m : α} (h : ms ++ [m] = before ++ x :: after) :
    (after = [] ∧ ms = before ∧ m = x) ∨ (∃ after', after = after' ++ [m] ∧ ms = before ++ x :: after') := by
  rcases List.eq_nil_or_concat after with rfl | ⟨after', y, rfl⟩
  · have := List.append_inj' h rfl
    exact .inl ⟨rfl, this.1, by simpa using this.2⟩
  · right
    have h' : ms ++ [m] = (before ++ x :: after') ++ [y] := by simpa [List.concat_eq_append] using h
    have := List.append_inj' h' rfl
    have hy : m = y := by simpa using this.2
    exact ⟨after', by simp [List.concat_eq_append, hy], this.1⟩

theorem lower_asOf (ms : List Marker) (a b : Nat) : LowerBound (ms ++ [.asOf b]) a ↔ a = b := by
  constructor
  · rintro ⟨before, after, h, h'⟩
    rcases append_eq_append_singleton h with ⟨_, _, hm⟩ | ⟨after', rfl, _⟩
    · cases hm; rfl
    · exact absurd rfl ((h' (.asOf b) (by simp)).1 b)
  · rintro rfl
    exact ⟨ms, [], rfl, by simp⟩

theorem lower_until (ms : List Marker) (a u : Nat) : LowerBound (ms ++ [.untilV u]) a ↔ LowerBound ms a ∧ a ≤ u := by
  constructor
  · rintro ⟨before, after, h, h'⟩
    rcases append_eq_append_singleton h with ⟨_, _, hm⟩ | ⟨after', rfl, hms⟩
    · cases hm
    · exact ⟨⟨before, after', hms, fun m hm => h' m (by simp [hm])⟩, (h' (.untilV u) (by simp)).2 u rfl⟩
  · rintro ⟨⟨before, after, rfl, h⟩, hu⟩
    refine ⟨before, after ++ [.untilV u], by simp, fun m hm => ?_⟩
    rcases List.mem_append.1 hm with hm | hm
    · exact h m hm
    · simp only [List.mem_singleton] at hm; subst hm
      exact ⟨fun b => by simp, fun u' h => by cases h; exact hu⟩

theorem upper_until (ms : List Marker) (u b : Nat) : UpperBound (ms ++ [.untilV b]) u ↔ u = b := by
  constructor
  · rintro ⟨before, after, h, h'⟩
    rcases append_eq_append_singleton h with ⟨_, _, hm⟩ | ⟨after', rfl, _⟩
    · cases hm; rfl
    · exact absurd rfl ((h' (.untilV b) (by simp)).1 b)
  · rintro rfl
    exact ⟨ms, [], rfl, by simp⟩

theorem upper_asOf (ms : List Marker) (u a : Nat) : UpperBound (ms ++ [.asOf a]) u ↔ UpperBound ms u ∧ a ≤ u := by
  constructor
  · rintro ⟨before, after, h, h'⟩
    rcases append_eq_append_singleton h with ⟨_, _, hm⟩ | ⟨after', rfl, hms⟩
    · cases hm
    · exact ⟨⟨before, after', hms, fun m hm => h' m (by simp [hm])⟩, (h' (.asOf a) (by simp)).2 a rfl⟩
  · rintro ⟨⟨before, after, rfl, h⟩, hu⟩
    refine ⟨before, after ++ [.asOf a], by simp, fun m hm => ?_⟩
    rcases List.mem_append.1 hm with hm | hm
    · exact h m hm
    · simp only [List.mem_singleton] at hm; subst hm
      exact ⟨fun b => by simp, fun a' h => by cases h; exact hu⟩

/-- the guard in effect after some markers -/
structure InEffect (ms : List Marker) (g : Guard) : Prop where
  lower : ∀ a, a ≠ 0 → (g.asOf = a ↔ LowerBound ms a)
  upper : ∀ u, u ≠ 0 → (g.untilV = u ↔ UpperBound ms u)

theorem InEffect.nil : InEffect [] ⟨0, 0⟩ := by
  constructor
  · intro a ha
    constructor
    · intro h; exact absurd h.symm ha
    · rintro ⟨_, _, h, _⟩; simp at h
  · intro a ha
    constructor
    · intro h; exact absurd h.symm ha
    · rintro ⟨_, _, h, _⟩; simp at h

theorem InEffect.asOf {ms g} (h : InEffect ms g) (v : Nat) :
    InEffect (ms ++ [.asOf v]) ⟨v, if v > g.untilV then 0 else g.untilV⟩ := by
  constructor
  · intro a _
    rw [lower_asOf]; exact eq_comm
  · intro u hu
    rw [upper_asOf, ← h.upper u hu]
    simp only
    split
    · constructor
      · intro h; exact absurd h.symm hu
      · rintro ⟨rfl, h⟩; omega
    · constructor
      · intro h; subst h; exact ⟨rfl, by omega⟩
      · rintro ⟨rfl, _⟩; rfl

theorem InEffect.untilV {ms g} (h : InEffect ms g) (v : Nat) :
    InEffect (ms ++ [.untilV v]) ⟨if v < g.asOf then 0 else g.asOf, v⟩ := by
  constructor
  · intro a ha
    rw [lower_until, ← h.lower a ha]
    simp only
    split
    · constructor
      · intro h; exact absurd h.symm ha
      · rintro ⟨rfl, h⟩; omega
    · constructor
      · intro h; subst h; exact ⟨rfl, by omega⟩
      · rintro ⟨rfl, _⟩; rfl
  · intro a _
    rw [upper_until]; exact eq_comm

theorem InEffect.holds {ms g} (h : InEffect ms g) (v : Nat) : g.holds v = true ↔ InVersion ms v := by
  unfold Guard.holds InVersion
  simp only [Bool.and_eq_true, Bool.or_eq_true, beq_iff_eq, decide_eq_true_eq]
  constructor
  · rintro ⟨h1, h2⟩
    refine ⟨fun a ha => ?_, fun u hu hu0 => ?_⟩
    · by_cases h0 : a = 0
      · omega
      · have := (h.lower a h0).2 ha; omega
    · have := (h.upper u hu0).2 hu; omega
  · rintro ⟨h1, h2⟩
    constructor
    · by_cases h0 : g.asOf = 0
      · exact .inl h0
      · exact .inr (h1 _ ((h.lower _ h0).1 rfl))
    · by_cases h0 : g.untilV = 0
      · exact .inl h0
      · exact .inr (h2 _ ((h.upper _ h0).1 rfl) h0)

/-! ## The loops over the declarations of a class -/

/-- the guard in effect given by the tracking state -/
def Tracking.guard (mt : Tracking) : Guard := ⟨mt.asOf, mt.untilV⟩

/-- the markers of one declaration -/
theorem markers_snoc (pre : List Member) (m : Member) : markers (pre ++ [m]) = markers pre ++ markers [m] := by
  simp [markers]

theorem isPrefixOf_iff (s p : Str) : startsWith s p = true ↔ p <+: s := by
  simp [startsWith]

theorem marker_inEffect {pre : List Member} {mt : Tracking} (h : InEffect (markers pre) mt.guard) (name : Str) (ls : List Nat) :
    InEffect (markers (pre ++ [.var name ls])) (checkForVersionMarker mt name ls).guard := by
  rw [markers_snoc]
  have hm : markers [.var name ls] = (match retrieveLiteral ls with
      | some v => if lit "rrjAsOfVersion" <+: name then [.asOf v] else if lit "rrjUntilVersion" <+: name then [.untilV v] else []
      | none => []) := by
    unfold markers retrieveLiteral
    simp only [List.filterMap_cons, List.filterMap_nil]
    cases ls.find? fun n => n < 2 ^ 64 with
    | none => rfl
    | some v =>
      simp only
      by_cases h1 : lit "rrjAsOfVersion" <+: name
      · simp only [if_pos h1]
      · by_cases h2 : lit "rrjUntilVersion" <+: name
        · simp only [if_neg h1, if_pos h2]
        · simp only [if_neg h1, if_neg h2]
  rw [hm]
  unfold checkForVersionMarker
  simp only
  cases retrieveLiteral ls with
  | none => simp only [ite_self, List.append_nil]; exact h
  | some v =>
    simp only
    by_cases ha : lit "rrjAsOfVersion" <+: name
    · rw [if_pos ha]
      rw [if_pos (by rw [(isPrefixOf_iff _ _).2 ha]; rfl), if_pos ((isPrefixOf_iff _ _).2 ha)]
      have := h.asOf v
      by_cases hv : v > mt.untilV
      · rw [if_pos hv]; rw [if_pos (show v > mt.guard.untilV from hv)] at this; exact this
      · rw [if_neg hv]; rw [if_neg (show ¬ v > mt.guard.untilV from hv)] at this; exact this
    · have ha' : ¬ startsWith name (lit "rrjAsOfVersion") = true := fun h => ha ((isPrefixOf_iff _ _).1 h)
      rw [if_neg ha]
      by_cases hu : lit "rrjUntilVersion" <+: name
      · rw [if_pos hu, if_pos (by rw [(isPrefixOf_iff _ _).2 hu, Bool.or_true]), if_neg ha']
        have := h.untilV v
        by_cases hv : v < mt.asOf
        · rw [if_pos hv]; rw [if_pos (show v < mt.guard.asOf from hv)] at this; exact this
        · rw [if_neg hv]; rw [if_neg (show ¬ v < mt.guard.asOf from hv)] at this; exact this
      · have hu' : ¬ startsWith name (lit "rrjUntilVersion") = true := fun h => hu ((isPrefixOf_iff _ _).1 h)
        rw [if_neg hu, if_neg (by simp [ha', hu']), List.append_nil]
        exact h

/-- the declarations with the guard in effect -/
def guarded (p : FieldD → Bool) : Tracking → List Member → List (Guard × FieldD)
  | _, [] => []
  | mt, .var name ls :: ms => guarded p (checkForVersionMarker mt name ls) ms
  | mt, .other :: ms => guarded p mt ms
  | mt, .field f :: ms => if p f then (mt.guard, f) :: guarded p mt ms else guarded p mt ms

theorem checkForVersionMarker_congr {mt mt' : Tracking} (h : mt.guard = mt'.guard) (name : Str) (ls : List Nat) :
    (checkForVersionMarker mt name ls).guard = (checkForVersionMarker mt' name ls).guard := by
  obtain ⟨h1, h2⟩ : mt.asOf = mt'.asOf ∧ mt.untilV = mt'.untilV := by
    simpa [Tracking.guard] using h
  unfold checkForVersionMarker
  simp only
  split
  · cases retrieveLiteral ls with
    | none => exact h
    | some v =>
      simp only
      split
      · rw [h2]; split
        · rfl
        · simp [Tracking.guard]
      · rw [h1]; split
        · rfl
        · simp [Tracking.guard]
  · exact h

theorem guarded_congr (p : FieldD → Bool) (ms : List Member) : ∀ {mt mt' : Tracking}, mt.guard = mt'.guard →
    guarded p mt ms = guarded p mt' ms := by
  induction ms with
  | nil => intros; rfl
  | cons m ms ih =>
    intro mt mt' h
    cases m with
    | field f => simp only [guarded, h, ih h]
    | var name ls => exact ih (checkForVersionMarker_congr h name ls)
    | other => exact ih h

theorem guarded_scan (p : FieldD → Bool) (v : Nat) (ms : List Member) : ∀ (pre : List Member) (mt : Tracking),
    InEffect (markers pre) mt.guard →
    ((guarded p mt ms).filter fun gf => gf.1.holds v).map (fun gf => gf.2.name)
      = scan (pick fun pre f => p f = true ∧ InVersion (markers pre) v) pre ms := by
  induction ms with
  | nil => intros; rfl
  | cons m ms ih =>
    intro pre mt h
    have hkeep : markers [m] = [] → InEffect (markers (pre ++ [m])) mt.guard := by
      intro hm; rw [markers_snoc, hm, List.append_nil]; exact h
    cases m with
    | var name ls =>
      rw [guarded, scan, ih _ _ (marker_inEffect h name ls)]; simp [pick]
    | other =>
      rw [guarded, scan, ih _ _ (hkeep rfl)]; simp [pick]
    | field f =>
      rw [guarded, scan, ← ih _ _ (hkeep rfl)]
      have hh := h.holds v
      by_cases hp : p f = true
      · by_cases hv : mt.guard.holds v = true
        · simp [pick, hp, hv, hh.1 hv]
        · simp [pick, hp, hv, mt_inv hh hv]
      · simp [pick, hp]
where
  mt_inv {a : Bool} {P : Prop} (h : a = true ↔ P) (hv : ¬ a = true) : ¬ P := fun hp => hv (h.2 hp)

/-- the condition which is open in a tracking state -/
def Tracking.cur (mt : Tracking) : Option Guard := if mt.withinCondition then some ⟨mt.lastAsOf, mt.lastUntil⟩ else none

/-- a condition is open iff it is one -/
def Tracking.Ok (mt : Tracking) : Prop := mt.withinCondition = decide (mt.lastAsOf ≠ 0 ∨ mt.lastUntil ≠ 0)

theorem check_cond (mt : Tracking) (name : Str) (ls : List Nat) :
    (checkForVersionMarker mt name ls).cur = mt.cur ∧ ((checkForVersionMarker mt name ls).Ok ↔ mt.Ok) ∧
      (checkForVersionMarker mt name ls).membersWritten = mt.membersWritten := by
  unfold checkForVersionMarker
  simp only
  split
  · cases retrieveLiteral ls with
    | none => exact ⟨rfl, Iff.rfl, rfl⟩
    | some v =>
      simp only
      split
      · split <;> exact ⟨rfl, Iff.rfl, rfl⟩
      · split <;> exact ⟨rfl, Iff.rfl, rfl⟩
  · exact ⟨rfl, Iff.rfl, rfl⟩

/-- after `writeVersionCondition` and the padding, the condition around the member is the guard in effect -/
theorem condition_spec (mt : Tracking) (ok : mt.Ok) (rest : List Item) :
    let r := writeVersionCondition mt
    r.2.Ok ∧ r.2.guard = mt.guard ∧ r.2.membersWritten = mt.membersWritten ∧ (r.2.cur).getD ⟨0, 0⟩ = mt.guard ∧
      compileFrom mt.cur (r.1 ++ writeExtraPadding r.2 ++ rest) = compileFrom r.2.cur rest := by
  have hpad : ∀ (t : Tracking) rest, compileFrom t.cur (writeExtraPadding t ++ rest) = compileFrom t.cur rest := by
    intro t rest
    unfold writeExtraPadding
    split
    · rfl
    · rfl
  intro r
  by_cases he : mt.asOf = mt.lastAsOf ∧ mt.untilV = mt.lastUntil
  · have hr : r = ([], mt) := by simp [r, writeVersionCondition, he]
    rw [hr]
    refine ⟨ok, rfl, rfl, ?_, ?_⟩
    · unfold Tracking.cur Tracking.guard
      unfold Tracking.Ok at ok
      rw [ok, he.1, he.2]
      by_cases h0 : mt.lastAsOf ≠ 0 ∨ mt.lastUntil ≠ 0
      · simp [h0]
      · have h1 : mt.lastAsOf = 0 := by omega
        have h2 : mt.lastUntil = 0 := by omega
        simp [h1, h2]
    · exact hpad mt rest
  · have hr : r = (concludeCondition mt ++ (if mt.asOf ≠ 0 ∨ mt.untilV ≠ 0 then [.ifVersion mt.asOf mt.untilV] else []),
        { mt with lastAsOf := mt.asOf, lastUntil := mt.untilV, withinCondition := decide (mt.asOf ≠ 0 ∨ mt.untilV ≠ 0) }) := by
      simp only [r, writeVersionCondition, if_neg he]
    have hconc : ∀ is, compileFrom mt.cur (concludeCondition mt ++ is) = compileFrom none is := by
      intro is
      unfold concludeCondition Tracking.cur
      cases mt.withinCondition <;> rfl
    rw [hr]
    refine ⟨rfl, rfl, rfl, ?_, ?_⟩
    · unfold Tracking.cur Tracking.guard
      by_cases h0 : mt.asOf ≠ 0 ∨ mt.untilV ≠ 0
      · simp [h0]
      · have h1 : mt.asOf = 0 := by omega
        have h2 : mt.untilV = 0 := by omega
        simp [h1, h2]
    · rw [List.append_assoc, List.append_assoc, hconc]
      refine Eq.trans ?_ (hpad _ rest)
      by_cases h0 : mt.asOf ≠ 0 ∨ mt.untilV ≠ 0
      · simp only [h0, ↓reduceIte, List.cons_append, List.nil_append, decide_true, Tracking.cur]
        rfl
      · simp only [h0, ↓reduceIte, List.nil_append, decide_false, Tracking.cur]
        rfl

theorem conclude_spec (mt : Tracking) (rest : List Item) :
    compileFrom mt.cur (concludeCondition mt ++ rest) = compileFrom none rest := by
  unfold concludeCondition Tracking.cur
  cases mt.withinCondition <;> rfl

/-- which members the writing loop considers -/
def writes (priv : Bool) (f : FieldD) : Bool := !f.isConst && (priv || f.isPublic)

theorem setWritten (mt : Tracking) : ({ mt with membersWritten := true } : Tracking).cur = mt.cur ∧
    (({ mt with membersWritten := true } : Tracking).Ok ↔ mt.Ok) ∧ ({ mt with membersWritten := true } : Tracking).guard = mt.guard :=
  ⟨rfl, Iff.rfl, rfl⟩

theorem writeLoop_compile (priv : Bool) (rest : List Item) (ms : List Member) : ∀ (mt : Tracking), mt.Ok →
    compileFrom mt.cur ((writeLoop priv mt ms).1 ++ concludeCondition (writeLoop priv mt ms).2 ++ rest)
      = (compileFrom none rest).map ((guarded (writes priv) mt ms).map (fun gf => (gf.1, .member gf.2.name)) ++ ·) := by
  induction ms with
  | nil =>
    intro mt _
    simp only [writeLoop, guarded, List.nil_append, List.map_nil]
    rw [conclude_spec]
    cases compileFrom none rest <;> rfl
  | cons m ms ih =>
    intro mt ok
    cases m with
    | var name ls =>
      obtain ⟨h1, h2, _⟩ := check_cond mt name ls
      rw [writeLoop, guarded, ← h1]
      exact ih _ (h2.2 ok)
    | other => exact ih mt ok
    | field f =>
      rw [writeLoop, guarded]
      by_cases hc : f.isConst = true
      · rw [if_pos hc, if_neg (by simp [writes, hc])]
        exact ih mt ok
      · rw [if_neg hc]
        by_cases hp : (!priv && !f.isPublic) = true
        · rw [if_pos hp, if_neg (by simp [writes]; simp at hp; simp [hp])]
          exact ih mt ok
        · rw [if_neg hp, if_pos (by simp [writes, hc]; simp at hp; exact Classical.or_iff_not_imp_left.2 (by simpa using hp))]
          simp only
          obtain ⟨c1, c2, _, c4, c5⟩ := condition_spec mt ok
            ([.writeMember f.name] ++ (writeLoop priv { (writeVersionCondition mt).2 with membersWritten := true } ms).1
              ++ concludeCondition (writeLoop priv { (writeVersionCondition mt).2 with membersWritten := true } ms).2 ++ rest)
          rw [show (writeVersionCondition mt).1 ++ writeExtraPadding (writeVersionCondition mt).2 ++ [Item.writeMember f.name]
              ++ (writeLoop priv { (writeVersionCondition mt).2 with membersWritten := true } ms).1
              ++ concludeCondition (writeLoop priv { (writeVersionCondition mt).2 with membersWritten := true } ms).2 ++ rest
            = (writeVersionCondition mt).1 ++ writeExtraPadding (writeVersionCondition mt).2 ++ ([Item.writeMember f.name]
              ++ (writeLoop priv { (writeVersionCondition mt).2 with membersWritten := true } ms).1
              ++ concludeCondition (writeLoop priv { (writeVersionCondition mt).2 with membersWritten := true } ms).2 ++ rest) by
            simp only [List.append_assoc]]
          rw [c5]
          rw [List.append_assoc, List.append_assoc, compileFrom_plain _ [Item.writeMember f.name] _ (by simp [Item.plain])]
          rw [← List.append_assoc]
          have := ih { (writeVersionCondition mt).2 with membersWritten := true } ((setWritten _).2.1.2 c1)
          rw [(setWritten _).1] at this
          rw [this, c4]
          rw [guarded_congr (writes priv) ms (mt := { (writeVersionCondition mt).2 with membersWritten := true }) (mt' := mt) c2]
          cases compileFrom none rest <;> simp [Item.call]

theorem readLoop_compile (priv : Bool) (rest : List Item) (ms : List Member) : ∀ (mt : Tracking), mt.Ok →
    compileFrom mt.cur ((readLoop priv mt ms).1 ++ concludeCondition (readLoop priv mt ms).2 ++ rest)
      = (compileFrom none rest).map ((guarded (writes priv) mt ms).map (fun gf => (gf.1, .member gf.2.name)) ++ ·) := by
  induction ms with
  | nil =>
    intro mt _
    simp only [readLoop, guarded, List.nil_append, List.map_nil]
    rw [conclude_spec]
    cases compileFrom none rest <;> rfl
  | cons m ms ih =>
    intro mt ok
    cases m with
    | var name ls =>
      obtain ⟨h1, h2, _⟩ := check_cond mt name ls
      rw [readLoop, guarded, ← h1]
      exact ih _ (h2.2 ok)
    | other => exact ih mt ok
    | field f =>
      rw [readLoop, guarded]
      by_cases hc : f.isConst = true
      · rw [if_pos hc, if_neg (by simp [writes, hc])]
        exact ih mt ok
      · rw [if_neg hc]
        by_cases hp : (priv || f.isPublic) = true
        · rw [if_pos (show writes priv f = true by simp only [writes, hp]; simp [hc])]
          simp only [hp, ↓reduceIte]
          obtain ⟨c1, c2, _, c4, c5⟩ := condition_spec mt ok
            ([.readMember f.name] ++ (readLoop priv { (writeVersionCondition mt).2 with membersWritten := true } ms).1
              ++ concludeCondition (readLoop priv { (writeVersionCondition mt).2 with membersWritten := true } ms).2 ++ rest)
          rw [show (writeVersionCondition mt).1 ++ writeExtraPadding (writeVersionCondition mt).2 ++ [Item.readMember f.name]
              ++ (readLoop priv { (writeVersionCondition mt).2 with membersWritten := true } ms).1
              ++ concludeCondition (readLoop priv { (writeVersionCondition mt).2 with membersWritten := true } ms).2 ++ rest
            = (writeVersionCondition mt).1 ++ writeExtraPadding (writeVersionCondition mt).2 ++ ([Item.readMember f.name]
              ++ (readLoop priv { (writeVersionCondition mt).2 with membersWritten := true } ms).1
              ++ concludeCondition (readLoop priv { (writeVersionCondition mt).2 with membersWritten := true } ms).2 ++ rest) by
            simp only [List.append_assoc]]
          rw [c5]
          rw [List.append_assoc, List.append_assoc, compileFrom_plain _ [Item.readMember f.name] _ (by simp [Item.plain])]
          rw [← List.append_assoc]
          have := ih { (writeVersionCondition mt).2 with membersWritten := true } ((setWritten _).2.1.2 c1)
          rw [(setWritten _).1] at this
          rw [this, c4]
          rw [guarded_congr (writes priv) ms (mt := { (writeVersionCondition mt).2 with membersWritten := true }) (mt' := mt) c2]
          cases compileFrom none rest <;> simp [Item.call]
        · rw [if_neg (show ¬ writes priv f = true by simp only [writes, hp]; simp)]
          simp only [hp, Bool.false_eq_true, ↓reduceIte]
          obtain ⟨c1, c2, _, c4, c5⟩ := condition_spec mt ok
            ((readLoop priv (writeVersionCondition mt).2 ms).1
              ++ concludeCondition (readLoop priv (writeVersionCondition mt).2 ms).2 ++ rest)
          rw [show (writeVersionCondition mt).1 ++ writeExtraPadding (writeVersionCondition mt).2
              ++ (readLoop priv (writeVersionCondition mt).2 ms).1
              ++ concludeCondition (readLoop priv (writeVersionCondition mt).2 ms).2 ++ rest
            = (writeVersionCondition mt).1 ++ writeExtraPadding (writeVersionCondition mt).2 ++ (
              (readLoop priv (writeVersionCondition mt).2 ms).1
              ++ concludeCondition (readLoop priv (writeVersionCondition mt).2 ms).2 ++ rest) by
            simp only [List.append_assoc]]
          rw [c5]
          rw [ih _ c1, guarded_congr (writes priv) ms (mt := (writeVersionCondition mt).2) (mt' := mt) c2]

end Verif.Gen
