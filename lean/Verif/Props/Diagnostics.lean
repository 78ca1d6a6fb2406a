import Verif.Model.Diag

/-!
# C50: error resilience

Vocabulary: an *error* is a diagnostic of level error or fatal; a *semantic* error is one of clang's category 2
("Semantic Issue").
-/

namespace Verif.Diag

/-- an error -/
def IsError (d : Diagnostic) : Prop := d.level = .error ∨ d.level = .fatal
/-- an error which is not turned into a warning -/
def IsReal (resilient : Bool) (d : Diagnostic) : Prop := IsError d ∧ (resilient = true → d.category ≠ 2)

instance (d : Diagnostic) : Decidable (IsError d) := inferInstanceAs (Decidable (_ ∨ _))
instance (r : Bool) (d : Diagnostic) : Decidable (IsReal r d) := inferInstanceAs (Decidable (_ ∧ _))

/-- how a diagnostic is presented to the user -/
def shown (resilient : Bool) (d : Diagnostic) : Diagnostic :=
  if IsError d ∧ resilient = true ∧ d.category = 2 then ⟨.warning, 2⟩ else d

/-- number of real errors -/
def realErrors (resilient : Bool) (ds : List Diagnostic) : Nat := ds.countP fun d => IsReal resilient d

theorem isError_iff (d : Diagnostic) : Level.error.rank ≤ d.level.rank ↔ IsError d := by
  obtain ⟨l, c⟩ := d
  cases l <;> simp [IsError, Level.rank]

/-- what a single diagnostic does, in the vocabulary above -/
theorem handle_eq (r : Bool) (s : State) (d : Diagnostic) :
    handle r s d =
      { realErrorCount := if r = true ∧ IsReal r d then s.realErrorCount + 1 else s.realErrorCount
        numErrors := if IsReal r d then s.numErrors + 1 else s.numErrors
        numWarnings := if (shown r d).level = .warning then s.numWarnings + 1 else s.numWarnings
        forwarded := s.forwarded ++ [shown r d]
        errorOccurred := if IsReal r d then true
          else if IsError d then !(s.realErrorCount == 0) else s.errorOccurred } := by
  obtain ⟨l, c⟩ := d
  by_cases h2 : c = 2
  · subst h2
    cases r <;> cases l <;> cases h : s.realErrorCount == 0 <;> simp_all [handle, IsReal, IsError, shown, Level.rank]
  · cases r <;> cases l <;> simp_all [handle, IsReal, IsError, shown, Level.rank]

theorem handleAll_append (r : Bool) (ds : List Diagnostic) (d : Diagnostic) :
    handleAll r (ds ++ [d]) = handle r (handleAll r ds) d := by
  simp [handleAll, List.foldl_append]

theorem realErrors_append (r : Bool) (ds : List Diagnostic) (d : Diagnostic) :
    realErrors r (ds ++ [d]) = realErrors r ds + (if IsReal r d then 1 else 0) := by
  simp [realErrors, List.countP_append, List.countP_cons]

theorem realErrors_eq_zero (r : Bool) (ds : List Diagnostic) : realErrors r ds = 0 ↔ ∀ d ∈ ds, ¬IsReal r d := by
  simp [realErrors, List.countP_eq_zero]

theorem snoc_induction {α : Type} {p : List α → Prop} (nil : p []) (snoc : ∀ xs x, p xs → p (xs ++ [x])) (xs : List α) :
    p xs := by
  have : ∀ ys : List α, p ys.reverse := by
    intro ys
    induction ys with
    | nil => exact nil
    | cons y ys ih => rw [List.reverse_cons]; exact snoc _ _ ih
  simpa using this xs.reverse

theorem numErrors_eq (r : Bool) (ds : List Diagnostic) :
    (handleAll r ds).numErrors = BitVec.ofNat 32 (realErrors r ds) := by
  induction ds using snoc_induction with
  | nil => rfl
  | snoc ds d ih =>
    rw [handleAll_append, handle_eq, realErrors_append]
    by_cases h : IsReal r d
    · simp [h, ih, BitVec.ofNat_add]
    · simp [h, ih]

theorem realErrorCount_eq (ds : List Diagnostic) :
    (handleAll true ds).realErrorCount = BitVec.ofNat 32 (realErrors true ds) := by
  induction ds using snoc_induction with
  | nil => rfl
  | snoc ds d ih =>
    rw [handleAll_append, handle_eq, realErrors_append]
    by_cases h : IsReal true d
    · simp [h, ih, BitVec.ofNat_add]
    · simp [h, ih]

theorem ofNat_eq_zero (n : Nat) : (BitVec.ofNat 32 n == 0) = decide (n % 2 ^ 32 = 0) := by
  rw [Bool.eq_iff_iff, beq_iff_eq, decide_eq_true_iff, BitVec.toNat_eq]
  simp

/-- C50: the run is reported as success iff the number of real errors is a multiple of 2^32 (the counter is 32 bits wide) -/
theorem C50_success_iff_count (r : Bool) (ds : List Diagnostic) :
    succeeded r ds = true ↔ realErrors r ds % 2 ^ 32 = 0 := by
  rw [succeeded, numErrors_eq, ofNat_eq_zero, decide_eq_true_iff]

/-- C50: with error resilience, the run is reported as success iff no diagnostic is an error outside the category "Semantic
Issue" - no matter how many semantic errors there are, and where -/
theorem C50_resilient (ds : List Diagnostic) (hlen : ds.length < 2 ^ 32) :
    succeeded true ds = true ↔ ∀ d ∈ ds, (d.level = .error ∨ d.level = .fatal) → d.category = 2 := by
  have : realErrors true ds ≤ ds.length := List.countP_le_length
  rw [C50_success_iff_count, Nat.mod_eq_of_lt (by omega), realErrors_eq_zero]
  simp [IsReal, IsError]

/-- C50: without error resilience, the run is reported as success iff no diagnostic is an error -/
theorem C50_not_resilient (ds : List Diagnostic) (hlen : ds.length < 2 ^ 32) :
    succeeded false ds = true ↔ ∀ d ∈ ds, d.level ≠ .error ∧ d.level ≠ .fatal := by
  have : realErrors false ds ≤ ds.length := List.countP_le_length
  rw [C50_success_iff_count, Nat.mod_eq_of_lt (by omega), realErrors_eq_zero]
  simp [IsReal, IsError]

/-- C50: the order of the diagnostics has no influence on the reported success -/
theorem C50_order_irrelevant (r : Bool) {ds ds' : List Diagnostic} (h : ds.Perm ds') :
    succeeded r ds = succeeded r ds' := by
  rw [Bool.eq_iff_iff, C50_success_iff_count, C50_success_iff_count, realErrors, realErrors, h.countP_eq]

/-- C50: every diagnostic is shown, in order; exactly the semantic errors are demoted to warnings, and only with error
resilience -/
theorem C50_shown (r : Bool) (ds : List Diagnostic) : (handleAll r ds).forwarded = ds.map (shown r) := by
  induction ds using snoc_induction with
  | nil => rfl
  | snoc ds d ih => rw [handleAll_append, handle_eq]; simp [ih]

/-- without error resilience everything is shown unchanged -/
theorem C50_shown_not_resilient (ds : List Diagnostic) : (handleAll false ds).forwarded = ds := by
  rw [C50_shown]
  conv => rhs; rw [← List.map_id ds]
  apply List.map_congr_left
  simp [shown]

/-- C50: the engine considers an error to have occurred iff there was a real one: semantic errors neither set the flag for
good nor clear it after a real error -/
theorem C50_engine_flag (r : Bool) (ds : List Diagnostic) (hlen : ds.length < 2 ^ 32) :
    (handleAll r ds).errorOccurred = true ↔ ∃ d ∈ ds, IsReal r d := by
  induction ds using snoc_induction with
  | nil => simp [handleAll, State.init]
  | snoc ds d ih =>
    simp only [List.length_append, List.length_cons, List.length_nil] at hlen
    have ih := ih (by omega)
    rw [handleAll_append, handle_eq]
    simp only [List.mem_append, List.mem_singleton, or_and_right, exists_or, exists_eq_left]
    by_cases h : IsReal r d
    · simp [h]
    · simp only [h, if_false, or_false]
      by_cases he : IsError d
      · cases r with
        | false => exact absurd ⟨he, by simp⟩ h
        | true =>
          simp only [he, if_true]
          have hle : realErrors true ds ≤ ds.length := List.countP_le_length
          rw [realErrorCount_eq, ofNat_eq_zero, Nat.mod_eq_of_lt (by omega)]
          have := realErrors_eq_zero true ds
          rw [Bool.not_eq_true', decide_eq_false_iff_not, this]
          simp
      · simp only [he, if_false]
        exact ih

/-- C50 (limit): 2^32 real errors are reported as success -/
theorem C50_wraps : ∃ ds : List Diagnostic, (∀ d ∈ ds, IsReal true d) ∧ ds ≠ [] ∧ succeeded true ds = true := by
  refine ⟨List.replicate (2 ^ 32) ⟨.error, 1⟩, ?_, ?_, ?_⟩
  · intro d hd
    rw [List.eq_of_mem_replicate hd]
    decide
  · intro h
    have := congrArg List.length h
    rw [List.length_replicate] at this
    simp at this
  · rw [C50_success_iff_count, realErrors, List.countP_replicate]
    decide

/-! Cases meeting the hypotheses -/

/-- two semantic errors around a warning: reported as success, shown as warnings -/
example : succeeded true [⟨.error, 2⟩, ⟨.warning, 1⟩, ⟨.fatal, 2⟩] = true := by decide
/-- a real error between semantic errors: reported as failure -/
example : succeeded true [⟨.error, 2⟩, ⟨.fatal, 1⟩, ⟨.error, 2⟩] = false ∧
    (handleAll true [⟨.error, 2⟩, ⟨.fatal, 1⟩, ⟨.error, 2⟩]).errorOccurred = true := by decide
example : succeeded false [⟨.error, 2⟩] = false := by decide

end Verif.Diag
