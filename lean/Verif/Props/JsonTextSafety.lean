import Verif.Props.JsonSafety
import Verif.Props.JsonText

/-!
# C56: `fromJson` on arbitrary text
-/

namespace Verif
open JsonText

theorem storedNumbers_num {D : Dbl} {n : Num} {t : Str} (h : NumText D n t) : StoredNumbers (.num n) := by
  cases h with
  | int ds h1 h2 => exact .int (by omega) (by omega)
  | neg ds h1 h2 => exact .int (by omega) (by omega)
  | dbl => exact .dbl _

theorem storedNumbers_text {D : Dbl} {j : Json} {t : Str} (h : Text D j t) : StoredNumbers j := by
  refine Text.rec (motive_1 := fun j _ _ => StoredNumbers j) (motive_2 := fun js _ _ => ∀ j ∈ js, StoredNumbers j)
    (motive_3 := fun ms _ _ => ∀ k j, (k, j) ∈ ms → StoredNumbers j)
    .null (.bool _) (.bool _) ?_ ?_ ?_ ?_ ?_ ?_ ?_ ?_ ?_ ?_ h
  · intro _ _ h; exact storedNumbers_num h
  · intros; exact .str _
  · intros; exact .arr (by simp)
  · intro _ _ _ h; exact .arr h
  · intros; exact .obj (by simp)
  · intro _ _ _ h; exact .obj h
  · intro _ _ _ _ _ _ _ h j hj; rw [List.mem_singleton.1 hj]; exact h
  · intro _ _ _ _ _ _ _ _ _ _ h h' j hj
    rcases List.mem_cons.1 hj with rfl | hj
    · exact h
    · exact h' j hj
  · intro _ _ _ _ _ _ _ _ _ _ _ _ _ _ h k j hj
    simp only [List.mem_singleton, Prod.mk.injEq] at hj
    rw [hj.2]; exact h
  · intro _ _ _ _ _ _ _ _ _ _ _ _ _ _ _ _ _ h h' k j hj
    rcases List.mem_cons.1 hj with hj | hj
    · cases hj; exact h
    · exact h' k j hj

/-- Documents parsed from text have only numbers of 64 bits. -/
theorem C56_parsed_numbers (D : Dbl) (s : Str) (j : Json) (h : textParser D s = .ok j) : StoredNumbers j := by
  obtain ⟨_, _, _, _, _, _, _, _, h, _⟩ := (C52_accepts_exactly D s j).1 h
  exact storedNumbers_text h

/-- C56 for `fromJson`: whatever the bytes, reading them as object, map or array has a definite outcome which is one of: the
text is no JSON document and a parse error is thrown; the result is a valid object of the type; a reported error is thrown and
its kind is flagged in the given errors object; undefined behaviour iff the document denoted by the text has one of the
hazards. -/
theorem C56_fromJson_any_text (E : Env) (hO : OrderedItems E) (hkt : JsonKeyTypes E) (rank : ClassId → Nat) (hr : Ranked E rank)
    (D : Dbl) (t : Ty) (hty : (∃ c, t = .cls c) ∨ (∃ h m k v, t = .map h m k v) ∨ (∃ t', t = .vec t')) (ht : JsonReadable E t)
    (text : Str) (s : Option ErrSt) :
    ∃ N, (∃ e, (∀ n, N ≤ n → fromJson E (textParser D) n t text s = .exc (.parse e) s) ∧ ∀ j, textParser D text ≠ .ok j) ∨
      (∃ j v s', (∀ n, N ≤ n → fromJson E (textParser D) n t text s = .ok v s') ∧ textParser D text = .ok j ∧
        JsonTyped E t v ∧ ¬ Hazard E s.isNone t j) ∨
      (∃ j e s' st, (∀ n, N ≤ n → fromJson E (textParser D) n t text s = .exc (.err e) s') ∧ textParser D text = .ok j ∧
        s = some st ∧ Fatal st.throwOn e.kind) ∨
      (∃ j, (∀ n, N ≤ n → fromJson E (textParser D) n t text s = .ub) ∧ textParser D text = .ok j ∧ Hazard E s.isNone t j) := by
  cases hp : textParser D text with
  | error e =>
    refine ⟨0, .inl ⟨e, fun n _ => ?_, by simp⟩⟩
    rcases hty with ⟨c, rfl⟩ | ⟨h, m, k, v, rfl⟩ | ⟨t', rfl⟩ <;>
      simp only [fromJson, parseDoc, hp, M.bind_apply, M.throw_apply]
  | ok j =>
    have hj := C56_parsed_numbers D text j hp
    have key : (∀ n, fromJson E (textParser D) n t text s = liftP (pull E n t j (E.defInit t)) s) ∨
        (∀ n, fromJson E (textParser D) n t text s = topMismatch E t j s) ∧ ¬ Hazard E s.isNone t j := by
      rcases hty with ⟨c, rfl⟩ | ⟨h, m, k, v, rfl⟩ | ⟨t', rfl⟩ <;> cases j <;>
        first
          | (left; intro n; simp only [fromJson, parseDoc, hp, M.bind_apply, M.pure_apply]; done)
          | (right; exact ⟨fun n => by simp only [fromJson, parseDoc, hp, M.bind_apply, M.pure_apply], fun h => by cases h⟩)
    rcases key with h | ⟨h, hz⟩
    · obtain ⟨N, h1⟩ := C56_safe_outcomes E hO hkt rank hr t ht j hj _ (jsonTyped_defInit t ht) s
      refine ⟨N, .inr ?_⟩
      rcases h1 with ⟨v, s', h1, h2, h3⟩ | ⟨e, s', st, h1, h2, h3⟩ | ⟨h1, h2⟩
      · exact .inl ⟨j, v, s', fun n hn => by rw [h n]; simp only [liftP, h1 n hn], rfl, h2, h3⟩
      · exact .inr (.inl ⟨j, e, s', st, fun n hn => by rw [h n]; simp only [liftP, h1 n hn], rfl, h2, h3⟩)
      · exact .inr (.inr ⟨j, fun n hn => by rw [h n]; simp only [liftP, h1 n hn], rfl, h2⟩)
    · refine ⟨0, .inr ?_⟩
      have hv := jsonTyped_valInit t (.inl ht)
      cases s with
      | none => exact .inl ⟨j, E.valInit t, none, fun n _ => by rw [h n]; rfl, rfl, hv, hz⟩
      | some st =>
        have hk : topMismatch E t j (some st) =
            if st.throwOn &&& ErrKind.typeMismatch.flag ≠ 0 then
              .exc (.err (st.mk' .typeMismatch (jtypeOf t) j.jtype)) (some (st.push (st.mk' .typeMismatch (jtypeOf t) j.jtype)))
            else .ok (E.valInit t) (some (st.push (st.mk' .typeMismatch (jtypeOf t) j.jtype))) := by
          simp only [topMismatch, M.bind_apply, liftP, report]
          by_cases hf : st.throwOn &&& ErrKind.typeMismatch.flag ≠ 0
          · simp only [if_pos hf]
          · simp only [if_neg hf, M.pure_apply]
        by_cases hf : st.throwOn &&& ErrKind.typeMismatch.flag ≠ 0
        · rw [if_pos hf] at hk
          exact .inr (.inl ⟨j, _, _, st, fun n _ => by rw [h n, hk], rfl, rfl, (fatal_iff _ _).2 hf⟩)
        · rw [if_neg hf] at hk
          exact .inl ⟨j, _, _, fun n _ => by rw [h n, hk], rfl, hv, hz⟩

-- every text as recursive node
example (D : Dbl) (text : Str) (s : Option ErrSt) :=
  C56_fromJson_any_text Demo.env ConformDemo.ordered SafetyDemo.keyTypes demoRank demo_ranked D (.cls 2) (.inl ⟨2, rfl⟩)
    (SafetyDemo.readable (by simp [SafetyDemo.demoTy])) text s

end Verif
