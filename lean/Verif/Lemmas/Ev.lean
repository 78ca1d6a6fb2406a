/-!
# "For every sufficiently large recursion budget"
-/

namespace Verif

/-- `P` holds for all sufficiently large budgets. -/
def Ev (P : Nat → Prop) : Prop := ∃ N, ∀ n, N ≤ n → P n

theorem Ev.of {P : Nat → Prop} (h : ∀ n, P n) : Ev P := ⟨0, fun n _ => h n⟩

theorem Ev.and {P Q : Nat → Prop} (h1 : Ev P) (h2 : Ev Q) : Ev fun n => P n ∧ Q n := by
  obtain ⟨N, h1⟩ := h1
  obtain ⟨M, h2⟩ := h2
  exact ⟨max N M, fun n hn => ⟨h1 n (by omega), h2 n (by omega)⟩⟩

theorem Ev.imp {P Q : Nat → Prop} (h1 : Ev P) (h2 : ∀ n, P n → Q n) : Ev Q := by
  obtain ⟨N, h1⟩ := h1
  exact ⟨N, fun n hn => h2 n (h1 n hn)⟩

/-- one more level of recursion -/
theorem Ev.succ {P Q : Nat → Prop} (h1 : Ev P) (h2 : ∀ n, P n → Q (n + 1)) : Ev Q := by
  obtain ⟨N, h1⟩ := h1
  refine ⟨N + 1, fun n hn => ?_⟩
  cases n with
  | zero => omega
  | succ n => exact h2 n (h1 n (by omega))

theorem Ev.list {α : Type} (l : List α) {P : α → Nat → Prop} (h : ∀ a ∈ l, Ev (P a)) : Ev fun n => ∀ a ∈ l, P a n := by
  induction l with
  | nil => exact Ev.of (by simp)
  | cons a l ih =>
    refine ((h a List.mem_cons_self).and (ih fun b hb => h b (List.mem_cons_of_mem _ hb))).imp ?_
    rintro n ⟨h1, h2⟩ b hb
    rcases List.mem_cons.1 hb with rfl | hb
    · exact h1
    · exact h2 b hb

theorem Ev.exists {P : Nat → Prop} (h : Ev P) : ∃ n, P n := by
  obtain ⟨N, h⟩ := h
  exact ⟨N, h N (Nat.le_refl _)⟩

end Verif
