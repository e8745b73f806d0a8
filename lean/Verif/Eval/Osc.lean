import Mathlib.Data.List.Chain
import Verif.Eval.Loop

/-!
# The sequence of layouts
-/

namespace Dedalus.Eval

theorem back_length (n : Nat) : (((List.range n).reverse.drop 1).dropLast).length = n - 2 := by
  simp; omega

theorem back_get (n i : Nat) (h : i < (((List.range n).reverse.drop 1).dropLast).length) :
    (((List.range n).reverse.drop 1).dropLast)[i] = n - 2 - i := by
  rw [back_length] at h
  rw [List.getElem_dropLast, List.getElem_drop, List.getElem_reverse, List.getElem_range]
  simp only [List.length_range]
  omega

theorem oscPass_chain (n : Nat) (hn : 2 ≤ n) : List.IsChain Adj (oscPass n) := by
  unfold oscPass
  rw [List.isChain_append]
  refine ⟨?_, ?_, ?_⟩
  · rw [List.isChain_iff_getElem]
    intro i hi
    rw [List.getElem_range, List.getElem_range]
    exact Or.inl rfl
  · rw [List.isChain_iff_getElem]
    intro i hi
    rw [back_get, back_get]
    rw [back_length] at hi
    exact Or.inr (by omega)
  · intro x hx y hy
    rw [List.getLast?_eq_getElem?, List.length_range, Option.mem_def,
      List.getElem?_range (by omega)] at hx
    rw [List.head?_eq_getElem?, Option.mem_def, List.getElem?_eq_some_iff] at hy
    obtain ⟨h1, h2⟩ := hy
    rw [back_get] at h2
    rw [back_length] at h1
    cases hx
    exact Or.inr (by omega)

theorem oscPass_head (n : Nat) (hn : 2 ≤ n) : (oscPass n).head? = some 0 := by
  obtain ⟨m, rfl⟩ : ∃ m, n = m + 1 := ⟨n - 1, by omega⟩
  unfold oscPass
  rw [List.range_succ_eq_map]
  rfl

theorem oscPass_last (n : Nat) (hn : 2 ≤ n) : (oscPass n).getLast? = some 1 := by
  unfold oscPass
  rw [List.getLast?_append]
  by_cases h : n = 2
  · subst h; rfl
  · rw [List.getLast?_eq_getElem? (l := ((List.range n).reverse.drop 1).dropLast), back_length,
      List.getElem?_eq_getElem (by rw [back_length]; omega), back_get]
    simp only [Option.some_or]
    congr 1
    omega

theorem oscillate_chain (n : Nat) (hn : 2 ≤ n) : ∀ p, List.IsChain Adj (oscillate n p)
  | 0 => by simp [oscillate]
  | p + 1 => by
    have ih := oscillate_chain n hn p
    unfold oscillate at ih ⊢
    rw [List.replicate_succ, List.flatten_cons, List.isChain_append]
    refine ⟨oscPass_chain n hn, ih, ?_⟩
    intro x hx y hy
    rw [oscPass_last n hn] at hx
    cases p with
    | zero => simp at hy
    | succ p =>
      rw [List.replicate_succ, List.flatten_cons, List.head?_append, oscPass_head n hn] at hy
      simp only [Option.some_or, Option.mem_def, Option.some.injEq] at hx hy
      exact Or.inr (by omega)

theorem oscillate_head (n p : Nat) (hn : 2 ≤ n) : ∃ rest, oscillate n (p + 1) = 0 :: rest := by
  unfold oscillate
  rw [List.replicate_succ, List.flatten_cons]
  have := oscPass_head n hn
  cases h : oscPass n with
  | nil => rw [h] at this; cases this
  | cons a l => rw [h] at this; cases this; exact ⟨_, rfl⟩

end Dedalus.Eval
