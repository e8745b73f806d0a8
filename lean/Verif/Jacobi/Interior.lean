import Verif.Jacobi.Gauss

/-!
# Gauss points lie inside the interval
-/

namespace Dedalus.Jacobi

open Spec

theorem P_at_one (a b : ℝ) (ha : -1 < a) (n : Nat) : P n a b 1 ≠ 0 := by
  induction n with
  | zero => rw [P_zero]; exact one_ne_zero
  | succ n ih =>
    intro h
    have h1 := P_Am n a b 1
    rw [h] at h1
    have hn : (0 : ℝ) < n + a + 1 := by have : (0 : ℝ) ≤ n := Nat.cast_nonneg n; linarith
    exact ih (by
      have : (n + a + 1) * P n a b 1 = 0 := by linarith
      exact (mul_eq_zero.1 this).resolve_left hn.ne')

theorem P_at_neg_one (a b : ℝ) (hb : -1 < b) (n : Nat) : P n a b (-1) ≠ 0 := by
  induction n with
  | zero => rw [P_zero]; exact one_ne_zero
  | succ n ih =>
    intro h
    have h1 := P_Bm n a b (-1)
    rw [h] at h1
    have hn : (0 : ℝ) < n + b + 1 := by have : (0 : ℝ) ≤ n := Nat.cast_nonneg n; linarith
    exact ih (by
      have : (n + b + 1) * P n a b (-1) = 0 := by linarith
      exact (mul_eq_zero.1 this).resolve_left hn.ne')

theorem W_nonneg (a b z : ℝ) (hz : z ∈ Set.Icc (-1 : ℝ) 1) : 0 ≤ (1 - z) ^ a * (1 + z) ^ b :=
  mul_nonneg (Real.rpow_nonneg (by linarith [hz.2]) _) (Real.rpow_nonneg (by linarith [hz.1]) _)

theorem node_nonneg (n : Nat) (a b : ℝ) (g : Nat → ℝ) (ha : -1 < a) (hb : -1 < b) (hg : Roots n a b g) (i : Nat) (hi : i < n)
    (q : Polynomial ℝ) (hq : q.natDegree ≤ 1) (hp : ∀ z ∈ Set.Icc (-1 : ℝ) 1, 0 ≤ q.eval z) : 0 ≤ q.eval (g i) := by
  set L : Polynomial ℝ := ∏ j ∈ (Finset.range n).erase i, (Polynomial.X - Polynomial.C (g j)) with hL
  have dL : L.natDegree ≤ n - 1 := by
    refine (Polynomial.natDegree_prod_le _ _).trans ?_
    refine (Finset.sum_le_sum (g := fun _ => 1) fun j _ => (Polynomial.natDegree_X_sub_C (g j)).le).trans ?_
    rw [Finset.sum_const, Finset.card_erase_of_mem (Finset.mem_range.2 hi), Finset.card_range, smul_eq_mul, mul_one]
  have hG := gauss_exact n a b g ha hb (by omega) hg (q * (L * L)) (by
    have h1 : (q * (L * L)).natDegree ≤ q.natDegree + (L * L).natDegree := Polynomial.natDegree_mul_le
    have h2 : (L * L).natDegree ≤ L.natDegree + L.natDegree := Polynomial.natDegree_mul_le
    omega)
  have hi' := Finset.mem_range.2 hi
  rw [Finset.sum_eq_single_of_mem i hi'] at hG
  · have hpos : 0 ≤ integ a b (fun z => (q * (L * L)).eval z) := by
      unfold integ
      refine intervalIntegral.integral_nonneg (by norm_num) fun z hz => mul_nonneg (W_nonneg a b z hz) ?_
      beta_reduce
      rw [Polynomial.eval_mul, Polynomial.eval_mul]
      exact mul_nonneg (hp z hz) (mul_self_nonneg _)
    rw [← hG, quadrature_gauss n a b g i ha hb hg hi] at hpos
    simp only [Polynomial.eval_mul] at hpos
    have hk := kernel_pos n a b (g i) ha hb (by omega)
    have hLi : L.eval (g i) ≠ 0 := by
      rw [hL, Polynomial.eval_prod]
      refine Finset.prod_ne_zero_iff.2 fun j hj => ?_
      rw [Polynomial.eval_sub, Polynomial.eval_X, Polynomial.eval_C]
      intro h
      obtain ⟨h1, h2⟩ := Finset.mem_erase.1 hj
      exact h1 (hg.2 i j hi (Finset.mem_range.1 h2) (sub_eq_zero.1 h)).symm
    have h3 : 0 < (kernel n a b (g i))⁻¹ * (L.eval (g i) * L.eval (g i)) := mul_pos (inv_pos.2 hk) (mul_self_pos.2 hLi)
    by_contra hneg
    rw [not_le] at hneg
    nlinarith
  · intro j hj hji
    rw [quadrature_gauss n a b g j ha hb hg (Finset.mem_range.1 hj)]
    have : L.eval (g j) = 0 := by
      rw [hL, Polynomial.eval_prod]
      apply Finset.prod_eq_zero (Finset.mem_erase.2 ⟨hji, hj⟩)
      simp
    simp only [Polynomial.eval_mul, this, mul_zero]

/-- Gauss points are inside the interval. -/
theorem node_interior (n : Nat) (a b : ℝ) (g : Nat → ℝ) (ha : -1 < a) (hb : -1 < b) (hg : Roots n a b g) (i : Nat) (hi : i < n) :
    -1 < g i ∧ g i < 1 := by
  have hr := hg.1 i hi
  rw [Q, div_eq_zero_iff] at hr
  have hP := hr.resolve_right (sq_pos n a b ha hb).ne'
  constructor
  · have h := node_nonneg n a b g ha hb hg i hi (Polynomial.X + Polynomial.C 1) (Polynomial.natDegree_X_add_C 1).le
      (fun z hz => by simp only [Polynomial.eval_add, Polynomial.eval_X, Polynomial.eval_C]; linarith [hz.1])
    simp only [Polynomial.eval_add, Polynomial.eval_X, Polynomial.eval_C] at h
    refine lt_of_le_of_ne (by linarith) fun e => ?_
    rw [← e] at hP
    exact P_at_neg_one a b hb n hP
  · have h := node_nonneg n a b g ha hb hg i hi (Polynomial.C 1 - Polynomial.X) (by
        refine (Polynomial.natDegree_sub_le _ _).trans ?_
        simp)
      (fun z hz => by simp only [Polynomial.eval_sub, Polynomial.eval_X, Polynomial.eval_C]; linarith [hz.2])
    simp only [Polynomial.eval_sub, Polynomial.eval_X, Polynomial.eval_C] at h
    refine lt_of_le_of_ne (by linarith) fun e => ?_
    rw [e] at hP
    exact P_at_one a b ha n hP

end Dedalus.Jacobi
