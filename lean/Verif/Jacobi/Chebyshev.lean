import Verif.Jacobi.Quadrature
import Verif.Cosine.Spec
import Mathlib.Analysis.SpecialFunctions.Gaussian.GaussianIntegral

namespace Dedalus.Jacobi

open Spec

/-- equal parameters: no diagonal -/
theorem diagZ_equal (a : ℝ) (j : Nat) : diagZ a a j = 0 := by
  change ((opBm.comp opBp).entry (j + 1) a a j j - (opAm.comp opAp).entry (j + 1) a a j j) / 2 = 0
  have : (opBm.comp opBp).entry (j + 1) a a j j = (opAm.comp opAp).entry (j + 1) a a j j := by
    change ∑ l ∈ Finset.range (j + 1), opBm.entry (j + 1) (a + 0) (a + 1) j l * opBp.entry (j + 1) a a l j =
      ∑ l ∈ Finset.range (j + 1), opAm.entry (j + 1) (a + 1) (a + 0) j l * opAp.entry (j + 1) a a l j
    apply Finset.sum_congr rfl
    intro l _
    simp only [opBm, opBp, swap]
    linear_combination (opAm.entry (j + 1) (a + 1) (a + 0) j l * opAp.entry (j + 1) a a l j) * ((-1) ^ j * (-1) ^ j * neg_one_sq l) +
      (opAm.entry (j + 1) (a + 1) (a + 0) j l * opAp.entry (j + 1) a a l j) * neg_one_sq j
  rw [this]
  ring

theorem half_gt : (-1 : ℝ) < -1 / 2 := by norm_num

theorem norm2_cheb : norm2 0 (-1 / 2) (-1 / 2) = Real.pi := by
  unfold norm2 weight
  rw [show (-1 / 2 : ℝ) + -1 / 2 + 1 = 0 by norm_num, show ((0 : Nat) : ℝ) + -1 / 2 + 1 = 1 / 2 by norm_num,
    show ((0 : Nat) : ℝ) + -1 / 2 + -1 / 2 + 2 = 1 by norm_num, Real.Gamma_one_half_eq, Real.Gamma_one, Real.rpow_zero,
    Real.mul_self_sqrt Real.pi_pos.le]
  simp

theorem off_cheb_zero : offDiag (-1 / 2) (-1 / 2) 0 = √(1 / 2) := by
  have h := norm2_succ (-1 / 2) (-1 / 2) 0 half_gt half_gt
  unfold offDiag
  rw [scaleBand_zero_one, ← Real.sqrt_div (norm2_pos _ _ _ half_gt half_gt).le, h, nRatioOne, tricky]
  have := (norm2_pos 0 (-1 / 2) (-1 / 2) half_gt half_gt).ne'
  rw [mul_div_cancel_right₀ _ this, if_neg (by norm_num), if_pos (by simp)]
  rw [show ((1 : ℝ) / 2) = 2 ^ 2 * (1 / 8) by norm_num, Real.sqrt_mul (by norm_num : (0 : ℝ) ≤ 2 ^ 2) (1 / 8), Real.sqrt_sq (by norm_num)]
  norm_num

theorem off_cheb_succ (k : Nat) : offDiag (-1 / 2) (-1 / 2) (k + 1) = 1 / 2 := by
  have h := norm2_succ (-1 / 2) (-1 / 2) (k + 1) half_gt half_gt
  have hk : (0 : ℝ) ≤ k := Nat.cast_nonneg k
  have p1 : (k : ℝ) + 2 ≠ 0 := by linarith
  have p2 : 2 * (k : ℝ) + 3 ≠ 0 := by linarith
  have p3 : (k : ℝ) + 1 ≠ 0 := by linarith
  unfold offDiag
  rw [scaleBand_succ, ← Real.sqrt_div (norm2_pos _ _ _ half_gt half_gt).le, h, nRatioOne, tricky]
  have := (norm2_pos (k + 1) (-1 / 2) (-1 / 2) half_gt half_gt).ne'
  rw [mul_div_cancel_right₀ _ this, if_neg (by norm_num), if_neg (by exact_mod_cast Nat.succ_ne_zero k)]
  have e : (((k + 1 : Nat) : Int) + (-1 / 2 : ℝ) + 1) * (((k + 1 : Nat) : Int) + (-1 / 2 : ℝ) + 1) /
      ((((k + 1 : Nat) : Int) + (1 : ℝ)) * (2 * ((k + 1 : Nat) : Int) + (-1 / 2 : ℝ) + (-1 / 2) + 3)) * (2 - 0) =
      ((k + 3 / 2) / (k + 2)) ^ 2 := by
    push_cast
    rw [show (2 * ((k : ℝ) + 1) + -1 / 2 + -1 / 2 + 3) = 2 * (k + 2) by ring, show ((k : ℝ) + 1 + 1) = k + 2 by ring]
    field_simp
    ring
  rw [e, Real.sqrt_sq (by positivity)]
  push_cast
  rw [show (2 * ((k : ℝ) + 1) + -1 / 2 + -1 / 2 + 2) = 2 * k + 3 by ring, show (2 * ((k : ℝ) + 1) + -1 / 2 + -1 / 2 + 1) = 2 * (k + 1) by ring,
    show ((k : ℝ) + 1 + (-1 / 2 + -1 / 2 + 1)) = k + 1 by ring, show ((k : ℝ) + 1 + 1) = k + 2 by ring]
  field_simp

/-- the pairs `(T_n, U_{n-1})` -/
noncomputable def tw (x : ℝ) : Nat → ℝ × ℝ
  | 0 => (1, 0)
  | n + 1 => (x * (tw x n).1 - (1 - x ^ 2) * (tw x n).2, x * (tw x n).2 + (tw x n).1)

theorem tw_rec (x : ℝ) (n : Nat) : (tw x (n + 2)).1 = 2 * x * (tw x (n + 1)).1 - (tw x n).1 := by
  simp only [tw]
  ring

theorem tw_pell (x : ℝ) (n : Nat) : (tw x n).1 ^ 2 + (1 - x ^ 2) * (tw x n).2 ^ 2 = 1 := by
  induction n with
  | zero => simp [tw]
  | succ n ih =>
    simp only [tw]
    linear_combination ih

theorem tw_sum (x : ℝ) (n : Nat) : 1 + 2 * ∑ k ∈ Finset.range n, (tw x (k + 1)).1 ^ 2 =
    (n + 1) + (tw x (n + 1)).1 * (x * (tw x (n + 1)).2 - (tw x (n + 1)).1) := by
  induction n with
  | zero => simp [tw]
  | succ n ih =>
    rw [Finset.sum_range_succ, mul_add, ← add_assoc, ih]
    have hp := tw_pell x (n + 1)
    rw [show tw x (n + 1 + 1) = (x * (tw x (n + 1)).1 - (1 - x ^ 2) * (tw x (n + 1)).2, x * (tw x (n + 1)).2 + (tw x (n + 1)).1) from rfl]
    generalize (tw x (n + 1)).1 = t at *
    generalize (tw x (n + 1)).2 = w at *
    push_cast
    linear_combination (1 + (1 - x ^ 2) * 0) * hp

theorem tw_T (x : ℝ) : ∀ n : Nat, (tw x n).1 = (Polynomial.Chebyshev.T ℝ n).eval x
  | 0 => by simp [tw]
  | 1 => by simp [tw]
  | n + 2 => by
    rw [tw_rec, tw_T x (n + 1), tw_T x n]
    have : Polynomial.Chebyshev.T ℝ ((n + 2 : Nat) : ℤ) = 2 * Polynomial.X * Polynomial.Chebyshev.T ℝ ((n + 1 : Nat) : ℤ) - Polynomial.Chebyshev.T ℝ (n : ℤ) := by
      push_cast
      exact Polynomial.Chebyshev.T_add_two ℝ n
    rw [this]
    simp

theorem Q_cheb (x : ℝ) : ∀ k : Nat, Q k (-1 / 2) (-1 / 2) x = (if k = 0 then 1 / √Real.pi else √(2 / Real.pi)) * (tw x k).1
  | 0 => by rw [Q, P_zero, norm2_cheb]; simp [tw]
  | 1 => by
    have h := Q_rec_zero (-1 / 2) (-1 / 2) x half_gt half_gt
    rw [diagZ_equal, off_cheb_zero, Q_cheb x 0] at h
    have hs : √(1 / 2) ≠ 0 := (Real.sqrt_pos.2 (by norm_num)).ne'
    have e : √(2 / Real.pi) * √(1 / 2) = 1 / √Real.pi := by
      rw [← Real.sqrt_mul (by positivity), show 2 / Real.pi * (1 / 2) = 1 / Real.pi by ring, Real.sqrt_div zero_le_one, Real.sqrt_one]
    simp only [tw, if_true, one_ne_zero, if_false] at h ⊢
    have : √(1 / 2) * Q 1 (-1 / 2) (-1 / 2) x = √(1 / 2) * (√(2 / Real.pi) * (x * 1 - (1 - x ^ 2) * 0)) := by
      linear_combination (-1) * h - x * e
    exact mul_left_cancel₀ hs this
  | 2 => by
    have h := Q_rec (-1 / 2) (-1 / 2) x 0 half_gt half_gt
    rw [diagZ_equal, off_cheb_zero, off_cheb_succ, Q_cheb x 0, Q_cheb x 1] at h
    have e : √(1 / 2) * (1 / √Real.pi) = √(2 / Real.pi) / 2 := by
      rw [show (1 / √Real.pi) = √(1 / Real.pi) by rw [Real.sqrt_div zero_le_one, Real.sqrt_one], ← Real.sqrt_mul (by norm_num),
        show (1 : ℝ) / 2 * (1 / Real.pi) = (2 / Real.pi) / 2 ^ 2 by ring, Real.sqrt_div (by positivity), Real.sqrt_sq (by norm_num)]
    rw [tw_rec]
    simp only [tw, if_true, one_ne_zero, if_false, zero_add, OfNat.ofNat_ne_zero] at h ⊢
    linear_combination (-2) * h - 2 * e
  | k + 3 => by
    have h := Q_rec (-1 / 2) (-1 / 2) x (k + 1) half_gt half_gt
    rw [diagZ_equal, off_cheb_succ, off_cheb_succ, Q_cheb x (k + 1), Q_cheb x (k + 2)] at h
    rw [tw_rec]
    rw [if_neg (by omega)] at h ⊢
    rw [if_neg (by omega)] at h
    linear_combination (-2) * h

/-- Jacobi polynomials with parameters `-1/2` are the normalised Chebyshev polynomials -/
theorem Q_unitT (k : Nat) (x : ℝ) : Q k (-1 / 2) (-1 / 2) x = Cosine.Spec.unitT k x := by
  rw [Q_cheb, Cosine.Spec.unitT, tw_T]

/-- equal weights on the Chebyshev nodes -/
theorem kernel_cheb (n : Nat) (x : ℝ) (hn : 0 < n) (h : Q n (-1 / 2) (-1 / 2) x = 0) :
    (kernel n (-1 / 2) (-1 / 2) x)⁻¹ = mass (-1 / 2) (-1 / 2) / n := by
  obtain ⟨p, rfl⟩ : ∃ p, n = p + 1 := ⟨n - 1, by omega⟩
  rw [Q_cheb, if_neg (by omega)] at h
  have hpi := Real.pi_pos
  have ht : (tw x (p + 1)).1 = 0 := by
    rcases mul_eq_zero.1 h with h' | h'
    · exact absurd h' (Real.sqrt_pos.2 (by positivity)).ne'
    · exact h'
  have hs := tw_sum x p
  rw [ht, zero_mul, add_zero] at hs
  have : kernel (p + 1) (-1 / 2) (-1 / 2) x = (p + 1) / Real.pi := by
    unfold kernel
    rw [Finset.sum_range_succ', Q_cheb x 0]
    have : ∀ k ∈ Finset.range p, Q (k + 1) (-1 / 2) (-1 / 2) x ^ 2 = 2 / Real.pi * (tw x (k + 1)).1 ^ 2 := by
      intro k _
      rw [Q_cheb, if_neg (by omega), mul_pow, Real.sq_sqrt (by positivity)]
    rw [Finset.sum_congr rfl this, ← Finset.mul_sum]
    rw [if_pos rfl, show (tw x 0).1 = 1 from rfl, mul_one, div_pow, one_pow, Real.sq_sqrt hpi.le]
    field_simp
    linarith
  rw [this, mass_norm, norm2_cheb, inv_div]
  push_cast
  rfl

/-- the updates leave roots alone -/
theorem newton_root (n : Nat) (a b z : ℝ) (ha : -1 < a) (hb : -1 < b) (h : Q n a b z = 0) : newton n a b z = z := by
  unfold newton
  simp only
  rw [polynomials_Q (n + 1) a b z ha hb n (by omega), h]
  simp

/-- grid and weights are those of Gauss quadrature -/
theorem quadrature_gauss (n : Nat) (a b : ℝ) (g : Nat → ℝ) (i : Nat) (ha : -1 < a) (hb : -1 < b) (hg : Roots n a b g) (hi : i < n) :
    quadrature n a b g i = (g i, (kernel n a b (g i))⁻¹) := by
  unfold quadrature
  have hr := newton_root n a b (g i) ha hb (hg.1 i hi)
  by_cases h : a = -1 / 2 ∧ b = -1 / 2
  · rw [if_pos h]
    obtain ⟨rfl, rfl⟩ := h
    rw [kernel_cheb n (g i) (by omega) (hg.1 i hi)]
  · rw [if_neg h, hr, hr, hr, weights_kernel n a b _ ha hb (by omega), ite_self]

theorem quadrature_orthonormal (n : Nat) (a b : ℝ) (g : Nat → ℝ) (ha : -1 < a) (hb : -1 < b) (hg : Roots n a b g) (j k : Nat) (hj : j < n) (hk : k < n) :
    ∑ i ∈ Finset.range n, Q j a b (g i) * (quadrature n a b g i).2 * Q k a b (g i) = if j = k then 1 else 0 := by
  rw [← gauss_orthonormal n a b g ha hb hg j k hj hk]
  apply Finset.sum_congr rfl
  intro i hi
  rw [quadrature_gauss n a b g i ha hb hg (Finset.mem_range.1 hi)]
  ring

end Dedalus.Jacobi
