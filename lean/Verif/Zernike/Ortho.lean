import Verif.Zernike.Lemmas
import Mathlib.MeasureTheory.Function.Jacobian

namespace Dedalus.Zernike

open Jacobi Jacobi.Spec Spec MeasureTheory

theorem image_sq : (fun r : ℝ => 2 * r ^ 2 - 1) '' Set.Ioo 0 1 = Set.Ioo (-1) 1 := by
  ext z
  constructor
  · rintro ⟨r, ⟨h0, h1⟩, rfl⟩
    constructor <;> simp only <;> nlinarith
  · rintro ⟨h0, h1⟩
    have hp : 0 < (z + 1) / 2 := by linarith
    refine ⟨√((z + 1) / 2), ⟨Real.sqrt_pos.2 hp, ?_⟩, ?_⟩
    · rw [Real.sqrt_lt' one_pos]; linarith
    · simp only
      rw [Real.sq_sqrt hp.le]
      ring

/-- integrals over the radius -/
theorem integral_radius (f : ℝ → ℝ) : ∫ z in (-1 : ℝ)..1, f z = ∫ r in (0 : ℝ)..1, 4 * r * f (2 * r ^ 2 - 1) := by
  rw [intervalIntegral.integral_of_le (by norm_num), intervalIntegral.integral_of_le (by norm_num), integral_Ioc_eq_integral_Ioo,
    integral_Ioc_eq_integral_Ioo, ← image_sq]
  have h := integral_image_eq_integral_abs_deriv_smul (s := Set.Ioo (0 : ℝ) 1) (f := fun r : ℝ => 2 * r ^ 2 - 1) (f' := fun r => 4 * r) measurableSet_Ioo
    (fun x _ => by
      have := (((hasDerivAt_id x).pow 2).const_mul 2).sub_const 1
      refine (this.congr_deriv ?_).hasDerivWithinAt
      simp only [id]
      push_cast
      ring)
    (by
      intro x hx y hy hxy
      simp only at hxy
      have : (x - y) * (x + y) = 0 := by linarith
      rcases mul_eq_zero.1 this with h | h
      · linarith
      · have := hx.1; have := hy.1; linarith) f
  rw [h]
  apply setIntegral_congr_fun measurableSet_Ioo
  intro r hr
  simp only [smul_eq_mul]
  rw [abs_of_pos (by have := hr.1; linarith)]

/-- the weights of the two variables -/
theorem weight_radius (dim l : Nat) (k r : ℝ) (h0 : 0 < r) (h1 : r < 1) :
    4 * r * ((1 - (2 * r ^ 2 - 1)) ^ k * (1 + (2 * r ^ 2 - 1)) ^ ((l : ℝ) + (dim : ℝ) / 2 - 1)) * r =
      (2 : ℝ) ^ (k + l + (dim : ℝ) / 2 + 1) * ((1 - r ^ 2) ^ k * r ^ dim * (r ^ l * r ^ l)) := by
  have hp : 0 < 1 - r ^ 2 := by nlinarith
  have e1 : (1 - (2 * r ^ 2 - 1)) = 2 * (1 - r ^ 2) := by ring
  have e2 : (1 + (2 * r ^ 2 - 1)) = 2 * (r ^ 2) := by ring
  rw [e1, e2, Real.mul_rpow (by norm_num) hp.le, Real.mul_rpow (by norm_num) (by positivity)]
  have e3 : (r ^ 2) ^ ((l : ℝ) + (dim : ℝ) / 2 - 1) * r ^ 2 = r ^ dim * (r ^ l * r ^ l) := by
    rw [← Real.rpow_natCast r 2, ← Real.rpow_mul h0.le, ← Real.rpow_add h0, ← pow_add, ← pow_add, ← Real.rpow_natCast r (dim + (l + l))]
    congr 1
    push_cast
    ring
  have e4 : (2 : ℝ) ^ (k + l + (dim : ℝ) / 2 + 1) = 4 * (2 ^ k * 2 ^ ((l : ℝ) + (dim : ℝ) / 2 - 1)) := by
    rw [← Real.rpow_add (by norm_num), show k + (l : ℝ) + (dim : ℝ) / 2 + 1 = 2 + (k + ((l : ℝ) + (dim : ℝ) / 2 - 1)) by ring,
      Real.rpow_add (by norm_num) 2]
    norm_num
  rw [e4]
  linear_combination (4 * 2 ^ k * 2 ^ ((l : ℝ) + (dim : ℝ) / 2 - 1) * (1 - r ^ 2) ^ k) * e3

/-- products of two functions as functions of `z` -/
theorem Z_mul (dim n n' l : Nat) (k r : ℝ) : Z dim n k l r * Z dim n' k l r =
    (2 : ℝ) ^ (k + l + (dim : ℝ) / 2 + 1) * (r ^ l * r ^ l) *
      (Q n k (l + (dim : ℝ) / 2 - 1) (2 * r ^ 2 - 1) * Q n' k (l + (dim : ℝ) / 2 - 1) (2 * r ^ 2 - 1)) := by
  rw [Z_eq, Z_eq, ← cst_sq]
  ring

theorem Z_orthonormal (dim n n' l : Nat) (k : ℝ) (hd : 0 < dim) (hk : -1 < k) :
    ∫ r in (0 : ℝ)..1, Z dim n k l r * Z dim n' k l r * ((1 - r ^ 2) ^ k * r ^ (dim - 1)) = if n = n' then 1 else 0 := by
  rw [← Q_orthonormal n n' k _ hk (b_gt dim l hd), integ, integral_radius]
  rw [intervalIntegral.integral_of_le (by norm_num), intervalIntegral.integral_of_le (by norm_num), integral_Ioc_eq_integral_Ioo,
    integral_Ioc_eq_integral_Ioo]
  apply setIntegral_congr_fun measurableSet_Ioo
  intro r hr
  simp only
  have hw := weight_radius dim l k r hr.1 hr.2
  rw [Z_mul]
  obtain ⟨d, rfl⟩ : ∃ d, dim = d + 1 := ⟨dim - 1, by omega⟩
  rw [Nat.add_sub_cancel]
  rw [pow_succ r d] at hw
  have hr0 := hr.1.ne'
  apply mul_right_cancel₀ hr0
  generalize Q n k _ _ = q
  generalize Q n' k _ _ = q'
  linear_combination (-(q * q')) * hw

end Dedalus.Zernike
