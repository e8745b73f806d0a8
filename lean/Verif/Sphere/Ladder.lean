import Verif.Sphere.Lemmas
import Mathlib.Analysis.SpecialFunctions.Trigonometric.Deriv

namespace Dedalus.Sphere

open Jacobi Jacobi.Spec

/-- `√(1 - cos θ)` and `√(1 + cos θ)` as functions of the half angle -/
noncomputable def hu (θ : ℝ) : ℝ := √2 * Real.sin (θ / 2)
noncomputable def hv (θ : ℝ) : ℝ := √2 * Real.cos (θ / 2)

theorem two_sq : √(2 : ℝ) ^ 2 = 2 := Real.sq_sqrt (by norm_num)

theorem hu_sq (θ : ℝ) : hu θ ^ 2 = 1 - Real.cos θ := by
  have h : Real.cos θ = 2 * Real.cos (θ / 2) ^ 2 - 1 := by
    rw [← Real.cos_two_mul]; congr 1; ring
  rw [hu, mul_pow, two_sq, h]
  linear_combination 2 * Real.sin_sq_add_cos_sq (θ / 2)

theorem hv_sq (θ : ℝ) : hv θ ^ 2 = 1 + Real.cos θ := by
  have h : Real.cos θ = 2 * Real.cos (θ / 2) ^ 2 - 1 := by
    rw [← Real.cos_two_mul]; congr 1; ring
  rw [hv, mul_pow, two_sq, h]
  ring

theorem hu_hv (θ : ℝ) : hu θ * hv θ = Real.sin θ := by
  have h : Real.sin θ = 2 * Real.sin (θ / 2) * Real.cos (θ / 2) := by
    rw [← Real.sin_two_mul]; congr 1; ring
  rw [hu, hv, h]
  linear_combination (Real.sin (θ / 2) * Real.cos (θ / 2)) * two_sq

theorem hu_pos (θ : ℝ) (h0 : 0 < θ) (h1 : θ < Real.pi) : 0 < hu θ :=
  mul_pos (by positivity) (Real.sin_pos_of_pos_of_lt_pi (by linarith) (by linarith))

theorem hv_pos (θ : ℝ) (h0 : 0 < θ) (h1 : θ < Real.pi) : 0 < hv θ :=
  mul_pos (by positivity) (Real.cos_pos_of_mem_Ioo ⟨by linarith, by linarith⟩)

theorem hu_deriv (θ : ℝ) : HasDerivAt hu (hv θ / 2) θ := by
  have h : HasDerivAt (fun x : ℝ => x / 2) (1 / 2) θ := (hasDerivAt_id θ).div_const 2
  have := (h.sin).const_mul (√2)
  refine this.congr_deriv ?_
  rw [hv]; ring

theorem hv_deriv (θ : ℝ) : HasDerivAt hv (-hu θ / 2) θ := by
  have h : HasDerivAt (fun x : ℝ => x / 2) (1 / 2) θ := (hasDerivAt_id θ).div_const 2
  have := (h.cos).const_mul (√2)
  refine this.congr_deriv ?_
  rw [hu]; ring

/-- the harmonic in terms of the half angle -/
noncomputable def H (n a b : Nat) (θ : ℝ) : ℝ := hu θ ^ a * hv θ ^ b * Q n a b (Real.cos θ)

/-- its derivative -/
noncomputable def dH (n a b : Nat) (θ : ℝ) : ℝ :=
  hu θ ^ a * hv θ ^ b * ((a * hv θ / (2 * hu θ) - b * hu θ / (2 * hv θ)) * Q n a b (Real.cos θ) - hu θ * hv θ * dQ n a b (Real.cos θ))

theorem pow_deriv (f : ℝ → ℝ) (f' θ : ℝ) (h : HasDerivAt f f' θ) (hf : f θ ≠ 0) (n : Nat) :
    HasDerivAt (fun x => f x ^ n) (f θ ^ n * (n * f' / f θ)) θ := by
  refine (h.pow n).congr_deriv ?_
  rcases n with _ | n
  · simp
  · rw [Nat.add_sub_cancel, pow_succ]
    field_simp

theorem H_deriv (n a b : Nat) (θ : ℝ) (h0 : 0 < θ) (h1 : θ < Real.pi) : HasDerivAt (H n a b) (dH n a b θ) θ := by
  have hu0 := (hu_pos θ h0 h1).ne'
  have hv0 := (hv_pos θ h0 h1).ne'
  have d1 := pow_deriv hu _ θ (hu_deriv θ) hu0 a
  have d2 := pow_deriv hv _ θ (hv_deriv θ) hv0 b
  have d3 : HasDerivAt (fun x => Q n a b (Real.cos x)) (dQ n a b (Real.cos θ) * -Real.sin θ) θ :=
    (dQ_spec n a b (Real.cos θ)).comp θ (Real.hasDerivAt_cos θ)
  refine ((d1.mul d2).mul d3).congr_deriv ?_
  simp only [Pi.mul_apply]
  rw [← hu_hv, dH]
  generalize hu θ ^ a = A
  generalize hv θ ^ b = B
  field_simp
  ring

theorem H_Cp (n a b : Nat) (θ : ℝ) (h0 : 0 < θ) (h1 : θ < Real.pi) :
    dH n a (b + 1) θ - (a * hv θ ^ 2 + (b + 1 : Nat) * hu θ ^ 2) / (2 * (hu θ * hv θ)) * H n a (b + 1) θ =
      -√((n + b + 1) * (n + a + 1)) * H n (a + 1) b θ := by
  have hu0 := (hu_pos θ h0 h1).ne'
  have hv0 := (hv_pos θ h0 h1).ne'
  have h := Q_Cp n a b (Real.cos θ) (by have : (0 : ℝ) ≤ a := Nat.cast_nonneg a; linarith) (by have : (0 : ℝ) ≤ b := Nat.cast_nonneg b; linarith)
  rw [← hv_sq] at h
  rw [dH, H, H, pow_succ (hv θ) b, pow_succ (hu θ) a]
  push_cast at *
  generalize hu θ ^ a = A
  generalize hv θ ^ b = B
  generalize Q n a (b + 1) (Real.cos θ) = q at *
  generalize dQ n a (b + 1) (Real.cos θ) = d at *
  generalize Q n (a + 1) b (Real.cos θ) = t at *
  generalize √(((n : ℝ) + b + 1) * (n + a + 1)) = r at *
  generalize hu θ = u at *
  generalize hv θ = v at *
  field_simp
  linear_combination (-2 * A * B * u ^ 2) * h

theorem H_Cm (n a b : Nat) (θ : ℝ) (h0 : 0 < θ) (h1 : θ < Real.pi) :
    dH n (a + 1) b θ - (-(a + 1 : Nat) * hv θ ^ 2 - b * hu θ ^ 2) / (2 * (hu θ * hv θ)) * H n (a + 1) b θ =
      √((n + a + 1) * (n + b + 1)) * H n a (b + 1) θ := by
  have hu0 := (hu_pos θ h0 h1).ne'
  have hv0 := (hv_pos θ h0 h1).ne'
  have h := Q_Cm n a b (Real.cos θ) (by have : (0 : ℝ) ≤ a := Nat.cast_nonneg a; linarith) (by have : (0 : ℝ) ≤ b := Nat.cast_nonneg b; linarith)
  rw [← hu_sq] at h
  rw [dH, H, H, pow_succ (hv θ) b, pow_succ (hu θ) a]
  push_cast at *
  generalize hu θ ^ a = A
  generalize hv θ ^ b = B
  generalize Q n (a + 1) b (Real.cos θ) = q at *
  generalize dQ n (a + 1) b (Real.cos θ) = d at *
  generalize Q n a (b + 1) (Real.cos θ) = t at *
  generalize √(((n : ℝ) + a + 1) * (n + b + 1)) = r at *
  generalize hu θ = u at *
  generalize hv θ = v at *
  field_simp
  linear_combination (2 * A * B * v ^ 2) * h

theorem H_Dp (n a b : Nat) (θ : ℝ) (h0 : 0 < θ) (h1 : θ < Real.pi) :
    dH (n + 1) a b θ - (a * hv θ ^ 2 - b * hu θ ^ 2) / (2 * (hu θ * hv θ)) * H (n + 1) a b θ =
      -√((n + 1) * (n + a + b + 2)) * H n (a + 1) (b + 1) θ := by
  have hu0 := (hu_pos θ h0 h1).ne'
  have hv0 := (hv_pos θ h0 h1).ne'
  have h := Q_Dp n a b (Real.cos θ) (by have : (0 : ℝ) ≤ a := Nat.cast_nonneg a; linarith) (by have : (0 : ℝ) ≤ b := Nat.cast_nonneg b; linarith)
  rw [dH, H, H, h, pow_succ (hv θ) b, pow_succ (hu θ) a]
  push_cast at *
  generalize hu θ ^ a = A
  generalize hv θ ^ b = B
  generalize Q (n + 1) a b (Real.cos θ) = q at *
  generalize Q n (a + 1) (b + 1) (Real.cos θ) = t at *
  generalize √(((n : ℝ) + 1) * (n + a + b + 2)) = r at *
  generalize hu θ = u at *
  generalize hv θ = v at *
  field_simp
  ring

theorem H_Dp_zero (a b : Nat) (θ : ℝ) (h0 : 0 < θ) (h1 : θ < Real.pi) :
    dH 0 a b θ - (a * hv θ ^ 2 - b * hu θ ^ 2) / (2 * (hu θ * hv θ)) * H 0 a b θ = 0 := by
  have hu0 := (hu_pos θ h0 h1).ne'
  have hv0 := (hv_pos θ h0 h1).ne'
  rw [dH, H, dQ_zero]
  generalize hu θ ^ a = A
  generalize hv θ ^ b = B
  field_simp
  ring

theorem H_Dm (n a b : Nat) (θ : ℝ) (h0 : 0 < θ) (h1 : θ < Real.pi) :
    dH n (a + 1) (b + 1) θ - (-(a + 1 : Nat) * hv θ ^ 2 + (b + 1 : Nat) * hu θ ^ 2) / (2 * (hu θ * hv θ)) * H n (a + 1) (b + 1) θ =
      √((n + 1) * (n + a + b + 2)) * H (n + 1) a b θ := by
  have hu0 := (hu_pos θ h0 h1).ne'
  have hv0 := (hv_pos θ h0 h1).ne'
  have h := Q_Dm n a b (Real.cos θ) (by have : (0 : ℝ) ≤ a := Nat.cast_nonneg a; linarith) (by have : (0 : ℝ) ≤ b := Nat.cast_nonneg b; linarith)
  rw [← hu_sq, ← hv_sq] at h
  rw [dH, H, H, pow_succ (hv θ) b, pow_succ (hu θ) a]
  push_cast at *
  generalize hu θ ^ a = A
  generalize hv θ ^ b = B
  generalize Q n (a + 1) (b + 1) (Real.cos θ) = q at *
  generalize dQ n (a + 1) (b + 1) (Real.cos θ) = d at *
  generalize Q (n + 1) a b (Real.cos θ) = t at *
  generalize √(((n : ℝ) + 1) * (n + a + b + 2)) = r at *
  generalize hu θ = u at *
  generalize hv θ = v at *
  field_simp
  linear_combination (2 * A * B) * h

end Dedalus.Sphere
