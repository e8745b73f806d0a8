import Verif.Zernike.Calculus
import Verif.Zernike.Props

/-!
# Properties of operators on the disk
-/

namespace Dedalus.Zernike

open Jacobi Jacobi.Spec Spec

/-! ## C70: vector calculus on the disk -/

/-- The spin weight of component 0, 1 of a vector. -/
def Spec.spinOf (comp : Nat) : Int := if comp = 0 then -1 else 1

/-- The gradient of a component of any spin weight `s`: its components are the derivatives along `(e_r ± i e_φ) / √2`. -/
theorem disk_gradient_spin (radius : ℝ) (hR : radius ≠ 0) (N k : Nat) (alpha : ℝ) (ha : -1 < alpha) (m s : Int) (comp : Nat) (hc : comp < 2) (c : Nat → ℂ) (r : ℝ)
    (hr : 0 < r) : ∃ A, gradientMatrix radius N k alpha comp m s = some A ∧
    HasPlaneDeriv (spinOf comp) m s (radial 2 N radius (alpha + k) (m + s).natAbs c)
      (radial 2 N radius (alpha + (derivativeK k 1 : Nat)) (m + (s + spinOf comp)).natAbs (apply N A c) r) r := by
  unfold gradientMatrix spinOf derivativeK
  rcases (by omega : comp = 0 ∨ comp = 1) with rfl | rfl
  · refine ⟨_, rfl, ?_⟩
    have := ladder_step radius hR N k alpha ha (-1) m s (Or.inr rfl) c r hr
    rwa [add_assoc] at this
  · refine ⟨_, rfl, ?_⟩
    have := ladder_step radius hR N k alpha ha 1 m s (Or.inl rfl) c r hr
    rwa [add_assoc] at this

/-- The divergence matrices are the derivatives along the direction opposite to that of the component they contract. -/
theorem disk_divergence_spin (radius : ℝ) (hR : radius ≠ 0) (N k : Nat) (alpha : ℝ) (ha : -1 < alpha) (m s : Int) (comp : Nat) (hc : comp < 2) (c : Nat → ℂ) (r : ℝ)
    (hr : 0 < r) : ∃ A, divergenceMatrix radius N k alpha comp m s = some A ∧
    HasPlaneDeriv (-spinOf comp) m s (radial 2 N radius (alpha + k) (m + s).natAbs c)
      (radial 2 N radius (alpha + (derivativeK k 1 : Nat)) (m + (s - spinOf comp)).natAbs (apply N A c) r) r := by
  unfold divergenceMatrix spinOf derivativeK
  rcases (by omega : comp = 0 ∨ comp = 1) with rfl | rfl
  · refine ⟨_, rfl, ?_⟩
    have := ladder_step radius hR N k alpha ha 1 m s (Or.inl rfl) c r hr
    rwa [add_assoc] at this
  · refine ⟨_, rfl, ?_⟩
    have := ladder_step radius hR N k alpha ha (-1) m s (Or.inr rfl) c r hr
    rwa [add_assoc] at this

theorem plane_coef (mu m s : Int) (r : ℝ) : ((mu * (m + s) / r : ℝ) : ℂ) = mu * (m + s) / (r : ℂ) := by
  push_cast; rfl

/-- The gradient of a scalar `F(r) exp(i m φ)`, transformed back to azimuthal and radial components, is `(i m F / r, F')`. -/
theorem disk_gradient (radius : ℝ) (hR : radius ≠ 0) (N k : Nat) (alpha : ℝ) (ha : -1 < alpha) (m : Int) (c : Nat → ℂ) (r : ℝ) (hr : 0 < r) :
    ∃ Am Ap F', gradientMatrix radius N k alpha 0 m 0 = some Am ∧ gradientMatrix radius N k alpha 1 m 0 = some Ap ∧
      HasDerivAt (radial 2 N radius (alpha + k) m.natAbs c) F' r ∧
      Sphere.Spec.component (radial 2 N radius (alpha + (derivativeK k 1 : Nat)) (m - 1).natAbs (apply N Am c) r)
        (radial 2 N radius (alpha + (derivativeK k 1 : Nat)) (m + 1).natAbs (apply N Ap c) r) 0 = Complex.I * m * radial 2 N radius (alpha + k) m.natAbs c r / r ∧
      Sphere.Spec.component (radial 2 N radius (alpha + (derivativeK k 1 : Nat)) (m - 1).natAbs (apply N Am c) r)
        (radial 2 N radius (alpha + (derivativeK k 1 : Nat)) (m + 1).natAbs (apply N Ap c) r) 1 = F' := by
  obtain ⟨Am, hAm, F1, d1, e1⟩ := disk_gradient_spin radius hR N k alpha ha m 0 0 (by norm_num) c r hr
  obtain ⟨Ap, hAp, F2, d2, e2⟩ := disk_gradient_spin radius hR N k alpha ha m 0 1 (by norm_num) c r hr
  obtain rfl := d1.unique d2
  rw [add_zero] at d1
  refine ⟨Am, Ap, F1, hAm, hAp, d1, ?_⟩
  rw [plane_coef] at e1 e2
  rw [show m - 1 = m + (0 + spinOf 0) by simp [spinOf]; ring, show m + 1 = m + (0 + spinOf 1) by simp [spinOf]]
  rw [add_zero] at e1 e2
  rw [Sphere.component_azimuth, Sphere.component_colatitude, e1, e2]
  have hrc : (r : ℂ) ≠ 0 := by exact_mod_cast hr.ne'
  have h2 := Spin.sqrt2_mul
  have h2n := Spin.sqrt2_ne
  generalize radial 2 N radius (alpha + k) m.natAbs c r = F
  generalize ((√2 : ℝ) : ℂ) = t at *
  simp only [spinOf, if_pos, if_neg one_ne_zero]
  constructor
  · field_simp
    push_cast
    linear_combination (-(m : ℂ) * F) * h2
  · field_simp
    push_cast
    linear_combination (-F1 * r) * h2

theorem radial_add (dim N : Nat) (radius k : ℝ) (l : Nat) (c c' : Nat → ℂ) (r : ℝ) :
    radial dim N radius k l (fun n => c n + c' n) r = radial dim N radius k l c r + radial dim N radius k l c' r := by
  unfold radial
  rw [← Finset.sum_add_distrib]
  apply Finset.sum_congr rfl
  intro n _
  ring

/-- The divergence of a vector with components `(Vφ, Vr) exp(i m φ)` is `((r Vr)' + i m Vφ) / r`. -/
theorem disk_divergence (radius : ℝ) (hR : radius ≠ 0) (N k : Nat) (alpha : ℝ) (ha : -1 < alpha) (m : Int) (cm cp : Nat → ℂ) (r : ℝ) (hr : 0 < r) :
    ∃ Am Ap D, divergenceMatrix radius N k alpha 0 m (-1) = some Am ∧ divergenceMatrix radius N k alpha 1 m 1 = some Ap ∧
      HasDerivAt (fun x : ℝ => (x : ℂ) * Sphere.Spec.component (radial 2 N radius (alpha + k) (m - 1).natAbs cm x) (radial 2 N radius (alpha + k) (m + 1).natAbs cp x) 1) D r ∧
      radial 2 N radius (alpha + (derivativeK k 1 : Nat)) m.natAbs (fun n => apply N Am cm n + apply N Ap cp n) r =
        (D + Complex.I * m * Sphere.Spec.component (radial 2 N radius (alpha + k) (m - 1).natAbs cm r) (radial 2 N radius (alpha + k) (m + 1).natAbs cp r) 0) / r := by
  obtain ⟨Am, hAm, F1, d1, e1⟩ := disk_divergence_spin radius hR N k alpha ha m (-1) 0 (by norm_num) cm r hr
  obtain ⟨Ap, hAp, F2, d2, e2⟩ := disk_divergence_spin radius hR N k alpha ha m 1 1 (by norm_num) cp r hr
  rw [← sub_eq_add_neg] at d1
  have hid : HasDerivAt (fun x : ℝ => (x : ℂ)) 1 r := by simpa using (hasDerivAt_id r).ofReal_comp
  have hd := hid.mul ((d1.add d2).div_const ((√2 : ℝ) : ℂ))
  refine ⟨Am, Ap, _, hAm, hAp, hd.congr_of_eventuallyEq (Filter.Eventually.of_forall fun x => by
    simp only [Sphere.component_colatitude, Pi.mul_apply, Pi.add_apply]), ?_⟩
  rw [plane_coef] at e1 e2
  rw [show m + (-1 - spinOf 0) = m by simp [spinOf], show m + -1 = m - 1 by ring] at e1
  rw [show m + (1 - spinOf 1) = m by simp [spinOf]] at e2
  rw [radial_add, e1, e2, Sphere.component_azimuth]
  have hrc : (r : ℂ) ≠ 0 := by exact_mod_cast hr.ne'
  have h2n := Spin.sqrt2_ne
  simp only [Pi.add_apply]
  generalize radial 2 N radius (alpha + k) (m - 1).natAbs cm r = um
  generalize radial 2 N radius (alpha + k) (m + 1).natAbs cp r = up
  generalize ((√2 : ℝ) : ℂ) = t at *
  simp only [spinOf, if_pos, if_neg one_ne_zero]
  have hI := Complex.I_mul_I
  push_cast
  field_simp
  linear_combination -(m : ℂ) * (um - up) * hI

/-- The Laplacian of a component of any spin weight. -/
theorem disk_laplacian (radius : ℝ) (hR : radius ≠ 0) (N k : Nat) (alpha : ℝ) (ha : -1 < alpha) (m s : Int) (c : Nat → ℂ) (r : ℝ) (hr : 0 < r) :
    HasPlaneLaplacian m s (radial 2 N radius (alpha + k) (m + s).natAbs c)
      (radial 2 N radius (alpha + (derivativeK k 2 : Nat)) (m + s).natAbs (apply N (laplacianMatrix radius N k alpha m s) c) r) r :=
  laplacian_step radius hR N k alpha ha m s c r hr

/-- Conversion to a basis with higher `k` does not change the function. -/
theorem disk_conversion (radius : ℝ) (N k dk : Nat) (alpha : ℝ) (ha : -1 < alpha) (m s : Int) (c : Nat → ℂ) (r : ℝ) :
    radial 2 N radius (alpha + (k + dk : Nat)) (m + s).natAbs (apply N (conversionMatrix N k alpha m s dk) c) r =
      radial 2 N radius (alpha + k) (m + s).natAbs c r := by
  have hk : -1 < alpha + (k : ℝ) := by have : (0 : ℝ) ≤ k := Nat.cast_nonneg k; linarith
  rw [radial_sum]
  unfold radial
  apply Finset.sum_congr rfl
  intro n hn
  congr 2
  rw [Z_convert 2 dk N (alpha + k) (m + s).natAbs (r / radius) (by norm_num) hk n (Finset.mem_range.1 hn)]
  apply Finset.sum_congr rfl
  intro i hi
  unfold conversionMatrix square
  have hrows : ((zE 1).pow dk).rows N = N := by
    unfold zE
    rw [if_pos rfl, (smul_pow _ opAp N 0 0 dk).1]
    induction dk with
    | zero => rfl
    | succ d ih => exact ih
  rw [hrows, if_pos (Finset.mem_range.1 hi), Int.abs_eq_natAbs]
  push_cast
  rw [add_assoc]

/-- Interpolation gives the value of the function at every radius other than the centre. -/
theorem disk_interpolation (radius : ℝ) (hR : 0 < radius) (N k : Nat) (alpha : ℝ) (ha : -1 < alpha) (m s : Int) (position : ℝ) (hp : 0 < position) (c : Nat → ℂ) :
    ∑ j ∈ Finset.range N, (interpolation radius N k alpha m s position j : ℂ) * c j = radial 2 N radius (alpha + k) (m + s).natAbs c position := by
  have hk : -1 < alpha + (k : ℝ) := by have : (0 : ℝ) ≤ k := Nat.cast_nonneg k; linarith
  unfold radial
  apply Finset.sum_congr rfl
  intro j hj
  unfold interpolation
  simp only
  rw [Int.abs_eq_natAbs, polynomials_Z 2 N _ _ _ (by norm_num) hk (div_pos hp hR) j (Finset.mem_range.1 hj).le]

theorem constant_mode (k : Nat) (alpha : ℝ) (ha : -1 < alpha) (r : ℝ) : constantModeValue k alpha = Z 2 0 (alpha + k) 0 r ∧ 0 < constantModeValue k alpha := by
  have hk : -1 < alpha + (k : ℝ) := by have : (0 : ℝ) ≤ k := Nat.cast_nonneg k; linarith
  have e : constantModeValue k alpha = Z 2 0 (alpha + k) 0 √(1 / 2) := by
    unfold constantModeValue
    have := polynomials_Z 2 1 (alpha + k) 0 √(1 / 2) (by norm_num) hk (Real.sqrt_pos.2 (by norm_num)) 0 (by norm_num)
    rw [Real.sq_sqrt (by norm_num)] at this
    norm_num at this ⊢
    exact this
  have hconst : ∀ r r' : ℝ, Z 2 0 (alpha + k) 0 r = Z 2 0 (alpha + k) 0 r' := by
    intro r r'
    rw [Z_eq, Z_eq, Q, Q, P_zero, P_zero]
    simp
  refine ⟨e.trans (hconst _ _), ?_⟩
  rw [e, hconst _ 1]
  exact (zernike_functions 2 0 0 (alpha + k) (by norm_num) hk).2.1

/-- A constant `v` becomes the coefficients of the function that is `v` everywhere. -/
theorem disk_constant (radius : ℝ) (N k : Nat) (hN : 0 < N) (alpha : ℝ) (ha : -1 < alpha) (v : ℂ) (r : ℝ) :
    ∃ q : Nat → ℝ, (∀ i, convertConstant k alpha 0 i = some (q i)) ∧ radial 2 N radius (alpha + k) 0 (fun i => (q i : ℂ) * v) r = v := by
  refine ⟨fun i => if i = 0 then 1 / constantModeValue k alpha else 0, fun i => by simp [convertConstant], ?_⟩
  obtain ⟨e, hp⟩ := constant_mode k alpha ha (r / radius)
  unfold radial
  rw [Finset.sum_eq_single 0]
  · beta_reduce
    rw [← e, if_pos rfl]
    push_cast
    have : (constantModeValue k alpha : ℂ) ≠ 0 := by exact_mod_cast hp.ne'
    field_simp
  · intro n _ hn; simp [hn]
  · intro h; exact absurd (Finset.mem_range.2 hN) h

theorem integral_vector (Nc k : Nat) (hNc : 0 < Nc) (alpha : ℝ) (ha : -1 < alpha) (g : Nat → ℝ) (hg : GridGuess Nc 0 0 g) (j : Nat) (hj : j < Nc) :
    integralVector Nc k alpha g j = ∫ r in (0 : ℝ)..1, Z 2 j (alpha + k) 0 r * r := by
  have hk : -1 < alpha + (k : ℝ) := by have : (0 : ℝ) ≤ k := Nat.cast_nonneg k; linarith
  have hg' : GridGuess Nc 0 (((2 : Nat) : ℝ) / 2 - 1) g := by simpa using hg
  have h0 : (-1 : ℝ) < 0 := by norm_num
  have hG := gauss_radial 2 Nc 0 g (by norm_num) h0 hNc hg' (Polynomial.C (cst 2 (alpha + k) 0) * polyQ j (alpha + k) (((0 : Nat) : ℝ) + ((2 : Nat) : ℝ) / 2 - 1))
    (lt_of_le_of_lt ((Polynomial.natDegree_C_mul_le _ _).trans (polyQ_degree _ _ _)) (by omega))
  have e : ∀ r : ℝ, (Polynomial.C (cst 2 (alpha + k) 0) * polyQ j (alpha + k) (((0 : Nat) : ℝ) + ((2 : Nat) : ℝ) / 2 - 1)).eval (2 * r ^ 2 - 1) = Z 2 j (alpha + k) 0 r := by
    intro r
    rw [Polynomial.eval_mul, Polynomial.eval_C, polyQ_eval, Z_eq, pow_zero, mul_one]
  simp only [e, Real.rpow_zero, one_mul, Nat.add_one_sub_one, pow_one] at hG
  rw [← hG]
  unfold integralVector
  apply Finset.sum_congr rfl
  intro i hi
  obtain ⟨hp, -, hz⟩ := grid_eq 2 Nc 0 g (by norm_num) h0 hNc hg' i (Finset.mem_range.1 hi)
  have hn : (nSize Nc 0).toNat = Nc := by unfold nSize; simp
  rw [hn, hz]
  have := polynomials_Z 2 Nc (alpha + k) 0 (radiusGrid 2 Nc 0 g i) (by norm_num) hk hp j hj.le
  rw [Nat.cast_zero] at this
  rw [this]

theorem Z_continuous (dim n l : Nat) (k : ℝ) : Continuous (Z dim n k l) := by
  have := Q_continuous n k ((l : ℝ) + (dim : ℝ) / 2 - 1)
  have h2 : Continuous fun r : ℝ => cst dim k l * r ^ l * Q n k ((l : ℝ) + (dim : ℝ) / 2 - 1) (2 * r ^ 2 - 1) := by
    refine Continuous.mul (by fun_prop) (this.comp (by fun_prop))
  exact h2

/-- ∫ F(r) r^p dr over the radius, by terms. -/
theorem radial_integral (dim N p : Nat) (radius k : ℝ) (hR : 0 < radius) (l : Nat) (c : Nat → ℂ) :
    ∫ r in (0 : ℝ)..radius, radial dim N radius k l c r * (r : ℂ) ^ p =
      ∑ n ∈ Finset.range N, ((radius ^ (p + 1) * ∫ r in (0 : ℝ)..1, Z dim n k l r * r ^ p : ℝ) : ℂ) * c n := by
  have h1 : ∀ n, ∫ r in (0 : ℝ)..radius, ((Z dim n k l (r / radius) * r ^ p : ℝ) : ℂ) * c n =
      ((radius ^ (p + 1) * ∫ r in (0 : ℝ)..1, Z dim n k l r * r ^ p : ℝ) : ℂ) * c n := by
    intro n
    rw [intervalIntegral.integral_mul_const, intervalIntegral.integral_ofReal]
    congr 2
    have := intervalIntegral.integral_comp_div (a := 0) (b := radius) (fun r => Z dim n k l r * (r * radius) ^ p) hR.ne'
    simp only [zero_div, div_self hR.ne', smul_eq_mul] at this
    have e : ∀ r : ℝ, r / radius * radius = r := fun r => by field_simp
    simp only [e] at this
    rw [this]
    have e2 : ∀ r : ℝ, Z dim n k l r * (r * radius) ^ p = radius ^ p * (Z dim n k l r * r ^ p) := fun r => by rw [mul_pow]; ring
    simp only [e2]
    rw [intervalIntegral.integral_const_mul]
    ring
  rw [← Finset.sum_congr rfl fun n _ => h1 n, ← intervalIntegral.integral_finset_sum]
  · apply intervalIntegral.integral_congr
    intro r _
    simp only [radial, Finset.sum_mul]
    apply Finset.sum_congr rfl
    intro n _
    push_cast
    ring
  · intro n _
    apply Continuous.intervalIntegrable
    have := Z_continuous dim n l k
    refine Continuous.mul (Complex.continuous_ofReal.comp (Continuous.mul (this.comp (by fun_prop)) (by fun_prop))) continuous_const

/-- The integral over the disk of the axisymmetric part `F(r)` is `2 π ∫ F(r) r dr`, and the average is this divided by the area. -/
theorem disk_integral (radius : ℝ) (hR : 0 < radius) (Nc k : Nat) (hNc : 0 < Nc) (alpha : ℝ) (ha : -1 < alpha) (g : Nat → ℝ) (hg : GridGuess Nc 0 0 g) (c : Nat → ℂ) :
    ∑ j ∈ Finset.range Nc, (integrate radius Nc k alpha g j : ℂ) * c j = 2 * Real.pi * ∫ r in (0 : ℝ)..radius, radial 2 Nc radius (alpha + k) 0 c r * r ∧
    ∑ j ∈ Finset.range Nc, (average Nc k alpha g j : ℂ) * c j =
      (2 * Real.pi * ∫ r in (0 : ℝ)..radius, radial 2 Nc radius (alpha + k) 0 c r * r) / (Real.pi * radius ^ 2) := by
  have h := radial_integral 2 Nc 1 radius (alpha + k) hR 0 c
  simp only [pow_one] at h
  rw [h, Finset.mul_sum]
  have hRc : (radius : ℂ) ≠ 0 := by exact_mod_cast hR.ne'
  have hpi : (Real.pi : ℂ) ≠ 0 := by exact_mod_cast Real.pi_ne_zero
  constructor
  · apply Finset.sum_congr rfl
    intro j hj
    unfold integrate
    rw [integral_vector Nc k hNc alpha ha g hg j (Finset.mem_range.1 hj)]
    push_cast
    ring
  · rw [Finset.sum_div]
    apply Finset.sum_congr rfl
    intro j hj
    unfold average
    rw [integral_vector Nc k hNc alpha ha g hg j (Finset.mem_range.1 hj)]
    push_cast
    field_simp

/-- Lifting multiplies the boundary value by the function of index `n`, counted from the end if `n` is negative. -/
theorem disk_lift (radius : ℝ) (N k : Nat) (alpha : ℝ) (l : Nat) (n : Int) (h : -(N : Int) ≤ n ∧ n < N) (tau : ℂ) (r : ℝ) :
    ∃ q : Nat → ℝ, (∀ i, lift N n i = some (q i)) ∧ ∃ j : Nat, j < N ∧ (j : Int) = (if n < 0 then N + n else n) ∧
      radial 2 N radius (alpha + k) l (fun i => (q i : ℂ) * tau) r = (Z 2 j (alpha + k) l (r / radius) : ℂ) * tau := by
  obtain ⟨j, hj, hjN⟩ : ∃ j : Nat, (j : Int) = (if n < 0 then N + n else n) ∧ j < N := by
    refine ⟨(if n < 0 then N + n else n).toNat, ?_, ?_⟩ <;> split <;> omega
  have hj' : ∀ i : Nat, ((i : Int) = (if n < 0 then n + N else n)) ↔ i = j := by
    intro i; split at hj <;> split <;> omega
  refine ⟨fun i => if i = j then 1 else 0, fun i => by unfold lift; rw [if_pos h]; simp only [hj'], j, hjN, hj, ?_⟩
  unfold radial
  rw [Finset.sum_eq_single j]
  · beta_reduce; rw [if_pos rfl]; push_cast; ring
  · intro i _ hi; simp [hi]
  · intro hh; exact absurd (Finset.mem_range.2 hjN) hh

example (r : ℝ) (hr : 0 < r) := disk_gradient 2 (by norm_num) 5 1 0 (by norm_num) 3 (fun n => if n = 2 then 1 else 0) r hr
example : -(5 : Int) ≤ -1 ∧ (-1 : Int) < 5 := by decide

end Dedalus.Zernike
