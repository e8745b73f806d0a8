import Verif.Jacobi.Eigen
import Mathlib.Probability.Distributions.Beta
import Mathlib.MeasureTheory.Integral.IntervalIntegral.IntegrationByParts

namespace Dedalus.Jacobi

open Spec MeasureTheory

theorem beta_integrable (u v : ℝ) (hu : 0 < u) (hv : 0 < v) :
    IntervalIntegrable (fun x : ℝ => x ^ (u - 1) * (1 - x) ^ (v - 1)) volume 0 1 := by
  have h := Complex.betaIntegral_convergent (u := u) (v := v) (by simpa) (by simpa)
  rw [intervalIntegrable_iff_integrableOn_Ioc_of_le zero_le_one] at h ⊢
  refine IntegrableOn.congr_fun (Integrable.re h) ?_ measurableSet_Ioc
  intro x hx
  have e1 : ((x : ℂ)) ^ ((u : ℂ) - 1) = ((x ^ (u - 1) : ℝ) : ℂ) := by
    rw [Complex.ofReal_cpow hx.1.le]; push_cast; rfl
  have e2 : (1 - (x : ℂ)) ^ ((v : ℂ) - 1) = (((1 - x) ^ (v - 1) : ℝ) : ℂ) := by
    rw [Complex.ofReal_cpow (by linarith [hx.2])]; push_cast; rfl
  simp only [e1, e2]
  rw [← Complex.ofReal_mul]
  rfl

theorem beta_integral (u v : ℝ) (hu : 0 < u) (hv : 0 < v) :
    ∫ x in (0 : ℝ)..1, x ^ (u - 1) * (1 - x) ^ (v - 1) = Real.Gamma u * Real.Gamma v / Real.Gamma (u + v) := by
  have h := ProbabilityTheory.beta_eq_betaIntegralReal u v hu hv
  rw [ProbabilityTheory.beta] at h
  rw [h, Complex.betaIntegral]
  have e : ∫ x : ℝ in (0 : ℝ)..1, (x : ℂ) ^ ((u : ℂ) - 1) * (1 - (x : ℂ)) ^ ((v : ℂ) - 1) =
      ∫ x : ℝ in (0 : ℝ)..1, ((x ^ (u - 1) * (1 - x) ^ (v - 1) : ℝ) : ℂ) := by
    apply intervalIntegral.integral_congr
    intro x hx
    rw [Set.uIcc_of_le zero_le_one] at hx
    have e1 : ((x : ℂ)) ^ ((u : ℂ) - 1) = ((x ^ (u - 1) : ℝ) : ℂ) := by
      rw [Complex.ofReal_cpow hx.1]; push_cast; rfl
    have e2 : (1 - (x : ℂ)) ^ ((v : ℂ) - 1) = (((1 - x) ^ (v - 1) : ℝ) : ℂ) := by
      rw [Complex.ofReal_cpow (by linarith [hx.2])]; push_cast; rfl
    simp only [e1, e2]
    rw [← Complex.ofReal_mul]
  rw [e, intervalIntegral.integral_ofReal, Complex.ofReal_re]

theorem W_beta (a b z : ℝ) (hz : z ∈ Set.uIcc (-1 : ℝ) 1) :
    (1 - z) ^ a * (1 + z) ^ b = 2 ^ (a + b) * ((1 / 2 - z / 2) ^ (a + 1 - 1) * (1 - (1 / 2 - z / 2)) ^ (b + 1 - 1)) := by
  rw [Set.uIcc_of_le (by norm_num)] at hz
  rw [show (1 - z) = 2 * (1 / 2 - z / 2) by ring, show (1 + z) = 2 * (1 - (1 / 2 - z / 2)) by ring,
    Real.mul_rpow (by norm_num) (by linarith [hz.2]), Real.mul_rpow (by norm_num) (by linarith [hz.1]),
    Real.rpow_add (by norm_num), show a + 1 - 1 = a by ring, show b + 1 - 1 = b by ring]
  ring

theorem W_integrable (a b : ℝ) (ha : -1 < a) (hb : -1 < b) :
    IntervalIntegrable (fun z : ℝ => (1 - z) ^ a * (1 + z) ^ b) volume (-1) 1 := by
  have h := (beta_integrable (a + 1) (b + 1) (by linarith) (by linarith))
  have h2 := ((h.comp_sub_left (1 / 2)).comp_mul_left (c := 1 / 2)).const_mul ((2 : ℝ) ^ (a + b))
  have : IntervalIntegrable (fun z : ℝ => (1 - z) ^ a * (1 + z) ^ b) volume 1 (-1) := by
    refine IntervalIntegrable.congr ?_ (by convert h2 using 1 <;> norm_num)
    intro z hz
    have hz' : z ∈ Set.uIcc (-1 : ℝ) 1 := by
      rw [Set.uIcc_comm]; exact Set.uIoc_subset_uIcc hz
    have := W_beta a b z hz'
    rw [show z / 2 = 1 / 2 * z by ring] at this
    exact this.symm
  exact this.symm

theorem W_integral (a b : ℝ) (ha : -1 < a) (hb : -1 < b) : ∫ z in (-1 : ℝ)..1, (1 - z) ^ a * (1 + z) ^ b = mass a b := by
  rw [intervalIntegral.integral_congr fun z hz => W_beta a b z hz, intervalIntegral.integral_const_mul]
  have := intervalIntegral.integral_comp_sub_div (a := -1) (b := 1) (fun x : ℝ => x ^ (a + 1 - 1) * (1 - x) ^ (b + 1 - 1))
    (show (2 : ℝ) ≠ 0 by norm_num) (1 / 2)
  rw [this]
  norm_num
  have h := beta_integral (a + 1) (b + 1) (by linarith) (by linarith)
  simp only [add_sub_cancel_right] at h
  rw [h]
  unfold mass
  rw [Real.rpow_add (by norm_num : (0 : ℝ) < 2) (a + b) 1, Real.rpow_one, Real.rpow_add (by norm_num : (0 : ℝ) < 2)]
  ring

/-- the weighted integral of a function -/
noncomputable def integ (a b : ℝ) (f : ℝ → ℝ) : ℝ := ∫ z in (-1 : ℝ)..1, (1 - z) ^ a * (1 + z) ^ b * f z

theorem integ_ok (a b : ℝ) (ha : -1 < a) (hb : -1 < b) (f : ℝ → ℝ) (hf : Continuous f) :
    IntervalIntegrable (fun z : ℝ => (1 - z) ^ a * (1 + z) ^ b * f z) volume (-1) 1 :=
  (W_integrable a b ha hb).mul_continuousOn hf.continuousOn

theorem integ_sum (a b : ℝ) (ha : -1 < a) (hb : -1 < b) (K : Nat) (c : Nat → ℝ) (f : Nat → ℝ → ℝ) (hf : ∀ k, Continuous (f k)) :
    integ a b (fun z => ∑ k ∈ Finset.range K, c k * f k z) = ∑ k ∈ Finset.range K, c k * integ a b (f k) := by
  unfold integ
  have : ∀ z : ℝ, (1 - z) ^ a * (1 + z) ^ b * ∑ k ∈ Finset.range K, c k * f k z =
      ∑ k ∈ Finset.range K, c k * ((1 - z) ^ a * (1 + z) ^ b * f k z) := by
    intro z
    rw [Finset.mul_sum]
    apply Finset.sum_congr rfl
    intro k _
    ring
  simp only [this]
  rw [intervalIntegral.integral_finset_sum fun k _ => (integ_ok a b ha hb (f k) (hf k)).const_mul (c k)]
  apply Finset.sum_congr rfl
  intro k _
  rw [intervalIntegral.integral_const_mul]

theorem integ_power (a b : ℝ) (ha : -1 < a) (hb : -1 < b) (k : Nat) :
    integ a b (fun z => ((z - 1) / 2) ^ k) = (-1 / 2) ^ k * mass (a + k) b := by
  have hk : (0 : ℝ) ≤ k := Nat.cast_nonneg k
  rw [← W_integral (a + k) b (by linarith) hb, ← intervalIntegral.integral_const_mul]
  apply intervalIntegral.integral_congr
  intro z hz
  rw [Set.uIcc_of_le (by norm_num)] at hz
  have hz1 : 0 ≤ 1 - z := by linarith [hz.2]
  simp only
  rcases Nat.eq_zero_or_pos k with rfl | hp
  · simp
  · have hp' : (1 : ℝ) ≤ k := by exact_mod_cast hp
    rw [Real.rpow_add_natCast' hz1 (by linarith), show (z - 1) / 2 = (-1 / 2) * (1 - z) by ring, mul_pow]
    ring

theorem Q_continuous (n : Nat) (a b : ℝ) : Continuous (Q n a b) := by
  unfold Q P
  fun_prop

/-- Vandermonde's sum, by telescoping -/
theorem telescoped (n : Nat) (hn : 0 < n) (a b : ℝ) (ha : -1 < a) (hb : -1 < b) (K : Nat) :
    (n * (n + a + b + 1)) * ∑ k ∈ Finset.range K, coef n k a b * ((-1 / 2) ^ k * mass (a + k) b) =
      -(K * (K + a + b + 1)) * (coef n K a b * ((-1 / 2) ^ K * mass (a + K) b)) := by
  induction K with
  | zero => simp
  | succ K ih =>
    rw [Finset.sum_range_succ, mul_add, ih]
    have hK : (0 : ℝ) ≤ K := Nat.cast_nonneg K
    have hm : mass (a + (K + 1 : Nat)) b = 2 * (a + K + 1) / (a + K + b + 2) * mass (a + K) b := by
      unfold mass
      push_cast
      have g1 : Real.Gamma ((a + K + 1) + 1) = (a + K + 1) * Real.Gamma (a + K + 1) := Real.Gamma_add_one (by linarith)
      have g2 : Real.Gamma ((a + K + b + 2) + 1) = (a + K + b + 2) * Real.Gamma (a + K + b + 2) := Real.Gamma_add_one (by linarith)
      rw [show a + ((K : ℝ) + 1) + 1 = (a + K + 1) + 1 by ring, g1,
        show a + (K : ℝ) + 1 + 1 + (b + 1) = (a + K + b + 2) + 1 by ring, g2,
        show a + ((K : ℝ) + 1) + b + 1 = (a + K + b + 1) + 1 by ring, Real.rpow_add (by norm_num), Real.rpow_one,
        show a + (K : ℝ) + 1 + (b + 1) = a + K + b + 2 by ring]
      have : Real.Gamma (a + K + b + 2) ≠ 0 := (Real.Gamma_pos_of_pos (by linarith)).ne'
      have : a + (K : ℝ) + b + 2 ≠ 0 := by linarith
      field_simp
    have hc : coef n (K + 1) a b * ((K + 1) * (a + K + 1)) = coef n K a b * ((n - K) * (n + a + b + 1 + K)) := by
      unfold coef
      rcases Nat.lt_or_ge n K with h | h
      · rw [if_neg (by omega), if_neg (by omega)]; ring
      rcases Nat.eq_or_lt_of_le h with rfl | h
      · rw [if_neg (by omega)]; ring
      · obtain ⟨d, rfl⟩ : ∃ d, n = K + 1 + d := ⟨n - K - 1, by omega⟩
        rw [if_pos (by omega), if_pos (by omega), show K + 1 + d - (K + 1) = d by omega, show K + 1 + d - K = d + 1 by omega,
          Nat.factorial_succ, Nat.factorial_succ]
        have e1 : poch ((K + 1 + d : Nat) + a + b + 1) (K + 1) = poch ((K + 1 + d : Nat) + a + b + 1) K * ((K + 1 + d : Nat) + a + b + 1 + K) := by
          unfold poch; rw [Finset.prod_range_succ]
        have e2 : poch (a + K + 1) (d + 1) = (a + K + 1) * poch (a + (K + 1 : Nat) + 1) d := by
          unfold poch
          rw [Finset.prod_range_succ']
          rw [mul_comm]
          congr 1
          · simp
          · apply Finset.prod_congr rfl
            intro i _
            push_cast
            ring
        rw [e1, e2]
        have f1 : (K.factorial : ℝ) ≠ 0 := by exact_mod_cast Nat.factorial_ne_zero K
        have f2 : (d.factorial : ℝ) ≠ 0 := by exact_mod_cast Nat.factorial_ne_zero d
        push_cast
        have f3 : (d : ℝ) + 1 ≠ 0 := by positivity
        have f4 : (K : ℝ) + 1 ≠ 0 := by positivity
        field_simp
        ring
    rw [hm, pow_succ]
    push_cast
    have p : a + (K : ℝ) + b + 2 ≠ 0 := by linarith
    have e : (a + (K : ℝ) + b + 2)⁻¹ * (a + K + b + 2) = 1 := inv_mul_cancel₀ p
    rw [show 2 * (a + (K : ℝ) + 1) / (a + K + b + 2) = 2 * (a + K + 1) * (a + K + b + 2)⁻¹ from rfl]
    linear_combination (-(1 : ℝ)) * ((-1 / 2) ^ K * mass (a + K) b) * hc -
      coef n (K + 1) a b * ((K + 1) * (a + K + 1)) * ((-1 / 2) ^ K * mass (a + K) b) * e

theorem integ_P (n : Nat) (hn : 0 < n) (a b : ℝ) (ha : -1 < a) (hb : -1 < b) : integ a b (P n a b) = 0 := by
  have h := integ_sum a b ha hb (n + 1) (fun k => coef n k a b) (fun k z => ((z - 1) / 2) ^ k) (fun k => by fun_prop)
  change integ a b (P n a b) = _ at h
  rw [h]
  have t := telescoped n hn a b ha hb (n + 1)
  rw [coef_lt n (n + 1) a b (by omega), zero_mul, mul_zero] at t
  have hn' : (1 : ℝ) ≤ n := by exact_mod_cast hn
  rcases mul_eq_zero.1 t with t | t
  · exfalso
    have : (0 : ℝ) < n * (n + a + b + 1) := mul_pos (by linarith) (by linarith)
    linarith
  · rw [← t]
    apply Finset.sum_congr rfl
    intro k _
    rw [integ_power a b ha hb k]

theorem integ_Q (n : Nat) (a b : ℝ) (ha : -1 < a) (hb : -1 < b) : integ a b (Q n a b) = if n = 0 then 1 / Q 0 a b 0 else 0 := by
  have e : integ a b (Q n a b) = (1 / √(norm2 n a b)) * integ a b (P n a b) := by
    unfold integ
    rw [← intervalIntegral.integral_const_mul]
    apply intervalIntegral.integral_congr
    intro z _
    simp only [Q]
    ring
  rw [e]
  by_cases h : n = 0
  · subst h
    rw [if_pos rfl, Q, P_zero]
    have : integ a b (P 0 a b) = mass a b := by
      rw [← W_integral a b ha hb]
      apply intervalIntegral.integral_congr
      intro z _
      simp only [P_zero, mul_one]
    rw [this, mass_norm]
    have hp := norm2_pos 0 a b ha hb
    have hs := sq_pos 0 a b ha hb
    field_simp
    exact (Real.sq_sqrt hp.le).symm
  · rw [if_neg h, integ_P n (by omega) a b ha hb, mul_zero]

end Dedalus.Jacobi
