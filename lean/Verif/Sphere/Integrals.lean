import Verif.Sphere.Transform
import Verif.Sphere.Calculus
import Mathlib.MeasureTheory.Integral.IntervalIntegral.IntegrationByParts
import Mathlib.Analysis.SpecialFunctions.Trigonometric.Deriv

namespace Dedalus.Sphere

open Jacobi Jacobi.Spec Spec

theorem Y_continuous (l : Nat) (m s : Int) : Continuous (Y l m s) := by
  unfold Y
  have h := Q_continuous (l - max m.natAbs s.natAbs) (m + s).natAbs (m - s).natAbs
  have h2 : Continuous fun z : ℝ => √((1 - z) ^ (m + s).natAbs * (1 + z) ^ (m - s).natAbs) := by fun_prop
  exact (continuous_const.mul h2).mul h

/-- multiplication by the cosine of a harmonic -/
theorem cos_expand (Lmax l : Nat) (m s : Int) (hl : max m.natAbs s.natAbs ≤ l) (hL : l ≤ Lmax) (z : ℝ) :
    z * Y l m s z = ∑ i ∈ Finset.range (Lmax + 1 - max m.natAbs s.natAbs + 1), operatorCos Lmax m s i (l - max m.natAbs s.natAbs) *
      Y (max m.natAbs s.natAbs + i) m s z := by
  have ha : (-1 : ℝ) < ((m + s).natAbs : ℝ) := by have : (0 : ℝ) ≤ ((m + s).natAbs : ℝ) := Nat.cast_nonneg _; linarith
  have hb : (-1 : ℝ) < ((m - s).natAbs : ℝ) := by have : (0 : ℝ) ≤ ((m - s).natAbs : ℝ) := Nat.cast_nonneg _; linarith
  have h : z * Q (l - max m.natAbs s.natAbs) (m + s).natAbs (m - s).natAbs z =
      ∑ i ∈ Finset.range (Lmax + 1 - max m.natAbs s.natAbs + 1), opZ.entry (Lmax + 1 - max m.natAbs s.natAbs) (m + s).natAbs (m - s).natAbs i (l - max m.natAbs s.natAbs) *
        Q i (((m + s).natAbs : ℝ) + 0) (((m - s).natAbs : ℝ) + 0) z :=
    rep_Z _ _ ha hb (Lmax + 1 - max m.natAbs s.natAbs) (l - max m.natAbs s.natAbs) z (by omega)
  have e : ∀ i j, operatorCos Lmax m s i j = opZ.entry (Lmax + 1 - max m.natAbs s.natAbs) (m + s).natAbs (m - s).natAbs i j := by
    intro i j
    unfold operatorCos spin2Jacobi
    simp only [Int.abs_eq_natAbs, Int.cast_natCast]
    congr 1
    omega
  unfold Y
  rw [mul_left_comm, h, Finset.mul_sum]
  apply Finset.sum_congr rfl
  intro i _
  rw [e, show max m.natAbs s.natAbs + i - max m.natAbs s.natAbs = i by omega, add_zero, add_zero]
  ring

theorem cos_entry (Lmax l : Nat) (m s : Int) (hl : max m.natAbs s.natAbs ≤ l) (hL : l ≤ Lmax) (i : Nat) (hi : i < Lmax + 1 - max m.natAbs s.natAbs + 1) :
    operatorCos Lmax m s i (l - max m.natAbs s.natAbs) = ∫ z in (-1 : ℝ)..1, z * Y l m s z * Y (max m.natAbs s.natAbs + i) m s z := by
  have h : ∀ z, z * Y l m s z * Y (max m.natAbs s.natAbs + i) m s z = ∑ r ∈ Finset.range (Lmax + 1 - max m.natAbs s.natAbs + 1),
      operatorCos Lmax m s r (l - max m.natAbs s.natAbs) * (Y (max m.natAbs s.natAbs + r) m s z * Y (max m.natAbs s.natAbs + i) m s z) := by
    intro z
    rw [cos_expand Lmax l m s hl hL, Finset.sum_mul]
    simp only [mul_assoc]
  simp only [h]
  have hint : ∀ r ∈ Finset.range (Lmax + 1 - max m.natAbs s.natAbs + 1), IntervalIntegrable
      (fun z => operatorCos Lmax m s r (l - max m.natAbs s.natAbs) * (Y (max m.natAbs s.natAbs + r) m s z * Y (max m.natAbs s.natAbs + i) m s z)) MeasureTheory.volume (-1) 1 :=
    fun r _ => Continuous.intervalIntegrable (continuous_const.mul ((Y_continuous _ m s).mul (Y_continuous _ m s))) _ _
  rw [intervalIntegral.integral_finset_sum hint]
  simp only [intervalIntegral.integral_const_mul]
  rw [Finset.sum_eq_single i]
  · rw [Y_orthonormal _ _ m s (by omega) (by omega), if_pos rfl, mul_one]
  · intro r _ hr
    rw [Y_orthonormal _ _ m s (by omega) (by omega), if_neg (by omega), mul_zero]
  · intro hn; exact absurd (Finset.mem_range.2 hi) hn

theorem Y_zero (z : ℝ) : Y 0 0 0 z = 1 / √2 := by
  have e : Y 0 0 0 z = Q 0 0 0 z := by simp [Y]
  rw [e, Q, P, norm2, weight]
  have h2 : Real.Gamma 2 = 1 := Real.Gamma_two
  simp [Finset.sum_range_succ, coef, poch, h2]

theorem Y_mean (l : Nat) : ∫ z in (-1 : ℝ)..1, Y l 0 0 z = if l = 0 then √2 else 0 := by
  have h := Y_orthonormal l 0 0 0 (by simp) (by simp)
  simp only [Y_zero, intervalIntegral.integral_mul_const] at h
  have h2 : (0 : ℝ) < √2 := Real.sqrt_pos.2 (by norm_num)
  split_ifs at h ⊢
  · field_simp at h; exact h
  · rcases mul_eq_zero.1 h with h | h
    · exact h
    · exact absurd h (by positivity)

/-- change of variable from colatitude to its cosine -/
theorem colatitude_integral (f : ℝ → ℝ) (hf : Continuous f) : ∫ x in (0 : ℝ)..Real.pi, f (Real.cos x) * Real.sin x = ∫ z in (-1 : ℝ)..1, f z := by
  have h := intervalIntegral.integral_comp_mul_deriv (a := 0) (b := Real.pi) (f := Real.cos) (f' := fun x => -Real.sin x) (g := f)
    (fun x _ => Real.hasDerivAt_cos x) (Continuous.continuousOn (by fun_prop)) hf
  rw [Real.cos_zero, Real.cos_pi, intervalIntegral.integral_symm (-1) 1] at h
  simp only [Function.comp, mul_neg, intervalIntegral.integral_neg] at h
  linarith

theorem field_mean (Lmax : Nat) (c : Nat → ℂ) : ∫ x in (0 : ℝ)..Real.pi, field Lmax 0 0 c x * Real.sin x = (√2 : ℝ) * c 0 := by
  have hint : ∀ l ∈ Finset.Ico (max (0 : Int).natAbs (0 : Int).natAbs) (Lmax + 1), IntervalIntegrable
      (fun x => (((Y l 0 0 (Real.cos x) * Real.sin x : ℝ)) : ℂ) * c l) MeasureTheory.volume 0 Real.pi :=
    fun l _ => Continuous.intervalIntegrable ((Complex.continuous_ofReal.comp (((Y_continuous l 0 0).comp Real.continuous_cos).mul Real.continuous_sin)).mul continuous_const) _ _
  have e : ∀ x : ℝ, field Lmax 0 0 c x * (Real.sin x : ℝ) = ∑ l ∈ Finset.Ico (max (0 : Int).natAbs (0 : Int).natAbs) (Lmax + 1), (((Y l 0 0 (Real.cos x) * Real.sin x : ℝ)) : ℂ) * c l := by
    intro x
    unfold field
    rw [Finset.sum_mul]
    apply Finset.sum_congr rfl
    intro l _
    rw [Complex.ofReal_mul]; ring
  simp only [e]
  rw [intervalIntegral.integral_finset_sum hint]
  simp only [intervalIntegral.integral_mul_const, intervalIntegral.integral_ofReal]
  simp only [fun l => colatitude_integral (Y l 0 0) (Y_continuous l 0 0), Y_mean]
  rw [Finset.sum_eq_single 0]
  · rw [if_pos rfl]
  · intro l _ hl; rw [if_neg hl]; simp
  · intro h; exact absurd (Finset.mem_Ico.2 ⟨by simp, by omega⟩) h

end Dedalus.Sphere
