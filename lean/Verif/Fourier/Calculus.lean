import Verif.Fourier.OpsLemmas
import Mathlib.Analysis.SpecialFunctions.ExpDeriv
import Mathlib.Analysis.SpecialFunctions.Trigonometric.Deriv
import Mathlib.MeasureTheory.Integral.IntervalIntegral.FundThmCalculus

/-! Derivatives and integrals of Fourier series. -/

namespace Dedalus.Fourier

open Spec

/-- The angle of a position. -/
noncomputable def angle (l r x : ℝ) : ℝ := 2 * Real.pi * (x - l) / (r - l)

theorem angle_deriv (l r x : ℝ) : HasDerivAt (angle l r) (2 * Real.pi / (r - l)) x := by
  unfold angle
  have h := (((hasDerivAt_id x).sub_const l).const_mul (2 * Real.pi)).div_const (r - l)
  simpa using h

theorem mode_deriv (l r x : ℝ) (k : Int) :
    HasDerivAt (fun x => mode k (angle l r x)) (Complex.I * (k * (2 * Real.pi / (r - l)) : ℝ) * mode k (angle l r x)) x := by
  unfold mode
  have h1 : HasDerivAt (fun x => ((k : ℂ) * (angle l r x : ℂ) * Complex.I)) (k * (2 * Real.pi / (r - l) : ℝ) * Complex.I) x :=
    (((angle_deriv l r x).ofReal_comp).const_mul (k : ℂ)).mul_const Complex.I
  have h2 := h1.cexp
  convert h2 using 1
  push_cast
  ring

theorem stretch_inv (l r : ℝ) : ∀ k : ℝ, k / (fourierCov l r).stretch = k * (2 * Real.pi / (r - l)) := by
  intro k
  unfold Cov.stretch Cov.problemLength Cov.nativeLength fourierCov
  simp only [sub_zero]
  rw [div_div_eq_mul_div, mul_div_assoc]

theorem series_deriv (l r : ℝ) (M : Nat) (c : Nat → ℂ) (x : ℝ) :
    HasDerivAt (fun x => series M c (angle l r x)) (series M (diffComplex (fourierCov l r) M c) (angle l r x)) x := by
  unfold series
  refine HasDerivAt.fun_sum (fun m hm => ?_)
  have h := (mode_deriv l r x (freq M m)).const_mul (c m)
  have e : diffComplex (fourierCov l r) M c m * mode (freq M m) (angle l r x) =
      c m * (Complex.I * (freq M m * (2 * Real.pi / (r - l)) : ℝ) * mode (freq M m) (angle l r x)) := by
    unfold diffComplex
    rw [native_eq M m (Finset.mem_range.mp hm), stretch_inv]
    ring
  rw [e]
  exact h

theorem sum_pairs (f : Nat → ℝ) (H : Nat) :
    ∑ m ∈ Finset.range (2 * H), f m = ∑ k ∈ Finset.range H, (f (2 * k) + f (2 * k + 1)) := by
  induction H with
  | zero => simp
  | succ H ih => rw [Finset.sum_range_succ, ← ih, show 2 * (H + 1) = 2 * H + 1 + 1 by ring, Finset.sum_range_succ,
      Finset.sum_range_succ, add_assoc]

theorem cos_deriv (l r x k : ℝ) :
    HasDerivAt (fun x => Real.cos (k * angle l r x)) (-Real.sin (k * angle l r x) * (k * (2 * Real.pi / (r - l)))) x :=
  ((angle_deriv l r x).const_mul k).cos

theorem sin_deriv (l r x k : ℝ) :
    HasDerivAt (fun x => Real.sin (k * angle l r x)) (Real.cos (k * angle l r x) * (k * (2 * Real.pi / (r - l)))) x :=
  ((angle_deriv l r x).const_mul k).sin

theorem realSeries_deriv (l r : ℝ) (H : Nat) (c : Nat → ℝ) (x : ℝ) :
    HasDerivAt (fun x => realSeries (2 * H) c (angle l r x))
      (realSeries (2 * H) (diffReal (fourierCov l r) c) (angle l r x)) x := by
  unfold realSeries
  simp only [sum_pairs]
  refine HasDerivAt.fun_sum (fun g hg => ?_)
  simp only [realMode_even, realMode_odd]
  have h1 := (cos_deriv l r x g).const_mul (c (2 * g))
  have h2 := ((sin_deriv l r x g).neg).const_mul (c (2 * g + 1))
  have e : diffReal (fourierCov l r) c (2 * g) * Real.cos (g * angle l r x) +
      diffReal (fourierCov l r) c (2 * g + 1) * -Real.sin (g * angle l r x) =
      c (2 * g) * (-Real.sin (g * angle l r x) * (g * (2 * Real.pi / (r - l)))) +
      c (2 * g + 1) * -(Real.cos (g * angle l r x) * (g * (2 * Real.pi / (r - l)))) := by
    unfold diffReal
    simp only
    rw [if_pos (by omega), if_neg (by omega), show 2 * g / 2 = g by omega, show (2 * g + 1) / 2 = g by omega,
      show 2 * g + 1 - 1 = 2 * g by omega, stretch_inv]
    ring
  rw [e]
  exact h1.fun_add h2

theorem angle_left (l r : ℝ) : angle l r l = 0 := by simp [angle]

theorem angle_right (l r : ℝ) (h : l ≠ r) : angle l r r = 2 * Real.pi := by
  unfold angle
  rw [mul_div_assoc, div_self (sub_ne_zero.mpr h.symm), mul_one]

theorem mode_continuous (l r : ℝ) (k : Int) : Continuous (fun x => mode k (angle l r x)) := by
  unfold mode angle
  fun_prop

theorem mode_integral (l r : ℝ) (h : l ≠ r) (k : Int) :
    ∫ x in l..r, mode k (angle l r x) = if k = 0 then ((r - l : ℝ) : ℂ) else 0 := by
  by_cases hk : k = 0
  · subst hk
    rw [if_pos rfl]
    simp [mode]
  · rw [if_neg hk]
    have hne : (Complex.I * (k * (2 * Real.pi / (r - l)) : ℝ)) ≠ 0 := by
      apply mul_ne_zero Complex.I_ne_zero
      have : (k : ℝ) ≠ 0 := by exact_mod_cast hk
      have h2 : r - l ≠ 0 := sub_ne_zero.mpr h.symm
      exact_mod_cast mul_ne_zero this (div_ne_zero (mul_ne_zero two_ne_zero Real.pi_ne_zero) h2)
    have hd : ∀ x ∈ Set.uIcc l r, HasDerivAt (fun x => mode k (angle l r x) / (Complex.I * (k * (2 * Real.pi / (r - l)) : ℝ)))
        (mode k (angle l r x)) x := by
      intro x _
      have := (mode_deriv l r x k).div_const (Complex.I * (k * (2 * Real.pi / (r - l)) : ℝ))
      rwa [mul_div_cancel_left₀ _ hne] at this
    rw [intervalIntegral.integral_eq_sub_of_hasDerivAt hd ((mode_continuous l r k).intervalIntegrable l r)]
    rw [angle_left, angle_right l r h]
    have e : mode k (2 * Real.pi) = 1 := by
      unfold mode
      rw [Complex.exp_eq_one_iff]
      exact ⟨k, by push_cast; ring⟩
    rw [e]
    simp [mode]

theorem freq_zero (M m : Nat) (hm : m < M) : freq M m = 0 ↔ m = 0 := by
  unfold freq
  split <;> omega

theorem series_integral (l r : ℝ) (h : l ≠ r) (M : Nat) (hM : 0 < M) (c : Nat → ℂ) :
    ∫ x in l..r, series M c (angle l r x) = ((r - l : ℝ) : ℂ) * c 0 := by
  unfold series
  rw [intervalIntegral.integral_finset_sum]
  · simp only [intervalIntegral.integral_const_mul, mode_integral l r h]
    rw [Finset.sum_eq_single 0]
    · rw [if_pos ((freq_zero M 0 hM).mpr rfl), mul_comm]
    · intro m hm hne
      rw [if_neg (fun e => hne ((freq_zero M m (Finset.mem_range.mp hm)).mp e)), mul_zero]
    · intro hn; exact absurd (Finset.mem_range.mpr hM) hn
  · intro m _
    exact ((mode_continuous l r (freq M m)).const_mul (c m)).intervalIntegrable l r

theorem mode_re_im (k : Int) (θ : ℝ) : mode k θ = (Real.cos (k * θ) : ℂ) + (Real.sin (k * θ) : ℂ) * Complex.I := by
  unfold mode
  have : (k : ℂ) * θ * Complex.I = ((k * θ : ℝ) : ℂ) * Complex.I := by push_cast; ring
  rw [this, Complex.exp_mul_I]
  push_cast
  rfl

theorem cos_integral (l r : ℝ) (h : l ≠ r) (k : Nat) :
    ∫ x in l..r, Real.cos (k * angle l r x) = if k = 0 then r - l else 0 := by
  by_cases hk : k = 0
  · subst hk; simp
  · rw [if_neg hk]
    have hne : ((k : ℝ) * (2 * Real.pi / (r - l))) ≠ 0 := by
      have : (k : ℝ) ≠ 0 := by exact_mod_cast hk
      exact mul_ne_zero this (div_ne_zero (mul_ne_zero two_ne_zero Real.pi_ne_zero) (sub_ne_zero.mpr h.symm))
    have hd : ∀ x ∈ Set.uIcc l r, HasDerivAt (fun x => Real.sin (k * angle l r x) / ((k : ℝ) * (2 * Real.pi / (r - l))))
        (Real.cos (k * angle l r x)) x := by
      intro x _
      have := (sin_deriv l r x k).div_const ((k : ℝ) * (2 * Real.pi / (r - l)))
      rwa [mul_div_cancel_right₀ _ hne] at this
    have hc : Continuous (fun x => Real.cos (k * angle l r x)) := by unfold angle; fun_prop
    rw [intervalIntegral.integral_eq_sub_of_hasDerivAt hd (hc.intervalIntegrable l r), angle_left, angle_right l r h]
    have e : Real.sin ((k : ℝ) * (2 * Real.pi)) = 0 := by
      rw [show (k : ℝ) * (2 * Real.pi) = ((2 * k : Nat) : ℝ) * Real.pi by push_cast; ring]
      exact Real.sin_nat_mul_pi _
    rw [e]
    simp

theorem sin_integral (l r : ℝ) (h : l ≠ r) (k : Nat) : ∫ x in l..r, Real.sin (k * angle l r x) = 0 := by
  by_cases hk : k = 0
  · subst hk; simp
  · have hne : -((k : ℝ) * (2 * Real.pi / (r - l))) ≠ 0 := by
      have : (k : ℝ) ≠ 0 := by exact_mod_cast hk
      exact neg_ne_zero.mpr
        (mul_ne_zero this (div_ne_zero (mul_ne_zero two_ne_zero Real.pi_ne_zero) (sub_ne_zero.mpr h.symm)))
    have hd : ∀ x ∈ Set.uIcc l r, HasDerivAt (fun x => Real.cos (k * angle l r x) / (-((k : ℝ) * (2 * Real.pi / (r - l)))))
        (Real.sin (k * angle l r x)) x := by
      intro x _
      have := (cos_deriv l r x k).div_const (-((k : ℝ) * (2 * Real.pi / (r - l))))
      rwa [neg_mul_comm, mul_div_cancel_right₀ _ hne] at this
    have hc : Continuous (fun x => Real.sin (k * angle l r x)) := by unfold angle; fun_prop
    rw [intervalIntegral.integral_eq_sub_of_hasDerivAt hd (hc.intervalIntegrable l r), angle_left, angle_right l r h]
    have e : Real.cos ((k : ℝ) * (2 * Real.pi)) = 1 := Real.cos_nat_mul_two_pi k
    rw [e]
    simp

theorem realSeries_integral (l r : ℝ) (h : l ≠ r) (H : Nat) (hH : 0 < H) (c : Nat → ℝ) :
    ∫ x in l..r, realSeries (2 * H) c (angle l r x) = (r - l) * c 0 := by
  have hc : ∀ m, Continuous (fun x => realMode m (angle l r x)) := by
    intro m
    unfold realMode angle
    by_cases hm : m % 2 = 0
    · simp only [if_pos hm]; fun_prop
    · simp only [if_neg hm]; fun_prop
  unfold realSeries
  rw [intervalIntegral.integral_finset_sum]
  · simp only [intervalIntegral.integral_const_mul]
    have hI : ∀ m, ∫ x in l..r, realMode m (angle l r x) = if m = 0 then r - l else 0 := by
      intro m
      unfold realMode
      by_cases hm : m % 2 = 0
      · simp only [if_pos hm]
        rw [cos_integral l r h]
        by_cases h0 : m = 0
        · rw [if_pos h0, if_pos (by omega)]
        · rw [if_neg h0, if_neg (by omega)]
      · simp only [if_neg hm]
        rw [intervalIntegral.integral_neg, sin_integral l r h, if_neg (by omega), neg_zero]
    simp only [hI]
    rw [Finset.sum_eq_single 0]
    · rw [if_pos rfl, mul_comm]
    · intro m _ hne; rw [if_neg hne, mul_zero]
    · intro hn; exact absurd (Finset.mem_range.mpr (by omega)) hn
  · intro m _
    exact ((hc m).const_mul (c m)).intervalIntegrable l r

end Dedalus.Fourier
