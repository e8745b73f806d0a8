import Mathlib.Analysis.SpecialFunctions.Trigonometric.Basic
import Mathlib.Analysis.SpecialFunctions.Trigonometric.Chebyshev.Basic
import Mathlib.Analysis.SpecialFunctions.Sqrt

/-!
# What cosine and Chebyshev coefficients mean
-/

namespace Dedalus.Cosine.Spec

/-- The points `π (x + 1/2) / N`. -/
noncomputable def angle (N x : Nat) : ℝ := Real.pi * (2 * x + 1) / (2 * N)

/-- `c₀ + c₁ cos θ + c₂ cos 2θ + ...` with `M` terms. -/
noncomputable def cosSeries (M : Nat) (c : Nat → ℝ) (θ : ℝ) : ℝ := ∑ k ∈ Finset.range M, c k * Real.cos (k * θ)

/-- Chebyshev polynomials of unit norm for the weight `1 / √(1 - z²)`. -/
noncomputable def unitT (k : Nat) (z : ℝ) : ℝ :=
  (if k = 0 then 1 / √Real.pi else √(2 / Real.pi)) * (Polynomial.Chebyshev.T ℝ k).eval z

/-- The polynomial with coefficients `c`. -/
noncomputable def chebSeries (M : Nat) (c : Nat → ℝ) (z : ℝ) : ℝ := ∑ k ∈ Finset.range M, c k * unitT k z

end Dedalus.Cosine.Spec
