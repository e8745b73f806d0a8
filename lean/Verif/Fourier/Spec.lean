import Mathlib.Analysis.SpecialFunctions.Trigonometric.Basic
import Mathlib.Algebra.BigOperators.Group.Finset.Basic

/-! What Fourier coefficients mean. -/

namespace Dedalus.Fourier.Spec

/-- The wavenumber of coefficient `m` of `M`: `0, 1, 2, ..., -2, -1`. -/
def freq (M m : Nat) : Int := if 2 * m ≤ M then m else (m : Int) - M

/-- A wavenumber is resolved by a grid of `N` points and by `M` coefficients when it is below both Nyquist wavenumbers. -/
def Resolved (N M : Nat) (k : Int) : Prop := 2 * |k| < N ∧ 2 * |k| < M

instance (N M : Nat) (k : Int) : Decidable (Resolved N M k) := by unfold Resolved; infer_instance

/-- The grid on `[0, 2π)`. -/
noncomputable def grid (N x : Nat) : ℝ := 2 * Real.pi * x / N

/-- The complex mode of wavenumber `k`. -/
noncomputable def mode (k : Int) (θ : ℝ) : ℂ := Complex.exp (k * θ * Complex.I)

/-- The real modes `cos 0θ, -sin 0θ, cos θ, -sin θ, ...`. -/
noncomputable def realMode (m : Nat) (θ : ℝ) : ℝ :=
  if m % 2 = 0 then Real.cos ((m / 2 : Nat) * θ) else -Real.sin ((m / 2 : Nat) * θ)

/-- The function with given complex coefficients. -/
noncomputable def series (M : Nat) (c : Nat → ℂ) (θ : ℝ) : ℂ := ∑ m ∈ Finset.range M, c m * mode (freq M m) θ

/-- The function with given real coefficients. -/
noncomputable def realSeries (M : Nat) (c : Nat → ℝ) (θ : ℝ) : ℝ := ∑ m ∈ Finset.range M, c m * realMode m θ

/-- The function represented by an operand: a series, or one coefficient of a constant (`none`). -/
noncomputable def operand (c : Nat → ℂ) (θ : ℝ) : Option Nat → ℂ
  | none => c 0
  | some n => series n c θ

/-- The number of coefficients of an operand. -/
def operandSize : Option Nat → Nat
  | none => 1
  | some n => n

end Dedalus.Fourier.Spec
