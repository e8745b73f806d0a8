import Verif.Jacobi.Spec
import Mathlib.Analysis.SpecialFunctions.Trigonometric.Basic
import Mathlib.Analysis.Calculus.Deriv.Basic
import Mathlib.Analysis.Complex.RealDeriv

/-!
# Zernike functions and differential operators in polar and spherical coordinates

Functions on the disk of order `m` are written `F(r) exp(i m φ)`.
-/

namespace Dedalus.Zernike.Spec

/-- The generalised Zernike function of degree `l + 2 n` in `dim` dimensions: `r^l` times a polynomial of degree `n` in `r^2`, with
unit norm for the weight `(1 - r^2)^k r^(dim - 1)` on `[0, 1]`. -/
noncomputable def Z (dim n : Nat) (k : ℝ) (l : Nat) (r : ℝ) : ℝ :=
  √((2 : ℝ) ^ (k + l + (dim : ℝ) / 2 + 1)) * r ^ l * Jacobi.Spec.Q n k (l + (dim : ℝ) / 2 - 1) (2 * r ^ 2 - 1)

/-- The function on the disk or ball of the given radius with the `N` coefficients `c`. -/
noncomputable def radial (dim N : Nat) (radius k : ℝ) (l : Nat) (c : Nat → ℂ) (r : ℝ) : ℂ :=
  ∑ n ∈ Finset.range N, (Z dim n k l (r / radius) : ℂ) * c n

/-- `G` is the `±` component at `r` of the gradient of a component `F` of spin weight `s` and order `m` on the plane: the derivative
along `(e_r ± i e_φ) / √2`, which has spin weight `s ± 1`. -/
def HasPlaneDeriv (mu : Int) (m s : Int) (F : ℝ → ℂ) (G : ℂ) (r : ℝ) : Prop :=
  ∃ F', HasDerivAt F F' r ∧ G = (F' - ((mu * (m + s) / r : ℝ) : ℂ) * F r) / (√2 : ℝ)

/-- `G` is the value at `r` of the Laplacian of a component `F` of spin weight `s` and order `m` on the plane. -/
def HasPlaneLaplacian (m s : Int) (F : ℝ → ℂ) (G : ℂ) (r : ℝ) : Prop :=
  ∃ F' : ℝ → ℂ, ∃ F'', (∀ x, 0 < x → HasDerivAt F (F' x) x) ∧ HasDerivAt F' F'' r ∧
    G = F'' + F' r / (r : ℂ) - (((m + s : Int) : ℂ) / r) ^ 2 * F r

end Dedalus.Zernike.Spec
