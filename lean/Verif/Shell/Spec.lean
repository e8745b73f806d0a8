import Verif.Jacobi.Spec
import Mathlib.Data.Complex.Basic

/-!
# Functions of the radius on an annulus or a shell
-/

namespace Dedalus.Shell.Spec

/-- The function of the radius on `[rin, rout]` with the `N` coefficients `c`: `((rout - rin) / r)^k` times the series of orthonormal
Jacobi polynomials with parameters `alpha + k` on the interval. -/
noncomputable def radial (rin rout : ℝ) (alpha : ℝ × ℝ) (N k : Nat) (c : Nat → ℂ) (r : ℝ) : ℂ :=
  (((rout - rin) / r : ℝ) : ℂ) ^ k * ∑ n ∈ Finset.range N, (Jacobi.Spec.Q n (alpha.1 + k) (alpha.2 + k) (Jacobi.Spec.native rin rout r) : ℂ) * c n

end Dedalus.Shell.Spec
