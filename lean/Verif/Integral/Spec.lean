import Verif.Average.Spec
import Verif.Zernike.Spec
import Verif.Jacobi.Spec
import Verif.Sphere.Spec

/-! The scalar fields with given coefficients, as functions of the coordinates. -/

namespace Dedalus.Integral.Spec
open Orders

/-- A scalar in the disk: row `i` has the order that the basis names, coefficient `n ≥ |m| / 2` the Zernike function of degree `|m| + 2 (n - |m| / 2)`. -/
noncomputable def diskValue (d : Dtype) (radius k : ℝ) (Nphi Nr : Nat) (c : Nat → Nat → ℂ) (r φ : ℝ) : ℂ :=
  Average.Spec.polarValue true d Nphi Nr (fun m n => (Zernike.Spec.Z 2 (n - m.natAbs / 2) k m.natAbs (r / radius) : ℝ)) c φ

/-- The radial functions of annuli and shells: `((rout - rin) / r)^k` times Jacobi polynomials. -/
noncomputable def radialMode (rin rout : ℝ) (alpha : ℝ × ℝ) (k n : Nat) (r : ℝ) : ℝ :=
  ((rout - rin) / r) ^ k * Jacobi.Spec.Q n (alpha.1 + k) (alpha.2 + k) (Jacobi.Spec.native rin rout r)

/-- A scalar in the annulus. -/
noncomputable def annulusValue (d : Dtype) (rin rout : ℝ) (alpha : ℝ × ℝ) (k Nphi Nr : Nat) (c : Nat → Nat → ℂ) (r φ : ℝ) : ℂ :=
  Average.Spec.polarValue false d Nphi Nr (fun _ n => (radialMode rin rout alpha k n r : ℝ)) c φ

/-- A scalar in the ball: the entry `(i, j)` has the order and degree that the basis names, coefficient `n ≥ l / 2` the Zernike function of degree
`l + 2 (n - l / 2)`. -/
noncomputable def ballValue (d : Dtype) (radius k : ℝ) (Nphi L Nr : Nat) (c : Average.Cell → ℂ) (r θ φ : ℝ) : ℂ :=
  Average.Spec.value d Nphi L Nr (fun l => l.natAbs / 2)
    (fun m l n => (Sphere.Spec.Y l.toNat m 0 (Real.cos θ) : ℝ) * (Zernike.Spec.Z 3 (n - l.natAbs / 2) k l.natAbs (r / radius) : ℝ)) c φ

/-- A scalar in the shell. -/
noncomputable def shellValue (d : Dtype) (rin rout : ℝ) (alpha : ℝ × ℝ) (k Nphi L Nr : Nat) (c : Average.Cell → ℂ) (r θ φ : ℝ) : ℂ :=
  Average.Spec.value d Nphi L Nr (fun _ => 0) (fun m l n => (Sphere.Spec.Y l.toNat m 0 (Real.cos θ) : ℝ) * (radialMode rin rout alpha k n r : ℝ)) c φ

end Dedalus.Integral.Spec
