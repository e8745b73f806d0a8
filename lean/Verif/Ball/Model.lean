import Verif.Zernike.Model

/-!
# Operators on tensors in the ball

Model of `SphericalEllOperator` and the gradient, divergence, curl and Laplacian in spherical coordinates
(`dedalus/core/operators.py`), of the radial matrices of `BallRadialBasis` and of the conversion, interpolation, integration and
lift operators of the ball (`dedalus/core/basis.py`). A component is named by the list of its regularities -1, +1, 0, which are the
indices 0, 1, 2 in the code. The coefficients are those of one azimuthal order and one degree `ell`; the operators do not mix these.
Floating point numbers are real numbers, data are complex numbers.
-/

namespace Dedalus.Ball

open Jacobi (Op)
open Regularity (range ordering intertwiner forbiddenRegularity)
open Zernike (zD zE square)

/-- `regularity_allowed` (`dedalus/core/basis.py` L3531-3535). -/
def allowed (ell : Nat) (reg : List Int) : Bool := if reg = [] then true else !forbiddenRegularity ell reg

/-- `xi` (`dedalus/core/basis.py` L3544-3546). -/
noncomputable def xi (mu l : Int) : ℝ := √((l + ((mu + 1) / 2 : Int)) / (2 * l + 1))

/-- `backward_regularity_recombination` at one point (`dedalus/core/basis.py` L3610-3626) on complex data. -/
noncomputable def spinComponent (ell rank : Nat) (u : List Int → ℂ) (spin : List Int) : ℂ :=
  ((range ordering rank).map fun reg => (intertwiner ell reg spin : ℂ) * u reg).sum

/-- The outputs of an operator for one input component: the output components with the radial matrices. -/
abbrev Terms := List (List Int × (Nat → Nat → ℂ))

/-- `SphericalEllOperator.operate` (`dedalus/core/operators.py` L3137-3165) at one `ell` with `N` radial coefficients: coefficient `i` of
component `out`. `subproblem_matrix` (L3167-3201, L3213-3216) has the same blocks. -/
noncomputable def operate (N ell : Nat) (terms : List Int → Terms) (rank : Nat) (c : List Int → Nat → ℂ) (out : List Int) (i : Nat) : ℂ :=
  ((range ordering rank).map fun reg => ((terms reg).map fun t =>
    if t.1 = out then (if allowed ell reg ∧ allowed ell t.1 then ∑ j ∈ Finset.range N, t.2 i j * c reg j else 0) else 0).sum).sum

/-! ## Differential operators, for any radial basis

The matrices `D+`, `D-` and `L` of the radial basis are functions of the total regularity of the input component. -/

/-- `SphericalGradient.regindex_out` and `_radial_matrix` (`dedalus/core/operators.py` L3273-3291). -/
noncomputable def gradientTerms (ell : Nat) (Dm Dp : Int → Nat → Nat → ℝ) (reg : List Int) : Terms :=
  [(-1 :: reg, fun i j => xi (-1) (ell + reg.sum) * Dm reg.sum i j), (1 :: reg, fun i j => xi 1 (ell + reg.sum) * Dp reg.sum i j)]

/-- `SphericalDivergence.regindex_out` and `_radial_matrix` (`dedalus/core/operators.py` L3578-3606). The divergence of a scalar raises an
error when it is built. -/
noncomputable def divergenceTerms (ell : Nat) (Dm Dp : Int → Nat → Nat → ℝ) : List Int → Terms
  | [] => []
  | a :: b =>
    let reg := a :: b
    if a = -1 then [(b, fun i j => xi (-1) (ell + reg.sum + 1) * Dp reg.sum i j)]
    else if a = 1 then [(b, fun i j => xi 1 (ell + reg.sum - 1) * Dm reg.sum i j)]
    else []

/-- `SphericalCurl.regindex_out` and `_radial_matrix` (`dedalus/core/operators.py` L3870-3902). The curl of a scalar raises an error when
it is built. Real data hold the real and imaginary parts in the cosine and minus sine slots, which `operate` (L3944-3978)
combines to complex numbers. -/
noncomputable def curlTerms (ell : Nat) (Dm Dp : Int → Nat → Nat → ℝ) : List Int → Terms
  | [] => []
  | a :: b =>
    let reg := a :: b
    if a = -1 then [(0 :: b, fun i j => -Complex.I * xi 1 (ell + reg.sum + 1) * Dp reg.sum i j)]
    else if a = 1 then [(0 :: b, fun i j => Complex.I * xi (-1) (ell + reg.sum - 1) * Dm reg.sum i j)]
    else [(-1 :: b, fun i j => -Complex.I * xi 1 (ell + reg.sum) * Dm reg.sum i j),
      (1 :: b, fun i j => Complex.I * xi (-1) (ell + reg.sum) * Dp reg.sum i j)]

/-- `regindex_out` of the operators that keep the component: the Laplacian (`dedalus/core/operators.py` L4137-4153) and
conversions (`dedalus/core/basis.py` L4741-4751, L4831-4841). -/
noncomputable def diagonalTerms (A : Int → Nat → Nat → ℝ) (reg : List Int) : Terms := [(reg, fun i j => A reg.sum i j)]

/-! ## Radial matrices of the ball -/

/-- `operator_matrix` for `'D+'` and `'D-'` (`dedalus/core/basis.py` L4038-4052), with `p = ±1` and `N` columns. -/
noncomputable def ladderMatrix (radius : ℝ) (N k : Nat) (alpha : ℝ) (p : Int) (ell : Nat) (deg : Int) : Nat → Nat → ℝ :=
  square 3 (zD radius p) N (alpha + k) (ell + deg)

/-- `operator_matrix` for `'L'` (`dedalus/core/basis.py` L4044-4046). -/
noncomputable def laplacianMatrix (radius : ℝ) (N k : Nat) (alpha : ℝ) (ell : Nat) (deg : Int) : Nat → Nat → ℝ :=
  square 3 ((zD radius (-1)).comp (zD radius 1)) N (alpha + k) (ell + deg)

/-- `conversion_matrix` (`dedalus/core/basis.py` L4054-4060). -/
noncomputable def conversionMatrix (N k : Nat) (alpha : ℝ) (dk ell : Nat) (regtotal : Int) : Nat → Nat → ℝ :=
  square 3 ((zE 1).pow dk) N (alpha + k) (ell + regtotal)

/-- `interpolation` (`dedalus/core/basis.py` L4007-4011), column `j`; `radial_COV` maps `(0, 1)` to `(0, radius)`. -/
noncomputable def interpolation (radius : ℝ) (N k : Nat) (alpha : ℝ) (ell : Nat) (regtotal : Int) (position : ℝ) (j : Nat) : ℝ :=
  let native := position / radius
  Zernike.polynomials 3 N (alpha + k) (ell + regtotal) (2 * native ^ 2 - 1) j

/-- `BallRadialInterpolate.operate` (`dedalus/core/basis.py` L5778-5805): the rows of all components, and the recombination to spin
components. The rows of components that are not allowed are not written; here they are 0. -/
noncomputable def interpolate (radius : ℝ) (N k : Nat) (alpha : ℝ) (ell rank : Nat) (position : ℝ) (c : List Int → Nat → ℂ) (spin : List Int) : ℂ :=
  spinComponent ell rank (fun reg => if allowed ell reg then
    ∑ j ∈ Finset.range N, (interpolation radius N k alpha ell reg.sum position j : ℂ) * c reg j else 0) spin

/-- `constant_mode_value` (`dedalus/core/basis.py` L4002-4005). -/
noncomputable def constantModeValue (k : Nat) (alpha : ℝ) : ℝ := Zernike.polynomials 3 1 (alpha + k) 0 0 0

/-- `ConvertConstantBall.radial_matrix` (`dedalus/core/basis.py` L4768-4779), row `i`. `none` is a `ValueError`. The output is a field on the ball,
whose `constant_mode_value` has the value of the harmonic of degree 0 (L4201-4205), or a field of the radius. -/
noncomputable def convertConstant (onBall : Bool) (k : Nat) (alpha : ℝ) (ell i : Nat) : Option ℝ :=
  let value := if onBall then constantModeValue k alpha / √2 else constantModeValue k alpha
  if ell = 0 then some (if i = 0 then 1 / value else 0) else none

/-- `w0[None, :] @ Qk.T` of `IntegrateBall` (`dedalus/core/basis.py` L5541-5549) for `ell = 0`. -/
noncomputable def integralVector (Nc k : Nat) (alpha : ℝ) (g : Nat → ℝ) (j : Nat) : ℝ :=
  ∑ i ∈ Finset.range Nc, (Zernike.quadrature 3 Nc 0 g i).2 *
    Zernike.polynomials 3 (Zernike.nSize Nc 0).toNat (alpha + k) 0 (Zernike.quadrature 3 Nc 0 g i).1 j

/-- `IntegrateBall._radial_matrix` (`dedalus/core/basis.py` L5539-5553) for `ell = 0`. -/
noncomputable def integrate (radius : ℝ) (Nc k : Nat) (alpha : ℝ) (g : Nat → ℝ) (j : Nat) : ℝ :=
  integralVector Nc k alpha g j * radius ^ 3 * (4 * Real.pi / √2)

/-- `LiftBall` and `LiftBallRadius` (`dedalus/core/basis.py` L5058-5098, L5112-5152): coefficient `i` of component `reg` for the spin components `tau`
of the boundary values. `matrix[n, 0] = 1` with Python indexing. -/
noncomputable def lift (N : Nat) (n : Int) (ell rank : Nat) (tau : List Int → ℂ) (reg : List Int) (i : Nat) : Option ℂ :=
  if -(N : Int) ≤ n ∧ n < N then
    some (if allowed ell reg then (if (i : Int) = (if n < 0 then n + N else n) then
      ((range ordering rank).map fun spin => (intertwiner ell reg spin : ℂ) * tau spin).sum else 0) else 0)
  else none

end Dedalus.Ball
