import Verif.Ball.Model

/-!
# Radial functions and operators of the annulus and the shell

Model of `dedalus/libraries/dedalus_sphere/shell.py`, of the radial transforms and matrices of `AnnulusBasis` and `ShellRadialBasis`
and of their operators in `dedalus/core/basis.py` and `dedalus/core/operators.py`. The parameters `alpha` are a pair, the radii are
`rin` and `rout`. Floating point numbers are real numbers, data are complex numbers; real data hold the real and imaginary parts in the
cosine and minus sine slots.
-/

namespace Dedalus.Shell

open Jacobi (Op opAp opBp opD opZ nccClenshaw)
open Zernike (smul)

/-! ## Operators -/

/-- `Z = (radii[1] + radii[0])/width + Jacobi.operator('Z')` (`dedalus/libraries/dedalus_sphere/shell.py` L25): the number is multiplied with the
identity, and sums pad missing rows (`dedalus/libraries/dedalus_sphere/operators.py` L124-136, L321-337). -/
noncomputable def opZr (rin rout : ℝ) : Op :=
  ⟨fun n => n + 1, 0, 0, fun n a b i j => opZ.entry n a b i j + if i = j then (rout + rin) / (rout - rin) else 0⟩

/-- `AB` (`dedalus/libraries/dedalus_sphere/shell.py` L37-42). -/
noncomputable def opAB : Op := opAp.comp opBp

/-- `E` (`dedalus/libraries/dedalus_sphere/shell.py` L44-47). -/
noncomputable def opE (rin rout : ℝ) : Op := smul 0.5 (opAB.comp (opZr rin rout))

/-- `K` (`dedalus/libraries/dedalus_sphere/shell.py` L57-59): `A(0)` is `a` times the identity
(`dedalus/libraries/dedalus_sphere/jacobi.py` L372-376). -/
noncomputable def opK (dim : Nat) (alpha : ℝ) (dl l : Int) : Op :=
  ⟨fun n => n, 0, 0, fun _ a _ i j => if i = j then a - alpha + (dl * l + (if dl = -1 then 1 else 0) * (2 - dim)) else 0⟩

/-- `D` (`dedalus/libraries/dedalus_sphere/shell.py` L51-67). Both terms have `n` rows. -/
noncomputable def opDr (dim : Nat) (rin rout alpha : ℝ) (dl l : Int) : Op :=
  ⟨fun n => n, 1, 1, fun n a b i j =>
    (((if i < (opD.comp (opZr rin rout)).rows n then (opD.comp (opZr rin rout)).entry n a b i j else 0) -
      ((opK dim alpha dl l).comp opAB).entry n a b i j) / (rout - rin))⟩

/-- An operator at `(n, k)` (`k+alpha[0], k+alpha[1]` in `dedalus/libraries/dedalus_sphere/shell.py` L22, L29, L34, L41, L46, L63) with the rows
kept by `square` (`dedalus/libraries/dedalus_sphere/operators.py` L296-298, L300-318). -/
noncomputable def square (alpha : ℝ × ℝ) (A : Op) (n k : Nat) (i j : Nat) : ℝ :=
  if i < A.rows n then A.entry n (k + alpha.1) (k + alpha.2) i j else 0

/-! ## Transforms -/

/-- `_radius_grid` (`dedalus/core/basis.py` L2126-2131, L3768-3773) for `N` points from the guess `g`. -/
noncomputable def radiusGrid (rin rout : ℝ) (alpha : ℝ × ℝ) (N : Nat) (g : Nat → ℝ) (i : Nat) : ℝ :=
  (rout - rin) / 2 * ((Jacobi.quadrature N alpha.1 alpha.2 g i).1 + (rout + rin) / (rout - rin))

/-- `radial_transform_factor` (`dedalus/core/basis.py` L2175-2178, L3792-3795) at a point; `dk` may be negative. -/
noncomputable def radialFactor (rin rout r : ℝ) (dk : Int) : ℝ := ((rout - rin) / r) ^ dk

/-- `forward_transform_radius` (`dedalus/core/basis.py` L2180-2198, L3814-3827) for one spin or regularity component, with the matrix
`F` of the plan (`transform_plan`, L2166-2173, L3805-3812): coefficient `n` from `Ng` grid values. Recombination is linear
at each point, so it commutes with the factor. -/
noncomputable def forward (rin rout : ℝ) (alpha : ℝ × ℝ) (Ng k : Nat) (g : Nat → ℝ) (F : Nat → Nat → ℝ) (gdata : Nat → ℂ) (n : Nat) : ℂ :=
  ∑ i ∈ Finset.range Ng, (F n i : ℂ) *
    ((if k > 0 then (radialFactor rin rout (radiusGrid rin rout alpha Ng g i) (-k) : ℂ) else 1) * gdata i)

/-- `backward_transform_radius` (`dedalus/core/basis.py` L2200-2226, L3829-3844) for one component: the value at grid point `i` from `Nc`
coefficients. -/
noncomputable def backward (rin rout : ℝ) (alpha : ℝ × ℝ) (Ng Nc k : Nat) (g : Nat → ℝ) (cdata : Nat → ℂ) (i : Nat) : ℂ :=
  (if k > 0 then (radialFactor rin rout (radiusGrid rin rout alpha Ng g i) k : ℂ) else 1) *
    ∑ n ∈ Finset.range Nc, (Jacobi.backwardMatrix Ng Nc (alpha.1 + k) (alpha.2 + k) alpha.1 alpha.2 g i n : ℂ) * cdata n

/-! ## Radial matrices of both bases -/

/-- `n_size` (`dedalus/core/basis.py` L1860-1864 with `_nmin` of L2088-2090; L3875-3877 for the shell): all orders have all coefficients. -/
def nSize (Nc : Nat) (_m : Int) : Nat := Nc

/-- `conversion_matrix` (`dedalus/core/basis.py` L2270-2274, L3868-3872). -/
noncomputable def conversionMatrix (rin rout : ℝ) (alpha : ℝ × ℝ) (N k dk : Nat) : Nat → Nat → ℝ :=
  square alpha ((opE rin rout).pow dk) N k

/-- `jacobi_conversion` (`dedalus/core/basis.py` L2263-2268, L3861-3866). -/
noncomputable def jacobiConversion (alpha : ℝ × ℝ) (N k dk : Nat) : Nat → Nat → ℝ := square alpha (opAB.pow dk) N k

/-- `interpolation` (`dedalus/core/basis.py` L2228-2237, L3797-3803), column `j`. -/
noncomputable def interpolation (rin rout : ℝ) (alpha : ℝ × ℝ) (N k : Nat) (position : ℝ) (j : Nat) : ℝ :=
  ((rout - rin) / position) ^ k *
    Jacobi.polynomials N (alpha.1 + k) (alpha.2 + k) (position * 2 / (rout - rin) - (rout + rin) / (rout - rin)) j

/-- `constant_mode_value` (`dedalus/core/basis.py` L2156-2160, L3786-3790), the value for `k = 0`. -/
noncomputable def constantModeValue (alpha : ℝ × ℝ) : ℝ := Jacobi.polynomials 1 alpha.1 alpha.2 0 0

/-- `k0_to_k @ const_to_k0` of `ConvertConstantAnnulus` and `ConvertConstantShell` (`dedalus/core/basis.py` L2659-2668, L4808-4817), where `value` is
the `constant_mode_value` of the output basis, row `i`. -/
noncomputable def constantColumn (rin rout : ℝ) (alpha : ℝ × ℝ) (N k : Nat) (value : ℝ) (i : Nat) : ℝ :=
  ∑ j ∈ Finset.range N, conversionMatrix rin rout alpha N 0 k i j * if j = 0 then 1 / value else 0

/-- `ConvertConstantAnnulus.radial_matrix` (`dedalus/core/basis.py` L2655-2670); `none` is a `ValueError`. -/
noncomputable def annulusConstant (rin rout : ℝ) (alpha : ℝ × ℝ) (N k : Nat) (m : Int) (i : Nat) : Option ℝ :=
  if m = 0 then some (constantColumn rin rout alpha N k (constantModeValue alpha) i) else none

/-- `ConvertConstantShell.radial_matrix` (`dedalus/core/basis.py` L4804-4819); `none` is a matrix without columns. The output is a field on
the shell, whose `constant_mode_value` has the value of the harmonic of degree 0 (L4201-4205), or a field of the radius. -/
noncomputable def shellConstant (onShell : Bool) (rin rout : ℝ) (alpha : ℝ × ℝ) (N k : Nat) (ell i : Nat) : Option ℝ :=
  let value := if onShell then constantModeValue alpha / √2 else constantModeValue alpha
  if ell = 0 then some (constantColumn rin rout alpha N k value i) else none

/-- `w0_geom[None, :] @ Qk.T` of the integrals and the average (`dedalus/core/basis.py` L5452-5457, L5475-5480 with `p = 1`, L5565-5570 with `p = 2`)
for `m = 0` or `ell = 0`, with the guess `g` for the Legendre grid of `2 N` points. -/
noncomputable def integralVector (rin rout : ℝ) (alpha : ℝ × ℝ) (p N k : Nat) (g : Nat → ℝ) (j : Nat) : ℝ :=
  ∑ i ∈ Finset.range (2 * N),
    let z0 := (Jacobi.quadrature (2 * N) 0 0 g i).1
    let w0 := (Jacobi.quadrature (2 * N) 0 0 g i).2
    let r0 := (rout - rin) / 2 * (z0 + (rout + rin) / (rout - rin))
    r0 ^ p * w0 * (r0 / (rout - rin)) ^ (-(k : Int)) * Jacobi.polynomials N (alpha.1 + k) (alpha.2 + k) z0 j

/-- `IntegrateAnnulus._radial_matrix` (`dedalus/core/basis.py` L5447-5462) for `m = 0`. -/
noncomputable def annulusIntegrate (rin rout : ℝ) (alpha : ℝ × ℝ) (N k : Nat) (g : Nat → ℝ) (j : Nat) : ℝ :=
  integralVector rin rout alpha 1 N k g j * ((rout - rin) / 2) * (2 * Real.pi)

/-- `AverageAnnulus._radial_matrix` (`dedalus/core/basis.py` L5470-5486) for `m = 0`. -/
noncomputable def annulusAverage (rin rout : ℝ) (alpha : ℝ × ℝ) (N k : Nat) (g : Nat → ℝ) (j : Nat) : ℝ :=
  integralVector rin rout alpha 1 N k g j * ((rout - rin) / 2) * (2 * Real.pi) / (Real.pi * (rout ^ 2 - rin ^ 2))

/-- `IntegrateShell._radial_matrix` (`dedalus/core/basis.py` L5560-5575) for `ell = 0`. -/
noncomputable def shellIntegrate (rin rout : ℝ) (alpha : ℝ × ℝ) (N k : Nat) (g : Nat → ℝ) (j : Nat) : ℝ :=
  integralVector rin rout alpha 2 N k g j * ((rout - rin) / 2) * (4 * Real.pi / √2)

/-- `Nmat` (`dedalus/core/basis.py` L2287, L3889). -/
def nccSize (N k : Nat) : Nat := 3 * ((N + 1) / 2) + k

/-- `_last_axis_component_ncc_matrix` (`dedalus/core/basis.py` L2276-2302, L3878-3904) for one of the blocks `matrix_cos`, `matrix_msin`: `prefactor @
clenshaw` for an NCC with the parameter `kN` and an argument with `kA`. Here the NCC has the size `N` of the argument. For real `coeffs`
the complex case is the same. -/
noncomputable def nccMatrix (alpha : ℝ × ℝ) (N kN kA : Nat) (coeffs : List ℝ) (cutoff : ℝ) (i j : Nat) : ℝ :=
  if h : j < nccSize N kN then
    ∑ l : Fin (nccSize N kN), jacobiConversion alpha (nccSize N kN) kA kN i l *
      nccClenshaw (nccSize N kN) (kN + alpha.1) (kN + alpha.2) (kA + alpha.1) (kA + alpha.2) coeffs cutoff l ⟨j, h⟩
  else 0

/-- `sparse.bmat([[matrix_cos, -matrix_msin], [matrix_msin, matrix_cos]])` (`dedalus/core/basis.py` L2298, L3901): the cosine (`part = 0`) and minus
sine slots of row `i`. -/
noncomputable def nccReal (alpha : ℝ × ℝ) (N kN kA : Nat) (cos msin : List ℝ) (cutoff : ℝ) (u : Nat → Nat → ℝ) (part i : Nat) : ℝ :=
  let C := nccMatrix alpha N kN kA cos cutoff
  let S := nccMatrix alpha N kN kA msin cutoff
  if part = 0 then ∑ j ∈ Finset.range N, C i j * u 0 j + ∑ j ∈ Finset.range N, -S i j * u 1 j
  else ∑ j ∈ Finset.range N, S i j * u 0 j + ∑ j ∈ Finset.range N, C i j * u 1 j

/-! ## Operators of the annulus -/

/-- `operator_matrix` for `'D+'` and `'D-'` (`dedalus/core/basis.py` L2239-2250, L2258-2261), with `p = ±1`. -/
noncomputable def annulusLadder (rin rout : ℝ) (alpha : ℝ × ℝ) (N k : Nat) (p m s : Int) : Nat → Nat → ℝ :=
  let ms := m + s
  if ms = 0 then square alpha (opDr 2 rin rout alpha.1 1 ms) N k
  else if ms < 0 then square alpha (opDr 2 rin rout alpha.1 (-p) (-ms)) N k
  else square alpha (opDr 2 rin rout alpha.1 p ms) N k

/-- `operator_matrix` for `'L'` (`dedalus/core/basis.py` L2251-2261). -/
noncomputable def annulusLaplacian (rin rout : ℝ) (alpha : ℝ × ℝ) (N k : Nat) (m s : Int) : Nat → Nat → ℝ :=
  let ms := m + s
  let D := opDr 2 rin rout alpha.1
  square alpha (if ms < 0 then (D 1 (ms - 1)).comp (D (-1) ms) else (D (-1) (ms + 1)).comp (D 1 ms)) N k

/-- `PolarGradient._radial_matrix` (`dedalus/core/operators.py` L3094-3104): component 0 is the spin -1, component 1 the spin +1. -/
noncomputable def gradientMatrix (rin rout : ℝ) (alpha : ℝ × ℝ) (N k : Nat) (comp : Nat) (m s : Int) : Option (Nat → Nat → ℝ) :=
  if comp = 0 then some fun i j => 1 / √2 * annulusLadder rin rout alpha N k (-1) m s i j
  else if comp = 1 then some fun i j => 1 / √2 * annulusLadder rin rout alpha N k 1 m s i j
  else none

/-- `PolarDivergence._radial_matrix` (`dedalus/core/operators.py` L3654-3662): `s` is the spin of the input component. -/
noncomputable def divergenceMatrix (rin rout : ℝ) (alpha : ℝ × ℝ) (N k : Nat) (comp : Nat) (m s : Int) : Option (Nat → Nat → ℝ) :=
  if comp = 0 then some fun i j => 1 / √2 * annulusLadder rin rout alpha N k 1 m s i j
  else if comp = 1 then some fun i j => 1 / √2 * annulusLadder rin rout alpha N k (-1) m s i j
  else none

/-- `LiftAnnulus.radial_matrix` (`dedalus/core/basis.py` L5036-5043): `matrix[n, 0] = 1` with Python indexing. -/
def annulusLift (N : Nat) (n : Int) (i : Nat) : Option ℝ :=
  if -(N : Int) ≤ n ∧ n < N then some (if (i : Int) = (if n < 0 then n + N else n) then 1 else 0) else none

/-! ## Operators of the shell -/

/-- `operator_matrix` for `'D+'` and `'D-'` (`dedalus/core/basis.py` L3846-3859), with `p = ±1`. -/
noncomputable def shellLadder (rin rout : ℝ) (alpha : ℝ × ℝ) (N k : Nat) (p : Int) (ell : Nat) (deg : Int) : Nat → Nat → ℝ :=
  square alpha (opDr 3 rin rout alpha.1 p (ell + deg)) N k

/-- `operator_matrix` for `'L'` (`dedalus/core/basis.py` L3846-3859). -/
noncomputable def shellLaplacian (rin rout : ℝ) (alpha : ℝ × ℝ) (N k : Nat) (ell : Nat) (deg : Int) : Nat → Nat → ℝ :=
  square alpha ((opDr 3 rin rout alpha.1 (-1) (ell + deg + 1)).comp (opDr 3 rin rout alpha.1 1 (ell + deg))) N k

/-- `ShellRadialInterpolate.operate` and `radial_matrix` (`dedalus/core/basis.py` L5866-5889): the rows of the components, and the recombination
to spin components. `SphericalEllOperator.operate` (`dedalus/core/operators.py` L3137-3165) leaves components that are not allowed at 0. -/
noncomputable def shellInterpolate (rin rout : ℝ) (alpha : ℝ × ℝ) (N k ell rank : Nat) (position : ℝ) (c : List Int → Nat → ℂ) (spin : List Int) : ℂ :=
  Ball.spinComponent ell rank (fun reg => if Ball.allowed ell reg then
    ∑ j ∈ Finset.range N, (interpolation rin rout alpha N k position j : ℂ) * c reg j else 0) spin

end Dedalus.Shell
