import Verif.Sphere.Model
import Verif.Regularity.Model

/-!
# Zernike functions, radial transforms and operators of the disk

Model of `dedalus/libraries/dedalus_sphere/zernike.py`, of `DiskRadialTransform` and `BallRadialTransform` in
`dedalus/core/transforms.py` and of the radial matrices of `DiskBasis` and its operators in `dedalus/core/basis.py` and
`dedalus/core/operators.py`. Floating point numbers are real numbers. Data are elements of a real vector space.
-/

namespace Dedalus.Zernike

open Jacobi (Op opAp opAm opBp opBm opD opZ normRatio)

/-! ## Polynomials -/

/-- `b` (`dedalus/libraries/dedalus_sphere/zernike.py` L36, L85-86). -/
noncomputable def bParam (dim : Nat) (l : Int) : ℝ := l + (dim : ℝ) / 2 - 1

/-- `quadrature` (`dedalus/libraries/dedalus_sphere/zernike.py` L12-23) from the guess `g`: grid and weights. -/
noncomputable def quadrature (dim n : Nat) (k : ℝ) (g : Nat → ℝ) (i : Nat) : ℝ × ℝ :=
  let q := Jacobi.quadrature n k ((dim : ℝ) / 2 - 1) g i
  (q.1, q.2 / (2 : ℝ) ^ (k + (dim : ℝ) / 2 + 1))

/-- `min_degree` (`dedalus/libraries/dedalus_sphere/zernike.py` L25-26). -/
def minDegree (l : Int) : Int := max (l / 2) 0

/-- `polynomials` (`dedalus/libraries/dedalus_sphere/zernike.py` L28-42), row `j` of `n`, for `-1 < z`. `Jacobi.measure(0, l, z,
log=True, probability=False)` is `l*log(1+z)` or the number 0 (`dedalus/libraries/dedalus_sphere/jacobi.py` L176-186). -/
noncomputable def polynomials (dim n : Nat) (k : ℝ) (l : Int) (z : ℝ) (j : Nat) : ℝ :=
  let b := bParam dim l
  let init := if l ≠ 0 then (l : ℝ) * Real.log (1 + z) else 0
  let init := init - (Real.log (Jacobi.mass k b) - Real.log 2 * (k + (dim : ℝ) / 2 + 1))
  Sphere.polynomialsInit n k b z (Real.exp ((1 / 2) * init)) j

/-! ## Operators -/

/-- `JacobiOperator.__C` for `p = +1` (`dedalus/libraries/dedalus_sphere/jacobi.py` L402-414). -/
noncomputable def opC : Op := ⟨fun n => n, 1, -1, fun _ a b i j => if i = j then (j + b) * normRatio 0 1 (-1) j a b else 0⟩

/-- Multiplication of an operator by a number (`dedalus/libraries/dedalus_sphere/operators.py` L138-144). -/
noncomputable def smul (c : ℝ) (A : Op) : Op := ⟨A.rows, A.da, A.db, fun n a b i j => c * A.entry n a b i j⟩

/-- `ZernikeOperator.__D` (`dedalus/libraries/dedalus_sphere/zernike.py` L88-94). -/
noncomputable def zD (radius : ℝ) (dl : Int) : Op := smul (2 / radius) (if dl > 0 then opD else opC)

/-- `ZernikeOperator.__E` (`dedalus/libraries/dedalus_sphere/zernike.py` L96-102) for `dk = ±1`. -/
noncomputable def zE (dk : Int) : Op := smul √(1 / 2) (if dk = 1 then opAp else opAm)

/-- `ZernikeOperator.__R` (`dedalus/libraries/dedalus_sphere/zernike.py` L104-110) for `dl = ±1`. -/
noncomputable def zR (radius : ℝ) (dl : Int) : Op := smul (√(1 / 2) * radius) (if dl = 1 then opBp else opBm)

/-- An operator at `(n, k, l)`: all operators pass `b(l)` to the Jacobi operators, and the shifts of `l` and `b` agree
(`dedalus/libraries/dedalus_sphere/zernike.py` L85-110). -/
noncomputable def at_ (dim : Nat) (A : Op) (n : Nat) (k : ℝ) (l : Int) (i j : Nat) : ℝ := A.entry n k (bParam dim l) i j

/-- `infinite_csr.square` (`dedalus/libraries/dedalus_sphere/operators.py` L296-318) of an operator at `(n, k, l)`. -/
noncomputable def square (dim : Nat) (A : Op) (n : Nat) (k : ℝ) (l : Int) (i j : Nat) : ℝ := if i < A.rows n then at_ dim A n k l i j else 0

/-! ## Transforms -/

/-- The matrix `W` before the conversion (`dedalus/core/transforms.py` L1408-1414, L1516-1527). -/
noncomputable def gaussMatrix (dim Ng Nc : Nat) (Nmin : Int) (alpha : ℝ) (l : Int) (g : Nat → ℝ) (row i : Nat) : ℝ :=
  let n := (max ((max Ng Nc : Nat) - Nmin) 0).toNat
  if (max (Ng - l / 2) 0).toNat ≤ row then 0
  else polynomials dim n alpha l (quadrature dim Ng alpha g i).1 row * (quadrature dim Ng alpha g i).2

/-- `_forward_matrices` and `_forward_GSZP_matrix` (`dedalus/core/transforms.py` L1405-1425, L1514-1539), of which the rows up to
`max(Nc - Nmin, 0)` are kept. `before` is `dealias_before_converting`, `l` is `abs(m + s)` or `ell + regtotal`. -/
noncomputable def forwardMatrix (dim : Nat) (before : Bool) (Ng Nc : Nat) (Nmin : Int) (k : Nat) (alpha : ℝ) (l : Int) (g : Nat → ℝ)
    (row i : Nat) : ℝ :=
  let W := gaussMatrix dim Ng Nc Nmin alpha l g
  let rows := if before then (max (Nc - Nmin) 0).toNat else (max ((max Ng Nc : Nat) - Nmin) 0).toNat
  if k > 0 then ∑ j ∈ Finset.range rows, at_ dim ((zE 1).pow k) rows alpha l row j * W j i else W row i

/-- `_backward_matrices` and `_backward_GSZP_matrix` (`dedalus/core/transforms.py` L1435-1446, L1549-1562). -/
noncomputable def backwardMatrix (dim Ng Nc : Nat) (Nmin : Int) (k : Nat) (alpha : ℝ) (l : Int) (g : Nat → ℝ) (i row : Nat) : ℝ :=
  let n := (max (Nc - Nmin) 0).toNat
  if (max (Ng - l / 2) 0).toNat ≤ row then 0 else polynomials dim n (k + alpha) l (quadrature dim Ng alpha g i).1 row

section
variable {V : Type} [AddCommGroup V] [Module ℝ V]

/-- `DiskRadialTransform.forward_reduced` (`dedalus/core/transforms.py` L1361-1374) for one `m`: coefficient `row` of the slice of
`m`. The data are filled with 0 before (`dedalus/core/basis.py` L2463). -/
noncomputable def diskForward (before : Bool) (Ng Nc : Nat) (k : Nat) (alpha : ℝ) (m s : Int) (g : Nat → ℝ) (gdata : Nat → V) (row : Nat) : V :=
  if |m| ≤ 2 * ((Nc : Int) - 1) then
    ∑ i ∈ Finset.range Ng, forwardMatrix 2 before Ng Nc (minDegree |m|) k alpha |m + s| g row i • gdata i
  else 0

/-- `DiskRadialTransform.backward_reduced` (`dedalus/core/transforms.py` L1376-1391) for one `m`. -/
noncomputable def diskBackward (Ng Nc : Nat) (k : Nat) (alpha : ℝ) (m s : Int) (g : Nat → ℝ) (cdata : Nat → V) (i : Nat) : V :=
  if |m| > 2 * ((Nc : Int) - 1) then 0
  else ∑ row ∈ Finset.range (max (Nc - minDegree |m|) 0).toNat, backwardMatrix 2 Ng Nc (minDegree |m|) k alpha |m + s| g i row • cdata row

/-- `BallRadialTransform.forward_reduced` (`dedalus/core/transforms.py` L1480-1489) for one `ell` and the component with the
regularities `reg`. The rows of the matrix fill `cdata[Nmin:]`. -/
noncomputable def ballForward (before : Bool) (Ng Nc : Nat) (k : Nat) (alpha : ℝ) (ell : Nat) (reg : List Int) (g : Nat → ℝ) (gdata : Nat → V)
    (row : Nat) : V :=
  if reg ≠ [] ∧ Regularity.forbiddenRegularity ell reg then 0
  else ∑ i ∈ Finset.range Ng, forwardMatrix 3 before Ng Nc (minDegree ell) k alpha (ell + reg.sum) g row i • gdata i

/-- `BallRadialTransform.backward_reduced` (`dedalus/core/transforms.py` L1491-1500) for one `ell`. -/
noncomputable def ballBackward (Ng Nc : Nat) (k : Nat) (alpha : ℝ) (ell : Nat) (reg : List Int) (g : Nat → ℝ) (cdata : Nat → V) (i : Nat) : V :=
  if reg ≠ [] ∧ Regularity.forbiddenRegularity ell reg then 0
  else ∑ row ∈ Finset.range (max (Nc - minDegree ell) 0).toNat,
    backwardMatrix 3 Ng Nc (minDegree ell) k alpha (ell + reg.sum) g i row • cdata row

end

/-- `DiskBasis._native_radius_grid` (`dedalus/core/basis.py` L2414-2418) and the same of the ball (L3991-3995). -/
noncomputable def radiusGrid (dim N : Nat) (alpha : ℝ) (g : Nat → ℝ) (i : Nat) : ℝ := √(((quadrature dim N alpha g i).1 + 1) / 2)

/-! ## Radial matrices of the disk -/

/-- `n_size` (`dedalus/core/basis.py` L1860-1864, L2367-2369) for the shape `(_, Nc)`. -/
def nSize (Nc : Nat) (m : Int) : Int := (Nc : Int) - 1 - |m| / 2 + 1

/-- `derivative_basis` (`dedalus/core/basis.py` L2006-2008, L4197-4199): the parameter `k` of the output. Gradient, divergence and curl
have order 1, the Laplacian order 2 (`dedalus/core/operators.py` L3067, L3254, L3564, L3624, L3856, L4123, L4231). -/
def derivativeK (k order : Nat) : Nat := k + order

/-- `conversion_matrix` (`dedalus/core/basis.py` L2503-2507). -/
noncomputable def conversionMatrix (N k : Nat) (alpha : ℝ) (m s : Int) (dk : Nat) : Nat → Nat → ℝ :=
  square 2 ((zE 1).pow dk) N (alpha + k) |m + s|

/-- `operator_matrix` for `'D+'` and `'D-'` (`dedalus/core/basis.py` L2509-2529), with `p = ±1` and `N` columns. -/
noncomputable def ladderMatrix (radius : ℝ) (N k : Nat) (alpha : ℝ) (p : Int) (m s : Int) : Nat → Nat → ℝ :=
  let p := if m + s = 0 then 1 else if m + s < 0 then -p else p
  square 2 (zD radius p) N (alpha + k) |m + s|

/-- `operator_matrix` for `'L'` (`dedalus/core/basis.py` L2519-2529). -/
noncomputable def laplacianMatrix (radius : ℝ) (N k : Nat) (alpha : ℝ) (m s : Int) : Nat → Nat → ℝ :=
  let op := if m + s < 0 then (zD radius 1).comp (zD radius (-1)) else (zD radius (-1)).comp (zD radius 1)
  square 2 op N (alpha + k) |m + s|

/-- `PolarGradient._radial_matrix` (`dedalus/core/operators.py` L3094-3104): component 0 is the spin -1, component 1 the spin +1. -/
noncomputable def gradientMatrix (radius : ℝ) (N k : Nat) (alpha : ℝ) (comp : Nat) (m s : Int) : Option (Nat → Nat → ℝ) :=
  if comp = 0 then some fun i j => 1 / √2 * ladderMatrix radius N k alpha (-1) m s i j
  else if comp = 1 then some fun i j => 1 / √2 * ladderMatrix radius N k alpha 1 m s i j
  else none

/-- `PolarDivergence._radial_matrix` (`dedalus/core/operators.py` L3654-3662): `s` is the spin of the input component. -/
noncomputable def divergenceMatrix (radius : ℝ) (N k : Nat) (alpha : ℝ) (comp : Nat) (m s : Int) : Option (Nat → Nat → ℝ) :=
  if comp = 0 then some fun i j => 1 / √2 * ladderMatrix radius N k alpha 1 m s i j
  else if comp = 1 then some fun i j => 1 / √2 * ladderMatrix radius N k alpha (-1) m s i j
  else none

/-- `interpolation` (`dedalus/core/basis.py` L2531-2535), column `j`; `radial_COV` maps `(0, 1)` to `(0, radius)` (L2356). -/
noncomputable def interpolation (radius : ℝ) (N k : Nat) (alpha : ℝ) (m s : Int) (position : ℝ) (j : Nat) : ℝ :=
  let native := position / radius
  polynomials 2 N (alpha + k) |m + s| (2 * native ^ 2 - 1) j

/-- `constant_mode_value` (`dedalus/core/basis.py` L2433-2436). -/
noncomputable def constantModeValue (k : Nat) (alpha : ℝ) : ℝ := polynomials 2 1 (alpha + k) 0 0 0

/-- `ConvertConstantDisk.radial_matrix` (`dedalus/core/basis.py` L2629-2639); `none` is a `ValueError`. -/
noncomputable def convertConstant (k : Nat) (alpha : ℝ) (m : Int) (i : Nat) : Option ℝ :=
  if m = 0 then some (if i = 0 then 1 / constantModeValue k alpha else 0) else none

/-- `w0[None, :] @ Qk.T` of `IntegrateDisk` and `AverageDisk` (`dedalus/core/basis.py` L5412-5414, L5433-5435) for `m = 0`. -/
noncomputable def integralVector (Nc k : Nat) (alpha : ℝ) (g : Nat → ℝ) (j : Nat) : ℝ :=
  ∑ i ∈ Finset.range Nc, (quadrature 2 Nc 0 g i).2 * polynomials 2 (nSize Nc 0).toNat (alpha + k) 0 (quadrature 2 Nc 0 g i).1 j

/-- `IntegrateDisk._radial_matrix` (`dedalus/core/basis.py` L5408-5419) for `m = 0`. -/
noncomputable def integrate (radius : ℝ) (Nc k : Nat) (alpha : ℝ) (g : Nat → ℝ) (j : Nat) : ℝ :=
  integralVector Nc k alpha g j * radius ^ 2 * (2 * Real.pi)

/-- `AverageDisk._radial_matrix` (`dedalus/core/basis.py` L5429-5439) for `m = 0`. -/
noncomputable def average (Nc k : Nat) (alpha : ℝ) (g : Nat → ℝ) (j : Nat) : ℝ := integralVector Nc k alpha g j * 2

/-- `LiftDisk.radial_matrix` (`dedalus/core/basis.py` L4984-4990): `matrix[n, 0] = 1` with Python indexing. -/
def lift (N : Nat) (n : Int) (i : Nat) : Option ℝ :=
  if -(N : Int) ≤ n ∧ n < N then some (if (i : Int) = (if n < 0 then n + N else n) then 1 else 0) else none

/-- A matrix applied to coefficients. -/
noncomputable def apply (N : Nat) (A : Nat → Nat → ℝ) (c : Nat → ℂ) (i : Nat) : ℂ := ∑ j ∈ Finset.range N, (A i j : ℂ) * c j

end Dedalus.Zernike
