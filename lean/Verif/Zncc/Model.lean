import Verif.Zernike.Model
import Mathlib.Analysis.Complex.Basic
import Mathlib.Analysis.RCLike.Basic

/-!
# Radial coefficients in disks and balls

Model of the matrices of products with a non-constant coefficient (NCC) that depends on the radius:
`_last_axis_component_ncc_matrix` of `BallRadialBasis` and `DiskBasis` (`dedalus/core/basis.py`), for one component of the
coefficient, one of the operand and one of the product. `K` is `ℂ` for complex data and `ℝ` for real data. Floating point numbers are
exact. The operand and the coefficient have the same radial size. The sum over components with the weights `Gamma` is not modelled.
-/

namespace Dedalus.Zncc

open Jacobi (Op opZ jacobiMatrix)
open Zernike (zE zR square bParam polynomials nSize)

/-- `radius_multiplication_matrix` (`dedalus/core/basis.py` L2538-2551, L4066-4082) before `.square`. The exponent `abs(order)` is
positive where it is used. -/
noncomputable def radiusOp (order d : Int) : Op :=
  let operator :=
    if order = 0 then Op.one
    else if order < 0 then (zR 1 (-1)).pow order.natAbs
    else (zR 1 1).pow order.natAbs
  if d > 0 then (((zR 1 (-1)).comp (zR 1 1)).pow (d / 2).toNat).comp operator else operator

variable {K : Type} [RCLike K]

/-- The recursion and `matrix_clenshaw` (`dedalus/core/basis.py` L2570-2573, L2582, L4115-4117, L4129): matrices of size `M`, recursion
for `n` polynomials of the coefficient with parameters `aN`, `lN`, and the Jacobi matrix of the operand with `aA`, `lA`. -/
noncomputable def clenshaw (dim M n : Nat) (aN : ℝ) (lN : Int) (aA : ℝ) (lA : Int) (coeffs : List K) (cutoff : ℝ) :
    Matrix (Fin M) (Fin M) K :=
  let X : Matrix (Fin M) (Fin M) K := fun i j => ((square dim opZ M aA lA i j : ℝ) : K)
  let J : Nat → Nat → K := fun i j => ((jacobiMatrix n aN (bParam dim lN) i j : ℝ) : K)
  Clenshaw.matrixClenshaw (fun x : K => ‖x‖) coeffs (Clenshaw.jacobiA n J X) (Clenshaw.jacobiB n J)
    (((polynomials dim 1 aN lN 1 0 : ℝ) : K) • (1 : Matrix (Fin M) (Fin M) K)) cutoff

/-- `prefactor @ matrix_clenshaw(...)` (`dedalus/core/basis.py` L2582, L4129) with an `M × M` prefactor. -/
noncomputable def scaled {M : Nat} (prefactor : Nat → Nat → ℝ) (C : Matrix (Fin M) (Fin M) K) (i j : Nat) : K :=
  if h : j < M then ∑ l : Fin M, (prefactor i l : K) * C l ⟨j, h⟩ else 0

/-! ## Ball -/

/-- `n_size` of the ball (`dedalus/core/basis.py` L3670-3673, L4084-4086). -/
def ballSize (Nc ell : Nat) : Nat := Nc - ell / 2

/-- `Nmat` (`dedalus/core/basis.py` L4113). -/
def ballPadded (Nc dk : Nat) : Nat := 3 * ((Nc + 1) / 2) + (dk + 1) / 2

/-- `BallRadialBasis._last_axis_component_ncc_matrix` (`dedalus/core/basis.py` L4088-4135) for complex data, and one of the blocks
`matrix_cos` and `matrix_msin` for real data. `kN`, `kA` are the parameters `k` of the coefficient and the operand; `rN`, `rA`, `rO`
are the total regularities of the components. -/
noncomputable def ballNcc (Nc : Nat) (alpha : ℝ) (kN kA ell : Nat) (rN rA rO : Int) (coeffs : List K) (cutoff : ℝ) (i j : Nat) : K :=
  let diff := rO - rA
  let d := rN - |diff|
  let dk := max kN kA - kA
  let M := ballPadded Nc dk
  if d ≥ 0 ∧ d % 2 = 0 then
    let radialFactor := square 3 (radiusOp diff d) M (alpha + kA) (ell + rA)
    let conversion := square 3 ((zE 1).pow dk) M (alpha + kA) (ell + rO)
    let prefactor := fun i l => ∑ p ∈ Finset.range M, conversion i p * radialFactor p l
    scaled prefactor (clenshaw 3 M Nc (alpha + kN) rN (alpha + kA) (ell + rA) (coeffs.take Nc) cutoff) i j
  else 0

/-! ## Disk -/

/-- `DiskBasis._last_axis_component_ncc_matrix` (`dedalus/core/basis.py` L2553-2588) from the coefficients that are passed to
`matrix_clenshaw`. `sN`, `sA`, `sO` are the total spins of the components and `m` is the azimuthal order. -/
noncomputable def diskBlock (Nr : Nat) (alpha : ℝ) (kN kA : Nat) (m sN sA sO : Int) (coeffs : List K) (cutoff : ℝ) (i j : Nat) : K :=
  let rN := |sN|
  let diff := |m + sO| - |m + sA|
  let N := (nSize Nr m).toNat
  let d := rN - |diff|
  if d ≥ 0 ∧ d % 2 = 0 then
    scaled (square 2 (radiusOp diff d) N (alpha + kA) |m + sA|)
      (clenshaw 2 N N (alpha + kN) rN (alpha + kA) |m + sA| coeffs cutoff) i j
  else 0

/-- The matrix for complex data (`dedalus/core/basis.py` L2580-2582). -/
noncomputable def diskComplex (Nr : Nat) (alpha : ℝ) (kN kA : Nat) (m sN sA sO : Int) (coeffs : List ℂ) (cutoff : ℝ) (i j : Nat) : ℂ :=
  diskBlock Nr alpha kN kA m sN sA sO (coeffs.take (nSize Nr m).toNat) cutoff i j

/-- `sparse.bmat([[cos, -msin], [msin, cos]])` (`dedalus/core/basis.py` L2579, L4126) applied to the cosine part `u 0` and the minus sine
part `u 1` of the operand: coefficient `i` of part `part` of the product. -/
noncomputable def realProduct (N : Nat) (cos msin : Nat → Nat → ℝ) (u : Nat → Nat → ℝ) (part i : Nat) : ℝ :=
  ∑ j ∈ Finset.range N, if part = 0 then cos i j * u 0 j - msin i j * u 1 j else msin i j * u 0 j + cos i j * u 1 j

/-- The product for real data in the ball (`dedalus/core/basis.py` L4121-4126). -/
noncomputable def ballReal (Nc : Nat) (alpha : ℝ) (kN kA ell : Nat) (rN rA rO : Int) (cos msin : List ℝ) (cutoff : ℝ)
    (u : Nat → Nat → ℝ) (part i : Nat) : ℝ :=
  realProduct (ballSize Nc ell) (ballNcc Nc alpha kN kA ell rN rA rO cos cutoff) (ballNcc Nc alpha kN kA ell rN rA rO msin cutoff) u part i

/-- The product for real data in the disk (`dedalus/core/basis.py` L2575-2579): `coeffs` has the rows `cos` and `msin`, of `Nr` numbers
each, and is flattened before it is cut. -/
noncomputable def diskReal (Nr : Nat) (alpha : ℝ) (kN kA : Nat) (m sN sA sO : Int) (cos msin : List ℝ) (cutoff : ℝ)
    (u : Nat → Nat → ℝ) (part i : Nat) : ℝ :=
  let N := (nSize Nr m).toNat
  let coeffs := (cos ++ msin).take (2 * N)
  realProduct N (diskBlock Nr alpha kN kA m sN sA sO (coeffs.take N) cutoff) (diskBlock Nr alpha kN kA m sN sA sO (coeffs.drop N) cutoff)
    u part i

end Dedalus.Zncc
