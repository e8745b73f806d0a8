import Verif.Clenshaw.Model
import Verif.Cosine.Model
import Verif.Fourier.OpsModel
import Mathlib.LinearAlgebra.Matrix.Charpoly.Basic
import Mathlib.Analysis.SpecialFunctions.Gamma.Basic
import Mathlib.Algebra.Order.Round
import Mathlib.Analysis.SpecialFunctions.Sqrt
import Mathlib.Analysis.SpecialFunctions.Pow.Real

/-!
# Jacobi polynomials and their operators

Model of `dedalus/libraries/dedalus_sphere/jacobi.py` and `dedalus/tools/jacobi.py` with the default `normalised=True`.
Floating point numbers are real numbers. Matrices are functions of row and column; the sizes are arguments.
-/

namespace Dedalus.Jacobi

/-! ## Norms -/

/-- `tricky` of `norm_ratio` (`dedalus/libraries/dedalus_sphere/jacobi.py` L234-238): `2 - (n==0)` if `a + b = -1`. -/
noncomputable def tricky (n : Int) (a b : ℝ) : ℝ :=
  if a + b ≠ -1 then (2 * n + a + b + 1) / (n + a + b + 1) else if n = 0 then 2 - 1 else 2 - 0

/-- `n_ratio(1, n, a, b)` (`dedalus/libraries/dedalus_sphere/jacobi.py` L243-244). -/
noncomputable def nRatioOne (n : Int) (a b : ℝ) : ℝ :=
  (n + a + 1) * (n + b + 1) / ((n + 1) * (2 * n + a + b + 3)) * tricky n a b

/-- `n_ratio` for `d ≥ 0` (`dedalus/libraries/dedalus_sphere/jacobi.py` L242-245). `d = 1` is the case `1 + 0` of the recursion. -/
noncomputable def nRatioNat : Nat → Int → ℝ → ℝ → ℝ
  | 0, _, _, _ => 1
  | d + 1, n, a, b => nRatioOne (n + (d + 1) - 1) a b * nRatioNat d n a b

/-- `n_ratio` (`dedalus/libraries/dedalus_sphere/jacobi.py` L240-245). -/
noncomputable def nRatio (d n : Int) (a b : ℝ) : ℝ :=
  if d < 0 then 1 / nRatioNat (-d).toNat (n + d) a b else nRatioNat d.toNat n a b

/-- `ab_ratio(1, n, a, b)` (`dedalus/libraries/dedalus_sphere/jacobi.py` L250-251). -/
noncomputable def abRatioOne (n : Int) (a b : ℝ) : ℝ := 2 * (n + a + 1) / (2 * n + a + b + 2) * tricky n a b

/-- `ab_ratio` for `d ≥ 0` (`dedalus/libraries/dedalus_sphere/jacobi.py` L249-252). -/
noncomputable def abRatioNat : Nat → Int → ℝ → ℝ → ℝ
  | 0, _, _, _ => 1
  | d + 1, n, a, b => abRatioOne n (a + (d + 1) - 1) b * abRatioNat d n a b

/-- `ab_ratio` (`dedalus/libraries/dedalus_sphere/jacobi.py` L247-252). -/
noncomputable def abRatio (d n : Int) (a b : ℝ) : ℝ :=
  if d < 0 then 1 / abRatioNat (-d).toNat n (a + d) b else abRatioNat d.toNat n a b

/-- `norm_ratio` (`dedalus/libraries/dedalus_sphere/jacobi.py` L207-258). -/
noncomputable def normRatio (dn da db n : Int) (a b : ℝ) : ℝ :=
  √(nRatio dn n (a + da) (b + db) * abRatio da n a (b + db) * abRatio db n b a)

/-- `mass` (`dedalus/libraries/dedalus_sphere/jacobi.py` L188-205), where `beta(x, y) = Γ(x) Γ(y) / Γ(x + y)`. -/
noncomputable def mass (a b : ℝ) : ℝ :=
  (2 : ℝ) ^ (a + b + 1) * (Real.Gamma (a + 1) * Real.Gamma (b + 1) / Real.Gamma (a + 1 + (b + 1)))

/-! ## Operators -/

/-- A matrix-valued function of the domain (`Operator`, `dedalus/libraries/dedalus_sphere/operators.py` L7-173): `n` columns
and `rows n` rows, with polynomials of parameters `(a, b)` mapped to `(a + da, b + db)`. -/
structure Op where
  rows : Nat → Nat
  da : ℝ
  db : ℝ
  entry : Nat → ℝ → ℝ → Nat → Nat → ℝ

/-- `Operator.__matmul__` (`dedalus/libraries/dedalus_sphere/operators.py` L99-102). -/
noncomputable def Op.comp (L R : Op) : Op :=
  ⟨fun n => L.rows (R.rows n), R.da + L.da, R.db + L.db, fun n a b i j =>
    ∑ l ∈ Finset.range (R.rows n), L.entry (R.rows n) (a + R.da) (b + R.db) i l * R.entry n a b l j⟩

/-- `Operator.identity` (`dedalus/libraries/dedalus_sphere/operators.py` L111-115). -/
noncomputable def Op.one : Op := ⟨fun n => n, 0, 0, fun _ _ _ i j => if i = j then 1 else 0⟩

/-- `Operator.__pow__` (`dedalus/libraries/dedalus_sphere/operators.py` L117-122). -/
noncomputable def Op.pow (L : Op) : Nat → Op
  | 0 => Op.one
  | k + 1 => L.comp (L.pow k)

/-- The division of the bands by `2 n + a + b + 1` (`dedalus/libraries/dedalus_sphere/jacobi.py` L383-384). -/
noncomputable def scaleBand (a b : ℝ) (j : Nat) (v : ℝ) : ℝ :=
  if j = 0 then (if a + b = -1 then 1 else v / (a + b + 1)) else v / (2 * j + a + b + 1)

/-- `JacobiOperator.__A` for `p = +1` (`dedalus/libraries/dedalus_sphere/jacobi.py` L370-392): `dia_matrix` puts entry `j`
of the band of offset `p` at `(j - p, j)`. -/
noncomputable def opAp : Op := ⟨fun n => n, 1, 0, fun _ a b i j =>
  if i = j then scaleBand a b j (j + (a + b + 1)) * normRatio 0 1 0 j a b
  else if i + 1 = j then scaleBand a b j (-(j + b)) * normRatio (-1) 1 0 j a b
  else 0⟩

/-- `JacobiOperator.__A` for `p = -1` (`dedalus/libraries/dedalus_sphere/jacobi.py` L370-392). -/
noncomputable def opAm : Op := ⟨fun n => n + 1, -1, 0, fun _ a b i j =>
  if i = j then scaleBand a b j (2 * (j + a)) * normRatio 0 (-1) 0 j a b
  else if i = j + 1 then scaleBand a b j (-2 * (j + 1)) * normRatio 1 (-1) 0 j a b
  else 0⟩

/-- `JacobiOperator.__B` (`dedalus/libraries/dedalus_sphere/jacobi.py` L394-400, L439-446): `Pi @ A @ Pi`, where `Pi` swaps `a` and
`b` and multiplies by `(-1)**n`. -/
noncomputable def swap (A : Op) : Op := ⟨A.rows, A.db, A.da, fun n a b i j => (-1) ^ i * A.entry n b a i j * (-1) ^ j⟩

noncomputable def opBp : Op := swap opAp
noncomputable def opBm : Op := swap opAm

/-- `JacobiOperator.__D` for `p = +1` (`dedalus/libraries/dedalus_sphere/jacobi.py` L416-428). -/
noncomputable def opD : Op := ⟨fun n => n - 1, 1, 1, fun _ a b i j =>
  if i + 1 = j then (j + (a + b + 1)) * (2 : ℝ)⁻¹ * normRatio (-1) 1 1 j a b else 0⟩

/-- `operator('Z')` (`dedalus/libraries/dedalus_sphere/jacobi.py` L278-281). -/
noncomputable def opZ : Op :=
  ⟨fun n => n + 1, 0, 0, fun n a b i j => ((opBm.comp opBp).entry n a b i j - (opAm.comp opAp).entry n a b i j) / 2⟩

/-- `conv = A**da @ B**db` (`dedalus/tools/jacobi.py` L239-245). -/
noncomputable def conversion (N : Nat) (a b : ℝ) (da db : Nat) (i j : Nat) : ℝ :=
  ((opAp.pow da).comp (opBp.pow db)).entry N a b i j

/-- `conversion_matrix` (`dedalus/tools/jacobi.py` L229-245); `none` is a `ValueError`. -/
noncomputable def conversionMatrix (N : Nat) (a0 b0 a1 b1 : ℝ) : Option (Nat → Nat → ℝ) :=
  if (⌊a1 - a0⌋ : ℝ) ≠ a1 - a0 then none
  else if (⌊b1 - b0⌋ : ℝ) ≠ b1 - b0 then none
  else if a0 > a1 then none
  else if b0 > b1 then none
  else some (conversion N a0 b0 ⌊a1 - a0⌋.toNat ⌊b1 - b0⌋.toNat)

/-- `differentiation_matrix` (`dedalus/tools/jacobi.py` L247-248); the last row is empty. -/
noncomputable def differentiationMatrix (N : Nat) (a b : ℝ) (i j : Nat) : ℝ := if i < N - 1 then opD.entry N a b i j else 0

/-- `jacobi_matrix` (`dedalus/tools/jacobi.py` L250-251), and `Jacobi.Jacobi_matrix` (`dedalus/core/basis.py` L573-576). -/
noncomputable def jacobiMatrix (N : Nat) (a b : ℝ) (i j : Nat) : ℝ := opZ.entry N a b i j

/-- The recursion of `polynomials` (`dedalus/libraries/dedalus_sphere/jacobi.py` L50-81) for `n` polynomials. If the
diagonal of `Z` is empty the code uses the same formula without it. -/
noncomputable def polynomials (n : Nat) (a b z : ℝ) : Nat → ℝ
  | 0 => 1 / √(mass a b)
  | 1 => (z - opZ.entry (n + 1) a b 0 0) * (1 / √(mass a b)) / opZ.entry (n + 1) a b 1 0
  | k + 2 => ((z - opZ.entry (n + 1) a b (k + 1) (k + 1)) * polynomials n a b z (k + 1) -
      opZ.entry (n + 1) a b k (k + 1) * polynomials n a b z k) / opZ.entry (n + 1) a b (k + 2) (k + 1)

/-! ## Multiplication matrices -/

/-- `Nmat` (`dedalus/core/basis.py` L618-621), for `da = int(np.round(out_basis.a - arg_basis.a))` and `db`. -/
def nccSize (N : Nat) (da db : Int) : Nat :=
  (3 * (((N : Int) + 1) / 2) + min (((N : Int) + 1) / 2) ((da + db + 1) / 2)).toNat

/-- `clenshaw.matrix_clenshaw` with the recursion of the NCC polynomials and the Jacobi matrix of the operand
(`dedalus/core/basis.py` L622-625, `dedalus/tools/clenshaw.py` L66-101). -/
noncomputable def nccClenshaw (M : Nat) (aN bN aA bA : ℝ) (coeffs : List ℝ) (cutoff : ℝ) : Matrix (Fin M) (Fin M) ℝ :=
  let X : Matrix (Fin M) (Fin M) ℝ := fun i j => jacobiMatrix M aA bA i j
  let A := Clenshaw.jacobiA M (jacobiMatrix M aN bN) X
  let B := Clenshaw.jacobiB M (jacobiMatrix M aN bN)
  Clenshaw.matrixClenshaw (fun x => |x|) coeffs A B (polynomials 1 aN bN 1 0 • (1 : Matrix (Fin M) (Fin M) ℝ)) cutoff

/-- `Jacobi._last_axis_component_ncc_matrix` (`dedalus/core/basis.py` L610-628) for an operand with `N` coefficients. -/
noncomputable def nccMatrix (N : Nat) (aN bN aA bA aO bO : ℝ) (coeffs : List ℝ) (cutoff : ℝ) : Option (Nat → Nat → ℝ) :=
  let M := nccSize N (round (aO - aA)) (round (bO - bA))
  (conversionMatrix M aA bA aO bO).map fun C i j =>
    if h : j < M then ∑ l : Fin M, C i l * nccClenshaw M aN bN aA bA coeffs cutoff l ⟨j, h⟩ else 0

/-- `Jacobi.product_matrix` (`dedalus/core/basis.py` L602-608): the coefficients are a unit vector and the cutoff is 0. -/
noncomputable def productMatrix (N : Nat) (aN bN aA bA aO bO : ℝ) (i : Nat) : Option (Nat → Nat → ℝ) :=
  nccMatrix N aN bN aA bA aO bO (List.replicate i 0 ++ [1]) 0

/-! ## Quadrature and matrix transforms -/

/-- `grid_guess` (`dedalus/libraries/dedalus_sphere/jacobi.py` L123-144): the values `z` it may return. LAPACK's
`eigvalsh_tridiagonal` is replaced by its specification, the eigenvalues with their multiplicities in increasing order. -/
def GridGuess (n : Nat) (a b : ℝ) (z : Nat → ℝ) : Prop :=
  if n = 1 then z 0 = opZ.entry 1 a b 0 0
  else if a = -1 / 2 ∧ b = -1 / 2 then ∀ i, i < n → z i = Cosine.nativeGrid n i
  else (Matrix.charpoly (fun i j : Fin n => jacobiMatrix n a b i j)).roots = (Multiset.range n).map z ∧
    ∀ i j, i < j → j < n → z i ≤ z j

/-- The update of `polynomials(n + 1, a, b, z, Newton=True)` (`dedalus/libraries/dedalus_sphere/jacobi.py` L77-79). -/
noncomputable def newton (n : Nat) (a b z : ℝ) : ℝ :=
  let P := polynomials (n + 1) a b z
  let L := n + 1 + (a + b) / 2
  z + (1 - z ^ 2) * P n / (L * opZ.entry (n + 2) a b (n + 1) n * P (n + 1) - (L - 1) * opZ.entry (n + 2) a b (n - 1) n * P (n - 1))

/-- `P[0] /= np.sqrt(np.sum(P**2, axis=0)); w *= P[0]**2` (`dedalus/libraries/dedalus_sphere/jacobi.py` L118-119). -/
noncomputable def weights (n : Nat) (a b z : ℝ) : ℝ :=
  mass a b * (polynomials (n + 1) a b z 0 / √(∑ k ∈ Finset.range n, polynomials (n + 1) a b z k ^ 2)) ^ 2

/-- `quadrature` (`dedalus/libraries/dedalus_sphere/jacobi.py` L83-121) from the guess `g`: grid and weights. The three
updates return the polynomials at the point before the last update. -/
noncomputable def quadrature (n : Nat) (a b : ℝ) (g : Nat → ℝ) (i : Nat) : ℝ × ℝ :=
  if a = -1 / 2 ∧ b = -1 / 2 then (g i, mass a b / n)
  else if a = 1 / 2 ∧ b = 1 / 2 then (g i, weights n a b (g i))
  else (newton n a b (newton n a b (newton n a b (g i))), weights n a b (newton n a b (newton n a b (g i))))

/-- `base_transform` of `JacobiMMT.forward_matrix` (`dedalus/core/transforms.py` L123-129): rows are modes. -/
noncomputable def baseTransform (N M : Nat) (a0 b0 : ℝ) (g : Nat → ℝ) (m i : Nat) : ℝ :=
  if m < N then polynomials (max M N) a0 b0 (quadrature N a0 b0 g i).1 m * (quadrature N a0 b0 g i).2 else 0

/-- `JacobiMMT.forward_matrix` (`dedalus/core/transforms.py` L117-142), `none` if the conversion raises. `before` is
`dealias_before_converting` and `g` the guess for the grid. -/
noncomputable def forwardMatrix (before : Bool) (N M : Nat) (a b a0 b0 : ℝ) (g : Nat → ℝ) : Option (Nat → Nat → ℝ) :=
  let rows := if before then M else max M N
  if a = a0 ∧ b = b0 then some (baseTransform N M a0 b0 g)
  else (conversionMatrix rows a0 b0 a b).map fun C m i => ∑ l ∈ Finset.range rows, C m l * baseTransform N M a0 b0 g l i

/-- `JacobiMMT.backward_matrix` (`dedalus/core/transforms.py` L144-156): rows are grid points. -/
noncomputable def backwardMatrix (N M : Nat) (a b a0 b0 : ℝ) (g : Nat → ℝ) (i m : Nat) : ℝ :=
  if m < N then polynomials M a b (quadrature N a0 b0 g i).1 m else 0

/-- `integration_vector` (`dedalus/tools/jacobi.py` L253-263) from the guess `g` for the Legendre grid. -/
noncomputable def integrationVector (N : Nat) (a b cutoff : ℝ) (g : Nat → ℝ) (m : Nat) : ℝ :=
  let v := (∑ i ∈ Finset.range N, (quadrature N 0 0 g i).2 * polynomials N a b (quadrature N 0 0 g i).1 m) * (2 / mass 0 0)
  if |v| ≤ cutoff then 0 else v

/-! ## Operators of the basis -/

/-- `native_bounds` of Jacobi bases (`dedalus/core/basis.py` L440). -/
noncomputable def jacobiCov (left right : ℝ) : Fourier.Cov := ⟨-1, 1, left, right⟩

/-- `DifferentiateJacobi._full_matrix` (`dedalus/core/basis.py` L711-718). -/
noncomputable def differentiate (v : Fourier.Cov) (N : Nat) (a b : ℝ) (c : Nat → ℝ) (i : Nat) : ℝ :=
  ∑ j ∈ Finset.range N, differentiationMatrix N a b i j / v.stretch * c j

/-- `InterpolateJacobi._full_matrix` (`dedalus/core/basis.py` L731-742). -/
noncomputable def interpolate (v : Fourier.Cov) (N : Nat) (a b : ℝ) (pos : Fourier.Position) (c : Nat → ℝ) : Option ℝ :=
  (v.nativeCoord pos).map fun x => ∑ j ∈ Finset.range N, polynomials N a b x j * c j

/-- `ConvertConstantJacobi._group_matrix` (`dedalus/core/basis.py` L690-698) and `constant_mode_value` (L499). -/
noncomputable def convertConstant (a b u : ℝ) (m : Nat) : ℝ := if m = 0 then 1 / (1 / √(mass a b)) * u else 0

/-- `IntegrateJacobi._full_matrix` (`dedalus/core/basis.py` L756-764). -/
noncomputable def integrate (v : Fourier.Cov) (N : Nat) (a b cutoff : ℝ) (g : Nat → ℝ) (c : Nat → ℝ) : ℝ :=
  ∑ m ∈ Finset.range N, integrationVector N a b cutoff g m * v.stretch * c m

/-- `AverageJacobi._full_matrix` (`dedalus/core/basis.py` L778-787). -/
noncomputable def average (N : Nat) (a b cutoff : ℝ) (g : Nat → ℝ) (c : Nat → ℝ) : ℝ :=
  ∑ m ∈ Finset.range N, integrationVector N a b cutoff g m / 2 * c m

/-- A bound of a Python slice of an axis of length `N`. -/
def sliceBound (N : Nat) (i : Int) : Nat := (if i < 0 then max (i + N) 0 else min i N).toNat

/-- `LiftJacobi.build_polynomial` (`dedalus/core/basis.py` L806-814): the coefficients, set by a slice that may be empty. -/
def liftPolynomial (N : Nat) (n : Int) (m : Nat) : ℝ :=
  let n' := if n < 0 then n + N else n
  if sliceBound N n' ≤ m ∧ m < sliceBound N (n' + 1) then 1 else 0

end Dedalus.Jacobi
