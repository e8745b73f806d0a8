import Mathlib.LinearAlgebra.Matrix.Kronecker
import Mathlib.Algebra.Algebra.Basic

/-!
# Clenshaw summation

Model of `dedalus/tools/clenshaw.py`. Floating point numbers are elements of a field, sparse matrices are
matrices. The loop `for n in reversed(range(N))` over `c[n]` is a fold from the right over the
numbered list of coefficients, with the pair `(b0, b1)` as state.
-/

namespace Dedalus.Clenshaw

open Matrix

/-- `scalar_clenshaw` (`dedalus/tools/clenshaw.py` L9-20). -/
def scalarClenshaw {K : Type} [Ring K] (c : List K) (A B : Nat → K) (f0 : K) : K :=
  let b := c.zipIdx.foldr (fun (p : K × Nat) (b : K × K) =>
    (p.1 + A p.2 * b.1 + B (p.2 + 1) * b.2, b.1)) (0, 0)
  b.1 * f0

/-- `matrix_clenshaw` (L23-38). `mag` is `abs`, with values in `V`. -/
def matrixClenshaw {K V : Type} [CommRing K] [LT V] [DecidableLT V] {m : Nat} (mag : K → V) (c : List K)
    (A B : Nat → Matrix (Fin m) (Fin m) K) (f0 : Matrix (Fin m) (Fin m) K) (cutoff : V) :
    Matrix (Fin m) (Fin m) K :=
  let b := c.zipIdx.foldr (fun (p : K × Nat) (b : Matrix (Fin m) (Fin m) K × Matrix (Fin m) (Fin m) K) =>
    (if mag p.1 > cutoff then p.1 • (1 : Matrix (Fin m) (Fin m) K) + A p.2 * b.1 + B (p.2 + 1) * b.2
      else A p.2 * b.1 + B (p.2 + 1) * b.2, b.1)) (0, 0)
  f0 * b.1

/-- `kronecker_clenshaw` (L41-63) for matrix coefficients and `coeffs_left=False`, `kron(X, C) = X ⊗ C`; `c` lists
the pairs of `val_c[n]` and `norm_c[n]`. -/
def kroneckerClenshaw {K : Type} [CommRing K] {m r : Nat} (c : List (Matrix (Fin r) (Fin r) K × ℚ))
    (A B : Nat → Matrix (Fin m) (Fin m) K) (f0 : Matrix (Fin m) (Fin m) K) (cutoff : ℚ) :
    Matrix (Fin m × Fin r) (Fin m × Fin r) K :=
  let b := c.zipIdx.foldr (fun (p : (Matrix (Fin r) (Fin r) K × ℚ) × Nat)
      (b : Matrix (Fin m × Fin r) (Fin m × Fin r) K × Matrix (Fin m × Fin r) (Fin m × Fin r) K) =>
    let b0 := kroneckerMap (· * ·) (A p.2) 1 * b.1 + kroneckerMap (· * ·) (B (p.2 + 1)) 1 * b.2
    (if p.1.2 > cutoff then b0 + kroneckerMap (· * ·) 1 p.1.1 else b0, b.1)) (0, 0)
  kroneckerMap (· * ·) f0 1 * b.1

/-- `kronecker_clenshaw` (L41-63) for matrix coefficients and `coeffs_left=True`, `kron(X, C) = C ⊗ X`. -/
def kroneckerClenshawLeft {K : Type} [CommRing K] {m r : Nat} (c : List (Matrix (Fin r) (Fin r) K × ℚ))
    (A B : Nat → Matrix (Fin m) (Fin m) K) (f0 : Matrix (Fin m) (Fin m) K) (cutoff : ℚ) :
    Matrix (Fin r × Fin m) (Fin r × Fin m) K :=
  let b := c.zipIdx.foldr (fun (p : (Matrix (Fin r) (Fin r) K × ℚ) × Nat)
      (b : Matrix (Fin r × Fin m) (Fin r × Fin m) K × Matrix (Fin r × Fin m) (Fin r × Fin m) K) =>
    let b0 := kroneckerMap (· * ·) 1 (A p.2) * b.1 + kroneckerMap (· * ·) 1 (B (p.2 + 1)) * b.2
    (if p.1.2 > cutoff then b0 + kroneckerMap (· * ·) p.1.1 1 else b0, b.1)) (0, 0)
  kroneckerMap (· * ·) 1 f0 * b.1

/-- `compute_A` of `jacobi_recursion` (L89-93), for a scalar or matrix argument `X`; `J` is the Jacobi matrix. -/
def jacobiA {K R : Type} [Field K] [Ring R] [Algebra K R] (N : Nat) (J : Nat → Nat → K) (X : R) (n : Nat) : R :=
  if n + 1 < N then (J n (n + 1))⁻¹ • (X - J n n • (1 : R)) else 0

/-- `compute_B` of `jacobi_recursion` (L94-98). -/
def jacobiB {K R : Type} [Field K] [Ring R] [Algebra K R] (N : Nat) (J : Nat → Nat → K) (n : Nat) : R :=
  if 0 < n ∧ n + 1 < N then (-J n (n - 1) / J n (n + 1)) • (1 : R) else 0

end Dedalus.Clenshaw
