import Mathlib.Order.Interval.Finset.Nat
import Mathlib.Algebra.BigOperators.Group.Finset.Basic
import Verif.Csr.Model

/-!
# What a CSR matrix means

The matrix represented by the arrays of a CSR matrix, and the matrices the triangular solve is meant for.
-/

namespace Dedalus.Csr

variable {K : Type} [Field K]

/-- The entry in row `i` and column `j`: duplicates add up. -/
def entry (A : Csr K) (i j : Nat) : K :=
  ∑ p ∈ Finset.Ico (A.Ap i) (A.Ap (i + 1)), if A.Aj p = j then A.Ax p else 0

/-- A valid CSR matrix with `n` rows and `m` columns. -/
structure Valid (A : Csr K) (n m : Nat) : Prop where
  ptr : ∀ i, i < n → A.Ap i ≤ A.Ap (i + 1)
  col : ∀ i, i < n → ∀ p, A.Ap i ≤ p → p < A.Ap (i + 1) → A.Aj p < m

/-- Canonical format: the column indices of each row are strictly increasing. -/
def Canonical (A : Csr K) (n : Nat) : Prop :=
  ∀ i, i < n → ∀ p q, A.Ap i ≤ p → p < q → q < A.Ap (i + 1) → A.Aj p < A.Aj q

/-- No entries are stored below the diagonal, and the diagonal of the matrix is nonzero. -/
structure Upper (A : Csr K) (n : Nat) : Prop where
  upper : ∀ i, i < n → ∀ p, A.Ap i ≤ p → p < A.Ap (i + 1) → i ≤ A.Aj p
  diag : ∀ i, i < n → entry A i i ≠ 0

/-- Every iteration of a parallel loop runs once, in any order. -/
def Schedule (order : List Nat) (n : Nat) : Prop := order.Perm (List.range n)

end Dedalus.Csr
