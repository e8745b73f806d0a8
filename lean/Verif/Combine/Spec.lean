import Verif.Combine.Model

/-!
What the matrices mean, and what matrix a step has to use.
-/

namespace Dedalus.Combine

variable {K : Type}

/-- The number at row `i`, column `j` of a CSR matrix: the sum of the values
stored for that column between the two pointers of the row. -/
def dense [Add K] [Zero K] (c : Csr K) (i j : Nat) : K :=
  match c.indptr[i]?, c.indptr[i + 1]? with
  | some p, some q =>
    ((((c.indices.zip c.data).drop p).take (q - p)).filterMap fun jv =>
      if jv.1 = j then some jv.2 else none).sum
  | _, _ => 0

/-- Whether column `j` of row `i` is stored at all. -/
def HasEntry (c : Csr K) (i j : Nat) : Prop :=
  ∃ p q v, c.indptr[i]? = some p ∧ c.indptr[i + 1]? = some q ∧
    (j, v) ∈ ((c.indices.zip c.data).drop p).take (q - p)

/-- A matrix with `n` rows has one more row pointer than rows. -/
def Sized (n : Nat) (c : Csr K) : Prop := c.nrows = n ∧ c.indptr.length = n + 1

/-- Same arrays of row pointers and columns: data arrays can be combined. -/
def SamePattern (c d : Csr K) : Prop :=
  c.indptr = d.indptr ∧ c.indices = d.indices ∧ c.data.length = d.data.length

/-- The matrices a step with these coefficients has to solve with. -/
def wanted [Add K] [Mul K] [Zero K] (M L : Csr K) : Scheme K → K → K → List (Nat → Nat → K)
  | .multistep, a, b => [fun i j => a * dense M i j + b * dense L i j]
  | .rungeKutta H, k, _ => H.map fun h i j => dense M i j + k * h * dense L i j

end Dedalus.Combine
