import Mathlib.Algebra.Field.Basic

/-!
# Sparse triangular solves and products

Model of `dedalus/tools/linalg.pyx` and of its callers `apply_sparse` and `solve_upper_sparse`
(`dedalus/tools/array.py` L171-232). A matrix in CSR format is given by its three arrays; arrays are functions of
their indices, changed entry by entry in the order of the loops. Parallel loops (`prange`) run over a list
`order` of the iterations, in any order. Higher-dimensional arrays are seen as three-dimensional ones with the axis in
the middle (the `reshape` in L50-82 and L220-258; for one- and two-dimensional arrays L35-48 and
L205-218 choose the same routines); integers do not overflow.
-/

namespace Dedalus.Csr

/-- `indptr`, `indices` and `entries`. -/
structure Csr (K : Type) where
  Ap : Nat → Nat
  Aj : Nat → Nat
  Ax : Nat → K

variable {K : Type}

/-- assignment of an array entry -/
def set1 (x : Nat → K) (i : Nat) (v : K) : Nat → K := fun p => if p = i then v else x p

/-- assignment of an entry of a two-dimensional array -/
def set2 (x : Nat → Nat → K) (i k : Nat) (v : K) : Nat → Nat → K :=
  fun p q => if p = i ∧ q = k then v else x p q

/-- assignment of an entry of a three-dimensional array -/
def set3 (x : Nat → Nat → Nat → K) (h i k : Nat) (v : K) : Nat → Nat → Nat → K :=
  fun o p q => if o = h ∧ p = i ∧ q = k then v else x o p q

/-- `range(Ap[i+1]-1, Ap[i], -1)`: the off-diagonal entries of row `i`, last first. -/
def offdiag (A : Csr K) (i : Nat) : List Nat :=
  (List.range' (A.Ap i + 1) (A.Ap (i + 1) - 1 - A.Ap i)).reverse

/-- `solve_upper_csr_vec` (`dedalus/tools/linalg.pyx` L88-104), rows `n-1` to `0`. -/
def solveVec [Field K] (A : Csr K) : Nat → (Nat → K) → Nat → K
  | 0, x => x
  | i + 1, x =>
    let sum := (offdiag A i).foldl (fun s jj => s - A.Ax jj * x (A.Aj jj)) (x i)
    solveVec A i (set1 x i (sum / A.Ax (A.Ap i)))

/-- `x[i,k] = x[i,k] - a * x[j,k]` for all `k < m` (L126-127, L179-180). -/
def subRow [Field K] (a : K) (i j : Nat) : List Nat → (Nat → Nat → K) → Nat → Nat → K
  | [], x => x
  | k :: ks, x => subRow a i j ks (set2 x i k (x i k - a * x j k))

/-- `x[i,k] = x[i,k] / a` for all `k < m` (L130-131, L183-184). -/
def divRow [Field K] (a : K) (i : Nat) : List Nat → (Nat → Nat → K) → Nat → Nat → K
  | [], x => x
  | k :: ks, x => divRow a i ks (set2 x i k (x i k / a))

/-- `solve_upper_csr_first` (L110-131). -/
def solveFirst [Field K] (A : Csr K) (m : Nat) : Nat → (Nat → Nat → K) → Nat → Nat → K
  | 0, x => x
  | i + 1, x =>
    let x1 := (offdiag A i).foldl (fun y jj => subRow (A.Ax jj) i (A.Aj jj) (List.range m) y) x
    solveFirst A m i (divRow (A.Ax (A.Ap i)) i (List.range m) x1)

/-- replacing a slice of an array -/
def setSlice {β : Type} (x : Nat → β) (h : Nat) (s : β) : Nat → β := fun o => if o = h then s else x o

/-- `solve_upper_csr_last` (L137-155): iteration `h` solves along `x[h,:]`. -/
def solveLast [Field K] (A : Csr K) (n : Nat) : List Nat → (Nat → Nat → K) → Nat → Nat → K
  | [], x => x
  | h :: hs, x => solveLast A n hs (setSlice x h (solveVec A n (x h)))

/-- `solve_upper_csr_mid` (L161-184): iteration `h` solves along the first axis of `x[h,:,:]`. -/
def solveMid [Field K] (A : Csr K) (n m : Nat) : List Nat → (Nat → Nat → Nat → K) → Nat → Nat → Nat → K
  | [], x => x
  | h :: hs, x => solveMid A n m hs (setSlice x h (solveFirst A m n (x h)))

/-- `solve_upper_csr` (L20-82) on an array of shape `(N1, N2, N3)`. -/
def solveUpper [Field K] (A : Csr K) (N1 N2 N3 : Nat) (order : List Nat) (x : Nat → Nat → Nat → K) :
    Nat → Nat → Nat → K :=
  if N1 = 1 then
    if N3 = 1 then fun h i k => if h = 0 ∧ k = 0 then solveVec A N2 (fun i => x 0 i 0) i else x h i k
    else fun h i k => if h = 0 then solveFirst A N3 N2 (x 0) i k else x h i k
  else
    if N3 = 1 then fun h i k => if k = 0 then solveLast A N2 order (fun h i => x h i 0) h i else x h i k
    else solveMid A N2 N3 order x

/-- `solve_upper_sparse` (`dedalus/tools/array.py` L206-232): `out` given or not, and whether it is `rhs` itself. The
result is what the call returns, the contents of `rhs` after the call, and the contents of `out` if given. -/
def solveUpperSparse [Field K] (A : Csr K) (N1 N2 N3 : Nat) (order : List Nat) (rhs : Nat → Nat → Nat → K)
    (out : Option Bool) : Option (Nat → Nat → Nat → K) × (Nat → Nat → Nat → K) × Option (Nat → Nat → Nat → K) :=
  match out with
  | none => (none, rhs, none)
  | some true => (none, solveUpper A N1 N2 N3 order rhs, some (solveUpper A N1 N2 N3 order rhs))
  | some false => (none, rhs, some (solveUpper A N1 N2 N3 order rhs))

/-- `range(Ap[i], Ap[i+1])`: the entries of row `i`. -/
def row (A : Csr K) (i : Nat) : List Nat := List.range' (A.Ap i) (A.Ap (i + 1) - A.Ap i)

/-- `apply_csr_vec` (L264-279); `y` is the output array. -/
def applyVec [Field K] (A : Csr K) (x : Nat → K) : List Nat → (Nat → K) → Nat → K
  | [], y => y
  | i :: is, y => applyVec A x is (set1 y i ((row A i).foldl (fun s jj => s + A.Ax jj * x (A.Aj jj)) 0))

/-- one row of `y[i,k] = y[i,k] + a * x[j,k]` (L302-303, L356-357) -/
def addRow [Field K] (a : K) (i : Nat) (xj : Nat → K) : List Nat → (Nat → Nat → K) → Nat → Nat → K
  | [], y => y
  | k :: ks, y => addRow a i xj ks (set2 y i k (y i k + a * xj k))

/-- `y[i,k] = 0` (L297-298, L351-352) -/
def zeroRow [Field K] (i : Nat) : List Nat → (Nat → Nat → K) → Nat → Nat → K
  | [], y => y
  | k :: ks, y => zeroRow i ks (set2 y i k 0)

/-- the body of `apply_csr_first` (L297-303) and `apply_csr_mid` (L351-357) for one row -/
def firstRow [Field K] (A : Csr K) (m : Nat) (x : Nat → Nat → K) (i : Nat) (y : Nat → Nat → K) : Nat → Nat → K :=
  (row A i).foldl (fun y jj => addRow (A.Ax jj) i (x (A.Aj jj)) (List.range m) y) (zeroRow i (List.range m) y)

/-- `apply_csr_first` (L284-303). -/
def applyFirst [Field K] (A : Csr K) (m : Nat) (x : Nat → Nat → K) : List Nat → (Nat → Nat → K) → Nat → Nat → K
  | [], y => y
  | i :: is, y => applyFirst A m x is (firstRow A m x i y)

/-- `apply_csr_last` (L309-328), over the fused index `hi`. -/
def applyLast [Field K] (A : Csr K) (n : Nat) (x : Nat → Nat → K) : List Nat → (Nat → Nat → K) → Nat → Nat → K
  | [], y => y
  | hi :: his, y => applyLast A n x his
      (set2 y (hi / n) (hi % n) ((row A (hi % n)).foldl (fun s jj => s + A.Ax jj * x (hi / n) (A.Aj jj)) 0))

/-- `apply_csr_mid` (L334-357), over the fused index `hi`. -/
def applyMid [Field K] (A : Csr K) (n m : Nat) (x : Nat → Nat → Nat → K) :
    List Nat → (Nat → Nat → Nat → K) → Nat → Nat → Nat → K
  | [], y => y
  | hi :: his, y => applyMid A n m x his
      (setSlice y (hi / n) (firstRow A m (x (hi / n)) (hi % n) (y (hi / n))))

/-- `apply_csr` (L189-258) from shape `(N1, _, N3)` to shape `(N1, N2, N3)`. `order` lists the iterations of the
parallel loop. -/
def applyCsr [Field K] (A : Csr K) (N1 N2 N3 : Nat) (order : List Nat) (x y : Nat → Nat → Nat → K) :
    Nat → Nat → Nat → K :=
  if N1 = 1 then
    if N3 = 1 then fun h i k =>
      if h = 0 ∧ k = 0 then applyVec A (fun i => x 0 i 0) order (fun i => y 0 i 0) i else y h i k
    else fun h i k => if h = 0 then applyFirst A N3 (x 0) order (y 0) i k else y h i k
  else
    if N3 = 1 then fun h i k =>
      if k = 0 then applyLast A N2 (fun h i => x h i 0) order (fun h i => y h i 0) h i else y h i k
    else applyMid A N2 N3 x order y

end Dedalus.Csr
