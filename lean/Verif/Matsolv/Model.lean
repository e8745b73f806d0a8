import Mathlib.LinearAlgebra.Matrix.NonsingularInverse
import Mathlib.Algebra.Star.Basic
import Mathlib.Data.List.Sort
import Mathlib.LinearAlgebra.Matrix.ConjTranspose

/-!
# Model: matrix solvers

Models /repo/dedalus/libraries/matsolvers.py and the part of `SolverBase.__init__`
(/repo/dedalus/core/solvers.py L95-116) that selects a matrix solver. The routines of scipy, umfpack and pybanded are
the fields of `Lib`; what is assumed of them is `Lib.Correct` in `Spec.lean`.
-/

namespace Dedalus.Matsolv

/-- Exceptions raised by the code, by Python class; `singular` is the error of a factorisation routine. -/
inductive Exc
  | keyError
  | attributeError
  | importError
  | nameError
  | valueError
  | typeError
  | notImplemented
  | singular
deriving DecidableEq, Repr

/-- A sparse matrix after `tocsr`/`tocoo`: the stored entries (row, column, value). Stored zeros are allowed. -/
abbrev Entries (K : Type) := List (Nat × Nat × K)

/-- An array with `n` rows: `cols = none` for `ndim == 1`, `some m` for `ndim == 2` with `m` columns. Values at column
numbers past the count are not part of the array. -/
structure Arr (n : Nat) (K : Type) where
  cols : Option Nat
  val : Fin n → Nat → K

/-- Number of columns, a one-dimensional array counting as one. -/
def Arr.count {n : Nat} {K : Type} (x : Arr n K) : Nat :=
  match x.cols with
  | none => 1
  | some m => m

/-- The `trans` argument of SuperLU's `solve`. -/
inductive Trans
  | N
  | T
  | H
deriving DecidableEq, Repr

variable {K : Type} [Field K] [StarRing K]

/-- Value of a stored matrix: duplicates are summed. -/
def toMatrix (n : Nat) (es : Entries K) : Matrix (Fin n) (Fin n) K :=
  fun i j => ((es.filter fun e => e.1 = i.val ∧ e.2.1 = j.val).map fun e => e.2.2).sum

/-- `matrix @ vector`. -/
def matmul {a b : Nat} (M : Matrix (Fin a) (Fin b) K) (x : Arr b K) : Arr a K :=
  ⟨x.cols, fun i c => ∑ j, M i j * x.val j c⟩

/-- `np.conj(vector)`. -/
def conj {n : Nat} (x : Arr n K) : Arr n K := ⟨x.cols, fun i c => star (x.val i c)⟩

/-- `x - y` for arrays of one shape. -/
def sub {n : Nat} (x y : Arr n K) : Arr n K := ⟨x.cols, fun i c => x.val i c - y.val i c⟩

/-- The library routines. `none`: the routine raises because the matrix is singular. -/
structure Lib (K : Type) where
  /-- `spla.splu(matrix)`, returning `LU.solve(vector, trans)`. -/
  splu : ∀ n, Matrix (Fin n) (Fin n) K → Option (Trans → Arr n K → Arr n K)
  /-- `umfpack.splu(matrix)`, returning `LU.solve`. -/
  umfSplu : ∀ n, Matrix (Fin n) (Fin n) K → Option (Arr n K → Arr n K)
  /-- `spla.spsolve`. -/
  spsolve : ∀ n, Matrix (Fin n) (Fin n) K → Arr n K → Arr n K
  /-- `spla.inv`, `sla.inv`. -/
  inv : ∀ n, Matrix (Fin n) (Fin n) K → Option (Matrix (Fin n) (Fin n) K)
  /-- `sla.lu_factor` and `sla.lu_solve`. -/
  luFactor : ∀ n, Matrix (Fin n) (Fin n) K → Option (Arr n K → Arr n K)
  /-- `sla.solve_banded((l, u), ab, vector)`. -/
  solveBanded : ∀ n, Nat → Nat → List (List K) → Arr n K → Arr n K
  /-- `pybanded.BandedQR(pybanded.BandedMatrix.from_sparse(matrix)).solve`. -/
  bandedQR : ∀ n, Matrix (Fin n) (Fin n) K → Option (Arr n K → Arr n K)

/-! ### Banded storage -/

/-- `max(0, max(values))` for a nonempty list. matsolvers.py L55, L57. -/
def maxZero (ds : List ℤ) : ℤ := ds.foldr max 0

/-- The offsets of `sp.dia_matrix(matrix)`: the distinct values of column minus row over the stored entries, sorted
(scipy `coo.todia`: `np.unique`). -/
def diaOffsets (es : Entries K) : List ℤ :=
  ((es.map fun e => (e.2.1 : ℤ) - (e.1 : ℤ)).dedup).insertionSort (· ≤ ·)

/-- Number of columns of the diagonal data: largest stored column plus one (scipy `coo.todia`). -/
def diaWidth (es : Entries K) : Nat := (es.map fun e => e.2.1 + 1).foldr max 0

/-- One row of the diagonal data: column `j` holds the entry of that diagonal in matrix column `j`. -/
def diaRow (es : Entries K) (d : ℤ) : List K :=
  (List.range (diaWidth es)).map fun j =>
    ((es.filter fun e => (e.2.1 : ℤ) - (e.1 : ℤ) = d ∧ e.2.1 = j).map fun e => e.2.2).sum

/-- Broadcasting a row of the data to the `n` columns of `ab`: equal lengths, or length one, or an error. -/
def broadcastRow (n : Nat) (row : List K) : Except Exc (List K) :=
  if row.length = n then .ok row
  else match row with
    | [v] => .ok (List.replicate n v)
    | _ => .error .valueError

/-- `ab[u - offsets] = data`, row by row. matsolvers.py L59. -/
def assignRows (n : Nat) (es : Entries K) (u : ℤ) : List ℤ → List (List K) → Except Exc (List (List K))
  | [], ab => .ok ab
  | d :: ds, ab =>
    match broadcastRow n (diaRow es d) with
    | .error e => .error e
    | .ok row => assignRows n es u ds (ab.set (u - d).toNat row)

/-- `BandedSolver.sparse_to_banded(matrix)` with default bandwidths: `(l, u, ab)`. matsolvers.py L50-61. With no
stored entry the maxima raise. -/
def sparseToBanded (n : Nat) (es : Entries K) : Except Exc (Nat × Nat × List (List K)) :=
  if es.isEmpty then .error .valueError
  else
    let offsets := diaOffsets es
    let u := maxZero offsets
    let l := maxZero (offsets.map fun d => -d)
    match assignRows n es u offsets (List.replicate (u + l + 1).toNat (List.replicate n 0)) with
    | .error e => .error e
    | .ok ab => .ok (l.toNat, u.toNat, ab)

/-! ### The solver classes -/

/-- Column permutation of SuperLU; only speed depends on it. -/
inductive Permc
  | natural
  | colamd
deriving DecidableEq, Repr

/-- The classes registered by `add_solver`. -/
inductive Cls
  | dummySolver
  | umfpackSpsolve
  | superluSpsolve (permc : Permc)
  | umfpackFactorized
  | superluFactorized (permc : Permc) (t : Trans)
  | scipyBanded
  | spqrSolve
  | bandedQR
  | sparseInverse
  | denseInverse
  | blockInverse
  | scipyDenseLU
deriving DecidableEq, Repr

/-- A solver object: its methods `solve` and `solve_H`. -/
structure Solver (n : Nat) (K : Type) where
  solve : Arr n K → Except Exc (Arr n K)
  solveH : Arr n K → Except Exc (Arr n K)

/-- An object of a class that does not define `solve_H`. matsolvers.py L27-28. -/
def plain {n : Nat} (solve : Arr n K → Except Exc (Arr n K)) : Solver n K := ⟨solve, fun _ => .error .notImplemented⟩

/-- `if vector.ndim == 2 and out.ndim == 1: out = out[:, None]`. matsolvers.py L80-83, L96-99. -/
def fixShape {n : Nat} (vector out : Arr n K) : Arr n K :=
  match vector.cols, out.cols with
  | some _, none => { out with cols := some 1 }
  | _, _ => out

/-- `_SuperluFactorizedBase.__init__`, `solve` and `solve_H`. matsolvers.py L136-157. -/
def superlu (lib : Lib K) {n : Nat} (t : Trans) (M : Matrix (Fin n) (Fin n) K) : Except Exc (Solver n K) :=
  let matrix := match t with
    | .N => M
    | .T => M.transpose
    | .H => M.conjTranspose
  match lib.splu n matrix with
  | none => .error .singular
  | some lu => .ok
    { solve := fun v => .ok (lu t v)
      solveH := fun v => match t with
        | .N => .ok (lu .H v)
        | .H => .ok (lu .N v)
        | .T => .ok (conj (lu .N (conj v))) }

/-- Construction of a solver object from a matrix: the `__init__` and `solve` methods of each class, matsolvers.py
L31-282. `sparseqr` is imported inside `SPQR_solve.__init__` only, so `solve` raises `NameError` (L201-206);
`BlockInverse.__init__` imports from `dedalus.tools.sparse`, which does not exist (L249). The optional packages
themselves are taken to be installed. -/
def construct (lib : Lib K) (n : Nat) (es : Entries K) : Cls → Except Exc (Solver n K)
  | .dummySolver => .ok (plain fun v => .ok ⟨v.cols, fun i c => 0 * v.val i c⟩)
  | .umfpackSpsolve | .superluSpsolve _ => .ok (plain fun v => .ok (fixShape v (lib.spsolve n (toMatrix n es) v)))
  | .umfpackFactorized =>
    match lib.umfSplu n (toMatrix n es) with
    | none => .error .singular
    | some s => .ok (plain fun v => .ok (s v))
  | .superluFactorized _ t => superlu lib t (toMatrix n es)
  | .scipyBanded =>
    match sparseToBanded n es with
    | .error e => .error e
    | .ok (l, u, ab) => .ok (plain fun v => .ok (lib.solveBanded n l u ab v))
  | .spqrSolve => .ok (plain fun _ => .error .nameError)
  | .bandedQR =>
    match lib.bandedQR n (toMatrix n es) with
    | none => .error .singular
    | some s => .ok (plain fun v => .ok (s v))
  | .sparseInverse | .denseInverse =>
    match lib.inv n (toMatrix n es) with
    | none => .error .singular
    | some W => .ok (plain fun v => .ok (matmul W v))
  | .blockInverse => .error .importError
  | .scipyDenseLU =>
    match lib.luFactor n (toMatrix n es) with
    | none => .error .singular
    | some s => .ok (plain fun v => .ok (s v))

/-! ### The Woodbury solver -/

/-- The factor `U`, with `R` the update rank: `U[:R, :R] = 1`, `U[R:-R, R:] = matrix[R:-R, -R:]`.
matsolvers.py L295, L298, L301. -/
def factorU {n : Nat} (R : Nat) (M : Matrix (Fin n) (Fin n) K) : Matrix (Fin n) (Fin (2 * R)) K := fun i k =>
  if i.val < R then (if k.val = i.val then 1 else 0)
  else if h : i.val < n - R ∧ R ≤ k.val ∧ n - R + (k.val - R) < n then M i ⟨n - R + (k.val - R), h.2.2⟩
  else 0

/-- The factor `V`: `V[:R, R:] = matrix[:R, R:]`, `V[-R:, -R:] = 1`. matsolvers.py L296, L299, L302. -/
def factorV {n : Nat} (R : Nat) (M : Matrix (Fin n) (Fin n) K) : Matrix (Fin (2 * R)) (Fin n) K := fun k j =>
  if k.val < R then (if h : R ≤ j.val ∧ k.val < n then M ⟨k.val, h.2⟩ j else 0)
  else if j.val = n - R + (k.val - R) then 1
  else 0

/-- `Woodbury.__init__` and `solve`, with the matrix solver of `A` given as `base`. matsolvers.py L290-315.
For `R = 0` the slices `-R:` are whole axes and the assignments L301-302 do not broadcast; for `n < R` the
assignment L298 does not. -/
def woodbury (lib : Lib K) {n : Nat} (R : Nat) (M : Matrix (Fin n) (Fin n) K)
    (base : Matrix (Fin n) (Fin n) K → Except Exc (Solver n K)) : Except Exc (Solver n K) :=
  if R = 0 ∨ n < R then .error .valueError
  else
    let U := factorU R M
    let V := factorV R M
    let A := M - U * V
    match base A with
    | .error e => .error e
    | .ok a =>
      match a.solve ⟨some (2 * R), fun i c => if h : c < 2 * R then U i ⟨c, h⟩ else 0⟩ with
      | .error e => .error e
      | .ok AinvUarr =>
        let AinvU : Matrix (Fin n) (Fin (2 * R)) K := fun i k => AinvUarr.val i k
        let S := 1 + V * AinvU
        match lib.inv (2 * R) S with
        | none => .error .singular
        | some Sinv => .ok (plain fun Y =>
            match a.solve Y with
            | .error e => .error e
            | .ok AinvY => .ok (sub AinvY (matmul AinvU (matmul Sinv (matmul V AinvY)))))

/-! ### Selection by name -/

/-- What the table `matsolvers` holds: a class, or `partial(Woodbury, matsolver=cls)`. matsolvers.py L318-321. -/
inductive Choice
  | cls (c : Cls)
  | partialWoodbury (c : Cls)
deriving DecidableEq, Repr

/-- The classes under their lower-cased names. matsolvers.py L10-13. -/
def classes : List (String × Cls) :=
  [("dummysolver", .dummySolver), ("umfpackspsolve", .umfpackSpsolve),
   ("superlunaturalspsolve", .superluSpsolve .natural), ("superlucolamdspsolve", .superluSpsolve .colamd),
   ("umfpackfactorized", .umfpackFactorized),
   ("superlunaturalfactorized", .superluFactorized .natural .N),
   ("superlunaturalfactorizedtranspose", .superluFactorized .natural .T),
   ("superlucolamdfactorized", .superluFactorized .colamd .N),
   ("superlucolamdfactorizedtranspose", .superluFactorized .colamd .T),
   ("scipybanded", .scipyBanded), ("spqr_solve", .spqrSolve), ("bandedqr", .bandedQR),
   ("sparseinverse", .sparseInverse), ("denseinverse", .denseInverse), ("blockinverse", .blockInverse),
   ("scipydenselu", .scipyDenseLU)]

/-- The dictionary `matsolvers`. matsolvers.py L318-321. -/
def matsolvers : List (String × Choice) :=
  classes.map (fun p => (p.1, .cls p.2)) ++ classes.map (fun p => ("woodbury" ++ p.1, .partialWoodbury p.2))

/-- The options of a solver that a matrix solver may override: only `bc_top` occurs. -/
structure Options where
  bcTop : Bool
deriving DecidableEq, Repr

/-- The attribute `config` of what was chosen: `{}` for the classes (L19); a `functools.partial` object has no such
attribute. -/
def Choice.config : Choice → Option (List Bool)
  | .cls _ => some []
  | .partialWoodbury _ => none

/-- The override loop of `SolverBase.__init__` over a `config` dictionary whose only possible key is `bc_top`: when a
value differs, the log message formats the key with `%i`, which raises `TypeError` for a string.
/repo/dedalus/core/solvers.py L112-116. -/
def override (o : Options) : List Bool → Except Exc Options
  | [] => .ok o
  | v :: vs => if o.bcTop = v then override o vs else .error .typeError

/-- Selection of the matrix solver in `SolverBase.__init__`. /repo/dedalus/core/solvers.py L95-116. -/
def select (name : String) (o : Options) : Except Exc (Choice × Options) :=
  match matsolvers.lookup name.toLower with
  | none => .error .keyError
  | some c =>
    match c.config with
    | none => .error .attributeError
    | some cfg =>
      match override o cfg with
      | .error e => .error e
      | .ok o' => .ok (c, o')

end Dedalus.Matsolv
