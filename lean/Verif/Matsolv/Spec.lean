import Verif.Matsolv.Model
import Mathlib.LinearAlgebra.Matrix.Determinant.Basic

/-!
# Specification for C82
-/

namespace Dedalus.Matsolv

variable {K : Type} [Field K] [StarRing K]

/-- The array `x` has the shape of `b` and solves `M x = b` in every column. -/
def Solves {n : Nat} (M : Matrix (Fin n) (Fin n) K) (x b : Arr n K) : Prop :=
  x.cols = b.cols ∧ ∀ c < b.count, ∀ i, ∑ j, M i j * x.val j c = b.val i c

/-- The same without fixing the number of dimensions. -/
def SolvesColumns {n : Nat} (M : Matrix (Fin n) (Fin n) K) (x b : Arr n K) : Prop :=
  x.count = b.count ∧ ∀ c < b.count, ∀ i, ∑ j, M i j * x.val j c = b.val i c

/-- The matrix selected by SuperLU's `trans`. -/
def Trans.op {n : Nat} (M : Matrix (Fin n) (Fin n) K) : Trans → Matrix (Fin n) (Fin n) K
  | .N => M
  | .T => M.transpose
  | .H => M.conjTranspose

/-- The entry `(i, j)` of the matrix that LAPACK's band storage `ab` with bandwidths `l`, `u` stands for. -/
def bandEntry (l u : Nat) (ab : List (List K)) (i j : Nat) : K :=
  if j ≤ i + u ∧ i ≤ j + l then
    match ab[u + i - j]? with
    | some row => match row[j]? with
      | some v => v
      | none => 0
    | none => 0
  else 0

/-- The library routines are exact on nonsingular matrices. `spsolve` may return a one-dimensional array for a single
column. -/
structure Lib.Correct (lib : Lib K) : Prop where
  splu : ∀ n (M : Matrix (Fin n) (Fin n) K), M.det ≠ 0 →
    ∃ s, lib.splu n M = some s ∧ ∀ t b, Solves (t.op M) (s t b) b
  umfSplu : ∀ n (M : Matrix (Fin n) (Fin n) K), M.det ≠ 0 → ∃ s, lib.umfSplu n M = some s ∧ ∀ b, Solves M (s b) b
  spsolve : ∀ n (M : Matrix (Fin n) (Fin n) K), M.det ≠ 0 → ∀ b, SolvesColumns M (lib.spsolve n M b) b ∧
    ((lib.spsolve n M b).cols = b.cols ∨ b.cols = some 1 ∧ (lib.spsolve n M b).cols = none)
  inv : ∀ n (M : Matrix (Fin n) (Fin n) K), M.det ≠ 0 → ∃ W, lib.inv n M = some W ∧ M * W = 1
  luFactor : ∀ n (M : Matrix (Fin n) (Fin n) K), M.det ≠ 0 → ∃ s, lib.luFactor n M = some s ∧ ∀ b, Solves M (s b) b
  solveBanded : ∀ n (M : Matrix (Fin n) (Fin n) K) l u ab, M.det ≠ 0 → ab.length = u + l + 1 →
    (∀ row ∈ ab, row.length = n) → (∀ i j, bandEntry l u ab i.val j.val = M i j) →
    ∀ b, Solves M (lib.solveBanded n l u ab b) b
  bandedQR : ∀ n (M : Matrix (Fin n) (Fin n) K), M.det ≠ 0 → ∃ s, lib.bandedQR n M = some s ∧ ∀ b, Solves M (s b) b

/-- The factorisation routines report exact singularity. -/
structure Lib.Detects (lib : Lib K) : Prop where
  splu : ∀ n (M : Matrix (Fin n) (Fin n) K), M.det = 0 → lib.splu n M = none
  inv : ∀ n (M : Matrix (Fin n) (Fin n) K), M.det = 0 → lib.inv n M = none

/-- The classes whose objects can be built and used: all but the dummy solver, the QR solver that lost its import and
the block solver that imports a missing module. -/
def Cls.Works : Cls → Prop
  | .dummySolver | .spqrSolve | .blockInverse => False
  | _ => True

/-- The stored entries lie in the matrix. -/
def InRange (n : Nat) (es : Entries K) : Prop := ∀ e ∈ es, e.1 < n ∧ e.2.1 < n

/-- The matrix without its top border (first `R` rows, right of the first `R` columns) and without its right border
(last `R` columns, in the rows that are neither the first nor the last `R`). -/
def border {n : Nat} (R : Nat) (M : Matrix (Fin n) (Fin n) K) : Matrix (Fin n) (Fin n) K := fun i j =>
  if (i.val < R ∧ R ≤ j.val) ∨ (R ≤ i.val ∧ i.val < n - R ∧ n - R ≤ j.val) then 0 else M i j

end Dedalus.Matsolv
