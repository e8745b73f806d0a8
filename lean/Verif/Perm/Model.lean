import Mathlib.Data.List.Sort
import Mathlib.Data.List.Dedup
import Mathlib.Data.Matrix.Basic

/-!
# Model: row and column reordering of subproblem matrices

Models `left_permutation` (L614-675), `right_permutation` (L678-739) and the preconditioners built
from them (L539-567) of /repo/dedalus/core/subsystems.py, and `perm_matrix`, `drop_empty_rows` of
/repo/dedalus/tools/array.py L356-395. The two Python functions are the same code with equations
or variables and `bc_top` or `tau_left`; one Lean function models both.
-/

namespace Dedalus.Perm

/-- What the permutation code reads of an equation or variable: dimension of its domain, number of
tensor components and number of modes of each component in this subproblem. -/
structure Block where
  dim : Nat
  comps : Nat
  modes : Nat
deriving DecidableEq, Repr

/-- Indices of the components of one block, starting at `i`. subsystems.py L638-643. -/
def compIndices (i modes : Nat) : Nat → List (List Nat)
  | 0 => []
  | c + 1 => List.range' i modes :: compIndices (i + modes) modes c

/-- The hierarchy `L0`, starting at index `i`; a block without components gets one empty list.
subsystems.py L627-644. -/
def hierarchy (i : Nat) : List Block → List (List (List Nat))
  | [] => []
  | b :: bs => if b.comps = 0 then [[]] :: hierarchy i bs
    else compIndices i b.modes b.comps :: hierarchy (i + b.comps * b.modes) bs

/-- Maximum of a list of naturals; the lists are not empty when there is a block. -/
def maxLen (l : List Nat) : Nat := l.foldl max 0

/-- The order in which the loops visit (block, component, mode). subsystems.py L650-667. -/
def visit (interleave : Bool) (n1max n2max n3max : Nat) : List (Nat × Nat × Nat) :=
  if interleave then
    (List.range n3max).flatMap fun n3 => (List.range n2max).flatMap fun n2 =>
      (List.range n1max).map fun n1 => (n1, n2, n3)
  else
    (List.range n3max).flatMap fun n3 => (List.range n1max).flatMap fun n1 =>
      (List.range n2max).map fun n2 => (n1, n2, n3)

/-- `L0[n1][n2][n3]`; an IndexError is `none`. -/
def lookup (L0 : List (List (List Nat))) (t : Nat × Nat × Nat) : Option Nat :=
  (L0[t.1]?).bind fun L1 => (L1[t.2.1]?).bind fun L2 => L2[t.2.2]?

/-- `indices[dim]`: what the loops append to one entry of the dictionary. -/
def indicesOf (bs : List Block) (interleave : Bool) (dim : Nat) : List Nat :=
  let L0 := hierarchy 0 bs
  let n2max := maxLen (L0.map List.length)
  let n3max := maxLen (L0.flatMap fun L1 => L1.map List.length)
  ((visit interleave L0.length n2max n3max).filter fun t => (bs[t.1]?).map (·.dim) == some dim).filterMap (lookup L0)

/-- The index vector. `dims` are the keys of the dictionary in increasing order (keys whose list is empty
do not matter and are kept). `first` is `bc_top` or `tau_left`. subsystems.py L669-674. -/
def permutation (bs : List Block) (first interleave : Bool) : List Nat :=
  let dims := (bs.map (·.dim)).dedup.insertionSort (· ≤ ·)
  let order := if first then dims else dims.reverse
  order.flatMap (indicesOf bs interleave)

/-- `drop_empty_rows(perm_matrix(perm, source_index=True) @ diags(valid))` as the list of source
indices of its rows: row `r` of the product is the unit row at `perm[r]` if that mode is valid, otherwise
empty. subsystems.py L555-563, array.py L374-385, L392-395. -/
def precond (perm : List Nat) (valid : Nat → Bool) : List Nat := perm.filter valid

/-- The 0/1 matrix with rows given by source indices: `output[i,j] = (j == perm[i])`. array.py L370. -/
def rowMatrix (R : Type) [Zero R] [One R] (src : List Nat) (n : Nat) : Matrix (Fin src.length) (Fin n) R :=
  fun i j => if src[i.val] = j.val then 1 else 0

end Dedalus.Perm
