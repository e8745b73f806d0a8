import Mathlib.Algebra.BigOperators.Group.Finset.Basic
import Mathlib.Algebra.Field.Basic

/-!
# Tensor products of fields

Model of the grid-space formulas and of the coupling arrays of `dedalus/core/arithmetic.py`: `MultiplyFields`,
`DotProduct`, `CrossProduct`. The products act pointwise in space, so one point is modelled: a tensor is a
function of its component indices. Broadcasting over spatial dimensions is not modelled here.
-/

namespace Dedalus.Tensor

variable {K : Type} [Field K]

/-- Multi-index number `k` of `np.ndindex(*dims)` (row-major order), `dedalus/core/arithmetic.py` L46-48. -/
def unravel : List Nat → Nat → List Nat
  | [], _ => []
  | _ :: ds, k => (k / ds.prod) :: unravel ds (k % ds.prod)

/-! ### Grid-space formulas -/

/-- `MultiplyFields.operate` L845-858: `arg0` is reshaped to `tshape0 + (1,)*order1`, `arg1` to
`(1,)*order0 + tshape1`, and the arrays are multiplied: component `c` uses the first `order0` indices of `c`
for `arg0` and the rest for `arg1`. -/
def multiplyGrid (order0 : Nat) (A B : List Nat → K) (c : List Nat) : K :=
  A (c.take order0) * B (c.drop order0)

/-- Einsum labels of the first factor, L609-616: letters `0..rank0-1`, the contracted one replaced by `z` (`none`). -/
def labels0 (rank0 i : Nat) : List (Option Nat) := ((List.range rank0).map some).set i none

/-- Einsum labels of the second factor: letters `rank0..rank0+rank1-1`. -/
def labels1 (rank0 rank1 j : Nat) : List (Option Nat) := ((List.range rank1).map (fun k => some (rank0 + k))).set j none

/-- Output labels: both strings joined, without `z`. -/
def outLabels (rank0 rank1 i j : Nat) : List Nat := (labels0 rank0 i ++ labels1 rank0 rank1 j).filterMap id

/-- Index assigned to a label: the output index at the label's position, or the summation index for `z`. -/
def labelVal (out c : List Nat) (z : Nat) : Option Nat → Nat
  | none => z
  | some l => c.getD (out.idxOf l) 0

/-- `np.einsum(einsum_str, arg0, arg1)` (L661-662), with contracted dimension `d`. -/
def dotGrid (rank0 rank1 i j d : Nat) (A B : List Nat → K) (c : List Nat) : K :=
  let out := outLabels rank0 rank1 i j
  ∑ z ∈ Finset.range d,
    A ((labels0 rank0 i).map (labelVal out c z)) * B ((labels1 rank0 rank1 j).map (labelVal out c z))

/-- `DotProduct._check_indices` L619-632 and the `pop` calls L594-597: negative indices count from the end; the
check admits `index = rank`, on which `pop` raises. -/
def checkIndices (rank0 rank1 : Nat) (i j : Int) : Option (Nat × Nat) := do
  let one (index : Int) (rank : Nat) : Option Nat :=
    if index > rank ∨ index < -(rank : Int) then none
    else
      let index := if index < 0 then index + rank else index
      if index.toNat < rank then some index.toNat else none
  let a ← one i rank0
  let b ← one j rank1
  some (a, b)

/-- `CrossProduct.operate_right_handed` L706-715 and `operate_left_handed` L717-726. -/
def crossGrid (rightHanded : Bool) (a b : Nat → K) : Nat → K := fun n =>
  if rightHanded then
    if n = 0 then a 1 * b 2 - a 2 * b 1 else if n = 1 then a 2 * b 0 - a 0 * b 2 else a 0 * b 1 - a 1 * b 0
  else
    if n = 0 then a 2 * b 1 - a 1 * b 2 else if n = 1 then a 0 * b 2 - a 2 * b 0 else a 1 * b 0 - a 0 * b 1

/-! ### Coupling arrays -/

/-- `Multiply.GammaCoord` L795-806. -/
def multiplyGamma (d0 d1 d2 : List Nat) (ia ib ic : Nat) : K :=
  if unravel d0 ia ++ unravel d1 ib = unravel d2 ic then 1 else 0

/-- `DotProduct.GammaCoord` L649-664. -/
def dotGamma (i j : Nat) (d0 d1 d2 : List Nat) (ia ib ic : Nat) : K :=
  let a := unravel d0 ia
  let b := unravel d1 ib
  if a[i]? = b[j]? ∧ a.eraseIdx i ++ b.eraseIdx j = unravel d2 ic then 1 else 0

/-- `CrossProduct.GammaCoord` L735-742. -/
def crossGamma (rightHanded : Bool) (a b c : Nat) : K :=
  let g : K :=
    if (a, b, c) = (0, 1, 2) ∨ (a, b, c) = (1, 2, 0) ∨ (a, b, c) = (2, 0, 1) then 1
    else if (a, b, c) = (0, 2, 1) ∨ (a, b, c) = (2, 1, 0) ∨ (a, b, c) = (1, 0, 2) then -1
    else 0
  if rightHanded then g else -g

end Dedalus.Tensor
