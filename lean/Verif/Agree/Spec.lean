import Verif.Agree.Model
import Verif.Subsys.Model

namespace Dedalus.Agree
open Mats

variable {K : Type} [Field K] [DecidableEq K]

/-- Field data as the store of field number 0 in the subproblem buffers of C20. -/
def store (x : Data K) : Subsys.Store K
  | (_, [c, i, j, n]) => x c i j n
  | _ => 0

/-- The part of a field that belongs to a subproblem, as `gather_inputs` collects it: components, rows `r` to `r + b`, columns
`col` to `col + w`, radial indices `n0` to `n0 + N`. The local array has `R` rows, `C` columns and `Nr` radial indices. -/
def gathered (x : Data K) (comps R C Nr r b col w n0 N : Nat) : List K :=
  Subsys.readCol (store x) (Subsys.fieldAddrs 0 [comps] [R, C, Nr] [(r, r + b), (col, col + w), (n0, n0 + N)])

/-- `y = M v`, with matching sizes. -/
def IsProduct (M : Mat K) (v y : List K) : Prop :=
  ∃ (hr : y.length = M.rows) (hc : v.length = M.cols),
    ∀ i (hi : i < M.rows), y[i]'(by omega) = ∑ j : Fin M.cols, M.e i j * v[j]'(by omega)

/-- A radial operator is well formed: output components are listed once and exist, and the radial matrices map the
coefficients of a degree to the coefficients of that degree. -/
structure RadialOp.Wf (op : RadialOp K) : Prop where
  nodup : ∀ c, (op.outs c).Nodup
  lt : ∀ c, ∀ d ∈ op.outs c, d < op.nout
  rows : ∀ c d ell, (op.mat c d ell).rows = op.size ell
  cols : ∀ c d ell, (op.mat c d ell).cols = op.size ell
  pos : 0 < op.nin ∧ 0 < op.nout

end Dedalus.Agree
