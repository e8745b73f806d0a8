import Mathlib.Algebra.Order.Field.Basic
import Mathlib.Algebra.Order.Group.Unbundled.Abs
import Mathlib.Data.Rat.Defs
import Mathlib.Algebra.Order.Ring.Rat

/-!
# Model: parallel reductions and the CFL timestep

Models `GlobalArrayReducer` and `CFL.compute_timestep` of /repo/dedalus/extras/flow_tools.py, and
`allreduce_data_norm` of /repo/dedalus/core/field.py (L820-842).

Finite floats are elements of an ordered field; the infinities and nan, which the code uses for its
defaults (`max_dt=np.inf`), are kept with their IEEE behaviour. MPI reductions are folds over the
processes in rank order.
-/

namespace Dedalus.Flow

variable {F : Type} [Field F] [LinearOrder F]

/-- A float: finite, one of the infinities, or nan. -/
inductive Ext (F : Type)
  | fin (x : F)
  | inf
  | ninf
  | nan
deriving DecidableEq, Repr

namespace Ext

/-- `x < y` on floats; comparisons with nan are False. -/
def lt : Ext F → Ext F → Bool
  | fin a, fin b => decide (a < b)
  | fin _, inf => true
  | ninf, fin _ => true
  | ninf, inf => true
  | _, _ => false

/-- `x * y` on floats: 0 times an infinity is nan. -/
def mul : Ext F → Ext F → Ext F
  | fin a, fin b => fin (a * b)
  | fin a, inf | inf, fin a => if a = 0 then nan else if 0 < a then inf else ninf
  | fin a, ninf | ninf, fin a => if a = 0 then nan else if 0 < a then ninf else inf
  | inf, inf | ninf, ninf => inf
  | inf, ninf | ninf, inf => ninf
  | nan, _ | _, nan => nan

/-- `x - y` on floats. -/
def sub : Ext F → Ext F → Ext F
  | fin a, fin b => fin (a - b)
  | fin _, inf => ninf
  | fin _, ninf => inf
  | inf, fin _ => inf
  | ninf, fin _ => ninf
  | inf, ninf => inf
  | ninf, inf => ninf
  | inf, inf | ninf, ninf => nan
  | nan, _ | _, nan => nan

/-- `abs(x)`. -/
def abs : Ext F → Ext F
  | fin a => fin |a|
  | inf | ninf => inf
  | nan => nan

/-- `1 / x` for `x` not 0 (numpy: 1/inf is 0). -/
def recip : Ext F → Ext F
  | fin a => fin (1 / a)
  | inf | ninf => fin 0
  | nan => nan

/-- Python's `min(x, y, z)`: a later argument replaces the current one if it is smaller. -/
def min3 (x y z : Ext F) : Ext F :=
  let m := if lt y x then y else x
  if lt z m then z else m

/-- Python's `max(x, y, z)`. -/
def max3 (x y z : Ext F) : Ext F :=
  let m := if lt x y then y else x
  if lt m z then z else m

/-- MPI.MIN and MPI.MAX on two floats, of which none is nan. -/
def mpiMin (x y : Ext F) : Ext F := if lt y x then y else x
def mpiMax (x y : Ext F) : Ext F := if lt x y then y else x

end Ext

open Ext

/-- `reduce_scalar` with MIN/MAX: the value of every process, the first given separately (there is at
least one process). flow_tools.py L33-37. -/
def reduceScalar (op : Ext F → Ext F → Ext F) (rank0 : Ext F) (others : List (Ext F)) : Ext F :=
  others.foldl op rank0

/-- `np.min(data)` on nonempty data, else the `empty` value. flow_tools.py L41-44. -/
def localMin (empty : Ext F) : List F → Ext F
  | [] => empty
  | x :: xs => fin (xs.foldl min x)

/-- `np.max(data)` on nonempty data, else the `empty` value. flow_tools.py L49-52. -/
def localMax (empty : Ext F) : List F → Ext F
  | [] => empty
  | x :: xs => fin (xs.foldl max x)

/-- `global_min` with the default `empty=np.inf`. flow_tools.py L39-45. -/
def globalMin (rank0 : List F) (others : List (List F)) : Ext F :=
  reduceScalar mpiMin (localMin inf rank0) (others.map (localMin inf))

/-- `global_max` with the default `empty=-np.inf`. flow_tools.py L47-53. -/
def globalMax (rank0 : List F) (others : List (List F)) : Ext F :=
  reduceScalar mpiMax (localMax ninf rank0) (others.map (localMax ninf))

/-- `global_mean`: quotient of the reduced sum and the reduced size; `none` is 0/0 (nan).
flow_tools.py L55-61. -/
def globalMean (rank0 : List F) (others : List (List F)) : Option F :=
  let s := (others.map List.sum).foldl (· + ·) rank0.sum
  let n := (others.map List.length).foldl (· + ·) rank0.length
  if n = 0 then none else some (s / (n : F))

/-- `allreduce_data_norm` of finite order, before the final root. field.py L824-829, L835-837. -/
def normPow (p : Nat) (rank0 : List F) (others : List (List F)) : F :=
  let loc (d : List F) : F := if d.length = 0 then 0 else (d.map fun x => |x| ^ p).sum
  (others.map loc).foldl (· + ·) (loc rank0)

/-! ### CFL -/

/-- Attributes of `CFL`. flow_tools.py L171-184. `initialIteration` is that of the solver. -/
structure Cfl (F : Type) where
  storedDt : Ext F
  cadence : Nat
  safety : Ext F
  maxDt : Ext F
  minDt : Ext F
  maxChange : Ext F
  minChange : Ext F
  threshold : Ext F
  initialIteration : Nat

/-- `sum(np.abs(field['g']) for field in fields)` on one process: pointwise sum of the absolute
values. Fields on one process have data of the same size. flow_tools.py L201. The sum of no fields is
the integer 0, which has no attribute `size`: `none`. -/
def pointSums : List (List F) → Option (List F)
  | [] => none
  | d :: ds => some (ds.foldl (fun acc e => List.zipWith (fun a x => a + |x|) acc e) (d.map fun x => |x|))

/-- The largest total frequency. flow_tools.py L201-203. -/
def maxFreq (rank0 : List (List F)) (others : List (List (List F))) : Option (Ext F) := do
  let r0 ← pointSums rank0
  let rs ← others.mapM pointSums
  some (globalMax r0 rs)

/-- The timestep before the threshold test. flow_tools.py L204-211. -/
def target (c : Cfl F) (freq : Ext F) : Ext F :=
  let dt := if freq = fin 0 then inf else recip freq
  let dt := mul dt c.safety
  let dt := min3 dt c.maxDt (mul c.maxChange c.storedDt)
  max3 dt c.minDt (mul c.minChange c.storedDt)

/-- `compute_timestep` at iteration `it`, `freq` being the largest total frequency if it is looked at.
`(iteration-1) % cadence` is Python's modulo (nonnegative for a positive cadence).
flow_tools.py L191-214. -/
def computeTimestep (c : Cfl F) (it : Nat) (freq : Ext F) : Cfl F :=
  if ((it : Int) - 1) % (c.cadence : Int) = 0 then
    if (it : Int) - 1 ≤ (c.initialIteration : Int) then c
    else
      let dt := target c freq
      if lt (mul c.threshold c.storedDt) (abs (sub dt c.storedDt)) then { c with storedDt := dt } else c
  else c

/-- Timesteps returned by successive calls. -/
def returned (c : Cfl F) : List (Nat × Ext F) → List (Ext F)
  | [] => []
  | (it, f) :: hist =>
    let c' := computeTimestep c it f
    c'.storedDt :: returned c' hist

/-- Defaults of `CFL.__init__` (cadence 1). flow_tools.py L171-172. -/
def defaultCfl (initialDt : F) : Cfl F :=
  { storedDt := fin initialDt, cadence := 1, safety := fin 1, maxDt := inf, minDt := fin 0,
    maxChange := inf, minChange := fin 0, threshold := fin 0, initialIteration := 0 }

end Dedalus.Flow
