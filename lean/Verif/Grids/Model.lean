import Verif.Dist.Block
import Verif.Field.Model
import Mathlib.Data.Rat.Floor
import Mathlib.Algebra.Field.Defs
import Mathlib.Algebra.Field.Rat

/-!
# Model: local grids and grid spacings

Models `Distributor.local_grid` and `local_grids` (/repo/dedalus/core/distributor.py), the functions `grid_shape`, `global_shape`, `local_grids`,
`local_grid_azimuth`, `local_grid_colatitude`, `local_grid_radius`, `global_grid_spacing` and `local_grid_spacing` of the bases
(/repo/dedalus/core/basis.py), `Domain.global_shape` (/repo/dedalus/core/domain.py), `reshape_vector` (/repo/dedalus/tools/array.py), and the
numpy broadcasting used when grids are put into the data of a field. The block distribution is the one of `Verif.Dist.Block`.

Scales are exact rationals, coordinates are elements of a field `K`. `none` is a Python exception.
-/

namespace Dedalus.Grids

open Dedalus.Dist (layoutElements)
open Dedalus.Field (ScaleArg remedy)

variable {K : Type}

/-- One process of a distributor, as seen by the grid layout: the number of axes, the local axes of that layout, the sizes above one of the mesh, and
the coordinates of the process in it (/repo/dedalus/core/distributor.py L325-335). -/
structure Process where
  dim : Nat
  loc : List Bool
  mesh : List Nat
  coords : List Nat

/-- The grids along one axis: the native points for each number of points, and the map to problem coordinates. Fourier and Jacobi intervals:
`_native_grid` and `COV.problem_coord` (/repo/dedalus/core/basis.py L501-504, L910-913, L376-379). Colatitude: Gauss points and `arccos` (L3044-3048).
Radius: quadrature points and the affine map or square root (L2126-2131, L2414-2418, L3768-3773, L3987-3995). -/
structure Grid (K : Type) where
  native : Nat → List K
  problem : K → K

/-- The bases: first axis in the distributor (`get_basis_axis`, /repo/dedalus/core/distributor.py L207-208), numbers of modes along their axes, and grids.
`interval` is a Jacobi or Fourier basis, `polar` a disk or an annulus, `radial` the radial basis of a ball or a shell, `spherical` a ball or a shell. -/
inductive Basis (K : Type) where
  | interval (axis n : Nat) (x : Grid K)
  | polar (axis Nphi Nr : Nat) (phi r : Grid K)
  | sphere (axis Nphi Ntheta : Nat) (phi theta : Grid K)
  | radial (axis Nr : Nat) (r : Grid K)
  | spherical (axis Nphi Ntheta Nr : Nat) (phi theta r : Grid K)

/-- `dist.first_axis(basis)` (/repo/dedalus/core/distributor.py L207-211). -/
def Basis.axis : Basis K → Nat
  | .interval a .. | .polar a .. | .sphere a .. | .radial a .. | .spherical a .. => a

/-- `basis.dim` (/repo/dedalus/core/basis.py L339, L1722, L2674, L3424, L4140). -/
def Basis.dim : Basis K → Nat
  | .interval .. => 1
  | .polar .. | .sphere .. => 2
  | .radial .. | .spherical .. => 3

/-- `int(np.ceil(scale * n))` (/repo/dedalus/core/basis.py L2128, L2415, L3045, L3770, L3992). Negative scales are outside the model. -/
def ceilSize (s : ℚ) (n : Nat) : Nat := ⌈s * n⌉.toNat

/-- One entry of `Basis.grid_shape` (/repo/dedalus/core/basis.py L141-144): directions of size one keep it. -/
def points (s : ℚ) (n : Nat) : Nat := if n = 1 then 1 else ceilSize s n

/-- `mmax` (/repo/dedalus/core/basis.py L1680). -/
def mmax (Nphi : Nat) : Nat := (Nphi - 1) / 2

/-- `global_shape` in full grid space (/repo/dedalus/core/basis.py L404-406, L1811-1818, L2781-2788, L3450-3461, L4268-4277). The scales are those of the axes of the
basis. -/
def Basis.globalShape : Basis K → List ℚ → Option (List Nat)
  | .interval _ n _, [s] => some [points s n]
  | .polar _ Nphi Nr _ _, [s, t] => if mmax Nphi = 0 then some [1, points t Nr] else some [points s Nphi, points t Nr]
  | .sphere _ Nphi Ntheta _ _, [s, t] => if mmax Nphi = 0 then some [1, points t Ntheta] else some [points s Nphi, points t Ntheta]
  | .radial _ Nr _, [_, _, u] => some [1, 1, points u Nr]
  | .spherical _ Nphi Ntheta Nr _ _ _, [s, t, u] =>
    if mmax Nphi = 0 then some [1, points t Ntheta, points u Nr] else some [points s Nphi, points t Ntheta, points u Nr]
  | _, _ => none

/-- `shape[axis:axis+len(v)] = v`, an error if the shape is too short. /repo/dedalus/core/domain.py L175-178. -/
def place (shape : List Nat) (axis : Nat) (v : List Nat) : Option (List Nat) :=
  if axis + v.length ≤ shape.length then some (shape.take axis ++ v ++ shape.drop (axis + v.length)) else none

/-- `scales[first_axis:last_axis+1]` (/repo/dedalus/core/distributor.py L298, /repo/dedalus/core/domain.py L176). -/
def Basis.scales (b : Basis K) (scales : List ℚ) : List ℚ := (scales.drop b.axis).take b.dim

/-- `Domain.global_shape` (/repo/dedalus/core/domain.py L172-178) for the grid layout. -/
def domainShape (dim : Nat) (D : List (Basis K)) (scales : List ℚ) : Option (List Nat) :=
  D.foldlM (fun shape b => (b.globalShape (b.scales scales)).bind (place shape b.axis)) (List.replicate dim 1)

/-- `dist.grid_layout.local_elements(domain, scales)` (/repo/dedalus/core/distributor.py L337-343, L393-402): chunks of size one in grid space
(/repo/dedalus/core/basis.py L410-412, L1846-1849, L2816-2819, L3476-3479, L4279-4281). Without `broadcast` it does not matter which axes are constant. -/
def elements (P : Process) (D : List (Basis K)) (scales : ScaleArg) : Option (List (List Nat)) :=
  (remedy P.dim scales).bind fun s => (domainShape P.dim D s).bind fun shape =>
    layoutElements P.loc P.mesh shape (List.replicate P.dim 1) (List.replicate P.dim false) false P.coords

/-- `vector[indices]`: an IndexError out of range. -/
def gather (v : List K) (le : List Nat) : Option (List K) := le.mapM fun i => v[i]?

/-- A numpy array in row-major order. -/
structure Arr (K : Type) where
  shape : List Nat
  data : List K
  deriving DecidableEq

/-- `reshape_vector(data, dim, axis)` (/repo/dedalus/tools/array.py L31-36). -/
def reshapeVector (v : List K) (dim axis : Nat) : Option (Arr K) :=
  if axis < dim then some ⟨(List.replicate dim 1).set axis v.length, v⟩ else none

/-- `IntervalBasis.local_grid(dist, scale)` (/repo/dedalus/core/basis.py L374-379); also `local_grid_azimuth` of the curvilinear bases, from their azimuth basis
(L1680-1688, L4166). -/
def intervalGrid (P : Process) (axis n : Nat) (x : Grid K) (s : ℚ) : Option (Arr K) :=
  (elements P [Basis.interval axis n x] (.num s)).bind fun els => (els[axis]?).bind fun le =>
    (gather (x.native (points s n)) le).bind fun v => reshapeVector (v.map x.problem) P.dim axis

/-- `local_grid_radius` of annuli and disks (/repo/dedalus/core/basis.py L2121-2131, L2409-2418). -/
def polarRadius (P : Process) (axis Nphi Nr : Nat) (phi r : Grid K) (s : ℚ) : Option (Arr K) :=
  (elements P [Basis.polar axis Nphi Nr phi r] (.num s)).bind fun els => (els[axis + 1]?).bind fun le =>
    (gather ((r.native (ceilSize s Nr)).map r.problem) le).bind fun v => reshapeVector v P.dim (axis + 1)

/-- `local_grid_colatitude` (/repo/dedalus/core/basis.py L3039-3048). -/
def colatitude (P : Process) (axis Nphi Ntheta : Nat) (phi theta : Grid K) (s : ℚ) : Option (Arr K) :=
  (elements P [Basis.sphere axis Nphi Ntheta phi theta] (.num s)).bind fun els => (els[axis + 1]?).bind fun le =>
    (gather ((theta.native (ceilSize s Ntheta)).map theta.problem) le).bind fun v => reshapeVector v P.dim (axis + 1)

/-- `local_grid` of the radial bases (/repo/dedalus/core/basis.py L3511-3515). -/
def radiusGrid (P : Process) (axis Nr : Nat) (r : Grid K) (s : ℚ) : Option (Arr K) :=
  (elements P [Basis.radial axis Nr r] (.num s)).bind fun els => (els[axis + 2]?).bind fun le =>
    (gather ((r.native (ceilSize s Nr)).map r.problem) le).bind fun v => reshapeVector v P.dim (axis + 2)

/-- `basis.local_grids(dist, scales)` (/repo/dedalus/core/basis.py L370-372, L1964-1966, L3035-3037, L4212-4215; not implemented for radial bases, L164-168). -/
def basisGrids (P : Process) : Basis K → List ℚ → Option (List (Arr K))
  | .interval a n x, [s] => do
    let g ← intervalGrid P a n x s
    some [g]
  | .polar a Nphi Nr phi r, [s, t] => do
    let g ← intervalGrid P a Nphi phi s
    let h ← polarRadius P a Nphi Nr phi r t
    some [g, h]
  | .sphere a Nphi Ntheta phi theta, [s, t] => do
    let g ← intervalGrid P a Nphi phi s
    let h ← colatitude P a Nphi Ntheta phi theta t
    some [g, h]
  | .spherical a Nphi Ntheta Nr phi theta r, [s, t, u] => do
    let g ← intervalGrid P a Nphi phi s
    let h ← colatitude P a Nphi Ntheta phi theta t
    let k ← radiusGrid P a Nr r u
    some [g, h, k]
  | _, _ => none

/-- `dist.local_grids(*bases, scales=scales)` (/repo/dedalus/core/distributor.py L294-300). -/
def localGrids (P : Process) (bases : List (Basis K)) (scales : ScaleArg) : Option (List (Arr K)) :=
  (remedy P.dim scales).bind fun s => (bases.mapM fun b => basisGrids P b (b.scales s)).map List.flatten

/-- `dist.local_grid(basis, scale)` (/repo/dedalus/core/distributor.py L257-264). -/
def localGrid (P : Process) (b : Basis K) (scale : Option ℚ) : Option (Arr K) :=
  let s := match scale with
    | none => 1
    | some s => s
  match b with
  | .interval a n x => intervalGrid P a n x s
  | _ => none

/-- Row-major position of an index. -/
def ravel : List Nat → List Nat → Nat
  | _ :: shape, i :: idx => i * shape.prod + ravel shape idx
  | _, _ => 0

/-- The entry of an array used by numpy at an index of the array it is broadcast to: axes of size one are repeated, other axes must have the size of the target
(ValueError otherwise). Both arrays have one axis per axis of the distributor. -/
def read (g : Arr K) (target idx : List Nat) : Option K :=
  if g.shape.length = target.length ∧ ∀ p ∈ g.shape.zip target, p.1 = 1 ∨ p.1 = p.2 then
    g.data[ravel g.shape (List.zipWith (fun n i => if n = 1 then 0 else i) g.shape idx)]?
  else none

/-- `Layout.local_shape` of the data of a field in the grid layout (/repo/dedalus/core/distributor.py L507-512). -/
def localShape (P : Process) (D : List (Basis K)) (scales : ScaleArg) : Option (List Nat) :=
  (elements P D scales).map (List.map List.length)

/-- The entry with the given index of the data of a field on the bases `D` after `field['g'] = f(*grids)` with an elementwise function `f`
(/repo/dedalus/core/field.py L588-597, a scalar field). -/
def setData {R : Type} (P : Process) (D : List (Basis K)) (scales : ScaleArg) (f : List K → R) (grids : List (Arr K)) (idx : List Nat) : Option R :=
  (localShape P D scales).bind fun shape => (grids.mapM fun g => read g shape idx).map f

/-! ## Grid spacings -/

section Spacing

variable [Field K]

/-- `np.gradient(v, edge_order=2)` with unit steps: centred differences, second order one-sided differences at the ends, a ValueError for less than three points
(numpy). -/
def gradient (v : List K) : Option (List K) :=
  if v.length < 3 then none
  else (List.range v.length).mapM fun i =>
    if i = 0 then do
      let a ← v[0]?
      let b ← v[1]?
      let c ← v[2]?
      some (-(3 / 2) * a + 2 * b - (1 / 2) * c)
    else if i = v.length - 1 then do
      let a ← v[v.length - 3]?
      let b ← v[v.length - 2]?
      let c ← v[v.length - 1]?
      some ((1 / 2) * a - 2 * b + (3 / 2) * c)
    else do
      let a ← v[i - 1]?
      let c ← v[i + 1]?
      some ((c - a) / 2)

/-- The flattened `global_grids(dist, scales)[subaxis]` (/repo/dedalus/core/basis.py L360-368, L1942-1948, L2117-2119, L2405-2407, L3013-3020, L3506-3509,
L4207-4210). -/
def globalGrid : Basis K → Nat → ℚ → Option (List K)
  | .interval _ n x, 0, s => some ((x.native (points s n)).map x.problem)
  | .polar _ Nphi _ phi _, 0, s => some ((phi.native (points s Nphi)).map phi.problem)
  | .polar _ _ Nr _ r, 1, s => some ((r.native (ceilSize s Nr)).map r.problem)
  | .sphere _ Nphi _ phi _, 0, s => some ((phi.native (points s Nphi)).map phi.problem)
  | .sphere _ _ Ntheta _ theta, 1, s => some ((theta.native (ceilSize s Ntheta)).map theta.problem)
  | .spherical _ Nphi _ _ phi _ _, 0, s => some ((phi.native (points s Nphi)).map phi.problem)
  | .spherical _ _ Ntheta _ _ theta _, 1, s => some ((theta.native (ceilSize s Ntheta)).map theta.problem)
  | .spherical _ _ _ Nr _ _ r, 2, s => some ((r.native (ceilSize s Nr)).map r.problem)
  | _, _, _ => none

/-- `global_grid_spacing` (/repo/dedalus/core/basis.py L381-384, L1950-1954, L3022-3026, L4217-4225): balls and shells give an infinite spacing along axes with one
point. `inf` is numpy's infinity. -/
def globalSpacing (inf : K) (b : Basis K) (subaxis : Nat) (s : ℚ) : Option (List K) :=
  (globalGrid b subaxis s).bind fun v =>
    match b with
    | .spherical .. => if v.length = 1 then some [inf] else gradient v
    | _ => gradient v

/-- `local_grid_spacing` (/repo/dedalus/core/basis.py L386-392, L1956-1962, L3028-3033, L4227-4233). -/
def localSpacing (inf : K) (P : Process) (b : Basis K) (subaxis : Nat) (s : ℚ) : Option (Arr K) :=
  (globalSpacing inf b subaxis s).bind fun v => (elements P [b] (.num s)).bind fun els => (els[b.axis + subaxis]?).bind fun le =>
    (gather v le).bind fun w => reshapeVector w P.dim (b.axis + subaxis)

end Spacing

end Dedalus.Grids
