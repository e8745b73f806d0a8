import Verif.Orders.Model
import Verif.Maps.Model

/-! Averages over the azimuth and over spheres, on distributed coefficients: `AzimuthalAverage`, `SphericalAverage` and
`SphereAverage` of `dedalus/core/basis.py`. The azimuth is distributed over `P0` processes and the colatitude over `P1`; the last axis
(radius, or another basis) is local. -/

namespace Dedalus.Average
open Orders Dist

/-- The global columns of coefficient data on process `p` of `P` along the colatitude; the chunk is 1 (`dedalus/core/basis.py`
L2830-2835). -/
def sphereCols (d : Dtype) (Nphi L P p : Nat) : List Nat := localElements true (azimuth P (sphereShape d Nphi L).2 1) p

/-- A coefficient: row, column and index along the last axis, all global. -/
abbrev Cell := Nat × Nat × Nat

/-- The local coefficients selected by a boolean array, in C order (numpy boolean indexing). -/
def cells (I J : List Nat) (N : Nat) (mask : Nat → Nat → Nat → Bool) : List Cell :=
  I.flatMap fun i => J.flatMap fun j => ((List.range N).filter (mask i j)).map fun n => (i, j, n)

/-- `groups[azimuth_axis] == 0` (`dedalus/core/basis.py` L5257-5258, L5286-5287). In balls the modes `n < low ell` are masked (L4308-4318);
comparing a masked array gives `False` there. -/
def orderZero (d : Dtype) (Nphi L : Nat) (low : Int → Nat) (i j n : Nat) : Bool :=
  match sphereGroup d Nphi L i j with
  | some (m, l) => decide (m = 0) && decide (low l ≤ n)
  | none => false

/-- `out[mask] = values` for a boolean mask with the true entries `ks` (numpy): as many values, or one value. -/
def maskAssign {κ V : Type} [DecidableEq κ] (ks : List κ) (vs : List V) (out : κ → V) : Option (κ → V) :=
  if ks.length = vs.length then
    some fun k => match (ks.zip vs).find? (fun e => decide (e.1 = k)) with
      | some e => e.2
      | none => out k
  else match vs with
    | [v] => some fun k => if k ∈ ks then v else out k
    | _ => none

/-- `SphereAzimuthalAverage.operate` and `SphericalAzimuthalAverage.operate` for one component on process `(p0, p1)`
(`dedalus/core/basis.py` L5244-5264, L5273-5293). The output basis has one azimuthal point (L5206-5211). -/
def azimuthalAverage {V : Type} [Zero V] (d : Dtype) (Nphi L N : Nat) (low : Int → Nat) (P0 P1 p0 p1 : Nat) (x : Cell → V) :
    Option (Cell → V) :=
  maskAssign (cells (sphereRows d 1 L P0 p0) (sphereCols d 1 L P1 p1) N (orderZero d 1 L low))
    ((cells (sphereRows d Nphi L P0 p0) (sphereCols d Nphi L P1 p1) N (orderZero d Nphi L low)).map x) (fun _ => 0)

/-! ## Disk and annulus -/

/-- `PolarMOperator.operate` for one component with the maps of the output basis (`dedalus/core/operators.py` L2926-2952): for every
entry the rows and columns of its slices, in both arrays, with the matrix `A m`. `rows` is the number of local rows of the output; slices
beyond it are empty. All arrays are indexed locally. -/
def polarOperate {V : Type} [AddCommMonoid V] (maps : List Entry) (rows : Nat) (A : Int → (Nat → V) → Nat → V) (x : Nat → Nat → V) :
    Nat → Nat → V :=
  maps.foldl (fun out e => fun i n =>
    if (e.rows.1 ≤ i ∧ i < e.rows.2 ∧ i < rows) ∧ e.cols.1 ≤ n ∧ n < e.cols.2 then
      out i n + A e.m (fun k => x i (e.cols.1 + k)) (n - e.cols.1)
    else out i n) (fun _ _ => 0)

/-- `PolarAzimuthalAverage.radial_matrix` (`dedalus/core/basis.py` L5228-5235): the identity for order zero, no rows otherwise (then the
sum in `operate` is not defined unless the slice is empty). -/
def averageMatrix {V : Type} [Zero V] (m : Int) (v : Nat → V) : Nat → V := if m = 0 then v else fun _ => 0

/-- `PolarAzimuthalAverage` on process `p` of `P` (`dedalus/core/basis.py` L5217-5235). -/
def polarAverage {V : Type} [AddCommMonoid V] (disk : Bool) (d : Dtype) (Nr Ng P p : Nat) (x : Nat → Nat → V) : Option (Nat → Nat → V) :=
  (polarMaps disk d 1 Nr Ng P p).map fun maps => polarOperate maps (polarCoeff d 1 P p).length averageMatrix x

/-! ## Averages over spheres -/

/-- Order and degree of coefficient `(i, j)` (`SphereBasis.elements_to_groups`, `dedalus/core/basis.py` L2849-2888). -/
def sphereName (d : Dtype) (Nphi L i j : Nat) : Int × Int :=
  match d with
  | .complex => Sphere.groupComplex Nphi L i j
  | .real => Sphere.groupReal Nphi L i j

/-- `SphericalEllOperator.operate` (`dedalus/core/operators.py` L3126-3165) with `SphericalAverage.radial_matrix` (`dedalus/core/basis.py`
L5343-5350) for one component on a process with the rows from `r0` and columns from `c0`: the maps are those of the input, the views are cut
to the output shape `(R', C')` and are skipped if they are empty. `none` is the error of adding a result without radial modes to a view that
is not empty. All arrays are indexed locally; the radial index is inside `V`. -/
def ellAverage {V : Type} [AddCommMonoid V] (G : Nat → Nat → Int × Int) (b r0 c0 R C R' C' : Nat) (x : Nat → Nat → V) :
    Option (Nat → Nat → V) :=
  (Maps.ellMaps G b r0 c0 R C).foldl (fun out e => out.bind fun out =>
    if e.rows.1 < min e.rows.2 R' ∧ e.cols.1 < min e.cols.2 C' then
      if e.ell = 0 then some fun i j => if e.covers i j ∧ i < R' ∧ j < C' then out i j + x i j else out i j
      else none
    else some out) (some fun _ _ => 0)

/-- `SphericalAverage` on process `(p0, p1)`; the output basis has one azimuthal and one colatitude point (`dedalus/core/basis.py`
L5331-5335), so that `Lmax = 0` (L2723-2726). Without local rows or columns there are no maps. -/
def sphericalAverage {V : Type} [AddCommMonoid V] (d : Dtype) (Nphi L P0 P1 p0 p1 : Nat) (x : Nat → Nat → V) : Option (Nat → Nat → V) :=
  ellAverage (sphereName d Nphi L) d.parts ((sphereRows d Nphi L P0 p0).headD 0) ((sphereCols d Nphi L P1 p1).headD 0)
    (sphereRows d Nphi L P0 p0).length (sphereCols d Nphi L P1 p1).length (sphereRows d 1 0 P0 p0).length (sphereCols d 1 0 P1 p1).length x

/-- `SphereAverage` of a scalar on process `(p0, p1)` (`dedalus/core/basis.py` L5296-5318, `SeparableSphereOperator.operate`,
`dedalus/core/operators.py` L2807-2866): both arrays are cut to the smaller shape and multiplied by the symbol of the local input degrees. -/
def sphereAverage {V : Type} [MulZeroOneClass V] (d : Dtype) (Nphi L P0 P1 p0 p1 : Nat) (x : Nat → Nat → V) : Nat → Nat → V :=
  let rows := sphereRows d Nphi L P0 p0
  let cols := sphereCols d Nphi L P1 p1
  fun i j =>
    if i < min rows.length (sphereRows d 1 0 P0 p0).length ∧ j < min cols.length (sphereCols d 1 0 P1 p1).length then
      match rows[i]?, cols[j]? with
      | some r, some s => (if (sphereName d Nphi L r s).2 = 0 then 1 else 0) * x i j
      | _, _ => 0
    else 0

end Dedalus.Average
