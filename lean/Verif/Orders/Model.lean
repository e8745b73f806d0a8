import Verif.Dist.Block
import Verif.Subsys.Model
import Verif.Sphere.Model

/-! Order maps of curvilinear bases: the tuples `(m, mg_slice, mc_slice, ell_slice)` with which the colatitude and radial
transforms of `dedalus/core/transforms.py` and the operators of `dedalus/core/basis.py` pair the grid rows of an order with
its coefficients. Rows are distributed over `P` processes, the second axis is local. -/

namespace Dedalus.Orders
open Subsys Dist

inductive Dtype where
  | real | complex
deriving DecidableEq, Repr

/-- `group_shape[0]` (`dedalus/core/basis.py` L1758, L1770, L2753, L2764): rows of one order. -/
def Dtype.parts : Dtype → Nat
  | .real => 2
  | .complex => 1

/-- `SpinBasis.mmax` (`dedalus/core/basis.py` L1680). -/
def mmax (Nphi : Nat) : Nat := (Nphi - 1) / 2

/-- `SphereBasis.Lmax` (`dedalus/core/basis.py` L2723-2726). -/
def lmaxOf : Dtype → Nat → Nat
  | .real, Ntheta => Ntheta - 2
  | .complex, Ntheta => Ntheta - 1

/-- `forward_m_perm` (`dedalus/core/basis.py` L1748-1769, L2748-2763), as stored in the azimuth basis. It is not set if
`mmax = 0` (L1754-1756, L1766-1768, L2766-2768). -/
def perm (d : Dtype) (Nphi i : Nat) : Nat :=
  if mmax Nphi = 0 then i
  else match d with
  | .complex => Sphere.permComplex Nphi i
  | .real => Sphere.permReal Nphi i

/-- `_native_wavenumbers` of the azimuth basis (`dedalus/core/basis.py` L960-970 and L1117-1121). -/
def native (d : Dtype) (Nphi i : Nat) : Int :=
  match d with
  | .complex => Sphere.nativeComplex Nphi i
  | .real => Sphere.nativeReal i

/-- `native_wavenumbers` (`dedalus/core/basis.py` L896-902): the order of row `i` of coefficient-grid data. -/
def wave (d : Dtype) (Nphi i : Nat) : Int := native d Nphi (perm d Nphi i)

/-- Shape of coefficient data (`SphereBasis.global_shape`, `dedalus/core/basis.py` L2798-2812). -/
def sphereShape (d : Dtype) (Nphi L : Nat) : Nat × Nat :=
  if mmax Nphi > 0 then
    match d with
    | .complex => Sphere.shapeComplex Nphi L
    | .real => Sphere.shapeReal Nphi L
  else (d.parts, L + 1)

/-- Rows of coefficient-grid data (`dedalus/core/basis.py` L2788-2797). -/
def sphereGridRows (d : Dtype) (Nphi : Nat) : Nat := if mmax Nphi > 0 then Nphi else d.parts

/-- `SphereBasis.chunk_shape` of coefficient-grid data, along the azimuth (`dedalus/core/basis.py` L2818-2829). -/
def sphereGridChunk (d : Dtype) (Nphi : Nat) : Nat := if mmax Nphi > 0 then 2 * d.parts else d.parts

/-- `SphereBasis.elements_to_groups` of coefficient data (`dedalus/core/basis.py` L2849-2888); nothing is masked. -/
def sphereGroup (d : Dtype) (Nphi L : Nat) (i j : Nat) : Option (Int × Int) :=
  some (match d with
    | .complex => Sphere.groupComplex Nphi L i j
    | .real => Sphere.groupReal Nphi L i j)

/-- An azimuth axis over `P` processes. -/
def azimuth (P size chunk : Nat) : Axis := ⟨decide (P = 1), size, chunk, P, false⟩

/-- The global rows of coefficient data on process `p`. The chunk is `(2, 1)` or `(1, 1)` (`dedalus/core/basis.py`
L2830-2835). -/
def sphereRows (d : Dtype) (Nphi L P p : Nat) : List Nat :=
  localElements true (azimuth P (sphereShape d Nphi L).1 d.parts) p

/-- The global rows of coefficient-grid data on process `p`. -/
def sphereGrid (d : Dtype) (Nphi P p : Nat) : List Nat :=
  localElements true (azimuth P (sphereGridRows d Nphi) (sphereGridChunk d Nphi)) p

/-- The local group array of coefficient data with the global rows `rows` (`Layout.local_group_arrays`,
`dedalus/core/distributor.py` L428-433). -/
def coeffGroups (G : Nat → Nat → Option (Int × Int)) (rows : List Nat) : Idx → ElemGroup
  | [i, j] => match rows[i]? with
    | some r => [(G r j).map (·.1), (G r j).map (·.2)]
    | none => []
  | _ => []

/-- The local group array of coefficient-grid data: order and grid index (`dedalus/core/basis.py` L2843-2848; L1870-1874). -/
def gridGroups (w : Nat → Int) (rows : List Nat) : Idx → ElemGroup
  | [i, j] => match rows[i]? with
    | some r => [some (w r), some (j : Int)]
    | none => []
  | _ => []

/-- One entry of the maps; `reversed` is the step -1 of the last slice. -/
structure Entry where
  m : Int
  grid : Nat × Nat
  rows : Nat × Nat
  cols : Nat × Nat
  reversed : Bool
deriving DecidableEq, Repr

/-- The body of the loop over the orders (`dedalus/core/basis.py` L2957-2969 and L1923-1932); `none` is the `ValueError`. The slice
is reversed on the sphere only. -/
def entry (sphere : Bool) (G : Nat → Nat → Option (Int × Int)) (w : Nat → Int) (b : Nat) (rows grows : List Nat) (W Ng : Nat)
    (gs : Group) : Option Entry :=
  match gs, groupsetSlices (coeffGroups G rows) [rows.length, W] [b, 1] gs,
      groupsetSlices (gridGroups w grows) [grows.length, Ng] [b, 1] gs with
  | [some m, _], [[mc, ell]], [[mg, _]] => some ⟨m, mg, mc, ell, sphere && (decide (ell.1 = 0) && decide (m ≠ 0))⟩
  | _, _, _ => none

/-- `SphereBasis.m_maps` (`dedalus/core/basis.py` L2939-2970): the orders are those of the local coefficients. `Ng` is the number of
colatitudes. -/
def sphereMaps (d : Dtype) (Nphi L Ng P p : Nat) : Option (List Entry) :=
  let rows := sphereRows d Nphi L P p
  let W := (sphereShape d Nphi L).2
  (localGroupsets [false, true] ((allIdx [rows.length, W]).map (coeffGroups (sphereGroup d Nphi L) rows))).mapM
    (entry true (sphereGroup d Nphi L) (wave d Nphi) d.parts rows (sphereGrid d Nphi P p) W Ng)

/-! ## Disk and annulus -/

/-- `_nmin` (`dedalus/core/basis.py` L2086-2088 for the annulus, L2367-2369 for the disk). -/
def nmin (disk : Bool) (m : Int) : Int := if disk then |m| / 2 else 0

/-- Rows of coefficient data (`PolarBasis.global_shape`, `dedalus/core/basis.py` L1824-1833). -/
def polarRows (d : Dtype) (Nphi : Nat) : Nat :=
  match d with
  | .complex => Nphi
  | .real => if Nphi > 1 then Nphi else 2

/-- `PolarBasis.chunk_shape` of coefficient-grid data (`dedalus/core/basis.py` L1849-1862); the rows are `shape[0]` (L1819-1823). -/
def polarGridChunk (d : Dtype) (Nphi : Nat) : Nat :=
  match d with
  | .complex => 1
  | .real => if mmax Nphi = 0 then 1 else 2

/-- `PolarBasis.elements_to_groups` of coefficient data (`dedalus/core/basis.py` L1870-1881): masked below `nmin`. -/
def polarGroup (disk : Bool) (d : Dtype) (Nphi : Nat) (i n : Nat) : Option (Int × Int) :=
  if (n : Int) < nmin disk (wave d Nphi i) then none else some (wave d Nphi i, n)

/-- The global rows of coefficient data on process `p` (`dedalus/core/basis.py` L1863-1868 for the chunk). -/
def polarCoeff (d : Dtype) (Nphi P p : Nat) : List Nat := localElements true (azimuth P (polarRows d Nphi) d.parts) p

/-- The global rows of coefficient-grid data on process `p`. -/
def polarGrid (d : Dtype) (Nphi P p : Nat) : List Nat := localElements true (azimuth P Nphi (polarGridChunk d Nphi)) p

/-- `PolarBasis.m_maps` (`dedalus/core/basis.py` L1906-1933): the orders are those of the local coefficient-grid rows. `Nr` is the
number of radial coefficients, `Ng` the number of radii. -/
def polarMaps (disk : Bool) (d : Dtype) (Nphi Nr Ng P p : Nat) : Option (List Entry) :=
  let grows := polarGrid d Nphi P p
  (localGroupsets [false, true] ((allIdx [grows.length, Ng]).map (gridGroups (wave d Nphi) grows))).mapM
    (entry false (polarGroup disk d Nphi) (wave d Nphi) d.parts (polarCoeff d Nphi P p) grows Nr Ng)

/-! ## Use by the transforms -/

/-- The column of the `k`-th coefficient of an entry: `data[:, ell_slice]`, reversed or not. -/
def Entry.col (e : Entry) (k : Nat) : Nat := if e.reversed then e.cols.2 - 1 - k else e.cols.1 + k

/-- The loops of `SWSHColatitudeTransform.forward_reduced` (`dedalus/core/transforms.py` L1260-1272, with `lim = Lmax`) and of
`DiskRadialTransform.forward_reduced` (L1362-1376, with `lim = 2 * Nmax`) on zeroed coefficients (`dedalus/core/basis.py` L3116,
L2464): for every entry the coefficients of its slice become the product of the matrix of the order with the grid rows of its
slice. `T m u k` is row `k` of the product with the grid data `u`. -/
def forward {V : Type} [Zero V] (maps : List Entry) (lim : Nat) (T : Int → (Nat → V) → Nat → V) (g : Nat → Nat → V) : Nat → Nat → V :=
  maps.foldl (fun c e => if |e.m| ≤ (lim : Int) then fun i j =>
    if e.rows.1 ≤ i ∧ i < e.rows.2 ∧ e.cols.1 ≤ j ∧ j < e.cols.2 then
      T e.m (g (e.grid.1 + (i - e.rows.1))) (if e.reversed then e.cols.2 - 1 - j else j - e.cols.1)
    else c i j else c) (fun _ _ => 0)

/-- The loops of `backward_reduced` (`dedalus/core/transforms.py` L1274-1289 and L1377-1391) on zeroed grid data
(`dedalus/core/basis.py` L3133-3143, L2482-2492). `S m v t` is the value at point `t` of the product with the coefficients `v`. -/
def backward {V : Type} [Zero V] (maps : List Entry) (lim : Nat) (S : Int → List V → Nat → V) (c : Nat → Nat → V) : Nat → Nat → V :=
  maps.foldl (fun g e => fun i t =>
    if e.grid.1 ≤ i ∧ i < e.grid.2 then
      if |e.m| > (lim : Int) then 0
      else S e.m ((List.range (e.cols.2 - e.cols.1)).map fun k => c (e.rows.1 + (i - e.grid.1)) (e.col k)) t
    else g i t) (fun _ _ => 0)

end Dedalus.Orders
