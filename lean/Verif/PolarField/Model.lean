import Verif.SphereField.Model
import Verif.Zernike.Model
import Verif.Shell.Model

/-! The transforms of tensor fields in the disk and the annulus: azimuthal Fourier transform with permuted orders, spin recombination and radial
functions. Arrays are functions of the component, the local row (azimuth) and the local column (radius); the radius is the last axis. -/

namespace Dedalus.PolarField
open Orders SphereField

/-! ## Radial plans of one component -/

/-- `DiskRadialTransform.backward` of the plan for spin `s` (`dedalus/core/basis.py` L2442-2445, `dedalus/core/transforms.py` L1377-1391): the loop
over the orders of `m_maps`. -/
noncomputable def diskBackward {V : Type} [AddCommGroup V] [Module ℝ V] (maps : List Entry) (Ng Nr k : Nat) (alpha : ℝ) (g : Nat → ℝ) (s : Int)
    (c : Nat → Nat → V) : Nat → Nat → V :=
  Orders.backward maps (2 * (Nr - 1)) (fun m v => Zernike.diskBackward Ng Nr k alpha m s g fun n => v.getD n 0) c

/-- `DiskRadialTransform.forward` of the plan for spin `s` (`dedalus/core/basis.py` L2442-2445, `dedalus/core/transforms.py` L1362-1376). -/
noncomputable def diskForward {V : Type} [AddCommGroup V] [Module ℝ V] (before : Bool) (maps : List Entry) (Ng Nr k : Nat) (alpha : ℝ) (g : Nat → ℝ)
    (s : Int) (u : Nat → Nat → V) : Nat → Nat → V :=
  Orders.forward maps (2 * (Nr - 1)) (fun m v => Zernike.diskForward before Ng Nr k alpha m s g v) u

/-- `plan.backward` of the annulus (`dedalus/core/basis.py` L2166-2173, L2217): the same matrix for all rows and components. -/
noncomputable def annulusBackward {V : Type} [AddCommGroup V] [Module ℝ V] (Ng Nr k : Nat) (alpha : ℝ × ℝ) (g : Nat → ℝ) (c : Nat → Nat → V) :
    Nat → Nat → V :=
  fun i x => ∑ n ∈ Finset.range Nr, Jacobi.backwardMatrix Ng Nr (alpha.1 + k) (alpha.2 + k) alpha.1 alpha.2 g x n • c i n

/-- `plan.forward` of the annulus (`dedalus/core/basis.py` L2166-2173, L2198) with the matrix `F` of the plan. -/
noncomputable def annulusForward {V : Type} [AddCommGroup V] [Module ℝ V] (Ng : Nat) (F : Nat → Nat → ℝ) (u : Nat → Nat → V) : Nat → Nat → V :=
  fun i n => ∑ x ∈ Finset.range Ng, F n x • u i x

/-- The factor of `radial_transform_factor` at grid point `x` with which `gdata` is multiplied if `self.k > 0` (`dedalus/core/basis.py` L2175-2178,
L2184-2185 with `dk = -k`, L2222-2223 with `dk = k`). -/
noncomputable def factor (rin rout : ℝ) (alpha : ℝ × ℝ) (Ng k : Nat) (g : Nat → ℝ) (dk : Int) (x : Nat) : ℝ :=
  if k > 0 then Shell.radialFactor rin rout (Shell.radiusGrid rin rout alpha Ng g x) dk else 1

/-- The product of data of shape `shape` with a vector `v` of `n` entries reshaped by `reshape_vector(·, dim, axis)` (`dedalus/tools/array.py`
L31-36), in place. Shapes are aligned at their last axes, so the vector runs along axis `len(shape) - dim + axis`. `none` if the shapes cannot be
broadcast to that of the data. -/
def timesVector (shape : List Nat) (dim axis n : Nat) (v : Nat → ℝ) (data : List Nat → ℝ) : Option (List Nat → ℝ) :=
  if dim ≤ shape.length ∧ axis < dim then
    let ax := shape.length - dim + axis
    (shape[ax]?).bind fun size =>
      if n = size then some fun idx => data idx * v (idx.getD ax 0)
      else if n = 1 then some fun idx => data idx * v 0
      else none
  else none

/-- `gdata *= self.radial_transform_factor(scale, data_axis, dk)` for data of any shape: the radii are reshaped with `dim=data_axis,
axis=data_axis-1` (`dedalus/core/basis.py` L2175-2178, L2184-2185, L2223-2224). -/
def timesRadius (shape : List Nat) (dataAxis n : Nat) (v : Nat → ℝ) (data : List Nat → ℝ) : Option (List Nat → ℝ) :=
  timesVector shape dataAxis (dataAxis - 1) n v data

/-! ## Radius, all components -/

/-- `backward_transform_radius` for complex data (`dedalus/core/basis.py` L2200-2226 and L2479-2502): `plan t` acts on component `t`, `f` is the factor
of the annulus, 1 for the disk. -/
noncomputable def radiusBackwardComplex (fs : List (Option Spin.Mat)) (plan : List Nat → (Nat → Nat → ℂ) → Nat → Nat → ℂ) (f : Nat → ℝ)
    (c : List Nat → Nat → Nat → ℂ) : List Nat → Nat → Nat → ℂ :=
  let temp := fun t => plan t (c t)
  fun t i x => Spin.backwardComplex 0 fs (fun t => temp t i x) t * f x

/-- `forward_transform_radius` for complex data (`dedalus/core/basis.py` L2180-2198 and L2455-2469). -/
noncomputable def radiusForwardComplex (fs : List (Option Spin.Mat)) (plan : List Nat → (Nat → Nat → ℂ) → Nat → Nat → ℂ) (f : Nat → ℝ)
    (g : List Nat → Nat → Nat → ℂ) : List Nat → Nat → Nat → ℂ :=
  let g := fun t i x => g t i x * f x
  fun t => plan t fun i x => Spin.forwardComplex 0 fs (fun t => g t i x) t

/-- `backward_transform_radius` for real data with `M` local grid rows (`dedalus/core/basis.py` L2200-2226 and L2479-2502); `axisymmetric` is
`mmax == 0`. Then the temporaries have two rows and the rows of the result are the first. -/
noncomputable def radiusBackwardReal (axisymmetric : Bool) (coord0 : Spin.Coord) (sig : List Spin.Index) (fs : List (Option Spin.Mat)) (Ng M : Nat)
    (plan : List Nat → (Nat → Nat → ℝ) → Nat → Nat → ℝ) (f : Nat → ℝ) (c : List Nat → Nat → Nat → ℝ) : Option (List Nat → Nat → Nat → ℝ) :=
  let temp := fun t => plan t (c t)
  let rows := if axisymmetric then 2 else M
  (Spin.backwardReal coord0 (rows * Ng) sig fs (flatten rows temp) (fun _ _ => 0)).map fun o =>
    let g := fun t i x => unflatten rows o t i x * f x
    if axisymmetric then fun t _ x => g t 0 x else g

/-- `forward_transform_radius` for real data with `M` local grid rows (`dedalus/core/basis.py` L2180-2198 and L2455-2469). If `mmax == 0` as many
rows of zeros are added. -/
noncomputable def radiusForwardReal (axisymmetric : Bool) (coord0 : Spin.Coord) (sig : List Spin.Index) (fs : List (Option Spin.Mat)) (Ng M : Nat)
    (plan : List Nat → (Nat → Nat → ℝ) → Nat → Nat → ℝ) (f : Nat → ℝ) (g : List Nat → Nat → Nat → ℝ) : Option (List Nat → Nat → Nat → ℝ) :=
  let g := fun t i x => g t i x * f x
  let rows := if axisymmetric then M + M else M
  let g' := if axisymmetric then fun t i x => if i < M then g t i x else 0 else g
  (Spin.forwardReal coord0 (rows * Ng) sig fs (flatten rows g') (fun _ _ => 0)).map fun o => fun t => plan t (unflatten rows o t)

/-! ## Both axes, on one process -/

/-- From coefficients to the grid, real data: the radius and then the azimuth (`dedalus/core/basis.py` L1965-1990; the azimuth transforms are those of
the sphere). Coefficient-grid data have `Nphi` rows (L1819-1823). -/
noncomputable def toGridReal (coord0 coord1 : Spin.Coord) (sig : List Spin.Index) (Nphi N Ng : Nat)
    (plan : List Nat → (Nat → Nat → ℝ) → Nat → Nat → ℝ) (f : Nat → ℝ) (c : List Nat → Nat → Nat → ℝ) : Option (List Nat → Nat → Nat → ℝ) :=
  (Spin.factors coord1 sig).bind fun fs =>
    (radiusBackwardReal (decide (mmax Nphi = 0)) coord0 sig fs Ng Nphi plan f c).map fun g => fun t j x => azimuthBackwardReal Nphi N (fun i => g t i x) j

/-- From the grid to coefficients, real data. -/
noncomputable def toCoeffReal (coord0 coord1 : Spin.Coord) (sig : List Spin.Index) (Nphi N Ng : Nat)
    (plan : List Nat → (Nat → Nat → ℝ) → Nat → Nat → ℝ) (f : Nat → ℝ) (g : List Nat → Nat → Nat → ℝ) : Option (List Nat → Nat → Nat → ℝ) :=
  (Spin.factors coord1 sig).bind fun fs =>
    radiusForwardReal (decide (mmax Nphi = 0)) coord0 sig fs Ng Nphi plan f fun t i x => azimuthForwardReal Nphi N (fun j => g t j x) i

/-- From coefficients to the grid, complex data. -/
noncomputable def toGridComplex (coord1 : Spin.Coord) (sig : List Spin.Index) (Nphi N : Nat) (plan : List Nat → (Nat → Nat → ℂ) → Nat → Nat → ℂ)
    (f : Nat → ℝ) (c : List Nat → Nat → Nat → ℂ) : Option (List Nat → Nat → Nat → ℂ) :=
  (Spin.factors coord1 sig).map fun fs => fun t j x => azimuthBackwardComplex Nphi N (fun i => radiusBackwardComplex fs plan f c t i x) j

/-- From the grid to coefficients, complex data. -/
noncomputable def toCoeffComplex (coord1 : Spin.Coord) (sig : List Spin.Index) (Nphi N : Nat) (plan : List Nat → (Nat → Nat → ℂ) → Nat → Nat → ℂ)
    (f : Nat → ℝ) (g : List Nat → Nat → Nat → ℂ) : Option (List Nat → Nat → Nat → ℂ) :=
  (Spin.factors coord1 sig).map fun fs => radiusForwardComplex fs plan f fun t i x => azimuthForwardComplex Nphi N (fun j => g t j x) i

/-! ## Disk -/

/-- A real tensor field in the disk, to the grid. -/
noncomputable def diskToGridReal (coord0 coord1 : Spin.Coord) (sig : List Spin.Index) (Nphi Nr k : Nat) (alpha : ℝ) (N Ng : Nat) (g : Nat → ℝ)
    (c : List Nat → Nat → Nat → ℝ) : Option (List Nat → Nat → Nat → ℝ) :=
  (polarMaps true .real Nphi Nr Ng 1 0).bind fun maps =>
    toGridReal coord0 coord1 sig Nphi N Ng (fun t => diskBackward maps Ng Nr k alpha g (spinWeight coord1 sig t)) (fun _ => 1) c

/-- A real tensor field in the disk, to coefficients. -/
noncomputable def diskToCoeffReal (before : Bool) (coord0 coord1 : Spin.Coord) (sig : List Spin.Index) (Nphi Nr k : Nat) (alpha : ℝ) (N Ng : Nat)
    (g : Nat → ℝ) (u : List Nat → Nat → Nat → ℝ) : Option (List Nat → Nat → Nat → ℝ) :=
  (polarMaps true .real Nphi Nr Ng 1 0).bind fun maps =>
    toCoeffReal coord0 coord1 sig Nphi N Ng (fun t => diskForward before maps Ng Nr k alpha g (spinWeight coord1 sig t)) (fun _ => 1) u

/-- A complex tensor field in the disk, to the grid. -/
noncomputable def diskToGridComplex (coord1 : Spin.Coord) (sig : List Spin.Index) (Nphi Nr k : Nat) (alpha : ℝ) (N Ng : Nat) (g : Nat → ℝ)
    (c : List Nat → Nat → Nat → ℂ) : Option (List Nat → Nat → Nat → ℂ) :=
  (polarMaps true .complex Nphi Nr Ng 1 0).bind fun maps =>
    toGridComplex coord1 sig Nphi N (fun t => diskBackward maps Ng Nr k alpha g (spinWeight coord1 sig t)) (fun _ => 1) c

/-- A complex tensor field in the disk, to coefficients. -/
noncomputable def diskToCoeffComplex (before : Bool) (coord1 : Spin.Coord) (sig : List Spin.Index) (Nphi Nr k : Nat) (alpha : ℝ) (N Ng : Nat)
    (g : Nat → ℝ) (u : List Nat → Nat → Nat → ℂ) : Option (List Nat → Nat → Nat → ℂ) :=
  (polarMaps true .complex Nphi Nr Ng 1 0).bind fun maps =>
    toCoeffComplex coord1 sig Nphi N (fun t => diskForward before maps Ng Nr k alpha g (spinWeight coord1 sig t)) (fun _ => 1) u

/-! ## Annulus -/

/-- A real tensor field in the annulus, to the grid. -/
noncomputable def annulusToGridReal (coord0 coord1 : Spin.Coord) (sig : List Spin.Index) (rin rout : ℝ) (Nphi Nr k : Nat) (alpha : ℝ × ℝ) (N Ng : Nat)
    (g : Nat → ℝ) (c : List Nat → Nat → Nat → ℝ) : Option (List Nat → Nat → Nat → ℝ) :=
  toGridReal coord0 coord1 sig Nphi N Ng (fun _ => annulusBackward Ng Nr k alpha g) (factor rin rout alpha Ng k g k) c

/-- A real tensor field in the annulus, to coefficients. `none` if the matrix of the plan cannot be built. -/
noncomputable def annulusToCoeffReal (before : Bool) (coord0 coord1 : Spin.Coord) (sig : List Spin.Index) (rin rout : ℝ) (Nphi Nr k : Nat) (alpha : ℝ × ℝ)
    (N Ng : Nat) (g : Nat → ℝ) (u : List Nat → Nat → Nat → ℝ) : Option (List Nat → Nat → Nat → ℝ) :=
  (Jacobi.forwardMatrix before Ng Nr (alpha.1 + k) (alpha.2 + k) alpha.1 alpha.2 g).bind fun F =>
    toCoeffReal coord0 coord1 sig Nphi N Ng (fun _ => annulusForward Ng F) (factor rin rout alpha Ng k g (-k)) u

/-- A complex tensor field in the annulus, to the grid. -/
noncomputable def annulusToGridComplex (coord1 : Spin.Coord) (sig : List Spin.Index) (rin rout : ℝ) (Nphi Nr k : Nat) (alpha : ℝ × ℝ) (N Ng : Nat)
    (g : Nat → ℝ) (c : List Nat → Nat → Nat → ℂ) : Option (List Nat → Nat → Nat → ℂ) :=
  toGridComplex coord1 sig Nphi N (fun _ => annulusBackward Ng Nr k alpha g) (factor rin rout alpha Ng k g k) c

/-- A complex tensor field in the annulus, to coefficients. -/
noncomputable def annulusToCoeffComplex (before : Bool) (coord1 : Spin.Coord) (sig : List Spin.Index) (rin rout : ℝ) (Nphi Nr k : Nat) (alpha : ℝ × ℝ)
    (N Ng : Nat) (g : Nat → ℝ) (u : List Nat → Nat → Nat → ℂ) : Option (List Nat → Nat → Nat → ℂ) :=
  (Jacobi.forwardMatrix before Ng Nr (alpha.1 + k) (alpha.2 + k) alpha.1 alpha.2 g).bind fun F =>
    toCoeffComplex coord1 sig Nphi N (fun _ => annulusForward Ng F) (factor rin rout alpha Ng k g (-k)) u

end Dedalus.PolarField
