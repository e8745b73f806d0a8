import Verif.SphereField.Model
import Verif.Fourier.OpsModel
import Verif.Sphere.Model
import Mathlib.Data.Rat.Floor

/-! Interpolation of tensor fields in azimuth and colatitude: `InterpolateAzimuth` and `InterpolateColatitude` in `dedalus/core/basis.py`. -/

namespace Dedalus.Interp
open Orders

/-! ## Azimuth -/

/-- `grid_shape` of the azimuth basis at its own scale (`dedalus/core/basis.py` L141-144, L5616). -/
def gridSize (dealias : ℚ) (Nphi : Nat) : Nat := if Nphi = 1 then 1 else ⌈dealias * Nphi⌉₊

/-- Rows of the grid data of the operand, which futures bring to the same scale (`dedalus/core/future.py` L164-167): `global_shape` of the sphere and of
disks and annuli (`dedalus/core/basis.py` L2782-2788, L1812-1818). -/
def gridRows (dealias : ℚ) (Nphi : Nat) : Nat := if mmax Nphi = 0 then 1 else gridSize dealias Nphi

/-- The number of wavenumbers of the azimuth basis (`dedalus/core/basis.py` L960-970 and L1117-1121). -/
def modes (d : Dtype) (Nphi : Nat) : Nat :=
  match d with
  | .complex => Nphi
  | .real => 2 * (mmax Nphi + 1)

/-- `InterpolateRealFourier._full_matrix` (`dedalus/core/basis.py` L1239-1249), entry `i`, with the permuted wavenumbers. -/
noncomputable def fourierReal (Nphi : Nat) (x : ℝ) (i : Nat) : ℝ :=
  if i % 2 = 0 then Real.cos (wave .real Nphi i * x) else -Real.sin (wave .real Nphi i * x)

/-- `InterpolateComplexFourier._full_matrix` (`dedalus/core/basis.py` L1049-1056). -/
noncomputable def fourierComplex (Nphi : Nat) (x : ℝ) (i : Nat) : ℂ := Complex.exp (Complex.I * (wave .complex Nphi i : Int) * x)

/-- The bounds of the azimuth basis (`dedalus/core/basis.py` L1682-1684). -/
noncomputable def azimuthCov : Fourier.Cov := Fourier.fourierCov 0 (2 * Real.pi)

/-- `InterpolateAzimuth` (`dedalus/core/basis.py` L5609-5634) of real data along the azimuth `u`. `none` is the error of the matrix product if the sizes do
not agree, or of an unknown name of a position. Without orders above zero the permutation is `None`, which only adds an axis of length one. -/
noncomputable def azimuthReal (dealias : ℚ) (Nphi : Nat) (pos : Fourier.Position) (u : Nat → ℝ) : Option ℝ :=
  if gridRows dealias Nphi = gridSize dealias Nphi then
    (azimuthCov.nativeCoord pos).map fun x =>
      ∑ j ∈ Finset.range (gridSize dealias Nphi), (∑ i ∈ Finset.range (modes .real Nphi),
        fourierReal Nphi x i * Fourier.realForwardMatrix (gridSize dealias Nphi) Nphi (perm .real Nphi i) j) * u j
  else none

/-- The same for complex data. -/
noncomputable def azimuthComplex (dealias : ℚ) (Nphi : Nat) (pos : Fourier.Position) (u : Nat → ℂ) : Option ℂ :=
  if gridRows dealias Nphi = gridSize dealias Nphi then
    (azimuthCov.nativeCoord pos).map fun x =>
      ∑ j ∈ Finset.range (gridSize dealias Nphi), (∑ i ∈ Finset.range (modes .complex Nphi),
        fourierComplex Nphi x i * Fourier.forwardMatrix (gridSize dealias Nphi) Nphi (perm .complex Nphi i) j) * u j
  else none

/-! ## Colatitude -/

/-- The loop over the orders (`dedalus/core/basis.py` L5727-5733) on zeroed data, with the vectors of spin `s` (L5695-5704): the row of the entry's grid
slice becomes the interpolated value. Orders above `Lmax` have zero vectors. -/
noncomputable def orders {V : Type} [AddCommGroup V] [Module ℝ V] (maps : List Entry) (L Ng : Nat) (s : Int) (q : Nat → ℝ) (θ : ℝ) (g : Nat → Nat → V) : Nat → V :=
  maps.foldl (fun out e => fun i =>
    if e.grid.1 ≤ i ∧ i < e.grid.2 then
      if e.m ≤ (L : Int) then Sphere.interpolate Ng L e.m s q θ (g i) else 0
    else out i) (fun _ => 0)

/-- The components of a tensor, over which `np.ndenumerate` runs (`dedalus/core/basis.py` L5723). -/
def components : List Spin.Index → List (List Nat)
  | [] => [[]]
  | ix :: sig => (List.range ix.dim).flatMap fun x => (components sig).map (x :: ·)

/-- The product of the harmonics with the rows of the forward matrix (`dedalus/core/basis.py` L5699-5702) fails if there is no harmonic of the order, because
`polynomials` then returns an array with two axes (`dedalus/libraries/dedalus_sphere/jacobi.py` L50-51); `false` is a `ValueError`. -/
def vectorsExist (coord1 : Spin.Coord) (sig : List Spin.Index) (maps : List Entry) (L : Nat) : Bool :=
  (components sig).all fun t => maps.all fun e => !decide (e.m ≤ (L : Int)) || decide (1 ≤ (Sphere.spin2Jacobi L e.m (SphereField.spinWeight coord1 sig t)).1)

/-- `InterpolateColatitude.operate` (`dedalus/core/basis.py` L5708-5735) of coefficient-grid data with `M` rows and `Ng` colatitudes, real data. The result has
`M` rows and one colatitude. -/
noncomputable def colatitudeReal (coord0 coord1 : Spin.Coord) (sig : List Spin.Index) (fs : List (Option Spin.Mat)) (maps : List Entry) (L Ng M : Nat)
    (q : Nat → ℝ) (θ : ℝ) (g : List Nat → Nat → Nat → ℝ) : Option (List Nat → Nat → Nat → ℝ) :=
  (Spin.forwardReal coord0 (M * Ng) sig fs (SphereField.flatten M g) (fun _ _ => 0)).bind fun temp =>
    if vectorsExist coord1 sig maps L then
      let temp := SphereField.unflatten M temp
      let out := fun t (i : Nat) (_ : Nat) => orders maps L Ng (SphereField.spinWeight coord1 sig t) q θ (temp t) i
      (Spin.backwardReal coord0 (M * 1) sig fs (SphereField.flatten M out) (fun _ _ => 0)).map fun o => SphereField.unflatten M o
    else none

/-- The same for complex data. -/
noncomputable def colatitudeComplex (coord1 : Spin.Coord) (sig : List Spin.Index) (fs : List (Option Spin.Mat)) (maps : List Entry) (L Ng : Nat)
    (q : Nat → ℝ) (θ : ℝ) (g : List Nat → Nat → Nat → ℂ) : Option (List Nat → Nat → Nat → ℂ) :=
  if vectorsExist coord1 sig maps L then
    let temp := fun t i x => Spin.forwardComplex 0 fs (fun t => g t i x) t
    let out := fun t (i : Nat) (_ : Nat) => orders maps L Ng (SphereField.spinWeight coord1 sig t) q θ (temp t) i
    some fun t i x => Spin.backwardComplex 0 fs (fun t => out t i x) t
  else none

/-! ## Coefficients to values -/

/-- The values of a real tensor field on the sphere at colatitude `θ`: the coefficients are brought to coefficient-grid data, interpolated, and the result is
brought to a grid of `N` azimuths. -/
noncomputable def sphereColatitudeReal (coord0 coord1 : Spin.Coord) (sig : List Spin.Index) (Nphi L N Ng : Nat) (q : Nat → ℝ) (θ : ℝ)
    (c : List Nat → Nat → Nat → ℝ) : Option (List Nat → Nat → ℝ) :=
  (Spin.factors coord1 sig).bind fun fs => (sphereMaps .real Nphi L Ng 1 0).bind fun maps =>
    (SphereField.colatBackwardReal (decide (mmax Nphi = 0)) coord0 coord1 sig fs maps L Ng (sphereGridRows .real Nphi) q c).bind fun g =>
      (colatitudeReal coord0 coord1 sig fs maps L Ng (sphereGridRows .real Nphi) q θ g).map fun o =>
        fun t j => SphereField.azimuthBackwardReal Nphi N (fun i => o t i 0) j

/-- The same for complex data. -/
noncomputable def sphereColatitudeComplex (coord1 : Spin.Coord) (sig : List Spin.Index) (Nphi L N Ng : Nat) (q : Nat → ℝ) (θ : ℝ)
    (c : List Nat → Nat → Nat → ℂ) : Option (List Nat → Nat → ℂ) :=
  (Spin.factors coord1 sig).bind fun fs => (sphereMaps .complex Nphi L Ng 1 0).bind fun maps =>
    (colatitudeComplex coord1 sig fs maps L Ng q θ (SphereField.colatBackwardComplex coord1 sig fs maps L Ng q c)).map fun o =>
      fun t j => SphereField.azimuthBackwardComplex Nphi N (fun i => o t i 0) j

end Dedalus.Interp
