import Verif.Spin.Model
import Verif.Orders.Model
import Verif.Fourier.Model

/-! The transforms of tensor fields on the sphere: azimuthal Fourier transform with permuted orders, spin recombination and spin-weighted
harmonics. Arrays are functions of the component, the local row (azimuth) and the local column (colatitude). -/

namespace Dedalus.SphereField
open Orders

/-- `spin_weights` (`dedalus/core/basis.py` L1703-1713), the part of one index of the tensor: `spin_ordering` is -1, +1 (and 0), starting at the
coordinate before `coord1`. -/
def indexSpin (coord1 : Spin.Coord) (ix : Spin.Index) (x : Nat) : Int :=
  match Spin.indexOf coord1 ix.coords with
  | some k => if x + 1 = k then -1 else if x = k then 1 else 0
  | none => 0

/-- `spin_weights` (`dedalus/core/basis.py` L1703-1713) of a component: the sum over the indices. -/
def spinWeight (coord1 : Spin.Coord) : List Spin.Index → List Nat → Int
  | ix :: sig, x :: t => indexSpin coord1 ix x + spinWeight coord1 sig t
  | _, _ => 0

/-- The transform of order `m` and spin `s` of `transform_plan` (`dedalus/core/basis.py` L3062-3065). -/
noncomputable def planForward {V : Type} [AddCommGroup V] [Module ℝ V] (Ng L : Nat) (s : Int) (q : Nat → ℝ) (m : Int) (u : Nat → V) : Nat → V :=
  Sphere.forward Ng L m s q u (fun _ => 0)

/-- The transform of order `m` and spin `s` of `transform_plan`, backward. `v` has the coefficients of the slice of `m_maps`. -/
noncomputable def planBackward {V : Type} [AddCommGroup V] [Module ℝ V] (Ng L : Nat) (s : Int) (q : Nat → ℝ) (m : Int) (v : List V) : Nat → V :=
  Sphere.backward Ng L m s q (fun k => v.getD k 0)

/-! ## Colatitude, complex data -/

/-- `backward_transform_colatitude` for complex data (`dedalus/core/basis.py` L3132-3153). -/
noncomputable def colatBackwardComplex (coord1 : Spin.Coord) (sig : List Spin.Index) (fs : List (Option Spin.Mat)) (maps : List Entry) (L Ng : Nat)
    (q : Nat → ℝ) (c : List Nat → Nat → Nat → ℂ) : List Nat → Nat → Nat → ℂ :=
  let temp := fun t => Orders.backward maps L (planBackward Ng L (spinWeight coord1 sig t) q) (c t)
  fun t i x => Spin.backwardComplex 0 fs (fun t => temp t i x) t

/-- `forward_transform_colatitude` for complex data (`dedalus/core/basis.py` L3108-3122). -/
noncomputable def colatForwardComplex (coord1 : Spin.Coord) (sig : List Spin.Index) (fs : List (Option Spin.Mat)) (maps : List Entry) (L Ng : Nat)
    (q : Nat → ℝ) (g : List Nat → Nat → Nat → ℂ) : List Nat → Nat → Nat → ℂ :=
  fun t => Orders.forward maps L (planForward Ng L (spinWeight coord1 sig t) q) fun i x => Spin.forwardComplex 0 fs (fun t => g t i x) t

/-! ## Colatitude, real data -/

/-- The recombinations act on every colatitude separately: rows and columns of an array with `M` rows in one sequence. -/
def flatten {α : Type} (M : Nat) (g : List Nat → Nat → Nat → α) : List Nat → Nat → α := fun t p => g t (p % M) (p / M)

/-- The inverse of `flatten`. -/
def unflatten {α : Type} (M : Nat) (o : List Nat → Nat → α) : List Nat → Nat → Nat → α := fun t i x => o t (x * M + i)

/-- `backward_transform_colatitude` for real data with `M` local rows (`dedalus/core/basis.py` L3132-3155); `axisymmetric` is `mmax == 0`. Then
the temporary has two rows, and all rows of the result are the first. -/
noncomputable def colatBackwardReal (axisymmetric : Bool) (coord0 coord1 : Spin.Coord) (sig : List Spin.Index) (fs : List (Option Spin.Mat))
    (maps : List Entry) (L Ng M : Nat) (q : Nat → ℝ) (c : List Nat → Nat → Nat → ℝ) : Option (List Nat → Nat → Nat → ℝ) :=
  let temp := fun t => Orders.backward maps L (planBackward Ng L (spinWeight coord1 sig t) q) (c t)
  let rows := if axisymmetric then 2 else M
  (Spin.backwardReal coord0 (rows * Ng) sig fs (flatten rows temp) (fun _ _ => 0)).map fun o =>
    if axisymmetric then fun t _ x => unflatten rows o t 0 x else unflatten rows o

/-- `forward_transform_colatitude` for real data with `M` local rows (`dedalus/core/basis.py` L3108-3122). If `mmax == 0` as many rows of zeros
are added. -/
noncomputable def colatForwardReal (axisymmetric : Bool) (coord0 coord1 : Spin.Coord) (sig : List Spin.Index) (fs : List (Option Spin.Mat))
    (maps : List Entry) (L Ng M : Nat) (q : Nat → ℝ) (g : List Nat → Nat → Nat → ℝ) : Option (List Nat → Nat → Nat → ℝ) :=
  let rows := if axisymmetric then M + M else M
  let g' := if axisymmetric then fun t i x => if i < M then g t i x else 0 else g
  (Spin.forwardReal coord0 (rows * Ng) sig fs (flatten rows g') (fun _ _ => 0)).map fun o =>
    fun t => Orders.forward maps L (planForward Ng L (spinWeight coord1 sig t) q) (unflatten rows o t)

/-! ## Azimuth -/

/-- `backward_m_perm`: `argsort` of the permutation `forward_m_perm` (`dedalus/core/basis.py` L2754, L2763) of `Nphi` rows. -/
def backPerm (d : Dtype) (Nphi k : Nat) : Nat := ((List.range Nphi).map (perm d Nphi)).idxOf k

/-- `backward_transform_azimuth` for real data on `N` points (`dedalus/core/basis.py` L3084-3095, L931-936); without orders above zero the first
row is copied. -/
noncomputable def azimuthBackwardReal (Nphi N : Nat) (c : Nat → ℝ) : Nat → ℝ :=
  if mmax Nphi = 0 then fun _ => c 0
  else Fourier.realBackwardMMT N Nphi fun k => c (backPerm .real Nphi k)

/-- `forward_transform_azimuth` for real data (`dedalus/core/basis.py` L3067-3078, L924-929). -/
noncomputable def azimuthForwardReal (Nphi N : Nat) (g : Nat → ℝ) : Nat → ℝ :=
  if mmax Nphi = 0 then fun i => if i < 1 then g 0 else 0
  else fun i => Fourier.realForwardMMT N Nphi g (perm .real Nphi i)

/-- `backward_transform_azimuth` for complex data. -/
noncomputable def azimuthBackwardComplex (Nphi N : Nat) (c : Nat → ℂ) : Nat → ℂ :=
  if mmax Nphi = 0 then fun _ => c 0
  else Fourier.backwardMMT N Nphi fun k => c (backPerm .complex Nphi k)

/-- `forward_transform_azimuth` for complex data. -/
noncomputable def azimuthForwardComplex (Nphi N : Nat) (g : Nat → ℂ) : Nat → ℂ :=
  if mmax Nphi = 0 then fun i => if i < 1 then g 0 else 0
  else fun i => Fourier.forwardMMT N Nphi g (perm .complex Nphi i)

/-! ## Both axes, on one process -/

/-- From coefficients to the grid, real data. The loops run over the maps of `m_maps`. -/
noncomputable def toGridReal (coord0 coord1 : Spin.Coord) (sig : List Spin.Index) (Nphi L N Ng : Nat) (q : Nat → ℝ) (c : List Nat → Nat → Nat → ℝ) :
    Option (List Nat → Nat → Nat → ℝ) :=
  (Spin.factors coord1 sig).bind fun fs => (sphereMaps .real Nphi L Ng 1 0).bind fun maps =>
    (colatBackwardReal (decide (mmax Nphi = 0)) coord0 coord1 sig fs maps L Ng (sphereGridRows .real Nphi) q c).map fun g =>
      fun t j x => azimuthBackwardReal Nphi N (fun i => g t i x) j

/-- From the grid to coefficients, real data. -/
noncomputable def toCoeffReal (coord0 coord1 : Spin.Coord) (sig : List Spin.Index) (Nphi L N Ng : Nat) (q : Nat → ℝ) (g : List Nat → Nat → Nat → ℝ) :
    Option (List Nat → Nat → Nat → ℝ) :=
  (Spin.factors coord1 sig).bind fun fs => (sphereMaps .real Nphi L Ng 1 0).bind fun maps =>
    colatForwardReal (decide (mmax Nphi = 0)) coord0 coord1 sig fs maps L Ng (sphereGridRows .real Nphi) q
      fun t i x => azimuthForwardReal Nphi N (fun j => g t j x) i

/-- From coefficients to the grid, complex data. -/
noncomputable def toGridComplex (coord1 : Spin.Coord) (sig : List Spin.Index) (Nphi L N Ng : Nat) (q : Nat → ℝ) (c : List Nat → Nat → Nat → ℂ) :
    Option (List Nat → Nat → Nat → ℂ) :=
  (Spin.factors coord1 sig).bind fun fs => (sphereMaps .complex Nphi L Ng 1 0).map fun maps =>
    fun t j x => azimuthBackwardComplex Nphi N (fun i => colatBackwardComplex coord1 sig fs maps L Ng q c t i x) j

/-- From the grid to coefficients, complex data. -/
noncomputable def toCoeffComplex (coord1 : Spin.Coord) (sig : List Spin.Index) (Nphi L N Ng : Nat) (q : Nat → ℝ) (g : List Nat → Nat → Nat → ℂ) :
    Option (List Nat → Nat → Nat → ℂ) :=
  (Spin.factors coord1 sig).bind fun fs => (sphereMaps .complex Nphi L Ng 1 0).map fun maps =>
    colatForwardComplex coord1 sig fs maps L Ng q fun t i x => azimuthForwardComplex Nphi N (fun j => g t j x) i

end Dedalus.SphereField
