import Verif.VolumeField.Model
import Verif.Ball.Model
import Verif.Shell.Model
import Verif.Fourier.OpsModel

/-! Interpolation of tensor fields at a radius, in the ball, the shell, the disk and the annulus. Results are coefficient data on the sphere or the circle
of this radius. One process. -/

namespace Dedalus.RadialInterp
open Orders SphereField

/-! ## Positions -/

/-- The output basis is a sphere of radius `position` (`dedalus/core/basis.py` L5753-5758, L5843-5845). `SphereBasis._preprocess_cache_args` evaluates
`radius < 0` (L2693-2696): `none` is the `TypeError` for a name and the `ValueError` for a negative number. -/
noncomputable def sphereRadius : Fourier.Position → Option ℝ
  | .name _ => none
  | .num x => if x < 0 then none else some x

/-- `radial_COV.native_coord(position)` of the disk (`dedalus/core/basis.py` L2356, L2533, L84-97). -/
noncomputable def diskNative (radius : ℝ) (position : Fourier.Position) : Option ℝ := (Fourier.Cov.mk 0 1 0 radius).nativeCoord position

/-- `position*2/self.dR` in the annulus (`dedalus/core/basis.py` L2230): `none` is the `TypeError` for a name. -/
def annulusPosition : Fourier.Position → Option ℝ
  | .name _ => none
  | .num x => some x

section
variable {V : Type} [AddCommGroup V] [Module ℝ V]

/-! ## Ball -/

/-- `apply_matrix(A, vec_in)` with the vector of degree `ell` and component `t` (`dedalus/core/basis.py` L5792-5796, L3670-3679). `v` is the radial data of one slot,
of which `n_slice(ell)` selects the part from `nmin(ell)` on. -/
noncomputable def ballRow (radius : ℝ) (Nr k : Nat) (alpha position : ℝ) (t : List Nat) (ell : Int) (v : Nat → V) : V :=
  let nmin := (Zernike.minDegree ell).toNat
  ∑ n ∈ Finset.range (Nr - nmin), Ball.interpolation radius (Nr - nmin) k alpha ell.toNat (VolumeField.regs t).sum position n • v (nmin + n)

/-- The loop of `BallRadialInterpolate.operate` over the maps for component `t` (`dedalus/core/basis.py` L5787-5796). Slots of degrees that do not have this
component keep what the buffer of the output holds, `old`. -/
noncomputable def ballRows (maps : List Maps.Entry) (radius : ℝ) (Nr k : Nat) (alpha position : ℝ) (t : List Nat) (c : Nat → Nat → Nat → V)
    (old : Nat → Nat → V) : Nat → Nat → V :=
  maps.foldl (fun out e => fun i j =>
    if e.covers i j then
      if Ball.allowed e.ell.toNat (VolumeField.regs t) then ballRow radius Nr k alpha position t e.ell (c i j) else out i j
    else out i j) old

/-- The vectors of all entries exist: `polynomials` of size 0 evaluates `z.size` for a Python float, which raises (`dedalus/core/basis.py` L4007-4011,
`dedalus/libraries/dedalus_sphere/zernike.py` L42-46, `dedalus/libraries/dedalus_sphere/jacobi.py` L50-51). -/
def ballVectors (maps : List Maps.Entry) (rank Nr : Nat) : Bool :=
  (VolumeField.indices rank).all fun t => maps.all fun e =>
    !Ball.allowed e.ell.toNat (VolumeField.regs t) || decide (1 ≤ (Nr : Int) - Zernike.minDegree e.ell)

/-- `BallRadialInterpolate` (`dedalus/core/basis.py` L5753-5797): spin components on the sphere. -/
noncomputable def ball (d : Dtype) (phi theta r : Spin.Coord) (sig : List Spin.Index) (radius : ℝ) (Nphi L Nr k : Nat) (alpha : ℝ) (position : Fourier.Position)
    (old : List Nat → Nat → Nat → V) (c : List Nat → Nat → Nat → Nat → V) : Option (List Nat → Nat → Nat → V) :=
  (sphereRadius position).bind fun p =>
    (VolumeField.checkSignature (.spherical phi theta r) sig).bind fun _ =>
      let maps := VolumeField.ellMaps d Nphi L
      if ballVectors maps sig.length Nr then
        some (VolumeField.backwardRegularity maps sig.length fun t => ballRows maps radius Nr k alpha p t (c t) (old t))
      else none

/-! ## Shell -/

/-- `apply_matrix(A, vec_in)` with the vector of the shell (`dedalus/core/basis.py` L5872-5889, L3797-3803). -/
noncomputable def shellRow (rin rout : ℝ) (alpha : ℝ × ℝ) (Nr k : Nat) (position : ℝ) (v : Nat → V) : V :=
  ∑ n ∈ Finset.range Nr, Shell.interpolation rin rout alpha Nr k position n • v n

/-- `SphericalEllOperator.operate` for component `t` (`dedalus/core/operators.py` L3136-3166): the output is zeroed first, and degrees that do not have this
component are skipped. -/
noncomputable def shellRows (maps : List Maps.Entry) (rin rout : ℝ) (alpha : ℝ × ℝ) (Nr k : Nat) (position : ℝ) (t : List Nat) (c : Nat → Nat → Nat → V) :
    Nat → Nat → V :=
  maps.foldl (fun out e => fun i j =>
    if e.covers i j then
      if Ball.allowed e.ell.toNat (VolumeField.regs t) then out i j + shellRow rin rout alpha Nr k position (c i j) else out i j
    else out i j) (fun _ _ => 0)

/-- `ShellRadialInterpolate` (`dedalus/core/basis.py` L5843-5845, L5870-5877). -/
noncomputable def shell (d : Dtype) (phi theta r : Spin.Coord) (sig : List Spin.Index) (rin rout : ℝ) (Nphi L Nr k : Nat) (alpha : ℝ × ℝ)
    (position : Fourier.Position) (c : List Nat → Nat → Nat → Nat → V) : Option (List Nat → Nat → Nat → V) :=
  (sphereRadius position).bind fun p =>
    (VolumeField.checkSignature (.spherical phi theta r) sig).bind fun _ =>
      let maps := VolumeField.ellMaps d Nphi L
      some (VolumeField.backwardRegularity maps sig.length fun t => shellRows maps rin rout alpha Nr k p t (c t))

/-! ## Disk and annulus -/

/-- The loop of `PolarRadialInterpolate.operate` over the maps for one component (`dedalus/core/basis.py` L4914-4920): `A m n` is the vector of order `m`, and
`old` what the buffer of the output holds. -/
noncomputable def polarLoop (maps : List Orders.Entry) (A : Int → Nat → ℝ) (c : Nat → Nat → V) (old : Nat → V) : Nat → V :=
  maps.foldl (fun out e => fun i =>
    if e.rows.1 ≤ i ∧ i < e.rows.2 then ∑ n ∈ Finset.range (e.cols.2 - e.cols.1), A e.m n • c i (e.cols.1 + n) else out i) old

end

/-- The vector of the disk for order `m` and spin `s` (`dedalus/core/basis.py` L2531-2535) at the native radius. -/
noncomputable def diskVector (Nr k : Nat) (alpha native : ℝ) (s m : Int) (n : Nat) : ℝ :=
  Zernike.polynomials 2 (Nr - (nmin true m).toNat) (alpha + k) |m + s| (2 * native ^ 2 - 1) n

/-- The vectors of all entries exist, as in `ballVectors` (`dedalus/core/basis.py` L2531-2535). -/
def diskVectors (maps : List Orders.Entry) (Nr : Nat) : Bool := maps.all fun e => decide (1 ≤ (Nr : Int) - nmin true e.m)

/-- The recombination to coordinate components for complex data, on a copy (`dedalus/core/basis.py` L4921-4922). -/
noncomputable def polarComplex (coord1 : Spin.Coord) (sig : List Spin.Index) (out : List Nat → Nat → ℂ) : Option (List Nat → Nat → ℂ) :=
  (Spin.factors coord1 sig).map fun fs => fun t i => Spin.backwardComplex 0 fs (fun t => out t i) t

/-- The same for real data, with all `rows` local rows of coefficients (`dedalus/core/basis.py` L4921-4922). -/
noncomputable def polarReal (coord0 coord1 : Spin.Coord) (sig : List Spin.Index) (rows : Nat) (out : List Nat → Nat → ℝ) : Option (List Nat → Nat → ℝ) :=
  (Spin.factors coord1 sig).bind fun fs =>
    let temp := flatten rows fun t i (_ : Nat) => out t i
    (Spin.backwardReal coord0 (rows * 1) sig fs temp temp).map fun o => fun t i => unflatten rows o t i 0

/-- `PolarRadialInterpolate` of a real field in the disk (`dedalus/core/basis.py` L4885-4922). The maps are those of any grid of radii. -/
noncomputable def diskReal (coord0 coord1 : Spin.Coord) (sig : List Spin.Index) (radius : ℝ) (Nphi Nr k : Nat) (alpha : ℝ) (Ng : Nat)
    (position : Fourier.Position) (old : List Nat → Nat → ℝ) (c : List Nat → Nat → Nat → ℝ) : Option (List Nat → Nat → ℝ) :=
  (polarMaps true .real Nphi Nr Ng 1 0).bind fun maps =>
    (diskNative radius position).bind fun native =>
      if diskVectors maps Nr then
        polarReal coord0 coord1 sig (polarRows .real Nphi)
          fun t => polarLoop maps (diskVector Nr k alpha native (spinWeight coord1 sig t)) (c t) (old t)
      else none

/-- `PolarRadialInterpolate` of a complex field in the disk (`dedalus/core/basis.py` L4885-4922). -/
noncomputable def diskComplex (coord1 : Spin.Coord) (sig : List Spin.Index) (radius : ℝ) (Nphi Nr k : Nat) (alpha : ℝ) (Ng : Nat)
    (position : Fourier.Position) (old : List Nat → Nat → ℂ) (c : List Nat → Nat → Nat → ℂ) : Option (List Nat → Nat → ℂ) :=
  (polarMaps true .complex Nphi Nr Ng 1 0).bind fun maps =>
    (diskNative radius position).bind fun native =>
      if diskVectors maps Nr then
        polarComplex coord1 sig fun t => polarLoop maps (diskVector Nr k alpha native (spinWeight coord1 sig t)) (c t) (old t)
      else none

/-- `PolarRadialInterpolate` of a real field in the annulus (`dedalus/core/basis.py` L4885-4922, L2228-2237). -/
noncomputable def annulusReal (coord0 coord1 : Spin.Coord) (sig : List Spin.Index) (rin rout : ℝ) (Nphi Nr k : Nat) (alpha : ℝ × ℝ) (Ng : Nat)
    (position : Fourier.Position) (old : List Nat → Nat → ℝ) (c : List Nat → Nat → Nat → ℝ) : Option (List Nat → Nat → ℝ) :=
  (polarMaps false .real Nphi Nr Ng 1 0).bind fun maps =>
    (annulusPosition position).bind fun p =>
      polarReal coord0 coord1 sig (polarRows .real Nphi) fun t => polarLoop maps (fun _ => Shell.interpolation rin rout alpha Nr k p) (c t) (old t)

/-- `PolarRadialInterpolate` of a complex field in the annulus (`dedalus/core/basis.py` L4885-4922, L2228-2237). -/
noncomputable def annulusComplex (coord1 : Spin.Coord) (sig : List Spin.Index) (rin rout : ℝ) (Nphi Nr k : Nat) (alpha : ℝ × ℝ) (Ng : Nat)
    (position : Fourier.Position) (old : List Nat → Nat → ℂ) (c : List Nat → Nat → Nat → ℂ) : Option (List Nat → Nat → ℂ) :=
  (polarMaps false .complex Nphi Nr Ng 1 0).bind fun maps =>
    (annulusPosition position).bind fun p =>
      polarComplex coord1 sig fun t => polarLoop maps (fun _ => Shell.interpolation rin rout alpha Nr k p) (c t) (old t)

end Dedalus.RadialInterp
