import Verif.SphereField.Model
import Verif.PolarField.Model
import Verif.Regularity.Model
import Verif.Maps.Model

/-! The transforms of tensor fields in the ball and the shell. Along the radius, components are regularity components of coefficients and spin components
of grid data; the other axes are transformed as on the sphere. Arrays are functions of the component, the local row (azimuth), the local column
(colatitude) and the radius, on one process. -/

namespace Dedalus.VolumeField
open Orders SphereField

/-- All components of a tensor of the given rank, in the order in which the tensor axes are flattened (`dedalus/core/basis.py` L3600-3602). -/
def indices : Nat → List (List Nat)
  | 0 => [[]]
  | r + 1 => [0, 1, 2].flatMap fun x => (indices r).map (x :: ·)

/-- `Rb[regindex]` (`dedalus/core/basis.py` L3532-3535, `dedalus/core/transforms.py` L1512-1516), and the rows and columns of `Q`: -1, +1, 0. -/
def regs (t : List Nat) : List Int := t.map fun x => Regularity.ordering.getD x 0

/-- The global group array of coefficient data (`dedalus/core/basis.py` L4308-4318, L2852-2888). -/
def group (d : Dtype) (Nphi L : Nat) : Nat → Nat → Int × Int :=
  match d with
  | .complex => Sphere.groupComplex Nphi L
  | .real => Sphere.groupReal Nphi L

/-- `ell_maps` (`dedalus/core/basis.py` L2983-3011, L4162-4163) on one process. -/
def ellMaps (d : Dtype) (Nphi L : Nat) : List Maps.Entry :=
  Maps.ellMaps (group d Nphi L) d.parts 0 0 (sphereShape d Nphi L).1 (sphereShape d Nphi L).2

section
variable {V : Type} [AddCommGroup V] [Module ℝ V]

/-- `backward_regularity_recombination` (`dedalus/core/basis.py` L3611-3626) at one radius. -/
noncomputable def backwardRegularity (maps : List Maps.Entry) (rank : Nat) (u : List Nat → Nat → Nat → V) : List Nat → Nat → Nat → V :=
  if rank > 0 then
    fun t i j => Maps.inPlace maps
      (fun ell v t => ((indices rank).map fun t' => Regularity.intertwiner ell.toNat (regs t') (regs t) • v t').sum) (fun i j t => u t i j) i j t
  else u

/-- `forward_regularity_recombination` (`dedalus/core/basis.py` L3594-3609) at one radius, with the transposed matrices. -/
noncomputable def forwardRegularity (maps : List Maps.Entry) (rank : Nat) (u : List Nat → Nat → Nat → V) : List Nat → Nat → Nat → V :=
  if rank > 0 then
    fun t i j => Maps.inPlace maps
      (fun ell v t => ((indices rank).map fun t' => Regularity.intertwiner ell.toNat (regs t) (regs t') • v t').sum) (fun i j t => u t i j) i j t
  else u

/-- `backward_transform_radius` (`dedalus/core/basis.py` L4492-4508 for the shell, L4704-4720 for the ball): `plan t` acts on component `t`, `f` is the
factor of the shell, 1 for the ball. -/
noncomputable def radiusBackward (maps : List Maps.Entry) (rank : Nat) (plan : List Nat → (Nat → Nat → Nat → V) → Nat → Nat → Nat → V) (f : Nat → ℝ)
    (c : List Nat → Nat → Nat → Nat → V) : List Nat → Nat → Nat → Nat → V :=
  let temp := fun t => plan t (c t)
  fun t i j x => f x • backwardRegularity maps rank (fun t i j => temp t i j x) t i j

/-- `forward_transform_radius` (`dedalus/core/basis.py` L4474-4490 for the shell, L4688-4702 for the ball). -/
noncomputable def radiusForward (maps : List Maps.Entry) (rank : Nat) (plan : List Nat → (Nat → Nat → Nat → V) → Nat → Nat → Nat → V) (f : Nat → ℝ)
    (g : List Nat → Nat → Nat → Nat → V) : List Nat → Nat → Nat → Nat → V :=
  let g := fun t i j x => f x • g t i j x
  fun t => plan t fun i j x => forwardRegularity maps rank (fun t i j => g t i j x) t i j

/-! ## Radial plans of one component -/

/-- `BallRadialTransform.backward_reduced` for component `t` (`dedalus/core/transforms.py` L1491-1500): the loop over the maps. -/
noncomputable def ballBackward (maps : List Maps.Entry) (Ng Nr k : Nat) (alpha : ℝ) (g : Nat → ℝ) (t : List Nat) (c : Nat → Nat → Nat → V) :
    Nat → Nat → Nat → V :=
  Maps.assign maps (fun ell v => Zernike.ballBackward Ng Nr k alpha ell.toNat (regs t) g fun n => v ((Zernike.minDegree ell).toNat + n)) c
    (fun _ _ _ => 0)

/-- `BallRadialTransform.forward_reduced` for component `t` (`dedalus/core/transforms.py` L1480-1489): writes the coefficients from `Nmin` on. -/
noncomputable def ballForward (before : Bool) (maps : List Maps.Entry) (Ng Nr k : Nat) (alpha : ℝ) (g : Nat → ℝ) (t : List Nat)
    (u : Nat → Nat → Nat → V) : Nat → Nat → Nat → V :=
  maps.foldl (fun out e => fun i j =>
    if e.covers i j then fun n =>
      if (Zernike.minDegree e.ell).toNat ≤ n then
        Zernike.ballForward before Ng Nr k alpha e.ell.toNat (regs t) g (u i j) (n - (Zernike.minDegree e.ell).toNat)
      else out i j n
    else out i j) (fun _ _ _ => 0)

/-- The matrices of component `t` can be built (`dedalus/core/transforms.py` L1507-1563): `np.zeros` with a negative size raises. -/
def ballBuilds (maps : List Maps.Entry) (Nr : Nat) (t : List Nat) : Bool :=
  maps.all fun e => !(decide (t ≠ []) && Regularity.forbiddenRegularity e.ell.toNat (regs t)) || decide (Zernike.minDegree e.ell ≤ Nr)

/-- `plan.backward` of the shell (`dedalus/core/basis.py` L3805-3812, L4500-4502): the same matrix for all slots and components. -/
noncomputable def shellBackward (Ng Nr k : Nat) (alpha : ℝ × ℝ) (g : Nat → ℝ) (c : Nat → Nat → Nat → V) : Nat → Nat → Nat → V :=
  fun i => PolarField.annulusBackward Ng Nr k alpha g (c i)

/-- `plan.forward` of the shell (`dedalus/core/basis.py` L3805-3812, L4487-4489) with the matrix `F` of the plan. -/
noncomputable def shellForward (Ng : Nat) (F : Nat → Nat → ℝ) (u : Nat → Nat → Nat → V) : Nat → Nat → Nat → V :=
  fun i => PolarField.annulusForward Ng F (u i)

end

/-! ## All axes -/

/-- The check in `radial_recombinations` (`dedalus/core/basis.py` L3548-3551), which is called if the rank is positive. -/
def checkSignature (cs : Spin.Cs) (sig : List Spin.Index) : Option Unit :=
  if sig.all fun ix => decide (ix = .single cs) then some () else none

/-- Data at all `Ng` radii, if there are data at every one. The code transforms all radii at once (`dedalus/core/basis.py` L3108-3147). -/
def gather {α : Type} (zero : α) (Ng : Nat) (f : Nat → Option α) : Option (Nat → α) :=
  if (List.range Ng).all fun x => (f x).isSome then some fun x => (f x).getD zero else none

/-- A real tensor field, to the grid (`dedalus/core/basis.py` L4406-4411, L4624-4629): the radius, then colatitude and azimuth at every radius. The result is a
function of the radius, the component, the azimuth and the colatitude. -/
noncomputable def toGridReal (phi theta r : Spin.Coord) (sig : List Spin.Index) (Nphi L N Nt Ng : Nat) (q : Nat → ℝ)
    (plan : List Nat → (Nat → Nat → Nat → ℝ) → Nat → Nat → Nat → ℝ) (f : Nat → ℝ) (c : List Nat → Nat → Nat → Nat → ℝ) :
    Option (Nat → List Nat → Nat → Nat → ℝ) :=
  (checkSignature (.spherical phi theta r) sig).bind fun _ =>
    let u := radiusBackward (ellMaps .real Nphi L) sig.length plan f c
    gather (fun _ _ _ => 0) Ng fun x => SphereField.toGridReal phi theta sig Nphi L N Nt q fun t i j => u t i j x

/-- A real tensor field, to coefficients: the transforms of `toGridReal` in reverse order (`dedalus/core/basis.py` L4406-4411, L4624-4629). -/
noncomputable def toCoeffReal (phi theta r : Spin.Coord) (sig : List Spin.Index) (Nphi L N Nt Ng : Nat) (q : Nat → ℝ)
    (plan : List Nat → (Nat → Nat → Nat → ℝ) → Nat → Nat → Nat → ℝ) (f : Nat → ℝ) (u : Nat → List Nat → Nat → Nat → ℝ) :
    Option (List Nat → Nat → Nat → Nat → ℝ) :=
  (checkSignature (.spherical phi theta r) sig).bind fun _ =>
    (gather (fun _ _ _ => 0) Ng fun x => SphereField.toCoeffReal phi theta sig Nphi L N Nt q (u x)).map fun g =>
      radiusForward (ellMaps .real Nphi L) sig.length plan f fun t i j x => g x t i j

/-- A complex tensor field, to the grid (`dedalus/core/basis.py` L4406-4411, L4624-4629). -/
noncomputable def toGridComplex (phi theta r : Spin.Coord) (sig : List Spin.Index) (Nphi L N Nt Ng : Nat) (q : Nat → ℝ)
    (plan : List Nat → (Nat → Nat → Nat → ℂ) → Nat → Nat → Nat → ℂ) (f : Nat → ℝ) (c : List Nat → Nat → Nat → Nat → ℂ) :
    Option (Nat → List Nat → Nat → Nat → ℂ) :=
  (checkSignature (.spherical phi theta r) sig).bind fun _ =>
    let u := radiusBackward (ellMaps .complex Nphi L) sig.length plan f c
    gather (fun _ _ _ => 0) Ng fun x => SphereField.toGridComplex theta sig Nphi L N Nt q fun t i j => u t i j x

/-- A complex tensor field, to coefficients (`dedalus/core/basis.py` L4406-4411, L4624-4629). -/
noncomputable def toCoeffComplex (phi theta r : Spin.Coord) (sig : List Spin.Index) (Nphi L N Nt Ng : Nat) (q : Nat → ℝ)
    (plan : List Nat → (Nat → Nat → Nat → ℂ) → Nat → Nat → Nat → ℂ) (f : Nat → ℝ) (u : Nat → List Nat → Nat → Nat → ℂ) :
    Option (List Nat → Nat → Nat → Nat → ℂ) :=
  (checkSignature (.spherical phi theta r) sig).bind fun _ =>
    (gather (fun _ _ _ => 0) Ng fun x => SphereField.toCoeffComplex theta sig Nphi L N Nt q (u x)).map fun g =>
      radiusForward (ellMaps .complex Nphi L) sig.length plan f fun t i j x => g x t i j

/-! ## Ball -/

/-- The matrices of all components can be built (`dedalus/core/transforms.py` L1507-1563); they are built when the transform is called. -/
def ballReady (d : Dtype) (rank Nphi L Nr : Nat) : Option Unit :=
  if (indices rank).all fun t => ballBuilds (ellMaps d Nphi L) Nr t then some () else none

/-- A real tensor field in the ball, to the grid (`dedalus/core/basis.py` L4624-4629, L4704-4720). -/
noncomputable def ballToGridReal (phi theta r : Spin.Coord) (sig : List Spin.Index) (Nphi L Nr k : Nat) (alpha : ℝ) (N Nt Ng : Nat) (q g : Nat → ℝ)
    (c : List Nat → Nat → Nat → Nat → ℝ) : Option (Nat → List Nat → Nat → Nat → ℝ) :=
  (ballReady .real sig.length Nphi L Nr).bind fun _ =>
    toGridReal phi theta r sig Nphi L N Nt Ng q (ballBackward (ellMaps .real Nphi L) Ng Nr k alpha g) (fun _ => 1) c

/-- A real tensor field in the ball, to coefficients (`dedalus/core/basis.py` L4624-4629, L4688-4702). -/
noncomputable def ballToCoeffReal (before : Bool) (phi theta r : Spin.Coord) (sig : List Spin.Index) (Nphi L Nr k : Nat) (alpha : ℝ) (N Nt Ng : Nat)
    (q g : Nat → ℝ) (u : Nat → List Nat → Nat → Nat → ℝ) : Option (List Nat → Nat → Nat → Nat → ℝ) :=
  (ballReady .real sig.length Nphi L Nr).bind fun _ =>
    toCoeffReal phi theta r sig Nphi L N Nt Ng q (ballForward before (ellMaps .real Nphi L) Ng Nr k alpha g) (fun _ => 1) u

/-- A complex tensor field in the ball, to the grid (`dedalus/core/basis.py` L4624-4629, L4704-4720). -/
noncomputable def ballToGridComplex (phi theta r : Spin.Coord) (sig : List Spin.Index) (Nphi L Nr k : Nat) (alpha : ℝ) (N Nt Ng : Nat) (q g : Nat → ℝ)
    (c : List Nat → Nat → Nat → Nat → ℂ) : Option (Nat → List Nat → Nat → Nat → ℂ) :=
  (ballReady .complex sig.length Nphi L Nr).bind fun _ =>
    toGridComplex phi theta r sig Nphi L N Nt Ng q (ballBackward (ellMaps .complex Nphi L) Ng Nr k alpha g) (fun _ => 1) c

/-- A complex tensor field in the ball, to coefficients (`dedalus/core/basis.py` L4624-4629, L4688-4702). -/
noncomputable def ballToCoeffComplex (before : Bool) (phi theta r : Spin.Coord) (sig : List Spin.Index) (Nphi L Nr k : Nat) (alpha : ℝ) (N Nt Ng : Nat)
    (q g : Nat → ℝ) (u : Nat → List Nat → Nat → Nat → ℂ) : Option (List Nat → Nat → Nat → Nat → ℂ) :=
  (ballReady .complex sig.length Nphi L Nr).bind fun _ =>
    toCoeffComplex phi theta r sig Nphi L N Nt Ng q (ballForward before (ellMaps .complex Nphi L) Ng Nr k alpha g) (fun _ => 1) u

/-! ## Shell. The radial factor is modelled as acting along the radius, see `PolarField.timesRadius`. -/

/-- A real tensor field in the shell, to the grid (`dedalus/core/basis.py` L4406-4411, L4492-4508). -/
noncomputable def shellToGridReal (phi theta r : Spin.Coord) (sig : List Spin.Index) (rin rout : ℝ) (Nphi L Nr k : Nat) (alpha : ℝ × ℝ) (N Nt Ng : Nat)
    (q g : Nat → ℝ) (c : List Nat → Nat → Nat → Nat → ℝ) : Option (Nat → List Nat → Nat → Nat → ℝ) :=
  toGridReal phi theta r sig Nphi L N Nt Ng q (fun _ => shellBackward Ng Nr k alpha g) (PolarField.factor rin rout alpha Ng k g k) c

/-- A real tensor field in the shell, to coefficients (`dedalus/core/basis.py` L4406-4411, L4474-4490). `none` if the matrix of the plan cannot be built. -/
noncomputable def shellToCoeffReal (before : Bool) (phi theta r : Spin.Coord) (sig : List Spin.Index) (rin rout : ℝ) (Nphi L Nr k : Nat) (alpha : ℝ × ℝ)
    (N Nt Ng : Nat) (q g : Nat → ℝ) (u : Nat → List Nat → Nat → Nat → ℝ) : Option (List Nat → Nat → Nat → Nat → ℝ) :=
  (Jacobi.forwardMatrix before Ng Nr (alpha.1 + k) (alpha.2 + k) alpha.1 alpha.2 g).bind fun F =>
    toCoeffReal phi theta r sig Nphi L N Nt Ng q (fun _ => shellForward Ng F) (PolarField.factor rin rout alpha Ng k g (-k)) u

/-- A complex tensor field in the shell, to the grid (`dedalus/core/basis.py` L4406-4411, L4492-4508). -/
noncomputable def shellToGridComplex (phi theta r : Spin.Coord) (sig : List Spin.Index) (rin rout : ℝ) (Nphi L Nr k : Nat) (alpha : ℝ × ℝ)
    (N Nt Ng : Nat) (q g : Nat → ℝ) (c : List Nat → Nat → Nat → Nat → ℂ) : Option (Nat → List Nat → Nat → Nat → ℂ) :=
  toGridComplex phi theta r sig Nphi L N Nt Ng q (fun _ => shellBackward Ng Nr k alpha g) (PolarField.factor rin rout alpha Ng k g k) c

/-- A complex tensor field in the shell, to coefficients (`dedalus/core/basis.py` L4406-4411, L4474-4490). -/
noncomputable def shellToCoeffComplex (before : Bool) (phi theta r : Spin.Coord) (sig : List Spin.Index) (rin rout : ℝ) (Nphi L Nr k : Nat)
    (alpha : ℝ × ℝ) (N Nt Ng : Nat) (q g : Nat → ℝ) (u : Nat → List Nat → Nat → Nat → ℂ) : Option (List Nat → Nat → Nat → Nat → ℂ) :=
  (Jacobi.forwardMatrix before Ng Nr (alpha.1 + k) (alpha.2 + k) alpha.1 alpha.2 g).bind fun F =>
    toCoeffComplex phi theta r sig Nphi L N Nt Ng q (fun _ => shellForward Ng F) (PolarField.factor rin rout alpha Ng k g (-k)) u

end Dedalus.VolumeField
