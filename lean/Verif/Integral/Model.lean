import Verif.Average.Model
import Verif.Zernike.Model
import Verif.Ball.Model
import Verif.Shell.Model

/-! Integrals and averages of scalar fields over disks, annuli, balls and shells, on distributed coefficients: `IntegrateSpinBasis`,
`IntegrateSpherical` and their subclasses in `dedalus/core/basis.py`. The azimuth is distributed over `P0` processes and the colatitude over `P1`; the radius
is local. All arrays are indexed locally. The numbers are those of `V`, real or complex. -/

namespace Dedalus.Integral
open Orders Dist

/-- The number of local elements along a distributed axis of a field without a basis there: the output basis is `None`
(`dedalus/core/basis.py` L5366-5367, L5498-5499; `dedalus/core/distributor.py` L376-402). -/
def outSize (P p : Nat) : Nat := (localElements true (azimuth P 1 1) p).length

/-- `vec_out += apply_matrix(A, vec_in)` with one output row (`dedalus/core/basis.py` L5397-5398, L5530-5531). -/
def rowTimes {V : Type} [AddCommGroup V] [Module ℝ V] (A : Nat → ℝ) (n : Nat) (v : Nat → V) : V := ((List.range n).map fun k => A k • v k).sum

/-- `IntegrateSpinBasis.operate` (`dedalus/core/basis.py` L5379-5398): for the entries of order zero the first row of their rows, times the matrix. `R` is the
number of local output rows; the output has one column, which the slice of the entry contains if it starts at 0. -/
def polarIntegral {V : Type} [AddCommGroup V] [Module ℝ V] (maps : List Entry) (R : Nat) (A : Nat → ℝ) (x : Nat → Nat → V) : Nat → V :=
  maps.foldl (fun out e => fun i =>
    if e.m = 0 then
      if i = e.rows.1 ∧ i < R ∧ e.cols.1 = 0 ∧ 0 < e.cols.2 then out i + rowTimes A (e.cols.2 - e.cols.1) fun k => x i (e.cols.1 + k) else out i
    else out i) (fun _ => 0)

/-- `IntegrateSpherical.operate` (`dedalus/core/basis.py` L5511-5531): for the entries of degree zero the first row of their rows and all of their columns, times
the matrix. `R` and `C` are the numbers of local output rows and columns. The radial slice of degree zero is the whole radius. -/
def sphericalIntegral {V : Type} [AddCommGroup V] [Module ℝ V] (maps : List Maps.Entry) (R C Nr : Nat) (A : Nat → ℝ) (x : Nat → Nat → Nat → V) : Nat → Nat → V :=
  maps.foldl (fun out e => fun i j =>
    if e.ell = 0 then
      if i = e.rows.1 ∧ i < R ∧ e.cols.1 ≤ j ∧ j < e.cols.2 ∧ j < C then out i j + rowTimes A Nr (x i j) else out i j
    else out i j) (fun _ _ => 0)

/-- An integral or average over a disk or annulus with the matrix `A`, on process `p` of `P` (`dedalus/core/basis.py` L5353-5398). -/
def polar {V : Type} [AddCommGroup V] [Module ℝ V] (disk : Bool) (d : Dtype) (Nphi Nr Ng P p : Nat) (A : Nat → ℝ) (x : Nat → Nat → V) : Option (Nat → V) :=
  (polarMaps disk d Nphi Nr Ng P p).map fun maps => polarIntegral maps (outSize P p) A x

/-- An integral over a ball or shell with the matrix `A`, on process `(p0, p1)` (`dedalus/core/basis.py` L5489-5531). -/
def spherical {V : Type} [AddCommGroup V] [Module ℝ V] (d : Dtype) (Nphi L Nr P0 P1 p0 p1 : Nat) (A : Nat → ℝ) (x : Nat → Nat → Nat → V) : Nat → Nat → V :=
  sphericalIntegral
    (Maps.ellMaps (Average.sphereName d Nphi L) d.parts ((sphereRows d Nphi L P0 p0).headD 0) ((Average.sphereCols d Nphi L P1 p1).headD 0)
      (sphereRows d Nphi L P0 p0).length (Average.sphereCols d Nphi L P1 p1).length)
    (outSize P0 p0) (outSize P1 p1) Nr A x

/-- `IntegrateDisk` (`dedalus/core/basis.py` L5401-5419). -/
noncomputable def disk {V : Type} [AddCommGroup V] [Module ℝ V] (d : Dtype) (radius : ℝ) (Nphi Nr k : Nat) (alpha : ℝ) (g : Nat → ℝ) (Ng P p : Nat) (x : Nat → Nat → V) :
    Option (Nat → V) :=
  polar true d Nphi Nr Ng P p (Zernike.integrate radius Nr k alpha g) x

/-- `AverageDisk` (`dedalus/core/basis.py` L5422-5439). -/
noncomputable def diskAverage {V : Type} [AddCommGroup V] [Module ℝ V] (d : Dtype) (Nphi Nr k : Nat) (alpha : ℝ) (g : Nat → ℝ) (Ng P p : Nat) (x : Nat → Nat → V) :
    Option (Nat → V) :=
  polar true d Nphi Nr Ng P p (Zernike.average Nr k alpha g) x

/-- `IntegrateAnnulus` (`dedalus/core/basis.py` L5442-5462). -/
noncomputable def annulus {V : Type} [AddCommGroup V] [Module ℝ V] (d : Dtype) (rin rout : ℝ) (Nphi Nr k : Nat) (alpha : ℝ × ℝ) (g : Nat → ℝ) (Ng P p : Nat)
    (x : Nat → Nat → V) : Option (Nat → V) :=
  polar false d Nphi Nr Ng P p (Shell.annulusIntegrate rin rout alpha Nr k g) x

/-- `AverageAnnulus` (`dedalus/core/basis.py` L5465-5486). -/
noncomputable def annulusAverage {V : Type} [AddCommGroup V] [Module ℝ V] (d : Dtype) (rin rout : ℝ) (Nphi Nr k : Nat) (alpha : ℝ × ℝ) (g : Nat → ℝ) (Ng P p : Nat)
    (x : Nat → Nat → V) : Option (Nat → V) :=
  polar false d Nphi Nr Ng P p (Shell.annulusAverage rin rout alpha Nr k g) x

/-- `IntegrateBall` (`dedalus/core/basis.py` L5534-5552). -/
noncomputable def ball {V : Type} [AddCommGroup V] [Module ℝ V] (d : Dtype) (radius : ℝ) (Nphi L Nr k : Nat) (alpha : ℝ) (g : Nat → ℝ) (P0 P1 p0 p1 : Nat)
    (x : Nat → Nat → Nat → V) : Nat → Nat → V :=
  spherical d Nphi L Nr P0 P1 p0 p1 (Ball.integrate radius Nr k alpha g) x

/-- `IntegrateShell` (`dedalus/core/basis.py` L5555-5575). -/
noncomputable def shell {V : Type} [AddCommGroup V] [Module ℝ V] (d : Dtype) (rin rout : ℝ) (Nphi L Nr k : Nat) (alpha : ℝ × ℝ) (g : Nat → ℝ) (P0 P1 p0 p1 : Nat)
    (x : Nat → Nat → Nat → V) : Nat → Nat → V :=
  spherical d Nphi L Nr P0 P1 p0 p1 (Shell.shellIntegrate rin rout alpha Nr k g) x

end Dedalus.Integral
