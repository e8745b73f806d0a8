import Verif.PolarField.Model
import Verif.VolumeField.Model

/-!
# Enforcing Hermitian symmetry

Model of `InitialValueSolver.enforce_hermitian_symmetry` and of its use in `InitialValueSolver.step` (`dedalus/core/solvers.py`). The transforms of tensor
fields are those of `PolarField`, `SphereField` and `VolumeField`. `none` is an exception.
-/

namespace Dedalus.Hermitian

/-! ## The cadence -/

/-- The cadence of an initial value solver (`dedalus/core/solvers.py` L583-586): real data types keep the argument, complex ones get Python's `None`. -/
def cadence (realDtype : Bool) (enforceRealCadence : Nat) : Option Nat := if realDtype then some enforceRealCadence else none

/-- The two conditions of `step` (`dedalus/core/solvers.py` L706-708): `None` and `0` are false; otherwise the remainder of the iteration is compared with
the number of steps of the timestepper. -/
def due (c : Option Nat) (steps iteration : Nat) : Bool :=
  match c with
  | none => false
  | some k => if k = 0 then false else decide (iteration % k < steps)

/-- The part of a solver that `step` changes: the iteration and the data of the state. -/
structure Solver (State : Type) where
  iteration : Nat
  state : State

/-- `step` (`dedalus/core/solvers.py` L683-712): the timestepper, then enforcement if it is due, then the next iteration. Times and profiles are left out. -/
def step {State : Type} (advance enforce : State → State) (c : Option Nat) (steps : Nat) (s : Solver State) : Solver State :=
  let x := advance s.state
  let x := if due c steps s.iteration then enforce x else x
  ⟨s.iteration + 1, x⟩

/-- A run of several steps, with the timestepper of every iteration. -/
def run {State : Type} (advance : Nat → State → State) (enforce : State → State) (c : Option Nat) (steps : Nat) : Nat → Solver State → Solver State
  | 0, s => s
  | n + 1, s => run advance enforce c steps n (step (advance s.iteration) enforce c steps s)

/-! ## One field

`enforce_hermitian_symmetry` (`dedalus/core/solvers.py` L675-681) on the coefficients of one field: `require_grid_space` transforms all its axes to the grid
of the dealias scales and `require_coeff_space` transforms all of them back. -/

/-- `enforce_hermitian_symmetry` (`dedalus/core/solvers.py` L675-681) for a real field in the disk, with `N` azimuths and `Ng` radii in the dealias grid. -/
noncomputable def enforceDisk (before : Bool) (coord0 coord1 : Spin.Coord) (sig : List Spin.Index) (Nphi Nr k : Nat) (alpha : ℝ) (N Ng : Nat) (q : Nat → ℝ)
    (c : List Nat → Nat → Nat → ℝ) : Option (List Nat → Nat → Nat → ℝ) :=
  (PolarField.diskToGridReal coord0 coord1 sig Nphi Nr k alpha N Ng q c).bind
    (PolarField.diskToCoeffReal before coord0 coord1 sig Nphi Nr k alpha N Ng q)

/-- `enforce_hermitian_symmetry` (`dedalus/core/solvers.py` L675-681) for a real field in the annulus. -/
noncomputable def enforceAnnulus (before : Bool) (coord0 coord1 : Spin.Coord) (sig : List Spin.Index) (rin rout : ℝ) (Nphi Nr k : Nat) (alpha : ℝ × ℝ)
    (N Ng : Nat) (q : Nat → ℝ) (c : List Nat → Nat → Nat → ℝ) : Option (List Nat → Nat → Nat → ℝ) :=
  (PolarField.annulusToGridReal coord0 coord1 sig rin rout Nphi Nr k alpha N Ng q c).bind
    (PolarField.annulusToCoeffReal before coord0 coord1 sig rin rout Nphi Nr k alpha N Ng q)

/-- `enforce_hermitian_symmetry` (`dedalus/core/solvers.py` L675-681) for a real field on the sphere, with `N` azimuths and `Ng` colatitudes. -/
noncomputable def enforceSphere (coord0 coord1 : Spin.Coord) (sig : List Spin.Index) (Nphi L N Ng : Nat) (q : Nat → ℝ)
    (c : List Nat → Nat → Nat → ℝ) : Option (List Nat → Nat → Nat → ℝ) :=
  (SphereField.toGridReal coord0 coord1 sig Nphi L N Ng q c).bind (SphereField.toCoeffReal coord0 coord1 sig Nphi L N Ng q)

/-- `enforce_hermitian_symmetry` (`dedalus/core/solvers.py` L675-681) for a real field in the ball, with `N` azimuths, `Nt` colatitudes and `Ng` radii. -/
noncomputable def enforceBall (before : Bool) (phi theta r : Spin.Coord) (sig : List Spin.Index) (Nphi L Nr k : Nat) (alpha : ℝ) (N Nt Ng : Nat)
    (q g : Nat → ℝ) (c : List Nat → Nat → Nat → Nat → ℝ) : Option (List Nat → Nat → Nat → Nat → ℝ) :=
  (VolumeField.ballToGridReal phi theta r sig Nphi L Nr k alpha N Nt Ng q g c).bind
    (VolumeField.ballToCoeffReal before phi theta r sig Nphi L Nr k alpha N Nt Ng q g)

/-- `enforce_hermitian_symmetry` (`dedalus/core/solvers.py` L675-681) for a real field in the shell. -/
noncomputable def enforceShell (before : Bool) (phi theta r : Spin.Coord) (sig : List Spin.Index) (rin rout : ℝ) (Nphi L Nr k : Nat) (alpha : ℝ × ℝ)
    (N Nt Ng : Nat) (q g : Nat → ℝ) (c : List Nat → Nat → Nat → Nat → ℝ) : Option (List Nat → Nat → Nat → Nat → ℝ) :=
  (VolumeField.shellToGridReal phi theta r sig rin rout Nphi L Nr k alpha N Nt Ng q g c).bind
    (VolumeField.shellToCoeffReal before phi theta r sig rin rout Nphi L Nr k alpha N Nt Ng q g)

end Dedalus.Hermitian
