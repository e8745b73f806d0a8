import Verif.Sched.Model
import Mathlib.Algebra.Order.Field.Basic
import Mathlib.Algebra.BigOperators.Group.Finset.Basic
import Mathlib.Algebra.Order.Group.Abs

/-!
# Model: main loop and clock of `InitialValueSolver`

Models /repo/dedalus/core/solvers.py L580-600 (clock), L617-630 (`proceed`), L632-660 (`load_state`,
clock part), L683-711 (`step`), L713-732 (`evolve`), L755-778 (`log_stats`), and
/repo/dedalus/core/field.py L820-842 (`allreduce_data_max`). Logging and profiling are not modelled,
apart from the attribute accesses of `log_stats`, which can raise. The timestepper's own step is
modelled in `Verif.Step`; here it appears only by its effect on `sim_time`
(theorems `Dedalus.Step.multistep_clock` and `Dedalus.Step.rk_step_equations`).
-/

namespace Dedalus.Solver

/-- Python exceptions that can leave the modelled functions. `user` is any exception raised by the
user's timestep function or by the timestepper. -/
inductive Exc
  | valueError
  | attributeError
  | user
deriving DecidableEq, Repr

/-- The attributes of an initial value solver used by its main loop. An infinite stop value is
`none`; attributes that are only created by `step` are `Option`s. solvers.py L580-591, L690-701. -/
structure IVP (F : Type) where
  simTime : F
  timeField : F
  iteration : Nat
  initialIteration : Nat
  warmup : Nat
  stopSim : Option F
  stopWall : Option F
  stopIter : Option Nat
  startTimeEnd : Option F
  warmupTimeStart : Option F
  warmupTimeEnd : Option F
  runTimeStart : Option F

variable {F : Type} [Field F] [LinearOrder F]

/-- Largest absolute value of one process's data, 0 if it has none. field.py L825-828. -/
def localMax (data : List F) : F :=
  match data with
  | [] => 0
  | x :: xs => xs.foldl (fun m y => max m |y|) |x|

/-- `allreduce_data_max` over the data of every process (at least one process).
field.py L832-834, L841. -/
def dataMax (rank0 : List F) (others : List (List F)) : F :=
  others.foldl (fun m d => max m (localMax d)) (localMax rank0)

/-- `__init__`, clock part: the initial simulation time is read from the problem's time field by
`allreduce_data_max`, and written back by the `sim_time` setter. solvers.py L580-591, L597-600. -/
def init (rank0 : List F) (others : List (List F)) (warmup : Nat) : IVP F :=
  let t := dataMax rank0 others
  { simTime := t, timeField := t, iteration := 0, initialIteration := 0, warmup := warmup
    stopSim := none, stopWall := none, stopIter := none
    startTimeEnd := none, warmupTimeStart := none, warmupTimeEnd := none, runTimeStart := none }

/-- `proceed`. solvers.py L617-630. -/
def proceed (s : IVP F) (wall : F) : Bool :=
  if (match s.stopSim with | some T => decide (T ≤ s.simTime) | none => false) then false
  else if (match s.stopWall with | some T => decide (T ≤ wall) | none => false) then false
  else if (match s.stopIter with | some n => decide (n ≤ s.iteration) | none => false) then false
  else true

/-- `step`. A timestep that is not finite is `none`. solvers.py L683-711. -/
def step (s : IVP F) (dt : Option F) (wall : F) : Except Exc (IVP F) :=
  match dt with
  | none => .error .valueError
  | some dt =>
    let s := if s.iteration = s.initialIteration then
      { s with startTimeEnd := some wall, warmupTimeStart := some wall } else s
    let s := if s.iteration = s.initialIteration + s.warmup then
      { s with warmupTimeEnd := some wall, runTimeStart := some wall } else s
    .ok { s with simTime := s.simTime + dt, timeField := s.simTime + dt, iteration := s.iteration + 1 }

/-- `log_stats`: only its attribute reads. solvers.py L755-778. -/
def logStats (s : IVP F) : Except Exc Unit :=
  match s.startTimeEnd with
  | none => .error .attributeError
  | some _ =>
    if s.initialIteration + s.warmup ≤ s.iteration then
      match s.warmupTimeEnd, s.warmupTimeStart, s.runTimeStart with
      | some _, some _, some _ => .ok ()
      | _, _, _ => .error .attributeError
    else .ok ()

/-- What the outside world supplies to the k-th pass of the loop: the wall time seen by `proceed`,
the result of the user's timestep function, the wall time seen by `step`. -/
structure Env (F : Type) where
  wall : Nat → F
  dt : Nat → Except Exc (Option F)
  wallStep : Nat → F

/-- The `while` loop of `evolve`, from pass `k`; `none` when it has not ended after `fuel` passes. The
result is the exception or normal end, the solver, and the number of passes. solvers.py L723-727. -/
def loop (env : Env F) : Nat → Nat → IVP F → Option (Except Exc Unit × IVP F × Nat)
  | 0, _, _ => none
  | fuel + 1, k, s =>
    if proceed s (env.wall k) then
      match env.dt k with
      | .error e => some (.error e, s, k)
      | .ok dt =>
        match step s dt (env.wallStep k) with
        | .error e => some (.error e, s, k)
        | .ok s' => loop env fuel (k + 1) s'
    else some (.ok (), s, k)

/-- `evolve`. An exception of the `finally` block replaces that of the loop. solvers.py L713-732. -/
def evolve (env : Env F) (fuel : Nat) (s : IVP F) : Option (Except Exc Unit × IVP F × Nat) :=
  if s.stopSim.isNone && s.stopWall.isNone && s.stopIter.isNone then some (.error .valueError, s, 0)
  else
    match loop env fuel 0 s with
    | none => none
    | some (r, s', k) =>
      match logStats s' with
      | .error e => some (.error e, s', k)
      | .ok () => some (r, s', k)

/-- User actions on a solver between outputs: a step, or loading an earlier state. -/
inductive Op (F : Type)
  | step (dt : F)
  | load (iteration : Nat) (time : F)

/-- Clock and the schedule of the handler of the forces (`iter=1`, group 'F'). solvers.py L570. -/
structure FSolver (F : Type) where
  iteration : Nat
  simTime : F
  divs : Sched.Divs

/-- One user action; for a step, also whether the forces were recomputed by `evaluate_scheduled`
in the timestepper's step (timesteppers.py L131, L632). solvers.py L656-659, L703, L710. -/
def FSolver.op [FloorRing F] (s : FSolver F) : Op F → FSolver F × Option Bool
  | .step dt =>
    let (b, d) := Sched.checkSchedule { iter := some 1 } s.divs ⟨s.iteration, 0, s.simTime, dt⟩
    ({ iteration := s.iteration + 1, simTime := s.simTime + dt, divs := d }, some b)
  | .load it t => ({ s with iteration := it, simTime := t }, none)

/-- A history of user actions: for each action, the iteration before it and whether a step
recomputed the forces. -/
def FSolver.run [FloorRing F] (s : FSolver F) : List (Op F) → List (Nat × Option Bool)
  | [] => []
  | o :: os => (s.iteration, (s.op o).2) :: (s.op o).1.run os

end Dedalus.Solver
