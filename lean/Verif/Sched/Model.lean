import Mathlib.Algebra.Order.Floor.Ring
import Mathlib.Algebra.Order.Field.Basic
import Mathlib.Algebra.Order.Round

/-!
# Model: `Handler.check_schedule`

Models `Handler.__init__` and `Handler.check_schedule` of /repo/dedalus/core/evaluator.py
(L230-276). Times are elements of an ordered field with floor; floats are idealised as exact.
-/

namespace Dedalus.Sched

variable {F : Type} [Field F] [LinearOrder F] [IsStrictOrderedRing F] [FloorRing F]

/-- `int(np.round(x))`: nearest integer, ties to even. evaluator.py L259. -/
def npRound (x : F) : Int :=
  let f := ⌊x⌋
  if x - f < 1 / 2 then f
  else if 1 / 2 < x - f then f + 1
  else if f % 2 = 0 then f else f + 1

/-- Cadences of a handler; `none` is Python `None`. A cadence of 0 is falsy in Python and ignored.
evaluator.py L231-238. -/
structure Cadence (F : Type) where
  wallDt : Option F := none
  simDt : Option F := none
  iter : Option Nat := none
  custom : Option (Nat → F → F → F → Bool) := none

/-- `last_wall_div`, `last_sim_div`, `last_iter_div`. evaluator.py L241-243. -/
structure Divs where
  wall : Int := -1
  sim : Int := -1
  iter : Int := -1
deriving DecidableEq, Repr

/-- The keyword arguments of `check_schedule`. -/
structure Args (F : Type) where
  iteration : Nat
  wallTime : F
  simTime : F
  timestep : F

/-- Wall time criterion. evaluator.py L248-252. `//` is floor division. -/
def checkWall (wallDt : Option F) (last : Int) (a : Args F) : Bool × Int :=
  match wallDt with
  | none => (false, last)
  | some w =>
    if w = 0 then (false, last) else
    let d := ⌊a.wallTime / w⌋
    if d > last then (true, d) else (false, last)

/-- Simulation time criterion. evaluator.py L254-264. -/
def checkSim (simDt : Option F) (last : Int) (a : Args F) : Bool × Int :=
  match simDt with
  | none => (false, last)
  | some s =>
    if s = 0 then (false, last) else
    let t := a.simTime
    let dt := a.timestep
    let closest := npRound (t / s)
    if closest > last then
      let closestTime := closest * s
      if |t - closestTime| < |t + dt - closestTime| then (true, closest) else (false, last)
    else (false, last)

/-- Iteration criterion. evaluator.py L266-270. -/
def checkIter (iter : Option Nat) (last : Int) (a : Args F) : Bool × Int :=
  match iter with
  | none => (false, last)
  | some n =>
    if n = 0 then (false, last) else
    let d : Int := ((a.iteration / n : Nat) : Int)
    if d > last then (true, d) else (false, last)

/-- `check_schedule`. evaluator.py L245-276. -/
def checkSchedule (c : Cadence F) (s : Divs) (a : Args F) : Bool × Divs :=
  let scheduled := false
  let (w, wd) := checkWall c.wallDt s.wall a
  let scheduled := if w then true else scheduled
  let (m, md) := checkSim c.simDt s.sim a
  let scheduled := if m then true else scheduled
  let (i, id) := checkIter c.iter s.iter a
  let scheduled := if i then true else scheduled
  let scheduled := match c.custom with
    | none => scheduled
    | some f => if f a.iteration a.wallTime a.simTime a.timestep then true else scheduled
  (scheduled, ⟨wd, md, id⟩)

end Dedalus.Sched
