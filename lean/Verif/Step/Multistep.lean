import Verif.Step.Coeffs
import Mathlib.Algebra.Module.Pi
import Mathlib.Algebra.BigOperators.Group.Finset.Basic
import Mathlib.Data.Fintype.Basic

/-!
# Model: `MultistepIMEX` stepping

Models `MultistepIMEX.__init__` and `MultistepIMEX.step` of /repo/dedalus/core/timesteppers.py
(L70-187). `ι` are the non-empty subproblems, `X` their input data, `V` their output data. A
`CoeffSystem` is a function `ι → V`. The force is evaluated from the time and the state (what the
evaluator's F handler does). The solver object `matsolver(a0*M + b0*L)` is recorded by its
coefficients `(a0, b0)`. numpy index errors and calls on `None` are `none`. Float arithmetic is
exact field arithmetic; BLAS `axpy` is `y += a*x`.
-/

namespace Dedalus.Step

variable {F ι X V : Type} [Field F] [AddCommGroup V] [Module F V]

/-- The problem as the timestepper sees it. `solve a b i r` is the result of
`matsolver(a*M + b*L).solve(r)` for subproblem `i`. timesteppers.py L99-113. -/
structure Sys (F ι X V : Type) where
  M : ι → X → V
  L : ι → X → V
  force : F → (ι → X) → ι → V
  solve : F → F → ι → V → X

/-- Attributes of the timestepper and of the subproblems that persist between steps.
timesteppers.py L71-93; `solvers i` is `sp.LHS_solver`. -/
structure MState (F ι V : Type) where
  dt : List F
  MX : List (ι → V)
  LX : List (ι → V)
  FX : List (ι → V)
  iteration : Nat
  params : Option (F × F)
  solvers : ι → Option (F × F)

/-- Solver state: fields, simulation time, timestepper. -/
structure World (F ι X V : Type) where
  x : ι → X
  time : F
  ms : MState F ι V

/-- `deque.rotate()`: the last element goes to the front. -/
def rotate {α : Type} (d : List α) : List α :=
  match d.getLast? with
  | none => []
  | some l => l :: d.dropLast

/-- `__init__`. The contents of new `CoeffSystem`s is arbitrary memory `junk`.
timesteppers.py L70-93. -/
def initMS (s : Scheme) (junk : ι → V) : MState F ι V :=
  { dt := List.replicate s.steps 0
    MX := List.replicate s.steps junk
    LX := List.replicate s.steps junk
    FX := List.replicate s.steps junk
    iteration := 0
    params := none
    solvers := fun _ => none }

/-- The loops `for j in range(start, len(w)): y += sign*w[j]*hist[j-1]`: `ws` is `w[start:]`, `hs` is
`hist[start-1:]`. timesteppers.py L152-161. -/
def accum {W : Type} [AddCommGroup W] [Module F W] (sign : F) : List F → List W → W → Option W
  | [], _, y => some y
  | w :: ws, h :: hs, y => accum sign ws hs (y + (sign * w) • h)
  | _ :: _, [], _ => none

/-- "Build RHS". timesteppers.py L149-161. -/
def buildRHS {W : Type} [AddCommGroup W] [Module F W] (co : Coeffs F) (MX LX FX : List W) : Option W := do
  let c1 ← co.c[1]?
  let F0 ← FX[0]?
  let y ← accum 1 (co.c.drop 2) (FX.drop 1) (c1 • F0)
  let y ← accum (-1) (co.a.drop 1) MX y
  accum (-1) (co.b.drop 1) LX y

/-- What a step reports besides the new state: the coefficients, for each subproblem the
coefficients of the factorisation that its solve used, and whether factorisations were made. -/
structure StepLog (F ι : Type) where
  co : Coeffs F
  used : ι → F × F
  refactored : Bool

/-- `MultistepIMEX.step`. timesteppers.py L95-187. -/
def mstep [DecidableEq F] [Fintype ι] (P : Sys F ι X V) (s : Scheme) (w : World F ι X V) (dt : F) :
    Option (World F ι X V × StepLog F ι) := do
  -- L117-123 Cycle timesteps, compute coefficients
  let dts := (rotate w.ms.dt).set 0 dt
  let co ← s.coeffs dts w.ms.iteration
  -- L126-128
  let MX := rotate w.ms.MX
  let LX := rotate w.ms.LX
  let FX := rotate w.ms.FX
  let a0 ← co.a[0]?
  let b0 ← co.b[0]?
  -- L137-142 Check on updating LHS
  let update := decide (some (a0, b0) ≠ w.ms.params)
  let solvers := if update then fun _ => none else w.ms.solvers
  -- L145-149, L152-155 evaluate M.X0, L.X0, F(X0)
  let MX := MX.set 0 (fun i => P.M i (w.x i))
  let LX := LX.set 0 (fun i => P.L i (w.x i))
  let FX := FX.set 0 (P.force w.time w.x)
  let rhs ← buildRHS co MX LX FX
  -- L164-183 Solve
  let solvers := if update then fun _ => some (a0, b0) else solvers
  if h : ∀ i, (solvers i).isSome then
    let used := fun i => (solvers i).get (h i)
    some ({ x := fun i => P.solve (used i).1 (used i).2 i (rhs i)
            time := w.time + dt
            ms := { dt := dts, MX := MX, LX := LX, FX := FX, iteration := w.ms.iteration + 1
                    params := some (a0, b0), solvers := solvers } },
          { co := co, used := used, refactored := update })
  else none

end Dedalus.Step
