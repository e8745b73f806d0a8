import Verif.Subsys.Model
import Verif.Sched.Model
import Mathlib.Algebra.Field.Basic
import Mathlib.Data.Rat.Floor
import Mathlib.Algebra.BigOperators.Group.List.Basic

/-!
# Model: the boundary value solvers

Models `LinearBoundaryValueSolver` (/repo/dedalus/core/solvers.py L324-416) and
`NonlinearBoundaryValueSolver` (L418-494), with `Subproblem.gather_outputs`, `scatter_inputs`
(/repo/dedalus/core/subsystems.py L353-371) and the preconditioned matrices of `build_matrices` (L549-572).
Coefficient data of the fields are stores `Subsys.Addr → K`. Everything outside the solver on which the matrices and
right-hand sides depend (parameters, backgrounds) is one value `w : W`.
-/

namespace Dedalus.Bvp

open Subsys

/-- `data.dot(row)` for one row of a matrix. -/
def dot {K : Type} [Field K] (row x : List K) : K := (List.zipWith (· * ·) row x).sum

/-- What the solvers read of a subproblem: buffer columns of inputs and outputs, one per subsystem
(subsystems.py L302-325), their common lengths, and the source indices of the rows of `pre_right_pinv` and `pre_left`
(`Perm.precond`). -/
structure Sp where
  inputs : List (List Addr)
  outputs : List (List Addr)
  nVar : Nat
  nEq : Nat
  srcVar : List Nat
  srcEq : List Nat

inductive Exc
  | nonSquare
  | singular
  | notBuilt
deriving DecidableEq, Repr

/-- A sparse matrix as its rows. -/
abbrev Rows (K : Type) := List (List K)

/-- `self.matsolver(matrix, solver)`: raises (`none`) or returns an object with a `solve` method. One column of the
right-hand side is solved at a time. Every class in /repo/dedalus/libraries/matsolvers.py is an instance. -/
abbrev Matsolver (K : Type) := Rows K → Option (List K → List K)

variable {K : Type} [Field K]

/-- `pre_left @ matrix @ pre_right`: the entries in the kept rows and columns. subsystems.py L570-572. -/
def minMatrix (sp : Sp) (A : Nat → Nat → K) : Rows K := sp.srcEq.map fun i => sp.srcVar.map fun j => A i j

/-- `build_matrices` for one subproblem and one matrix: squareness check and preconditioning.
subsystems.py L549-552, L570-576. -/
def buildMatrix (sp : Sp) (A : Nat → Nat → K) : Except Exc (Rows K) :=
  if sp.srcEq.length ≠ sp.srcVar.length then .error .nonSquare else .ok (minMatrix sp A)

/-- `gather_outputs`: the columns read from the right-hand side fields, rows kept by `pre_left`.
subsystems.py L353-362. -/
def gatherOutputs (sp : Sp) (F : Store K) : List (List K) := sp.outputs.map fun c => compress sp.srcEq (readCol F c)

/-- Gather, solve and scatter one subproblem. solvers.py L401-407, L484-490; `Subsys.scatterInputs` is
subsystems.py L364-371. -/
def solveOne (sp : Sp) (solve : List K → List K) (F X : Store K) : Store K :=
  scatterInputs sp.srcVar sp.inputs ((gatherOutputs sp F).map solve) X

/-- The clock and the schedule of the handler of the right-hand sides (`iter=1`, group 'F'), and its output fields.
solvers.py L348-355, L448-456. -/
structure Rhs (K : Type) where
  iteration : Nat
  divs : Sched.Divs
  F : Store K

/-- `self.evaluator.evaluate_scheduled(iteration=self.iteration)`: the fields get the current value `F` of the
right-hand sides if the handler is due (evaluator.py L91-94, L266-270; times do not matter for this cadence). -/
def Rhs.evaluate (r : Rhs K) (F : Store K) : Rhs K :=
  let (due, d) := Sched.checkSchedule (F := ℚ) { iter := some 1 } r.divs ⟨r.iteration, 0, 0, 0⟩
  { r with divs := d, F := if due then F else r.F }

/-- Initial value of the handler: nothing evaluated yet. -/
def Rhs.new (F : Store K) : Rhs K := ⟨0, {}, F⟩

/-! ### Linear problems -/

/-- A linear problem: its subproblems in order, the matrix of each before preconditioning, and the right-hand sides
in coefficient space, for the outside data `w`. The right-hand sides do not contain the variables
(/repo/dedalus/core/problems.py, `LinearBoundaryValueProblem._check_equation_conditions`). -/
structure Linear (K W : Type) where
  sps : List Sp
  A : W → Nat → Nat → Nat → K
  F : W → Store K

/-- Data of the state fields: the values stored and whether they are stored in the coefficient layout. -/
structure State (K : Type) where
  coeff : Bool
  data : Store K

/-- `field.preset_layout('c')`: the stored numbers are reinterpreted as coefficients. /repo/dedalus/core/field.py
L517-526. The grid array is taken to have the shape of the coefficient array (scales 1, same distribution). -/
def State.preset (s : State K) : State K := { s with coeff := true }

/-- The solver: the dictionary `subproblem_matsolvers` (keys are positions in `sps`), the right-hand side handler, the
state. -/
structure LSolver (K : Type) where
  cache : List (Nat × (List K → List K))
  rhs : Rhs K
  state : State K

/-- Build the matrices of the subproblems `todo`, in order, all before any factorisation. solvers.py L391. -/
def buildAll {W : Type} (P : Linear K W) (w : W) : List Nat → Except Exc (List (Nat × Rows K))
  | [] => .ok []
  | n :: ns => do
    match P.sps[n]? with
    | none => .error .notBuilt
    | some sp =>
      let m ← buildMatrix sp (P.A w n)
      let rest ← buildAll P w ns
      .ok ((n, m) :: rest)

/-- `self.subproblem_matsolvers[sp] = self.matsolver(sp.L_min, self)` for each built matrix; the exception of a
factorisation keeps the entries already set. solvers.py L392-393. -/
def factorAll (ms : Matsolver K) : List (Nat × Rows K) → List (Nat × (List K → List K)) →
    List (Nat × (List K → List K)) × Option Exc
  | [], cache => (cache, none)
  | (n, m) :: rest, cache =>
    match ms m with
    | none => (cache, some .singular)
    | some s => factorAll ms rest ((n, s) :: cache)

/-- The loop over subproblems. solvers.py L401-408. -/
def solveAll {W : Type} (P : Linear K W) (cache : List (Nat × (List K → List K))) (F : Store K) :
    List Nat → Store K → Except Exc (Store K)
  | [], X => .ok X
  | n :: ns, X =>
    match P.sps[n]?, cache.lookup n with
    | some sp, some s => solveAll P cache F ns (solveOne sp s F X)
    | _, _ => .error .notBuilt

/-- `solve(subproblems, rebuild_matrices)`; `sel` are the positions of the chosen subproblems. Returns the solver
after the call and the exception, if any. solvers.py L369-409. -/
def LSolver.solve {W : Type} (ms : Matsolver K) (P : Linear K W) (w : W) (sel : List Nat) (rebuild : Bool)
    (s : LSolver K) : LSolver K × Option Exc :=
  let todo := if rebuild then sel else sel.filter fun n => (s.cache.lookup n).isNone
  match buildAll P w todo with
  | .error e => (s, some e)
  | .ok mats =>
    let (cache, e) := factorAll ms mats s.cache
    let s := { s with cache := cache }
    match e with
    | some e => (s, some e)
    | none =>
      let s := { s with rhs := s.rhs.evaluate (P.F w), state := s.state.preset }
      match solveAll P s.cache s.rhs.F sel s.state.data with
      | .error e => (s, some e)
      | .ok X => ({ s with state := { s.state with data := X }, rhs := { s.rhs with iteration := s.rhs.iteration + 1 } }, none)

/-- One call of `solve` by the user, at outside data `w`. -/
structure Call (W : Type) where
  w : W
  sel : List Nat
  rebuild : Bool

/-- A history of calls, first call first, each returning normally. Between calls the user may replace the state by
anything (`edit`). -/
def run {W : Type} (ms : Matsolver K) (P : Linear K W) (edit : Nat → State K → State K) :
    List (Call W) → Nat → LSolver K → Option (LSolver K)
  | [], _, s => some s
  | c :: cs, k, s =>
    match LSolver.solve ms P c.w c.sel c.rebuild { s with state := edit k s.state } with
    | (s', none) => run ms P edit cs (k + 1) s'
    | _ => none

/-- The solver after `__init__`. solvers.py L345-356. -/
def LSolver.new (F0 : Store K) (X0 : State K) : LSolver K := ⟨[], Rhs.new F0, X0⟩

/-! ### Nonlinear problems -/

/-- A nonlinear problem: the matrix of the linearised equations about state `X` (`eq['dF']`, as a function of the
perturbations) and the equations' values `F` at `X`, for outside data `w`. -/
structure Nonlinear (K W : Type) where
  sps : List Sp
  dF : W → Store K → Nat → Nat → Nat → K
  F : W → Store K → Store K

/-- The solver: state and perturbations in coefficient space. -/
structure NSolver (K : Type) where
  rhs : Rhs K
  X : Store K
  pert : Store K

/-- The loop over subproblems of `newton_iteration`, updating the perturbations. The matrices were built before
the loop, at the state `X`. solvers.py L482-490. -/
def newtonLoop (ms : Matsolver K) (F : Store K) : List (Sp × Rows K) → Store K → Except Exc (Store K)
  | [], D => .ok D
  | (sp, m) :: rest, D =>
    match ms m with
    | none => .error .singular
    | some s => newtonLoop ms F rest (solveOne sp s F D)

/-- Matrices of all subproblems. solvers.py L476. -/
def buildNewton (A : Nat → Nat → Nat → K) : Nat → List Sp → Except Exc (List (Sp × Rows K))
  | _, [] => .ok []
  | n, sp :: rest => do
    let m ← buildMatrix sp (A n)
    let r ← buildNewton A (n + 1) rest
    .ok ((sp, m) :: r)

/-- `newton_iteration(damping)`. solvers.py L470-494. -/
def NSolver.newton {W : Type} (ms : Matsolver K) (P : Nonlinear K W) (w : W) (damping : K) (s : NSolver K) :
    NSolver K × Option Exc :=
  let s := { s with rhs := s.rhs.evaluate (P.F w s.X) }
  match buildNewton (P.dF w s.X) 0 P.sps with
  | .error e => (s, some e)
  | .ok mats =>
    match newtonLoop ms s.rhs.F mats s.pert with
    | .error e => (s, some e)
    | .ok D => ({ rhs := { s.rhs with iteration := s.rhs.iteration + 1 }, X := fun a => s.X a - damping * D a, pert := D }, none)

/-- A history of iterations, each returning normally; before each the user may replace the state. -/
def runNewton {W : Type} (ms : Matsolver K) (P : Nonlinear K W) (edit : Nat → Store K → Store K) :
    List (W × K) → Nat → NSolver K → Option (NSolver K)
  | [], _, s => some s
  | (w, d) :: rest, k, s =>
    match NSolver.newton ms P w d { s with X := edit k s.X } with
    | (s', none) => runNewton ms P edit rest (k + 1) s'
    | _ => none

/-- The solver after `__init__`; new fields are zero (/repo/dedalus/core/field.py L551-556 and `_create_buffer`). -/
def NSolver.new (F0 X0 : Store K) : NSolver K := ⟨Rhs.new F0, X0, fun _ => 0⟩

end Dedalus.Bvp
