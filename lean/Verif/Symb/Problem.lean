import Verif.Symb.Model

/-!
# Problems

Model of `dedalus/core/problems.py`: the equation checks, the matrix expressions of initial value and
eigenvalue problems, and `build_EVP`. Equations are given as pairs of expressions (string parsing is
modelled in `Verif.Parse`). Domains, data types and the `convert` calls (which do not change the value)
are not modelled; `reinitialize` is `rebuild`.
-/

namespace Dedalus.Symb

variable {K : Type} [Field K] [DecidableEq K]

/-- `TimeDerivative` (`dedalus/core/operators.py` L999-1045): class number 0, no `new_operand`. -/
def dtOp : Op := ⟨0, .noNewOperand, .same, 0⟩

/-- An equation of an initial value problem, as stored in `problem.equations`. -/
structure IvpEqn (K : Type) where
  lhs : Expr K
  rhs : Expr K
  condition : String
  /-- `valid_modes` array -/
  modes : List Bool
  M : Expr K
  L : Expr K
  F : Expr K

/-- An equation of an eigenvalue problem. -/
structure EvpEqn (K : Type) where
  lhs : Expr K
  condition : String
  modes : List Bool
  M : Expr K
  L : Expr K

/-- `M = M.reinitialize(...)`, `M.prep_nccs(...)` under `if M:` (`dedalus/core/problems.py` L334-339,
L478-486): the result must be an operand. -/
def reinit (e : Expr K) : Option (Expr K) :=
  if e.truthy then do
    let e' ← rebuild e
    if e'.isOperand then some e' else none
  else some e

/-- `InitialValueProblem.add_equation`: `ProblemBase.add_equation` L65-94,
`_check_equation_conditions` L305-319, `_build_matrix_expressions` L321-364. `modes` is
`expr.valid_modes`. -/
def ivpAdd (vars : List Nat) (time : Nat) (lhs rhs : Expr K) (condition : String) (modes : List Bool) :
    Option (IvpEqn K) := do
  let expr ← pySub lhs rhs
  if !expr.isOperand then none else
  let lhs' ← castTo expr.sig lhs
  let rhs' ← castTo expr.sig rhs
  if !linearOK (vars.map Var.fld) false lhs' then none else
  if has [.fld time] lhs' then none else
  if !firstOrderOK 0 lhs' then none else
  if has [.cls 0] rhs' then none else
  if !lhs.isOperand then none else
  let (M, L) ← split [.cls 0] lhs
  let M ← if M.truthy then replaceCls 0 some M else some M
  let M ← reinit M
  let L ← reinit L
  let F ← if rhs.truthy then castTo expr.sig rhs else some (.cst expr.sig 0)
  some ⟨lhs, rhs, condition, modes, M, L, F⟩

/-- `EigenvalueProblem.add_equation` with right-hand side `rhs`: L65-94, L459-469, L471-506. -/
def evpAdd (vars : List Nat) (eig : Nat) (lhs rhs : Expr K) (condition : String) (modes : List Bool) :
    Option (EvpEqn K) := do
  let expr ← pySub lhs rhs
  if !expr.isOperand then none else
  let lhs' ← castTo expr.sig lhs
  if !linearOK (vars.map Var.fld) false lhs' then none else
  if !linearOK [Var.fld eig] true lhs' then none else
  if !rhs.eqNum 0 then none else
  if !lhs.isOperand then none else
  let (M, L) ← split [.fld eig] lhs
  let M ← if M.truthy then replace eig (.num 1) M else some M
  let M ← reinit M
  let L ← reinit L
  some ⟨lhs, condition, modes, M, L⟩

/-- `build_EVP` L404-408: the time-derivative part, with `dt(x)` replaced by `lambda*x` and the variables by
the perturbations. -/
def evpM (eig : Nat) (perts : List ((Nat × Sig) × Expr K)) (M : Expr K) : Option (Expr K) :=
  if M.truthy then do
    let M1 ← replaceCls 0 (fun x => mkMul (.fld eig []) x) M
    substAll perts M1
  else some M

/-- `build_EVP` L409-412. -/
def evpL (perts : List ((Nat × Sig) × Expr K)) (L : Expr K) : Option (Expr K) :=
  if L.truthy then substAll perts L else some L

/-- `build_EVP` L413-419. A nonzero number has no `has` method. -/
def evpF [Consts K] (eps time : Nat) (perts bgs : List ((Nat × Sig) × Expr K)) (F : Expr K) : Option (Expr K) :=
  if F.truthy then
    if !F.isOperand then none
    else if has [.fld time] F then none
    else frechet eps perts bgs F
  else some (.num 0)

/-- One pass of the loop of `build_EVP` (L400-422): the equation's condition is not passed on, so the new
equation gets the default `"True"`. `perts` and `bgs` are the pairs (variable, perturbation) and
(variable, background). -/
def convertEqn [Consts K] (eps eig time : Nat) (perts bgs : List ((Nat × Sig) × Expr K)) (pertVars : List Nat)
    (q : IvpEqn K) : Option (EvpEqn K) := do
  let (M0, L0) ← split [.cls 0] q.lhs
  let M ← evpM eig perts M0
  let L ← evpL perts L0
  let dF ← evpF eps time perts bgs q.rhs
  let s ← mkAdd M L
  let lhs ← pySub s dF
  let n ← evpAdd pertVars eig lhs (.num 0) "True" q.modes
  some { n with modes := q.modes }

/-- `InitialValueProblem.build_EVP` L366-426, for perturbations given as fields `pertVars`. The list of
backgrounds defaults to `None`; the last loop, `for var in backgrounds`, then raises. -/
def buildEVP [Consts K] (eps eig time : Nat) (vars : List (Nat × Sig)) (eqns : List (IvpEqn K))
    (backgrounds : Option (List (Expr K))) (pertVars : List Nat) : Option (List (EvpEqn K)) := do
  let perts := vars.zip ((vars.zip pertVars).map (fun p => Expr.fld p.2 p.1.2))
  let bgs := vars.zip ((backgrounds.getD []))
  let out ← eqns.mapM (convertEqn eps eig time perts bgs pertVars)
  match backgrounds with
  | none => none
  | some _ => some out

/-- `LinearBoundaryValueProblem.add_equation` (L65-94, L142-152, L154-185): the matrix expression is the
left-hand side. -/
def lbvpAdd (vars : List Nat) (lhs rhs : Expr K) : Option (Expr K × Expr K) := do
  let expr ← pySub lhs rhs
  if !expr.isOperand then none else
  let lhs' ← castTo expr.sig lhs
  let rhs' ← castTo expr.sig rhs
  if !linearOK (vars.map Var.fld) false lhs' then none else
  if has (vars.map Var.fld) rhs' then none else
  if !lhs.isOperand then none else
  let L ← rebuild lhs
  if !L.isOperand then none else
  let F ← if rhs.truthy then castTo expr.sig rhs else some (.cst expr.sig 0)
  some (L, F)

/-- `NonlinearBoundaryValueProblem.add_equation` (L65-94, L235-266): residual and its differential, with
locks removed (`Lock` is class number 1). Variables and perturbations are fields. A differential that is
a plain number has no `replace` method. Unlocking of locked fields (L249-250) is not modelled. -/
def nlbvpAdd [Consts K] (eps : Nat) (vars : List (Nat × Sig)) (pertVars : List Nat) (lhs rhs : Expr K) :
    Option (Expr K × Expr K) := do
  let F ← pySub lhs rhs
  if !F.isOperand then none else
  let dF ← frechet eps (vars.zip ((vars.zip pertVars).map (fun p => Expr.fld p.2 p.1.2))) [] F
  if !dF.isOperand then none else
  let dF ← replaceCls 1 some dF
  if !dF.isOperand then none else
  let dF ← rebuild dF
  if !dF.isOperand then none else
  some (F, dF)

end Dedalus.Symb
