import Verif.Dist.Chain
import Mathlib.Data.Rat.Defs
import Mathlib.Algebra.Order.Ring.Rat

/-!
# Model: layout and scale state of a field

Models `Current.preset_scales`/`preset_layout` and `Field.__getitem__`, `__setitem__`,
`change_scales`, `change_layout`, `require_grid_space`, `require_coeff_space`, `require_local`,
`low_pass_filter`, `high_pass_filter` of /repo/dedalus/core/field.py, with the buffers they use, and
`remedy_scales` of /repo/dedalus/core/distributor.py.

A buffer holds raw data `Dat` that the current layout interprets. The paths between layouts act on
the raw data (in place); what they do is a parameter (`up`, `down`), the chain of layouts is the one of
`Verif.Dist.Chain`. Scales are rationals; `none` is a Python exception.
-/

namespace Dedalus.Field

open Dedalus.Dist

/-- What a field refers to: the distributor's layouts and paths, the action of the paths on raw data
at given scales, whether data of given scales fit into the dealias buffer (field.py L508), and the
content of newly allocated memory. -/
structure Env (Dat : Type) where
  D : Nat
  lays : List Lay
  paths : List Path
  up : Path → List ℚ → Dat → Dat
  down : Path → List ℚ → Dat → Dat
  fits : List ℚ → Bool
  junk : Dat

/-- The state of a field. Buffer 0 is `_dealias_buffer` (cached, field.py L491-496), others are
allocated on demand; `cur` is `self.buffer`. -/
structure FState (Dat : Type) where
  mem : Nat → Dat
  cur : Nat
  fresh : Nat
  layout : Nat
  scales : List ℚ

variable {Dat : Type}

/-- A `scales` argument: None, a number, or a tuple. -/
inductive ScaleArg
  | none
  | num (x : ℚ)
  | tuple (xs : List ℚ)

/-- `remedy_scales`. distributor.py L188-197. -/
def remedy (D : Nat) (a : ScaleArg) : Option (List ℚ) :=
  let s := match a with
    | .none => List.replicate D 1
    | .num x => List.replicate D x
    | .tuple xs => xs
  if 0 ∈ s then Option.none else some s

/-- Set the content of a buffer. -/
def FState.setMem (f : FState Dat) (b : Nat) (d : Dat) : FState Dat :=
  { f with mem := Function.update f.mem b d }

/-- The data seen in the current layout. -/
def FState.data (f : FState Dat) : Dat := f.mem f.cur

/-- `preset_layout`: reinterpret the buffer. field.py L517-526. -/
def presetLayout (f : FState Dat) (l : Nat) : FState Dat := { f with layout := l }

/-- `preset_scales` with remedied scales. field.py L498-515. -/
def presetScales (E : Env Dat) (f : FState Dat) (s : List ℚ) : FState Dat :=
  if s = f.scales then f
  else if E.fits s then { f with cur := 0, scales := s }
  else { f with mem := Function.update f.mem f.fresh E.junk, cur := f.fresh, fresh := f.fresh + 1, scales := s }

/-- `towards_grid_space`. field.py L664-667. -/
def towardsGrid (E : Env Dat) (f : FState Dat) : Option (FState Dat) :=
  match E.paths[f.layout]? with
  | some p => some { (f.setMem f.cur (E.up p f.scales f.data)) with layout := f.layout + 1 }
  | none => none

/-- `towards_coeff_space`. field.py L669-672. At layout 0 the code would take `paths[-1]`, a wrong
path; that is an error here (and never reached). -/
def towardsCoeff (E : Env Dat) (f : FState Dat) : Option (FState Dat) :=
  match f.layout with
  | 0 => none
  | l + 1 =>
    match E.paths[l]? with
    | some p => some { (f.setMem f.cur (E.down p f.scales f.data)) with layout := l }
    | none => none

/-- `while cond: step`, with at most `n` passes; `none` if more would be needed (or a pass fails). -/
def whileLoop (cond : FState Dat → Bool) (step : FState Dat → Option (FState Dat)) :
    Nat → FState Dat → Option (FState Dat)
  | 0, f => if cond f then none else some f
  | n + 1, f => if cond f then (step f).bind (whileLoop cond step n) else some f

/-- Grid-space flag of the current layout on one axis (out of range: an exception). -/
def gridFlag (E : Env Dat) (l a : Nat) : Option Bool := (E.lays[l]?).bind (·.grid[a]?)
/-- Locality flag. -/
def locFlag (E : Env Dat) (l a : Nat) : Option Bool := (E.lays[l]?).bind (·.loc[a]?)

/-- Enough passes for any loop over layouts. -/
def Env.fuel (E : Env Dat) : Nat := E.lays.length

/-- `change_layout`. field.py L651-662. -/
def changeLayout (E : Env Dat) (f : FState Dat) (l : Nat) : Option (FState Dat) :=
  if f.layout < l then whileLoop (fun g => decide (g.layout < l)) (towardsGrid E) E.fuel f
  else if f.layout > l then whileLoop (fun g => decide (g.layout > l)) (towardsCoeff E) E.fuel f
  else some f

/-- `require_grid_space`. field.py L674-681. -/
def requireGrid (E : Env Dat) (f : FState Dat) (axis : Option Nat) : Option (FState Dat) :=
  match axis with
  | none => whileLoop (fun g => ((List.range E.D).any fun a => gridFlag E g.layout a != some true)) (towardsGrid E) E.fuel f
  | some a => whileLoop (fun g => gridFlag E g.layout a != some true) (towardsGrid E) E.fuel f

/-- `require_coeff_space`. field.py L683-690. -/
def requireCoeff (E : Env Dat) (f : FState Dat) (axis : Option Nat) : Option (FState Dat) :=
  match axis with
  | none => whileLoop (fun g => ((List.range E.D).any fun a => gridFlag E g.layout a == some true)) (towardsCoeff E) E.fuel f
  | some a => whileLoop (fun g => gridFlag E g.layout a == some true) (towardsCoeff E) E.fuel f

/-- `require_local`. field.py L692-700. -/
def requireLocal (E : Env Dat) (f : FState Dat) (a : Nat) : Option (FState Dat) :=
  if gridFlag E f.layout a = some true then
    whileLoop (fun g => locFlag E g.layout a != some true) (towardsCoeff E) E.fuel f
  else whileLoop (fun g => locFlag E g.layout a != some true) (towardsGrid E) E.fuel f

/-- "Forward transform until remaining scales match": the loop over the axes from the last, called
with the number of axes left. field.py L640-645. -/
def matchScales (E : Env Dat) (f : FState Dat) (new : List ℚ) : Nat → Option (FState Dat)
  | 0 => some f
  | a + 1 =>
    if gridFlag E f.layout a != some true then some f
    else if f.scales[a]? ≠ new[a]? then requireCoeff E f (some a)
    else matchScales E f new a

/-- `change_scales` with remedied scales. field.py L631-649. -/
def changeScales (E : Env Dat) (f : FState Dat) (new : List ℚ) : Option (FState Dat) :=
  if new = f.scales then some f
  else do
    let f ← matchScales E f new E.D
    let old := f.data
    let f := presetScales E f new
    some (f.setMem f.cur old)

/-- The scales part of an item key. -/
abbrev Key := Nat × Option ScaleArg

/-- `__getitem__`. field.py L578-586. -/
def getItem (E : Env Dat) (f : FState Dat) (k : Key) : Option (FState Dat × Dat) := do
  let f ← match k.2 with
    | none => some f
    | some a => (remedy E.D a).bind (changeScales E f)
  let f ← changeLayout E f k.1
  some (f, f.data)

/-- `__setitem__`. field.py L588-597. -/
def setItem (E : Env Dat) (f : FState Dat) (k : Key) (d : Dat) : Option (FState Dat) := do
  let f ← match k.2 with
    | none => some f
    | some a => (remedy E.D a).map (presetScales E f)
  let f := presetLayout f k.1
  some (f.setMem f.cur d)

/-- `low_pass_filter` given scales. field.py L945-967. -/
def lowPass (E : Env Dat) (f : FState Dat) (s : List ℚ) : Option (FState Dat) := do
  let orig := f.scales
  let f ← changeScales E f s
  let f ← requireGrid E f none
  changeScales E f orig

/-- `high_pass_filter` given scales; `sub` is the subtraction of data. field.py L969-984. -/
def highPass (E : Env Dat) (sub : Dat → Dat → Dat) (f : FState Dat) (s : List ℚ) : Option (FState Dat) := do
  let (f, orig) ← getItem E f (0, none)
  let f ← lowPass E f s
  let (f, filt) ← getItem E f (0, none)
  setItem E f (0, none) (sub orig filt)

/-- User-level operations on a field. -/
inductive Op (Dat : Type)
  | get (k : Key)
  | set (k : Key) (d : Dat)
  | changeScales (a : ScaleArg)
  | changeLayout (l : Nat)
  | requireGrid (axis : Option Nat)
  | requireCoeff (axis : Option Nat)
  | requireLocal (axis : Nat)

/-- Perform one operation; the second component is what a read returns. -/
def perform (E : Env Dat) (f : FState Dat) : Op Dat → Option (FState Dat × Option Dat)
  | .get k => (getItem E f k).map fun (f, d) => (f, some d)
  | .set k d => (setItem E f k d).map fun f => (f, none)
  | .changeScales a => ((remedy E.D a).bind (changeScales E f)).map fun f => (f, none)
  | .changeLayout l => (changeLayout E f l).map fun f => (f, none)
  | .requireGrid a => (requireGrid E f a).map fun f => (f, none)
  | .requireCoeff a => (requireCoeff E f a).map fun f => (f, none)
  | .requireLocal a => (requireLocal E f a).map fun f => (f, none)

/-- A sequence of operations. -/
def performAll (E : Env Dat) (f : FState Dat) : List (Op Dat) → Option (FState Dat × List (Option Dat))
  | [] => some (f, [])
  | o :: os => do
    let (f, r) ← perform E f o
    let (f, rs) ← performAll E f os
    some (f, r :: rs)

/-! ### Solver steps and the cached views (C07) -/

/-- A field together with the buffer that a solver's subproblems have cached views of
(`_input_field_views`, a `CachedMethod` on the tuple of fields). subsystems.py L322-330. -/
structure SolverView (Dat : Type) where
  field : FState Dat
  view : Option Nat

/-- The field operations of one solver step: to coefficient space; gather through the views
(subsystems.py L340-352), which are built at the first gather; the evaluation of the right-hand sides, which
may move the field (`evals`); relabel as coefficients; scatter the solution through the views
(subsystems.py L366-374). Returns what was gathered. timesteppers.py L144-149, L152-155, L168-183. -/
def solverStep (E : Env Dat) (evals : List (Op Dat)) (solve : Dat → Dat) (s : SolverView Dat) :
    Option (SolverView Dat × Dat) := do
  let f ← requireCoeff E s.field none
  let v := s.view.getD f.cur
  let x0 := f.mem v
  let (f, _) ← performAll E f evals
  let f := presetLayout f 0
  some (⟨f.setMem v (solve x0), some v⟩, x0)

/-- What happens to a field of a problem: user operations and solver steps. -/
inductive SolverOp (Dat : Type)
  | user (o : Op Dat)
  | step (evals : List (Op Dat)) (solve : Dat → Dat)

/-- A history of a solver run; returned are the data read by the user and those gathered by the solver. -/
def runSolver (E : Env Dat) (s : SolverView Dat) : List (SolverOp Dat) → Option (SolverView Dat × List (Option Dat))
  | [] => some (s, [])
  | .user o :: os => do
    let (f, r) ← perform E s.field o
    let (s, rs) ← runSolver E { s with field := f } os
    some (s, r :: rs)
  | .step evals solve :: os => do
    let (s, x) ← solverStep E evals solve s
    let (s, rs) ← runSolver E s os
    some (s, some x :: rs)

end Dedalus.Field
