import Verif.Field.Model
import Verif.Dist.ChainSpec

/-!
# Specification vocabulary for field state (C06, C07, C45)

A field has an abstract value `v : V` (its spectral content). `rep v l s` is its representation in
layout `l` at scales `s`. Going to the grid along an axis and back truncates the value to the modes that
the grid resolves at the scale of that axis: `trunc axis scale`.
-/

namespace Dedalus.Field

open Dedalus.Dist

variable {Dat V : Type}

/-- The layouts of the environment form a chain as built by the distributor (property C02). -/
structure IsChain (E : Env Dat) : Prop where
  length : E.lays.length = E.paths.length + 1
  first : ∃ l0, E.lays[0]? = some l0 ∧ l0.grid = List.replicate E.D false
  last : ∃ l1, E.lays.getLast? = some l1 ∧ l1.grid = List.replicate E.D true
  step : ∀ i l l' p, E.lays[i]? = some l → E.lays[i+1]? = some l' → E.paths[i]? = some p → StepOK l l' p
  loclen : ∀ l ∈ E.lays, l.loc.length = E.D

/-- What is assumed of the paths: they convert between representations of the same value, except that
a transform towards coefficient space truncates along its axis. Representations depend only on the
scales of axes that are in grid space. Proved for Fourier transforms in C37 and for transposes in
C03. -/
structure Sound (E : Env Dat) (rep : V → Nat → List ℚ → Dat) (trunc : Nat → ℚ → V → V) : Prop where
  up : ∀ i p v s, s.length = E.D → E.paths[i]? = some p → E.up p s (rep v i s) = rep v (i+1) s
  down_transform : ∀ i a v s x, s.length = E.D → E.paths[i]? = some ⟨.transform, a⟩ → s[a]? = some x →
    E.down ⟨.transform, a⟩ s (rep v (i+1) s) = rep (trunc a x v) i s
  down_transpose : ∀ i a v s, s.length = E.D → E.paths[i]? = some ⟨.transpose, a⟩ →
    E.down ⟨.transpose, a⟩ s (rep v (i+1) s) = rep v i s
  scales_irrelevant : ∀ v i s s', s.length = E.D → s'.length = E.D →
    (∀ a, gridFlag E i a = some true → s[a]? = s'[a]?) → rep v i s = rep v i s'

/-- Scales at which no mode of the field is lost on the grid. -/
def Lossless (trunc : Nat → ℚ → V → V) (s : List ℚ) : Prop :=
  ∀ a x v, s[a]? = some x → trunc a x v = v

/-- Truncation along all axes. -/
def truncAll (D : Nat) (trunc : Nat → ℚ → V → V) (s : List ℚ) (v : V) : V :=
  (List.range D).foldl (fun v a => match s[a]? with | some x => trunc a x v | none => v) v

/-- The state of a field of value `v`. -/
structure Holds (E : Env Dat) (rep : V → Nat → List ℚ → Dat) (v : V) (f : FState Dat) : Prop where
  data : f.data = rep v f.layout f.scales
  inRange : f.layout < E.lays.length
  len : f.scales.length = E.D
  cur : f.cur < f.fresh

/-- Operations in terms of values: a write is described by the value `w` it writes. -/
inductive UOp (V : Type)
  | get (k : Key)
  | write (k : Key) (w : V)
  | changeScales (a : ScaleArg)
  | changeLayout (l : Nat)
  | requireGrid (axis : Option Nat)
  | requireCoeff (axis : Option Nat)
  | requireLocal (axis : Nat)

/-- The scales meant by an optional argument, the current ones if absent. -/
def scalesMeant (D : Nat) (s : List ℚ) : Option ScaleArg → List ℚ
  | none => s
  | some .none => List.replicate D 1
  | some (.num x) => List.replicate D x
  | some (.tuple xs) => xs

/-- What a field is meant to be: a value and its current scales; reads return the representation of the
last value written. -/
def specRun (rep : V → Nat → List ℚ → Dat) (D : Nat) (v : V) (s : List ℚ) :
    List (UOp V) → V × List ℚ × List (Option Dat)
  | [] => (v, s, [])
  | o :: os =>
    let (v', s', r) : V × List ℚ × Option Dat := match o with
      | .get k => (v, scalesMeant D s k.2, some (rep v k.1 (scalesMeant D s k.2)))
      | .write k w => (w, scalesMeant D s k.2, none)
      | .changeScales a => (v, scalesMeant D s (some a), none)
      | _ => (v, s, none)
    let (v'', s'', rs) := specRun rep D v' s' os
    (v'', s'', r :: rs)

/-- The operations as the user performs them: the data of a write are those of the value in the
requested layout and scales. -/
def concrete (rep : V → Nat → List ℚ → Dat) (D : Nat) (s : List ℚ) : List (UOp V) → List (Op Dat)
  | [] => []
  | .get k :: os => .get k :: concrete rep D (scalesMeant D s k.2) os
  | .write k w :: os => .set k (rep w k.1 (scalesMeant D s k.2)) :: concrete rep D (scalesMeant D s k.2) os
  | .changeScales a :: os => .changeScales a :: concrete rep D (scalesMeant D s (some a)) os
  | .changeLayout l :: os => .changeLayout l :: concrete rep D s os
  | .requireGrid a :: os => .requireGrid a :: concrete rep D s os
  | .requireCoeff a :: os => .requireCoeff a :: concrete rep D s os
  | .requireLocal a :: os => .requireLocal a :: concrete rep D s os

/-- Scales one may ask for: one per axis, nonzero, and losing no mode. -/
def OKScales (D : Nat) (trunc : Nat → ℚ → V → V) (s : List ℚ) : Prop :=
  s.length = D ∧ 0 ∉ s ∧ Lossless trunc s

/-- A legal request: the layout and axis exist, the scales are legal. -/
def Legal (E : Env Dat) (trunc : Nat → ℚ → V → V) : UOp V → Prop
  | .get k => k.1 < E.lays.length ∧ ∀ a, k.2 = some a → OKScales E.D trunc (scalesMeant E.D [] (some a))
  | .write k _ => k.1 < E.lays.length ∧ ∀ a, k.2 = some a → OKScales E.D trunc (scalesMeant E.D [] (some a))
  | .changeScales a => OKScales E.D trunc (scalesMeant E.D [] (some a))
  | .changeLayout l => l < E.lays.length
  | .requireGrid a => ∀ x, a = some x → x < E.D
  | .requireCoeff a => ∀ x, a = some x → x < E.D
  | .requireLocal a => a < E.D

/-- What happens to a field of a problem, in terms of values: user operations, and solver steps that
replace the value `v` by `sol v`. -/
inductive USolverOp (V : Type)
  | user (o : UOp V)
  | step (evals : List (UOp V)) (sol : V → V)

/-- What is meant: a step reads the current value and replaces it by the solution. -/
def specSolver (rep : V → Nat → List ℚ → Dat) (D : Nat) (v : V) (s : List ℚ) : List (USolverOp V) → V × List ℚ × List (Option Dat)
  | [] => (v, s, [])
  | .user o :: os =>
    let (v', s', r) := specRun rep D v s [o]
    let (v'', s'', rs) := specSolver rep D v' s' os
    (v'', s'', r ++ rs)
  | .step evals sol :: os =>
    let s' := (specRun rep D v s evals).2.1
    let (v'', s'', rs) := specSolver rep D (sol v) s' os
    (v'', s'', some (rep v 0 s) :: rs)

/-- The history as it is performed; `lift` turns a map of values into the map of coefficient data. -/
def concreteSolver (rep : V → Nat → List ℚ → Dat) (lift : (V → V) → Dat → Dat) (D : Nat) (v : V) (s : List ℚ) :
    List (USolverOp V) → List (SolverOp Dat)
  | [] => []
  | .user o :: os =>
    (concrete rep D s [o]).map .user ++
      concreteSolver rep lift D (specRun rep D v s [o]).1 (specRun rep D v s [o]).2.1 os
  | .step evals sol :: os =>
    .step (concrete rep D s evals) (lift sol) :: concreteSolver rep lift D (sol v) (specRun rep D v s evals).2.1 os

/-- Evaluating expressions reads and moves a field but does not write to it. -/
def NoWrite : UOp V → Prop
  | .write _ _ => False
  | _ => True

/-- All requests in a history are legal, and evaluations do not write. -/
def LegalSolver (E : Env Dat) (trunc : Nat → ℚ → V → V) : USolverOp V → Prop
  | .user o => Legal E trunc o
  | .step evals _ => ∀ o ∈ evals, Legal E trunc o ∧ NoWrite o

/-- All scales an operation asks for fit into the buffer allocated for the dealias scales. -/
def FitsOp (E : Env Dat) : UOp V → Prop
  | .get k => ∀ a, k.2 = some a → E.fits (scalesMeant E.D [] (some a)) = true
  | .write k _ => ∀ a, k.2 = some a → E.fits (scalesMeant E.D [] (some a)) = true
  | .changeScales a => E.fits (scalesMeant E.D [] (some a)) = true
  | _ => True

/-- The same for a history. -/
def FitsSolver (E : Env Dat) : USolverOp V → Prop
  | .user o => FitsOp E o
  | .step evals _ => ∀ o ∈ evals, FitsOp E o

end Dedalus.Field
