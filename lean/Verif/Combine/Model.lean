import Mathlib.Algebra.Ring.Defs
import Mathlib.Algebra.BigOperators.Group.List.Basic

/-!
# Combining the matrices of a subproblem

`subsystems.Subproblem.build_matrices` keeps each matrix in compressed sparse
row form.  On request it also stores copies with a common pattern, so that the
time steppers combine them by arithmetic on the bare data arrays.

Numbers are exact elements of a commutative ring.  A matrix solver is modelled
by the matrix it was built from: every class of `libraries/matsolvers.py`
copies or factorises its matrix in its constructor.
-/

namespace Dedalus.Combine

variable {K : Type}

/-- Exceptions: a missing attribute, arrays of different sizes handed to numpy,
and the refusal of the BLAS wrappers to take empty arrays. -/
inductive Exc
  | attribute
  | shape
  | emptyBlas
  deriving DecidableEq, Repr

/-- A scipy COO matrix: shape and list of (row, column, value), any order,
repetitions allowed (tools/array.py L55-61, L67-74). -/
structure Coo (K : Type) where
  nrows : Nat
  ncols : Nat
  entries : List (Nat × Nat × K)

/-- A scipy CSR matrix: shape and its three arrays (subsystems.py L574-588). -/
structure Csr (K : Type) where
  nrows : Nat
  ncols : Nat
  indptr : List Nat
  indices : List Nat
  data : List K
  deriving DecidableEq, Repr

/-- The rows of a CSR matrix: for two neighbouring row pointers, the columns
and values between them, as read by `tocoo` (tools/array.py L55, L67-68). -/
def Csr.rows (c : Csr K) : List (List (Nat × K)) :=
  (c.indptr.zip c.indptr.tail).map fun pq =>
    ((c.indices.zip c.data).drop pq.1).take (pq.2 - pq.1)

/-- `A.tocoo()` (tools/array.py L55, L67-68). -/
def Csr.tocoo (c : Csr K) : Coo K where
  nrows := c.nrows
  ncols := c.ncols
  entries := c.rows.zipIdx.flatMap fun ri => ri.1.map fun jv => (ri.2, jv.1, jv.2)

/-- Put one entry into a row sorted by column, adding to the entry already
there.  Sorting and summing of duplicates by `tocsr` (subsystems.py L581, L585),
one entry at a time. -/
def insertAdd [Add K] (e : Nat × K) : List (Nat × K) → List (Nat × K)
  | [] => [e]
  | f :: fs =>
    if e.1 < f.1 then e :: f :: fs
    else if e.1 = f.1 then (f.1, e.2 + f.2) :: fs
    else f :: insertAdd e fs

/-- One row of `tocsr`: sorted, without duplicates, zeros kept
(subsystems.py L581, L585). -/
def canonRow [Add K] (r : List (Nat × K)) : List (Nat × K) := r.foldr insertAdd []

/-- Row pointers of rows of the given lengths, from a starting value
(subsystems.py L581, L585). -/
def pointers : Nat → List Nat → List Nat
  | s, [] => [s]
  | s, n :: ns => s :: pointers (s + n) ns

/-- The three arrays of a CSR matrix with the given rows (subsystems.py L581, L585). -/
def ofRows (nrows ncols : Nat) (rs : List (List (Nat × K))) : Csr K where
  nrows := nrows
  ncols := ncols
  indptr := pointers 0 (rs.map List.length)
  indices := rs.flatten.map Prod.fst
  data := rs.flatten.map Prod.snd

/-- `A.tocsr()` of a COO matrix (subsystems.py L581, L585). -/
def Coo.tocsr [Add K] (c : Coo K) : Csr K :=
  ofRows c.nrows c.ncols ((List.range c.nrows).map fun i =>
    canonRow (c.entries.filterMap fun e => if e.1 = i then some e.2 else none))

/-- `zeros_with_pattern(*args)` (tools/array.py L52-61); `coo[0].shape` of no
arguments is not defined. -/
def zerosWithPattern [Mul K] [Zero K] : List (Csr K) → Option (Coo K)
  | [] => none
  | A :: As => some
    { nrows := A.tocoo.nrows
      ncols := A.tocoo.ncols
      entries := (A :: As).flatMap fun B => B.tocoo.entries.map fun e => (e.1, e.2.1, e.2.2 * 0) }

/-- `expand_pattern(input, pattern)` (tools/array.py L64-74). -/
def expandPattern [Mul K] [Zero K] (input pattern : Csr K) : Coo K where
  nrows := input.tocoo.nrows
  ncols := input.tocoo.ncols
  entries := input.tocoo.entries ++ pattern.tocoo.entries.map fun e => (e.1, e.2.1, e.2.2 * 0)

/-- The names matrices are built under (solvers.py L391, L476, L565). -/
inductive Name
  | M
  | L
  | dF
  deriving DecidableEq, Repr

/-- What a subproblem and its time stepper keep: `_min` and `_exp` matrices,
`LHS`, the coefficients of the last step and the solvers made at the last
update (subsystems.py L574-588, timesteppers.py L133-140, L576-582). -/
structure State (K : Type) where
  min : Name → Option (Csr K)
  exp : Name → Option (Csr K)
  LHS : Option (Csr K)
  params : Option (K × K)
  solvers : List (Csr K)

/-- A subproblem just created, with a new time stepper. -/
def fresh : State K := ⟨fun _ => none, fun _ => none, none, none, []⟩

/-- `setattr` of several matrices in order (subsystems.py L574-575, L583-585). -/
def setAll (f : Name → Option (Csr K)) (ms : List (Name × Csr K)) : Name → Option (Csr K) :=
  ms.foldl (fun g nm => fun n => if n = nm.1 then some nm.2 else g n) f

/-- The end of `build_matrices(names)`, given the preconditioned matrices
(subsystems.py L573-588); the placeholder has the shape of the first matrix. -/
def build [Add K] [Mul K] [Zero K] (stored : Bool) (ms : List (Name × Csr K)) (s : State K) : State K :=
  let s := { s with min := setAll s.min ms }
  if ms.length > 1 then
    if stored then
      match zerosWithPattern (ms.map Prod.snd) with
      | none => s
      | some Z =>
        let LHS := Z.tocsr
        { s with
          LHS := some LHS
          exp := setAll s.exp (ms.map fun nm => (nm.1, (expandPattern nm.2 LHS).tocsr)) }
    else
      { s with LHS := ms.head?.map fun nm => (Coo.tocsr ⟨nm.2.nrows, nm.2.ncols, []⟩) }
  else s

/-- `np.multiply(a, x, out=y)` on data arrays (timesteppers.py L176).  Arrays of
different sizes are refused; broadcasting of one number is left out. -/
def multiply [Mul K] (a : K) (x y : List K) : Except Exc (List K) :=
  if x.length = y.length then .ok (x.map fun v => a * v) else .error .shape

/-- `np.copyto(y, x)` on data arrays (timesteppers.py L635); as above. -/
def copyto (x y : List K) : Except Exc (List K) :=
  if x.length = y.length then .ok x else .error .shape

/-- BLAS `axpy(a=a, x=x, y=y)`, in place on `y` (timesteppers.py L177, L636).
The wrapper refuses empty arrays, and `y` shorter than `x`. -/
def axpy [Add K] [Mul K] (a : K) (x y : List K) : Except Exc (List K) :=
  if x = [] then .error .emptyBlas
  else if y.length < x.length then .error .shape
  else .ok (List.zipWith (fun u v => a * u + v) x y ++ y.drop x.length)

/-- Reading an attribute. -/
def get (o : Option (Csr K)) : Except Exc (Csr K) :=
  match o with
  | none => .error .attribute
  | some c => .ok c

/-- `a*A + b*B` on CSR matrices (timesteppers.py L179, L638): the CSR form of
the scaled entries.  Scipy also drops zeros from the result. -/
def plus [Add K] [Mul K] (a : K) (A : Csr K) (b : K) (B : Csr K) : Csr K :=
  Coo.tocsr
    { nrows := A.nrows
      ncols := A.ncols
      entries := (A.tocoo.entries.map fun e => (e.1, e.2.1, a * e.2.2)) ++
        (B.tocoo.entries.map fun e => (e.1, e.2.1, b * e.2.2)) }

/-- The combination of a multistep scheme (timesteppers.py L174-179). -/
def combineMultistep [Add K] [Mul K] (stored : Bool) (a0 b0 : K) (s : State K) : Except Exc (State K) :=
  if stored then do
    let M ← get (s.exp .M)
    let LHS ← get s.LHS
    let d ← multiply a0 M.data LHS.data
    let L ← get (s.exp .L)
    let d ← axpy b0 L.data d
    pure { s with LHS := some { LHS with data := d } }
  else do
    let M ← get (s.min .M)
    let L ← get (s.min .L)
    pure { s with LHS := some (plus a0 M b0 L) }

/-- One step of a multistep scheme with coefficients `a0`, `b0` as far as the
matrices are concerned (timesteppers.py L133-140, L172-180). -/
def stepMultistep [DecidableEq K] [Add K] [Mul K] (stored : Bool) (a0 b0 : K) (s : State K) :
    Except Exc (State K) :=
  if some (a0, b0) ≠ s.params then do
    let s := { s with params := some (a0, b0), solvers := [] }
    let s ← combineMultistep stored a0 b0 s
    let LHS ← get s.LHS
    pure { s with solvers := [LHS] }
  else pure s

/-- The combination of a stage of a Runge-Kutta scheme (timesteppers.py L633-638). -/
def combineStage [Add K] [Mul K] [One K] (stored : Bool) (kH : K) (s : State K) : Except Exc (State K) :=
  if stored then do
    let M ← get (s.exp .M)
    let LHS ← get s.LHS
    let d ← copyto M.data LHS.data
    let L ← get (s.exp .L)
    let d ← axpy kH L.data d
    pure { s with LHS := some { LHS with data := d } }
  else do
    let M ← get (s.min .M)
    let L ← get (s.min .L)
    pure { s with LHS := some (plus 1 M kH L) }

/-- The stages of a Runge-Kutta step that updates its solvers
(timesteppers.py L596, L624, L629-639). -/
def stages [Add K] [Mul K] [One K] (stored : Bool) (k : K) : List K → State K → Except Exc (State K)
  | [], s => pure s
  | h :: hs, s => do
    let s ← combineStage stored (k * h) s
    let LHS ← get s.LHS
    stages stored k hs { s with solvers := s.solvers ++ [LHS] }

/-- One step of a Runge-Kutta scheme of time step `k`, with the diagonal of `H`
from the first stage on (timesteppers.py L576-582, L596-639). -/
def stepRK [DecidableEq K] [Add K] [Mul K] [One K] (stored : Bool) (H : List K) (k : K) (s : State K) :
    Except Exc (State K) :=
  if some (k, 1) ≠ s.params then
    stages stored k H { s with params := some (k, 1), solvers := [] }
  else pure s

/-- Two schemes: a multistep scheme gets its coefficients at every step, a
Runge-Kutta scheme has its diagonal and gets its time step. -/
inductive Scheme (K : Type)
  | multistep
  | rungeKutta (H : List K)

/-- What a time stepper remembers of a step: both coefficients of a multistep
scheme, the time step of a Runge-Kutta scheme, paired with one here
(timesteppers.py L134-135, L577-578). -/
def key [One K] : Scheme K → K → K → K × K
  | .multistep, a, b => (a, b)
  | .rungeKutta _, k, _ => (k, 1)

/-- What a user's program does: build matrices, take a step.  The step carries
`(a0, b0)`, of which a Runge-Kutta scheme uses the first as its time step. -/
inductive Op (K : Type)
  | build (ms : List (Name × Csr K))
  | step (a b : K)

/-- One operation (subsystems.py L573-588, timesteppers.py L133-180, L576-639). -/
def run1 [DecidableEq K] [Add K] [Mul K] [Zero K] [One K] (stored : Bool) (sch : Scheme K) :
    Op K → State K → Except Exc (State K)
  | .build ms, s => pure (build stored ms s)
  | .step a b, s =>
    match sch with
    | .multistep => stepMultistep stored a b s
    | .rungeKutta H => stepRK stored H a s

/-- A program. -/
def run [DecidableEq K] [Add K] [Mul K] [Zero K] [One K] (stored : Bool) (sch : Scheme K) :
    List (Op K) → State K → Except Exc (State K)
  | [], s => pure s
  | o :: os, s => do run stored sch os (← run1 stored sch o s)

end Dedalus.Combine
