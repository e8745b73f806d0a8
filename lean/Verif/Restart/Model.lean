import Verif.Output.Model
import Mathlib.Algebra.Order.Floor.Ring
import Mathlib.Data.Rat.Floor

/-!
# Model: restoring a saved state

Models `Field.load_from_hdf5`, `load_from_global_coeff_data` and `load_from_global_grid_data` (`dedalus/core/field.py` L734-780) and
`InitialValueSolver.load_state` (`dedalus/core/solvers.py` L632-673), on one process. Files are as in `Verif.Output`: lists of entries, one for each
write; names are numbers. The grid sizes follow from scales as in `dedalus/core/basis.py` L141-144 and are computed with a rounding `fl` after every
operation: `id` for exact arithmetic, `double` for IEEE doubles.

Simplifications: `func` is `None`; a dataset with another number of axes than the field is refused, where numpy may broadcast; the change of scales
after loading grid data (`dedalus/core/field.py` L780) is left out, so that the data of a field are those that were assigned; logging is left out.
-/

namespace Dedalus.Restart

open Dedalus.Dist Dedalus.Global Dedalus.Output

variable {α T : Type}

/-! ## Numbers -/

/-- The integer nearest to `a / b`, the even one of two. -/
def roundHalfEven (a b : Nat) : Nat :=
  if 2 * (a % b) < b ∨ (2 * (a % b) = b ∧ a / b % 2 = 0) then a / b else a / b + 1

/-- The IEEE double nearest to a number from 1 to `2 ^ 52`: 53 significant bits. -/
def double (x : ℚ) : ℚ :=
  let s := 52 - Nat.log2 (x.num.toNat / x.den)
  (roundHalfEven (x.num.toNat * 2 ^ s) x.den : ℚ) / 2 ^ s

/-- `grid_shape` along one axis (`dedalus/core/basis.py` L141-144; 1 without a basis, `dedalus/core/domain.py` L172-178). -/
def gridSize (fl : ℚ → ℚ) (s : ℚ) (n : Nat) : Nat := if n = 1 then 1 else ⌈fl (s * n)⌉.toNat

/-- The scale of saved data along one axis (`dedalus/core/field.py` L770; the grid at scale 1 has `n` points). -/
def savedScale (fl : ℚ → ℚ) (m n : Nat) : ℚ := fl ((m : ℚ) / n)

/-! ## Fields -/

/-- A field of the solver that loads: what its layouts say on the process mesh of this run. `coeff` is the distribution of the coefficient layout;
`sizes` are the sizes of the grid at scale 1 and `gridLoc`, `gridChunks` describe the grid layout. -/
structure FieldInfo where
  name : Nat
  coeff : Distn
  sizes : List Nat
  gridLoc : List Bool
  gridChunks : List Nat

/-- The distribution of the grid layout at some scales (`dedalus/core/distributor.py` L337-343, L391-401). -/
def FieldInfo.grid (fl : ℚ → ℚ) (f : FieldInfo) (scales : List ℚ) : Distn :=
  ⟨f.gridLoc, f.coeff.mesh, List.zipWith (gridSize fl) scales f.sizes, f.gridChunks, f.coeff.constant, f.coeff.comps⟩

/-- Data of a field on one process: in coefficient space, or on the grid with some scales. -/
inductive Data (α : Type) where
  | coeff (a : NDArr α)
  | grid (scales : List ℚ) (a : NDArr α)

/-- Exceptions. -/
inductive Err where
  | keyError | indexError | valueError | ioError
  deriving DecidableEq, Repr

/-- A dataset: the attribute `grid_space` and the entries. -/
structure Dset (α : Type) where
  gridSpace : List Bool
  entries : List (NDArr α)

/-- Python's index of a list. -/
def pyGet {β : Type} (l : List β) (i : Int) : Option β :=
  if 0 ≤ i then l[i.toNat]? else if 0 ≤ i + l.length then l[(i + l.length).toNat]? else none

/-- `load_from_global_coeff_data` (`dedalus/core/field.py` L747-763) for an entry of a dataset. -/
def loadCoeff (f : FieldInfo) (coords : List Nat) (e : NDArr α) : Except Err (Data α) :=
  if e.shape.drop (e.shape.length - f.coeff.shape.length) ≠ f.coeff.shape then .error .valueError
  else match loadGlobal f.coeff e coords with
    | some a => .ok (.coeff a)
    | none => .error .valueError

/-- `load_from_global_grid_data` (`dedalus/core/field.py` L765-778) for an entry of a dataset. A scale of 0 is refused by `remedy_scales`
(`dedalus/core/distributor.py` L188-197). -/
def loadGrid (fl : ℚ → ℚ) (f : FieldInfo) (coords : List Nat) (e : NDArr α) : Except Err (Data α) :=
  let scales := List.zipWith (savedScale fl) (e.shape.drop (e.shape.length - f.sizes.length)) f.sizes
  if 0 ∈ scales then .error .valueError
  else match loadGlobal (f.grid fl scales) e coords with
    | some a => .ok (.grid scales a)
    | none => .error .valueError

/-- `load_from_hdf5` (`dedalus/core/field.py` L734-745). -/
def loadField (fl : ℚ → ℚ) (f : FieldInfo) (coords : List Nat) (tasks : Nat → Option (Dset α)) (index : Int) : Except Err (Data α) :=
  match tasks f.name with
  | none => .error .keyError
  | some d =>
    if d.gridSpace.all (· == true) then
      match pyGet d.entries index with
      | none => .error .indexError
      | some e => loadGrid fl f coords e
    else if d.gridSpace.all (· == false) then
      match pyGet d.entries index with
      | none => .error .indexError
      | some e => loadCoeff f coords e
    else .error .valueError

/-! ## The solver -/

/-- The time scales of one write. -/
structure Record (T : Type) where
  simTime : T
  wallTime : T
  timestep : T
  iteration : Nat
  writeNumber : Nat
  deriving DecidableEq

/-- A savefile as h5py shows it. -/
structure SaveFile (α T : Type) where
  scales : List (Record T)
  tasks : Nat → Option (Dset α)

/-- The part of the solver on one process that a loaded state replaces. -/
structure Solver (α T : Type) where
  iteration : Nat
  initialIteration : Nat
  simTime : T
  initialSimTime : T
  fields : List (FieldInfo × Data α)

/-- The loop over the fields (`dedalus/core/solvers.py` L666-672): the fields afterwards, and the exception if there is one. -/
def loadFields (fl : ℚ → ℚ) (coords : List Nat) (tasks : Nat → Option (Dset α)) (index : Int) (allowMissing : Bool) :
    List (FieldInfo × Data α) → List (FieldInfo × Data α) × Option Err
  | [] => ([], none)
  | x :: rest =>
    if (tasks x.1.name).isSome then
      match loadField fl x.1 coords tasks index with
      | .error e => (x :: rest, some e)
      | .ok d => ((x.1, d) :: (loadFields fl coords tasks index allowMissing rest).1, (loadFields fl coords tasks index allowMissing rest).2)
    else if allowMissing then
      (x :: (loadFields fl coords tasks index allowMissing rest).1, (loadFields fl coords tasks index allowMissing rest).2)
    else (x :: rest, some .ioError)

/-- `load_state` (`dedalus/core/solvers.py` L632-673): the solver afterwards, and the write number and timestep or the exception. -/
def loadState (fl : ℚ → ℚ) (coords : List Nat) (file : SaveFile α T) (index : Int) (allowMissing : Bool) (s : Solver α T) :
    Solver α T × Except Err (Nat × T) :=
  match pyGet file.scales index with
  | none => (s, .error .indexError)
  | some r =>
    let out := loadFields fl coords file.tasks index allowMissing s.fields
    (⟨r.iteration, r.iteration, r.simTime, r.simTime, out.1⟩,
      match out.2 with
      | some e => .error e
      | none => .ok (r.writeNumber, r.timestep))

/-- A file of a handler as h5py shows it: the tasks of the handler with the attribute `grid_space` of their layouts
(`dedalus/core/evaluator.py` L527-536). -/
def view {B : Type} (read : B → Nat → Option (List (NDArr α))) (tasks : List Task) (gridSpace : Nat → List Bool) (f : H5 (Record T) B) : SaveFile α T :=
  ⟨f.scales, fun n => if n ∈ tasks.map Task.name then (read f.body n).map fun es => ⟨gridSpace n, es⟩ else none⟩

end Dedalus.Restart
