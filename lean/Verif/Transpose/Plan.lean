import Verif.Dist.Block
import Mathlib.Logic.Function.Basic

/-!
# Model: transpose planning and grouped moves

Models `Transpose._sub_shape`, `Transpose._plan`, `Transpose._group_plans`,
`Transpose.increment/decrement(_single/_group)` and `Transform.increment/decrement` of
/repo/dedalus/core/distributor.py, and the block arithmetic of `FFTWTranspose.__init__` in
/repo/dedalus/core/transposes.pyx.
-/

namespace Dedalus.Transpose

open Dedalus.Dist

/-- Block start and end of `FFTWTranspose.__init__` along one axis for one rank.
transposes.pyx L74-91. -/
def fftwBlock (N C P r : Nat) : Nat × Nat :=
  let CG := ceilDiv N C
  let CL := ceilDiv CG P
  let B := C * CL
  (min (B * r) N, min (B * (r + 1)) N)

/-- Block start and end of `AlltoallvTranspose.__init__` along one axis for one rank: the chunk
shape is not an argument. transposes.pyx L300-308. -/
def mpiBlock (N P r : Nat) : Nat × Nat :=
  let B := ceilDiv N P
  (min (B * r) N, min (B * (r + 1)) N)

/-- `Transpose._sub_shape`: local shape with the two transposed axes replaced by their global size.
distributor.py L718-727. -/
def subShape (loc : List Bool) (mesh shape chunks : List Nat) (constant : List Bool) (axis : Nat)
    (coords : List Nat) : Option (List Nat) :=
  match layoutElements loc mesh shape chunks constant false coords, shape[axis]?, shape[axis+1]? with
  | some els, some n, some n' => some (((els.map List.length).set axis n).set (axis+1) n')
  | _, _, _ => none

/-- Outcome of `Transpose._plan`: no data, no change, or a communication plan.
distributor.py L729-740. -/
inductive PlanKind | noData | noChange | communicate
deriving DecidableEq, Repr

/-- distributor.py L730-740. -/
def planKind (sub chunk : List Nat) (axis : Nat) : PlanKind :=
  if sub.foldl (· * ·) 1 = 0 then .noData
  else if sub[axis]? = chunk[axis]? ∧ sub[axis+1]? = chunk[axis+1]? then .noChange
  else .communicate

/-! ### Grouped moves

Fields live in a store (they are mutated in place). `comps` are the tensor components of the
field's data, `key` the pair (sub_shape, chunk_shape), `upper` tells whether the field's layout
label is `layout1` of the path. `hasPlan key` is "`_plan` is not None". A plan acts on each
component separately (for the all-to-all plan this is the content of `localize_rows_correct`: the
component index is part of `N0`); `up key`/`down key` is that action. Empty local data
(distributor.py L849-862) are not special here: concatenating no components. -/

/-- A field as seen by a path. -/
structure Fld (K α : Type) where
  key : K
  comps : List α
  upper : Bool

/-- The store of fields by identity. -/
abbrev Store (K α : Type) := Nat → Fld K α

/-- What the plans of one Transpose path do. -/
structure Plans (K α : Type) where
  hasPlan : K → Bool
  up : K → α → α
  down : K → α → α

variable {K α : Type}

/-- `increment_single`. distributor.py L797-809. -/
def incSingle (P : Plans K α) (s : Store K α) (i : Nat) : Store K α :=
  let f := s i
  if P.hasPlan f.key then
    Function.update s i { f with upper := true, comps := f.comps.map (P.up f.key) }
  else Function.update s i { f with upper := true }

/-- `decrement_single`. distributor.py L814-826. -/
def decSingle (P : Plans K α) (s : Store K α) (i : Nat) : Store K α :=
  let f := s i
  if P.hasPlan f.key then
    Function.update s i { f with upper := false, comps := f.comps.map (P.down f.key) }
  else Function.update s i { f with upper := false }

/-- Insert into the ordered dictionary of `_group_plans`. distributor.py L752-759. -/
def insertGroup [DecidableEq K] (k : K) (i : Nat) : List (K × List Nat) → List (K × List Nat)
  | [] => [(k, [i])]
  | (k', is) :: rest => if k = k' then (k', is ++ [i]) :: rest else (k', is) :: insertGroup k i rest

/-- `_group_plans`: fields by key, in order of first appearance. distributor.py L749-768. -/
def groupPlans [DecidableEq K] (s : Store K α) (is : List Nat) : List (K × List Nat) :=
  is.foldl (fun gs i => insertGroup (s i).key i gs) []

/-- "Split up transposed data": distributor.py L866-871, L915-920. `pos` is the Python `i`. -/
def splitBack (out : List α) (upper : Bool) : List Nat → Nat → Store K α → Store K α
  | [], _, s => s
  | i :: is, pos, s =>
    let f := s i
    let ncomp := f.comps.length
    splitBack out upper is (pos + ncomp)
      (Function.update s i { f with upper := upper, comps := (out.drop pos).take ncomp })

/-- `increment_group` for one group. distributor.py L831-875. -/
def incGroupOne (P : Plans K α) (s : Store K α) (g : K × List Nat) : Store K α :=
  if P.hasPlan g.1 then
    match g.2 with
    | [i] => Function.update s i { (s i) with upper := true, comps := (s i).comps.map (P.up g.1) }
    | is => splitBack ((is.flatMap (fun i => (s i).comps)).map (P.up g.1)) true is 0 s
  else g.2.foldl (fun s i => Function.update s i { (s i) with upper := true }) s

/-- `decrement_group` for one group. distributor.py L880-924. The last branch presets `layout1`,
as the code does. -/
def decGroupOne (P : Plans K α) (s : Store K α) (g : K × List Nat) : Store K α :=
  if P.hasPlan g.1 then
    match g.2 with
    | [i] => Function.update s i { (s i) with upper := false, comps := (s i).comps.map (P.down g.1) }
    | is => splitBack ((is.flatMap (fun i => (s i).comps)).map (P.down g.1)) false is 0 s
  else g.2.foldl (fun s i => Function.update s i { (s i) with upper := true }) s

/-- `Transpose.increment`. distributor.py L770-780. `group` is `GROUP_TRANSPOSES`. -/
def increment [DecidableEq K] (P : Plans K α) (group : Bool) (s : Store K α) (is : List Nat) : Store K α :=
  match is with
  | [i] => incSingle P s i
  | is => if group then (groupPlans s is).foldl (incGroupOne P) s else is.foldl (incSingle P) s

/-- `Transpose.decrement`. distributor.py L782-792. -/
def decrement [DecidableEq K] (P : Plans K α) (group : Bool) (s : Store K α) (is : List Nat) : Store K α :=
  match is with
  | [i] => decSingle P s i
  | is => if group then (groupPlans s is).foldl (decGroupOne P) s else is.foldl (decSingle P) s

end Dedalus.Transpose
