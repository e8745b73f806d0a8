import Verif.Perm.Model

/-!
# Model: subsystems, subproblems and their storage

Models `build_subsystems`, `build_subproblems`, `Subsystem`, `Subproblem` buffers of
/repo/dedalus/core/subsystems.py L34-70, L107-166, L302-380, `Layout.local_groupsets` and
`Layout.local_groupset_slices` of /repo/dedalus/core/distributor.py L444-494 and `CoeffSystem` of
/repo/dedalus/core/system.py L39-60.
-/

namespace Dedalus.Subsys

/-- Group of one element: per axis the group number, `none` if masked (`np.ma.masked`). -/
abbrev ElemGroup := List (Option Int)

/-- Group of a subsystem: per axis the group number, `none` (Python None) for a coupled axis. -/
abbrev Group := List (Option Int)

/-- Groupset of one element: coupled axes become None, an element masked along another axis is
dropped. distributor.py L446-454. -/
def groupsetOf : List Bool → ElemGroup → Option Group
  | c :: cs, e :: es =>
    if c then (groupsetOf cs es).map (none :: ·)
    else match e with
      | none => none
      | some g => (groupsetOf cs es).map (some g :: ·)
  | _, _ => some []

/-- `OrderedSet.update`: append the elements not yet present. tools/general.py L11-40. -/
def addAll {α} [DecidableEq α] (acc l : List α) : List α :=
  l.foldl (fun a x => if x ∈ a then a else a ++ [x]) acc

/-- `Layout.local_groupsets`. The argument lists the groups of the local elements in C order.
distributor.py L445-457. -/
def localGroupsets (coupling : List Bool) (elems : List ElemGroup) : List Group :=
  addAll [] (elems.filterMap (groupsetOf coupling))

def subset (a b : List Group) : Bool := a.all (· ∈ b)

/-- The pairwise nesting check. subsystems.py L47-50. -/
def nested : List (List Group) → Bool
  | [] => true
  | a :: rest => rest.all (fun b => subset a b || subset b a) && nested rest

/-- `build_subsystems`: the groups of the subsystems, or `none` for the ValueError. Fields are the
variables followed by the equations. subsystems.py L34-53. -/
def buildSubsystems (coupling : List Bool) (fields : List (List ElemGroup)) : Option (List Group) :=
  let all := fields.map (localGroupsets coupling)
  if nested all then some (all.foldl addAll []) else none

/-- `Subsystem.__init__`: matrix group. `dep` is `matrix_dependence | matrix_coupling`, `dflt` is
`default_nonconst_groups`. subsystems.py L125-129. -/
def matrixGroup : List Bool → List Int → Group → Group
  | d :: dep, x :: dflt, g :: gs => (if !d && g != some 0 then some x else g) :: matrixGroup dep dflt gs
  | _, _, _ => []

/-- `subsystems_by_group[key].append(s)` on an insertion-ordered dictionary. -/
def dictAppend {κ α} [DecidableEq κ] (k : κ) (x : α) : List (κ × List α) → List (κ × List α)
  | [] => [(k, [x])]
  | (k', l) :: rest => if k' = k then (k', l ++ [x]) :: rest else (k', l) :: dictAppend k x rest

/-- `build_subproblems`: matrix groups with their subsystems. subsystems.py L55-66. -/
def buildSubproblems (dep : List Bool) (dflt : List Int) (subs : List Group) : List (Group × List Group) :=
  subs.foldl (fun d s => dictAppend (matrixGroup dep dflt s) s d) []

/-! ## Slices -/

abbrev Idx := List Nat

/-- All multi-indices of an array in C order. -/
def allIdx : List Nat → List Idx
  | [] => [[]]
  | n :: ns => (List.range n).flatMap fun i => (allIdx ns).map (i :: ·)

/-- A Python slice: `slice(None)` or `slice(lo, hi)`. -/
inductive Sl where
  | all
  | range (lo hi : Nat)
deriving DecidableEq, Repr

def Sl.mem : Sl → Nat → Bool
  | .all, _ => true
  | .range lo hi, i => decide (lo ≤ i) && decide (i < hi)

def inSlices : List Sl → Idx → Bool
  | s :: ss, i :: is => s.mem i && inSlices ss is
  | _, _ => true

/-- Does an element match a groupset? A masked entry never does. distributor.py L465-469. -/
def selected : Group → ElemGroup → Bool
  | g :: gs, e :: es => (match g with | none => true | some _ => e == g) && selected gs es
  | _, _ => true

/-- Slices to loop over along each axis. distributor.py L471-478. -/
def subslices : Group → List Nat → List Nat → List (List Sl)
  | g :: gs, n :: shape, b :: bshape =>
    (match g with
      | none => [Sl.all]
      | some _ => (List.range ((n + b - 1) / b)).map fun k => Sl.range (k * b) (k * b + b)) :: subslices gs shape bshape
  | _, _, _ => []

/-- `itertools.product`. -/
def product {α} : List (List α) → List (List α)
  | [] => [[]]
  | l :: ls => l.flatMap fun x => (product ls).map (x :: ·)

/-- Smallest entry of a list that is not empty (`np.min`). -/
def lmin : List Nat → Nat
  | [] => 0
  | [x] => x
  | x :: y :: l => min x (lmin (y :: l))

def lmax : List Nat → Nat
  | [] => 0
  | [x] => x
  | x :: y :: l => max x (lmax (y :: l))

/-- The group slice for one product slice with selected elements `hits`, from axis `i` on.
distributor.py L484-492. -/
def groupSlice (hits : List Idx) : Nat → List Sl → List (Nat × Nat)
  | _, [] => []
  | i, s :: ss =>
    (match s with
      | .range lo hi => (lo, hi)
      | .all => (lmin (hits.filterMap (·[i]?)), lmax (hits.filterMap (·[i]?)) + 1)) :: groupSlice hits (i + 1) ss

/-- `Layout.local_groupset_slices`. `groups` is the local group array. distributor.py L460-494. -/
def groupsetSlices (groups : Idx → ElemGroup) (shape bshape : List Nat) (gset : Group) : List (List (Nat × Nat)) :=
  (product (subslices gset shape bshape)).filterMap fun s =>
    let hits := (allIdx shape).filter fun i => inSlices s i && selected gset (groups i)
    if hits = [] then none else some (groupSlice hits 0 s)

/-- `Subsystem.coeff_slices`. subsystems.py L131-138. -/
def coeffSlices (groups : Idx → ElemGroup) (shape bshape : List Nat) (gset : Group) : Option (List (Nat × Nat)) :=
  match groupsetSlices groups shape bshape gset with
  | [] => some (shape.map fun _ => (0, 0))
  | [s] => some s
  | _ => none

/-- Membership of an element in the slices returned. -/
def inBox : List (Nat × Nat) → Idx → Bool
  | r :: rs, i :: is => decide (r.1 ≤ i) && decide (i < r.2) && inBox rs is
  | _, _ => true

/-! ## Gather and scatter -/

/-- Address of one stored number: field number and position in its data array (components first, then
coefficient index, as in `field_slices`). -/
abbrev Addr := Nat × Idx

/-- Addresses of the elements of one field that belong to a subsystem, in C order of the sliced view.
`comps` is the component shape, `box` the coefficient slices. subsystems.py L152-162. -/
def fieldAddrs (f : Nat) (comps shape : List Nat) (box : List (Nat × Nat)) : List Addr :=
  (allIdx comps).flatMap fun c => ((allIdx shape).filter (inBox box)).map fun i => (f, c ++ i)

/-- What the buffers need of a field: component shape, local coefficient shape, slices of every
subsystem of the subproblem. -/
structure FieldInfo where
  comps : List Nat
  shape : List Nat
  boxes : List (List (Nat × Nat))
deriving DecidableEq

/-- Column `j` of the buffer: addresses of the field entries viewed by its rows, fields in order.
Fields without data for the subproblem contribute no rows. subsystems.py L302-329. -/
def column (fields : List FieldInfo) (j : Nat) : List Addr :=
  (fields.zipIdx).flatMap fun (f, n) => match f.boxes[j]? with
    | some box => fieldAddrs n f.comps f.shape box
    | none => []

abbrev Store (R : Type) := Addr → R

/-- Copying the field views to a buffer column. subsystems.py L343-345. -/
def readCol {R} (st : Store R) (addrs : List Addr) : List R := addrs.map st

/-- Copying a buffer column to the field views, one entry after the other. subsystems.py L369-371. -/
def writeCol {R} (st : Store R) : List Addr → List R → Store R
  | a :: as, v :: vs => writeCol (fun b => if b = a then v else st b) as vs
  | _, _ => st

/-- Rows kept by the preconditioner; `src` are its source indices. subsystems.py L349, array.py L171. -/
def compress {R} (src : List Nat) (col : List R) : List R := src.filterMap (col[·]?)

/-- Application of the transposed preconditioner: kept rows go back to their place, the others are
zero. subsystems.py L367. -/
def expand {R} [Zero R] (src : List Nat) (n : Nat) (v : List R) : List R :=
  (List.range n).map fun i => if i ∈ src then ((v[src.idxOf i]?).getD 0) else 0

/-- `gather_inputs` (column by column). subsystems.py L340-350. -/
def gatherInputs {R} (src : List Nat) (cols : List (List Addr)) (st : Store R) : List (List R) :=
  cols.map fun c => compress src (readCol st c)

/-- `scatter_inputs`: expand all columns to the buffer, then write them to the fields (the order of the
writes of the code is by field, here by column; the addresses are disjoint). subsystems.py L364-371. -/
def scatterInputs {R} [Zero R] (src : List Nat) : List (List Addr) → List (List R) → Store R → Store R
  | c :: cs, v :: vs, st => scatterInputs src cs vs (writeCol st c (expand src c.length v))
  | _, _, st => st

/-! ## CoeffSystem -/

/-- A subproblem as seen by `CoeffSystem`: number of columns of its LHS matrix and of its subsystems. -/
structure SpSize where
  rows : Nat
  subsystems : Nat

/-- `CoeffSystem.__init__`: buffer size. system.py L41. -/
def totalSize (sps : List SpSize) : Nat := (sps.map fun s => s.rows * s.subsystems).sum

/-- The slices `i0:i1` of the subsystems of one subproblem and the final `i1`. system.py L49-52. -/
def ssViews (i0 rows : Nat) : Nat → List (Nat × Nat)
  | 0 => []
  | k + 1 => (i0, i0 + rows) :: ssViews (i0 + rows) rows k

/-- Views of all subproblems: range of the subproblem and ranges of its subsystems. system.py L44-57. -/
def spViews (i0 : Nat) : List SpSize → List ((Nat × Nat) × List (Nat × Nat))
  | [] => []
  | s :: rest => ((i0, i0 + s.rows * s.subsystems), ssViews i0 s.rows s.subsystems) ::
      spViews (i0 + s.rows * s.subsystems) rest

end Dedalus.Subsys
