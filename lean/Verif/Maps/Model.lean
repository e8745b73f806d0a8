import Verif.Subsys.Model
import Verif.Sphere.Model

/-! Degree maps of spherical bases: the tuples `(ell, m_slice, ell_slice)` with which ball, shell and sphere
operators and transforms visit the local coefficients. One block of rows and columns of the packed coefficient array
belongs to one process. -/

namespace Dedalus.Maps
open Subsys

/-- The local group array of a process that has the rows from `r0` and the columns from `c0`
(`Layout.local_group_arrays`, `dedalus/core/distributor.py` L425-433, with `SphereBasis.elements_to_groups`,
`dedalus/core/basis.py` L2852-2888). `G` is the global group array. The radial axis is coupled and has no effect on the
maps, so it is left out. -/
def localGroups (G : Nat → Nat → Int × Int) (r0 c0 : Nat) : Idx → ElemGroup
  | [i, j] => [some (G (r0 + i) (c0 + j)).1, some (G (r0 + i) (c0 + j)).2]
  | _ => []

/-- One entry of the maps: degree, row slice, column slice. -/
structure Entry where
  ell : Int
  rows : Nat × Nat
  cols : Nat × Nat
deriving DecidableEq, Repr

/-- `SphereBasis.ell_maps` (`dedalus/core/basis.py` L2983-3011) for a local array of `R` rows and `C` columns; `b` is the
number of rows of a group (1 for complex, 2 for real dtype). The azimuthal axis is coupled, the colatitude
axis is not. `Spherical3DBasis.ell_maps` (`dedalus/core/basis.py` L4162-4163) is the same. -/
def ellMaps (G : Nat → Nat → Int × Int) (b r0 c0 R C : Nat) : List Entry :=
  (localGroupsets [true, false] ((allIdx [R, C]).map (localGroups G r0 c0))).flatMap fun gs =>
    match gs with
    | [_, some ell] => (groupsetSlices (localGroups G r0 c0) [R, C] [b, 1] gs).filterMap fun s =>
        match s with
        | [m, e] => some ⟨ell, m, e⟩
        | _ => none
    | _ => []

/-- Indexing with the slices of an entry reaches the slot `(i, j)`. -/
def Entry.covers (e : Entry) (i j : Nat) : Bool :=
  decide (e.rows.1 ≤ i) && decide (i < e.rows.2) && (decide (e.cols.1 ≤ j) && decide (j < e.cols.2))

/-- `SphericalEllOperator.operate` for one pair of components (`dedalus/core/operators.py` L3135-3170): the radial
vector of every slot reached by an entry of the maps gets the product with the matrix of the degree of the entry
added. `A ell` is the action of the radial matrix (`apply_matrix`) on a radial vector. The output is zeroed first. -/
def operate {V : Type*} [AddCommMonoid V] (maps : List Entry) (A : Int → V → V) (x : Nat → Nat → V) : Nat → Nat → V :=
  maps.foldl (fun out e => fun i j => if e.covers i j then out i j + A e.ell (x i j) else out i j) (fun _ _ => 0)

/-- Loops that overwrite the data of the slots of an entry, in the order of the maps:
`forward_regularity_recombination` and `backward_regularity_recombination` (`dedalus/core/basis.py` L3595-3628), which apply
the matrix `Q[ell].T` or `Q[ell]` in place. -/
def inPlace {V : Type*} (maps : List Entry) (A : Int → V → V) (x : Nat → Nat → V) : Nat → Nat → V :=
  maps.foldl (fun out e => fun i j => if e.covers i j then A e.ell (out i j) else out i j) x

/-- Loops that write the transform of the input data to the output data: `BallRadialTransform.forward_reduced` and
`backward_reduced` (`dedalus/core/transforms.py` L1480-1500). -/
def assign {V W : Type*} (maps : List Entry) (A : Int → V → W) (x : Nat → Nat → V) (y : Nat → Nat → W) : Nat → Nat → W :=
  maps.foldl (fun out e => fun i j => if e.covers i j then A e.ell (x i j) else out i j) y

end Dedalus.Maps
