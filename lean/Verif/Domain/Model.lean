import Mathlib.Data.List.Sort
import Mathlib.Data.List.Nodup

/-!
# Coordinate systems and domains

Model of the comparison of coordinates and coordinate systems (`dedalus/core/coords.py`), of the axes of a distributor
(`dedalus/core/distributor.py`), of `Domain` (`dedalus/core/domain.py`) and of the domains of sums and products
(`dedalus/core/arithmetic.py`).

Python objects that are hashed by `id` (coordinates, systems, bases) are compared by a number `id` where the code uses sets and dictionaries,
and with their `__eq__` where the code uses `==`, `in` and `index`.
-/

namespace Dedalus.Domain

/-- A coordinate: its class (`Coordinate` or `AzimuthalCoordinate`) and name (`dedalus/core/coords.py` L66-83, L192-193). `__eq__` compares exactly
these two, so `=` of this structure is `==`. -/
structure Coord where
  azimuthal : Bool := false
  name : String
  deriving DecidableEq, Repr

/-- The classes of coordinate systems (`dedalus/core/coords.py` L99, L159, L201, L255, L315). -/
inductive Kind where
  | product | cartesian | s2 | polar | spherical
  deriving DecidableEq, Repr

/-- A coordinate system. `id` is the identity of the object. -/
structure System where
  id : Nat
  kind : Kind
  coords : List Coord
  deriving DecidableEq, Repr

/-- The loop of `CoordinateSystem.__eq__`, with the `return True` inside the loop (`dedalus/core/coords.py` L24-28). -/
def System.eqLoop : List Coord → List Coord → Bool
  | [], _ => false
  | c :: _, d :: _ => if c ≠ d then false else true
  | _ :: _, [] => false

/-- `CoordinateSystem.__eq__` (`dedalus/core/coords.py` L21-28). -/
def System.eq (a b : System) : Bool :=
  if a.kind = b.kind then
    if a.coords.length = b.coords.length then System.eqLoop a.coords b.coords else false
  else false

/-- Comparison of the elements of two tuples: the same object, or equal by `__eq__`. -/
def System.same (a b : System) : Bool := a.id == b.id || a.eq b

/-- `unify_attributes((arg0, arg1), 'tensorsig')` (`dedalus/tools/general.py` L62-85): the signature, or a ValueError. -/
def unifySig (s t : List System) : Option (List System) :=
  if s.length = t.length ∧ (s.zip t).all fun p => p.1.same p.2 then some s else none

/-- `self.coords.index(coord)` of `Distributor.get_axis` (`dedalus/core/distributor.py` L202-205): the first equal coordinate, a ValueError
if there is none. For systems the first coordinate is looked up. -/
def getAxis (coords : List Coord) (c : Coord) : Option Nat := coords.findIdx? fun d => d == c

/-- The check for repeated coordinates of `DirectProduct` compares objects, not names: `ids` are the identities of the coordinates
(`dedalus/core/coords.py` L107-108). `Distributor.__init__` makes no check (`dedalus/core/distributor.py` L87). -/
def repeated (ids : List Nat) : Bool := decide (ids.dedup.length < ids.length)

/-- A basis: its identity, the identity of `basis.coords` (a coordinate or a system, the same object as `basis.coordsys`), the axis of its first
coordinate (`Distributor.get_basis_axis`, `dedalus/core/distributor.py` L207-208) and its dimension. -/
structure Basis where
  id : Nat
  key : Nat
  axis : Nat
  dim : Nat
  deriving DecidableEq, Repr

/-- `OrderedSet` (`dedalus/tools/general.py` L11-24): the first occurrences, in order. -/
def orderedSet (l : List Basis) : List Basis := l.foldl (fun acc b => if b ∈ acc then acc else acc ++ [b]) []

/-- `Domain._preprocess_args` (`dedalus/core/domain.py` L29-42): Nones and duplicates dropped, a ValueError if two bases have the same coordinate system,
sorted (stably) by first axis. -/
def domain (bases : List (Option Basis)) : Option (List Basis) :=
  let l := orderedSet (bases.filterMap id)
  let cs := l.map Basis.key
  if cs.dedup.length < cs.length then none else some (l.insertionSort fun a b => a.axis ≤ b.axis)

/-- The attributes of a domain that are one value per axis: a default, overwritten by every basis along its axes, an IndexError beyond the
dimension of the distributor (`dedalus/core/domain.py` L61-67 `full_bases`, L82-88 `dealias`, L132-140 `constant`, L146-154 `mode_dependence`, L172-178
`global_shape`, L180-188 `chunk_shape`, L190-198 `group_shape`). -/
def perAxis {α : Type} (dim : Nat) (default : α) (f : Basis → Nat → α) (D : List Basis) : Option (List α) :=
  D.foldlM (fun full b => (List.range b.dim).foldlM (fun full s => if b.axis + s < full.length then some (full.set (b.axis + s) (f b s)) else none) full)
    (List.replicate dim default)

/-- `full_bases` (`dedalus/core/domain.py` L61-67). -/
def fullBases (dim : Nat) (D : List Basis) : Option (List (Option Basis)) := perAxis dim none (fun b _ => some b) D

/-- `get_basis(axis)` (`dedalus/core/domain.py` L97-102): the inner option is None, the outer one an IndexError. -/
def getBasis (dim : Nat) (D : List Basis) (axis : Nat) : Option (Option Basis) := (fullBases dim D).bind fun F => F[axis]?

/-- `get_basis_subaxis(coord)` (`dedalus/core/domain.py` L104-109). -/
def basisSubaxis (D : List Basis) (axis : Nat) : Option Nat :=
  (D.find? fun b => decide (b.axis ≤ axis ∧ axis < b.axis + b.dim)).map fun b => axis - b.axis

/-- `substitute_basis(old_basis, new_basis)` (`dedalus/core/domain.py` L90-95). -/
def substitute (D : List Basis) (old new : Option Basis) : Option (List Basis) :=
  let rest := match old with
    | none => D
    | some b => D.erase b
  domain (rest.map some ++ [new])

/-- Assignment to an `OrderedDict`: in place, or at the end. -/
def assign (t : List (Nat × Option Basis)) (k : Nat) (v : Option Basis) : List (Nat × Option Basis) :=
  if k ∈ t.map Prod.fst then t.map fun p => if p.1 = k then (k, v) else p else t ++ [(k, v)]

/-- `bases_by_coord` (`dedalus/core/domain.py` L69-80). `keys` are, for each coordinate of the distributor, the coordinate itself if it belongs to no
system or to a Cartesian one, else its system. -/
def byCoord (keys : List Nat) (D : List Basis) : List (Nat × Option Basis) :=
  D.foldl (fun t b => assign t b.key (some b)) (keys.foldl (fun t k => assign t k none) [])

/-- Dictionary lookup; `none` is a missing key. -/
def lookup (t : List (Nat × Option Basis)) (k : Nat) : Option (Option Basis) := (t.find? fun p => p.1 == k).map Prod.snd

/-- `Add._build_bases` for two arguments (`dedalus/core/arithmetic.py` L97-113; also `DirectProductGradient`, `dedalus/core/operators.py` L2431-2448):
over the keys of the first argument, missing keys of the other count as None. `add` is `+` of two bases, `none` for a TypeError. -/
def sumBases (add : Basis → Basis → Option Basis) (keys : List Nat) (D0 D1 : List Basis) : Option (List (Option Basis)) :=
  (byCoord keys D0).mapM fun p =>
    match p.2, (lookup (byCoord keys D1) p.1).join with
    | none, none => some none
    | some b, none => some (some b)
    | none, some c => some (some c)
    | some b, some c => (add b c).map some

/-- `Product._build_bases` without NCCs (`dedalus/core/arithmetic.py` L268-286): over the keys of the first argument, a KeyError if the second argument
does not have one of them; `mul` is `*` of two bases, None is neutral. -/
def productBases (mul : Basis → Basis → Option Basis) (keys : List Nat) (D0 D1 : List Basis) : Option (List (Option Basis)) :=
  (byCoord keys D0).mapM fun p =>
    (lookup (byCoord keys D1) p.1).bind fun b1 =>
      match p.2, b1 with
      | none, none => some none
      | some b, none => some (some b)
      | none, some c => some (some c)
      | some b, some c => (mul b c).map some

end Dedalus.Domain
