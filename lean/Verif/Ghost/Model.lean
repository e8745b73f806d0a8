import Verif.Dist.Block
import Mathlib.Algebra.BigOperators.Group.Finset.Basic
import Mathlib.Algebra.Ring.Basic
import Mathlib.Algebra.Order.Floor.Defs
import Mathlib.Data.Rat.Floor

/-!
# Products of fields on several processes

Model of `GhostBroadcaster` and of the products of fields (`dedalus/core/arithmetic.py` L823-905, with `DotProduct.operate` L666-675 and
`CrossProduct.operate` L708-729), of the flags of constant axes (`dedalus/core/domain.py` L132-144) and of the grid shapes of bases.

MPI is modelled by its specification: a sub-communicator of a Cartesian communicator has the processes with the same coordinates along the dropped
dimensions, ranked in row-major order of the others, and a broadcast copies the data of its rank 0. Collective calls are recorded, so that their
agreement can be proved. A local array is a shape and a function of indices.
-/

namespace Dedalus.Ghost
open Dist

/-- Coordinates of a process in `comm_cart`, without the dimensions of length 1 (`dedalus/core/distributor.py` L92-98). -/
abbrev Coords := List Nat

/-- A numpy array. -/
structure Arr (V : Type) where
  shape : List Nat
  val : List Nat → V

/-- `x[~layout.local]` (`dedalus/core/arithmetic.py` L877). -/
def compress {α : Type} : List Bool → List α → List α
  | false :: l, x :: xs => x :: compress l xs
  | true :: l, _ :: xs => compress l xs
  | _, _ => []

/-- `deploy_dims` (`dedalus/core/arithmetic.py` L876-877). -/
def deployDims (broadcast constant local_ : List Bool) : List Bool := compress local_ (List.zipWith (· && ·) broadcast constant)

/-- The coordinates of rank 0 of the sub-communicator of process `p` (`comm_cart.Sub(remain_dims)`, `dedalus/core/arithmetic.py` L880). -/
def root (deploy : List Bool) (p : Coords) : Coords := List.zipWith (fun d x => if d then 0 else x) deploy p

/-- The rank in the sub-communicator: row-major order of the remaining dimensions. -/
def subRank : List Bool → List Nat → Coords → Nat → Nat
  | d :: ds, m :: ms, x :: xs, r => subRank ds ms xs (if d then r * m + x else r)
  | _, _, _, r => r

/-- The cache of the method `ghost_data` on every process: from shapes of local data to shapes of buffers (`CachedMethod`,
`dedalus/core/arithmetic.py` L884; the data type is the same in all calls for one argument). -/
abbrev Cache := Coords → List (List Nat × List Nat)

/-- A collective call on the sub-communicator: the broadcast of a shape, or of data of some size. -/
inductive Event where
  | shape
  | data (size : Nat)
  deriving DecidableEq, Repr

/-- A `GhostBroadcaster` with at least one deployed dimension (`dedalus/core/arithmetic.py` L868-882). -/
structure Broadcaster where
  deploy : List Bool
  mesh : List Nat

def Broadcaster.root (b : Broadcaster) (p : Coords) : Coords := Ghost.root b.deploy p

def Broadcaster.rank (b : Broadcaster) (p : Coords) : Nat := subRank b.deploy b.mesh p 0

/-- The shape of the buffer that `ghost_data` returns on process `p` (`dedalus/core/arithmetic.py` L884-893); on rank 0 it returns `None`. -/
def Broadcaster.ghostShape (b : Broadcaster) (cache : Cache) (shape : Coords → List Nat) (p : Coords) : List Nat :=
  match (cache p).lookup (shape p) with
  | some s => s
  | none => shape (b.root p)

/-- The cache after a call of `ghost_data` on all processes. -/
def Broadcaster.remember (b : Broadcaster) (cache : Cache) (shape : Coords → List Nat) : Cache := fun p =>
  match (cache p).lookup (shape p) with
  | some _ => cache p
  | none => (shape p, shape (b.root p)) :: cache p

/-- The shape of the array that is broadcast (`dedalus/core/arithmetic.py` L897-899). -/
def Broadcaster.bufferShape (b : Broadcaster) (cache : Cache) (shape : Coords → List Nat) (p : Coords) : List Nat :=
  if b.rank p = 0 then shape p else b.ghostShape cache shape p

/-- The collective calls of `cast` on process `p` (`dedalus/core/arithmetic.py` L887, L901-902). -/
def Broadcaster.events (b : Broadcaster) (cache : Cache) (shape : Coords → List Nat) (p : Coords) : List Event :=
  (match (cache p).lookup (shape p) with
    | some _ => []
    | none => [.shape]) ++
  (if (b.bufferShape cache shape p).prod ≠ 0 then [.data (b.bufferShape cache shape p).prod] else [])

/-- `cast` on process `p` (`dedalus/core/arithmetic.py` L895-903), or `_skip_cast` (L905-906) if no dimension is deployed. Buffers have the values
`junk` before the broadcast (`np.empty`). A broadcast copies the array of rank 0, entry by entry. -/
def Broadcaster.cast {V : Type} (b : Broadcaster) (cache : Cache) (junk : Coords → List Nat → V) (data : Coords → Arr V) (p : Coords) : Arr V :=
  if b.deploy.any id then
    if b.rank p = 0 then data p
    else
      let s := b.ghostShape cache (fun q => (data q).shape) p
      ⟨s, if s.prod ≠ 0 then (data (b.root p)).val else junk p⟩
  else data p

/-- The caches after a sequence of calls of `cast`, given the shapes of the local data in every call. -/
def Broadcaster.after (b : Broadcaster) (calls : List (Coords → List Nat)) : Cache := calls.foldl b.remember fun _ => []

/-- The collective calls of process `p` in a sequence of calls of `cast`. -/
def Broadcaster.trace (b : Broadcaster) (p : Coords) : Cache → List (Coords → List Nat) → List Event
  | _, [] => []
  | cache, s :: calls => b.events cache s p ++ b.trace p (b.remember cache s) calls

/-! ## Operations on local arrays -/

/-- Whether numpy can repeat an array of shape `s` to shape `t`. -/
def fits (s t : List Nat) : Bool := decide (s.length = t.length) && (List.zipWith (fun n m => decide (n = m) || decide (n = 1)) s t).all id

/-- The index in an array of shape `s` that is repeated. -/
def clip (s i : List Nat) : List Nat := List.zipWith (fun n k => if n = 1 then 0 else k) s i

/-- `np.multiply(a, b, out=out)` with an output of shape `s`: `none` is a ValueError. -/
def npMultiply {V : Type} [Mul V] (s : List Nat) (a b : Arr V) : Option (Arr V) :=
  if fits a.shape s && fits b.shape s then some ⟨s, fun i => a.val (clip a.shape i) * b.val (clip b.shape i)⟩ else none

/-- `arg0_data.reshape(arg0_tshape + (1,)*arg1_order + ...)` (`dedalus/core/arithmetic.py` L854, L860): axes of length 1 after the `r0` tensor
axes. The new entries of an index are dropped. -/
def expandFirst {V : Type} (r0 r1 : Nat) (a : Arr V) : Arr V :=
  ⟨a.shape.take r0 ++ List.replicate r1 1 ++ a.shape.drop r0, fun i => a.val (i.take r0 ++ i.drop (r0 + r1))⟩

/-- `arg1_data.reshape((1,)*arg0_order + arg1_tshape + ...)` (`dedalus/core/arithmetic.py` L855, L861). -/
def expandSecond {V : Type} (r0 : Nat) (a : Arr V) : Arr V := ⟨List.replicate r0 1 ++ a.shape, fun i => a.val (i.drop r0)⟩

/-- `MultiplyFields.operate` on a process with the local output shape `s`, after broadcasting (`dedalus/core/arithmetic.py` L857-862). -/
def multiply {V : Type} [Mul V] (r0 r1 : Nat) (s : List Nat) (a b : Arr V) : Option (Arr V) :=
  npMultiply s (expandFirst r0 r1 a) (expandSecond r0 b)

/-- The axes of length at least `n` of an index, after the first `r`: the part for the ellipsis of `einsum`. -/
def ellipsis (r : Nat) (s : List Nat) : List Nat := s.drop r

/-- `np.einsum(einsum_str, a, b, out=out)` of `DotProduct.operate` (`dedalus/core/arithmetic.py` L616-623, L673-674) with tensors of rank `r0` and
`r1`, contracted along their axes `j0` and `j1` of length `d`. The ellipses are repeated to the output shape `s`; with an empty output nothing is
computed. -/
def dot {V : Type} [NonUnitalNonAssocSemiring V] (r0 r1 j0 j1 d : Nat) (s : List Nat) (a b : Arr V) : Option (Arr V) :=
  let out := ellipsis (r0 - 1 + (r1 - 1)) s
  if s.prod = 0 then some ⟨s, fun _ => 0⟩
  else if fits (ellipsis r0 a.shape) out && fits (ellipsis r1 b.shape) out then
    some ⟨s, fun i =>
      let t := i.take (r0 - 1 + (r1 - 1))
      let x := i.drop (r0 - 1 + (r1 - 1))
      ∑ z ∈ Finset.range d,
        a.val ((t.take (r0 - 1)).insertIdx j0 z ++ clip (ellipsis r0 a.shape) x) *
        b.val ((t.drop (r0 - 1)).insertIdx j1 z ++ clip (ellipsis r1 b.shape) x)⟩
  else none

/-- `CrossProduct.operate_right_handed` and `operate_left_handed` (`dedalus/core/arithmetic.py` L708-729) with a local output of shape `3 :: s`. -/
def cross {V : Type} [Ring V] (rightHanded : Bool) (s : List Nat) (a b : Arr V) : Option (Arr V) :=
  if fits (a.shape.drop 1) s && fits (b.shape.drop 1) s then
    let x (k : Nat) (i : List Nat) := a.val (k :: clip (a.shape.drop 1) i)
    let y (k : Nat) (i : List Nat) := b.val (k :: clip (b.shape.drop 1) i)
    let minor (k l : Nat) (i : List Nat) := if rightHanded then x k i * y l i - x l i * y k i else x l i * y k i - x k i * y l i
    some ⟨3 :: s, fun idx =>
      match idx with
      | 0 :: i => minor 1 2 i
      | 1 :: i => minor 2 0 i
      | 2 :: i => minor 0 1 i
      | _ => 0⟩
  else none

/-! ## Layouts -/

/-- The local elements of a domain in the full grid layout on process `p` (`Layout.local_elements`, `dedalus/core/distributor.py` L393-402): `axes` has
the length of the mesh along every distributed axis and `none` for local axes. Chunks have length 1 in grid space. -/
def elements (axes : List (Option Nat)) (sizes : List Nat) (constant : List Bool) (p : Coords) : Option (List (List Nat)) :=
  layoutElements (axes.map Option.isNone) (axes.filterMap id) sizes (sizes.map fun _ => 1) constant false p

/-- The broadcaster of an argument of a product (`dedalus/core/arithmetic.py` L842-844, L870-882). -/
def broadcaster (axes : List (Option Nat)) (outConstant constant : List Bool) : Broadcaster :=
  ⟨deployDims (outConstant.map (!·)) constant (axes.map Option.isNone), axes.filterMap id⟩

/-! ## Bases -/

/-- A basis on the axes of one coordinate system, for what concerns its grid. -/
inductive Basis where
  /-- Jacobi and Fourier bases -/
  | interval (n : Nat)
  /-- disk and annulus -/
  | polar (nphi nr : Nat)
  | sphere (nphi ntheta : Nat)
  /-- radial bases of balls and shells -/
  | radial (nr : Nat)
  /-- ball and shell -/
  | volume (nphi ntheta nr : Nat)
  deriving DecidableEq, Repr

/-- `basis.shape` (radial bases: `dedalus/core/basis.py` L3424-3430) -/
def Basis.shape : Basis → List Nat
  | .interval n => [n]
  | .polar a b => [a, b]
  | .sphere a b => [a, b]
  | .radial n => [1, 1, n]
  | .volume a b c => [a, b, c]

/-- `basis.constant` (`dedalus/core/basis.py` L116-118, L1691-1693 with `mmax` of L1680, L3446-3448, L4193-4195) -/
def Basis.constant : Basis → List Bool
  | .interval _ => [false]
  | .polar a _ => [decide ((a - 1) / 2 = 0), false]
  | .sphere a _ => [decide ((a - 1) / 2 = 0), false]
  | .radial _ => [true, true, false]
  | .volume a b _ => [decide (a = 1), decide (b = 1), false]

/-- `int(np.ceil(s*n))`, but 1 for axes with one mode (`Basis.grid_shape`, `dedalus/core/basis.py` L141-144). -/
def gridSize (s : ℚ) (n : Nat) : Nat := if n = 1 then 1 else ⌈s * n⌉₊

/-- `basis.grid_shape` (`dedalus/core/basis.py` L141-144, L3450-3455) -/
def Basis.gridShape (b : Basis) (scales : List ℚ) : List Nat := List.zipWith gridSize scales b.shape

/-- `Domain.constant` on the axes of coordinate systems with the given dimensions and bases (`dedalus/core/domain.py` L132-140) -/
def domainConstant (l : List (Nat × Option Basis)) : List Bool :=
  l.flatMap fun e => match e.2 with
    | none => List.replicate e.1 true
    | some b => b.constant

/-- `Domain.global_shape` in grid space (`dedalus/core/domain.py` L172-178); `scales` has the scales along the axes of every coordinate system. -/
def domainShape (l : List (Nat × Option Basis)) (scales : List (List ℚ)) : List Nat :=
  (List.zipWith (fun e s => match e.2 with
    | none => List.replicate e.1 1
    | some b => b.gridShape s) l scales).flatten

/-- The basis of a product of two fields on the grid along one coordinate system, for bases whose other parameters agree (`__mul__`,
`dedalus/core/basis.py` L531-544, L869-873, L2101-2110, L2382-2391, L2915-2926, L3729-3737, L3962-3971, L4437-4449, L4654-4666). Fields on spheres in
products with fields in shells are not modelled (`none`). -/
def productBasis (x y : Option Basis) : Option (Option Basis) :=
  match x, y with
  | none, y => some y
  | x, none => some x
  | some (.interval n), some (.interval m) => some (some (.interval (max n m)))
  | some (.polar a b), some (.polar a' b') => some (some (.polar (max a a') (max b b')))
  | some (.sphere a b), some (.sphere a' b') => some (some (.sphere (max a a') (max b b')))
  | some (.radial n), some (.radial m) => some (some (.radial (max n m)))
  | some (.volume a b c), some (.volume a' b' c') => some (some (.volume (max a a') (max b b') (max c c')))
  | some (.volume a b c), some (.radial _) => some (some (.volume a b c))
  | some (.radial _), some (.volume a b c) => some (some (.volume a b c))
  | _, _ => none

end Dedalus.Ghost
