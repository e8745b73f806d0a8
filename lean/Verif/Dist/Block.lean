import Mathlib.Data.List.Range
import Mathlib.Data.List.Forall2
import Mathlib.Tactic.Linarith

/-!
# Model: block distribution of one axis, and of all axes of a layout

Models `Layout.local_chunks`, `Layout.local_elements`, `Layout.slices`, `Layout.local_shape`
and the mask assignments of `Layout.__init__` in /repo/dedalus/core/distributor.py.
Integers are natural numbers: shapes, chunk sizes, mesh sizes and coordinates are never negative
in the code.
-/

namespace Dedalus.Dist

/-- Python `-(-a // b)` (distributor.py L361, L381). `b` is positive in the code: numpy floor
division by zero would only warn and is outside the model. `ceilDiv_python` in `BlockLemmas`
proves the agreement with Python's formula. -/
def ceilDiv (a b : Nat) : Nat := (a + b - 1) / b

/-- One axis as seen by `local_chunks`: its locality flag in the layout, global size, chunk size,
mesh size (`ext_mesh`, 1 on local axes) and whether the domain has a basis there.
distributor.py L359-376. -/
structure Axis where
  /-- `self.local[axis]` -/
  isLocal : Bool
  /-- `global_shape[axis]` -/
  size : Nat
  /-- `chunk_shape[axis]` -/
  chunk : Nat
  /-- `self.ext_mesh[axis]` -/
  mesh : Nat
  /-- `basis is None` -/
  constant : Bool
deriving Repr, DecidableEq

/-- `np.arange(a, b)` for naturals; used at distributor.py L373, L384. -/
def arange (a b : Nat) : List Nat := List.range' a (b - a)

/-- distributor.py L357-385, the body of the loop for one axis. -/
def localChunks (broadcast : Bool) (ax : Axis) (coord : Nat) : List Nat :=
  let chunkNum := ceilDiv ax.size ax.chunk
  if ax.isLocal then
    arange 0 chunkNum
  else
    let coord := if broadcast && ax.constant then 0 else coord
    let block := ceilDiv chunkNum ax.mesh
    let start := min chunkNum (block * coord)
    let stop := min chunkNum (block * (coord + 1))
    arange start stop

/-- `np.repeat(chunks, chunk_size)`. distributor.py L399. -/
def npRepeat (xs : List Nat) (c : Nat) : List Nat := xs.flatMap (fun x => List.replicate c x)

/-- `np.tile(xs, n)`. distributor.py L399. -/
def npTile (xs : List Nat) (n : Nat) : List Nat := (List.replicate n xs).flatten

/-- distributor.py L393-401, the body of the loop for one axis: the sum of two equally long
vectors. -/
def localElements (broadcast : Bool) (ax : Axis) (coord : Nat) : List Nat :=
  let chunks := localChunks broadcast ax coord
  List.zipWith (· + ·) ((npRepeat chunks ax.chunk).map (ax.chunk * ·))
    (npTile (List.range ax.chunk) chunks.length)

/-- distributor.py L496-505, the body of the loop for one axis: `slice(LE.min(), LE.max()+1)`,
or `slice(0,0)` if there are no elements. -/
def sliceOf (le : List Nat) : Nat × Nat :=
  match le with
  | [] => (0, 0)
  | x :: xs => (xs.foldl min x, xs.foldl max x + 1)

/-- distributor.py L508-512, one axis. -/
def localSize (ax : Axis) (coord : Nat) : Nat := (localElements false ax coord).length

/-- Masked assignment `dest[~local] = values` where `dest` is filled with `fill`
(distributor.py L331-335, L367-368). numpy raises when the number of values is not the number of
selected positions: `none`. -/
def scatterNonlocal (fill : Nat) : List Bool → List Nat → Option (List Nat)
  | [], [] => some []
  | [], _ :: _ => none
  | true :: ls, vs => (scatterNonlocal fill ls vs).map (fill :: ·)
  | false :: ls, v :: vs => (scatterNonlocal fill ls vs).map (v :: ·)
  | false :: _, [] => none

/-- Collect the per-axis data read in the loop over axes (distributor.py L359-376); `none` when the
arrays do not have the same length (numpy/zip would raise or the domain would be ill-formed). -/
def axesOf : List Bool → List Nat → List Nat → List Nat → List Bool → Option (List Axis)
  | [], [], [], [], [] => some []
  | l :: ls, n :: ns, c :: cs, m :: ms, k :: ks =>
    (axesOf ls ns cs ms ks).map (⟨l, n, c, m, k⟩ :: ·)
  | _, _, _, _, _ => none

/-- All axes: `Layout.__init__` builds `ext_mesh` and `ext_coords`, then `local_elements` lists
the elements axis by axis. `shape`, `chunks` and `constant` come from the domain, `reducedMesh`
is `[m for m in mesh if m > 1]`. distributor.py L325-335 and L357-401. -/
def layoutElements (local_ : List Bool) (reducedMesh : List Nat) (shape chunks : List Nat)
    (constant : List Bool) (broadcast : Bool) (commCoords : List Nat) : Option (List (List Nat)) :=
  match scatterNonlocal 1 local_ reducedMesh, scatterNonlocal 0 local_ commCoords with
  | some extMesh, some extCoords =>
    (axesOf local_ shape chunks extMesh constant).map fun axes =>
      List.zipWith (localElements broadcast) axes extCoords
  | _, _ => none

end Dedalus.Dist
