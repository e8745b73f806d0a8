import Verif.Dist.Block
import Mathlib.Algebra.Group.Defs

/-!
# Model: global data of a distributed field

Models `Field.set_global_data`, `load_from_global_coeff_data`/`load_from_global_grid_data` (the
selection of local data), `allgather_data`, `gather_data` of /repo/dedalus/core/field.py, on top of the block
distribution of `Verif.Dist.Block`.

Arrays are a shape and a partial function of the multi-index; reading outside the shape is `none`, as is
every Python exception. A field over all processes is a function of the process coordinates. MPI
collectives are functions of the data of all ranks; ranks are the coordinates of the process mesh in row-major
order (MPI Cartesian communicators).
-/

namespace Dedalus.Global

open Dedalus.Dist

/-- A numpy array. -/
structure NDArr (α : Type) where
  shape : List Nat
  get : List Nat → Option α

variable {α : Type}

/-- Indices inside a shape. -/
def inShape : List Nat → List Nat → Bool
  | [], [] => true
  | i :: is, n :: ns => decide (i < n) && inShape is ns
  | _, _ => false

/-- `arr[np.ix_(*els)]`: index arrays for the first axes, everything on the others. An index out of
bounds, or more index arrays than axes, is an IndexError. field.py L624-626. -/
def ixSelect (G : NDArr α) (els : List (List Nat)) : Option (NDArr α) :=
  if els.length ≤ G.shape.length ∧ (List.zip els G.shape).all (fun p => p.1.all (· < p.2)) then
    some {
      shape := els.map List.length ++ G.shape.drop els.length
      get := fun idx =>
        if idx.length = G.shape.length then
          ((List.zip els idx).mapM fun p => p.1[p.2]?).bind fun front => G.get (front ++ idx.drop els.length)
        else none }
  else none

/-- `arr[slices]` for `slice(start, stop)` on some axes, after `k` full slices (components); slices are clipped
to the array by Python but the model only meets slices inside it, others are `none`.
field.py L755-760, L771-776, L935-938. -/
def sliceSelect (k : Nat) (G : NDArr α) (sl : List (Nat × Nat)) : Option (NDArr α) :=
  if G.shape.length = k + sl.length ∧ (List.zip sl (G.shape.drop k)).all (fun p => decide (p.1.2 ≤ p.2)) then
    some {
      shape := G.shape.take k ++ sl.map (fun s => s.2 - s.1)
      get := fun idx =>
        if inShape idx (G.shape.take k ++ sl.map (fun s => s.2 - s.1)) then
          G.get (idx.take k ++ List.zipWith (fun s i => s.1 + i) sl (idx.drop k))
        else none }
  else none

/-- `np.copyto(dst, src)` for arrays of equal shape (broadcasting is not modelled). -/
def copyto (shape : List Nat) (src : NDArr α) : Option (NDArr α) :=
  if src.shape = shape then some src else none

/-- What `Layout` and `Domain` say about the distribution of a field: locality flags, mesh without ones,
global shape, chunk shape, axes without basis; and the component shape of the field. -/
structure Distn where
  loc : List Bool
  mesh : List Nat
  shape : List Nat
  chunks : List Nat
  constant : List Bool
  comps : List Nat

/-- `local_elements` on one process. distributor.py L391-401. -/
def Distn.els (d : Distn) (coords : List Nat) : Option (List (List Nat)) :=
  layoutElements d.loc d.mesh d.shape d.chunks d.constant false coords

/-- `slices` on one process. distributor.py L496-505. -/
def Distn.slices (d : Distn) (coords : List Nat) : Option (List (Nat × Nat)) :=
  (d.els coords).map (·.map sliceOf)

/-- Shape of the local data. field.py L521-523. -/
def Distn.localShape (d : Distn) (coords : List Nat) : Option (List Nat) :=
  (d.els coords).map fun els => d.comps ++ els.map List.length

/-- `set_global_data` on one process. field.py L624-629. -/
def setGlobal (d : Distn) (G : NDArr α) (coords : List Nat) : Option (NDArr α) := do
  let els ← d.els coords
  let sel ← ixSelect G els
  let sh ← d.localShape coords
  copyto sh sel

/-- The selection in `load_from_global_coeff_data`, `load_from_global_grid_data` and `fill_random` on one
process: full slices for the components, then the local slices. field.py L756-760, L772-776, L935-940. -/
def loadGlobal (d : Distn) (G : NDArr α) (coords : List Nat) : Option (NDArr α) := do
  let sl ← d.slices coords
  let sel ← sliceSelect d.comps.length G sl
  let sh ← d.localShape coords
  copyto sh sel

/-- Process coordinates in rank order. -/
def coordsList : List Nat → List (List Nat)
  | [] => [[]]
  | m :: ms => (List.range m).flatMap fun c => (coordsList ms).map (c :: ·)

/-- Zeros with the local data at the local slices. field.py L792-798. -/
def sendBuffer [Zero α] (d : Distn) (coords : List Nat) (loc : NDArr α) : Option (NDArr α) := do
  let sl ← d.slices coords
  let sh ← d.localShape coords
  if loc.shape = sh then
    some {
      shape := d.comps ++ d.shape
      get := fun idx =>
        if inShape idx (d.comps ++ d.shape) then
          let k := d.comps.length
          if (List.zip sl (idx.drop k)).all (fun p => decide (p.1.1 ≤ p.2) && decide (p.2 < p.1.2)) then
            loc.get (idx.take k ++ List.zipWith (fun s i => i - s.1) sl (idx.drop k))
          else some 0
        else none }
  else none

/-- Elementwise sum of two buffers. -/
def addArr [Add α] (a b : NDArr α) : NDArr α :=
  { shape := a.shape
    get := fun idx => match a.get idx, b.get idx with
      | some x, some y => some (x + y)
      | _, _ => none }

/-- `Allreduce(SUM)` over the buffers of all ranks. field.py L799. -/
def allreduce [Add α] : List (NDArr α) → Option (NDArr α)
  | [] => none
  | b :: bs => some (bs.foldl addArr b)

/-- `allgather_data` on any process (the result is the same on all). field.py L782-800. -/
def allgather [Zero α] [Add α] (d : Distn) (field : List Nat → NDArr α) : Option (NDArr α) := do
  let ranks := coordsList d.mesh
  if ranks.length = 1 then
    (ranks.head?).map field
  else
    let bufs ← ranks.mapM fun c => sendBuffer d c (field c)
    allreduce bufs

/-- Reading a concatenation along an axis. -/
def concatGet (axis : Nat) : List (NDArr α) → List Nat → Option α
  | [], _ => none
  | p :: ps, idx => do
    let i ← idx[axis]?
    let n ← p.shape[axis]?
    if i < n then p.get idx else concatGet axis ps (idx.set axis (i - n))

/-- `np.concatenate(arrays, axis)`: the shapes must agree except along the axis. -/
def concat (axis : Nat) (ps : List (NDArr α)) : Option (NDArr α) :=
  match ps with
  | [] => none
  | p :: _ =>
    if axis < p.shape.length ∧ ps.all (fun q => q.shape.set axis 0 == p.shape.set axis 0) then
      some { shape := p.shape.set axis ((ps.map fun q => (q.shape[axis]?).getD 0).sum), get := concatGet axis ps }
    else none

/-- `np.block` of the pieces reshaped to `ext_mesh`: nested concatenation, the first mesh axis along array axis
`axis`, the next along `axis + 1` and so on (`np.block` uses the last axes; `axis` starts at the number
of component axes). field.py L815-818. -/
def block : Nat → List Nat → List (NDArr α) → Option (NDArr α)
  | _, [], ps => match ps with
    | [p] => some p
    | _ => none
  | axis, m :: ms, ps =>
    let size := ms.foldl (· * ·) 1
    if ps.length = m * size then
      ((List.range m).mapM fun k => block (axis + 1) ms ((ps.drop (k * size)).take size)).bind (concat axis)
    else none

/-- `gather_data`, the result on the root process. field.py L802-818. -/
def gather (d : Distn) (field : List Nat → NDArr α) : Option (NDArr α) := do
  let ranks := coordsList d.mesh
  if ranks.length = 1 then
    (ranks.head?).map field
  else
    let ext ← scatterNonlocal 1 d.loc d.mesh
    block d.comps.length ext (ranks.map field)

end Dedalus.Global
