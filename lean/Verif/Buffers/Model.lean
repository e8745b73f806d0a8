import Verif.Dist.Block
import Verif.Field.Model
import Mathlib.Data.Rat.Floor

/-!
# The memory of a field

Sizes of the buffers `Current.preset_scales` allocates and the views
`Current.preset_layout` makes into them, on one process.  The element lists of
a layout are those of `Verif.Dist.Block`, the chain of layouts is that of
`Verif.Dist.Chain`.  Every axis has a one-dimensional basis or none, with as
many coefficients as its size.
-/

namespace Dedalus.Buffers

open Dedalus.Dist

/-- Exceptions: a shape that cannot be computed, a maximum of nothing, numpy's
`buffer is too small for requested array`, and an index of no layout. -/
inductive Exc
  | shape
  | emptyMax
  | tooSmall
  | index
  deriving DecidableEq, Repr

/-- What sizes depend on: the layouts, the mesh without ones, the coordinates of
the process, the sizes and coefficient chunks of the axes, which axes are
constant, the dealias scales, the bytes of a number and the number of
components (distributor.py L357-401, L514-517, field.py L487-496). -/
structure World where
  lays : List Lay
  mesh : List Nat
  coords : List Nat
  sizes : List Nat
  chunks : List Nat
  constant : List Bool
  dealias : List ℚ
  itemsize : Nat
  ncomp : Nat

/-- Size of a grid at a scale (basis.py L141-144). -/
def gridSize (s : ℚ) (n : Nat) : Nat := if n = 1 then 1 else ⌈s * n⌉.toNat

/-- `layout.global_shape(domain, scales)` (distributor.py L337-343). -/
def globalShape (W : World) (l : Lay) (scales : List ℚ) : List Nat :=
  List.zipWith (fun (gs : Bool × ℚ) n => if gs.1 then gridSize gs.2 n else n) (l.grid.zip scales) W.sizes

/-- `layout.chunk_shape(domain)` (distributor.py L345-351). -/
def chunkShape (W : World) (l : Lay) : List Nat :=
  List.zipWith (fun (g : Bool) c => if g then 1 else c) l.grid W.chunks

/-- `layout.local_shape(domain, scales)` (distributor.py L507-512). -/
def localShape (W : World) (l : Lay) (scales : List ℚ) : Except Exc (List Nat) :=
  match layoutElements l.loc W.mesh (globalShape W l scales) (chunkShape W l) W.constant false W.coords with
  | none => .error .shape
  | some es => .ok (es.map List.length)

/-- `layout.buffer_size(domain, scales, dtype)`, in bytes (distributor.py L514-517). -/
def layoutBytes (W : World) (scales : List ℚ) (l : Lay) : Except Exc Nat := do
  pure ((← localShape W l scales).prod * W.itemsize)

/-- `dist.buffer_size(domain, scales, dtype)` (distributor.py L184-186). -/
def bufferSize (W : World) (scales : List ℚ) : Except Exc Nat := do
  match (← W.lays.mapM (layoutBytes W scales)).max? with
  | none => .error .emptyMax
  | some n => pure n

/-- `_create_buffer(buffer_size)`: the bytes allocated (field.py L476-485). -/
def createBuffer (size : Nat) : Nat := if size = 0 then 0 else 8 * (size / 8)

/-- The scales, layout and buffer of a field.  Buffer 0 is `_dealias_buffer`
(field.py L491-496, L555-560). -/
structure State where
  scales : Option (List ℚ)
  layout : Nat
  buffer : Nat
  bytes : Nat
  fresh : Nat
  deriving DecidableEq

/-- `preset_layout(layout)` (field.py L517-526). -/
def presetLayout (W : World) (i : Nat) (scales : List ℚ) (f : State) : Except Exc State :=
  match W.lays[i]? with
  | none => .error .index
  | some l => do
    let shape ← localShape W l scales
    if W.ncomp * shape.prod * W.itemsize ≤ f.bytes then pure { f with layout := i } else .error .tooSmall

/-- `preset_scales(scales)` (field.py L498-515). -/
def presetScales (W : World) (scales : List ℚ) (f : State) : Except Exc State :=
  if some scales = f.scales then pure f
  else do
    let size ← bufferSize W scales
    let dealias ← bufferSize W W.dealias
    let f := if size ≤ dealias then { f with buffer := 0, bytes := createBuffer (W.ncomp * dealias) }
      else { f with buffer := f.fresh, bytes := createBuffer (W.ncomp * size), fresh := f.fresh + 1 }
    presetLayout W f.layout scales { f with scales := some scales }

/-- `Field.__init__` (field.py L555-560): in the coefficient layout at scales one. -/
def create (W : World) : Except Exc State :=
  presetScales W (W.sizes.map fun _ => 1) ⟨none, 0, 0, 0, 1⟩

/-- What field operations do to the memory: all of them are made of these two
(field.py L498-526, L573-582, L621-649). -/
inductive Op
  | scales (s : List ℚ)
  | layout (i : Nat)

/-- One operation. -/
def run1 (W : World) (o : Op) (f : State) : Except Exc State :=
  match o with
  | .scales s => presetScales W s f
  | .layout i =>
    match f.scales with
    | none => .error .shape
    | some s => presetLayout W i s f

/-- A history of operations. -/
def run (W : World) : List Op → State → Except Exc State
  | [], f => pure f
  | o :: os, f => do run W os (← run1 W o f)

/-- The rule that decides whether data of given scales go into the dealias
buffer, for the model of fields in `Verif.Field.Model` (field.py L506-508). -/
def fits (W : World) (scales : List ℚ) : Bool :=
  match bufferSize W scales, bufferSize W W.dealias with
  | .ok a, .ok b => decide (a ≤ b)
  | _, _ => false

end Dedalus.Buffers
