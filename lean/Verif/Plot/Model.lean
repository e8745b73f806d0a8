import Mathlib.Algebra.Order.Field.Basic
import Mathlib.Algebra.Order.Floor.Ring
import Mathlib.Algebra.Order.Round
import Mathlib.Data.List.Sort

/-!
# Model: plotting planes of datasets

Models `get_plane`, `quad_mesh`, `get_1d_vertices`, `pad_limits`, the colour limits of `plot_bot`, the axes chosen by
`plot_bot_2d` and `plot_bot_3d`, and the figures of `MultiFigure` with `Box` and `Frame`
(/repo/dedalus/extras/plot_tools.py). Numbers are elements of an ordered field. The drawing done by matplotlib is not
modelled: the model ends with the arrays and rectangles handed to it.
-/

namespace Dedalus.Plot

variable {K : Type} [Field K] [LinearOrder K] [IsStrictOrderedRing K]

/-- Exceptions raised. `undefined`: a division by zero, outside the model. -/
inductive Exc
  | index
  | value
  | undefined
deriving DecidableEq, Repr

/-! ### Cells around grid points -/

/-- `get_1d_vertices(grid, cut_edges)`: points halfway between neighbours, with the ends of the grid or half a
spacing beyond them. plot_tools.py L457-485. The grid is one-dimensional, so the check of L471-472 passes.
`grid[0]` and `diff[0]` raise if there is no such entry. -/
def vertices (grid : List K) (cut : Bool) : Except Exc (List K) :=
  let diff := List.zipWith (fun b a => b - a) grid.tail grid
  let inner := List.zipWith (fun g d => g + d / 2) grid.dropLast diff
  match grid.head?, grid.getLast? with
  | some first, some last =>
    if cut then .ok (first :: inner ++ [last])
    else match diff.head?, diff.getLast? with
      | some d0, some d1 => .ok ((first - d0 / 2) :: inner ++ [last + d1 / 2])
      | _, _ => .error .index
  | _, _ => .error .index

/-- `quad_mesh(x, y, cut_x_edges, cut_y_edges)`: rows follow `y`, columns follow `x`. plot_tools.py L427-454, with
`reshape_vector`, /repo/dedalus/tools/array.py L31-36. A mesh is the list of its rows. -/
def quadMesh (x y : List K) (cutX cutY : Bool) : Except Exc (List (List K) × List (List K)) := do
  let xv ← vertices x cutX
  let yv ← vertices y cutY
  .ok (yv.map (fun _ => xv.map fun v => v * 1), yv.map (fun w => xv.map fun _ => w * 1))

/-! ### Arrays and selections -/

/-- An array: its shape and its entry at a position, if there is one. -/
structure Arr (K : Type) where
  shape : List Nat
  get : List Nat → Option K

/-- What a selection takes along one axis: one position (an int), or the positions a slice object picks, in order. -/
inductive Sel
  | pos (k : Nat)
  | slice (ks : List Nat)
deriving DecidableEq, Repr

/-- Position in the array selected from, for a position in the selection. -/
def merge : List Sel → List Nat → Option (List Nat)
  | [], idx => some idx
  | .pos k :: sl, idx => (merge sl idx).map (k :: ·)
  | .slice _ :: _, [] => none
  | .slice ks :: sl, i :: idx => do
    let k ← ks[i]?
    let rest ← merge sl idx
    some (k :: rest)

/-- Shape of a selection: axes with one position go away, missing axes are kept. -/
def pickShape : List Sel → List Nat → Except Exc (List Nat)
  | [], shape => .ok shape
  | _ :: _, [] => .error .index
  | .pos k :: sl, n :: shape => if k < n then pickShape sl shape else .error .index
  | .slice ks :: sl, n :: shape =>
    if ks.all (· < n) then (pickShape sl shape).map (ks.length :: ·) else .error .index

/-- `dset[slices]`. plot_tools.py L572. -/
def pick (a : Arr K) (sl : List Sel) : Except Exc (Arr K) := do
  let shape ← pickShape sl a.shape
  .ok ⟨shape, fun idx => (merge sl idx).bind a.get⟩

/-- `data.T`: all axes in reverse order. plot_tools.py L574. -/
def transposed (a : Arr K) : Arr K := ⟨a.shape.reverse, fun idx => a.get idx.reverse⟩

/-- `data[order]`. plot_tools.py L575. -/
def takeFirst (a : Arr K) (order : List Nat) : Except Exc (Arr K) :=
  match a.shape with
  | n :: rest =>
    if order.all (· < n) then
      .ok ⟨order.length :: rest, fun idx => match idx with
        | i :: idx => order[i]?.bind fun k => a.get (k :: idx)
        | [] => none⟩
    else .error .index
  | [] => .error .index

/-- `data[:, order]`. plot_tools.py L576. -/
def takeSecond (a : Arr K) (order : List Nat) : Except Exc (Arr K) :=
  match a.shape with
  | m :: n :: rest =>
    if order.all (· < n) then
      .ok ⟨m :: order.length :: rest, fun idx => match idx with
        | j :: i :: idx => order[i]?.bind fun k => a.get (j :: k :: idx)
        | _ => none⟩
    else .error .index
  | _ => .error .index

/-- `np.argsort(grid)`: positions in increasing order of their values. Which of two equal values comes first is not
fixed by numpy; here it is the one listed first. plot_tools.py L567-568. -/
def argsort (grid : List K) : List Nat :=
  (grid.zipIdx.insertionSort fun p q => p.1 ≤ q.1).map Prod.snd

/-- `grid[order]` for a one-dimensional grid. plot_tools.py L569. -/
def gather (grid : List K) (order : List Nat) : Except Exc (List K) :=
  match order.mapM (fun i => grid[i]?) with
  | some l => .ok l
  | none => .error .index

/-- A dataset: its values, and the grid of each of its scales by axis (`dset.dims[axis][scale]`). For fields the
scales come from `DimWrapper`, plot_tools.py L30-51: every scale number gives the field's own grid. -/
structure Dset (K : Type) where
  data : Arr K
  dims : Nat → Nat → Option (List K)

/-- `dset.dims[axis][scale][slices[axis]]`, and the failure of `xgrid[xorder]` for a single position, which gives a
number and not a grid. plot_tools.py L565-569. -/
def axisGrid (d : Dset K) (axis scale : Nat) (sl : List Sel) : Except Exc (List K) :=
  match d.dims axis scale, sl[axis]? with
  | some grid, some (.slice ks) => gather grid ks
  | _, _ => .error .index

/-- `get_plane(dset, xaxis, yaxis, slices, xscale, yscale, cut_x_edges, cut_y_edges)`. plot_tools.py L541-578. -/
def getPlane (d : Dset K) (xaxis yaxis : Nat) (sl : List Sel) (xscale yscale : Nat) (cutX cutY : Bool) :
    Except Exc (List (List K) × List (List K) × Arr K) := do
  let xgrid ← axisGrid d xaxis xscale sl
  let ygrid ← axisGrid d yaxis yscale sl
  let xorder := argsort xgrid
  let yorder := argsort ygrid
  let xs ← gather xgrid xorder
  let ys ← gather ygrid yorder
  let (xmesh, ymesh) ← quadMesh xs ys cutX cutY
  let data ← pick d.data sl
  let data := if xaxis < yaxis then transposed data else data
  let data ← takeFirst data yorder
  let data ← takeSecond data xorder
  .ok (xmesh, ymesh, data)

/-- Python's `seq[:k]` for any integer. -/
def pyTake {α : Type} (l : List α) (k : Int) : List α :=
  if k < 0 then l.take (l.length + k).toNat else l.take k.toNat

/-- Python's `seq[k:]` for any integer. -/
def pyDrop {α : Type} (l : List α) (k : Int) : List α :=
  if k < 0 then l.drop (l.length + k).toNat else l.drop k.toNat

/-- Axes and slices that `plot_bot_2d` passes on. plot_tools.py L166-195. `shape` is the shape of the dataset. -/
def plan2d (shape : List Nat) (transpose : Bool) : Except Exc (Nat × Nat × List Sel) :=
  match shape with
  | [m, n] =>
    let sl := [Sel.slice (List.range m), Sel.slice (List.range n)]
    .ok (if transpose then (1, 0, sl) else (0, 1, sl))
  | _ => .error .value

/-- Axes and slices that `plot_bot_3d` passes on, for a normal axis given by number: the axes before and after it,
and the position along it. Unpacking the axes raises unless there are two (L92). plot_tools.py L198-242, L91-92. -/
def plan3d (shape : List Nat) (normal : Int) (position : Nat) (transpose : Bool) :
    Except Exc (Nat × Nat × List Sel) :=
  match shape with
  | [l, m, n] =>
    let axes := pyTake [0, 1, 2] normal ++ pyDrop [0, 1, 2] (normal + 1)
    let sl := [l, m, n].map fun k => Sel.slice (List.range k)
    let at' := if normal < 0 then normal + 3 else normal
    if at' < 0 ∨ 3 ≤ at' then .error .index
    else match (if transpose then axes.reverse else axes) with
      | [x, y] => .ok (x, y, sl.set at'.toNat (.pos position))
      | _ => .error .value
  | _ => .error .value

/-! ### Limits -/

/-- `grid.min()`; raises for an empty grid. -/
def minimum : List K → Except Exc K
  | [] => .error .value
  | a :: l => .ok (l.foldl min a)

/-- `grid.max()`; raises for an empty grid. -/
def maximum : List K → Except Exc K
  | [] => .error .value
  | a :: l => .ok (l.foldl max a)

/-- `pad_limits(xgrid, ygrid, xpad, ypad, square)`. `square` is the height and width of the axes, in inches; a zero
width is outside the model. For an image of width zero, numpy's quotient is infinite, or nan for height zero, and the
comparison is with that. plot_tools.py L488-538. -/
def padLimits (xgrid ygrid : List K) (xpad ypad : K) (square : Option (K × K)) : Except Exc (K × K × K × K) := do
  let xmin ← minimum xgrid
  let xmax ← maximum xgrid
  let ymin ← minimum ygrid
  let ymax ← maximum ygrid
  let dx := xmax - xmin
  let dy := ymax - ymin
  let x0 := xmin - xpad * dx
  let x1 := xmax + xpad * dx
  let y0 := ymin - ypad * dy
  let y1 := ymax + ypad * dy
  match square with
  | none => .ok (x0, x1, y0, y1)
  | some (height, width) =>
    if width = 0 then .error .undefined
    else
      let aspect := height / width
      let h := y1 - y0
      let w := x1 - x0
      let tall := if w = 0 then decide (0 < h) else decide (height / width < h / w)
      if tall then
        if aspect = 0 then .error .undefined
        else
          let extra := h / aspect - w
          .ok (x0 - extra / 2, x1 + extra / 2, y0, y1)
      else
        let extra := w * aspect - h
        .ok (x0, x1, y0 - extra / 2, y1 + extra / 2)

/-- Colour limits of `plot_bot` if none are given. plot_tools.py L129-135. The data is listed in any order. -/
def colourLimits (data : List K) (even : Bool) : Except Exc (K × K) := do
  let lo ← minimum data
  let hi ← maximum data
  if even then
    let lim := max |lo| |hi|
    .ok (-lim, lim)
  else .ok (lo, hi)

/-! ### Figures with many images -/

/-- `Box`. plot_tools.py L331-377. -/
structure Box (K : Type) where
  x : K
  y : K

/-- `Frame`. plot_tools.py L380-424. -/
structure Frame (K : Type) where
  top : K
  bottom : K
  left : K
  right : K

/-- plot_tools.py L346-348. -/
def Box.xbox (b : Box K) : Box K := ⟨b.x, 0⟩
/-- plot_tools.py L350-352. -/
def Box.ybox (b : Box K) : Box K := ⟨0, b.y⟩
/-- plot_tools.py L354-357. -/
def Box.add (a b : Box K) : Box K := ⟨a.x + b.x, a.y + b.y⟩
/-- Product with a number. plot_tools.py L362-370. -/
def Box.scale (b : Box K) (c : K) : Box K := ⟨b.x * c, b.y * c⟩
/-- Product with a box. plot_tools.py L365-366. -/
def Box.mul (a b : Box K) : Box K := ⟨a.x * b.x, a.y * b.y⟩
/-- Quotient by a box. plot_tools.py L375-376. -/
def Box.div (a b : Box K) : Box K := ⟨a.x / b.x, a.y / b.y⟩
/-- plot_tools.py L397-399. -/
def Frame.bottomLeft (f : Frame K) : Box K := ⟨f.left, f.bottom⟩
/-- plot_tools.py L405-413. -/
def Frame.add (f : Frame K) (b : Box K) : Box K := ⟨f.left + b.x + f.right, f.bottom + b.y + f.top⟩
/-- plot_tools.py L415-424. -/
def Frame.scale (f : Frame K) (c : K) : Frame K := ⟨c * f.top, c * f.bottom, c * f.left, c * f.right⟩

/-- `margin + nrows*subfig.ybox + ncols*subfig.xbox`. plot_tools.py L270-271, L285-286. -/
def composite (nrows ncols : Nat) (image : Box K) (pad margin : Frame K) : Box K :=
  let sub := pad.add image
  (margin.add (sub.ybox.scale nrows)).add (sub.xbox.scale ncols)

/-- What `MultiFigure` keeps, with the size of the figure in inches. -/
structure Figure (K : Type) where
  nrows : Nat
  ncols : Nat
  image : Box K
  pad : Frame K
  margin : Frame K
  fig : Box K
  width : Int
  height : Int

/-- `MultiFigure.__init__`. plot_tools.py L267-299. A figure of height zero is outside the model (L274 divides by
it). `np.rint` rounds halves to even, `round` upwards; the sizes rounded here turn out to be whole. -/
def multiFigure [FloorRing K] (nrows ncols : Nat) (image : Box K) (pad margin : Frame K) (scale : K) :
    Except Exc (Figure K) :=
  let fig := composite nrows ncols image pad margin
  if fig.y = 0 then .error .undefined
  else
    let intscale := (⌈scale * fig.y⌉ : K) / fig.y
    let extra := (⌈intscale * fig.x⌉ : K) - intscale * fig.x
    let image := image.scale intscale
    let pad := pad.scale intscale
    let margin := margin.scale intscale
    let margin := { margin with left := margin.left + extra / 2, right := margin.right + extra / 2 }
    let fig := composite nrows ncols image pad margin
    .ok ⟨nrows, ncols, image, pad, margin, fig, round fig.x, round fig.y⟩

/-- A rectangle: left, bottom, width, height. -/
structure Rect (K : Type) where
  left : K
  bottom : K
  width : K
  height : K

/-- `MultiFigure.add_axes(i, j, rect)`: the rectangle passed to matplotlib, in fractions of the figure. A figure of
width or height zero is outside the model. plot_tools.py L301-328. -/
def addAxes (f : Figure K) (i j : Int) (r : Rect K) : Except Exc (Rect K) :=
  if f.fig.x = 0 ∨ f.fig.y = 0 then .error .undefined
  else
    let irev := (f.nrows : Int) - 1 - i
    let sub := f.pad.add f.image
    let offset := ((f.margin.bottomLeft.add (sub.ybox.scale irev)).add (sub.xbox.scale j)).add f.pad.bottomLeft
    let start := (offset.add ((Box.mk r.left r.bottom).mul f.image)).div f.fig
    let shape := ((Box.mk r.width r.height).mul f.image).div f.fig
    .ok ⟨start.x, start.y, shape.x, shape.y⟩

end Dedalus.Plot
