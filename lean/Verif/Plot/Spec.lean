import Verif.Plot.Model

/-!
# What a plot should show

Cells of a mesh, the entry of a dataset at given positions along two axes, and rectangles in a figure.
-/

namespace Dedalus.Plot.Spec

variable {K : Type} [Field K] [LinearOrder K] [IsStrictOrderedRing K]

/-- Entry of a mesh. -/
def corner (m : List (List K)) (j i : Nat) : Option K := m[j]?.bind fun row => row[i]?

/-- Cell `(j, i)` of the meshes is the rectangle from `l` to `r` and from `b` to `t`. -/
def Cell (xm ym : List (List K)) (j i : Nat) (l r b t : K) : Prop :=
  corner xm j i = some l ∧ corner xm (j + 1) i = some l ∧ corner xm j (i + 1) = some r ∧
  corner xm (j + 1) (i + 1) = some r ∧ corner ym j i = some b ∧ corner ym j (i + 1) = some b ∧
  corner ym (j + 1) i = some t ∧ corner ym (j + 1) (i + 1) = some t

/-- Cell `(j, i)` of meshes with `ny` rows and `nx` columns of cells is around the point. It has an inside, with the
point in it or on its edge. Along an axis whose edges are not cut the point is strictly inside; along an axis whose
edges are cut, the first cell starts at its point and the last one ends at its point. -/
def Around (cutX cutY : Bool) (nx ny : Nat) (xm ym : List (List K)) (j i : Nat) (x y : K) : Prop :=
  ∃ l r b t, Cell xm ym j i l r b t ∧ l < r ∧ b < t ∧ l ≤ x ∧ x ≤ r ∧ b ≤ y ∧ y ≤ t ∧
    (cutX = false → l < x ∧ x < r) ∧ (cutY = false → b < y ∧ y < t) ∧
    (cutX = true → (i = 0 → l = x) ∧ (i + 1 = nx → x = r)) ∧
    (cutY = true → (j = 0 → b = y) ∧ (j + 1 = ny → y = t))

/-- The selection is a plane: slices along the two axes, single positions along all others. -/
structure IsPlane (shape : List Nat) (sl : List Sel) (xaxis yaxis : Nat) (kx ky : List Nat) : Prop where
  full : sl.length = shape.length
  differ : xaxis ≠ yaxis
  x : sl[xaxis]? = some (.slice kx)
  y : sl[yaxis]? = some (.slice ky)
  others : ∀ n s, n ≠ xaxis → n ≠ yaxis → sl[n]? = some s → ∃ k, s = .pos k

/-- `idx` is the position in the dataset with `p` along the x axis, `q` along the y axis and the chosen positions
along all others. -/
structure IsPosition (sl : List Sel) (xaxis yaxis p q : Nat) (idx : List Nat) : Prop where
  length : idx.length = sl.length
  x : idx[xaxis]? = some p
  y : idx[yaxis]? = some q
  others : ∀ (n k : Nat), sl[n]? = some (.pos k) → idx[n]? = some k

/-- The rectangle is within the unit square. -/
def InUnit (r : Rect K) : Prop :=
  0 ≤ r.left ∧ 0 ≤ r.bottom ∧ 0 ≤ r.width ∧ 0 ≤ r.height ∧ r.left + r.width ≤ 1 ∧ r.bottom + r.height ≤ 1

/-- Nothing has negative size, and the image has positive size. -/
structure Sensible (image : Box K) (pad margin : Frame K) : Prop where
  width : 0 < image.x
  height : 0 < image.y
  pad : 0 ≤ pad.top ∧ 0 ≤ pad.bottom ∧ 0 ≤ pad.left ∧ 0 ≤ pad.right
  margin : 0 ≤ margin.top ∧ 0 ≤ margin.bottom ∧ 0 ≤ margin.left ∧ 0 ≤ margin.right

end Dedalus.Plot.Spec
