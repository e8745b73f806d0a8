/-!
# Model: construction of the layout chain

Models `Distributor.__init__` (mesh checks) and `Distributor._build_layouts` in
/repo/dedalus/core/distributor.py.
-/

namespace Dedalus.Dist

/-- The two kinds of path objects. distributor.py L155, L164. -/
inductive PathKind | transform | transpose
deriving Repr, DecidableEq

/-- A path object: kind and `axis`. The layouts it connects are implicit: path `i` connects
layouts `i` and `i+1` (distributor.py L155, L164, L167-169). -/
structure Path where
  kind : PathKind
  axis : Nat
deriving Repr, DecidableEq

/-- The data frozen in a `Layout`: locality and grid-space flags. distributor.py L325-329. -/
structure Lay where
  loc : List Bool
  grid : List Bool
deriving Repr, DecidableEq

/-- Outcome of the inner loop: `idle` when no axis is in coefficient space (the Python loop would
fall through and re-use the previous `layout_i`), `indexError` when `local[d+1]` is out of range. -/
inductive StepOut
  | idle
  | indexError
  | move (l : Lay) (p : Path)
deriving Repr, DecidableEq

/-- distributor.py L148-165: `for d in reversed(range(D))`, called with the number `k` of axes
still to scan (next axis `k-1`). -/
def scanStep (l : Lay) : Nat → StepOut
  | 0 => .idle
  | d + 1 =>
    match l.grid[d]? with
    | some true => scanStep l d
    | some false =>
      match l.loc[d]? with
      | some true => .move ⟨l.loc, l.grid.set d true⟩ ⟨.transform, d⟩
      | some false =>
        if d + 1 < l.loc.length then
          .move ⟨(l.loc.set d true).set (d + 1) false, l.grid⟩ ⟨.transpose, d⟩
        else .indexError
      | none => .indexError
    | none => .indexError

/-- distributor.py L146-169: `n` passes of the outer loop. Returns the layouts and paths
appended, or `none` on an exception (index error, or an unbound/re-used `layout_i`). -/
def buildFrom (l : Lay) : Nat → Option (List Lay × List Path)
  | 0 => some ([], [])
  | n + 1 =>
    match scanStep l l.loc.length with
    | .move l' p =>
      match buildFrom l' n with
      | some (ls, ps) => some (l' :: ls, p :: ps)
      | none => none
    | _ => none

/-- Trim trailing ones of the mesh. distributor.py L98. -/
def trimMesh (mesh : List Nat) : List Nat := (mesh.reverse.dropWhile (· == 1)).reverse

/-- distributor.py L136-137: `local` is all `True`, then `False` where the mesh is larger than 1. -/
def initLocal (D : Nat) (mesh : List Nat) : List Bool :=
  mesh.map (fun m => decide (¬ m > 1)) ++ List.replicate (D - mesh.length) true

/-- `R = np.sum(self.mesh > 1)`. distributor.py L134. -/
def meshR (mesh : List Nat) : Nat := (mesh.filter (fun m => decide (m > 1))).length

/-- Result of `Distributor.__init__` restricted to layouts. `commSize` is `comm.size`.
The two `ValueError`s (L105-108) and an exception of the loop give `none`. Mesh entries are
naturals: numpy would accept negative entries, but `Create_cart` would not. -/
def buildLayouts (D commSize : Nat) (mesh0 : List Nat) : Option (List Lay × List Path) :=
  let mesh := trimMesh mesh0
  if mesh.length ≥ D then none
  else if mesh.foldl (· * ·) 1 ≠ commSize then none
  else
    let l0 : Lay := ⟨initLocal D mesh, List.replicate D false⟩
    match buildFrom l0 (meshR mesh + D) with
    | some (ls, ps) => some (l0 :: ls, ps)
    | none => none

/-- `self.transforms`: each Transform path is inserted at the front. distributor.py L156. -/
def transforms (ps : List Path) : List Path :=
  ps.foldl (fun acc p => if p.kind = .transform then p :: acc else acc) []

/-- `comm_cart_axis = axis - np.sum(mesh[:axis]==1)`. distributor.py L714. -/
def commCartAxis (mesh : List Nat) (axis : Nat) : Int :=
  (axis : Int) - ((mesh.take axis).filter (· == 1)).length

end Dedalus.Dist
