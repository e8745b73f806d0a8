import Mathlib.Analysis.SpecialFunctions.Trigonometric.Basic
import Mathlib.Analysis.SpecialFunctions.Sqrt

/-!
# Model: the grid-crossing frequency

Models `AdvectiveCFL.operate` and its subclasses (/repo/dedalus/core/operators.py L4342-4410,
/repo/dedalus/core/basis.py L6078-6204) with the grid spacings they use (basis.py L381-392, L1950-1962, L3021-3033,
L4217-4233). Numbers are reals. One process is described by `loc`: `loc axis size` are the global indices along an
axis that it holds, for an axis with `size` points (`Layout.local_elements`, /repo/dedalus/core/distributor.py
L393-401; an axis without a basis has size one).
-/

namespace Dedalus.Cfl

inductive Exc
  | valueError
deriving DecidableEq, Repr

/-- A spacing: `none` is `np.inf`. -/
abbrev Spacing := Option ℝ

/-- An array of spacings on one process, as a function of the local position along every axis (arrays have one entry
along the axes they do not depend on and broadcast). Only positions of local points matter. -/
abbrev Local := (ℕ → ℕ) → Spacing

/-- `np.gradient(grid, edge_order=2)` along the grid's axis: central differences inside, three point differences at
the ends, unit index spacing; with fewer than three points it raises. -/
noncomputable def gradient (n : ℕ) (f : ℕ → ℝ) : Except Exc (ℕ → ℝ) :=
  if n < 3 then .error .valueError
  else .ok fun i =>
    if i = 0 then -(3 / 2) * f 0 + 2 * f 1 - 1 / 2 * f 2
    else if i = n - 1 then 3 / 2 * f (n - 1) - 2 * f (n - 2) + 1 / 2 * f (n - 3)
    else (f (i + 1) - f (i - 1)) / 2

/-- `grid_shape`: `ceil(scale * size)`, and 1 for a basis of size one. basis.py L141-144. -/
noncomputable def gridSize (size : ℕ) (scale : ℝ) : ℕ := if size = 1 then 1 else ⌈scale * size⌉₊

/-- Array with the given values along one axis. -/
def along (axis : ℕ) (l : List ℝ) : Local := fun p => l[p axis]?

/-! ### Cartesian coordinates -/

inductive Kind
  | chebyshevT
  | fourier
  | jacobi
deriving DecidableEq, Repr

/-- An interval basis. `nodes N` are the native points of the Jacobi grid with `N` points; `axis` is the axis of its
coordinate in the distributor. -/
structure IBasis where
  kind : Kind
  size : ℕ
  dealias : ℝ
  left : ℝ
  right : ℝ
  nodes : ℕ → ℕ → ℝ
  axis : ℕ

namespace IBasis

/-- Size of the dealiased grid. basis.py L6092. -/
noncomputable def N (b : IBasis) : ℕ := gridSize b.size b.dealias

/-- `COV.stretch`. basis.py L61-69; native bounds are `(0, 2π)` or `(-1, 1)`. -/
noncomputable def stretch (b : IBasis) : ℝ :=
  match b.kind with
  | .fourier => (b.right - b.left) / (2 * Real.pi)
  | _ => (b.right - b.left) / 2

/-- `global_grid`: the native grid in problem coordinates. basis.py L364-368, L499-502, L910-913. -/
noncomputable def grid (b : IBasis) (i : ℕ) : ℝ :=
  match b.kind with
  | .fourier => b.left + (2 * Real.pi / b.N * i) / (2 * Real.pi) * (b.right - b.left)
  | _ => b.left + (b.nodes b.N i + 1) / 2 * (b.right - b.left)

/-- The spacing along one coordinate, number `i` of its coordinate system. basis.py L6086-6105. The Chebyshev case
looks up the local indices of axis `i` instead of the axis of the basis (L6096), where the domain of the basis has one
point if the two differ; `reshape` needs equal sizes. -/
noncomputable def spacing (loc : ℕ → ℕ → List ℕ) (i : ℕ) (b : IBasis) : Except Exc Local :=
  match gradient b.N b.grid with
  | .error e => .error e
  | .ok g =>
    let axisSpacing := (loc b.axis b.N).map fun k => g k * b.dealias
    match b.kind with
    | .chebyshevT =>
      let idx := loc i (if i = b.axis then b.N else 1)
      if idx.length = axisSpacing.length then
        .ok (along b.axis (idx.map fun k : ℕ =>
          b.dealias * b.stretch * Real.sin (Real.pi * ((k : ℝ) + 1 / 2) / b.N) * Real.pi / b.N))
      else .error .valueError
    | .fourier => .ok (along b.axis (axisSpacing.map fun _ => b.dealias * (2 * Real.pi / b.N) * b.stretch))
    | .jacobi => .ok (along b.axis axisSpacing)

end IBasis

/-- `CartesianAdvectiveCFL.cfl_spacing`: one spacing for each coordinate of the velocity's coordinate system, from
coordinate number `i` on; no basis along a coordinate gives infinity. basis.py L6082-6106. -/
noncomputable def cartSpacing (loc : ℕ → ℕ → List ℕ) : ℕ → List (Option IBasis) → Except Exc (List Local)
  | _, [] => .ok []
  | i, none :: bs =>
    match cartSpacing loc (i + 1) bs with
    | .error e => .error e
    | .ok l => .ok ((fun _ => none) :: l)
  | i, some b :: bs =>
    match b.spacing loc i with
    | .error e => .error e
    | .ok s =>
      match cartSpacing loc (i + 1) bs with
      | .error e => .error e
      | .ok l => .ok (s :: l)

/-! ### Curvilinear coordinates -/

/-- The data of a disk, annulus, sphere, ball or shell basis that the spacings depend on: azimuthal size and dealias
factor, radial size and dealias factor, the global radial grid, the outer radius (of the disk or ball, or the radius of
the sphere), `Lmax`, and the first axis. -/
structure CBasis where
  nphi : ℕ
  dealiasPhi : ℝ
  nr : ℕ
  dealiasR : ℝ
  rgrid : ℕ → ℝ
  radius : ℝ
  Lmax : ℕ
  axis : ℕ

namespace CBasis

/-- `mmax`. basis.py L1680. -/
def mmax (b : CBasis) : ℕ := (b.nphi - 1) / 2

/-- Azimuthal grid size. -/
noncomputable def Nphi (b : CBasis) : ℕ := gridSize b.nphi b.dealiasPhi

/-- Azimuthal size of the data on the grid: one point if only the constant mode is resolved.
basis.py L1811-1818, L2781-2788, L4268-4270. -/
noncomputable def Mphi (b : CBasis) : ℕ := if b.mmax = 0 then 1 else b.Nphi

/-- Radial grid size: `ceil(scale * size)`. basis.py L2129, L2415. -/
noncomputable def Nr (b : CBasis) : ℕ := ⌈b.dealiasR * b.nr⌉₊

/-- The azimuth grid. basis.py L499-502 with bounds `(0, 2π)`. -/
noncomputable def phi (b : CBasis) (i : ℕ) : ℝ := 2 * Real.pi / b.Nphi * i

end CBasis

/-- `PolarAdvectiveCFL.cfl_spacing`. basis.py L6134-6147. The gradient is taken of the full azimuth grid (L1951-1954). -/
noncomputable def polarSpacing (loc : ℕ → ℕ → List ℕ) (disk : Bool) (b : CBasis) : Except Exc (Local × Local) :=
  match gradient b.Nphi b.phi, gradient b.Nr b.rgrid with
  | .error e, _ => .error e
  | _, .error e => .error e
  | .ok _, .ok g =>
    let az : Local :=
      if b.mmax = 0 then fun _ => none
      else if disk then along b.axis ((loc b.axis b.Mphi).map fun _ => b.radius / b.mmax)
      else along (b.axis + 1) ((loc (b.axis + 1) b.Nr).map fun k => b.rgrid k / b.mmax)
    .ok (az, along (b.axis + 1) ((loc (b.axis + 1) b.Nr).map fun k => b.dealiasR * g k))

/-- `S2AdvectiveCFL.cfl_spacing` on a sphere. basis.py L6160-6172. -/
noncomputable def s2Spacing (loc : ℕ → ℕ → List ℕ) (b : CBasis) : Except Exc Local :=
  match gradient b.Nphi b.phi with
  | .error e => .error e
  | .ok _ =>
    .ok (if b.Lmax = 0 then fun _ => none
      else along b.axis ((loc b.axis b.Mphi).map fun _ => b.radius / Real.sqrt (b.Lmax * (b.Lmax + 1))))

/-- `global_grid_spacing` of ball and shell: infinite for a single point. basis.py L4217-4225. -/
noncomputable def gradientOrInf (n : ℕ) (f : ℕ → ℝ) : Except Exc (ℕ → Spacing) :=
  if n = 1 then .ok fun _ => none
  else match gradient n f with
    | .error e => .error e
    | .ok g => .ok fun i => some (g i)

/-- `Spherical3DAdvectiveCFL.cfl_spacing`. basis.py L6187-6198. -/
noncomputable def sphericalSpacing (loc : ℕ → ℕ → List ℕ) (ball : Bool) (b : CBasis) : Except Exc (Local × Local) :=
  match gradientOrInf b.Nphi b.phi, gradientOrInf b.Nr b.rgrid with
  | .error e, _ => .error e
  | _, .error e => .error e
  | .ok _, .ok g =>
    let s2 (r : ℝ) : Local :=
      if b.Lmax = 0 then fun _ => none
      else along b.axis ((loc b.axis b.Mphi).map fun _ => r / Real.sqrt (b.Lmax * (b.Lmax + 1)))
    let tangential : Local :=
      if ball then s2 b.radius
      else fun p => match s2 1 p, along (b.axis + 2) ((loc (b.axis + 2) b.Nr).map b.rgrid) p with
        | some s, some r => some (s * r)
        | _, _ => none
    .ok (tangential, fun p => match (loc (b.axis + 2) b.Nr)[p (b.axis + 2)]? with
      | some k => (g k).map fun d => d * b.dealiasR
      | none => none)

/-! ### The frequency -/

/-- A coordinate system with the bases of the velocity along it. -/
inductive Space
  | cart (bases : List (Option IBasis))
  | polar (disk : Bool) (b : CBasis)
  | sphere (b : CBasis)
  | spherical (ball : Bool) (b : CBasis)

/-- Number of components. -/
def Space.dim : Space → ℕ
  | .cart bs => bs.length
  | .polar _ _ => 2
  | .sphere _ => 2
  | .spherical _ _ => 3

/-- `speed / spacing`; division by infinity is zero. -/
noncomputable def over (speed : ℝ) : Spacing → ℝ
  | none => 0
  | some d => speed / d

/-- `out += u_mag[i] / dx` over the coordinates. basis.py L6108-6111. -/
noncomputable def cartSum (u : ℕ → ℝ) (p : ℕ → ℕ) : List Local → ℝ
  | [] => 0
  | s :: l => over |u 0| (s p) + cartSum (fun i => u (i + 1)) p l

/-- `compute_cfl_frequency` for one coordinate system at one local grid point, `u` being the components of the
velocity there. basis.py L6108-6111, L6149-6153, L6174-6180, L6200-6204. -/
noncomputable def frequencyOne (loc : ℕ → ℕ → List ℕ) (p : ℕ → ℕ) (u : ℕ → ℝ) : Space → Except Exc ℝ
  | .cart bs =>
    match cartSpacing loc 0 bs with
    | .error e => .error e
    | .ok l => .ok (cartSum u p l)
  | .polar disk b =>
    match polarSpacing loc disk b with
    | .error e => .error e
    | .ok (az, r) => .ok (over |u 0| (az p) + over |u 1| (r p))
  | .sphere b =>
    match s2Spacing loc b with
    | .error e => .error e
    | .ok s => .ok (over (Real.sqrt (u 0 ^ 2 + u 1 ^ 2)) (s p))
  | .spherical ball b =>
    match sphericalSpacing loc ball b with
    | .error e => .error e
    | .ok (s, r) => .ok (over (Real.sqrt (u 0 ^ 2 + u 1 ^ 2)) (s p) + over |u 2| (r p))

/-- `AdvectiveCFL.operate` at one local grid point: the data start at zero, and a direct product adds the
contributions of its coordinate systems. operators.py L4394-4404, basis.py L6114-6127. -/
noncomputable def frequency (loc : ℕ → ℕ → List ℕ) (p : ℕ → ℕ) : (ℕ → ℝ) → List Space → Except Exc ℝ
  | _, [] => .ok 0
  | u, s :: ss =>
    match frequencyOne loc p u s with
    | .error e => .error e
    | .ok f =>
      match frequency loc p (fun i => u (i + s.dim)) ss with
      | .error e => .error e
      | .ok f' => .ok (f + f')

/-! ### The cached azimuthal spacing of a polar basis -/

/-- The array held by the cache of `basis.local_grid_spacing(dist, 0, dealias)`, if it was asked for already. Results
are returned without copying (/repo/dedalus/tools/cache.py L63-86). -/
structure SpacingCache where
  arr : Option (List ℝ)

/-- `basis.local_grid_spacing(dist, 0, scales=dealias)`. basis.py L1956-1962. -/
def SpacingCache.read (c : SpacingCache) (fresh : List ℝ) : List ℝ × SpacingCache :=
  match c.arr with
  | some a => (a, c)
  | none => (fresh, ⟨some fresh⟩)

/-- What `PolarAdvectiveCFL.cfl_spacing` does to it on a disk: `azimuth_spacing[:] = radius / mmax` writes into the
cached array. basis.py L6139-6143. -/
def SpacingCache.diskCfl (c : SpacingCache) (fresh : List ℝ) (v : ℝ) : SpacingCache :=
  let (a, _) := c.read fresh
  ⟨some (a.map fun _ => v)⟩

end Dedalus.Cfl
