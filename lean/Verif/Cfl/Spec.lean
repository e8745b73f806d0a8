import Verif.Cfl.Model

/-!
# Specification for C83

The directions in which the flow crosses the grid, with speed and spacing, as functions of the global grid index
alone (no processes).
-/

namespace Dedalus.Cfl

/-- A direction: how fast the flow moves along it at a grid point, and the spacing there (`none`: no grid). -/
structure Dir where
  speed : ℝ
  spacing : Option ℝ

/-- Difference between neighbours: half the distance between the two neighbours of an inner point, the second order
one-sided difference at the ends. -/
noncomputable def difference (n : ℕ) (x : ℕ → ℝ) (k : ℕ) : ℝ :=
  if k = 0 then (4 * (x 1 - x 0) - (x 2 - x 0)) / 2
  else if k = n - 1 then (4 * (x (n - 1) - x (n - 2)) - (x (n - 1) - x (n - 3))) / 2
  else (x (k + 1) - x (k - 1)) / 2

/-- Spacing of an interval grid at global index `k`, scaled back to the undealiased grid. -/
noncomputable def intervalSpacing (b : IBasis) (k : ℕ) : ℝ :=
  match b.kind with
  | .fourier => b.dealias * ((b.right - b.left) / b.N)
  | .chebyshevT => b.dealias * ((b.right - b.left) / 2 * (Real.sin (Real.pi * (2 * k + 1) / (2 * b.N)) * (Real.pi / b.N)))
  | .jacobi => b.dealias * difference b.N b.grid k

/-- The directions of a Cartesian coordinate system. -/
noncomputable def cartDirs (g : ℕ → ℕ) (u : ℕ → ℝ) : List (Option IBasis) → List Dir
  | [] => []
  | b :: bs => ⟨|u 0|, b.map fun b => intervalSpacing b (g b.axis)⟩ :: cartDirs g (fun i => u (i + 1)) bs

/-- The directions of a coordinate system at global index `g` for velocity components `u`. The smallest azimuthal
scale of a disk of radius `R` is `R / mmax`, of an annulus `r / mmax`, and the smallest angular scale on a sphere of
radius `r` is `r / sqrt(L (L + 1))`; none if only the constant mode is resolved. -/
noncomputable def dirs (g : ℕ → ℕ) (u : ℕ → ℝ) : Space → List Dir
  | .cart bs => cartDirs g u bs
  | .polar disk b =>
    [⟨|u 0|, if b.mmax = 0 then none else some ((if disk then b.radius else b.rgrid (g (b.axis + 1))) / b.mmax)⟩,
     ⟨|u 1|, some (b.dealiasR * difference b.Nr b.rgrid (g (b.axis + 1)))⟩]
  | .sphere b =>
    [⟨Real.sqrt (u 0 ^ 2 + u 1 ^ 2), if b.Lmax = 0 then none else some (b.radius / Real.sqrt (b.Lmax * (b.Lmax + 1)))⟩]
  | .spherical ball b =>
    [⟨Real.sqrt (u 0 ^ 2 + u 1 ^ 2), if b.Lmax = 0 then none else
        some ((if ball then b.radius else b.rgrid (g (b.axis + 2))) / Real.sqrt (b.Lmax * (b.Lmax + 1)))⟩,
     ⟨|u 2|, if b.Nr = 1 then none else some (b.dealiasR * difference b.Nr b.rgrid (g (b.axis + 2)))⟩]

/-- The directions of all coordinate systems of the velocity. -/
noncomputable def allDirs (g : ℕ → ℕ) : (ℕ → ℝ) → List Space → List Dir
  | _, [] => []
  | u, s :: ss => dirs g u s ++ allDirs g (fun i => u (i + s.dim)) ss

/-- Crossing frequency of one direction. -/
noncomputable def Dir.rate (d : Dir) : ℝ :=
  match d.spacing with
  | none => 0
  | some h => d.speed / h

/-- The grid is fine enough for the spacings to be defined, and a Chebyshev coordinate has the same number in its
coordinate system as in the distributor. -/
def cartResolved : ℕ → List (Option IBasis) → Prop
  | _, [] => True
  | i, none :: bs => cartResolved (i + 1) bs
  | i, some b :: bs => 3 ≤ b.N ∧ (b.kind = .chebyshevT → b.axis = i) ∧ cartResolved (i + 1) bs

/-- See `cartResolved`. Balls and shells may have a single point along the azimuth or radius. -/
def Space.Resolved : Space → Prop
  | .cart bs => cartResolved 0 bs
  | .polar _ b => 3 ≤ b.Nphi ∧ 3 ≤ b.Nr
  | .sphere b => 3 ≤ b.Nphi
  | .spherical _ b => (b.Nphi = 1 ∨ 3 ≤ b.Nphi) ∧ (b.Nr = 1 ∨ 3 ≤ b.Nr)

/-- The local point at position `p` has the global index `g` along the axes of the bases. -/
def At (loc : ℕ → ℕ → List ℕ) (p g : ℕ → ℕ) : Space → Prop
  | .cart bs => ∀ b, some b ∈ bs → (loc b.axis b.N)[p b.axis]? = some (g b.axis)
  | .polar _ b => (loc b.axis b.Mphi)[p b.axis]? = some (g b.axis) ∧ (loc (b.axis + 1) b.Nr)[p (b.axis + 1)]? = some (g (b.axis + 1))
  | .sphere b => (loc b.axis b.Mphi)[p b.axis]? = some (g b.axis)
  | .spherical _ b => (loc b.axis b.Mphi)[p b.axis]? = some (g b.axis) ∧ (loc (b.axis + 2) b.Nr)[p (b.axis + 2)]? = some (g (b.axis + 2))

end Dedalus.Cfl
