import Verif.Grids.Model

/-!
# Specification: the points where a field is sampled

A field with `N` values along an axis of a basis is sampled at the points number `0, ..., N-1` of the `N`-point grid of this axis.
-/

namespace Dedalus.Grids

variable {K : Type}

/-- The grids of a basis, axis by axis. -/
def Basis.grids : Basis K → List (Grid K)
  | .interval _ _ x => [x]
  | .polar _ _ _ phi r => [phi, r]
  | .sphere _ _ _ phi theta => [phi, theta]
  | .radial .. => []
  | .spherical _ _ _ _ phi theta r => [phi, theta, r]

/-- The numbers of modes of a basis, axis by axis. -/
def Basis.modes : Basis K → List Nat
  | .interval _ n _ => [n]
  | .polar _ Nphi Nr _ _ => [Nphi, Nr]
  | .sphere _ Nphi Ntheta _ _ => [Nphi, Ntheta]
  | .radial _ Nr _ => [1, 1, Nr]
  | .spherical _ Nphi Ntheta Nr _ _ _ => [Nphi, Ntheta, Nr]

namespace Spec

/-- Point number `i` of the grid with `N` points. -/
def node (x : Grid K) (N i : Nat) : Option K := ((x.native N)[i]?).map x.problem

/-- The coordinates, for each axis of each basis, of the entry with a given global index of an array with a given global shape. -/
def Coordinates (D : List (Basis K)) (shape idx : List Nat) (xs : List K) : Prop :=
  List.Forall₂ (fun (p : Grid K × Nat) x => ∃ N i, shape[p.2]? = some N ∧ idx[p.2]? = some i ∧ node p.1 N i = some x)
    (D.flatMap fun b => b.grids.zipIdx b.axis) xs

/-- The processes of a distributor: the same axes and mesh, coordinates inside the mesh. -/
structure Member (P : Process) : Prop where
  axes : P.loc.length = P.dim
  mesh : P.mesh.length = P.loc.count false
  inside : List.Forall₂ (· < ·) P.coords P.mesh

/-- The bases of a domain are on different axes of the distributor, in order (`Domain` sorts them). -/
def Separate (dim : Nat) (D : List (Basis K)) : Prop :=
  D.Pairwise (fun a b => a.axis + a.dim ≤ b.axis) ∧ ∀ b ∈ D, b.axis + b.dim ≤ dim

/-- A quadrature rule or equispaced grid has as many points as asked for. -/
def Complete (b : Basis K) : Prop := ∀ x ∈ b.grids, ∀ N, (x.native N).length = N

/-- The cases in which the code works: an azimuth of two points is not used, and curvilinear axes with one mode are not refined. -/
def Regular : Basis K → List ℚ → Prop
  | .interval .., _ => True
  | .polar _ Nphi Nr _ _, [_, t] => Nphi ≠ 2 ∧ 0 < Nphi ∧ (Nr = 1 → ⌈t⌉ = 1)
  | .sphere _ Nphi Ntheta _ _, [_, t] => Nphi ≠ 2 ∧ 0 < Nphi ∧ (Ntheta = 1 → ⌈t⌉ = 1)
  | .radial .., _ => False
  | .spherical _ Nphi Ntheta Nr _ _ _, [_, t, u] => Nphi ≠ 2 ∧ 0 < Nphi ∧ (Ntheta = 1 → ⌈t⌉ = 1) ∧ (Nr = 1 → ⌈u⌉ = 1)
  | _, _ => False

/-- The global index `idx` of the entry `j` of the local data: on each axis, the entry of the list of local elements. -/
def Global (els : List (List Nat)) (j idx : List Nat) : Prop :=
  j.length = els.length ∧ idx.length = els.length ∧
    ∀ (a : Nat) (e : List Nat) (k i : Nat), els[a]? = some e → j[a]? = some k → idx[a]? = some i → e[k]? = some i

/-- The difference per index of a list of points: centred inside, second order one-sided at the ends. -/
def Spacing [Field K] (v : Nat → K) (N i : Nat) (d : K) : Prop :=
  (0 < i ∧ i + 1 < N → 2 * d = v (i + 1) - v (i - 1)) ∧
  (i = 0 → 2 * d = -3 * v 0 + 4 * v 1 - v 2) ∧
  (i + 1 = N → 2 * d = 3 * v i - 4 * v (i - 1) + v (i - 2))

end Spec

end Dedalus.Grids
