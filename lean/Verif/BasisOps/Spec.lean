import Verif.BasisOps.Model

/-!
# Specification: the bases of sums and products

What it means that a basis contains another one, and how much a basis resolves. Only the constructor arguments of the bases are used.
-/

namespace Dedalus.BasisOps

/-- The same class and the same constructor arguments, except the number of modes and the parameters `a`, `b`, `k` of the polynomials. -/
def Compatible : Basis → Basis → Prop
  | .fourier i, .fourier j => i = j
  | .jacobi x, .jacobi y => ∃ size a b, y = { x with size := size, a := a, b := b }
  | .annulus x, .annulus y => ∃ shape k, y = { x with shape := shape, k := k }
  | .disk x, .disk y => ∃ shape k, y = { x with shape := shape, k := k }
  | .sphere x, .sphere y => ∃ shape, y = { x with shape := shape }
  | .shellRadial x, .shellRadial y => ∃ size k, y = { x with size := size, k := k }
  | .ballRadial x, .ballRadial y => ∃ size k, y = { x with size := size, k := k }
  | .shell x, .shell y => ∃ shape k, y = { x with shape := shape, k := k }
  | .ball x, .ball y => ∃ shape k, y = { x with shape := shape, k := k }
  | _, _ => False

/-- The number of modes in azimuth, colatitude and the last direction (radius, or the interval of a Jacobi basis); 0 for directions that the
basis does not have. The model does not know the size of a Fourier basis. -/
def resolution : Basis → Nat × Nat × Nat
  | .fourier _ => (0, 0, 0)
  | .jacobi x => (0, 0, x.size)
  | .annulus x => (x.shape.1, 0, x.shape.2)
  | .disk x => (x.shape.1, 0, x.shape.2)
  | .sphere x => (x.shape.1, x.shape.2, 0)
  | .shellRadial x => (0, 0, x.size)
  | .ballRadial x => (0, 0, x.size)
  | .shell x => x.shape
  | .ball x => x.shape

/-- Componentwise maximum of two resolutions. -/
def maxRes (x y : Nat × Nat × Nat) : Nat × Nat × Nat := (max x.1 y.1, max x.2.1 y.2.1, max x.2.2 y.2.2)

/-- The parameters of the polynomials: `(a, b)` or `(k, k)`. -/
def parameters : Basis → ℚ × ℚ
  | .fourier _ => (0, 0)
  | .jacobi x => (x.a, x.b)
  | .annulus x => (x.k, x.k)
  | .disk x => (x.k, x.k)
  | .sphere _ => (0, 0)
  | .shellRadial x => (x.k, x.k)
  | .ballRadial x => (x.k, x.k)
  | .shell x => (x.k, x.k)
  | .ball x => (x.k, x.k)

/-- `t` has at least the modes and the parameters of `s`: every field on `s` can be converted to `t` (conversions go up in the parameters). -/
def Within (s t : Basis) : Prop :=
  Compatible s t ∧
    (resolution s).1 ≤ (resolution t).1 ∧ (resolution s).2.1 ≤ (resolution t).2.1 ∧ (resolution s).2.2 ≤ (resolution t).2.2 ∧
    (parameters s).1 ≤ (parameters t).1 ∧ (parameters s).2 ≤ (parameters t).2

/-- `s` is the smallest basis that contains all bases in the list. -/
def Smallest (l : List Basis) (s : Basis) : Prop :=
  (∀ b ∈ l, Within b s) ∧ ∀ t, (∀ b ∈ l, Within b t) → Within s t

/-- Radial bases (of shells or of balls) have the same `dtype` and `radius_library`; true of all other bases. -/
def SameLibrary : Basis → Basis → Prop
  | .shellRadial x, .shellRadial y => x.dtype = y.dtype ∧ x.radiusLibrary = y.radiusLibrary
  | .ballRadial x, .ballRadial y => x.dtype = y.dtype ∧ x.radiusLibrary = y.radiusLibrary
  | _, _ => True

/-- The product is one of a radial basis with a shell or ball basis. -/
def Mixed : Basis → Basis → Prop
  | .shellRadial _, .shell _ => True
  | .shell _, .shellRadial _ => True
  | .ballRadial _, .ball _ => True
  | .ball _, .ballRadial _ => True
  | _, _ => False

/-- A shell or ball basis. -/
def IsVolume : Basis → Prop
  | .shell _ => True
  | .ball _ => True
  | _ => False

/-- A shell basis or a radial basis of a shell. -/
def InShell : Basis → Prop
  | .shell _ => True
  | .shellRadial _ => True
  | _ => False

/-- The parameter `k`. -/
def kOf : Basis → Int
  | .annulus x => x.k
  | .disk x => x.k
  | .shellRadial x => x.k
  | .ballRadial x => x.k
  | .shell x => x.k
  | .ball x => x.k
  | _ => 0

/-- The coefficient at position `(i, j)` of a function given by the array `u`: what is not in the array is zero. Position 0 along the first
axis is the azimuthal average, and the arrays of one azimuthal size have the same modes at the same positions. -/
def coefficient (u : Data) (i j : Nat) : ℚ := if i < u.shape.1 ∧ j < u.shape.2 then u.get i j else 0

end Dedalus.BasisOps
