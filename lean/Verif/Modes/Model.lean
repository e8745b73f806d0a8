import Verif.Orders.Model
import Verif.Regularity.Model
import Verif.SphereField.Model
import Verif.VolumeField.Model

/-! Valid modes: which coefficients of a field belong to the linear systems (`Field.valid_modes`,
`dedalus/core/field.py` L322-327). Masks are predicates of a component and of the global indices of a coefficient; only coefficient space is modelled, the
one layout for which the code asks. -/

namespace Dedalus.Modes
open Orders

/-- `Jacobi.valid_elements` (`dedalus/core/basis.py` L569-572). -/
def jacobi (_ : List Nat) (_ : Nat) : Bool := true

/-- `ComplexFourier.valid_elements` (`dedalus/core/basis.py` L972-980): the lines that drop the Nyquist mode are comments. -/
def complexFourier (_ : List Nat) (_ : Nat) : Bool := true

/-- `RealFourier.valid_elements` (`dedalus/core/basis.py` L1123-1134); `azimuthal` tells whether the coordinate is an `AzimuthalCoordinate`, `k i` is the
wavenumber of element `i` (`elements_to_groups`, L884-890). -/
def realFourier (azimuthal : Bool) (rank : Nat) (k : Nat → Int) (i : Nat) : Bool :=
  if !azimuthal || rank == 0 then !(k i == 0 && i % 2 == 1) else true

/-- `PolarBasis.valid_elements` (`dedalus/core/basis.py` L1780-1797). The groups below `nmin` are masked, the comparisons use the numbers under the mask. -/
def polar (disk : Bool) (d : Dtype) (Nphi rank : Nat) (i n : Nat) : Bool :=
  let m := wave d Nphi i
  let valid := decide (nmin disk m ≤ (n : Int))
  if rank = 0 then (if m = 0 ∧ i % 2 = 1 then false else valid) else valid

/-- `SphereBasis.elements_to_groups` of coefficient data (`dedalus/core/basis.py` L2849-2888). -/
def group (d : Dtype) (Nphi L i j : Nat) : Int × Int :=
  match d with
  | .complex => Sphere.groupComplex Nphi L i j
  | .real => Sphere.groupReal Nphi L i j

/-- The end of `SphereBasis.valid_elements` and `Spherical3DBasis.valid_elements` (`dedalus/core/basis.py` L3204-3211, L4299-4306): the sine part of degree
zero is dropped for real data of rank 0 and 1. -/
def dropSine (d : Dtype) (rank : Nat) (zero : Bool) (i : Nat) (valid : Bool) : Bool :=
  match d with
  | .complex => valid
  | .real => if rank = 0 then (if zero && i % 2 == 1 then false else valid) else if rank = 1 then (if zero && i % 2 == 1 then false else valid) else valid

/-- `SphereBasis.valid_elements` (`dedalus/core/basis.py` L3183-3211) of component `t`. -/
def sphere (d : Dtype) (Nphi L : Nat) (coord1 : Spin.Coord) (sig : List Spin.Index) (t : List Nat) (i j : Nat) : Bool :=
  let g := group d Nphi L i j
  let valid := if sig.length = 0 then (if |g.1| > g.2 then false else true)
    else (if max |g.1| |SphereField.spinWeight coord1 sig t| > g.2 then false else true)
  dropSine d sig.length (g.2 == 0) i valid

/-- `_nmin` of the radial bases (`dedalus/core/basis.py` L3874-3876 for the shell, L4084-4086 for the ball). -/
def radialMin (ball : Bool) (ell : Int) : Int := if ball then ell / 2 else 0

/-- `regularity_allowed_vectorized` (`dedalus/core/basis.py` L3585-3593) at one element. For a masked element the masked sum keeps the number of its first
term, so `walk` stays, and `walk == 0` is false. -/
def allowedLoop (masked : Bool) : Int → Bool → List Int → Bool
  | _, valid, [] => valid
  | walk, valid, dr :: rest =>
    let walk := if masked then walk else walk + dr
    let valid := if walk < 0 then false else valid
    let valid := if dr = 0 then (if walk = 0 ∧ masked = false then false else valid) else valid
    allowedLoop masked walk valid rest

/-- `Spherical3DBasis.valid_elements` (`dedalus/core/basis.py` L4283-4306) of component `t`. Elements below `nmin` are masked by `elements_to_groups`
(L4308-4318), which does not make them invalid; `l == 0` is false for them. -/
def volume (ball : Bool) (d : Dtype) (Nphi L : Nat) (t : List Nat) (i j n : Nat) : Bool :=
  let l := (group d Nphi L i j).2
  let masked := decide ((n : Int) < radialMin ball l)
  let valid := if t = [] then true else allowedLoop masked l true (VolumeField.regs t).reverse
  dropSine d t.length (l == 0 && !masked) i valid

/-! ## Several bases and processes -/

/-- A basis of a domain: its first axis, its number of axes and its mask, of a component and of the global indices along its axes. -/
structure Piece where
  first : Nat
  dim : Nat
  mask : List Nat → List Nat → Bool

/-- `np.meshgrid` of the local elements (`dedalus/core/distributor.py` L407-408): the global indices of the coefficient at a local position. -/
def globalIndex : List (List Nat) → List Nat → Option (List Nat)
  | [], [] => some []
  | es :: elements, p :: pos => es[p]?.bind fun g => (globalIndex elements pos).map (g :: ·)
  | _, _ => none

/-- `Layout.valid_elements` (`dedalus/core/distributor.py` L404-416) of component `t` at a local position. -/
def layoutValid (bases : List Piece) (elements : List (List Nat)) (t pos : List Nat) : Option Bool :=
  (globalIndex elements pos).map fun g => bases.foldl (fun valid b => valid && b.mask t ((g.drop b.first).take b.dim)) true

end Dedalus.Modes
