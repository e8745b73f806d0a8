import Mathlib.Data.Rat.Defs
import Mathlib.Algebra.Order.Ring.Rat

/-!
# Arithmetic of bases

Model of `+`, `*`, `@` and `==` of spectral bases (`dedalus/core/basis.py`), of the bases of sums and products of fields along one
coordinate system (`dedalus/core/arithmetic.py`), and of the addition of the coefficients of two fields.

A basis is the tuple of its constructor arguments. Bases are cached by these arguments (`dedalus/tools/cache.py` L107-138), so `is` is equality
of this model. The constructor argument `dealias` of the radial bases can be given as `(d,)` or as `(1, 1, d)`, with the same meaning
(`dedalus/core/basis.py` L3433-3436); the two are not distinguished. Arguments that are only compared are numbers. Real parameters are rational.
The tuples `grid_params` are compared by setting all other arguments to the same values.
-/

namespace Dedalus.BasisOps

/-- The exceptions. -/
inductive Err where
  | typeError | notImplemented | value
  deriving DecidableEq, Repr

inductive DType where
  | float64 | complex128
  deriving DecidableEq, Repr

/-- `Jacobi` (`dedalus/core/basis.py` L482-499). -/
structure Jac where
  coord : Nat
  bounds : Nat
  dealias : Nat
  library : Nat
  a0 : ℚ
  b0 : ℚ
  size : Nat
  a : ℚ
  b : ℚ
  deriving DecidableEq

/-- `grid_params` (`dedalus/core/basis.py` L498). -/
def Jac.grid (x : Jac) : Jac := { x with size := 0, a := 0, b := 0 }

/-- `AnnulusBasis` (`dedalus/core/basis.py` L2060-2077) and `DiskBasis` (L2340-2359); `radii` is the radius of a disk. -/
structure Pol where
  coordsys : Nat
  dtype : DType
  radii : Nat
  alpha : Nat
  dealias : Nat
  azimuthLibrary : Nat
  radiusLibrary : Nat
  shape : Nat × Nat
  k : Int
  deriving DecidableEq

/-- `grid_params` (`dedalus/core/basis.py` L2077, L2359). -/
def Pol.grid (x : Pol) : Pol := { x with shape := (0, 0), k := 0 }

/-- `SphereBasis` (`dedalus/core/basis.py` L2710-2742). -/
structure Sph where
  coordsys : Nat
  dtype : DType
  radius : Nat
  dealias : Nat × Nat
  azimuthLibrary : Nat
  colatitudeLibrary : Nat
  shape : Nat × Nat
  deriving DecidableEq

/-- `grid_params` (`dedalus/core/basis.py` L2742). -/
def Sph.grid (x : Sph) : Sph := { x with shape := (0, 0) }

/-- `ShellRadialBasis` (`dedalus/core/basis.py` L3684-3699) and `BallRadialBasis` (L3921-3932); `radii` is the radius of a ball. -/
structure Rad where
  coordsys : Nat
  dtype : DType
  radii : Nat
  alpha : Nat
  dealias : Nat
  radiusLibrary : Nat
  size : Nat
  k : Int
  deriving DecidableEq

/-- `grid_params` (`dedalus/core/basis.py` L3699, L3932): without `dtype` and `radius_library`. -/
def Rad.grid (x : Rad) : Rad := { x with dtype := .float64, radiusLibrary := 0, size := 0, k := 0 }

/-- `ShellBasis` (`dedalus/core/basis.py` L4385-4403) and `BallBasis` (L4607-4623). -/
structure Vol where
  coordsys : Nat
  dtype : DType
  radii : Nat
  alpha : Nat
  dealias : Nat × Nat × Nat
  azimuthLibrary : Nat
  colatitudeLibrary : Nat
  radiusLibrary : Nat
  shape : Nat × Nat × Nat
  k : Int
  deriving DecidableEq

/-- `grid_params` (`dedalus/core/basis.py` L4403, L4623). -/
def Vol.grid (x : Vol) : Vol := { x with shape := (0, 0, 0), k := 0 }

/-- `radial_basis` (`dedalus/core/basis.py` L4401, L4621). -/
def Vol.radial (x : Vol) : Rad :=
  ⟨x.coordsys, x.dtype, x.radii, x.alpha, x.dealias.2.2, x.radiusLibrary, x.shape.2.2, x.k⟩

/-- A basis. All parameters of a Fourier basis are one number, because two Fourier bases are only combined if they are the same object. -/
inductive Basis where
  | fourier (id : Nat)
  | jacobi (x : Jac)
  | annulus (x : Pol)
  | disk (x : Pol)
  | sphere (x : Sph)
  | shellRadial (x : Rad)
  | ballRadial (x : Rad)
  | shell (x : Vol)
  | ball (x : Vol)
  deriving DecidableEq

/-- The class, for the dispatch of binary operators. -/
def Basis.cls : Basis → Nat
  | .fourier _ => 0
  | .jacobi _ => 1
  | .annulus _ => 2
  | .disk _ => 3
  | .sphere _ => 4
  | .shellRadial _ => 5
  | .ballRadial _ => 6
  | .shell _ => 7
  | .ball _ => 8

/-- `tuple(np.maximum(self.shape, other.shape))` -/
def max2 (s t : Nat × Nat) : Nat × Nat := (max s.1 t.1, max s.2 t.2)

def max3 (s t : Nat × Nat × Nat) : Nat × Nat × Nat := (max s.1 t.1, max s.2.1 t.2.1, max s.2.2 t.2.2)

/-- The result of a special method: an exception, `NotImplemented` (`none`) or a basis. -/
abbrev Res := Except Err (Option Basis)

def ni : Res := .ok none

/-- `Jacobi.__add__` (`dedalus/core/basis.py` L519-529), `AnnulusBasis.__add__` (L2090-2099), `DiskBasis.__add__` (L2371-2380), `SphereBasis.__add__`
(L2902-2913), `ShellRadialBasis.__add__` (L3717-3727), `BallRadialBasis.__add__` (L3950-3960), `ShellBasis.__add__` (L4426-4435),
`BallBasis.__add__` (L4643-4652), `FourierBase.__add__` (L863-867). -/
def Basis.add (self : Basis) (other : Option Basis) : Res :=
  match other with
  | none => .ok (some self)
  | some other =>
    match self, other with
    | .fourier i, .fourier j => if i = j then .ok (some self) else ni
    | .jacobi x, .jacobi y =>
      if y = x then .ok (some self)
      else if x.grid = y.grid then .ok (some (.jacobi { x with size := max x.size y.size, a := max x.a y.a, b := max x.b y.b }))
      else ni
    | .annulus x, .annulus y =>
      if y = x then .ok (some self)
      else if x.grid = y.grid then .ok (some (.annulus { x with shape := max2 x.shape y.shape, k := max x.k y.k }))
      else ni
    | .disk x, .disk y =>
      if y = x then .ok (some self)
      else if x.grid = y.grid then .ok (some (.disk { x with shape := max2 x.shape y.shape, k := max x.k y.k }))
      else ni
    | .sphere x, .sphere y =>
      if y = x then .ok (some self)
      else if x.radius ≠ y.radius then .error .notImplemented
      else if x.grid = y.grid then .ok (some (.sphere { x with shape := max2 x.shape y.shape }))
      else ni
    | .shellRadial x, .shellRadial y =>
      if y = x then .ok (some self)
      else if x.grid = y.grid then .ok (some (.shellRadial { x with size := max x.size y.size, k := max x.k y.k }))
      else ni
    | .ballRadial x, .ballRadial y =>
      if y = x then .ok (some self)
      else if x.grid = y.grid then .ok (some (.ballRadial { x with size := max x.size y.size, k := max x.k y.k }))
      else ni
    | .shell x, .shell y =>
      if y = x then .ok (some self)
      else if x.grid = y.grid then .ok (some (.shell { x with shape := max3 x.shape y.shape, k := max x.k y.k }))
      else ni
    | .ball x, .ball y =>
      if y = x then .ok (some self)
      else if x.grid = y.grid then .ok (some (.ball { x with shape := max3 x.shape y.shape, k := max x.k y.k }))
      else ni
    | _, _ => ni

/-- A binary operator of Python for an object with method `m`: the method of the left operand, then (`Basis.__radd__`, `Basis.__rmul__`,
`dedalus/core/basis.py` L135-139) the same method of the right operand if the classes differ, then a TypeError. `None` has no method. -/
def binary (m : Basis → Option Basis → Res) (x y : Option Basis) : Except Err Basis :=
  let finish (r : Res) : Except Err Basis :=
    match r with
    | .error e => .error e
    | .ok (some b) => .ok b
    | .ok none => .error .typeError
  match x, y with
  | none, none => .error .typeError
  | none, some b => finish (m b none)
  | some a, none => finish (m a none)
  | some a, some b =>
    match m a (some b) with
    | .ok none => if a.cls = b.cls then .error .typeError else finish (m b (some a))
    | r => finish r

/-- `x + y` -/
def plus (x y : Option Basis) : Except Err Basis := binary Basis.add x y

/-- `np.sum` of a sequence of bases that is not empty: from the left. -/
def sumFrom (x : Basis) : List Basis → Except Err Basis
  | [] => .ok x
  | y :: ys => (plus (some x) (some y)).bind fun s => sumFrom s ys

/-- `Add._build_bases` for one coordinate (`dedalus/core/arithmetic.py` L102-112). -/
def sumBasis (l : List (Option Basis)) : Except Err (Option Basis) :=
  match l.filterMap id with
  | [] => .ok none
  | x :: xs =>
    if l.any Option.isNone then (sumFrom x xs).bind fun s => (plus (some s) none).map some
    else (sumFrom x xs).map some

/-- `unify` of two objects (`dedalus/tools/general.py` L62-73). -/
def unified {α : Type} [DecidableEq α] (x y : α) : Except Err α := if x = y then .ok x else .error .value

/-- `ShellRadialBasis.__mul__` with a `ShellRadialBasis` (`dedalus/core/basis.py` L3732-3737). -/
def mulShellRadial (x y : Rad) : Option Rad :=
  if x.grid = y.grid then some { x with size := max x.size y.size, k := x.k + y.k } else none

/-- `BallRadialBasis.__mul__` with a `BallRadialBasis` (`dedalus/core/basis.py` L3965-3970). -/
def mulBallRadial (x y : Rad) : Option Rad :=
  if x.grid = y.grid then some { x with size := max x.size y.size, k := max x.k y.k } else none

/-- The factor `(x * y).k` of two radial bases, a TypeError if they cannot be multiplied. -/
def radialK (m : Rad → Rad → Option Rad) (x y : Rad) : Except Err Int :=
  match m x y with
  | none => .error .typeError
  | some z => .ok z.k

/-- `Jacobi.__mul__` (`dedalus/core/basis.py` L531-544), `FourierBase.__mul__` (L869-873), `AnnulusBasis.__mul__` (L2101-2110),
`DiskBasis.__mul__` (L2382-2391), `SphereBasis.__mul__` (L2915-2926), `ShellRadialBasis.__mul__` (L3729-3751),
`BallRadialBasis.__mul__` (L3962-3971), `ShellBasis.__mul__` (L4437-4449), `BallBasis.__mul__` (L4654-4666). -/
def Basis.mul (self : Basis) (other : Option Basis) : Res :=
  match other with
  | none => .ok (some self)
  | some other =>
    match self, other with
    | .fourier i, .fourier j => if i = j then .ok (some self) else ni
    | .jacobi x, .jacobi y =>
      if y = x then .ok (some self)
      else if x.grid = y.grid then .ok (some (.jacobi { x with size := max x.size y.size, a := x.a0, b := x.b0 }))
      else ni
    | .annulus x, .annulus y =>
      if x.grid = y.grid then .ok (some (.annulus { x with shape := max2 x.shape y.shape, k := x.k + y.k })) else ni
    | .disk x, .disk y =>
      if x.grid = y.grid then .ok (some (.disk { x with shape := max2 x.shape y.shape, k := 0 })) else ni
    | .sphere x, .sphere y =>
      if y = x then .ok (some self)
      else if x.radius ≠ y.radius then .error .notImplemented
      else if x.grid = y.grid then .ok (some (.sphere { x with shape := max2 x.shape y.shape }))
      else ni
    | .shellRadial x, .shellRadial y => .ok ((mulShellRadial x y).map .shellRadial)
    | .shellRadial x, .sphere y => do
      let _ ← unified x.coordsys y.coordsys
      let dtype ← unified x.dtype y.dtype
      return some (.shell ⟨x.coordsys, dtype, x.radii, x.alpha, (y.dealias.1, y.dealias.2, x.dealias), y.azimuthLibrary,
        y.colatitudeLibrary, x.radiusLibrary, (y.shape.1, y.shape.2, x.size), x.k⟩)
    | .ballRadial x, .ballRadial y => .ok ((mulBallRadial x y).map .ballRadial)
    | .shell x, .shell y =>
      if x.grid = y.grid then
        (radialK mulShellRadial x.radial y.radial).map fun k => some (.shell { x with shape := max3 x.shape y.shape, k := k })
      else ni
    | .shell x, .shellRadial y => (radialK mulShellRadial y x.radial).map fun k => some (.shell { x with k := k })
    | .ball x, .ball y =>
      if x.grid = y.grid then .ok (some (.ball { x with shape := max3 x.shape y.shape, k := 0 })) else ni
    | .ball x, .ballRadial y => (radialK mulBallRadial y x.radial).map fun k => some (.ball { x with k := k })
    | _, _ => ni

/-- `x * y` -/
def times (x y : Option Basis) : Except Err Basis := binary Basis.mul x y

/-- The special method `__rmatmul__` of an operand `self` for the coefficient `other`: `Jacobi` (`dedalus/core/basis.py` L546-560), `FourierBase`
(L875-879), `AnnulusBasis` (L2112-2115), `DiskBasis` (L2393-2403), `SphereBasis` (L2928-2930), `ShellRadialBasis` (L3753-3763),
`BallRadialBasis` (L3973-3982), `ShellBasis` (L4451-4463), `BallBasis` (L4668-4678). -/
def Basis.rmatmul (self : Basis) (other : Option Basis) : Res :=
  match other with
  | none => .ok (some self)
  | some other =>
    match self, other with
    | .fourier i, .fourier j => if i = j then .ok (some self) else ni
    | .jacobi x, .jacobi y =>
      if y = x then .ok (some self)
      else if x.grid = y.grid then .ok (some (.jacobi { x with size := max x.size y.size }))
      else ni
    | .annulus x, .annulus y => Basis.mul (.annulus x) (some (.annulus y))
    | .disk x, .disk y => if x.grid = y.grid then .ok (some (.disk { x with shape := max2 x.shape y.shape })) else ni
    | .sphere x, .sphere y => Basis.mul (.sphere x) (some (.sphere y))
    | .shellRadial x, .shellRadial y => .ok ((mulShellRadial x y).map .shellRadial)
    | .ballRadial x, .ballRadial y => .ok ((mulBallRadial x y).map .ballRadial)
    | .shell x, .shellRadial y => (radialK mulShellRadial x.radial y).map fun k => some (.shell { x with k := k })
    | .shell x, .shell y =>
      if y.shape.1 ≠ 1 then .error .value
      else (radialK mulShellRadial x.radial y.radial).map fun k => some (.shell { x with k := k })
    | .ball x, .ballRadial y => (radialK mulBallRadial x.radial y).map fun k => some (.ball { x with k := k })
    | .ball x, .ball y => (radialK mulBallRadial x.radial y.radial).map fun k => some (.ball { x with k := k })
    | _, _ => ni

/-- `ncc @ operand` (`Basis.__matmul__`, `dedalus/core/basis.py` L120-127). If the method returns `NotImplemented`, Python calls it again (for
different classes) and raises a TypeError. -/
def matmul (ncc operand : Option Basis) : Except Err Basis :=
  let r : Res :=
    match ncc, operand with
    | none, none => ni
    | some n, none => .ok (some n)
    | n, some x => x.rmatmul n
  match r with
  | .error e => .error e
  | .ok none => .error .typeError
  | .ok (some b) => .ok b

/-- How a product treats its factors: as a product on the grid, or with the first or the second as the operand of the other. -/
inductive Role where
  | grid | firstOperand | secondOperand
  deriving DecidableEq

/-- `Product._build_bases` for one coordinate (`dedalus/core/arithmetic.py` L273-286); the inner `none` is the basis of a constant. -/
def productBasis (role : Role) (b0 b1 : Option Basis) : Except Err (Option Basis) :=
  match b0, b1 with
  | none, none => .ok none
  | _, _ =>
    match role with
    | .firstOperand => (matmul b1 b0).map some
    | .secondOperand => (matmul b0 b1).map some
    | .grid => (times b0 b1).map some

/-- `==` of two bases: `PolarBasis.__eq__` (`dedalus/core/basis.py` L1894-1901), `SphereBasis.__eq__` (L2892-2897), `ShellRadialBasis.__eq__` (L3706-3712),
`BallRadialBasis.__eq__` (L3939-3945), `ShellBasis.__eq__` (L4415-4421), `BallBasis.__eq__` (L4632-4638); the identity of objects for the
others. Coordinate systems are compared by identity here. -/
def Basis.eq (self other : Basis) : Bool :=
  match self, other with
  | .fourier i, .fourier j => i = j
  | .jacobi x, .jacobi y => x = y
  | .annulus x, .annulus y => decide (x.grid = y.grid) && decide (x.k = y.k)
  | .disk x, .disk y => decide (x.grid = y.grid) && decide (x.k = y.k)
  | .sphere x, .sphere y => decide (x.grid = y.grid) && decide (x.shape = y.shape)
  | .shellRadial x, .shellRadial y => decide (x.grid = y.grid) && decide (x.k = y.k)
  | .ballRadial x, .ballRadial y => decide (x.grid = y.grid) && decide (x.k = y.k)
  | .shell x, .shell y => decide (x.grid = y.grid) && decide (x.k = y.k)
  | .ball x, .ball y => decide (x.grid = y.grid) && decide (x.k = y.k)
  | _, _ => false

/-! ## Sums of fields in an annulus or a disk -/

/-- The shape of the coefficients of a scalar field (`PolarBasis.global_shape`, `dedalus/core/basis.py` L1824-1833). -/
def Pol.coeffShape (x : Pol) : Nat × Nat :=
  match x.dtype with
  | .complex128 => x.shape
  | .float64 => if x.shape.1 > 1 then x.shape else (2, x.shape.2)

/-- The coefficients of a field on one process. -/
structure Data where
  shape : Nat × Nat
  get : Nat → Nat → ℚ

/-- The length of an axis of `np.add` of two arrays: equal lengths, or one of them is 1. -/
def broadcast (n m : Nat) : Option Nat := if n = m then some n else if n = 1 then some m else if m = 1 then some n else none

/-- `np.add(a, b, out=out)` with an output of shape `s`: `none` is a ValueError. An array of length 1 is repeated. (`out` may be
longer than the broadcast operands only along axes where both have length 1; the model has no such case and raises.) -/
def npAdd (s : Nat × Nat) (a b : Data) : Option Data :=
  let index (n i : Nat) := if n = 1 then 0 else i
  match broadcast a.shape.1 b.shape.1, broadcast a.shape.2 b.shape.2 with
  | some n, some m =>
    if (n, m) = s then
      some ⟨s, fun i j => a.get (index a.shape.1 i) (index a.shape.2 j) + b.get (index b.shape.1 i) (index b.shape.2 j)⟩
    else none
  | _, _ => none

/-- `u + v` for scalar fields with equal `k` in an annulus, evaluated in coefficient space: `Add.__init__` converts the arguments to the basis of the
sum (`dedalus/core/arithmetic.py` L87-92); `ConvertSame` returns an argument whose basis is `==` to it (`dedalus/core/operators.py` L1644-1656), which
holds for all shapes because `k` and the grid parameters agree; then `AddFields.operate` (`dedalus/core/arithmetic.py` L245-250). Bases that are not `==` to
the sum are not modelled here (`none`). -/
def addAnnulus (x y : Pol) (u v : Data) : Option Data :=
  match plus (some (.annulus x)) (some (.annulus y)) with
  | .ok (.annulus s) =>
    if Basis.eq (.annulus x) (.annulus s) && Basis.eq (.annulus y) (.annulus s) then npAdd s.coeffShape u v else none
  | _ => none

end Dedalus.BasisOps
