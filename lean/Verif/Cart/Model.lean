import Mathlib.Analysis.RCLike.Basic
import Mathlib.Analysis.Calculus.Deriv.Basic
import Verif.Contract.Model

/-!
# Cartesian vector calculus

Model of `CartesianGradient`, `CartesianDivergence`, `CartesianCurl`, `CartesianLaplacian` and of their versions for direct
products of straight coordinate systems (`dedalus/core/operators.py`), with the dispatch of `Differentiate` between fields with and
without a basis along a coordinate.

Coordinates are numbered by their axis in the distributor. An operand is its tensor signature, the axes along which it has a basis,
and the function of position that each of its components stands for (`none` outside the shape of the data). Layouts, data types and
changes of basis are not modelled here: a change of basis keeps the function (C49, C59), and `Multi.lean` shows how the matrix of a
one-dimensional operator acts on the function of several coordinates.
-/

namespace Dedalus.Cart

variable {K : Type} [RCLike K]

/-- A coordinate, a `CartesianCoordinates` or a `DirectProduct` of these: the axis of its first coordinate (`Distributor.get_axis`,
`dedalus/core/distributor.py` L202-205), its dimension and `right_handed` (`dedalus/core/coords.py` L66-76, L101-117, L163-171). The
coordinates of a Cartesian system have consecutive axes. -/
structure CS where
  start : Nat
  dim : Nat
  right : Bool := true
  deriving DecidableEq, Repr

/-- An operand: `tensorsig`, `domain.get_basis(axis) is not None` (`dedalus/core/domain.py` L61-67, L97-102) and the function of
position of each component. -/
structure Opd (K : Type) where
  sig : List CS
  basis : Nat → Bool
  value : List Nat → Option ((Nat → ℝ) → K)

/-- The Python values that occur: the number 0 and operands. -/
inductive Py (K : Type) where
  | zero
  | opd (o : Opd K)

/-- The dimensions of the tensor indices. -/
def Opd.dims (o : Opd K) : List Nat := o.sig.map CS.dim

/-- Derivative of a function of position along an axis. -/
noncomputable def along (a : Nat) (f : (Nat → ℝ) → K) (x : Nat → ℝ) : K := deriv (fun t => f (Function.update x a t)) (x a)

/-- `Differentiate(operand, coord)`: 0 for numbers and for operands without a basis along the coordinate
(`DifferentiateConstant`), else the derivative (`dedalus/core/operators.py` L1344-1415). -/
noncomputable def differentiate (a : Nat) : Py K → Py K
  | .zero => .zero
  | .opd o => if o.basis a then .opd { o with value := fun idx => (o.value idx).map (along a) } else .zero

/-- `CartesianComponent(operand, index, comp)` (`dedalus/core/operators.py` L3313-3358) for the coordinate `sub` of the system. -/
def component (index sub : Nat) (o : Opd K) : Opd K where
  sig := o.sig.eraseIdx index
  basis := o.basis
  value idx := (Contract.cartesianComponent o.dims index sub o.value idx).join

/-- `DirectProductComponent(operand, index, comp)` (`dedalus/core/operators.py` L3361-3409): `comp` is a factor of the system at `index`. -/
def factor (index : Nat) (cs part : CS) (o : Opd K) : Opd K where
  sig := o.sig.set index part
  basis := o.basis
  value idx := (Contract.productComponent o.dims index (part.start - cs.start) part.dim o.value idx).join

/-- `Add`: zeros are dropped, the signatures of the others have to agree (`dedalus/core/arithmetic.py` L56-82, `dedalus/core/field.py`
L147-160). -/
def add : Py K → Py K → Option (Py K)
  | .zero, q => some q
  | p, .zero => some p
  | .opd a, .opd b => if a.sig = b.sig then some (.opd ⟨a.sig, fun x => a.basis x || b.basis x,
      fun idx => (a.value idx).bind fun u => (b.value idx).map fun v x => u x + v x⟩) else none

/-- `(-1) * operand`, also `-operand` and `operand *= -1` (`dedalus/core/field.py` L79-81, `dedalus/core/arithmetic.py` L753-766). -/
def neg : Py K → Py K
  | .zero => .zero
  | .opd o => .opd { o with value := fun idx => (o.value idx).map fun u x => -u x }

/-- `a - b` (`dedalus/core/field.py` L93-95). -/
def sub (p q : Py K) : Option (Py K) := add p (neg q)

/-- Python `sum`, from the left, starting with 0. -/
def sum (l : List (Py K)) : Option (Py K) := l.foldlM (fun acc p => add acc p) .zero

/-- A constant vector field with `e['g'][i] = 1` (`dedalus/core/operators.py` L3702-3706, L3781-3784). -/
def unit (cs : CS) (i : Nat) : Opd K where
  sig := [cs]
  basis _ := false
  value idx := match idx with
    | [j] => if j < cs.dim then some fun _ => if j = i then 1 else 0 else none
    | _ => none

/-- `Multiply` of operands: the tensor product, 0 if one of them is 0 (`dedalus/core/arithmetic.py` L753-766, L818-858). -/
def mul : Py K → Py K → Py K
  | .opd a, .opd b => .opd ⟨a.sig ++ b.sig, fun x => a.basis x || b.basis x, fun idx =>
      (a.value (idx.take a.sig.length)).bind fun u => (b.value (idx.drop a.sig.length)).map fun v x => u x * v x⟩
  | _, _ => .zero

/-- The attribute access `arg.domain` of the constructors: fails for the number 0 (`dedalus/core/operators.py` L3463, L3716, L4031). -/
def operand : Py K → Option (Opd K)
  | .zero => none
  | .opd o => some o

/-- `CartesianGradient` (`dedalus/core/operators.py` L2340-2411). A derivative that is 0 is replaced by an expression with value 0. -/
noncomputable def gradient (cs : CS) (o : Opd K) : Opd K where
  sig := cs :: o.sig
  basis := o.basis
  value idx := match idx with
    | [] => none
    | i :: idx => if i < cs.dim then match differentiate (cs.start + i) (.opd o) with
        | .zero => (o.value idx).map fun _ _ => 0
        | .opd d => d.value idx
      else none

/-- `CartesianDivergence` (`dedalus/core/operators.py` L3438-3494). -/
noncomputable def divergence (index : Nat) (o : Opd K) : Option (Py K) := do
  let cs ← o.sig[index]?
  if ¬ (List.range cs.dim).any fun i => o.basis (cs.start + i) then some .zero
  else
    let arg ← sum ((List.range cs.dim).map fun i => differentiate (cs.start + i) (.opd (component index i o)))
    (operand arg).map .opd

/-- `CartesianCurl` (`dedalus/core/operators.py` L3689-3748). -/
noncomputable def curl (index : Nat) (o : Opd K) : Option (Opd K) := do
  let cs ← o.sig[index]?
  if cs.dim ≠ 3 then none
  else
    let c i := Py.opd (component index i o)
    let x ← sub (differentiate (cs.start + 1) (c 2)) (differentiate (cs.start + 2) (c 1))
    let y ← sub (differentiate (cs.start + 2) (c 0)) (differentiate (cs.start + 0) (c 2))
    let z ← sub (differentiate (cs.start + 0) (c 1)) (differentiate (cs.start + 1) (c 0))
    let s ← add (mul x (.opd (unit cs 0))) (mul y (.opd (unit cs 1)))
    let arg ← add s (mul z (.opd (unit cs 2)))
    operand (if ¬ cs.right then neg arg else arg)

/-- `CartesianLaplacian.__init__` (`dedalus/core/operators.py` L4016-4033). -/
noncomputable def cartesianLaplacian (cs : CS) (o : Opd K) : Option (Opd K) := do
  let arg ← sum ((List.range cs.dim).map fun i => differentiate (cs.start + i) (differentiate (cs.start + i) (.opd o)))
  operand arg

/-- `Laplacian(operand, coordsys)` for a Cartesian system or a single coordinate: the check for constant operands is skipped
when the system is not given and taken from the distributor (`dedalus/core/operators.py` L3986-4003). -/
noncomputable def laplacian (given : Bool) (cs : CS) (o : Opd K) : Option (Py K) :=
  if given ∧ ¬ (List.range cs.dim).any fun i => o.basis (cs.start + i) then some .zero
  else (cartesianLaplacian cs o).map .opd

/-- The factor of a direct product that holds component `i`, and the component in it (`dedalus/core/operators.py` L2481-2488). -/
def locate : List CS → Nat → Option (CS × Nat)
  | [], _ => none
  | p :: parts, i => if i < p.dim then some (p, i) else locate parts (i - p.dim)

/-- `DirectProductGradient` (`dedalus/core/operators.py` L2414-2488) for straight factors. -/
noncomputable def productGradient (cs : CS) (parts : List CS) (o : Opd K) : Opd K where
  sig := cs :: o.sig
  basis := o.basis
  value idx := match idx with
    | [] => none
    | i :: idx => (locate parts i).bind fun p => (gradient p.1 o).value (p.2 :: idx)

/-- `DirectProductDivergence` (`dedalus/core/operators.py` L3497-3517) for straight factors. -/
noncomputable def productDivergence (index : Nat) (cs : CS) (parts : List CS) (o : Opd K) : Option (Opd K) := do
  let l ← parts.mapM fun p => divergence index (factor index cs p o)
  let arg ← sum l
  operand arg

/-- `DirectProductLaplacian` with the check for constant operands of `Laplacian`: the latter looks at the basis of the first
coordinate of every factor only (`dedalus/core/operators.py` L3993-3995, L4064-4079). -/
noncomputable def productLaplacian (given : Bool) (parts : List CS) (o : Opd K) : Option (Py K) :=
  if given ∧ ¬ parts.any fun p => o.basis p.start then some .zero
  else do
    let l ← parts.mapM fun p => laplacian true p o
    let arg ← sum l
    (operand arg).map .opd

/-- `CartesianSkew.operate` over index 0 (`dedalus/core/operators.py` L2112-2122). -/
def skewData (value : List Nat → Option ((Nat → ℝ) → K)) (idx : List Nat) : Option ((Nat → ℝ) → K) :=
  match idx with
  | i :: idx => if i = 0 then (value (1 :: idx)).map fun u x => -u x else if i = 1 then value (0 :: idx) else none
  | [] => none

/-- `Skew` over index 0 (`dedalus/core/operators.py` L2049-2078). -/
def skew : Py K → Option (Py K)
  | .zero => some .zero
  | .opd o => (o.sig[0]?).bind fun cs => if cs.dim ≠ 2 then none else some (.opd { o with value := skewData o.value })

/-- `a @ b` (`dedalus/core/arithmetic.py` L588-662): contraction of the last index of `a` with the first one of `b`. -/
noncomputable def dot (a b : Opd K) : Option (Opd K) := do
  let cs ← a.sig.getLast?
  let cs' ← b.sig.head?
  if cs.dim ≠ cs'.dim then none
  else some ⟨a.sig.dropLast ++ b.sig.tail, fun x => a.basis x || b.basis x, fun idx =>
    let r := a.sig.length - 1
    (List.range cs.dim).foldlM (fun acc k => (a.value (idx.take r ++ [k])).bind fun u => (b.value (k :: idx.drop r)).map fun v x => acc x + u x * v x) fun _ => 0⟩

/-- `IdentityTensor(part, cs)` for a factor of a direct product (`dedalus/core/distributor.py` L236-255): ones at `[i0 + i, i]`. -/
def identity (cs part : CS) (i0 : Nat) : Opd K where
  sig := [cs, part]
  basis _ := false
  value idx := match idx with
    | [j, i] => if j < cs.dim ∧ i < part.dim then some fun _ => if j = i0 + i then 1 else 0 else none
    | _ => none

/-- `DirectProductCurl` (`dedalus/core/operators.py` L3751-3808) for a straight direct product of a coordinate and a plane, in this order. With
the other order, `comps[0].dim` is no attribute and the constructor fails, as for products of three coordinates. -/
noncomputable def productCurl (cs : CS) (parts : List CS) (o : Opd K) : Option (Opd K) :=
  if cs.dim ≠ 3 ∨ o.sig ≠ [cs] then none
  else match parts with
    | [cz, ch] => if cz.dim = 1 ∧ ch.dim = 2 then do
        let uz := factor 0 cs cz o
        let uh := factor 0 cs ch o
        let s ← skew (.opd uh)
        let w ← dot (unit cz 0) uz
        let g ← skew (.opd (gradient ch w))
        let h ← sub (differentiate cz.start s) g
        let so ← operand s
        let d ← divergence 0 so
        let curlZ := neg (mul (.opd (unit cs 0)) d)
        let ho ← operand h
        let i ← dot (identity cs ch cz.dim) ho
        let arg ← add (.opd i) curlZ
        operand (if false = cs.right then neg arg else arg)
      else none
    | _ => none

end Dedalus.Cart
