import Verif.Field.Model
import Mathlib.Data.List.Dedup

/-!
# Model: the layouts operators work in

Models `check_conditions` and `enforce_conditions` of all operators in /repo/dedalus/core/operators.py and
/repo/dedalus/core/arithmetic.py, on top of the model of fields in `Verif.Field.Model`. An operator has field arguments, given by
the numbers of the fields; the same field may occur several times. Locked fields as arguments are not modelled here.
-/

namespace Dedalus.Conditions

open Dedalus.Dist Dedalus.Field

variable {Dat : Type}

/-- The distributor with its layouts and paths, and what the paths do to each field (fields have different bases).
distributor.py L60-160. -/
structure World (Dat : Type) where
  D : Nat
  lays : List Lay
  paths : List Path
  up : Nat → Path → List ℚ → Dat → Dat
  down : Nat → Path → List ℚ → Dat → Dat
  fits : Nat → List ℚ → Bool
  junk : Nat → Dat

/-- The world as seen by one field. -/
def World.env (W : World Dat) (i : Nat) : Env Dat :=
  ⟨W.D, W.lays, W.paths, W.up i, W.down i, W.fits i, W.junk i⟩

/-- The states of all fields. -/
abbrev Heap (Dat : Type) := Nat → FState Dat

/-- The kinds of conditions operators have. -/
inductive Kind
  /-- `Copy`, `TransposeComponents`, `Skew`, components, Cartesian divergence, curl and Laplacian, those of direct products, and
  the product of a number and a field: no conditions. operators.py L1516-1521, L1943-1950, L2083-2090, L2215-2222, L3330-3338,
  L3383-3391, L3474-3482, L3523-3531, L3732-3740, L3819-3827, L4045-4053, L4090-4098, arithmetic.py L930-938 -/
  | free
  /-- `Power`, `Trace`, `AdvectiveCFL`: the first argument on the grid along all axes. operators.py L361-378, L1763-1770,
  L4388-4395 -/
  | grid
  /-- `UnaryGridFunction`: the first argument in the grid layout. operators.py L601-606 -/
  | gridLayout
  /-- products of fields. arithmetic.py L547-558 -/
  | product
  /-- sums of fields. arithmetic.py L226-244 -/
  | sum
  /-- `GeneralFunction` with its layout. operators.py L488-498 -/
  | function (layout : Nat)
  /-- `SpectralOperator` with its last axis and `subaxis_coupling[-1]`. operators.py L874-895 -/
  | spectral (axis : Nat) (coupled : Bool)
  /-- `Convert`. operators.py L1589-1608 -/
  | convert (axis : Nat) (coupled : Bool)
  /-- `ConvertConstant` with `output_basis.dim == 1`. operators.py L1692-1717 -/
  | convertConstant (axis : Nat) (one : Bool)
  /-- Cartesian and direct product gradients; the arguments are those that are not falsy. operators.py L2384-2398,
  L2462-2476 -/
  | gradient
  /-- Polar and spherical gradient, divergence, curl, Laplacian and `SphericalEllProduct` with `radius_axis`. operators.py
  L3069-3079, L3256-3266, L3566-3576, L3626-3636, L3858-3868, L4125-4135, L4188-4198, L4233-4243 -/
  | radial (axis : Nat)

/-- `layout.grid_space[axis]` -/
def isGrid (W : World Dat) (l a : Nat) : Bool := (W.lays[l]?.bind (·.grid[a]?)) == some true
/-- `layout.local[axis]` -/
def isLocal (W : World Dat) (l a : Nat) : Bool := (W.lays[l]?.bind (·.loc[a]?)) == some true
/-- `all(layout.grid_space)` -/
def allGrid (W : World Dat) (l : Nat) : Bool := (List.range W.D).all fun a => isGrid W l a

/-- `check_conditions`, given the layouts of the arguments; `none` if there are fewer arguments than the operator has. For the
lines see `Kind`. -/
def checkLayouts (W : World Dat) : Kind → List Nat → Option Bool
  | .free, _ => some true
  | .grid, ls => ls.head?.map fun l => allGrid W l
  | .gridLayout, ls => ls.head?.map fun l => l == W.lays.length - 1
  | .product, ls =>
    match ls with
    | [l0, l1] => some (allGrid W l0 && l0 == l1)
    | _ => none
  | .sum, ls => some (ls.dedup.length == 1)
  | .function l, ls => some (ls.all fun k => k == l)
  | .spectral a coupled, ls => ls.head?.map fun l =>
      if !coupled then !isGrid W l a else !isGrid W l a && isLocal W l a
  | .convert a coupled, ls => ls.head?.map fun l => if !isGrid W l a && coupled then isLocal W l a else true
  | .convertConstant a one, ls => ls.head?.map fun l => if one then !isGrid W l a || isLocal W l a else !isGrid W l a
  | .gradient, ls => some (ls.dedup.length == 1)
  | .radial a, ls => ls.head?.map fun l => !isGrid W l a && isLocal W l a

/-- `check_conditions`. -/
def check (W : World Dat) (k : Kind) (args : List Nat) (h : Heap Dat) : Option Bool :=
  checkLayouts W k (args.map fun i => (h i).layout)

/-- Change one field. -/
def move (W : World Dat) (m : Env Dat → FState Dat → Option (FState Dat)) (i : Nat) (h : Heap Dat) : Option (Heap Dat) :=
  (m (W.env i) (h i)).map fun f => Function.update h i f

/-- `for arg in args: …` -/
def moveAll (W : World Dat) (m : Env Dat → FState Dat → Option (FState Dat)) : List Nat → Heap Dat → Option (Heap Dat)
  | [], h => some h
  | i :: is, h => (move W m i h).bind (moveAll W m is)

/-- `enforce_conditions`. For the lines see `Kind`. -/
def enforce (W : World Dat) (k : Kind) (args : List Nat) (h : Heap Dat) : Option (Heap Dat) :=
  match k with
  | .free => some h
  | .grid | .gridLayout => args.head?.bind fun i => move W (fun E f => requireGrid E f none) i h
  | .product => moveAll W (fun E f => requireGrid E f none) args h
  | .sum => args.head?.bind fun i => moveAll W (fun E f => changeLayout E f (h i).layout) args h
  | .function l => moveAll W (fun E f => if f.layout ≠ l then changeLayout E f l else some f) args h
  | .spectral a coupled => args.head?.bind fun i =>
      (move W (fun E f => requireCoeff E f (some a)) i h).bind fun h =>
        if coupled then move W (fun E f => requireLocal E f a) i h else some h
  | .convert a coupled => args.head?.bind fun i =>
      if !isGrid W (h i).layout a && coupled then move W (fun E f => requireLocal E f a) i h else some h
  | .convertConstant a one => args.head?.bind fun i =>
      if one then
        if isGrid W (h i).layout a then move W (fun E f => requireLocal E f a) i h else some h
      else move W (fun E f => requireCoeff E f (some a)) i h
  | .gradient => moveAll W (fun E f => changeLayout E f 0) args h
  | .radial a => args.head?.bind fun i =>
      (move W (fun E f => requireCoeff E f (some a)) i h).bind fun h => move W (fun E f => requireLocal E f a) i h

end Dedalus.Conditions
