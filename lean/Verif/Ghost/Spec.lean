import Mathlib.Data.List.Basic
import Mathlib.Algebra.BigOperators.Group.Finset.Basic
import Mathlib.Algebra.Ring.Basic

/-! Specification of products of fields that are distributed over processes. It does not use the model. -/

namespace Dedalus.Ghost.Spec

/-- Entry `i` of a local array stands for the grid point `g`, if the process has the points `E` along the axes. -/
def At : List (List Nat) → List Nat → List Nat → Prop
  | [], [], [] => True
  | l :: E, k :: i, x :: g => l[k]? = some x ∧ At E i g
  | _, _, _ => False

/-- An index of a tensor of the given shape. -/
def Index : List Nat → List Nat → Prop := List.Forall₂ (· < ·)

/-- A local array (its shape and values) is the part with the points `E` of the tensor field `G` of shape `ts`; `G t g` is the component `t` at the grid
point `g`. -/
def Holds {V : Type} (ts : List Nat) (E : List (List Nat)) (G : List Nat → List Nat → V) (shape : List Nat) (val : List Nat → V) : Prop :=
  shape = ts ++ E.map List.length ∧ ∀ t i g, Index t ts → At E i g → val (t ++ i) = G t g

/-- The grid point of a field that is constant along some axes, at a point of a larger domain. -/
def restrict (c : List Bool) (g : List Nat) : List Nat := List.zipWith (fun c x => if c then 0 else x) c g

/-- An argument with the flags `c` and the grid sizes `ns`, in a product with the flags `o` and the grid sizes `Ns`: along every axis it is constant with
one point, or it has the points of the product; and the product is constant only where the argument is. -/
def Compatible : List Bool → List Nat → List Bool → List Nat → Prop
  | [], [], [], [] => True
  | c :: cs, n :: ns, o :: os, N :: Ns => ((c = true ∧ n = 1 ∧ (o = true → N = 1)) ∨ (c = false ∧ o = false ∧ n = N)) ∧ Compatible cs ns os Ns
  | _, _, _, _ => False

/-- Two processes have the same coordinates, except along deployed dimensions. -/
def SameGroup : List Bool → List Nat → List Nat → Prop
  | [], [], [] => True
  | d :: ds, x :: p, y :: q => (d = false → x = y) ∧ SameGroup ds p q
  | _, _, _ => False

/-- The coordinates of the processes of a mesh. -/
def Valid (mesh : List Nat) (p : List Nat) : Prop := List.Forall₂ (· < ·) p mesh

/-- The tensor product of two tensor fields; `r0` is the rank of the first. -/
def outer {V : Type} [Mul V] (r0 : Nat) (c0 c1 : List Bool) (G0 G1 : List Nat → List Nat → V) (t g : List Nat) : V :=
  G0 (t.take r0) (restrict c0 g) * G1 (t.drop r0) (restrict c1 g)

/-- The contraction of index `j0` of a tensor of rank `r0` and index `j1` of another tensor, of dimension `d`. -/
def contraction {V : Type} [NonUnitalNonAssocSemiring V] (r0 j0 j1 d : Nat) (c0 c1 : List Bool) (G0 G1 : List Nat → List Nat → V) (t g : List Nat) : V :=
  ∑ z ∈ Finset.range d, G0 ((t.take (r0 - 1)).insertIdx j0 z) (restrict c0 g) * G1 ((t.drop (r0 - 1)).insertIdx j1 z) (restrict c1 g)

/-- The sign of a permutation of three indices, zero if two are equal. -/
def levi (i j k : Nat) : Int :=
  if (i, j, k) = (0, 1, 2) ∨ (i, j, k) = (1, 2, 0) ∨ (i, j, k) = (2, 0, 1) then 1
  else if (i, j, k) = (0, 2, 1) ∨ (i, j, k) = (2, 1, 0) ∨ (i, j, k) = (1, 0, 2) then -1 else 0

/-- The cross product of two vector fields, in right- or left-handed coordinates. -/
def crossProduct {V : Type} [Ring V] (rightHanded : Bool) (c0 c1 : List Bool) (G0 G1 : List Nat → List Nat → V) (t g : List Nat) : V :=
  ∑ j ∈ Finset.range 3, ∑ k ∈ Finset.range 3,
    (((if rightHanded then 1 else -1) * levi (t.headD 0) j k : Int) : V) * (G0 [j] (restrict c0 g) * G1 [k] (restrict c1 g))

end Dedalus.Ghost.Spec
