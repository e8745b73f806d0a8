import Verif.Subsys.Model

/-!
# Specification for C18 and C19
-/

namespace Dedalus.Subsys

/-- The element with groups `e` belongs to the subsystem `s`: None on coupled axes, the element's group
on the others. -/
def Belongs (coupling : List Bool) (s : Group) (e : ElemGroup) : Prop :=
  s.length = coupling.length ∧ ∀ i : Nat,
    (coupling[i]? = some true → s[i]? = some none) ∧
    (coupling[i]? = some false → ∃ g, e[i]? = some (some g) ∧ s[i]? = some (some g))

/-- A subsystem group: None exactly on the coupled axes. -/
def IsGroup (coupling : List Bool) (s : Group) : Prop :=
  s.length = coupling.length ∧ ∀ i : Nat,
    (coupling[i]? = some true → s[i]? = some none) ∧ (coupling[i]? = some false → ∃ g, s[i]? = some (some g))

/-- The element is a real mode along every separable axis. -/
def Unmasked (coupling : List Bool) (e : ElemGroup) : Prop :=
  ∀ i : Nat, coupling[i]? = some false → ∃ g, e[i]? = some (some g)

/-- Two subsystems may share matrices: same group along axes on which the matrices depend, and along
the others both are the constant group or both are not (or the coordinate system does not distinguish). -/
def SameMatrix (dep : List Bool) (dflt : List Int) (a b : Group) : Prop :=
  ∀ i : Nat, (dep[i]? = some true → a[i]? = b[i]?) ∧
    (dep[i]? = some false → dflt[i]? = some 0 ∨ (a[i]? = some (some 0) ↔ b[i]? = some (some 0)))

/-- The multi-index is a position of an array of this shape. -/
def InShape (shape : List Nat) (i : Idx) : Prop := List.Forall₂ (· < ·) i shape

/-- Two positions lie in the same block along every separable axis of the groupset. -/
def SameBlock (gset : Group) (bshape : List Nat) (i j : Idx) : Prop :=
  ∀ ax : Nat, ∀ g b x y, gset[ax]? = some (some g) → bshape[ax]? = some b → i[ax]? = some x → j[ax]? = some y →
    x / b = y / b

end Dedalus.Subsys
