import Verif.Apply.Model
import Verif.Csr.Spec

/-!
# What it means to apply a matrix along an axis
-/

namespace Dedalus.Apply

variable {K : Type} [Field K]

/-- An index inside of a shape. -/
def InRange (shape idx : List Nat) : Prop := List.Forall₂ (fun i n => i < n) idx shape

/-- The matrix product along an axis: every line of the array in the direction of the axis is multiplied by the matrix. -/
def product (M : Nat → Nat → K) (cols axis : Nat) (a : List Nat → K) (idx : List Nat) : K :=
  match idx[axis]? with
  | some i => ∑ j ∈ Finset.range cols, M i j * a (idx.set axis j)
  | none => 0

/-- Different indices of a view are different entries of the memory. -/
def Distinct (v : View) : Prop :=
  ∀ i j, InRange v.shape i → InRange v.shape j → v.addr i = v.addr j → i = j

/-- Two views have no entry in common. -/
def Apart (a b : View) : Prop := ∀ i j, InRange a.shape i → InRange b.shape j → a.addr i ≠ b.addr j

/-- A view holds the entries `f`, and all other entries of the memory are as before. -/
def Wrote (v : View) (f : List Nat → K) (before after : Mem K) : Prop :=
  (∀ idx, InRange v.shape idx → after (v.addr idx) = f idx) ∧
  ∀ p, (∀ idx, InRange v.shape idx → v.addr idx ≠ p) → after p = before p

/-- An axis of an array with `n` axes, counted from the front or from the back. -/
def IsAxis (n : Nat) (axis : Int) (ax : Nat) : Prop := ax < n ∧ (axis = ax ∨ axis = (ax : Int) - n)

/-- The entries of a view follow each other in the memory, last axis first. -/
def InOrder (v : View) : Prop :=
  v.strides.length = v.shape.length ∧ ∀ idx, InRange v.shape idx → v.addr idx = v.base + ravel v.shape idx

end Dedalus.Apply
