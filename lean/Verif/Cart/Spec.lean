import Mathlib.Analysis.RCLike.Basic
import Mathlib.Analysis.Calculus.Deriv.Basic
import Mathlib.Algebra.BigOperators.Group.Finset.Basic

/-!
# Vector calculus in Cartesian components

Positions are families of real coordinates. The components of a tensor field are functions of position.
-/

namespace Dedalus.Cart.Spec

variable {K : Type} [RCLike K]

/-- Partial derivative along coordinate `a`. -/
noncomputable def pd (a : Nat) (f : (Nat → ℝ) → K) (x : Nat → ℝ) : K := deriv (fun t => f (Function.update x a t)) (x a)

/-- Divergence of the vector with components `u 0, ..., u (d - 1)` along the axes `a, ..., a + d - 1`. -/
noncomputable def div (a d : Nat) (u : Nat → (Nat → ℝ) → K) (x : Nat → ℝ) : K := ∑ i ∈ Finset.range d, pd (a + i) (u i) x

/-- Curl in right-handed coordinates along the axes `a, a + 1, a + 2`. -/
noncomputable def curl (a : Nat) (u : Nat → (Nat → ℝ) → K) (i : Nat) (x : Nat → ℝ) : K :=
  if i = 0 then pd (a + 1) (u 2) x - pd (a + 2) (u 1) x
  else if i = 1 then pd (a + 2) (u 0) x - pd a (u 2) x
  else pd a (u 1) x - pd (a + 1) (u 0) x

/-- Laplacian along the axes `a, ..., a + d - 1`. -/
noncomputable def lap (a d : Nat) (f : (Nat → ℝ) → K) (x : Nat → ℝ) : K := ∑ i ∈ Finset.range d, pd (a + i) (pd (a + i) f) x

/-- `f` does not depend on coordinate `a`. -/
def Independent (a : Nat) (f : (Nat → ℝ) → K) : Prop := ∀ x t, f (Function.update x a t) = f x

end Dedalus.Cart.Spec
