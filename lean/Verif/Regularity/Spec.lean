import Mathlib.Analysis.SpecialFunctions.Sqrt
import Mathlib.Analysis.Calculus.Deriv.Basic
import Mathlib.Analysis.Complex.RealDeriv

/-!
# Tensor calculus in spherical coordinates

A tensor field of rank `n` and degree `ell` has the spin components `F τ r` times the spin-weighted harmonic of degree `ell` and spin
weight `τ.sum`, for the lists `τ` of `n` entries -1, 0, 1. The entries stand for the directions `(e_θ - i e_φ) / √2`, `e_r` and
`(e_θ + i e_φ) / √2`. The formulas are those of the covariant derivative in spherical coordinates: the radial direction is constant
along `e_r`, and the derivative of the tensor along the sphere of radius `r` is the derivative of the harmonic plus the change of
the directions.
-/

namespace Dedalus.Regularity.Spec

/-- The components of rank `rank`: tuples of -1, 0, 1. -/
def Component (rank : Nat) (t : List Int) : Prop := t.length = rank ∧ ∀ x ∈ t, x = -1 ∨ x = 0 ∨ x = 1

/-- The derivative along `(e_θ ± i e_φ) / √2` takes the harmonic of spin weight `s` on the unit sphere to this multiple of the harmonic of
spin weight `s ± 1`. -/
noncomputable def ladder (ell : Nat) (mu s : Int) : ℝ := -mu * √((ell - mu * s) * (ell + mu * s + 1) / 2)

/-- The component `σ :: τ` of the gradient at radius `r` of the field with components `F`, whose radial derivatives are `F'`. -/
noncomputable def gradient (ell : Nat) (F F' : List Int → ℂ) (r : ℝ) (σ : Int) (τ : List Int) : ℂ :=
  if σ = 0 then F' τ
  else ((ladder ell σ τ.sum : ℂ) * F τ + ∑ i ∈ Finset.range τ.length,
    ((if τ[i]? = some (-σ) then F (τ.set i 0) else 0) - (if τ[i]? = some 0 then F (τ.set i σ) else 0))) / (r : ℂ)

/-- `G` are the components at `r` of the gradient of the field `F` of the given rank. -/
def IsGradient (ell rank : Nat) (F : List Int → ℝ → ℂ) (G : List Int → ℂ) (r : ℝ) : Prop :=
  ∃ F' : List Int → ℂ, (∀ τ, Component rank τ → HasDerivAt (F τ) (F' τ) r) ∧
    ∀ σ τ, Component (rank + 1) (σ :: τ) → G (σ :: τ) = gradient ell (fun τ => F τ r) F' r σ τ

/-- `D` are the components at `r` of the divergence of the field `F` of rank `rank + 1`: the trace of the gradient over its first two
indices. -/
def IsDivergence (ell rank : Nat) (F : List Int → ℝ → ℂ) (D : List Int → ℂ) (r : ℝ) : Prop :=
  ∃ G : List Int → ℂ, IsGradient ell (rank + 1) F G r ∧ ∀ τ, Component rank τ → D τ = G (0 :: 0 :: τ) + G (1 :: -1 :: τ) + G (-1 :: 1 :: τ)

/-- `C` are the components at `r` of the curl of the field `F` of rank `rank + 1`: for the directions `e_r, e_θ, e_φ` the components are
`∇_θ F_φ - ∇_φ F_θ`, `∇_φ F_r - ∇_r F_φ` and `∇_r F_θ - ∇_θ F_r`. -/
def IsCurl (ell rank : Nat) (F : List Int → ℝ → ℂ) (C : List Int → ℂ) (r : ℝ) : Prop :=
  ∃ G : List Int → ℂ, IsGradient ell (rank + 1) F G r ∧ ∀ τ, Component rank τ →
    C (0 :: τ) = Complex.I * (G (1 :: -1 :: τ) - G (-1 :: 1 :: τ)) ∧
    C (1 :: τ) = Complex.I * (G (0 :: 1 :: τ) - G (1 :: 0 :: τ)) ∧
    C (-1 :: τ) = -Complex.I * (G (0 :: -1 :: τ) - G (-1 :: 0 :: τ))

/-- `L` are the components at `r` of the Laplacian of the field `F`: the divergence of the gradient. -/
def IsLaplacian (ell rank : Nat) (F : List Int → ℝ → ℂ) (L : List Int → ℂ) (r : ℝ) : Prop :=
  ∃ G : List Int → ℝ → ℂ, (∀ x, 0 < x → IsGradient ell rank F (fun τ => G τ x) x) ∧ IsDivergence ell rank G L r

end Dedalus.Regularity.Spec
