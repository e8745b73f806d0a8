import Verif.Jacobi.Spec
import Mathlib.Analysis.SpecialFunctions.Trigonometric.Basic
import Mathlib.Analysis.Calculus.Deriv.Basic
import Mathlib.Analysis.Complex.RealDeriv
import Mathlib.Order.Interval.Finset.Nat
import Mathlib.MeasureTheory.Integral.IntervalIntegral.Basic

/-!
# Spin-weighted harmonics and differential operators on the unit sphere

Functions of order `m` and spin weight `s` are written `F(θ) exp(i m φ)`.
-/

namespace Dedalus.Sphere.Spec

/-- The spin-weighted spherical harmonic of degree `l ≥ max(|m|, |s|)` without the factor `exp(i m φ)`, at `z = cos θ`, with
unit norm on `[-1, 1]`. -/
noncomputable def Y (l : Nat) (m s : Int) (z : ℝ) : ℝ :=
  (-1) ^ (max m (-s)) * √((1 - z) ^ (m + s).natAbs * (1 + z) ^ (m - s).natAbs) *
    Jacobi.Spec.Q (l - max m.natAbs s.natAbs) (m + s).natAbs (m - s).natAbs z

/-- The function of `θ` with coefficients `c l` of the harmonics of degrees `l = max(|m|, |s|), ..., Lmax`. -/
noncomputable def field (Lmax : Nat) (m s : Int) (c : Nat → ℂ) (θ : ℝ) : ℂ :=
  ∑ l ∈ Finset.Ico (max m.natAbs s.natAbs) (Lmax + 1), (Y l m s (Real.cos θ) : ℂ) * c l

/-- `G` is the `±` component at `θ` of the covariant derivative on the unit sphere of a component `F` of spin weight `s` and
order `m`: the derivative along `(e_θ ± i e_φ) / √2`, which has spin weight `s ± 1`. -/
def HasSpinDeriv (mu : Int) (m s : Int) (F : ℝ → ℂ) (G : ℂ) (θ : ℝ) : Prop :=
  ∃ F', HasDerivAt F F' θ ∧ G = (F' - ((mu * (m + s * Real.cos θ) / Real.sin θ : ℝ) : ℂ) * F θ) / (√2 : ℝ)

/-- The coefficient of the harmonic of degree `l'` and spin weight `sA + sN` in the product of the axisymmetric harmonic of degree
`n` and spin weight `sN` and the harmonic of degree `l`, order `m` and spin weight `sA`. -/
noncomputable def coupling (n l l' : Nat) (m sA sN : Int) : ℝ := ∫ z in (-1 : ℝ)..1, Y n 0 sN z * Y l m sA z * Y l' m (sA + sN) z

/-- The entry for degrees `l'` and `l` of the multiplication by the axisymmetric field with coefficients `c`, of which those at
most the cutoff are dropped, followed by the projection on the degrees up to `Lmax`. Degrees below the spin weight are not there. -/
noncomputable def product {K : Type} [RCLike K] (Lmax : Nat) (m sA sN : Int) (c : Nat → K) (cutoff : ℝ) (l' l : Nat) : K :=
  if sA.natAbs ≤ l ∧ (sA + sN).natAbs ≤ l' then
    ∑ n ∈ Finset.Ico sN.natAbs (Lmax + 1), (if ‖c n‖ > cutoff then c n else 0) * ((coupling n l l' m sA sN : ℝ) : K)
  else 0

/-- The position in memory of column `j` of row `i` among the columns of this row that belong to the same order. -/
def position (group : Nat → Nat → Int × Int) (i j : Nat) : Nat := ((List.range j).filter fun t => (group i t).1 = (group i j).1).length

/-- Real data store the real and the imaginary part of the coefficient of `exp(i m φ)`, parts 0 and 1. Multiplication by the
field with coefficients `c + i s` takes the parts `(x, y)` to `(c x - s y, s x + c y)`. -/
noncomputable def productParts (Lmax : Nat) (m sA sN : Int) (c s : Nat → ℝ) (cutoff : ℝ) (part' l' part l : Nat) : ℝ :=
  if part' = part then product Lmax m sA sN c cutoff l' l
  else if part' = 0 then -product Lmax m sA sN s cutoff l' l
  else product Lmax m sA sN s cutoff l' l

end Dedalus.Sphere.Spec
