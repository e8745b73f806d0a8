import Mathlib.Analysis.SpecialFunctions.Gamma.Basic
import Mathlib.Analysis.SpecialFunctions.Sqrt
import Mathlib.Analysis.SpecialFunctions.Pow.Real

/-!
# Jacobi polynomials

Textbook definitions: the hypergeometric formula for the classical polynomials and the formula for their norms.
-/

namespace Dedalus.Jacobi.Spec

/-- `x (x + 1) ⋯ (x + k - 1)` -/
noncomputable def poch (x : ℝ) (k : Nat) : ℝ := ∏ i ∈ Finset.range k, (x + i)

/-- The coefficient of `((z - 1) / 2) ^ k` in the polynomial of degree `n`. -/
noncomputable def coef (n k : Nat) (a b : ℝ) : ℝ :=
  if k ≤ n then poch (n + a + b + 1) k * poch (a + k + 1) (n - k) / (k.factorial * (n - k).factorial) else 0

/-- The classical Jacobi polynomial. -/
noncomputable def P (n : Nat) (a b z : ℝ) : ℝ := ∑ k ∈ Finset.range (n + 1), coef n k a b * ((z - 1) / 2) ^ k

/-- `(2 n + a + b + 1) / (n + a + b + 1)`, continued by `1` to `n = 0`. -/
noncomputable def weight (n : Nat) (a b : ℝ) : ℝ := if n = 0 then 1 else (2 * n + a + b + 1) / (n + a + b + 1)

/-- The squared norm `∫ (1 - z)^a (1 + z)^b P_n(z)^2 dz`. -/
noncomputable def norm2 (n : Nat) (a b : ℝ) : ℝ :=
  (2 : ℝ) ^ (a + b + 1) * (Real.Gamma (n + a + 1) * Real.Gamma (n + b + 1)) /
    (weight n a b * Real.Gamma (n + a + b + 2) * n.factorial)

/-- The polynomials of unit norm. -/
noncomputable def Q (n : Nat) (a b z : ℝ) : ℝ := P n a b z / √(norm2 n a b)

/-- The polynomial with `N` coefficients `c`. -/
noncomputable def series (N : Nat) (c : Nat → ℝ) (a b z : ℝ) : ℝ := ∑ k ∈ Finset.range N, c k * Q k a b z

/-- The point of `[-1, 1]` that corresponds to a point of `[left, right]`. -/
noncomputable def native (left right x : ℝ) : ℝ := 2 * (x - left) / (right - left) - 1

/-- The interval `[left, right]` and the points a user may name. -/
inductive Named : String → ℝ → ℝ → ℝ → Prop
  | left (l r : ℝ) : Named "left" l r l
  | lower (l r : ℝ) : Named "lower" l r l
  | right (l r : ℝ) : Named "right" l r r
  | upper (l r : ℝ) : Named "upper" l r r
  | center (l r : ℝ) : Named "center" l r ((l + r) / 2)
  | middle (l r : ℝ) : Named "middle" l r ((l + r) / 2)

end Dedalus.Jacobi.Spec
