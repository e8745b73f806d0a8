import Verif.Step.Coeffs
import Mathlib.Algebra.Polynomial.Derivative

/-!
# Specification: order of a multistep IMEX formula

`M.dt(X) + L.X = F` is discretised as `Σ a_j M.X(t_j) + Σ b_j L.X(t_j) = Σ c_j F(t_j)` where
`t_0` is the new time, `t_1` the current time, `t_2` the one before and so on
(timesteppers.py L38-58, the class docstring).
-/

namespace Dedalus.Step

variable {F : Type} [Field F]

/-- Times before `t`, given the previous timesteps, latest first. -/
def timesBefore (t : F) : List F → List F
  | [] => []
  | k :: ks => (t - k) :: timesBefore (t - k) ks

/-- Sample times: new time, current time, previous times. -/
def sampleTimes (t : F) : List F → List F
  | [] => [t]
  | k :: ks => (t + k) :: t :: timesBefore t ks

/-- Weighted sum `Σ_j w_j f(t_j)`. -/
def wsum (w : List F) (f : F → F) (ts : List F) : F := (List.zipWith (fun w t => w * f t) w ts).sum

/-- The formula `(a, b, c)` is consistent to order `p` at the times `ts`: for every polynomial `y` in
time of degree at most `p`, the derivative combination of `y` equals the implicit combination and
the explicit combination of `y'`. With this, `Σ a_j y(t_j) + Σ b_j l(t_j) - Σ c_j f(t_j)`
vanishes whenever `y' = f - l` and `l`, `f` have degree below `p`. The weights are normalised, the
newest force is not used, and there are no more weights than sample times. -/
structure HasOrder (p : Nat) (co : Coeffs F) (ts : List F) : Prop where
  implicit : ∀ y : Polynomial F, y.natDegree ≤ p →
    wsum co.a (fun t => y.eval t) ts = wsum co.b (fun t => y.derivative.eval t) ts
  explicit : ∀ y : Polynomial F, y.natDegree ≤ p →
    wsum co.a (fun t => y.eval t) ts = wsum co.c (fun t => y.derivative.eval t) ts
  normal : co.b.sum = 1
  forward : co.c.head? = some 0
  lengthA : co.a.length ≤ ts.length
  lengthB : co.b.length ≤ ts.length
  lengthC : co.c.length ≤ ts.length

end Dedalus.Step
