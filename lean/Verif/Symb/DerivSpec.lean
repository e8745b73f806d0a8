import Mathlib.Analysis.SpecialFunctions.Pow.Real
import Mathlib.Analysis.SpecialFunctions.Arcosh
import Mathlib.Analysis.SpecialFunctions.Artanh
import Mathlib.Analysis.SpecialFunctions.Arsinh
import Mathlib.Analysis.SpecialFunctions.Trigonometric.Inverse
import Mathlib.Analysis.SpecialFunctions.Trigonometric.Arctan
import Mathlib.MeasureTheory.Integral.IntervalIntegral.Basic
import Verif.Symb.Spec

/-!
# Real elementary functions

The functions the keys of `UnaryGridFunction.ufunc_derivatives` stand for, on real numbers, and the
open sets where they are differentiable.
-/

namespace Dedalus.Symb

open Real

noncomputable instance : Consts ℝ where
  ln2 := Real.log 2
  ln10 := Real.log 10
  rsqrtPi := Real.pi ^ (-1 / 2 : ℝ)

/-- The error function. -/
noncomputable def erf (x : ℝ) : ℝ := 2 / √π * ∫ t in (0 : ℝ)..x, Real.exp (-t ^ 2)

/-- The real functions. -/
noncomputable def realFn : UF → ℝ → ℝ
  | .absolute, x => |x|
  | .sign, x => (SignType.sign x : ℝ)
  | .exp, x => Real.exp x
  | .exp2, x => 2 ^ x
  | .log, x => Real.log x
  | .log2, x => Real.log x / Real.log 2
  | .log10, x => Real.log x / Real.log 10
  | .sqrt, x => √x
  | .square, x => x * x
  | .sin, x => Real.sin x
  | .cos, x => Real.cos x
  | .tan, x => Real.tan x
  | .arcsin, x => Real.arcsin x
  | .arccos, x => Real.arccos x
  | .arctan, x => Real.arctan x
  | .sinh, x => Real.sinh x
  | .cosh, x => Real.cosh x
  | .tanh, x => Real.tanh x
  | .arcsinh, x => Real.arsinh x
  | .arccosh, x => Real.arcosh x
  | .arctanh, x => Real.artanh x
  | .erf, x => erf x
  | .user _, _ => 0

/-- Where the functions are defined (as NumPy functions of real arguments) and differentiable. -/
def fnDom : UF → ℝ → Prop
  | .absolute, x => x ≠ 0
  | .sign, x => x ≠ 0
  | .log, x => 0 < x
  | .log2, x => 0 < x
  | .log10, x => 0 < x
  | .sqrt, x => 0 < x
  | .tan, x => Real.cos x ≠ 0
  | .arcsin, x => -1 < x ∧ x < 1
  | .arccos, x => -1 < x ∧ x < 1
  | .arccosh, x => 1 < x
  | .arctanh, x => -1 < x ∧ x < 1
  | _, _ => True

/-- Where `b ** k` is defined and differentiable in `b`. -/
def powDom (b k : ℝ) : Prop := 0 < b ∨ ((∃ m : ℤ, k = m) ∧ (b ≠ 0 ∨ 1 ≤ k))

/-- Interpretations with the true elementary functions and powers. -/
def Analytic {X : Type} (S : Sem ℝ X) : Prop :=
  (∀ f, (∀ n, f ≠ .user n) → S.un f = realFn f) ∧ ∀ b k, S.pw b k = b ^ k

/-- Every function and power in the tree is applied inside its domain, when the fields have the values
`env`. -/
def InDomain {X : Type} (S : Sem ℝ X) (env : Nat → X → ℝ) : Expr ℝ → Prop
  | .add a b => InDomain S env a ∧ InDomain S env b
  | .prod _ a b => InDomain S env a ∧ InDomain S env b
  | .lin _ a => InDomain S env a
  | .un f a => InDomain S env a ∧ ∀ x, fnDom f (eval S env a x)
  | .pow a k => InDomain S env a ∧ ∀ x, powDom (eval S env a x) k
  | _ => True

/-- Every function and power in the tree is applied to a scalar. -/
def ScalarFns {K : Type} : Expr K → Prop
  | .add a b => ScalarFns a ∧ ScalarFns b
  | .prod _ a b => ScalarFns a ∧ ScalarFns b
  | .lin _ a => ScalarFns a
  | .un _ a => ScalarFns a ∧ a.sig = []
  | .pow a _ => ScalarFns a ∧ a.sig = []
  | _ => True

end Dedalus.Symb
