import Mathlib.Analysis.RCLike.Basic

/-!
# Cutoff of the coefficients
-/

namespace Dedalus.Zncc.Spec

/-- The coefficients of a function after those whose magnitude is not above the cutoff are set to zero. -/
noncomputable def above {K : Type} [RCLike K] (cutoff : ℝ) (c : Nat → K) (n : Nat) : K := if ‖c n‖ > cutoff then c n else 0

end Dedalus.Zncc.Spec
