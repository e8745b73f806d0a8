import Mathlib.Algebra.Order.Field.Basic

/-!
# Specification of stopping (C29)
-/

namespace Dedalus.Solver

variable {F : Type} [Field F] [LinearOrder F]

/-- Some stop criterion is met at time `t`, wall time `wall` and iteration `it`; a criterion that is
not set is `none`. -/
def StopMet (stopSim stopWall : Option F) (stopIter : Option Nat) (t wall : F) (it : Nat) : Prop :=
  (∃ T, stopSim = some T ∧ T ≤ t) ∨ (∃ T, stopWall = some T ∧ T ≤ wall) ∨ (∃ n, stopIter = some n ∧ n ≤ it)

end Dedalus.Solver
