import Verif.Conditions.Model
import Verif.Field.Spec

/-!
# Specification vocabulary for the conditions of operators (C110)
-/

namespace Dedalus.Conditions

open Dedalus.Dist Dedalus.Field

variable {Dat V : Type}

/-- In layout `l`, the axis `a` is in grid space. -/
def OnGrid (W : World Dat) (l a : Nat) : Prop := ∃ lay, W.lays[l]? = some lay ∧ lay.grid[a]? = some true
/-- In layout `l`, the axis `a` is in coefficient space. -/
def InCoeff (W : World Dat) (l a : Nat) : Prop := ∃ lay, W.lays[l]? = some lay ∧ lay.grid[a]? = some false
/-- In layout `l`, all data along the axis `a` are on the same process. -/
def Local (W : World Dat) (l a : Nat) : Prop := ∃ lay, W.lays[l]? = some lay ∧ lay.loc[a]? = some true

/-- What the operators need: pointwise operations need the grid along all axes; operations between fields need the same layout;
matrices along an axis need coefficients along the axis, and all of them on one process unless modes are uncoupled. -/
def Ready (W : World Dat) (k : Kind) (ls : List Nat) : Prop :=
  match k with
  | .free => True
  | .grid | .gridLayout => ∀ l, ls.head? = some l → ∀ a, a < W.D → OnGrid W l a
  | .product => (∀ l ∈ ls, ∀ a, a < W.D → OnGrid W l a) ∧ ∀ l ∈ ls, ∀ l' ∈ ls, l = l'
  | .sum | .gradient => ∀ l ∈ ls, ∀ l' ∈ ls, l = l'
  | .function k => ∀ l ∈ ls, l = k
  | .spectral a coupled => ∀ l, ls.head? = some l → InCoeff W l a ∧ (coupled = true → Local W l a)
  | .convert a coupled => ∀ l, ls.head? = some l → OnGrid W l a ∨ (InCoeff W l a ∧ (coupled = true → Local W l a))
  | .convertConstant a one => ∀ l, ls.head? = some l →
      InCoeff W l a ∨ (one = true ∧ OnGrid W l a ∧ Local W l a)
  | .radial a => ∀ l, ls.head? = some l → InCoeff W l a ∧ Local W l a

/-- Operators as they are built: the axis and the layout exist, and there are as many arguments as the operator takes. -/
def WellFormed (W : World Dat) (k : Kind) (args : List Nat) : Prop :=
  match k with
  | .product => args.length = 2
  | .function l => l < W.lays.length
  | .spectral a _ | .convert a _ | .convertConstant a _ | .radial a => a < W.D ∧ args ≠ []
  | _ => args ≠ []

/-- The fields hold the values `v i`, at scales that lose no mode. -/
def AllHold (W : World Dat) (rep : Nat → V → Nat → List ℚ → Dat) (trunc : Nat → Nat → ℚ → V → V) (v : Nat → V) (h : Heap Dat) : Prop :=
  ∀ i, Holds (W.env i) (rep i) (v i) (h i) ∧ Lossless (trunc i) (h i).scales

/-- Transforms are sound for every field, and the layouts form a chain. -/
def Works (W : World Dat) (rep : Nat → V → Nat → List ℚ → Dat) (trunc : Nat → Nat → ℚ → V → V) : Prop :=
  ∀ i, Sound (W.env i) (rep i) (trunc i) ∧ IsChain (W.env i)

end Dedalus.Conditions
