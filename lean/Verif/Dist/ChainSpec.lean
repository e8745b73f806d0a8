import Verif.Dist.Chain

/-!
# Specification vocabulary for the layout chain (C02)
-/

namespace Dedalus.Dist

/-- Number of distributed (non-local) axes. -/
def nonlocalCount (loc : List Bool) : Nat := loc.count false

/-- What one step of the chain must do, in plain terms.
* transform on axis `d`: the axis is local, it goes from coefficient to grid space, every other
  flag is unchanged, later axes are already in grid space and earlier axes are not;
* transpose on axis `d`: axis `d` is distributed and in coefficient space, axis `d+1` exists, is
  local and already in grid space; the two exchange roles; nothing else changes. -/
def StepOK (l l' : Lay) (p : Path) : Prop :=
  match p.kind with
  | .transform =>
      l.loc[p.axis]? = some true ∧ l.grid[p.axis]? = some false ∧
      l'.loc = l.loc ∧ l'.grid = l.grid.set p.axis true ∧
      (∀ a, a < p.axis → l.grid[a]? = some false) ∧
      (∀ a, p.axis < a → a < l.grid.length → l.grid[a]? = some true)
  | .transpose =>
      l.loc[p.axis]? = some false ∧ l.loc[p.axis + 1]? = some true ∧
      l.grid[p.axis]? = some false ∧ l.grid[p.axis + 1]? = some true ∧
      l'.grid = l.grid ∧
      l'.loc[p.axis]? = some true ∧ l'.loc[p.axis + 1]? = some false ∧
      l'.loc.length = l.loc.length ∧
      (∀ a, a ≠ p.axis → a ≠ p.axis + 1 → l'.loc[a]? = l.loc[a]?)

end Dedalus.Dist
