import Verif.Maps.Model

namespace Dedalus.Maps

/-- The degrees of the entries that reach a slot, in the order in which they are visited. -/
def visits (maps : List Entry) (i j : Nat) : List Int := (maps.filter (·.covers i j)).map (·.ell)

/-- Every slot of a local array of `R` rows and `C` columns is visited exactly once, with its own degree, and nothing
outside the array is visited. `ell i j` is the degree of the local slot. -/
def Partition (maps : List Entry) (ell : Nat → Nat → Int) (R C : Nat) : Prop :=
  (∀ i j, i < R → j < C → visits maps i j = [ell i j]) ∧ ∀ e ∈ maps, e.rows.2 ≤ R ∧ e.cols.2 ≤ C

end Dedalus.Maps
