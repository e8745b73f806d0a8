import Verif.Spin.Props

/-! The Hermitian part of the coefficients of a tensor field. -/

namespace Dedalus.Hermitian.Spec

/-- The index of the opposite spin: the positions of the azimuth and of the other coordinate of the basis are exchanged, all other positions stay. -/
def opposite (coord0 coord1 : Spin.Coord) (ix : Spin.Index) (x : Nat) : Nat :=
  match Spin.indexOf coord0 ix.coords, Spin.indexOf coord1 ix.coords with
  | some p, some q => if x = p then q else if x = q then p else x
  | _, _ => x

/-- The component with all spins reversed. -/
def partner (coord0 coord1 : Spin.Coord) (sig : List Spin.Index) (t : List Nat) : List Nat := List.zipWith (opposite coord0 coord1) sig t

/-- `(-1)^s`. -/
def sign (s : Int) : ℝ := if s % 2 = 0 then 1 else -1

/-- The part of the coefficients of order zero that belongs to a real field, for coefficients in pairs of rows (real parts in even rows, imaginary parts in
odd ones): `(a_t + e conj a_t') / 2` for a component `t` and its partner `t'`, and a sign `e` that depends on the functions that are multiplied. -/
noncomputable def hermitian (coord0 coord1 : Spin.Coord) (sig : List Spin.Index) (e : ℝ) (c : List Nat → Nat → ℝ) (t : List Nat) (row : Nat) : ℝ :=
  if row % 2 = 0 then (c t row + e * c (partner coord0 coord1 sig t) row) / 2 else (c t row - e * c (partner coord0 coord1 sig t) row) / 2

end Dedalus.Hermitian.Spec
