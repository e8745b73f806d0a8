import Verif.Step.RK
import Mathlib.Algebra.BigOperators.Fin

/-!
# Specification: order conditions of an additive (IMEX) Runge-Kutta tableau

The stage values are `X_i` with `M X_i - M X_0 + k Σ_{j≤i} H_ij L X_j = k Σ_{j<i} A_ij F_j` and the last
stage is the new solution (timesteppers.py L509-527), so the weights are the last rows. The
classical conditions for a two-part additive scheme with parts `E` (explicit) and `I` (implicit)
are those of all rooted trees of at most `p` vertices, each vertex coloured by `E` or `I`.
-/

namespace Dedalus.Step
variable {F : Type} [Field F]

/-- The two parts of the scheme. -/
inductive Part | E | I
deriving DecidableEq

/-- Coefficients of a part. -/
def Tableau.mat {s : Nat} (T : Tableau F s) : Part → Fin (s + 1) → Fin (s + 1) → F
  | .E => T.A
  | .I => T.H

/-- Shape: `A` strictly lower triangular, `H` lower triangular, starts at 0, ends at 1, and stage
times are the row sums of both parts. -/
structure Tableau.Consistent {s : Nat} (T : Tableau F s) : Prop where
  explicit : ∀ i j, i ≤ j → T.A i j = 0
  implicit : ∀ i j, i < j → T.H i j = 0
  start : T.c 0 = 0
  finish : T.c (Fin.last s) = 1
  rows : ∀ X i, ∑ j, T.mat X i j = T.c i

/-- First order, for the part `X`. -/
def Tableau.Order1 {s : Nat} (T : Tableau F s) (X : Part) : Prop :=
  ∑ i, T.mat X (Fin.last s) i = 1

/-- Second order, tree with root `X` and child `Y`. -/
def Tableau.Order2 {s : Nat} (T : Tableau F s) (X Y : Part) : Prop :=
  ∑ i, T.mat X (Fin.last s) i * (∑ j, T.mat Y i j) = 1 / 2

/-- Third order: the tree with root `X` and two children, and the tree `X - Y - Z`. -/
def Tableau.Order3 {s : Nat} (T : Tableau F s) (X Y Z : Part) : Prop :=
  ∑ i, T.mat X (Fin.last s) i * ((∑ j, T.mat Y i j) * (∑ j, T.mat Z i j)) = 1 / 3 ∧
  ∑ i, T.mat X (Fin.last s) i * (∑ j, T.mat Y i j * (∑ l, T.mat Z j l)) = 1 / 6

/-- Order conditions up to `p ≤ 3` including all coupling conditions. -/
def Tableau.HasOrder {s : Nat} (T : Tableau F s) (p : Nat) : Prop :=
  (1 ≤ p → ∀ X, T.Order1 X) ∧ (2 ≤ p → ∀ X Y, T.Order2 X Y) ∧ (3 ≤ p → ∀ X Y Z, T.Order3 X Y Z)

end Dedalus.Step
